import Verif.Model.Ipv6
import Verif.Props.Net
import Mathlib.Tactic.IntervalCases

/-
C121: the clues of IPv6 addresses.
-/

set_option linter.unusedSectionVars false

namespace Sb.Props
open Py Py.Text Sb.Mail Sb.Net

theorem hexDigit_inj {a b : Nat} (ha : a < 16) (hb : b < 16) (h : hexDigit a = hexDigit b) : a = b := by
  unfold hexDigit at h
  split at h <;> split at h <;> omega

theorem hexUpTo_ne (f n : Nat) : hexUpTo f n ≠ [] := by
  cases f with
  | zero => simp [hexUpTo]
  | succ f => simp only [hexUpTo]; split <;> simp

theorem hexUpTo_inj : ∀ (f a b : Nat), a < 16 ^ (f + 1) → b < 16 ^ (f + 1) → hexUpTo f a = hexUpTo f b → a = b := by
  intro f
  induction f with
  | zero =>
    intro a b ha hb h
    simp only [hexUpTo, List.cons.injEq, and_true] at h
    exact hexDigit_inj (by simpa using ha) (by simpa using hb) h
  | succ f ih =>
    intro a b ha hb h
    have hp : 16 ^ (f + 1 + 1) = 16 ^ (f + 1) * 16 := by rw [Nat.pow_succ]
    simp only [hexUpTo] at h
    by_cases h1 : a < 16 <;> by_cases h2 : b < 16
    · rw [if_pos h1, if_pos h2] at h
      simp only [List.cons.injEq, and_true] at h
      exact hexDigit_inj h1 h2 h
    · rw [if_pos h1, if_neg h2] at h
      have := congrArg List.length h
      have h3 := List.length_pos_iff.2 (hexUpTo_ne f (b / 16))
      simp only [List.length_append, List.length_singleton] at this; omega
    · rw [if_neg h1, if_pos h2] at h
      have := congrArg List.length h
      have h3 := List.length_pos_iff.2 (hexUpTo_ne f (a / 16))
      simp only [List.length_append, List.length_singleton] at this; omega
    · rw [if_neg h1, if_neg h2] at h
      obtain ⟨h3, h4⟩ := List.append_inj' h rfl
      simp only [List.cons.injEq, and_true] at h4
      have e1 := hexDigit_inj (Nat.mod_lt _ (by omega)) (Nat.mod_lt _ (by omega)) h4
      have e2 := ih (a / 16) (b / 16) (by omega) (by omega) h3
      omega

theorem hexUpTo_range : ∀ (f n : Nat), n < 16 ^ (f + 1) → ∀ c ∈ hexUpTo f n, (48 ≤ c ∧ c ≤ 57) ∨ (97 ≤ c ∧ c ≤ 102) := by
  have hd : ∀ d, d < 16 → (48 ≤ hexDigit d ∧ hexDigit d ≤ 57) ∨ (97 ≤ hexDigit d ∧ hexDigit d ≤ 102) := by
    intro d hd; unfold hexDigit; split <;> omega
  intro f
  induction f with
  | zero =>
    intro n hn c hc
    simp only [hexUpTo, List.mem_singleton] at hc
    rw [hc]; exact hd n (by simpa using hn)
  | succ f ih =>
    intro n hn c hc
    have hp : 16 ^ (f + 1 + 1) = 16 ^ (f + 1) * 16 := by rw [Nat.pow_succ]
    simp only [hexUpTo] at hc
    split at hc
    · rename_i h
      simp only [List.mem_singleton] at hc
      rw [hc]; exact hd n h
    · rcases List.mem_append.1 hc with hc | hc
      · exact ih _ (by omega) c hc
      · simp only [List.mem_singleton] at hc
        rw [hc]; exact hd _ (Nat.mod_lt _ (by omega))

theorem hexOf_zero_iff {n : Nat} (hn : n < 65536) : hexOf n = [48] ↔ n = 0 := by
  constructor
  · intro h
    exact hexUpTo_inj 3 n 0 (by omega) (by omega) (h.trans (by decide))
  · rintro rfl; decide

theorem hex_no_colon {n : Nat} (hn : n < 65536) : 58 ∉ hexOf n := by
  intro h
  have := hexUpTo_range 3 n (by omega) 58 h
  omega

theorem hex_no_slash {n : Nat} (hn : n < 65536) : 47 ∉ hexOf n := by
  intro h
  have := hexUpTo_range 3 n (by omega) 47 h
  omega

/-- The items of an address that is zero after its first 32 bits. -/
theorem compress_short {x y : Txt} :
    compress [x, y, [48], [48], [48], [48], [48], [48]] =
      if y = [48] then (if x = [48] then [[], [], []] else [x, [], []]) else [x, y, [], []] := by
  by_cases hy : y = [48]
  · subst hy
    by_cases hx : x = [48]
    · subst hx; decide
    · simp [compress, Zeros.loop, Zeros.round, hx]
  · by_cases hx : x = [48]
    · subst hx
      simp [compress, Zeros.loop, Zeros.round, hy]
    · simp [compress, Zeros.loop, Zeros.round, hx, hy]

/-- The text of such an address. -/
def shortText (x y : Nat) : Txt :=
  if y = 0 then (if x = 0 then txt "::" else hexOf x ++ txt "::") else hexOf x ++ txt ":" ++ hexOf y ++ txt "::"

theorem showAddr6_short (a : Addr6) (h : a.toNat % 2 ^ 96 = 0) :
    showAddr6 a = shortText (hextet a 0) (hextet a 1) := by
  have z : ∀ k, 2 ≤ k → k < 8 → hextet a k = 0 := by
    intro k h2 h8
    unfold hextet
    interval_cases k <;> omega
  have r : (List.range 8).map (fun k => hexOf (hextet a k)) =
      [hexOf (hextet a 0), hexOf (hextet a 1), [48], [48], [48], [48], [48], [48]] := by
    have hz : hexOf 0 = [48] := by decide
    simp [List.range_succ, z 2, z 3, z 4, z 5, z 6, z 7, hz]
  have l0 : hextet a 0 < 65536 := Nat.mod_lt _ (by omega)
  have l1 : hextet a 1 < 65536 := Nat.mod_lt _ (by omega)
  unfold showAddr6
  rw [r, compress_short]
  have t1 : txt "::" = [58, 58] := by decide
  have t2 : txt ":" = [58] := by decide
  simp only [hexOf_zero_iff l0, hexOf_zero_iff l1, shortText, t1, t2]
  split
  · split
    · rfl
    · simp [joinWith]
  · simp [joinWith]

theorem splitOn_shortText {x y : Nat} (hx : x < 65536) (hy : y < 65536) : splitOn 58 (shortText x y) =
    if y = 0 then (if x = 0 then [[], [], []] else [hexOf x, [], []]) else [hexOf x, hexOf y, [], []] := by
  have e : shortText x y = joinWith 58
      (if y = 0 then (if x = 0 then [[], [], []] else [hexOf x, [], []]) else [hexOf x, hexOf y, [], []]) := by
    have t1 : txt "::" = [58, 58] := by decide
    have t2 : txt ":" = [58] := by decide
    unfold shortText
    rw [t1, t2]
    split
    · split
      · rfl
      · simp [joinWith]
    · simp [joinWith]
  rw [e, splitOn_joinWith]
  · split
    · split <;> simp
    · simp
  · have c1 := hex_no_colon hx
    have c2 := hex_no_colon hy
    intro p hp
    split at hp
    · split at hp
      · simp at hp; simp [hp]
      · simp at hp
        rcases hp with rfl | rfl
        · exact c1
        · simp
    · simp at hp
      rcases hp with rfl | rfl | rfl
      · exact c1
      · exact c2
      · simp

theorem shortText_inj {x y x' y' : Nat} (hx : x < 65536) (hy : y < 65536) (hx' : x' < 65536) (hy' : y' < 65536)
    (h : shortText x y = shortText x' y') : x = x' ∧ y = y' := by
  have h2 := congrArg (splitOn 58) h
  rw [splitOn_shortText hx hy, splitOn_shortText hx' hy'] at h2
  have n1 := hexUpTo_ne 3 x
  have n2 := hexUpTo_ne 3 x'
  by_cases e1 : y = 0 <;> by_cases e2 : y' = 0
  · rw [if_pos e1, if_pos e2] at h2
    refine ⟨?_, e1.trans e2.symm⟩
    by_cases e3 : x = 0 <;> by_cases e4 : x' = 0
    · omega
    · rw [if_pos e3, if_neg e4] at h2
      exact absurd (List.cons.inj h2).1.symm n2
    · rw [if_neg e3, if_pos e4] at h2
      exact absurd (List.cons.inj h2).1 n1
    · rw [if_neg e3, if_neg e4] at h2
      exact hexUpTo_inj 3 _ _ (by omega) (by omega) (List.cons.inj h2).1
  · rw [if_pos e1, if_neg e2] at h2
    have := congrArg List.length h2
    split at this <;> simp at this
  · rw [if_neg e1, if_pos e2] at h2
    have := congrArg List.length h2
    split at this <;> simp at this
  · rw [if_neg e1, if_neg e2] at h2
    simp only [List.cons.injEq, and_true] at h2
    exact ⟨hexUpTo_inj 3 _ _ (by omega) (by omega) h2.1, hexUpTo_inj 3 _ _ (by omega) (by omega) h2.2⟩

theorem network6_toNat (a : Addr6) (n : Nat) :
    (network6 a n).1.toNat = a.toNat / 2 ^ (128 - n) * 2 ^ (128 - n) := by
  simp only [network6, BitVec.toNat_shiftLeft, BitVec.toNat_ushiftRight, Nat.shiftLeft_eq,
    Nat.shiftRight_eq_div_pow]
  apply Nat.mod_eq_of_lt
  exact Nat.lt_of_le_of_lt (Nat.div_mul_le_self _ _) a.isLt

theorem network6_short (a : Addr6) (n : Nat) (hn : n ≤ 32) : (network6 a n).1.toNat % 2 ^ 96 = 0 := by
  rw [network6_toNat]
  have : 2 ^ (128 - n) = 2 ^ 96 * 2 ^ (32 - n) := by rw [← Nat.pow_add]; congr 1; omega
  apply Nat.mod_eq_zero_of_dvd
  rw [this]
  exact Dvd.dvd.mul_left (Nat.dvd_mul_right _ _) _

theorem showNet6_inj {m n : Addr6 × Nat} (hm : m.1.toNat % 2 ^ 96 = 0) (hn : n.1.toNat % 2 ^ 96 = 0)
    (h : showNet6 m = showNet6 n) : m = n := by
  unfold showNet6 at h
  rw [showAddr6_short _ hm, showAddr6_short _ hn] at h
  have l : ∀ (a : Addr6) k, hextet a k < 65536 := fun a k => Nat.mod_lt _ (by omega)
  have ns : ∀ x y, x < 65536 → y < 65536 → 47 ∉ shortText x y := by
    intro x y hx hy
    have h1 := hex_no_slash hx
    have h2 := hex_no_slash hy
    have t1 : txt "::" = [58, 58] := by decide
    have t2 : txt ":" = [58] := by decide
    unfold shortText
    rw [t1, t2]
    split
    · split <;> simp [h1]
    · simp [h1, h2]
  obtain ⟨h1, h2⟩ := append_sep_inj (ns _ _ (l _ _) (l _ _)) (ns _ _ (l _ _) (l _ _)) h
  obtain ⟨e0, e1⟩ := shortText_inj (l _ _) (l _ _) (l _ _) (l _ _) h1
  refine Prod.ext ?_ (digitsOf_injective h2)
  apply BitVec.eq_of_toNat_eq
  have b1 := m.1.isLt
  have b2 := n.1.isLt
  unfold hextet at e0 e1
  omega

theorem masked6_eq_iff (a b : Addr6) (n : Nat) (hn : n ≤ 128) :
    (network6 a n).1 = (network6 b n).1 ↔ ∀ i, i < n → a.getMsbD i = b.getMsbD i := by
  have hm : ∀ (x : Addr6) i, i < 128 → (network6 x n).1.getLsbD i = (decide (128 - n ≤ i) && x.getLsbD i) := by
    intro x i hi
    simp only [network6, BitVec.getLsbD_shiftLeft, BitVec.getLsbD_ushiftRight]
    by_cases h : i < 128 - n
    · have h2 : ¬ 128 - n ≤ i := by omega
      simp only [h, h2, decide_true, decide_false, Bool.not_true, Bool.and_false, Bool.false_and]
    · have h2 : 128 - n ≤ i := by omega
      simp [h2, hi, Nat.not_lt.2 h2]
  constructor
  · intro h i hi
    have h2 : (network6 a n).1.getLsbD (127 - i) = (network6 b n).1.getLsbD (127 - i) := by rw [h]
    rw [hm _ _ (by omega), hm _ _ (by omega), show decide (128 - n ≤ 127 - i) = true by simp; omega] at h2
    simp only [Bool.true_and] at h2
    simp only [BitVec.getMsbD]
    have h32 : decide (i < 128) = true := by simp; omega
    simp [h32, h2]
  · intro h
    apply BitVec.eq_of_getLsbD_eq
    intro i hi
    rw [hm _ _ hi, hm _ _ hi]
    by_cases hc : 128 - n ≤ i
    · have h2 := h (127 - i) (by omega)
      simp only [BitVec.getMsbD] at h2
      have h3 : decide (127 - i < 128) = true := by simp; omega
      rw [h3, Bool.true_and, Bool.true_and, show 128 - 1 - (127 - i) = i by omega] at h2
      simp [hc, h2]
    · simp [hc]

theorem clue6 (pre : Txt) (x : Addr6) (k : Fin 4) : (genClues6 pre x)[k]? =
    some (pre ++ 58 :: showNet6 (network6 x (8 * (k.val + 1)))) := by
  match k with
  | 0 => rfl
  | 1 => rfl
  | 2 => rfl
  | 3 => rfl

/-- C121: what holds for IPv6.  There are four clues, for 8, 16, 24 and 32 bits; two addresses
have the same clue number i exactly if they agree on the first 8·(i+1) bits. -/
theorem C121_shared_partial (pre : Txt) (a b : Addr6) (i j : Fin 4) :
    (genClues6 pre a).length = 4 ∧
    ((genClues6 pre a)[i]? = (genClues6 pre b)[j]? ↔
      i = j ∧ ∀ k, k < 8 * (i.val + 1) → a.getMsbD k = b.getMsbD k) := by
  refine ⟨rfl, ?_⟩
  rw [clue6, clue6]
  simp only [Option.some.injEq, List.append_cancel_left_eq, List.cons.injEq, true_and]
  constructor
  · intro h
    have h2 := showNet6_inj (network6_short a _ (by omega)) (network6_short b _ (by omega)) h
    have h3 : (8 * (i.val + 1) : Nat) = 8 * (j.val + 1) := congrArg Prod.snd h2
    have hij : i = j := by apply Fin.ext; omega
    subst hij
    exact ⟨rfl, (masked6_eq_iff a b _ (by omega)).1 (congrArg Prod.fst h2)⟩
  · rintro ⟨rfl, h⟩
    have h2 := (masked6_eq_iff a b _ (by omega)).2 h
    rw [show network6 a (8 * (i.val + 1)) = network6 b (8 * (i.val + 1)) from Prod.ext h2 rfl]

/-- C121: the clues of an IPv6 address are those of its first 32 bits.  Whoever has the same
first 32 bits, which is a whole provider, has the same clues. -/
theorem C121_same_provider_partial (pre : Txt) (a b : Addr6) :
    genClues6 pre a = genClues6 pre b ↔ ∀ k, k < 32 → a.getMsbD k = b.getMsbD k := by
  constructor
  · intro h
    have := (C121_shared_partial pre a b 3 3).2.1 (by rw [h])
    exact this.2
  · intro h
    apply List.ext_getElem?
    intro n
    by_cases hn : n < 4
    · exact (C121_shared_partial pre a b ⟨n, hn⟩ ⟨n, hn⟩).2.2 ⟨rfl, fun k hk => h k (by simp at hk; omega)⟩
    · rw [List.getElem?_eq_none (by change 4 ≤ n; omega), List.getElem?_eq_none (by change 4 ≤ n; omega)]

/-- **C121**: the clues tell an address apart from every other. -/
def C121Claim : Prop :=
  ∀ pre : Txt, (∀ a b : Addr, genDottedQuadClues pre a = genDottedQuadClues pre b → a = b) ∧
    ∀ a b : Addr6, genClues6 pre a = genClues6 pre b → a = b

theorem C121_claim_false : ¬ C121Claim := by
  intro h
  have := (h []).2 0#128 1#128 ((C121_same_provider_partial _ _ _).2 (by decide))
  exact absurd this (by decide)

/-- C121: for IPv4 they do. -/
theorem C121_ipv4_partial (pre : Txt) (a b : Addr) (h : genDottedQuadClues pre a = genDottedQuadClues pre b) :
    a = b := by
  have := ((C59_shared pre a b 3 3).1 (by rw [h])).2
  apply BitVec.eq_of_getMsbD_eq
  intro i hi
  exact this i hi

/-- C121: no clue of an IPv4 address is a clue of an IPv6 address. -/
theorem C121_families (pre : Txt) (a : Addr) (b : Addr6) (c : Txt) (h4 : c ∈ genDottedQuadClues pre a) :
    c ∉ genClues6 pre b := by
  intro h6
  obtain ⟨n, _, h4⟩ := List.mem_map.1 h4
  obtain ⟨m, hm, h6⟩ := List.mem_map.1 h6
  have e : showNet n = showNet6 m := by
    have := h4.trans h6.symm
    simpa using this
  have n4 : 58 ∉ showNet n := by
    have hd : ∀ k, 58 ∉ digitsOf k := by
      intro k hk
      have := digitsOf_range k _ hk
      omega
    simp [showNet, showAddr, joinWith, hd]
  apply n4
  rw [e]
  obtain ⟨k, hk, rfl⟩ := List.mem_map.1 hm
  have hk : k ≤ 32 := by simp at hk; omega
  unfold showNet6
  rw [showAddr6_short _ (network6_short b k hk)]
  have t1 : txt "::" = [58, 58] := by decide
  unfold shortText
  rw [t1]
  split
  · split <;> simp
  · simp

/-- The hexadecimal digits of a number. -/
def hexText (n : Nat) : Txt := (Nat.toDigits 16 n).map Char.toNat

/-- The text of an address that is zero after its first two groups of 16 bits. -/
def groups (x y : Nat) : Txt :=
  if y = 0 then (if x = 0 then txt "::" else hexText x ++ txt "::") else hexText x ++ txt ":" ++ hexText y ++ txt "::"

theorem hexDigit_char : ∀ d, d < 16 → hexDigit d = (Nat.digitChar d).toNat := by decide

theorem hexUpTo_eq : ∀ (f n : Nat), n < 16 ^ (f + 1) → hexUpTo f n = hexText n := by
  intro f
  induction f with
  | zero =>
    intro n hn
    have hn : n < 16 := by simpa using hn
    simp only [hexUpTo, hexText]
    rw [Nat.toDigits_of_lt_base hn, hexDigit_char n hn]; rfl
  | succ f ih =>
    intro n hn
    have hp : 16 ^ (f + 1 + 1) = 16 ^ (f + 1) * 16 := by rw [Nat.pow_succ]
    simp only [hexUpTo]
    split
    · rename_i h
      unfold hexText
      rw [Nat.toDigits_of_lt_base h, hexDigit_char n h]; rfl
    · rename_i h
      rw [ih (n / 16) (by omega)]
      unfold hexText
      rw [Nat.toDigits_of_base_le (by omega) (Nat.not_lt.1 h), List.map_append, hexDigit_char _ (Nat.mod_lt _ (by omega))]
      rfl

theorem shortText_eq {x y : Nat} (hx : x < 65536) (hy : y < 65536) : shortText x y = groups x y := by
  unfold shortText groups hexOf
  rw [hexUpTo_eq 3 x (by omega), hexUpTo_eq 3 y (by omega)]

/-- C121: how the clues look, for an address with the groups x, y at its beginning: the groups
in hexadecimal without leading zeros, with the bits that do not count set to zero and a double
colon for the groups of zeros. -/
theorem C121_format (pre : Txt) (x y z : Nat) (hx : x < 65536) (hy : y < 65536) (hz : z < 2 ^ 96) :
    genClues6 pre (BitVec.ofNat 128 (x * 2 ^ 112 + y * 2 ^ 96 + z)) =
      [pre ++ txt ":" ++ groups (x / 256 * 256) 0 ++ txt "/8",
       pre ++ txt ":" ++ groups x 0 ++ txt "/16",
       pre ++ txt ":" ++ groups x (y / 256 * 256) ++ txt "/24",
       pre ++ txt ":" ++ groups x y ++ txt "/32"] := by
  have hlt : x * 2 ^ 112 + y * 2 ^ 96 + z < 2 ^ 128 := by omega
  have key : ∀ n u v, n ≤ 32 → u < 65536 → v < 65536 →
      (x * 2 ^ 112 + y * 2 ^ 96 + z) / 2 ^ (128 - n) * 2 ^ (128 - n) = u * 2 ^ 112 + v * 2 ^ 96 →
      showAddr6 (network6 (BitVec.ofNat 128 (x * 2 ^ 112 + y * 2 ^ 96 + z)) n).1 = groups u v := by
    intro n u v hn hu hv e
    have nt := network6_toNat (BitVec.ofNat 128 (x * 2 ^ 112 + y * 2 ^ 96 + z)) n
    rw [BitVec.toNat_ofNat, Nat.mod_eq_of_lt hlt, e] at nt
    rw [showAddr6_short _ (network6_short _ n hn)]
    have h0 : hextet (network6 (BitVec.ofNat 128 (x * 2 ^ 112 + y * 2 ^ 96 + z)) n).1 0 = u := by
      unfold hextet; rw [nt]; omega
    have h1 : hextet (network6 (BitVec.ofNat 128 (x * 2 ^ 112 + y * 2 ^ 96 + z)) n).1 1 = v := by
      unfold hextet; rw [nt]; omega
    rw [h0, h1, shortText_eq hu hv]
  have hx8 : x / 256 * 256 < 65536 := Nat.lt_of_le_of_lt (Nat.div_mul_le_self x 256) hx
  have hy8 : y / 256 * 256 < 65536 := Nat.lt_of_le_of_lt (Nat.div_mul_le_self y 256) hy
  have k8 := key 8 (x / 256 * 256) 0 (by omega) hx8 (by omega) (by omega)
  have k16 := key 16 x 0 (by omega) hx (by omega) (by omega)
  have k24 := key 24 x (y / 256 * 256) (by omega) hx hy8 (by omega)
  have k32 := key 32 x y (by omega) hx hy (by omega)
  have t0 : txt ":" = [58] := by decide
  have t1 : txt "/8" = [47, 56] := by decide
  have t2 : txt "/16" = [47, 49, 54] := by decide
  have t3 : txt "/24" = [47, 50, 52] := by decide
  have t4 : txt "/32" = [47, 51, 50] := by decide
  have d8 : digitsOf 8 = [56] := by decide
  have d16 : digitsOf 16 = [49, 54] := by decide
  have d24 : digitsOf 24 = [50, 52] := by decide
  have d32 : digitsOf 32 = [51, 50] := by decide
  have e2 : ∀ n, (network6 (BitVec.ofNat 128 (x * 2 ^ 112 + y * 2 ^ 96 + z)) n).2 = n := fun _ => rfl
  simp only [genClues6, subnets6, List.map_cons, List.map_nil, showNet6, k8, k16, k24, k32, e2, t0, t1, t2, t3, t4,
    d8, d16, d24, d32]
  simp

example : genClues6 (txt "foo") (BitVec.ofNat 128 0x20010db8000000010000000000ab0000) =
    [txt "foo:2000::/8", txt "foo:2001::/16", txt "foo:2001:d00::/24", txt "foo:2001:db8::/32"] := by
  decide

end Sb.Props
