import Verif.Model.Net

/-
C57, C59, C60, C61, C71: host names, networks, look-ups.
-/

set_option linter.unusedSectionVars false

namespace Sb.Props
open Py Py.Text Sb.Mail Sb.Net

/-! ### C57: host names -/

theorem lastN_length {α : Type} (l : List α) : lastN l.length l = l := by simp [lastN]

theorem lastN_eq_of_append {α : Type} (a b : List α) : lastN b.length (a ++ b) = b := by
  simp [lastN]

theorem lastN_split {α : Type} (n : Nat) (l : List α) : ∃ a, l = a ++ lastN n l :=
  ⟨l.take (l.length - n), (List.take_append_drop _ _).symm⟩

theorem length_lastN {α : Type} {n : Nat} {l : List α} (h : n ≤ l.length) :
    (lastN n l).length = n := by
  simp [lastN]; omega

/-- A suffix of a name at a label boundary: the name itself, or what follows one of
its dots. -/
def LabelSuffix (host s : Txt) : Prop := s = host ∨ ∃ p, host = p ++ 46 :: s

/-- A prefix of a name at a label boundary. -/
def LabelPrefix (host s : Txt) : Prop := s = host ∨ ∃ q, host = s ++ 46 :: q

theorem labelSuffix_iff (host s : Txt) :
    LabelSuffix host s ↔
      ∃ i, 1 ≤ i ∧ i ≤ (splitOn 46 host).length ∧ s = joinWith 46 (lastN i (splitOn 46 host)) := by
  constructor
  · rintro (rfl | ⟨p, rfl⟩)
    · refine ⟨(splitOn 46 s).length, ?_, Nat.le_refl _, ?_⟩
      · rw [length_splitOn]; omega
      · rw [lastN_length, join_split]
    · refine ⟨(splitOn 46 s).length, ?_, ?_, ?_⟩
      · rw [length_splitOn]; omega
      · rw [splitOn_append_sep]; simp
      · rw [splitOn_append_sep, lastN_eq_of_append, join_split]
  · rintro ⟨i, h1, h2, rfl⟩
    obtain ⟨a, ha⟩ := lastN_split i (splitOn 46 host)
    have hl := length_lastN h2
    have hne : lastN i (splitOn 46 host) ≠ [] := by
      intro h; rw [h] at hl; simp at hl; omega
    by_cases haz : a = []
    · left
      rw [haz, List.nil_append] at ha
      rw [← ha, join_split]
    · right
      refine ⟨joinWith 46 a, ?_⟩
      rw [← joinWith_append haz hne, ← ha, join_split]

theorem joinWith_lastN_lt {l : List Txt} {i j : Nat} (h1 : 1 ≤ i) (hij : i < j) (h2 : j ≤ l.length) :
    (joinWith 46 (lastN i l)).length < (joinWith 46 (lastN j l)).length := by
  have hj : lastN j l = (lastN j l).take (j - i) ++ lastN i l := by
    have h := (List.take_append_drop (j - i) (lastN j l)).symm
    have h3 : (lastN j l).drop (j - i) = lastN i l := by
      simp only [lastN, List.drop_drop]; congr 1; omega
    rwa [h3] at h
  have hi : lastN i l ≠ [] := by
    intro h; have := length_lastN (n := i) (l := l) (by omega); rw [h] at this; simp at this; omega
  have ht : (lastN j l).take (j - i) ≠ [] := by
    intro h
    have h4 := congrArg List.length h
    rw [List.length_take, length_lastN h2] at h4
    simp at h4; omega
  rw [hj, joinWith_append ht hi]
  simp; omega

/-- C57: `breakdown_host` yields exactly the suffixes of the name at label boundaries,
each once and shortest first, and as many as the name has labels. -/
theorem C57_breakdown_host (host : Txt) :
    (∀ s, s ∈ breakdownHost host ↔ LabelSuffix host s) ∧
      (breakdownHost host).Pairwise (fun a b => a.length < b.length) ∧
      (breakdownHost host).length = host.count 46 + 1 := by
  refine ⟨?_, ?_, ?_⟩
  · intro s
    rw [labelSuffix_iff]
    simp only [breakdownHost, List.mem_map, List.mem_range'_1]
    constructor
    · rintro ⟨i, ⟨h1, h2⟩, rfl⟩; exact ⟨i, h1, by omega, rfl⟩
    · rintro ⟨i, h1, h2, rfl⟩; exact ⟨i, ⟨h1, by omega⟩, rfl⟩
  · simp only [breakdownHost]
    rw [List.pairwise_map]
    have := List.pairwise_lt_range' (s := 1) (n := (splitOn 46 host).length)
    refine List.Pairwise.imp_of_mem ?_ this
    intro a b ha hb hab
    rw [List.mem_range'_1] at ha hb
    exact joinWith_lastN_lt ha.1 hab (by omega)
  · simp [breakdownHost, length_splitOn]

/-- C57: the last item is the name itself and the first its last label. -/
theorem C57_breakdown_host_ends (host : Txt) :
    (breakdownHost host).getLast? = some host ∧
      ∃ l, (breakdownHost host).head? = some l ∧ 46 ∉ l ∧ LabelSuffix host l := by
  have hpos : 0 < (splitOn 46 host).length := by rw [length_splitOn]; omega
  obtain ⟨n, hn⟩ : ∃ n, (splitOn 46 host).length = n + 1 := ⟨_, (Nat.succ_pred_eq_of_pos hpos).symm⟩
  constructor
  · simp only [breakdownHost, hn]
    rw [List.range'_concat, List.map_append, List.getLast?_append]
    simp
    rw [Nat.add_comm 1 n, ← hn, lastN_length, join_split]
  · refine ⟨joinWith 46 (lastN 1 (splitOn 46 host)), ?_, ?_, ?_⟩
    · simp only [breakdownHost, hn, List.range'_succ, List.map_cons, List.head?_cons]
    · have hl : (lastN 1 (splitOn 46 host)).length = 1 := length_lastN (by omega)
      obtain ⟨x, hx⟩ := List.length_eq_one_iff.1 hl
      rw [hx]
      refine not_mem_of_mem_splitOn (t := host) (p := x) ?_
      obtain ⟨a, ha⟩ := lastN_split 1 (splitOn 46 host)
      rw [ha, hx]; simp
    · exact (labelSuffix_iff _ _).2 ⟨1, Nat.le_refl _, by omega, rfl⟩

example : breakdownHost (txt "mail.example.org") =
    [txt "org", txt "example.org", txt "mail.example.org"] := by decide

theorem labelPrefix_iff (host s : Txt) :
    LabelPrefix host s ↔
      ∃ i, 1 ≤ i ∧ i ≤ (splitOn 46 host).length ∧ s = joinWith 46 ((splitOn 46 host).take i) := by
  constructor
  · rintro (rfl | ⟨q, rfl⟩)
    · refine ⟨(splitOn 46 s).length, ?_, Nat.le_refl _, ?_⟩
      · rw [length_splitOn]; omega
      · rw [List.take_length, join_split]
    · refine ⟨(splitOn 46 s).length, ?_, ?_, ?_⟩
      · rw [length_splitOn]; omega
      · rw [splitOn_append_sep]; simp
      · rw [splitOn_append_sep, List.take_left', join_split]; rfl
  · rintro ⟨i, h1, h2, rfl⟩
    have hne : (splitOn 46 host).take i ≠ [] := by
      intro h
      have := congrArg List.length h
      rw [List.length_take, List.length_nil] at this
      omega
    by_cases hd : (splitOn 46 host).drop i = []
    · left
      have h := List.take_append_drop i (splitOn 46 host)
      rw [hd, List.append_nil] at h
      rw [h, join_split]
    · right
      refine ⟨joinWith 46 ((splitOn 46 host).drop i), ?_⟩
      rw [← joinWith_append hne hd, List.take_append_drop, join_split]

/-- C57: `breakdown_ipaddr` always yields four items; the i-th is the address up to its
i-th dot, or the whole address if it has fewer dots. -/
theorem C57_breakdown_ipaddr (a : Txt) :
    (breakdownIpaddr a).length = 4 ∧
      ∀ i, (h : i < (breakdownIpaddr a).length) →
        ((a.count 46 ≤ i → (breakdownIpaddr a)[i] = a) ∧
         (i < a.count 46 → ((breakdownIpaddr a)[i]).count 46 = i ∧
            ∃ q, a = (breakdownIpaddr a)[i] ++ 46 :: q)) := by
  refine ⟨rfl, ?_⟩
  intro i h
  have hl := length_splitOn 46 a
  have key : (breakdownIpaddr a)[i] = joinWith 46 ((splitOn 46 a).take (i + 1)) := by
    have h4 : i < 4 := h
    match i, h4 with
    | 0, _ => rfl
    | 1, _ => rfl
    | 2, _ => rfl
    | 3, _ => rfl
  rw [key]
  constructor
  · intro hc
    rw [List.take_of_length_le (by omega), join_split]
  · intro hc
    have hne : (splitOn 46 a).take (i + 1) ≠ [] := by
      intro h
      have := congrArg List.length h
      rw [List.length_take, List.length_nil] at this
      omega
    have hd : (splitOn 46 a).drop (i + 1) ≠ [] := by
      intro h
      have := congrArg List.length h
      rw [List.length_drop, List.length_nil] at this
      omega
    constructor
    · have h5 := length_splitOn 46 (joinWith 46 ((splitOn 46 a).take (i + 1)))
      rw [splitOn_joinWith hne (fun p hp => not_mem_of_mem_splitOn (List.mem_of_mem_take hp)),
        List.length_take] at h5
      omega
    · exact ⟨joinWith 46 ((splitOn 46 a).drop (i + 1)), by
        rw [← joinWith_append hne hd, List.take_append_drop, join_split]⟩

/-- C57: of an address with three dots the four items are its prefixes at label
boundaries. -/
theorem C57_breakdown_quad (a : Txt) (h : a.count 46 = 3) (s : Txt) :
    s ∈ breakdownIpaddr a ↔ LabelPrefix a s := by
  have hl := length_splitOn 46 a
  rw [labelPrefix_iff]
  simp only [breakdownIpaddr, List.mem_map]
  constructor
  · rintro ⟨i, hi, rfl⟩
    refine ⟨i, ?_, ?_, rfl⟩ <;> simp at hi <;> omega
  · rintro ⟨i, h1, h2, rfl⟩
    refine ⟨i, ?_, rfl⟩
    simp; omega

example : breakdownIpaddr (txt "10.0.12.7") =
    [txt "10", txt "10.0", txt "10.0.12", txt "10.0.12.7"] := by decide
example : (txt "10.0.12.7").count 46 = 3 := by decide
example : breakdownIpaddr (txt "1.2") = [txt "1", txt "1.2", txt "1.2", txt "1.2"] := by decide

/-- C57: `top_two` is the name itself if it has at most two labels, and otherwise the
suffix at a label boundary that has two labels. -/
theorem C57_top_two (name : Txt) :
    (name.count 46 ≤ 1 → topTwo name = name) ∧
      (1 < name.count 46 → (topTwo name).count 46 = 1 ∧ ∃ p, name = p ++ 46 :: topTwo name) := by
  have hl := length_splitOn 46 name
  constructor
  · intro h
    have : lastN 2 (splitOn 46 name) = splitOn 46 name := by
      simp only [lastN]; rw [show (splitOn 46 name).length - 2 = 0 by omega]; rfl
    rw [topTwo, this, join_split]
  · intro h
    have h2 : (lastN 2 (splitOn 46 name)).length = 2 := length_lastN (by omega)
    have hne : lastN 2 (splitOn 46 name) ≠ [] := by
      intro h; rw [h] at h2; simp at h2
    obtain ⟨a, ha⟩ := lastN_split 2 (splitOn 46 name)
    have haz : a ≠ [] := by
      rintro rfl
      rw [List.nil_append] at ha
      rw [← ha] at h2; omega
    constructor
    · have h5 := length_splitOn 46 (topTwo name)
      rw [topTwo, splitOn_joinWith hne, h2] at h5
      · rw [topTwo]; omega
      · intro p hp
        exact not_mem_of_mem_splitOn (t := name) (by rw [ha]; exact List.mem_append_right _ hp)
    · exact ⟨joinWith 46 a, by rw [topTwo, ← joinWith_append haz hne, ← ha, join_split]⟩

example : topTwo (txt "www.example.org") = txt "example.org" ∧ topTwo (txt "localhost") = txt "localhost" := by
  decide

/-! ### C59: networks -/

theorem dot_not_mem_digits (n : Nat) : 46 ∉ digitsOf n := by
  intro h
  have := digitsOf_range n _ h
  simp at this

theorem slash_not_mem_digits (n : Nat) : 47 ∉ digitsOf n := by
  intro h
  have := digitsOf_range n _ h
  omega

theorem showAddr_injective {a b : Addr} (h : showAddr a = showAddr b) : a = b := by
  have h2 := congrArg (splitOn 46) h
  unfold showAddr at h2
  rw [splitOn_joinWith (by simp), splitOn_joinWith (by simp)] at h2
  · simp only [List.cons.injEq, and_true] at h2
    obtain ⟨h0, h1, h2, h3⟩ := h2
    have e0 := digitsOf_injective h0
    have e1 := digitsOf_injective h1
    have e2 := digitsOf_injective h2
    have e3 := digitsOf_injective h3
    have ha := a.isLt
    have hb := b.isLt
    apply BitVec.eq_of_toNat_eq
    simp only [octet] at e0 e1 e2 e3
    omega
  all_goals
    intro p hp
    simp only [List.mem_cons, List.not_mem_nil, or_false] at hp
    rcases hp with rfl | rfl | rfl | rfl <;> exact dot_not_mem_digits _

theorem slash_not_mem_showAddr (a : Addr) : 47 ∉ showAddr a := by
  simp only [showAddr, joinWith]
  simp [slash_not_mem_digits]

theorem append_sep_inj {c : Nat} {a b x y : List Nat} (ha : c ∉ a) (hb : c ∉ b)
    (h : a ++ c :: x = b ++ c :: y) : a = b ∧ x = y := by
  induction a generalizing b with
  | nil =>
    cases b with
    | nil => simpa using h
    | cons z b => simp at h; simp [h.1] at hb
  | cons w a ih =>
    cases b with
    | nil => simp at h; simp [h.1] at ha
    | cons z b =>
      simp only [List.cons_append, List.cons.injEq] at h
      simp only [List.mem_cons, not_or] at ha hb
      obtain ⟨h1, h2⟩ := ih ha.2 hb.2 h.2
      exact ⟨by rw [h.1, h1], h2⟩

theorem showNet_injective {m n : Addr × Nat} (h : showNet m = showNet n) : m = n := by
  obtain ⟨h1, h2⟩ := append_sep_inj (slash_not_mem_showAddr _) (slash_not_mem_showAddr _) h
  exact Prod.ext (showAddr_injective h1) (digitsOf_injective h2)

theorem masked_eq_iff (a b : Addr) (n : Nat) (hn : n ≤ 32) :
    (network a n).1 = (network b n).1 ↔ ∀ i, i < n → a.getMsbD i = b.getMsbD i := by
  have hm : ∀ (x : Addr) i, i < 32 → (network x n).1.getLsbD i = (decide (32 - n ≤ i) && x.getLsbD i) := by
    intro x i hi
    simp only [network, BitVec.getLsbD_shiftLeft, BitVec.getLsbD_ushiftRight]
    by_cases h : i < 32 - n
    · have h2 : ¬ 32 - n ≤ i := by omega
      simp only [h, h2, decide_true, decide_false, Bool.not_true, Bool.and_false, Bool.false_and]
    · have h2 : 32 - n ≤ i := by omega
      simp [h2, hi, Nat.not_lt.2 h2]
  constructor
  · intro h i hi
    have h2 : (network a n).1.getLsbD (31 - i) = (network b n).1.getLsbD (31 - i) := by rw [h]
    rw [hm _ _ (by omega), hm _ _ (by omega), show decide (32 - n ≤ 31 - i) = true by simp; omega] at h2
    simp only [Bool.true_and] at h2
    simp only [BitVec.getMsbD]
    have h32 : decide (i < 32) = true := by simp; omega
    simp [h32, h2]
  · intro h
    apply BitVec.eq_of_getLsbD_eq
    intro i hi
    rw [hm _ _ hi, hm _ _ hi]
    by_cases hc : 32 - n ≤ i
    · have h2 := h (31 - i) (by omega)
      simp only [BitVec.getMsbD] at h2
      have h3 : decide (31 - i < 32) = true := by simp; omega
      rw [h3, Bool.true_and, Bool.true_and, show 32 - 1 - (31 - i) = i by omega] at h2
      simp [hc, h2]
    · simp [hc]

theorem network_toNat (a : Addr) (n : Nat) :
    (network a n).1.toNat = a.toNat / 2 ^ (32 - n) * 2 ^ (32 - n) := by
  simp only [network, BitVec.toNat_shiftLeft, BitVec.toNat_ushiftRight, Nat.shiftLeft_eq,
    Nat.shiftRight_eq_div_pow]
  apply Nat.mod_eq_of_lt
  exact Nat.lt_of_le_of_lt (Nat.div_mul_le_self _ _) a.isLt

/-- C59: there are four clues, for 8, 16, 24 and 32 bits; clue number i is the prefix
string, a colon, and the address with the octets after the i-th set to zero, in dotted
decimal, a slash and the number of bits. -/
theorem C59_format (pre : Txt) (o : Fin 4 → Fin 256) (a : Addr)
    (ha : a.toNat = (o 0 * 256 ^ 3 + o 1 * 256 ^ 2 + o 2 * 256 + o 3 : Nat)) :
    genDottedQuadClues pre a =
      [pre ++ txt ":" ++ digitsOf (o 0) ++ txt ".0.0.0/8",
       pre ++ txt ":" ++ digitsOf (o 0) ++ txt "." ++ digitsOf (o 1) ++ txt ".0.0/16",
       pre ++ txt ":" ++ digitsOf (o 0) ++ txt "." ++ digitsOf (o 1) ++ txt "." ++ digitsOf (o 2)
         ++ txt ".0/24",
       pre ++ txt ":" ++ digitsOf (o 0) ++ txt "." ++ digitsOf (o 1) ++ txt "." ++ digitsOf (o 2)
         ++ txt "." ++ digitsOf (o 3) ++ txt "/32"] := by
  have h0 := (o 0).isLt
  have h1 := (o 1).isLt
  have h2 := (o 2).isLt
  have h3 := (o 3).isLt
  have d0 : digitsOf 0 = [48] := by decide
  have d8 : digitsOf 8 = [56] := by decide
  have d16 : digitsOf 16 = [49, 54] := by decide
  have d24 : digitsOf 24 = [50, 52] := by decide
  have d32 : digitsOf 32 = [51, 50] := by decide
  have w0 : showNet (network a 8) = digitsOf (o 0) ++ [46, 48, 46, 48, 46, 48, 47, 56] := by
    have h := network_toNat a 8
    rw [ha] at h
    have n0 : octet (network a 8).1 0 = o 0 := by unfold octet; rw [h]; omega
    have n1 : octet (network a 8).1 1 = 0 := by unfold octet; rw [h]; omega
    have n2 : octet (network a 8).1 2 = 0 := by unfold octet; rw [h]; omega
    have n3 : octet (network a 8).1 3 = 0 := by unfold octet; rw [h]; omega
    have e : (network a 8).2 = 8 := rfl
    rw [showNet, showAddr, n0, n1, n2, n3, e, d0, d8]; simp [joinWith]
  have w1 : showNet (network a 16) =
      digitsOf (o 0) ++ 46 :: digitsOf (o 1) ++ [46, 48, 46, 48, 47, 49, 54] := by
    have h := network_toNat a 16
    rw [ha] at h
    have n0 : octet (network a 16).1 0 = o 0 := by unfold octet; rw [h]; omega
    have n1 : octet (network a 16).1 1 = o 1 := by unfold octet; rw [h]; omega
    have n2 : octet (network a 16).1 2 = 0 := by unfold octet; rw [h]; omega
    have n3 : octet (network a 16).1 3 = 0 := by unfold octet; rw [h]; omega
    have e : (network a 16).2 = 16 := rfl
    rw [showNet, showAddr, n0, n1, n2, n3, e, d0, d16]; simp [joinWith]
  have w2 : showNet (network a 24) =
      digitsOf (o 0) ++ 46 :: digitsOf (o 1) ++ 46 :: digitsOf (o 2) ++ [46, 48, 47, 50, 52] := by
    have h := network_toNat a 24
    rw [ha] at h
    have n0 : octet (network a 24).1 0 = o 0 := by unfold octet; rw [h]; omega
    have n1 : octet (network a 24).1 1 = o 1 := by unfold octet; rw [h]; omega
    have n2 : octet (network a 24).1 2 = o 2 := by unfold octet; rw [h]; omega
    have n3 : octet (network a 24).1 3 = 0 := by unfold octet; rw [h]; omega
    have e : (network a 24).2 = 24 := rfl
    rw [showNet, showAddr, n0, n1, n2, n3, e, d0, d24]; simp [joinWith]
  have w3 : showNet (network a 32) =
      digitsOf (o 0) ++ 46 :: digitsOf (o 1) ++ 46 :: digitsOf (o 2) ++ 46 :: digitsOf (o 3)
        ++ [47, 51, 50] := by
    have h := network_toNat a 32
    rw [ha] at h
    have n0 : octet (network a 32).1 0 = o 0 := by unfold octet; rw [h]; omega
    have n1 : octet (network a 32).1 1 = o 1 := by unfold octet; rw [h]; omega
    have n2 : octet (network a 32).1 2 = o 2 := by unfold octet; rw [h]; omega
    have n3 : octet (network a 32).1 3 = o 3 := by unfold octet; rw [h]; omega
    have e : (network a 32).2 = 32 := rfl
    rw [showNet, showAddr, n0, n1, n2, n3, e, d32]; simp [joinWith]
  have t0 : txt ":" = [58] := by decide
  have t1 : txt "." = [46] := by decide
  have t2 : txt ".0.0.0/8" = [46, 48, 46, 48, 46, 48, 47, 56] := by decide
  have t3 : txt ".0.0/16" = [46, 48, 46, 48, 47, 49, 54] := by decide
  have t4 : txt ".0/24" = [46, 48, 47, 50, 52] := by decide
  have t5 : txt "/32" = [47, 51, 50] := by decide
  simp [genDottedQuadClues, subnets, w0, w1, w2, w3, t0, t1, t2, t3, t4, t5]

example : genDottedQuadClues (txt "foo") (BitVec.ofNat 32 (1 * 256 ^ 3 + 23 * 256 ^ 2 + 45 * 256 + 67)) =
    [txt "foo:1.0.0.0/8", txt "foo:1.23.0.0/16", txt "foo:1.23.45.0/24", txt "foo:1.23.45.67/32"] := by
  decide

/-- C59: two addresses have the same clue of 8·(i+1) bits exactly if they agree on the
first 8·(i+1) bits; clues of different lengths are never equal. -/
theorem C59_shared (pre : Txt) (a b : Addr) (i j : Fin 4) :
    (genDottedQuadClues pre a)[i]? = (genDottedQuadClues pre b)[j]? ↔
      i = j ∧ ∀ k, k < 8 * (i.val + 1) → a.getMsbD k = b.getMsbD k := by
  have key : ∀ (x : Addr) (k : Fin 4), (genDottedQuadClues pre x)[k]? =
      some (pre ++ 58 :: showNet (network x (8 * (k.val + 1)))) := by
    intro x k
    match k with
    | 0 => rfl
    | 1 => rfl
    | 2 => rfl
    | 3 => rfl
  rw [key, key]
  simp only [Option.some.injEq, List.append_cancel_left_eq, List.cons.injEq, true_and]
  constructor
  · intro h
    have h2 := showNet_injective h
    simp only [network, Prod.mk.injEq] at h2
    have hij : i = j := by apply Fin.ext; omega
    subst hij
    exact ⟨rfl, (masked_eq_iff a b _ (by omega)).1 h2.1⟩
  · rintro ⟨rfl, h⟩
    have h2 := (masked_eq_iff a b _ (by omega)).2 h
    rw [show network a (8 * (i.val + 1)) = network b (8 * (i.val + 1)) from Prod.ext h2 rfl]

/-- C59: the argument `prefix_lengths` has no effect. -/
theorem C59_prefix_lengths_ignored (a : Addr) (l : Option (List Nat)) :
    subnets a l = subnets a none ∧ (subnets a l).map (·.2) = [8, 16, 24, 32] := ⟨rfl, rfl⟩

/-! ### C60: the default socket timeout -/

/-- C60: whatever the wrapped function does (return, raise, change the default timeout
itself), the timeout after a `timed` call is the one before; the function runs with a
timeout of 10 seconds; a time-out becomes the empty result, every other outcome is
passed on. -/
theorem C60_sequential {σ α : Type} (empty : α) (f : Call σ α) (p : Process σ) :
    (timed empty f p).2.timeout = p.timeout ∧
      (timed empty f p).2.rest = (f ⟨some 10, p.rest⟩).2.rest ∧
      ((f ⟨some 10, p.rest⟩).1 = .error .timeout → (timed empty f p).1 = .ok empty) ∧
      ((f ⟨some 10, p.rest⟩).1 ≠ .error .timeout →
        (timed empty f p).1 = (f ⟨some 10, p.rest⟩).1) := by
  simp only [timed, defaultTimeout]
  refine ⟨trivial, trivial, ?_, ?_⟩
  · intro h; simp [h]
  · intro h
    split
    · rename_i h2; exact absurd h2 h
    · rfl

/-- C60: the two look-ups leave the timeout alone; an unknown address or a time-out
gives the empty result; every other failure is raised. -/
theorem C60_lookups {σ : Type} (byaddr : Addr → Call σ (Txt × List Txt))
    (info : Txt → Nat → Call σ (List Txt)) (a : Addr) (name : Txt) (p : Process σ) :
    (reverseDnsLookup byaddr a p).2.timeout = p.timeout ∧
      (dnsLookup info name p).2.timeout = p.timeout ∧
      (∀ x, (byaddr a ⟨some 10, p.rest⟩).1 = .ok x → (reverseDnsLookup byaddr a p).1 = .ok [x.1]) ∧
      (∀ e, (byaddr a ⟨some 10, p.rest⟩).1 = .error e →
        (reverseDnsLookup byaddr a p).1 = if e = .herror ∨ e = .timeout then .ok [] else .error e) ∧
      (∀ l, (info name 80 ⟨some 10, p.rest⟩).1 = .ok l → (dnsLookup info name p).1 = .ok l) ∧
      (∀ e, (info name 80 ⟨some 10, p.rest⟩).1 = .error e →
        (dnsLookup info name p).1 = if e = .timeout then .ok [] else .error e) := by
  refine ⟨(C60_sequential _ _ _).1, (C60_sequential _ _ _).1, ?_, ?_, ?_, ?_⟩
  · intro x hx
    have hb : (reverseBody byaddr a ⟨some 10, p.rest⟩).1 = .ok [x.1] := by
      simp only [reverseBody]
      generalize hr : byaddr a ⟨some 10, p.rest⟩ = r at hx
      obtain ⟨r1, r2⟩ := r
      simp only at hx; subst hx; rfl
    rw [reverseDnsLookup, (C60_sequential _ _ _).2.2.2 (by rw [hb]; simp), hb]
  · intro e he
    have hb : (reverseBody byaddr a ⟨some 10, p.rest⟩).1 =
        if e = .herror then .ok [] else .error e := by
      simp only [reverseBody]
      generalize hr : byaddr a ⟨some 10, p.rest⟩ = r at he
      obtain ⟨r1, r2⟩ := r
      simp only at he; subst he
      cases e <;> rfl
    cases e with
    | timeout => rw [reverseDnsLookup, (C60_sequential _ _ _).2.2.1 (by rw [hb]; simp)]; simp
    | herror => rw [reverseDnsLookup, (C60_sequential _ _ _).2.2.2 (by rw [hb]; simp), hb]; simp
    | gaierror => rw [reverseDnsLookup, (C60_sequential _ _ _).2.2.2 (by rw [hb]; simp), hb]; simp
    | other => rw [reverseDnsLookup, (C60_sequential _ _ _).2.2.2 (by rw [hb]; simp), hb]; simp
  · intro l hl
    have hb : (dnsBody info name ⟨some 10, p.rest⟩).1 = .ok l := hl
    rw [dnsLookup, (C60_sequential _ _ _).2.2.2 (by rw [hb]; simp), hb]
  · intro e he
    have hb : (dnsBody info name ⟨some 10, p.rest⟩).1 = .error e := he
    by_cases h : e = .timeout
    · subst h
      rw [dnsLookup, (C60_sequential _ _ _).2.2.1 hb]; simp
    · rw [dnsLookup, (C60_sequential _ _ _).2.2.2 (by rw [hb]; simpa using h), hb]; simp [h]

example : (dnsLookup (σ := Unit) (fun _ _ p => (.error .timeout, { p with timeout := none }))
    (txt "example.org") ⟨some 3, ()⟩) = (.ok [], ⟨some 3, ()⟩) := rfl

/-- No call is between its first and its last access. -/
def Quiet (s : Threads) : Prop := ∀ k, s.phase k = .idle ∨ s.phase k = .done

/-- The claim of C60 for threads: when all calls that have begun are finished, the
timeout is the one from the beginning. -/
def C60Claim : Prop :=
  ∀ (t : Option Nat) (sched : List Nat),
    Quiet ((Threads.init t).run sched) → ((Threads.init t).run sched).timeout = t

/-- A schedule in which calls are not interrupted except by calls that begin and end
in between. -/
inductive Nested : List Nat → Prop
  | nil : Nested []
  | call (k : Nat) {A B C : List Nat} : Nested A → Nested B → Nested C → k ∉ A → k ∉ B →
      Nested (k :: A ++ k :: B ++ k :: C)

theorem Threads.run_append (a b : List Nat) (s : Threads) :
    s.run (a ++ b) = (s.run a).run b := by simp [Threads.run, List.foldl_append]

theorem Threads.run_cons (k : Nat) (b : List Nat) (s : Threads) :
    s.run (k :: b) = (s.step k).run b := rfl

theorem step_phase_ne (s : Threads) {k j : Nat} (h : j ≠ k) : (s.step k).phase j = s.phase j := by
  unfold Threads.step
  split <;> simp [Function.update_of_ne h]

theorem run_phase_not_mem {sched : List Nat} {k : Nat} (h : k ∉ sched) (s : Threads) :
    (s.run sched).phase k = s.phase k := by
  induction sched generalizing s with
  | nil => rfl
  | cons x xs ih =>
    simp only [List.mem_cons, not_or] at h
    rw [Threads.run_cons, ih h.2, step_phase_ne s h.1]

theorem quiet_step_done {s : Threads} {k : Nat} (h : s.phase k = .done) : s.step k = s := by
  unfold Threads.step; rw [h]

theorem nested_restores {sched : List Nat} (hn : Nested sched) (s : Threads)
    (hq : ∀ k ∈ sched, s.phase k = .idle ∨ s.phase k = .done) :
    (s.run sched).timeout = s.timeout ∧
      ∀ k, (s.run sched).phase k = s.phase k ∨
        (s.phase k = .idle ∧ (s.run sched).phase k = .done) := by
  induction hn generalizing s with
  | nil => exact ⟨rfl, fun k => .inl rfl⟩
  | @call k A B C _ _ _ hkA hkB ihA ihB ihC =>
    have hm : ∀ {L : List Nat} {u : Threads}, (∀ j, u.phase j = s.phase j ∨ j = k ∨
        (s.phase j = .idle ∧ u.phase j = .done)) → k ∉ L → (∀ j ∈ L, s.phase j = .idle ∨ s.phase j = .done) →
        ∀ j ∈ L, u.phase j = .idle ∨ u.phase j = .done := by
      intro L u hu hk hL j hj
      rcases hu j with h | h | ⟨_, h⟩
      · rw [h]; exact hL j hj
      · subst h; exact absurd hj hk
      · exact .inr h
    have hA : ∀ j ∈ A, s.phase j = .idle ∨ s.phase j = .done := fun j hj => hq j (by simp [hj])
    have hB : ∀ j ∈ B, s.phase j = .idle ∨ s.phase j = .done := fun j hj => hq j (by simp [hj])
    have hC : ∀ j ∈ C, s.phase j = .idle ∨ s.phase j = .done := fun j hj => hq j (by simp [hj])
    have e : s.run (k :: A ++ k :: B ++ k :: C) =
        (((((s.step k).run A).step k).run B).step k).run C := by
      simp [Threads.run_append, Threads.run_cons]
    rw [e]
    rcases hq k (by simp) with hk | hk
    · -- the call runs
      have s1t : (s.step k).timeout = s.timeout := by unfold Threads.step; rw [hk]
      have s1k : (s.step k).phase k = .saved s.timeout := by unfold Threads.step; rw [hk]; simp
      have s1 : ∀ j, j ≠ k → (s.step k).phase j = s.phase j := fun j h => step_phase_ne s h
      have a := ihA (s.step k) (hm (fun j => by
        by_cases h : j = k
        · exact .inr (.inl h)
        · exact .inl (s1 j h)) hkA hA)
      have ak : ((s.step k).run A).phase k = .saved s.timeout := by
        rw [run_phase_not_mem hkA, s1k]
      generalize hu : (s.step k).run A = u at a ak
      have u1 : ∀ j, u.phase j = s.phase j ∨ j = k ∨ (s.phase j = .idle ∧ u.phase j = .done) := by
        intro j
        by_cases h : j = k
        · exact .inr (.inl h)
        · rcases a.2 j with h' | h'
          · exact .inl (by rw [h', s1 j h])
          · exact .inr (.inr ⟨by rw [← s1 j h]; exact h'.1, h'.2⟩)
      have u2t : (u.step k).timeout = some 10 := by unfold Threads.step; rw [ak]; rfl
      have u2k : (u.step k).phase k = .running s.timeout := by unfold Threads.step; rw [ak]; simp
      have u2 : ∀ j, j ≠ k → (u.step k).phase j = u.phase j := fun j h => step_phase_ne u h
      have u2' : ∀ j, (u.step k).phase j = s.phase j ∨ j = k ∨
          (s.phase j = .idle ∧ (u.step k).phase j = .done) := by
        intro j
        by_cases h : j = k
        · exact .inr (.inl h)
        · rw [u2 j h]; exact u1 j
      have b := ihB (u.step k) (hm u2' hkB hB)
      have bk : ((u.step k).run B).phase k = .running s.timeout := by
        rw [run_phase_not_mem hkB, u2k]
      generalize hv : (u.step k).run B = v at b bk
      have v1 : ∀ j, v.phase j = s.phase j ∨ j = k ∨ (s.phase j = .idle ∧ v.phase j = .done) := by
        intro j
        by_cases h : j = k
        · exact .inr (.inl h)
        · rcases b.2 j with h' | h'
          · rw [h']; exact u2' j
          · rcases u2' j with h'' | h'' | h''
            · exact .inr (.inr ⟨by rw [← h'']; exact h'.1, h'.2⟩)
            · exact .inr (.inl h'')
            · exact .inr (.inr ⟨h''.1, h'.2⟩)
      have v2t : (v.step k).timeout = s.timeout := by unfold Threads.step; rw [bk]
      have v2k : (v.step k).phase k = .done := by unfold Threads.step; rw [bk]; simp
      have v2 : ∀ j, (v.step k).phase j = s.phase j ∨ (s.phase j = .idle ∧ (v.step k).phase j = .done) := by
        intro j
        by_cases h : j = k
        · subst h; exact .inr ⟨hk, v2k⟩
        · rw [step_phase_ne v h]
          rcases v1 j with h' | h' | h'
          · exact .inl h'
          · exact absurd h' h
          · exact .inr h'
      have c := ihC (v.step k) (fun j hj => by
        rcases v2 j with h' | h'
        · rw [h']; exact hC j hj
        · exact .inr h'.2)
      refine ⟨by rw [c.1, v2t], fun j => ?_⟩
      rcases c.2 j with h' | h'
      · rw [h']; exact v2 j
      · rcases v2 j with h'' | h''
        · exact .inr ⟨by rw [← h'']; exact h'.1, h'.2⟩
        · exact .inr ⟨h''.1, h'.2⟩
    · -- the call is over: its steps do nothing
      rw [quiet_step_done hk]
      have a := ihA s hA
      have ak : (s.run A).phase k = .done := by rw [run_phase_not_mem hkA, hk]
      rw [quiet_step_done ak]
      generalize hu : s.run A = u at a ak
      have hL : ∀ {L : List Nat} {u : Threads}, (∀ j, u.phase j = s.phase j ∨
          (s.phase j = .idle ∧ u.phase j = .done)) → (∀ j ∈ L, s.phase j = .idle ∨ s.phase j = .done) →
          ∀ j ∈ L, u.phase j = .idle ∨ u.phase j = .done := by
        intro L u hu hL j hj
        rcases hu j with h | ⟨_, h⟩
        · rw [h]; exact hL j hj
        · exact .inr h
      have tr : ∀ {u v : Threads}, (∀ j, u.phase j = s.phase j ∨ (s.phase j = .idle ∧ u.phase j = .done)) →
          (∀ j, v.phase j = u.phase j ∨ (u.phase j = .idle ∧ v.phase j = .done)) →
          ∀ j, v.phase j = s.phase j ∨ (s.phase j = .idle ∧ v.phase j = .done) := by
        intro u v hu hv j
        rcases hv j with h | h
        · rw [h]; exact hu j
        · rcases hu j with h' | h'
          · exact .inr ⟨by rw [← h']; exact h.1, h.2⟩
          · exact .inr ⟨h'.1, h.2⟩
      have b := ihB u (hL a.2 hB)
      have bk : (u.run B).phase k = .done := by rw [run_phase_not_mem hkB, ak]
      rw [quiet_step_done bk]
      generalize hv : u.run B = v at b bk
      have ab := tr a.2 b.2
      have c := ihC v (hL ab hC)
      exact ⟨by rw [c.1, b.1, a.1], tr ab c.2⟩

/-- C60, the part that holds with threads: if calls overlap only by nesting, then the
timeout is restored.  Missing: arbitrary interleavings, for which it is false
(`C60_claim_false`). -/
theorem C60_nested_partial (t : Option Nat) {sched : List Nat} (h : Nested sched) :
    ((Threads.init t).run sched).timeout = t ∧ Quiet ((Threads.init t).run sched) := by
  have hr := nested_restores h (Threads.init t) (fun k _ => .inl rfl)
  refine ⟨hr.1, fun k => ?_⟩
  rcases hr.2 k with h' | h'
  · exact .inl h'
  · exact .inr h'.2

/-- three calls: the second inside the first, the third after it -/
example : Nested [0, 0, 1, 1, 1, 0, 2, 2, 2] :=
  .call 0 (A := []) (B := [1, 1, 1]) (C := [2, 2, 2]) .nil
    (.call 1 (A := []) (B := []) (C := []) .nil .nil .nil (by simp) (by simp))
    (.call 2 (A := []) (B := []) (C := []) .nil .nil .nil (by simp) (by simp)) (by simp) (by simp)

/-- C60: whatever the process's timeout, two overlapping calls can leave it at 10. -/
theorem C60_overlap (t : Option Nat) :
    Quiet ((Threads.init t).run [0, 0, 1, 1, 0, 1]) ∧
      ((Threads.init t).run [0, 0, 1, 1, 0, 1]).timeout = some 10 := by
  refine ⟨?_, rfl⟩
  intro k
  by_cases h0 : k = 0
  · subst h0; exact .inr rfl
  · by_cases h1 : k = 1
    · subst h1; exact .inr rfl
    · left
      rw [run_phase_not_mem (by simp [h0, h1])]; rfl

theorem C60_claim_false : ¬ C60Claim := by
  intro h
  have := h none _ (C60_overlap none).1
  rw [(C60_overlap none).2] at this
  cases this

theorem bounded_run (t : Option Nat) (sched : List Nat) (s : Threads)
    (h1 : s.timeout = t ∨ s.timeout = some 10)
    (h2 : ∀ k old, s.phase k = .saved old ∨ s.phase k = .running old → old = t ∨ old = some 10) :
    (s.run sched).timeout = t ∨ (s.run sched).timeout = some 10 := by
  induction sched generalizing s with
  | nil => exact h1
  | cons k rest ih =>
    rw [Threads.run_cons]
    have up : ∀ (ph : Phase), (∀ old, ph = .saved old ∨ ph = .running old → old = t ∨ old = some 10) →
        ∀ j old, Function.update s.phase k ph j = .saved old ∨ Function.update s.phase k ph j = .running old →
          old = t ∨ old = some 10 := by
      intro ph hph j old hj
      by_cases h : j = k
      · subst h; rw [Function.update_self] at hj; exact hph old hj
      · rw [Function.update_of_ne h] at hj; exact h2 j old hj
    cases hk : s.phase k with
    | idle =>
      have e : s.step k = { s with phase := Function.update s.phase k (.saved s.timeout) } := by
        unfold Threads.step; rw [hk]
      rw [e]
      refine ih _ h1 (up _ ?_)
      rintro old (h | h) <;> cases h
      exact h1
    | saved o =>
      have e : s.step k = ⟨some 10, Function.update s.phase k (.running o)⟩ := by
        unfold Threads.step; rw [hk]; rfl
      rw [e]
      refine ih _ (.inr rfl) (up _ ?_)
      rintro old (h | h) <;> cases h
      exact h2 k o (.inl hk)
    | running o =>
      have e : s.step k = ⟨o, Function.update s.phase k .done⟩ := by
        unfold Threads.step; rw [hk]
      rw [e]
      refine ih _ (h2 k o (.inr hk)) (up _ ?_)
      rintro old (h | h) <;> cases h
    | done =>
      rw [quiet_step_done hk]
      exact ih s h1 h2

/-- C60: under every schedule the timeout is at every moment the original one or 10. -/
theorem C60_bounded (t : Option Nat) (sched : List Nat) :
    ((Threads.init t).run sched).timeout = t ∨ ((Threads.init t).run sched).timeout = some 10 :=
  bounded_run t sched _ (.inl rfl) (by intro k old h; simp [Threads.init] at h)

/-- C60: once the timeout is 10 and no call is in progress, no call ever changes it
back. -/
theorem C60_changed_for_good (s : Threads) (hq : Quiet s) (h : s.timeout = some 10)
    (sched : List Nat) : (s.run sched).timeout = some 10 := by
  have := bounded_run (some 10) sched s (.inl h) (by
    intro k old hk
    rcases hq k with h' | h' <;> rw [h'] at hk <;> simp at hk)
  simpa using this

/-! ### C61: memoize -/

section
variable {σ A B : Type} [DecidableEq A]

theorem memo_call_hit {hashable : A → Bool} {f : A → M σ B} {a : A} {b : B} {m : Memo σ A B}
    (hh : hashable a = true) (h : m.dict.get? a = some b) :
    Memo.call hashable f a m = (.ok b, m) := by
  unfold Memo.call; simp only [hh, if_true, h]

theorem memo_call_ok {hashable : A → Bool} {f : A → M σ B} {a : A} {b : B} {m : Memo σ A B} {s : σ}
    (hh : hashable a = true) (h : m.dict.get? a = none) (hf : f a m.state = (.ok b, s)) :
    Memo.call hashable f a m = (.ok b, ⟨m.dict.set a b, s⟩) := by
  unfold Memo.call; simp only [hh, if_true, h]; rw [hf]

theorem memo_call_error {hashable : A → Bool} {f : A → M σ B} {a : A} {e : Err} {m : Memo σ A B} {s : σ}
    (hh : hashable a = true) (h : m.dict.get? a = none) (hf : f a m.state = (.error e, s)) :
    Memo.call hashable f a m = (.error e, ⟨m.dict, s⟩) := by
  unfold Memo.call; simp only [hh, if_true, h]; rw [hf]

theorem memo_call_unhashable {hashable : A → Bool} {f : A → M σ B} {a : A} {m : Memo σ A B}
    (hh : hashable a = false) : Memo.call hashable f a m = (.error .typeError, m) := by
  unfold Memo.call; simp [hh]

/-- The entries of the dict are never changed. -/
theorem memo_call_keeps (hashable : A → Bool) (f : A → M σ B) (a k : A) (b : B) (m : Memo σ A B)
    (h : m.dict.get? k = some b) : (Memo.call hashable f a m).2.dict.get? k = some b := by
  unfold Memo.call
  split
  · split
    · exact h
    · rename_i hn
      split
      · simp only
        rw [Dict.get?_set_ne]
        · exact h
        · rintro rfl; rw [h] at hn; cases hn
      · exact h
  · exact h

theorem memo_calls_keeps (hashable : A → Bool) (f : A → M σ B) (as : List A) (k : A) (b : B)
    (m : Memo σ A B) (h : m.dict.get? k = some b) :
    (Memo.calls hashable f as m).2.dict.get? k = some b := by
  induction as generalizing m with
  | nil => exact h
  | cons a rest ih => exact ih _ (memo_call_keeps hashable f a k b m h)

/-- C61: for any function at all, once a call has returned, every later call with the
same arguments returns the same value and does not run the function. -/
theorem C61_stable (hashable : A → Bool) (f : A → M σ B) (m : Memo σ A B) (a : A) (b : B)
    (h : (Memo.call hashable f a m).1 = .ok b) (between : List A) :
    let m' := (Memo.calls hashable f between (Memo.call hashable f a m).2).2
    Memo.call hashable f a m' = (.ok b, m') := by
  intro m'
  have hh : hashable a = true := by
    by_contra hc
    simp [Memo.call, hc] at h
  have hs : (Memo.call hashable f a m).2.dict.get? a = some b := by
    cases hd : m.dict.get? a with
    | some b' =>
      rw [memo_call_hit hh hd] at h ⊢
      simp only [Except.ok.injEq] at h
      rw [hd, h]
    | none =>
      cases hr : f a m.state with
      | mk r s =>
        cases r with
        | ok b' =>
          rw [memo_call_ok hh hd hr] at h ⊢
          simp only [Except.ok.injEq] at h
          simp [h]
        | error e =>
          rw [memo_call_error hh hd hr] at h
          simp at h
  have hk := memo_calls_keeps hashable f between a b _ hs
  unfold Memo.call
  rw [if_pos hh]
  simp only [m', hk]

/-- What the dict holds are results of the function. -/
def MemoSound (g : A → Except Err B) (m : Memo σ A B) : Prop :=
  ∀ k b, m.dict.get? k = some b → g k = .ok b

theorem memo_call_sound {hashable : A → Bool} {f : A → M σ B} {g : A → Except Err B}
    (hf : ∀ a s, (f a s).1 = g a) {m : Memo σ A B} (hm : MemoSound g m) (a : A) :
    (Memo.call hashable f a m).1 = (if hashable a then g a else .error .typeError) ∧
      MemoSound g (Memo.call hashable f a m).2 := by
  cases hh : hashable a with
  | false => rw [memo_call_unhashable hh]; exact ⟨by simp, hm⟩
  | true =>
    cases hd : m.dict.get? a with
    | some b => rw [memo_call_hit hh hd]; exact ⟨by simp [hm a b hd], hm⟩
    | none =>
      have hfa := hf a m.state
      cases hr : f a m.state with
      | mk r s =>
        rw [hr] at hfa
        cases r with
        | ok b =>
          rw [memo_call_ok hh hd hr]
          refine ⟨by simpa using hfa, ?_⟩
          intro k b' hk
          simp only at hk
          rw [Dict.get?_set] at hk
          split at hk
          · rename_i hak; subst hak; cases hk; exact hfa.symm
          · exact hm k b' hk
        | error e => rw [memo_call_error hh hd hr]; exact ⟨by simpa using hfa, hm⟩

/-- C61: if the outcome of the function depends only on its arguments, then every
sequence of memoized calls has the outcomes of direct calls (unhashable arguments
raise TypeError). -/
theorem C61_transparent (hashable : A → Bool) (f : A → M σ B) (g : A → Except Err B)
    (hf : ∀ a s, (f a s).1 = g a) (as : List A) (s : σ) :
    (Memo.calls hashable f as ⟨Dict.empty, s⟩).1 =
      as.map (fun a => if hashable a then g a else .error .typeError) := by
  suffices ∀ (m : Memo σ A B), MemoSound g m → (Memo.calls hashable f as m).1 =
      as.map (fun a => if hashable a then g a else .error .typeError) from
    this _ (by intro k b h; simp at h)
  intro m hm
  induction as generalizing m with
  | nil => rfl
  | cons a rest ih =>
    have h := memo_call_sound (hashable := hashable) hf hm a
    simp only [Memo.calls, List.map_cons]
    rw [h.1, ih _ h.2]

/-- The function that records each of its evaluations. -/
def recorded (g : A → Except Err B) (a : A) : M (List A) B := fun log => (g a, log ++ [a])

/-- C61: the function is evaluated once for arguments on which it succeeds, however
often it is called with them, and once per call for arguments on which it fails;
never for unhashable arguments. -/
theorem C61_evaluations (hashable : A → Bool) (g : A → Except Err B) (as : List A) (a : A) :
    (Memo.calls hashable (recorded g) as ⟨Dict.empty, []⟩).2.state.count a =
      if hashable a then
        (match g a with
         | .ok _ => min 1 (as.count a)
         | .error _ => as.count a)
      else 0 := by
  have key : ∀ (m : Memo (List A) A B), MemoSound g m →
      (Memo.calls hashable (recorded g) as m).2.state.count a =
        m.state.count a + (if hashable a then
          (match g a with
           | .ok _ => if (m.dict.get? a).isSome then 0 else min 1 (as.count a)
           | .error _ => as.count a)
          else 0) := by
    intro m hm
    induction as generalizing m with
    | nil => simp only [Memo.calls, List.count_nil]; cases g a <;> simp
    | cons x rest ih =>
      have hs := (memo_call_sound (hashable := hashable) (f := recorded g) (g := g)
        (fun _ _ => rfl) hm x).2
      simp only [Memo.calls]
      rw [ih _ hs]
      by_cases hx : x = a
      · subst hx
        cases hh : hashable x with
        | false => rw [memo_call_unhashable hh]; simp
        | true =>
          simp only [if_true, List.count_cons_self]
          cases hd : m.dict.get? x with
          | some b =>
            rw [memo_call_hit hh hd]
            simp [hm x b hd, hd]
          | none =>
            cases hg : g x with
            | ok b =>
              rw [memo_call_ok (s := m.state ++ [x]) hh hd (by rw [recorded, hg])]
              simp
            | error e =>
              rw [memo_call_error (s := m.state ++ [x]) hh hd (by rw [recorded, hg])]
              simp; omega
      · have hc : (x :: rest).count a = rest.count a := by rw [List.count_cons_of_ne hx]
        rw [hc]
        cases hhx : hashable x with
        | false => rw [memo_call_unhashable hhx]
        | true =>
          cases hd : m.dict.get? x with
          | some b => rw [memo_call_hit hhx hd]
          | none =>
            cases hg : g x with
            | ok b =>
              rw [memo_call_ok (s := m.state ++ [x]) hhx hd (by rw [recorded, hg])]
              simp [Dict.get?_set_ne _ _ hx, hx]
            | error e =>
              rw [memo_call_error (s := m.state ++ [x]) hhx hd (by rw [recorded, hg])]
              simp [hx]
  have := key ⟨Dict.empty, []⟩ (by intro k b h; simp at h)
  rw [this]
  simp

end

/-- a failing argument is tried again, a good one is not -/
example : Memo.calls (fun _ => true) (recorded (fun n : Nat => if n = 0 then .error .keyError else .ok (n * 2)))
    [0, 3, 0, 3] ⟨Dict.empty, []⟩ =
    ([.error .keyError, .ok 6, .error .keyError, .ok 6], ⟨⟨[(3, 6)]⟩, [0, 3, 0]⟩) := rfl

/-! ### C71: NNTP-Posting-Host -/

/-- The claim of C71: mining the NNTP-Posting-Host headers never raises. -/
def C71Claim : Prop :=
  ∀ (parseAddr : Txt → Option Addr) (info : Txt → Nat → Call Unit (List Txt)) (headers : List Txt)
    (p : Process Unit), ∃ clues, (mineNntp parseAddr info headers p).1 = .ok clues

theorem C71_claim_false : ¬ C71Claim := by
  intro h
  obtain ⟨c, hc⟩ := h (fun _ => none) (fun _ _ p => (.ok [], p)) [] ⟨none, ()⟩
  cases hc

/-- C71, what holds: mining gives clues exactly if there is a header, the first one is
not an address, and the look-up of that name times out (or reports no address at all);
then the clues are the name and its last two labels.  In all other cases it raises: no
header, an address, or a name that resolves (TypeError), a failing look-up (its
exception).  Missing: it should give clues in all cases. -/
theorem C71_exact_partial {σ : Type} (parseAddr : Txt → Option Addr)
    (info : Txt → Nat → Call σ (List Txt)) (headers : List Txt) (p : Process σ) :
    (mineNntp parseAddr info headers p).1 =
      match headers with
      | [] => .error .typeError
      | h :: _ =>
        if (parseAddr h).isSome then .error .typeError
        else match (info h 80 ⟨some 10, p.rest⟩).1 with
          | .error .timeout => .ok [txt "nntp-host-name:" ++ h, txt "nntp-host-domain:" ++ topTwo h]
          | .ok [] => .ok [txt "nntp-host-name:" ++ h, txt "nntp-host-domain:" ++ topTwo h]
          | .ok (_ :: _) => .error .typeError
          | .error e => .error (.net e) := by
  cases headers with
  | nil => rfl
  | cons h t =>
    simp only [mineNntp]
    cases hp : parseAddr h with
    | some a => simp [cluesFromIpaddress]
    | none =>
      simp only [Option.isSome_none, Bool.false_eq_true, if_false]
      have hl := C60_lookups (fun _ p => (.error .other, p)) info 0 h p
      simp only [cluesFromDomainname]
      generalize hd : dnsLookup info h p = r at hl
      obtain ⟨r, q⟩ := r
      cases hi : (info h 80 ⟨some 10, p.rest⟩).1 with
      | ok l =>
        have := hl.2.2.2.2.1 l hi
        simp only at this; subst this
        cases l <;> rfl
      | error e =>
        have := hl.2.2.2.2.2 e hi
        simp only at this
        cases e <;> simp at this <;> subst this <;> rfl

/-- C71: in every case the socket timeout is restored. -/
theorem C71_timeout {σ : Type} (parseAddr : Txt → Option Addr)
    (info : Txt → Nat → Call σ (List Txt)) (headers : List Txt) (p : Process σ) :
    (mineNntp parseAddr info headers p).2.timeout = p.timeout := by
  cases headers with
  | nil => rfl
  | cons h t =>
    simp only [mineNntp]
    cases hp : parseAddr h with
    | some a => rfl
    | none =>
      have hl := (C60_lookups (fun _ p => (.error .other, p)) info 0 h p).2.1
      simp only [cluesFromDomainname]
      generalize dnsLookup info h p = r at hl
      obtain ⟨r, q⟩ := r
      simp only at hl
      cases r with
      | error e => exact hl
      | ok l => cases l <;> exact hl

/-- a name that resolves -/
example : (mineNntp (fun _ => none) (fun _ _ p => (.ok [txt "10.0.0.1"], p)) [txt "news.example.org"]
    ⟨none, ()⟩) = (.error .typeError, (⟨none, ()⟩ : Process Unit)) := rfl

end Sb.Props
