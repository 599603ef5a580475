import Verif.Model.CdbClassifier
import Verif.Props.Training
import Mathlib.Tactic.Ring
import Mathlib.Tactic.IntervalCases

/-
Property C34: CDBClassifier.
-/

set_option linter.unusedSectionVars false

namespace Sb.Props
open Sb Py

/-! ### decimal numbers -/

theorem digits_lt (n : Nat) : ∀ d ∈ digits n, d < 10 := by
  induction n using Nat.strong_induction_on with
  | _ n ih =>
    rw [digits]
    by_cases h : n < 10
    · rw [if_pos h]; intro d hd; simp at hd; omega
    · rw [if_neg h]
      intro d hd
      rcases List.mem_append.1 hd with hd | hd
      · exact ih (n / 10) (by omega) d hd
      · simp at hd; omega

theorem digits_ne_nil (n : Nat) : digits n ≠ [] := by
  rw [digits]; split <;> simp

theorem digit_toNat {d : Nat} (h : d < 10) : (Char.ofNat (48 + d)).toNat = 48 + d := by
  interval_cases d <;> decide

theorem parseDigits_append (l m : List Char) : ∀ acc,
    parseDigits acc (l ++ m) = (match parseDigits acc l with
      | .ok a => parseDigits a m
      | .error e => .error e) := by
  induction l with
  | nil => intro acc; rfl
  | cons c r ih =>
    intro acc
    simp only [List.cons_append, parseDigits]
    split
    · exact ih _
    · rfl

theorem parseDigits_digits (n : Nat) :
    parseDigits 0 ((digits n).map (fun d => Char.ofNat (48 + d))) = .ok n := by
  induction n using Nat.strong_induction_on with
  | _ n ih =>
    rw [digits]
    by_cases h : n < 10
    · rw [if_pos h]
      simp only [List.map_cons, List.map_nil, parseDigits]
      rw [digit_toNat h, if_pos (by omega)]
      congr 1; omega
    · rw [if_neg h, List.map_append, parseDigits_append, ih (n / 10) (by omega)]
      simp only [List.map_cons, List.map_nil, parseDigits]
      rw [digit_toNat (by omega), if_pos (by omega)]
      congr 1; omega

theorem parseNat_digits (n : Nat) : parseNat ((digits n).map (fun d => Char.ofNat (48 + d))) = .ok n := by
  have h := parseDigits_digits n
  cases hd : (digits n).map (fun d => Char.ofNat (48 + d)) with
  | nil => exact absurd (List.map_eq_nil_iff.1 hd) (digits_ne_nil n)
  | cons c r => rw [hd] at h; exact h

theorem digit_ne {d : Nat} (h : d < 10) (c : Char) (hc : c.toNat < 48) : Char.ofNat (48 + d) ≠ c := by
  intro e
  have := congrArg Char.toNat e
  rw [digit_toNat h] at this
  omega

theorem showInt_no_comma (i : Int) : ',' ∉ showInt i := by
  have key : ',' ∉ (digits i.natAbs).map (fun d => Char.ofNat (48 + d)) := by
    intro h
    obtain ⟨d, hd, he⟩ := List.mem_map.1 h
    exact digit_ne (digits_lt _ d hd) ',' (by decide) he
  unfold showInt
  dsimp only
  split
  · intro h
    rcases List.mem_cons.1 h with h | h
    · exact absurd h (by decide)
    · exact key h
  · exact key

theorem parseInt_showInt (i : Int) : parseInt (showInt i) = .ok i := by
  unfold showInt
  dsimp only
  by_cases h : i < 0
  · rw [if_pos h]
    simp only [parseInt]
    rw [parseNat_digits]
    exact congrArg Except.ok (by dsimp only; omega)
  · rw [if_neg h]
    have hd := parseNat_digits i.natAbs
    cases hl : (digits i.natAbs).map (fun d => Char.ofNat (48 + d)) with
    | nil => exact absurd (List.map_eq_nil_iff.1 hl) (digits_ne_nil _)
    | cons c r =>
      have hc : c ≠ '-' := by
        have hm : c ∈ (digits i.natAbs).map (fun d => Char.ofNat (48 + d)) := by rw [hl]; simp
        obtain ⟨d, hd, he⟩ := List.mem_map.1 hm
        rw [← he]
        exact digit_ne (digits_lt _ d hd) '-' (by decide)
      rw [hl] at hd
      have : parseInt (c :: r) = (parseNat (c :: r)).map (fun n : Nat => (n : Int)) := by
        unfold parseInt
        split
        · rename_i s he
          cases he
          exact absurd rfl hc
        · rfl
      rw [this, hd]
      exact congrArg Except.ok (by dsimp only; omega)

theorem splitComma_no {s : List Char} (h : ',' ∉ s) : splitComma s = [s] := by
  induction s with
  | nil => rfl
  | cons c r ih =>
    simp only [List.mem_cons, not_or] at h
    simp only [splitComma]
    rw [ih h.2]
    dsimp only
    rw [if_neg (fun e => h.1 e.symm)]

theorem splitComma_pair {s t : List Char} (hs : ',' ∉ s) (ht : ',' ∉ t) :
    splitComma (s ++ ',' :: t) = [s, t] := by
  induction s with
  | nil =>
    simp only [List.nil_append, splitComma]
    rw [splitComma_no ht]
    rfl
  | cons c r ih =>
    simp only [List.mem_cons, not_or] at hs
    simp only [List.cons_append, splitComma]
    rw [ih hs.2]
    dsimp only
    rw [if_neg (fun e => hs.1 e.symm)]

theorem parseInts_pair (a b : Int) : parseInts (formatPair a b) = .ok [a, b] := by
  unfold parseInts formatPair
  rw [splitComma_pair (showInt_no_comma a) (showInt_no_comma b)]
  simp only [List.mapM_cons, List.mapM_nil, parseInt_showInt]
  rfl

theorem fromString_pair (a b : Int) : fromString (formatPair a b) = .ok ⟨a, b⟩ := by
  unfold fromString
  rw [parseInts_pair]
  rfl

/-! ### C34 -/

variable {W B K : Type} [DecidableEq W]

/-- a word record with the two counts exchanged -/
def exchanged (r : WordInfo) : WordInfo := ⟨r.hamcount, r.spamcount⟩

theorem readWords_spec (sk : W) (g : W → Option WordInfo) : ∀ (l : List (W × List Char)) (d : Dict W WordInfo),
    d.Nodup → (l.map (·.1)).Nodup → (∀ e ∈ l, e.1 ≠ sk → ∃ r, g e.1 = some r ∧ fromString e.2 = .ok r) →
    ∃ d', readWords sk l d = .ok d' ∧ d'.Nodup ∧ ∀ k, d'.get? k =
      if k ≠ sk ∧ k ∈ l.map (·.1) then g k else d.get? k := by
  intro l
  induction l with
  | nil => intro d hd _ _; exact ⟨d, rfl, hd, fun k => by simp⟩
  | cons e r ih =>
    obtain ⟨k0, v0⟩ := e
    intro d hd hn h
    simp only [List.map_cons, List.nodup_cons] at hn
    by_cases hk : k0 = sk
    · obtain ⟨d', h1, h2, h3⟩ := ih d hd hn.2 (fun e he => h e (by simp [he]))
      refine ⟨d', by simp only [readWords]; rw [if_pos hk]; exact h1, h2, fun k => ?_⟩
      rw [h3 k]
      by_cases hks : k = sk
      · simp [hks]
      · have : k ≠ k0 := fun e => hks (e.trans hk)
        simp only [List.map_cons, List.mem_cons, this, false_or]
    · obtain ⟨r0, hr1, hr2⟩ := h (k0, v0) (by simp) hk
      obtain ⟨d', h1, h2, h3⟩ := ih (d.set k0 r0) (hd.set _ _) hn.2 (fun e he => h e (by simp [he]))
      refine ⟨d', by simp only [readWords]; rw [if_neg hk, hr2]; exact h1, h2, fun k => ?_⟩
      rw [h3 k, Dict.get?_set]
      by_cases hkk : k0 = k
      · subst hkk
        simp [hk, hn.1, hr1]
      · have : k ≠ k0 := fun e => hkk e.symm
        simp only [List.map_cons, List.mem_cons, this, false_or, if_neg hkk]

/-- **C34**, the full claim for a `cdb` module (`none`: the code as it is): storing
and constructing a new object gives the same totals and counts. -/
def C34Claim (W B : Type) (K : Type) [DecidableEq W] (md : Option (CdbModule W B)) : Prop :=
  ∀ (sk : W) (c : Clf (Dict W WordInfo) K) (file : Option B), c.store.Nodup → sk ∉ c.store.keys →
    ∃ file', cdbStore md sk c file = (.ok (), file') ∧
      ∃ c', (cdbNew md sk file' : Except Err Unit × Clf (Dict W WordInfo) K) = (.ok (), c') ∧
        c'.nspam = c.nspam ∧ c'.nham = c.nham ∧ ∀ w, c'.store.get? w = c.store.get? w

/-- **C34**, what holds with a working module: the totals come back, and each word's
ham and spam counts come back exchanged. -/
theorem C34_counts_exchanged_partial (md : CdbModule W B) (sk : W) (c : Clf (Dict W WordInfo) K)
    (file : Option B) (hn : c.store.Nodup) (hsk : sk ∉ c.store.keys) :
    ∃ file', cdbStore (some md) sk c file = (.ok (), file') ∧
      ∃ c', (cdbNew (some md) sk file' : Except Err Unit × Clf (Dict W WordInfo) K) = (.ok (), c') ∧
        c'.nspam = c.nspam ∧ c'.nham = c.nham ∧ c'.store.Nodup ∧
        ∀ w, c'.store.get? w = (c.store.get? w).map exchanged := by
  refine ⟨_, rfl, ?_⟩
  have hkeys : (cdbStoreItems sk c).map (·.1) = sk :: c.store.keys := by
    simp [cdbStoreItems, Dict.keys, Function.comp_def]
  have hnd : ((cdbStoreItems sk c).map (·.1)).Nodup := by
    rw [hkeys]; exact List.nodup_cons.2 ⟨hsk, hn⟩
  obtain ⟨d, h1, h2, h3⟩ := md.read_write (cdbStoreItems sk c) hnd
  have hst : d.get? sk = some (formatPair c.nham c.nspam) := (h3 _ _).2 (by simp [cdbStoreItems])
  obtain ⟨d', g1, g2, g3⟩ := readWords_spec sk (fun w => (c.store.get? w).map exchanged) d.entries Dict.empty
    Dict.nodup_empty h2 (by
      intro e he hne
      have hm := (h3 e.1 e.2).1 (Dict.get?_of_mem h2 he)
      rcases List.mem_cons.1 hm with hm | hm
      · exact absurd (congrArg Prod.fst hm) hne
      · obtain ⟨x, hx, hxe⟩ := List.mem_map.1 hm
        have hx1 : x.1 = e.1 := congrArg Prod.fst hxe
        have hx2 : formatPair x.2.hamcount x.2.spamcount = e.2 := congrArg Prod.snd hxe
        refine ⟨exchanged x.2, ?_, ?_⟩
        · rw [← hx1, Dict.get?_of_mem hn hx]; rfl
        · rw [← hx2, fromString_pair]; rfl)
  refine ⟨{ (Clf.new false Dict.empty : Clf (Dict W WordInfo) K) with
    nham := c.nham, nspam := c.nspam, store := d' }, ?_, rfl, rfl, g2, ?_⟩
  · unfold cdbNew cdbLoad cdbLoadFile
    dsimp only
    rw [h1]
    dsimp only
    rw [hst]
    dsimp only
    rw [parseInts_pair]
    dsimp only
    rw [g1]
  · intro w
    change d'.get? w = _
    rw [g3 w]
    by_cases hw : w ∈ c.store.keys
    · have hne : w ≠ sk := fun e => hsk (e ▸ hw)
      have hmem : w ∈ d.keys := by
        obtain ⟨r, hr⟩ := (Dict.mem_keys_iff _ _).1 hw
        apply (Dict.mem_keys_iff _ _).2
        exact ⟨_, (h3 w _).2 (by
          apply List.mem_cons_of_mem
          exact List.mem_map.2 ⟨(w, r), Dict.mem_entries_of_get? hr, rfl⟩)⟩
      rw [if_pos ⟨hne, hmem⟩]
    · rw [(Dict.get?_eq_none_iff _ _).2 hw]
      rw [if_neg]
      · rfl
      · rintro ⟨hne, hmem⟩
        obtain ⟨v, hv⟩ := (Dict.mem_keys_iff d w).1 hmem
        have := (h3 w v).1 hv
        have := List.mem_map_of_mem (f := (·.1)) this
        rw [hkeys] at this
        rcases List.mem_cons.1 this with h | h
        · exact hne h
        · exact hw h

/-- **C34**, twice: storing and loading a second time exchanges the counts back. -/
theorem C34_twice_is_identity_partial (md : CdbModule W B) (sk : W) (c : Clf (Dict W WordInfo) K)
    (file : Option B) (hn : c.store.Nodup) (hsk : sk ∉ c.store.keys) :
    ∃ f1 c1 f2 c2, cdbStore (some md) sk c file = (.ok (), f1) ∧
      (cdbNew (some md) sk f1 : Except Err Unit × Clf (Dict W WordInfo) K) = (.ok (), c1) ∧
      cdbStore (some md) sk c1 f1 = (.ok (), f2) ∧
      (cdbNew (some md) sk f2 : Except Err Unit × Clf (Dict W WordInfo) K) = (.ok (), c2) ∧
      c2.nspam = c.nspam ∧ c2.nham = c.nham ∧ ∀ w, c2.store.get? w = c.store.get? w := by
  obtain ⟨f1, a1, c1, a2, a3, a4, a5, a6⟩ := C34_counts_exchanged_partial md sk c file hn hsk
  have hsk1 : sk ∉ c1.store.keys := by
    rw [← Dict.get?_eq_none_iff, a6, (Dict.get?_eq_none_iff _ _).2 hsk]; rfl
  obtain ⟨f2, b1, c2, b2, b3, b4, -, b6⟩ := C34_counts_exchanged_partial md sk c1 f1 a5 hsk1
  refine ⟨f1, c1, f2, c2, a1, a2, b1, b2, b3.trans a3, b4.trans a4, fun w => ?_⟩
  rw [b6, a6]
  cases c.store.get? w <;> rfl

/-- **C34** as the code is: `store` raises NameError and writes nothing, and so does
the constructor on an existing file; on a missing file it starts empty. -/
theorem C34_name_error (sk : W) (c : Clf (Dict W WordInfo) K) (file : Option B) :
    cdbStore none sk c file = (.error .nameError, file) ∧
    (∀ b : B, (cdbNew none sk (some b) : Except Err Unit × Clf (Dict W WordInfo) K).1 = .error .nameError) ∧
    (cdbNew (B := B) none sk none : Except Err Unit × Clf (Dict W WordInfo) K) =
      (.ok (), Clf.new false Dict.empty) :=
  ⟨rfl, fun _ => rfl, rfl⟩

/-- **C34** is false for the code as it is and with any working module. -/
theorem C34_claim_false (md : Option (CdbModule W B)) (sk w : W) (hw : w ≠ sk) : ¬ C34Claim W B K md := by
  intro h
  let c : Clf (Dict W WordInfo) K := { Clf.new false (Dict.empty.set w ⟨1, 0⟩) with nspam := 1 }
  have hn : c.store.Nodup := Dict.nodup_empty.set _ _
  have hsk : sk ∉ c.store.keys := by
    intro hm
    rcases (Dict.mem_keys_set _ _ _ _).1 hm with h | h
    · exact hw h.symm
    · simp [Dict.keys, Dict.empty] at h
  obtain ⟨f1, h1, c1, h2, -, -, h3⟩ := h sk c none hn hsk
  cases md with
  | none => rw [(C34_name_error sk c none).1] at h1; cases h1
  | some m =>
    obtain ⟨f2, g1, c2, g2, -, -, -, g3⟩ := C34_counts_exchanged_partial m sk c none hn hsk
    rw [h1] at g1
    cases g1
    rw [h2] at g2
    cases g2
    have e1 := h3 w
    rw [g3 w] at e1
    have e2 : c.store.get? w = some ⟨1, 0⟩ := by
      change (Dict.empty.set w _).get? w = _
      rw [Dict.get?_set, if_pos rfl]
    rw [e2] at e1
    simp [exchanged] at e1

/-- A working module exists: files that are lists of pairs. -/
def listModule (W : Type) [DecidableEq W] : CdbModule W (List (W × List Char)) where
  write items := items
  read items := .ok ⟨items⟩
  read_write items hn := ⟨⟨items⟩, rfl, hn, fun _ _ =>
    ⟨fun h => Dict.mem_entries_of_get? h, fun h => Dict.get?_of_mem (d := ⟨items⟩) hn h⟩⟩

/-- The hypotheses of `C34_counts_exchanged_partial` are met by a classifier that
has learned something. -/
example : ∃ c : Clf (Dict Nat WordInfo) Rat, c.nspam = 3 ∧ c.store.get? 7 = some ⟨2, 1⟩ ∧ c.store.Nodup ∧
    0 ∉ c.store.keys :=
  ⟨⟨some false, Dict.empty.set 7 ⟨2, 1⟩, Dict.empty, 3, 1⟩, rfl, by decide, Dict.nodup_empty.set _ _, by decide⟩

end Sb.Props
