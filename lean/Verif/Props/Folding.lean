import Verif.Py.Text
import Verif.Model.Fields
import Verif.Props.Printing

/-
What folding a header does to its value: lemmas for C116.
-/

set_option linter.unusedSectionVars false

namespace Sb.Props
open Py Py.Text Sb.Mail


/-! ### Words -/

theorem wordsFrom_before {space : Nat → Bool} {b : List Nat}
    (hb : b = [] ∨ ∃ y s, b = y :: s ∧ space y = true) (a : List Nat) :
    ∀ cur, wordsFrom space cur (a ++ b) = wordsFrom space cur a ++ words space b := by
  induction a with
  | nil =>
    intro cur
    rcases hb with rfl | ⟨y, s, rfl, hy⟩
    · simp [words, wordsFrom, Py.Text.flush]
    · simp [words, wordsFrom, Py.Text.flush, hy]
  | cons x a ih =>
    intro cur
    rw [List.cons_append, wordsFrom, wordsFrom]
    split
    · rw [ih, List.append_assoc]
    · rw [ih]

theorem words_append {space : Nat → Bool} (a : List Nat) {b : List Nat}
    (hb : b = [] ∨ ∃ y s, b = y :: s ∧ space y = true) :
    words space (a ++ b) = words space a ++ words space b := wordsFrom_before hb a []

/-- Putting white space in front of a text does not matter. -/
theorem words_front {space : Nat → Bool} {a : List Nat} (ha : ∀ c ∈ a, space c = true) (b : List Nat) :
    words space (a ++ b) = words space b := by
  induction a with
  | nil => rfl
  | cons x a ih =>
    rw [List.cons_append, words_space_cons (ha x (by simp)), ih (fun c hc => ha c (by simp [hc]))]

theorem words_back {space : Nat → Bool} (a : List Nat) {b : List Nat} (hb : ∀ c ∈ b, space c = true) :
    words space (a ++ b) = words space a := by
  rw [words_append a, words_nil_of_space hb, List.append_nil]
  cases b with
  | nil => exact .inl rfl
  | cons y s => exact .inr ⟨y, s, rfl, hb y (by simp)⟩

/-- Texts separated by white space. -/
theorem words_sep {space : Nat → Bool} (a : List Nat) {y : Nat} (hy : space y = true) (b : List Nat) :
    words space (a ++ y :: b) = words space a ++ words space b := by
  rw [words_append a (.inr ⟨y, b, rfl, hy⟩), words_space_cons hy]

theorem blank_space {c : Nat} (h : isBlank c = true) : isSpace c = true := by
  simp only [isBlank, Bool.or_eq_true, beq_iff_eq] at h
  rcases h with rfl | rfl <;> rfl

theorem break_space {c : Nat} (h : isLineBreak c = true) : isSpace c = true := by
  simp only [isLineBreak, Bool.or_eq_true, Bool.and_eq_true, decide_eq_true_eq, beq_iff_eq] at h
  simp only [isSpace, Bool.or_eq_true, Bool.and_eq_true, decide_eq_true_eq, beq_iff_eq]
  omega

/-! ### Lines -/

theorem splitLines_cons {c : Nat} {r : Txt} (h : ∀ s, c :: r ≠ 13 :: 10 :: s) :
    splitLines (c :: r) = if isLineBreak c then [] :: splitLines r
      else match splitLines r with
        | [] => [[c]]
        | l :: ls => (c :: l) :: ls := by
  rw [splitLines]
  · rfl
  · intro s h1 h2
    exact h s (by rw [h1, h2])

theorem wordsFrom_splitLines (v : Txt) : ∀ cur, wordsFrom isSpace cur v =
    match splitLines v with
    | [] => Py.Text.flush cur
    | l :: ls => wordsFrom isSpace cur l ++ ls.flatMap (words isSpace) := by
  have hm : ∀ r : Txt, (∀ cur, wordsFrom isSpace cur r = match splitLines r with
      | [] => Py.Text.flush cur
      | l :: ls => wordsFrom isSpace cur l ++ ls.flatMap (words isSpace)) →
      words isSpace r = (splitLines r).flatMap (words isSpace) := by
    intro r h
    rw [words, h []]
    cases splitLines r with
    | nil => rfl
    | cons l ls => rfl
  induction v using crlf_induction with
  | h0 => intro cur; rfl
  | h1 r ih =>
    intro cur
    rw [splitLines]
    simp only [wordsFrom, (by decide : isSpace 13 = true), (by decide : isSpace 10 = true), if_true]
    rw [← hm r ih]
    simp [words, Py.Text.flush]
  | h2 c r h ih =>
    intro cur
    rw [splitLines_cons h]
    by_cases hc : isLineBreak c = true
    · rw [if_pos hc]
      simp only [wordsFrom, break_space hc, if_true]
      rw [← hm r ih, words]
    · rw [if_neg hc]
      cases hr : splitLines r with
      | nil =>
        have := ih
        simp only [hr] at this
        simp only [wordsFrom, this, List.flatMap_nil, List.append_nil]
      | cons l ls =>
        have := ih
        simp only [hr] at this
        simp only [wordsFrom, this]
        split <;> simp

theorem words_splitLines (v : Txt) : words isSpace v = (splitLines v).flatMap (words isSpace) := by
  rw [words, wordsFrom_splitLines v []]
  cases splitLines v with
  | nil => rfl
  | cons l ls => rfl

theorem splitLines_chars (v : Txt) : ∀ l ∈ splitLines v, ∀ c ∈ l, c ∈ v ∧ isLineBreak c = false := by
  induction v using crlf_induction with
  | h0 => intro l hl; cases hl
  | h1 r ih =>
    intro l hl c hc
    rw [splitLines] at hl
    rcases List.mem_cons.1 hl with rfl | hl
    · cases hc
    · exact ⟨by simp [(ih l hl c hc).1], (ih l hl c hc).2⟩
  | h2 x r h ih =>
    intro l hl c hc
    rw [splitLines_cons h] at hl
    split at hl
    · rcases List.mem_cons.1 hl with rfl | hl
      · cases hc
      · exact ⟨by simp [(ih l hl c hc).1], (ih l hl c hc).2⟩
    · rename_i hx
      have hx' : isLineBreak x = false := by simpa using hx
      cases hr : splitLines r with
      | nil =>
        rw [hr] at hl
        simp only [List.mem_singleton] at hl
        subst hl
        simp only [List.mem_singleton] at hc
        subst hc
        exact ⟨by simp, hx'⟩
      | cons k ks =>
        rw [hr] at hl ih
        simp only [List.mem_cons] at hl
        rcases hl with rfl | hl
        · rcases List.mem_cons.1 hc with rfl | hc
          · exact ⟨by simp, hx'⟩
          · exact ⟨by simp [(ih k (by simp) c hc).1], (ih k (by simp) c hc).2⟩
        · exact ⟨by simp [(ih l (by simp [hl]) c hc).1], (ih l (by simp [hl]) c hc).2⟩

/-! ### Chunks -/

theorem chunks_spec (l : Txt) : lineText (chunks l) = l ∧
    (∀ p ∈ chunks l, (∀ c ∈ p.1, isBlank c = true) ∧ (p.1 ≠ [] ∨ p.2 ≠ [])) ∧
    (∀ p ∈ (chunks l).tail, p.1 ≠ []) ∧
    (∀ p, (chunks l).head? = some p → p.1 = [] → startsBlank l = false) := by
  induction l with
  | nil => simp [chunks, lineText]
  | cons c r ih =>
    obtain ⟨h1, h2, h3, h4⟩ := ih
    simp only [chunks]
    split
    · rename_i hc
      cases hr : chunks r with
      | nil =>
        rw [hr] at h1
        refine ⟨by simp [lineText] at h1 ⊢; exact h1, ?_, ?_, ?_⟩
        · intro p hp
          simp only [List.mem_singleton] at hp
          subst hp
          exact ⟨by simpa using hc, .inl (by simp)⟩
        · simp
        · intro p hp; simp at hp; subst hp; simp
      | cons q t =>
        obtain ⟨f, w⟩ := q
        rw [hr] at h1 h2 h3
        refine ⟨by simp [lineText] at h1 ⊢; exact h1, ?_, ?_, ?_⟩
        · intro p hp
          rcases List.mem_cons.1 hp with rfl | hp
          · refine ⟨?_, .inl (by simp)⟩
            intro d hd
            rcases List.mem_cons.1 hd with rfl | hd
            · exact hc
            · exact (h2 (f, w) (by simp)).1 d hd
          · exact h2 p (by simp [hp])
        · exact h3
        · intro p hp; simp at hp; subst hp; simp
    · rename_i hc
      have hs : startsBlank (c :: r) = false := by simpa [startsBlank] using hc
      cases hr : chunks r with
      | nil =>
        rw [hr] at h1
        refine ⟨by simp [lineText] at h1 ⊢; exact h1, ?_, by simp, fun _ _ _ => hs⟩
        intro p hp
        simp only [List.mem_singleton] at hp
        subst hp
        exact ⟨by simp, .inr (by simp)⟩
      | cons q t =>
        obtain ⟨f, w⟩ := q
        rw [hr] at h1 h2 h3
        simp only
        split
        · rename_i hf
          subst hf
          refine ⟨by simp [lineText] at h1 ⊢; exact h1, ?_, h3, fun _ _ _ => hs⟩
          intro p hp
          rcases List.mem_cons.1 hp with rfl | hp
          · exact ⟨by simp, .inr (by simp)⟩
          · exact h2 p (by simp [hp])
        · rename_i hf
          refine ⟨by simp [lineText] at h1 ⊢; exact h1, ?_, ?_, fun _ _ _ => hs⟩
          · intro p hp
            rcases List.mem_cons.1 hp with rfl | hp
            · exact ⟨by simp, .inr (by simp)⟩
            · exact h2 p hp
          · intro p hp
            rcases List.mem_cons.1 hp with rfl | hp
            · exact hf
            · exact h3 p hp

theorem lineText_append (a b : List (Txt × Txt)) : lineText (a ++ b) = lineText a ++ lineText b := by
  simp [lineText]

/-! ### Folding keeps the words -/

/-- What holds of the current line: blanks before every text, and something in every pair;
only the first blanks can be missing. -/
structure CurFine (cur : List (Txt × Txt)) : Prop where
  blank : ∀ p ∈ cur, ∀ c ∈ p.1, isBlank c = true
  some' : ∀ p ∈ cur, p.1 ≠ [] ∨ p.2 ≠ []
  tail : ∀ p ∈ cur.tail, p.1 ≠ []

theorem CurFine.nil : CurFine [] := ⟨by simp, by simp, by simp⟩

theorem mem_tail_append {α : Type} {a b : List α} {x : α} (h : x ∈ (a ++ b).tail) :
    x ∈ a.tail ∨ x ∈ b ∧ (a = [] → x ∈ b.tail) := by
  cases a with
  | nil => exact .inr ⟨List.mem_of_mem_tail h, fun _ => h⟩
  | cons y a =>
    simp only [List.cons_append, List.tail_cons, List.mem_append] at h
    rcases h with h | h
    · exact .inl h
    · exact .inr ⟨h, by simp⟩

theorem CurFine.push {cur : List (Txt × Txt)} (h : CurFine cur) {p : Txt × Txt}
    (hp : ∀ c ∈ p.1, isBlank c = true) (hs : p.1 ≠ [] ∨ p.2 ≠ []) (ht : cur = [] ∨ p.1 ≠ []) :
    CurFine (cur ++ [p]) := by
  refine ⟨?_, ?_, ?_⟩
  · intro q hq
    rcases List.mem_append.1 hq with hq | hq
    · exact h.blank q hq
    · rw [List.mem_singleton.1 hq]; exact hp
  · intro q hq
    rcases List.mem_append.1 hq with hq | hq
    · exact h.some' q hq
    · rw [List.mem_singleton.1 hq]; exact hs
  · intro q hq
    rcases mem_tail_append hq with hq | ⟨hq, hq'⟩
    · exact h.tail q hq
    · rcases ht with ht | ht
      · exact absurd (hq' ht) (by simp)
      · rw [List.mem_singleton.1 hq]; exact ht

theorem CurFine.drop {cur : List (Txt × Txt)} (h : CurFine cur) (i : Nat) : CurFine (cur.drop i) := by
  refine ⟨fun p hp => h.blank p (List.mem_of_mem_drop hp), fun p hp => h.some' p (List.mem_of_mem_drop hp), ?_⟩
  intro p hp
  rw [List.tail_drop, Nat.add_comm, ← List.drop_drop, List.drop_one] at hp
  exact h.tail p (List.mem_of_mem_drop hp)

/-- A line can be cut before a pair with blanks. -/
theorem words_lineText {a b : List (Txt × Txt)}
    (hb : ∀ p, b.head? = some p → p.1 ≠ [] ∧ ∀ c ∈ p.1, isBlank c = true) :
    words isSpace (lineText (a ++ b)) = words isSpace (lineText a) ++ words isSpace (lineText b) := by
  rw [lineText_append]
  refine words_append _ ?_
  cases b with
  | nil => exact .inl rfl
  | cons p b =>
    obtain ⟨h1, h2⟩ := hb p rfl
    obtain ⟨f, w⟩ := p
    cases f with
    | nil => exact absurd rfl h1
    | cons y f => exact .inr ⟨y, f ++ w ++ lineText b, by simp [lineText], blank_space (h2 y (by simp))⟩

/-- The words so far. -/
def Folding.words (s : Folding) : List Txt :=
  s.lines.flatMap (Py.Text.words isSpace) ++ Py.Text.words isSpace (lineText s.cur)

theorem words_trim (cur : List (Txt × Txt)) :
    words isSpace (lineText (if cur.getLast? = some ([32], []) then cur.dropLast else cur)) =
      words isSpace (lineText cur) := by
  split
  · rename_i h
    obtain ⟨ys, rfl⟩ := List.getLast?_eq_some_iff.1 h
    rw [List.dropLast_concat, lineText_append]
    exact (words_back _ (by simp [lineText]; rfl)).symm
  · rfl

theorem newline_words (s : Folding) : Folding.words s.newline = Folding.words s := by
  unfold Folding.newline Folding.words
  rw [← words_trim s.cur]
  generalize hcur : (if s.cur.getLast? = some ([32], []) then s.cur.dropLast else s.cur) = cur
  simp only
  split
  · rename_i h
    have : lineText cur = [] := List.eq_nil_of_length_eq_zero (by omega)
    rw [this]; rfl
  · split
    · rename_i h
      obtain ⟨-, h1, h2⟩ := h
      have ha : ∀ c ∈ lineText cur, isSpace c = true := List.all_eq_true.1 h1
      obtain ⟨ys, y, hys⟩ := List.eq_nil_or_concat s.lines |>.resolve_left h2
      rw [hys]
      simp only [List.concat_eq_append, List.dropLast_concat, List.getLastD_concat, List.flatMap_append,
        List.flatMap_singleton]
      rw [words_back y ha, words_nil_of_space ha]
      simp [lineText, words, wordsFrom, Py.Text.flush]
    · simp [lineText, words, wordsFrom, Py.Text.flush]

theorem splitPoint_spec {cur : List (Txt × Txt)} {ch i : Nat} (h : splitPoint cur ch = some i) :
    1 ≤ i ∧ i < cur.length := by
  have h1 := List.find?_some h
  have h2 := List.mem_of_find?_eq_some h
  simp only [Bool.and_eq_true, decide_eq_true_eq] at h1
  exact ⟨h1.1, by simpa using h2⟩

theorem findSplit_spec {cur : List (Txt × Txt)} {i : Nat} (h : (txt ";, \t").findSome? (splitPoint cur) = some i) :
    1 ≤ i ∧ i < cur.length := by
  obtain ⟨ch, -, h⟩ := List.exists_of_findSome?_eq_some h
  exact splitPoint_spec h

theorem head_drop_fine {cur : List (Txt × Txt)} (h : CurFine cur) {i : Nat} (hi : 1 ≤ i) :
    ∀ p, (cur.drop i).head? = some p → p.1 ≠ [] ∧ ∀ c ∈ p.1, isBlank c = true := by
  intro p hp
  have hm : p ∈ cur.drop i := List.mem_of_mem_head? hp
  refine ⟨h.tail p ?_, h.blank p (List.mem_of_mem_drop hm)⟩
  obtain ⟨j, rfl⟩ := Nat.exists_eq_add_of_le' hi
  rw [Nat.add_comm, ← List.drop_drop, List.drop_one] at hm
  exact List.mem_of_mem_drop hm

theorem append_fine (max : Nat) (s : Folding) (p : Txt × Txt) (h : CurFine s.cur)
    (hp : ∀ c ∈ p.1, isBlank c = true) (hs : p.1 ≠ [] ∨ p.2 ≠ []) (ht : s.cur = [] ∨ p.1 ≠ []) :
    CurFine (s.append max p).cur ∧ (s.append max p).cur ≠ [] ∧
      Folding.words (s.append max p) = Folding.words s ++ words isSpace (p.1 ++ p.2) := by
  have hpush := h.push hp hs ht
  have hw : words isSpace (lineText (s.cur ++ [p])) =
      words isSpace (lineText s.cur) ++ words isSpace (p.1 ++ p.2) := by
    rcases ht with ht | ht
    · rw [ht]; simp [lineText, words, wordsFrom, Py.Text.flush]
    · rw [words_lineText (b := [p]) (by intro q hq; simp at hq; subst hq; exact ⟨ht, hp⟩)]
      simp [lineText]
  unfold Folding.append
  simp only
  split
  · exact ⟨hpush, by simp, by simp [Folding.words, hw]⟩
  · split
    · rename_i i hi
      obtain ⟨h1, h2⟩ := findSplit_spec hi
      refine ⟨hpush.drop i, ?_, ?_⟩
      · intro he
        have := congrArg List.length he
        simp at this h2
        omega
      · have := words_lineText (a := (s.cur ++ [p]).take i) (head_drop_fine hpush h1)
        rw [List.take_append_drop, hw] at this
        simp only [Folding.words, List.flatMap_append, List.flatMap_singleton, List.append_assoc]
        rw [← this]
    · split
      · refine ⟨?_, by simp, ?_⟩
        · refine CurFine.push (cur := s.newline.cur) ?_ ?_ ?_ (.inl rfl)
          · exact CurFine.nil
          · dsimp only
            split
            · simp [isBlank]
            · exact hp
          · dsimp only
            split
            · simp
            · exact .inl (by assumption)
        · rw [← newline_words s]
          simp only [Folding.words]
          have e1 : s.newline.cur = [] := rfl
          rw [e1]
          simp only [List.nil_append, lineText, List.flatMap_cons, List.flatMap_nil, List.append_nil]
          rw [show words isSpace ([] : List Nat) = [] from rfl, List.append_nil]
          congr 1
          split
          · rename_i he
            rw [he]
            exact words_front (by simp; rfl) _
          · rfl
      · exact ⟨hpush, by simp, by simp [Folding.words, hw]⟩

theorem foldl_append_fine (max : Nat) (ps : List (Txt × Txt)) (hps : CurFine ps) : ∀ s : Folding, CurFine s.cur →
    (s.cur = [] ∨ ∀ p, ps.head? = some p → p.1 ≠ []) →
    CurFine (ps.foldl (Folding.append max) s).cur ∧
      Folding.words (ps.foldl (Folding.append max) s) = Folding.words s ++ words isSpace (lineText ps) := by
  induction ps with
  | nil => intro s h _; exact ⟨h, by simp [lineText, words, wordsFrom, Py.Text.flush]⟩
  | cons p ps ih =>
    intro s h ht
    obtain ⟨h1, h2, h3⟩ := append_fine max s p h (hps.blank p (by simp)) (hps.some' p (by simp))
      (by rcases ht with ht | ht
          · exact .inl ht
          · exact .inr (ht p rfl))
    have hps' : CurFine ps := hps.drop 1
    have hh : ∀ q, ps.head? = some q → q.1 ≠ [] ∧ ∀ c ∈ q.1, isBlank c = true := fun q hq =>
      ⟨hps.tail q (List.mem_of_mem_head? hq), hps'.blank q (List.mem_of_mem_head? hq)⟩
    obtain ⟨h4, h5⟩ := ih hps' (s.append max p) h1 (.inr fun q hq => (hh q hq).1)
    refine ⟨h4, ?_⟩
    rw [List.foldl_cons, h5, h3, List.append_assoc]
    have := words_lineText (a := [p]) hh
    rw [List.singleton_append] at this
    rw [this]
    simp [lineText]

theorem chunks_fine (l : Txt) : CurFine (chunks l) :=
  have h := chunks_spec l
  ⟨fun p hp => (h.2.1 p hp).1, fun p hp => (h.2.1 p hp).2, h.2.2.1⟩

theorem feed_fine (max : Nat) (s : Folding) (l : Txt) (h : s.cur = []) :
    CurFine (s.feed max l).cur ∧ Folding.words (s.feed max l) = Folding.words s ++ words isSpace l := by
  have := foldl_append_fine max (chunks l) (chunks_fine l) s (by rw [h]; exact .nil) (.inl h)
  rwa [(chunks_spec l).1] at this

/-- The words of a header are those of its value. -/
theorem encoded_words (max : Nat) (name v : Txt) :
    (encodedLines max name v).flatMap (words isSpace) = words isSpace v := by
  have more : ∀ (ls : List Txt) (s : Folding),
      Folding.words (ls.foldl (fun s l => s.newline.feed max l) s) =
        Folding.words s ++ ls.flatMap (words isSpace) := by
    intro ls
    induction ls with
    | nil => intro s; simp
    | cons l ls ih =>
      intro s
      rw [List.foldl_cons, ih, (feed_fine max s.newline l rfl).2, newline_words]
      simp
  have last : ∀ s : Folding, (Folding.newline { s with cur := s.cur ++ [([32], [])] }).lines.flatMap (words isSpace) =
      Folding.words s := by
    intro s
    have := newline_words { s with cur := s.cur ++ [([32], [])] }
    rw [Folding.words, show lineText (Folding.newline { s with cur := s.cur ++ [([32], [])] }).cur = [] from rfl,
      show words isSpace ([] : List Nat) = [] from rfl, List.append_nil] at this
    rw [this]
    simp only [Folding.words, lineText_append]
    rw [words_back _ (by simp [lineText]; rfl)]
  have hif : ∀ (b : Prop) [Decidable b] (s : Folding), Folding.words (if b then s.newline else s) = Folding.words s := by
    intro b _ s; split
    · exact newline_words s
    · rfl
  unfold encodedLines
  simp only
  rw [last, hif, more, (feed_fine max _ _ rfl).2, words_splitLines v]
  simp only [Folding.words, lineText, List.flatMap_nil]
  cases splitLines v with
  | nil => rfl
  | cons l ls => rfl

/-! ### Folding and the lines -/

theorem startsBlank_append {a b : Txt} (h : startsBlank a = true) : startsBlank (a ++ b) = true := by
  cases a with
  | nil => cases h
  | cons c a => exact h

theorem startsBlank_lineText {cur : List (Txt × Txt)} (h : CurFine cur)
    (hh : ∀ p, cur.head? = some p → p.1 ≠ []) (hne : lineText cur ≠ []) :
    startsBlank (lineText cur) = true := by
  cases cur with
  | nil => exact absurd rfl hne
  | cons p cur =>
    obtain ⟨f, w⟩ := p
    cases f with
    | nil => exact absurd rfl (hh ([], w) rfl)
    | cons y f =>
      have := h.blank (y :: f, w) (by simp) y (by simp)
      simpa [lineText, startsBlank] using this

/-- What holds of the lines made: all characters have the property Q, only the first line
can be empty, and, if the value allows it (`ok`), every line but the first begins with a
blank. -/
structure LinesFine (Q : Nat → Prop) (ok : Prop) (s : Folding) : Prop where
  done : ∀ l ∈ s.lines, ∀ c ∈ l, Q c
  cur : ∀ p ∈ s.cur, (∀ c ∈ p.1, Q c) ∧ ∀ c ∈ p.2, Q c
  ne : ∀ l ∈ s.lines.tail, l ≠ []
  init : 0 < s.init → s.lines = []
  starts : ok → ∀ l ∈ s.lines.tail, startsBlank l = true
  head : ok → s.lines ≠ [] → ∀ p, s.cur.head? = some p → p.1 ≠ []

theorem lineText_chars {Q : Nat → Prop} {cur : List (Txt × Txt)}
    (h : ∀ p ∈ cur, (∀ c ∈ p.1, Q c) ∧ ∀ c ∈ p.2, Q c) : ∀ c ∈ lineText cur, Q c := by
  intro c hc
  obtain ⟨p, hp, hc⟩ := List.mem_flatMap.1 hc
  rcases List.mem_append.1 hc with hc | hc
  · exact (h p hp).1 c hc
  · exact (h p hp).2 c hc

theorem mem_tail_concat {α : Type} {ys : List α} {y x : α} (h : x ∈ (ys ++ [y]).tail) :
    x ∈ ys.tail ∨ x = y ∧ ys ≠ [] := by
  cases ys with
  | nil => simp at h
  | cons z ys =>
    simp only [List.cons_append, List.tail_cons, List.mem_append, List.mem_singleton] at h
    rcases h with h | h
    · exact .inl h
    · exact .inr ⟨h, by simp⟩

theorem newline_lines {Q : Nat → Prop} {ok : Prop} {s : Folding} (h : LinesFine Q ok s) (hc : CurFine s.cur) :
    LinesFine Q ok s.newline := by
  unfold Folding.newline
  have hpre : (if s.cur.getLast? = some ([32], []) then s.cur.dropLast else s.cur) <+: s.cur := by
    split
    · exact List.dropLast_prefix _
    · exact List.prefix_refl _
  generalize (if s.cur.getLast? = some ([32], []) then s.cur.dropLast else s.cur) = cur at hpre
  have hq : ∀ c ∈ lineText cur, Q c := lineText_chars (fun p hp => h.cur p (hpre.subset hp))
  have hc' : CurFine cur := by
    obtain ⟨t, ht⟩ := hpre
    refine ⟨fun p hp => hc.blank p (by rw [← ht]; simp [hp]), fun p hp => hc.some' p (by rw [← ht]; simp [hp]), ?_⟩
    intro p hp
    refine hc.tail p ?_
    rw [← ht]
    cases cur with
    | nil => cases hp
    | cons q cur => simp at hp ⊢; exact .inl hp
  have hhead : ∀ p, cur.head? = some p → s.cur.head? = some p := by
    intro p hp
    obtain ⟨t, ht⟩ := hpre
    rw [← ht]
    cases cur with
    | nil => cases hp
    | cons q cur => simpa using hp
  simp only
  split
  · exact ⟨h.done, by simp, h.ne, by simp, h.starts, by simp⟩
  · rename_i h0
    split
    · rename_i h1
      obtain ⟨ys, y, hys⟩ := List.eq_nil_or_concat s.lines |>.resolve_left h1.2.2
      rw [List.concat_eq_append] at hys
      have hd := h.done
      have hn := h.ne
      have hst := h.starts
      rw [hys] at hd hn hst
      rw [hys]
      simp only [List.dropLast_concat, List.getLastD_concat]
      have hmem : ys ≠ [] → y ∈ (ys ++ [y]).tail := by
        intro hne
        cases ys with
        | nil => exact absurd rfl hne
        | cons z ys => simp
      refine ⟨?_, by simp, ?_, by simp, ?_, by simp⟩
      · intro l hl c hcl
        rcases List.mem_append.1 hl with hl | hl
        · exact hd l (by simp [hl]) c hcl
        · rw [List.mem_singleton.1 hl] at hcl
          rcases List.mem_append.1 hcl with hcl | hcl
          · exact hd y (by simp) c hcl
          · exact hq c hcl
      · intro l hl
        rcases mem_tail_concat hl with hl | ⟨rfl, hne⟩
        · exact hn l (by cases ys with | nil => cases hl | cons z ys => simp at hl ⊢; exact .inl hl)
        · have := hn y (hmem hne)
          intro he
          exact this (List.append_eq_nil_iff.1 he).1
      · intro hok l hl
        rcases mem_tail_concat hl with hl | ⟨rfl, hne⟩
        · exact hst hok l (by cases ys with | nil => cases hl | cons z ys => simp at hl ⊢; exact .inl hl)
        · exact startsBlank_append (hst hok y (hmem hne))
    · have hne : s.lines ≠ [] → lineText cur ≠ [] := by
        intro hl he
        have : s.init = 0 := by
          by_contra hi
          exact hl (h.init (by omega))
        exact h0 (by rw [this, he]; rfl)
      refine ⟨?_, by simp, ?_, by simp, ?_, by simp⟩
      · intro l hl c hcl
        rcases List.mem_append.1 hl with hl | hl
        · exact h.done l hl c hcl
        · rw [List.mem_singleton.1 hl] at hcl
          exact hq c hcl
      · intro l hl
        rcases mem_tail_concat hl with hl | ⟨rfl, hln⟩
        · exact h.ne l hl
        · exact hne hln
      · intro hok l hl
        rcases mem_tail_concat hl with hl | ⟨rfl, hln⟩
        · exact h.starts hok l hl
        · exact startsBlank_lineText hc' (fun p hp => h.head hok hln p (hhead p hp)) (hne hln)

theorem append_lines {Q : Nat → Prop} {ok : Prop} (hQ : Q 32) (max : Nat) (s : Folding) (p : Txt × Txt)
    (h : LinesFine Q ok s) (hc : CurFine s.cur)
    (hp : ∀ c ∈ p.1, isBlank c = true) (hs : p.1 ≠ [] ∨ p.2 ≠ []) (ht : s.cur = [] ∨ p.1 ≠ [])
    (hq : (∀ c ∈ p.1, Q c) ∧ ∀ c ∈ p.2, Q c) (hh : ok → s.lines ≠ [] → s.cur = [] → p.1 ≠ []) :
    LinesFine Q ok (s.append max p) := by
  have hpush := hc.push hp hs ht
  have hcq : ∀ q ∈ s.cur ++ [p], (∀ c ∈ q.1, Q c) ∧ ∀ c ∈ q.2, Q c := by
    intro q hqm
    rcases List.mem_append.1 hqm with hqm | hqm
    · exact h.cur q hqm
    · rw [List.mem_singleton.1 hqm]; exact hq
  have hhd : ok → s.lines ≠ [] → ∀ q, (s.cur ++ [p]).head? = some q → q.1 ≠ [] := by
    intro hok hl q hqh
    cases hcur : s.cur with
    | nil =>
      rw [hcur] at hqh
      simp at hqh
      subst hqh
      exact hh hok hl hcur
    | cons z zs =>
      refine h.head hok hl q ?_
      rw [hcur] at hqh ⊢
      simpa using hqh
  have hpushed : LinesFine Q ok { s with cur := s.cur ++ [p] } := ⟨h.done, hcq, h.ne, h.init, h.starts, hhd⟩
  unfold Folding.append
  simp only
  split
  · exact hpushed
  · split
    · rename_i i hi
      obtain ⟨h1, h2⟩ := findSplit_spec hi
      have hne : lineText ((s.cur ++ [p]).take i) ≠ [] := by
        cases hcur : s.cur ++ [p] with
        | nil => simp at hcur
        | cons z zs =>
          obtain ⟨j, rfl⟩ := Nat.exists_eq_add_of_le' h1
          have := hpush.some' z (by rw [hcur]; simp)
          intro he
          simp [lineText] at he
          rcases this with this | this
          · exact this he.1
          · exact this he.2.1
      have htake : CurFine ((s.cur ++ [p]).take i) := by
        refine ⟨fun q hq => hpush.blank q (List.mem_of_mem_take hq), fun q hq => hpush.some' q (List.mem_of_mem_take hq), ?_⟩
        intro q hq
        refine hpush.tail q ?_
        cases hcur : s.cur ++ [p] with
        | nil => simp at hcur
        | cons z zs =>
          rw [hcur] at hq
          obtain ⟨j, rfl⟩ := Nat.exists_eq_add_of_le' h1
          simp at hq ⊢
          exact List.mem_of_mem_take hq
      refine ⟨?_, fun q hq => hcq q (List.mem_of_mem_drop hq), ?_, by simp, ?_, ?_⟩
      · intro l hl c hcl
        rcases List.mem_append.1 hl with hl | hl
        · exact h.done l hl c hcl
        · rw [List.mem_singleton.1 hl] at hcl
          exact lineText_chars (fun q hq => hcq q (List.mem_of_mem_take hq)) c hcl
      · intro l hl
        rcases mem_tail_concat hl with hl | ⟨rfl, -⟩
        · exact h.ne l hl
        · exact hne
      · intro hok l hl
        rcases mem_tail_concat hl with hl | ⟨rfl, hln⟩
        · exact h.starts hok l hl
        · refine startsBlank_lineText htake (fun q hq => hhd hok hln q ?_) hne
          cases hcur : s.cur ++ [p] with
          | nil => simp at hcur
          | cons z zs =>
            rw [hcur] at hq
            obtain ⟨j, rfl⟩ := Nat.exists_eq_add_of_le' h1
            simpa using hq
      · intro _ _ q hq
        exact (head_drop_fine hpush h1 q hq).1
    · split
      · have hn := newline_lines h hc
        have e : s.newline.cur = [] := rfl
        refine ⟨hn.done, ?_, hn.ne, by simp [Folding.newline], hn.starts, ?_⟩
        · intro q hqm
          rw [e, List.nil_append, List.mem_singleton] at hqm
          subst hqm
          refine ⟨?_, hq.2⟩
          dsimp only
          split
          · simpa using hQ
          · exact hq.1
        · intro _ _ q hqm
          rw [e] at hqm
          simp at hqm
          subst hqm
          dsimp only
          split
          · simp
          · assumption
      · exact hpushed

theorem foldl_append_lines {Q : Nat → Prop} {ok : Prop} (hQ : Q 32) (max : Nat) (ps : List (Txt × Txt))
    (hps : CurFine ps) (hq : ∀ p ∈ ps, (∀ c ∈ p.1, Q c) ∧ ∀ c ∈ p.2, Q c) : ∀ s : Folding, LinesFine Q ok s →
    CurFine s.cur → (s.cur = [] ∨ ∀ p, ps.head? = some p → p.1 ≠ []) →
    (ok → s.lines ≠ [] → s.cur = [] → ∀ p, ps.head? = some p → p.1 ≠ []) →
    LinesFine Q ok (ps.foldl (Folding.append max) s) := by
  induction ps with
  | nil => intro s h _ _ _; exact h
  | cons p ps ih =>
    intro s h hc ht hh
    have ht' : s.cur = [] ∨ p.1 ≠ [] := ht.imp_right fun h => h p rfl
    obtain ⟨h1, h2, -⟩ := append_fine max s p hc (hps.blank p (by simp)) (hps.some' p (by simp)) ht'
    have h3 := append_lines hQ max s p h hc (hps.blank p (by simp)) (hps.some' p (by simp)) ht'
      (hq p (by simp)) (fun hok hl hcur => hh hok hl hcur p rfl)
    exact ih (hps.drop 1) (fun q hqm => hq q (by simp [hqm])) _ h3 h1
      (.inr fun q hqm => hps.tail q (List.mem_of_mem_head? hqm)) (fun _ _ he => absurd he h2)

theorem feed_lines {Q : Nat → Prop} {ok : Prop} (hQ : Q 32) (max : Nat) (s : Folding) (l : Txt)
    (h : LinesFine Q ok s) (hc : s.cur = []) (hq : ∀ c ∈ l, Q c)
    (hb : ok → s.lines ≠ [] → startsBlank l = true) : LinesFine Q ok (s.feed max l) := by
  have hsp := chunks_spec l
  have hqc : ∀ p ∈ chunks l, (∀ c ∈ p.1, Q c) ∧ ∀ c ∈ p.2, Q c := by
    intro p hp
    have : ∀ c ∈ p.1 ++ p.2, c ∈ l := by
      intro c hcm
      rw [← hsp.1]
      exact List.mem_flatMap.2 ⟨p, hp, hcm⟩
    exact ⟨fun c hcm => hq c (this c (by simp [hcm])), fun c hcm => hq c (this c (by simp [hcm]))⟩
  refine foldl_append_lines hQ max (chunks l) (chunks_fine l) hqc s h (by rw [hc]; exact .nil) (.inl hc) ?_
  intro hok hl _ p hp he
  have := hsp.2.2.2 p hp he
  rw [hb hok hl] at this
  cases this

/-- The lines made from a value: their characters are those of its lines and spaces, only
the first can be empty, and they begin with a blank if those of the value do. -/
theorem encoded_lines {Q : Nat → Prop} (hQ : Q 32) (max : Nat) (name v : Txt)
    (hq : ∀ l ∈ splitLines v, ∀ c ∈ l, Q c) :
    (∀ l ∈ encodedLines max name v, ∀ c ∈ l, Q c) ∧
    (∀ l ∈ (encodedLines max name v).tail, l ≠ []) ∧
    ((∀ l ∈ (splitLines v).tail, startsBlank l = true) →
      ∀ l ∈ (encodedLines max name v).tail, startsBlank l = true) := by
  let ok : Prop := ∀ l ∈ (splitLines v).tail, startsBlank l = true
  have more : ∀ (ls : List Txt) (s : Folding), (∀ l ∈ ls, ∀ c ∈ l, Q c) → (ok → ∀ l ∈ ls, startsBlank l = true) →
      LinesFine Q ok s → CurFine s.cur →
      LinesFine Q ok (ls.foldl (fun s l => s.newline.feed max l) s) ∧
        CurFine (ls.foldl (fun s l => s.newline.feed max l) s).cur := by
    intro ls
    induction ls with
    | nil => intro s _ _ h hc; exact ⟨h, hc⟩
    | cons l ls ih =>
      intro s hqs hb h hc
      rw [List.foldl_cons]
      refine ih _ (fun k hk => hqs k (by simp [hk])) (fun hok k hk => hb hok k (by simp [hk])) ?_
        (feed_fine max s.newline l rfl).1
      exact feed_lines hQ max s.newline l (newline_lines h hc) rfl (hqs l (by simp)) (fun hok _ => hb hok l (by simp))
  have h0 : LinesFine Q ok ⟨[], [], name.length + 2⟩ :=
    ⟨by simp, by simp, by simp, by simp, by simp, by simp⟩
  have hq0 : ∀ c ∈ (splitLines v).headD [], Q c := by
    cases hv : splitLines v with
    | nil => simp
    | cons l ls => exact hq l (by rw [hv]; simp)
  have h1 := feed_lines hQ max _ _ h0 rfl hq0 (fun _ h => absurd rfl h)
  have c1 := (feed_fine max ⟨[], [], name.length + 2⟩ ((splitLines v).headD []) rfl).1
  obtain ⟨h2, c2⟩ := more (splitLines v).tail _ (fun l hl => hq l (List.mem_of_mem_tail hl))
    (fun hok => hok) h1 c1
  have key : ∀ (b : Prop) [Decidable b] (s : Folding), LinesFine Q ok s → CurFine s.cur →
      LinesFine Q ok (Folding.newline { (if b then s.newline else s) with
        cur := (if b then s.newline else s).cur ++ [([32], [])] }) := by
    intro b _ s h hc
    have h3 : LinesFine Q ok (if b then s.newline else s) := by
      split
      · exact newline_lines h hc
      · exact h
    have c3 : CurFine (if b then s.newline else s).cur := by
      split
      · exact CurFine.nil
      · exact hc
    generalize (if b then s.newline else s) = s at h3 c3
    refine newline_lines ⟨h3.done, ?_, h3.ne, h3.init, h3.starts, ?_⟩ ?_
    · intro p hp
      rcases List.mem_append.1 hp with hp | hp
      · exact h3.cur p hp
      · rw [List.mem_singleton.1 hp]
        exact ⟨by simpa using hQ, by simp⟩
    · intro hok hl p hp
      cases hcur : s.cur with
      | nil => rw [hcur] at hp; simp at hp; subst hp; simp
      | cons z zs =>
        refine h3.head hok hl p ?_
        rw [hcur] at hp ⊢
        simpa using hp
    · exact c3.push (by simp; rfl) (.inl (by simp)) (.inr (by simp))
  have h4 := key (1 < (splitLines v).length) _ h2 c2
  exact ⟨h4.done, h4.ne, h4.starts⟩

end Sb.Props
