import Verif.Model.Message

/-
Properties C43 (force_crlf) and C44 (insert_exception_header) of message.py.
-/

namespace Sb.Props
open Sb.Mail Py

/-! ### C43 -/

/-- The lines of a text, ended by CR LF, by CR or by LF. -/
def lines : Txt → List Txt
  | [] => [[]]
  | 13 :: 10 :: r => [] :: lines r
  | c :: r =>
    if c = 13 ∨ c = 10 then [] :: lines r
    else match lines r with
      | l :: ls => (c :: l) :: ls
      | [] => [[c]]

/-- Lines joined by CR LF. -/
def joinCrlf : List Txt → Txt
  | [] => []
  | [a] => a
  | a :: b :: r => a ++ 13 :: 10 :: joinCrlf (b :: r)

theorem lines_crlf (r : Txt) : lines (13 :: 10 :: r) = [] :: lines r := by rw [lines]

theorem lines_cons {c : Nat} {r : Txt} (h : ∀ s, c :: r ≠ 13 :: 10 :: s) :
    lines (c :: r) = if c = 13 ∨ c = 10 then [] :: lines r
      else match lines r with
        | l :: ls => (c :: l) :: ls
        | [] => [[c]] := by
  rw [lines]
  intro s h1 h2
  exact h s (by rw [h1, h2])

theorem crlf_cons {c : Nat} {r : Txt} (h : ∀ s, c :: r ≠ 13 :: 10 :: s) :
    forceCrlf (c :: r) = if c = 13 ∨ c = 10 then 13 :: 10 :: forceCrlf r
      else c :: forceCrlf r := by
  rw [forceCrlf]
  intro s h1 h2
  exact h s (by rw [h1, h2])

/-- Induction that follows the pattern CR LF. -/
theorem crlf_induction {P : Txt → Prop} (h0 : P []) (h1 : ∀ r, P r → P (13 :: 10 :: r))
    (h2 : ∀ c r, (∀ s, c :: r ≠ 13 :: 10 :: s) → P r → P (c :: r)) : ∀ s, P s := by
  intro s
  generalize hn : s.length = n
  induction n using Nat.strong_induction_on generalizing s with
  | _ n ih =>
    cases s with
    | nil => exact h0
    | cons c r =>
      by_cases h : ∃ t, c :: r = 13 :: 10 :: t
      · obtain ⟨t, ht⟩ := h
        rw [ht]
        refine h1 t (ih t.length ?_ t rfl)
        rw [← hn, ht]; simp only [List.length_cons]; omega
      · refine h2 c r (fun s hs => h ⟨s, hs⟩) (ih r.length ?_ r rfl)
        rw [← hn]; simp

theorem lines_ne (s : Txt) : lines s ≠ [] := by
  induction s using crlf_induction with
  | h0 => simp [lines]
  | h1 r _ => rw [lines_crlf]; simp
  | h2 c r h _ =>
    rw [lines_cons h]
    split
    · simp
    · split <;> simp

/-- force_crlf joins the lines by CR LF. -/
theorem forceCrlf_eq (s : Txt) : forceCrlf s = joinCrlf (lines s) := by
  have hj : ∀ l : List Txt, l ≠ [] → joinCrlf ([] :: l) = 13 :: 10 :: joinCrlf l := by
    intro l hl
    cases l with
    | nil => exact absurd rfl hl
    | cons a r => rfl
  induction s using crlf_induction with
  | h0 => rfl
  | h1 r ih => rw [lines_crlf, hj _ (lines_ne r), ← ih, forceCrlf]
  | h2 c r h ih =>
    rw [crlf_cons h, lines_cons h]
    split
    · rw [hj _ (lines_ne r), ih]
    · rw [ih]
      cases hl : lines r with
      | nil => exact absurd hl (lines_ne r)
      | cons a b =>
        cases b with
        | nil => rfl
        | cons x y => rfl

/-- The lines contain no line ends. -/
theorem lines_clean (s : Txt) : ∀ l ∈ lines s, ∀ c ∈ l, c ≠ 13 ∧ c ≠ 10 := by
  induction s using crlf_induction with
  | h0 => intro l hl c hc; simp [lines] at hl; simp [hl] at hc
  | h1 r ih =>
    intro l hl c hc
    rw [lines_crlf] at hl
    rcases List.mem_cons.1 hl with rfl | hl
    · cases hc
    · exact ih l hl c hc
  | h2 x r h ih =>
    intro l hl c hc
    rw [lines_cons h] at hl
    split at hl
    · rcases List.mem_cons.1 hl with rfl | hl
      · cases hc
      · exact ih l hl c hc
    · rename_i hx
      cases hr : lines r with
      | nil => exact absurd hr (lines_ne r)
      | cons a b =>
        rw [hr] at hl ih
        simp only at hl
        rcases List.mem_cons.1 hl with rfl | hl
        · rcases List.mem_cons.1 hc with rfl | hc
          · exact not_or.1 hx
          · exact ih a (by simp) c hc
        · exact ih l (by simp [hl]) c hc

theorem lines_append {a : Txt} (h : ∀ c ∈ a, c ≠ 13 ∧ c ≠ 10) (s : Txt) :
    ∀ l ls, lines s = l :: ls → lines (a ++ s) = (a ++ l) :: ls := by
  induction a with
  | nil => intro l ls h; exact h
  | cons c r ih =>
    intro l ls hs
    have hc := h c (by simp)
    rw [List.cons_append, lines_cons (by intro s' hs'; exact hc.1 (List.cons.inj hs').1),
      if_neg (not_or.2 hc), ih (fun x hx => h x (by simp [hx])) l ls hs]
    rfl

/-- Splitting what was joined. -/
theorem lines_join (ls : List Txt) (hne : ls ≠ []) (h : ∀ l ∈ ls, ∀ c ∈ l, c ≠ 13 ∧ c ≠ 10) :
    lines (joinCrlf ls) = ls := by
  induction ls with
  | nil => exact absurd rfl hne
  | cons a r ih =>
    have ha := h a (by simp)
    cases r with
    | nil =>
      have := lines_append ha [] [] [] rfl
      simpa [joinCrlf] using this
    | cons b r =>
      have hr := ih (by simp) (fun l hl => h l (by simp [hl]))
      have h1 : lines (13 :: 10 :: joinCrlf (b :: r)) = [] :: b :: r := by rw [lines_crlf, hr]
      have := lines_append ha _ _ _ h1
      simpa [joinCrlf] using this

/-- force_crlf changes only the line ends: the lines stay the same. -/
theorem C43_same_lines (s : Txt) : lines (forceCrlf s) = lines s := by
  rw [forceCrlf_eq, lines_join _ (lines_ne s) (lines_clean s)]

theorem C43_idempotent (s : Txt) : forceCrlf (forceCrlf s) = forceCrlf s := by
  rw [forceCrlf_eq (forceCrlf s), C43_same_lines, ← forceCrlf_eq]

/-- In the result every CR is followed by LF and every LF preceded by CR. -/
theorem C43_crlf_only (s : Txt) :
    (∀ i, (forceCrlf s)[i]? = some 13 → (forceCrlf s)[i + 1]? = some 10) ∧
    (∀ i, (forceCrlf s)[i]? = some 10 → ∃ j, i = j + 1 ∧ (forceCrlf s)[j]? = some 13) := by
  have step : ∀ t : Txt, ((∀ i, t[i]? = some 13 → t[i + 1]? = some 10) ∧
      (∀ i, t[i]? = some 10 → ∃ j, i = j + 1 ∧ t[j]? = some 13)) →
      ((∀ i, (13 :: 10 :: t)[i]? = some 13 → (13 :: 10 :: t)[i + 1]? = some 10) ∧
      (∀ i, (13 :: 10 :: t)[i]? = some 10 → ∃ j, i = j + 1 ∧ (13 :: 10 :: t)[j]? = some 13)) := by
    rintro t ⟨h1, h2⟩
    constructor
    · intro i hi
      match i with
      | 0 => rfl
      | 1 => simp at hi
      | i + 2 => simpa using h1 i (by simpa using hi)
    · intro i hi
      match i with
      | 0 => simp at hi
      | 1 => exact ⟨0, rfl, rfl⟩
      | i + 2 =>
        obtain ⟨j, rfl, hj⟩ := h2 i (by simpa using hi)
        exact ⟨j + 2, rfl, by simpa using hj⟩
  induction s using crlf_induction with
  | h0 => simp [forceCrlf]
  | h1 r ih => rw [forceCrlf]; exact step _ ih
  | h2 c r h ih =>
    rw [crlf_cons h]
    split
    · exact step _ ih
    · rename_i hc
      constructor
      · intro i hi
        match i with
        | 0 => simp only [List.getElem?_cons_zero, Option.some.injEq] at hi; exact absurd (.inl hi) hc
        | i + 1 => simpa using ih.1 i (by simpa using hi)
      · intro i hi
        match i with
        | 0 => simp only [List.getElem?_cons_zero, Option.some.injEq] at hi; exact absurd (.inr hi) hc
        | i + 1 =>
          obtain ⟨j, rfl, hj⟩ := ih.2 i (by simpa using hi)
          exact ⟨j + 1, rfl, by simpa using hj⟩

/-- Text without stray line ends is left alone. -/
theorem C43_unchanged (ls : List Txt) (hne : ls ≠ []) (h : ∀ l ∈ ls, ∀ c ∈ l, c ≠ 13 ∧ c ≠ 10) :
    forceCrlf (joinCrlf ls) = joinCrlf ls := by
  rw [forceCrlf_eq, lines_join ls hne h]

example : forceCrlf (txt "a\r\nb\nc\rd\n\r\n") = txt "a\r\nb\r\nc\r\nd\r\n\r\n" := by decide
example : lines (txt "a\r\nb\nc\r") = [txt "a", txt "b", txt "c", []] := by decide

/-! ### C44 -/

/-- A blank line begins here: a line end followed by an empty line. -/
def BlankAt (s : Txt) : Prop := (∃ b, s = 10 :: 10 :: b) ∨ ∃ b, s = 10 :: 13 :: 10 :: b

/-- `s` is a header block, a blank line (`nl`), which is the first one, and a body. -/
structure Splits (s h nl b : Txt) : Prop where
  whole : s = h ++ nl ++ b
  blank : nl = txt "\n\n" ∨ nl = txt "\n\r\n"
  first : ∀ p q, h = p ++ q → q ≠ [] → ¬ BlankAt (q ++ nl ++ b)

/-- A text without blank line. -/
def NoBlank (s : Txt) : Prop := ∀ p q, s = p ++ q → ¬ BlankAt q

/-- Undoing the folding of the exception header. -/
def unfoldCrlf : Txt → Txt
  | [] => []
  | 13 :: 10 :: 32 :: r => 10 :: unfoldCrlf r
  | c :: r => c :: unfoldCrlf r

theorem blankAt_cons {c : Nat} {r : Txt} (h : ¬ BlankAt (c :: r)) :
    splitBlank (c :: r) = (splitBlank r).map (fun p => (c :: p.1, p.2)) := by
  rw [splitBlank]
  · intro b h1 h2; subst h1 h2; exact h (.inl ⟨b, rfl⟩)
  · intro b h1 h2; subst h1 h2; exact h (.inr ⟨b, rfl⟩)

theorem splitBlank_splits {s h nl b : Txt} (hs : Splits s h nl b) : splitBlank s = some (h, b) := by
  obtain ⟨rfl, hsep, hfirst⟩ := hs
  induction h with
  | nil =>
    rcases hsep with rfl | rfl
    · rw [show txt "\n\n" = [10, 10] by decide]; rfl
    · rw [show txt "\n\r\n" = [10, 13, 10] by decide]; rfl
  | cons c r ih =>
    have h1 : ¬ BlankAt (c :: (r ++ nl ++ b)) := hfirst [] (c :: r) rfl (by simp)
    rw [List.cons_append, List.cons_append, blankAt_cons h1,
      ih (fun p q hpq hq => hfirst (c :: p) q (by rw [hpq]; rfl) hq)]
    rfl

theorem splitBlank_none {s : Txt} (h : NoBlank s) : splitBlank s = none := by
  induction s with
  | nil => rfl
  | cons c r ih =>
    rw [blankAt_cons (h [] _ rfl), ih (fun p q hpq => h (c :: p) q (by rw [hpq]; rfl))]
    rfl

/-- Whether a blank line begins within `q` is decided by `q` and the character LF
that follows. -/
theorem blankAt_lf {q y : Txt} (hq : q ≠ []) (h : BlankAt (q ++ 10 :: y)) : BlankAt (q ++ [10]) := by
  match q, hq with
  | [a], _ =>
    rcases h with ⟨b, h⟩ | ⟨b, h⟩
    · simp only [List.cons_append, List.nil_append, List.cons.injEq] at h
      rw [h.1]; exact .inl ⟨[], rfl⟩
    · simp only [List.cons_append, List.nil_append, List.cons.injEq] at h
      exact absurd h.2.1 (by decide)
  | [a, c], _ =>
    rcases h with ⟨b, h⟩ | ⟨b, h⟩
    · simp only [List.cons_append, List.nil_append, List.cons.injEq] at h
      rw [h.1, h.2.1]; exact .inl ⟨[10], rfl⟩
    · simp only [List.cons_append, List.nil_append, List.cons.injEq] at h
      rw [h.1, h.2.1]; exact .inr ⟨[], rfl⟩
  | a :: c :: d :: r, _ =>
    rcases h with ⟨b, h⟩ | ⟨b, h⟩
    · simp only [List.cons_append, List.cons.injEq] at h
      rw [h.1, h.2.1]; exact .inl ⟨d :: (r ++ [10]), rfl⟩
    · simp only [List.cons_append, List.cons.injEq] at h
      rw [h.1, h.2.1, h.2.2.1]; exact .inr ⟨r ++ [10], rfl⟩

theorem blankAt_append {q z : Txt} (h : BlankAt q) : BlankAt (q ++ z) := by
  rcases h with ⟨b, rfl⟩ | ⟨b, rfl⟩
  · exact .inl ⟨b ++ z, rfl⟩
  · exact .inr ⟨b ++ z, rfl⟩

/-- After every LF there is a character other than CR and LF. -/
def Tight (s : Txt) : Prop := ∀ p q, s = p ++ 10 :: q → ∃ c r, q = c :: r ∧ c ≠ 10 ∧ c ≠ 13

theorem Tight.append {a b : Txt} (ha : Tight a) (hb : Tight b) : Tight (a ++ b) := by
  intro p q h
  rcases List.append_eq_append_iff.1 h with ⟨t, h1, h2⟩ | ⟨t, h1, h2⟩
  · exact hb t q h2
  · cases t with
    | nil =>
      simp only [List.nil_append] at h2
      exact hb [] q h2.symm
    | cons x t =>
      simp only [List.cons_append, List.cons.injEq] at h2
      obtain ⟨c, r, h3, h4⟩ := ha p t (by rw [h1, h2.1])
      exact ⟨c, r ++ b, by rw [h2.2, h3]; rfl, h4⟩

theorem tight_of_not_mem {a : Txt} (h : ∀ c ∈ a, c ≠ 10) : Tight a := by
  intro p q hpq
  exact absurd rfl (h 10 (by rw [hpq]; simp))

theorem tight_lf {c : Nat} {r : Txt} (hc : c ≠ 10 ∧ c ≠ 13) (h : Tight (c :: r)) :
    Tight (10 :: c :: r) := by
  intro p q hpq
  cases p with
  | nil =>
    simp only [List.nil_append, List.cons.injEq, true_and] at hpq
    exact ⟨c, r, hpq.symm, hc⟩
  | cons x p =>
    simp only [List.cons_append, List.cons.injEq] at hpq
    exact h p q hpq.2

theorem tight_tail {c : Nat} {r : Txt} (h : Tight (c :: r)) : Tight r := fun p q hpq =>
  h (c :: p) q (by rw [hpq]; rfl)

theorem tight_cons {c : Nat} {r : Txt} (hc : c ≠ 10) (h : Tight r) : Tight (c :: r) := by
  have := Tight.append (a := [c]) (b := r) (tight_of_not_mem (by simpa using hc)) h
  exact this

theorem crlfSub_cons {c : Nat} {r : Txt} (h : ∀ s, c :: r ≠ 13 :: 10 :: s) :
    crlfSub (c :: r) = if c = 10 then 13 :: 10 :: crlfSub r else c :: crlfSub r := by
  rw [crlfSub]
  intro s h1 h2
  exact h s (by rw [h1, h2])

theorem crlfSub_space (r : Txt) : crlfSub (32 :: r) = 32 :: crlfSub r := by
  rw [crlfSub_cons (by intro s hs; cases hs)]; rfl

/-- After every LF there is a space. -/
def Indented (s : Txt) : Prop := ∀ p q, s = p ++ 10 :: q → ∃ r, q = 32 :: r

theorem indented_spaced (s : Txt) : Indented (spaced s) := by
  induction s with
  | nil => intro p q h; simp [spaced] at h
  | cons c r ih =>
    intro p q h
    simp only [spaced] at h
    split at h
    · cases p with
      | nil => simp only [List.nil_append, List.cons.injEq, true_and] at h; exact ⟨_, h.symm⟩
      | cons a p =>
        cases p with
        | nil => simp at h
        | cons b p =>
          simp only [List.cons_append, List.cons.injEq] at h
          exact ih p q h.2.2
    · rename_i hc
      cases p with
      | nil => simp only [List.nil_append, List.cons.injEq] at h; exact absurd h.1 hc
      | cons a p =>
        simp only [List.cons_append, List.cons.injEq] at h
        exact ih p q h.2

theorem tight_crlfSub (t : Txt) (h : Indented t) : Tight (crlfSub t) := by
  induction t using crlf_induction with
  | h0 => exact tight_of_not_mem (by simp [crlfSub])
  | h1 r ih =>
    obtain ⟨r', rfl⟩ := h [13] r rfl
    have := ih (fun p q hpq => h (13 :: 10 :: p) q (by rw [hpq]; rfl))
    rw [crlfSub]
    rw [crlfSub_space] at this ⊢
    exact tight_cons (by decide) (tight_lf (by decide) this)
  | h2 c r hc ih =>
    have ih' := ih (fun p q hpq => h (c :: p) q (by rw [hpq]; rfl))
    rw [crlfSub_cons hc]
    split
    · rename_i h10
      subst h10
      obtain ⟨r', rfl⟩ := h [] r rfl
      rw [crlfSub_space] at ih' ⊢
      exact tight_cons (by decide) (tight_lf (by decide) ih')
    · rename_i hne; exact tight_cons hne ih'

/-- Folding can be undone if the text contains no CR. -/
theorem unfold_fold (s : Txt) (h : ∀ c ∈ s, c ≠ 13) : unfoldCrlf (crlfSub (spaced s)) = s := by
  induction s with
  | nil => rfl
  | cons c r ih =>
    have hc := h c (by simp)
    have ihr := ih (fun x hx => h x (by simp [hx]))
    simp only [spaced]
    split
    · rename_i h10
      rw [crlfSub_cons (by intro s hs; cases hs), if_pos rfl, crlfSub_space, unfoldCrlf, ihr, h10]
    · rename_i h10
      rw [crlfSub_cons (by intro s hs; exact hc (List.cons.inj hs).1), if_neg h10, unfoldCrlf, ihr]
      intro s h1 h2; exact hc h1

/-- `t` is `s` without the white space at its ends. -/
def Trimmed (s t : Txt) : Prop :=
  ∃ a b, s = a ++ t ++ b ∧ (∀ c ∈ a, isSpace c = true) ∧ (∀ c ∈ b, isSpace c = true) ∧
    (∀ c, t.head? = some c → isSpace c = false) ∧ (∀ c, t.getLast? = some c → isSpace c = false)

/-- `f` is `t` with CR LF and a space in place of every line end, which is LF or CR LF. -/
inductive Folds : Txt → Txt → Prop
  | nil : Folds [] []
  | crlf {r f : Txt} : Folds r f → Folds (13 :: 10 :: r) (13 :: 10 :: 32 :: f)
  | lf {r f : Txt} : Folds r f → Folds (10 :: r) (13 :: 10 :: 32 :: f)
  | other {c : Nat} {r f : Txt} : c ≠ 10 → (∀ r', c :: r ≠ 13 :: 10 :: r') → Folds r f → Folds (c :: r) (c :: f)

theorem trimmed_strip (s : Txt) : Trimmed s (strip s) := by
  have hd : ∀ l : Txt, ∀ c, (l.dropWhile isSpace).head? = some c → isSpace c = false := by
    intro l c h
    by_contra hc
    have := List.head?_dropWhile_not isSpace l
    rw [h] at this
    simp at this
    exact hc (by simp [this])
  refine ⟨s.takeWhile isSpace, ((s.dropWhile isSpace).reverse.takeWhile isSpace).reverse, ?_, ?_, ?_, ?_, ?_⟩
  · unfold strip
    rw [List.append_assoc, ← List.reverse_append, List.takeWhile_append_dropWhile, List.reverse_reverse,
      List.takeWhile_append_dropWhile]
  · exact fun c hc => List.all_eq_true.1 List.all_takeWhile c hc
  · exact fun c hc => List.all_eq_true.1 List.all_takeWhile c (List.mem_reverse.1 hc)
  · intro c hc
    refine hd s c ?_
    have hsuf := List.dropWhile_suffix isSpace (l := (s.dropWhile isSpace).reverse)
    have hpre : strip s <+: s.dropWhile isSpace := by
      unfold strip
      have := List.reverse_prefix.2 hsuf
      rwa [List.reverse_reverse] at this
    obtain ⟨t, ht⟩ := hpre
    rw [← ht]
    cases hq : strip s with
    | nil => rw [hq] at hc; cases hc
    | cons a r => rw [hq] at hc; simpa using hc
  · intro c hc
    unfold strip at hc
    rw [List.getLast?_reverse] at hc
    exact hd _ c hc

theorem folds_fold (t : Txt) : Folds t (crlfSub (spaced t)) := by
  induction t using crlf_induction with
  | h0 => exact .nil
  | h1 r ih =>
    simp only [spaced]
    rw [if_neg (by decide), if_pos trivial, crlfSub, crlfSub_space]
    exact .crlf ih
  | h2 c r hc ih =>
    simp only [spaced]
    split
    · rename_i h; subst h
      rw [crlfSub_cons (by intro s hs; cases hs), if_pos rfl, crlfSub_space]
      exact .lf ih
    · rename_i h
      rw [crlfSub_cons, if_neg h]
      · exact .other h hc ih
      · intro s hs
        injection hs with h1 h2
        subst h1
        cases r with
        | nil => simp [spaced] at h2
        | cons d r =>
          simp only [spaced] at h2
          split at h2
          · rename_i h3; subst h3; exact hc r rfl
          · injection h2 with h4 _; exact absurd h4 (by assumption)

/-- The header lines that get added, without the line end of the last one. -/
def addedLines (folded : Txt) (msgId : Option Txt) : Txt :=
  txt "\nX-Spambayes-Exception: " ++ folded ++ txt "\r" ++
    (match msgId with
     | none => []
     | some i => if i = [] then [] else txt "\nX-Spambayes-MailId: " ++ i ++ txt "\r")

theorem exceptionLines_eq (details : Txt) (msgId : Option Txt) :
    exceptionLines details msgId ++ txt "\r\n" =
      addedLines (crlfSub (spaced (strip details))) msgId ++ txt "\n\r\n" := by
  have e1 : txt "\nX-Spambayes-Exception: " = txt "\n" ++ exceptionName ++ txt ": " := by decide
  have e2 : txt "\nX-Spambayes-MailId: " = txt "\n" ++ (mailIdName ++ txt ": ") := by decide
  have e3 : txt "\r\n" = txt "\r" ++ txt "\n" := by decide
  have e4 : txt "\n\r\n" = txt "\n" ++ txt "\r\n" := by decide
  unfold exceptionLines addedLines
  rw [e1, e2, e4]
  cases msgId with
  | none => simp [e3]
  | some i =>
    by_cases hi : i = []
    · simp [hi, e3]
    · simp [hi, e3]

theorem tight_added (details : Txt) (msgId : Option Txt) (hid : ∀ i, msgId = some i → ∀ c ∈ i, c ≠ 10) :
    Tight (addedLines (crlfSub (spaced (strip details))) msgId) := by
  have t1 : Tight (txt "\nX-Spambayes-Exception: ") := by
    rw [show txt "\nX-Spambayes-Exception: " = 10 :: 88 :: txt "-Spambayes-Exception: " by decide]
    exact tight_lf (by decide) (tight_of_not_mem (by decide))
  have t2 : Tight (txt "\nX-Spambayes-MailId: ") := by
    rw [show txt "\nX-Spambayes-MailId: " = 10 :: 88 :: txt "-Spambayes-MailId: " by decide]
    exact tight_lf (by decide) (tight_of_not_mem (by decide))
  have t3 : Tight (txt "\r") := tight_of_not_mem (by decide)
  have t0 : Tight [] := tight_of_not_mem (by simp)
  unfold addedLines
  refine ((t1.append (tight_crlfSub _ (indented_spaced _))).append t3).append ?_
  cases msgId with
  | none => exact t0
  | some i =>
    simp only
    split
    · exact t0
    · exact (t2.append (tight_of_not_mem (hid i rfl))).append t3

theorem added_head (folded : Txt) (msgId : Option Txt) :
    ∃ r, addedLines folded msgId = 10 :: 88 :: r := by
  unfold addedLines
  rw [show txt "\nX-Spambayes-Exception: " = 10 :: 88 :: txt "-Spambayes-Exception: " by decide]
  exact ⟨_, rfl⟩

/-- Appending tight lines to a header block gives a header block. -/
theorem splits_added {h A b : Txt} (hA : Tight A) (hhead : ∃ r, A = 10 :: r)
    (hh : ∀ p q, h = p ++ q → q ≠ [] → ¬ BlankAt (q ++ [10])) :
    Splits (h ++ A ++ txt "\n\r\n" ++ b) (h ++ A) (txt "\n\r\n") b := by
  refine ⟨rfl, .inr rfl, ?_⟩
  intro p q hpq hq hblank
  rcases List.append_eq_append_iff.1 hpq with ⟨t, h1, h2⟩ | ⟨t, h1, h2⟩
  · -- the rest begins inside the added lines
    have key : ∀ x, BlankAt (q ++ x) → q.head? = some 10 := by
      intro x hx
      cases q with
      | nil => exact absurd rfl hq
      | cons a r =>
        rcases hx with ⟨b, hx⟩ | ⟨b, hx⟩ <;>
          (simp only [List.cons_append, List.cons.injEq] at hx; simp [hx.1])
    rw [List.append_assoc] at hblank
    have hhd := key _ hblank
    cases q with
    | nil => exact absurd rfl hq
    | cons a r =>
      simp only [List.head?_cons, Option.some.injEq] at hhd
      subst hhd
      obtain ⟨c, r', rfl, h3, h4⟩ := hA t r h2
      rcases hblank with ⟨b', hb⟩ | ⟨b', hb⟩
      · simp only [List.cons_append, List.cons.injEq, true_and] at hb; exact h3 hb.1
      · simp only [List.cons_append, List.cons.injEq, true_and] at hb; exact h4 hb.1
  · -- the rest begins in the old header block
    cases t with
    | nil =>
      simp only [List.nil_append] at h2
      obtain ⟨r, hr⟩ := hhead
      rw [h2, hr] at hblank
      obtain ⟨c, r', h5, h3, h4⟩ := hA [] r hr
      rw [h5] at hblank
      rcases hblank with ⟨b', hb⟩ | ⟨b', hb⟩
      · simp only [List.cons_append, List.cons.injEq, true_and] at hb; exact h3 hb.1
      · simp only [List.cons_append, List.cons.injEq, true_and] at hb; exact h4 hb.1
    | cons x t =>
      obtain ⟨r, hr⟩ := hhead
      refine hh p (x :: t) h1 (by simp) ?_
      rw [h2, hr] at hblank
      have : x :: t ++ 10 :: r ++ txt "\n\r\n" ++ b =
          (x :: t) ++ 10 :: (r ++ txt "\n\r\n" ++ b) := by simp
      rw [this] at hblank
      exact blankAt_lf (by simp) hblank

/-- A message with a blank line: its body is kept, and its header block is continued
by the exception header (the traceback, folded) and the id header if an id is given. -/
theorem C44_body_kept (details s h nl b : Txt) (msgId : Option Txt) (hs : Splits s h nl b)
    (hid : ∀ i, msgId = some i → ∀ c ∈ i, c ≠ 10) :
    ∃ text folded, Trimmed details text ∧ Folds text folded ∧
      Splits (insertExceptionHeader details s msgId).1
        (h ++ addedLines folded msgId) (txt "\n\r\n") b ∧
      ((∀ c ∈ details, c ≠ 13) → unfoldCrlf folded = text) ∧
      (insertExceptionHeader details s msgId).2 = details := by
  refine ⟨strip details, crlfSub (spaced (strip details)), trimmed_strip _, folds_fold _, ?_, ?_, rfl⟩
  · have : (insertExceptionHeader details s msgId).1 =
        h ++ addedLines (crlfSub (spaced (strip details))) msgId ++ txt "\n\r\n" ++ b := by
      unfold insertExceptionHeader
      rw [splitBlank_splits hs]
      simp only
      rw [List.append_assoc h, exceptionLines_eq]
      simp only [List.append_assoc]
    rw [this]
    obtain ⟨r, hr⟩ := added_head (crlfSub (spaced (strip details))) msgId
    refine splits_added (tight_added details msgId hid) ⟨_, hr⟩ ?_
    intro p q hpq hq hb
    refine hs.first p q hpq hq ?_
    rcases hs.blank with h1 | h1
    · rw [h1, show txt "\n\n" = [10] ++ [10] by decide, ← List.append_assoc, List.append_assoc]
      exact blankAt_append hb
    · rw [h1, show txt "\n\r\n" = [10] ++ [13, 10] by decide, ← List.append_assoc, List.append_assoc]
      exact blankAt_append hb
  · intro hcr
    refine unfold_fold _ (fun c hc => hcr c ?_)
    unfold strip at hc
    have h1 := List.mem_reverse.1 hc
    have h2 := (List.dropWhile_sublist _).mem h1
    have h3 := List.mem_reverse.1 h2
    exact (List.dropWhile_sublist _).mem h3

/-- A message without blank line that does not end in a line end either: the headers
are added at the end and the body is empty. -/
theorem C44_headers_only (details s : Txt) (msgId : Option Txt) (hs : NoBlank s)
    (hend : ∀ p, s ≠ p ++ txt "\n" ∧ s ≠ p ++ txt "\n\r")
    (hid : ∀ i, msgId = some i → ∀ c ∈ i, c ≠ 10) :
    ∃ text folded, Trimmed details text ∧ Folds text folded ∧
      Splits (insertExceptionHeader details s msgId).1 (s ++ addedLines folded msgId) (txt "\n\r\n") [] := by
  refine ⟨strip details, crlfSub (spaced (strip details)), trimmed_strip _, folds_fold _, ?_⟩
  have : (insertExceptionHeader details s msgId).1 =
      s ++ addedLines (crlfSub (spaced (strip details))) msgId ++ txt "\n\r\n" ++ [] := by
    unfold insertExceptionHeader
    rw [splitBlank_none hs]
    simp only [List.append_nil]
    rw [List.append_assoc s, exceptionLines_eq, List.append_assoc s]
  rw [this]
  obtain ⟨r, hr⟩ := added_head (crlfSub (spaced (strip details))) msgId
  refine splits_added (tight_added details msgId hid) ⟨_, hr⟩ ?_
  intro p q hpq hq hb
  have hno := hs p q hpq
  match q, hq with
  | [a], _ =>
    rcases hb with ⟨b, h⟩ | ⟨b, h⟩
    · simp only [List.cons_append, List.nil_append, List.cons.injEq] at h
      exact (hend p).1 (by rw [hpq, h.1]; rfl)
    · simp at h
  | [a, c], _ =>
    rcases hb with ⟨b, h⟩ | ⟨b, h⟩
    · simp only [List.cons_append, List.nil_append, List.cons.injEq] at h
      exact hno (.inl ⟨[], by rw [h.1, h.2.1]⟩)
    · simp only [List.cons_append, List.nil_append, List.cons.injEq] at h
      exact (hend p).2 (by rw [hpq, h.1, h.2.1]; rfl)
  | a :: c :: d :: r, _ =>
    rcases hb with ⟨b, h⟩ | ⟨b, h⟩
    · simp only [List.cons_append, List.cons.injEq] at h
      exact hno (.inl ⟨d :: r, by rw [h.1, h.2.1]⟩)
    · simp only [List.cons_append, List.cons.injEq] at h
      exact hno (.inr ⟨r, by rw [h.1, h.2.1, h.2.2.1]⟩)

/-- A message without blank line that ends in a line end: the header block of the
result is the old one, and the added headers are the body. -/
theorem C44_headers_fall_into_body (details s : Txt) (msgId : Option Txt)
    (hs : NoBlank (s ++ txt "\n")) :
    ∃ text folded rest, Trimmed details text ∧ Folds text folded ∧ addedLines folded msgId = txt "\n" ++ rest ∧
      Splits (insertExceptionHeader details (s ++ txt "\n") msgId).1 s (txt "\n\n")
        (rest ++ txt "\n\r\n") := by
  obtain ⟨r, hr⟩ := added_head (crlfSub (spaced (strip details))) msgId
  refine ⟨strip details, _, 88 :: r, trimmed_strip _, folds_fold _, hr, ?_⟩
  refine ⟨?_, .inl rfl, ?_⟩
  · unfold insertExceptionHeader
    rw [splitBlank_none hs]
    simp only [List.append_nil]
    rw [List.append_assoc (s ++ _), exceptionLines_eq, hr,
      show txt "\n\n" = txt "\n" ++ [10] by decide]
    simp
  · intro p q hpq hq hb
    refine hs p (q ++ txt "\n") (by rw [hpq, List.append_assoc]) ?_
    have : q ++ txt "\n\n" ++ (88 :: r ++ txt "\n\r\n") =
        q ++ 10 :: (10 :: (88 :: r ++ txt "\n\r\n")) := by
      rw [show txt "\n\n" = [10, 10] by decide, List.append_assoc]; rfl
    rw [this] at hb
    exact blankAt_lf hq hb

/-- A message whose header block is empty, so that it begins with a line end, still
does afterwards: the exception header is in the body. -/
theorem C44_no_header_block (details r : Txt) (msgId : Option Txt) :
    ∃ r', (insertExceptionHeader details (txt "\n" ++ r) msgId).1 = txt "\n" ++ r' := by
  obtain ⟨x, hx⟩ := added_head (crlfSub (spaced (strip details))) msgId
  unfold insertExceptionHeader
  have key : ∀ h t : Txt, ∃ r', h ++ exceptionLines details msgId ++ txt "\r\n" ++ t =
      h ++ (txt "\n" ++ r') := by
    intro h t
    rw [List.append_assoc h, exceptionLines_eq, hx]
    exact ⟨88 :: x ++ txt "\n\r\n" ++ t, by
      rw [show txt "\n" = [10] by decide]; simp⟩
  cases hsp : splitBlank (txt "\n" ++ r) with
  | none =>
    obtain ⟨r', hr'⟩ := key (txt "\n" ++ r) []
    exact ⟨r ++ (txt "\n" ++ r'), by simpa only [List.append_assoc] using hr'⟩
  | some p =>
    obtain ⟨h, b⟩ := p
    obtain ⟨r', hr'⟩ := key h b
    cases h with
    | nil => exact ⟨r', by simp only [hr']; rfl⟩
    | cons c h =>
      have hc : c = 10 := by
        rw [show txt "\n" ++ r = 10 :: r from rfl] at hsp
        by_cases hb : BlankAt (10 :: r)
        · rcases hb with ⟨b', hb⟩ | ⟨b', hb⟩
          · rw [hb] at hsp; simp [splitBlank] at hsp
          · rw [hb] at hsp; simp [splitBlank] at hsp
        · rw [blankAt_cons hb] at hsp
          cases hr : splitBlank r with
          | none => rw [hr] at hsp; cases hsp
          | some p => rw [hr] at hsp; cases hsp; rfl
      subst hc
      exact ⟨h ++ (txt "\n" ++ r'), by simp only [hr']; rfl⟩

/-- A message and its parts. -/
theorem example_splits : Splits (txt "A: b\r\nC: d\r\n\r\nbody\n\nmore") (txt "A: b\r\nC: d\r")
    (txt "\n\r\n") (txt "body\n\nmore") := by
  refine ⟨by decide, .inr rfl, ?_⟩
  intro p q hpq hq hb
  have hall : ∀ k < 14, ∀ q, q = (txt "A: b\r\nC: d\r").drop k → q ≠ [] →
      ¬ ((q ++ txt "\n\r\n" ++ txt "body\n\nmore").take 2 = [10, 10] ∨
        (q ++ txt "\n\r\n" ++ txt "body\n\nmore").take 3 = [10, 13, 10]) := by
    simp only [forall_eq]; decide
  have hlen := congrArg List.length hpq
  rw [List.length_append, show (txt "A: b\r\nC: d\r").length = 11 by decide] at hlen
  refine hall p.length (by omega) q (by rw [hpq, List.drop_left]) hq ?_
  rcases hb with ⟨b, hb⟩ | ⟨b, hb⟩
  · left; rw [hb]; rfl
  · right; rw [hb]; rfl

example : (insertExceptionHeader (txt "Traceback\n  File\nE\n") (txt "A: b\n\nbody") (some (txt "7"))).1 =
    txt ("A: b\nX-Spambayes-Exception: Traceback\r\n   File\r\n E\r\n" ++
      "X-Spambayes-MailId: 7\r\n\r\nbody") := by decide

end Sb.Props
