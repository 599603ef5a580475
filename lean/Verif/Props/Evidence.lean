import Verif.Props.MessageHeaders
import Verif.Props.MessageId
import Mathlib.Tactic.Linarith

/-
Properties C41 and C42 (the evidence header), C65 (score and level headers) and C66 (nothing
else is touched) of add_sb_headers.
-/

namespace Sb.Props
open Sb.Mail Py

/-! ### Specification -/

/-- Formatted text has no newline, tab or surrogate: `repr` escapes them. -/
structure Printable (F : Fmt) : Prop where
  repr : ∀ w, ∀ c ∈ F.repr w, c ≠ 10 ∧ c ≠ 9 ∧ isSurrogate c = false
  fixed : ∀ d p, ∀ c ∈ F.fixed d p, c ≠ 10 ∧ c ≠ 9 ∧ isSurrogate c = false

/-- `sep.join(l)` -/
def joinWith (sep : Txt) : List Txt → Txt
  | [] => []
  | [a] => a
  | a :: b :: r => a ++ sep ++ joinWith sep (b :: r)

/-- Undoing the folding of a header: newline and tab become a space. -/
def unfoldLines : Txt → Txt
  | [] => []
  | 10 :: 9 :: r => 32 :: unfoldLines r
  | c :: r => c :: unfoldLines r

/-- The clues that belong into the evidence header: the two summary clues and
those at least as extreme as the cutoff. -/
def Extreme (F : Fmt) (cutoff : PyFloat) (clue : Word × PyFloat) : Prop :=
  clue.1 = .bytes (txt "*H*") ∨ clue.1 = .bytes (txt "*S*") ∨ clue.2.le cutoff = true ∨
    PyFloat.le (F.oneMinus cutoff) clue.2 = true

instance (F : Fmt) (c : PyFloat) (x : Word × PyFloat) : Decidable (Extreme F c x) :=
  inferInstanceAs (Decidable (_ ∨ _))

/-- A token as it is printed: a str is encoded first. -/
def Printed (F : Fmt) (w w' : Word) : Prop :=
  match w with
  | .bytes _ => w' = w
  | .str t => ∃ t', F.encode t = .ok t' ∧ w' = .str t'

/-- The entry of a clue. -/
def EntryOf (F : Fmt) (clue : Word × PyFloat) (e : Txt) : Prop :=
  ∃ w, Printed F clue.1 w ∧ e = F.repr w ++ txt ": " ++ F.fixed 2 clue.2

/-! ### Steps -/

theorem bind_ok_inv {α β : Type} {f : M Msg α} {g : α → M Msg β} {m m' : Msg} {b : β}
    (h : (f >>= g) m = (.ok b, m')) : ∃ a m1, f m = (.ok a, m1) ∧ g a m1 = (.ok b, m') := by
  rw [M.bind_run] at h
  generalize hf : f m = r at h
  obtain ⟨r, m1⟩ := r
  cases r with
  | ok a => exact ⟨a, m1, rfl, h⟩
  | error e => simp at h

theorem first_snoc (h : Headers) (k n : Txt) (v : Stored) (hne : sameName k n = false) :
    Headers.first (h ++ [(k, v)]) n = Headers.first h n := by
  rw [Headers.first_append]
  have : Headers.first [(k, v)] n = none := by simp [Headers.first, hne]
  rw [this, Option.or_none]

theorem first_snoc_self (h : Headers) (n : Txt) (v : Stored) (hno : h.first n = none) :
    Headers.first (h ++ [(n, v)]) n = some (n, v) := by
  rw [Headers.first_append, hno]
  simp [Headers.first]

/-- The states between the steps of a successful add_sb_headers. -/
theorem add_steps {F : Fmt} {p : PyFloat} {cl : List (Word × PyFloat)} {o : Opts} {m m' : Msg}
    (h : addSbHeaders F p cl o m = (.ok (), m')) :
    ∃ m1 m2 m3,
      addScore F p o { m with c := some (clsOf p)
                              headers := m.headers ++ [(classificationName, .str (clsOf p).name)] } =
        (.ok (), m1) ∧
      addLevel F p o m1 = (.ok (), m2) ∧ addEvidence F cl o m2 = (.ok (), m3) ∧
      (∀ n, sameName (txt "To") n = false → sameName (txt "Subject") n = false →
        Headers.Keeps n m1.headers m'.headers) ∧
      (∀ n, sameName (txt "To") n = false → sameName (txt "Subject") n = false →
        Headers.Keeps n m2.headers m'.headers) ∧
      (∀ n, sameName (txt "To") n = false → sameName (txt "Subject") n = false →
        Headers.Keeps n m3.headers m'.headers) := by
  rw [addSbHeaders_run] at h
  obtain ⟨⟨⟩, m1, h1, h⟩ := bind_ok_inv h
  obtain ⟨⟨⟩, m2, h2, h⟩ := bind_ok_inv h
  obtain ⟨⟨⟩, m3, h3, h⟩ := bind_ok_inv h
  obtain ⟨⟨⟩, m4, h4, h5⟩ := bind_ok_inv h
  have k3 : ∀ n, sameName (txt "To") n = false → sameName (txt "Subject") n = false →
      Headers.Keeps n m3.headers m'.headers := by
    intro n ha hb
    have e1 := KeepsM.addId n o m3
    have e2 := KeepsM.addNotations o.notateTo o.notateSubject ha hb m4
    rw [h4] at e1
    rw [h5] at e2
    exact e1.trans e2
  have k2 : ∀ n, sameName (txt "To") n = false → sameName (txt "Subject") n = false →
      Headers.Keeps n m2.headers m'.headers := by
    intro n ha hb
    have e1 := KeepsM.addEvidence n F cl o m2
    rw [h3] at e1
    exact e1.trans (k3 n ha hb)
  refine ⟨m1, m2, m3, h1, h2, h3, ?_, k2, k3⟩
  intro n ha hb
  have e1 := KeepsM.addLevel n F p o m1
  rw [h2] at e1
  exact e1.trans (k2 n ha hb)

theorem addScore_first {F : Fmt} {p : PyFloat} {o : Opts} {m m1 : Msg} {n : Txt}
    (h : addScore F p o m = (.ok (), m1)) (hne : sameName scoreName n = false) :
    m1.headers.first n = m.headers.first n := by
  unfold addScore at h
  split at h
  · simp only [addHeader, M.modify_run, Prod.mk.injEq, true_and] at h
    rw [← h]; exact first_snoc _ _ _ _ hne
  · simp only [M.pure_run, Prod.mk.injEq, true_and] at h; rw [h]

theorem addLevel_first {F : Fmt} {p : PyFloat} {o : Opts} {m m1 : Msg} {n : Txt}
    (h : addLevel F p o m = (.ok (), m1)) (hne : sameName levelName n = false) :
    m1.headers.first n = m.headers.first n := by
  unfold addLevel at h
  split at h
  · cases hs : stars (F.timesTen p) with
    | ok s =>
      rw [hs] at h
      simp only [addHeader, M.modify_run, Prod.mk.injEq, true_and] at h
      rw [← h]; exact first_snoc _ _ _ _ hne
    | error e => rw [hs] at h; simp at h
  · simp only [M.pure_run, Prod.mk.injEq, true_and] at h; rw [h]

/-! ### Wrapping -/

theorem unfoldLines_append {a b : Txt} (h : ∀ c ∈ a, c ≠ 10) :
    unfoldLines (a ++ b) = a ++ unfoldLines b := by
  induction a with
  | nil => rfl
  | cons c r ih =>
    have hc := h c (by simp)
    rw [List.cons_append]
    rw [unfoldLines, ih (fun x hx => h x (by simp [hx]))]
    · rfl
    · intro r' h1; simp [hc] at h1

theorem unfold_wrap (n : Nat) (evd : List Txt) (h : ∀ e ∈ evd, ∀ c ∈ e, c ≠ 10) :
    unfoldLines (wrapFrom n evd) = joinWith (txt "; ") evd := by
  induction evd generalizing n with
  | nil => rfl
  | cons a r ih =>
    have ha := h a (by simp)
    cases r with
    | nil =>
      simp only [wrapFrom, joinWith]
      have := unfoldLines_append (b := []) ha
      simpa [unfoldLines] using this
    | cons b r =>
      have ihr := fun k => ih k (fun e he => h e (by simp [he]))
      simp only [wrapFrom, joinWith]
      split
      · rw [List.append_assoc, unfoldLines_append ha, List.append_assoc]
        congr 1
        rw [unfoldLines_append (by decide), ihr]
      · rw [List.append_assoc, unfoldLines_append ha, List.append_assoc]
        congr 1
        have : ∀ x, unfoldLines (txt ";\n\t" ++ x) = txt "; " ++ unfoldLines x := by
          intro x
          rw [show txt ";\n\t" = [59, 10, 9] by decide, show txt "; " = [59, 32] by decide]
          rfl
        rw [this, ihr]

/-- A line whose entries were put together: the counted length stays below 76. -/
def FitsFrom (n : Nat) (l : List Txt) : Prop :=
  l ≠ [] ∧ (l.length = 1 ∨ n + (l.map List.length).sum ≤ 75)

/-- The lines made by the wrapping loop. -/
theorem wrap_lines (n : Nat) (a : Txt) (r : List Txt) :
    ∃ l ls, a :: r = l ++ ls.flatten ∧
      wrapFrom n (a :: r) = joinWith (txt ";\n\t") ((l :: ls).map (joinWith (txt "; "))) ∧
      (∃ l', l = a :: l') ∧ FitsFrom n l ∧ ∀ x ∈ ls, FitsFrom 8 x := by
  induction r generalizing n a with
  | nil => exact ⟨[a], [], rfl, rfl, ⟨[], rfl⟩, ⟨by simp, .inl rfl⟩, by simp⟩
  | cons b r ih =>
    by_cases hc : n + a.length + 2 + b.length < 78
    · obtain ⟨l, ls, h1, h2, ⟨l', rfl⟩, h3, h4⟩ := ih (n + a.length) b
      refine ⟨a :: b :: l', ls, by rw [h1]; rfl, ?_, ⟨_, rfl⟩, ⟨by simp, .inr ?_⟩, h4⟩
      · simp only [wrapFrom, if_pos hc, h2]
        cases ls with
        | nil => simp [joinWith]
        | cons x y => simp [joinWith]
      · rcases h3.2 with h3 | h3
        · simp only [List.length_cons, Nat.add_eq_right, List.length_eq_zero_iff] at h3
          subst h3
          simp only [List.map_cons, List.map_nil, List.sum_cons, List.sum_nil]
          omega
        · simp only [List.map_cons, List.sum_cons] at h3 ⊢
          omega
    · obtain ⟨l, ls, h1, h2, ⟨l', rfl⟩, h3, h4⟩ := ih 8 b
      refine ⟨[a], (b :: l') :: ls, by rw [h1]; rfl, ?_, ⟨_, rfl⟩, ⟨by simp, .inl rfl⟩, ?_⟩
      · simp only [wrapFrom, if_neg hc, h2]
        simp [joinWith]
      · intro x hx
        rcases List.mem_cons.1 hx with rfl | hx
        · exact h3
        · exact h4 x hx

/-! ### C41 -/

theorem shown_iff (F : Fmt) (hco : PyFloat) (w : Word) (s : PyFloat) :
    shown F hco w s = decide (Extreme F hco (w, s)) := by
  rw [Bool.eq_iff_iff, decide_eq_true_eq]
  unfold shown Extreme
  simp only [Bool.or_eq_true, beq_iff_eq]
  rw [show txt "*H*" = [42, 72, 42] by decide, show txt "*S*" = [42, 83, 42] by decide]
  tauto

theorem evidence_entries {F : Fmt} {hco : PyFloat} {cl : List (Word × PyFloat)} {evd : List Txt}
    (h : evidence F hco cl = .ok evd) :
    List.Forall₂ (EntryOf F) (cl.filter (fun c => Extreme F hco c)) evd := by
  induction cl generalizing evd with
  | nil => cases h; exact .nil
  | cons c r ih =>
    obtain ⟨w, s⟩ := c
    rw [List.filter_cons, ← shown_iff]
    simp only [evidence] at h
    cases hs : shown F hco w s with
    | false =>
      rw [hs] at h
      simp only [Bool.false_eq_true, if_false] at h ⊢
      exact ih h
    | true =>
      rw [hs] at h
      simp only [if_true] at h ⊢
      cases hw : encodeWord F w with
      | error e => rw [hw] at h; cases h
      | ok w' =>
        rw [hw] at h
        cases hr : evidence F hco r with
        | error e => rw [hr] at h; cases h
        | ok evd' =>
          rw [hr] at h
          cases h
          refine .cons ⟨w', ?_, rfl⟩ (ih hr)
          cases w with
          | bytes b => simp only [encodeWord, Except.ok.injEq] at hw; exact hw.symm
          | str t =>
            simp only [encodeWord] at hw
            cases he : F.encode t with
            | error e => rw [he] at hw; cases hw
            | ok t' => rw [he] at hw; cases hw; exact ⟨t', he, rfl⟩

theorem wrap_mem (n : Nat) (evd : List Txt) : ∀ c ∈ wrapFrom n evd,
    (∃ e ∈ evd, c ∈ e) ∨ c ∈ txt "; " ∨ c ∈ txt ";\n\t" := by
  induction evd generalizing n with
  | nil => intro c hc; cases hc
  | cons a r ih =>
    intro c hc
    cases r with
    | nil => exact .inl ⟨a, by simp, hc⟩
    | cons b r =>
      have step : ∀ k sep, c ∈ a ++ sep ++ wrapFrom k (b :: r) →
          (∃ e ∈ a :: b :: r, c ∈ e) ∨ c ∈ txt "; " ∨ c ∈ txt ";\n\t" ∨ c ∈ sep := by
        intro k sep hc
        rcases List.mem_append.1 hc with hc | hc
        · rcases List.mem_append.1 hc with hc | hc
          · exact .inl ⟨a, by simp, hc⟩
          · exact .inr (.inr (.inr hc))
        · rcases ih k c hc with ⟨e, he, h⟩ | h | h
          · exact .inl ⟨e, by simp [he], h⟩
          · exact .inr (.inl h)
          · exact .inr (.inr (.inl h))
      simp only [wrapFrom] at hc
      split at hc
      · rcases step _ _ hc with h | h | h | h
        · exact .inl h
        · exact .inr (.inl h)
        · exact .inr (.inr h)
        · exact .inr (.inl h)
      · rcases step _ _ hc with h | h | h | h
        · exact .inl h
        · exact .inr (.inl h)
        · exact .inr (.inr h)
        · exact .inr (.inr h)

theorem entry_chars {F : Fmt} (hF : Printable F) {clue : Word × PyFloat} {e : Txt}
    (h : EntryOf F clue e) : ∀ c ∈ e, c ≠ 10 ∧ c ≠ 9 ∧ isSurrogate c = false := by
  obtain ⟨w, -, rfl⟩ := h
  intro c hc
  rcases List.mem_append.1 hc with hc | hc
  · rcases List.mem_append.1 hc with hc | hc
    · exact hF.repr w c hc
    · have : ∀ c ∈ txt ": ", c ≠ 10 ∧ c ≠ 9 ∧ isSurrogate c = false := by decide
      exact this c hc
  · exact hF.fixed 2 _ c hc

theorem forall₂_right {α β : Type} {R : α → β → Prop} {l : List α} {l' : List β}
    (h : List.Forall₂ R l l') : ∀ b ∈ l', ∃ a ∈ l, R a b := by
  induction h with
  | nil => intro b hb; cases hb
  | @cons a b _ _ hab _ ih =>
    intro x hx
    rcases List.mem_cons.1 hx with rfl | hx
    · exact ⟨a, by simp, hab⟩
    · obtain ⟨y, hy, h⟩ := ih x hx
      exact ⟨y, by simp [hy], h⟩

/-- The value of the evidence header: the wrapped list of entries. -/
theorem evidence_value (F : Fmt) (hF : Printable F) (prob : PyFloat) (clues : List (Word × PyFloat))
    (o : Opts) (m m' : Msg) (ho : o.includeEvidence = true)
    (hno : ∀ e ∈ m.headers, ¬ Named "X-Spambayes-Evidence" e)
    (hadd : addSbHeaders F prob clues o m = (.ok (), m')) :
    ∃ entries, m'.headers.get (txt "X-Spambayes-Evidence") = .str (wrapFrom 22 entries) ∧
      List.Forall₂ (EntryOf F) (clues.filter (fun c => Extreme F o.clueCutoff c)) entries := by
  obtain ⟨m1, m2, m3, h1, h2, h3, -, -, k3⟩ := add_steps hadd
  have hfirst : m2.headers.first evidenceName = none := by
    rw [addLevel_first h2 (by decide), addScore_first h1 (by decide)]
    simp only
    rw [first_snoc _ _ _ _ (by decide), Headers.first_eq_none]
    exact fun e he => not_named_iff.2 (hno e he)
  unfold addEvidence at h3
  rw [if_pos ho] at h3
  cases hev : evidence F o.clueCutoff clues with
  | error e => rw [hev] at h3; simp at h3
  | ok evd =>
    rw [hev] at h3
    simp only [addHeader, M.modify_run, Prod.mk.injEq, true_and] at h3
    have hent := evidence_entries hev
    refine ⟨evd, ?_, hent⟩
    have hf3 : m3.headers.first evidenceName = some (evidenceName, .str (wrapEvidence evd)) := by
      rw [← h3]; exact first_snoc_self _ _ _ hfirst
    have := k3 evidenceName (by decide) (by decide) _ hf3
    rw [show txt "X-Spambayes-Evidence" = evidenceName from rfl, Headers.get_eq, this]
    have hw : wrapEvidence evd = wrapFrom 22 evd := rfl
    simp only [hw]
    apply fetch_plain
    intro c hc
    rcases wrap_mem _ _ c hc with ⟨e, he, hce⟩ | h | h
    · obtain ⟨cl, -, hcl⟩ := forall₂_right hent e he
      exact (entry_chars hF hcl c hce).2.2
    · have : ∀ c ∈ txt "; ", isSurrogate c = false := by decide
      exact this c h
    · have : ∀ c ∈ txt ";\n\t", isSurrogate c = false := by decide
      exact this c h

/-- The evidence header lists exactly the extreme clues, in order: with the folding
undone it is their entries joined by "; ". -/
theorem C41_evidence (F : Fmt) (hF : Printable F) (prob : PyFloat) (clues : List (Word × PyFloat))
    (o : Opts) (m m' : Msg) (ho : o.includeEvidence = true)
    (hno : ∀ e ∈ m.headers, ¬ Named "X-Spambayes-Evidence" e)
    (hadd : addSbHeaders F prob clues o m = (.ok (), m')) :
    ∃ entries text, m'.headers.get (txt "X-Spambayes-Evidence") = .str text ∧
      unfoldLines text = joinWith (txt "; ") entries ∧
      List.Forall₂ (EntryOf F) (clues.filter (fun c => Extreme F o.clueCutoff c)) entries := by
  obtain ⟨entries, h1, h2⟩ := evidence_value F hF prob clues o m m' ho hno hadd
  refine ⟨entries, _, h1, unfold_wrap _ _ ?_, h2⟩
  intro e he c hc
  obtain ⟨cl, -, hcl⟩ := forall₂_right h2 e he
  exact (entry_chars hF hcl c hc).1

/-- With the default cutoff 0.5 every clue with a score other than NaN is listed. -/
theorem C41_default_cutoff (F : Fmt) (hF : F.oneMinus (.fin (1 / 2)) = .fin (1 / 2))
    (clues : List (Word × PyFloat)) (h : ∀ c ∈ clues, c.2 ≠ .nan) :
    clues.filter (fun c => Extreme F ({} : Opts).clueCutoff c) = clues := by
  apply List.filter_eq_self.2
  rintro ⟨w, s⟩ hc
  have hs := h _ hc
  rw [decide_eq_true_eq]
  right; right
  change s.le (.fin (1 / 2)) = true ∨ PyFloat.le (F.oneMinus (.fin (1 / 2))) s = true
  rw [hF]
  cases s with
  | nan => exact absurd rfl hs
  | posInf => right; rfl
  | negInf => left; rfl
  | fin q =>
    rcases le_total q (1 / 2) with h | h
    · left; simpa [PyFloat.le] using h
    · right; simpa [PyFloat.le] using h

/-! ### C42 -/

/-- The columns of a line that starts at column `start` and holds some entries; the
semicolon that ends every line but the last is counted for all of them. -/
def columns (start : Nat) (line : List Txt) : Nat := start + (joinWith (txt "; ") line).length + 1

/-- The physical lines of a text. -/
def physicalLines : Txt → List Txt
  | [] => [[]]
  | c :: r =>
    if c = 10 then [] :: physicalLines r
    else match physicalLines r with
      | l :: ls => (c :: l) :: ls
      | [] => [[c]]

/-- The width of a physical line: a tab, which only occurs at the start, takes it
to column 8. -/
def width (l : Txt) : Nat := (l.map (fun c => if c = 9 then 8 else 1)).sum

/-- No line of the evidence header exceeds 78 columns, if no single entry is too
long for that. -/
def C42Claim : Prop :=
  ∀ (F : Fmt) (_ : Printable F) (prob : PyFloat) (clues : List (Word × PyFloat)) (o : Opts)
    (m m' : Msg) (text : Txt),
    (∀ c ∈ clues, ∀ e, EntryOf F c e → e.length ≤ 55) →
    addSbHeaders F prob clues o m = (.ok (), m') →
    m'.headers.get (txt "X-Spambayes-Evidence") = .str text →
    (∀ e ∈ m.headers, ¬ Named "X-Spambayes-Evidence" e) →
    ∀ l ∈ physicalLines (txt "X-Spambayes-Evidence: " ++ text), width l ≤ 78

theorem join_length (l : List Txt) (h : l ≠ []) :
    (joinWith (txt "; ") l).length = (l.map List.length).sum + 2 * (l.length - 1) := by
  induction l with
  | nil => exact absurd rfl h
  | cons a r ih =>
    cases r with
    | nil => simp [joinWith]
    | cons b r =>
      have := ih (by simp)
      have h2 : (txt "; ").length = 2 := by decide
      simp only [joinWith, List.length_append, h2, this, List.map_cons, List.sum_cons,
        List.length_cons]
      omega

/-- Entries of at least 8 characters. -/
theorem ninety_columns (n : Nat) (x : List Txt) (hn : n = 8 ∨ n = 22)
    (h : FitsFrom n x) (hlen : ∀ e ∈ x, 8 ≤ e.length) : x.length = 1 ∨ columns n x ≤ 90 := by
  obtain ⟨hx, h | h⟩ := h
  · exact .inl h
  · right
    unfold columns
    rw [join_length x hx]
    have : 8 * x.length ≤ (x.map List.length).sum := by
      clear h hx
      induction x with
      | nil => simp
      | cons a r ih =>
        have h1 := ih (fun e he => hlen e (by simp [he]))
        have h2 := hlen a (by simp)
        simp only [List.length_cons, List.map_cons, List.sum_cons]
        omega
    omega

/-- How long the lines get: a line of k ≥ 2 entries takes at most 76 + 2 (k - 1)
columns, because the loop does not count the separators.  With entries of at least
8 characters (two quotes, colon and space, four for the number) that is at most 90. -/
theorem C42_bound_partial (F : Fmt) (hF : Printable F) (prob : PyFloat)
    (clues : List (Word × PyFloat)) (o : Opts) (m m' : Msg) (ho : o.includeEvidence = true)
    (hno : ∀ e ∈ m.headers, ¬ Named "X-Spambayes-Evidence" e)
    (hadd : addSbHeaders F prob clues o m = (.ok (), m')) :
    ∃ entries, List.Forall₂ (EntryOf F) (clues.filter (fun c => Extreme F o.clueCutoff c)) entries ∧
      (entries ≠ [] → ∃ (l : List Txt) (ls : List (List Txt)), entries = l ++ ls.flatten ∧
        m'.headers.get (txt "X-Spambayes-Evidence") =
          .str (joinWith (txt ";\n\t") ((l :: ls).map (joinWith (txt "; ")))) ∧
        (l.length = 1 ∨ columns 22 l ≤ 76 + 2 * (l.length - 1)) ∧
        (∀ x ∈ ls, x.length = 1 ∨ columns 8 x ≤ 76 + 2 * (x.length - 1)) ∧
        ((∀ e ∈ entries, 8 ≤ e.length) → (l.length = 1 ∨ columns 22 l ≤ 90) ∧
          ∀ x ∈ ls, x.length = 1 ∨ columns 8 x ≤ 90)) := by
  obtain ⟨entries, h1, h2⟩ := evidence_value F hF prob clues o m m' ho hno hadd
  refine ⟨entries, h2, ?_⟩
  intro hne
  cases entries with
  | nil => exact absurd rfl hne
  | cons a r =>
    obtain ⟨l, ls, e1, e2, -, e4, e5⟩ := wrap_lines 22 a r
    have key : ∀ n x, FitsFrom n x → x.length = 1 ∨ columns n x ≤ 76 + 2 * (x.length - 1) := by
      rintro n x ⟨hx, h | h⟩
      · exact .inl h
      · right; unfold columns; rw [join_length x hx]; omega
    refine ⟨l, ls, e1, by rw [h1, e2], key _ _ e4, fun x hx => key _ _ (e5 x hx), ?_⟩
    intro hlen
    rw [e1] at hlen
    refine ⟨ninety_columns _ _ (.inr rfl) e4 (fun e he => hlen e (by simp [he])), fun x hx =>
      ninety_columns _ _ (.inl rfl) (e5 x hx) (fun e he => hlen e ?_)⟩
    exact List.mem_append.2 (.inr (List.mem_flatten.2 ⟨x, hx, he⟩))

theorem exFmt_printable : Printable { exFmt with repr := fun _ => txt "abcd" } :=
  ⟨by
    intro w
    change ∀ c ∈ txt "abcd", c ≠ 10 ∧ c ≠ 9 ∧ isSurrogate c = false
    decide, by
    intro d p
    change ∀ c ∈ txt "0.50", c ≠ 10 ∧ c ≠ 9 ∧ isSurrogate c = false
    decide⟩

/-- Six entries of ten characters make a line of 81 columns. -/
theorem C42_claim_false : ¬ C42Claim := by
  intro h
  have := h { exFmt with repr := fun _ => txt "abcd" } exFmt_printable .posInf
    (List.replicate 6 (.bytes [97], .posInf)) { includeEvidence := true } Msg.new
    (addSbHeaders { exFmt with repr := fun _ => txt "abcd" } .posInf
      (List.replicate 6 (.bytes [97], .posInf)) { includeEvidence := true } Msg.new).2
    (txt "abcd: 0.50; abcd: 0.50; abcd: 0.50; abcd: 0.50; abcd: 0.50;\n\tabcd: 0.50")
    (by
      rintro c - e ⟨w, -, rfl⟩
      simp only [exFmt]
      decide) rfl (by decide) (by decide)
  revert this
  decide

/-! ### C65 -/

/-- The score header: the probability with the wanted number of digits, followed, if
that is asked for and the probability is within 0.005 of an end (but not at it), by
the number of zeros or nines. -/
theorem C65_score (F : Fmt) (prob : PyFloat) (clues : List (Word × PyFloat)) (o : Opts) (m m' : Msg)
    (hF1 : ∀ n x, ∀ c ∈ F.fixed n x, isSurrogate c = false) (hF2 : ∀ x, ∀ c ∈ F.log10 x, isSurrogate c = false)
    (low high : ℚ) (hlow : Literal (5 / 1000) low) (hhigh : Literal (995 / 1000) high)
    (ho : o.includeScore = true)
    (hno : ∀ e ∈ m.headers, ¬ Named "X-Spambayes-Spam-Probability" e)
    (hadd : addSbHeaders F prob clues o m = (.ok (), m')) :
    ∃ suffix, m'.headers.get (txt "X-Spambayes-Spam-Probability") =
        .str (F.fixed o.scoreDigits prob ++ suffix) ∧
      (o.scoreLogarithm = false → suffix = []) ∧
      (∀ q, prob = .fin q → low < q → q < high → suffix = []) ∧
      (prob = .fin 0 ∨ prob = .fin 1 → suffix = []) ∧
      (∀ q, o.scoreLogarithm = true → prob = .fin q → 0 < q → q ≤ low →
        suffix = txt " (" ++ F.log10 (.fin q) ++ txt ")") ∧
      (∀ q, o.scoreLogarithm = true → prob = .fin q → high ≤ q → q < 1 →
        suffix = txt " (" ++ F.log10 (F.oneMinus (.fin q)) ++ txt ")") := by
  rw [literal_low.1 hlow, literal_high.1 hhigh]
  have hF : ∀ c ∈ scoreText F prob o, isSurrogate c = false := by
    have hl : ∀ x, ∀ c ∈ txt " (" ++ F.log10 x ++ txt ")", isSurrogate c = false := by
      intro x c hc
      rcases List.mem_append.1 hc with hc | hc
      · rcases List.mem_append.1 hc with hc | hc
        · exact (by decide : ∀ c ∈ txt " (", isSurrogate c = false) c hc
        · exact hF2 x c hc
      · exact (by decide : ∀ c ∈ txt ")", isSurrogate c = false) c hc
    intro c hc
    unfold scoreText at hc
    rcases List.mem_append.1 hc with hc | hc
    · exact hF1 _ _ c hc
    · split at hc
      · rcases List.mem_append.1 hc with hc | hc
        · split at hc
          · exact hl _ c hc
          · simp at hc
        · split at hc
          · exact hl _ c hc
          · simp at hc
      · simp at hc
  obtain ⟨m1, m2, m3, h1, h2, h3, k1, -, -⟩ := add_steps hadd
  unfold addScore at h1
  rw [if_pos ho] at h1
  simp only [addHeader, M.modify_run, Prod.mk.injEq, true_and] at h1
  have hfirst : Headers.first (m.headers ++ [(classificationName, .str (clsOf prob).name)])
      scoreName = none := by
    rw [first_snoc _ _ _ _ (by decide), Headers.first_eq_none]
    exact fun e he => not_named_iff.2 (hno e he)
  have hf1 : m1.headers.first scoreName = some (scoreName, .str (scoreText F prob o)) := by
    rw [← h1]; exact first_snoc_self _ _ _ hfirst
  have hg : m'.headers.get (txt "X-Spambayes-Spam-Probability") = .str (scoreText F prob o) := by
    rw [show txt "X-Spambayes-Spam-Probability" = scoreName from rfl, Headers.get_eq,
      k1 scoreName (by decide) (by decide) _ hf1]
    exact fetch_plain hF
  have hends : (0 : ℚ) < lowEnd ∧ lowEnd < highEnd ∧ highEnd < 1 := by
    refine ⟨?_, ?_, ?_⟩ <;> norm_num [lowEnd, highEnd]
  have hle : ∀ a b : ℚ, PyFloat.le (.fin a) (.fin b) = decide (a ≤ b) := fun _ _ => rfl
  have hlt : ∀ a b : ℚ, PyFloat.lt (.fin a) (.fin b) = decide (a < b) := fun _ _ => rfl
  refine ⟨_, hg, ?_, ?_, ?_, ?_, ?_⟩
  · intro h; rw [if_neg (by simp [h])]
  · rintro q rfl h4 h5
    rw [hle, hle, hlt, hlt, decide_eq_false (not_le.2 h4), decide_eq_false (not_le.2 h5)]
    simp
  · rintro (rfl | rfl)
    · rw [hle, hle, hlt, hlt, decide_eq_false (lt_irrefl (0 : ℚ)),
        decide_eq_false (p := highEnd ≤ 0) (by linarith [hends.1, hends.2.1])]
      simp
    · rw [hle, hle, hlt, hlt, decide_eq_false (lt_irrefl (1 : ℚ)),
        decide_eq_false (p := 1 ≤ lowEnd) (by linarith [hends.2.1, hends.2.2])]
      simp
  · rintro q h4 rfl h5 h6
    rw [if_pos h4, hle, hle, hlt, hlt, decide_eq_true h5, decide_eq_true h6,
      decide_eq_false (p := highEnd ≤ q) (by linarith [hends.2.1])]
    simp
  · rintro q h4 rfl h5 h6
    rw [if_pos h4, hle, hle, hlt, hlt, decide_eq_true h5, decide_eq_true h6,
      decide_eq_false (p := q ≤ lowEnd) (by linarith [hends.2.1])]
    simp

/-- The level header: as many stars as the integer part of ten times the probability;
for a NaN or infinite product add_sb_headers raises, the classification header being
there already. -/
theorem C65_level (F : Fmt) (prob : PyFloat) (clues : List (Word × PyFloat)) (o : Opts) (m m' : Msg)
    (r : Except Err Unit) (ho : o.includeThermostat = true)
    (hno : ∀ e ∈ m.headers, ¬ Named "X-Spambayes-Level" e)
    (hadd : addSbHeaders F prob clues o m = (r, m')) :
    (∀ q, F.timesTen prob = .fin q → r = .ok () →
      m'.headers.get (txt "X-Spambayes-Level") = .str (List.replicate ⌊q⌋.toNat 42)) ∧
    (F.timesTen prob = .nan → r = .error .valueError ∧ m'.c = some (clsOf prob)) ∧
    (F.timesTen prob = .posInf ∨ F.timesTen prob = .negInf →
      r = .error .overflowError ∧ m'.c = some (clsOf prob)) := by
  have hlev : ∀ m1, addLevel F prob o m1 = match stars (F.timesTen prob) with
      | .ok s => addHeader levelName (.str s) m1
      | .error e => (.error e, m1) := by
    intro m1
    unfold addLevel
    rw [if_pos ho]
    cases stars (F.timesTen prob) <;> rfl
  have hscore : ∀ m1 : Msg, ∃ m2, addScore F prob o m1 = (.ok (), m2) ∧ m2.c = m1.c := by
    intro m1
    unfold addScore
    split
    · exact ⟨_, rfl, rfl⟩
    · exact ⟨_, rfl, rfl⟩
  have herr : ∀ e, stars (F.timesTen prob) = .error e → r = .error e ∧ m'.c = some (clsOf prob) := by
    intro e he
    rw [addSbHeaders_run] at hadd
    obtain ⟨m2, h2, hc⟩ := hscore { m with
      c := some (clsOf prob)
      headers := m.headers ++ [(classificationName, .str (clsOf prob).name)] }
    have h3 := hlev m2
    rw [he] at h3
    rw [M.bind_run_ok h2, M.bind_run_error h3] at hadd
    cases hadd
    exact ⟨rfl, hc⟩
  refine ⟨?_, fun h => herr _ (by rw [h]; rfl), ?_⟩
  · rintro q hq rfl
    obtain ⟨m1, m2, m3, h1, h2, h3, -, k2, -⟩ := add_steps hadd
    rw [hlev, hq] at h2
    simp only [stars, addHeader, M.modify_run, Prod.mk.injEq, true_and] at h2
    have hfirst : m1.headers.first levelName = none := by
      rw [addScore_first h1 (by decide)]
      simp only
      rw [first_snoc _ _ _ _ (by decide), Headers.first_eq_none]
      exact fun e he => not_named_iff.2 (hno e he)
    have hf2 : m2.headers.first levelName =
        some (levelName, .str (List.replicate ⌊q⌋.toNat 42)) := by
      rw [← h2]; exact first_snoc_self _ _ _ hfirst
    rw [show txt "X-Spambayes-Level" = levelName from rfl, Headers.get_eq,
      k2 levelName (by decide) (by decide) _ hf2]
    apply fetch_plain
    intro c hc
    rw [List.eq_of_mem_replicate hc]
    decide
  · rintro (h | h) <;> exact herr _ (by rw [h]; rfl)

/-- If multiplication by ten is monotone and exact at 0 and 1, probabilities give
between no and ten stars, and a higher one never fewer. -/
theorem C65_level_range (p q a b : ℚ) (F : Fmt) (h0 : F.timesTen (.fin 0) = .fin 0)
    (h1 : F.timesTen (.fin 1) = .fin 10)
    (hmono : ∀ p q a b : ℚ, p ≤ q → F.timesTen (.fin p) = .fin a → F.timesTen (.fin q) = .fin b → a ≤ b)
    (hp : 0 ≤ p) (hpq : p ≤ q) (hq : q ≤ 1) (ha : F.timesTen (.fin p) = .fin a)
    (hb : F.timesTen (.fin q) = .fin b) :
    0 ≤ ⌊a⌋ ∧ ⌊a⌋.toNat ≤ ⌊b⌋.toNat ∧ ⌊b⌋.toNat ≤ 10 := by
  have e1 : 0 ≤ a := hmono 0 p 0 a hp h0 ha
  have e2 : a ≤ b := hmono p q a b hpq ha hb
  have e3 : b ≤ 10 := hmono q 1 b 10 hq hb h1
  refine ⟨Int.floor_nonneg.2 e1, Int.toNat_le_toNat (Int.floor_mono e2), ?_⟩
  have : ⌊b⌋ ≤ 10 := by
    have := Int.floor_mono e3
    simpa using this
  omega

example : ∃ m', addSbHeaders exFmt (.fin (1 / 2)) [] { includeThermostat := true, includeScore := true }
    Msg.new = (.ok (), m') := ⟨_, rfl⟩

/-! ### C66 -/

/-- The headers that the options ask add_sb_headers to write or change. -/
def Asked (prob : PyFloat) (o : Opts) (k : String) : Prop :=
  k = "X-Spambayes-Classification" ∨
  (k = "X-Spambayes-Spam-Probability" ∧ o.includeScore = true) ∨
  (k = "X-Spambayes-Level" ∧ o.includeThermostat = true) ∨
  (k = "X-Spambayes-Evidence" ∧ o.includeEvidence = true) ∨
  (k = "X-Spambayes-MailId" ∧ o.addUniqueId = true) ∨
  (k = "To" ∧ ∃ l, o.notateTo = .seq l ∧ .inl (clsOf prob) ∈ l) ∨
  (k = "Subject" ∧ ∃ l, o.notateSubject = .seq l ∧ .inl (clsOf prob) ∈ l)

/-- A step that leaves alone the headers of a name and everything that is not a header. -/
def Same (n : Txt) (c : Cls) (f : M Msg Unit) : Prop :=
  ∀ m, m.c = some c →
    (f m).2.headers.filter (fun e => sameName e.1 n) = m.headers.filter (fun e => sameName e.1 n) ∧
    { (f m).2 with headers := m.headers } = m

theorem Same.bind {n : Txt} {c : Cls} {f g : M Msg Unit} (hf : Same n c f) (hg : Same n c g) :
    Same n c (f >>= fun _ => g) := by
  intro m hc
  obtain ⟨h1, h2⟩ := hf m hc
  rw [M.bind_run]
  rcases hfm : f m with ⟨r, m1⟩
  rw [hfm] at h1 h2
  simp only at h1 h2
  cases r with
  | error e => exact ⟨h1, h2⟩
  | ok _ =>
    have hc1 : m1.c = some c := by
      have := congrArg Msg.c h2
      rw [← hc, ← this]
    obtain ⟨h3, h4⟩ := hg m1 hc1
    simp only
    refine ⟨h3.trans h1, ?_⟩
    rw [← h2]
    have := congrArg (fun x : Msg => { x with headers := m.headers }) h4
    exact this

theorem Same.pure (n : Txt) (c : Cls) : Same n c (Pure.pure ()) := fun _ _ => ⟨rfl, rfl⟩
theorem Same.raise (n : Txt) (c : Cls) (e : Err) : Same n c (M.raise e) := fun _ _ => ⟨rfl, rfl⟩

theorem Same.addHeader {n : Txt} (c : Cls) {k : Txt} (v : Stored) (hne : sameName k n = false) :
    Same n c (addHeader k v) := by
  intro m _
  refine ⟨?_, rfl⟩
  simp [Mail.addHeader, M.modify_run, Headers.set, List.filter_append, hne]

theorem Same.notate {n k : Txt} (c : Cls) (pre : Txt) (hne : sameName k n = false) :
    Same n c (notate k pre) := by
  intro m _
  unfold Mail.notate
  split
  · exact ⟨rfl, rfl⟩
  · split
    · rename_i h
      obtain ⟨a, e, b, h1, -, h2, h3⟩ := Headers.replace_some h
      have h4 : sameName e.1 n = false := sameName_disj h2 hne
      refine ⟨?_, rfl⟩
      simp [h1, h3, List.filter_cons, h4]
    · refine ⟨?_, rfl⟩
      simp [Headers.set, List.filter_append, hne]

theorem inNotate_true {c : Cls} {n : Notate} (h : inNotate (some c) n = .ok true) :
    ∃ l, n = .seq l ∧ .inl c ∈ l := by
  cases n with
  | none => simp [inNotate] at h
  | str t => simp only [inNotate] at h; split at h <;> simp at h
  | seq l =>
    simp only [inNotate, Except.ok.injEq, List.any_eq_true] at h
    obtain ⟨e, he, h⟩ := h
    refine ⟨l, rfl, ?_⟩
    cases e with
    | inl d => simp at h; rw [h]; exact he
    | inr _ => cases h

theorem sameName_named (n : String) (e : Txt × Stored) : sameName e.1 (txt n) = decide (Named n e) := by
  by_cases h : Named n e
  · rw [decide_eq_true h]; exact named_iff.2 h
  · rw [decide_eq_false h]; exact not_named_iff.2 h

/-- **C66** add_sb_headers writes only the headers it was asked for: all others, and
the id and training state of the message, stay as they are, also if it raises. -/
theorem C66_only_what_is_asked (F : Fmt) (prob : PyFloat) (clues : List (Word × PyFloat)) (o : Opts)
    (m : Msg) (n : String) (hn : ∀ k, Asked prob o k → lower (txt k) ≠ lower (txt n)) :
    (addSbHeaders F prob clues o m).2.headers.filter (fun e => decide (Named n e)) =
      m.headers.filter (fun e => decide (Named n e)) ∧
    { (addSbHeaders F prob clues o m).2 with headers := m.headers, c := m.c } = m := by
  have hne : ∀ k, Asked prob o k → sameName (txt k) (txt n) = false := by
    intro k hk
    rw [Bool.eq_false_iff]
    exact fun h => hn k hk (sameName_iff.1 h)
  have hcl : sameName classificationName (txt n) = false := hne _ (.inl rfl)
  have hrest : Same (txt n) (clsOf prob)
      (do addScore F prob o; addLevel F prob o; addEvidence F clues o; addId o
          addNotations o.notateTo o.notateSubject) := by
    refine .bind ?_ (.bind ?_ (.bind ?_ (.bind ?_ (.bind ?_ ?_))))
    · unfold addScore
      split
      · rename_i h
        exact .addHeader _ _ (hne _ (.inr (.inl ⟨rfl, h⟩)))
      · exact .pure _ _
    · unfold addLevel
      split
      · rename_i h
        split
        · exact .addHeader _ _ (hne _ (.inr (.inr (.inl ⟨rfl, h⟩))))
        · exact .raise _ _ _
      · exact .pure _ _
    · unfold addEvidence
      split
      · rename_i h
        split
        · exact .addHeader _ _ (hne _ (.inr (.inr (.inr (.inl ⟨rfl, h⟩)))))
        · exact .raise _ _ _
      · exact .pure _ _
    · intro m hc
      unfold addId
      split
      · rename_i h
        exact Same.addHeader _ _ (hne _ (.inr (.inr (.inr (.inr (.inl ⟨rfl, h⟩)))))) m hc
      · exact ⟨rfl, rfl⟩
    · intro m hc
      unfold addToNotation
      cases h : inNotate m.c o.notateTo with
      | error e => exact ⟨rfl, rfl⟩
      | ok b =>
        cases b with
        | false => exact ⟨rfl, rfl⟩
        | true =>
          refine Same.notate _ _ (hne "To" (.inr (.inr (.inr (.inr (.inr (.inl ⟨rfl, ?_⟩))))))) m hc
          exact inNotate_true (hc ▸ h)
    · intro m hc
      unfold addSubjectNotation
      cases h : inNotate m.c o.notateSubject with
      | error e => exact ⟨rfl, rfl⟩
      | ok b =>
        cases b with
        | false => exact ⟨rfl, rfl⟩
        | true =>
          refine Same.notate _ _ (hne "Subject" (.inr (.inr (.inr (.inr (.inr (.inr ⟨rfl, ?_⟩))))))) m hc
          exact inNotate_true (hc ▸ h)
  rw [addSbHeaders_run]
  have hm := hrest { m with c := some (clsOf prob)
                            headers := m.headers ++ [(classificationName, .str (clsOf prob).name)] } rfl
  obtain ⟨h1, h2⟩ := hm
  constructor
  · simp only [List.filter_append, List.filter_cons, hcl] at h1
    simpa [sameName_named] using h1
  · have := congrArg (fun x : Msg => { x with headers := m.headers, c := m.c }) h2
    exact this

/-- With default options a Subject and a forged evidence header are left alone. -/
example (F : Fmt) (m : Msg) : ∀ n ∈ ["Subject", "X-Spambayes-Evidence", "To", "From"],
    ∀ k, Asked (.fin 1) {} k → lower (txt k) ≠ lower (txt n) := by
  intro n hn k hk
  rcases hk with rfl | ⟨-, h⟩ | ⟨-, h⟩ | ⟨-, h⟩ | ⟨rfl, -⟩ | ⟨-, l, h, -⟩ | ⟨-, l, h, -⟩
  · revert n; decide
  · cases h
  · cases h
  · cases h
  · revert n; decide
  · cases h
  · cases h

end Sb.Props
