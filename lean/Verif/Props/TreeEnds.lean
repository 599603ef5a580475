import Verif.Props.TreeLines

/-
C126: whether the lines of a message end with LF or with CR LF makes no difference to the
text that is written.
-/

set_option linter.unusedSectionVars false

namespace Sb.Props
open Py Py.Text Sb.Mail Sb.Tokenize Sb.Strip

/-! ### What the claim is about -/

/-- The headers are the same but for the ends of lines in values. -/
def SameButEnds (hs hs' : Headers) : Prop :=
  List.Forall₂ (fun x y => y.1 = x.1 ∧ (y.2 = x.2 ∨ ∃ v v', x.2 = .str v ∧ y.2 = .str v' ∧ lines v' = lines v)) hs hs'

/-- Types and boundaries do not depend on the ends of lines in values, and a boundary has
no ends of lines in it. -/
structure EndsIgnored (T : Types) : Prop where
  ctype : ∀ hs hs' d, SameButEnds hs hs' → T.ctype hs' d = T.ctype hs d
  boundary : ∀ hs hs', SameButEnds hs hs' → T.boundary hs' = T.boundary hs
  line : ∀ hs b, T.boundary hs = some b → OneLine b

/-! ### Texts without CR -/

/-- The text without its CRs. -/
def noCr (t : Txt) : Txt := t.filter (· != 13)

/-- Every CR is followed by LF. -/
def Paired (t : Txt) : Prop := ∀ a r, t = a ++ 13 :: r → ∃ s, r = 10 :: s

theorem paired_of {t : Txt} (h : NoLoneCr t) : Paired t := by
  rintro a r rfl
  have := h a.length (by simp)
  cases r with
  | nil => simp at this
  | cons c r => exact ⟨r, by simpa using this⟩

theorem paired_nil : Paired [] := by intro a r h; simp at h

theorem Paired.suffix {a b : Txt} (h : Paired (a ++ b)) : Paired b := by
  rintro x r rfl
  exact h (a ++ x) r (by simp)

theorem Paired.tail {c : Nat} {r : Txt} (h : Paired (c :: r)) : Paired r := Paired.suffix (a := [c]) h

theorem Paired.append {a b : Txt} (ha : Paired a) (hb : Paired b) : Paired (a ++ b) := by
  intro x r h
  have h0 := List.append_eq_append_iff.1 h
  clear h
  rcases h0 with ⟨y, rfl, h⟩ | ⟨y, rfl, h⟩
  · exact hb y r h
  · cases y with
    | nil => exact hb [] r (by simpa using h.symm)
    | cons c y =>
      simp only [List.cons_append, List.cons.injEq] at h
      obtain ⟨rfl, rfl⟩ := h
      obtain ⟨s, rfl⟩ := ha x y rfl
      exact ⟨s ++ b, rfl⟩

theorem Paired.prefix {a b : Txt} (h : Paired (a ++ b)) (hl : a.getLast? ≠ some 13) : Paired a := by
  rintro x r rfl
  obtain ⟨s, hs⟩ := h x (r ++ b) (by simp)
  cases r with
  | nil => simp at hl
  | cons c r => exact ⟨r, by simp only [List.cons_append, List.cons.injEq] at hs; rw [hs.1]⟩

theorem Paired.flatten {ls : List Txt} (h : ∀ l ∈ ls, Paired l) : Paired ls.flatten := by
  induction ls with
  | nil => exact paired_nil
  | cons l ls ih => exact (h l (by simp)).append (ih (fun x hx => h x (by simp [hx])))

theorem paired_free {t : Txt} (h : CrFree t) : Paired t := by
  rintro a r rfl
  exact absurd (by simp) h

theorem paired_induction {P : (t : Txt) → Paired t → Prop} (h0 : ∀ h, P [] h)
    (h1 : ∀ r (hr : Paired r) (h : Paired (13 :: 10 :: r)), P r hr → P (13 :: 10 :: r) h)
    (h2 : ∀ c r, c ≠ 13 → ∀ (hr : Paired r) (h : Paired (c :: r)), P r hr → P (c :: r) h) : ∀ t h, P t h := by
  intro t
  induction t using crlf_induction with
  | h0 => intro h; exact h0 h
  | h1 r ih => intro h; exact h1 r h.tail.tail h (ih h.tail.tail)
  | h2 c r hc ih =>
    intro h
    refine h2 c r ?_ h.tail h (ih h.tail)
    rintro rfl
    obtain ⟨s, rfl⟩ := h [] r rfl
    exact hc s rfl

theorem noCr_append (a b : Txt) : noCr (a ++ b) = noCr a ++ noCr b := List.filter_append ..

theorem noCr_cons {c : Nat} (h : c ≠ 13) (r : Txt) : noCr (c :: r) = c :: noCr r := by simp [noCr, h]

theorem noCr_crlf (r : Txt) : noCr (13 :: 10 :: r) = 10 :: noCr r := by simp [noCr]

theorem noCr_flatten (ls : List Txt) : (ls.map noCr).flatten = noCr ls.flatten := by
  induction ls with
  | nil => rfl
  | cons l ls ih => simp [noCr_append, ih]

theorem noCr_free (t : Txt) : CrFree (noCr t) := by simp [CrFree, noCr]

theorem noCr_same {t : Txt} (h : CrFree t) : noCr t = t := by
  refine List.filter_eq_self.2 (fun c hc => ?_)
  have : c ≠ 13 := by rintro rfl; exact h hc
  simp [this]

theorem noCr_nil {t : Txt} (h : Paired t) : noCr t = [] ↔ t = [] := by
  induction t, h using paired_induction with
  | h0 _ => simp [noCr]
  | h1 r _ _ _ => simp [noCr]
  | h2 c r hc _ _ _ => simp [noCr_cons hc]

theorem toLf_noCr {t : Txt} (h : Paired t) : toLf t = noCr t := by
  induction t, h using paired_induction with
  | h0 _ => rfl
  | h1 r _ _ ih => rw [toLf, noCr_crlf, ih]
  | h2 c r hc _ _ ih =>
    rw [noCr_cons hc, toLf, if_neg hc, ih]
    intro s h1 h2
    exact hc h1

theorem lines_noCr {t : Txt} (h : Paired t) : lines (noCr t) = lines t := by
  rw [← toLf_noCr h, lines_toLf]

theorem crlf_noCr {t : Txt} (h : Paired t) : forceCrlf (noCr t) = forceCrlf t := by
  rw [forceCrlf_eq, lines_noCr h, ← forceCrlf_eq]

theorem splitLines_noCr {t : Txt} (h : Paired t) : splitLines (noCr t) = splitLines t := by
  induction t, h using paired_induction with
  | h0 _ => rfl
  | h1 r _ _ ih =>
    rw [noCr_crlf, splitLines, splitLines_cons (by intro s h; cases h), ih]
    rfl
  | h2 c r hc _ _ ih =>
    rw [noCr_cons hc, splitLines_cons (by rintro s h; exact hc (List.cons.inj h).1),
      splitLines_cons (by rintro s h; exact hc (List.cons.inj h).1), ih]

theorem prefix_noCr {t : Txt} (h : Paired t) : ∀ {w : Txt}, OneLine w → w.isPrefixOf (noCr t) = w.isPrefixOf t := by
  induction t, h using paired_induction with
  | h0 _ => intro w _; rfl
  | h1 r _ _ _ =>
    intro w hw
    rw [noCr_crlf]
    cases w with
    | nil => rfl
    | cons c w =>
      have := hw c (by simp)
      simp [List.isPrefixOf, beq_eq_false_iff_ne.2 this.1, beq_eq_false_iff_ne.2 this.2]
  | h2 c r hc _ _ ih =>
    intro w hw
    rw [noCr_cons hc]
    cases w with
    | nil => rfl
    | cons d w => simp only [List.isPrefixOf]; rw [ih (fun x hx => hw x (by simp [hx]))]

theorem dropWhile_noCr {p : Nat → Bool} (h13 : p 13 = false) (h10 : p 10 = false) {t : Txt} (h : Paired t) :
    (noCr t).dropWhile p = noCr (t.dropWhile p) := by
  induction t, h using paired_induction with
  | h0 _ => rfl
  | h1 r _ _ _ => rw [noCr_crlf, List.dropWhile_cons_of_neg (by simp [h10]), List.dropWhile_cons_of_neg (by simp [h13]), noCr_crlf]
  | h2 c r hc _ _ ih =>
    rw [noCr_cons hc]
    by_cases hp : p c = true
    · rw [List.dropWhile_cons_of_pos hp, List.dropWhile_cons_of_pos hp, ih]
    · rw [List.dropWhile_cons_of_neg hp, List.dropWhile_cons_of_neg hp, noCr_cons hc]

theorem Paired.dropWhile {p : Nat → Bool} {t : Txt} (h : Paired t) : Paired (t.dropWhile p) := by
  have := List.takeWhile_append_dropWhile (p := p) (l := t)
  rw [← this] at h
  exact h.suffix

/-- The first character is the same, if it is not the end of the line. -/
theorem head_noCr {t : Txt} (h : Paired t) : ((noCr t).head? = t.head? ∧ t.head? ≠ some 13) ∨
    (t.head? = some 13 ∧ (noCr t).head? = some 10) := by
  induction t, h using paired_induction with
  | h0 _ => left; simp [noCr]
  | h1 r _ _ _ => right; rw [noCr_crlf]; exact ⟨rfl, rfl⟩
  | h2 c r hc _ _ _ => left; rw [noCr_cons hc]; exact ⟨rfl, by simpa using hc⟩

theorem startsBlank_noCr {t : Txt} (h : Paired t) : startsBlank (noCr t) = startsBlank t := by
  rcases head_noCr h with ⟨h1, -⟩ | ⟨h1, h2⟩
  · rw [startsBlank, h1, startsBlank]
  · rw [startsBlank, startsBlank, h1, h2]; rfl

theorem head_is {t : Txt} (h : Paired t) {c : Nat} (h1 : c ≠ 13) (h2 : c ≠ 10) :
    (noCr t).head? = some c ↔ t.head? = some c := by
  rcases head_noCr h with ⟨h3, -⟩ | ⟨h3, h4⟩
  · rw [h3]
  · rw [h3, h4]
    constructor
    · intro h; exact absurd (Option.some.inj h).symm h2
    · intro h; exact absurd (Option.some.inj h).symm h1

theorem headerLine_noCr {t : Txt} (h : Paired t) : isHeaderLine (noCr t) = isHeaderLine t := by
  rw [isHeaderLine, isHeaderLine, startsBlank_noCr h, prefix_noCr h (by unfold OneLine; decide),
    dropWhile_noCr (by decide) (by decide) h]
  congr 2
  have := head_is (h.dropWhile (p := isFieldChar)) (c := 58) (by decide) (by decide)
  rw [Bool.eq_iff_iff, beq_iff_eq, beq_iff_eq, this]

theorem blankLine_noCr {t : Txt} (h : Paired t) :
    ((noCr t).head? = some 13 ∨ (noCr t).head? = some 10) ↔ (t.head? = some 13 ∨ t.head? = some 10) := by
  rcases head_noCr h with ⟨h3, h4⟩ | ⟨h3, h4⟩
  · rw [h3]
  · simp [h3, h4]

theorem sep_noCr {b l : Txt} (hb : OneLine b) (h : Paired l) : sepOf b (noCr l) = sepOf b l := by
  have ho : OneLine (45 :: 45 :: b) := by
    intro c hc
    simp only [List.mem_cons] at hc
    rcases hc with rfl | rfl | hc
    · decide
    · decide
    · exact hb c hc
  unfold sepOf
  rw [prefix_noCr h ho]
  split
  · rename_i hp
    obtain ⟨r, rfl⟩ := List.isPrefixOf_iff_prefix.1 hp
    have h13 : CrFree (45 :: 45 :: b) := fun hm => (ho 13 hm).1 rfl
    have hl : (45 :: 45 :: b).length = b.length + 2 := rfl
    have hr := h.suffix
    rw [noCr_append, noCr_same h13, ← hl, List.drop_left, List.drop_left]
    simp only
    rw [prefix_noCr hr (by unfold OneLine; decide)]
    have key : ∀ x : Txt, Paired x → ((noCr x).dropWhile Mail.isBlank = [] ∨ (noCr x).dropWhile Mail.isBlank = [10] ∨
        (noCr x).dropWhile Mail.isBlank = [13] ∨ (noCr x).dropWhile Mail.isBlank = [13, 10] ↔
        x.dropWhile Mail.isBlank = [] ∨ x.dropWhile Mail.isBlank = [10] ∨ x.dropWhile Mail.isBlank = [13] ∨
        x.dropWhile Mail.isBlank = [13, 10]) := by
      intro x hx
      rw [dropWhile_noCr (by decide) (by decide) hx]
      have hy := hx.dropWhile (p := Mail.isBlank)
      generalize x.dropWhile Mail.isBlank = y at hy
      constructor
      · rintro (h | h | h | h)
        · exact .inl ((noCr_nil hy).1 h)
        · cases y with
          | nil => exact .inl rfl
          | cons c y =>
            by_cases hc : c = 13
            · subst hc
              obtain ⟨s, rfl⟩ := hy [] y rfl
              rw [noCr_crlf] at h
              have := (noCr_nil hy.tail.tail).1 (List.cons.inj h).2
              subst this
              simp
            · rw [noCr_cons hc] at h
              have := (noCr_nil hy.tail).1 (List.cons.inj h).2
              subst this
              rw [(List.cons.inj h).1]
              simp
        · exact absurd (h ▸ List.mem_singleton.2 rfl) (noCr_free y)
        · exact absurd (by rw [h]; simp) (noCr_free y)
      · rintro (rfl | rfl | rfl | rfl) <;> simp [noCr]
    by_cases hf : (txt "--").isPrefixOf r = true
    · obtain ⟨r', rfl⟩ := List.isPrefixOf_iff_prefix.1 hf
      have e : (noCr (txt "--" ++ r')).drop 2 = noCr r' := by
        rw [noCr_append, noCr_same (by unfold CrFree; decide)]; rfl
      have e' : (txt "--" ++ r').drop 2 = r' := rfl
      rw [if_pos hf, if_pos hf, e, e']
      simp only [key r' hr.suffix]
    · rw [if_neg hf, if_neg hf]
      simp only [key r hr]
  · rfl

theorem cutEnd_noCr {t : Txt} (h : Paired t) : cutEnd (noCr t) = noCr (cutEnd t) ∧ Paired (cutEnd t) := by
  rcases List.eq_nil_or_concat t with rfl | ⟨a, c, rfl⟩
  · exact ⟨rfl, paired_nil⟩
  · have h13 : c ≠ 13 := by
      rintro rfl
      obtain ⟨s, hs⟩ := h a [] (by simp)
      cases hs
    rw [List.concat_eq_append] at h ⊢
    by_cases hc : c = 10
    · subst hc
      have e1 : cutEnd (noCr (a ++ [10])) = noCr a := by
        rw [noCr_append, show noCr [10] = [10] from rfl]
        have hf := noCr_free a
        rcases List.eq_nil_or_concat (noCr a) with h0 | ⟨x, y, h0⟩
        · rw [h0]; rfl
        · rw [h0, List.concat_eq_append] at hf ⊢
          have hy : y ≠ 13 := by rintro rfl; exact hf (by simp)
          unfold cutEnd
          rw [show (x ++ [y] ++ [10] : List Nat).reverse = 10 :: y :: x.reverse by simp]
          split
          · rename_i heq; simp only [List.cons.injEq, true_and] at heq; exact absurd heq.1 hy
          · rename_i heq; simp only [List.cons.injEq, true_and] at heq; rw [← heq]; simp
          · rename_i heq; simp at heq
          · rename_i h1 h2 h3; exact absurd rfl (h2 (y :: x.reverse))
      rw [e1]
      rcases List.eq_nil_or_concat a with rfl | ⟨x, y, rfl⟩
      · exact ⟨rfl, paired_nil⟩
      · rw [List.concat_eq_append] at h ⊢
        by_cases hy : y = 13
        · subst hy
          have e2 : cutEnd (x ++ [13] ++ [10]) = x := by
            rw [List.append_assoc]; exact cutEnd_crlf x
          rw [e2]
          refine ⟨by rw [noCr_append]; simp [noCr], ?_⟩
          refine Paired.prefix (b := [13, 10]) (by simpa using h) ?_
          intro hx
          obtain ⟨z, rfl⟩ := List.getLast?_eq_some_iff.1 hx
          obtain ⟨s, hs⟩ := h z [13, 10] (by simp)
          simp at hs
        · have e2 : cutEnd (x ++ [y] ++ [10]) = x ++ [y] := by
            unfold cutEnd
            rw [show (x ++ [y] ++ [10] : List Nat).reverse = 10 :: y :: x.reverse by simp]
            split
            · rename_i heq; simp only [List.cons.injEq, true_and] at heq; exact absurd heq.1 hy
            · rename_i heq; simp only [List.cons.injEq, true_and] at heq; rw [← heq]; simp
            · rename_i heq; simp at heq
            · rename_i h1 h2 h3; exact absurd rfl (h2 (y :: x.reverse))
          rw [e2]
          exact ⟨rfl, h.prefix (by simpa using hy)⟩
    · have e : ∀ z : Txt, cutEnd (z ++ [c]) = z ++ [c] := by
        intro z
        unfold cutEnd
        rw [show (z ++ [c]).reverse = c :: z.reverse by simp]
        split
        · rename_i heq; exact absurd (List.cons.inj heq).1 hc
        · rename_i heq; exact absurd (List.cons.inj heq).1 hc
        · rename_i heq; exact absurd (List.cons.inj heq).1 h13
        · rfl
      rw [e, noCr_append, show noCr [c] = [c] by simp [noCr, h13], e]
      exact ⟨rfl, h⟩

theorem readLines_noCr {t : Txt} (h : Paired t) : readLines (noCr t) = (readLines t).map noCr ∧
    ∀ l ∈ readLines t, Paired l := by
  induction t, h using paired_induction with
  | h0 _ => exact ⟨rfl, by intro l hl; cases hl⟩
  | h1 r _ _ ih =>
    rw [noCr_crlf, readLines, readLines_nl, ih.1]
    refine ⟨rfl, ?_⟩
    intro l hl
    rcases List.mem_cons.1 hl with rfl | hl
    · exact paired_of (by intro i hi; match i with | 0 => rfl | 1 => cases hi | (i + 2) => cases hi)
    · exact ih.2 l hl
  | h2 c r hc _ _ ih =>
    have one : Paired [c] := paired_free (by simpa [CrFree] using fun h => hc h.symm)
    rw [noCr_cons hc, readLines_cons (by rintro s h; exact hc (List.cons.inj h).1),
      readLines_cons (by rintro s h; exact hc (List.cons.inj h).1), ih.1]
    split
    · refine ⟨?_, ?_⟩
      · rw [List.map_cons, show noCr [c] = [c] by simp [noCr, hc]]
      · intro l hl
        rcases List.mem_cons.1 hl with rfl | hl
        · exact one
        · exact ih.2 l hl
    · cases hr : readLines r with
      | nil =>
        refine ⟨?_, ?_⟩
        · simp [noCr, hc]
        · intro l hl
          rw [List.mem_singleton.1 hl]
          exact one
      | cons k ks =>
        rw [hr] at ih
        refine ⟨?_, ?_⟩
        · simp [noCr_cons hc]
        · intro l hl
          rcases List.mem_cons.1 hl with rfl | hl
          · exact one.append (ih.2 k (by simp))
          · exact ih.2 l (by simp [hl])

/-! ### Headers -/

/-- The headers with CR taken out of the values. -/
def slimHeads (hs : Headers) : Headers := hs.map fun x => (x.1, match x.2 with | .str v => .str (noCr v) | s => s)

/-- ASCII headers as they are read. -/
def HeadsOk (hs : Headers) : Prop := ∀ x ∈ hs, FieldName x.1 ∧ ∃ v, x.2 = .str v ∧ Ascii v ∧ Paired v

theorem slim_same {hs : Headers} (h : HeadsOk hs) : SameButEnds hs (slimHeads hs) := by
  induction hs with
  | nil => exact .nil
  | cons x hs ih =>
    obtain ⟨-, v, hv, -, hp⟩ := h x (by simp)
    refine .cons ⟨rfl, .inr ⟨v, noCr v, hv, ?_, lines_noCr hp⟩⟩ (ih (fun y hy => h y (by simp [hy])))
    simp only [hv]

theorem rstrip_noCr {t : Txt} (h : Paired t) :
    ((noCr t).reverse.dropWhile (fun c => c == 13 || c == 10)).reverse =
      noCr (t.reverse.dropWhile (fun c => c == 13 || c == 10)).reverse ∧
    Paired (t.reverse.dropWhile (fun c => c == 13 || c == 10)).reverse := by
  constructor
  · have : ∀ u : List Nat, (u.filter (· != 13)).dropWhile (fun c => c == 13 || c == 10) =
        (u.dropWhile (fun c => c == 13 || c == 10)).filter (· != 13) := by
      intro u
      induction u with
      | nil => rfl
      | cons c u ih =>
        by_cases h1 : c = 13
        · subst h1; simpa using ih
        · by_cases h2 : c = 10
          · subst h2; simpa using ih
          · simp [h1, h2]
    unfold noCr
    rw [← List.filter_reverse, this, List.filter_reverse]
  · have e : t = (t.reverse.dropWhile (fun c => c == 13 || c == 10)).reverse ++
        (t.reverse.takeWhile (fun c => c == 13 || c == 10)).reverse := by
      rw [← List.reverse_append, List.takeWhile_append_dropWhile, List.reverse_reverse]
    rw [e] at h
    refine h.prefix ?_
    rw [List.getLast?_reverse]
    intro hx
    cases hd : t.reverse.dropWhile (fun c => c == 13 || c == 10) with
    | nil => rw [hd] at hx; cases hx
    | cons c r =>
      have := List.head_dropWhile_not (fun c => c == 13 || c == 10) (l := t.reverse) (by rw [hd]; simp)
      simp only [hd, List.head_cons] at this
      rw [hd] at hx
      simp at hx
      simp [hx] at this

/-- The lines of a header that is being read. -/
def Reading2 (cur : List Txt) : Prop :=
  cur = [] ∨ ∃ f ts, cur = f :: ts ∧ Begins f ∧ ∀ l ∈ f :: ts, Paired l ∧ Ascii l

theorem sourceParse_noCr {cur : List Txt} (h : Reading2 cur) (hne : cur ≠ []) :
    [sourceParse (cur.map noCr)] = slimHeads [sourceParse cur] ∧ HeadsOk [sourceParse cur] := by
  rcases h with h | ⟨f, ts, rfl, ⟨n, r, hn, rfl⟩, hp⟩
  · exact absurd h hne
  · have h58 : ∀ c ∈ n, (c != 58) = true := by
      intro c hc
      have := hn.2 c hc
      simp [this]
    have h13 : CrFree n := fun hm => by have := hn.2 13 hm; omega
    have e : ∀ (x : Txt) (us : List Txt), sourceParse ((n ++ 58 :: x) :: us) = (n, .str
        ((x.dropWhile Mail.isBlank ++ us.flatten).reverse.dropWhile (fun c => c == 13 || c == 10)).reverse) := by
      intro x us
      simp only [sourceParse, List.headD_cons, List.tail_cons]
      rw [List.takeWhile_append_of_pos h58, List.takeWhile_cons_of_neg (by decide), List.append_nil,
        List.dropWhile_append_of_pos h58, List.dropWhile_cons_of_neg (by decide), List.drop_one, List.tail_cons]
    have hf := hp _ (List.mem_cons_self ..)
    have hr : Paired r := Paired.suffix (a := n ++ [58]) (by simpa using hf.1)
    have hv : Paired (r.dropWhile Mail.isBlank ++ ts.flatten) :=
      hr.dropWhile.append (Paired.flatten (fun l hl => (hp l (by simp [hl])).1))
    obtain ⟨h1, h2⟩ := rstrip_noCr hv
    have e' : noCr (n ++ 58 :: r) = n ++ 58 :: noCr r := by
      rw [noCr_append, noCr_same h13, noCr_cons (by decide)]
    rw [List.map_cons, e', e, e, noCr_flatten, dropWhile_noCr (by decide) (by decide) hr, ← noCr_append, h1]
    refine ⟨rfl, ?_⟩
    intro x hx
    rw [List.mem_singleton.1 hx]
    refine ⟨hn, _, rfl, ?_, h2⟩
    intro c hc
    have hc' := (List.dropWhile_sublist _).subset (List.mem_reverse.1 hc)
    rcases List.mem_append.1 (List.mem_reverse.1 hc') with hc | hc
    · exact hf.2 c (by simp [(List.dropWhile_sublist _).subset hc])
    · obtain ⟨l, hl, hc⟩ := List.mem_flatten.1 hc
      exact (hp l (by simp [hl])).2 c hc

theorem slimHeads_append (a b : Headers) : slimHeads (a ++ b) = slimHeads a ++ slimHeads b := List.map_append

theorem HeadsOk.append {a b : Headers} (ha : HeadsOk a) (hb : HeadsOk b) : HeadsOk (a ++ b) := by
  intro x hx
  rcases List.mem_append.1 hx with hx | hx
  · exact ha x hx
  · exact hb x hx

theorem parseFields_noCr (ls : List Txt) : ∀ (first : Bool) (cur : List Txt), Reading2 cur →
    (∀ l ∈ ls, isHeaderLine l = true ∧ Paired l ∧ Ascii l) →
    (parseFields first (cur.map noCr) (ls.map noCr)).headers = slimHeads (parseFields first cur ls).headers ∧
    (parseFields first (cur.map noCr) (ls.map noCr)).back = (parseFields first cur ls).back.map noCr ∧
    HeadsOk (parseFields first cur ls).headers := by
  have key : ∀ (cur : List Txt), Reading2 cur →
      (if cur.map noCr = [] then [] else [sourceParse (cur.map noCr)]) =
        slimHeads (if cur = [] then [] else [sourceParse cur]) ∧ HeadsOk (if cur = [] then [] else [sourceParse cur]) := by
    intro cur hc
    by_cases h0 : cur = []
    · subst h0; exact ⟨rfl, by intro x hx; cases hx⟩
    · rw [if_neg (by simpa using h0), if_neg h0]
      exact sourceParse_noCr hc h0
  have nil : Reading2 [] := .inl rfl
  induction ls with
  | nil =>
    intro first cur hc _
    obtain ⟨h1, h2⟩ := key cur hc
    simp only [List.map_nil, parseFields]
    exact ⟨h1, trivial, h2⟩
  | cons l ls ih =>
    intro first cur hc hl
    have hls : ∀ k ∈ ls, isHeaderLine k = true ∧ Paired k ∧ Ascii k := fun k hk => hl k (by simp [hk])
    obtain ⟨l1, l2, l3⟩ := hl l (by simp)
    obtain ⟨h1, h2⟩ := key cur hc
    rw [List.map_cons, parseFields, parseFields, startsBlank_noCr l2]
    by_cases hb : startsBlank l = true
    · rw [if_pos hb, if_pos hb]
      have e : (if cur.map noCr = [] then [] else cur.map noCr ++ [noCr l]) =
          (if cur = [] then [] else cur ++ [l]).map noCr := by
        by_cases h0 : cur = []
        · subst h0; rfl
        · rw [if_neg (by simpa using h0), if_neg h0]; simp
      rw [e]
      refine ih false _ ?_ hls
      rcases hc with rfl | ⟨f, ts, rfl, hf, hp⟩
      · exact nil
      · refine .inr ⟨f, ts ++ [l], by simp, hf, ?_⟩
        intro k hk
        rw [← List.cons_append] at hk
        rcases List.mem_append.1 hk with hk | hk
        · exact hp k hk
        · rw [List.mem_singleton.1 hk]; exact ⟨l2, l3⟩
    · rw [if_neg hb, if_neg hb, prefix_noCr l2 (by unfold OneLine; decide)]
      have add : ∀ f f' : Fields, f'.headers = slimHeads f.headers → f'.back = f.back.map noCr → HeadsOk f.headers →
          ({ f' with headers := (if cur.map noCr = [] then [] else [sourceParse (cur.map noCr)]) ++ f'.headers } : Fields).headers =
            slimHeads ({ f with headers := (if cur = [] then [] else [sourceParse cur]) ++ f.headers } : Fields).headers ∧
          ({ f' with headers := (if cur.map noCr = [] then [] else [sourceParse (cur.map noCr)]) ++ f'.headers } : Fields).back =
            ({ f with headers := (if cur = [] then [] else [sourceParse cur]) ++ f.headers } : Fields).back.map noCr ∧
          HeadsOk ({ f with headers := (if cur = [] then [] else [sourceParse cur]) ++ f.headers } : Fields).headers := by
        intro f f' e1 e2 e3
        refine ⟨?_, e2, h2.append e3⟩
        simp only
        rw [h1, e1, slimHeads_append]
      obtain ⟨n1, n2, n3⟩ := ih false [] nil hls
      by_cases hf : (txt "From ").isPrefixOf l = true
      · simp only [if_pos hf]
        cases first with
        | true => exact add _ _ n1 n2 n3
        | false =>
          simp only [Bool.false_eq_true, if_false]
          by_cases h0 : ls = []
          · subst h0
            exact add ⟨none, [], [l]⟩ ⟨none, [], [noCr l]⟩ rfl rfl (by intro x hx; cases hx)
          · have h0' : ls.map noCr ≠ [] := by simpa using h0
            simp only [if_neg h0', if_neg h0]
            exact add _ _ n1 n2 n3
      · simp only [if_neg hf, head_is l2 (c := 58) (by decide) (by decide)]
        by_cases h58 : l.head? = some 58
        · simp only [if_pos h58]
          exact add _ _ n1 n2 n3
        · simp only [if_neg h58]
          have hb' := begins_of l1 (by simpa using hb) (eq_false_of_ne_true hf) h58
          obtain ⟨m1, m2, m3⟩ := ih false [l] (.inr ⟨l, [], rfl, hb', by simpa using ⟨l2, l3⟩⟩) hls
          exact add _ _ m1 m2 m3

theorem takeHeaders_noCr {ls : List Txt} (h : ∀ l ∈ ls, Paired l) :
    (takeHeaders (ls.map noCr)).1 = (takeHeaders ls).1.map noCr ∧
    (takeHeaders (ls.map noCr)).2 = (takeHeaders ls).2.map noCr := by
  induction ls with
  | nil => exact ⟨rfl, rfl⟩
  | cons l ls ih =>
    have hl := h l (by simp)
    obtain ⟨i1, i2⟩ := ih (fun x hx => h x (by simp [hx]))
    rw [List.map_cons, takeHeaders, takeHeaders, headerLine_noCr hl, i1, i2]
    by_cases hb : isHeaderLine l = true
    · rw [if_pos hb, if_pos hb]; exact ⟨rfl, rfl⟩
    · rw [if_neg hb, if_neg hb]
      by_cases hc : l.head? = some 13 ∨ l.head? = some 10
      · rw [if_pos hc, if_pos ((blankLine_noCr hl).2 hc)]; exact ⟨rfl, rfl⟩
      · rw [if_neg hc, if_neg (fun hx => hc ((blankLine_noCr hl).1 hx))]; exact ⟨rfl, rfl⟩

theorem preamble_noCr {b : Txt} (hb : OneLine b) {ls : List Txt} (h : ∀ l ∈ ls, Paired l) :
    preambleOf b (ls.map noCr) = ((preambleOf b ls).1.map noCr, (preambleOf b ls).2.map (List.map noCr)) := by
  induction ls with
  | nil => rfl
  | cons l ls ih =>
    rw [List.map_cons, preambleOf, preambleOf, sep_noCr hb (h l (by simp)), ih (fun x hx => h x (by simp [hx]))]
    rcases sepOf b l with - | - | - <;> rfl

theorem segments_noCr {b : Txt} (hb : OneLine b) {ls : List Txt} (h : ∀ l ∈ ls, Paired l) : ∀ fresh,
    segments b fresh (ls.map noCr) =
      ((segments b fresh ls).1.map (List.map noCr), (segments b fresh ls).2.map (List.map noCr)) := by
  induction ls with
  | nil => intro fresh; rfl
  | cons l ls ih =>
    intro fresh
    have ih := ih (fun x hx => h x (by simp [hx]))
    rw [List.map_cons, segments, segments, sep_noCr hb (h l (by simp))]
    rcases sepOf b l with - | f
    · simp only
      rw [ih false]
      simp only
      refine Prod.ext ?_ rfl
      simp only
      cases (segments b false ls).1 <;> rfl
    · simp only
      rw [ih true]
      cases fresh <;> cases f <;> rfl

/-! ### Messages -/

mutual
/-- The second message is the first one with CR taken out of its texts and values. -/
inductive Slim (T : Types) : Bool → Tree → Tree → Prop
  | text {d : Bool} {hs : Headers} {t : Txt} : HeadsOk hs → Paired t → Slim T d (.text hs t) (.text (slimHeads hs) (noCr t))
  | inner {d : Bool} {hs : Headers} {m m' : Tree} : HeadsOk hs → T.kind hs d = .message → Slim T false m m' →
      Slim T d (.inner hs m) (.inner (slimHeads hs) m')
  | uncut {d : Bool} {hs : Headers} {t : Txt} {e : Option Txt} : HeadsOk hs →
      (∃ o dg, T.kind hs d = .multipart o dg) → Paired t → (∀ q, e = some q → Paired q) →
      Slim T d (.uncut hs t e) (.uncut (slimHeads hs) (noCr t) (e.map noCr))
  | cut {d : Bool} {hs : Headers} {p e : Option Txt} {ms ms' : List Tree} : HeadsOk hs →
      (∃ o dg, T.kind hs d = .multipart o dg) → (∀ q, p = some q → Paired q) →
      (∀ q, e = some q → Paired q) → Slims T (T.ctype hs d == txt "multipart/digest") ms ms' →
      Slim T d (.cut hs p ms e) (.cut (slimHeads hs) (p.map noCr) ms' (e.map noCr))
/-- The same for lists of parts. -/
inductive Slims (T : Types) : Bool → List Tree → List Tree → Prop
  | nil {d : Bool} : Slims T d [] []
  | cons {d : Bool} {m m' : Tree} {ms ms' : List Tree} : Slim T d m m' → Slims T d ms ms' → Slims T d (m :: ms) (m' :: ms')
end

theorem epilogue_noCr {e : Option Txt} (h : ∀ q, e = some q → Paired q) :
    trimEpilogue (e.map noCr) = (trimEpilogue e).map noCr ∧ ∀ q, trimEpilogue e = some q → Paired q := by
  cases e with
  | none => exact ⟨rfl, by intro q hq; cases hq⟩
  | some e =>
    have he := h e rfl
    simp only [Option.map_some, trimEpilogue, noCr_nil he]
    by_cases h0 : e = []
    · rw [if_pos h0, if_pos h0]; exact ⟨rfl, by intro q hq; cases hq⟩
    · rw [if_neg h0, if_neg h0]
      obtain ⟨h1, h2⟩ := cutEnd_noCr he
      exact ⟨by rw [h1]; rfl, by intro q hq; cases hq; exact h2⟩

theorem trimLast_slim (T : Types) : ∀ (m m' : Tree) (d : Bool), Slim T d m m' → Slim T d (trimLast m) (trimLast m')
  | .text hs t, _, d, .text h1 h2 => by
    obtain ⟨k1, k2⟩ := cutEnd_noCr h2
    rw [trimLast, trimLast, k1]
    exact .text h1 k2
  | .inner hs m, _, d, .inner h1 h2 h3 => by
    rw [trimLast, trimLast]
    exact .inner h1 h2 (trimLast_slim T m _ false h3)
  | .uncut hs t e, _, d, .uncut h1 h0 h2 h3 => by
    obtain ⟨k1, k2⟩ := epilogue_noCr h3
    rw [trimLast, trimLast, k1]
    exact .uncut h1 h0 h2 k2
  | .cut hs p ms e, _, d, .cut h1 h0 h2 h3 h4 => by
    obtain ⟨k1, k2⟩ := epilogue_noCr h3
    rw [trimLast, trimLast, k1]
    exact .cut h1 h0 h2 k2 h4

theorem kind_slim {T : Types} (hT : EndsIgnored T) {hs : Headers} (h : HeadsOk hs) (d : Bool) :
    T.ctype (slimHeads hs) d = T.ctype hs d ∧ T.boundary (slimHeads hs) = T.boundary hs ∧
    T.kind (slimHeads hs) d = T.kind hs d := by
  have h1 := hT.ctype _ _ d (slim_same h)
  have h2 := hT.boundary _ _ (slim_same h)
  refine ⟨h1, h2, ?_⟩
  unfold Types.kind
  rw [h1, h2]

theorem kind_digest {T : Types} {hs : Headers} {d : Bool} {o : Option Txt} {dg : Bool}
    (h : T.kind hs d = .multipart o dg) : dg = (T.ctype hs d == txt "multipart/digest") := by
  unfold Types.kind at h
  simp only at h
  split at h
  · cases h
  · split at h
    · cases h; rfl
    · cases h

theorem readTree_slim {T : Types} (hT : EndsIgnored T) : ∀ n d ls, (∀ l ∈ ls, Paired l ∧ Ascii l) →
    Slim T d (readTree T n d ls) (readTree T n d (ls.map noCr)) := by
  intro n
  induction n with
  | zero =>
    intro d ls h
    rw [readTree, readTree, noCr_flatten]
    exact .text (hs := []) (by intro x hx; cases hx) (Paired.flatten (fun l hl => (h l hl).1))
  | succ n ih =>
    intro d ls h
    obtain ⟨t1, t2⟩ := takeHeaders_noCr (ls := ls) (fun l hl => (h l hl).1)
    have hpre := takeHeaders_prefix ls
    obtain ⟨f1, f2, f3⟩ := parseFields_noCr (takeHeaders ls).1 true [] (.inl rfl)
      (fun l hl => ⟨hpre.2 l hl, h l (hpre.1.subset hl)⟩)
    rw [List.map_nil] at f1 f2
    have hrest : ∀ l ∈ (parseFields true [] (takeHeaders ls).1).back ++ (takeHeaders ls).2, Paired l ∧ Ascii l :=
      fun l hl => h l ((rest_sublist ls).subset hl)
    rw [readTree, readTree, t1, t2, f1, f2, ← List.map_append, (kind_slim hT f3 d).2.2]
    generalize (parseFields true [] (takeHeaders ls).1).headers = hs at f3
    generalize (parseFields true [] (takeHeaders ls).1).back ++ (takeHeaders ls).2 = rest at hrest
    have hrest' : ∀ l ∈ rest, Paired l := fun l hl => (hrest l hl).1
    cases hk : T.kind hs d with
    | text =>
      simp only
      rw [noCr_flatten]
      exact .text f3 (Paired.flatten hrest')
    | message => exact .inner f3 hk (ih false rest hrest)
    | multipart o dg =>
      cases o with
      | none =>
        simp only
        rw [noCr_flatten]
        exact .uncut f3 ⟨_, _, hk⟩ (Paired.flatten hrest') (by intro q hq; cases hq)
      | some b =>
        have hb := hT.line hs b (kind_boundary hk)
        simp only
        rw [preamble_noCr hb hrest']
        have hsub := (preamble_sublist b rest).1
        have hsub2 := (preamble_sublist b rest).2.2
        rcases hp : preambleOf b rest with ⟨p, - | r⟩
        · rw [hp] at hsub
          simp only [Option.map_none]
          rw [noCr_flatten]
          exact .uncut (e := some []) f3 ⟨_, _, hk⟩ (Paired.flatten (fun l hl => hrest' l (hsub.subset hl)))
            (by intro q hq; cases hq; exact paired_nil)
        · rw [hp] at hsub hsub2
          have hr : ∀ l ∈ r, Paired l ∧ Ascii l := fun l hl => hrest l ((hsub2 r rfl).1.subset hl)
          have hp' : ∀ l ∈ p, Paired l := fun l hl => hrest' l (hsub.subset hl)
          obtain ⟨-, s1, s2⟩ := segments_sublist b r true
          simp only [Option.map_some]
          rw [segments_noCr hb (fun l hl => (hr l hl).1)]
          have e1 : (if p.map noCr = [] then none
              else some ((p.map noCr).dropLast.flatten ++ cutEnd ((p.map noCr).getLastD []))) =
              (if p = [] then none else some (p.dropLast.flatten ++ cutEnd (p.getLastD []))).map noCr ∧
              ∀ q, (if p = [] then none else some (p.dropLast.flatten ++ cutEnd (p.getLastD []))) = some q → Paired q := by
            rcases List.eq_nil_or_concat p with rfl | ⟨a, x, rfl⟩
            · exact ⟨rfl, by intro q hq; cases hq⟩
            · rw [List.concat_eq_append] at hp' ⊢
              obtain ⟨c1, c2⟩ := cutEnd_noCr (hp' x (by simp))
              rw [if_neg (by simp), if_neg (by simp)]
              refine ⟨?_, ?_⟩
              · simp only [List.map_append, List.map_cons, List.map_nil, List.dropLast_concat, Option.map_some]
                rw [List.getLastD_concat, List.getLastD_concat, noCr_flatten, c1, noCr_append]
              · intro q hq
                cases hq
                rw [List.dropLast_concat, List.getLastD_concat]
                exact (Paired.flatten (fun l hl => hp' l (by simp [hl]))).append c2
          rw [e1.1]
          have e2 : ((segments b true r).2.map (List.map noCr)).map List.flatten =
              ((segments b true r).2.map List.flatten).map noCr := by
            cases (segments b true r).2 with
            | none => rfl
            | some x => simp [noCr_flatten]
          simp only
          rw [e2]
          refine .cut f3 ⟨_, _, hk⟩ e1.2 ?_ ?_
          · intro q hq
            cases h3 : (segments b true r).2 with
            | none => rw [h3] at hq; cases hq
            | some x =>
              rw [h3] at hq
              cases hq
              exact Paired.flatten (fun l hl => (hr l ((s2 x h3).subset hl)).1)
          · rw [← kind_digest hk]
            have s1' : ∀ s ∈ (segments b true r).1, ∀ l ∈ s, Paired l ∧ Ascii l :=
              fun s hs l hl => hr l ((s1 s hs).1.subset hl)
            generalize (segments b true r).1 = ss at s1'
            induction ss with
            | nil => exact .nil
            | cons s ss ihs =>
              exact .cons (trimLast_slim T _ _ _ (ih dg s (s1' s (by simp)))) (ihs (fun x hx => s1' x (by simp [hx])))

/-! ### Writing -/

/-- The results are the same but for CRs before LF. -/
def Related : Except Err Txt → Except Err Txt → Prop
  | .ok s, .ok s' => Paired s ∧ s' = noCr s
  | .error e, .error e' => e' = e
  | _, _ => False

/-- The second message is written like the first one, but for CRs. -/
def RelDoc (x x' : Doc) : Prop :=
  (∀ mg w, Related (flatten mg w x) (flatten mg w x')) ∧ ∀ u mg, asString u mg x' = asString u mg x

theorem related_free {s : Txt} (h : CrFree s) : Related (.ok s) (.ok s) := ⟨paired_free h, (noCr_same h).symm⟩

theorem mangle_noCr {t : Txt} (h : Paired t) : ∀ b, mangleFrom b (noCr t) = noCr (mangleFrom b t) ∧ Paired (mangleFrom b t) := by
  induction t, h using paired_induction with
  | h0 _ => intro b; exact ⟨rfl, paired_nil⟩
  | h1 r _ _ ih =>
    intro b
    have e : ∀ x : Txt, mangleFrom b (10 :: x) = 10 :: mangleFrom true x := by intro x; simp [mangleFrom, txt]
    have e' : mangleFrom b (13 :: 10 :: r) = 13 :: 10 :: mangleFrom true r := by simp [mangleFrom, txt]
    obtain ⟨i1, i2⟩ := ih true
    rw [noCr_crlf, e, e', noCr_crlf, i1]
    refine ⟨rfl, ?_⟩
    have : Paired [13, 10] := paired_of (by intro i hi; match i with | 0 => rfl | 1 => cases hi | (i + 2) => cases hi)
    exact this.append i2
  | h2 c r hc _ h ih =>
    intro b
    obtain ⟨i1, i2⟩ := ih (c == 10)
    have hp : (txt "From ").isPrefixOf (c :: noCr r) = (txt "From ").isPrefixOf (c :: r) := by
      rw [← noCr_cons hc, prefix_noCr h (by unfold OneLine; decide)]
    have one : Paired [c] := paired_free (by simpa [CrFree] using fun h => hc h.symm)
    rw [noCr_cons hc, mangleFrom, mangleFrom, hp, i1]
    split
    · exact ⟨by rw [noCr_cons (by decide), noCr_cons hc], (paired_free (t := [62]) (by simp [CrFree])).append (one.append i2)⟩
    · exact ⟨by rw [noCr_cons hc], one.append i2⟩

theorem written_noCr {t : Txt} (h : Paired t) (mg : Bool) : written mg (noCr t) = written mg t := by
  unfold written
  cases mg with
  | false =>
    simp only [Bool.false_eq_true, if_false]
    rw [toLf_noCr h, toLf_same _ (noCr_free t)]
  | true =>
    simp only [if_true]
    obtain ⟨h1, h2⟩ := mangle_noCr h true
    rw [h1, toLf_noCr h2, toLf_same _ (noCr_free _)]

/-- The lines before the first boundary. -/
def beforeText (mg : Bool) : Option Txt → Txt
  | some q => written mg q ++ [10]
  | none => []

/-- The lines after the last boundary. -/
def afterText (mg : Bool) : Option Txt → Txt
  | some q => written mg q
  | none => []

/-- The parts. -/
def betweenText (b : Txt) : List Txt → Txt
  | [] => []
  | t :: ts => t ++ ts.flatMap (fun u => (10 :: 45 :: 45 :: b ++ [10]) ++ u)

theorem assemble_shape (mg : Bool) (p e : Option Txt) (b : Txt) (ts : List Txt) : assemble mg p e b ts =
    beforeText mg p ++ (45 :: 45 :: b ++ [10]) ++ betweenText b ts ++ (10 :: 45 :: 45 :: b ++ [45, 45, 10]) ++
      afterText mg e := by
  cases p <;> cases e <;> cases ts <;> simp [assemble, beforeText, afterText, betweenText]

theorem assemble_noCr {p e : Option Txt} (hp : ∀ q, p = some q → Paired q) (he : ∀ q, e = some q → Paired q) (mg : Bool)
    {b : Txt} (hb : CrFree b) {ts : List Txt} (ht : ∀ t ∈ ts, Paired t) :
    assemble mg (p.map noCr) (e.map noCr) b (ts.map noCr) = noCr (assemble mg p e b ts) ∧ Paired (assemble mg p e b ts) := by
  have e1 : beforeText mg (p.map noCr) = beforeText mg p := by
    cases p with
    | none => rfl
    | some q => rw [Option.map_some, beforeText, beforeText, written_noCr (hp q rfl)]
  have e2 : afterText mg (e.map noCr) = afterText mg e := by
    cases e with
    | none => rfl
    | some q => rw [Option.map_some, afterText, afterText, written_noCr (he q rfl)]
  have f1 : CrFree (beforeText mg p) := by
    cases p with
    | none => simp [CrFree, beforeText]
    | some q => exact (written_free mg q).append (by simp [CrFree])
  have f2 : CrFree (afterText mg e) := by
    cases e with
    | none => simp [CrFree, afterText]
    | some q => exact written_free mg q
  have f3 : CrFree (10 :: 45 :: 45 :: b ++ [10]) := by
    simp only [CrFree, List.mem_append, List.mem_cons] at hb ⊢
    simp [hb]
  have f4 : CrFree (45 :: 45 :: b ++ [10]) := by
    simp only [CrFree, List.mem_append, List.mem_cons] at hb ⊢
    simp [hb]
  have f5 : CrFree (10 :: 45 :: 45 :: b ++ [45, 45, 10]) := by
    simp only [CrFree, List.mem_append, List.mem_cons] at hb ⊢
    simp [hb]
  have tail : ∀ us : List Txt, (∀ t ∈ us, Paired t) →
      (us.map noCr).flatMap (fun u => (10 :: 45 :: 45 :: b ++ [10]) ++ u) =
        noCr (us.flatMap (fun u => (10 :: 45 :: 45 :: b ++ [10]) ++ u)) ∧
      Paired (us.flatMap (fun u => (10 :: 45 :: 45 :: b ++ [10]) ++ u)) := by
    intro us
    induction us with
    | nil => intro _; exact ⟨rfl, paired_nil⟩
    | cons u us ih =>
      intro h
      obtain ⟨i1, i2⟩ := ih (fun t ht => h t (by simp [ht]))
      rw [List.map_cons, List.flatMap_cons, List.flatMap_cons, i1, noCr_append, noCr_append, noCr_same f3]
      exact ⟨rfl, ((paired_free f3).append (h u (by simp))).append i2⟩
  have mid : betweenText b (ts.map noCr) = noCr (betweenText b ts) ∧ Paired (betweenText b ts) := by
    cases ts with
    | nil => exact ⟨rfl, paired_nil⟩
    | cons t ts =>
      obtain ⟨i1, i2⟩ := tail ts (fun x hx => ht x (by simp [hx]))
      rw [List.map_cons, betweenText, betweenText, i1, noCr_append]
      exact ⟨rfl, (ht t (by simp)).append i2⟩
  rw [assemble_shape, assemble_shape, e1, e2, mid.1, noCr_append, noCr_append, noCr_append, noCr_append, noCr_same f1,
    noCr_same f2, noCr_same f4, noCr_same f5]
  exact ⟨rfl, ((((paired_free f1).append (paired_free f4)).append mid.2).append (paired_free f5)).append (paired_free f2)⟩

theorem flattenAll_rel {xs xs' : List Doc} (h : List.Forall₂ RelDoc xs xs') (mg w : Bool) :
    (∃ ts, flattenAll mg w xs = .ok ts ∧ flattenAll mg w xs' = .ok (ts.map noCr) ∧ ∀ t ∈ ts, Paired t) ∨
    ∃ e, flattenAll mg w xs = .error e ∧ flattenAll mg w xs' = .error e := by
  induction h with
  | nil => left; refine ⟨[], ?_, ?_, by simp⟩ <;> rw [flattenAll]; rfl
  | @cons x x' xs xs' h _ ih =>
    have h1 := h.1 mg w
    rw [flattenAll, flattenAll]
    cases hx : flatten mg w x with
    | error e =>
      cases hx' : flatten mg w x' with
      | error e' =>
        rw [hx, hx'] at h1
        right
        exact ⟨e, rfl, by rw [show e' = e from h1]⟩
      | ok s => rw [hx, hx'] at h1; exact h1.elim
    | ok s =>
      cases hx' : flatten mg w x' with
      | error e' => rw [hx, hx'] at h1; exact h1.elim
      | ok s' =>
        rw [hx, hx'] at h1
        obtain ⟨p, rfl⟩ := h1
        rcases ih with ⟨ts, h2, h3, h4⟩ | ⟨e, h2, h3⟩
        · left
          simp only [h2, h3]
          refine ⟨s :: ts, rfl, rfl, ?_⟩
          intro t ht
          rcases List.mem_cons.1 ht with rfl | ht
          · exact p
          · exact h4 t ht
        · right
          simp only [h2, h3]
          exact ⟨e, rfl, rfl⟩

theorem asStrings_rel {xs xs' : List Doc} (h : List.Forall₂ RelDoc xs xs') (u : Bool) : asStrings u xs' = asStrings u xs := by
  induction h with
  | nil => rfl
  | cons h _ ih => rw [asStrings, asStrings, h.2 u true, ih]

/-- What is done if the generator raises TypeError. -/
def fallback (u : Bool) : Cargo Doc → Except Err Txt
  | .none => .error .typeError
  | .str t => if t = [] then .ok [] else .error .attributeError
  | .octets b => if b = [] then .ok [] else .error .attributeError
  | .parts ds =>
    match asStrings u ds with
    | .ok ts => .ok (forceCrlf (joinLf ts))
    | .error e => .error e

theorem relDoc_of {ct : Txt} {f : List Txt} {p p' e e' : Option Txt} {b : Txt} {c c' : Cargo Doc} (hf : CrFree f.flatten)
    (h1 : ∀ mg w, Related (bodyOf mg w (.doc ct f f [] p e b c)) (bodyOf mg w (.doc ct f f [] p' e' b c')))
    (h2 : ∀ u, fallback u c' = fallback u c) : RelDoc (.doc ct f f [] p e b c) (.doc ct f f [] p' e' b c') := by
  have hfl : ∀ mg w, Related (flatten mg w (.doc ct f f [] p e b c)) (flatten mg w (.doc ct f f [] p' e' b c')) := by
    intro mg w
    have := h1 mg w
    rw [flatten, flatten]
    cases hx : bodyOf mg w (.doc ct f f [] p e b c) with
    | error er =>
      cases hx' : bodyOf mg w (.doc ct f f [] p' e' b c') with
      | error er' => rw [hx, hx'] at this; exact this
      | ok s => rw [hx, hx'] at this; exact this.elim
    | ok s =>
      cases hx' : bodyOf mg w (.doc ct f f [] p' e' b c') with
      | error er' => rw [hx, hx'] at this; exact this.elim
      | ok s' =>
        rw [hx, hx'] at this
        obtain ⟨hp, rfl⟩ := this
        simp only [ite_self]
        refine ⟨(paired_free hf).append ((paired_free (t := [10]) (by simp [CrFree])).append hp), ?_⟩
        rw [noCr_append, noCr_same hf, noCr_cons (by decide)]
  refine ⟨hfl, ?_⟩
  intro u mg
  have := hfl mg false
  rw [asString.eq_def, asString.eq_def]
  simp only [generate]
  cases hx : flatten mg false (.doc ct f f [] p e b c) with
  | ok s =>
    cases hx' : flatten mg false (.doc ct f f [] p' e' b c') with
    | error er' => rw [hx, hx'] at this; exact this.elim
    | ok s' =>
      rw [hx, hx'] at this
      obtain ⟨hp, rfl⟩ := this
      simp only
      have e3 : (if u = true then ([] ++ [10] : Txt) else []) ++ noCr s = noCr ((if u = true then ([] ++ [10] : Txt) else []) ++ s) := by
        cases u
        · rfl
        · exact (noCr_cons (by decide) s).symm
      rw [e3, crlf_noCr]
      cases u
      · exact hp
      · exact (paired_free (t := [10]) (by simp [CrFree])).append hp
  | error er =>
    cases hx' : flatten mg false (.doc ct f f [] p' e' b c') with
    | ok s => rw [hx, hx'] at this; exact this.elim
    | error er' =>
      rw [hx, hx'] at this
      have : er' = er := this
      subst this
      have h3 := h2 u
      cases er' <;> try rfl
      simp only
      unfold fallback at h3
      exact h3

theorem fold_slim (P : Printer) {hs : Headers} (h : HeadsOk hs) : P.foldAll (slimHeads hs) = P.foldAll hs ∧
    ∀ f, P.foldAll hs = .ok f → CrFree f.flatten := by
  constructor
  · induction hs with
    | nil => rfl
    | cons x hs ih =>
      obtain ⟨n, s⟩ := x
      obtain ⟨-, v, hv, ha, hp⟩ := h (n, s) (by simp)
      simp only at hv
      subst hv
      have ha' : Ascii (noCr v) := fun c hc => ha c (List.mem_of_mem_filter hc)
      have e : P.fold n (.str (noCr v)) = P.fold n (.str v) := by
        have h1 : encodedLines P.max n (noCr v) = encodedLines P.max n v := by
          unfold encodedLines
          rw [splitLines_noCr hp]
        rw [Printer.fold, Printer.fold, ascii_any ha, ascii_any ha', h1]
        rfl
      have ih := ih (fun y hy => h y (by simp [hy]))
      rw [show slimHeads ((n, .str v) :: hs) = (n, .str (noCr v)) :: slimHeads hs from rfl, Printer.foldAll,
        Printer.foldAll, e, ih]
  · intro f hf
    obtain ⟨fs, h1, h2, -⟩ := foldAll_weak P hs f (fun x hx => ⟨(h x hx).1, .inr (by
      obtain ⟨-, v, hv, ha, -⟩ := h x hx; exact ⟨v, hv, ha⟩)⟩) hf
    rw [h2]
    intro hm
    obtain ⟨l, hl, hm⟩ := List.mem_flatMap.1 hm
    obtain ⟨g, hg, hl⟩ := List.mem_flatMap.1 hl
    rcases List.mem_append.1 hm with hm | hm
    · exact ((h1 g hg).oneLine l hl 13 hm).1 rfl
    · simp at hm

theorem bodyOf_str {ct : Txt} {f : List Txt} {p p' e e' : Option Txt} {b t : Txt} (ht : Paired t) (mg w : Bool) :
    Related (bodyOf mg w (.doc ct f f [] p e b (.str t))) (bodyOf mg w (.doc ct f f [] p' e' b (.str (noCr t)))) := by
  rw [bodyOf.eq_def, bodyOf.eq_def]
  simp only
  cases handlerOf ct with
  | text => simp only; rw [written_noCr ht]; exact related_free (written_free mg t)
  | multipart s => exact ⟨ht, rfl⟩
  | deliveryStatus =>
    simp only [noCr_nil ht]
    split
    · exact related_free (by simp [CrFree])
    · exact rfl
  | message => exact ⟨ht, rfl⟩

theorem fallback_str {t : Txt} (ht : Paired t) (u : Bool) : fallback u (.str (noCr t)) = fallback u (.str t) := by
  rw [fallback, fallback]
  simp only [noCr_nil ht]

theorem bodyOf_parts {ct : Txt} {f : List Txt} {p e : Option Txt} {b : Txt} {xs xs' : List Doc}
    (hx : List.Forall₂ RelDoc xs xs') (hp : ∀ q, p = some q → Paired q) (he : ∀ q, e = some q → Paired q)
    (hb : CrFree b) (hs : handlerOf ct ≠ .deliveryStatus) (mg w : Bool) :
    Related (bodyOf mg w (.doc ct f f [] p e b (.parts xs)))
      (bodyOf mg w (.doc ct f f [] (p.map noCr) (e.map noCr) b (.parts xs'))) := by
  rw [bodyOf.eq_def, bodyOf.eq_def]
  simp only
  cases hc : handlerOf ct with
  | text => exact rfl
  | deliveryStatus => exact absurd hc hs
  | multipart s =>
    simp only
    rcases flattenAll_rel hx mg (w || s) with ⟨ts, h1, h2, h3⟩ | ⟨er, h1, h2⟩
    · rw [h1, h2]
      simp only
      obtain ⟨k1, k2⟩ := assemble_noCr hp he mg hb h3
      exact ⟨k2, k1⟩
    · rw [h1, h2]
      exact rfl
  | message =>
    cases hx with
    | nil => exact rfl
    | cons h _ => exact h.1 mg w

theorem status_type {T : Types} {hs : Headers} {d : Bool} (hk : T.kind hs d = .message)
    (h : handlerOf (T.ctype hs d) = .deliveryStatus) :
    ∃ sub, T.ctype hs d = txt "message/" ++ sub ∧ underscores sub = txt "delivery_status" := by
  have hm : (T.ctype hs d).takeWhile (· != 47) = txt "message" := by
    unfold Types.kind at hk
    simp only at hk
    split at hk
    · assumption
    · split at hk <;> cases hk
  generalize T.ctype hs d = c at hm h
  have e := List.takeWhile_append_dropWhile (p := (· != 47)) (l := c)
  rw [hm] at e
  cases hd : c.dropWhile (· != 47) with
  | nil =>
    rw [hd, List.append_nil] at e
    rw [← e] at h
    exact absurd h (by decide)
  | cons x sub =>
    have hx : x = 47 := by
      have := List.head_dropWhile_not (· != 47) (l := c) (by rw [hd]; simp)
      simpa [hd] using this
    subst hx
    rw [hd] at e
    refine ⟨sub, by rw [← e]; rfl, ?_⟩
    unfold handlerOf at h
    simp only [hm, hd, List.drop_one, List.tail_cons] at h
    have hu : underscores (txt "message" ++ 95 :: sub) = txt "message_" ++ underscores sub := by
      simp [underscores, txt]
    rw [hu] at h
    have hnot : (handlerNamed (underscores (txt "message"))).getD .text = .message := by decide
    rw [hnot] at h
    unfold handlerNamed at h
    by_cases hds : txt "message_" ++ underscores sub = txt "message_delivery_status"
    · exact List.append_cancel_left (as := txt "message_") (by rw [hds]; rfl)
    · have n1 : txt "message_" ++ underscores sub ≠ txt "text" := by simp [txt]
      have n2 : txt "message_" ++ underscores sub ≠ txt "multipart" := by simp [txt]
      have n3 : txt "message_" ++ underscores sub ≠ txt "multipart_signed" := by simp [txt]
      have n4 : txt "message_" ++ underscores sub ≠ txt "message" := by
        intro h
        have := congrArg List.length h
        simp [txt] at this
      rw [if_neg n1, if_neg n2, if_neg n3, if_neg hds, if_neg n4] at h
      cases h

theorem multi_type {T : Types} {hs : Headers} {d : Bool} {o : Option Txt} {dg : Bool}
    (hk : T.kind hs d = .multipart o dg) : handlerOf (T.ctype hs d) ≠ .deliveryStatus := by
  have hm : (T.ctype hs d).takeWhile (· != 47) = txt "multipart" := by
    unfold Types.kind at hk
    simp only at hk
    split at hk
    · cases hk
    · split at hk
      · assumption
      · cases hk
  generalize T.ctype hs d = c at hm
  unfold handlerOf
  simp only [hm]
  generalize (c.dropWhile (· != 47)).drop 1 = sub
  have hu : underscores (txt "multipart" ++ 95 :: sub) = txt "multipart_" ++ underscores sub := by
    simp [underscores, txt]
  have hnot : (handlerNamed (underscores (txt "multipart"))).getD .text = .multipart false := by decide
  rw [hu, hnot]
  have n1 : txt "multipart_" ++ underscores sub ≠ txt "text" := by simp [txt]
  have n2 : txt "multipart_" ++ underscores sub ≠ txt "message" := by simp [txt]
  have n3 : txt "multipart_" ++ underscores sub ≠ txt "message_delivery_status" := by simp [txt]
  have n4 : txt "multipart_" ++ underscores sub ≠ txt "multipart" := by
    intro h
    have := congrArg List.length h
    simp [txt] at this
  unfold handlerNamed
  rw [if_neg n1, if_neg n4, if_neg n3, if_neg n2]
  split
  · rename_i h
    split at h
    · cases h; simp
    · cases h
  · simp

mutual
theorem noStatus_slim {T : Types} (hT : EndsIgnored T) : ∀ (m m' : Tree) (d : Bool), Slim T d m m' →
    (NoStatus T d m' ↔ NoStatus T d m)
  | .text hs t, _, d, .text h1 h2 => by rw [NoStatus, NoStatus]
  | .inner hs m, _, d, .inner h1 h2 h3 => by
    rw [NoStatus, NoStatus, (kind_slim hT h1 d).1, noStatus_slim hT m _ false h3]
  | .uncut hs t e, _, d, .uncut h1 _ h2 h3 => by rw [NoStatus, NoStatus]
  | .cut hs p ms e, _, d, .cut h1 h0 h2 h3 h4 => by
    rw [NoStatus, NoStatus, (kind_slim hT h1 d).1, noStatuses_slim hT ms _ _ h4]
theorem noStatuses_slim {T : Types} (hT : EndsIgnored T) : ∀ (ms ms' : List Tree) (d : Bool), Slims T d ms ms' →
    (NoStatuses T d ms' ↔ NoStatuses T d ms)
  | [], _, d, .nil => Iff.rfl
  | m :: ms, _, d, .cons h1 h2 => by
    rw [NoStatuses, NoStatuses, noStatus_slim hT m _ d h1, noStatuses_slim hT ms _ d h2]
end

mutual
theorem docOf_rel {T : Types} (hT : EndsIgnored T) : ∀ (m m' : Tree) (d : Bool) (P : Printer), Slim T d m m' → NoStatus T d m →
    (∃ x x', P.docOf T d m = .ok x ∧ P.docOf T d m' = .ok x' ∧ RelDoc x x') ∨
    ∃ e, P.docOf T d m = .error e ∧ P.docOf T d m' = .error e
  | .text hs t, _, d, P, .text h1 h2, _ => by
    obtain ⟨f1, f2⟩ := fold_slim P h1
    rw [Printer.docOf, Printer.docOf, f1, (kind_slim hT h1 d).1]
    cases hf : P.foldAll hs with
    | error e => right; exact ⟨e, rfl, rfl⟩
    | ok f => left; exact ⟨_, _, rfl, rfl, relDoc_of (f2 f hf) (bodyOf_str h2) (fallback_str h2)⟩
  | .inner hs m, _, d, P, .inner h1 h2 h3, hn => by
    obtain ⟨f1, f2⟩ := fold_slim P h1
    rw [NoStatus] at hn
    rw [Printer.docOf, Printer.docOf, f1, (kind_slim hT h1 d).1]
    rcases docOf_rel hT m _ false P h3 hn.2 with ⟨x, x', k1, k2, k3⟩ | ⟨e, k1, k2⟩
    · rw [k1, k2]
      cases hf : P.foldAll hs with
      | error e => right; exact ⟨e, rfl, rfl⟩
      | ok f =>
        left
        have hx : List.Forall₂ RelDoc [x] [x'] := .cons k3 .nil
        refine ⟨_, _, rfl, rfl, relDoc_of (f2 f hf) (bodyOf_parts (p := none) (e := none) hx (by simp) (by simp)
          (by simp [CrFree]) ?_) ?_⟩
        · intro hd
          obtain ⟨sub, s1, s2⟩ := status_type h2 hd
          exact hn.1 sub s1 s2
        · intro u
          rw [fallback, fallback, asStrings_rel hx]
    · rw [k1, k2]
      right
      exact ⟨e, rfl, rfl⟩
  | .uncut hs t e, _, d, P, .uncut h1 _ h2 h3, _ => by
    obtain ⟨f1, f2⟩ := fold_slim P h1
    rw [Printer.docOf, Printer.docOf, f1, (kind_slim hT h1 d).1, (kind_slim hT h1 d).2.1]
    cases hf : P.foldAll hs with
    | error e => right; exact ⟨e, rfl, rfl⟩
    | ok f => left; exact ⟨_, _, rfl, rfl, relDoc_of (f2 f hf) (bodyOf_str h2) (fallback_str h2)⟩
  | .cut hs p ms e, _, d, P, .cut h1 h0 h2 h3 h4, hn => by
    obtain ⟨f1, f2⟩ := fold_slim P h1
    rw [NoStatus] at hn
    rw [Printer.docOf, Printer.docOf, f1, (kind_slim hT h1 d).1, (kind_slim hT h1 d).2.1]
    rcases docsOf_rel hT ms _ _ (P.inside (T.ctype hs d)) h4 hn with ⟨xs, xs', k1, k2, hx⟩ | ⟨e, k1, k2⟩
    · rw [k1, k2]
      cases hf : P.foldAll hs with
      | error e => right; exact ⟨e, rfl, rfl⟩
      | ok f =>
        left
        refine ⟨_, _, rfl, rfl, relDoc_of (f2 f hf) (bodyOf_parts hx h2 h3 ?_ ?_) ?_⟩
        · cases hb : T.boundary hs with
          | none => simp [CrFree]
          | some b => exact fun hm => (hT.line hs b hb 13 hm).1 rfl
        · obtain ⟨o, dg, hk⟩ := h0
          exact multi_type hk
        · intro u
          rw [fallback, fallback, asStrings_rel hx]
    · rw [k1, k2]
      right
      exact ⟨e, rfl, rfl⟩
theorem docsOf_rel {T : Types} (hT : EndsIgnored T) : ∀ (ms ms' : List Tree) (d : Bool) (P : Printer), Slims T d ms ms' →
    NoStatuses T d ms →
    (∃ xs xs', P.docsOf T d ms = .ok xs ∧ P.docsOf T d ms' = .ok xs' ∧ List.Forall₂ RelDoc xs xs') ∨
    ∃ e, P.docsOf T d ms = .error e ∧ P.docsOf T d ms' = .error e
  | [], _, d, P, .nil, _ => by left; exact ⟨[], [], rfl, rfl, .nil⟩
  | m :: ms, _, d, P, .cons h1 h2, hn => by
    rw [NoStatuses] at hn
    rw [Printer.docsOf, Printer.docsOf]
    rcases docOf_rel hT m _ d P h1 hn.1 with ⟨x, x', k1, k2, k3⟩ | ⟨e, k1, k2⟩
    · rw [k1, k2]
      rcases docsOf_rel hT ms _ d P h2 hn.2 with ⟨xs, xs', j1, j2, j3⟩ | ⟨e, j1, j2⟩
      · rw [j1, j2]; left; exact ⟨_, _, rfl, rfl, .cons k3 j3⟩
      · rw [j1, j2]; right; exact ⟨e, rfl, rfl⟩
    · rw [k1, k2]
      right
      exact ⟨e, rfl, rfl⟩
end

theorem read_noCr {T : Types} (hT : EndsIgnored T) {t : Txt} (ha : Ascii t) (hp : Paired t) :
    Slim T false (readMail T t) (readMail T (noCr t)) := by
  obtain ⟨h1, h2⟩ := readLines_noCr hp
  have hl : ∀ l ∈ readLines t, Paired l ∧ Ascii l := by
    intro l hl
    refine ⟨h2 l hl, fun c hc => ha c ?_⟩
    rw [← readLines_flatten t]
    exact List.mem_flatten.2 ⟨l, hl, hc⟩
  have hr := readTree_slim hT (2 * (readLines t).length + 2) false _ hl
  have e : readMail T (noCr t) = readTree T (2 * (readLines t).length + 2) false ((readLines t).map noCr) := by
    rw [readMail, h1, List.length_map]
  rw [e]
  exact hr

theorem write_noCr {T : Types} (hT : EndsIgnored T) (P : Printer) (mg : Bool) {t : Txt} (ha : Ascii t) (hp : Paired t)
    (hs : NoStatus T false (readMail T t)) :
    P.writeTree T mg (readMail T (noCr t)) = P.writeTree T mg (readMail T t) := by
  unfold Printer.writeTree
  rcases docOf_rel hT _ _ false P (read_noCr hT ha hp) hs with ⟨x, x', k1, k2, k3⟩ | ⟨er, k1, k2⟩
  · rw [k1, k2]
    exact k3.2 false mg
  · rw [k1, k2]

/-! ### The property -/

/-- **C126.** Two ASCII texts with the same lines, whose lines end with LF or CR LF, are
written as the same text after they were read. -/
theorem C126_line_ends_partial (P : Printer) (T : Types) (hT : EndsIgnored T) (mg : Bool) (t t' : Txt) (ha : Ascii t)
    (h : NoLoneCr t) (h' : NoLoneCr t') (hl : lines t' = lines t)
    (hs : NoStatus T false (readMail T t)) :
    P.writeTree T mg (readMail T t') = P.writeTree T mg (readMail T t) := by
  have e : noCr t' = noCr t := by
    have : ∀ u : Txt, Paired u → noCr u = noCr (forceCrlf u) := by
      intro u hu
      induction u, hu using paired_induction with
      | h0 _ => rfl
      | h1 r _ _ ih => rw [forceCrlf, noCr_crlf, noCr_crlf, ih]
      | h2 c r hc _ _ ih =>
        rw [crlf_cons (by rintro s h; exact hc (List.cons.inj h).1), noCr_cons hc, ih]
        by_cases h10 : c = 10
        · subst h10; rw [if_pos (.inr rfl), noCr_crlf]
        · rw [if_neg (by simp [hc, h10]), noCr_cons hc]
    rw [this t' (paired_of h'), this t (paired_of h), forceCrlf_eq, forceCrlf_eq, hl]
  have ha' : Ascii t' := by
    intro c hc
    by_cases h13 : c = 13
    · omega
    · have : c ∈ noCr t' := List.mem_filter.2 ⟨hc, by simp [h13]⟩
      rw [e] at this
      exact ha c (List.mem_of_mem_filter this)
  have hs' : NoStatus T false (readMail T t') := by
    rw [← noStatus_slim hT _ _ false (read_noCr hT ha' (paired_of h')), e,
      noStatus_slim hT _ _ false (read_noCr hT ha (paired_of h))]
    exact hs
  rw [← write_noCr hT P mg ha (paired_of h) hs, ← write_noCr hT P mg ha' (paired_of h') hs', e]

end Sb.Props
