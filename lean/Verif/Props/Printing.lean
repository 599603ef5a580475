import Verif.Model.Generator
import Verif.Props.MessageText

/-
Property C100: the text of a message, `Message.as_string`.
-/

set_option linter.unusedSectionVars false
namespace Sb.Props
open Sb.Mail Py

/-! ### The words of the statements -/

/-- The content type makes Generator look for the method `_handle_message_delivery_status`,
by its main type alone or by main type and subtype. -/
def NamesStatus (ctype : Txt) : Prop :=
  ∃ main sub, ctype = main ++ 47 :: sub ∧ 47 ∉ main ∧
    (underscores main = txt "message_delivery_status" ∨
      underscores (main ++ 95 :: sub) = txt "message_delivery_status")

/-- The shapes the parser makes: lists of parts for multipart types and delivery reports,
one part for other message types, a text for everything else and for a multipart type
without parts.  `fine` restricts the types of the texts. -/
inductive Parsed (fine : Txt → Prop) : Doc → Prop
  | multi {sub folded wide uf pre epi b ds} : 47 ∉ sub → (∀ d ∈ ds, Parsed fine d) →
      Parsed fine (.doc (txt "multipart/" ++ sub) folded wide uf pre epi b (.parts ds))
  | report {folded wide uf pre epi b ds} : (∀ d ∈ ds, Parsed fine d) →
      Parsed fine (.doc (txt "message/delivery-status") folded wide uf pre epi b (.parts ds))
  | message {sub folded wide uf pre epi b d} : 47 ∉ sub → Parsed fine d →
      Parsed fine (.doc (txt "message/" ++ sub) folded wide uf pre epi b (.parts [d]))
  | leaf {main sub folded wide uf pre epi b t} : 47 ∉ main → 47 ∉ sub → main ≠ txt "message" →
      fine (main ++ 47 :: sub) →
      Parsed fine (.doc (main ++ 47 :: sub) folded wide uf pre epi b (.str t))

/-- `p` is a part of a multipart message (other than a signed one, whose parts are printed
without folding their headers) or the message in a message/* one. -/
inductive Carries : Doc → Doc → Prop
  | multi {sub folded wide uf pre epi b ds p} : 47 ∉ sub → sub ≠ txt "signed" → p ∈ ds →
      Carries (.doc (txt "multipart/" ++ sub) folded wide uf pre epi b (.parts ds)) p
  | message {sub folded wide uf pre epi b ds p} : 47 ∉ sub → underscores sub ≠ txt "delivery_status" →
      Carries (.doc (txt "message/" ++ sub) folded wide uf pre epi b (.parts (p :: ds))) p

/-- No method of Generator is named after the content type but that for texts. -/
def PrintsAsText (main sub : Txt) : Prop :=
  underscores main ∉ [txt "multipart", txt "multipart_signed", txt "message",
    txt "message_delivery_status"] ∧
  underscores (main ++ 95 :: sub) ∉ [txt "multipart_signed", txt "message_delivery_status"]

/-- A line is quoted if it begins with "From ". -/
def quoteFrom (l : Txt) : Txt := if txt "From " <+: l then 62 :: l else l

/-- Every CR is followed by a LF. -/
def NoLoneCr (t : Txt) : Prop := ∀ i, t[i]? = some 13 → t[i + 1]? = some 10

/-- Without line ends. -/
def OneLine (l : Txt) : Prop := ∀ c ∈ l, c ≠ 13 ∧ c ≠ 10

/-! ### Handlers -/

theorem main_cut {main sub : Txt} (h : 47 ∉ main) :
    (main ++ 47 :: sub).takeWhile (· != 47) = main ∧
    ((main ++ 47 :: sub).dropWhile (· != 47)).drop 1 = sub := by
  have h1 : ∀ x ∈ main, (x != 47) = true := by
    intro x hx; simp only [bne_iff_ne, ne_eq]; rintro rfl; exact h hx
  rw [List.takeWhile_append_of_pos h1, List.dropWhile_append_of_pos h1]
  simp

theorem handlerOf_eq {main sub : Txt} (h : 47 ∉ main) : handlerOf (main ++ 47 :: sub) =
    match handlerNamed (underscores (main ++ 95 :: sub)) with
    | some x => x
    | none => (handlerNamed (underscores main)).getD .text := by
  obtain ⟨h1, h2⟩ := main_cut (sub := sub) h
  unfold handlerOf
  simp only [h1, h2]
  rfl

theorem handlerNamed_multi (s : Txt) : handlerNamed (txt "multipart" ++ 95 :: s) =
    if s = txt "signed" then some (.multipart true) else none := by
  have e : ∀ (x : Txt), (txt "multipart" ++ 95 :: s = x) ↔
      ((txt "multipart_").isPrefixOf x ∧ s = x.drop 10) := by
    intro x
    rw [List.isPrefixOf_iff_prefix]
    constructor
    · rintro rfl
      exact ⟨⟨s, by simp [txt]⟩, by simp [txt]⟩
    · rintro ⟨⟨y, rfl⟩, h⟩
      rw [h]; simp [txt]
  have no : ∀ x : Txt, (txt "multipart_").isPrefixOf x = false → txt "multipart" ++ 95 :: s ≠ x := by
    intro x hx h
    rw [e, hx] at h
    exact absurd h.1 (by decide)
  unfold handlerNamed
  rw [if_neg (no _ (by decide)), if_neg (no _ (by decide))]
  by_cases hs : s = txt "signed"
  · rw [if_pos hs, if_pos (by rw [hs]; decide)]
  · rw [if_neg hs, if_neg, if_neg (no _ (by decide)), if_neg (no _ (by decide))]
    rw [e]
    rintro ⟨-, h⟩
    exact hs (h.trans (by decide))

theorem handlerNamed_message (s : Txt) : handlerNamed (txt "message" ++ 95 :: s) =
    if s = txt "delivery_status" then some .deliveryStatus else none := by
  have e : ∀ (x : Txt), (txt "message" ++ 95 :: s = x) ↔
      ((txt "message_").isPrefixOf x ∧ s = x.drop 8) := by
    intro x
    rw [List.isPrefixOf_iff_prefix]
    constructor
    · rintro rfl
      exact ⟨⟨s, by simp [txt]⟩, by simp [txt]⟩
    · rintro ⟨⟨y, rfl⟩, h⟩
      rw [h]; simp [txt]
  have no : ∀ x : Txt, (txt "message_").isPrefixOf x = false → txt "message" ++ 95 :: s ≠ x := by
    intro x hx h
    rw [e, hx] at h
    exact absurd h.1 (by decide)
  unfold handlerNamed
  rw [if_neg (no _ (by decide)), if_neg (no _ (by decide)), if_neg (no _ (by decide))]
  by_cases hs : s = txt "delivery_status"
  · rw [if_pos hs, if_pos (by rw [hs]; decide)]
  · rw [if_neg hs, if_neg, if_neg (no _ (by decide))]
    rw [e]
    rintro ⟨-, h⟩
    exact hs (h.trans (by decide))

theorem underscores_append (a b : Txt) : underscores (a ++ b) = underscores a ++ underscores b := by
  simp [underscores]

theorem handlerOf_multi (sub : Txt) : handlerOf (txt "multipart/" ++ sub) =
    .multipart (underscores sub = txt "signed") := by
  have e : txt "multipart/" ++ sub = txt "multipart" ++ 47 :: sub := by simp [txt]
  rw [e, handlerOf_eq (by decide), underscores_append]
  have h1 : underscores (txt "multipart") = txt "multipart" := by decide
  have h2 : underscores (95 :: sub) = 95 :: underscores sub := by simp [underscores]
  rw [h1, h2, handlerNamed_multi]
  split
  · simp_all
  · have : handlerNamed (txt "multipart") = some (.multipart false) := by decide
    simp_all

theorem handlerOf_message (sub : Txt) : handlerOf (txt "message/" ++ sub) =
    if underscores sub = txt "delivery_status" then .deliveryStatus else .message := by
  have e : txt "message/" ++ sub = txt "message" ++ 47 :: sub := by simp [txt]
  rw [e, handlerOf_eq (by decide), underscores_append]
  have h1 : underscores (txt "message") = txt "message" := by decide
  have h2 : underscores (95 :: sub) = 95 :: underscores sub := by simp [underscores]
  rw [h1, h2, handlerNamed_message]
  have : handlerNamed (txt "message") = some .message := by decide
  split
  · simp_all
  · simp_all

theorem underscores_signed {s : Txt} : underscores s = txt "signed" ↔ s = txt "signed" := by
  constructor
  · intro h
    have hm : ∀ (l m : Txt), (∀ c ∈ m, c ≠ 95) → underscores l = m → l = m := by
      intro l
      induction l with
      | nil => intro m _ h; simpa [underscores] using h
      | cons a r ih =>
        intro m hm h
        cases m with
        | nil => simp [underscores] at h
        | cons x y =>
          simp only [underscores, List.map_cons, List.cons.injEq] at h
          have hx := hm x (by simp)
          split at h
          · omega
          · rw [h.1, ih y (fun c hc => hm c (by simp [hc])) h.2]
    exact hm s _ (by decide) h
  · rintro rfl; decide

theorem handlerOf_text {main sub : Txt} (h : 47 ∉ main) (ht : PrintsAsText main sub) :
    handlerOf (main ++ 47 :: sub) = .text := by
  rw [handlerOf_eq h]
  obtain ⟨h1, h2⟩ := ht
  simp only [List.mem_cons, List.not_mem_nil, or_false, not_or] at h1 h2
  have hm : 95 ∈ underscores (main ++ 95 :: sub) := by simp [underscores]
  have no : ∀ x : Txt, 95 ∉ x → underscores (main ++ 95 :: sub) ≠ x := fun x hx e => hx (e ▸ hm)
  have e1 : handlerNamed (underscores (main ++ 95 :: sub)) = none := by
    unfold handlerNamed
    rw [if_neg (no _ (by decide)), if_neg (no _ (by decide)), if_neg h2.1, if_neg h2.2,
      if_neg (no _ (by decide))]
  rw [e1]
  unfold handlerNamed
  simp only [if_neg h1.1, if_neg h1.2.1, if_neg h1.2.2.1, if_neg h1.2.2.2]
  split <;> rfl

theorem handlerOf_status {main sub : Txt} (h : 47 ∉ main) :
    handlerOf (main ++ 47 :: sub) = .deliveryStatus ↔ NamesStatus (main ++ 47 :: sub) := by
  rw [handlerOf_eq h]
  have named : ∀ n, handlerNamed n = some .deliveryStatus ↔ n = txt "message_delivery_status" := by
    intro n
    unfold handlerNamed
    constructor
    · intro hn; split_ifs at hn <;> simp_all
    · rintro rfl; decide
  constructor
  · intro h1
    refine ⟨main, sub, rfl, h, ?_⟩
    split at h1
    · rename_i x hx
      rw [h1] at hx
      exact .inr ((named _).1 hx)
    · cases hg : handlerNamed (underscores main) with
      | none => rw [hg] at h1; cases h1
      | some y => rw [hg] at h1; simp at h1; rw [h1] at hg; exact .inl ((named _).1 hg)
  · rintro ⟨m', s', he, hm', hs⟩
    obtain ⟨h1, h2⟩ := main_cut (sub := sub) h
    obtain ⟨h3, h4⟩ := main_cut (sub := s') hm'
    rw [← he] at h3 h4
    have e1 : main = m' := h1.symm.trans h3
    have e2 : sub = s' := h2.symm.trans h4
    subst e1 e2
    rcases hs with hs | hs
    · rw [underscores_append, hs]
      have : handlerNamed (txt "message_delivery_status" ++ underscores (95 :: sub)) = none := by
        have e : txt "message_delivery_status" ++ underscores (95 :: sub) =
            txt "message" ++ 95 :: (txt "delivery_status" ++ underscores (95 :: sub)) := by
          simp [txt]
        rw [e, handlerNamed_message, if_neg]
        intro h
        have := congrArg List.length h
        simp [underscores] at this
      rw [this]
      decide
    · rw [hs]
      have : handlerNamed (txt "message_delivery_status") = some .deliveryStatus := by decide
      rw [this]

/-! ### Lines -/

theorem lines_cons_lf (r : Txt) : lines (10 :: r) = [] :: lines r := by
  rw [lines_cons (by intro s h; cases h)]
  simp

theorem lines_oneLine {l : Txt} (h : OneLine l) (r : Txt) : lines (l ++ 10 :: r) = l :: lines r := by
  have := lines_append h (10 :: r) [] (lines r) (lines_cons_lf r)
  simpa using this

theorem lines_first_prefix (t : Txt) : ∀ l ls, lines t = l :: ls → l <+: t := by
  induction t using crlf_induction with
  | h0 => intro l ls h; simp [lines] at h; simp [h.1]
  | h1 r _ => intro l ls h; rw [lines_crlf] at h; simp at h; simp [h.1]
  | h2 c r hc ih =>
    intro l ls h
    rw [lines_cons hc] at h
    split at h
    · simp at h; simp [h.1]
    · cases hr : lines r with
      | nil => exact absurd hr (lines_ne r)
      | cons a b =>
        rw [hr] at h
        simp only [List.cons.injEq] at h
        rw [← h.1]
        exact List.cons_prefix_cons.2 ⟨rfl, ih a b hr⟩

theorem from_clean : OneLine (txt "From ") := by unfold OneLine; decide

theorem from_prefix {t l : Txt} {ls : List Txt} (h : lines t = l :: ls) :
    txt "From " <+: t ↔ txt "From " <+: l := by
  constructor
  · rintro ⟨s, rfl⟩
    cases hs : lines s with
    | nil => exact absurd hs (lines_ne s)
    | cons a b =>
      rw [lines_append from_clean s a b hs] at h
      simp only [List.cons.injEq] at h
      rw [← h.1]
      exact List.prefix_append _ _
  · exact fun h' => h'.trans (lines_first_prefix t l ls h)

theorem lines_toLf (t : Txt) : lines (toLf t) = lines t := by
  induction t using crlf_induction with
  | h0 => rfl
  | h1 r ih => rw [toLf, lines_crlf, lines_cons_lf, ih]
  | h2 c r h ih =>
    have e : toLf (c :: r) = if c = 13 then 10 :: toLf r else c :: toLf r := by
      rw [toLf]; intro s h1 h2; exact h s (by rw [h1, h2])
    rw [e, lines_cons h]
    split
    · rename_i hc
      rw [lines_cons_lf, ih, if_pos (.inl hc)]
    · rename_i hc
      rw [lines_cons (by intro s hs; exact hc (List.cons.inj hs).1), ih]

/-- Quoting: every line keeps its text, and only lines beginning with "From " are quoted. -/
theorem lines_mangle (t : Txt) : ∀ b l ls, lines t = l :: ls → ∃ l' ls',
    lines (mangleFrom b t) = l' :: ls' ∧
    List.Forall₂ (fun x y => y = x ∨ y = quoteFrom x) ls ls' ∧
    (l' = l ∨ b = true ∧ l' = quoteFrom l) ∧
    (NoLoneCr t → ls' = ls.map quoteFrom ∧ (b = true → l' = quoteFrom l)) := by
  have q0 : quoteFrom [] = [] := by simp [quoteFrom, txt]
  induction t using crlf_induction with
  | h0 =>
    intro b l ls h
    simp [lines] at h
    obtain ⟨rfl, rfl⟩ := h
    exact ⟨[], [], rfl, .nil, .inl rfl, fun _ => ⟨rfl, fun _ => q0.symm⟩⟩
  | h1 r ih =>
    intro b l ls h
    rw [lines_crlf] at h
    simp only [List.cons.injEq] at h
    obtain ⟨rfl, rfl⟩ := h
    have e : mangleFrom b (13 :: 10 :: r) = 13 :: 10 :: mangleFrom true r := by
      rw [mangleFrom, mangleFrom]
      simp [txt]
    rw [e, lines_crlf]
    cases hr : lines r with
    | nil => exact absurd hr (lines_ne r)
    | cons a c =>
      obtain ⟨l', ls', h1, h2, h3, h4⟩ := ih true a c hr
      refine ⟨[], l' :: ls', by rw [h1], .cons ?_ h2, .inl rfl, fun hn => ⟨?_, fun _ => q0.symm⟩⟩
      · rcases h3 with h3 | h3
        · exact .inl h3
        · exact .inr h3.2
      · have := h4 (fun i hi => by simpa using hn (i + 2) (by simpa using hi))
        rw [this.1, this.2 rfl]; rfl
  | h2 c r hc ih =>
    intro b l ls h
    cases hr : lines r with
    | nil => exact absurd hr (lines_ne r)
    | cons a d =>
      by_cases hx : c = 13 ∨ c = 10
      · -- a line end
        rw [lines_cons hc, if_pos hx, hr] at h
        simp only [List.cons.injEq] at h
        obtain ⟨rfl, rfl⟩ := h
        have e : mangleFrom b (c :: r) = c :: mangleFrom (c == 10) r := by
          rw [mangleFrom, if_neg]
          rcases hx with rfl | rfl <;> simp [txt]
        obtain ⟨l', ls', h1, h2, h3, h4⟩ := ih (c == 10) a d hr
        have hne : ∀ s, c :: mangleFrom (c == 10) r ≠ 13 :: 10 :: s := by
          intro s hs
          simp only [List.cons.injEq] at hs
          obtain ⟨rfl, hs⟩ := hs
          cases r with
          | nil => simp [mangleFrom] at hs
          | cons x y =>
            rw [mangleFrom] at hs
            simp at hs
            exact hc y (by rw [hs.1])
        rw [e, lines_cons hne, if_pos hx, h1]
        refine ⟨[], l' :: ls', rfl, .cons ?_ h2, .inl rfl, fun hn => ⟨?_, fun _ => q0.symm⟩⟩
        · rcases h3 with h3 | h3
          · exact .inl h3
          · exact .inr h3.2
        · have hc10 : c = 10 := by
            rcases hx with rfl | rfl
            · exfalso
              have := hn 0 (by simp)
              cases r with
              | nil => simp at this
              | cons x y => simp at this; exact hc y (by rw [this])
            · rfl
          have := h4 (fun i hi => by simpa using hn (i + 1) (by simpa using hi))
          rw [this.1, this.2 (by simp [hc10])]; rfl
      · -- another character
        have hl := h
        rw [lines_cons hc, if_neg hx, hr] at h
        simp only [List.cons.injEq] at h
        obtain ⟨rfl, rfl⟩ := h
        obtain ⟨l', ls', h1, h2, h3, h4⟩ := ih false a d hr
        have h3' : l' = a := by
          rcases h3 with h3 | h3
          · exact h3
          · cases h3.1
        subst h3'
        have c10 : (c == 10) = false := by simpa using (not_or.1 hx).2
        have hcons : lines (c :: mangleFrom false r) = (c :: l') :: ls' := by
          rw [lines_cons (by intro s hs; exact hx (.inl (List.cons.inj hs).1)), if_neg hx, h1]
        have hn' : NoLoneCr (c :: r) → ls' = d.map quoteFrom := fun hn =>
          (h4 (fun i hi => by simpa using hn (i + 1) (by simpa using hi))).1
        have hp := from_prefix hl
        rw [mangleFrom, c10]
        by_cases hb : (b && (txt "From ").isPrefixOf (c :: r)) = true
        · rw [if_pos hb]
          rw [Bool.and_eq_true, List.isPrefixOf_iff_prefix, hp] at hb
          have eq : quoteFrom (c :: l') = 62 :: c :: l' := by rw [quoteFrom, if_pos hb.2]
          refine ⟨62 :: c :: l', ls', ?_, h2, .inr ⟨hb.1, eq.symm⟩, fun hn => ⟨hn' hn, fun _ => eq.symm⟩⟩
          rw [lines_cons (by intro s hs; cases hs), if_neg (by decide), hcons]
        · rw [if_neg hb]
          refine ⟨c :: l', ls', hcons, h2, .inl rfl, fun hn => ⟨hn' hn, fun hbt => ?_⟩⟩
          rw [hbt, Bool.true_and, List.isPrefixOf_iff_prefix, hp] at hb
          rw [quoteFrom, if_neg hb]

theorem crlf_lf (a r : Txt) : forceCrlf (a ++ 10 :: r) = forceCrlf (a ++ [10]) ++ forceCrlf r := by
  induction a using crlf_induction with
  | h0 =>
    rw [List.nil_append, List.nil_append, crlf_cons (by intro s h; cases h),
      crlf_cons (by intro s h; cases h)]
    simp [forceCrlf]
  | h1 x ih => simp only [List.cons_append, forceCrlf, ih]
  | h2 c x h ih =>
    by_cases hx : c = 13 ∧ x = []
    · obtain ⟨rfl, rfl⟩ := hx
      simp [forceCrlf]
    · have hne : ∀ y, ∀ s, c :: (x ++ 10 :: y) ≠ 13 :: 10 :: s := by
        intro y s hs
        simp only [List.cons.injEq] at hs
        cases x with
        | nil => exact hx ⟨hs.1, rfl⟩
        | cons p q =>
          simp only [List.cons_append, List.cons.injEq] at hs
          exact h q (by rw [hs.1, hs.2.1])
      rw [List.cons_append, List.cons_append, crlf_cons (hne r), crlf_cons (hne []), ih]
      split <;> simp

theorem crlf_prefix (p r : Txt) : forceCrlf p <+: forceCrlf (p ++ 10 :: r) := by
  induction p using crlf_induction with
  | h0 => simp [forceCrlf]
  | h1 x ih =>
    simp only [List.cons_append, forceCrlf]
    exact List.cons_prefix_cons.2 ⟨rfl, List.cons_prefix_cons.2 ⟨rfl, ih⟩⟩
  | h2 c x h ih =>
    by_cases hx : c = 13 ∧ x = []
    · obtain ⟨rfl, rfl⟩ := hx
      simp [forceCrlf]
    · have hne : ∀ s, c :: (x ++ 10 :: r) ≠ 13 :: 10 :: s := by
        intro s hs
        simp only [List.cons.injEq] at hs
        cases x with
        | nil => exact hx ⟨hs.1, rfl⟩
        | cons p q =>
          simp only [List.cons_append, List.cons.injEq] at hs
          exact h q (by rw [hs.1, hs.2.1])
      rw [List.cons_append, crlf_cons hne, crlf_cons h]
      split
      · exact List.cons_prefix_cons.2 ⟨rfl, List.cons_prefix_cons.2 ⟨rfl, ih⟩⟩
      · exact List.cons_prefix_cons.2 ⟨rfl, ih⟩

/-! ### Printing succeeds -/

theorem flattenAll_ok {mg w : Bool} {ds : List Doc} (h : ∀ d ∈ ds, ∃ t, flatten mg w d = .ok t) :
    ∃ ts, flattenAll mg w ds = .ok ts ∧ List.Forall₂ (fun d t => flatten mg w d = .ok t) ds ts := by
  induction ds with
  | nil => exact ⟨[], by rw [flattenAll], .nil⟩
  | cons d ds ih =>
    obtain ⟨t, ht⟩ := h d (by simp)
    obtain ⟨ts, hts, hf⟩ := ih (fun x hx => h x (by simp [hx]))
    exact ⟨t :: ts, by rw [flattenAll, ht, hts], .cons ht hf⟩

theorem parsed_flatten {d : Doc} (h : Parsed (fun ct => ¬ NamesStatus ct) d) :
    ∀ mg w, ∃ t, flatten mg w d = .ok t := by
  induction h with
  | @multi sub _ _ _ _ _ _ ds hs _ ih =>
    intro mg w
    obtain ⟨ts, hts, -⟩ := flattenAll_ok (mg := mg) (w := w || decide (underscores sub = txt "signed"))
      (fun d hd => ih d hd mg _)
    rw [flatten, bodyOf.eq_def]
    simp only [handlerOf_multi, hts]
    exact ⟨_, rfl⟩
  | @report _ _ _ _ _ _ ds _ ih =>
    intro mg w
    obtain ⟨ts, hts, -⟩ := flattenAll_ok (mg := mg) (w := w) (fun d hd => ih d hd mg _)
    have : handlerOf (txt "message/delivery-status") = .deliveryStatus := by decide
    rw [flatten, bodyOf.eq_def]
    simp only [this, hts]
    exact ⟨_, rfl⟩
  | @message sub _ _ _ _ _ _ d hs _ ih =>
    intro mg w
    obtain ⟨t, ht⟩ := ih mg w
    rw [flatten, bodyOf.eq_def]
    simp only [handlerOf_message]
    by_cases hh : underscores sub = txt "delivery_status"
    · simp only [if_pos hh, flattenAll, ht]
      exact ⟨_, rfl⟩
    · simp only [if_neg hh, ht]
      exact ⟨_, rfl⟩
  | @leaf main sub _ _ _ _ _ _ t hm hs hne hf =>
    intro mg w
    have hst : handlerOf (main ++ 47 :: sub) ≠ .deliveryStatus := fun h => hf ((handlerOf_status hm).1 h)
    rw [flatten, bodyOf.eq_def]
    cases hh : handlerOf (main ++ 47 :: sub) with
    | deliveryStatus => exact absurd hh hst
    | text => simp only [hh]; exact ⟨_, rfl⟩
    | multipart s => simp only [hh]; exact ⟨_, rfl⟩
    | message => simp only [hh]; exact ⟨_, rfl⟩

theorem asString_of_flatten {d : Doc} {t : Txt} (uf mg : Bool) (h : flatten mg false d = .ok t) :
    ∃ from_, asString uf mg d = .ok (forceCrlf ((if uf then from_ ++ [10] else []) ++ t)) := by
  obtain ⟨ct, f, w, u, p, e, b, pl⟩ := d
  refine ⟨u, ?_⟩
  rw [asString.eq_def]
  simp only [generate, h]

/-! ### C100 -/

/-- Whatever the message, the text returned has only CR LF as line ends. -/
theorem C100_line_ends (uf mg : Bool) (d : Doc) (s : Txt) (h : asString uf mg d = .ok s) :
    (∀ i, s[i]? = some 13 → s[i + 1]? = some 10) ∧
    (∀ i, s[i]? = some 10 → ∃ j, i = j + 1 ∧ s[j]? = some 13) := by
  have : ∃ t, s = forceCrlf t := by
    obtain ⟨ct, f, w, u, p, e, b, pl⟩ := d
    rw [asString.eq_def] at h
    simp only at h
    split at h
    · exact ⟨_, (Except.ok.inj h).symm⟩
    · split at h
      · cases h
      · split at h
        · exact ⟨[], by rw [← Except.ok.inj h]; rfl⟩
        · cases h
      · split at h
        · exact ⟨[], by rw [← Except.ok.inj h]; rfl⟩
        · cases h
      · split at h
        · exact ⟨_, (Except.ok.inj h).symm⟩
        · cases h
    · cases h
  obtain ⟨t, rfl⟩ := this
  exact C43_crlf_only t

/-- as_string works for every parsed message without a text of one strange type. -/
theorem C100_works_partial (uf mg : Bool) (d : Doc) (h : Parsed (fun ct => ¬ NamesStatus ct) d) :
    ∃ s, asString uf mg d = .ok s := by
  obtain ⟨t, ht⟩ := parsed_flatten h mg false
  obtain ⟨f, hf⟩ := asString_of_flatten uf mg ht
  exact ⟨_, hf⟩

/-- A text of that type, unless empty, cannot be printed. -/
theorem C100_raises (uf mg : Bool) (ct : Txt) (f w : List Txt) (u : Txt) (p e : Option Txt) (b t : Txt)
    (h : NamesStatus ct) (ht : t ≠ []) :
    asString uf mg (.doc ct f w u p e b (.str t)) = .error .attributeError := by
  have hh : handlerOf ct = .deliveryStatus := by
    obtain ⟨main, sub, rfl, hm, hs⟩ := h
    exact (handlerOf_status hm).2 ⟨main, sub, rfl, hm, hs⟩
  rw [asString.eq_def]
  simp only [generate, flatten, bodyOf.eq_def, hh, if_neg ht]

/-- The claim: every parsed message has a text. -/
def C100Claim : Prop := ∀ d, Parsed (fun _ => True) d → ∀ uf mg, ∃ s, asString uf mg d = .ok s

/-- A payload of bytes cannot be printed, whatever the type of the message: that of a text
raises AttributeError, unless it is empty, and then the headers are lost. -/
theorem C100_bytes (uf mg : Bool) (main sub : Txt) (f w : List Txt) (u : Txt) (p e : Option Txt) (b : Txt)
    (t : List Nat) (hm : 47 ∉ main) (h : PrintsAsText main sub) :
    asString uf mg (.doc (main ++ 47 :: sub) f w u p e b (.octets t)) =
      if t = [] then .ok [] else .error .attributeError := by
  rw [asString.eq_def]
  simp only [generate, flatten, bodyOf.eq_def, handlerOf_text hm h]

example : asString false true (.doc (txt "text/plain") [] [] [] none none [] (.octets [104, 105])) =
    .error .attributeError :=
  C100_bytes false true (txt "text") (txt "plain") [] [] [] none none [] [104, 105] (by decide)
    (by unfold PrintsAsText; decide)

/-- A message whose header says `Content-Type: message_delivery_status/x`. -/
theorem C100_claim_false : ¬ C100Claim := by
  intro h
  obtain ⟨s, hs⟩ := h (.doc (txt "message_delivery_status/x") [] [] [] none none [] (.str (txt "hello")))
    (.leaf (main := txt "message_delivery_status") (sub := txt "x") (by decide) (by decide)
      (by decide) trivial) false true
  rw [C100_raises false true (txt "message_delivery_status/x") _ _ _ _ _ _ _
    ⟨txt "message_delivery_status", txt "x", rfl, by decide, .inl (by decide)⟩ (by decide)] at hs
  cases hs

/-- The text begins with the `From ` line if it is asked for, and with all the headers in
their order, followed by an empty line. -/
theorem C100_headers_partial (uf mg : Bool) (ct : Txt) (f w : List Txt) (u : Txt) (p e : Option Txt)
    (b : Txt) (pl : Cargo Doc)
    (h : Parsed (fun ct => ¬ NamesStatus ct) (.doc ct f w u p e b pl)) :
    ∃ body, asString uf mg (.doc ct f w u p e b pl) =
      .ok (forceCrlf ((if uf then u ++ [10] else []) ++ f.flatten ++ [10]) ++ body) := by
  obtain ⟨t, ht⟩ := parsed_flatten h mg false
  rw [asString.eq_def]
  simp only [generate, ht]
  rw [flatten] at ht
  split at ht
  · rename_i body _
    refine ⟨forceCrlf body, ?_⟩
    rw [← Except.ok.inj ht, ← crlf_lf]
    simp
  · cases ht

/-- The lines of a text message: the `From ` line if asked for, the lines of the headers,
an empty line, and the lines of the body, each as it is or, if it begins with "From " and
quoting is asked for, quoted. -/
theorem C100_text (uf mg : Bool) (main sub : Txt) (hs : List (List Txt)) (w : List Txt) (u : Txt)
    (p e : Option Txt) (b t : Txt) (hm : 47 ∉ main) (ht : PrintsAsText main sub)
    (hh : ∀ ls ∈ hs, ∀ l ∈ ls, OneLine l) (hu : OneLine u) :
    ∃ s body, asString uf mg (.doc (main ++ 47 :: sub)
        (hs.map fun ls => ls.flatMap (· ++ [10])) w u p e b (.str t)) = .ok s ∧
      lines s = (if uf then [u] else []) ++ hs.flatten ++ [] :: body ∧
      List.Forall₂ (fun x y => y = x ∨ mg = true ∧ y = quoteFrom x) (lines t) body ∧
      (mg = false → body = lines t) ∧
      (mg = true → NoLoneCr t → body = (lines t).map quoteFrom) := by
  have hl : ∀ (ls : List Txt), (∀ l ∈ ls, OneLine l) → ∀ r,
      lines (ls.flatMap (· ++ [10]) ++ r) = ls ++ lines r := by
    intro ls
    induction ls with
    | nil => intro _ r; rfl
    | cons l ls ih =>
      intro h r
      have := lines_oneLine (h l (by simp)) (ls.flatMap (· ++ [10]) ++ r)
      rw [ih (fun x hx => h x (by simp [hx]))] at this
      simpa using this
  have hhs : ∀ (hs : List (List Txt)), (∀ ls ∈ hs, ∀ l ∈ ls, OneLine l) → ∀ r,
      lines ((hs.map fun ls => ls.flatMap (· ++ [10])).flatten ++ r) = hs.flatten ++ lines r := by
    intro hs
    induction hs with
    | nil => intro _ r; rfl
    | cons a as ih =>
      intro h r
      simp only [List.map_cons, List.flatten_cons, List.append_assoc]
      rw [hl a (h a (by simp)), ih (fun x hx => h x (by simp [hx]))]
  refine ⟨_, lines (written mg t), by
    rw [asString.eq_def]; simp only [generate, flatten, bodyOf.eq_def, handlerOf_text hm ht]; rfl,
    ?_, ?_, ?_, ?_⟩
  · rw [C43_same_lines]
    simp only [Bool.false_eq_true, if_false]
    cases uf with
    | false => simp only [Bool.false_eq_true, if_false, List.nil_append]; rw [hhs _ hh, lines_cons_lf]
    | true =>
      simp only [if_true]
      rw [List.append_assoc, List.singleton_append, lines_oneLine hu, hhs _ hh, lines_cons_lf]
      simp
  · cases mg with
    | false =>
      rw [written, lines_toLf]
      exact List.forall₂_same.2 (fun x _ => .inl rfl)
    | true =>
      rw [written, lines_toLf, if_pos rfl]
      cases hlt : lines t with
      | nil => exact absurd hlt (lines_ne t)
      | cons l ls =>
        obtain ⟨l', ls', h1, h2, h3, -⟩ := lines_mangle t true l ls hlt
        rw [h1]
        refine .cons ?_ (h2.imp fun x y h => ?_)
        · rcases h3 with h3 | h3
          · exact .inl h3
          · exact .inr h3
        · rcases h with h | h
          · exact .inl h
          · exact .inr ⟨rfl, h⟩
  · rintro rfl
    rw [written, lines_toLf]; rfl
  · rintro rfl hn
    rw [written, lines_toLf, if_pos rfl]
    cases hlt : lines t with
    | nil => exact absurd hlt (lines_ne t)
    | cons l ls =>
      obtain ⟨l', ls', h1, -, -, h4⟩ := lines_mangle t true l ls hlt
      rw [h1, (h4 hn).1, (h4 hn).2 rfl]
      rfl

/-- After a CR that stands alone a line is not quoted. -/
theorem C100_from_after_cr : ∃ t s : Txt, asString false true
      (.doc (txt "text/plain") [] [] [] none none [] (.str t)) = .ok s ∧ txt "From me" ∈ lines s := by
  refine ⟨txt "a\rFrom me", _, by
    have : handlerOf (txt "text/plain") = .text := by decide
    rw [asString.eq_def]; simp only [generate, flatten, bodyOf.eq_def, this]; rfl, ?_⟩
  decide

theorem assemble_cons (mg : Bool) (pre epi : Option Txt) (b : Txt) : ∃ P E, ∀ u us,
    assemble mg pre epi b (u :: us) = P ++ 45 :: 45 :: b ++ 10 ::
      (u ++ us.flatMap (fun v => 10 :: 45 :: 45 :: b ++ 10 :: v)) ++
      10 :: 45 :: 45 :: b ++ 45 :: 45 :: 10 :: E := by
  cases pre <;> cases epi <;> exact ⟨_, _, fun u us => rfl⟩

theorem multi_infix {mg w w' : Bool} {sub b uf : Txt} {f wd : List Txt} {pre epi : Option Txt}
    {ds : List Doc} {p : Doc} (hw : w' = (w || decide (underscores sub = txt "signed"))) (hp : p ∈ ds)
    {t : Txt} (ht : flatten mg w (.doc (txt "multipart/" ++ sub) f wd uf pre epi b (.parts ds)) = .ok t) :
    ∃ t', flatten mg w' p = .ok t' ∧ ∃ x y, t = x ++ 10 :: t' ++ 10 :: y := by
  rw [flatten, bodyOf.eq_def] at ht
  simp only [handlerOf_multi, ← hw] at ht
  have all : ∀ (ds : List Doc) ts, flattenAll mg w' ds = .ok ts →
      List.Forall₂ (fun d t => flatten mg w' d = .ok t) ds ts := by
    intro ds
    induction ds with
    | nil => intro ts h; rw [flattenAll] at h; cases h; exact .nil
    | cons a as ih =>
      intro ts h
      rw [flattenAll] at h
      split at h
      · rename_i t0 h0
        split at h
        · rename_i ts0 h1
          cases h
          exact .cons h0 (ih _ h1)
        · cases h
      · cases h
  cases hfa : flattenAll mg w' ds with
  | error e => rw [hfa] at ht; cases ht
  | ok ts =>
    rw [hfa] at ht
    have ht := Except.ok.inj ht
    have key : ∀ (ds : List Doc) ts, List.Forall₂ (fun d t => flatten mg w' d = .ok t) ds ts →
        p ∈ ds → ∃ t', flatten mg w' p = .ok t' ∧ t' ∈ ts := by
      intro ds ts h
      induction h with
      | nil => intro h; cases h
      | cons h1 _ ih =>
        intro hm
        rcases List.mem_cons.1 hm with rfl | hm
        · exact ⟨_, h1, by simp⟩
        · obtain ⟨t', h2, h3⟩ := ih hm
          exact ⟨t', h2, by simp [h3]⟩
    obtain ⟨t', h1, h2⟩ := key ds ts (all ds ts hfa) hp
    refine ⟨t', h1, ?_⟩
    rw [← ht]
    obtain ⟨P, E, hA⟩ := assemble_cons mg pre epi b
    generalize (if w then wd else f).flatten = H
    have tail : ∀ (us : List Txt), t' ∈ us → ∀ z, ∃ x y,
        us.flatMap (fun u => 10 :: 45 :: 45 :: b ++ 10 :: u) ++ 10 :: z = x ++ 10 :: t' ++ 10 :: y := by
      intro us
      induction us with
      | nil => intro h; cases h
      | cons u us ih =>
        intro h z
        rcases List.mem_cons.1 h with rfl | h
        · cases us with
          | nil => exact ⟨10 :: 45 :: 45 :: b, z, by simp⟩
          | cons v vs =>
            exact ⟨10 :: 45 :: 45 :: b, 45 :: 45 :: b ++ 10 :: v ++
              vs.flatMap (fun u => 10 :: 45 :: 45 :: b ++ 10 :: u) ++ 10 :: z, by simp⟩
        · obtain ⟨x, y, hxy⟩ := ih h z
          refine ⟨10 :: 45 :: 45 :: b ++ 10 :: u ++ x, y, ?_⟩
          rw [List.flatMap_cons, List.append_assoc, hxy]
          simp
    cases ts with
    | nil => cases h2
    | cons u us =>
      rw [hA]
      rcases List.mem_cons.1 h2 with rfl | h2
      · cases us with
        | nil =>
          exact ⟨H ++ 10 :: P ++ 45 :: 45 :: b, 45 :: 45 :: b ++ 45 :: 45 :: 10 :: E, by simp⟩
        | cons v vs =>
          exact ⟨H ++ 10 :: P ++ 45 :: 45 :: b, (45 :: 45 :: b ++ 10 :: v ++
            vs.flatMap (fun u => 10 :: 45 :: 45 :: b ++ 10 :: u) ++ 10 :: 45 :: 45 :: b ++
            45 :: 45 :: 10 :: E), by simp⟩
      · obtain ⟨x, y, hxy⟩ := tail us h2 (45 :: 45 :: b ++ 45 :: 45 :: 10 :: E)
        refine ⟨H ++ 10 :: P ++ 45 :: 45 :: b ++ 10 :: u ++ x, y, ?_⟩
        have := congrArg (fun l => H ++ 10 :: P ++ 45 :: 45 :: b ++ 10 :: u ++ l) hxy
        simpa using this

theorem carries_infix {mg : Bool} {d p : Doc} (h : Carries d p) {t : Txt}
    (ht : flatten mg false d = .ok t) : ∃ t', flatten mg false p = .ok t' ∧
      ∃ x y, t = x ++ 10 :: t' ++ y ∧ (y = [] ∨ ∃ z, y = 10 :: z) := by
  cases h with
  | @multi sub f w uf pre epi b ds _ h47 hsig hp =>
    have hs : decide (underscores sub = txt "signed") = false := by
      simpa [underscores_signed] using hsig
    obtain ⟨t', h1, x, y, h2⟩ := multi_infix (w' := false) (by rw [hs]; rfl) hp ht
    exact ⟨t', h1, x, 10 :: y, h2, .inr ⟨y, rfl⟩⟩
  | @message sub f w uf pre epi b ds _ h47 hst =>
    rw [flatten, bodyOf.eq_def] at ht
    simp only [handlerOf_message, if_neg hst] at ht
    cases hp : flatten mg false p with
    | error e => simp only [hp] at ht; cases ht
    | ok t' =>
      simp only [hp] at ht
      exact ⟨t', rfl, f.flatten, [], by rw [← Except.ok.inj ht]; simp, .inl rfl⟩

/-- The text of every part of a message, at any depth, is found in the text of the message. -/
theorem C100_parts_partial (mg : Bool) (d p : Doc) (h : Parsed (fun ct => ¬ NamesStatus ct) d)
    (hp : Relation.ReflTransGen Carries d p) :
    ∃ s s', asString false mg d = .ok s ∧ asString false mg p = .ok s' ∧ s' <:+: s := by
  obtain ⟨t, ht⟩ := parsed_flatten h mg false
  have gen : ∃ t', flatten mg false p = .ok t' ∧ forceCrlf t' <:+: forceCrlf t := by
    induction hp with
    | refl => exact ⟨t, ht, List.infix_rfl⟩
    | tail _ hc ih =>
      obtain ⟨t1, h1, h2⟩ := ih
      obtain ⟨t', h3, x, y, h4, h5⟩ := carries_infix hc h1
      refine ⟨t', h3, List.IsInfix.trans ?_ h2⟩
      rw [h4, List.append_assoc, List.cons_append, crlf_lf]
      rcases h5 with rfl | ⟨z, rfl⟩
      · exact ⟨forceCrlf (x ++ [10]), [], by simp⟩
      · obtain ⟨q, hq⟩ := crlf_prefix t' z
        exact ⟨forceCrlf (x ++ [10]), q, by rw [← hq, List.append_assoc]⟩
  obtain ⟨t', ht', hi⟩ := gen
  obtain ⟨_, h1⟩ := asString_of_flatten false mg ht
  obtain ⟨_, h2⟩ := asString_of_flatten false mg ht'
  exact ⟨_, _, h1, h2, hi⟩

/-- The headers of the parts of a signed message are printed as they are, without folding. -/
theorem C100_signed_partial (mg : Bool) (ct b b' u u' : Txt) (f f' w w' : List Txt) (p e p' e' : Option Txt)
    (ds : List Doc) (pl : Cargo Doc)
    (h : Parsed (fun ct => ¬ NamesStatus ct)
      (.doc (txt "multipart/signed") f w u p e b (.parts ds)))
    (hp : .doc ct f' w' u' p' e' b' pl ∈ ds) :
    ∃ s, asString false mg (.doc (txt "multipart/signed") f w u p e b (.parts ds)) = .ok s ∧
      forceCrlf (w'.flatten ++ [10]) <:+: s := by
  obtain ⟨t, ht⟩ := parsed_flatten h mg false
  obtain ⟨_, h1⟩ := asString_of_flatten false mg ht
  refine ⟨_, h1, ?_⟩
  obtain ⟨t', h2, x, y, h3⟩ := multi_infix (sub := txt "signed") (w' := true) (by decide) hp ht
  rw [flatten] at h2
  split at h2
  · rename_i body _
    have e := Except.ok.inj h2
    simp only [if_true] at e
    have e2 : t = x ++ 10 :: (w'.flatten ++ 10 :: (body ++ 10 :: y)) := by rw [h3, ← e]; simp
    rw [if_neg (by decide), List.nil_append, e2, crlf_lf x,
      crlf_lf w'.flatten (body ++ 10 :: y)]
    exact ⟨forceCrlf (x ++ [10]), forceCrlf (body ++ 10 :: y), by rw [List.append_assoc]⟩
  · cases h2

/-- A message with parts that has a text type (that of a message to which parts were
attached and no type given) is printed as its parts one after the other: the headers and
the choice about quoting have no effect. -/
theorem C100_headers_lost (uf mg mg' : Bool) (main sub : Txt) (f f' w w' : List Txt) (u u' : Txt)
    (p e p' e' : Option Txt) (b b' : Txt) (ds : List Doc) (hm : 47 ∉ main) (h : PrintsAsText main sub) :
    asString uf mg (.doc (main ++ 47 :: sub) f w u p e b (.parts ds)) =
      asString uf mg' (.doc (main ++ 47 :: sub) f' w' u' p' e' b' (.parts ds)) := by
  rw [asString.eq_def, asString.eq_def uf mg']
  simp only [generate, flatten, bodyOf.eq_def, handlerOf_text hm h]

theorem joinLf_eq : ∀ ts : List Txt, joinLf ts = List.intercalate [10] ts
  | [] => rfl
  | [a] => by simp [joinLf]
  | a :: b :: r => by
    rw [joinLf, joinLf_eq (b :: r), List.intercalate_cons_cons]
    simp

/-- Its text is those of the parts, each with quoted `From ` lines whatever was asked for,
joined by line ends. -/
theorem C100_attached (uf mg : Bool) (main sub : Txt) (f w : List Txt) (u : Txt)
    (p e : Option Txt) (b : Txt) (ds : List Doc) (ts : List Txt) (hm : 47 ∉ main)
    (h : PrintsAsText main sub) (hd : List.Forall₂ (fun d t => asString uf true d = .ok t) ds ts) :
    asString uf mg (.doc (main ++ 47 :: sub) f w u p e b (.parts ds)) =
      .ok (forceCrlf (List.intercalate [10] ts)) := by
  have hs : asStrings uf ds = .ok ts := by
    induction hd with
    | nil => rw [asStrings]
    | cons h1 _ ih => rw [asStrings, h1, ih]
  rw [asString.eq_def]
  simp only [generate, flatten, bodyOf.eq_def, handlerOf_text hm h, hs, joinLf_eq]

theorem plain_prints : PrintsAsText (txt "text") (txt "plain") := by
  unfold PrintsAsText; decide

theorem plain_text (t s : Txt) (h : forceCrlf (10 :: written true t) = s) :
    asString false true (.doc (txt "text/plain") [] [] [] none none [] (.str t)) = .ok s := by
  have : handlerOf (txt "text/plain") = .text := by decide
  rw [asString.eq_def]
  simp only [generate, flatten, bodyOf.eq_def, this]
  exact congrArg _ h

example : asString false false (.doc (txt "text/plain") [txt "A: b\n"] [] [] none none []
    (.parts [.doc (txt "text/plain") [] [] [] none none [] (.str (txt "From me")),
      .doc (txt "text/plain") [] [] [] none none [] (.str (txt "x"))])) =
    .ok (forceCrlf (List.intercalate [10] [txt "\r\n>From me", txt "\r\nx"])) :=
  C100_attached false false (txt "text") (txt "plain") _ _ _ _ _ _ _ _ (by decide) plain_prints
    (.cons (plain_text _ _ rfl) (.cons (plain_text _ _ rfl) .nil))

/-- The message of the next examples: two parts, the second one a forwarded message. -/
def forwarded : Doc :=
  .doc (txt "multipart/mixed") [txt "Subject: x\n"] [txt "Subject: x\n"] (txt "From nobody") none none (txt "B")
    (.parts [.doc (txt "text/plain") [] [] [] none none [] (.str (txt "hi\nFrom me")),
      .doc (txt "message/rfc822") [txt "A: b\n"] [] [] none none []
        (.parts [.doc (txt "text/html") [] [] [] none none [] (.str (txt "bye"))])])

theorem parsed_forwarded : Parsed (fun ct => ¬ NamesStatus ct) forwarded := by
  have no : ∀ main sub : Txt, 47 ∉ main → handlerOf (main ++ 47 :: sub) = .text →
      ¬ NamesStatus (main ++ 47 :: sub) := by
    intro main sub h ht hn
    rw [← handlerOf_status h, ht] at hn
    cases hn
  refine .multi (sub := txt "mixed") (by decide) ?_
  intro d hd
  simp only [List.mem_cons, List.not_mem_nil, or_false] at hd
  rcases hd with rfl | rfl
  · exact .leaf (main := txt "text") (sub := txt "plain") (by decide) (by decide) (by decide)
      (no _ _ (by decide) (by decide))
  · exact .message (sub := txt "rfc822") (by decide)
      (.leaf (main := txt "text") (sub := txt "html") (by decide) (by decide) (by decide)
        (no _ _ (by decide) (by decide)))

example : asString false true forwarded = .ok (txt
    "Subject: x\r\n\r\n--B\r\n\r\nhi\r\n>From me\r\n--B\r\nA: b\r\n\r\n\r\nbye\r\n--B--\r\n") := by
  have h1 : handlerOf (txt "multipart/mixed") = .multipart false := by decide
  have h2 : handlerOf (txt "text/plain") = .text := by decide
  have h3 : handlerOf (txt "message/rfc822") = .message := by decide
  have h4 : handlerOf (txt "text/html") = .text := by decide
  rw [forwarded, asString.eq_def]
  simp only [generate, flatten, flattenAll, bodyOf.eq_def, h1, h2, h3, h4]
  decide

example : ∃ p, Relation.ReflTransGen Carries forwarded p ∧
    p = .doc (txt "text/html") [] [] [] none none [] (.str (txt "bye")) :=
  ⟨_, .tail (.single (.multi (sub := txt "mixed") (by decide) (by decide)
    (List.mem_cons_of_mem _ (List.mem_singleton.2 rfl)))) (.message (sub := txt "rfc822") (by decide) (by decide)), rfl⟩

example : PrintsAsText (txt "application") (txt "pdf") ∧ ¬ PrintsAsText (txt "multipart") (txt "mixed") := by
  unfold PrintsAsText; decide

example : NoLoneCr (txt "a\r\nb") ∧ ¬ NoLoneCr (txt "a\rb") := by
  refine ⟨fun i hi => ?_, fun h => absurd (h 1 (by decide)) (by decide)⟩
  match i with
  | 0 => simp [txt] at hi
  | 1 => decide
  | 2 => simp [txt] at hi
  | 3 => simp [txt] at hi
  | i + 4 => simp [txt] at hi

end Sb.Props
