import Verif.Props.Reread
import Verif.Props.Evidence

/-
C116: the marks of a message survive writing and reading.
-/

set_option linter.unusedSectionVars false

namespace Sb.Props
open Py Sb.Mail

/-- ASCII without the characters that end lines. -/
def OneRow (t : Txt) : Prop := ∀ c ∈ t, c < 128 ∧ ¬ Ends c

/-- Formatted numbers and the `repr` of a word that is printed are such texts. -/
structure RowFmt (F : Fmt) : Prop where
  octets : ∀ b, OneRow (F.repr (.bytes b))
  coded : ∀ t t', F.encode t = .ok t' → OneRow (F.repr (.str t'))
  fixed : ∀ d p, OneRow (F.fixed d p)
  log10 : ∀ p, OneRow (F.log10 p)

/-- A header that can be written and read again. -/
def Tidy (x : Txt × Stored) : Prop :=
  FieldName x.1 ∧ (x.2 = .none ∨ ∃ v, x.2 = .str v ∧ Ascii v ∧ Continued v)

/-- The headers, and the id, which becomes one. -/
def TidyMsg (m : Msg) : Prop :=
  (∀ x ∈ m.headers, Tidy x) ∧ ∀ t, m.messageid = some t → Ascii t ∧ Continued t

theorem OneRow.append {a b : Txt} (ha : OneRow a) (hb : OneRow b) : OneRow (a ++ b) := by
  intro c hc
  rcases List.mem_append.1 hc with hc | hc
  · exact ha c hc
  · exact hb c hc

theorem Continued.after {a r : Txt} (ha : OneRow a) (hr : Continued r) : Continued (a ++ r) := by
  intro x c d b h he
  have h0 := List.append_eq_append_iff.1 h
  clear h
  rcases h0 with ⟨x', rfl, h⟩ | ⟨y, rfl, h⟩
  · exact hr x' c d b h he
  · cases y with
    | nil => exact hr [] c d b (by simpa using h.symm) he
    | cons z y =>
      simp only [List.cons_append, List.cons.injEq] at h
      obtain ⟨rfl, h⟩ := h
      exact absurd he (ha c (by simp)).2

theorem OneRow.continued {a : Txt} (ha : OneRow a) : Ascii a ∧ Continued a := by
  refine ⟨fun c hc => (ha c hc).1, ?_⟩
  have := Continued.after ha (r := []) (by intro x c d b h; simp at h)
  rwa [List.append_nil] at this

theorem row_name (c : Cls) : OneRow c.name := by
  have : ∀ c ∈ txt "ham" ++ txt "spam" ++ txt "unsure", c < 128 ∧ ¬ Ends c := by unfold Ends; decide
  intro x hx
  refine this x ?_
  cases c with
  | ham => exact List.mem_append_left _ (List.mem_append_left _ hx)
  | spam => exact List.mem_append_left _ (List.mem_append_right _ hx)
  | unsure => exact List.mem_append_right _ hx

theorem row_txt {t : Txt} (h : t.all (fun c => decide (c < 128) && !isLineBreak c) = true) : OneRow t := by
  intro c hc
  have := List.all_eq_true.1 h c hc
  simp only [Bool.and_eq_true, decide_eq_true_eq, Bool.not_eq_true'] at this
  refine ⟨this.1, fun he => ?_⟩
  have hb : isLineBreak c = true := by
    unfold Ends at he
    simp only [isLineBreak, Bool.or_eq_true, Bool.and_eq_true, decide_eq_true_eq, beq_iff_eq]
    omega
  rw [hb] at this
  cases this.2

theorem row_entry {F : Fmt} (hF : RowFmt F) {clue : Word × PyFloat} {e : Txt} (h : EntryOf F clue e) : OneRow e := by
  obtain ⟨w, hw, rfl⟩ := h
  refine ((?_ : OneRow (F.repr w)).append (row_txt (by decide))).append (hF.fixed 2 _)
  obtain ⟨word, p⟩ := clue
  cases word with
  | bytes b => change w = .bytes b at hw; rw [hw]; exact hF.octets b
  | str t =>
    obtain ⟨t', h1, rfl⟩ := hw
    exact hF.coded t t' h1

theorem wrap_tidy (es : List Txt) (h : ∀ e ∈ es, OneRow e) : ∀ n, Ascii (wrapFrom n es) ∧ Continued (wrapFrom n es) := by
  induction es with
  | nil => intro n; exact OneRow.continued (by intro c hc; cases hc)
  | cons a es ih =>
    intro n
    cases es with
    | nil => exact OneRow.continued (h a (by simp))
    | cons b es =>
      have ha := h a (by simp)
      have ih := ih (fun e he => h e (by simp [he]))
      rw [wrapFrom]
      split
      · have h1 : OneRow (a ++ txt "; ") := ha.append (row_txt (by decide))
        obtain ⟨i1, i2⟩ := ih (n + a.length)
        refine ⟨?_, i2.after h1⟩
        intro c hc
        rcases List.mem_append.1 hc with hc | hc
        · exact (h1 c hc).1
        · exact i1 c hc
      · obtain ⟨i1, i2⟩ := ih 8
        have h1 : OneRow (a ++ txt ";") := ha.append (row_txt (by decide))
        have e : a ++ txt ";\n\t" ++ wrapFrom 8 (b :: es) = (a ++ txt ";") ++ 10 :: 9 :: wrapFrom 8 (b :: es) := by
          simp [txt]
        rw [e]
        refine ⟨?_, Continued.after h1 ?_⟩
        · intro c hc
          rcases List.mem_append.1 hc with hc | hc
          · exact (h1 c hc).1
          · rcases List.mem_cons.1 hc with rfl | hc
            · decide
            · rcases List.mem_cons.1 hc with rfl | hc
              · decide
              · exact i1 c hc
        · intro x c d y hx he
          cases x with
          | nil =>
            simp only [List.nil_append, List.cons.injEq] at hx
            exact .inr (.inl hx.2.1.symm)
          | cons x0 x =>
            cases x with
            | nil =>
              simp only [List.cons_append, List.nil_append, List.cons.injEq] at hx
              rw [← hx.2.1] at he
              unfold Ends at he
              omega
            | cons x1 x =>
              simp only [List.cons_append, List.cons.injEq] at hx
              exact i2 x c d y hx.2.2 he

/-! ### add_sb_headers keeps headers tidy -/

def KeepsTidy {α : Type} (f : M Msg α) : Prop := ∀ m, TidyMsg m → TidyMsg (f m).2

theorem KeepsTidy.bind {α β : Type} {f : M Msg α} {g : α → M Msg β} (hf : KeepsTidy f) (hg : ∀ a, KeepsTidy (g a)) :
    KeepsTidy (f >>= g) := by
  intro m hm
  have h1 := hf m hm
  rw [M.bind_run]
  revert h1
  rcases f m with ⟨_ | _, m1⟩ <;> intro h1
  · exact h1
  · exact hg _ m1 h1

theorem TidyMsg.set {m : Msg} (h : TidyMsg m) {n : Txt} {v : Stored} (hx : Tidy (n, v)) :
    TidyMsg { m with headers := m.headers.set n v } := by
  refine ⟨?_, h.2⟩
  intro x hm
  rcases List.mem_append.1 hm with hm | hm
  · exact h.1 x hm
  · rw [List.mem_singleton.1 hm]; exact hx

theorem KeepsTidy.addHeader {n : Txt} {v : Stored} (hx : Tidy (n, v)) : KeepsTidy (addHeader n v) :=
  fun _ hm => hm.set hx

theorem KeepsTidy.pure {α : Type} (a : α) : KeepsTidy (Pure.pure a : M Msg α) := fun _ hm => hm
theorem KeepsTidy.raise {α : Type} (e : Err) : KeepsTidy (M.raise e : M Msg α) := fun _ hm => hm

theorem name_of {n : Txt} (h : (!n.isEmpty && n.all isFieldChar) = true) : FieldName n := by
  simp only [Bool.and_eq_true, Bool.not_eq_true', List.isEmpty_eq_false_iff] at h
  refine ⟨h.1, ?_⟩
  intro c hc
  have := List.all_eq_true.1 h.2 c hc
  simpa [isFieldChar, and_assoc] using this

theorem replace_tidy {h : Headers} {n : Txt} {v : Stored} {h' : Headers} (hr : h.replace n v = some h')
    (ht : ∀ x ∈ h, Tidy x) (hv : ∀ k, FieldName k → Tidy (k, v)) : ∀ x ∈ h', Tidy x := by
  induction h generalizing h' with
  | nil => cases hr
  | cons e r ih =>
    rw [Headers.replace] at hr
    split at hr
    · cases hr
      intro x hx
      rcases List.mem_cons.1 hx with rfl | hx
      · exact hv _ (ht e (by simp)).1
      · exact ht x (by simp [hx])
    · cases hr' : Headers.replace r n v with
      | none => rw [hr'] at hr; cases hr
      | some h'' =>
        rw [hr'] at hr
        cases hr
        intro x hx
        rcases List.mem_cons.1 hx with rfl | hx
        · exact ht _ (by simp)
        · exact ih hr' (fun y hy => ht y (by simp [hy])) x hx

theorem get_tidy {h : Headers} {n : Txt} (ht : ∀ x ∈ h, Tidy x) :
    h.get n = .none ∨ ∃ v, h.get n = .str v ∧ Ascii v ∧ Continued v := by
  unfold Headers.get
  split
  · rename_i e he
    obtain ⟨-, h1 | ⟨v, h1, h2, h3⟩⟩ := ht e (List.mem_of_find?_eq_some he)
    · rw [h1]; exact .inl rfl
    · rw [h1, fetch_plain (fun c hc => by
        have := h2 c hc
        simp only [isSurrogate, Bool.and_eq_false_iff, decide_eq_false_iff_not]
        omega)]
      exact .inr ⟨v, rfl, h2, h3⟩
  · exact .inl rfl

theorem KeepsTidy.notate {n pre : Txt} (hn : FieldName n) (hp : OneRow pre) : KeepsTidy (notate n pre) := by
  intro m hm
  unfold Mail.notate
  have hg : ∃ old, format (m.headers.get n) = .ok old ∧ Ascii old ∧ Continued old := by
    rcases get_tidy (n := n) hm.1 with h | ⟨v, h, h1, h2⟩
    · rw [h]
      exact ⟨_, rfl, OneRow.continued (row_txt (by decide))⟩
    · rw [h]
      exact ⟨v, rfl, h1, h2⟩
  obtain ⟨old, h1, h2, h3⟩ := hg
  rw [h1]
  have hrow : OneRow (pre ++ txt ",") := hp.append (row_txt (by decide))
  have htidy : ∀ k, FieldName k → Tidy (k, .str (pre ++ txt "," ++ old)) := by
    intro k hk
    refine ⟨hk, .inr ⟨_, rfl, ?_, h3.after hrow⟩⟩
    intro c hc
    rcases List.mem_append.1 hc with hc | hc
    · exact (hrow c hc).1
    · exact h2 c hc
  simp only
  split
  · rename_i h' hr
    exact ⟨replace_tidy hr hm.1 htidy, hm.2⟩
  · exact hm.set ⟨hn, .inr ⟨_, rfl, hp.continued⟩⟩

theorem row_clsName (m : Msg) : OneRow (clsName m) := by
  unfold clsName
  split
  · exact row_name _
  · intro c hc; cases hc

theorem tidy_value {n v : Txt} (hn : FieldName n) (hv : OneRow v) : Tidy (n, .str v) :=
  ⟨hn, .inr ⟨_, rfl, hv.continued⟩⟩

theorem scoreText_row {F : Fmt} (hF : RowFmt F) (prob : PyFloat) (o : Opts) : OneRow (scoreText F prob o) := by
  have par : ∀ t, OneRow t → OneRow (txt " (" ++ t ++ txt ")") := fun t ht =>
    ((row_txt (by decide)).append ht).append (row_txt (by decide))
  have nil : OneRow [] := by intro c hc; cases hc
  unfold scoreText
  refine (hF.fixed _ _).append ?_
  split
  · refine OneRow.append ?_ ?_
    · split
      · exact par _ (hF.log10 _)
      · exact nil
    · split
      · exact par _ (hF.log10 _)
      · exact nil
  · exact nil

theorem addScore_tidy {F : Fmt} (hF : RowFmt F) (prob : PyFloat) (o : Opts) : KeepsTidy (addScore F prob o) := by
  have hn : FieldName scoreName := name_of (by decide)
  unfold addScore
  split
  · exact .addHeader (tidy_value hn (scoreText_row hF prob o))
  · exact .pure _

theorem stars_row {p : PyFloat} {s : Txt} (h : stars p = .ok s) : OneRow s := by
  unfold stars at h
  split at h
  · cases h
    intro c hc
    rw [(List.mem_replicate.1 hc).2]
    exact row_txt (t := [42]) (by decide) 42 (by simp)
  · cases h
  · cases h

theorem addLevel_tidy (F : Fmt) (prob : PyFloat) (o : Opts) : KeepsTidy (addLevel F prob o) := by
  have hn : FieldName levelName := name_of (by decide)
  unfold addLevel
  split
  · split
    · rename_i s hs
      exact .addHeader (tidy_value hn (stars_row hs))
    · exact .raise _
  · exact .pure _

theorem addEvidence_tidy {F : Fmt} (hF : RowFmt F) (clues : List (Word × PyFloat)) (o : Opts) :
    KeepsTidy (addEvidence F clues o) := by
  have hn : FieldName evidenceName := name_of (by decide)
  unfold addEvidence
  split
  · split
    · rename_i evd hev
      have hrow : ∀ e ∈ evd, OneRow e := by
        intro e he
        obtain ⟨cl, -, hcl⟩ := forall₂_right (evidence_entries hev) e he
        exact row_entry hF hcl
      have hw : Ascii (wrapEvidence evd) ∧ Continued (wrapEvidence evd) := by
        rw [wrapEvidence]
        exact wrap_tidy evd hrow _
      have ht : Tidy (evidenceName, .str (wrapEvidence evd)) := ⟨hn, .inr ⟨_, rfl, hw⟩⟩
      exact KeepsTidy.addHeader ht
    · exact .raise _
  · exact .pure _

theorem addId_tidy (o : Opts) : KeepsTidy (addId o) := by
  have hn : FieldName mailIdName := name_of (by decide)
  intro m hm
  unfold addId
  split
  · have key : ∀ v, Tidy (mailIdName, v) → TidyMsg (addHeader mailIdName v m).2 := by
      intro v hv
      exact TidyMsg.set hm hv
    apply key
    cases hm1 : m.messageid with
    | none => exact ⟨hn, .inl rfl⟩
    | some t => exact ⟨hn, .inr ⟨t, rfl, hm.2 t hm1⟩⟩
  · exact hm

theorem addNotations_tidy (a b : Notate) : KeepsTidy (addNotations a b) := by
  have h1 : FieldName (txt "To") := name_of (by decide)
  have h2 : FieldName (txt "Subject") := name_of (by decide)
  have h3 : OneRow invalid := row_txt (by decide)
  unfold addNotations
  refine KeepsTidy.bind ?_ fun _ => ?_
  · intro m hm
    unfold addToNotation
    split
    · exact hm
    · split
      · exact KeepsTidy.notate h1 ((row_clsName m).append h3) m hm
      · exact hm
  · intro m hm
    unfold addSubjectNotation
    split
    · exact hm
    · split
      · exact KeepsTidy.notate h2 (row_clsName m) m hm
      · exact hm

theorem addSbHeaders_tidy (F : Fmt) (hF : RowFmt F) (prob : PyFloat) (clues : List (Word × PyFloat)) (o : Opts) :
    KeepsTidy (addSbHeaders F prob clues o) := by
  have hn : FieldName classificationName := name_of (by decide)
  unfold addSbHeaders
  refine KeepsTidy.bind (f := setClassification (.float prob)) (fun m hm => hm) fun c => ?_
  refine KeepsTidy.bind (KeepsTidy.addHeader (tidy_value hn (row_name c))) fun _ => ?_
  refine KeepsTidy.bind (addScore_tidy hF prob o) fun _ => ?_
  refine KeepsTidy.bind (addLevel_tidy F prob o) fun _ => ?_
  refine KeepsTidy.bind (addEvidence_tidy hF clues o) fun _ => ?_
  exact KeepsTidy.bind (addId_tidy o) fun _ => addNotations_tidy _ _

theorem same_first {hs hs' : Headers} (h : SameHeaders hs hs') {n k v : Txt}
    (hf : hs.first n = some (k, .str v)) (hv : Short k v) : hs'.first n = some (k, .str v) := by
  unfold Headers.first at hf ⊢
  induction h with
  | nil => cases hf
  | @cons x y hs hs' hx _ ih =>
    rw [List.find?_cons] at hf ⊢
    rw [hx.1]
    cases hs1 : sameName x.1 n with
    | true =>
      rw [hs1] at hf
      simp only [Option.some.injEq] at hf ⊢
      subst hf
      exact Prod.ext hx.1 (hx.2.2 v rfl hv)
    | false =>
      rw [hs1] at hf
      exact ih hf

/-- A message that was read, or made with such headers, is marked by add_sb_headers; its
text can be made, and whoever reads it finds all headers again.  If the message came
without a classification header, the one that is read names the classification. -/
theorem C116_marks_partial (P : Printer) (F : Fmt) (hF : RowFmt F) (prob : PyFloat) (clues : List (Word × PyFloat))
    (o : Opts) (m m1 m' : Msg) (c : Cls) (hc : setClassification (.float prob) m = (.ok c, m1))
    (hadd : addSbHeaders F prob clues o m = (.ok (), m'))
    (hh : ∀ x ∈ m.headers, FieldName x.1 ∧ (x.2 = .none ∨ ∃ v, x.2 = .str v ∧ Ascii v ∧ Continued v))
    (hid : ∀ t, m.messageid = some t → Ascii t ∧ Continued t)
    (uf mg : Bool) (ct : Txt) (w : List Txt) (u : Txt) (p e : Option Txt) (b : Txt) (pl : Cargo Doc)
    (hP : Parsed (fun ct => ¬ NamesStatus ct) (.doc ct [] w u p e b pl))
    (hu : uf = true → OneLine u ∧ ∃ x, u = txt "From " ++ x) :
    ∃ s, P.asString uf mg m'.headers (fun f => .doc ct f w u p e b pl) = .ok s ∧
      SameHeaders m'.headers (readMessage s).headers ∧
      asString false mg (.doc ct [] w u p e b pl) = .ok (13 :: 10 :: (readMessage s).body) ∧
      ((∀ e ∈ m.headers, ¬ Named "X-Spambayes-Classification" e) →
        (readMessage s).headers.get (txt "X-Spambayes-Classification") = .str c.name) := by
  have ht : TidyMsg m' := by
    have := addSbHeaders_tidy F hF prob clues o m ⟨hh, hid⟩
    rwa [hadd] at this
  obtain ⟨s, h1, -, h3, h4⟩ := C116_reread_partial P uf mg m'.headers ct w u p e b pl hP hu ht.1
  refine ⟨s, h1, h3, h4, ?_⟩
  intro hno
  simp only [setClassification, Prod.mk.injEq, Except.ok.injEq] at hc
  obtain ⟨rfl, -⟩ := hc
  have k1 := keeps_rest F prob clues o (n := classificationName) (by decide) (by decide)
    { m with c := some (clsOf prob)
             headers := m.headers ++ [(classificationName, .str (clsOf prob).name)] }
  have k2 := k1 (classificationName, .str (clsOf prob).name) (by
    exact Headers.first_of (post := []) (fun x hx => not_named_iff.2 (hno x hx)) (by simp))
  change Headers.first (addSbHeaders F prob clues o m).2.headers classificationName = _ at k2
  rw [hadd] at k2
  have hs : Short classificationName (clsOf prob).name := by
    refine ⟨fun c hc => (row_name _ c hc).2, ?_, ?_⟩
    · cases clsOf prob <;>
        (intro c r h; have := (List.cons.inj h).1; subst this; decide)
    · cases clsOf prob <;> decide
  rw [Headers.get_eq, show txt "X-Spambayes-Classification" = classificationName from rfl, same_first h3 k2 hs]
  exact fetch_plain (by cases clsOf prob <;> decide)

/-- Formatting as in the other examples. -/
example : RowFmt { exFmt with repr := fun _ => txt "abcd" } :=
  ⟨fun _ => (row_txt (by decide) : OneRow (txt "abcd")), fun _ _ _ => (row_txt (by decide) : OneRow (txt "abcd")),
    fun _ _ => (row_txt (by decide) : OneRow (txt "0.50")), fun _ => (row_txt (by decide) : OneRow (txt "2"))⟩

/-- A message that can be marked and written. -/
example : ∀ x ∈ [(txt "Subject", Stored.str (txt "a\n b")), (txt "To", Stored.none)], Tidy x := by
  intro x hx
  simp only [List.mem_cons, List.not_mem_nil, or_false] at hx
  rcases hx with rfl | rfl
  · refine ⟨name_of (n := txt "Subject") (by decide), .inr ⟨_, rfl, by unfold Ascii; decide, ?_⟩⟩
    have : txt "a\n b" = txt "a" ++ 10 :: 32 :: txt "b" := rfl
    rw [this]
    refine Continued.after (row_txt (by decide)) ?_
    intro a c d b h he
    rcases a with _ | ⟨a0, _ | ⟨a1, _ | ⟨a2, a⟩⟩⟩
    · simp at h; exact .inl h.2.1.symm
    · simp [txt] at h; rw [← h.2.1] at he; unfold Ends at he; omega
    · simp [txt] at h
    · simp [txt] at h
  · exact ⟨name_of (n := txt "To") (by decide), .inl rfl⟩

end Sb.Props
