import Verif.Props.TreeTrip

/-
C120 for messages with parts: training with the copy that was delivered.
-/

set_option linter.unusedSectionVars false

namespace Sb.Props
open Py Py.Text Sb.Mail Sb.Tokenize Sb.Strip

/-! ### What the claim is about -/

/-- The message with other headers. -/
def withHeaders (hs : Headers) : Tree → Tree
  | .text _ t => .text hs t
  | .inner _ m => .inner hs m
  | .uncut _ t e => .uncut hs t e
  | .cut _ p ms e => .cut hs p ms e

/-- The message that was read, with the headers of add_sb_headers. -/
def marked (F : Fmt) (prob : PyFloat) (clues : List (Word × PyFloat)) (o : Mail.Opts) (id : Option Txt) (m : Tree) : Tree :=
  withHeaders (addSbHeaders F prob clues o ⟨headersOf m, id, none, none⟩).2.headers m

/-! ### Other headers that look the same -/

theorem looks_node {low : Txt → Txt} {hs hs' : Headers} (h : LooksSame low .default hs hs') :
    getOne hs' (txt "content-type") = getOne hs (txt "content-type") ∧
    getOne hs' (txt "content-disposition") = getOne hs (txt "content-disposition") ∧
    getOne hs' (txt "content-transfer-encoding") = getOne hs (txt "content-transfer-encoding") := by
  have one : ∀ n ∈ readFirst, getOne hs' n = getOne hs n := by
    intro n hn
    have : ∀ n ∈ readFirst, lower n ∈ readFirst := by decide
    exact h.read.1 n (.inl (this n hn))
  exact ⟨one _ (by decide), one _ (by decide), one _ (by decide)⟩

section
variable (U : Str) (E : Lib) (dec : Decoder) (bound : Option HVal → Option Txt)

theorem looks_nodeOf {low : Txt → Txt} {hs hs' : Headers} (h : LooksSame low .default hs hs') (d : Bool) (t : Txt)
    (ms : Option (List Mime)) : nodeOf E dec d hs' t ms = nodeOf E dec d hs t ms := by
  obtain ⟨h1, h2, h3⟩ := looks_node h
  unfold nodeOf
  rw [h1, h2, h3]

theorem looks_types {low : Txt → Txt} {hs hs' : Headers} (h : LooksSame low .default hs hs') :
    (∀ d, (mailTypes U E bound).ctype hs' d = (mailTypes U E bound).ctype hs d) ∧
    (mailTypes U E bound).boundary hs' = (mailTypes U E bound).boundary hs := by
  obtain ⟨h1, h2, h3⟩ := looks_node h
  simp only [mailTypes, nodeOf, h1, h2, h3]
  exact ⟨fun _ => trivial, trivial⟩

theorem looks_mime {low : Txt → Txt} {hs' : Headers} {m : Tree} (h : LooksSame low .default (headersOf m) hs') (d : Bool) :
    treeMime (mailTypes U E bound) E dec d (withHeaders hs' m) = treeMime (mailTypes U E bound) E dec d m := by
  cases m with
  | text hs t => rw [withHeaders, treeMime, treeMime, looks_nodeOf E dec h]; rfl
  | inner hs m => rw [withHeaders, treeMime, treeMime, looks_nodeOf E dec h]; rfl
  | uncut hs t e => rw [withHeaders, treeMime, treeMime, looks_nodeOf E dec h]; rfl
  | cut hs p ms e =>
    rw [withHeaders, treeMime, treeMime, (looks_types U E bound h).1 d, looks_nodeOf E dec h]
    rfl

theorem headersOf_with (hs : Headers) (m : Tree) : headersOf (withHeaders hs m) = hs := by cases m <;> rfl

theorem looks_treeTokens {hs' : Headers} {m : Tree} (h : LooksSame U.lower .default (headersOf m) hs') (order : List Nat) :
    treeTokens U (mailTypes U E bound) E dec order (withHeaders hs' m) =
      treeTokens U (mailTypes U E bound) E dec order m := by
  unfold treeTokens Mime.tokenizeMessage tokenize
  simp only
  rw [looks_mime U E dec bound h, headersOf_with, looks_tokens U E h]

theorem looks_sound {P : Printer} {mg : Bool} {hs' : Headers} {m : Tree} (hm : SoundTree P (mailTypes U E bound) mg false m)
    (h : LooksSame U.lower .default (headersOf m) hs') (hk : ∀ x ∈ hs', Keepable x) :
    SoundTree P (mailTypes U E bound) mg false (withHeaders hs' m) := by
  obtain ⟨e1, e2⟩ := looks_types U E bound h
  have hs : SoundHeaders hs' := fun x hx => (hk x hx).1
  have ht := keepable_type U E bound false hk
  cases hm with
  | text _ _ h3 h4 h5 => exact .text hs ht h3 ((e1 false).trans h4) h5
  | inner _ _ h3 h4 h5 => exact .inner hs ht ((e1 false).trans h3) h4 h5
  | cut _ _ h3 h4 h5 h6 h7 h8 h9 =>
    have e1' := e1 false
    simp only [headersOf] at e1' e2
    exact .cut hs ht (e1'.trans h3) (e2.trans h4) h5 h6 (by rw [e1']; exact h7) h8 (by rw [e1']; exact h9)

theorem nodes_with {hs' : Headers} {m : Tree} : ∀ x ∈ nodes (withHeaders hs' m),
    (x.1 = hs' ∧ (headersOf m, x.2) ∈ nodes m) ∨ x ∈ nodes m := by
  intro x hx
  cases m with
  | text hs t =>
    simp only [withHeaders, nodes, List.mem_singleton] at hx
    subst hx
    left; exact ⟨rfl, by simp [nodes, headersOf]⟩
  | uncut hs t e =>
    simp only [withHeaders, nodes, List.mem_singleton] at hx
    subst hx
    left; exact ⟨rfl, by simp [nodes, headersOf]⟩
  | inner hs m =>
    simp only [withHeaders, nodes, List.mem_cons] at hx
    rcases hx with rfl | hx
    · left; exact ⟨rfl, by simp [nodes, headersOf]⟩
    · right; simp [nodes, hx]
  | cut hs p ms e =>
    simp only [withHeaders, nodes, List.mem_cons] at hx
    rcases hx with rfl | hx
    · left; exact ⟨rfl, by simp [nodes, headersOf]⟩
    · right; simp [nodes, hx]
end

theorem sound_nodes {P : Printer} {T : Types} {mg d : Bool} {m : Tree} (h : SoundTree P T mg d m) :
    ∀ x ∈ nodes m, SoundHeaders x.1 := by
  induction h with
  | text h1 _ _ _ _ => intro x hx; rw [nodes, List.mem_singleton] at hx; subst hx; exact h1
  | inner h1 _ _ _ _ ih =>
    intro x hx
    rw [nodes, List.mem_cons] at hx
    rcases hx with rfl | hx
    · exact h1
    · exact ih x hx
  | @cut P T mg d hs pre ms epi sub b h1 _ _ _ _ _ _ _ _ ih =>
    intro x hx
    rw [nodes, List.mem_cons] at hx
    rcases hx with rfl | hx
    · exact h1
    · have key : ∀ l : List Tree, (∀ m ∈ l, m ∈ ms) → ∀ x ∈ nodesAll l, SoundHeaders x.1 := by
        intro l
        induction l with
        | nil => intro _ x hx; cases hx
        | cons y ys ihy =>
          intro hl x hx
          rw [nodesAll, List.mem_append] at hx
          rcases hx with hx | hx
          · exact ih y (hl y (by simp)) x hx
          · exact ihy (fun m hm => hl m (by simp [hm])) x hx
      exact key ms (fun _ h => h) x hx

theorem root_node (m : Tree) : ∃ p, (headersOf m, p) ∈ nodes m := by
  cases m with
  | text hs t => exact ⟨some t, by simp [nodes, headersOf]⟩
  | inner hs m => exact ⟨none, by simp [nodes, headersOf]⟩
  | uncut hs t e => exact ⟨none, by simp [nodes, headersOf]⟩
  | cut hs p ms e => exact ⟨none, by simp [nodes, headersOf]⟩

/-! ### The property -/

/-- **C120, for messages with parts.** The copy of a message of any depth can be made, has
the tokens of the message that came, and its classification can be read. -/
theorem C120_parts_partial (P : Printer) (F : Fmt) (hF : RowFmt F) (U : Str) (hU : LowersAscii U)
    (E : Lib) (dec : Decoder) (bound : Option HVal → Option Txt) (mg : Bool) (order : List Nat)
    (prob : PyFloat) (clues : List (Word × PyFloat)) (o : Mail.Opts) (id : Option Txt) (t : Txt)
    (hn : ¬ AsksFor (clsOf prob) o.notateTo) (hn' : ¬ AsksFor (clsOf prob) o.notateSubject)
    (hid : ∀ i, id = some i → Ascii i ∧ Continued i)
    (ht : Wholesome t)
    (h : Usual (mailTypes U E bound) [] false (readMail (mailTypes U E bound) t))
    (hk : ∀ x ∈ nodes (readMail (mailTypes U E bound) t), ∀ e ∈ x.1, IsRead .default e.1 → ∃ v, e.2 = .str v ∧ Short e.1 v)
    (hp : ∀ h p, (h, some p) ∈ nodes (readMail (mailTypes U E bound) t) →
      (∃ d sub, (mailTypes U E bound).ctype h d = txt "text/" ++ sub) → SettledText mg dec h p)
    (hok : (treeTokens U (mailTypes U E bound) E dec order (readMail (mailTypes U E bound) t)).stop = none) :
    ∃ s, P.writeTree (mailTypes U E bound) mg (marked F prob clues o id (readMail (mailTypes U E bound) t)) = .ok s ∧
      treeTokens U (mailTypes U E bound) E dec order (readMail (mailTypes U E bound) s) =
        treeTokens U (mailTypes U E bound) E dec order (readMail (mailTypes U E bound) t) ∧
      ((∀ x ∈ headersOf (readMail (mailTypes U E bound) t), ¬ Named "X-Spambayes-Classification" x) →
        (headersOf (readMail (mailTypes U E bound) s)).get (txt "X-Spambayes-Classification") = .str (clsOf prob).name) := by
  have hsound := read_sound P (mailTypes U E bound) mg t ht h
  generalize readMail (mailTypes U E bound) t = m at *
  have hkeep : ∀ x ∈ nodes m, ∀ e ∈ x.1, Keepable e := fun x hx e he => ⟨sound_nodes hsound x hx e he, hk x hx e he⟩
  obtain ⟨pr, hpr⟩ := root_node m
  let g : Msg := ⟨headersOf m, id, none, none⟩
  have hsame : SameMail (headersOf m) (addSbHeaders F prob clues o g).2.headers := C101_add F prob clues o g hn hn'
  have hlook := looks_own hU hsame
  have htidy : TidyMsg (addSbHeaders F prob clues o g).2 :=
    addSbHeaders_tidy F hF prob clues o g ⟨fun x hx => (hkeep _ hpr x hx).1, hid⟩
  have hkeep' : ∀ x ∈ (addSbHeaders F prob clues o g).2.headers, Keepable x := by
    intro x hx
    refine ⟨htidy.1 x hx, fun hr => hk _ hpr x ?_ hr⟩
    have hsb : ¬ IsSb x := by
      rintro ⟨n, hn, he⟩
      have key : ∀ n ∈ sbHeaderNames, ¬ IsRead .default (txt n) := by decide
      exact key n hn (isRead_congr he.symm hr)
    have : x ∈ (addSbHeaders F prob clues o g).2.headers.filter (fun e => ¬ IsSb e) :=
      List.mem_filter.2 ⟨hx, by simpa using hsb⟩
    rw [← hsame] at this
    exact (List.mem_filter.1 this).1
  have hs' := looks_sound U E bound hsound hlook hkeep'
  have htok := looks_treeTokens U E dec bound hlook order
  obtain ⟨s, h1, h2⟩ := C123_same_tokens_partial P U E dec bound mg order _ hs'
    (by
      intro x hx e he
      rcases nodes_with x hx with ⟨k1, -⟩ | k
      · rw [k1] at he; exact hkeep' e he
      · exact hkeep x k e he)
    (by
      intro hh p hx htype
      rcases nodes_with _ hx with ⟨k1, k2⟩ | k
      · simp only at k1 k2
        subst k1
        obtain ⟨d, sub, hc⟩ := htype
        have := hp (headersOf m) p k2 ⟨d, sub, ((looks_types U E bound hlook).1 d).symm.trans hc⟩
        obtain ⟨e1, e2, e3⟩ := looks_node hlook
        unfold SettledText at this ⊢
        rw [e1, e3]
        exact this
      · exact hp hh p k htype)
    (by rw [htok]; exact hok)
  obtain ⟨s', g1, g2⟩ := C122_parts_partial P (mailTypes U E bound) mg _ hs'
  have es : s' = s := by rw [h1] at g1; cases g1; rfl
  subst es
  refine ⟨s', h1, h2.trans htok, fun hno => ?_⟩
  have hroot := treeRoot_same hs' g2
  rw [headersOf_with] at hroot
  have k1 := keeps_rest F prob clues o (n := classificationName) (by decide) (by decide)
    { g with c := some (clsOf prob)
             headers := g.headers ++ [(classificationName, .str (clsOf prob).name)] }
  have k2 := k1 (classificationName, .str (clsOf prob).name) (by
    exact Headers.first_of (post := []) (fun x hx => not_named_iff.2 (hno x hx)) (by simp))
  change Headers.first (addSbHeaders F prob clues o g).2.headers classificationName = _ at k2
  have hs : Short classificationName (clsOf prob).name := by
    refine ⟨fun c hc => (row_name _ c hc).2, ?_, ?_⟩
    · cases clsOf prob <;>
        (intro c r h; have := (List.cons.inj h).1; subst this; decide)
    · cases clsOf prob <;> decide
  rw [Headers.get_eq, show txt "X-Spambayes-Classification" = classificationName from rfl, same_first hroot k2 hs]
  exact fetch_plain (by cases clsOf prob <;> decide)

/-! ### The hypotheses can be met -/

set_option maxRecDepth 8000 in
/-- The message of C123_claim_false, if it is delivered without quoting. -/
example : ∃ s, strict.writeTree mixedTypes false (marked plainFmt (.fin 1) [] {} none (readMail mixedTypes vowText)) = .ok s ∧
    treeTokens asciiStr mixedTypes plainLib plainDecoder [0] (readMail mixedTypes s) =
      treeTokens asciiStr mixedTypes plainLib plainDecoder [0] (readMail mixedTypes vowText) ∧
    ((∀ x ∈ headersOf (readMail mixedTypes vowText), ¬ Named "X-Spambayes-Classification" x) →
      (headersOf (readMail mixedTypes s)).get (txt "X-Spambayes-Classification") = .str (clsOf (.fin 1)).name) := by
  have h3 : ∀ c ∈ txt "multipart/mixed; boundary=a", 32 ≤ c ∧ c < 127 := by decide
  have hv : Short (txt "Content-Type") (txt "multipart/mixed; boundary=a") := by
    refine ⟨?_, ?_, by decide⟩
    · intro c hc he
      have := h3 c hc
      unfold Ends at he
      omega
    · intro c r hr
      have : c = 109 := (List.cons.inj hr).1.symm
      omega
  have hh : ∀ x ∈ mixedHeaders, ∃ v, x.2 = .str v ∧ Short x.1 v := by
    intro x hx
    cases List.mem_singleton.1 hx
    exact ⟨_, rfl, hv⟩
  have c1 : mixedTypes.ctype [] false = txt "text/plain" := by decide
  have c3 : (txt "multipart/mixed" == txt "multipart/digest") = false := by decide
  refine C120_parts_partial strict plainFmt plainFmt_rows asciiStr (fun _ _ => rfl) plainLib plainDecoder plainBound false [0]
    (.fin 1) [] {} none vowText (by rintro ⟨l, h1, h2⟩; cases h1)
    (by rintro ⟨l, h1, h2⟩; cases h1) (by intro i hi; cases hi)
    (by unfold Wholesome; decide) ?_ ?_ ?_ ?_
  · rw [← mixedTypes, vowText_read, mixed]
    simp only [Usual, UsualAll, mixed_type, c3]
    exact ⟨short_kept _ _ hh, ⟨txt "mixed", rfl⟩, txt "a", by decide, by unfold OneLine; decide, by decide,
      by decide, ⟨short_kept _ _ (by intro x hx; cases hx), txt "text", txt "plain", by decide, c1,
        by unfold PrintsAsText; decide⟩, trivial⟩
  · rw [← mixedTypes, vowText_read]
    intro x hx e he _
    simp only [mixed, nodes, nodesAll, List.append_nil, List.mem_cons, List.not_mem_nil, or_false] at hx
    rcases hx with rfl | rfl
    · cases List.mem_singleton.1 he
      exact ⟨_, rfl, hv⟩
    · cases he
  · rw [← mixedTypes, vowText_read]
    intro h t hx _
    simp only [mixed, nodes, nodesAll, List.append_nil, List.mem_cons, List.not_mem_nil, or_false, Prod.mk.injEq,
      reduceCtorEq, and_false, false_or, Option.some.injEq] at hx
    obtain ⟨rfl, rfl⟩ := hx
    exact settled_plain (fun _ _ => rfl) (by unfold Ascii; decide)
      (fun i hi => absurd (List.mem_of_getElem? hi) (by decide)) (unbroken_of (by decide)) (fun h => by cases h)
  · rw [← mixedTypes, vowText_read]; decide

end Sb.Props
