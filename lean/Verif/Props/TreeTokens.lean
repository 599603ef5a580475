import Verif.Props.Delivered
import Verif.Props.Multipart
import Verif.Model.TreeMail

/-
C123: the tokens of a message with parts that was written and read again.
-/

set_option linter.unusedSectionVars false

namespace Sb.Props
open Py Py.Text Sb.Mail Sb.Tokenize Sb.Strip

/-! ### What the claim is about -/

mutual
/-- The message and its parts, at any depth: the headers, and the text of those that are
neither messages nor multipart. -/
def nodes : Tree → List (Headers × Option Txt)
  | .text h t => [(h, some t)]
  | .inner h m => (h, none) :: nodes m
  | .uncut h _ _ => [(h, none)]
  | .cut h _ ms _ => (h, none) :: nodesAll ms
def nodesAll : List Tree → List (Headers × Option Txt)
  | [] => []
  | m :: ms => nodes m ++ nodesAll ms
end

/-- The decoded text has the same tokens after it was written: it is the same (base64), or
the same but for line ends, with no "<script" that is broken over two lines. -/
def SettledText (mg : Bool) (dec : Decoder) (h : Headers) (t : Txt) : Prop :=
  let d := dec (getOne h (txt "content-transfer-encoding")) (getOne h (txt "content-type"))
  (d (forceCrlf t) = d t ∨ ∃ b b', d t = .bytes b ∧ d (forceCrlf t) = .bytes b' ∧ MoreCr b b' ∧ Unbroken b) ∧
  (mg = true → ∀ l ∈ lines t, ¬ txt "From " <+: l)

/-! ### Texts and headers -/

theorem written_lines {mg : Bool} {t : Txt} (h : mg = true → ∀ l ∈ lines t, ¬ txt "From " <+: l) :
    forceCrlf (written mg t) = forceCrlf t := by
  rw [forceCrlf_eq, forceCrlf_eq t]
  congr 1
  cases mg with
  | false => rw [written, lines_toLf]; rfl
  | true =>
    rw [written, lines_toLf, if_pos rfl]
    have h := h rfl
    cases hlt : lines t with
    | nil => exact absurd hlt (lines_ne t)
    | cons l ls =>
      obtain ⟨l', ls', h1, h2, h3, -⟩ := lines_mangle t true l ls hlt
      rw [hlt] at h
      have e1 : l' = l := by
        rcases h3 with h3 | ⟨-, h3⟩
        · exact h3
        · rw [h3, quoteFrom, if_neg (h l (by simp))]
      have e2 : ls' = ls := by
        have h' : ∀ x ∈ ls, ¬ txt "From " <+: x := fun x hx => h x (by simp [hx])
        clear h1 hlt h
        induction h2 with
        | nil => rfl
        | @cons x y xs ys hxy _ ih =>
          rw [ih (fun z hz => h' z (by simp [hz]))]
          rcases hxy with h | h
          · rw [h]
          · rw [h, quoteFrom, if_neg (h' x (by simp))]
      rw [h1, e1, e2]

/-- The three headers that are asked of every part. -/
theorem node_headers {hs hs' : Headers} (h : SameHeaders hs hs') (hk : ∀ x ∈ hs, Keepable x) :
    getOne hs' (txt "content-type") = getOne hs (txt "content-type") ∧
    getOne hs' (txt "content-disposition") = getOne hs (txt "content-disposition") ∧
    getOne hs' (txt "content-transfer-encoding") = getOne hs (txt "content-transfer-encoding") := by
  have h1 := (looks_reread id h (fun x hx => (hk x hx).2)).read
  have one : ∀ n ∈ readFirst, getOne hs' n = getOne hs n := by
    intro n hn
    have : ∀ n ∈ readFirst, lower n ∈ readFirst := by decide
    exact h1.1 n (.inl (this n hn))
  exact ⟨one _ (by decide), one _ (by decide), one _ (by decide)⟩

/-- Headers that are kept say the same about the type and the boundary. -/
theorem keepable_type (U : Str) (E : Lib) (bound : Option HVal → Option Txt) (d : Bool)
    {hs : Headers} (hk : ∀ x ∈ hs, Keepable x) : TypeKept (mailTypes U E bound) d hs := by
  intro hs' h
  obtain ⟨h1, h2, h3⟩ := node_headers h hk
  simp only [mailTypes, nodeOf, h1, h2, h3]
  exact ⟨trivial, trivial⟩

/-! ### Parts -/

/-- Two parts from which the tokenizer makes the same. -/
def SamePart (U : Str) (p p' : Mime) : Prop :=
  Mime.contentType U p' = Mime.contentType U p ∧ Mime.viewOf U p' = Mime.viewOf U p ∧
  (Mime.mainType U p = txt "text" → (textPart (Mime.payloadOf p)).stop = none →
    textPart (Mime.payloadOf p') = textPart (Mime.payloadOf p))

theorem node_type (U : Str) (E : Lib) (dec dec' : Decoder) (d : Bool) (h : Headers) (t t' : Txt)
    (ms ms' : Option (List Mime)) :
    Mime.contentType U (nodeOf E dec d h t ms) = Mime.contentType U (nodeOf E dec' d h t' ms') := by
  unfold nodeOf
  cases Option.map E.text (getOne h (txt "content-type")) <;> rfl

theorem node_view (U : Str) (E : Lib) (dec : Decoder) (d : Bool) (h : Headers) (t t' : Txt)
    (ms ms' : Option (List Mime)) :
    Mime.viewOf U (nodeOf E dec d h t ms) = Mime.viewOf U (nodeOf E dec d h t' ms') := by
  have := node_type U E dec dec d h t t' ms ms'
  unfold nodeOf at this ⊢
  simp only [Mime.viewOf, this]

theorem node_headers_eq (E : Lib) (dec : Decoder) (d : Bool) {hs hs' : Headers} (t : Txt) (ms : Option (List Mime))
    (h : SameHeaders hs hs') (hk : ∀ x ∈ hs, Keepable x) : nodeOf E dec d hs' t ms = nodeOf E dec d hs t ms := by
  obtain ⟨h1, h2, h3⟩ := node_headers h hk
  unfold nodeOf
  rw [h1, h2, h3]

theorem forall₂_append {α β : Type} {R : α → β → Prop} {a c : List α} {b d : List β}
    (h1 : List.Forall₂ R a b) (h2 : List.Forall₂ R c d) : List.Forall₂ R (a ++ c) (b ++ d) := by
  induction h1 with
  | nil => exact h2
  | cons h _ ih => exact .cons h ih

section
variable (U : Str) (E : Lib) (dec : Decoder) (bound : Option HVal → Option Txt) (mg : Bool)

mutual
theorem treeWalk_same (P : Printer) (d : Bool) : ∀ (m m' : Tree), SoundTree P (mailTypes U E bound) mg d m → SameTree mg m m' →
    (∀ x ∈ nodes m, ∀ e ∈ x.1, Keepable e) →
    (∀ h t, (h, some t) ∈ nodes m → (∃ d sub, (mailTypes U E bound).ctype h d = txt "text/" ++ sub) →
      SettledText mg dec h t) →
    List.Forall₂ (SamePart U) (Mime.walk (treeMime (mailTypes U E bound) E dec d m))
      (Mime.walk (treeMime (mailTypes U E bound) E dec d m'))
  | .text h t, .text h' t', hs, hm, hk, ht => by
    rw [SameTree] at hm
    obtain ⟨h1, rfl⟩ := hm
    have hk : ∀ e ∈ h, Keepable e := hk (h, some t) (by simp [nodes])
    rw [treeMime, treeMime, node_headers_eq E dec d _ none h1 hk, nodeOf, nodeOf, Mime.walk, Mime.walk]
    refine .cons ⟨node_type U E dec dec d h _ _ none none, node_view U E dec d h _ _ none none, ?_⟩ .nil
    intro hmain hstop
    cases hs with
    | @text _ _ _ _ _ _ main sub _ _ hm hc _ =>
    have hc' : Mime.contentType U (nodeOf E dec d h t none) = main ++ 47 :: sub := by
      rw [← hc]; exact node_type U E dec _ d h _ _ none none
    have e : main = txt "text" := by
      have h2 : Mime.mainType U (nodeOf E dec d h t none) = txt "text" := hmain
      rw [Mime.mainType, hc', (main_cut hm).1] at h2
      exact h2
    subst e
    obtain ⟨hset, hq⟩ := ht h t (by simp [nodes]) ⟨d, sub, hc⟩
    rw [written_lines hq]
    rcases hset with hset | ⟨b, b', e1, e2, e3, e4⟩
    · show textPart (dec _ _ (forceCrlf t)) = textPart (dec _ _ t)
      rw [hset]
    · have hstop' : (textPart (dec (getOne h (txt "content-transfer-encoding")) (getOne h (txt "content-type")) t)).stop = none :=
        hstop
      show textPart (dec _ _ (forceCrlf t)) = textPart (dec _ _ t)
      rw [e1] at hstop' ⊢
      rw [e2]
      exact C118_line_ends b b' e3 e4 hstop'
  | .inner h m, .inner h' m', hs, hm, hk, ht => by
    rw [SameTree] at hm
    obtain ⟨h1, h2⟩ := hm
    have hkh : ∀ e ∈ h, Keepable e := hk (h, none) (by simp [nodes])
    rw [treeMime, treeMime, node_headers_eq E dec d _ _ h1 hkh, nodeOf, nodeOf, Mime.walk, Mime.walk,
      Mime.walkAll, Mime.walkAll, Mime.walkAll, Mime.walkAll, List.append_nil, List.append_nil]
    refine .cons ⟨node_type U E dec dec d h _ _ _ _, node_view U E dec d h _ _ _ _, fun _ _ => rfl⟩ ?_
    cases hs with
    | inner _ _ _ _ hsm =>
    exact treeWalk_same P false m m' hsm h2 (fun x hx => hk x (by simp [nodes, hx]))
      (fun h t hx => ht h t (by simp [nodes, hx]))
  | .cut h p ms e, .cut h' p' ms' e', hs, hm, hk, ht => by
    rw [SameTree] at hm
    obtain ⟨h1, -, h2, -⟩ := hm
    have hkh : ∀ e ∈ h, Keepable e := hk (h, none) (by simp [nodes])
    have hct : (mailTypes U E bound).ctype h' d = (mailTypes U E bound).ctype h d :=
      (keepable_type U E bound d hkh h' h1).1
    rw [treeMime, treeMime, hct, node_headers_eq E dec d _ _ h1 hkh, nodeOf, nodeOf, Mime.walk, Mime.walk]
    refine .cons ⟨node_type U E dec dec d h _ _ _ _, node_view U E dec d h _ _ _ _, fun _ _ => rfl⟩ ?_
    cases hs with
    | cut _ _ _ _ _ _ hsm =>
    exact treeWalks_same _ _ ms ms' hsm h2 (fun x hx => hk x (by simp [nodes, hx]))
      (fun h t hx => ht h t (by simp [nodes, hx]))
  | .uncut .., _, hs, _, _, _ => by cases hs
  | .text .., .inner .., _, hm, _, _ => by simp [SameTree] at hm
  | .text .., .cut .., _, hm, _, _ => by simp [SameTree] at hm
  | .text .., .uncut .., _, hm, _, _ => by simp [SameTree] at hm
  | .inner .., .text .., _, hm, _, _ => by simp [SameTree] at hm
  | .inner .., .cut .., _, hm, _, _ => by simp [SameTree] at hm
  | .inner .., .uncut .., _, hm, _, _ => by simp [SameTree] at hm
  | .cut .., .text .., _, hm, _, _ => by simp [SameTree] at hm
  | .cut .., .inner .., _, hm, _, _ => by simp [SameTree] at hm
  | .cut .., .uncut .., _, hm, _, _ => by simp [SameTree] at hm
theorem treeWalks_same (P : Printer) (d : Bool) : ∀ (ms ms' : List Tree), (∀ m ∈ ms, SoundTree P (mailTypes U E bound) mg d m) →
    SameTrees mg ms ms' →
    (∀ x ∈ nodesAll ms, ∀ e ∈ x.1, Keepable e) →
    (∀ h t, (h, some t) ∈ nodesAll ms → (∃ d sub, (mailTypes U E bound).ctype h d = txt "text/" ++ sub) →
      SettledText mg dec h t) →
    List.Forall₂ (SamePart U) (Mime.walkAll (treeMimes (mailTypes U E bound) E dec d ms))
      (Mime.walkAll (treeMimes (mailTypes U E bound) E dec d ms'))
  | [], [], _, _, _, _ => by rw [treeMimes, Mime.walkAll]; exact .nil
  | m :: ms, m' :: ms', hs, hm, hk, ht => by
    rw [SameTrees] at hm
    rw [treeMimes, treeMimes, Mime.walkAll, Mime.walkAll]
    exact forall₂_append
      (treeWalk_same P d m m' (hs m (by simp)) hm.1 (fun x hx => hk x (by simp [nodesAll, hx]))
        (fun h t hx => ht h t (by simp [nodesAll, hx])))
      (treeWalks_same P d ms ms' (fun x hx => hs x (by simp [hx])) hm.2 (fun x hx => hk x (by simp [nodesAll, hx]))
        (fun h t hx => ht h t (by simp [nodesAll, hx])))
  | [], _ :: _, _, hm, _, _ => by simp [SameTrees] at hm
  | _ :: _, [], _, hm, _, _ => by simp [SameTrees] at hm
end
end

theorem looks_tokens (U : Str) (E : Lib) {h h' : Headers} (hs : LooksSame U.lower .default h h') (v : List PartView) :
    tokenizeHeaders U false false v (headerView E h') = tokenizeHeaders U false false v (headerView E h) := by
  let U' : StrMore := { U with digit := fun _ => false, ilog2 := fun _ => 0 }
  have e : ∀ x, tokenizeHeaders U false false v (headerView E x) =
      (Gen.each (crackContent U) v).andThen (tokenizeHeadersRest U' .default (headerView E x) (moreView E x)) :=
    fun _ => rfl
  rw [e, e, rest_front, rest_front, front_same U' E hs.read]
  have : headerTokens U'.lower (Tokenize.Opts.default).countAll (Tokenize.Opts.default).recordAbsence (headerView E h').names =
      headerTokens U'.lower (Tokenize.Opts.default).countAll (Tokenize.Opts.default).recordAbsence (headerView E h).names :=
    hs.names _
  rw [this]

theorem treeRoot_same {mg : Bool} {P : Printer} {T : Types} {d : Bool} {m m' : Tree} (hs : SoundTree P T mg d m)
    (h : SameTree mg m m') : SameHeaders (headersOf m) (headersOf m') := by
  cases hs <;> cases m' <;> simp only [SameTree] at h
  · exact h.1
  · exact h.1
  · exact h.1

theorem parts_text {U : Str} {l l' : List Mime} (h : List.Forall₂ (SamePart U) l l') :
    List.Forall₂ (fun p p' => SamePart U p p' ∧ Mime.mainType U p = txt "text")
      (l.filter (fun p => Mime.mainType U p == txt "text")) (l'.filter (fun p => Mime.mainType U p == txt "text")) := by
  induction h with
  | nil => exact .nil
  | @cons p p' l l' hp _ ih =>
    have e : Mime.mainType U p' = Mime.mainType U p := by rw [Mime.mainType, hp.1]; rfl
    by_cases ht : Mime.mainType U p = txt "text"
    · rw [List.filter_cons_of_pos (by simp [ht]), List.filter_cons_of_pos (by simp [e, ht])]
      exact .cons ⟨hp, ht⟩ ih
    · rw [List.filter_cons_of_neg (by simp [ht]), List.filter_cons_of_neg (by simp [e, ht])]
      exact ih

theorem forall₂_at {α β : Type} {R : α → β → Prop} {a : List α} {b : List β} (h : List.Forall₂ R a b) (i : Nat) :
    (a[i]? = none ∧ b[i]? = none) ∨ ∃ x y, a[i]? = some x ∧ b[i]? = some y ∧ R x y := by
  induction h generalizing i with
  | nil => left; simp
  | cons h _ ih =>
    cases i with
    | zero => right; exact ⟨_, _, rfl, rfl, h⟩
    | succ i => simpa using ih i

theorem forall₂_pick {α β : Type} {R : α → β → Prop} {a : List α} {b : List β} (h : List.Forall₂ R a b)
    (order : List Nat) : List.Forall₂ R (order.filterMap (a[·]?)) (order.filterMap (b[·]?)) := by
  induction order with
  | nil => exact .nil
  | cons i r ih =>
    rcases forall₂_at h i with ⟨h1, h2⟩ | ⟨x, y, h1, h2, h3⟩
    · rw [List.filterMap_cons_none h1, List.filterMap_cons_none h2]; exact ih
    · rw [List.filterMap_cons_some h1, List.filterMap_cons_some h2]; exact .cons h3 ih

theorem eachPart_same {U : Str} {l l' : List Mime}
    (h : List.Forall₂ (fun p p' => SamePart U p p' ∧ Mime.mainType U p = txt "text") l l')
    (hok : (Gen.each textPart (l.map Mime.payloadOf)).stop = none) :
    Gen.each textPart (l'.map Mime.payloadOf) = Gen.each textPart (l.map Mime.payloadOf) := by
  rw [each_stop_none] at hok
  induction h with
  | nil => rfl
  | @cons p p' l l' hp _ ih =>
    rw [List.map_cons, List.map_cons, Gen.each, Gen.each, ih (fun x hx => hok x (by simp [hx])),
      hp.1.2.2 hp.2 (hok _ (by simp))]

/-! ### C123 -/

/-- **C123, where it holds.** A message with parts of any depth has the same tokens after
it was written and read again, in whatever order the set of text parts is visited. -/
theorem C123_same_tokens_partial (P : Printer) (U : Str) (E : Lib) (dec : Decoder) (bound : Option HVal → Option Txt)
    (mg : Bool) (order : List Nat) (m : Tree)
    (hs : SoundTree P (mailTypes U E bound) mg false m)
    (hk : ∀ x ∈ nodes m, ∀ e ∈ x.1, Keepable e)
    (ht : ∀ h t, (h, some t) ∈ nodes m → (∃ d sub, (mailTypes U E bound).ctype h d = txt "text/" ++ sub) →
      SettledText mg dec h t)
    (hok : (treeTokens U (mailTypes U E bound) E dec order m).stop = none) :
    ∃ s, P.writeTree (mailTypes U E bound) mg m = .ok s ∧
      treeTokens U (mailTypes U E bound) E dec order (readMail (mailTypes U E bound) s) =
        treeTokens U (mailTypes U E bound) E dec order m := by
  obtain ⟨s, h1, h2⟩ := C122_parts_partial P (mailTypes U E bound) mg m hs
  refine ⟨s, h1, ?_⟩
  have hw := treeWalk_same U E dec bound mg P false m _ hs h2 hk ht
  have hroot := treeRoot_same hs h2
  have hkr : ∀ x ∈ headersOf m, Keepable x := by
    intro x hx
    cases m with
    | text h t => exact hk (h, some t) (by simp [nodes]) x hx
    | inner h m => exact hk (h, none) (by simp [nodes]) x hx
    | uncut h t e => exact hk (h, none) (by simp [nodes]) x hx
    | cut h p ms e => exact hk (h, none) (by simp [nodes]) x hx
  have hlook := looks_reread U.lower hroot (fun x hx => (hkr x hx).2)
  have hv : (Mime.walk (treeMime (mailTypes U E bound) E dec false (readMail (mailTypes U E bound) s))).map (Mime.viewOf U) =
      (Mime.walk (treeMime (mailTypes U E bound) E dec false m)).map (Mime.viewOf U) := by
    generalize Mime.walk (treeMime (mailTypes U E bound) E dec false m) = a at hw
    generalize Mime.walk (treeMime (mailTypes U E bound) E dec false (readMail (mailTypes U E bound) s)) = b at hw
    induction hw with
    | nil => rfl
    | cons h _ ih => rw [List.map_cons, List.map_cons, ih, h.2.1]
  unfold treeTokens Mime.tokenizeMessage tokenize at hok ⊢
  simp only at hok ⊢
  have hstop := ((convert_stop _).1 hok).1
  rw [andThen_stop_none] at hstop
  have he := eachPart_same (forall₂_pick (parts_text hw) order) hstop.2
  rw [hv, looks_tokens U E hlook]
  unfold tokenizeBody
  unfold Mime.textparts
  rw [he]

/-- The claim: a message with parts that is written and read again has the same tokens. -/
def C123Claim : Prop :=
  ∀ (P : Printer) (U : Str) (E : Lib) (dec : Decoder) (bound : Option HVal → Option Txt)
    (mg : Bool) (order : List Nat) (t s : Txt),
    (∀ t, Ascii t → dec none none t = .bytes t) → Ascii t →
    (treeTokens U (mailTypes U E bound) E dec order (readMail (mailTypes U E bound) t)).stop = none →
    P.writeTree (mailTypes U E bound) mg (readMail (mailTypes U E bound) t) = .ok s →
    treeTokens U (mailTypes U E bound) E dec order (readMail (mailTypes U E bound) s) =
      treeTokens U (mailTypes U E bound) E dec order (readMail (mailTypes U E bound) t)

/-- What follows the first "=". -/
def plainBound : Option HVal → Option Txt
  | some (.str v) => if v.contains 61 then some ((v.dropWhile (· != 61)).drop 1) else none
  | _ => none

/-- get_content_type() and get_boundary() of the messages below. -/
def mixedTypes : Types := mailTypes asciiStr plainLib plainBound

def mixedHeaders : Headers := [(txt "Content-Type", .str (txt "multipart/mixed; boundary=a"))]

def mixed (t : Txt) (epi : Txt) : Tree := .cut mixedHeaders none [.text [] t] (some epi)

def vowText : Txt := txt "Content-Type: multipart/mixed; boundary=a\n\n--a\n\nFrom now on\n--a--\n"
def vowAgain : Txt :=
  txt "Content-Type: multipart/mixed; boundary=a\r\n\r\n--a\r\n\r\n>From now on\r\n--a--\r\n"

set_option maxRecDepth 8000 in
theorem vowText_read : readMail mixedTypes vowText = mixed (txt "From now on") [] := by
  rfl

set_option maxRecDepth 8000 in
theorem vowAgain_read : readMail mixedTypes vowAgain = mixed (txt ">From now on") [] := by
  rfl

theorem mixed_type (d : Bool) : mixedTypes.ctype mixedHeaders d = txt "multipart/mixed" := by cases d <;> decide

theorem strict_mixed : strict.inside (txt "multipart/mixed") = strict := by
  have hh : handlerOf (txt "multipart/mixed") = .multipart false := by decide
  rw [Printer.inside, hh]

set_option maxRecDepth 8000 in
theorem vow_written : strict.writeTree mixedTypes true (mixed (txt "From now on") []) = .ok vowAgain := by
  have e1 : strict.foldAll mixedHeaders = .ok [txt "Content-Type: multipart/mixed; boundary=a\n"] := by rfl
  have e2 : strict.foldAll [] = .ok [] := rfl
  have c2 : ∀ d, d = false → mixedTypes.ctype [] d = txt "text/plain" := by rintro _ rfl; decide
  have b1 : mixedTypes.boundary mixedHeaders = some (txt "a") := by decide
  have hh : handlerOf (txt "multipart/mixed") = .multipart false := by decide
  have ht : handlerOf (txt "text/plain") = .text := by decide
  rw [Printer.writeTree, mixed, Printer.docOf, mixed_type, strict_mixed, Printer.docsOf, Printer.docsOf, Printer.docOf, e1, e2]
  simp only [ c2 (txt "multipart/mixed" == txt "multipart/digest") (by decide), b1]
  rw [asString.eq_def]
  simp only [generate, flatten, bodyOf.eq_def, hh, ht, flattenAll]
  rfl

set_option maxRecDepth 8000 in
/-- **C123 is false**: a line of a part that begins with "From " is quoted, so there are
other tokens.  (Without parts: C118_quoted, C118_broken, C118_folded.) -/
theorem C123_claim_false : ¬ C123Claim := by
  intro h
  have h1 : (treeTokens asciiStr mixedTypes plainLib plainDecoder [0] (mixed (txt "From now on") [])).stop = none := by
    decide
  have h2 := h strict asciiStr plainLib plainDecoder plainBound true [0] vowText vowAgain
    (fun _ _ => rfl) (by unfold Ascii; decide) (by rw [← mixedTypes, vowText_read]; exact h1)
    (by rw [← mixedTypes, vowText_read]; exact vow_written)
  rw [← mixedTypes, vowText_read, vowAgain_read] at h2
  have h3 : Tok.bytes (txt "from") ∈
    (treeTokens asciiStr mixedTypes plainLib plainDecoder [0] (mixed (txt "From now on") [])).toks := by decide
  rw [← h2] at h3
  exact absurd h3 (by decide)

/-- A text that is not encoded, with line ends of a known kind, is settled if it has no
broken "<script" and no line that is quoted. -/
theorem settled_plain {mg : Bool} {dec : Decoder} {h : Headers} {t : Txt}
    (hd : ∀ t, Ascii t → dec (getOne h (txt "content-transfer-encoding")) (getOne h (txt "content-type")) t = .bytes t)
    (ha : Ascii t) (hc : NoLoneCr t) (hu : Unbroken t) (hq : mg = true → ∀ l ∈ lines t, ¬ txt "From " <+: l) :
    SettledText mg dec h t := by
  refine ⟨.inr ⟨t, forceCrlf t, hd t ha, hd _ ?_, eol_force hc, hu⟩, hq⟩
  intro c hc'
  by_cases h13 : c = 13
  · omega
  · exact ha c ((eol_mem (eol_force hc) h13).1 hc')

/-- A preamble and two texts, one of them HTML. -/
def menu : Tree :=
  .cut mixedHeaders (some (txt "pre"))
    [.text [] (txt "see http://a.b/c\nFreedom"), .text [(txt "Content-Type", .str (txt "text/html"))] (txt "hi there\n")]
    none

set_option maxRecDepth 8000 in
/-- It keeps its tokens. -/
example : ∃ s, strict.writeTree mixedTypes true menu = .ok s ∧
    treeTokens asciiStr mixedTypes plainLib plainDecoder [1, 0] (readMail mixedTypes s) =
      treeTokens asciiStr mixedTypes plainLib plainDecoder [1, 0] menu := by
  have sh : ∀ n v : Txt, (∀ c ∈ n, 33 ≤ c ∧ c ≤ 126 ∧ c ≠ 58) → n ≠ [] → (∀ c ∈ v, 32 ≤ c ∧ c < 127) →
      v.head? ≠ some 32 → n.length + 2 + v.length ≤ 78 →
      (FieldName n ∧ Ascii v ∧ Continued v) ∧ Short n v := by
    intro n v h1 h2 h3 h4 h5
    have h6 : Short n v := by
      refine ⟨?_, ?_, h5⟩
      · intro c hc he
        have := h3 c hc
        unfold Ends at he
        omega
      · rintro c r rfl
        have := h3 c (by simp)
        simp at h4
        omega
    exact ⟨⟨⟨h2, h1⟩, fun c hc => by have := h3 c hc; omega, short_continued h6⟩, h6⟩
  obtain ⟨⟨a1, a2, a3⟩, a4⟩ := sh (txt "Content-Type") (txt "multipart/mixed; boundary=a") (by decide) (by decide)
    (by decide) (by decide) (by decide)
  obtain ⟨⟨b1, b2, b3⟩, b4⟩ := sh (txt "Content-Type") (txt "text/html") (by decide) (by decide) (by decide)
    (by decide) (by decide)
  have ht : handlerOf (txt "text/plain") = .text := by decide
  have hh : handlerOf (txt "text/html") = .text := by decide
  have c1 : mixedTypes.ctype [] false = txt "text/plain" := by decide
  have c2 : mixedTypes.ctype [(txt "Content-Type", .str (txt "text/html"))] false = txt "text/html" := by decide
  have c3 : (txt "multipart/mixed" == txt "multipart/digest") = false := by decide
  have e0 : strict.foldAll [] = .ok [] := rfl
  have e1 : strict.foldAll [(txt "Content-Type", .str (txt "text/html"))] = .ok [txt "Content-Type: text/html\n"] := by
    rfl
  refine C123_same_tokens_partial strict asciiStr plainLib plainDecoder plainBound true [1, 0] menu
    ?_ ?_ ?_ (by decide)
  · rw [← mixedTypes]
    refine .cut (sub := txt "mixed") (b := txt "a") ?_ (short_kept _ _ ?_) (mixed_type false) (by decide)
      (by unfold OneLine; decide) (by simp) ?_ ?_ ?_
    · rintro x hx; cases List.mem_singleton.1 hx; exact ⟨a1, .inr ⟨_, rfl, a2, a3⟩⟩
    · rintro x hx; cases List.mem_singleton.1 hx; exact ⟨_, rfl, a4⟩
    · rw [mixed_type, c3, strict_mixed]
      intro m hm
      rcases List.mem_cons.1 hm with rfl | hm
      · exact .text (main := txt "text") (sub := txt "plain") (by intro x hx; cases hx)
          (short_kept _ _ (by intro x hx; cases hx)) (by decide) c1 (by unfold PrintsAsText; decide)
      · cases List.mem_singleton.1 hm
        refine .text (main := txt "text") (sub := txt "html") ?_ (short_kept _ _ ?_) (by decide) c2
          (by unfold PrintsAsText; decide)
        · rintro x hx; cases List.mem_singleton.1 hx; exact ⟨b1, .inr ⟨_, rfl, b2, b3⟩⟩
        · rintro x hx; cases List.mem_singleton.1 hx; exact ⟨_, rfl, b4⟩
    · rintro q ⟨⟩
      exact hyphens_avoid (by decide)
    · rw [mixed_type, c3, strict_mixed]
      intro m hm x s hx hs
      rcases List.mem_cons.1 hm with rfl | hm
      · rw [Printer.docOf, e0, c1] at hx
        cases hx
        have h0 : flatten true false (.doc (txt "text/plain") [] [] [] none none []
            (.str (txt "see http://a.b/c\nFreedom"))) = .ok (txt "\nsee http://a.b/c\nFreedom") := by
          rw [flatten, bodyOf.eq_def]; simp only [ht]; rfl
        cases hs.symm.trans h0
        exact hyphens_avoid (by decide)
      · cases List.mem_singleton.1 hm
        rw [Printer.docOf, e1, c2] at hx
        cases hx
        have h0 : flatten true false (.doc (txt "text/html") [txt "Content-Type: text/html\n"]
            [txt "Content-Type: text/html\n"] [] none none []
            (.str (txt "hi there\n"))) = .ok (txt "Content-Type: text/html\n\nhi there\n") := by
          rw [flatten, bodyOf.eq_def]; simp only [hh]; rfl
        cases hs.symm.trans h0
        exact hyphens_avoid (by decide)
  · intro x hx e he
    simp only [menu, nodes, nodesAll, List.append_nil, List.cons_append, List.nil_append, List.mem_cons,
      List.not_mem_nil, or_false] at hx
    rcases hx with rfl | rfl | rfl
    · cases List.mem_singleton.1 he; exact ⟨⟨a1, .inr ⟨_, rfl, a2, a3⟩⟩, fun _ => ⟨_, rfl, a4⟩⟩
    · cases he
    · cases List.mem_singleton.1 he; exact ⟨⟨b1, .inr ⟨_, rfl, b2, b3⟩⟩, fun _ => ⟨_, rfl, b4⟩⟩
  · intro h t hx _
    have h13 : ∀ t : Txt, 13 ∉ t → NoLoneCr t := fun t h i hi => absurd (List.mem_of_getElem? hi) h
    simp only [menu, nodes, nodesAll, List.append_nil, List.cons_append, List.nil_append, List.mem_cons,
      List.not_mem_nil, or_false, Prod.mk.injEq, reduceCtorEq, and_false, false_or, Option.some.injEq] at hx
    rcases hx with ⟨rfl, rfl⟩ | ⟨rfl, rfl⟩
    · exact settled_plain (fun _ _ => rfl) (by unfold Ascii; decide) (h13 _ (by decide)) (unbroken_of (by decide))
        (fun _ => by decide)
    · exact settled_plain (fun _ _ => rfl) (by unfold Ascii; decide) (h13 _ (by decide)) (unbroken_of (by decide))
        (fun _ => by decide)

end Sb.Props
