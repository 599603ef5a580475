import Verif.Props.TreeEnds

/-
C127: what was written is read and written again as the same text; and examples for C126.
-/

set_option linter.unusedSectionVars false

namespace Sb.Props
open Py Py.Text Sb.Mail Sb.Tokenize Sb.Strip

/-! ### C127 -/

theorem quoted_twice (mg : Bool) (l : Txt) : quoted mg (quoted mg l) = quoted mg l := by
  cases mg with
  | false => rfl
  | true =>
    by_cases h : txt "From " <+: l
    · have e : quoted true l = 62 :: l := if_pos h
      rw [e]
      have hn : ¬ txt "From " <+: 62 :: l := by
        rintro ⟨r, hr⟩
        simp [txt] at hr
      exact quoted_same true hn
    · have e : quoted true l = l := if_neg h
      rw [e, e]

theorem quoted_sep (mg : Bool) {b l : Txt} (h : ¬ Separates b l) : ¬ Separates b (quoted mg l) := by
  unfold quoted quoteFrom
  split
  · split
    · rintro ⟨w, -, h | h⟩
      · cases h
      · cases h
    · exact h
  · exact h

/-- Quoted lines are in the form messages are written in. -/
theorem neat_again (mg : Bool) {T : Types} {w d : Bool} {ls : List Txt} (h : NeatMail T w d ls) :
    NeatMail T w d (ls.map (quoted mg)) := by
  induction h with
  | text hh h1 h2 h3 h4 h5 =>
    rw [List.map_append, neat_quoted mg hh, List.map_cons, quoted_nil]
    refine .text hh (by simpa using h1) ?_ h3 h4 h5
    intro l hl
    obtain ⟨y, hy, rfl⟩ := List.mem_map.1 hl
    exact quoted_line (h2 y hy)
  | inner hh h1 h2 _ ih =>
    rw [List.map_append, neat_quoted mg hh, List.map_cons, quoted_nil]
    exact .inner hh h1 h2 ih
  | @multi w d hl pl el ps sub b hh h1 h2 h3 h4 h5 h6 h7 _ ih =>
    have e1 : (ps.flatMap (fun p => (txt "--" ++ b) :: p)).map (quoted mg) =
        (ps.map (List.map (quoted mg))).flatMap (fun p => (txt "--" ++ b) :: p) := by
      rw [List.map_flatMap, List.flatMap_map]
      congr 1
      funext p
      rw [List.map_cons, quoted_hyphens]
    have e2 : quoted mg (txt "--" ++ b ++ txt "--") = txt "--" ++ b ++ txt "--" := by
      rw [List.append_assoc, quoted_hyphens]
    rw [List.map_append, neat_quoted mg hh, List.map_cons, quoted_nil, List.map_append, List.map_append, e1, List.map_cons, e2]
    refine .multi hh h1 h2 h3 (by simpa using h4) (by simpa using h5) ?_ ?_ ?_
    · intro l hl
      rw [← List.map_append] at hl
      obtain ⟨y, hy, rfl⟩ := List.mem_map.1 hl
      exact quoted_line (h6 y hy)
    · intro l hl
      rw [← List.map_flatten, ← List.map_append] at hl
      obtain ⟨y, hy, rfl⟩ := List.mem_map.1 hl
      exact quoted_sep mg (h7 y hy)
    · intro p hp
      obtain ⟨q, hq, rfl⟩ := List.mem_map.1 hp
      exact ih q hq

/-- **C127.** What was written for a message in the form in which messages are written is
read and written again as the same text, however often. -/
theorem C127_stable_partial (P : Printer) (T : Types) (hT : EndsIgnored T) (ht : T.ctype [] false = txt "text/plain")
    (mg : Bool) (ls : List Txt) (ha : Ascii (lf ls)) (h : NeatMail T P.wide false ls) :
    ∃ s, P.writeTree T mg (readMail T (lf ls)) = .ok s ∧ P.writeTree T mg (readMail T s) = .ok s := by
  refine ⟨_, C125_lines P T ht mg ls h, ?_⟩
  have h' := neat_again mg h
  have h2 := C125_lines P T ht mg _ h'
  have e : (ls.map (quoted mg)).map (quoted mg) = ls.map (quoted mg) := by
    rw [List.map_map]
    exact List.map_congr_left (fun l _ => quoted_twice mg l)
  rw [e] at h2
  rw [← h2]
  have hl := (passes mg h').lines
  have hfree : 13 ∉ lf (ls.map (quoted mg)) := by
    intro hm
    obtain ⟨l, hl', hm⟩ := List.mem_flatMap.1 hm
    rcases List.mem_append.1 hm with hm | hm
    · exact (hl l hl' 13 hm).1 rfl
    · simp at hm
  have ha' : Ascii (lf (ls.map (quoted mg))) := by
    intro c hc
    obtain ⟨l, hl', hm⟩ := List.mem_flatMap.1 hc
    obtain ⟨y, hy, rfl⟩ := List.mem_map.1 hl'
    rcases List.mem_append.1 hm with hm | hm
    · rcases quoted_mem hm with rfl | hm
      · decide
      · exact ha c (List.mem_flatMap.2 ⟨y, hy, by simp [hm]⟩)
    · rw [List.mem_singleton.1 hm]; decide
  refine C126_line_ends_partial P T hT mg _ _ ha' (fun i hi => absurd (List.mem_of_getElem? hi) hfree) ?_ (C43_same_lines _)
    (neat_tree ht mg h').1
  intro i hi
  exact ((C43_crlf_only _).1 i hi)

/-! ### The hypotheses can be met -/

/-- As plainTypes, for values with any ends of lines in them. -/
def lineTypes : Types where
  ctype hs d :=
    match hs.find? (fun x => x.1 == txt "Content-Type") with
    | some (_, .str v) => (lines v).flatten.takeWhile (· != 59)
    | _ => if d then txt "message/rfc822" else txt "text/plain"
  boundary hs :=
    match hs.find? (fun x => x.1 == txt "Content-Type") with
    | some (_, .str v) => if (lines v).flatten.contains 61 then some (((lines v).flatten.dropWhile (· != 61)).drop 1) else none
    | _ => none

theorem find_same {hs hs' : Headers} (h : SameButEnds hs hs') (n : Txt) :
    (hs.find? (fun x => x.1 == n) = none ∧ hs'.find? (fun x => x.1 == n) = none) ∨
    ∃ x y, hs.find? (fun x => x.1 == n) = some x ∧ hs'.find? (fun x => x.1 == n) = some y ∧
      (y.2 = x.2 ∨ ∃ v v', x.2 = .str v ∧ y.2 = .str v' ∧ lines v' = lines v) := by
  induction h with
  | nil => left; exact ⟨rfl, rfl⟩
  | @cons x y hs hs' h _ ih =>
    by_cases hx : x.1 == n
    · right
      refine ⟨x, y, ?_, ?_, h.2⟩
      · rw [List.find?_cons_of_pos (by simpa using hx)]
      · rw [List.find?_cons_of_pos (by rw [h.1]; simpa using hx)]
    · rw [List.find?_cons_of_neg (by simpa using hx), List.find?_cons_of_neg (by rw [h.1]; simpa using hx)]
      exact ih

theorem lineTypes_ends : EndsIgnored lineTypes where
  ctype hs hs' d h := by
    unfold lineTypes
    simp only
    rcases find_same h (txt "Content-Type") with ⟨h1, h2⟩ | ⟨x, y, h1, h2, h3⟩
    · rw [h1, h2]
    · rw [h1, h2]
      obtain ⟨n, s⟩ := x
      obtain ⟨n', s'⟩ := y
      simp only at h3
      rcases h3 with rfl | ⟨v, v', rfl, rfl, h3⟩
      · cases s' <;> rfl
      · simp only [h3]
  boundary hs hs' h := by
    unfold lineTypes
    simp only
    rcases find_same h (txt "Content-Type") with ⟨h1, h2⟩ | ⟨x, y, h1, h2, h3⟩
    · rw [h1, h2]
    · rw [h1, h2]
      obtain ⟨n, s⟩ := x
      obtain ⟨n', s'⟩ := y
      simp only at h3
      rcases h3 with rfl | ⟨v, v', rfl, rfl, h3⟩
      · cases s' <;> rfl
      · simp only [h3]
  line hs b h := by
    unfold lineTypes at h
    simp only at h
    split at h
    · rename_i n v heq
      split at h
      · cases h
        intro c hc
        have hc := (List.dropWhile_sublist _).subset ((List.drop_sublist _ _).subset hc)
        obtain ⟨l, hl, hc⟩ := List.mem_flatten.1 hc
        exact lines_clean v l hl c hc
      · cases h
    · cases h

/-- A signed message with lines that end with CR LF and with LF, and a header of two lines. -/
def mixedText : Txt := txt "Content-Type: multipart/signed;\r\n boundary=b\n\r\n--b\nX: y\r\n\nFrom now on\r\n--b--\n"

def plainText : Txt := txt "Content-Type: multipart/signed;\n boundary=b\n\n--b\nX: y\n\nFrom now on\n--b--\n"

set_option maxRecDepth 8000 in
theorem mixed_read : readMail lineTypes plainText =
    .cut [(txt "Content-Type", .str (txt "multipart/signed;\n boundary=b"))] none
      [.text [(txt "X", .str (txt "y"))] (txt "From now on")] (some []) := by
  rfl

set_option maxRecDepth 8000 in
example : laxPrinter.writeTree lineTypes true (readMail lineTypes mixedText) =
    laxPrinter.writeTree lineTypes true (readMail lineTypes plainText) :=
  C126_line_ends_partial laxPrinter lineTypes lineTypes_ends true plainText mixedText (by unfold Ascii; decide)
    (fun i hi => absurd (List.mem_of_getElem? hi) (by decide))
    (by
      intro i hi
      have : ∀ j < mixedText.length, mixedText[j]? = some 13 → mixedText[j + 1]? = some 10 := by decide
      refine this i ?_ hi
      by_contra hlt
      rw [List.getElem?_eq_none (by omega)] at hi
      cases hi)
    (by decide) (by rw [mixed_read]; simp [NoStatus, NoStatuses])

theorem write_text (P : Printer) {T : Types} (mg : Bool) {hs : Headers} {t : Txt} {f : List Txt}
    (hc : T.ctype hs false = txt "text/plain") (hf : P.foldAll hs = .ok f) :
    P.writeTree T mg (.text hs t) = .ok (forceCrlf (f.flatten ++ 10 :: written mg t)) := by
  have hh : handlerOf (txt "text/plain") = .text := by decide
  rw [Printer.writeTree, Printer.docOf, hf]
  simp only
  rw [Mail.asString.eq_def]
  simp only [generate, flatten]
  rw [bodyOf.eq_def]
  simp only [hc, hh, ite_self]
  simp

set_option maxRecDepth 8000 in
/-- A CR alone ends a line too, but `From ` after it is not quoted. -/
theorem C126_lone_cr : lines (txt "\na\rFrom b") = lines (txt "\na\nFrom b") ∧
    laxPrinter.writeTree lineTypes true (readMail lineTypes (txt "\na\rFrom b")) = .ok (txt "\r\na\r\nFrom b") ∧
    laxPrinter.writeTree lineTypes true (readMail lineTypes (txt "\na\nFrom b")) = .ok (txt "\r\na\r\n>From b") := by
  have h1 : readMail lineTypes (txt "\na\rFrom b") = .text [] (txt "a\rFrom b") := by rfl
  have h2 : readMail lineTypes (txt "\na\nFrom b") = .text [] (txt "a\nFrom b") := by rfl
  refine ⟨by decide, ?_, ?_⟩
  · rw [h1, write_text laxPrinter true (by decide) (f := []) rfl]
    exact congrArg Except.ok (by decide)
  · rw [h2, write_text laxPrinter true (by decide) (f := []) rfl]
    exact congrArg Except.ok (by decide)

/-- The claim: what was written is read and written again as the same text. -/
def C127Claim (mg : Bool) : Prop := ∀ (P : Printer) (t s : Txt), Ascii t →
  P.writeTree lineTypes mg (readMail lineTypes t) = .ok s → P.writeTree lineTypes mg (readMail lineTypes s) = .ok s

/-- A line of words of 30 and 40 letters after a semicolon. -/
def longText (e f : Txt) : Txt := txt "Subject: a;" ++ e ++ (32 :: List.replicate 30 98) ++ (32 :: List.replicate 30 99) ++
  f ++ (32 :: List.replicate 40 100)

/-- The value of the header. -/
def longValue (e f : Txt) : Txt := txt "a;" ++ e ++ (32 :: List.replicate 30 98) ++ (32 :: List.replicate 30 99) ++
  f ++ (32 :: List.replicate 40 100)

set_option maxRecDepth 16000 in
theorem long_fold : joinLf (encodedLines 78 (txt "Subject") (longValue [] [])) = longValue [10] [] ∧
    joinLf (encodedLines 78 (txt "Subject") (longValue [13, 10] [])) = longValue [10] [10] ∧
    embedded (longValue [10] []) = false ∧ embedded (longValue [10] [10]) = false := by
  decide

set_option maxRecDepth 16000 in
theorem long_read : readMail lineTypes (longText [] [] ++ txt "\n\n") = .text [(txt "Subject", .str (longValue [] []))] [] ∧
    readMail lineTypes (longText [13, 10] [] ++ txt "\r\n\r\n") =
      .text [(txt "Subject", .str (longValue [13, 10] []))] [] := ⟨rfl, rfl⟩

set_option maxRecDepth 16000 in
theorem long_write (mg : Bool) {e x y : Txt} (ha : Ascii (longValue e []))
    (h1 : joinLf (encodedLines 78 (txt "Subject") (longValue e [])) = longValue x y) (h2 : embedded (longValue x y) = false) :
    laxPrinter.writeTree lineTypes mg (.text [(txt "Subject", .str (longValue e []))] []) =
      .ok (forceCrlf (longText x y ++ txt "\n\n")) := by
  have hf : laxPrinter.foldAll [(txt "Subject", .str (longValue e []))] =
      .ok [txt "Subject" ++ txt ": " ++ longValue x y ++ [10]] := by
    have hm : laxPrinter.max = 78 := rfl
    rw [Printer.foldAll, Printer.fold, ascii_any ha, hm]
    simp only [Bool.false_eq_true, if_false, h1, h2]
    rfl
  rw [write_text laxPrinter mg (by rfl) hf]
  have : written mg [] = [] := by cases mg <;> rfl
  rw [this]
  have e : [txt "Subject" ++ txt ": " ++ longValue x y ++ [10]].flatten ++ [10] = longText x y ++ txt "\n\n" := by
    unfold longText longValue
    generalize List.replicate 30 98 = a1
    generalize List.replicate 30 99 = a2
    generalize List.replicate 40 100 = a3
    simp [txt]
  rw [e]

set_option maxRecDepth 16000 in
/-- It fails: a long header is folded at the semicolon first, and the line after it, which
is too long, is folded when it is written again. -/
theorem C127_claim_false (mg : Bool) : ¬ C127Claim mg := by
  intro h
  obtain ⟨f1, f2, f3, f4⟩ := long_fold
  have h1 : laxPrinter.writeTree lineTypes mg (readMail lineTypes (longText [] [] ++ txt "\n\n")) =
      .ok (longText [13, 10] [] ++ txt "\r\n\r\n") := by
    rw [long_read.1, long_write mg (by unfold Ascii; decide) f1 f3]
    exact congrArg Except.ok (by decide)
  have h3 := h laxPrinter _ _ (by unfold Ascii; decide) h1
  rw [long_read.2, long_write mg (by unfold Ascii; decide) f2 f4] at h3
  have := congrArg List.length (Except.ok.inj h3)
  revert this
  decide

/-- A signed message whose part begins with `From `. -/
def againLines : List Txt := [signedHead, [], txt "--b", txt "X: y", [], txt "From now on", txt "--b--", []]

set_option maxRecDepth 8000 in
theorem again_neat : NeatMail lineTypes false false againLines := by
  refine NeatMail.multi (hl := [signedHead]) (pl := []) (el := [[]])
    (ps := [[txt "X: y", [], txt "From now on"]]) (sub := txt "signed") (b := txt "b")
    ?_ (by decide) (by decide) (by unfold OneLine; decide) (by simp) (by simp) (by unfold OneLine; decide) ?_ ?_
  · exact NeatHead.field (ms := []) (hl := []) (signed_neat _ (by simp)) (by simp) (by simp) .nil
  · intro l hl
    refine unsep_line ?_
    revert l
    decide
  · intro p hp
    rw [List.mem_singleton] at hp
    subst hp
    refine NeatMail.text (hl := [txt "X: y"]) (bl := [txt "From now on"]) (main := txt "text") (sub := txt "plain") ?_ (by simp)
      (by unfold OneLine; decide) (by decide) (by decide) (by unfold PrintsAsText; decide)
    refine NeatHead.field (ms := []) (hl := []) ?_ (by simp) (by simp) .nil
    exact neat_line (txt "X") (txt "y") ⟨by decide, by decide⟩ (by unfold Ascii; decide) (by unfold Ends; decide)
      (by decide) (by decide)

example : ∃ s, laxPrinter.writeTree lineTypes true (readMail lineTypes (lf againLines)) = .ok s ∧
    laxPrinter.writeTree lineTypes true (readMail lineTypes s) = .ok s :=
  C127_stable_partial laxPrinter lineTypes lineTypes_ends rfl true againLines (by unfold Ascii; decide) again_neat

end Sb.Props
