import Verif.Props.TreeForm

/-
C125: messages with parts are written line by line as they were read.
-/

set_option linter.unusedSectionVars false

namespace Sb.Props
open Py Py.Text Sb.Mail Sb.Tokenize Sb.Strip

/-- A header line as it is written: the name, a colon and a space, the value on the same
line, and at most k characters. -/
def NeatLine (k : Nat) (l : Txt) : Prop :=
  ∃ n v, FieldName n ∧ l = n ++ txt ": " ++ v ∧ Ascii v ∧ (∀ c ∈ v, ¬ Ends c) ∧
    (∀ c r, v = c :: r → c ≠ 32 ∧ c ≠ 9) ∧ l.length ≤ k

/-- The length of the header lines of the parts: those of multipart/signed are not
folded, as the signature is for the lines as they are. -/
def partWidth (sub : Txt) : Nat := if sub = txt "signed" then 1000000 else 78

/-- A line of a text as it is written: with `mangle_from_`, `From ` at its beginning is
quoted. -/
def quoted (mg : Bool) (l : Txt) : Txt := if mg then quoteFrom l else l

/-- The text of a message with parts: header lines, lines before the first boundary, the
lines of the parts, and what follows the last boundary. -/
def partsText (hl pl : List Txt) (ps : List (List Txt × List Txt)) (b r : Txt) : Txt :=
  lf hl ++ 10 :: (lf pl ++ (ps.flatMap (fun p => txt "--" ++ b ++ 10 :: partText p) ++
    (txt "--" ++ b ++ txt "--" ++ 10 :: r)))

/-! ### Headers -/

theorem NeatLine.line {k : Nat} {l : Txt} (h : NeatLine k l) : OneLine l := by
  obtain ⟨n, v, hn, rfl, -, hv, -⟩ := h
  refine nameLine hn ?_
  intro c hc
  have := hv c hc
  unfold Ends at this
  omega

theorem NeatLine.head {k : Nat} {l : Txt} (h : NeatLine k l) : HeadLine l := by
  refine ⟨h.line, .inr (.inl ?_)⟩
  obtain ⟨n, v, hn, rfl, -⟩ := h
  exact ⟨n, 32 :: v, hn, by simp [txt]⟩

theorem parseFields_tidy {k : Nat} : ∀ (hl : List Txt), (∀ l ∈ hl, NeatLine k l) → ∀ (f : Bool) (cur : List Txt),
    parseFields f cur (hl.map (· ++ [10])) =
      ⟨none, (if cur = [] then [] else [sourceParse cur]) ++ hl.map (fun l => sourceParse [l ++ [10]]), []⟩ := by
  intro hl
  induction hl with
  | nil => intro _ f cur; simp [parseFields]
  | cons l hl ih =>
    intro h f cur
    have hs := ih (fun x hx => h x (by simp [hx]))
    obtain ⟨n, v, hn, rfl, -⟩ := h l (by simp)
    have e : n ++ txt ": " ++ v ++ [10] = n ++ 58 :: (32 :: v ++ [10]) := by simp [txt]
    rw [List.map_cons, e, parseFields, (name_starts hn _).1, name_not_from hn]
    simp only [Bool.false_eq_true, if_false, if_neg (name_starts hn _).2]
    rw [hs, List.map_cons, e]
    simp

theorem sourceParse_tidy {n v : Txt} (hn : FieldName n) (hv : ∀ c ∈ v, ¬ Ends c)
    (hb : ∀ c r, v = c :: r → c ≠ 32 ∧ c ≠ 9) : sourceParse [n ++ txt ": " ++ v ++ [10]] = (n, .str v) := by
  have e : n ++ txt ": " ++ v ++ [10] = n ++ 58 :: (32 :: v ++ [10]) := by simp [txt]
  have h58 : ∀ c ∈ n, (c != 58) = true := by
    intro c hc
    have := hn.2 c hc
    simp [this]
  have hd : (32 :: v ++ [10]).dropWhile Mail.isBlank = v ++ [10] := by
    rw [List.cons_append, List.dropWhile_cons_of_pos (by rfl)]
    cases v with
    | nil => rfl
    | cons c r =>
      have := hb c r rfl
      rw [List.cons_append, List.dropWhile_cons_of_neg (by simp [Mail.isBlank, this])]
  have hr : (v ++ [10]).reverse.dropWhile (fun c => c == 13 || c == 10) = v.reverse := by
    rw [List.reverse_append]
    show ([10] ++ v.reverse).dropWhile _ = _
    rw [List.dropWhile_append_of_pos (by simp)]
    cases hv' : v.reverse with
    | nil => rfl
    | cons c r =>
      have hc := hv c (List.mem_reverse.1 (by rw [hv']; simp))
      unfold Ends at hc
      rw [List.dropWhile_cons_of_neg (by simp; omega)]
  unfold sourceParse
  simp only [e, List.headD_cons, List.tail_cons, List.flatten_nil, List.append_nil]
  rw [List.dropWhile_append_of_pos h58, List.dropWhile_cons_of_neg (by decide), List.drop_one, List.tail_cons,
    hd, hr, List.reverse_reverse, List.takeWhile_append_of_pos h58, List.takeWhile_cons_of_neg (by decide)]
  simp

theorem fold_tidy (P : Printer) {k : Nat} {l : Txt} (hk : k ≤ P.max) (h : NeatLine k l) :
    P.fold (sourceParse [l ++ [10]]).1 (sourceParse [l ++ [10]]).2 = .ok (l ++ [10]) := by
  have hl := h.line
  obtain ⟨n, v, hn, rfl, ha, hv, hb, hlen⟩ := h
  rw [sourceParse_tidy hn hv hb]
  simp only [Printer.fold]
  have h1 : OneLine v := fun c hc => hl c (by simp [hc])
  have hlen' : n.length + 2 + v.length ≤ P.max := by
    have : (txt ": ").length = 2 := rfl
    simp only [List.length_append, this] at hlen
    omega
  rw [if_neg (by rw [ascii_any ha]; simp), encodedLines_one ha hv hlen', joinLf]
  have e1 : embedded v = false := by
    have := embedded_oneLine h1 []
    rw [List.append_nil] at this
    rw [this]; rfl
  have e2 : loose (n ++ txt ": " ++ v) = false := by
    have := loose_oneLine hl []
    rw [List.append_nil] at this
    rw [this]; rfl
  rw [if_neg (by rw [e1]; simp), Printer.checked, e2]
  simp

theorem foldAll_tidy (P : Printer) {k : Nat} (hk : k ≤ P.max) : ∀ (hl : List Txt), (∀ l ∈ hl, NeatLine k l) →
    P.foldAll (hl.map (fun l => sourceParse [l ++ [10]])) = .ok (hl.map (· ++ [10])) := by
  intro hl
  induction hl with
  | nil => intro _; rfl
  | cons l hl ih =>
    intro h
    have := fold_tidy P hk (h l (by simp))
    rw [List.map_cons, Printer.foldAll, this, ih (fun x hx => h x (by simp [hx]))]
    rfl

theorem headers_tidy (P : Printer) {k : Nat} (hk : k ≤ P.max) {hl : List Txt} (h : ∀ l ∈ hl, NeatLine k l) :
    P.foldAll (headOf hl) = .ok (hl.map (· ++ [10])) := by
  rw [headOf_eq (fun l hl => (h l hl).head), parseFields_tidy hl h]
  simpa using foldAll_tidy P hk hl h

theorem back_tidy {k : Nat} {hl : List Txt} (h : ∀ l ∈ hl, NeatLine k l) : backOf hl = [] := by
  rw [backOf, parseFields_tidy hl h]

/-! ### Texts -/

theorem lf_flatten (ls : List Txt) : (ls.map (· ++ [10])).flatten = lf ls := by
  rw [lf, List.flatMap_def]

theorem body_tidy {k : Nat} {hl pl : List Txt} (h : ∀ l ∈ hl, NeatLine k l) (hp : ∀ l ∈ pl, OneLine l) :
    (readMessage (lf hl ++ 10 :: lf pl)).body = lf pl := by
  rw [body_lf (fun l hl => (h l hl).head) hp, back_tidy h, List.nil_append, lf_flatten]

theorem from_line {l r : Txt} : (txt "From ").isPrefixOf (l ++ 10 :: r) = (txt "From ").isPrefixOf l := by
  have aux : ∀ (p l : Txt), 10 ∉ p → p.isPrefixOf (l ++ 10 :: r) = p.isPrefixOf l := by
    intro p
    induction p with
    | nil => intro l _; simp
    | cons c p ih =>
      intro l hp
      have hc : c ≠ 10 := by rintro rfl; simp at hp
      cases l with
      | nil => simp [List.isPrefixOf, hc]
      | cons d l =>
        rw [List.cons_append, List.isPrefixOf_cons_cons, List.isPrefixOf_cons_cons, ih l (fun h => hp (by simp [h]))]
  exact aux _ _ (by decide)

theorem mangle_inside : ∀ (l r : Txt), OneLine l → mangleFrom false (l ++ 10 :: r) = l ++ 10 :: mangleFrom true r := by
  intro l
  induction l with
  | nil => intro r _; simp [mangleFrom]
  | cons c l ih =>
    intro r h
    have hc := (h c (by simp)).2
    have : (c == 10) = false := by simp [hc]
    rw [List.cons_append, mangleFrom]
    simp only [Bool.false_and, Bool.false_eq_true, if_false, this]
    rw [ih r (fun x hx => h x (by simp [hx]))]
    rfl

theorem mangle_last : ∀ (l : Txt), OneLine l → mangleFrom false l = l := by
  intro l
  induction l with
  | nil => intro _; rfl
  | cons c l ih =>
    intro h
    have hc := (h c (by simp)).2
    have : (c == 10) = false := by simp [hc]
    rw [mangleFrom]
    simp only [Bool.false_and, Bool.false_eq_true, if_false, this]
    rw [ih (fun x hx => h x (by simp [hx]))]

theorem mangle_lf {l : Txt} (h : OneLine l) (r : Txt) :
    mangleFrom true (l ++ 10 :: r) = quoteFrom l ++ 10 :: mangleFrom true r := by
  cases l with
  | nil => rfl
  | cons c l =>
    have hc := (h c (by simp)).2
    have e : (c == 10) = false := by simp [hc]
    have hi := mangle_inside l r (fun x hx => h x (by simp [hx]))
    have hf := from_line (l := c :: l) (r := r)
    rw [List.cons_append] at hf ⊢
    rw [mangleFrom, hf, e, hi, quoteFrom]
    by_cases hp : txt "From " <+: c :: l
    · rw [if_pos hp, if_pos (by rw [Bool.true_and]; exact List.isPrefixOf_iff_prefix.2 hp)]
      rfl
    · rw [if_neg hp, if_neg (by rw [Bool.true_and, List.isPrefixOf_iff_prefix]; exact hp)]
      rfl

theorem mangle_one {l : Txt} (h : OneLine l) : mangleFrom true l = quoteFrom l := by
  cases l with
  | nil => rfl
  | cons c l =>
    have hc := (h c (by simp)).2
    have e : (c == 10) = false := by simp [hc]
    rw [mangleFrom, e, mangle_last l (fun x hx => h x (by simp [hx])), quoteFrom]
    by_cases hp : txt "From " <+: c :: l
    · rw [if_pos hp, if_pos (by rw [Bool.true_and]; exact List.isPrefixOf_iff_prefix.2 hp)]
    · rw [if_neg hp, if_neg (by rw [Bool.true_and, List.isPrefixOf_iff_prefix]; exact hp)]

theorem toLf_same : ∀ t : Txt, 13 ∉ t → toLf t = t := by
  intro t
  induction t with
  | nil => intro _; rfl
  | cons c r ih =>
    intro h
    have hc : c ≠ 13 := by rintro rfl; simp at h
    rw [toLf]
    · rw [if_neg hc, ih (fun hr => h (by simp [hr]))]
    · intro s h1; exact absurd h1 hc

theorem mangle_lines : ∀ (ls : List Txt) (e : Txt), (∀ l ∈ ls, OneLine l) → OneLine e →
    mangleFrom true (lf ls ++ e) = lf (ls.map quoteFrom) ++ quoteFrom e := by
  intro ls
  induction ls with
  | nil => intro e _ he; simpa [lf] using mangle_one he
  | cons l ls ih =>
    intro e h he
    have e1 : lf (l :: ls) ++ e = l ++ 10 :: (lf ls ++ e) := by simp [lf]
    rw [e1, mangle_lf (h l (by simp)), ih e (fun x hx => h x (by simp [hx])) he]
    simp [lf]

theorem quoted_mem {mg : Bool} {l : Txt} {c : Nat} (h : c ∈ quoted mg l) : c = 62 ∨ c ∈ l := by
  unfold quoted quoteFrom at h
  split at h
  · split at h
    · simpa using h
    · exact .inr h
  · exact .inr h

theorem quoted_line {mg : Bool} {l : Txt} (h : OneLine l) : OneLine (quoted mg l) := by
  intro c hc
  rcases quoted_mem hc with rfl | hc
  · decide
  · exact h c hc

theorem lf_no_cr {ls : List Txt} (h : ∀ l ∈ ls, OneLine l) : 13 ∉ lf ls := by
  intro hm
  obtain ⟨l, hl, hm⟩ := List.mem_flatMap.1 hm
  rcases List.mem_append.1 hm with hm | hm
  · exact (h l hl 13 hm).1 rfl
  · simp at hm

theorem written_lf (mg : Bool) {ls : List Txt} {e : Txt} (h : ∀ l ∈ ls, OneLine l) (he : OneLine e) :
    written mg (lf ls ++ e) = lf (ls.map (quoted mg)) ++ quoted mg e := by
  have hc : 13 ∉ lf (ls.map (quoted mg)) ++ quoted mg e := by
    intro hm
    rcases List.mem_append.1 hm with hm | hm
    · refine lf_no_cr ?_ hm
      intro l hl
      obtain ⟨x, hx, rfl⟩ := List.mem_map.1 hl
      exact quoted_line (h x hx)
    · exact (quoted_line he 13 hm).1 rfl
  rw [written]
  cases mg with
  | false =>
    have e1 : ls.map (quoted false) = ls := by
      have : quoted false = id := by funext l; rfl
      rw [this, List.map_id]
    rw [e1] at hc ⊢
    exact toLf_same _ hc
  | true =>
    have e1 : quoted true = quoteFrom := by funext l; rfl
    rw [e1] at hc ⊢
    rw [if_pos rfl, mangle_lines ls e h he]
    exact toLf_same _ hc

theorem written_chopped (mg : Bool) {ls : List Txt} (h : ∀ l ∈ ls, OneLine l) (hne : ls ≠ []) :
    written mg (lf ls).dropLast ++ [10] = lf (ls.map (quoted mg)) := by
  rcases List.eq_nil_or_concat ls with rfl | ⟨a, l, rfl⟩
  · exact absurd rfl hne
  · rw [List.concat_eq_append] at h ⊢
    have e : lf (a ++ [l]) = (lf a ++ l) ++ [10] := by simp [lf]
    rw [e, List.dropLast_concat, written_lf mg (fun x hx => h x (by simp [hx])) (h l (by simp))]
    simp [lf]

/-! ### The parts -/

theorem inside_max (P : Printer) (sub : Txt) : partWidth sub ≤ (P.inside (txt "multipart/" ++ sub)).max := by
  unfold Printer.inside partWidth
  rw [handlerOf_multi]
  by_cases h : sub = txt "signed"
  · have : decide (underscores sub = txt "signed") = true := by simp [underscores_signed, h]
    rw [if_pos h, this]
    simp [Printer.max]
  · have : decide (underscores sub = txt "signed") = false := by simp [underscores_signed, h]
    rw [if_neg h, this]
    exact P.max_le

theorem docs_tidy (P : Printer) (T : Types) (dg : Bool) {k : Nat} (hk : k ≤ P.max) (f : List Txt × List Txt → Txt) :
    ∀ ps : List (List Txt × List Txt), (∀ p ∈ ps, ∀ l ∈ p.1, NeatLine k l) →
    P.docsOf T dg (ps.map fun p => .text (headOf p.1) (f p)) =
      .ok (ps.map fun p => .doc (T.ctype (headOf p.1) dg) (p.1.map (· ++ [10])) (p.1.map (· ++ [10])) [] none none []
        (.str (f p))) := by
  intro ps
  induction ps with
  | nil => intro _; rfl
  | cons p ps ih =>
    intro h
    rw [List.map_cons, Printer.docsOf, Printer.docOf, headers_tidy P hk (h p (by simp)),
      ih (fun q hq => h q (by simp [hq]))]
    rfl

theorem flatten_tidy (T : Types) (dg mg w : Bool) (f : List Txt × List Txt → Txt) :
    ∀ ps : List (List Txt × List Txt), (∀ p ∈ ps, ∃ main sub', 47 ∉ main ∧
      T.ctype (headOf p.1) dg = main ++ 47 :: sub' ∧ PrintsAsText main sub') →
    flattenAll mg w (ps.map fun p => .doc (T.ctype (headOf p.1) dg) (p.1.map (· ++ [10])) (p.1.map (· ++ [10])) [] none
      none [] (.str (f p))) = .ok (ps.map fun p => lf p.1 ++ 10 :: written mg (f p)) := by
  intro ps
  induction ps with
  | nil => intro _; rw [List.map_nil, flattenAll]; rfl
  | cons p ps ih =>
    intro h
    obtain ⟨main, sub', h1, h2, h3⟩ := h p (by simp)
    have hh : handlerOf (T.ctype (headOf p.1) dg) = .text := by rw [h2]; exact handlerOf_text h1 h3
    rw [List.map_cons, flattenAll, flatten, bodyOf, ih (fun q hq => h q (by simp [hq]))]
    · simp [lf_flatten]
    · exact hh

theorem assemble_some (mg : Bool) (pre : Option Txt) (epi b t : Txt) (ts : List Txt) :
    assemble mg pre (some epi) b (t :: ts) = pre.elim [] (fun p => written mg p ++ [10]) ++ 45 :: 45 :: b ++
      10 :: (t ++ ts.flatMap (fun u => 10 :: 45 :: 45 :: b ++ 10 :: u)) ++
      10 :: 45 :: 45 :: b ++ 45 :: 45 :: 10 :: written mg epi := by
  cases pre <;> rfl

/-- **C125.** What is written for a multipart message with texts as parts, if its header
lines are in the form they are written in: the lines that were read, but that `From ` at
the beginning of a line is quoted with `mangle_from_`. -/
theorem C125_written (P : Printer) (T : Types) (mg : Bool) (hl pl el : List Txt) (ps : List (List Txt × List Txt))
    (b e sub : Txt) (hh : ∀ l ∈ hl, NeatLine 78 l) (hc : T.ctype (headOf hl) false = txt "multipart/" ++ sub)
    (hb : T.boundary (headOf hl) = some b) (hob : OneLine b) (hne : ps ≠ [])
    (hp : ∀ l ∈ pl, OneLine l ∧ ¬ Separates b l) (he : ∀ l ∈ e :: el, OneLine l)
    (hps : ∀ p ∈ ps, (∀ l ∈ p.1, NeatLine (partWidth sub) l) ∧ p.2 ≠ [] ∧
      (∀ l ∈ p.1 ++ p.2, OneLine l ∧ ¬ Separates b l) ∧
      ∃ main sub', 47 ∉ main ∧ T.ctype (headOf p.1) (sub == txt "digest") = main ++ 47 :: sub' ∧ PrintsAsText main sub') :
    P.writeTree T mg (readMail T (partsText hl pl ps b (lf el ++ e))) =
      .ok (forceCrlf (partsText hl (pl.map (quoted mg)) (ps.map fun p => (p.1, p.2.map (quoted mg))) b
        (lf (el.map (quoted mg)) ++ quoted mg e))) := by
  have hread := C124_read T hl pl ps b (lf el ++ e) sub (fun l h => (hh l h).head) hc hb hob hne hp
    (fun p h => ⟨fun l hl => ((hps p h).1 l hl).head, (hps p h).2.2.1, (hps p h).2.2.2⟩)
  have hdg : (T.ctype (headOf hl) false == txt "multipart/digest") = (sub == txt "digest") := by
    rw [hc]
    have : txt "multipart/digest" = txt "multipart/" ++ txt "digest" := by decide
    rw [this, Bool.eq_iff_iff]
    simp
  have hdocs := docs_tidy (P.inside (txt "multipart/" ++ sub)) T (sub == txt "digest") (inside_max P sub)
    (fun p => (readMessage (partText p)).body.dropLast) ps (fun p h => (hps p h).1)
  have hmulti := handlerOf_multi sub
  have hflat := fun w => flatten_tidy T (sub == txt "digest") mg w (fun p => (readMessage (partText p)).body.dropLast) ps
    (fun p h => (hps p h).2.2.2)
  have hpart : ∀ p ∈ ps, lf p.1 ++ 10 :: written mg (readMessage (partText p)).body.dropLast ++ [10] =
      partText (p.1, p.2.map (quoted mg)) := by
    intro p h
    have h2 : ∀ l ∈ p.2, OneLine l := fun l hl => ((hps p h).2.2.1 l (by simp [hl])).1
    rw [partText, body_tidy (hps p h).1 h2, partText, ← written_chopped mg h2 (hps p h).2.1]
    simp
  rw [partsText, hread, Printer.writeTree, Printer.docOf, hdg, hc, hdocs, headers_tidy P P.max_le hh]
  simp only [hb, Option.getD_some]
  rw [Mail.asString, generate, flatten, bodyOf.eq_def]
  simp only [hmulti, hflat]
  rw [body_tidy hh (fun l h => (hp l h).1)]
  congr 2
  have hpre : (if lf pl = [] then none else some (lf pl).dropLast : Option Txt).elim [] (fun p => written mg p ++ [10]) = lf (pl.map (quoted mg)) := by
    by_cases h0 : pl = []
    · subst h0; rfl
    · rw [if_neg (by
        obtain ⟨x, xs, rfl⟩ := List.exists_cons_of_ne_nil h0
        simp [lf])]
      exact written_chopped mg (fun l h => (hp l h).1) h0
  have hepi : written mg (lf el ++ e) = lf (el.map (quoted mg)) ++ quoted mg e :=
    written_lf mg (fun l h => he l (by simp [h])) (he e (by simp))
  have hmid : ∀ (q : List Txt × List Txt) (qs : List (List Txt × List Txt)), (∀ p ∈ q :: qs, p ∈ ps) →
      (lf q.1 ++ 10 :: written mg (readMessage (partText q)).body.dropLast) ++
        (qs.map fun p => lf p.1 ++ 10 :: written mg (readMessage (partText p)).body.dropLast).flatMap
          (fun u => 10 :: 45 :: 45 :: b ++ 10 :: u) ++ [10] =
      partText (q.1, q.2.map (quoted mg)) ++
        (qs.map fun p => (p.1, p.2.map (quoted mg))).flatMap (fun p => txt "--" ++ b ++ 10 :: partText p) := by
    intro q qs
    induction qs generalizing q with
    | nil => intro h; simpa using hpart q (h q (by simp))
    | cons x qs ih =>
      intro h
      have i := ih x (fun p hp => h p (by simp at hp ⊢; tauto))
      rw [List.map_cons, List.flatMap_cons, List.map_cons, List.flatMap_cons, ← hpart q (h q (by simp))]
      have e2 : txt "--" = [45, 45] := by decide
      rw [e2] at i ⊢
      have : ∀ A B C D : Txt, A ++ ((10 :: 45 :: 45 :: b ++ 10 :: B) ++ C) ++ D =
          (A ++ [10]) ++ ([45, 45] ++ b ++ 10 :: (B ++ C ++ D)) := by intros; simp
      rw [this, i]
      simp
  obtain ⟨q, qs, rfl⟩ := List.exists_cons_of_ne_nil hne
  have hm := hmid q qs (fun p h => h)
  rw [List.map_cons, assemble_some, partsText]
  simp only [List.map_cons, hepi]
  have alg : ∀ H A B C D R : Txt, B ++ [10] = C ++ D →
      H ++ 10 :: (A ++ 45 :: 45 :: b ++ 10 :: B ++ 10 :: 45 :: 45 :: b ++ 45 :: 45 :: 10 :: R) =
        H ++ 10 :: (A ++ ((txt "--" ++ b ++ 10 :: C ++ D) ++ (txt "--" ++ b ++ txt "--" ++ 10 :: R))) := by
    intro H A B C D R h
    have e2 : txt "--" = [45, 45] := by decide
    have e3 : txt "--" ++ b ++ 10 :: C ++ D = txt "--" ++ b ++ 10 :: (B ++ [10]) := by rw [h]; simp
    rw [e3, e2]
    simp
  rw [hpre, List.flatMap_cons]
  simp only [Bool.false_eq_true, if_false, lf_flatten]
  rw [List.nil_append]
  exact alg _ _ _ _ _ _ hm

/-- **C125.** Without lines that are quoted, the text is written as it was read but for the
line ends, so that the signature of a multipart/signed message is still that of its first
part. -/
theorem C125_same_partial (P : Printer) (T : Types) (mg : Bool) (hl pl el : List Txt) (ps : List (List Txt × List Txt))
    (b e sub : Txt) (hh : ∀ l ∈ hl, NeatLine 78 l) (hc : T.ctype (headOf hl) false = txt "multipart/" ++ sub)
    (hb : T.boundary (headOf hl) = some b) (hob : OneLine b) (hne : ps ≠ [])
    (hp : ∀ l ∈ pl, OneLine l ∧ ¬ Separates b l) (he : ∀ l ∈ e :: el, OneLine l)
    (hps : ∀ p ∈ ps, (∀ l ∈ p.1, NeatLine (partWidth sub) l) ∧ p.2 ≠ [] ∧
      (∀ l ∈ p.1 ++ p.2, OneLine l ∧ ¬ Separates b l) ∧
      ∃ main sub', 47 ∉ main ∧ T.ctype (headOf p.1) (sub == txt "digest") = main ++ 47 :: sub' ∧ PrintsAsText main sub')
    (hq : mg = true → ∀ l ∈ pl ++ ps.flatMap (·.2) ++ e :: el, ¬ txt "From " <+: l) :
    P.writeTree T mg (readMail T (partsText hl pl ps b (lf el ++ e))) =
      .ok (forceCrlf (partsText hl pl ps b (lf el ++ e))) := by
  have hid : ∀ l ∈ pl ++ ps.flatMap (·.2) ++ e :: el, quoted mg l = l := by
    intro l hl
    cases mg with
    | false => rfl
    | true => exact if_neg (hq rfl l hl)
  have hmap : ∀ ls : List Txt, (∀ l ∈ ls, l ∈ pl ++ ps.flatMap (·.2) ++ e :: el) → ls.map (quoted mg) = ls := by
    intro ls h
    conv_rhs => rw [← List.map_id ls]
    exact List.map_congr_left (fun l hl => hid l (h l hl))
  have hparts : (ps.map fun p => (p.1, p.2.map (quoted mg))) = ps := by
    conv_rhs => rw [← List.map_id ps]
    refine List.map_congr_left (fun p hp => ?_)
    rw [hmap p.2 (fun l hl => by
      simp only [List.mem_append, List.mem_flatMap]
      exact .inl (.inr ⟨p, hp, hl⟩))]
    rfl
  rw [C125_written P T mg hl pl el ps b e sub hh hc hb hob hne hp he hps, hparts,
    hmap pl (fun l hl => by simp [hl]), hmap el (fun l hl => by simp [hl]), hid e (by simp)]

/-! ### The hypotheses can be met -/

/-- A signed part whose header has a line of more than 78 characters. -/
def signedHead : Txt := txt "Content-Type: multipart/signed; boundary=b"

def longField : Txt := txt "X: " ++ (List.replicate 40 (txt "ab ")).flatten ++ txt "z"

def signedParts : List (List Txt × List Txt) :=
  [([longField], [txt "From now on", txt "--bb"]), ([], [txt "signature"])]

theorem signed_b : headOf [signedHead] = [(txt "Content-Type", .str (txt "multipart/signed; boundary=b"))] := by
  set_option maxRecDepth 8000 in decide

theorem signed_neat : ∀ l ∈ [signedHead], NeatLine 78 l := by
  intro l hl
  rw [List.mem_singleton] at hl
  subst hl
  refine ⟨txt "Content-Type", txt "multipart/signed; boundary=b", ⟨by decide, by decide⟩, by decide,
    by unfold Ascii; decide, by unfold Ends; decide, ?_, by decide⟩
  intro c r h
  cases h
  decide

set_option maxRecDepth 8000 in
theorem long_neat : NeatLine 1000000 longField := by
  refine ⟨txt "X", (List.replicate 40 (txt "ab ")).flatten ++ txt "z", ⟨by decide, by decide⟩, by decide,
    by unfold Ascii; decide, by unfold Ends; decide, ?_, by decide⟩
  intro c r h
  cases h
  decide

set_option maxRecDepth 8000 in
theorem signed_parts : ∀ p ∈ signedParts, (∀ l ∈ p.1, NeatLine (partWidth (txt "signed")) l) ∧ p.2 ≠ [] ∧
    (∀ l ∈ p.1 ++ p.2, OneLine l ∧ ¬ Separates (txt "b") l) ∧
    ∃ main sub', 47 ∉ main ∧ plainTypes.ctype (headOf p.1) (txt "signed" == txt "digest") = main ++ 47 :: sub' ∧
      PrintsAsText main sub' := by
  intro p hp
  have hd : ∀ l ∈ p.1 ++ p.2, sepOf (txt "b") l = none := by revert p; decide
  have ho : ∀ l ∈ p.1 ++ p.2, OneLine l := by revert p; unfold OneLine; decide
  have hn : p.2 ≠ [] := by clear hd ho; revert p; decide
  refine ⟨?_, hn, fun l hl => ⟨ho l hl, unsep_b (hd l hl)⟩, txt "text", txt "plain", by decide, ?_,
    by unfold PrintsAsText; decide⟩
  · intro l hl
    simp only [signedParts, List.mem_cons, List.not_mem_nil, or_false] at hp
    rcases hp with rfl | rfl
    · rw [List.mem_singleton] at hl
      subst hl
      exact long_neat
    · cases hl
  · clear hd ho hn; revert p; decide

/-- The message is written as it was read, if lines are not quoted. -/
example (P : Printer) : P.writeTree plainTypes false (readMail plainTypes
    (partsText [signedHead] [] signedParts (txt "b") [])) =
    .ok (forceCrlf (partsText [signedHead] [] signedParts (txt "b") [])) :=
  C125_same_partial P plainTypes false [signedHead] [] [] signedParts (txt "b") [] (txt "signed") signed_neat
    (by rw [signed_b]; rfl) (by rw [signed_b]; rfl) (by unfold OneLine; decide) (by decide) (by simp)
    (by unfold OneLine; simp) signed_parts (by simp)

/-- By default the first line of the text that was signed is changed. -/
example (P : Printer) : P.writeTree plainTypes true (readMail plainTypes
    (partsText [signedHead] [] signedParts (txt "b") [])) =
    .ok (forceCrlf (partsText [signedHead] []
      [([longField], [txt ">From now on", txt "--bb"]), ([], [txt "signature"])] (txt "b") [])) := by
  have := C125_written P plainTypes true [signedHead] [] [] signedParts (txt "b") [] (txt "signed") signed_neat
    (by rw [signed_b]; rfl) (by rw [signed_b]; rfl) (by unfold OneLine; decide) (by decide) (by simp)
    (by unfold OneLine; simp) signed_parts
  have e : (signedParts.map fun p => (p.1, p.2.map (quoted true))) =
      [([longField], [txt ">From now on", txt "--bb"]), ([], [txt "signature"])] := by decide
  rw [e] at this
  exact this

/-! ### The claim -/

/-- The claim: a multipart/signed message is written with the lines that were read, as its
signature is for the lines of its first part. -/
def C125Claim (mg : Bool) : Prop := ∀ (P : Printer) (t : Txt), Ascii t →
  plainTypes.ctype (readMessage t).headers false = txt "multipart/signed" →
  ∃ s, P.writeTree plainTypes mg (readMail plainTypes t) = .ok s ∧ lines s = lines t

/-- A header without a space after the colon. -/
def tightText : Txt := txt "Content-Type: multipart/signed; boundary=b\n\n--b\nX:y\n\nhi\n--b\n\nsignature\n--b--\n"

def neatParts : List (List Txt × List Txt) := [([txt "X: y"], [txt "hi"]), ([], [txt "signature"])]

set_option maxRecDepth 8000 in
theorem tight_read : readMail plainTypes tightText =
    readMail plainTypes (partsText [signedHead] [] neatParts (txt "b") []) := by
  rfl

set_option maxRecDepth 8000 in
/-- It fails with and without `mangle_from_`: a space is written after the colon of a
header. -/
theorem C125_claim_false (mg : Bool) : ¬ C125Claim mg := by
  intro h
  obtain ⟨s, hs, hl⟩ := h laxPrinter tightText (by unfold Ascii; decide) (by rfl)
  have hw := C125_written laxPrinter plainTypes mg [signedHead] [] [] neatParts (txt "b") [] (txt "signed") signed_neat
    (by rw [signed_b]; rfl) (by rw [signed_b]; rfl) (by unfold OneLine; decide) (by decide) (by simp)
    (by unfold OneLine; simp) (by
      intro p hp
      have hd : ∀ l ∈ p.1 ++ p.2, sepOf (txt "b") l = none := by revert p; decide
      have ho : ∀ l ∈ p.1 ++ p.2, OneLine l := by revert p; unfold OneLine; decide
      have hn : p.2 ≠ [] := by clear hd ho; revert p; decide
      refine ⟨?_, hn, fun l hl => ⟨ho l hl, unsep_b (hd l hl)⟩, txt "text", txt "plain", by decide, ?_,
        by unfold PrintsAsText; decide⟩
      · intro l hl
        simp only [neatParts, List.mem_cons, List.not_mem_nil, or_false] at hp
        rcases hp with rfl | rfl
        · rw [List.mem_singleton] at hl
          subst hl
          refine ⟨txt "X", txt "y", ⟨by decide, by decide⟩, by decide, by unfold Ascii; decide,
            by unfold Ends; decide, ?_, by decide⟩
          intro c r h
          cases h
          decide
        · cases hl
      · clear hd ho hn; revert p; decide)
  have e : lf [] ++ [] = ([] : Txt) := rfl
  rw [e, ← tight_read, hs] at hw
  cases hw
  rw [C43_same_lines] at hl
  revert hl
  cases mg <;> decide

end Sb.Props
