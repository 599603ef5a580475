import Verif.Props.Strippers

/-
C84: what the strippers for URLs, styles, comments and noframes take out of a text,
said without regular expressions.
-/

set_option linter.unusedSectionVars false

namespace Sb.Props
open Py Py.Re Py.Text Sb.Mail Sb.Strip

/-! ### Specification -/

/-- White space: space, \t, \n, \v, \f, \r. -/
def Blank (c : Nat) : Prop := c = 32 ∨ (9 ≤ c ∧ c ≤ 13)

/-- ASCII letters, digits and the underscore. -/
def WordChar (c : Nat) : Prop :=
  (48 ≤ c ∧ c ≤ 57) ∨ (65 ≤ c ∧ c ≤ 90) ∨ c = 95 ∨ (97 ≤ c ∧ c ≤ 122)

/-- `<!--`, or a tag that begins with "comment" after white space. -/
def CommentOpen (w : List Nat) : Prop :=
  w = txt "<!--" ∨ ∃ ws body, (∀ c ∈ ws, Blank c) ∧ 62 ∉ body ∧
    w = txt "<" ++ ws ++ txt "comment" ++ body ++ txt ">"

/-- `-->` or `</comment>`. -/
def CommentClose (w : List Nat) : Prop := w = txt "-->" ∨ w = txt "</comment>"

/-- A tag that begins with the word "style" after white space. -/
def StyleOpen (w : List Nat) : Prop :=
  ∃ ws body, (∀ c ∈ ws, Blank c) ∧ 62 ∉ body ∧ (∀ c, body.head? = some c → ¬ WordChar c) ∧
    w = txt "<" ++ ws ++ txt "style" ++ body ++ txt ">"

/-- `</style>`. -/
def StyleClose (w : List Nat) : Prop := w = txt "</style>"

/-- `<noframes>`, with white space around the word. -/
def NoframesOpen (w : List Nat) : Prop :=
  ∃ ws ws', (∀ c ∈ ws, Blank c) ∧ (∀ c ∈ ws', Blank c) ∧
    w = txt "<" ++ ws ++ txt "noframes" ++ ws' ++ txt ">"

/-- `</noframes>`, with white space after the word. -/
def NoframesClose (w : List Nat) : Prop :=
  ∃ ws, (∀ c ∈ ws, Blank c) ∧ w = txt "</noframes" ++ ws ++ txt ">"

/-- The first word of the kind L in t is w, after pre and before post. -/
def FirstWord (L : List Nat → Prop) (t pre w post : List Nat) : Prop :=
  t = pre ++ w ++ post ∧ L w ∧
    ∀ pre' w' post', t = pre' ++ w' ++ post' → L w' → pre.length ≤ pre'.length

/-- There is no word of the kind L in t. -/
def NoWord (L : List Nat → Prop) (t : List Nat) : Prop :=
  ∀ pre w post, t = pre ++ w ++ post → ¬ L w

/-- t without its sections, which begin with the first opening word and end with the
first closing word after it. -/
inductive Without (Op Cl : List Nat → Prop) : List Nat → List Nat → Prop
  | plain {t : List Nat} : NoWord Op t → Without Op Cl t t
  | unterminated {t pre w post : List Nat} : FirstWord Op t pre w post → NoWord Cl post →
      Without Op Cl t t
  | cut {t pre w post mid v rest out : List Nat} : FirstWord Op t pre w post →
      FirstWord Cl post mid v rest → Without Op Cl rest out → Without Op Cl t (pre ++ out)

/-- A character of a URL: ASCII, not white space, none of < > " ' and not DEL. -/
def UrlChar (c : Nat) : Prop := ¬ Blank c ∧ c ≠ 60 ∧ c ≠ 62 ∧ c ≠ 34 ∧ c ≠ 39 ∧ c < 127

/-- The beginning of a URL: a protocol, "://" and one character more. -/
def UrlStart (w : List Nat) : Prop :=
  ∃ p c, (p = txt "http" ∨ p = txt "https" ∨ p = txt "ftp") ∧ UrlChar c ∧ w = p ++ txt "://" ++ [c]

/-- The pieces of a text between the characters / ; ? : @ & = + , $ and dot. -/
inductive Pieces : List Nat → List (List Nat) → Prop
  | one {w : List Nat} : (∀ c ∈ w, c ∉ txt "/;?:@&=+,$.") → Pieces w [w]
  | more {w rest : List Nat} {c : Nat} {ws : List (List Nat)} : (∀ c ∈ w, c ∉ txt "/;?:@&=+,$.") →
      c ∈ txt "/;?:@&=+,$." → Pieces rest ws → Pieces (w ++ c :: rest) (w :: ws)

/-- t without its URLs, and their tokens: the protocol and each piece of the rest. -/
inductive WithoutUrls : List Nat → List Nat → List Tok → Prop
  | plain {t : List Nat} : NoWord UrlStart t → WithoutUrls t t []
  | cut {t pre p guts post out : List Nat} {ws : List (List Nat)} {toks : List Tok} :
      t = pre ++ (p ++ txt "://" ++ guts) ++ post →
      (p = txt "http" ∨ p = txt "https" ∨ p = txt "ftp") → guts ≠ [] → (∀ c ∈ guts, UrlChar c) →
      (∀ c, post.head? = some c → ¬ UrlChar c) →
      (∀ pre' w' post', t = pre' ++ w' ++ post' → UrlStart w' → pre.length ≤ pre'.length) →
      Pieces guts ws → WithoutUrls post out toks →
      WithoutUrls t (pre ++ out)
        (.bytes (txt "proto:" ++ p) :: ws.map (fun w => .bytes (txt "url:" ++ w)) ++ toks)

/-! ### Character classes -/

theorem isSpace_iff {c : Nat} : isSpace c = true ↔ Blank c := by simp [isSpace, Blank]

theorem isWord_iff {c : Nat} : isWord c = true ↔ WordChar c := by
  simp [isWord, isDigit, WordChar, or_assoc, or_comm, or_left_comm]

theorem isUrlChar_iff {c : Nat} : isUrlChar c = true ↔ UrlChar c := by
  simp [isUrlChar, UrlChar, ← isSpace_iff, and_assoc]

theorem isUrlChar_false {c : Nat} : isUrlChar c = false ↔ ¬ UrlChar c := by
  rw [← isUrlChar_iff]; simp

/-! ### Patterns that are languages -/

/-- The pattern r matches the words of L, of which none begins with another one. -/
structure Lang (r : Re) (L : List Nat → Prop) : Prop where
  iff : ∀ t i j, Matches t r i j ↔ ∃ w, L w ∧ j = i + w.length ∧ ReadsAt t i w
  pre : ∀ w w', L w → L w' → w <+: w' → w = w'
  ne : ∀ w, L w → w ≠ []

theorem readsAt_iff_split {t w : List Nat} {i k : Nat} (hi : i ≤ t.length) :
    (i ≤ k ∧ k ≤ t.length ∧ ReadsAt t k w) ↔
      ∃ pre post, t.drop i = pre ++ w ++ post ∧ k = i + pre.length := by
  constructor
  · rintro ⟨h1, h2, post, h⟩
    refine ⟨(t.drop i).take (k - i), post, ?_, ?_⟩
    · rw [List.append_assoc, ← h]
      have := List.take_append_drop (k - i) (t.drop i)
      rw [List.drop_drop, show i + (k - i) = k by omega] at this
      exact this.symm
    · rw [List.length_take, List.length_drop]; omega
  · rintro ⟨pre, post, h, rfl⟩
    have hl := congrArg List.length h
    simp only [List.length_append, List.length_drop] at hl
    refine ⟨by omega, by omega, post, ?_⟩
    rw [← List.drop_drop, h, List.append_assoc, List.drop_left]

theorem lang_search_none {r : Re} {L : List Nat → Prop} (hL : Lang r L) {t : List Nat} {i : Nat}
    (hi : i ≤ t.length) (h : search r t i = none) : NoWord L (t.drop i) := by
  intro pre w post he hw
  obtain ⟨h1, h2, h3⟩ := (readsAt_iff_split hi).2 ⟨pre, post, he, rfl⟩
  exact search_none.1 h _ h1 h2 _ ((hL.iff _ _ _).2 ⟨w, hw, rfl, h3⟩)

theorem lang_search_some {r : Re} {L : List Nat → Prop} (hL : Lang r L) {t : List Nat} {i : Nat}
    {m : Match} (hi : i ≤ t.length) (h : search r t i = some m) :
    ∃ pre w, FirstWord L (t.drop i) pre w (t.drop m.stop) ∧ m.start = i + pre.length ∧
      m.stop = m.start + w.length ∧ m.stop ≤ t.length := by
  obtain ⟨h1, h2, h3, h4⟩ := search_some h
  obtain ⟨w, hw, hj, hr⟩ := (hL.iff _ _ _).1 h3
  have hle := h3.le
  obtain ⟨pre, post, he, hk⟩ := (readsAt_iff_split hi).1 ⟨h1, by omega, hr⟩
  have hpost : t.drop m.stop = post := by
    rw [hj, hk, Nat.add_assoc, ← List.drop_drop, he, List.drop_left' (by simp)]
  refine ⟨pre, w, ⟨by rw [hpost]; exact he, hw, ?_⟩, hk, hj, h2⟩
  intro pre' w' post' he' hw'
  obtain ⟨g1, g2, g3⟩ := (readsAt_iff_split hi).2 ⟨pre', post', he', rfl⟩
  rcases Nat.lt_or_ge (i + pre'.length) m.start with hlt | hge
  · exact absurd ((hL.iff _ _ _).2 ⟨w', hw', rfl, g3⟩) (h4 _ g1 hlt _)
  · omega

/-- What `analyze` returns, for a stripper made of two such patterns that yields no
tokens. -/
theorem analyzeFrom_without {a b : Re} {Op Cl : List Nat → Prop} (ha : Lang a Op) (hb : Lang b Cl)
    {t : List Nat} {n : Nat} : ∀ {i : Nat} {kept : List Nat} {toks : List Tok}
      {r : Except Err (List Nat × List Tok)}, i ≤ t.length →
      analyzeFrom (ofRe a b noTokens) t n i kept toks = some r →
      ∃ out, r = .ok (kept ++ out, toks) ∧ Without Op Cl (t.drop i) out := by
  induction n with
  | zero => intro i kept toks r _ h; simp [analyzeFrom] at h
  | succ n ih =>
    intro i kept toks r hi h
    simp only [analyzeFrom, ofRe, noTokens] at h
    cases hs : search a t i with
    | none =>
      rw [hs] at h
      simp only [Option.some.injEq] at h
      exact ⟨t.drop i, h.symm, .plain (lang_search_none ha hi hs)⟩
    | some m =>
      rw [hs] at h
      simp only at h
      obtain ⟨pre, w, hf, h1, h2, h3⟩ := lang_search_some ha hi hs
      have hsl : slice t i m.start = pre := by
        unfold slice
        rw [hf.1, List.append_assoc, List.take_left' (by omega)]
      cases he : search b t m.stop with
      | none =>
        rw [he] at h
        simp only [Option.some.injEq, List.append_nil] at h
        refine ⟨t.drop i, ?_, .unterminated hf (lang_search_none hb h3 he)⟩
        rw [← h, List.append_assoc, slice_append_drop (by omega)]
      | some m' =>
        rw [he] at h
        simp only [List.append_nil] at h
        obtain ⟨mid, v, hg, _, _, g3⟩ := lang_search_some hb h3 he
        obtain ⟨out, ho, hw⟩ := ih g3 h
        refine ⟨pre ++ out, ?_, .cut hf hg hw⟩
        rw [ho, hsl, List.append_assoc]

theorem firstWord_unique {r : Re} {L : List Nat → Prop} (hL : Lang r L)
    {t pre w post pre' w' post' : List Nat} (h : FirstWord L t pre w post)
    (h' : FirstWord L t pre' w' post') : pre = pre' ∧ w = w' ∧ post = post' := by
  have hlen : pre.length = pre'.length :=
    Nat.le_antisymm (h.2.2 _ _ _ h'.1 h'.2.1) (h'.2.2 _ _ _ h.1 h.2.1)
  have he : pre ++ (w ++ post) = pre' ++ (w' ++ post') := by
    rw [← List.append_assoc, ← List.append_assoc, ← h.1, ← h'.1]
  obtain ⟨h1, h2⟩ := List.append_inj he hlen
  have hw : w = w' := by
    rcases List.append_eq_append_iff.1 h2 with ⟨x, hx, _⟩ | ⟨x, hx, _⟩
    · exact hL.pre _ _ h.2.1 h'.2.1 ⟨x, hx.symm⟩
    · exact (hL.pre _ _ h'.2.1 h.2.1 ⟨x, hx.symm⟩).symm
  subst hw
  exact ⟨h1, rfl, List.append_cancel_left h2⟩

theorem without_unique {a b : Re} {Op Cl : List Nat → Prop} (ha : Lang a Op) (hb : Lang b Cl)
    {t out out' : List Nat} (h : Without Op Cl t out) (h' : Without Op Cl t out') : out = out' := by
  induction h generalizing out' with
  | plain hn =>
    cases h' with
    | plain _ => rfl
    | unterminated _ _ => rfl
    | cut hf _ _ => exact absurd hf.2.1 (hn _ _ _ hf.1)
  | unterminated hf hn =>
    cases h' with
    | plain _ => rfl
    | unterminated _ _ => rfl
    | cut hf' hg _ =>
      obtain ⟨_, _, rfl⟩ := firstWord_unique ha hf hf'
      exact absurd hg.2.1 (hn _ _ _ hg.1)
  | cut hf hg _ ih =>
    cases h' with
    | plain hn => exact absurd hf.2.1 (hn _ _ _ hf.1)
    | unterminated hf' hn =>
      obtain ⟨_, _, rfl⟩ := firstWord_unique ha hf hf'
      exact absurd hg.2.1 (hn _ _ _ hg.1)
    | cut hf' hg' h2 =>
      obtain ⟨rfl, _, rfl⟩ := firstWord_unique ha hf hf'
      obtain ⟨_, _, rfl⟩ := firstWord_unique hb hg hg'
      rw [ih h2]

theorem analyze_without {a b : Re} {Op Cl : List Nat → Prop} (ha : Lang a Op) (hb : Lang b Cl)
    (hm : 0 < minLen a) (t out : List Nat) (toks : List Tok) :
    analyze (ofRe a b noTokens) t = some (.ok (out, toks)) ↔ toks = [] ∧ Without Op Cl t out := by
  obtain ⟨r, hr, _⟩ := C53_terminates (ofRe a b noTokens) (contract_ofRe _ hm) t
  obtain ⟨o, ho, hw⟩ := analyzeFrom_without ha hb (Nat.zero_le _) hr
  simp only [List.nil_append, List.drop_zero] at ho hw
  rw [hr, ho]
  simp only [Option.some.injEq, Except.ok.injEq, Prod.mk.injEq]
  constructor
  · rintro ⟨rfl, rfl⟩; exact ⟨rfl, hw⟩
  · rintro ⟨rfl, h⟩; exact ⟨without_unique ha hb hw h, rfl⟩

/-! ### The patterns of the module -/

theorem gt_prefix {u u' : List Nat} (hu : 62 ∉ u) (hu' : 62 ∉ u')
    (h : u ++ txt ">" <+: u' ++ txt ">") : u = u' := by
  induction u generalizing u' with
  | nil =>
    cases u' with
    | nil => rfl
    | cons c u' =>
      obtain ⟨z, h⟩ := h
      simp only [txt] at h
      simp at h
      exact absurd h.1 (fun e => hu' (by simp [e]))
  | cons c u ih =>
    cases u' with
    | nil =>
      obtain ⟨z, h⟩ := h
      simp [txt] at h
    | cons c' u' =>
      rw [List.cons_append, List.cons_append, List.cons_prefix_cons] at h
      rw [h.1, ih (fun hm => hu (by simp [hm])) (fun hm => hu' (by simp [hm])) h.2]

theorem blank_gt {ws : List Nat} (h : ∀ c ∈ ws, Blank c) : 62 ∉ ws := by
  intro hm
  have := h 62 hm
  simp [Blank] at this

theorem lang_tag {r : Re} {L : List Nat → Prop}
    (hi : ∀ t i j, Matches t r i j ↔ ∃ w, L w ∧ j = i + w.length ∧ ReadsAt t i w)
    (h : ∀ w, L w → ∃ u, 62 ∉ u ∧ w = u ++ txt ">") : Lang r L where
  iff := hi
  pre w w' hw hw' hp := by
    obtain ⟨u, hu, rfl⟩ := h w hw
    obtain ⟨u', hu', rfl⟩ := h w' hw'
    rw [gt_prefix hu hu' hp]
  ne w hw := by
    obtain ⟨u, _, rfl⟩ := h w hw
    simp [txt]

theorem lang_styleEnd : Lang styleEndRe StyleClose := by
  refine lang_tag ?_ ?_
  · intro t i j
    unfold styleEndRe StyleClose
    rw [matches_lit]
    simp
  · rintro w rfl
    exact ⟨txt "</style", by decide, rfl⟩

theorem lang_commentEnd : Lang commentEndRe CommentClose := by
  refine lang_tag ?_ ?_
  · intro t i j
    unfold commentEndRe CommentClose
    rw [matches_alt, matches_lit, matches_lit]
    constructor
    · rintro (h | h)
      · exact ⟨_, .inl rfl, h⟩
      · exact ⟨_, .inr rfl, h⟩
    · rintro ⟨w, rfl | rfl, h⟩
      · exact .inl h
      · exact .inr h
  · rintro w (rfl | rfl)
    · exact ⟨txt "--", by decide, rfl⟩
    · exact ⟨txt "</comment", by decide, rfl⟩

theorem lang_noframesEnd : Lang noframesEndRe NoframesClose := by
  refine lang_tag ?_ ?_
  · intro t i j
    simp only [noframesEndRe, NoframesClose, Re.cat, matches_seq, matches_lit, matches_star_chr]
    constructor
    · rintro ⟨k, ⟨rfl, h1⟩, l, ⟨ws, rfl, hw, h2⟩, rfl, h3⟩
      refine ⟨_, ⟨ws, fun c hc => isSpace_iff.1 (hw c hc), rfl⟩, ?_, ?_⟩
      · simp [txt]; omega
      · rw [readsAt_append, readsAt_append, List.length_append, ← Nat.add_assoc]
        exact ⟨⟨h1, h2⟩, h3⟩
    · rintro ⟨w, ⟨ws, hw, rfl⟩, hj, h⟩
      rw [readsAt_append, readsAt_append, List.length_append, ← Nat.add_assoc] at h
      refine ⟨_, ⟨rfl, h.1.1⟩, _, ⟨ws, rfl, fun c hc => isSpace_iff.2 (hw c hc), h.1.2⟩, ?_, h.2⟩
      rw [hj]; simp [txt]; omega
  · rintro w ⟨ws, hw, rfl⟩
    refine ⟨txt "</noframes" ++ ws, ?_, rfl⟩
    rw [List.mem_append]
    rintro (h | h)
    · revert h; decide
    · exact blank_gt hw h

theorem lang_noframesStart : Lang noframesStartRe NoframesOpen := by
  refine lang_tag ?_ ?_
  · intro t i j
    simp only [noframesStartRe, NoframesOpen, Re.cat, matches_seq, matches_lit, matches_star_chr]
    constructor
    · rintro ⟨k, ⟨rfl, h1⟩, l, ⟨ws, rfl, hw, h2⟩, n, ⟨rfl, h3⟩, p, ⟨ws', rfl, hw', h4⟩, rfl, h5⟩
      refine ⟨_, ⟨ws, ws', fun c hc => isSpace_iff.1 (hw c hc), fun c hc => isSpace_iff.1 (hw' c hc),
        rfl⟩, ?_, ?_⟩
      · simp [txt]; omega
      · simp only [readsAt_append, List.length_append, ← Nat.add_assoc]
        exact ⟨⟨⟨⟨h1, h2⟩, h3⟩, h4⟩, h5⟩
    · rintro ⟨w, ⟨ws, ws', hw, hw', rfl⟩, hj, h⟩
      simp only [readsAt_append, List.length_append, ← Nat.add_assoc] at h
      obtain ⟨⟨⟨⟨h1, h2⟩, h3⟩, h4⟩, h5⟩ := h
      refine ⟨_, ⟨rfl, h1⟩, _, ⟨ws, rfl, fun c hc => isSpace_iff.2 (hw c hc), h2⟩, _, ⟨rfl, h3⟩, _,
        ⟨ws', rfl, fun c hc => isSpace_iff.2 (hw' c hc), h4⟩, ?_, h5⟩
      rw [hj]; simp [txt]; omega
  · rintro w ⟨ws, ws', hw, hw', rfl⟩
    refine ⟨txt "<" ++ ws ++ txt "noframes" ++ ws', ?_, rfl⟩
    simp only [List.mem_append]
    rintro (((h | h) | h) | h)
    · revert h; decide
    · exact blank_gt hw h
    · revert h; decide
    · exact blank_gt hw' h

theorem not_gt {s : List Nat} : (∀ c ∈ s, (c != 62) = true) ↔ 62 ∉ s := by
  constructor
  · intro h hm; have := h 62 hm; simp at this
  · intro h c hc; simp only [bne_iff_ne]; rintro rfl; exact h hc

theorem boundary_after {t : List Nat} {k : Nat} {c : Nat} (h0 : t[k]? = some 101)
    (h1 : t[k + 1]? = some c) :
    (wordBefore t (k + 1) != wordAt t (k + 1)) = true ↔ ¬ WordChar c := by
  have e1 : wordBefore t (k + 1) = true := by
    simp only [wordBefore, Nat.add_sub_cancel, wordAt, h0]
    simp [isWord]
  have e2 : wordAt t (k + 1) = isWord c := by simp only [wordAt, h1]
  rw [e1, e2, ← isWord_iff]
  cases isWord c <;> simp

theorem lang_styleStart : Lang styleStartRe StyleOpen := by
  refine lang_tag ?_ ?_
  · intro t i j
    simp only [styleStartRe, boundary, StyleOpen, Re.cat, matches_seq, matches_lit, matches_star_chr,
      matches_test]
    have nextIs : ∀ (k : Nat) (body : List Nat), ReadsAt t k (txt "style") →
        ReadsAt t (k + (txt "style").length) body →
        ReadsAt t (k + (txt "style").length + body.length) [62] →
        ((wordBefore t (k + (txt "style").length) != wordAt t (k + (txt "style").length)) = true ↔
          ∀ c, body.head? = some c → ¬ WordChar c) := by
      intro k body h1 h2 h3
      have he : t[k + 4]? = some 101 := by
        rw [show txt "style" = txt "styl" ++ [101] from rfl, readsAt_append] at h1
        exact (readsAt_cons.1 h1.2).1
      rw [show k + (txt "style").length = k + 4 + 1 from rfl] at h2 h3 ⊢
      cases body with
      | nil =>
        rw [boundary_after he (readsAt_cons.1 h3).1]
        simp [WordChar]
      | cons c body =>
        rw [boundary_after he (readsAt_cons.1 h2).1]
        simp
    constructor
    · rintro ⟨k, ⟨rfl, h1⟩, l, ⟨ws, rfl, hw, h2⟩, n, ⟨rfl, h3⟩, p, ⟨rfl, hb⟩, q, ⟨body, rfl, hbody, h4⟩,
        rfl, h5⟩
      refine ⟨_, ⟨ws, body, fun c hc => isSpace_iff.1 (hw c hc), not_gt.1 hbody,
        (nextIs _ body h3 h4 h5).1 hb, rfl⟩, ?_, ?_⟩
      · simp [txt]; omega
      · simp only [readsAt_append, List.length_append, ← Nat.add_assoc]
        exact ⟨⟨⟨⟨h1, h2⟩, h3⟩, h4⟩, h5⟩
    · rintro ⟨w, ⟨ws, body, hw, hbody, hb, rfl⟩, hj, h⟩
      simp only [readsAt_append, List.length_append, ← Nat.add_assoc] at h
      obtain ⟨⟨⟨⟨h1, h2⟩, h3⟩, h4⟩, h5⟩ := h
      refine ⟨_, ⟨rfl, h1⟩, _, ⟨ws, rfl, fun c hc => isSpace_iff.2 (hw c hc), h2⟩, _, ⟨rfl, h3⟩, _,
        ⟨rfl, (nextIs _ body h3 h4 h5).2 hb⟩, _, ⟨body, rfl, not_gt.2 hbody, h4⟩, ?_, h5⟩
      rw [hj]; simp [txt]; omega
  · rintro w ⟨ws, body, hw, hbody, -, rfl⟩
    refine ⟨txt "<" ++ ws ++ txt "style" ++ body, ?_, rfl⟩
    simp only [List.mem_append]
    rintro (((h | h) | h) | h)
    · revert h; decide
    · exact blank_gt hw h
    · revert h; decide
    · exact hbody h

theorem commentTag_iff (t : List Nat) (i j : Nat) :
    Matches t (.cat [.lit [60], .star (.chr isSpace), .lit (txt "comment"), .star (.chr isSpace),
      .star (.chr (· != 62)), .lit [62]]) i j ↔
    ∃ w, (∃ ws body, (∀ c ∈ ws, Blank c) ∧ 62 ∉ body ∧
      w = txt "<" ++ ws ++ txt "comment" ++ body ++ txt ">") ∧ j = i + w.length ∧ ReadsAt t i w := by
  simp only [Re.cat, matches_seq, matches_lit, matches_star_chr]
  constructor
  · rintro ⟨k, ⟨rfl, h1⟩, l, ⟨ws, rfl, hw, h2⟩, n, ⟨rfl, h3⟩, p, ⟨ws', rfl, hw', h4⟩, q,
      ⟨body, rfl, hbody, h5⟩, rfl, h6⟩
    refine ⟨_, ⟨ws, ws' ++ body, fun c hc => isSpace_iff.1 (hw c hc), ?_, rfl⟩, ?_, ?_⟩
    · rw [List.mem_append]
      rintro (h | h)
      · exact blank_gt (fun c hc => isSpace_iff.1 (hw' c hc)) h
      · exact not_gt.1 hbody h
    · simp [txt]; omega
    · simp only [readsAt_append, List.length_append, ← Nat.add_assoc]
      exact ⟨⟨⟨⟨h1, h2⟩, h3⟩, h4, h5⟩, h6⟩
  · rintro ⟨w, ⟨ws, body, hw, hbody, rfl⟩, hj, h⟩
    simp only [readsAt_append, List.length_append, ← Nat.add_assoc] at h
    obtain ⟨⟨⟨⟨h1, h2⟩, h3⟩, h4⟩, h5⟩ := h
    refine ⟨_, ⟨rfl, h1⟩, _, ⟨ws, rfl, fun c hc => isSpace_iff.2 (hw c hc), h2⟩, _, ⟨rfl, h3⟩, _,
      ⟨[], rfl, by simp, readsAt_nil _ _⟩, _, ⟨body, rfl, not_gt.2 hbody, h4⟩, ?_, h5⟩
    rw [hj]; simp [txt]; omega

theorem lang_commentStart : Lang commentStartRe CommentOpen := by
  have tagEnd : ∀ ws body : List Nat, (∀ c ∈ ws, Blank c) → 62 ∉ body →
      62 ∉ txt "<" ++ ws ++ txt "comment" ++ body := by
    intro ws body hw hbody
    simp only [List.mem_append]
    rintro (((h | h) | h) | h)
    · revert h; decide
    · exact blank_gt hw h
    · revert h; decide
    · exact hbody h
  have second : ∀ ws body : List Nat, (∀ c ∈ ws, Blank c) → ∀ z,
      txt "<" ++ ws ++ txt "comment" ++ body ++ txt ">" ≠ txt "<!--" ++ z := by
    intro ws body hw z h
    cases ws with
    | nil => simp [txt] at h
    | cons c ws =>
      simp [txt] at h
      have := hw c (by simp)
      rw [h.1] at this
      simp [Blank] at this
  refine ⟨?_, ?_, ?_⟩
  · intro t i j
    unfold commentStartRe CommentOpen
    rw [matches_alt, matches_lit, commentTag_iff]
    constructor
    · rintro (h | ⟨w, h⟩)
      · exact ⟨_, .inl rfl, h⟩
      · exact ⟨w, .inr h.1, h.2⟩
    · rintro ⟨w, rfl | h, h'⟩
      · exact .inl h'
      · exact .inr ⟨w, h, h'⟩
  · rintro w w' (rfl | ⟨ws, body, hw, hb, rfl⟩) (rfl | ⟨ws', body', hw', hb', rfl⟩) hp
    · rfl
    · obtain ⟨z, hz⟩ := hp
      exact absurd hz.symm (second _ _ hw' _)
    · obtain ⟨z, hz⟩ := hp
      have hm : 62 ∈ txt "<!--" := by
        rw [← hz]
        simp [txt]
      exact absurd hm (by decide)
    · rw [gt_prefix (tagEnd _ _ hw hb) (tagEnd _ _ hw' hb') hp]
  · rintro w (rfl | ⟨ws, body, hw, hb, rfl⟩) <;> simp [txt]

/-- **C84.** What is left of a text by the strippers for comments, styles and
noframes: the text without its sections.  They yield no tokens. -/
theorem C84_sections (t out : List Nat) (toks : List Tok) :
    (analyze comment t = some (.ok (out, toks)) ↔
      toks = [] ∧ Without CommentOpen CommentClose t out) ∧
    (analyze style t = some (.ok (out, toks)) ↔ toks = [] ∧ Without StyleOpen StyleClose t out) ∧
    (analyze noframes t = some (.ok (out, toks)) ↔
      toks = [] ∧ Without NoframesOpen NoframesClose t out) :=
  ⟨analyze_without lang_commentStart lang_commentEnd (by decide) t out toks,
   analyze_without lang_styleStart lang_styleEnd (by decide) t out toks,
   analyze_without lang_noframesStart lang_noframesEnd (by decide) t out toks⟩

/-! ### URLs -/

theorem urlStart_iff {w : List Nat} : UrlStart w ↔ UrlText w := by
  unfold UrlStart UrlText
  simp only [isUrlChar_iff]

theorem pieces_splitBy (g : List Nat) : Pieces g (splitBy isSep g) := by
  have hsep : ∀ c, isSep c = true ↔ c ∈ txt "/;?:@&=+,$." := by
    intro c
    simp [isSep, isUrlSep, txt]
  have hno : ∀ w : List Nat, (∀ c ∈ w, isSep c = false) → ∀ c ∈ w, c ∉ txt "/;?:@&=+,$." := by
    intro w h c hc hm
    have := h c hc
    rw [(hsep c).2 hm] at this
    cases this
  induction g with
  | nil => exact .one (by simp)
  | cons x g ih =>
    cases hx : isSep x with
    | true =>
      have e : splitBy isSep (x :: g) = [] :: splitBy isSep g := by simp [splitBy, hx]
      rw [e]
      exact .more (w := []) (by simp) ((hsep x).1 hx) ih
    | false =>
      obtain ⟨w, ws, h1, h2⟩ := splitBy_cons_of_not (t := g) hx
      rw [h2]
      rw [h1] at ih
      have hxn : x ∉ txt "/;?:@&=+,$." := fun h => by rw [(hsep x).2 h] at hx; cases hx
      cases ih with
      | one h =>
        refine .one fun c hc => ?_
        rcases List.mem_cons.1 hc with rfl | hc
        · exact hxn
        · exact h c hc
      | more h hc hr =>
        refine .more (w := x :: w) (fun c hc' => ?_) hc hr
        rcases List.mem_cons.1 hc' with rfl | hc'
        · exact hxn
        · exact h c hc'

theorem noWord_url {t : List Nat} {i : Nat} (hi : i ≤ t.length) (h : search urlRe t i = none) :
    NoWord UrlStart (t.drop i) := by
  intro pre w post he hw
  obtain ⟨h1, h2, h3⟩ := (readsAt_iff_split hi).2 ⟨pre, post, he, rfl⟩
  exact search_none.1 h _ h1 h2 _ (matches_of_urlText (urlStart_iff.1 hw) h3)

theorem analyzeFrom_urls {t : List Nat} {n : Nat} : ∀ {i : Nat} {kept : List Nat} {toks : List Tok}
      {r : Except Err (List Nat × List Tok)}, i ≤ t.length →
      analyzeFrom urls t n i kept toks = some r →
      ∃ out new, r = .ok (kept ++ out, toks ++ new) ∧ WithoutUrls (t.drop i) out new := by
  induction n with
  | zero => intro i kept toks r _ h; simp [analyzeFrom] at h
  | succ n ih =>
    intro i kept toks r hi h
    simp only [analyzeFrom, urls_findStart, urls_findEnd] at h
    cases hs : search urlRe t i with
    | none =>
      rw [hs] at h
      simp only [Option.some.injEq] at h
      exact ⟨t.drop i, [], by rw [← h, List.append_nil], .plain (noWord_url hi hs)⟩
    | some m =>
      rw [hs] at h
      simp only at h
      obtain ⟨h1, h2, h3, h4⟩ := search_some hs
      obtain ⟨p, g, hu, htok⟩ := C74_tokens t i m hs
      rw [htok, search_eps h2] at h
      simp only at h
      obtain ⟨out, new, ho, hw⟩ := ih h2 h
      have hle := h3.le
      obtain ⟨pre, post, he, hk⟩ := (readsAt_iff_split hi).1 ⟨h1, by omega, hu.reads⟩
      have hpost : t.drop m.stop = post := by
        rw [hu.stop, hk, Nat.add_assoc, ← List.drop_drop, he, List.drop_left' (by simp)]
      have hsl : slice t i m.start = pre := by
        unfold slice
        rw [he, List.append_assoc, List.take_left' (by omega)]
      refine ⟨pre ++ out, _, ?_, .cut (p := p) (guts := g) (post := t.drop m.stop) (by rw [hpost]; exact he)
        hu.protocol hu.nonempty (fun c hc => isUrlChar_iff.1 (hu.chars c hc)) ?_ ?_ (pieces_splitBy g) hw⟩
      · rw [ho, hsl]
        simp [urlTokens, List.append_assoc]
      · intro c hc
        rw [List.head?_drop] at hc
        exact isUrlChar_false.1 (hu.maximal c hc)
      · intro pre' w' post' he' hw'
        obtain ⟨g1, g2, g3⟩ := (readsAt_iff_split hi).2 ⟨pre', post', he', rfl⟩
        rcases Nat.lt_or_ge (i + pre'.length) m.start with hlt | hge
        · exact absurd (matches_of_urlText (urlStart_iff.1 hw') g3) (h4 _ g1 hlt _)
        · omega

theorem pieces_unique {g : List Nat} {ws ws' : List (List Nat)} (h : Pieces g ws) (h' : Pieces g ws') :
    ws = ws' := by
  induction h generalizing ws' with
  | one hn =>
    cases h' with
    | one _ => rfl
    | more _ hc _ => exact absurd hc (hn _ (by simp))
  | @more w rest c ws hn hc _ ih =>
    generalize hg : w ++ c :: rest = g at h'
    cases h' with
    | one hn' => exact absurd hc (hn' c (by rw [← hg]; simp))
    | @more w' rest' c' ws'' hn' hc' hr' =>
      rcases List.append_eq_append_iff.1 hg with ⟨x, hx, hy⟩ | ⟨x, hx, hy⟩
      · cases x with
        | nil =>
          simp only [List.nil_append, List.cons.injEq] at hy
          obtain ⟨rfl, rfl⟩ := hy
          rw [ih hr', hx, List.append_nil]
        | cons d x =>
          rw [List.cons_append, List.cons.injEq] at hy
          exact absurd hc (hn' c (by rw [hx, hy.1]; simp))
      · cases x with
        | nil =>
          simp only [List.nil_append, List.cons.injEq] at hy
          obtain ⟨rfl, rfl⟩ := hy
          rw [ih hr', hx, List.append_nil]
        | cons d x =>
          rw [List.cons_append, List.cons.injEq] at hy
          exact absurd hc' (hn c' (by rw [hx, hy.1]; simp))

theorem maximal_unique {P : Nat → Prop} {a b u v : List Nat} (he : a ++ u = b ++ v)
    (ha : ∀ c ∈ a, P c) (hb : ∀ c ∈ b, P c) (hu : ∀ c, u.head? = some c → ¬ P c)
    (hv : ∀ c, v.head? = some c → ¬ P c) : a = b ∧ u = v := by
  induction a generalizing b with
  | nil =>
    cases b with
    | nil => exact ⟨rfl, he⟩
    | cons c b =>
      have e : u = c :: (b ++ v) := he
      exact absurd (hb c (by simp)) (hu c (by rw [e]; rfl))
  | cons c a ih =>
    cases b with
    | nil =>
      have e : v = c :: (a ++ u) := he.symm
      exact absurd (ha c (by simp)) (hv c (by rw [e]; rfl))
    | cons d b =>
      rw [List.cons_append, List.cons_append, List.cons.injEq] at he
      obtain ⟨h1, h2⟩ := ih he.2 (fun c hc => ha c (by simp [hc])) (fun c hc => hb c (by simp [hc]))
      exact ⟨by rw [he.1, h1], h2⟩

theorem protocol_unique {p q x y : List Nat} (hp : p = txt "http" ∨ p = txt "https" ∨ p = txt "ftp")
    (hq : q = txt "http" ∨ q = txt "https" ∨ q = txt "ftp")
    (h : p ++ txt "://" ++ x = q ++ txt "://" ++ y) : p = q ∧ x = y := by
  rcases hp with rfl | rfl | rfl <;> rcases hq with rfl | rfl | rfl <;> simp [txt] at h ⊢ <;> exact h

theorem withoutUrls_unique {t out out' : List Nat} {toks toks' : List Tok}
    (h : WithoutUrls t out toks) (h' : WithoutUrls t out' toks') : out = out' ∧ toks = toks' := by
  have start : ∀ {t pre p guts post : List Nat}, t = pre ++ (p ++ txt "://" ++ guts) ++ post →
      (p = txt "http" ∨ p = txt "https" ∨ p = txt "ftp") → guts ≠ [] → (∀ c ∈ guts, UrlChar c) →
      ∃ w rest, t = pre ++ w ++ rest ∧ UrlStart w := by
    intro t pre p guts post he hp hne hg
    obtain ⟨c, g, rfl⟩ := List.exists_cons_of_ne_nil hne
    exact ⟨p ++ txt "://" ++ [c], g ++ post, by rw [he]; simp, p, c, hp, hg c (by simp), rfl⟩
  induction h generalizing out' toks' with
  | plain hn =>
    cases h' with
    | plain _ => exact ⟨rfl, rfl⟩
    | cut he hp hne hg _ _ _ _ =>
      obtain ⟨w, rest, hw, hs⟩ := start he hp hne hg
      exact absurd hs (hn _ _ _ hw)
  | cut he hp hne hg hmax hfirst hpc _ ih =>
    cases h' with
    | plain hn =>
      obtain ⟨w, rest, hw, hs⟩ := start he hp hne hg
      exact absurd hs (hn _ _ _ hw)
    | cut he' hp' hne' hg' hmax' hfirst' hpc' hr' =>
      obtain ⟨w, rest, hw, hs⟩ := start he hp hne hg
      obtain ⟨w', rest', hw', hs'⟩ := start he' hp' hne' hg'
      have hlen := Nat.le_antisymm (hfirst _ _ _ hw' hs') (hfirst' _ _ _ hw hs)
      obtain ⟨rfl, h2⟩ := List.append_inj (t₁ := _ ++ _) (t₂ := _ ++ _)
        ((List.append_assoc _ _ _).symm.trans ((he.symm.trans he').trans (List.append_assoc _ _ _))) hlen
      obtain ⟨rfl, h3⟩ := protocol_unique hp hp' (by simpa using h2)
      obtain ⟨rfl, rfl⟩ := maximal_unique h3 hg hg' hmax hmax'
      obtain ⟨rfl, rfl⟩ := ih hr'
      rw [pieces_unique hpc hpc']
      exact ⟨rfl, rfl⟩

/-- **C84.** What is left of a text by the stripper for URLs, and its tokens. -/
theorem C84_urls (t out : List Nat) (toks : List Tok) :
    analyze urls t = some (.ok (out, toks)) ↔ WithoutUrls t out toks := by
  obtain ⟨r, hr, _⟩ := C53_terminates urls contract_urls t
  obtain ⟨out', new, ho, hw⟩ := analyzeFrom_urls (Nat.zero_le _) hr
  simp only [List.nil_append, List.drop_zero] at ho hw
  rw [hr, ho]
  simp only [Option.some.injEq, Except.ok.injEq, Prod.mk.injEq]
  constructor
  · rintro ⟨rfl, rfl⟩; exact hw
  · intro h; exact withoutUrls_unique hw h

/-- **C84.** Every text has exactly one such result. -/
theorem C84_total (t : List Nat) :
    (∃ out, Without CommentOpen CommentClose t out) ∧ (∃ out, Without StyleOpen StyleClose t out) ∧
    (∃ out, Without NoframesOpen NoframesClose t out) ∧ ∃ out toks, WithoutUrls t out toks := by
  have h := (strippers_fine t).1
  refine ⟨?_, ?_, ?_, ?_⟩
  · obtain ⟨out, toks, _, ha, _⟩ := h comment (by simp)
    exact ⟨out, ((C84_sections t out toks).1.1 ha).2⟩
  · obtain ⟨out, toks, _, ha, _⟩ := h style (by simp)
    exact ⟨out, ((C84_sections t out toks).2.1.1 ha).2⟩
  · obtain ⟨out, toks, _, ha, _⟩ := h noframes (by simp)
    exact ⟨out, ((C84_sections t out toks).2.2.1 ha).2⟩
  · obtain ⟨out, toks, _, ha, _⟩ := h urls (by simp)
    exact ⟨out, toks, (C84_urls t out toks).1 ha⟩

/-- A comment in a word. -/
example : Without CommentOpen CommentClose (txt "FR<!--x-->EE!") (txt "FREE!") :=
  ((C84_sections _ _ []).1.1 (by decide)).2
/-- "styled" is not "style". -/
example : Without StyleOpen StyleClose (txt "a<styled>b</style>c") (txt "a<styled>b</style>c") :=
  ((C84_sections _ _ []).2.1.1 (by decide)).2
/-- A URL ends at a quote. -/
example : WithoutUrls (txt "see 'http://a.b/c' now") (txt "see '' now")
    [.bytes (txt "proto:http"), .bytes (txt "url:a"), .bytes (txt "url:b"), .bytes (txt "url:c")] :=
  (C84_urls _ _ _).1 (by decide)

/-- **C73 holds for URLs.** No URL is left, and stripping again changes nothing and
produces no token. -/
theorem C73_urls_partial (t out : List Nat) (toks : List Tok)
    (h : analyze urls t = some (.ok (out, toks))) :
    NoWord UrlStart out ∧ analyze urls out = some (.ok (out, [])) := by
  obtain ⟨h1, h2⟩ := urls_gone t out toks h
  refine ⟨?_, h2⟩
  rintro pre w post rfl ⟨p, c, hp, hc, rfl⟩
  refine h1 ⟨pre.length, _, ?_, matches_of_urlText ⟨p, c, hp, isUrlChar_iff.2 hc, rfl⟩ ⟨post, ?_⟩⟩
  · simp
  · simp

/-- Taking one URL out does not leave another one behind. -/
example : analyze urls (txt "hthttp://a ttp://b") = some (.ok (txt "ht ttp://b",
    [.bytes (txt "proto:http"), .bytes (txt "url:a")])) := by decide

end Sb.Props
