import Verif.Model.Strippers
import Mathlib.Data.List.Basic

/-
C53: strippers lose nothing but the marked sections.
C73: what is left after stripping has no section any more (refuted).
C74: trailing punctuation of a URL leaves no trace in its tokens (refuted).
-/

set_option linter.unusedSectionVars false

namespace Sb.Props
open Py Py.Re Py.Text Sb.Mail Sb.Strip

/-! ### Specification -/

/-- What the matchers of a stripper promise, after the comment in strippers.py
l.159-168: a match lies in the text, at or after the position asked for; a start match
is not empty. -/
structure Contract (S : Stripper) : Prop where
  start_ge : ∀ t i m, S.findStart t i = some m → i ≤ m.start
  start_pos : ∀ t i m, S.findStart t i = some m → m.start < m.stop
  start_le : ∀ t i m, S.findStart t i = some m → m.stop ≤ t.length
  end_ge : ∀ t i m, S.findEnd t i = some m → i ≤ m.start ∧ m.start ≤ m.stop
  end_le : ∀ t i m, S.findEnd t i = some m → m.stop ≤ t.length

/-- The text from position i on without the given sections [a, d). -/
def without (t : List Nat) : Nat → List (Nat × Nat) → List Nat
  | i, [] => t.drop i
  | i, (a, d) :: rest => slice t i a ++ without t d rest

/-- The sections from position i on: each begins with the first start match at or
after the end of the one before it and ends with the first end match at or after the
end of that start match; after the last one there is no start match, or one without
an end match. -/
def SectionsFrom (S : Stripper) (t : List Nat) : Nat → List (Nat × Nat) → Prop
  | i, [] => ∀ m, S.findStart t i = some m → S.findEnd t m.stop = none
  | i, (a, d) :: rest => ∃ m m', S.findStart t i = some m ∧ m.start = a ∧
      S.findEnd t m.stop = some m' ∧ m'.stop = d ∧ SectionsFrom S t d rest

/-- Sections in order, not empty and disjoint, within the text. -/
def InOrder (t : List Nat) : Nat → List (Nat × Nat) → Prop
  | i, [] => i ≤ t.length
  | i, (a, d) :: rest => i ≤ a ∧ a < d ∧ InOrder t d rest

/-- The start matches met from position i on: those of the sections, and the one
without an end match if there is one. -/
def Starts (S : Stripper) (t : List Nat) : Nat → List Match → Prop
  | i, [] => S.findStart t i = none
  | i, m :: rest => S.findStart t i = some m ∧
      match S.findEnd t m.stop with
      | none => rest = []
      | some m' => Starts S t m'.stop rest

/-! ### C53 -/

theorem slice_append_drop {t : List Nat} {i a : Nat} (h : i ≤ a) :
    slice t i a ++ t.drop a = t.drop i := by
  unfold slice
  have : t.drop a = (t.drop i).drop (a - i) := by rw [List.drop_drop]; congr 1; omega
  rw [this, List.take_append_drop]

/-- more rounds do not change the result -/
theorem analyzeFrom_mono {S : Stripper} {t : List Nat} {n : Nat} :
    ∀ {i : Nat} {kept : List Nat} {toks : List Tok} {r : Except Err (List Nat × List Tok)},
      analyzeFrom S t n i kept toks = some r →
      ∀ k, n ≤ k → analyzeFrom S t k i kept toks = some r := by
  induction n with
  | zero => intro i kept toks r h; simp [analyzeFrom] at h
  | succ n ih =>
    intro i kept toks r h k hk
    obtain ⟨k, rfl⟩ : ∃ j, k = j + 1 := ⟨k - 1, by omega⟩
    simp only [analyzeFrom] at h ⊢
    cases hm : S.findStart t i with
    | none => rw [hm] at h; exact h
    | some m =>
      rw [hm] at h
      simp only at h ⊢
      cases ht : S.tokenize t m with
      | error e => rw [ht] at h; exact h
      | ok new =>
        rw [ht] at h
        simp only at h ⊢
        cases he : S.findEnd t m.stop with
        | none => rw [he] at h; exact h
        | some m' => rw [he] at h; exact ih h k (by omega)

theorem analyzeFrom_ends {S : Stripper} (hS : Contract S) {t : List Nat} {n : Nat} :
    ∀ {i : Nat} (kept : List Nat) (toks : List Tok), i ≤ t.length → t.length < n + i →
      (∃ r, analyzeFrom S t n i kept toks = some r) := by
  induction n with
  | zero => intro i kept toks h1 h2; omega
  | succ n ih =>
    intro i kept toks h1 h2
    simp only [analyzeFrom]
    cases hm : S.findStart t i with
    | none => exact ⟨_, rfl⟩
    | some m =>
      simp only
      cases ht : S.tokenize t m with
      | error e => exact ⟨_, rfl⟩
      | ok new =>
        simp only
        cases he : S.findEnd t m.stop with
        | none => exact ⟨_, rfl⟩
        | some m' =>
          have := hS.start_ge t i m hm
          have := hS.start_pos t i m hm
          have := hS.end_ge t m.stop m' he
          exact ih _ _ (hS.end_le t _ m' he) (by omega)

/-- **C53, termination.** If the matchers keep their contract, `analyze` ends for every
text, after at most one round more than the text has bytes. -/
theorem C53_terminates (S : Stripper) (hS : Contract S) (t : List Nat) :
    ∃ r, analyze S t = some r ∧ ∀ n, t.length + 1 ≤ n → Ends S t n r := by
  obtain ⟨r, h⟩ := analyzeFrom_ends hS (n := t.length + 1) (t := t) (i := 0) [] [] (Nat.zero_le _) (by omega)
  exact ⟨r, h, fun n hn => analyzeFrom_mono h n hn⟩

/-- **C53, the contract is needed.** With an empty start match `analyze` need not end. -/
theorem C53_empty_start_diverges (t : List Nat) (n : Nat) (r : Except Err (List Nat × List Tok)) :
    ¬ Ends (ofRe .eps .eps noTokens) t n r := by
  have key : ∀ (n : Nat) kept toks, analyzeFrom (ofRe .eps .eps noTokens) t n 0 kept toks = none := by
    intro n
    induction n with
    | zero => intro kept toks; rfl
    | succ n ih =>
      intro kept toks
      have h : search .eps t 0 = some ⟨0, 0, []⟩ := by
        unfold search
        rw [show t.length + 1 - 0 = t.length + 1 by omega]
        rfl
      simp only [analyzeFrom, ofRe, h, noTokens]
      exact ih _ _
  unfold Ends
  rw [key]
  exact fun h => by cases h

/-- the sections and the start matches of a run that raises nothing -/
theorem analyzeFrom_ok {S : Stripper} {t : List Nat} {n : Nat} :
    ∀ {i : Nat} {kept : List Nat} {toks : List Tok} {out : List Nat} {toks' : List Tok},
      (∀ t i m, S.findStart t i = some m → i ≤ m.start) →
      analyzeFrom S t n i kept toks = some (.ok (out, toks')) →
      ∃ secs ms new, SectionsFrom S t i secs ∧ Starts S t i ms ∧
        out = kept ++ without t i secs ∧
        ms.mapM (S.tokenize t) = .ok new ∧ toks' = toks ++ new.flatten := by
  induction n with
  | zero => intro i kept toks out toks' _ h; simp [analyzeFrom] at h
  | succ n ih =>
    intro i kept toks out toks' hge h
    simp only [analyzeFrom] at h
    cases hm : S.findStart t i with
    | none =>
      rw [hm] at h
      simp only [Option.some.injEq, Except.ok.injEq, Prod.mk.injEq] at h
      refine ⟨[], [], [], ?_, hm, h.1.symm, rfl, by simp [h.2]⟩
      intro m hm'
      rw [hm] at hm'
      cases hm'
    | some m =>
      rw [hm] at h
      simp only at h
      cases ht : S.tokenize t m with
      | error e => rw [ht] at h; cases h
      | ok new =>
        rw [ht] at h
        simp only at h
        cases he : S.findEnd t m.stop with
        | none =>
          rw [he] at h
          simp only [Option.some.injEq, Except.ok.injEq, Prod.mk.injEq] at h
          refine ⟨[], [m], [new], ?_, ⟨hm, by rw [he]⟩, ?_, ?_, by simp [h.2]⟩
          · intro m' hm'; rw [hm] at hm'; cases hm'; exact he
          · rw [← h.1, List.append_assoc, slice_append_drop (hge t i m hm)]; rfl
          · simp [List.mapM_cons, ht]
        | some m' =>
          rw [he] at h
          obtain ⟨secs, ms, new', h1, h2, h3, h4, h5⟩ := ih hge h
          refine ⟨(m.start, m'.stop) :: secs, m :: ms, new :: new',
            ⟨m, m', hm, rfl, he, rfl, h1⟩, ⟨hm, by rw [he]; exact h2⟩, ?_, ?_, ?_⟩
          · rw [h3, List.append_assoc]; rfl
          · simp [List.mapM_cons, ht, h4]; rfl
          · rw [h5, List.flatten_cons, List.append_assoc]

theorem sections_disjoint {S : Stripper} (hS : Contract S) {t : List Nat}
    {secs : List (Nat × Nat)} : ∀ {i : Nat}, i ≤ t.length → SectionsFrom S t i secs →
      InOrder t i secs := by
  induction secs with
  | nil => intro i hi _; exact hi
  | cons s rest ih =>
    rintro i hi ⟨m, m', h1, h2, h3, h4, h5⟩
    have := hS.start_ge t i m h1
    have := hS.start_pos t i m h1
    have := hS.end_ge t m.stop m' h3
    refine ⟨by omega, by omega, ih ?_ h5⟩
    have := hS.end_le t m.stop m' h3
    omega

/-- **C53.** If `analyze` returns, the text returned is the text given without its
sections, which are disjoint; the tokens are those of the start matches, in order. -/
theorem C53_removes_sections (S : Stripper) (hS : Contract S) (t out : List Nat) (toks : List Tok)
    (h : analyze S t = some (.ok (out, toks))) :
    ∃ secs ms new, SectionsFrom S t 0 secs ∧ InOrder t 0 secs ∧ out = without t 0 secs ∧
      Starts S t 0 ms ∧ ms.mapM (S.tokenize t) = .ok new ∧ toks = new.flatten := by
  obtain ⟨secs, ms, new, h1, h2, h3, h4, h5⟩ := analyzeFrom_ok hS.start_ge h
  exact ⟨secs, ms, new, h1, sections_disjoint hS (Nat.zero_le _) h1, by simpa using h3, h2, h4,
    by simpa using h5⟩

theorem sectionsFrom_unique {S : Stripper} {t : List Nat} {secs secs' : List (Nat × Nat)} :
    ∀ {i : Nat}, SectionsFrom S t i secs → SectionsFrom S t i secs' → secs = secs' := by
  induction secs generalizing secs' with
  | nil =>
    intro i h h'
    cases secs' with
    | nil => rfl
    | cons s rest =>
      obtain ⟨m, m', h1, _, h3, _⟩ := h'
      rw [h m h1] at h3
      cases h3
  | cons s rest ih =>
    rintro i ⟨m, m', h1, h2, h3, h4, h5⟩ h'
    cases secs' with
    | nil => rw [h' m h1] at h3; cases h3
    | cons s' rest' =>
      obtain ⟨k, k', g1, g2, g3, g4, g5⟩ := h'
      rw [h1] at g1; cases g1
      rw [h3] at g3; cases g3
      have hs : s = s' := Prod.ext (by rw [← h2, ← g2]) (by rw [← h4, ← g4])
      subst hs
      rw [ih h5 g5]

/-- **C53.** A text without start match is unchanged, and so is one whose first start
match is unterminated; the tokens of that start match are still produced. -/
theorem C53_nothing_to_strip (S : Stripper) (t : List Nat) :
    (S.findStart t 0 = none → analyze S t = some (.ok (t, []))) ∧
    (∀ m toks, S.findStart t 0 = some m → S.tokenize t m = .ok toks →
      S.findEnd t m.stop = none → analyze S t = some (.ok (t, toks))) := by
  refine ⟨?_, ?_⟩
  · intro h; simp [analyze, analyzeFrom, h]
  · intro m toks h1 h2 h3
    simp only [analyze, analyzeFrom, h1, h2, h3, List.nil_append]
    rw [slice_append_drop (Nat.zero_le _)]
    rfl

/-- `analyze` raises exactly if the tokens of some start match cannot be made. -/
theorem analyzeFrom_error {S : Stripper} {t : List Nat} {n : Nat} :
    ∀ {i : Nat} {kept : List Nat} {toks : List Tok} {e : Err},
      analyzeFrom S t n i kept toks = some (.error e) →
      ∃ j m, S.findStart t j = some m ∧ S.tokenize t m = .error e := by
  induction n with
  | zero => intro i kept toks e h; simp [analyzeFrom] at h
  | succ n ih =>
    intro i kept toks e h
    simp only [analyzeFrom] at h
    cases hm : S.findStart t i with
    | none => rw [hm] at h; simp at h
    | some m =>
      rw [hm] at h
      simp only at h
      cases ht : S.tokenize t m with
      | error e' => rw [ht] at h; simp at h; subst h; exact ⟨i, m, hm, ht⟩
      | ok new =>
        rw [ht] at h
        simp only at h
        cases he : S.findEnd t m.stop with
        | none => rw [he] at h; simp at h
        | some m' => rw [he] at h; exact ih h

/-! #### The five strippers of the module -/

/-- Strippers made of patterns keep the contract if the start pattern cannot match the
empty text. -/
theorem contract_ofRe {a b : Re} (tok : List Nat → Match → Except Err (List Tok))
    (h : 0 < minLen a) : Contract (ofRe a b tok) where
  start_ge t i m hm := (search_some hm).1
  start_pos t i m hm := by
    have := (search_some hm).2.2.1.minLen_le
    omega
  start_le t i m hm := (search_some hm).2.1
  end_ge t i m hm := ⟨(search_some hm).1, (search_some hm).2.2.1.le⟩
  end_le t i m hm := (search_some hm).2.1

theorem contract_uuencode : Contract uuencode := contract_ofRe _ (by decide)
theorem contract_urls : Contract urls := contract_ofRe _ (by decide)
theorem contract_style : Contract style := contract_ofRe _ (by decide)
theorem contract_comment : Contract comment := contract_ofRe _ (by decide)
theorem contract_noframes : Contract noframes := contract_ofRe _ (by decide)

theorem strippers_fine (t : List Nat) :
    (∀ S ∈ [urls, style, comment, noframes], ∃ out toks secs, analyze S t = some (.ok (out, toks)) ∧
      SectionsFrom S t 0 secs ∧ InOrder t 0 secs ∧ out = without t 0 secs) ∧
    (Occurs uuBeginRe t → analyze uuencode t = some (.error .typeError)) ∧
    (¬ Occurs uuBeginRe t → analyze uuencode t = some (.ok (t, []))) := by
  refine ⟨?_, ?_, ?_⟩
  · intro S hS
    have hc : Contract S := by
      simp only [List.mem_cons, List.not_mem_nil, or_false] at hS
      rcases hS with rfl | rfl | rfl | rfl
      exacts [contract_urls, contract_style, contract_comment, contract_noframes]
    have ht : ∀ m, ∃ new, S.tokenize t m = .ok new := by
      simp only [List.mem_cons, List.not_mem_nil, or_false] at hS
      intro m
      rcases hS with rfl | rfl | rfl | rfl <;> exact ⟨_, rfl⟩
    obtain ⟨r, hr, _⟩ := C53_terminates S hc t
    cases r with
    | error e =>
      obtain ⟨j, m, _, h⟩ := analyzeFrom_error hr
      obtain ⟨new, h'⟩ := ht m
      rw [h] at h'; cases h'
    | ok p =>
      obtain ⟨out, toks⟩ := p
      obtain ⟨secs, _, _, h1, h2, h3, _⟩ := C53_removes_sections S hc t out toks hr
      exact ⟨out, toks, secs, hr, h1, h2, h3⟩
  · intro h
    cases hs : search uuBeginRe t 0 with
    | none => exact absurd h (search_zero_none.1 hs)
    | some m => simp [analyze, analyzeFrom, uuencode, ofRe, hs, uuTokenize]
  · intro h
    have hs : search uuBeginRe t 0 = none := search_zero_none.2 h
    exact (C53_nothing_to_strip uuencode t).1 hs

/-- Cases: a comment in a word, an unterminated one, a style, a uuencoded file. -/
example : analyze comment (txt "FR<!--x-->EE!") = some (.ok (txt "FREE!", [])) := by decide
example : analyze comment (txt "ab<!--cd") = some (.ok (txt "ab<!--cd", [])) := by decide
example : analyze style (txt "a< style x>b</style>c") = some (.ok (txt "ac", [])) := by decide
example : analyze noframes (txt "a<noframes>b</noframes >c") = some (.ok (txt "ac", [])) := by decide
example : analyze urls (txt "at http://a.b/c now") = some (.ok (txt "at  now",
    [.bytes (txt "proto:http"), .bytes (txt "url:a"), .bytes (txt "url:b"), .bytes (txt "url:c")])) := by
  decide
example : analyze uuencode (txt "x\nbegin 644 a.b\ny\nend\n") = some (.error .typeError) := by decide

/-! ### C73 -/

/-- **C73, as one would expect it.** Stripping twice is stripping once. -/
def C73Claim : Prop :=
  ∀ S ∈ [urls, style, comment, noframes], ∀ t out toks, analyze S t = some (.ok (out, toks)) →
    ∃ toks', analyze S out = some (.ok (out, toks'))

/-- **C73 is false.** What is left around a comment can be a comment. -/
theorem C73_claim_false : ¬ C73Claim := by
  intro h
  obtain ⟨toks', h⟩ := h comment (by simp) (txt "<!<!---->--x-->y") (txt "<!--x-->y") [] (by decide)
  rw [show analyze comment (txt "<!--x-->y") = some (.ok (txt "y", [])) by decide] at h
  revert h
  simp [txt]

/-- `analyze` again and again, n times, keeping the text only -/
def strips (S : Stripper) : Nat → List Nat → Option (List Nat)
  | 0, t => some t
  | n + 1, t =>
    match analyze S t with
    | some (.ok (out, _)) => strips S n out
    | _ => none

theorem length_without {t : List Nat} {secs : List (Nat × Nat)} :
    ∀ {i : Nat}, InOrder t i secs →
      (without t i secs).length + i ≤ t.length ∧
      (secs ≠ [] → (without t i secs).length + i < t.length) ∧ i ≤ t.length := by
  induction secs with
  | nil =>
    intro i h
    simp only [InOrder] at h
    simp only [without, List.length_drop]
    exact ⟨by omega, fun h' => absurd rfl h', h⟩
  | cons s rest ih =>
    obtain ⟨a, d⟩ := s
    rintro i ⟨h1, h2, h3⟩
    obtain ⟨g1, _, g3⟩ := ih h3
    simp only [without, List.length_append]
    have hs : (slice t i a).length ≤ a - i := by simp [slice]; omega
    exact ⟨by omega, fun _ => by omega, by omega⟩

/-- The text never grows, and shrinks if anything is stripped. -/
theorem analyze_shrinks {S : Stripper} (hS : Contract S) {t out : List Nat} {toks : List Tok}
    (h : analyze S t = some (.ok (out, toks))) : out = t ∨ out.length < t.length := by
  obtain ⟨secs, _, _, _, h2, h3, _⟩ := C53_removes_sections S hS t out toks h
  cases secs with
  | nil => left; rw [h3]; rfl
  | cons s rest =>
    right
    have := (length_without h2).2.1 (by simp)
    rw [h3]; omega

/-- **C73, partial.** Stripping repeatedly, at most as often as the text has bytes,
leads to a text that stripping leaves alone. -/
theorem C73_repeated_partial (S : Stripper) (hS : S ∈ [urls, style, comment, noframes]) (t : List Nat) :
    ∃ k out toks, k ≤ t.length ∧ strips S k t = some out ∧ analyze S out = some (.ok (out, toks)) := by
  have hc : Contract S := by
    simp only [List.mem_cons, List.not_mem_nil, or_false] at hS
    rcases hS with rfl | rfl | rfl | rfl
    exacts [contract_urls, contract_style, contract_comment, contract_noframes]
  suffices H : ∀ n t, t.length ≤ n → ∃ k out toks, k ≤ t.length ∧ strips S k t = some out ∧
      analyze S out = some (.ok (out, toks)) from H _ t (Nat.le_refl _)
  intro n
  induction n with
  | zero =>
    intro t ht
    obtain ⟨out, toks, secs, h, _⟩ := (strippers_fine t).1 S hS
    rcases analyze_shrinks hc h with rfl | h'
    · exact ⟨0, out, toks, Nat.zero_le _, rfl, h⟩
    · omega
  | succ n ih =>
    intro t ht
    obtain ⟨out, toks, secs, h, _⟩ := (strippers_fine t).1 S hS
    rcases analyze_shrinks hc h with rfl | h'
    · exact ⟨0, out, toks, Nat.zero_le _, rfl, h⟩
    · obtain ⟨k, out', toks', h1, h2, h3⟩ := ih out (by omega)
      exact ⟨k + 1, out', toks', by omega, by simp only [strips, h, h2], h3⟩

example : strips comment 2 (txt "<!<!---->--x-->y") = some (txt "y") := by decide

/-! #### URLs -/

/-- What a match of `urlRe` is: a protocol, "://" and a non-empty run of URL characters
that ends where the URL characters do; the two groups are the protocol and that run. -/
structure UrlAt (t : List Nat) (m : Match) (proto guts : List Nat) : Prop where
  reads : ReadsAt t m.start (proto ++ txt "://" ++ guts)
  stop : m.stop = m.start + (proto ++ txt "://" ++ guts).length
  protocol : proto = txt "http" ∨ proto = txt "https" ∨ proto = txt "ftp"
  nonempty : guts ≠ []
  chars : ∀ c ∈ guts, isUrlChar c = true
  maximal : ∀ c, t[m.stop]? = some c → isUrlChar c = false
  group1 : m.group t 1 = proto
  group2 : m.group t 2 = guts

theorem matches_proto {t : List Nat} {i j : Nat}
    (h : Matches t (.alt (.seq (.lit (txt "http")) (.opt (.lit [115]))) (.lit (txt "ftp"))) i j) :
    ∃ p, (p = txt "http" ∨ p = txt "https" ∨ p = txt "ftp") ∧ j = i + p.length ∧ ReadsAt t i p := by
  rw [matches_alt, matches_seq, matches_lit] at h
  rcases h with ⟨k, h1, h2⟩ | h
  · rw [matches_lit] at h1
    obtain ⟨rfl, h1⟩ := h1
    rw [Re.opt, Re.lit, matches_upTo_chr] at h2
    obtain ⟨s, g1, g2, g3, g4⟩ := h2
    cases s with
    | nil => exact ⟨txt "http", .inl rfl, by simpa using g2, h1⟩
    | cons c s =>
      simp only [List.length_cons] at g1
      have hs : s = [] := List.length_eq_zero_iff.1 (by omega)
      subst hs
      have hc : c = 115 := by simpa using g3 c (by simp)
      subst hc
      refine ⟨txt "https", .inr (.inl rfl), ?_, ?_⟩
      · rw [g2]; rfl
      · rw [show txt "https" = txt "http" ++ [115] from rfl, readsAt_append]
        exact ⟨h1, g4⟩
  · exact ⟨txt "ftp", .inr (.inr rfl), h.1, h.2⟩

theorem urlAt_of_matchAt {t : List Nat} {i : Nat} {m : Match} (h : matchAt urlRe t i = some m) :
    ∃ proto guts, UrlAt t m proto guts := by
  unfold matchAt at h
  cases hh : (run t urlRe ⟨i, []⟩).head? with
  | none => rw [hh] at h; cases h
  | some s =>
    rw [hh] at h
    simp only [Option.map_some, Option.some.injEq] at h
    subst h
    simp only [urlRe, Re.cat, run] at hh
    obtain ⟨s1, hs1, hh1⟩ := head_flatMap hh
    obtain ⟨s2, hs2, hh2⟩ := head_flatMap hh1
    rw [List.mem_map] at hs1
    obtain ⟨s0, hs0, rfl⟩ := hs1
    have hp := run_sound (r := .alt (.seq (.lit (txt "http")) (.opt (.lit [115]))) (.lit (txt "ftp")))
      (s := ⟨i, []⟩) (s' := s0) hs0
    have hg0 := run_groups (r := .alt (.seq (.lit (txt "http")) (.opt (.lit [115]))) (.lit (txt "ftp")))
      (by decide) (s := ⟨i, []⟩) (s' := s0) hs0
    have hl := run_sound hs2
    have hg2 := run_groups (by decide) hs2
    obtain ⟨proto, hproto, hpos, hread⟩ := matches_proto hp
    rw [matches_lit] at hl
    rw [List.head?_map] at hh2
    cases hh3 : (run t (Re.plus (.chr isUrlChar)) s2).head? with
    | none => rw [hh3] at hh2; cases hh2
    | some s3 =>
      rw [hh3] at hh2
      simp only [Option.map_some, Option.some.injEq] at hh2
      have hmem : s3 ∈ run t (Re.plus (.chr isUrlChar)) s2 := List.mem_of_head? hh3
      have hg := run_sound hmem
      have hg3 := run_groups (by decide) hmem
      rw [matches_plus_chr] at hg
      obtain ⟨guts, hne, hstop, hchars, hguts⟩ := hg
      have hmax : ∀ c, t[s3.pos]? = some c → isUrlChar c = false := by
        simp only [Re.plus, run] at hh3
        obtain ⟨s4, _, hh4⟩ := head_flatMap hh3
        exact star_chr_head hh4
      simp only at hpos hl hread
      have hcat : ReadsAt t i (proto ++ txt "://" ++ guts) := by
        rw [readsAt_append, readsAt_append]
        refine ⟨⟨hread, by rw [← hpos]; exact hl.2⟩, ?_⟩
        rw [List.length_append, ← Nat.add_assoc, ← hpos, ← hl.1]
        exact hguts
      have hlen : s3.pos = i + (proto ++ txt "://" ++ guts).length := by
        rw [hstop, hl.1, hpos, List.length_append, List.length_append]; omega
      refine ⟨proto, guts, ⟨?_, ?_, hproto, hne, hchars, ?_, ?_, ?_⟩⟩
      · exact hcat
      · rw [← hh2]; exact hlen
      · rw [← hh2]; exact hmax
      · simp only [Match.group, ← hh2, hg3, hg2, hg0]
        simp only [List.find?, Nat.reduceBEq, beq_self_eq_true]
        rw [hpos]
        exact readsAt_slice hread
      · simp only [Match.group, ← hh2, hg3, hg2, hg0]
        simp only [List.find?, beq_self_eq_true]
        rw [hstop]
        exact readsAt_slice hguts

theorem urlAt_of_search {t : List Nat} {i : Nat} {m : Match} (h : search urlRe t i = some m) :
    ∃ proto guts, UrlAt t m proto guts :=
  urlAt_of_matchAt (searchFrom_some h).2.2.1

/-- The shortest URLs. -/
def UrlText (w : List Nat) : Prop :=
  ∃ p c, (p = txt "http" ∨ p = txt "https" ∨ p = txt "ftp") ∧ isUrlChar c = true ∧
    w = p ++ txt "://" ++ [c]

theorem matches_of_urlText {t w : List Nat} {k : Nat} (hw : UrlText w) (h : ReadsAt t k w) :
    Matches t urlRe k (k + w.length) := by
  obtain ⟨p, c, hp, hc, rfl⟩ := hw
  rw [readsAt_append, readsAt_append] at h
  obtain ⟨⟨h1, h2⟩, h4⟩ := h
  have hg : Matches t (.grp 1 (.alt (.seq (.lit (txt "http")) (.opt (.lit [115]))) (.lit (txt "ftp"))))
      k (k + p.length) := by
    rw [matches_grp, matches_alt]
    rcases hp with rfl | rfl | rfl
    · exact .inl (.seq (matches_lit.2 ⟨rfl, h1⟩) .upToZ)
    · rw [show txt "https" = txt "http" ++ [115] from rfl, readsAt_append] at h1
      refine .inl (.seq (matches_lit.2 ⟨rfl, h1.1⟩) ?_)
      rw [Re.opt, Re.lit, matches_upTo_chr]
      exact ⟨[115], by decide, rfl, by decide, h1.2⟩
    · exact .inr (matches_lit.2 ⟨rfl, h1⟩)
  have h3 : Matches t (.lit (txt "://")) (k + p.length) (k + p.length + (txt "://").length) :=
    matches_lit.2 ⟨rfl, h2⟩
  simp only [urlRe, Re.cat]
  refine .seq hg (.seq h3 ?_)
  rw [matches_grp, matches_plus_chr]
  refine ⟨[c], by simp, ?_, ?_, ?_⟩
  · simp [List.length_append]; omega
  · intro d hd; rw [List.mem_singleton] at hd; rw [hd]; exact hc
  · rw [List.length_append, ← Nat.add_assoc] at h4; exact h4

theorem urlText_chars {w : List Nat} (hw : UrlText w) : ∀ c ∈ w, isUrlChar c = true := by
  obtain ⟨p, c, hp, hc, rfl⟩ := hw
  intro d hd
  rw [List.mem_append, List.mem_append, List.mem_singleton] at hd
  have key : ∀ q : List Nat, q = txt "http" ∨ q = txt "https" ∨ q = txt "ftp" ∨ q = txt "://" →
      ∀ d ∈ q, isUrlChar d = true := by
    rintro q (rfl | rfl | rfl | rfl) <;> decide
  rcases hd with (hd | hd) | rfl
  · exact key p (by rcases hp with h | h | h <;> simp [h]) d hd
  · exact key _ (by simp) d hd
  · exact hc

theorem urlText_of_occurs {t : List Nat} (h : Occurs urlRe t) : ∃ w, UrlText w ∧ Contains t w := by
  cases hs : search urlRe t 0 with
  | none => exact absurd h (search_zero_none.1 hs)
  | some m =>
    obtain ⟨p, g, hu⟩ := urlAt_of_search hs
    cases g with
    | nil => exact absurd rfl hu.nonempty
    | cons c g =>
      refine ⟨p ++ txt "://" ++ [c], ⟨p, c, hu.protocol, hu.chars c (by simp), rfl⟩, ?_⟩
      rw [contains_iff_readsAt]
      have hr := hu.reads
      rw [show p ++ txt "://" ++ c :: g = (p ++ txt "://" ++ [c]) ++ g by simp, readsAt_append] at hr
      have := (search_some hs).2.1
      have := (search_some hs).2.2.1.le
      exact ⟨m.start, by omega, hr.1⟩

theorem contains_append {a b w : List Nat} (h : Contains (a ++ b) w) :
    Contains a w ∨ Contains b w ∨ ∃ c rest, b = c :: rest ∧ c ∈ w := by
  obtain ⟨pre, post, h⟩ := h
  rw [List.append_assoc, List.append_eq_append_iff] at h
  rcases h with ⟨a', _, h2⟩ | ⟨c', h1, h2⟩
  · exact .inr (.inl ⟨a', post, by rw [h2, List.append_assoc]⟩)
  · rw [List.append_eq_append_iff] at h2
    rcases h2 with ⟨d, h3, _⟩ | ⟨d, h3, h4⟩
    · exact .inl ⟨pre, d, by rw [h1, h3, List.append_assoc]⟩
    · cases d with
      | nil => exact .inl ⟨pre, [], by rw [h1, h3]; simp⟩
      | cons c d => exact .inr (.inr ⟨c, d ++ post, h4, by rw [h3]; simp⟩)

theorem search_eps {t : List Nat} {i : Nat} (h : i ≤ t.length) : search .eps t i = some ⟨i, i, []⟩ := by
  unfold search
  obtain ⟨n, hn⟩ : ∃ n, t.length + 1 - i = n + 1 := ⟨t.length - i, by omega⟩
  rw [hn]
  rfl

theorem readsAt_of_contains_drop {t w : List Nat} {i : Nat} (h : Contains (t.drop i) w) :
    ∃ k, i ≤ k ∧ ReadsAt t k w := by
  rw [contains_iff_readsAt] at h
  obtain ⟨k, _, post, h⟩ := h
  rw [List.drop_drop] at h
  exact ⟨i + k, by omega, post, h⟩

theorem readsAt_of_contains_slice {t w : List Nat} {i a : Nat} (hw : w ≠ [])
    (h : Contains (slice t i a) w) : ∃ k, i ≤ k ∧ k < a ∧ ReadsAt t k w := by
  obtain ⟨pre, post, h⟩ := h
  have hl : (slice t i a).length ≤ a - i := by simp [slice]; omega
  have hw' : 0 < w.length := List.length_pos_iff.2 hw
  rw [h, List.length_append, List.length_append] at hl
  refine ⟨i + pre.length, by omega, by omega, post ++ (t.drop i).drop (a - i), ?_⟩
  have key : ∀ x y : List Nat, x = pre ++ w ++ post ++ y → x.drop pre.length = w ++ (post ++ y) := by
    rintro x y rfl
    rw [List.append_assoc, List.append_assoc, List.drop_left]
  rw [← List.drop_drop]
  exact key _ _ (by rw [← h]; exact (List.take_append_drop _ _).symm)

theorem readsAt_lt {t w : List Nat} {k : Nat} (hw : w ≠ []) (h : ReadsAt t k w) : k < t.length := by
  obtain ⟨post, h⟩ := h
  rcases Nat.lt_or_ge k t.length with h' | h'
  · exact h'
  · rw [List.drop_eq_nil_of_le h'] at h
    cases w with
    | nil => exact absurd rfl hw
    | cons c w => cases h

theorem urlText_ne_nil {w : List Nat} (hw : UrlText w) : w ≠ [] := by
  obtain ⟨p, c, _, _, rfl⟩ := hw; simp

/-- after a URL comes a character that cannot be in one -/
def AfterUrl (t : List Nat) (i : Nat) : Prop := ∀ c, t[i]? = some c → isUrlChar c = false

theorem urlAt_first {t : List Nat} {m : Match} {p g : List Nat} (h : UrlAt t m p g) :
    ∃ c, t[m.start]? = some c ∧ isUrlChar c = true := by
  have hr := h.reads
  have key : ∀ q : List Nat, q = txt "http" ∨ q = txt "https" ∨ q = txt "ftp" →
      ∃ c q', q = c :: q' ∧ isUrlChar c = true := by
    rintro q (rfl | rfl | rfl)
    exacts [⟨104, txt "ttp", rfl, by decide⟩, ⟨104, txt "ttps", rfl, by decide⟩,
      ⟨102, txt "tp", rfl, by decide⟩]
  obtain ⟨c, q', rfl, hc⟩ := key p h.protocol
  rw [List.cons_append, List.cons_append, readsAt_cons] at hr
  exact ⟨c, hr.1, hc⟩

theorem without_urls {t : List Nat} {secs : List (Nat × Nat)} :
    ∀ {i : Nat}, i ≤ t.length → SectionsFrom urls t i secs → InOrder t i secs →
      (∀ w, UrlText w → ¬ Contains (without t i secs) w) ∧
      (AfterUrl t i → ∀ c rest, without t i secs = c :: rest → isUrlChar c = false) := by
  induction secs with
  | nil =>
    intro i hi h _
    refine ⟨?_, ?_⟩
    · have hn : search urlRe t i = none := by
        cases hs : search urlRe t i with
        | none => rfl
        | some m =>
          have h' := h m hs
          have : search .eps t m.stop = none := h'
          rw [search_eps (search_some hs).2.1] at this
          cases this
      intro w hw hc
      obtain ⟨k, hk, hr⟩ := readsAt_of_contains_drop hc
      exact search_none.1 hn k hk (Nat.le_of_lt (readsAt_lt (urlText_ne_nil hw) hr)) _
        (matches_of_urlText hw hr)
    · intro ha c rest hc
      exact ha c (drop_eq_cons_iff.1 hc).1
  | cons s rest ih =>
    obtain ⟨a, d⟩ := s
    rintro i hi ⟨m, m', h1, h2, h3, h4, h5⟩ ⟨g1, g2, g3⟩
    have hs : search urlRe t i = some m := h1
    obtain ⟨p, g, hu⟩ := urlAt_of_search hs
    have hle := (search_some hs).2.1
    have he : search .eps t m.stop = some m' := h3
    rw [search_eps hle] at he
    cases he
    simp only at h4
    subst h2
    have hafter : AfterUrl t d := by rw [← h4]; exact hu.maximal
    obtain ⟨k1, k2⟩ := ih (by omega) h5 g3
    refine ⟨?_, ?_⟩
    · intro w hw hc
      rcases contains_append hc with hc | hc | ⟨c, tl, hb, hcw⟩
      · obtain ⟨k, hk1, hk2, hr⟩ := readsAt_of_contains_slice (urlText_ne_nil hw) hc
        exact (search_some hs).2.2.2 k hk1 hk2 _ (matches_of_urlText hw hr)
      · exact k1 w hw hc
      · have := k2 hafter c tl hb
        rw [urlText_chars hw c hcw] at this
        cases this
    · intro ha c tl hb
      obtain ⟨u, hu1, hu2⟩ := urlAt_first hu
      have hlt : i < m.start := by
        rcases Nat.lt_or_ge i m.start with h | h
        · exact h
        · have : i = m.start := by omega
          rw [this] at ha
          rw [ha u hu1] at hu2
          cases hu2
      have hil : i < t.length := by have := lt_length_of_getElem? hu1; omega
      have hsl : slice t i m.start = t[i] :: slice t (i + 1) m.start := by
        unfold slice
        rw [List.drop_eq_getElem_cons hil]
        obtain ⟨n, hn⟩ : ∃ n, m.start - i = n + 1 := ⟨m.start - i - 1, by omega⟩
        rw [hn, List.take_succ_cons, show m.start - (i + 1) = n by omega]
      have hb' : slice t i m.start ++ without t d rest = c :: tl := hb
      rw [hsl, List.cons_append, List.cons.injEq] at hb'
      rw [← hb'.1]
      exact ha _ (List.getElem?_eq_getElem hil)

theorem urls_gone (t out : List Nat) (toks : List Tok)
    (h : analyze urls t = some (.ok (out, toks))) :
    ¬ Occurs urlRe out ∧ analyze urls out = some (.ok (out, [])) := by
  obtain ⟨secs, _, _, h1, h2, h3, _⟩ := C53_removes_sections urls contract_urls t out toks h
  have hno : ¬ Occurs urlRe out := by
    intro ho
    obtain ⟨w, hw, hc⟩ := urlText_of_occurs ho
    rw [h3] at hc
    exact (without_urls (Nat.zero_le _) h1 h2).1 w hw hc
  exact ⟨hno, (C53_nothing_to_strip urls out).1 (search_zero_none.2 hno)⟩

/-! ### C74 -/

theorem splitBy_ne_nil (p : Nat → Bool) (t : List Nat) : splitBy p t ≠ [] := by
  cases t with
  | nil => simp [splitBy]
  | cons x t =>
    simp only [splitBy]
    split
    · simp
    · split <;> simp

theorem splitBy_cons_of_not {p : Nat → Bool} {x : Nat} {t : List Nat} (h : p x = false) :
    ∃ w ws, splitBy p t = w :: ws ∧ splitBy p (x :: t) = (x :: w) :: ws := by
  cases hs : splitBy p t with
  | nil => exact absurd hs (splitBy_ne_nil p t)
  | cons w ws => exact ⟨w, ws, rfl, by simp [splitBy, h, hs]⟩

theorem splitBy_append_sep {p : Nat → Bool} {c : Nat} (h : p c = true) (s t : List Nat) :
    splitBy p (s ++ c :: t) = splitBy p s ++ splitBy p t := by
  induction s with
  | nil => simp [splitBy, h]
  | cons x s ih =>
    cases hx : p x with
    | true => simp [splitBy, hx, ih]
    | false =>
      obtain ⟨w, ws, h1, h2⟩ := splitBy_cons_of_not (t := s) hx
      obtain ⟨w', ws', h3, h4⟩ := splitBy_cons_of_not (t := s ++ c :: t) hx
      rw [List.cons_append, h2, h4]
      rw [ih, h1, List.cons_append, List.cons.injEq] at h3
      rw [← h3.1, ← h3.2, List.cons_append]

/-- the pieces are free of separators -/
theorem not_mem_of_mem_splitBy {p : Nat → Bool} {t w : List Nat} (h : w ∈ splitBy p t) :
    ∀ c ∈ w, p c = false := by
  induction t generalizing w with
  | nil => simp [splitBy] at h; subst h; simp
  | cons x t ih =>
    cases hx : p x with
    | true =>
      simp only [splitBy, hx, if_true, List.mem_cons] at h
      rcases h with rfl | h
      · simp
      · exact ih h
    | false =>
      obtain ⟨w', ws, h1, h2⟩ := splitBy_cons_of_not (t := t) hx
      rw [h2, List.mem_cons] at h
      rcases h with rfl | h
      · intro c hc
        rcases List.mem_cons.1 hc with rfl | hc
        · exact hx
        · exact ih (by rw [h1]; simp) c hc
      · exact ih (by rw [h1]; exact List.mem_cons_of_mem _ h)

/-- the separators of a URL: the ones of `urlsep_re` and the slash -/
def isSep (c : Nat) : Bool := c == 47 || isUrlSep c

theorem urlChunks_eq (g : List Nat) : urlChunks g = splitBy isSep g := by
  unfold urlChunks
  induction g with
  | nil => rfl
  | cons x g ih =>
    by_cases h47 : x = 47
    · subst h47
      rw [show splitOn 47 (47 :: g) = [] :: splitOn 47 g from splitOn_append_sep 47 [] g]
      rw [List.flatMap_cons, ih]
      simp [splitBy, isSep]
    · have hne := splitOn_ne_nil 47 g
      cases hs : splitOn 47 g with
      | nil => exact absurd hs hne
      | cons w ws =>
        rw [hs, List.flatMap_cons] at ih
        have hx : splitOn 47 (x :: g) = (x :: w) :: ws := by simp [splitOn, h47, hs]
        rw [hx, List.flatMap_cons]
        cases hu : isUrlSep x with
        | true =>
          have : isSep x = true := by simp [isSep, hu]
          simp only [splitBy, hu, this, if_true, List.cons_append, ih]
        | false =>
          have hx' : isSep x = false := by simp [isSep, hu, h47]
          obtain ⟨v, vs, h1, h2⟩ := splitBy_cons_of_not (t := w) hu
          obtain ⟨v', vs', h3, h4⟩ := splitBy_cons_of_not (t := g) hx'
          rw [h2, h4, List.cons_append]
          rw [← ih, h1, List.cons_append, List.cons.injEq] at h3
          rw [h3.1, h3.2]

/-- The tokens of a URL, as one would write them down: the protocol, and every piece
between separators. -/
def urlTokens (proto guts : List Nat) : List Tok :=
  .bytes (txt "proto:" ++ proto) :: (splitBy isSep guts).map (fun w => .bytes (txt "url:" ++ w))

/-- **C74, exact.** The tokens of every URL found in a text. -/
theorem C74_tokens (t : List Nat) (i : Nat) (m : Match) (h : search urlRe t i = some m) :
    ∃ proto guts, UrlAt t m proto guts ∧ urls.tokenize t m = .ok (urlTokens proto guts) := by
  obtain ⟨p, g, hu⟩ := urlAt_of_search h
  refine ⟨p, g, hu, ?_⟩
  show urlTokenize t m = _
  simp only [urlTokenize, hu.group1, hu.group2, urlChunks_eq, urlTokens]

/-- the characters that the code means to drop at the end of a URL, l.302 -/
def isTrailing (c : Nat) : Bool := (txt ".:?!/").contains c

/-- **C74, as the comment in the code has it.** Trailing punctuation of a URL does not
change its tokens. -/
def C74Claim : Prop :=
  ∀ guts c, guts ≠ [] → (∀ d ∈ guts, isUrlChar d = true) → isTrailing c = true →
    ∀ out out' toks toks',
      analyze urls (txt "http://" ++ guts) = some (.ok (out, toks)) →
      analyze urls (txt "http://" ++ guts ++ [c]) = some (.ok (out', toks')) → toks = toks'

/-- **C74 is false.** -/
theorem C74_claim_false : ¬ C74Claim := by
  intro h
  have := h (txt "a.b") 46 (by decide) (by decide) (by decide) [] []
    [.bytes (txt "proto:http"), .bytes (txt "url:a"), .bytes (txt "url:b")]
    [.bytes (txt "proto:http"), .bytes (txt "url:a"), .bytes (txt "url:b"), .bytes (txt "url:")]
    (by decide) (by decide)
  revert this
  decide

theorem urls_findStart : urls.findStart = search urlRe := rfl
theorem urls_findEnd : urls.findEnd = search .eps := rfl

/-- A text that is one URL is stripped completely, and gives the tokens of that URL. -/
theorem analyze_url (guts : List Nat) (hne : guts ≠ []) (hg : ∀ d ∈ guts, isUrlChar d = true) :
    analyze urls (txt "http://" ++ guts) = some (.ok ([], urlTokens (txt "http") guts)) := by
  obtain ⟨c, g, rfl⟩ := List.exists_cons_of_ne_nil hne
  have hm : Matches (txt "http://" ++ c :: g) urlRe 0 (0 + (txt "http" ++ txt "://" ++ [c]).length) :=
    matches_of_urlText ⟨txt "http", c, .inl rfl, hg c (by simp), rfl⟩ ⟨g, by simp [txt]⟩
  cases hs : search urlRe (txt "http://" ++ c :: g) 0 with
  | none => exact absurd hm (search_none.1 hs 0 (Nat.le_refl _) (Nat.zero_le _) _)
  | some m =>
    have hstart : m.start = 0 := by
      rcases Nat.eq_zero_or_pos m.start with h | h
      · exact h
      · exact absurd hm ((search_some hs).2.2.2 0 (Nat.le_refl _) h _)
    obtain ⟨p, g', hu, htok⟩ := C74_tokens _ 0 m hs
    obtain ⟨post, hr⟩ := hu.reads
    rw [hstart, List.drop_zero] at hr
    -- the protocol is http, and the rest is the whole rest
    have hp : p = txt "http" := by
      rcases hu.protocol with h | h | h
      · exact h
      · rw [h] at hr; simp [txt] at hr
      · rw [h] at hr; simp [txt] at hr
    have hrest : c :: g = g' ++ post := by
      rw [hp] at hr
      simpa [txt] using hr
    have hpost : post = [] := by
      cases post with
      | nil => rfl
      | cons x post =>
        have hx : (txt "http://" ++ c :: g)[m.stop]? = some x := by
          rw [hu.stop, hstart, Nat.zero_add, hr, List.getElem?_append_right (Nat.le_refl _)]
          simp
        have h1 := hu.maximal x hx
        have h2 := hg x (by rw [hrest]; simp)
        rw [h2] at h1; cases h1
    rw [hpost, List.append_nil] at hrest
    have hstop : m.stop = (txt "http://" ++ c :: g).length := by
      rw [hu.stop, hstart, hp, hrest]; simp [txt]
    rw [hp, ← hrest] at htok
    have htok' : urls.tokenize (txt "http://" ++ c :: g) m = .ok (urlTokens (txt "http") (c :: g)) := htok
    have hs' : urls.findStart (txt "http://" ++ c :: g) 0 = some m := by rw [urls_findStart]; exact hs
    have he : urls.findEnd (txt "http://" ++ c :: g) m.stop = some ⟨m.stop, m.stop, []⟩ := by
      rw [urls_findEnd]; exact search_eps (Nat.le_of_eq hstop)
    have hn : urls.findStart (txt "http://" ++ c :: g) m.stop = none := by
      rw [urls_findStart, search_none]
      intro k h1 h2 j hj
      have h3 := hj.minLen_le
      have h4 := hj.bound h2
      have : 0 < minLen urlRe := by decide
      omega
    have hlen : (txt "http://" ++ c :: g).length + 1 = ((txt "http://" ++ c :: g).length - 1) + 2 := by
      simp [txt]
    unfold analyze
    rw [hlen]
    simp only [analyzeFrom, hs', htok', he, hn, hstart]
    rw [hstop]
    simp [slice]

/-- **C74, exact.** A trailing `.`, `:`, `?` or `/` adds exactly the token `url:`; a
trailing `!` becomes part of the last piece. -/
theorem C74_trailing_partial (guts : List Nat) (hne : guts ≠ []) (hg : ∀ d ∈ guts, isUrlChar d = true) :
    (∀ c ∈ txt ".:?/",
      analyze urls (txt "http://" ++ guts) = some (.ok ([], urlTokens (txt "http") guts)) ∧
      analyze urls (txt "http://" ++ guts ++ [c]) =
        some (.ok ([], urlTokens (txt "http") guts ++ [.bytes (txt "url:")]))) ∧
    (∀ init last, splitBy isSep guts = init ++ [last] →
      analyze urls (txt "http://" ++ guts ++ txt "!") =
        some (.ok ([], .bytes (txt "proto:http") ::
          (init ++ [last ++ txt "!"]).map (fun w => .bytes (txt "url:" ++ w))))) := by
  refine ⟨?_, ?_⟩
  · intro c hc
    have key : ∀ c ∈ txt ".:?/", isUrlChar c = true ∧ isSep c = true := by decide
    have hc' := key c hc
    refine ⟨analyze_url guts hne hg, ?_⟩
    rw [List.append_assoc, analyze_url (guts ++ [c]) (by simp)
      (by intro d hd; rcases List.mem_append.1 hd with h | h
          · exact hg d h
          · rw [List.mem_singleton.1 h]; exact hc'.1)]
    congr 3
    simp only [urlTokens]
    rw [splitBy_append_sep hc'.2, show splitBy isSep [] = [[]] from rfl]
    simp
  · intro init last hsp
    have key : ∀ c ∈ txt "!", isUrlChar c = true := by decide
    rw [List.append_assoc, analyze_url (guts ++ txt "!") (by simp [txt])
      (by intro d hd; rcases List.mem_append.1 hd with h | h
          · exact hg d h
          · exact key d h)]
    congr 3
    simp only [urlTokens]
    congr 2
    clear hne hg
    induction guts generalizing init last with
    | nil =>
      rw [show splitBy isSep [] = [[]] from rfl] at hsp
      cases init with
      | nil => simp at hsp; subst hsp; decide
      | cons a init => simp at hsp
    | cons x g ih =>
      cases hx : isSep x with
      | true =>
        simp only [splitBy, hx, if_true, List.cons_append] at hsp ⊢
        cases init with
        | nil => simp at hsp; exact absurd hsp.2 (splitBy_ne_nil _ _)
        | cons a init =>
          rw [List.cons_append, List.cons.injEq] at hsp
          rw [ih init last hsp.2, ← hsp.1]; rfl
      | false =>
        obtain ⟨v, vs, h1, h2⟩ := splitBy_cons_of_not (t := g) hx
        obtain ⟨v', vs', h3, h4⟩ := splitBy_cons_of_not (t := g ++ txt "!") hx
        rw [List.cons_append, h4]
        rw [h2] at hsp
        cases init with
        | nil =>
          rw [List.nil_append, List.cons.injEq] at hsp
          obtain ⟨h5, h6⟩ := hsp
          rw [h6] at h1
          have := ih [] v h1
          rw [h3, List.nil_append, List.cons.injEq] at this
          rw [this.1, this.2, ← h5]; rfl
        | cons a init =>
          rw [List.cons_append, List.cons.injEq] at hsp
          rw [hsp.2] at h1
          have := ih (v :: init) last h1
          rw [h3, List.cons_append, List.cons.injEq] at this
          rw [this.1, this.2, ← hsp.1]; rfl

example : analyze urls (txt "http://a.b/c?d/") = some (.ok ([], [.bytes (txt "proto:http"),
    .bytes (txt "url:a"), .bytes (txt "url:b"), .bytes (txt "url:c"), .bytes (txt "url:d"),
    .bytes (txt "url:")])) := by decide

end Sb.Props
