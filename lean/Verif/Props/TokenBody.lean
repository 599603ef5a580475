import Verif.Props.Strippers
import Verif.Props.TokenWords

/-
C55: every body can be tokenized (refuted; exact conditions).
C58: the repair of damaged base64.
-/

set_option linter.unusedSectionVars false

namespace Sb.Props
open Py Py.Re Py.Text Sb.Mail Sb.Strip Sb.Tokenize

/-! ### C55: specification -/

/-- The text has a numeric character entity such as `&#97;`. -/
def HasEntity (t : List Nat) : Prop :=
  ∃ ds : List Nat, ds ≠ [] ∧ (∀ d ∈ ds, 48 ≤ d ∧ d ≤ 57) ∧ Contains t (txt "&#" ++ ds ++ txt ";")

/-- The text has `&nbsp;`, `<p>` or `<br>`. -/
def HasBreak (t : List Nat) : Prop :=
  Contains t (txt "&nbsp;") ∨ Contains t (txt "<p>") ∨ Contains t (txt "<br>")

/-- The text has something like a tag: `<`, 1 to 256 bytes other than `>` of which the
first is neither white space nor `<`, and `>`. -/
def HasTag (t : List Nat) : Prop :=
  ∃ (c : Nat) (rest : List Nat), isSpace c = false ∧ c ≠ 60 ∧ c ≠ 62 ∧ (∀ d ∈ rest, d ≠ 62) ∧
    rest.length ≤ 255 ∧ Contains t (txt "<" ++ c :: rest ++ txt ">")

/-- At the beginning of a line, the text has "begin" and two more words up to the end of
a line. -/
def HasBegin (t : List Nat) : Prop :=
  ∃ pre s1 mode s2 name s3 post : List Nat,
    t = pre ++ txt "begin" ++ s1 ++ mode ++ s2 ++ name ++ s3 ++ post ∧
    (pre = [] ∨ pre.getLast? = some 10) ∧ (post = [] ∨ post.head? = some 10) ∧
    (s1 ≠ [] ∧ ∀ c ∈ s1, isSpace c = true) ∧ (mode ≠ [] ∧ ∀ c ∈ mode, isSpace c = false) ∧
    (s2 ≠ [] ∧ ∀ c ∈ s2, isSpace c = true) ∧ (name ≠ [] ∧ ∀ c ∈ name, isSpace c = false) ∧
    (∀ c ∈ s3, isSpace c = true)

/-- What the strippers for URLs, styles, comments and noframes make of a text (C53), and
the tokens of the URLs (C74). -/
def Stripped (t t' : List Nat) (toks : List Tok) : Prop :=
  ∃ t1 t2 t3, analyze urls t = some (.ok (t1, toks)) ∧ analyze style t1 = some (.ok (t2, [])) ∧
    analyze comment t2 = some (.ok (t3, [])) ∧ analyze noframes t3 = some (.ok (t', []))

/-! ### C55: the patterns -/

theorem occurs_numeric {t : List Nat} : Occurs numericRe t ↔ HasEntity t := by
  simp only [Occurs, numericRe, Re.cat, matches_seq, matches_grp, matches_lit, matches_plus_chr]
  constructor
  · rintro ⟨i, j, hi, k, ⟨rfl, h1⟩, l, ⟨ds, hne, rfl, hd, h2⟩, rfl, h3⟩
    refine ⟨ds, hne, fun d hd' => by have := hd d hd'; simpa [isDigit] using this, ?_⟩
    refine contains_iff_readsAt.2 ⟨i, hi, ?_⟩
    rw [readsAt_append, readsAt_append]
    exact ⟨⟨h1, h2⟩, by rw [List.length_append, ← Nat.add_assoc]; exact h3⟩
  · rintro ⟨ds, hne, hd, h⟩
    obtain ⟨i, hi, h⟩ := contains_iff_readsAt.1 h
    rw [readsAt_append, readsAt_append, List.length_append, ← Nat.add_assoc] at h
    exact ⟨i, _, hi, _, ⟨rfl, h.1.1⟩, _, ⟨ds, hne, rfl, fun d hd' => by
      have := hd d hd'; simpa [isDigit] using this, h.1.2⟩, rfl, h.2⟩

theorem occurs_breaking {t : List Nat} : Occurs breakingRe t ↔ HasBreak t := by
  simp only [Occurs, breakingRe, Re.cat, matches_seq, matches_alt, matches_lit]
  constructor
  · rintro ⟨i, j, hi, ⟨_, h⟩ | ⟨k, ⟨rfl, h1⟩, l, ⟨rfl, h2⟩ | ⟨rfl, h2⟩, rfl, h3⟩⟩
    · exact .inl (contains_iff_readsAt.2 ⟨i, hi, h⟩)
    · refine .inr (.inl (contains_iff_readsAt.2 ⟨i, hi, ?_⟩))
      rw [show txt "<p>" = [60] ++ ([112] ++ [62]) from rfl, readsAt_append, readsAt_append]
      exact ⟨h1, h2, h3⟩
    · refine .inr (.inr (contains_iff_readsAt.2 ⟨i, hi, ?_⟩))
      rw [show txt "<br>" = [60] ++ (txt "br" ++ [62]) from rfl, readsAt_append, readsAt_append]
      exact ⟨h1, h2, h3⟩
  · rintro (h | h | h)
    · obtain ⟨i, hi, h⟩ := contains_iff_readsAt.1 h
      exact ⟨i, _, hi, .inl ⟨rfl, h⟩⟩
    · obtain ⟨i, hi, h⟩ := contains_iff_readsAt.1 h
      rw [show txt "<p>" = [60] ++ ([112] ++ [62]) from rfl, readsAt_append, readsAt_append] at h
      exact ⟨i, _, hi, .inr ⟨_, ⟨rfl, h.1⟩, _, .inl ⟨rfl, h.2.1⟩, rfl, h.2.2⟩⟩
    · obtain ⟨i, hi, h⟩ := contains_iff_readsAt.1 h
      rw [show txt "<br>" = [60] ++ (txt "br" ++ [62]) from rfl, readsAt_append, readsAt_append] at h
      exact ⟨i, _, hi, .inr ⟨_, ⟨rfl, h.1⟩, _, .inr ⟨rfl, h.2.1⟩, rfl, h.2.2⟩⟩

theorem occurs_html {t : List Nat} : Occurs htmlRe t ↔ HasTag t := by
  simp only [Occurs, htmlRe, notAhead, Re.cat, matches_seq, matches_test, matches_lit,
    matches_upTo_chr]
  constructor
  · rintro ⟨i, j, hi, k, ⟨rfl, h1⟩, l, ⟨rfl, h2⟩, m, ⟨s, hlen, rfl, hs, h3⟩, rfl, h4⟩
    cases s with
    | nil =>
      exfalso
      have h5 : t[i + [60].length]? = some 62 := (readsAt_cons.1 h4).1
      rw [h5] at h2
      simp at h2
    | cons c rest =>
      have h5 := (readsAt_cons.1 h3).1
      rw [h5] at h2
      simp only [Bool.not_eq_true', Bool.or_eq_false_iff, beq_eq_false_iff_ne] at h2
      refine ⟨c, rest, h2.1.1, h2.1.2, h2.2, fun d hd => ?_, by simpa using hlen, ?_⟩
      · simpa using hs d (List.mem_cons_of_mem _ hd)
      · refine contains_iff_readsAt.2 ⟨i, hi, ?_⟩
        rw [readsAt_append, readsAt_append]
        exact ⟨⟨h1, h3⟩, by rw [List.length_append, ← Nat.add_assoc]; exact h4⟩
  · rintro ⟨c, rest, h1, h2, h3, h4, h5, h⟩
    obtain ⟨i, hi, h⟩ := contains_iff_readsAt.1 h
    rw [readsAt_append, readsAt_append, List.length_append, ← Nat.add_assoc] at h
    have h6 := (readsAt_cons.1 h.1.2).1
    refine ⟨i, _, hi, _, ⟨rfl, h.1.1⟩, _, ⟨rfl, ?_⟩, _, ⟨c :: rest, by simpa using h5, rfl, ?_, h.1.2⟩,
      rfl, h.2⟩
    · rw [show (i + [60].length) = i + (txt "<").length from rfl, h6]
      simp [h1, h2, h3]
    · intro d hd
      rcases List.mem_cons.1 hd with rfl | hd
      · simpa using h3
      · simpa using h4 d hd

theorem occurs_begin {t : List Nat} : Occurs uuBeginRe t ↔ HasBegin t := by
  simp only [Occurs, uuBeginRe, bol, eol, Re.cat, matches_seq, matches_test, matches_lit, matches_grp,
    matches_plus_chr, matches_star_chr]
  constructor
  · rintro ⟨i, j, hi, k, ⟨rfl, h0⟩, _, ⟨rfl, h1⟩, _, ⟨s1, n1, rfl, a1, h2⟩, _, ⟨mode, n2, rfl, a2, h3⟩, _,
      ⟨s2, n3, rfl, a3, h4⟩, _, ⟨name, n4, rfl, a4, h5⟩, _, ⟨s3, rfl, a5, h6⟩, h7, h8⟩
    have hr : ReadsAt t k (txt "begin" ++ s1 ++ mode ++ s2 ++ name ++ s3) := by
      simp only [readsAt_append, List.length_append, ← Nat.add_assoc]
      exact ⟨⟨⟨⟨⟨h1, h2⟩, h3⟩, h4⟩, h5⟩, h6⟩
    obtain ⟨post, hp⟩ := hr
    refine ⟨t.take k, s1, mode, s2, name, s3, post, ?_, ?_, ?_, ⟨n1, a1⟩,
      ⟨n2, fun c hc => by simpa using a2 c hc⟩, ⟨n3, a3⟩, ⟨n4, fun c hc => by simpa using a4 c hc⟩, a5⟩
    · have : t = t.take k ++ t.drop k := (List.take_append_drop k t).symm
      rw [hp] at this
      simpa [List.append_assoc] using this
    · simp only [Bool.or_eq_true, beq_iff_eq] at h0
      rcases h0 with h0 | h0
      · left; simp [h0]
      · right
        have hk : k - 1 < t.length := lt_length_of_getElem? h0
        by_cases hk0 : k = 0
        · subst hk0; simp at h0
          exfalso
          have h9 := (readsAt_cons.1 (show ReadsAt t 0 (98 :: txt "egin") from h1)).1
          rw [h0] at h9; cases h9
        · rw [List.getLast?_eq_getElem?, List.length_take, Nat.min_eq_left hi,
            List.getElem?_take_of_lt (by omega)]
          exact h0
    · have hlen : t.length = k + ((txt "begin" ++ s1 ++ mode ++ s2 ++ name ++ s3).length + post.length) := by
        have := congrArg List.length hp
        rw [List.length_drop, List.length_append] at this
        omega
      simp only [Bool.or_eq_true, decide_eq_true_eq, beq_iff_eq] at h8
      rcases h8 with h8 | h8
      · left
        apply List.length_eq_zero_iff.1
        simp only [List.length_append] at hlen
        omega
      · right
        have h9 : (t.drop k)[(txt "begin" ++ s1 ++ mode ++ s2 ++ name ++ s3).length]? = some 10 := by
          rw [List.getElem?_drop, ← h8]
          congr 1
          simp only [List.length_append]
          omega
        rw [hp, List.getElem?_append_right (Nat.le_refl _), Nat.sub_self] at h9
        rw [List.head?_eq_getElem?]; exact h9
  · rintro ⟨pre, s1, mode, s2, name, s3, post, rfl, h1, h2, ⟨n1, a1⟩, ⟨n2, a2⟩, ⟨n3, a3⟩, ⟨n4, a4⟩, a5⟩
    have hr : ReadsAt (pre ++ txt "begin" ++ s1 ++ mode ++ s2 ++ name ++ s3 ++ post) pre.length
        (txt "begin" ++ s1 ++ mode ++ s2 ++ name ++ s3) := by
      refine ⟨post, ?_⟩
      simp [List.append_assoc]
    simp only [readsAt_append, List.length_append, ← Nat.add_assoc] at hr
    refine ⟨pre.length, _, by simp, _, ⟨rfl, ?_⟩, _, ⟨rfl, hr.1.1.1.1.1⟩, _,
      ⟨s1, n1, rfl, a1, hr.1.1.1.1.2⟩, _, ⟨mode, n2, rfl, fun c hc => by simp [a2 c hc], hr.1.1.1.2⟩, _,
      ⟨s2, n3, rfl, a3, hr.1.1.2⟩, _, ⟨name, n4, rfl, fun c hc => by simp [a4 c hc], hr.1.2⟩, _,
      ⟨s3, rfl, a5, hr.2⟩, rfl, ?_⟩
    · simp only [Bool.or_eq_true, beq_iff_eq]
      rcases h1 with rfl | h1
      · left; rfl
      · right
        have hpre : pre ≠ [] := by rintro rfl; simp at h1
        have : 0 < pre.length := List.length_pos_iff.2 hpre
        simp only [List.append_assoc]
        rw [List.getElem?_append_left (by omega), ← List.getLast?_eq_getElem?]
        exact h1
    · simp only [Bool.or_eq_true, decide_eq_true_eq, beq_iff_eq]
      rcases h2 with rfl | h2
      · left; simp; omega
      · right
        rw [List.getElem?_append_right (by simp; omega)]
        rw [List.head?_eq_getElem?] at h2
        rw [← h2]
        congr 1
        simp only [List.length_append]
        omega

/-- **C53, for the strippers of the package.** Each of them ends for every text.  The
ones for URLs, styles, comments and noframes return a text without the sections found
by their patterns; the one for uuencoded sections raises TypeError as soon as there is
a "begin" line, and returns the text unchanged otherwise. -/
theorem C53_strippers (t : List Nat) :
    (∀ S ∈ [urls, style, comment, noframes], ∃ out toks secs, analyze S t = some (.ok (out, toks)) ∧
      SectionsFrom S t 0 secs ∧ InOrder t 0 secs ∧ out = without t 0 secs) ∧
    (HasBegin t → analyze uuencode t = some (.error .typeError)) ∧
    (¬ HasBegin t → analyze uuencode t = some (.ok (t, []))) := by
  rw [← occurs_begin]
  exact strippers_fine t

/-- A "begin" line, and a line that only looks like one. -/
example : HasBegin (txt "x\nbegin 644 a.txt\ny") :=
  ⟨txt "x\n", txt " ", txt "644", txt " ", txt "a.txt", [], txt "\ny", by decide, by decide, by decide,
    by decide, by decide, by decide, by decide, by decide⟩
example : analyze uuencode (txt "to begin 644 a.txt") = some (.ok (txt "to begin 644 a.txt", [])) := by decide

theorem subStr_ok {r : Re} {t : List Nat} (h : ¬ Occurs r t) : subStr r t = .ok t := by
  unfold subStr
  rw [search_zero_none.2 h]; rfl

theorem subStr_error {r : Re} {t : List Nat} (h : Occurs r t) : subStr r t = .error .typeError := by
  unfold subStr
  cases hs : search r t 0 with
  | none => exact absurd h (search_zero_none.1 hs)
  | some m => rfl

/-! ### C55: the strippers -/

theorem analyzeFrom_noTokens {a b : Re} {t : List Nat} {n : Nat} :
    ∀ {i : Nat} {kept : List Nat} {r : Except Err (List Nat × List Tok)},
      analyzeFrom (ofRe a b noTokens) t n i kept [] = some r → ∃ out, r = .ok (out, []) := by
  induction n with
  | zero => intro i kept r h; simp [analyzeFrom] at h
  | succ n ih =>
    intro i kept r h
    simp only [analyzeFrom] at h
    have htk : ∀ m, (ofRe a b noTokens).tokenize t m = .ok [] := fun _ => rfl
    cases hm : (ofRe a b noTokens).findStart t i with
    | none => rw [hm] at h; simp at h; exact ⟨_, h.symm⟩
    | some m =>
      rw [hm] at h
      simp only [htk, List.append_nil] at h
      cases he : (ofRe a b noTokens).findEnd t m.stop with
      | none => rw [he] at h; simp at h; exact ⟨_, h.symm⟩
      | some m' => rw [he] at h; exact ih h

theorem analyze_noTokens {a b : Re} (ha : 0 < minLen a) (t : List Nat) :
    ∃ out, analyze (ofRe a b noTokens) t = some (.ok (out, [])) := by
  obtain ⟨r, hr, _⟩ := C53_terminates _ (contract_ofRe noTokens ha (b := b)) t
  obtain ⟨out, rfl⟩ := analyzeFrom_noTokens hr
  exact ⟨out, hr⟩

theorem stripped_exists (t : List Nat) : ∃ t' toks, Stripped t t' toks := by
  obtain ⟨t1, toks, _, h1, _⟩ := (strippers_fine t).1 urls (by simp)
  obtain ⟨t2, h2⟩ := analyze_noTokens (a := styleStartRe) (b := styleEndRe) (by decide) t1
  obtain ⟨t3, h3⟩ := analyze_noTokens (a := commentStartRe) (b := commentEndRe) (by decide) t2
  obtain ⟨t4, h4⟩ := analyze_noTokens (a := noframesStartRe) (b := noframesEndRe) (by decide) t3
  exact ⟨t4, toks, t1, t2, t3, h1, h2, h3, h4⟩

theorem crack_ok {S : Stripper} {t t' : List Nat} {toks : List Tok} {next : List Nat → Gen}
    (h : analyze S t = some (.ok (t', toks))) :
    crack S t next = ⟨toks ++ (next t').toks, (next t').stop⟩ := by
  unfold crack; rw [h]; rfl

theorem crackAll_begin {t : List Nat} (h : HasBegin t) : crackAll t = ⟨[], some .typeError⟩ := by
  unfold crackAll crack
  rw [(strippers_fine t).2.1 (occurs_begin.2 h)]
  rfl

theorem crackAll_eq {t t' : List Nat} {toks : List Tok} (h : ¬ HasBegin t) (hs : Stripped t t' toks) :
    crackAll t = ⟨toks ++ (finishBody t').toks, (finishBody t').stop⟩ := by
  obtain ⟨t1, t2, t3, h1, h2, h3, h4⟩ := hs
  unfold crackAll
  rw [crack_ok ((strippers_fine t).2.2 (fun ho => h (occurs_begin.1 ho))), crack_ok h1, crack_ok h2,
    crack_ok h3, crack_ok h4]
  simp

theorem finishBody_error {t : List Nat} (h : HasBreak t ∨ HasTag t) :
    finishBody t = ⟨[], some .typeError⟩ := by
  unfold finishBody
  by_cases hb : HasBreak t
  · rw [subStr_error (occurs_breaking.2 hb)]; rfl
  · rw [subStr_ok (fun ho => hb (occurs_breaking.1 ho))]
    rcases h with h | h
    · exact absurd h hb
    · simp only [subStr_error (occurs_html.2 h)]; rfl

theorem finishBody_ok {t : List Nat} (hb : ¬ HasBreak t) (ht : ¬ HasTag t) :
    finishBody t = tokenizeText t := by
  unfold finishBody
  rw [subStr_ok (fun ho => hb (occurs_breaking.1 ho))]
  simp only [subStr_ok (fun ho => ht (occurs_html.1 ho))]

/-! ### C55: theorems -/

/-- The claim as documented: a text part that was decoded can be tokenized. -/
def C55Claim : Prop := ∀ t : List Nat, (bodyBytes t).stop = none

/-- Apple Mail introduces a forwarded message with this line, which looks like the
beginning of a uuencoded file. -/
theorem C55_claim_false : ¬ C55Claim := by
  intro h
  have h1 := h (txt "Begin forwarded message:\n")
  revert h1
  decide

/-- Exactly when a text can be tokenized, and what the tokens are: those for virus clues
and for URLs, and those of the words that are left (C54). -/
theorem C55_body_partial (t t' : List Nat) (urlToks : List Tok)
    (hs : Stripped (lower t) t' urlToks) :
    ((bodyBytes t).stop = none ↔
      ¬ HasEntity t ∧ ¬ HasBegin (lower t) ∧ ¬ HasBreak t' ∧ ¬ HasTag t' ∧
        ∀ w ∈ words isSpace t', ¬ Dotted w ∧ ¬ HighBit w) ∧
    ((bodyBytes t).stop = none → (bodyBytes t).toks =
      virusTokens (lower t) ++ urlToks ++ (words isSpace t').flatMap wordTokens) ∧
    ((bodyBytes t).stop ≠ none → (bodyBytes t).stop = some .typeError) := by
  by_cases he : HasEntity t
  · have hb : bodyBytes t = ⟨[], some .typeError⟩ := by
      unfold bodyBytes; rw [subStr_error (occurs_numeric.2 he)]; rfl
    rw [hb]; simp [he]
  · have hb : bodyBytes t =
        ⟨virusTokens (lower t) ++ (crackAll (lower t)).toks, (crackAll (lower t)).stop⟩ := by
      unfold bodyBytes
      rw [subStr_ok (fun ho => he (occurs_numeric.1 ho))]; rfl
    by_cases hg : HasBegin (lower t)
    · rw [hb, crackAll_begin hg]; simp [hg]
    · rw [hb, crackAll_eq hg hs]
      by_cases hbt : HasBreak t' ∨ HasTag t'
      · rw [finishBody_error hbt]
        refine ⟨?_, by simp, by simp⟩
        simp only [reduceCtorEq, false_iff]
        rintro ⟨_, _, h1, h2, _⟩
        rcases hbt with h | h
        · exact h1 h
        · exact h2 h
      · rw [not_or] at hbt
        rw [finishBody_ok hbt.1 hbt.2]
        refine ⟨?_, ?_, ?_⟩
        · simp only [he, hg, hbt, not_false_iff, true_and]
          exact C54_iff_partial t'
        · intro h
          simp only at h
          rw [C54_text_partial t' ((C54_iff_partial t').1 h)]
          simp
        · intro h
          simp only at h ⊢
          by_contra hne
          have hall : ∀ w ∈ words isSpace t', (textWord w).stop = none ∨
              (textWord w).stop = some .typeError := by
            intro w _
            by_cases h1 : Dotted w
            · rw [textWord_dotted h1]; simp
            · by_cases h2 : HighBit w
              · rw [textWord_high h1 h2]; simp
              · rw [textWord_ok h1 h2]; simp
          have hgen : ∀ l : List (List Nat), (∀ w ∈ l, (textWord w).stop = none ∨
              (textWord w).stop = some .typeError) →
              (Gen.each textWord l).stop = none ∨ (Gen.each textWord l).stop = some .typeError := by
            intro l
            induction l with
            | nil => intro _; left; rfl
            | cons w l ih =>
              intro hl
              rw [Gen.each]
              rcases hl w (by simp) with hw | hw
              · simp only [Gen.andThen, hw]
                exact ih (fun v hv => hl v (List.mem_cons_of_mem _ hv))
              · right; simp [Gen.andThen, hw]
          rcases hgen _ hall with h' | h'
          · exact h h'
          · exact hne h'

/-- Every text has what `C55_body_partial` asks for. -/
theorem C55_stripped (t : List Nat) : ∃ t' toks, Stripped (lower t) t' toks := stripped_exists _

/-- Cases: tags, entities, and a plain text with a URL. -/
example : bodyBytes (txt "Some <b>bold</b> words") = ⟨[], some .typeError⟩ := by decide
example : bodyBytes (txt "caf&#233;") = ⟨[], some .typeError⟩ := by decide
example : bodyBytes (txt "one&nbsp;two") = ⟨[], some .typeError⟩ := by decide
example : bodyBytes (txt "Look at http://a.b/c NOW, height=\"0\"") =
    ⟨[.str (txt "virus:b'height=\"0'"), .bytes (txt "proto:http"), .bytes (txt "url:a"),
      .bytes (txt "url:b"), .bytes (txt "url:c"), .bytes (txt "look"), .bytes (txt "now,"),
      .bytes (txt "height=\"0\"")], none⟩ := by decide
example : Stripped (txt "at http://a.b/c <!-- x -->now") (txt "at  now")
    [.bytes (txt "proto:http"), .bytes (txt "url:a"), .bytes (txt "url:b"), .bytes (txt "url:c")] :=
  ⟨txt "at  <!-- x -->now", txt "at  <!-- x -->now", txt "at  now",
    by decide, by decide, by decide, by decide⟩

/-! ### C58 -/

/-- A line of base64 form: blanks, letters and digits (or + and /), padding, blanks, the
end of the line. -/
def B64Line (l : Txt) : Prop :=
  ∃ a b p c r : Txt, l = a ++ b ++ p ++ c ++ r ++ [10] ∧ (∀ x ∈ a, x = 32 ∨ x = 9) ∧
    (∀ x ∈ b, (97 ≤ x ∧ x ≤ 122) ∨ (65 ≤ x ∧ x ≤ 90) ∨ (48 ≤ x ∧ x ≤ 57) ∨ x = 43 ∨ x = 47) ∧
    (∀ x ∈ p, x = 61) ∧ (∀ x ∈ c, x = 32 ∨ x = 9) ∧ (r = [] ∨ r = [13])

/-- `head` is what is taken for base64 in `head ++ tail`: the lines of base64 form at the
beginning, up to the first padded one if there is one. -/
def B64Head (head tail : Txt) : Prop :=
  ∃ lines : List Txt, head = lines.flatten ∧ (∀ l ∈ lines, B64Line l) ∧
    (∀ l ∈ lines.dropLast, 61 ∉ l) ∧
    ((∃ l, lines.getLast? = some l ∧ 61 ∈ l) ∨ ∀ l rest, B64Line l → tail ≠ l ++ rest)

theorem isB64_iff {x : Nat} : isB64 x = true ↔
    (97 ≤ x ∧ x ≤ 122) ∨ (65 ≤ x ∧ x ≤ 90) ∨ (48 ≤ x ∧ x ≤ 57) ∨ x = 43 ∨ x = 47 := by
  simp only [isB64, Bool.or_eq_true, Bool.and_eq_true, decide_eq_true_eq, beq_iff_eq]
  tauto

theorem isBlank_iff {x : Nat} : isBlank x = true ↔ x = 32 ∨ x = 9 := by
  simp [isBlank]

theorem matches_b64 {t : Txt} {i j : Nat} :
    Matches t base64Re i j ↔ ∃ l, B64Line l ∧ j = i + l.length ∧ ReadsAt t i l := by
  simp only [base64Re, Re.opt, Re.cat, matches_seq, matches_grp, matches_star_chr, matches_lit]
  constructor
  · rintro ⟨_, ⟨a, rfl, ha, h1⟩, _, ⟨b, rfl, hb, h2⟩, _, ⟨p, rfl, hp, h3⟩, _, ⟨c, rfl, hc, h4⟩, k, hr,
      rfl, h6⟩
    obtain ⟨r, hr1, hr2, h5⟩ : ∃ r : Txt, (r = [] ∨ r = [13]) ∧
        k = i + a.length + b.length + p.length + c.length + r.length ∧
        ReadsAt t (i + a.length + b.length + p.length + c.length) r := by
      rw [show Re.lit [13] = .chr (· == 13) from rfl, matches_upTo_chr] at hr
      obtain ⟨r, g1, g2, g3, g4⟩ := hr
      refine ⟨r, ?_, g2, g4⟩
      cases r with
      | nil => exact .inl rfl
      | cons x r =>
        right
        have : r = [] := List.length_eq_zero_iff.1 (by simp only [List.length_cons] at g1; omega)
        subst this
        have := g3 x (by simp)
        simp at this
        rw [this]
    subst hr2
    refine ⟨a ++ b ++ p ++ c ++ r ++ [10], ⟨a, b, p, c, r, rfl, fun x hx => isBlank_iff.1 (ha x hx),
      fun x hx => isB64_iff.1 (hb x hx), fun x hx => by simpa using hp x hx,
      fun x hx => isBlank_iff.1 (hc x hx), hr1⟩, by simp only [List.length_append]; omega, ?_⟩
    simp only [readsAt_append, List.length_append, ← Nat.add_assoc]
    exact ⟨⟨⟨⟨⟨h1, h2⟩, h3⟩, h4⟩, h5⟩, h6⟩
  · rintro ⟨l, ⟨a, b, p, c, r, rfl, ha, hb, hp, hc, hr⟩, rfl, h⟩
    simp only [readsAt_append, List.length_append, ← Nat.add_assoc] at h
    refine ⟨_, ⟨a, rfl, fun x hx => isBlank_iff.2 (ha x hx), h.1.1.1.1.1⟩, _,
      ⟨b, rfl, fun x hx => isB64_iff.2 (hb x hx), h.1.1.1.1.2⟩, _,
      ⟨p, rfl, fun x hx => by simpa using hp x hx, h.1.1.1.2⟩, _,
      ⟨c, rfl, fun x hx => isBlank_iff.2 (hc x hx), h.1.1.2⟩,
      i + a.length + b.length + p.length + c.length + r.length, ?_, ?_, h.2⟩
    · rw [show Re.lit [13] = .chr (· == 13) from rfl, matches_upTo_chr]
      refine ⟨r, ?_, rfl, ?_, h.1.2⟩
      · rcases hr with rfl | rfl <;> simp
      · rcases hr with rfl | rfl <;> simp
    · simp only [List.length_append]; omega

theorem run_cat {t : List Nat} {a b : Re} {l : List Re} {s : St} :
    run t (Re.cat (a :: b :: l)) s = (run t a s).flatMap (run t (Re.cat (b :: l))) := rfl

/-- the padding is what group 1 holds -/
theorem matchAt_b64 {t : Txt} {i : Nat} {m : Match} (h : matchAt base64Re t i = some m) :
    ∃ l, B64Line l ∧ m.stop = i + l.length ∧ ReadsAt t i l ∧ (m.group t 1 ≠ [] ↔ 61 ∈ l) := by
  unfold matchAt at h
  cases hh : (run t base64Re ⟨i, []⟩).head? with
  | none => rw [hh] at h; cases h
  | some s =>
    rw [hh] at h
    simp only [Option.map_some, Option.some.injEq] at h
    subst h
    have hmem : s ∈ run t base64Re ⟨i, []⟩ := List.mem_of_head? hh
    rw [base64Re, run_cat, List.mem_flatMap] at hmem
    obtain ⟨s1, hs1, hmem⟩ := hmem
    rw [run_cat, List.mem_flatMap] at hmem
    obtain ⟨s2, hs2, hmem⟩ := hmem
    rw [run_cat, List.mem_flatMap] at hmem
    obtain ⟨s3, hs3, hmem⟩ := hmem
    rw [run, List.mem_map] at hs3
    obtain ⟨s3', hs3, rfl⟩ := hs3
    have hm1 := matches_star_chr.1 (run_sound hs1)
    have hm2 := matches_star_chr.1 (run_sound hs2)
    have hm3 := matches_star_chr.1 (run_sound hs3)
    have hm4 := run_sound hmem
    have hg1 := run_groups (by decide) hs1
    have hg2 := run_groups (by decide) hs2
    have hg3 := run_groups (by decide) hs3
    have hg4 := run_groups (by decide) hmem
    obtain ⟨a, ha1, ha2, ha3⟩ := hm1
    obtain ⟨b, hb1, hb2, hb3⟩ := hm2
    obtain ⟨p, hp1, hp2, hp3⟩ := hm3
    simp only [Re.opt, Re.cat, matches_seq, matches_star_chr, matches_lit] at hm4
    obtain ⟨_, ⟨c, rfl, hc, h4⟩, k, hr, hk, h6⟩ := hm4
    obtain ⟨r, hr1, hr2, h5⟩ : ∃ r : Txt, (r = [] ∨ r = [13]) ∧
        k = s3'.pos + c.length + r.length ∧ ReadsAt t (s3'.pos + c.length) r := by
      rw [show Re.lit [13] = .chr (· == 13) from rfl, matches_upTo_chr] at hr
      obtain ⟨r, g1, g2, g3, g4⟩ := hr
      refine ⟨r, ?_, g2, g4⟩
      cases r with
      | nil => exact .inl rfl
      | cons x r =>
        right
        have : r = [] := List.length_eq_zero_iff.1 (by simp only [List.length_cons] at g1; omega)
        subst this
        have := g3 x (by simp)
        simp at this
        rw [this]
    have hgrp : Match.group ⟨i, s.pos, s.groups⟩ t 1 = p := by
      simp only [Match.group, hg4]
      simp only [List.find?, beq_self_eq_true]
      rw [hp1]
      exact readsAt_slice hp3
    subst hr2
    simp only at ha1 ha3 h4 h5 h6 hk
    rw [hp1, hb1, ha1] at h4 h5 h6 hk
    rw [hb1, ha1] at hp3
    rw [ha1] at hb3
    refine ⟨a ++ b ++ p ++ c ++ r ++ [10], ⟨a, b, p, c, r, rfl, fun x hx => isBlank_iff.1 (ha2 x hx),
      fun x hx => isB64_iff.1 (hb2 x hx), fun x hx => by simpa using hp2 x hx,
      fun x hx => isBlank_iff.1 (hc x hx), hr1⟩, ?_, ?_, ?_⟩
    · show s.pos = _
      rw [hk]; simp only [List.length_append]; omega
    · simp only [readsAt_append, List.length_append, ← Nat.add_assoc]
      exact ⟨⟨⟨⟨⟨ha3, hb3⟩, hp3⟩, h4⟩, h5⟩, h6⟩
    · rw [hgrp]
      constructor
      · intro hne
        obtain ⟨x, q, rfl⟩ := List.exists_cons_of_ne_nil hne
        have : x = 61 := by simpa using hp2 x (by simp)
        subst this
        simp
      · intro hm hp0
        subst hp0
        simp only [List.append_nil, List.mem_append] at hm
        rcases hm with (((hm | hm) | hm) | hm) | hm
        · have := isBlank_iff.1 (ha2 _ hm); omega
        · have := isB64_iff.1 (hb2 _ hm); omega
        · have := isBlank_iff.1 (hc _ hm); omega
        · rcases hr1 with rfl | rfl <;> simp at hm
        · simp at hm

theorem b64Line_pos {l : Txt} (h : B64Line l) : 0 < l.length := by
  obtain ⟨a, b, p, c, r, rfl, _⟩ := h
  simp only [List.length_append, List.length_singleton]
  omega

theorem b64Line_nl {l : Txt} (h : B64Line l) : ∃ s, l = s ++ [10] ∧ 10 ∉ s := by
  obtain ⟨a, b, p, c, r, rfl, ha, hb, hp, hc, hr⟩ := h
  refine ⟨_, rfl, ?_⟩
  simp only [List.mem_append]
  rintro ((((h | h) | h) | h) | h)
  · have := ha _ h; omega
  · have := hb _ h; omega
  · have := hp _ h; omega
  · have := hc _ h; omega
  · rcases hr with rfl | rfl <;> simp at h

/-- a line ends at the first line end -/
theorem b64Line_unique {l l' r r' : Txt} (h : B64Line l) (h' : B64Line l') (he : l ++ r = l' ++ r') :
    l = l' ∧ r = r' := by
  obtain ⟨s, rfl, hs⟩ := b64Line_nl h
  obtain ⟨s', rfl, hs'⟩ := b64Line_nl h'
  rw [List.append_assoc, List.append_assoc, List.singleton_append, List.singleton_append] at he
  have key : ∀ (u u' v v' : Txt), 10 ∉ u → 10 ∉ u' → u ++ 10 :: v = u' ++ 10 :: v' → u = u' ∧ v = v' := by
    intro u
    induction u with
    | nil =>
      intro u' v v' _ h2 h3
      cases u' with
      | nil => simpa using h3
      | cons x u' =>
        simp at h3
        exact absurd (by simp [h3.1]) h2
    | cons x u ih =>
      intro u' v v' h1 h2 h3
      cases u' with
      | nil =>
        simp at h3
        exact absurd (by simp [h3.1]) h1
      | cons y u' =>
        simp only [List.cons_append, List.cons.injEq] at h3
        obtain ⟨g1, g2⟩ := ih u' v v' (fun h => h1 (List.mem_cons_of_mem _ h))
          (fun h => h2 (List.mem_cons_of_mem _ h)) h3.2
        exact ⟨by rw [h3.1, g1], g2⟩
  obtain ⟨rfl, rfl⟩ := key _ _ _ _ hs hs' he
  exact ⟨rfl, rfl⟩

/-- The part taken for base64 is determined by the text. -/
theorem C58_head_unique {head tail head' tail' : Txt} (h : B64Head head tail)
    (h' : B64Head head' tail') (he : head ++ tail = head' ++ tail') : head = head' := by
  obtain ⟨ls, rfl, h1, h2, h3⟩ := h
  obtain ⟨ls', rfl, h1', h2', h3'⟩ := h'
  have key : ∀ ls ls' : List Txt, (∀ l ∈ ls, B64Line l) → (∀ l ∈ ls.dropLast, 61 ∉ l) →
      ((∃ l, ls.getLast? = some l ∧ 61 ∈ l) ∨ ∀ l rest, B64Line l → tail ≠ l ++ rest) →
      (∀ l ∈ ls', B64Line l) → (∀ l ∈ ls'.dropLast, 61 ∉ l) →
      ((∃ l, ls'.getLast? = some l ∧ 61 ∈ l) ∨ ∀ l rest, B64Line l → tail' ≠ l ++ rest) →
      ls.flatten ++ tail = ls'.flatten ++ tail' → ls = ls' := by
    intro ls
    induction ls with
    | nil =>
      intro ls' _ _ h3 h1' _ _ he
      cases ls' with
      | nil => rfl
      | cons l' ls' =>
        rcases h3 with ⟨l, hl, _⟩ | h3
        · simp at hl
        · rw [List.flatten_nil, List.nil_append, List.flatten_cons, List.append_assoc] at he
          exact absurd he (h3 _ _ (h1' l' (by simp)))
    | cons l ls ih =>
      intro ls' h1 h2 h3 h1' h2' h3' he
      cases ls' with
      | nil =>
        rcases h3' with ⟨l, hl, _⟩ | h3'
        · simp at hl
        · rw [List.flatten_nil, List.nil_append, List.flatten_cons, List.append_assoc] at he
          exact absurd he.symm (h3' _ _ (h1 l (by simp)))
      | cons l' ls' =>
        simp only [List.flatten_cons, List.append_assoc] at he
        obtain ⟨rfl, he2⟩ := b64Line_unique (h1 l (by simp)) (h1' l' (by simp)) he
        congr 1
        -- a padded first line is the last one
        by_cases hp : 61 ∈ l
        · have e1 : ls = [] := by
            cases ls with
            | nil => rfl
            | cons x xs => exact absurd hp (h2 l (by simp))
          have e2 : ls' = [] := by
            cases ls' with
            | nil => rfl
            | cons x xs => exact absurd hp (h2' l (by simp))
          rw [e1, e2]
        · apply ih ls' (fun x hx => h1 x (List.mem_cons_of_mem _ hx)) _ _
            (fun x hx => h1' x (List.mem_cons_of_mem _ hx)) _ _ he2
          · intro x hx
            cases ls with
            | nil => simp at hx
            | cons y ys => exact h2 x (by simp only [List.dropLast_cons_cons]; exact List.mem_cons_of_mem _ hx)
          · rcases h3 with ⟨x, hx, hx2⟩ | h3
            · cases ls with
              | nil => simp at hx; subst hx; exact absurd hx2 hp
              | cons y ys => exact .inl ⟨x, by rw [List.getLast?_cons_cons] at hx; exact hx, hx2⟩
            · exact .inr h3
          · intro x hx
            cases ls' with
            | nil => simp at hx
            | cons y ys => exact h2' x (by simp only [List.dropLast_cons_cons]; exact List.mem_cons_of_mem _ hx)
          · rcases h3' with ⟨x, hx, hx2⟩ | h3'
            · cases ls' with
              | nil => simp at hx; subst hx; exact absurd hx2 hp
              | cons y ys => exact .inl ⟨x, by rw [List.getLast?_cons_cons] at hx; exact hx, hx2⟩
            · exact .inr h3'
  rw [key ls ls' h1 h2 h3 h1' h2' h3' he]

theorem base64Loop_spec {t : Txt} {n : Nat} : ∀ {i : Nat}, i ≤ t.length → t.length - i < n →
    ∃ lines : List Txt, base64Loop t n i = some (i + lines.flatten.length) ∧
      ReadsAt t i lines.flatten ∧ (∀ l ∈ lines, B64Line l) ∧ (∀ l ∈ lines.dropLast, 61 ∉ l) ∧
      ((∃ l, lines.getLast? = some l ∧ 61 ∈ l) ∨
        ∀ l, B64Line l → ¬ ReadsAt t (i + lines.flatten.length) l) := by
  induction n with
  | zero => intro i _ h; omega
  | succ n ih =>
    intro i hi hn
    rw [base64Loop]
    cases hm : matchAt base64Re t i with
    | none =>
      refine ⟨[], by simp, readsAt_nil _ _, by simp, by simp, .inr ?_⟩
      intro l hl hr
      exact matchAt_none.1 hm _ (matches_b64.2 ⟨l, hl, rfl, by simpa using hr⟩)
    | some m =>
      obtain ⟨l, hl, hstop, hr, hg⟩ := matchAt_b64 hm
      have hpos := b64Line_pos hl
      simp only
      by_cases hp : 61 ∈ l
      · rw [if_pos (hg.2 hp)]
        refine ⟨[l], by simp [hstop], by simpa using hr, by simpa using hl, by simp,
          .inl ⟨l, by simp, hp⟩⟩
      · rw [if_neg (fun h => hp (hg.1 h))]
        have hle : i + l.length ≤ t.length := by
          obtain ⟨post, he⟩ := hr
          have := congrArg List.length he
          rw [List.length_drop, List.length_append] at this
          omega
        obtain ⟨ls, h1, h2, h3, h4, h5⟩ := ih (i := m.stop) (by omega) (by omega)
        rw [hstop] at h1 h2 h5
        rw [hstop, h1]
        refine ⟨l :: ls, by simp [Nat.add_assoc], ?_, ?_, ?_, ?_⟩
        · rw [List.flatten_cons, readsAt_append]; exact ⟨hr, h2⟩
        · intro x hx
          rcases List.mem_cons.1 hx with rfl | hx
          · exact hl
          · exact h3 x hx
        · intro x hx
          cases ls with
          | nil => simp at hx
          | cons y ys =>
            rw [List.dropLast_cons_cons] at hx
            rcases List.mem_cons.1 hx with rfl | hx
            · exact hp
            · exact h4 x hx
        · rcases h5 with ⟨x, hx, hx2⟩ | h5
          · left
            refine ⟨x, ?_, hx2⟩
            cases ls with
            | nil => simp at hx
            | cons y ys => rw [List.getLast?_cons_cons]; exact hx
          · right
            rw [List.flatten_cons, List.length_append, ← Nat.add_assoc]
            exact h5

theorem base64Loop_head (t : Txt) : ∃ head tail, t = head ++ tail ∧ B64Head head tail ∧
    ∀ n, t.length < n → base64Loop t n 0 = some head.length := by
  obtain ⟨ls, h1, h2, h3, h4, h5⟩ := base64Loop_spec (t := t) (n := t.length + 1) (Nat.zero_le _) (by omega)
  obtain ⟨post, hp⟩ := h2
  rw [List.drop_zero] at hp
  have hB : B64Head ls.flatten post := by
    refine ⟨ls, rfl, h3, h4, ?_⟩
    rcases h5 with h5 | h5
    · exact .inl h5
    · right
      intro l rest hl he
      apply h5 l hl
      refine ⟨rest, ?_⟩
      rw [Nat.zero_add, hp, List.drop_left, he]
  refine ⟨ls.flatten, post, hp, hB, ?_⟩
  intro n hn
  obtain ⟨ls', g1, g2, g3, g4, g5⟩ := base64Loop_spec (t := t) (n := n) (Nat.zero_le _) (by omega)
  obtain ⟨post', hp'⟩ := g2
  rw [List.drop_zero] at hp'
  have hB' : B64Head ls'.flatten post' := by
    refine ⟨ls', rfl, g3, g4, ?_⟩
    rcases g5 with g5 | g5
    · exact .inl g5
    · right
      intro l rest hl he
      apply g5 l hl
      refine ⟨rest, ?_⟩
      rw [Nat.zero_add, hp', List.drop_left, he]
  have := C58_head_unique hB' hB (by rw [← hp, ← hp'])
  rw [g1, this, Nat.zero_add]

/-- The loop ends, after at most one round per character and one more. -/
theorem C58_terminates (t : Txt) : ∃ i, ∀ n, t.length < n → base64Loop t n 0 = some i := by
  obtain ⟨head, _, _, _, h⟩ := base64Loop_head t
  exact ⟨_, h⟩

/-- What `try_to_repair_damaged_base64` does: it takes the lines of base64 form at the
beginning for base64, and if there are any, it raises TypeError if they can be decoded
and drops them if they cannot. -/
theorem C58_repair (decode : Txt → Option (List Nat)) (t : Txt) :
    ∃ head tail, t = head ++ tail ∧ B64Head head tail ∧
      (head = [] → repair decode t = some (.ok t)) ∧
      (head ≠ [] → decode head = none → repair decode t = some (.ok tail)) ∧
      (head ≠ [] → ∀ b, decode head = some b → repair decode t = some (.error .typeError)) := by
  obtain ⟨head, tail, he, hB, h⟩ := base64Loop_head t
  have hr : repair decode t = some (repairFrom decode t head.length) := by
    unfold repair; rw [h _ (by omega)]; rfl
  refine ⟨head, tail, he, hB, ?_, ?_, ?_⟩
  · rintro rfl
    rw [hr]; rfl
  · intro hne hd
    have : head.length ≠ 0 := fun h0 => hne (List.length_eq_zero_iff.1 h0)
    rw [hr, repairFrom, if_neg this, he, List.take_left, hd, List.drop_left]
  · intro hne b hd
    have : head.length ≠ 0 := fun h0 => hne (List.length_eq_zero_iff.1 h0)
    rw [hr, repairFrom, if_neg this, he, List.take_left, hd]

/-- Cases: the padded line is the last one of the head; a text that begins with an empty
line has a head; other texts have none. -/
example : B64Head (txt "QUJD\nQQ==\n") (txt "QUJD\nend") := by
  refine ⟨[txt "QUJD\n", txt "QQ==\n"], by decide, ?_, by decide, .inl ⟨txt "QQ==\n", by decide, by decide⟩⟩
  intro l hl
  simp only [List.mem_cons, List.not_mem_nil, or_false] at hl
  rcases hl with rfl | rfl
  · exact ⟨[], txt "QUJD", [], [], [], by decide, by decide, by decide, by decide, by decide, .inl rfl⟩
  · exact ⟨[], txt "QQ", txt "==", [], [], by decide, by decide, by decide, by decide, by decide, .inl rfl⟩
example : repair (fun _ => none) (txt "QUJD\nQQ==\nQUJD\nend") = some (.ok (txt "QUJD\nend")) := by decide
example : repair (fun _ => some [65]) (txt "QUJD\nQQ==\nend") = some (.error .typeError) := by decide
example : repair (fun _ => some []) (txt "\nhello!") = some (.error .typeError) := by decide
example : repair (fun _ => none) (txt "hello!\n") = some (.ok (txt "hello!\n")) := by decide

end Sb.Props
