import Verif.Model.Options
import Verif.Props.TokenHeaders
import Mathlib.Data.List.Infix

/-
C85: basic header tokenization.
C86: Habeas headers.
C87: what the addresses of the recipients have in common.
-/

set_option linter.unusedSectionVars false

namespace Sb.Props
open Py Py.Re Py.Text Sb.Mail Sb.Strip Sb.Tokenize

/-! ### C85 -/

/-- The words of a header value: runs of word characters, of $, % and dots, and of
characters from 128 to 255. -/
def lineWords (U : Str) (v : Txt) : List Txt :=
  words (fun c => !(U.word c || decide (128 ≤ c ∧ c ≤ 255) || (txt "$.%").contains c)) v

/-- The names that are skipped. -/
def Skipped (U : Str) (k : Txt) : Prop := ∃ rest, U.lower k = txt "received date x-" ++ rest

/-- The names that the documentation says are skipped. -/
def SkippedDoc (U : Str) (k : Txt) : Prop :=
  U.lower k = txt "received" ∨ U.lower k = txt "date" ∨ ∃ rest, U.lower k = txt "x-" ++ rest

/-- A header line that can be tokenized: one that is skipped, or a str without long
words. -/
def LineFine (U : Str) (kv : Txt × HVal) : Prop :=
  Skipped U kv.1 ∨ ∃ v, kv.2 = .str v ∧ ∀ w ∈ lineWords U v, w.length ≤ 12

/-- The tokens of a header line. -/
def LineTokens (U : Str) (kv : Txt × HVal) (toks : List Tok) : Prop :=
  (Skipped U kv.1 ∧ toks = []) ∨
  (¬ Skipped U kv.1 ∧ ∃ v, kv.2 = .str v ∧ toks =
    ((lineWords U v).filter (fun w => 3 ≤ w.length)).map
      (fun w => .str (U.lower kv.1 ++ txt ":" ++ w)))

theorem basicSkip_iff (k : Txt) : (matchAt basicSkipRe k 0).isSome = true ↔
    ∃ rest, k = txt "received date x-" ++ rest := by
  constructor
  · intro h
    cases hm : matchAt basicSkipRe k 0 with
    | none => rw [hm] at h; cases h
    | some m =>
      have h1 := (matchAt_some hm).2
      unfold basicSkipRe at h1
      rw [matches_seq] at h1
      obtain ⟨j, h2, _⟩ := h1
      rw [matches_lit] at h2
      obtain ⟨_, post, hp⟩ := h2
      exact ⟨post, by simpa using hp⟩
  · rintro ⟨rest, rfl⟩
    rw [← Option.ne_none_iff_isSome]
    intro hn
    refine matchAt_none.1 hn (txt "received date x-").length ?_
    unfold basicSkipRe
    rw [matches_seq]
    exact ⟨_, matches_lit.2 ⟨by simp, rest, by simp⟩, .starZ⟩

theorem lineWords_eq (U : Str) (v : Txt) : lineWords U v = words (fun c => !subjectCh U c) v := by
  rw [subjectCh_eq]; rfl

theorem basicLine_stop (U : Str) (kv : Txt × HVal) :
    (basicLine U kv).stop = none ↔ LineFine U kv := by
  unfold basicLine LineFine
  by_cases hs : Skipped U kv.1
  · simp [(basicSkip_iff _).2 hs, hs, Gen.yield]
  · have : ¬ (matchAt basicSkipRe (U.lower kv.1) 0).isSome = true := fun h => hs ((basicSkip_iff _).1 h)
    simp only [this, hs, false_or]
    cases hv : kv.2 with
    | header x => simp [Gen.raise]
    | str v =>
      simp only [Bool.false_eq_true, if_false, each_stop_none, HVal.str.injEq, exists_eq_left',
        lineWords_eq]
      exact forall₂_congr (fun w _ => wordStr_stop)

theorem basicLine_toks (U : Str) (kv : Txt × HVal) (h : LineFine U kv) :
    LineTokens U kv (basicLine U kv).toks := by
  unfold LineTokens
  by_cases hs : Skipped U kv.1
  · refine .inl ⟨hs, ?_⟩
    simp [basicLine, (basicSkip_iff _).2 hs, Gen.yield]
  · refine .inr ⟨hs, ?_⟩
    rcases h with h | ⟨v, hv, h⟩
    · exact absurd h hs
    · refine ⟨v, hv, ?_⟩
      have : ¬ (matchAt basicSkipRe (U.lower kv.1) 0).isSome = true :=
        fun h => hs ((basicSkip_iff _).1 h)
      simp only [basicLine, this, hv]
      rw [lineWords_eq] at h ⊢
      rw [if_neg (by simp)]
      generalize words (fun c => !subjectCh U c) v = ws at h
      rw [each_ok (f := fun w => Gen.map _ (wordStr w))
        (fun w hw => show (wordStr w).stop = none from wordStr_stop.2 (h w hw))]
      induction ws with
      | nil => rfl
      | cons w ws ih =>
        have ih := ih (fun v hv => h v (List.mem_cons_of_mem _ hv))
        simp only at ih
        simp only [List.flatMap_cons, ih]
        have hw := h w (by simp)
        by_cases h3 : 3 ≤ w.length
        · simp [wordStr, maxWord, h3, hw, Gen.yield, Gen.map, txt]
        · simp [wordStr, maxWord, h3, Gen.yield, Gen.map]

/-- **C85, as documented.** Called with basic_header_tokenize, the tokenizer turns every
header line into tokens, except for the lines named received, date and x-…. -/
def C85Claim : Prop :=
  ∀ U o parts h x octets images textParts,
    (callWith U o true false parts h x octets images textParts).stop = none →
    ∀ k v w, (k, HVal.str v) ∈ x.items → w ∈ lineWords U.toStr v → 3 ≤ w.length → w.length ≤ 12 →
      ∀ b, AsBytes (.str (U.lower k ++ txt ":" ++ w)) b →
        (b ∈ (callWith U o true false parts h x octets images textParts).toks ↔
          ¬ SkippedDoc U.toStr k)

/-- **C85.** The arguments of the call have no effect. -/
theorem C85_call_ignores (U : StrMore) (o : Opts) (basic basicOnly : Bool) (parts : List PartView)
    (h : HeaderView) (x : MoreView) (octets images : List Blob) (textParts : List Payload) :
    callWith U o basic basicOnly parts h x octets images textParts =
      callWith U o false false parts h x octets images textParts := rfl

/-- **C85.** Nor have the header lines, the options for which are only in
`tokenize_headers`. -/
theorem C85_lines_unused (U : StrMore) (o : Opts) (basic basicOnly : Bool) (parts : List PartView)
    (h : HeaderView) (x : MoreView) (items : List (Txt × HVal)) (octets images : List Blob)
    (textParts : List Payload) :
    callWith U o basic basicOnly parts h { x with items := items } octets images textParts =
      callWith U o basic basicOnly parts h x octets images textParts := rfl

/-- **C85.** What `tokenize_headers` does with basic_header_tokenize_only: it raises
unless every line can be tokenized, and otherwise gives the tokens of the lines. -/
theorem C85_only_partial (U : StrMore) (o : Opts) (parts : List PartView) (h : HeaderView)
    (x : MoreView) :
    ((tokenizeHeadersWith U o true true parts h x).stop = none ↔
      (∀ p ∈ parts, PartFine p) ∧ ∀ kv ∈ x.items, LineFine U.toStr kv) ∧
    ((tokenizeHeadersWith U o true true parts h x).stop = none →
      ∃ lines : List (List Tok), List.Forall₂ (LineTokens U.toStr) x.items lines ∧
        (tokenizeHeadersWith U o true true parts h x).toks =
          parts.flatMap (fun p => (crackContent U.toStr p).toks) ++ lines.flatten) := by
  have e : tokenizeHeadersWith U o true true parts h x =
      (Gen.each (crackContent U.toStr) parts).andThen
        ((basicTokens U.toStr x.items).andThen (.yield [])) := rfl
  have hiff : (tokenizeHeadersWith U o true true parts h x).stop = none ↔
      (∀ p ∈ parts, PartFine p) ∧ ∀ kv ∈ x.items, LineFine U.toStr kv := by
    rw [e]
    simp only [andThen_stop_none, each_stop_none, crackContent_stop, basicTokens, basicLine_stop]
    simp [Gen.yield]
  refine ⟨hiff, fun hs => ?_⟩
  obtain ⟨h1, h2⟩ := hiff.1 hs
  refine ⟨x.items.map (fun kv => (basicLine U.toStr kv).toks), ?_, ?_⟩
  · have : ∀ items : List (Txt × HVal), (∀ kv ∈ items, LineFine U.toStr kv) →
        List.Forall₂ (LineTokens U.toStr) items (items.map (fun kv => (basicLine U.toStr kv).toks)) := by
      intro items hi
      induction items with
      | nil => exact .nil
      | cons kv items ih =>
        exact .cons (basicLine_toks _ kv (hi kv (by simp)))
          (ih (fun kv' h' => hi kv' (List.mem_cons_of_mem _ h')))
    exact this _ h2
  · rw [e, each_ok (fun p hp => (crackContent_stop _ p).2 (h1 p hp)), basicTokens,
      each_ok (fun kv hkv => (basicLine_stop _ kv).2 (h2 kv hkv))]
    simp [Gen.andThen, Gen.yield, List.flatMap]

/-- **C85.** Without the second argument the other tokens follow, without the first
there are only the others. -/
theorem C85_both_partial (U : StrMore) (o : Opts) (parts : List PartView) (h : HeaderView)
    (x : MoreView) :
    tokenizeHeadersWith U o true false parts h x =
        (tokenizeHeadersWith U o true true parts h x).andThen (tokenizeHeadersRest U o h x) ∧
      ∀ b, tokenizeHeadersWith U o false b parts h x =
        (Gen.each (crackContent U.toStr) parts).andThen (tokenizeHeadersRest U o h x) := by
  constructor
  · show (Gen.each (crackContent U.toStr) parts).andThen
        ((basicTokens U.toStr x.items).andThen (tokenizeHeadersRest U o h x)) =
      ((Gen.each (crackContent U.toStr) parts).andThen
        ((basicTokens U.toStr x.items).andThen (.yield []))).andThen (tokenizeHeadersRest U o h x)
    generalize Gen.each (crackContent U.toStr) parts = a
    generalize basicTokens U.toStr x.items = b
    obtain ⟨a, sa⟩ := a
    obtain ⟨b, sb⟩ := b
    cases sa <;> cases sb <;> simp [Gen.andThen, Gen.yield]
  · intro b
    show (Gen.each (crackContent U.toStr) parts).andThen
        ((Gen.yield []).andThen (tokenizeHeadersRest U o h x)) = _
    rfl

/-- **C85.** A name without a space is never skipped: the three patterns were meant to be
separate, but are one. -/
theorem C85_never_skipped (U : Str) (k : Txt) (hk : 32 ∉ U.lower k) : ¬ Skipped U k := by
  rintro ⟨rest, h⟩
  exact hk (by rw [h]; simp [txt])

/-- A message with some header lines, of which only the subject is looked at by
default. -/
def withItems (items : List (Txt × HVal)) : MoreView :=
  ⟨items, fun _ => none, [], [], .yield []⟩

/-- ASCII -/
def asciiMore : StrMore := ⟨asciiStr, isDigit, fun n => n.log2⟩

/-- **C85 is false.** The tokens are missing. -/
theorem C85_claim_false : ¬ C85Claim := by
  intro h
  have := (h asciiMore Opts.default [] (onlySubject (txt "abc"))
    (withItems [(txt "List-Id", .str (txt "friends"))]) [] [] [] (by decide)
    (txt "List-Id") (txt "friends") (txt "friends") (by simp [withItems])
    (by decide) (by decide) (by decide) (.bytes (txt "list-id:friends")) (by
      rw [← tokBytes_ok]; decide)).2 (by
      rintro (h | h | ⟨rest, h⟩)
      · revert h; decide
      · revert h; decide
      · have := congrArg (List.take 2) h
        revert this
        simp [txt, asciiMore, asciiStr, Mail.lower, Mail.lowerCh])
  revert this
  decide

/-- Cases: a line with two words; the name Received is not skipped; a long word. -/
example : tokenizeHeadersWith asciiMore Opts.default true true [] (onlySubject [])
    (withItems [(txt "List-Id", .str (txt "my friends, hi")), (txt "Received", .str (txt "from 1.2.3"))]) =
    ⟨[.str (txt "list-id:friends"), .str (txt "received:from"), .str (txt "received:1.2.3")], none⟩ := by
  decide
example : (tokenizeHeadersWith asciiMore Opts.default true true [] (onlySubject [])
    (withItems [(txt "List-Id", .str (txt "acquaintances"))])).stop = some .typeError := by decide

/-! ### C86 -/

/-- The Habeas mark: nine lines. -/
def markLines : List Txt :=
  [txt "winter into spring", txt "brightly anticipated", txt "like Habeas SWE (tm)",
    txt "Copyright 2002 Habeas (tm)", txt "Sender Warranted Email (SWE) (tm). The sender of this",
    txt "email in exchange for a license for this Habeas",
    txt "warrant mark warrants that this is a Habeas Compliant",
    txt "Message (HCM) and not spam. Please report use of this",
    txt "mark in spam to <http://www.habeas.com/report/>."]

/-- The headers of the mark, X-Habeas-SWE-1 to X-Habeas-SWE-9, with their lines. -/
def mark : List (Txt × Txt) :=
  ((List.range 9).map (fun i => txt "X-Habeas-SWE-" ++ digitsOf (i + 1))).zip markLines

/-- The text of a header value. -/
def textOf : HVal → Txt
  | .str t => t
  | .header t => t

/-- A Header object can be compared if it has only ASCII characters and surrogates that
stand for bytes. -/
def Comparable (v : HVal) : Prop :=
  ∀ t, v = .header t → ∀ c ∈ t, c < 128 ∨ (0xDC80 ≤ c ∧ c ≤ 0xDCFF)

theorem habeasHeaders_eq : habeasHeaders = mark := by decide

theorem mark_ascii : ∀ p ∈ mark, ∀ c ∈ p.2, c < 128 := by decide

theorem mapM_headerChar_ok {t : Txt} (h : ∀ c ∈ t, c < 128 ∨ (0xDC80 ≤ c ∧ c ≤ 0xDCFF)) :
    t.mapM headerChar = .ok (t.map (fun c => if c < 128 then c else 0xFFFD)) := by
  induction t with
  | nil => rfl
  | cons c t ih =>
    rw [List.mapM_cons, ih (fun d hd => h d (List.mem_cons_of_mem _ hd))]
    rcases h c (by simp) with hc | hc
    · simp [headerChar, hc, bind, Except.bind, pure, Except.pure]
    · have : ¬ c < 128 := by omega
      simp [headerChar, hc, this, bind, Except.bind, pure, Except.pure]

theorem mapM_headerChar_error {t : Txt} (h : ¬ ∀ c ∈ t, c < 128 ∨ (0xDC80 ≤ c ∧ c ≤ 0xDCFF)) :
    t.mapM headerChar = .error .valueError := by
  induction t with
  | nil => exact absurd (by simp) h
  | cons c t ih =>
    rw [List.mapM_cons]
    by_cases hc : c < 128 ∨ (0xDC80 ≤ c ∧ c ≤ 0xDCFF)
    · have ih := ih (fun h' => h (by
        intro d hd
        rcases List.mem_cons.1 hd with rfl | hd
        · exact hc
        · exact h' d hd))
      rw [ih]
      rcases hc with hc | hc
      · simp [headerChar, hc, bind, Except.bind]
      · have : ¬ c < 128 := by omega
        simp [headerChar, hc, this, bind, Except.bind]
    · have h1 : ¬ c < 128 := fun h => hc (.inl h)
      have h2 : ¬ (0xDC80 ≤ c ∧ c ≤ 0xDCFF) := fun h => hc (.inr h)
      simp only [headerChar, h1, if_false, h2, bind, Except.bind]

theorem map_replace_eq {t val : Txt} (hv : ∀ c ∈ val, c < 128) :
    t.map (fun c => if c < 128 then c else 0xFFFD) = val ↔ t = val := by
  induction t generalizing val with
  | nil => simp
  | cons c t ih =>
    cases val with
    | nil => simp
    | cons d val =>
      have hd := hv d (by simp)
      have := ih (val := val) (fun x hx => hv x (List.mem_cons_of_mem _ hx))
      simp only [List.map_cons, List.cons.injEq, this]
      by_cases hc : c < 128
      · simp [hc]
      · simp only [hc, if_false]
        constructor
        · rintro ⟨h, _⟩; omega
        · rintro ⟨h, _⟩; omega

theorem equalsStr_ok {v : HVal} {val : Txt} (hv : ∀ c ∈ val, c < 128) (h : Comparable v) :
    equalsStr v val = .ok (textOf v == val) := by
  cases v with
  | str t => rfl
  | header t =>
    rw [equalsStr, mapM_headerChar_ok (h t rfl)]
    simp only [Except.map, textOf]
    congr 1
    rw [Bool.eq_iff_iff, beq_iff_eq, beq_iff_eq]
    exact map_replace_eq hv

theorem equalsStr_error {v : HVal} {val : Txt} (h : ¬ Comparable v) :
    equalsStr v val = .error .valueError := by
  cases v with
  | str t => exact absurd (fun t' h' => by cases h') h
  | header t =>
    rw [equalsStr, mapM_headerChar_error]
    · rfl
    · intro h'
      apply h
      intro t' ht
      injection ht with ht
      subst ht
      exact h'

/-- What the loop has counted so far and what the header lines add. -/
theorem habeasLoop_ok (U : Str) (get : Txt → Option HVal) (reduce : Bool) (l : List (Txt × Txt))
    (hl : ∀ p ∈ l, ∀ c ∈ p.2, c < 128) (hc : ∀ p ∈ l, ∀ v, get p.1 = some v → Comparable v)
    (n : Nat) (b : Bool) :
    habeasLoop U get reduce l n b =
      (.yield (if reduce then [] else l.filterMap (fun p => (get p.1).map (fun v =>
          .str (U.lower p.1 ++ (if textOf v = p.2 then txt ":valid" else txt ":invalid"))))),
        (if reduce then n + (l.filter (fun p => (get p.1).any (fun v => textOf v == p.2))).length else n),
        (if reduce then b || l.any (fun p => (get p.1).any (fun v => textOf v != p.2)) else b)) := by
  induction l generalizing n b with
  | nil => cases reduce <;> simp [habeasLoop]
  | cons p l ih =>
    obtain ⟨opt, val⟩ := p
    have ih := fun n b => ih (fun p hp => hl p (List.mem_cons_of_mem _ hp))
      (fun p hp => hc p (List.mem_cons_of_mem _ hp)) n b
    rw [habeasLoop]
    cases hg : get opt with
    | none => simp only; rw [ih]; simp [hg]
    | some v =>
      simp only
      rw [equalsStr_ok (hl (opt, val) (by simp)) (hc (opt, val) (by simp) v hg)]
      cases reduce with
      | true =>
        simp only [if_true]
        rw [ih]
        by_cases he : textOf v = val
        · simp [hg, he]; omega
        · simp [hg, he, bne, Bool.or_assoc]
      | false =>
        simp only [Bool.false_eq_true, if_false]
        rw [ih]
        by_cases he : textOf v = val
        · simp [hg, he, Gen.andThen, Gen.yield]
        · simp [hg, he, Gen.andThen, Gen.yield]

theorem habeasLoop_error (U : Str) (get : Txt → Option HVal) (reduce : Bool) (l : List (Txt × Txt))
    (hl : ∀ p ∈ l, ∀ c ∈ p.2, c < 128) (hc : ¬ ∀ p ∈ l, ∀ v, get p.1 = some v → Comparable v)
    (n : Nat) (b : Bool) : (habeasLoop U get reduce l n b).1.stop = some .valueError := by
  induction l generalizing n b with
  | nil => exact absurd (by simp) hc
  | cons p l ih =>
    obtain ⟨opt, val⟩ := p
    have hl' : ∀ p ∈ l, ∀ c ∈ p.2, c < 128 := fun p hp => hl p (List.mem_cons_of_mem _ hp)
    rw [habeasLoop]
    cases hg : get opt with
    | none =>
      refine ih hl' (fun h => hc ?_) _ _
      intro p hp v hv
      rcases List.mem_cons.1 hp with rfl | hp
      · rw [hg] at hv; cases hv
      · exact h p hp v hv
    | some v =>
      simp only
      by_cases hcv : Comparable v
      · have ih := fun n b => ih hl' (fun h => hc (by
          intro p hp v' hv
          rcases List.mem_cons.1 hp with rfl | hp
          · rw [hg] at hv; injection hv with hv; subst hv; exact hcv
          · exact h p hp v' hv)) n b
        rw [equalsStr_ok (hl (opt, val) (by simp)) hcv]
        cases reduce with
        | true => exact ih _ _
        | false =>
          simp only [Bool.false_eq_true, if_false, yield_andThen]
          exact ih _ _
      · rw [equalsStr_error hcv]
        rfl

/-- **C86.** One token for each header of the mark that the message has: valid if it has
the right text. -/
theorem C86_each (U : Str) (get : Txt → Option HVal)
    (hc : ∀ p ∈ mark, ∀ v, get p.1 = some v → Comparable v) :
    habeasTokens U get false =
      .yield (mark.filterMap (fun p => (get p.1).map (fun v =>
        .str (U.lower p.1 ++ (if textOf v = p.2 then txt ":valid" else txt ":invalid"))))) := by
  unfold habeasTokens
  rw [habeasHeaders_eq, habeasLoop_ok U get false mark mark_ascii hc]
  simp [Gen.andThen, Gen.yield]

/-- **C86.** With X_REDUCE_HABEAS_HEADERS there is one token: invalid if a header of the
mark has the wrong text, else valid if all nine are there, and none otherwise. -/
theorem C86_reduced (U : Str) (get : Txt → Option HVal)
    (hc : ∀ p ∈ mark, ∀ v, get p.1 = some v → Comparable v) :
    ((∃ p ∈ mark, ∃ v, get p.1 = some v ∧ textOf v ≠ p.2) →
      habeasTokens U get true = .yield [.str (txt "x-habeas-swe:invalid")]) ∧
    ((∀ p ∈ mark, ∃ v, get p.1 = some v ∧ textOf v = p.2) →
      habeasTokens U get true = .yield [.str (txt "x-habeas-swe:valid")]) ∧
    ((∀ p ∈ mark, ∀ v, get p.1 = some v → textOf v = p.2) → (∃ p ∈ mark, get p.1 = none) →
      habeasTokens U get true = .yield []) := by
  have e : habeasTokens U get true =
      if mark.any (fun p => (get p.1).any (fun v => textOf v != p.2)) = true then
        .yield [.str (txt "x-habeas-swe:invalid")]
      else if (mark.filter (fun p => (get p.1).any (fun v => textOf v == p.2))).length = 9 then
        .yield [.str (txt "x-habeas-swe:valid")]
      else .yield [] := by
    unfold habeasTokens
    rw [habeasHeaders_eq, habeasLoop_ok U get true mark mark_ascii hc]
    simp only [if_true, Bool.false_or, Nat.zero_add, yield_andThen, List.nil_append]
  have hany : mark.any (fun p => (get p.1).any (fun v => textOf v != p.2)) = true ↔
      ∃ p ∈ mark, ∃ v, get p.1 = some v ∧ textOf v ≠ p.2 := by
    simp only [List.any_eq_true, Option.any_eq_true, bne_iff_ne]
  have hlen : mark.length = 9 := by decide
  rw [e]
  refine ⟨fun h => by rw [if_pos (hany.2 h)], fun h => ?_, fun h hn => ?_⟩
  · rw [if_neg, if_pos]
    · rw [List.filter_eq_self.2, hlen]
      intro p hp
      obtain ⟨v, hv, ht⟩ := h p hp
      simp [hv, ht]
    · rw [hany]
      rintro ⟨p, hp, v, hv, ht⟩
      obtain ⟨v', hv', ht'⟩ := h p hp
      rw [hv] at hv'
      injection hv' with hv'
      subst hv'
      exact ht ht'
  · rw [if_neg, if_neg]
    · intro h9
      obtain ⟨p, hp, hnone⟩ := hn
      rw [← hlen, List.length_filter_eq_length_iff] at h9
      have := h9 p hp
      rw [hnone] at this
      cases this
    · rw [hany]
      rintro ⟨p, hp, v, hv, ht⟩
      exact ht (h p hp v hv)

/-- **C86.** It raises (ValueError) exactly if one of these headers cannot be compared. -/
theorem C86_raises (U : Str) (get : Txt → Option HVal) (reduce : Bool) :
    (habeasTokens U get reduce).stop =
      (open Classical in if ∀ p ∈ mark, ∀ v, get p.1 = some v → Comparable v then none
        else some .valueError) := by
  classical
  split
  · rename_i hc
    cases reduce with
    | false => rw [C86_each U get hc]; rfl
    | true =>
      obtain ⟨h1, h2, h3⟩ := C86_reduced U get hc
      by_cases ha : ∃ p ∈ mark, ∃ v, get p.1 = some v ∧ textOf v ≠ p.2
      · rw [h1 ha]; rfl
      · push Not at ha
        by_cases hb : ∃ p ∈ mark, get p.1 = none
        · rw [h3 ha hb]; rfl
        · push Not at hb
          rw [h2]
          · rfl
          · intro p hp
            obtain ⟨v, hv⟩ := Option.ne_none_iff_exists'.1 (hb p hp)
            exact ⟨v, hv, ha p hp v hv⟩
  · rename_i hc
    unfold habeasTokens
    rw [habeasHeaders_eq]
    have := habeasLoop_error U get reduce mark mark_ascii hc 0 false
    simp only [Gen.andThen, this]

/-- Cases: the first line of the mark is right; it is wrong; the whole mark. -/
example : habeasTokens asciiStr
    (fun n => if n = txt "X-Habeas-SWE-1" then some (.str (txt "winter into spring")) else none) false =
    ⟨[.str (txt "x-habeas-swe-1:valid")], none⟩ := by decide
example : habeasTokens asciiStr
    (fun n => if n = txt "X-Habeas-SWE-2" then some (.str (txt "winter into spring")) else none) true =
    ⟨[.str (txt "x-habeas-swe:invalid")], none⟩ := by decide
example : ∀ p ∈ mark, ∃ v, (fun n => (mark.lookup n).map HVal.str) p.1 = some v ∧ textOf v = p.2 := by
  decide

/-! ### C87 -/

theorem commonLoop_spec (s t q : Txt) : q <+: commonLoop s t ↔ q <+: s ∧ q <+: t := by
  induction s generalizing t q with
  | nil =>
    simp only [commonLoop, List.prefix_nil]
    constructor
    · rintro rfl; simp
    · exact fun h => h.1
  | cons a s ih =>
    cases t with
    | nil =>
      simp only [commonLoop, List.prefix_nil]
      constructor
      · rintro rfl; simp
      · exact fun h => h.2
    | cons b t =>
      cases q with
      | nil => simp
      | cons c q =>
        rw [commonLoop]
        split
        · rename_i he
          subst he
          simp only [List.cons_prefix_cons, ih]
          tauto
        · rename_i hne
          simp only [List.prefix_nil, reduceCtorEq, false_iff, List.cons_prefix_cons]
          rintro ⟨⟨h1, _⟩, h2, _⟩
          exact hne (h1.symm.trans h2)

theorem prefix_between {q m a M : Txt} (hm : q <+: m) (hM : q <+: M) (h1 : ¬ a < m) (h2 : ¬ M < a) :
    q <+: a := by
  induction q generalizing m a M with
  | nil => simp
  | cons c q ih =>
    obtain ⟨m', rfl⟩ := hm
    obtain ⟨M', rfl⟩ := hM
    rw [List.cons_append] at h1 h2
    cases a with
    | nil => exact absurd (List.nil_lt_cons _ _) h1
    | cons d a =>
      rw [List.cons_lt_cons_iff] at h1 h2
      have hcd : d = c := by omega
      subst hcd
      rw [List.cons_prefix_cons]
      refine ⟨rfl, ih (List.prefix_append q m') (List.prefix_append q M') ?_ ?_⟩
      · exact fun h => h1 (.inr ⟨rfl, h⟩)
      · exact fun h => h2 (.inr ⟨rfl, h⟩)

theorem pyMin_spec (x : Txt) (l : List Txt) : pyMin x l ∈ x :: l ∧ ∀ a ∈ x :: l, ¬ a < pyMin x l := by
  unfold pyMin
  induction l generalizing x with
  | nil =>
    refine ⟨by simp, ?_⟩
    intro a ha
    have : a = x := by simpa using ha
    subst this
    exact List.lt_irrefl a
  | cons y l ih =>
    obtain ⟨h1, h2⟩ := ih (if y < x then y else x)
    rw [List.foldl_cons]
    refine ⟨?_, ?_⟩
    · rcases List.mem_cons.1 h1 with h1 | h1
      · rw [h1]; split <;> simp
      · exact List.mem_cons_of_mem _ (List.mem_cons_of_mem _ h1)
    · intro a ha
      generalize hr : List.foldl (fun a b => if b < a then b else a) (if y < x then y else x) l = r at *
      rcases List.mem_cons.1 ha with rfl | ha
      · have := h2 _ (List.mem_cons_self ..)
        split at this
        · rename_i hlt
          exact fun h => this (List.lt_trans hlt h)
        · exact this
      · rcases List.mem_cons.1 ha with rfl | ha
        · have := h2 _ (List.mem_cons_self ..)
          split at this
          · exact this
          · rename_i hnl
            intro h
            have hx : ¬ x < r := this
            exact hx (List.lt_of_le_of_lt (List.not_lt.1 hnl) h)
        · exact h2 a (List.mem_cons_of_mem _ ha)

theorem pyMax_spec (x : Txt) (l : List Txt) : pyMax x l ∈ x :: l ∧ ∀ a ∈ x :: l, ¬ pyMax x l < a := by
  unfold pyMax
  induction l generalizing x with
  | nil =>
    refine ⟨by simp, ?_⟩
    intro a ha
    have : a = x := by simpa using ha
    subst this
    exact List.lt_irrefl a
  | cons y l ih =>
    obtain ⟨h1, h2⟩ := ih (if x < y then y else x)
    rw [List.foldl_cons]
    refine ⟨?_, ?_⟩
    · rcases List.mem_cons.1 h1 with h1 | h1
      · rw [h1]; split <;> simp
      · exact List.mem_cons_of_mem _ (List.mem_cons_of_mem _ h1)
    · intro a ha
      generalize hr : List.foldl (fun a b => if a < b then b else a) (if x < y then y else x) l = r at *
      rcases List.mem_cons.1 ha with rfl | ha
      · have := h2 _ (List.mem_cons_self ..)
        split at this
        · rename_i hlt
          exact fun h => this (List.lt_trans h hlt)
        · exact this
      · rcases List.mem_cons.1 ha with rfl | ha
        · have := h2 _ (List.mem_cons_self ..)
          split at this
          · exact this
          · rename_i hnl
            intro h
            have hx : ¬ r < x := this
            exact List.not_lt.2 (List.le_trans (List.not_lt.1 hnl) (List.not_lt.1 hx)) h
        · exact h2 a (List.mem_cons_of_mem _ ha)

/-- `p` is the longest common prefix of the texts `l`. -/
def Common (l : List Txt) (p : Txt) : Prop := ∀ q, q <+: p ↔ ∀ a ∈ l, q <+: a

theorem common_unique {l : List Txt} {p p' : Txt} (h : Common l p) (h' : Common l p') : p = p' :=
  have h1 := (h' p).2 ((h p).1 (List.prefix_refl p))
  have h2 := (h p').2 ((h' p').1 (List.prefix_refl p'))
  h1.eq_of_length (Nat.le_antisymm h1.length_le h2.length_le)

/-- **C87.** `commonprefix`, which only looks at the least and the greatest text, finds
the longest common prefix of all of them. -/
theorem C87_commonprefix (l : List Txt) (hl : l ≠ []) : Common l (commonprefix l) := by
  cases l with
  | nil => exact absurd rfl hl
  | cons x l =>
    intro q
    rw [commonprefix, commonLoop_spec]
    obtain ⟨h1, h2⟩ := pyMin_spec x l
    obtain ⟨h3, h4⟩ := pyMax_spec x l
    constructor
    · rintro ⟨hm, hM⟩ a ha
      exact prefix_between hm hM (h2 a ha) (h4 a ha)
    · intro h
      exact ⟨h _ h1, h _ h3⟩

/-- The token for texts with a longest common prefix p: none for a single text or an empty
prefix; else the product of the number of texts and the length of the prefix, divided by
ten, if this is at most `limit`, and `big` beyond. -/
def AffixToken (name : Txt) (limit : Nat) (l : List Txt) (p : Txt) (toks : List Tok) : Prop :=
  ((l.length < 2 ∨ p = []) ∧ toks = []) ∨
  (2 ≤ l.length ∧ p ≠ [] ∧ limit < p.length * l.length / 10 ∧ toks = [.str (name ++ txt ":big")]) ∨
  (2 ≤ l.length ∧ p ≠ [] ∧ p.length * l.length / 10 ≤ limit ∧
    toks = [.str (name ++ txt ":" ++ digitsOf (p.length * l.length / 10))])

theorem affixToken_spec (name : Txt) (limit : Nat) (l : List Txt) (p : Txt) (h : Common l p) :
    AffixToken name limit l p (affixToken name limit l) := by
  unfold AffixToken affixToken
  by_cases hl : 1 < l.length
  · have hp : commonprefix l = p :=
      common_unique (C87_commonprefix l (by rintro rfl; simp at hl)) h
    simp only [hl, if_true, hp]
    by_cases he : p = []
    · simp [he]
    · simp only [he, if_false]
      right
      split
      · rename_i hs; exact .inl ⟨hl, he, hs, rfl⟩
      · rename_i hs; exact .inr ⟨hl, he, by omega, by simp [txt]⟩
  · left
    simp only [hl, if_false, and_true]
    exact .inl (by omega)

/-- **C87.** The token about prefixes, with a limit of 3. -/
theorem C87_prefixes (U : Str) (addrs : List Txt) (p : Txt) (h : Common (addrs.map U.lower) p) :
    AffixToken (txt "pfxlen") 3 (addrs.map U.lower) p (prefixTokens U addrs) :=
  affixToken_spec _ _ _ _ h

/-- **C87.** The token about suffixes, with a limit of 5; `p` is the longest common
suffix of the addresses in lower case.  (Lower case is taken after an address has been
turned around.) -/
theorem C87_suffixes (U : Str) (addrs : List Txt) (p : Txt)
    (hU : ∀ a ∈ addrs, U.lower a.reverse = (U.lower a).reverse)
    (h : ∀ q, q <:+ p ↔ ∀ a ∈ addrs, q <:+ U.lower a) :
    AffixToken (txt "sfxlen") 5 (addrs.map U.lower) p (suffixTokens U addrs) := by
  have hc : Common (addrs.map (fun a => U.lower a.reverse)) p.reverse := by
    intro q
    rw [← List.reverse_suffix, List.reverse_reverse, h]
    simp only [List.forall_mem_map]
    refine forall₂_congr (fun a ha => ?_)
    rw [hU a ha, ← List.reverse_suffix, List.reverse_reverse]
  have := affixToken_spec (txt "sfxlen") 5 _ _ hc
  unfold AffixToken at this ⊢
  simpa only [suffixTokens, List.length_map, List.length_reverse, List.reverse_eq_nil_iff, ne_eq] using this

/-- **C87.** The order of the recipients does not matter. -/
theorem C87_order (U : Str) (addrs addrs' : List Txt) (h : addrs.Perm addrs') :
    prefixTokens U addrs = prefixTokens U addrs' ∧ suffixTokens U addrs = suffixTokens U addrs' := by
  have key : ∀ (name : Txt) (limit : Nat) (l l' : List Txt), l.Perm l' →
      affixToken name limit l = affixToken name limit l' := by
    intro name limit l l' hp
    by_cases hl : l = []
    · subst hl; rw [List.nil_perm.1 hp]
    · have hl' : l' ≠ [] := by rintro rfl; exact hl (List.perm_nil.1 hp)
      have : commonprefix l = commonprefix l' := by
        refine common_unique (C87_commonprefix l hl) (fun q => ?_)
        rw [C87_commonprefix l' hl' q]
        exact ⟨fun h a ha => h a (hp.mem_iff.1 ha), fun h a ha => h a (hp.mem_iff.2 ha)⟩
      unfold affixToken
      rw [hp.length_eq, this]
  exact ⟨key _ _ _ _ (h.map _), key _ _ _ _ (h.map _)⟩

/-- Cases: the examples in the comments of the code. -/
example : prefixTokens asciiStr [txt "itinerart@videotron.ca", txt "itinerant@skyful.com",
    txt "itinerant@netillusions.net", txt "itineraries@musi-cal.com",
    txt "itinerario@rullet.leidenuniv.nl", txt "itinerance@sorengo.com"] = [.str (txt "pfxlen:big")] := by
  decide
example : prefixTokens asciiStr [txt "Ann@example.org", txt "anna@example.net"] =
    [.str (txt "pfxlen:0")] := by decide
example : suffixTokens asciiStr [txt "bugs@mojam.com", txt "chris@mojam.com", txt "rob@MOJAM.com"] =
    [.str (txt "sfxlen:3")] := by decide
example : Common ([txt "Ann@example.org", txt "anna@example.net"].map asciiStr.lower) (txt "ann") :=
  C87_commonprefix _ (by simp)

end Sb.Props
