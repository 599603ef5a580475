import Mathlib.Order.Bounds.Basic
import Verif.Props.OptionReceived

/-
C89: runs of short words, and long words without a summary.
C90: what the options do to the tokens and to the messages that can be tokenized.
C91: the tokens of octet streams and images.
-/

set_option linter.unusedSectionVars false

namespace Sb.Props
open Py Py.Re Py.Text Sb.Mail Sb.Strip Sb.Tokenize

/-! ### C89 -/

/-- There are n > 0 short words one after the other. -/
def ShortRun (ws : List (List Nat)) (n : Nat) : Prop :=
  0 < n ∧ ∃ pre block post, ws = pre ++ block ++ post ∧ block.length = n ∧ ∀ w ∈ block, w.length < 3

/-- The same, with a longer word after them. -/
def EndedRun (ws : List (List Nat)) (n : Nat) : Prop :=
  0 < n ∧ ∃ pre block w post, ws = pre ++ block ++ w :: post ∧ block.length = n ∧
    (∀ v ∈ block, v.length < 3) ∧ 3 ≤ w.length

/-- The tokens of a word. -/
def textTokens (longSkips : Bool) (w : List Nat) : List Tok :=
  if w.length < 3 then [] else if w.length ≤ 12 then [.bytes w]
  else if longSkips then [summary w] else []

/-- The token about short words. -/
def shortToken (U : StrMore) (n : Nat) : Tok := .str (txt "short:" ++ digitsOf (U.ilog2 n))

/-- The last token of a text, if any. -/
def ShortToken (U : StrMore) (o : Opts) (ws : List (List Nat)) (last : List Tok) : Prop :=
  (o.shortRuns = true ∧ ∃ n, IsGreatest {n | EndedRun ws n} n ∧ last = [shortToken U n]) ∨
  ((o.shortRuns = false ∨ ∀ n, ¬ EndedRun ws n) ∧ last = [])

/-- **C89, as documented.** With X_SHORT_RUNS, a text with short words has a token with
the length of the longest run of them. -/
def C89Claim : Prop := ∀ U o t ws n, o.shortRuns = true → InWords isSpace t ws →
  IsGreatest {n | ShortRun ws n} n → (tokenizeTextWith U o t).stop = none →
    shortToken U n ∈ (tokenizeTextWith U o t).toks

/-- One round of the loop, without the counting. -/
def roundWith (o : Opts) (w : List Nat) : Gen :=
  if w.length < 3 then .yield []
  else if w.length ≤ maxWord then .yield [.bytes w] else wordBytesWith o.longSkips w

/-- The runs in the end. -/
def finalRuns : List (List Nat) → (count : Nat) → (runs : List Nat) → List Nat
  | [], _, runs => runs
  | w :: ws, count, runs =>
    if w.length < 3 then finalRuns ws (count + 1) runs
    else finalRuns ws 0 (if count = 0 ∨ count ∈ runs then runs else runs ++ [count])

/-- The last token. -/
def shortTail (U : StrMore) (o : Opts) (runs : List Nat) : List Tok :=
  if runs ≠ [] ∧ o.shortRuns then [shortToken U (runs.foldl max 0)] else []

theorem andThen_assoc (a b c : Gen) : (a.andThen b).andThen c = a.andThen (b.andThen c) := by
  cases ha : a.stop with
  | some e => simp [Gen.andThen, ha]
  | none =>
    cases hb : b.stop with
    | some e => simp [Gen.andThen, ha, hb]
    | none => simp [Gen.andThen, ha, hb]

theorem nil_andThen (b : Gen) : (Gen.yield []).andThen b = b := rfl

theorem textLoop_eq (U : StrMore) (o : Opts) (ws : List (List Nat)) (count : Nat) (runs : List Nat) :
    textLoop U o ws count runs =
      (Gen.each (roundWith o) ws).andThen (.yield (shortTail U o (finalRuns ws count runs))) := by
  induction ws generalizing count runs with
  | nil =>
    rw [textLoop, Gen.each, nil_andThen, finalRuns, shortTail]
    by_cases hc : runs ≠ [] ∧ o.shortRuns = true
    · rw [if_pos hc, if_pos hc]; rfl
    · rw [if_neg hc, if_neg hc]
  | cons w ws ih =>
    rw [textLoop, Gen.each, andThen_assoc, finalRuns]
    by_cases hw : w.length < 3
    · rw [if_pos hw, if_pos hw, ih]
      simp only [roundWith, hw, if_true, nil_andThen]
    · rw [if_neg hw, if_neg hw, ih]
      simp only [roundWith, hw, if_false]

theorem runs_kept {ws : List (List Nat)} {count : Nat} {runs : List Nat} {m : Nat} (h : m ∈ runs) :
    m ∈ finalRuns ws count runs := by
  induction ws generalizing count runs with
  | nil => exact h
  | cons w ws ih =>
    rw [finalRuns]
    split
    · exact ih h
    · refine ih ?_
      split
      · exact h
      · exact List.mem_append_left _ h

theorem endedRun_append {pre ws : List (List Nat)} {n : Nat} (h : EndedRun ws n) :
    EndedRun (pre ++ ws) n := by
  obtain ⟨h0, p, b, w, q, rfl, h⟩ := h
  exact ⟨h0, pre ++ p, b, w, q, by simp, h⟩

theorem finalRuns_sound {ws : List (List Nat)} {runs : List Nat} {m : Nat} :
    ∀ {blk : List (List Nat)}, (∀ v ∈ blk, v.length < 3) → m ∈ finalRuns ws blk.length runs →
      m ∈ runs ∨ EndedRun (blk ++ ws) m := by
  induction ws generalizing runs with
  | nil => intro blk _ h; exact .inl h
  | cons w ws ih =>
    intro blk hb h
    rw [finalRuns] at h
    by_cases hw : w.length < 3
    · rw [if_pos hw] at h
      have := ih (blk := blk ++ [w]) (by
        intro v hv
        rcases List.mem_append.1 hv with hv | hv
        · exact hb v hv
        · rw [List.mem_singleton.1 hv]; exact hw) (by simpa using h)
      simpa using this
    · rw [if_neg hw] at h
      rcases ih (blk := []) (by simp) h with h | h
      · by_cases hc : blk.length = 0 ∨ blk.length ∈ runs
        · rw [if_pos hc] at h; exact .inl h
        · rw [if_neg hc, List.mem_append, List.mem_singleton] at h
          rcases h with h | h
          · exact .inl h
          · right
            subst h
            rw [not_or] at hc
            exact ⟨by omega, [], blk, w, ws, rfl, rfl, hb, by omega⟩
      · right
        rw [show blk ++ w :: ws = (blk ++ [w]) ++ ws by simp]
        exact endedRun_append h

theorem finalRuns_complete {ws : List (List Nat)} {runs : List Nat} {n : Nat} :
    ∀ {blk : List (List Nat)}, (∀ v ∈ blk, v.length < 3) → EndedRun (blk ++ ws) n →
      ∃ m ∈ finalRuns ws blk.length runs, n ≤ m := by
  induction ws generalizing runs with
  | nil =>
    intro blk hb h
    obtain ⟨_, p, b, w, q, he, _, _, hw⟩ := h
    rw [List.append_nil] at he
    have := hb w (by rw [he]; simp)
    omega
  | cons w ws ih =>
    intro blk hb h
    rw [finalRuns]
    by_cases hw : w.length < 3
    · rw [if_pos hw]
      have := ih (runs := runs) (blk := blk ++ [w]) (by
        intro v hv
        rcases List.mem_append.1 hv with hv | hv
        · exact hb v hv
        · rw [List.mem_singleton.1 hv]; exact hw) (by simpa using h)
      simpa using this
    · rw [if_neg hw]
      obtain ⟨h0, p, b, v, q, he, hl, hs, hv⟩ := h
      rcases List.append_eq_append_iff.1 he with ⟨x, hx, hy⟩ | ⟨x, hx, hy⟩
      · -- the block ends with the first longer word or later
        cases x with
        | nil =>
          rw [List.append_nil] at hx
          have hlen : n ≤ blk.length := by rw [← hx]; simp; omega
          by_cases hc : blk.length = 0 ∨ blk.length ∈ runs
          · rw [if_pos hc]
            rcases hc with hc | hc
            · omega
            · exact ⟨_, runs_kept hc, hlen⟩
          · rw [if_neg hc]
            exact ⟨_, runs_kept (by simp), hlen⟩
        | cons d x =>
          rw [List.cons_append, List.cons.injEq] at hy
          obtain ⟨rfl, rfl⟩ := hy
          refine ih (blk := []) (by simp) ?_
          rcases List.append_eq_append_iff.1 hx with ⟨y, hy1, hy2⟩ | ⟨y, hy1, hy2⟩
          · -- w would be short
            have := hs w (by rw [hy2]; simp)
            omega
          · cases y with
            | nil =>
              have := hs w (by rw [List.nil_append] at hy2; rw [← hy2]; simp)
              omega
            | cons e y =>
              rw [List.cons_append, List.cons.injEq] at hy2
              obtain ⟨rfl, rfl⟩ := hy2
              exact ⟨h0, y, b, v, q, rfl, hl, hs, hv⟩
      · cases x with
        | nil =>
          rw [List.append_nil] at hx
          have hlen : n ≤ blk.length := by rw [hx]; simp; omega
          by_cases hc : blk.length = 0 ∨ blk.length ∈ runs
          · rw [if_pos hc]
            rcases hc with hc | hc
            · omega
            · exact ⟨_, runs_kept hc, hlen⟩
          · rw [if_neg hc]
            exact ⟨_, runs_kept (by simp), hlen⟩
        | cons d x =>
          rw [List.cons_append, List.cons.injEq] at hy
          have := hb v (by rw [hx, hy.1]; simp)
          omega

theorem foldl_max_mem {l : List Nat} : ∀ {a : Nat}, l.foldl max a = a ∨ l.foldl max a ∈ l := by
  induction l with
  | nil => intro a; exact .inl rfl
  | cons b l ih =>
    intro a
    rw [List.foldl_cons]
    rcases ih (a := max a b) with h | h
    · rcases Nat.le_total a b with hab | hab
      · right; rw [h, Nat.max_eq_right hab]; simp
      · left; rw [h, Nat.max_eq_left hab]
    · right; exact List.mem_cons_of_mem _ h

theorem le_foldl_max {l : List Nat} : ∀ {a : Nat}, a ≤ l.foldl max a ∧ ∀ x ∈ l, x ≤ l.foldl max a := by
  induction l with
  | nil => intro a; exact ⟨Nat.le_refl _, by simp⟩
  | cons b l ih =>
    intro a
    rw [List.foldl_cons]
    obtain ⟨h1, h2⟩ := ih (a := max a b)
    refine ⟨Nat.le_trans (Nat.le_max_left a b) h1, ?_⟩
    intro x hx
    rcases List.mem_cons.1 hx with rfl | hx
    · exact Nat.le_trans (Nat.le_max_right _ _) h1
    · exact h2 x hx

theorem shortTail_spec (U : StrMore) (o : Opts) (ws : List (List Nat)) :
    ShortToken U o ws (shortTail U o (finalRuns ws 0 [])) := by
  unfold ShortToken shortTail
  by_cases ho : o.shortRuns = true
  · by_cases hr : finalRuns ws 0 [] = []
    · rw [if_neg (by simp [hr])]
      refine .inr ⟨.inr fun n hn => ?_, rfl⟩
      obtain ⟨m, hm, _⟩ := finalRuns_complete (runs := []) (blk := []) (by simp) hn
      rw [List.length_nil, hr] at hm
      cases hm
    · rw [if_pos ⟨hr, ho⟩]
      have hsound : ∀ m ∈ finalRuns ws 0 [], EndedRun ws m := by
        intro m hm
        rcases finalRuns_sound (blk := []) (by simp) hm with h | h
        · cases h
        · exact h
      have hmem : (finalRuns ws 0 []).foldl max 0 ∈ finalRuns ws 0 [] := by
        rcases foldl_max_mem (l := finalRuns ws 0 []) (a := 0) with h | h
        · obtain ⟨x, l, hx⟩ := List.exists_cons_of_ne_nil hr
          have h1 := (hsound x (by rw [hx]; simp)).1
          have h2 := (le_foldl_max (l := finalRuns ws 0 []) (a := 0)).2 x (by rw [hx]; simp)
          omega
        · exact h
      refine .inl ⟨ho, _, ⟨hsound _ hmem, ?_⟩, rfl⟩
      intro n hn
      obtain ⟨m, hm, hle⟩ := finalRuns_complete (runs := []) (blk := []) (by simp) hn
      exact Nat.le_trans hle (le_foldl_max.2 m hm)
  · rw [if_neg (by simp [ho])]
    exact .inr ⟨.inl (by simpa using ho), rfl⟩

theorem shortToken_unique {U : StrMore} {o : Opts} {ws : List (List Nat)} {a b : List Tok}
    (ha : ShortToken U o ws a) (hb : ShortToken U o ws b) : a = b := by
  rcases ha with ⟨h1, n, h2, rfl⟩ | ⟨h1, rfl⟩ <;> rcases hb with ⟨g1, m, g2, rfl⟩ | ⟨g1, rfl⟩
  · rw [h2.unique g2]
  · rcases g1 with g1 | g1
    · rw [h1] at g1; cases g1
    · exact absurd h2.1 (g1 n)
  · rcases h1 with h1 | h1
    · rw [g1] at h1; cases h1
    · exact absurd g2.1 (h1 m)
  · rfl

theorem roundWith_ok {o : Opts} {w : List Nat} (h1 : ¬ Dotted w) (h2 : ¬ HighBit w) :
    roundWith o w = ⟨textTokens o.longSkips w, none⟩ := by
  unfold roundWith textTokens
  by_cases ha : w.length < 3
  · simp [ha, Gen.yield]
  · by_cases hb : w.length ≤ 12
    · simp [ha, hb, maxWord, Gen.yield]
    · have hne : w ≠ [] := by rintro rfl; simp at ha
      rw [if_neg ha, if_neg (by simpa [maxWord] using hb), if_neg ha, if_neg hb]
      unfold wordBytesWith
      rw [if_neg (by simp [maxWord]; omega), if_pos (by omega), if_neg, if_neg, skipToken_eq hne]
      · cases o.longSkips <;> simp [Gen.yield, Gen.andThen, Gen.when]
      · intro h
        rw [List.any_eq_true] at h
        obtain ⟨c, hc, hd⟩ := h
        exact h2 ⟨by omega, c, hc, by simpa using hd⟩
      · rintro ⟨h3, h4⟩
        exact h1 ⟨by omega, by omega, h4⟩

theorem roundWith_dotted {o : Opts} {w : List Nat} (h : Dotted w) :
    roundWith o w = ⟨[], some .typeError⟩ := by
  obtain ⟨h1, h2, h3⟩ := h
  unfold roundWith wordBytesWith
  rw [if_neg (by omega), if_neg (by simp [maxWord]; omega), if_neg (by simp [maxWord]; omega),
    if_pos (by omega), if_pos ⟨by omega, h3⟩]
  rfl

theorem roundWith_high {o : Opts} {w : List Nat} (h1 : ¬ Dotted w) (h : HighBit w) :
    roundWith o w = ⟨textTokens o.longSkips w, some .typeError⟩ := by
  obtain ⟨h2, c, hc, hd⟩ := h
  have hne : w ≠ [] := by rintro rfl; simp at h2
  unfold roundWith wordBytesWith textTokens
  rw [if_neg (by omega), if_neg (by simp [maxWord]; omega), if_neg (by simp [maxWord]; omega),
    if_pos (by omega), if_neg, if_pos, skipToken_eq hne, if_neg (by omega), if_neg (by omega)]
  · cases o.longSkips <;> rfl
  · exact List.any_eq_true.2 ⟨c, hc, by simpa using hd⟩
  · rintro ⟨h3, h4⟩
    exact h1 ⟨by omega, by omega, h4⟩

theorem flatMap_congr' {α β : Type} {l : List α} {f g : α → List β} (h : ∀ x ∈ l, f x = g x) :
    l.flatMap f = l.flatMap g := by
  rw [List.flatMap_def, List.flatMap_def]
  exact congrArg List.flatten (List.map_congr_left h)

/-- **C89.** What the tokens of a text are: those of its words, and with X_SHORT_RUNS one
about the longest run of short words *that a longer word follows*. -/
theorem C89_text_partial (U : StrMore) (o : Opts) (t : List Nat) (ws : List (List Nat))
    (ht : InWords isSpace t ws) (h : ∀ w ∈ ws, ¬ Dotted w ∧ ¬ HighBit w) (toks : List Tok) :
    tokenizeTextWith U o t = .yield toks ↔
      ∃ last, ShortToken U o ws last ∧ toks = ws.flatMap (textTokens o.longSkips) ++ last := by
  have hf : ∀ w ∈ ws, roundWith o w = ⟨textTokens o.longSkips w, none⟩ :=
    fun w hw => roundWith_ok (h w hw).1 (h w hw).2
  have e : tokenizeTextWith U o t = .yield (ws.flatMap (textTokens o.longSkips) ++
      shortTail U o (finalRuns ws 0 [])) := by
    unfold tokenizeTextWith
    rw [(C54_words _ _ _).2 ht, textLoop_eq, each_ok (fun w hw => by rw [hf w hw])]
    rw [flatMap_congr' (fun w hw => by rw [hf w hw])]
    rfl
  rw [e]
  constructor
  · intro he
    cases he
    exact ⟨_, shortTail_spec U o ws, rfl⟩
  · rintro ⟨last, h1, rfl⟩
    rw [shortToken_unique h1 (shortTail_spec U o ws)]

/-- **C89.** The first word that cannot be tokenized ends the tokens, with any options;
then there is no token about short words. -/
theorem C89_raises_partial (U : StrMore) (o : Opts) (t w : List Nat) (pre post : List (List Nat))
    (ht : InWords isSpace t (pre ++ w :: post))
    (hpre : ∀ v ∈ pre, ¬ Dotted v ∧ ¬ HighBit v) (hw : Dotted w ∨ HighBit w) :
    tokenizeTextWith U o t = ⟨pre.flatMap (textTokens o.longSkips) ++
      (if Dotted w then [] else textTokens o.longSkips w), some .typeError⟩ := by
  have hf : ∀ v ∈ pre, roundWith o v = ⟨textTokens o.longSkips v, none⟩ :=
    fun v hv => roundWith_ok (hpre v hv).1 (hpre v hv).2
  have hx : roundWith o w =
      ⟨if Dotted w then [] else textTokens o.longSkips w, some .typeError⟩ := by
    by_cases hd : Dotted w
    · rw [if_pos hd]; exact roundWith_dotted hd
    · rw [if_neg hd]
      rcases hw with h | h
      · exact absurd h hd
      · exact roundWith_high hd h
  unfold tokenizeTextWith
  rw [(C54_words _ _ _).2 ht, textLoop_eq,
    each_raise (e := .typeError) (fun v hv => by rw [hf v hv]) (by rw [hx]), hx,
    flatMap_congr' (fun v hv => by rw [hf v hv])]
  rfl

/-- **C89 is false.** A run at the end of the text is not counted. -/
theorem C89_claim_false : ¬ C89Claim := by
  intro h
  have := h asciiMore { Opts.default with shortRuns := true } (txt "V I A G R A")
    (words isSpace (txt "V I A G R A")) 6 rfl ((C54_words _ _ _).1 rfl) ⟨?_, ?_⟩ (by decide)
  · revert this; decide
  · exact ⟨by decide, [], _, [], by simp; rfl, by decide, by decide⟩
  · rintro n ⟨_, pre, b, post, he, rfl, _⟩
    have := congrArg List.length he
    simp only [List.length_append] at this
    have h6 : (words isSpace (txt "V I A G R A")).length = 6 := by decide
    omega

example : tokenizeTextWith asciiMore { Opts.default with shortRuns := true }
    (txt "buy V I A G R A now or it is too late a b c d e f g h") =
    .yield [.bytes (txt "buy"), .bytes (txt "now"), .bytes (txt "too"), .bytes (txt "late"),
      .str (txt "short:2")] := by decide
example : tokenizeTextWith asciiMore { Opts.default with longSkips := false }
    (txt "a incomprehensibilities") = .yield [] := by decide

/-! ### C90 -/

/-- With default options, the model of this file is that of Verif/Model/Tokenizer.lean. -/
theorem roundWith_default : roundWith Opts.default = textWord := by
  funext w
  unfold roundWith textWord wordBytesWith wordBytes
  rfl

theorem tokenizeTextWith_default (U : StrMore) : tokenizeTextWith U Opts.default = tokenizeText := by
  funext t
  unfold tokenizeTextWith tokenizeText
  rw [textLoop_eq, roundWith_default]
  have : shortTail U Opts.default (finalRuns (words isSpace t) 0 []) = [] := by
    unfold shortTail; rw [if_neg (by simp [Opts.default])]
  rw [this]
  cases hg : Gen.each textWord (words isSpace t) with
  | mk toks stop => cases stop <;> simp [Gen.andThen, Gen.yield]

theorem textPartWith_default (U : StrMore) : textPartWith U Opts.default = textPart := by
  have h1 : finishBodyWith U Opts.default = finishBody := by
    funext t
    unfold finishBodyWith finishBody
    rw [tokenizeTextWith_default]
    cases subStr breakingRe t with
    | error e => rfl
    | ok t => dsimp only; cases subStr htmlRe t <;> rfl
  have h2 : bodyBytesWith U Opts.default = bodyBytes := by
    funext t
    unfold bodyBytesWith bodyBytes crackAllWith crackAll
    rw [h1]
    rfl
  funext p
  cases p with
  | bytes b => exact congrFun h2 b
  | none => rfl
  | undecodable raw => cases raw <;> rfl

/-- **C90.** With default options nothing changes; in particular the arguments of the
call, the header lines, the octet streams and the images do not matter. -/
theorem C90_defaults (U : StrMore) (basic basicOnly : Bool) (parts : List PartView) (h : HeaderView)
    (x : MoreView) (octets images : List Blob) (textParts : List Payload) :
    callWith U Opts.default basic basicOnly parts h x octets images textParts =
      tokenize U.toStr parts h textParts := by
  have hb : tokenizeBodyWith U Opts.default octets images textParts = tokenizeBody textParts := by
    unfold tokenizeBodyWith tokenizeBody
    rw [textPartWith_default]
    rfl
  unfold callWith tokenize
  rw [hb]
  rfl

/-- If b does not raise, neither does a, and b yields all tokens of a that P holds for. -/
def Adds (P : Tok → Bool) (a b : Gen) : Prop :=
  b.stop = none → a.stop = none ∧ (a.toks.filter P).Sublist (b.toks.filter P)

theorem adds_refl (P : Tok → Bool) (a : Gen) : Adds P a a := fun h => ⟨h, List.Sublist.refl _⟩

theorem adds_andThen {P : Tok → Bool} {a b c d : Gen} (h1 : Adds P a b) (h2 : Adds P c d) :
    Adds P (a.andThen c) (b.andThen d) := by
  intro h
  rw [andThen_stop_none] at h
  obtain ⟨g1, g2⟩ := h1 h.1
  obtain ⟨g3, g4⟩ := h2 h.2
  refine ⟨andThen_stop_none.2 ⟨g1, g3⟩, ?_⟩
  rw [andThen_toks g1, andThen_toks h.1, List.filter_append, List.filter_append]
  exact g2.append g4

theorem adds_skip {P : Tok → Bool} {a b : Gen} (c : Gen) (h : Adds P a b) :
    Adds P a (c.andThen b) := by
  have := adds_andThen (a := .yield []) (b := c) (fun _ => ⟨rfl, List.nil_sublist _⟩) h
  rwa [nil_andThen] at this

theorem adds_each {P : Tok → Bool} {α : Type} {f g : α → Gen} {l : List α}
    (h : ∀ x ∈ l, Adds P (f x) (g x)) : Adds P (Gen.each f l) (Gen.each g l) := by
  induction l with
  | nil => exact adds_refl _ _
  | cons x l ih =>
    exact adds_andThen (h x (by simp)) (ih (fun y hy => h y (List.mem_cons_of_mem _ hy)))

theorem adds_crack {P : Tok → Bool} {S : Stripper} {t : List Nat} {k k' : List Nat → Gen}
    (h : ∀ t, Adds P (k t) (k' t)) : Adds P (crack S t k) (crack S t k') := by
  unfold crack
  cases analyze S t with
  | none => exact adds_refl _ _
  | some r =>
    cases r with
    | error e => exact adds_refl _ _
    | ok p => exact adds_andThen (adds_refl _ _) (h p.1)

/-- The token as bytes. -/
def asBytes (k : Tok) : Tok :=
  match tokBytes k with
  | .ok b => .bytes b
  | .error _ => k

theorem convert_toks {g : Gen} (h : ∀ k ∈ g.toks, ¬ Unencodable k) :
    (convertToBytes g).toks = g.toks.map asBytes := by
  have := ((C77_tokens_are_bytes g).1 h).2
  revert this
  generalize g.toks = l
  generalize (convertToBytes g).toks = l'
  intro h
  induction h with
  | nil => rfl
  | @cons a b _ _ hab _ ih =>
    rw [List.map_cons, ← ih]
    congr 1
    unfold asBytes
    cases hab with
    | bytes b => rfl
    | str he => rw [tokBytes_ok.2 (.str he)]

theorem adds_convert {a b : Gen} (h : Adds (fun _ => true) a b)
    (hb : (convertToBytes b).stop = none) : (convertToBytes a).stop = none ∧
      (convertToBytes a).toks.Sublist (convertToBytes b).toks := by
  rw [convert_stop] at hb
  obtain ⟨h1, h2⟩ := h hb.1
  rw [List.filter_true, List.filter_true] at h2
  have h3 : ∀ k ∈ a.toks, ¬ Unencodable k := fun k hk => hb.2 k (h2.subset hk)
  refine ⟨(convert_stop a).2 ⟨h1, h3⟩, ?_⟩
  rw [convert_toks h3, convert_toks hb.2]
  exact h2.map _

theorem firsts_filter (p : Txt → Bool) (l : List Txt) :
    firsts (l.filter p) = (firsts l).filter p := by
  induction l with
  | nil => rfl
  | cons x l ih =>
    rw [firsts]
    by_cases hx : p x = true
    · rw [List.filter_cons_of_pos hx, List.filter_cons_of_pos hx, firsts, ih, List.filter_filter,
        List.filter_filter]
      congr 1
      refine List.filter_congr (fun y _ => ?_)
      rw [Bool.and_comm]
    · rw [List.filter_cons_of_neg hx, List.filter_cons_of_neg hx, ih, List.filter_filter]
      refine List.filter_congr (fun y _ => ?_)
      by_cases hy : y = x
      · subst hy; simp [hx]
      · simp [hy]

theorem headerTokens_sublist (low : Txt → Txt) (countAll recordAbsence : Bool) (names : List Txt) :
    (headerTokens low false false names).Sublist (headerTokens low countAll recordAbsence names) := by
  have h1 : (headerTokens low false false names).Sublist (headerTokens low countAll false names) := by
    rw [C56_header_tokens, C56_header_tokens, firsts_filter, firsts_filter]
    refine List.Sublist.map _ ?_
    refine List.monotone_filter_right _ (fun x hx => ?_)
    simp only [Counted, Bool.or_eq_true, Bool.false_or] at hx ⊢
    exact .inr hx
  refine h1.trans ?_
  unfold headerTokens
  simp only [Bool.false_eq_true, if_false, List.append_nil]
  exact List.sublist_append_left _ _

theorem adds_headers (P : Tok → Bool) (U : StrMore) (o : Opts) (parts : List PartView)
    (h : HeaderView) (x : MoreView) :
    Adds P (tokenizeHeaders U.toStr false false parts h)
      (tokenizeHeadersWith U o false false parts h x) := by
  unfold tokenizeHeaders tokenizeHeadersWith tokenizeHeadersRest
  refine adds_andThen (adds_refl _ _) (adds_skip _ ?_)
  rw [Bool.false_and, if_neg (by simp)]
  refine adds_skip _ (adds_andThen (adds_refl _ _) (adds_andThen (adds_refl _ _) (adds_skip _
    (adds_skip _ (adds_andThen (adds_refl _ _) (adds_andThen (adds_refl _ _)
    (adds_andThen (adds_refl _ _) (adds_skip _ (adds_skip _ (adds_andThen (adds_refl _ _) ?_))))))))))
  exact fun _ => ⟨rfl, (headerTokens_sublist _ _ _ _).filter _⟩

/-- Either long words are summarised, or the summaries do not matter. -/
def SkipsFine (P : Tok → Bool) (o : Opts) : Prop :=
  o.longSkips = true ∨ ∀ w, 13 ≤ w.length → ¬ HighBit w → P (summary w) = false

theorem adds_text {P : Tok → Bool} (U : StrMore) (o : Opts) (hl : SkipsFine P o) (t : List Nat) :
    Adds P (tokenizeText t) (tokenizeTextWith U o t) := by
  have key : Adds P (tokenizeText t) ((Gen.each (roundWith o) (words isSpace t)).andThen (.yield [])) := by
    have : ∀ g : Gen, g.andThen (.yield []) = g := by
      intro g
      cases g with
      | mk toks stop => cases stop <;> simp [Gen.andThen, Gen.yield]
    rw [this]
    refine adds_each fun w _ => ?_
    intro hs
    have hw : ¬ Dotted w ∧ ¬ HighBit w := by
      by_contra hn
      by_cases h1 : Dotted w
      · rw [roundWith_dotted h1] at hs; cases hs
      · by_cases h2 : HighBit w
        · rw [roundWith_high h1 h2] at hs; cases hs
        · exact hn ⟨h1, h2⟩
    rw [textWord_ok hw.1 hw.2, roundWith_ok hw.1 hw.2]
    refine ⟨rfl, ?_⟩
    unfold wordTokens textTokens
    by_cases h3 : w.length < 3
    · simp [h3]
    · by_cases h12 : w.length ≤ 12
      · simp [h3, h12]
      · rcases hl with hl | hl
        · simp [h3, h12, hl]
        · simp [h3, h12, hl w (by omega) hw.2]
  intro h
  unfold tokenizeTextWith at h ⊢
  rw [textLoop_eq] at h ⊢
  rw [andThen_stop_none] at h
  obtain ⟨k1, k2⟩ := key (andThen_stop_none.2 ⟨h.1, rfl⟩)
  refine ⟨k1, k2.trans ?_⟩
  rw [andThen_toks h.1, andThen_toks h.1]
  simp only [Gen.yield, List.append_nil, List.filter_append]
  exact List.sublist_append_left _ _

theorem adds_finish {P : Tok → Bool} (U : StrMore) (o : Opts) (hl : SkipsFine P o) (t : List Nat) :
    Adds P (finishBody t) (finishBodyWith U o t) := by
  unfold finishBody finishBodyWith
  cases subStr breakingRe t with
  | error e => exact adds_refl _ _
  | ok t =>
    dsimp only
    cases subStr htmlRe t with
    | error e => exact adds_refl _ _
    | ok t => exact adds_text U o hl t

theorem search_url_some {t : List Nat} {m : Match} (h : search urlRe t 0 = some m) :
    ¬ NoWord UrlStart t := by
  intro hn
  obtain ⟨p, g, hu, _⟩ := C74_tokens t 0 m h
  obtain ⟨c, g', hg⟩ := List.exists_cons_of_ne_nil hu.nonempty
  obtain ⟨post, hr⟩ := hu.reads
  refine hn (t.take m.start) (p ++ txt "://" ++ [c]) (g' ++ post) ?_
    ⟨p, c, hu.protocol, isUrlChar_iff.1 (hu.chars c (by rw [hg]; simp)), rfl⟩
  have := List.take_append_drop m.start t
  rw [hr, hg] at this
  refine this.symm.trans ?_
  simp

theorem urlsWith_some {o : Opts} (hp : o.pickApartUrls = true) {t : List Nat}
    (h : ¬ NoWord UrlStart t) : analyze (urlsWith o) t = some (.error .typeError) := by
  unfold analyze
  cases hs : search urlRe t 0 with
  | none => exact absurd (by simpa using noWord_url (Nat.zero_le _) hs) h
  | some m =>
    simp [analyzeFrom, urlsWith, ofRe, hp, hs]

theorem urlsWith_none (o : Opts) {t : List Nat}
    (h : NoWord UrlStart t) : analyze (urlsWith o) t = analyze urls t := by
  cases hs : search urlRe t 0 with
  | some m => exact absurd h (search_url_some hs)
  | none =>
    unfold analyze
    simp [analyzeFrom, urlsWith, urls, ofRe, hs]

theorem crackAllWith_eq (U : StrMore) (o : Opts) {t : List Nat}
    (h : o.pickApartUrls = true → NoWord UrlStart t) : crackAllWith U o t =
      crack uuencode t fun t => crack urls t fun t => crack style t fun t =>
      crack comment t fun t => crack noframes t (finishBodyWith U o) := by
  unfold crackAllWith
  by_cases hg : HasBegin t
  · unfold crack
    rw [(strippers_fine t).2.1 (occurs_begin.2 hg)]
  · rw [crack_ok ((strippers_fine t).2.2 (fun ho => hg (occurs_begin.1 ho))),
      crack_ok ((strippers_fine t).2.2 (fun ho => hg (occurs_begin.1 ho)))]
    have : analyze (urlsWith o) t = analyze urls t := by
      cases hp : o.pickApartUrls with
      | true => exact urlsWith_none o (h hp)
      | false => rw [show urlsWith o = urls by simp [urlsWith, urls, hp]]
    unfold crack
    rw [this]

theorem crackAllWith_url (U : StrMore) {o : Opts} (hp : o.pickApartUrls = true) {t : List Nat}
    (h : ¬ NoWord UrlStart t) : (crackAllWith U o t).stop ≠ none := by
  unfold crackAllWith
  by_cases hg : HasBegin t
  · unfold crack
    rw [(strippers_fine t).2.1 (occurs_begin.2 hg)]
    simp [Gen.raise]
  · rw [crack_ok ((strippers_fine t).2.2 (fun ho => hg (occurs_begin.1 ho)))]
    unfold crack
    rw [urlsWith_some hp h]
    simp [Gen.raise]

theorem crack_stop {S : Stripper} {t : List Nat} {k k' : List Nat → Gen}
    (h : ∀ t, (k t).stop = none ↔ (k' t).stop = none) :
    (crack S t k).stop = none ↔ (crack S t k').stop = none := by
  unfold crack
  cases analyze S t with
  | none => exact Iff.rfl
  | some r =>
    cases r with
    | error e => exact Iff.rfl
    | ok p => exact h p.1

theorem text_stop (U : StrMore) (o : Opts) (t : List Nat) :
    (tokenizeTextWith U o t).stop = none ↔ (tokenizeText t).stop = none := by
  rw [C54_iff_partial]
  unfold tokenizeTextWith
  rw [textLoop_eq, andThen_stop_none, each_stop_none]
  simp only [Gen.yield, and_true]
  refine forall₂_congr (fun w _ => ?_)
  by_cases h1 : Dotted w
  · rw [roundWith_dotted h1]; simp [h1]
  · by_cases h2 : HighBit w
    · rw [roundWith_high h1 h2]; simp [h2]
    · rw [roundWith_ok h1 h2]; simp [h1, h2]

theorem finish_stop (U : StrMore) (o : Opts) (t : List Nat) :
    (finishBodyWith U o t).stop = none ↔ (finishBody t).stop = none := by
  unfold finishBody finishBodyWith
  cases subStr breakingRe t with
  | error e => exact Iff.rfl
  | ok t =>
    dsimp only
    cases subStr htmlRe t with
    | error e => exact Iff.rfl
    | ok t => exact text_stop U o t

/-- **C90.** The options under which a decoded text can be tokenized: without
REPLACE_NONASCII_CHARS, and with X_PICK_APART_URLS only if it has no URL. -/
theorem C90_body_partial (U : StrMore) (o : Opts) (t : List Nat) :
    (bodyBytesWith U o t).stop = none ↔ (bodyBytes t).stop = none ∧ o.replaceNonAscii = false ∧
      (o.pickApartUrls = true → NoWord UrlStart (lower t)) := by
  by_cases he : HasEntity t
  · unfold bodyBytesWith bodyBytes
    rw [subStr_error (occurs_numeric.2 he)]
    simp [Gen.raise]
  · unfold bodyBytesWith bodyBytes
    rw [subStr_ok (fun ho => he (occurs_numeric.1 ho))]
    dsimp only
    cases hr : o.replaceNonAscii with
    | true => simp [Gen.raise]
    | false =>
      simp only [Bool.false_eq_true, if_false, true_and, andThen_stop_none]
      simp only [Gen.yield, true_and]
      by_cases hp : o.pickApartUrls = true → NoWord UrlStart (lower t)
      · rw [crackAllWith_eq U o hp]
        rw [and_iff_left hp]
        unfold crackAll
        exact crack_stop fun t => crack_stop fun t => crack_stop fun t => crack_stop fun t =>
          crack_stop (finish_stop U o)
      · rw [Classical.not_imp] at hp
        simp [crackAllWith_url U hp.1 hp.2, hp.1, hp.2]

theorem adds_body {P : Tok → Bool} (U : StrMore) (o : Opts) (hl : SkipsFine P o) (t : List Nat) :
    Adds P (bodyBytes t) (bodyBytesWith U o t) := by
  intro h
  obtain ⟨h1, h2, h3⟩ := (C90_body_partial U o t).1 h
  revert h
  by_cases he : HasEntity t
  · unfold bodyBytesWith bodyBytes
    rw [subStr_error (occurs_numeric.2 he)]
    simp [Gen.raise]
  · unfold bodyBytesWith bodyBytes
    rw [subStr_ok (fun ho => he (occurs_numeric.1 ho))]
    dsimp only
    rw [h2, if_neg (by simp), crackAllWith_eq U o h3]
    unfold crackAll
    exact adds_andThen (adds_refl _ _) (adds_crack fun t => adds_crack fun t => adds_crack fun t =>
      adds_crack fun t => adds_crack (adds_finish U o hl))

theorem adds_textPart {P : Tok → Bool} (U : StrMore) (o : Opts) (hl : SkipsFine P o) (p : Payload) :
    Adds P (textPart p) (textPartWith U o p) := by
  cases p with
  | bytes b => exact adds_body U o hl b
  | none => exact adds_refl _ _
  | undecodable raw => cases raw <;> exact adds_refl _ _

theorem adds_message {P : Tok → Bool} (U : StrMore) (o : Opts) (hl : SkipsFine P o)
    (parts : List PartView) (h : HeaderView) (x : MoreView) (octets images : List Blob)
    (textParts : List Payload) :
    Adds P ((tokenizeHeaders U.toStr false false parts h).andThen (tokenizeBody textParts))
      ((tokenizeHeadersWith U o false false parts h x).andThen
        (tokenizeBodyWith U o octets images textParts)) := by
  refine adds_andThen (adds_headers _ U o parts h x) ?_
  unfold tokenizeBody tokenizeBodyWith
  exact adds_skip _ (adds_skip _ (adds_skip _ (adds_each fun p _ => adds_textPart U o hl p)))

/-- **C90.** The options only add tokens: a message that can be tokenized with some
options (except that GENERATE_LONG_SKIPS stays on) can be tokenized without, and the
tokens with default options are among the tokens, in the same order. -/
theorem C90_additive (U : StrMore) (o : Opts) (hl : o.longSkips = true) (basic basicOnly : Bool)
    (parts : List PartView) (h : HeaderView) (x : MoreView) (octets images : List Blob)
    (textParts : List Payload)
    (hs : (callWith U o basic basicOnly parts h x octets images textParts).stop = none) :
    (tokenize U.toStr parts h textParts).stop = none ∧
      (tokenize U.toStr parts h textParts).toks.Sublist
        (callWith U o basic basicOnly parts h x octets images textParts).toks := by
  exact adds_convert (adds_message U o (.inl hl) parts h x octets images textParts) hs

/-- **C90, as a user would expect it.** An option never makes a message impossible to
tokenize. -/
def C90Claim : Prop := ∀ U o basic basicOnly parts h x octets images textParts,
  (tokenize U.toStr parts h textParts).stop = none →
    (callWith U o basic basicOnly parts h x octets images textParts).stop = none

theorem when_stop {b : Bool} {g : Gen} :
    (Gen.when b g).stop = none ↔ (b = true → g.stop = none) := by
  cases b <;> simp [Gen.when, Gen.yield]

theorem received_stop {U : StrMore} {lines : List HVal} :
    (receivedTokens U lines).stop = none ↔ ∀ v ∈ lines, IsStr v := by
  unfold receivedTokens
  rw [each_stop_none]
  refine forall₂_congr (fun v _ => ?_)
  cases v <;> simp [receivedLine, Gen.yield, Gen.raise, IsStr]

theorem habeas_stop {U : Str} {get : Txt → Option HVal} {reduce : Bool} :
    (habeasTokens U get reduce).stop = none ↔
      ∀ p ∈ mark, ∀ v, get p.1 = some v → Comparable v := by
  classical
  rw [C86_raises]
  split
  · rename_i h; exact iff_of_true rfl h
  · rename_i h; exact iff_of_false (by simp) h

theorem headersWith_stop (U : StrMore) (o : Opts) (parts : List PartView) (h : HeaderView)
    (x : MoreView) :
    (tokenizeHeadersWith U o false false parts h x).stop = none ↔
      (tokenizeHeaders U.toStr false false parts h).stop = none ∧
      (o.habeas = true → ∀ p ∈ mark, ∀ v, x.get p.1 = some v → Comparable v) ∧
      (o.received = true → ∀ v ∈ x.received, IsStr v) ∧ (o.nntp = true → x.nntp.stop = none) := by
  have e : tokenizeHeadersWith U o false false parts h x =
      (Gen.each (crackContent U.toStr) parts).andThen (tokenizeHeadersRest U o h x) := rfl
  rw [e]
  unfold tokenizeHeaders tokenizeHeadersRest
  simp only [andThen_stop_none, when_stop, received_stop, habeas_stop]
  simp only [Gen.yield, implies_true, true_and, and_true]
  tauto

/-- **C90.** Exactly when a message can be tokenized with given options: it can be
tokenized with default options, and
* with X_SEARCH_FOR_HABEAS_HEADERS, the headers of the mark can be compared;
* with MINE_RECEIVED_HEADERS, all Received headers are ASCII;
* with X_MINE_NNTP_HEADERS, the look-up does not raise (it does without such a header);
* CRACK_IMAGES is off;
* REPLACE_NONASCII_CHARS is off unless no text part is decoded, and with
  X_PICK_APART_URLS there is no URL in the text;
* the tokens can be encoded. -/
theorem C90_stops_partial (U : StrMore) (o : Opts) (basic basicOnly : Bool)
    (parts : List PartView) (h : HeaderView) (x : MoreView) (octets images : List Blob)
    (textParts : List Payload) :
    (callWith U o basic basicOnly parts h x octets images textParts).stop = none ↔
      (tokenize U.toStr parts h textParts).stop = none ∧
      (o.habeas = true → ∀ p ∈ mark, ∀ v, x.get p.1 = some v → Comparable v) ∧
      (o.received = true → ∀ v ∈ x.received, IsStr v) ∧
      (o.nntp = true → x.nntp.stop = none) ∧
      o.crackImages = false ∧
      (∀ b, Payload.bytes b ∈ textParts → o.replaceNonAscii = false ∧
        (o.pickApartUrls = true → NoWord UrlStart (lower b))) ∧
      (∀ k ∈ (tokenizeHeadersWith U o false false parts h x).toks ++
        (tokenizeBodyWith U o octets images textParts).toks, ¬ Unencodable k) := by
  have hpart : ∀ p, (textPartWith U o p).stop = none ↔ (textPart p).stop = none ∧
      ∀ b, p = .bytes b → o.replaceNonAscii = false ∧
        (o.pickApartUrls = true → NoWord UrlStart (lower b)) := by
    intro p
    cases p with
    | bytes b =>
      simp only [textPartWith, textPart, C90_body_partial, Payload.bytes.injEq, forall_eq']
    | none => simp [textPartWith, textPart]
    | undecodable raw => cases raw <;> simp [textPartWith, textPart]
  have hbody : (tokenizeBodyWith U o octets images textParts).stop = none ↔
      (tokenizeBody textParts).stop = none ∧ o.crackImages = false ∧
      ∀ b, Payload.bytes b ∈ textParts → o.replaceNonAscii = false ∧
        (o.pickApartUrls = true → NoWord UrlStart (lower b)) := by
    unfold tokenizeBodyWith tokenizeBody
    simp only [andThen_stop_none, when_stop, each_stop_none, hpart]
    simp only [Gen.yield, Gen.raise, implies_true, true_and, reduceCtorEq, imp_false,
      Bool.not_eq_true]
    constructor
    · rintro ⟨h1, h2⟩
      exact ⟨fun p hp => (h2 p hp).1, h1, fun b hb => (h2 _ hb).2 b rfl⟩
    · rintro ⟨h1, h2, h3⟩
      exact ⟨h2, fun p hp => ⟨h1 p hp, fun b hb => h3 b (hb ▸ hp)⟩⟩
  unfold callWith tokenize
  rw [convert_stop, convert_stop, andThen_stop_none, andThen_stop_none, headersWith_stop, hbody]
  constructor
  · rintro ⟨⟨⟨h1, h2, h3, h4⟩, h5, h6, h7⟩, h8⟩
    have hh := (headersWith_stop U o parts h x).2 ⟨h1, h2, h3, h4⟩
    refine ⟨⟨⟨h1, h5⟩, ?_⟩, h2, h3, h4, h6, h7, by rwa [andThen_toks hh] at h8⟩
    intro k hk hu
    classical
    have hl : SkipsFine (fun k => decide (Unencodable k)) o := by
      refine .inr fun w hw hb => decide_eq_false ?_
      rintro ⟨t, c, ht, hc, hsur⟩
      cases ht
      unfold Surrogate at hsur
      have hhead : w.headD 0 < 128 := by
        cases w with
        | nil => decide
        | cons d w =>
          by_contra hd
          exact hb ⟨hw, d, by simp, by simpa using hd⟩
      rw [List.mem_append, List.mem_append, List.mem_append] at hc
      rcases hc with ((hc | hc) | hc) | hc
      · revert hc; simp [txt]; omega
      · rw [List.mem_singleton] at hc; omega
      · revert hc; simp [txt]; omega
      · have := digitsOf_range _ c hc
        omega
    have hstop : ((tokenizeHeadersWith U o false false parts h x).andThen
        (tokenizeBodyWith U o octets images textParts)).stop = none :=
      andThen_stop_none.2 ⟨hh, hbody.2 ⟨h5, h6, h7⟩⟩
    have := (adds_message U o hl parts h x octets images textParts hstop).2.subset
      (List.mem_filter.2 ⟨hk, decide_eq_true hu⟩)
    exact h8 k (List.mem_filter.1 this).1 hu
  · rintro ⟨⟨⟨h1, h5⟩, _⟩, h2, h3, h4, h6, h7, h8⟩
    have hh := (headersWith_stop U o parts h x).2 ⟨h1, h2, h3, h4⟩
    exact ⟨⟨⟨h1, h2, h3, h4⟩, h5, h6, h7⟩, by rwa [andThen_toks hh]⟩

/-- **C90.** With CRACK_IMAGES no message can be tokenized, whatever is in it. -/
theorem C90_images_partial (U : StrMore) (o : Opts) (hi : o.crackImages = true)
    (basic basicOnly : Bool) (parts : List PartView) (h : HeaderView) (x : MoreView)
    (octets images : List Blob) (textParts : List Payload) :
    (callWith U o basic basicOnly parts h x octets images textParts).stop ≠ none := by
  rw [Ne, C90_stops_partial, hi]
  simp

/-- **C90 is false.** -/
theorem C90_claim_false : ¬ C90Claim := by
  intro h
  refine C90_images_partial asciiMore { Opts.default with crackImages := true } rfl false false []
    (onlySubject (txt "abc")) (withItems []) [] [] [] (h _ _ _ _ _ _ _ _ _ _ ?_)
  decide

/-- A case of `C90_additive`, with three tokens more. -/
example : ∃ o : Opts, o.longSkips = true ∧
    callWith asciiMore o true true [] (onlySubject (txt "Re: 79% off"))
      ⟨[], fun _ => none, [txt "abcde@x.org", txt "abcdf@y.org"],
        [.str (txt "from mx.example.org (really not sure)")], .yield []⟩
      [.bytes (txt "MZ123456")] [] [.bytes (txt "see a b below")] =
    ⟨[txt "subject:79%", txt "subject:off", txt "subject:: ", txt "subject:% ", txt "from:none",
      txt "to:none", txt "cc:none", txt "sender:none", txt "reply-to:none", txt "pfxlen:0",
      txt "x-mailer:none", txt "received:(really not sure)", txt "received:org",
      txt "received:example.org", txt "received:mx.example.org",
      txt "message-id:invalid", txt "header:Subject:1", txt "octet:b'MZ123'", txt "see", txt "below",
      txt "short:1"].map Tok.bytes, none⟩ :=
  ⟨{ Opts.default with octets := true, received := true, prefixes := true, shortRuns := true },
    rfl, by decide⟩

/-- **C90.** The tokens of the headers, in order, with the option that each of them
depends on. -/
theorem C90_order (U : StrMore) (o : Opts) (parts : List PartView) (h : HeaderView) (x : MoreView)
    (hs : (tokenizeHeadersWith U o false false parts h x).stop = none) :
    (tokenizeHeadersWith U o false false parts h x).toks =
      parts.flatMap (fun p => (crackContent U.toStr p).toks) ++
      (if o.habeas then (habeasTokens U.toStr x.get o.reduceHabeas).toks else []) ++
      (subjectTokens U.toStr h).toks ++
      [txt "from", txt "to", txt "cc", txt "sender", txt "reply-to"].flatMap (fieldTokens U.toStr h) ++
      (if o.prefixes then prefixTokens U.toStr x.recipients else []) ++
      (if o.suffixes then suffixTokens U.toStr x.recipients else []) ++
      (countTokens U.toStr (txt "to") h.toLines).toks ++
      (countTokens U.toStr (txt "cc") h.ccLines).toks ++
      (mailerTokens U.toStr h.mailer).toks ++
      (if o.received then (receivedTokens U x.received).toks else []) ++
      (if o.nntp then x.nntp.toks else []) ++
      (messageIdTokens U.toStr h.msgid).toks ++
      headerTokens U.lower o.countAll o.recordAbsence h.names := by
  have e : tokenizeHeadersWith U o false false parts h x =
      (Gen.each (crackContent U.toStr) parts).andThen (tokenizeHeadersRest U o h x) := rfl
  have w : ∀ b g, (Gen.when b g).toks = if b then g.toks else [] := by
    intro b g
    cases b <;> rfl
  rw [e] at hs ⊢
  unfold tokenizeHeadersRest at hs ⊢
  simp only [andThen_stop_none] at hs
  obtain ⟨h1, h2, h3, h4, h5, h6, h7, h8, h9, h10, h11, h12, -⟩ := hs
  rw [andThen_toks h1, andThen_toks h2, andThen_toks h3, andThen_toks h4, andThen_toks h5,
    andThen_toks h6, andThen_toks h7, andThen_toks h8, andThen_toks h9, andThen_toks h10,
    andThen_toks h11, andThen_toks h12]
  rw [each_stop_none] at h1
  rw [each_ok (f := crackContent U.toStr) h1]
  simp only [w, List.append_assoc]
  rfl

/-! ### C91 -/

theorem hex2_inj {c d : Nat} (h : hex2 c = hex2 d) : c = d := by
  simp only [hex2, List.map_cons, List.map_nil, List.cons.injEq, and_true] at h
  obtain ⟨h1, h2⟩ := h
  split_ifs at h1 h2 <;> omega

theorem reprByte_head {q c d : Nat} (hq : q = 34 ∨ q = 39)
    {A B : Txt} (h : reprByte q c ++ A = reprByte q d ++ B) : c = d ∧ A = B := by
  have e1 : txt "\\t" = [92, 116] := rfl
  have e2 : txt "\\n" = [92, 110] := rfl
  have e3 : txt "\\r" = [92, 114] := rfl
  have e4 : txt "\\x" = [92, 120] := rfl
  have e6 : ∀ A B : Txt, hex2 c ++ A = hex2 d ++ B → c = d ∧ A = B := fun A B h =>
    have := List.append_inj h rfl
    ⟨hex2_inj this.1, this.2⟩
  unfold reprByte at h
  rw [e1, e2, e3, e4] at h
  generalize hex2 c = xc at h e6
  generalize hex2 d = xd at h e6
  have e7 := e6 A B
  split_ifs at h <;> simp only [List.cons_append, List.nil_append, List.cons.injEq] at h <;>
      first
        | (exfalso; omega)
        | exact e7 h.2.2
        | (refine ⟨by omega, ?_⟩; simp only [h])

theorem reprByte_not_quote {q c : Nat} (hq : q = 34 ∨ q = 39) {A B : Txt} :
    reprByte q c ++ A ≠ q :: B := by
  have e1 : txt "\\t" = [92, 116] := rfl
  have e2 : txt "\\n" = [92, 110] := rfl
  have e3 : txt "\\r" = [92, 114] := rfl
  have e4 : txt "\\x" = [92, 120] := rfl
  intro h
  unfold reprByte at h
  rw [e1, e2, e3, e4] at h
  split_ifs at h <;> simp only [List.cons_append, List.nil_append, List.cons.injEq] at h <;> omega

theorem reprBytes_inj {q : Nat} (hq : q = 34 ∨ q = 39) {a b : List Nat}
    (h : a.flatMap (reprByte q) ++ [q] = b.flatMap (reprByte q) ++ [q]) : a = b := by
  induction a generalizing b with
  | nil =>
    cases b with
    | nil => rfl
    | cons c b =>
      rw [List.flatMap_cons, List.append_assoc] at h
      exact absurd h.symm (reprByte_not_quote hq)
  | cons c a ih =>
    cases b with
    | nil =>
      rw [List.flatMap_cons, List.append_assoc] at h
      exact absurd h (reprByte_not_quote hq)
    | cons d b =>
      rw [List.flatMap_cons, List.flatMap_cons, List.append_assoc, List.append_assoc] at h
      obtain ⟨h1, h2⟩ := reprByte_head hq h
      rw [h1, ih h2]

theorem bytesRepr_inj {a b : List Nat} (h : bytesRepr a = bytesRepr b) : a = b := by
  unfold bytesRepr at h
  have hq : ∀ l : List Nat, (if l.contains 39 && !l.contains 34 then 34 else 39) = 34 ∨
      (if l.contains 39 && !l.contains 34 then 34 else 39) = 39 := by
    intro l
    split <;> simp
  have ha := hq a
  revert h ha
  generalize (if a.contains 39 && !a.contains 34 then 34 else 39) = q
  generalize (if b.contains 39 && !b.contains 34 then 34 else 39) = q'
  intro h ha
  simp only [List.cons_append, List.cons.injEq, true_and] at h
  obtain ⟨rfl, h⟩ := h
  exact reprBytes_inj ha h

theorem reprByte_length (q c : Nat) : 1 ≤ (reprByte q c).length := by
  unfold reprByte
  split_ifs <;> simp [txt]

/-- The tokens of an application/octet-stream part. -/
inductive OctetToks : Blob → List Tok → Prop where
  /-- the first five bytes, as Python shows them -/
  | decoded (b : List Nat) : OctetToks (.bytes b) [.str (txt "octet:" ++ bytesRepr (b.take 5))]
  | none : OctetToks .none [.str (txt "control: octet payload is None")]
  | noneRaw : OctetToks (.undecodable Option.none)
      [.str (txt "control: couldn't decode octet"), .str (txt "control: octet payload is None")]
  | raw (r : RawPayload) : OctetToks (.undecodable (some r))
      [.str (txt "control: couldn't decode octet"), .str (txt "octet:" ++ r.shown)]

/-- The tokens and the size of an image. -/
inductive ImageToks : Blob → List Tok → Nat → Prop where
  | decoded (b : List Nat) : ImageToks (.bytes b) [] b.length
  | none : ImageToks .none [.str (txt "control: image payload is None")] 0
  | noneRaw : ImageToks (.undecodable Option.none)
      [.str (txt "control: couldn't decode image"), .str (txt "control: image payload is None")] 0
  | raw (r : RawPayload) : ImageToks (.undecodable (some r))
      [.str (txt "control: couldn't decode image")] r.len

/-- The token for the size of all images together. -/
def sizeTokens (U : StrMore) (n : Nat) : List Tok :=
  if 0 < n then [.str (txt "image-size:2**" ++ digitsOf (U.log2 n))] else []

theorem octetToks_iff {b : Blob} {l : List Tok} : OctetToks b l ↔ l = octetTokens b := by
  constructor
  · rintro (_ | _ | _ | _) <;> rfl
  · rintro rfl
    rcases b with b | _ | (_ | r) <;> constructor

theorem imageToks_iff {b : Blob} {l : List Tok} {n : Nat} :
    ImageToks b l n ↔ l = imageControl b ∧ n = imageLen b := by
  constructor
  · rintro (_ | _ | _ | _) <;> exact ⟨rfl, rfl⟩
  · rintro ⟨rfl, rfl⟩
    rcases b with b | _ | (_ | r) <;> constructor

theorem forall₂_fun {α β : Type} {f : α → β} {l : List α} {r : List β} :
    List.Forall₂ (fun x y => y = f x) l r ↔ r = l.map f := by
  induction l generalizing r with
  | nil => simp
  | cons x l ih =>
    cases r with
    | nil => simp
    | cons y r => simp [ih]

/-- **C91.** The tokens of the body: with CHECK_OCTETS those of the octet streams, with
IMAGE_SIZE those of the images with a token for their size together, then the text. -/
theorem C91_body_partial (U : StrMore) (o : Opts) (octets images : List Blob)
    (textParts : List Payload)
    (hs : (tokenizeBodyWith U o octets images textParts).stop = none) (toks : List Tok) :
    toks = (tokenizeBodyWith U o octets images textParts).toks ↔
      ∃ (os : List (List Tok)) (ps : List (List Tok × Nat)), List.Forall₂ OctetToks octets os ∧
        List.Forall₂ (fun b p => ImageToks b p.1 p.2) images ps ∧
        toks = (if o.octets then os.flatten else []) ++
          (if o.imageSize then (ps.map Prod.fst).flatten ++ sizeTokens U (ps.map Prod.snd).sum else []) ++
          textParts.flatMap (fun p => (textPartWith U o p).toks) := by
  have w : ∀ b g, (Gen.when b g).toks = if b then g.toks else [] := by
    intro b g
    cases b <;> rfl
  have e : (tokenizeBodyWith U o octets images textParts).toks =
      (if o.octets then (octets.map octetTokens).flatten else []) ++
        (if o.imageSize then (images.map imageControl).flatten ++
          sizeTokens U (images.map imageLen).sum else []) ++
        textParts.flatMap (fun p => (textPartWith U o p).toks) := by
    unfold tokenizeBodyWith at hs ⊢
    simp only [andThen_stop_none, when_stop] at hs
    obtain ⟨-, -, h3, h4⟩ := hs
    have h3' : o.crackImages = false := by
      cases hc : o.crackImages with
      | false => rfl
      | true => cases h3 hc
    rw [each_stop_none] at h4
    rw [andThen_toks (by rw [when_stop]; intro _; rfl), andThen_toks (by rw [when_stop]; intro _; rfl),
      h3', show Gen.when false (Gen.raise .importError) = .yield [] from rfl, nil_andThen, each_ok (f := textPartWith U o) h4, w, w]
    have hsum : (images.map imageLen).foldl (· + ·) 0 = (images.map imageLen).sum :=
      (List.sum_eq_foldl).symm
    simp only [Gen.yield, imageTokens, hsum, sizeTokens, List.flatMap_def, List.append_assoc,
      Nat.pos_iff_ne_zero, ite_not]
  have hp : ∀ (b : Blob) (p : List Tok × Nat), ImageToks b p.1 p.2 ↔ p = (imageControl b, imageLen b) :=
    fun b p => by rw [imageToks_iff, Prod.ext_iff]
  have ho : OctetToks = fun b l => l = octetTokens b := by
    funext b l
    exact propext octetToks_iff
  simp only [ho, hp, forall₂_fun, e]
  constructor
  · rintro rfl
    exact ⟨_, _, rfl, rfl, by simp [Function.comp_def]⟩
  · rintro ⟨os, ps, rfl, rfl, rfl⟩
    simp [Function.comp_def]

/-- **C91.** Two octet streams have the same token only if their first five bytes are the
same. -/
theorem C91_same (a b : List Nat) :
    octetTokens (.bytes a) = octetTokens (.bytes b) ↔ a.take 5 = b.take 5 := by
  constructor
  · intro h
    simp only [octetTokens, octetPrefix, List.cons.injEq, Tok.str.injEq, and_true] at h
    exact bytesRepr_inj (List.append_cancel_left h)
  · intro h
    simp only [octetTokens, octetPrefix, h]

/-- **C91, as documented.** With CHECK_OCTETS the first five characters of an octet stream
in plain ASCII are a token. -/
def C91Claim : Prop := ∀ U o octets images textParts b, o.octets = true → (∀ c ∈ b, c < 128) →
  Blob.bytes b ∈ octets →
    .str (txt "octet:" ++ b.take 5) ∈ (tokenizeBodyWith U o octets images textParts).toks

/-- **C91.** The token never is what is documented. -/
theorem C91_never (b : List Nat) : .str (txt "octet:" ++ b.take 5) ∉ octetTokens (.bytes b) := by
  simp only [octetTokens, octetPrefix, List.mem_singleton, Tok.str.injEq]
  intro h
  have h := congrArg List.length (List.append_cancel_left h)
  have : ∀ (q : Nat) (l : List Nat), l.length ≤ (l.flatMap (reprByte q)).length := by
    intro q l
    induction l with
    | nil => simp
    | cons c l ih =>
      have := reprByte_length q c
      simp only [List.flatMap_cons, List.length_append, List.length_cons]
      omega
  have h2 := this (if (b.take 5).contains 39 && !(b.take 5).contains 34 then 34 else 39) (b.take 5)
  unfold bytesRepr at h
  simp only [List.length_append, List.length_cons, List.length_nil] at h
  omega

/-- **C91 is false.** -/
theorem C91_claim_false : ¬ C91Claim := by
  intro h
  have := h asciiMore { Opts.default with octets := true } [.bytes (txt "MZ123456")] [] []
    (txt "MZ123456") rfl (by decide) (by simp)
  revert this
  decide

example : tokenizeBodyWith asciiMore { Opts.default with octets := true, imageSize := true }
    [.bytes (txt "it's\n.."), .none, .undecodable (some ⟨txt "abcde", 9⟩)]
    [.bytes (txt "12345"), .undecodable none, .undecodable (some ⟨txt "[<par", 7⟩)] [.none] =
    ⟨[txt "octet:b\"it's\\n\"", txt "control: octet payload is None",
      txt "control: couldn't decode octet", txt "octet:abcde", txt "control: couldn't decode image",
      txt "control: image payload is None", txt "control: couldn't decode image",
      txt "image-size:2**3", txt "control: payload is None"].map Tok.str, none⟩ := by decide

end Sb.Props
