import Verif.Model.Tokenizer
import Mathlib.Data.List.TakeWhile
import Mathlib.Data.Nat.Digits.Defs

/-
C54: which words of a text become tokens.
C56: the tokens about header lines.
-/

set_option linter.unusedSectionVars false

namespace Sb.Props
open Py Py.Re Py.Text Sb.Mail Sb.Strip Sb.Tokenize

/-! ### Generators -/

theorem each_append {α : Type} (f : α → Gen) (xs ys : List α) :
    Gen.each f (xs ++ ys) = (Gen.each f xs).andThen (Gen.each f ys) := by
  induction xs with
  | nil => simp [Gen.each, Gen.yield, Gen.andThen]
  | cons x xs ih =>
    rw [List.cons_append, Gen.each, Gen.each, ih]
    cases hf : (f x).stop with
    | some e => simp [Gen.andThen, hf]
    | none =>
      cases hg : (Gen.each f xs).stop with
      | none => simp [Gen.andThen, hf, hg]
      | some e => simp [Gen.andThen, hf, hg]

theorem each_ok {α : Type} {f : α → Gen} {xs : List α} (h : ∀ x ∈ xs, (f x).stop = none) :
    Gen.each f xs = ⟨xs.flatMap (fun x => (f x).toks), none⟩ := by
  induction xs with
  | nil => rfl
  | cons x xs ih =>
    rw [Gen.each, ih (fun y hy => h y (List.mem_cons_of_mem _ hy))]
    simp [Gen.andThen, h x (by simp)]

theorem each_raise {α : Type} {f : α → Gen} {xs ys : List α} {x : α} {e : Err}
    (h : ∀ y ∈ xs, (f y).stop = none) (hx : (f x).stop = some e) :
    Gen.each f (xs ++ x :: ys) = ⟨xs.flatMap (fun y => (f y).toks) ++ (f x).toks, some e⟩ := by
  rw [each_append, each_ok h, Gen.each]
  simp [Gen.andThen, hx]

theorem each_stop_none {α : Type} {f : α → Gen} {xs : List α} :
    (Gen.each f xs).stop = none ↔ ∀ x ∈ xs, (f x).stop = none := by
  induction xs with
  | nil => simp [Gen.each, Gen.yield]
  | cons x xs ih =>
    rw [Gen.each]
    cases hf : (f x).stop with
    | some e => simp [Gen.andThen, hf]
    | none => simp [Gen.andThen, hf, ih]

theorem andThen_stop_none {a b : Gen} : (a.andThen b).stop = none ↔ a.stop = none ∧ b.stop = none := by
  cases ha : a.stop <;> simp [Gen.andThen, ha]

theorem andThen_toks {a b : Gen} (h : a.stop = none) : (a.andThen b).toks = a.toks ++ b.toks := by
  simp [Gen.andThen, h]

theorem yield_andThen (ts : List Tok) (b : Gen) : (Gen.yield ts).andThen b = ⟨ts ++ b.toks, b.stop⟩ := rfl

theorem raise_andThen (e : Err) (b : Gen) : (Gen.raise e).andThen b = Gen.raise e := rfl

/-! ### C54 -/

/-- How a text falls into words: white space, a word, and so on.  After a word comes
the end or white space. -/
inductive InWords (space : Nat → Bool) : List Nat → List (List Nat) → Prop
  | none {s : List Nat} : (∀ c ∈ s, space c = true) → InWords space s []
  | word {s w t : List Nat} {ws : List (List Nat)} : (∀ c ∈ s, space c = true) → w ≠ [] →
      (∀ c ∈ w, space c = false) → (t = [] ∨ ∃ c r, t = c :: r ∧ space c = true) →
      InWords space t ws → InWords space (s ++ w ++ t) (w :: ws)

/-- The summary of a long word: its first character, and its length rounded down to a
multiple of ten. -/
def summary (w : List Nat) : Tok :=
  .str (txt "skip:" ++ [w.headD 0] ++ txt " " ++ digitsOf (w.length - w.length % 10))

/-- What the documentation says about a word. -/
def wordTokens (w : List Nat) : List Tok :=
  if w.length < 3 then [] else if w.length ≤ 12 then [.bytes w] else [summary w]

/-- Words like an email address or a host name: 13 to 39 bytes with a dot. -/
def Dotted (w : List Nat) : Prop := 13 ≤ w.length ∧ w.length ≤ 39 ∧ 46 ∈ w
/-- Long words with a byte that is not ASCII. -/
def HighBit (w : List Nat) : Prop := 13 ≤ w.length ∧ ∃ c ∈ w, 128 ≤ c

instance (w : List Nat) : Decidable (Dotted w) := by unfold Dotted; infer_instance
instance (w : List Nat) : Decidable (HighBit w) := by unfold HighBit; infer_instance

theorem words_skip {space : Nat → Bool} {s : List Nat} (h : ∀ c ∈ s, space c = true) (t : List Nat) :
    words space (s ++ t) = words space t := by
  induction s with
  | nil => rfl
  | cons x s ih =>
    rw [List.cons_append, words_space_cons (h x (by simp))]
    exact ih (fun c hc => h c (List.mem_cons_of_mem _ hc))

theorem inWords_words (space : Nat → Bool) : ∀ (n : Nat) (t : List Nat), t.length ≤ n →
    InWords space t (words space t) := by
  intro n
  induction n with
  | zero =>
    intro t ht
    have : t = [] := List.length_eq_zero_iff.1 (by omega)
    subst this
    exact .none (by simp)
  | succ n ih =>
    intro t ht
    let s := t.takeWhile space
    let r := t.dropWhile space
    have hs : ∀ c ∈ s, space c = true := fun c hc => List.mem_takeWhile_imp hc
    have ht' : t = s ++ r := (List.takeWhile_append_dropWhile).symm
    by_cases hr : r = []
    · have : t = s := by rw [ht', hr, List.append_nil]
      rw [this, words_nil_of_space hs]
      exact .none hs
    · let w := r.takeWhile (fun c => !space c)
      let u := r.dropWhile (fun c => !space c)
      have hr' : r = w ++ u := (List.takeWhile_append_dropWhile).symm
      have hw : ∀ c ∈ w, space c = false := fun c hc => by
        have := List.mem_takeWhile_imp hc; simpa using this
      have hwne : w ≠ [] := by
        intro h0
        obtain ⟨c, r2, hc⟩ := List.exists_cons_of_ne_nil hr
        have h1 : space c = false := by
          have := List.head_dropWhile_not space hr
          have h2 : r.head hr = c := by simp [hc]
          rw [h2] at this
          simpa using this
        have : w = c :: r2.takeWhile (fun c => !space c) := by
          show r.takeWhile _ = _
          rw [hc, List.takeWhile_cons, if_pos (by simp [h1])]
        rw [h0] at this
        cases this
      have hu : u = [] ∨ ∃ c q, u = c :: q ∧ space c = true := by
        by_cases h0 : u = []
        · exact .inl h0
        · right
          obtain ⟨c, q, hc⟩ := List.exists_cons_of_ne_nil h0
          refine ⟨c, q, hc, ?_⟩
          have := List.head_dropWhile_not (fun c => !space c) h0
          have h2 : u.head h0 = c := by simp [hc]
          rw [h2] at this
          simpa using this
      have hlen : u.length ≤ n := by
        have h1 : t.length = s.length + (w.length + u.length) := by
          conv => lhs; rw [ht', hr']
          simp
        have h2 : 0 < w.length := List.length_pos_iff.2 hwne
        omega
      have hE : t = s ++ w ++ u := by rw [List.append_assoc, ← hr', ← ht']
      have hW : words space t = w :: words space u := by
        rw [hE, List.append_assoc, words_skip hs, words_cons hwne hw hu]
      rw [hW]
      conv => arg 2; rw [hE]
      exact .word hs hwne hw hu (ih u hlen)

/-- `split()` gives the words of a text. -/
theorem C54_words (space : Nat → Bool) (t : List Nat) (ws : List (List Nat)) :
    words space t = ws ↔ InWords space t ws := by
  constructor
  · rintro rfl
    exact inWords_words space _ t (Nat.le_refl _)
  · intro h
    induction h with
    | none hs => exact words_nil_of_space hs
    | word hs hw hc ht _ ih => rw [List.append_assoc, words_skip hs, words_cons hw hc ht, ih]

theorem digitsUpTo_digits {k n : Nat} (h : n ≤ k) (h0 : n ≠ 0) :
    digitsUpTo k n = ((Nat.digits 10 n).reverse.map (48 + ·)) := by
  induction k generalizing n with
  | zero => omega
  | succ k ih =>
    rw [digitsUpTo]
    split
    · rename_i h1
      rw [Nat.digits_of_lt 10 n h0 h1]; rfl
    · rename_i h1
      rw [ih (by omega) (by omega), Nat.digits_def' (by omega) (Nat.pos_of_ne_zero h0)]
      simp

/-- The numbers in the tokens are written in decimal notation. -/
theorem C54_digits (n : Nat) :
    digitsOf n = if n = 0 then txt "0" else (Nat.digits 10 n).reverse.map (48 + ·) := by
  split
  · rename_i h; subst h; decide
  · rename_i h; exact digitsUpTo_digits (Nat.le_refl _) h

example : digitsOf 1204 = txt "1204" := by decide

theorem skipToken_eq {w : List Nat} (h : w ≠ []) : skipToken w = summary w := by
  obtain ⟨c, r, rfl⟩ := List.exists_cons_of_ne_nil h
  unfold skipToken summary
  rw [show (c :: r).length / 10 * 10 = (c :: r).length - (c :: r).length % 10 by omega]
  rfl

theorem textWord_ok {w : List Nat} (h1 : ¬ Dotted w) (h2 : ¬ HighBit w) :
    textWord w = ⟨wordTokens w, none⟩ := by
  unfold textWord wordTokens
  by_cases ha : w.length < 3
  · simp [ha, Gen.yield]
  · by_cases hb : w.length ≤ 12
    · simp [ha, hb, maxWord, Gen.yield]
    · have hne : w ≠ [] := by rintro rfl; simp at ha
      rw [if_neg ha, if_neg (by simpa [maxWord] using hb), if_neg ha, if_neg hb]
      unfold wordBytes
      rw [if_neg (by simp [maxWord]; omega), if_pos (by omega), if_neg, if_neg, skipToken_eq hne]
      · simp [Gen.yield, Gen.andThen]
      · intro h
        rw [List.any_eq_true] at h
        obtain ⟨c, hc, hd⟩ := h
        exact h2 ⟨by omega, c, hc, by simpa using hd⟩
      · rintro ⟨h3, h4⟩
        exact h1 ⟨by omega, by omega, h4⟩

theorem textWord_dotted {w : List Nat} (h : Dotted w) : textWord w = ⟨[], some .typeError⟩ := by
  obtain ⟨h1, h2, h3⟩ := h
  unfold textWord wordBytes
  rw [if_neg (by omega), if_neg (by simp [maxWord]; omega), if_neg (by simp [maxWord]; omega),
    if_pos (by omega), if_pos ⟨by omega, h3⟩]
  rfl

theorem textWord_high {w : List Nat} (h1 : ¬ Dotted w) (h : HighBit w) :
    textWord w = ⟨[summary w], some .typeError⟩ := by
  obtain ⟨h2, c, hc, hd⟩ := h
  have hne : w ≠ [] := by rintro rfl; simp at h2
  unfold textWord wordBytes
  rw [if_neg (by omega), if_neg (by simp [maxWord]; omega), if_neg (by simp [maxWord]; omega),
    if_pos (by omega), if_neg, if_pos, skipToken_eq hne]
  · rfl
  · exact List.any_eq_true.2 ⟨c, hc, by simpa using hd⟩
  · rintro ⟨h3, h4⟩
    exact h1 ⟨by omega, by omega, h4⟩

/-- The claim as documented: words of 3 to 12 bytes are tokens, shorter ones are
ignored, longer ones are summarised. -/
def C54Claim : Prop := ∀ t : List Nat,
  tokenizeText t = ⟨(words isSpace t).flatMap wordTokens, none⟩

/-- A host name in the text is enough for a TypeError. -/
theorem C54_claim_false : ¬ C54Claim := by
  intro h
  have := h (txt "www.example.org")
  revert this
  decide

/-- Without the two kinds of words that raise, the tokens are those documented. -/
theorem C54_text_partial (t : List Nat)
    (h : ∀ w ∈ words isSpace t, ¬ Dotted w ∧ ¬ HighBit w) :
    tokenizeText t = ⟨(words isSpace t).flatMap wordTokens, none⟩ := by
  have hf : ∀ w ∈ words isSpace t, textWord w = ⟨wordTokens w, none⟩ :=
    fun w hw => textWord_ok (h w hw).1 (h w hw).2
  unfold tokenizeText
  rw [each_ok (fun w hw => by rw [hf w hw])]
  congr 1
  rw [List.flatMap_def, List.flatMap_def]
  exact congrArg List.flatten (List.map_congr_left (fun w hw => by rw [hf w hw]))

/-- The first word of such a kind ends the tokens with a TypeError; the words after it
are lost. -/
theorem C54_raises_partial (t w : List Nat) (pre post : List (List Nat))
    (ht : words isSpace t = pre ++ w :: post)
    (hpre : ∀ v ∈ pre, ¬ Dotted v ∧ ¬ HighBit v) (hw : Dotted w ∨ HighBit w) :
    tokenizeText t = ⟨pre.flatMap wordTokens ++ (if Dotted w then [] else [summary w]),
      some .typeError⟩ := by
  have hf : ∀ v ∈ pre, textWord v = ⟨wordTokens v, none⟩ :=
    fun v hv => textWord_ok (hpre v hv).1 (hpre v hv).2
  have hx : textWord w = ⟨if Dotted w then [] else [summary w], some .typeError⟩ := by
    by_cases hd : Dotted w
    · rw [if_pos hd]; exact textWord_dotted hd
    · rw [if_neg hd]
      rcases hw with h | h
      · exact absurd h hd
      · exact textWord_high hd h
  unfold tokenizeText
  rw [ht, each_raise (e := .typeError) (fun v hv => by rw [hf v hv]) (by rw [hx])]
  rw [hx]
  congr 2
  rw [List.flatMap_def, List.flatMap_def]
  exact congrArg List.flatten (List.map_congr_left (fun v hv => by rw [hf v hv]))

/-- So a text of bytes can be tokenized exactly if it has no such word. -/
theorem C54_iff_partial (t : List Nat) :
    (tokenizeText t).stop = none ↔ ∀ w ∈ words isSpace t, ¬ Dotted w ∧ ¬ HighBit w := by
  unfold tokenizeText
  rw [each_stop_none]
  refine forall₂_congr (fun w _ => ?_)
  by_cases h1 : Dotted w
  · rw [textWord_dotted h1]; simp [h1]
  · by_cases h2 : HighBit w
    · rw [textWord_high h1 h2]; simp [h2]
    · rw [textWord_ok h1 h2]; simp [h1, h2]

/-- The words of a str: those of 3 to 12 characters are tokens, shorter ones are
ignored; the first longer one ends the tokens with a TypeError, after its summary if it
has at least 40 characters. -/
theorem C54_str_partial (space : Nat → Bool) (t : Txt) :
    ((∀ w ∈ words space t, w.length ≤ 12) →
      tokenizeTextStr space t =
        ⟨((words space t).filter (fun w => 3 ≤ w.length)).map Tok.str, none⟩) ∧
    (∀ pre w post, words space t = pre ++ w :: post → (∀ v ∈ pre, v.length ≤ 12) →
      13 ≤ w.length →
      tokenizeTextStr space t =
        ⟨(pre.filter (fun v => 3 ≤ v.length)).map Tok.str ++
          (if w.length < 40 then [] else [summary w]), some .typeError⟩) := by
  have hf : ∀ v : Txt, v.length ≤ 12 →
      textWordStr v = ⟨if 3 ≤ v.length then [.str v] else [], none⟩ := by
    intro v hv
    unfold textWordStr
    by_cases h3 : v.length < 3
    · simp [h3, Gen.yield]
    · simp [h3, maxWord, hv, Gen.yield, show 3 ≤ v.length by omega]
  have hmap : ∀ l : List Txt, (∀ v ∈ l, v.length ≤ 12) →
      l.flatMap (fun v => (textWordStr v).toks) = (l.filter (fun v => 3 ≤ v.length)).map Tok.str := by
    intro l
    induction l with
    | nil => intro _; rfl
    | cons v l ih =>
      intro h
      rw [List.flatMap_cons, ih (fun u hu => h u (List.mem_cons_of_mem _ hu)), hf v (h v (by simp))]
      by_cases h3 : 3 ≤ v.length <;> simp [h3]
  constructor
  · intro h
    unfold tokenizeTextStr
    rw [each_ok (fun w hw => by rw [hf w (h w hw)]), hmap _ h]
  · intro pre w post ht hpre hw
    have hne : w ≠ [] := by rintro rfl; simp at hw
    have hx : textWordStr w = ⟨if w.length < 40 then [] else [summary w], some .typeError⟩ := by
      unfold textWordStr wordStr
      rw [if_neg (by omega), if_neg (by simp [maxWord]; omega), if_neg (by simp [maxWord]; omega),
        if_pos (by omega)]
      by_cases h40 : w.length < 40
      · simp [h40, Gen.raise]
      · simp [h40, Gen.raise, Gen.yield, Gen.andThen, skipToken_eq hne]
    unfold tokenizeTextStr
    rw [ht, each_raise (e := .typeError) (fun v hv => by rw [hf v (hpre v hv)]) (by rw [hx]),
      hmap _ hpre, hx]

example : tokenizeText (txt "to the\tunbelievable incomprehensibilities") =
    ⟨[.bytes (txt "the"), .bytes (txt "unbelievable"), .str (txt "skip:i 20")], none⟩ := by decide
example : tokenizeText (txt "see www.example.org for more") =
    ⟨[.bytes (txt "see")], some .typeError⟩ := by decide
example : tokenizeText (txt "abc aaaaaaaaaaaa" ++ [0xC3, 0xA9] ++ txt " def") =
    ⟨[.bytes (txt "abc"), .str (txt "skip:a 10")], some .typeError⟩ := by decide
example : tokenizeTextStr isSpace (txt "of the incomprehensible") =
    ⟨[.str (txt "the")], some .typeError⟩ := by decide

/-! ### C56 -/

/-- The different items of a list, in the order of their first occurrences. -/
def firsts : List Txt → List Txt
  | [] => []
  | x :: rest => x :: (firsts rest).filter (fun y => y ≠ x)

/-- The names of headers that are counted. -/
def Counted (low : Txt → Txt) (countAll : Bool) (x : Txt) : Bool :=
  countAll || decide (low x ∈
    [txt "abuse-reports-to", txt "date", txt "errors-to", txt "from", txt "importance",
      txt "in-reply-to", txt "message-id", txt "mime-version", txt "organization", txt "received",
      txt "reply-to", txt "return-path", txt "subject", txt "to", txt "user-agent",
      txt "x-abuse-info", txt "x-complaints-to", txt "x-face"])

/-- `header:NAME:COUNT` -/
def headerToken (names : List Txt) (x : Txt) : Tok :=
  .str (txt "header:" ++ x ++ txt ":" ++ digitsOf (names.count x))

theorem counted_eq (low : Txt → Txt) (countAll : Bool) (x : Txt) :
    (countAll || isSafe low x) = Counted low countAll x := by
  unfold Counted isSafe
  congr 1
  rw [Bool.eq_iff_iff, List.contains_iff_mem, decide_eq_true_iff]
  rfl

theorem mem_firsts {l : List Txt} {x : Txt} : x ∈ firsts l ↔ x ∈ l := by
  induction l with
  | nil => simp [firsts]
  | cons y l ih =>
    simp only [firsts, List.mem_cons, List.mem_filter, ih]
    by_cases h : x = y <;> simp [h]

theorem firsts_nodup (l : List Txt) : (firsts l).Nodup := by
  induction l with
  | nil => simp [firsts]
  | cons y l ih =>
    rw [firsts, List.nodup_cons]
    exact ⟨by simp, ih.filter _⟩

theorem firsts_append_single (l : List Txt) (x : Txt) :
    firsts (l ++ [x]) = if x ∈ l then firsts l else firsts l ++ [x] := by
  induction l with
  | nil => simp [firsts]
  | cons y l ih =>
    rw [List.cons_append, firsts, ih]
    by_cases hy : x = y
    · subst hy
      by_cases hx : x ∈ l <;> simp [hx, firsts]
    · by_cases hx : x ∈ l <;> simp [hx, hy, firsts, List.filter_append]

/-- counting one more name -/
theorem setL_counts (l : List Txt) (x : Txt) :
    Dict.setL ((firsts l).map (fun y => (y, l.count y))) x
        ((Dict.getL ((firsts l).map (fun y => (y, l.count y))) x).getD 0 + 1) =
      (firsts (l ++ [x])).map (fun y => (y, (l ++ [x]).count y)) := by
  have hget : ∀ ys : List Txt, Dict.getL (ys.map (fun y => (y, l.count y))) x =
      if x ∈ ys then some (l.count x) else none := by
    intro ys
    induction ys with
    | nil => simp [Dict.getL]
    | cons y ys ih =>
      simp only [List.map_cons, Dict.getL, ih]
      by_cases h : y = x
      · simp [h]
      · simp [h, Ne.symm h]
  have hset : ∀ (ys : List Txt) (v : Nat), ys.Nodup →
      Dict.setL (ys.map (fun y => (y, l.count y))) x v =
        if x ∈ ys then ys.map (fun y => (y, if y = x then v else l.count y))
        else ys.map (fun y => (y, l.count y)) ++ [(x, v)] := by
    intro ys v
    induction ys with
    | nil => simp [Dict.setL]
    | cons y ys ih =>
      intro hn
      rw [List.nodup_cons] at hn
      simp only [List.map_cons, Dict.setL]
      by_cases h : y = x
      · subst h
        simp only [if_true, List.mem_cons, true_or]
        congr 1
        apply List.map_congr_left
        intro z hz
        have : z ≠ y := by rintro rfl; exact hn.1 hz
        simp [this]
      · rw [if_neg h, ih hn.2]
        by_cases hx : x ∈ ys <;> simp [hx, h, Ne.symm h]
  rw [hget, hset _ _ (firsts_nodup l), firsts_append_single]
  simp only [mem_firsts]
  by_cases hx : x ∈ l
  · simp only [if_pos hx]
    apply List.map_congr_left
    intro y _
    by_cases h : y = x
    · subst h; simp [List.count_append]
    · simp [h, List.count_append, Ne.symm h]
  · simp only [if_neg hx, List.map_append, List.map_cons, List.map_nil]
    congr 1
    · apply List.map_congr_left
      intro y hy
      have h : y ≠ x := by rintro rfl; exact hx (mem_firsts.1 hy)
      simp [List.count_append, Ne.symm h]
    · simp [List.count_append, List.count_eq_zero.2 hx]

theorem headerCounts_eq (low : Txt → Txt) (countAll : Bool) (rest l : List Txt) :
    (headerCounts low countAll rest ⟨(firsts l).map (fun y => (y, l.count y))⟩).entries =
      (firsts (l ++ rest.filter (Counted low countAll))).map
        (fun y => (y, (l ++ rest.filter (Counted low countAll)).count y)) := by
  induction rest generalizing l with
  | nil => simp [headerCounts]
  | cons x rest ih =>
    rw [headerCounts, counted_eq]
    by_cases hx : Counted low countAll x
    · rw [if_pos hx, List.filter_cons_of_pos hx]
      have := ih (l ++ [x])
      rw [List.append_assoc, List.singleton_append] at this
      rw [← this, ← setL_counts l x]
      rfl
    · rw [if_neg hx, List.filter_cons_of_neg hx, ih]

theorem count_filter_counted {low : Txt → Txt} {countAll : Bool} {names : List Txt} {y : Txt}
    (h : y ∈ names.filter (Counted low countAll)) :
    (names.filter (Counted low countAll)).count y = names.count y :=
  List.count_filter (List.mem_filter.1 h).2

theorem headerEntries_eq (low : Txt → Txt) (countAll : Bool) (names : List Txt) :
    (headerCounts low countAll names Dict.empty).entries =
      (firsts (names.filter (Counted low countAll))).map (fun y => (y, names.count y)) := by
  have h0 : (Dict.empty : Dict Txt Nat) = ⟨(firsts []).map (fun y => (y, ([] : List Txt).count y))⟩ := rfl
  rw [h0, headerCounts_eq, List.nil_append]
  apply List.map_congr_left
  intro y hy
  rw [count_filter_counted (mem_firsts.1 hy)]

/-- The tokens about header lines, with RECORD_HEADER_ABSENCE off: one for each
different name that is counted (with the default options: that is safe), with the number
of its lines. -/
theorem C56_header_tokens (low : Txt → Txt) (countAll : Bool) (names : List Txt) :
    headerTokens low countAll false names =
      (firsts (names.filter (Counted low countAll))).map (headerToken names) := by
  unfold headerTokens
  simp only [headerEntries_eq, List.map_map]
  simp only [Bool.false_eq_true, if_false, List.append_nil]
  apply List.map_congr_left
  intro y _
  simp [headerToken, txt]

/-- A name that is counted has exactly one token, any other name has none. -/
theorem C56_one_token (low : Txt → Txt) (countAll : Bool) (names : List Txt) (x : Txt) :
    ((firsts (names.filter (Counted low countAll))).count x =
      if x ∈ names ∧ Counted low countAll x then 1 else 0) := by
  rw [List.Nodup.count (firsts_nodup _)]
  simp only [mem_firsts, List.mem_filter]

theorem header_ne_noheader {names : List Txt} {x : Txt} {k : Txt} :
    headerToken names x ≠ .str (txt "noheader:" ++ k) := by
  intro h
  unfold headerToken at h
  injection h with h
  have : (104 : Nat) = 110 := by
    have := congrArg List.head? h
    simp [txt] at this
  omega

/-- With RECORD_HEADER_ABSENCE on, there is also a token `noheader:NAME` for each name
that is *present*, counted, and not safe: it never reports that a header is absent, and
it is empty unless COUNT_ALL_HEADER_LINES is set. -/
theorem C56_noheader (low : Txt → Txt) (countAll recordAbsence : Bool) (names : List Txt) (k : Txt) :
    .str (txt "noheader:" ++ k) ∈ headerTokens low countAll recordAbsence names ↔
      recordAbsence = true ∧ countAll = true ∧ k ∈ names ∧ Counted low false k = false := by
  have hsafe : ∀ y, isSafe low y = Counted low false y := fun y => by
    rw [← counted_eq]; simp
  have hE : headerTokens low countAll recordAbsence names =
      (firsts (names.filter (Counted low countAll))).map (headerToken names) ++
      (if recordAbsence then ((firsts (names.filter (Counted low countAll))).filter
        (fun y => !Counted low false y)).map (fun y => .str (txt "noheader:" ++ y)) else []) := by
    rw [← C56_header_tokens]
    unfold headerTokens
    simp only [Bool.false_eq_true, if_false, List.append_nil]
    congr 1
    simp only [Dict.keys, headerEntries_eq, List.map_map, hsafe]
    cases recordAbsence
    · rfl
    · simp [Function.comp_def]
  rw [hE, List.mem_append]
  constructor
  · rintro (h | h)
    · obtain ⟨x, _, hx⟩ := List.mem_map.1 h
      exact absurd hx header_ne_noheader
    · cases recordAbsence with
      | false => simp at h
      | true =>
        simp only [if_true, List.mem_map, List.mem_filter, mem_firsts] at h
        obtain ⟨y, ⟨⟨hy1, hy2⟩, hy3⟩, hy4⟩ := h
        have : y = k := by injection hy4 with h5; exact List.append_cancel_left h5
        subst this
        refine ⟨rfl, ?_, hy1, by simpa using hy3⟩
        cases countAll with
        | true => rfl
        | false => rw [hy2] at hy3; simp at hy3
  · rintro ⟨rfl, rfl, h1, h2⟩
    right
    simp only [if_true, List.mem_map, List.mem_filter, mem_firsts]
    exact ⟨k, ⟨⟨h1, by simp [Counted]⟩, by simp [h2]⟩, rfl⟩

example : headerTokens lower false false
    [txt "From", txt "Received", txt "X-Spam", txt "Received", txt "FROM"] =
    [.str (txt "header:From:1"), .str (txt "header:Received:2"), .str (txt "header:FROM:1")] := by
  decide
example : headerTokens lower true true [txt "To", txt "X-Spam"] =
    [.str (txt "header:To:1"), .str (txt "header:X-Spam:1"), .str (txt "noheader:X-Spam")] := by
  decide

end Sb.Props
