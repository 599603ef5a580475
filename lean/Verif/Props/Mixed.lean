import Verif.Proof.Mixed
import Verif.Props.Scoring

/-
Property C82: scoring words that are str or bytes, as the tokenizer (bytes, C77) and
BIGRAM_FORMAT (str) make them.  `S` is the sorting algorithm of the interpreter, about
which nothing is assumed beyond sorting by comparisons (Py/Sorting.lean).
-/

set_option linter.unusedSectionVars false

namespace Sb.Props
open Sb Py Spec Sb.Strip

/-- The word is of type bytes. -/
def IsBytes : Tok → Prop
  | .bytes _ => True
  | .str _ => False

/-- The token streams of the calls of a history. -/
def streamOf : Call Tok → Option (Stream Tok)
  | .learn _ s _ => some s
  | .unlearn _ s _ => some s
  | .spamprob _ s _ => some s
  | .probability _ => none

section
variable {K : Type} [Field K] [LinearOrder K] [IsStrictOrderedRing K]

/-- The claim of C82: with tokens that are all bytes, as the tokenizer yields them,
scoring never raises TypeError, after any valid history, in both modes. -/
def C82Claim (F : FloatOps K) : Prop :=
  ∀ (S : SortAlg) (ub : Bool) (calls : List (Call Tok)) (L : Ledger Tok) (it : SetIter Tok)
    (s : Stream Tok) (ev : Bool), Valid ub 0 calls L →
    (∀ call ∈ calls, ∀ t, streamOf call = some t → ∀ w ∈ t.items, IsBytes w) →
    (∀ w ∈ s.items, IsBytes w) →
    (wordSpamprob S F (memory Tok) it s ev (after F ub calls)).1 ≠ .error .typeError

/-- The words scored for a message: its tokens, and in bigram mode each pair of
adjacent ones. -/
def Scored (ub : Bool) (s : Stream Tok) (w : Tok) : Prop :=
  w ∈ s.items ∨ (ub = true ∧ ∃ i x y, s.items[i]? = some x ∧ s.items[i + 1]? = some y ∧
    w = BigramFormat.bi x y)

/-- Among the words scored there are a str and bytes of the same probability, at
least 0.1 away from 0.5. -/
def Tie (F : FloatOps K) (ub : Bool) (c : Clf (Dict Tok WordInfo) K) (s : Stream Tok) : Prop :=
  ∃ t b p, Scored ub s (.str t) ∧ Scored ub s (.bytes b) ∧ tokenProb F c (.str t) = .ok p ∧
    tokenProb F c (.bytes b) = .ok p ∧ F.rnd (1 / 10) ≤ strength F p

theorem scored_iff (ub : Bool) (s : Stream Tok) (w : Tok) : Scored ub s w ↔ Looked (some ub) s w := by
  unfold Scored Looked
  refine or_congr_right ?_
  rw [Option.some.injEq]
  refine and_congr_right fun _ => ?_
  constructor
  · rintro ⟨i, x, y, hx, hy, rfl⟩
    exact ⟨(x, y), mem_zip_tail hx hy, rfl⟩
  · rintro ⟨⟨x, y⟩, hp, rfl⟩
    obtain ⟨i, hi⟩ := List.mem_iff_getElem?.1 hp
    rw [List.getElem?_zip_eq_some, List.getElem?_tail] at hi
    exact ⟨i, x, y, hi.1, hi.2, rfl⟩

theorem tie_iff (F : FloatOps K) (ub : Bool) {c : Clf (Dict Tok WordInfo) K} (hk : Coherent F c)
    (s : Stream Tok) : Tie F ub c s ↔ HasClash F c.nspam c.nham (some ub) c.store.get? s := by
  constructor
  · rintro ⟨t, b, p, h1, h2, h3, h4, h5⟩
    rw [scored_iff] at h1 h2
    rw [tokenProb_eq F hk] at h3 h4
    exact ⟨_, _, _, _, h1, h2, pureClue_of_prob h3, pureClue_of_prob h4, h5, rfl, rfl, trivial⟩
  · rintro ⟨u, v, a, b, hu, hv, ha, hb, hs, h1, h2, h3⟩
    obtain ⟨a1, a2, a3⟩ := pureClue_ok ha
    obtain ⟨b1, b2, b3⟩ := pureClue_ok hb
    rw [a1, b1] at h3
    rw [a3] at hs
    rw [← h2] at b2
    rw [← scored_iff] at hu hv
    rw [← tokenProb_eq F hk] at a2 b2
    cases u with
    | str t =>
      cases v with
      | str t' => exact h3.elim
      | bytes b => exact ⟨t, b, _, hu, hv, a2, b2, hs⟩
    | bytes b =>
      cases v with
      | str t => exact ⟨t, b, _, hv, hu, b2, a2, hs⟩
      | bytes b => exact h3.elim

theorem wordSpamprob_eq (S : SortAlg) (F : FloatOps K) {c : Clf (Dict Tok WordInfo) K}
    (hk : Coherent F c) (it : SetIter Tok) (s : Stream Tok) (ev : Bool) :
    (wordSpamprob S F (memory Tok) it s ev c).1 =
      pureWordSpamprob S F c.nspam c.nham c.useBigrams c.store.get? it s ev :=
  (computes_wordSpamprob (F := F) (ub := c.useBigrams) (nspam := c.nspam) (nham := c.nham)
    (reads_memory c.store) it s ev (probesIn_true _ _) c ⟨hk, rfl, rfl, rfl, rfl⟩).1

/-- **C82**, what holds instead: after a valid history, on a platform whose arithmetic
is sound, scoring raises TypeError exactly if there is a tie between a str and bytes;
without a tie it does what Model/Classifier.lean says, errors included, and the
sorting algorithm makes no difference. -/
theorem C82_tie_partial (S : SortAlg) (F : FloatOps K) (hF : F.Sound) (hr : F.PosRatios) (ub : Bool)
    (calls : List (Call Tok)) (L : Ledger Tok) (hv : Valid ub 0 calls L) (it : SetIter Tok)
    (s : Stream Tok) (ev : Bool) :
    (Tie F ub (after F ub calls) s →
      (wordSpamprob S F (memory Tok) it s ev (after F ub calls)).1 = .error .typeError) ∧
    (¬ Tie F ub (after F ub calls) s →
      (wordSpamprob S F (memory Tok) it s ev (after F ub calls)).1 =
        (spamprob F (memory Tok) it s ev (after F ub calls)).1 ∧
      (wordSpamprob S F (memory Tok) it s ev (after F ub calls)).1 ≠ .error .typeError) := by
  obtain ⟨-, hk, hub⟩ := after_ok F ub calls
  rw [tie_iff F ub hk, wordSpamprob_eq S F hk, spamprob_eq F hk, hub]
  have ht := tokenProb_ok_of_valid F hF hr ub calls L hv
  refine ⟨pureWordSpamprob_clash it s ev ht, fun h => ⟨pureWordSpamprob_fine it s ev h, ?_⟩⟩
  rw [pureWordSpamprob_fine it s ev h]
  obtain ⟨clues, hc⟩ := pureClues_total ht ub it s
  unfold pureSpamprob
  rw [hc]
  simp only [bind, Except.bind]
  cases hcb : combine F (clues.map (·.prob)) with
  | error e =>
    simp only
    rw [combine_error hcb]
    intro h; cases h
  | ok v => cases ev <;> intro h <;> cases h

/-- **C82.** Without a tie nothing is different, whatever the history (which may be
invalid) and whatever the platform. -/
theorem C82_no_tie (S : SortAlg) (F : FloatOps K) (ub : Bool) (calls : List (Call Tok))
    (it : SetIter Tok) (s : Stream Tok) (ev : Bool) (h : ¬ Tie F ub (after F ub calls) s) :
    wordSpamprob S F (memory Tok) it s ev (after F ub calls) =
      spamprob F (memory Tok) it s ev (after F ub calls) := by
  obtain ⟨-, hk, hub⟩ := after_ok F ub calls
  refine Prod.ext ?_ (wordSpamprob_snd _ _ _ _ _)
  rw [wordSpamprob_eq S F hk, spamprob_eq F hk, hub]
  rw [tie_iff F ub hk] at h
  exact pureWordSpamprob_fine it s ev h

/-- **C82**, one kind of words: in unigram mode with tokens that are all bytes (as the
tokenizer's are) and in either mode with tokens that are all str, there is no tie, so
that scoring is as Model/Classifier.lean says. -/
theorem C82_one_kind (S : SortAlg) (F : FloatOps K) (ub : Bool) (calls : List (Call Tok))
    (it : SetIter Tok) (s : Stream Tok) (ev : Bool)
    (h : (ub = false ∧ ∀ w ∈ s.items, IsBytes w) ∨ ∀ w ∈ s.items, ¬ IsBytes w) :
    wordSpamprob S F (memory Tok) it s ev (after F ub calls) =
      spamprob F (memory Tok) it s ev (after F ub calls) := by
  apply C82_no_tie
  rintro ⟨t, b, p, h1, h2, -⟩
  rcases h with ⟨rfl, h⟩ | h
  · rcases h1 with h1 | ⟨h1, -⟩
    · exact h _ h1
    · cases h1
  · rcases h2 with h2 | ⟨-, i, x, y, -, -, h2⟩
    · exact h _ h2 trivial
    · cases h2

/-- **C82**, the object: scoring leaves the classifier in the same state whether it
raises TypeError or not, so that the histories of the other properties are those of
this one. -/
theorem C82_state (S : SortAlg) (F : FloatOps K) {σ : Type} (B : Backend σ Tok) (it : SetIter Tok)
    (s : Stream Tok) (ev : Bool) (c : Clf σ K) :
    (wordSpamprob S F B it s ev c).2 = (spamprob F B it s ev c).2 :=
  wordSpamprob_snd B it s ev c

end

theorem strong_once (b : Bool) :
    ∃ p, freshProbability exactReal (if b then 1 else 0) (if b then 0 else 1)
      (if b then ⟨1, 0⟩ else ⟨0, 1⟩) = .ok p ∧ exactReal.rnd (1 / 10) ≤ strength exactReal p := by
  obtain ⟨p, hp⟩ := freshProbability_total (F := exactReal) exactReal_sound exactReal_posRatios
    (ns := if b then 1 else 0) (nh := if b then 0 else 1) (r := if b then ⟨1, 0⟩ else ⟨0, 1⟩)
    (by cases b <;> simp) (by cases b <;> simp) (by cases b <;> simp) (by cases b <;> simp)
    (by cases b <;> simp)
  refine ⟨p, hp, ?_⟩
  obtain ⟨-, -, h, -⟩ := freshProbability_exact_ok (by cases b <;> simp) (by cases b <;> simp)
    (by cases b <;> simp) hp
  rw [h]
  have e : exactReal.rnd (1 / 10) = 1 / 10 := rfl
  have e' : ∀ p, strength exactReal p = |p - 1 / 2| := fun _ => rfl
  rw [e, e']
  cases b
  · norm_num [robinson, abs_of_neg]
  · norm_num [robinson, abs_of_pos]

/-- **C82**, in practice: train a new bigram classifier on one message given as a list
of at least two bytes tokens, and score any message that contains its first two tokens
side by side: TypeError (exact arithmetic). -/
theorem C82_first_message (S : SortAlg) (it it' : SetIter Tok) (x y : List Nat) (rest : List Tok)
    (isSpam ev : Bool) (s : Stream Tok) (i : Nat) (hx : s.items[i]? = some (.bytes x))
    (hy : s.items[i + 1]? = some (.bytes y)) :
    (wordSpamprob S exactReal (memory Tok) it' s ev
      (after exactReal true [.learn it (.list (.bytes x :: .bytes y :: rest)) isSpam])).1 =
      .error .typeError := by
  refine (C82_tie_partial S exactReal exactReal_sound exactReal_posRatios true _
    _ (.learn (.nil _)) it' s ev).1 ?_
  set c := after exactReal true [.learn it (.list (.bytes x :: .bytes y :: rest)) isSpam] with hc
  have hk := (after_ok exactReal true [.learn it (.list (.bytes x :: .bytes y :: rest)) isSpam]).2.1
  rw [← hc] at hk
  have hget : ∀ w, w ∈ (Tok.bytes x :: .bytes y :: rest).dropLast ∨
      (∃ p ∈ (Tok.bytes x :: .bytes y :: rest).zip (Tok.bytes x :: .bytes y :: rest).tail,
        w = BigramFormat.bi p.1 p.2) →
      c.store.get? w = some (if isSpam then ⟨1, 0⟩ else ⟨0, 1⟩) := by
    intro w hw
    have := C21_bigram_training_partial (K := ℝ) (Clf.new true Dict.empty) rfl it
      (.bytes x :: .bytes y :: rest) isSpam w
    rw [if_pos hw] at this
    rw [hc]
    refine Eq.trans this ?_
    cases isSpam <;> rfl
  have htot := C02_counts_are_ledger exactReal true
    [.learn it (.list (.bytes x :: .bytes y :: rest)) isSpam] _ (.learn (.nil _))
  obtain ⟨n1, n2, -⟩ := htot
  obtain ⟨p, hp, hst⟩ := strong_once isSpam
  have hprob : ∀ w, c.store.get? w = some (if isSpam then ⟨1, 0⟩ else ⟨0, 1⟩) →
      tokenProb exactReal c w = .ok p := by
    intro w hw
    rw [tokenProb_eq exactReal hk, hw, ← hp]
    have e1 : c.nspam = if isSpam then 1 else 0 := by
      rw [hc, n1, spamTotal_cons]; cases isSpam <;> simp [spamTotal, msgOf]
    have e2 : c.nham = if isSpam then 0 else 1 := by
      rw [hc, n2, hamTotal_cons]; cases isSpam <;> simp [hamTotal, msgOf]
    rw [e1, e2]
    rfl
  exact ⟨_, x, p, .inr ⟨rfl, i, _, _, hx, hy, rfl⟩, .inl (List.mem_of_getElem? hx),
    hprob _ (hget _ (.inr ⟨(.bytes x, .bytes y), by simp, rfl⟩)), hprob _ (hget _ (.inl (by simp))), hst⟩

/-- **C82**, refutation. -/
theorem C82_claim_false : ¬ C82Claim exactReal := by
  intro h
  refine h .insertion true [.learn .dedup (.list [.bytes [97], .bytes [98]]) true] _ .dedup
    (.list [.bytes [97], .bytes [98]]) false (.learn (.nil _)) ?_ ?_
    (C82_first_message .insertion .dedup .dedup [97] [98] [] true false _ 0 rfl rfl)
  · intro call hc t ht w hw
    simp only [List.mem_singleton] at hc
    subst hc
    cases ht
    simp only [Stream.items, List.mem_cons, List.not_mem_nil, or_false] at hw
    rcases hw with rfl | rfl <;> trivial
  · intro w hw
    simp only [Stream.items, List.mem_cons, List.not_mem_nil, or_false] at hw
    rcases hw with rfl | rfl <;> trivial

/-- The bigram of b'a' and b'b' is the str "bi:b'a' b'b'". -/
example : (BigramFormat.bi (Tok.bytes [97]) (Tok.bytes [98]) : Tok) = Tok.str (Mail.txt "bi:b'a' b'b'") := by
  decide

/-- No tie: a new classifier. -/
example : ¬ Tie exactReal true (after exactReal true []) (.list [.bytes [97], .bytes [98]]) := by
  rintro ⟨t, b, p, -, -, h, -, h'⟩
  have : p = exactReal.rnd (1 / 2) := by
    have h2 : tokenProb exactReal (after exactReal true []) (Tok.str t) = .ok (exactReal.rnd (1 / 2)) := rfl
    rw [h2] at h; cases h; rfl
  subst this
  have e : strength exactReal (exactReal.rnd (1 / 2)) = |(1 / 2 : ℝ) - 1 / 2| := rfl
  rw [e] at h'
  have e' : exactReal.rnd (1 / 10) = 1 / 10 := rfl
  rw [e'] at h'
  norm_num at h'

/-- Bytes tokens, unigram mode. -/
example : ∀ w ∈ (Stream.list [Tok.bytes [97], .bytes [98]]).items, IsBytes w := by
  intro w hw
  simp only [Stream.items, List.mem_cons, List.not_mem_nil, or_false] at hw
  rcases hw with rfl | rfl <;> trivial

end Sb.Props
