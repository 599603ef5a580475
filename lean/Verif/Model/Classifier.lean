import Verif.Py.Basic
import Verif.Model.Float

/-
Model of sbclassifier/classifiers/basic.py (class WordInfo and class
Classifier), method by method.  The record-access methods `_wordinfoget`,
`_wordinfoset`, `_wordinfodel` and `_post_training`, which subclasses override,
are a parameter (`Backend`), as in the Python code; `memory` is the base
class's own implementation.

Simplified throughout: words are elements of any linearly ordered type (Python
compares str with str or bytes with bytes; a mixture would raise TypeError when
sorted), logging is dropped, counts are unbounded integers as in Python, and
floats are as described in Model/Float.lean.
-/

namespace Sb
open Py

/-- Class WordInfo, basic.py l.133-163; the pickled state is the same pair, in
this order (l.159-163). -/
structure WordInfo where
  spamcount : Int
  hamcount : Int
  deriving DecidableEq, Repr

/-- `WordInfo()` with the default arguments, basic.py l.153-154. -/
def WordInfo.new : WordInfo := ⟨0, 0⟩

/-- PICKLE_VERSION, basic.py l.51. -/
def pickleVersion : Int := 5

/-- MAX_DISCRIMINATORS, basic.py l.106. -/
def maxDiscriminators : Nat := 150

/-- BIGRAM_FORMAT.format(x, y), basic.py l.54, l.347, l.533: how two tokens are
combined into a bigram token. -/
class BigramFormat (W : Type) where
  bi : W → W → W

/-- The methods of Classifier that subclasses override: `_wordinfoget`,
`_wordinfoset`, `_wordinfodel` and `_post_training` (which sees nspam and
nham), basic.py l.488-494, l.588-595. -/
structure Backend (σ W : Type) where
  get : W → M σ (Option WordInfo)
  set : W → WordInfo → M σ Unit
  del : W → M σ Unit
  post : (nspam nham : Int) → M σ Unit

/-- The base class's own record methods, over the dict `self.wordinfo`:
basic.py l.588-589 (get), l.591-592 (set), l.594-595 (del, KeyError if
absent), l.488-494 (post: nothing). -/
def memory (W : Type) [DecidableEq W] : Backend (Dict W WordInfo) W where
  get w := fun d => (.ok (d.get? w), d)
  set w r := M.modify (fun d => d.set w r)
  del w := fun d => if d.contains w then (.ok (), d.erase w) else (.error .keyError, d)
  post _ _ := pure ()

/-- The attributes of a Classifier object, basic.py l.180-188.  `store` stands
for the attributes used by the record methods (`wordinfo` in the base class).
`useBigrams` is `none` for an object that has no attribute `_use_bigrams`
(after unpickling, l.193-197). -/
structure Clf (σ K : Type) where
  useBigrams : Option Bool
  store : σ
  probcache : Dict Int (Dict Int K)
  nspam : Int
  nham : Int

/-- `Classifier(use_bigrams)`, basic.py l.180-188. -/
def Clf.new {σ K : Type} (useBigrams : Bool) (store : σ) : Clf σ K :=
  { useBigrams := some useBigrams, store := store, probcache := Dict.empty, nspam := 0, nham := 0 }

/-- A wordstream argument: something that can be iterated again and again (a
list, a Tokenizer result turned into a list) or a one-shot iterator (a
generator). -/
inductive Stream (W : Type) where
  | list (ws : List W)
  | iterator (ws : List W)

/-- The items of a wordstream. -/
def Stream.items {W : Type} : Stream W → List W
  | .list ws => ws
  | .iterator ws => ws

/-- `_enhance_wordstream`, basic.py l.323-350, on a list: `zip` pairs each
token with the bigram that starts at it and stops when the bigrams run out. -/
def enhanceList {W : Type} [BigramFormat W] : List W → List W
  | a :: b :: t => a :: BigramFormat.bi a b :: enhanceList (b :: t)
  | _ => []

/-- `_enhance_wordstream`, basic.py l.323-350, on a one-shot iterator: the
outer zip (l.350), the inner zip and the islice (l.345) pull from the same
iterator.  From the second round on: the outer zip takes `x`, the inner zip
takes `y`, the islice takes `z`; the round yields `x` and the bigram of
`y, z`. -/
def enhanceIterTail {W : Type} [BigramFormat W] : List W → List W
  | x :: y :: z :: t => x :: BigramFormat.bi y z :: enhanceIterTail t
  | _ => []

/-- First round of `enhanceIterTail`: `islice(it, 1, None)` first skips one item
when it is advanced for the first time. -/
def enhanceIter {W : Type} [BigramFormat W] : List W → List W
  | x :: y :: _ :: z :: t => x :: BigramFormat.bi y z :: enhanceIterTail t
  | _ => []

/-- `_enhance_wordstream`, basic.py l.323-350. -/
def enhance {W : Type} [BigramFormat W] : Stream W → List W
  | .list ws => enhanceList ws
  | .iterator ws => enhanceIter ws

section
variable {σ W K : Type}

/-- Run a record method on the `store` part of the object. -/
def onStore {α : Type} (m : M σ α) : M (Clf σ K) α := fun c =>
  match m c.store with
  | (r, s') => (r, { c with store := s' })

/-- The loop body of `_add_msg`, basic.py l.448-457. -/
def addWord (B : Backend σ W) (isSpam : Bool) (word : W) : M (Clf σ K) Unit := do
  let record ← onStore (B.get word)
  let record := record.getD WordInfo.new
  let record : WordInfo :=
    if isSpam then { record with spamcount := record.spamcount + 1 }
    else { record with hamcount := record.hamcount + 1 }
  onStore (B.set word record)

/-- `_post_training` with the object's totals, basic.py l.459, l.486. -/
def postTraining (B : Backend σ W) : M (Clf σ K) Unit := fun c =>
  onStore (B.post c.nspam c.nham) c

/-- `_add_msg`, basic.py l.440-459; `it` is the iteration order of
`set(wordstream)` (l.447). -/
def addMsg (B : Backend σ W) (it : SetIter W) (ws : List W) (isSpam : Bool) :
    M (Clf σ K) Unit := do
  M.modify (fun c => { c with probcache := Dict.empty })
  if isSpam then M.modify (fun c => { c with nspam := c.nspam + 1 })
  else M.modify (fun c => { c with nham := c.nham + 1 })
  M.forEach (addWord B isSpam) (it.order ws)
  postTraining B

/-- The loop body of `_remove_msg`, basic.py l.473-484. -/
def removeWord (B : Backend σ W) (isSpam : Bool) (word : W) : M (Clf σ K) Unit := do
  match ← onStore (B.get word) with
  | none => pure ()
  | some record =>
    let record : WordInfo :=
      if isSpam then
        if record.spamcount > 0 then { record with spamcount := record.spamcount - 1 } else record
      else
        if record.hamcount > 0 then { record with hamcount := record.hamcount - 1 } else record
    if record.hamcount = 0 ∧ record.spamcount = 0 then onStore (B.del word)
    else onStore (B.set word record)

/-- `_remove_msg`, basic.py l.461-486. -/
def removeMsg (B : Backend σ W) (it : SetIter W) (ws : List W) (isSpam : Bool) :
    M (Clf σ K) Unit := do
  M.modify (fun c => { c with probcache := Dict.empty })
  let c ← M.get
  if isSpam then
    if c.nspam ≤ 0 then M.raise .valueError
    else M.modify (fun c => { c with nspam := c.nspam - 1 })
  else
    if c.nham ≤ 0 then M.raise .valueError
    else M.modify (fun c => { c with nham := c.nham - 1 })
  M.forEach (removeWord B isSpam) (it.order ws)
  postTraining B

/-- The tokens `learn` / `unlearn` work on, basic.py l.306-307, l.319-320. -/
def trainTokens [BigramFormat W] (useBigrams : Bool) (s : Stream W) : List W :=
  if useBigrams then enhance s else s.items

/-- `learn`, basic.py l.296-308. -/
def learn [BigramFormat W] (B : Backend σ W) (it : SetIter W) (s : Stream W) (isSpam : Bool) :
    M (Clf σ K) Unit := do
  match (← M.get).useBigrams with
  | none => M.raise .attributeError
  | some ub => addMsg B it (trainTokens ub s) isSpam

/-- `unlearn`, basic.py l.310-321. -/
def unlearn [BigramFormat W] (B : Backend σ W) (it : SetIter W) (s : Stream W) (isSpam : Bool) :
    M (Clf σ K) Unit := do
  match (← M.get).useBigrams with
  | none => M.raise .attributeError
  | some ub => removeMsg B it (trainTokens ub s) isSpam

/-- `learn_spam`, basic.py l.280-282. -/
def learnSpam [BigramFormat W] (B : Backend σ W) (it : SetIter W) (s : Stream W) :
    M (Clf σ K) Unit := learn B it s true
/-- `learn_ham`, basic.py l.284-286. -/
def learnHam [BigramFormat W] (B : Backend σ W) (it : SetIter W) (s : Stream W) :
    M (Clf σ K) Unit := learn B it s false
/-- `unlearn_spam`, basic.py l.288-290. -/
def unlearnSpam [BigramFormat W] (B : Backend σ W) (it : SetIter W) (s : Stream W) :
    M (Clf σ K) Unit := unlearn B it s true
/-- `unlearn_ham`, basic.py l.292-294. -/
def unlearnHam [BigramFormat W] (B : Backend σ W) (it : SetIter W) (s : Stream W) :
    M (Clf σ K) Unit := unlearn B it s false

end

section
variable {σ W K : Type} [Field K] [LinearOrder K] (F : FloatOps K)

/-- UNKNOWN_WORD_PROB = 0.5, basic.py l.86. -/
def unknownWordProb : K := F.rnd (1 / 2)
/-- UNKNOWN_WORD_STRENGTH = 0.45, basic.py l.96. -/
def unknownWordStrength : K := F.rnd (45 / 100)
/-- MINIMUM_PROB_STRENGTH = 0.1, basic.py l.101. -/
def minimumProbStrength : K := F.rnd (1 / 10)
/-- The threshold 1e-200 of basic.py l.243, l.246. -/
def tiny : K := F.rnd (1 / 10 ^ 200)

/-- The loop of `chi2Q`, basic.py l.123-125, for `i, i+1, …` (`fuel` rounds). -/
def chi2Loop (m : K) : (fuel i : Nat) → (term result : K) → K
  | 0, _, _, result => result
  | fuel + 1, i, term, result =>
    let term := F.mul term (F.div m (F.rnd (i : K)))
    let result := F.add result term
    chi2Loop m fuel (i + 1) term result

/-- `chi2Q`, basic.py l.109-130. -/
def chi2Q (x2 : K) (v : Int) : Except Err K :=
  if v % 2 ≠ 0 then .error .valueError
  else
    let m := F.div x2 2
    let result := F.exp (-m)
    .ok (min (chi2Loop F m ((v / 2 - 1).toNat) 1 result result) 1)

/-- The uncached part of `probability`, basic.py l.375-407. -/
def freshProbability (nspam nham : Int) (record : WordInfo) : Except Err K :=
  let spamcount := record.spamcount
  let hamcount := record.hamcount
  let nham := if nham = 0 then 1 else nham
  let nspam := if nspam = 0 then 1 else nspam
  if hamcount > nham then .error .exception
  else if spamcount > nspam then .error .exception
  else
    let hamratio := F.rnd ((hamcount : K) / (nham : K))
    let spamratio := F.rnd ((spamcount : K) / (nspam : K))
    let den := F.add hamratio spamratio
    if den = 0 then .error .zeroDivisionError
    else
      let prob := F.div spamratio den
      let S := unknownWordStrength F
      let StimesX := F.mul S (unknownWordProb F)
      let n := hamcount + spamcount
      let den := F.add S (F.rnd (n : K))
      if den = 0 then .error .zeroDivisionError
      else .ok (F.div (F.add StimesX (F.mul (F.rnd (n : K)) prob)) den)

/-- The cache lookup `self._probcache[spamcount][hamcount]`, basic.py l.371. -/
def cacheGet (pc : Dict Int (Dict Int K)) (r : WordInfo) : Option K :=
  match pc.get? r.spamcount with
  | none => none
  | some d => d.get? r.hamcount

/-- The cache update, basic.py l.410-413. -/
def cacheSet (pc : Dict Int (Dict Int K)) (r : WordInfo) (p : K) : Dict Int (Dict Int K) :=
  match pc.get? r.spamcount with
  | some d => pc.set r.spamcount (d.set r.hamcount p)
  | none => pc.set r.spamcount (Dict.empty.set r.hamcount p)

/-- `probability`, basic.py l.352-415. -/
def probability (record : WordInfo) : M (Clf σ K) K := fun c =>
  match cacheGet c.probcache record with
  | some p => (.ok p, c)
  | none =>
    match freshProbability F c.nspam c.nham record with
    | .error e => (.error e, c)
    | .ok p => (.ok p, { c with probcache := cacheSet c.probcache record p })

/-- A clue tuple (distance, prob, word, record), basic.py l.579-586. -/
structure Clue (W K : Type) where
  distance : K
  prob : K
  word : W
  record : Option WordInfo

/-- The `if record is None` of `_worddistanceget`, basic.py l.581-584. -/
def recordProbability : Option WordInfo → M (Clf σ K) K
  | none => pure (unknownWordProb F)
  | some r => probability F r

/-- `_worddistanceget`, basic.py l.579-586. -/
def wordDistanceGet (B : Backend σ W) (word : W) : M (Clf σ K) (Clue W K) := do
  let record ← onStore (B.get word)
  let prob ← recordProbability F record
  pure { distance := |F.sub prob (F.rnd (1 / 2))|, prob := prob, word := word, record := record }

/-- Tuple comparison `a <= b` of clue tuples; words being distinct, the record
components are never compared (basic.py l.543, l.567). -/
def clueLe [LinearOrder W] (a b : Clue W K) : Bool :=
  decide (a.distance < b.distance) || (decide (a.distance = b.distance) &&
    (decide (a.prob < b.prob) || (decide (a.prob = b.prob) && decide (a.word ≤ b.word))))

/-- `if len(clues) > MAX_DISCRIMINATORS: del clues[0:-MAX_DISCRIMINATORS]`,
basic.py l.573-574. -/
def keepStrongest {α : Type} (clues : List α) : List α :=
  if clues.length > maxDiscriminators then clues.drop (clues.length - maxDiscriminators) else clues

/-- The unigram branch of `_getclues`, basic.py l.567-574. -/
def getCluesUnigram [LinearOrder W] (B : Backend σ W) (it : SetIter W) (ws : List W) :
    M (Clf σ K) (List (Clue W K)) := do
  let all ← M.mapAll (wordDistanceGet F B) (it.order ws)
  let clues := (all.filter (fun t => decide (t.distance ≥ minimumProbStrength F))).mergeSort clueLe
  pure (keepStrongest clues)

/-- A candidate of the bigram branch with the positions it covers, basic.py
l.517-524. -/
structure Cand (W K : Type) where
  clue : Clue W K
  indices : List Nat

/-- One `for clue, indices in …` step, basic.py l.536-540. -/
def considerClue [DecidableEq W] (B : Backend σ W) (w : W) (indices : List Nat)
    (seen : List W) (raw : List (Cand W K)) : M (Clf σ K) (List W × List (Cand W K)) :=
  if w ∈ seen then pure (seen, raw)
  else do
    let tup ← wordDistanceGet F B w
    if tup.distance ≥ minimumProbStrength F then pure (w :: seen, raw ++ [⟨tup, indices⟩])
    else pure (w :: seen, raw)

/-- The step for `pair` (l.530-535), which exists from the second token on. -/
def considerPair [DecidableEq W] [BigramFormat W] (B : Backend σ W) (i : Nat) (last : Option W)
    (token : W) (st : List W × List (Cand W K)) : M (Clf σ K) (List W × List (Cand W K)) :=
  match last with
  | none => pure st
  | some l => considerClue F B (BigramFormat.bi l token) [i - 1, i] st.1 st.2

/-- The loop filling `raw`, basic.py l.529-540.  For the first token `pair` is
None (l.526), which is not a word of any database and yields no candidate: that
probe is left out. -/
def fillRaw [DecidableEq W] [BigramFormat W] (B : Backend σ W) :
    (i : Nat) → (last : Option W) → List W → List W → List (Cand W K) → M (Clf σ K) (List (Cand W K))
  | _, _, [], _, raw => pure raw
  | i, last, token :: rest, seen, raw => do
    let st ← considerClue F B token [i] seen raw
    let st ← considerPair F B i last token st
    fillRaw B (i + 1) (some token) rest st.1 st.2

/-- The greedy selection of non-overlapping candidates, basic.py l.546-554. -/
def tile : (seen : List Nat) → List (Cand W K) → List (Cand W K)
  | _, [] => []
  | seen, c :: rest =>
    if c.indices.any (fun i => decide (i ∈ seen)) then tile seen rest
    else c :: tile (c.indices ++ seen) rest

/-- The bigram branch of `_getclues`, basic.py l.511-556, l.573-574.  The
candidates' words are distinct, so sorting in reverse never compares the
positions. -/
def getCluesBigram [LinearOrder W] [BigramFormat W] (B : Backend σ W) (ws : List W) :
    M (Clf σ K) (List (Clue W K)) := do
  let raw ← fillRaw F B 0 none ws [] []
  let raw := raw.mergeSort (fun a b => clueLe b.clue a.clue)
  let clues := ((tile [] raw).map (·.clue)).reverse
  pure (keepStrongest clues)

/-- `_getclues`, basic.py l.496-577. -/
def getClues [LinearOrder W] [BigramFormat W] (B : Backend σ W) (it : SetIter W) (s : Stream W) :
    M (Clf σ K) (List (Clue W K)) := do
  match (← M.get).useBigrams with
  | none => M.raise .attributeError
  | some true => getCluesBigram F B s.items
  | some false => getCluesUnigram F B it s.items

/-- One of the running products of `spamprob` with its exponent, basic.py
l.234-248. -/
structure Prod2 (K : Type) where
  x : K
  e : Int

/-- `X *= f; if X < 1e-200: X, e = frexp(X); Xexp += e`, basic.py l.241-248. -/
def Prod2.step (p : Prod2 K) (f : K) : Prod2 K :=
  let x := F.mul p.x f
  if x < tiny F then ⟨(F.frexp x).1, p.e + (F.frexp x).2⟩ else ⟨x, p.e⟩

/-- `math.log(X) + Xexp * LN2`, basic.py l.252-253; `math.log` raises
ValueError unless its argument is positive. -/
def Prod2.ln (p : Prod2 K) : Except Err K :=
  if p.x ≤ 0 then .error .valueError
  else .ok (F.add (F.log p.x) (F.mul (F.rnd (p.e : K)) F.ln2))

/-- The combination of the clue probabilities, basic.py l.234-270: the values
(prob, S, H). -/
def combine (probs : List K) : Except Err (K × K × K) := do
  let S := probs.foldl (fun p prob => Prod2.step F p (F.sub 1 prob)) (⟨1, 0⟩ : Prod2 K)
  let H := probs.foldl (fun p prob => Prod2.step F p prob) (⟨1, 0⟩ : Prod2 K)
  let S ← S.ln F
  let H ← H.ln F
  let n := probs.length
  if n > 0 then
    let qs ← chi2Q F (F.mul (-2) S) (2 * (n : Int))
    let S := F.sub 1 qs
    let qh ← chi2Q F (F.mul (-2) H) (2 * (n : Int))
    let H := F.sub 1 qh
    .ok (F.div (F.add (F.sub S H) 1) 2, S, H)
  else .ok (F.rnd (1 / 2), S, H)

/-- The first component of an evidence entry: a token, or one of the two
markers b'*S*', b'*H*' of basic.py l.275-276. -/
inductive EvWord (W : Type) where
  | S
  | H
  | word (w : W)
  deriving DecidableEq

/-- The evidence list, basic.py l.273-276. -/
def evidenceList (clues : List (Clue W K)) (S H : K) : List (EvWord W × K) :=
  (.H, H) :: (.S, S) ::
    ((clues.map (fun c => (EvWord.word c.word, c.prob))).mergeSort (fun a b => decide (a.2 ≤ b.2)))

/-- `spamprob`, basic.py l.212-278. -/
def spamprob [LinearOrder W] [BigramFormat W] (B : Backend σ W) (it : SetIter W) (s : Stream W)
    (evidence : Bool) : M (Clf σ K) (K × Option (List (EvWord W × K))) := do
  let clues ← getClues F B it s
  match combine F (clues.map (·.prob)) with
  | .error e => M.raise e
  | .ok (prob, S, H) =>
    if evidence then pure (prob, some (evidenceList clues S H))
    else pure (prob, none)

end

end Sb
