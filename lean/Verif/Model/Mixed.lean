import Verif.Model.Tokenizer
import Verif.Model.Client
import Verif.Py.Sorting
import Mathlib.Data.List.Lex
import Mathlib.Data.Prod.Lex

/-
Scoring words that are str or bytes, sbclassifier/classifiers/basic.py l.496-577.

Model/Classifier.lean takes words from a linearly ordered type.  The words of a
Python program are str or bytes: the tokenizer yields bytes, and BIGRAM_FORMAT
(l.54) makes a str of two of them.  Python orders str among themselves and bytes
among themselves, and raises TypeError when asked for an order between the two.
Here the two sorts of `_getclues` (l.543, l.567) are run by an arbitrary comparison
sort (Py/Sorting.lean) with Python's `<`; everything else is as in
Model/Classifier.lean.
-/

namespace Sb
open Py Sb.Strip Sb.Tokenize Sb.Mail

/-- Sort key of a word: its kind, then the word itself. `flip` says which of the two
kinds comes first. -/
def wordKey (flip : Bool) : Tok → Bool ×ₗ List Nat
  | .str t => toLex (flip, t)
  | .bytes b => toLex (!flip, b)

theorem wordKey_inj (flip : Bool) : Function.Injective (wordKey flip) := by
  intro a b h
  cases a <;> cases b <;> cases flip <;> simp [wordKey] at h <;> simp [h]

/-- An order on words that extends Python's: str before bytes. -/
instance : LinearOrder Tok where
  le a b := wordKey false a ≤ wordKey false b
  lt a b := wordKey false a < wordKey false b
  le_refl a := le_refl _
  le_trans a b c := le_trans
  lt_iff_le_not_ge a b := lt_iff_le_not_ge
  le_antisymm a b h h' := wordKey_inj false (le_antisymm h h')
  le_total a b := le_total _ _
  toDecidableLE a b := inferInstanceAs (Decidable (wordKey false a ≤ wordKey false b))
  toDecidableLT a b := inferInstanceAs (Decidable (wordKey false a < wordKey false b))
  toDecidableEq := inferInstance

/-- `'{}'.format(word)`: a str as it is, bytes in their printed form. -/
def showWord : Tok → Txt
  | .str t => t
  | .bytes b => bytesRepr b

/-- BIGRAM_FORMAT = 'bi:{} {}', basic.py l.54: always a str. -/
instance : BigramFormat Tok where
  bi x y := .str (txt "bi:" ++ showWord x ++ txt " " ++ showWord y)

/-- `x < y` for two words. -/
def wordLt : Tok → Tok → Except Err Bool
  | .str s, .str t => .ok (decide (s < t))
  | .bytes s, .bytes t => .ok (decide (s < t))
  | _, _ => .error .typeError

section
variable {K : Type} [LinearOrder K]

/-- `a < b` for the tuples (distance, prob, word, record) of `_worddistanceget`
(basic.py l.579-586): the first components that differ decide.  Two tuples of a list
have different words, so that records are never compared. -/
def clueLt (a b : Clue Tok K) : Except Err Bool :=
  if a.distance ≠ b.distance then .ok (decide (a.distance < b.distance))
  else if a.prob ≠ b.prob then .ok (decide (a.prob < b.prob))
  else if a.word ≠ b.word then wordLt a.word b.word
  else .ok false

end

/-- A sort by comparisons. -/
structure SortAlg where
  tree : {α : Type} → List α → Cmp α
  sorts : ∀ α : Type, Sorts (tree (α := α))

/-- Insertion sort is one. -/
def SortAlg.insertion : SortAlg := ⟨fun l => Cmp.insertAll l [], sorts_insertion⟩

/-- `l.sort()` and `sorted(l)` with `<` -/
def SortAlg.sort (S : SortAlg) {α : Type} (lt : α → α → Except Err Bool) (l : List α) :
    Except Err (List α) := (S.tree l).exec lt

/-- `l.sort(reverse=True)`: the list is reversed before and after sorting it. -/
def SortAlg.sortReverse (S : SortAlg) {α : Type} (lt : α → α → Except Err Bool) (l : List α) :
    Except Err (List α) := (S.sort lt l.reverse).map List.reverse

section
variable {σ K : Type} [Field K] [LinearOrder K] (S : SortAlg) (F : FloatOps K)

/-- a value, or an exception -/
def ofExcept {τ α : Type} : Except Err α → M τ α
  | .ok a => pure a
  | .error e => M.raise e

/-- The unigram branch of `_getclues`, basic.py l.567-574. -/
def wordCluesUnigram (B : Backend σ Tok) (it : SetIter Tok) (ws : List Tok) :
    M (Clf σ K) (List (Clue Tok K)) := do
  let all ← M.mapAll (wordDistanceGet F B) (it.order ws)
  let clues ← ofExcept (S.sort clueLt
    (all.filter (fun t => decide (t.distance ≥ minimumProbStrength F))))
  pure (keepStrongest clues)

/-- The bigram branch of `_getclues`, basic.py l.511-556, l.573-574. -/
def wordCluesBigram (B : Backend σ Tok) (ws : List Tok) : M (Clf σ K) (List (Clue Tok K)) := do
  let raw ← fillRaw F B 0 none ws [] []
  let raw ← ofExcept (S.sortReverse (fun a b => clueLt a.clue b.clue) raw)
  let clues := ((tile [] raw).map (·.clue)).reverse
  pure (keepStrongest clues)

/-- `_getclues`, basic.py l.496-577. -/
def wordClues (B : Backend σ Tok) (it : SetIter Tok) (s : Stream Tok) :
    M (Clf σ K) (List (Clue Tok K)) := do
  match (← M.get).useBigrams with
  | none => M.raise .attributeError
  | some true => wordCluesBigram S F B s.items
  | some false => wordCluesUnigram S F B it s.items

/-- `spamprob`, basic.py l.212-278.  The evidence list is sorted by probability only
(l.274). -/
def wordSpamprob (B : Backend σ Tok) (it : SetIter Tok) (s : Stream Tok) (evidence : Bool) :
    M (Clf σ K) (K × Option (List (EvWord Tok × K))) := do
  let clues ← wordClues S F B it s
  match combine F (clues.map (·.prob)) with
  | .error e => M.raise e
  | .ok (prob, s, h) =>
    if evidence then pure (prob, some (evidenceList clues s h))
    else pure (prob, none)

end

end Sb
