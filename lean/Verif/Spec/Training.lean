import Verif.Model.Client
import Mathlib.Data.Multiset.Count
import Mathlib.Data.Finset.Basic
import Mathlib.Data.Finset.Dedup

/-
Specification of training: a classifier is described by the multiset of
messages that are currently learned.  Only the call type and the wordstream
type of the model are used here, none of its functions.
-/

namespace Sb.Spec
open Sb Py

variable {W : Type} [DecidableEq W]

/-- A learned message: its set of tokens and whether it is spam. -/
abbrev Msg (W : Type) := Finset W × Bool

/-- The messages currently learned. -/
abbrev Ledger (W : Type) := Multiset (Msg W)

/-- number of learned spam messages -/
def spamTotal (L : Ledger W) : Nat := L.countP (fun m => m.2 = true)
/-- number of learned ham messages -/
def hamTotal (L : Ledger W) : Nat := L.countP (fun m => m.2 = false)
/-- number of learned spam messages containing `w` -/
def spamCount (L : Ledger W) (w : W) : Nat := L.countP (fun m => m.2 = true ∧ w ∈ m.1)
/-- number of learned ham messages containing `w` -/
def hamCount (L : Ledger W) (w : W) : Nat := L.countP (fun m => m.2 = false ∧ w ∈ m.1)

/-- What the database should hold for `w`: nothing if no learned message
contains it, and else the two counts. -/
def recordOf (L : Ledger W) (w : W) : Option WordInfo :=
  if spamCount L w = 0 ∧ hamCount L w = 0 then none else some ⟨spamCount L w, hamCount L w⟩

/-- The tokens trained for a wordstream, as positions in it.  Unigram mode: all
of them.  Bigram mode, list: each token but the last, and each adjacent pair.
Bigram mode, iterator of length n: (n-1)/3 rounds, round k giving the token at
position 3k+1 (0 in the first round) and the pair of positions 3k+2 (1 in the
first round) and 3k+3. -/
def trained [BigramFormat W] (useBigrams : Bool) : Stream W → List W
  | .list ws =>
    if useBigrams then (ws.zip ws.tail).flatMap (fun p => [p.1, BigramFormat.bi p.1 p.2]) else ws
  | .iterator ws =>
    if useBigrams then
      (List.range ((ws.length - 1) / 3)).flatMap (fun k =>
        let i := if k = 0 then 0 else 3 * k + 1
        let j := if k = 0 then 1 else 3 * k + 2
        match ws[i]?, ws[j]?, ws[3 * k + 3]? with
        | some x, some y, some z => [x, BigramFormat.bi y z]
        | _, _, _ => [])
    else ws

/-- The message a training call is about. -/
def msgOf [BigramFormat W] (useBigrams : Bool) (s : Stream W) (isSpam : Bool) : Msg W :=
  ((trained useBigrams s).toFinset, isSpam)

/-- `Valid ub L calls L'`: every unlearn in `calls` names a message learned at
that time; `L` and `L'` are the messages learned before and after. -/
inductive Valid [BigramFormat W] (ub : Bool) : Ledger W → List (Call W) → Ledger W → Prop
  | nil (L) : Valid ub L [] L
  | learn {L L' it s b calls} : Valid ub (msgOf ub s b ::ₘ L) calls L' →
      Valid ub L (.learn it s b :: calls) L'
  | unlearn {L L' it s b calls} : msgOf ub s b ∈ L → Valid ub (L.erase (msgOf ub s b)) calls L' →
      Valid ub L (.unlearn it s b :: calls) L'
  | spamprob {L L' it s ev calls} : Valid ub L calls L' → Valid ub L (.spamprob it s ev :: calls) L'
  | probability {L L' r calls} : Valid ub L calls L' → Valid ub L (.probability r :: calls) L'

end Sb.Spec
