import Verif.Model.Classifier

/-
A client of a classifier: it makes a sequence of calls to the public methods of
sbclassifier/classifiers/basic.py (learn l.296, unlearn l.310, spamprob l.212,
probability l.352), catching every exception and going on.
-/

namespace Sb
open Py

/-- One call of a public method of Classifier (basic.py l.212, l.296, l.310,
l.352); `it` is the set iteration order used by the interpreter during that
call. -/
inductive Call (W : Type) where
  | learn (it : SetIter W) (s : Stream W) (isSpam : Bool)
  | unlearn (it : SetIter W) (s : Stream W) (isSpam : Bool)
  | spamprob (it : SetIter W) (s : Stream W) (evidence : Bool)
  | probability (r : WordInfo)

/-- What the client sees of a call. -/
inductive Outcome (W K : Type) where
  | done
  | score (p : K) (ev : Option (List (EvWord W × K)))
  | prob (p : K)
  | raised (e : Err)

section
variable {σ W K : Type} [Field K] [LinearOrder K] [LinearOrder W] [BigramFormat W]
  (F : FloatOps K) (B : Backend σ W)

/-- Outcome of a call returning None. -/
def Outcome.ofUnit : Except Err Unit → Outcome W K
  | .ok _ => .done
  | .error e => .raised e

def Outcome.ofScore : Except Err (K × Option (List (EvWord W × K))) → Outcome W K
  | .ok v => .score v.1 v.2
  | .error e => .raised e

def Outcome.ofProb : Except Err K → Outcome W K
  | .ok p => .prob p
  | .error e => .raised e

/-- Make one call (basic.py l.212, l.296, l.310, l.352). -/
def runCall (c : Clf σ K) : Call W → Outcome W K × Clf σ K
  | .learn it s b => let r := learn B it s b c; (.ofUnit r.1, r.2)
  | .unlearn it s b => let r := unlearn B it s b c; (.ofUnit r.1, r.2)
  | .spamprob it s ev => let r := spamprob F B it s ev c; (.ofScore r.1, r.2)
  | .probability rec => let r := probability F rec c; (.ofProb r.1, r.2)

/-- Make a sequence of calls; the outcomes in order and the final object. -/
def exec (c : Clf σ K) : List (Call W) → List (Outcome W K) × Clf σ K
  | [] => ([], c)
  | call :: rest =>
    let r := runCall F B c call
    let rs := exec r.2 rest
    (r.1 :: rs.1, rs.2)

end
end Sb
