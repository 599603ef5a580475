import Verif.Model.Corpora
import Verif.Model.Classifier

/-
Model of sbclassifier/trainers.py, and of learn and unlearn (basic.py l.296-321) on
a wordstream that raises while it is iterated.
-/

namespace Sb.Corpora
open Py Mail

section
variable {σ K : Type}

/-- `_add_msg`, basic.py l.440-459, with a wordstream that raises `e`: the cache is
cleared and the total incremented (l.441-445) before `set(wordstream)` (l.447). -/
def addMsgRaising (e : Err) (isSpam : Bool) : M (Clf σ K) Unit := do
  M.modify (fun c => { c with probcache := Dict.empty })
  if isSpam then M.modify (fun c => { c with nspam := c.nspam + 1 })
  else M.modify (fun c => { c with nham := c.nham + 1 })
  M.raise e

/-- `learn`, basic.py l.296-308, with a wordstream that raises `e`. -/
def learnRaising (e : Err) (isSpam : Bool) : M (Clf σ K) Unit := do
  match (← M.get).useBigrams with
  | none => M.raise .attributeError
  | some _ => addMsgRaising e isSpam

/-- `_remove_msg`, basic.py l.461-486, with a wordstream that raises `e`: the total is
checked and decremented (l.462-470) before `set(wordstream)` (l.472). -/
def removeMsgRaising (e : Err) (isSpam : Bool) : M (Clf σ K) Unit := do
  M.modify (fun c => { c with probcache := Dict.empty })
  let c ← M.get
  if isSpam then
    if c.nspam ≤ 0 then M.raise .valueError
    else M.modify (fun c => { c with nspam := c.nspam - 1 })
  else
    if c.nham ≤ 0 then M.raise .valueError
    else M.modify (fun c => { c with nham := c.nham - 1 })
  M.raise e

/-- `unlearn`, basic.py l.310-321, with a wordstream that raises `e`. -/
def unlearnRaising (e : Err) (isSpam : Bool) : M (Clf σ K) Unit := do
  match (← M.get).useBigrams with
  | none => M.raise .attributeError
  | some _ => removeMsgRaising e isSpam

end

section
variable {ν W K R : Type} [DecidableEq ν] [LinearOrder W] [BigramFormat W]

/-- What trainers act on: their classifier, and the attribute `t` of the messages
(remember_trained, message.py l.310-313). -/
structure Training (ν W K : Type) where
  clf : Clf (Dict W WordInfo) K
  trained : ν → Option Bool

/-- What trainers.py needs from messages: whether their class has a method `key`
(class Message has none), and the tokens, or the exception raised while they are
generated. -/
structure TokenOps (ν W : Type) where
  hasKey : ν → Bool
  tokens : ν → Except Err (List W)

/-- `classifier.learn(tokenize(message), is_spam)`, trainers.py l.62: the tokens are
a generator. -/
def learnTokens (T : TokenOps ν W) (it : SetIter W) (isSpam : Bool) (m : ν) :
    M (Clf (Dict W WordInfo) K) Unit :=
  match T.tokens m with
  | .ok ws => learn (memory W) it (.iterator ws) isSpam
  | .error e => learnRaising e isSpam

/-- `classifier.unlearn(tokenize(message), is_spam)`, trainers.py l.75. -/
def unlearnTokens (T : TokenOps ν W) (it : SetIter W) (isSpam : Bool) (m : ν) :
    M (Clf (Dict W WordInfo) K) Unit :=
  match T.tokens m with
  | .ok ws => unlearn (memory W) it (.iterator ws) isSpam
  | .error e => unlearnRaising e isSpam

/-- The common shape of `train` and `untrain`, trainers.py l.61-63, l.74-78. -/
def trainWith (T : TokenOps ν W) (m : ν) (f : M (Clf (Dict W WordInfo) K) Unit) (t : Option Bool) :
    M (Training ν W K) Unit := fun s =>
  if T.hasKey m then
    match f s.clf with
    | (.ok _, c) => (.ok (), { clf := c, trained := fun x => if x = m then t else s.trained x })
    | (.error e, c) => (.error e, { s with clf := c })
  else (.error .attributeError, s)

/-- `Trainer.train`, trainers.py l.53-63. -/
def train (T : TokenOps ν W) (it : SetIter W) (isSpam : Bool) : Observer ν (Training ν W K) :=
  fun _ m => trainWith T m (learnTokens T it isSpam m) (some isSpam)

/-- `Trainer.untrain`, trainers.py l.65-78; nothing calls it. -/
def untrain (T : TokenOps ν W) (it : SetIter W) (isSpam : Bool) : Observer ν (Training ν W K) :=
  fun _ m => trainWith T m (unlearnTokens T it isSpam m) none

/-- `Trainer(classifier, is_spam, corpora)`, trainers.py l.46-51: the method `train`
of the trainer `r` is connected to both signals of each corpus. -/
def connectTrainer (r : R) (corpora : List Corpus) (S : Signals R) : Signals R where
  added := S.added ++ corpora.map (fun c => (r, some c))
  removed := S.removed ++ corpora.map (fun c => (r, some c))

end
end Sb.Corpora
