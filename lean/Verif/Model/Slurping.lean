import Verif.Model.Message
import Verif.Model.Classifier
import Verif.Model.Net

/-
Model of parts of sbclassifier/classifiers/slurping.py: `is_unsure`, `base_url`, and
class SlurpingClassifier up to the point where the cache directory is set up.

The module variable `slurp_wordstream` is None for ever: the assignments in
SlurpingURLStripper (l.139, l.158) make local variables.  `slurp` itself (l.266-360),
which needs a finished set-up, is in Model/Fetch.lean.
-/

namespace Sb.Slurp
open Py Py.Text Sb.Mail Sb.Net

/-- `is_unsure`, slurping.py l.105-110. -/
def isUnsure (p : PyFloat) : Bool :=
  PyFloat.lt (.fin hamCutoff) p && p.lt (.fin spamCutoff)

/-- `s.split('/', 1)[0]` -/
def beforeSlash (s : Txt) : Txt := s.takeWhile (· ≠ 47)

/-- `base_url`, slurping.py l.113-128 (its first parameter, `self`, is not used). -/
def baseUrl (url : Txt) : Txt :=
  let url := url ++ [47]
  let domain := beforeSlash url
  let parts := splitOn 46 domain
  if parts.length > 2 then
    let base := (parts.getD (parts.length - 2) []) ++ 46 :: (parts.getD (parts.length - 1) [])
    if (parts.getD (parts.length - 1) []).length < 3 then
      (parts.getD (parts.length - 3) []) ++ 46 :: base
    else base
  else domain

/-- A SlurpingClassifier object with the part of the file system it looks at: whether
the cache directory exists.  `setupDone` is the attribute `setup_done`. -/
structure Obj (W K : Type) where
  clf : Clf (Dict W WordInfo) K
  setupDone : Bool
  dirExists : Bool

section
variable {W K : Type}

/-- `os.makedirs(dir)`, slurping.py l.222; `allowed` is whether the file system
permits it. -/
def makedirs (allowed : Bool) : M (Obj W K) Unit := fun o =>
  if allowed then (.ok (), { o with dirExists := true }) else (.error .osError, o)

/-- The directory part of `setup`, slurping.py l.219-222. -/
def ensureDir (allowed : Bool) : M (Obj W K) Unit := fun o =>
  if o.dirExists then (.ok (), o) else makedirs allowed o

/-- `ExpiryFileCorpus(age, dir, cacheSize=20)`, slurping.py l.224: the constructor
passes the keyword on to `FileCorpus.__init__(directory, namefilter, cache_size)`
(corpora/filesystem.py l.60, l.79-83), which does not know it. -/
def makeUrlCorpus : M (Obj W K) Unit := M.raise .typeError

/-- `setup`, slurping.py l.215-255, as far as it gets. -/
def setup (allowed : Bool) : M (Obj W K) Unit := do
  ensureDir allowed
  makeUrlCorpus

/-- `_generate_slurp`, slurping.py l.199-213, with `slurp_wordstream` None. -/
def generateSlurp (allowed : Bool) : M (Obj W K) (List W) := fun o =>
  if o.setupDone then (.ok [], o)
  else
    (do setup allowed
        M.modify (fun o => { o with setupDone := true })
        pure []) o

/-- Run a method of the base class on the object. -/
def onClf {α : Type} (m : M (Clf (Dict W WordInfo) K) α) : M (Obj W K) α := fun o =>
  match m o.clf with
  | (r, c) => (r, { o with clf := c })

/-- The common part of `learn` and `unlearn`, slurping.py l.187-197: the tokens of the
message and those of the slurped page go to `train`. -/
def trainWith [BigramFormat W] (allowed : Bool) (s : Stream W)
    (train : List W → M (Clf (Dict W WordInfo) K) Unit) : M (Obj W K) Unit := do
  match (← M.get).clf.useBigrams with
  | none => M.raise .attributeError
  | some ub =>
    let slurped ← generateSlurp allowed
    onClf (train (trainTokens ub s ++ slurped))

variable [DecidableEq W]

/-- `learn`, slurping.py l.187-191. -/
def learn [BigramFormat W] (allowed : Bool) (it : SetIter W) (s : Stream W) (isSpam : Bool) :
    M (Obj W K) Unit := trainWith allowed s (fun ws => addMsg (memory W) it ws isSpam)

/-- `unlearn`, slurping.py l.193-197. -/
def unlearn [BigramFormat W] (allowed : Bool) (it : SetIter W) (s : Stream W) (isSpam : Bool) :
    M (Obj W K) Unit := trainWith allowed s (fun ws => removeMsg (memory W) it ws isSpam)

end

section
variable {W K : Type} [Field K] [LinearOrder K] (F : FloatOps K) [LinearOrder W] [BigramFormat W]

/-- `all(a, b, c)`, slurping.py l.174-175: the built-in takes one argument. -/
def allOfThree : M (Obj W K) Bool := M.raise .typeError

/-- `spamprob`, slurping.py l.164-185, as far as it gets. -/
def spamprob (it : SetIter W) (s : Stream W) (evidence : Bool) :
    M (Obj W K) (K × Option (List (EvWord W × K))) := do
  let r ← onClf (Sb.spamprob F (memory W) it s true)
  let _needsToSlurp ← allOfThree
  if evidence then pure r else pure (r.1, none)

/-- `SlurpingClassifier(use_bigrams)`. -/
def Obj.new (useBigrams dirExists : Bool) : Obj W K :=
  { clf := Clf.new useBigrams Dict.empty, setupDone := false, dirExists := dirExists }

end

end Sb.Slurp
