import Verif.Model.Client

/-
Model of pickling a Classifier (sbclassifier/classifiers/basic.py l.190-197) and of
class PickleClassifier (sbclassifier/classifiers/storage.py l.130-177) on top of
sbclassifier/safepickle.py.

The pickle format is a parameter (`Codec`) of which only the round trip is used.
Here a read or write of the file is one step that either gets the lock or times
out; Model/SafePickle.lean looks inside.
-/

namespace Sb
open Py

/-- The tuple of `__getstate__`, basic.py l.190-191. -/
structure PState (W : Type) where
  version : Int
  wordinfo : Dict W WordInfo
  nspam : Int
  nham : Int

/-- What a pickle file can hold: an object of the classifier class with a state
tuple, or an object of another class.  For the latter, `e` is the exception that
`__setstate__(tempbayes.__getstate__())` (storage.py l.170) raises: AttributeError
without `__getstate__` (Python before 3.11), TypeError or KeyError where every object
has one. -/
inductive PyObj (W : Type) where
  | clf (st : PState W)
  | other (e : Err)

/-- The pickle format, `pickle.dump` and the part of `pickle.load` before
`__setstate__`; `dec` fails on damaged data. -/
structure Codec (B W : Type) where
  enc : PState W → B
  dec : B → Except Err (PyObj W)
  dec_enc : ∀ st, dec (enc st) = .ok (.clf st)

/-- The file of a PickleClassifier: contents if it exists, and whether another
process keeps the lock for longer than the timeout (safepickle.py l.18). -/
structure Disk (B : Type) where
  locked : Bool
  file : Option B

section
variable {W K B : Type} [DecidableEq W]

/-- `Classifier.__getstate__`, basic.py l.190-191. -/
def getState (c : Clf (Dict W WordInfo) K) : PState W :=
  ⟨pickleVersion, c.store, c.nspam, c.nham⟩

/-- `Classifier.__setstate__`, basic.py l.193-197. -/
def setState (st : PState W) : M (Clf (Dict W WordInfo) K) Unit := fun c =>
  if st.version ≠ pickleVersion then (.error .valueError, c)
  else (.ok (), { c with store := st.wordinfo, nspam := st.nspam, nham := st.nham,
                         probcache := Dict.empty })

/-- What `pickle.load` makes of a pickled classifier: `__new__` without
`__init__`, so no attribute exists, then `__setstate__` (basic.py l.193-197).
`store`, `probcache`, `nspam`, `nham` of the first object are placeholders for
attributes that do not exist. -/
def unpickle (st : PState W) : Except Err (Clf (Dict W WordInfo) K) :=
  match setState st ⟨none, Dict.empty, Dict.empty, 0, 0⟩ with
  | (.ok _, c) => .ok c
  | (.error e, _) => .error e

/-- `pickle_read`, safepickle.py l.20-24, on a classifier file: the object's state
tuple after a successful load. -/
def pickleRead (codec : Codec B W) (K : Type) (disk : Disk B) : Except Err (PyObj W) :=
  if disk.locked then .error .lockTimeout
  else
    match disk.file with
    | none => .error .osError
    | some b =>
      match codec.dec b with
      | .error e => .error e
      | .ok (.other e) => .ok (.other e)
      | .ok (.clf st) =>
        match (unpickle st : Except Err (Clf (Dict W WordInfo) K)) with
        | .error e => .error e
        | .ok tempbayes => .ok (.clf (getState tempbayes))

/-- `pickle_write`, safepickle.py l.27-34. -/
def pickleWrite (codec : Codec B W) (st : PState W) (disk : Disk B) : Except Err Unit × Disk B :=
  if disk.locked then (.error .lockTimeout, disk)
  else (.ok (), { disk with file := some (codec.enc st) })

/-- `PickleClassifier.load`, storage.py l.143-172.  The bare `except` (l.159) covers
every failure of `pickle_read`; `_probcache` is not touched then.  For an object of
another class see `PyObj`. -/
def pickleLoad (codec : Codec B W) (disk : Disk B) : M (Clf (Dict W WordInfo) K) Unit := fun c =>
  match pickleRead codec K disk with
  | .error _ => (.ok (), { c with store := Dict.empty, nham := 0, nspam := 0 })
  | .ok (.other e) => (.error e, c)
  | .ok (.clf st) => setState st c

/-- `PickleClassifier(filename)`, storage.py l.138-141. -/
def pickleNew (codec : Codec B W) (disk : Disk B) :
    Except Err Unit × Clf (Dict W WordInfo) K :=
  pickleLoad codec disk (Clf.new false Dict.empty)

/-- `PickleClassifier.store`, storage.py l.174-177. -/
def pickleStore (codec : Codec B W) (c : Clf (Dict W WordInfo) K) (disk : Disk B) :
    Except Err Unit × Disk B :=
  pickleWrite codec (getState c) disk

end

/-- What a client can do with a PickleClassifier: the calls of a Classifier, store
(storage.py l.174), load (l.143), and construct a new object on the same file
(l.138). -/
inductive PkCall (W : Type) where
  | base (c : Call W)
  | store
  | load
  | reopen

section
variable {W K B : Type} [Field K] [LinearOrder K] [LinearOrder W] [BigramFormat W] (F : FloatOps K)

/-- Make one call on a PickleClassifier. -/
def runPkCall (codec : Codec B W) (c : Clf (Dict W WordInfo) K) (disk : Disk B) :
    PkCall W → Outcome W K × Clf (Dict W WordInfo) K × Disk B
  | .base call => let r := runCall F (memory W) c call; (r.1, r.2, disk)
  | .store => let r := pickleStore codec c disk; (.ofUnit r.1, c, r.2)
  | .load => let r := pickleLoad codec disk c; (.ofUnit r.1, r.2, disk)
  | .reopen => let r := pickleNew codec disk; (.ofUnit r.1, r.2, disk)

/-- Make a sequence of calls on a PickleClassifier. -/
def execPk (codec : Codec B W) (c : Clf (Dict W WordInfo) K) (disk : Disk B) :
    List (PkCall W) → List (Outcome W K) × Clf (Dict W WordInfo) K × Disk B
  | [] => ([], c, disk)
  | call :: rest =>
    let r := runPkCall F codec c disk call
    let rs := execPk codec r.2.1 r.2.2 rest
    (r.1 :: rs.1, rs.2)

end
end Sb
