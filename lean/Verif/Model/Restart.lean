import Verif.Model.Desk
import Verif.Model.Pickle

/-
A mail client that works with messages, keeps its PickleClassifier in a file and is
restarted now and then: sbclassifier/classifiers/storage.py l.138-177 below the calls of
Model/Desk.lean.
-/

namespace Sb.Tokenize
open Py Sb.Strip

/-- What the client does.  `timeout`: another program holds the lock of the file for too
long (safepickle.py l.18). -/
inductive Deed where
  | step (s : Step)
  | store (timeout : Bool)
  | load (timeout : Bool)
  | restart (timeout : Bool)

section
variable {K B : Type} [Field K] [LinearOrder K] (F : FloatOps K)

/-- One deed: a call with a message (Model/Desk.lean), `store()` (storage.py l.174-177),
`load()` (l.143-172), or the end of the process and `PickleClassifier(filename)`
(l.138-141) in a new one.  Exceptions are caught by the client. -/
def Deed.run (codec : Codec B Tok) (U : StrMore) (o : Opts)
    (s : Clf (Dict Tok WordInfo) K × Option B) : Deed → Clf (Dict Tok WordInfo) K × Option B
  | .step st => (st.run F (memory Tok) U o s.1, s.2)
  | .store t => (s.1, (pickleStore codec s.1 ⟨t, s.2⟩).2.file)
  | .load t => ((pickleLoad codec ⟨t, s.2⟩ s.1).2, s.2)
  | .restart t => ((pickleNew codec ⟨t, s.2⟩).2, s.2)

/-- All deeds, from `PickleClassifier(filename)` on; `file` is what the file holds at first. -/
def office (codec : Codec B Tok) (U : StrMore) (o : Opts) (file : Option B) (deeds : List Deed) :
    Clf (Dict Tok WordInfo) K × Option B :=
  deeds.foldl (Deed.run F codec U o) ((pickleNew codec ⟨false, file⟩).2, file)

end
end Sb.Tokenize
