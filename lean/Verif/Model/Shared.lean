import Verif.Model.Pickle

/-
Several processes, each with its own PickleClassifier (sbclassifier/classifiers/
storage.py l.130-177) on one and the same file.  The calls of the processes are
interleaved in any way; a read and a write of the file are atomic, because
safepickle.py (l.18-34) holds a lock during both (Model/SafePickle.lean, C25).
An event says whether a further process holds the lock so long that the call runs
into the timeout (safepickle.py l.18).
-/

namespace Sb
open Py

/-- One call of process `pid`; `timeout`: the lock is not to be had. -/
structure Event (P W : Type) where
  pid : P
  timeout : Bool := false
  call : PkCall W

/-- The classifier objects of the processes, and the contents of the file. -/
structure Shared (P W K B : Type) where
  procs : P → Clf (Dict W WordInfo) K
  file : Option B

section
variable {P W K B : Type} [DecidableEq P] [Field K] [LinearOrder K] [LinearOrder W] [BigramFormat W]
  (F : FloatOps K)

/-- No file; the processes have constructed their objects (storage.py l.138-141). -/
def Shared.init (codec : Codec B W) : Shared P W K B :=
  ⟨fun _ => (pickleNew codec ⟨false, none⟩).2, none⟩

/-- One event (storage.py l.138-177, basic.py l.212-415). -/
def Shared.step (codec : Codec B W) (s : Shared P W K B) (e : Event P W) : Shared P W K B :=
  let r := runPkCall F codec (s.procs e.pid) ⟨e.timeout, s.file⟩ e.call
  ⟨Function.update s.procs e.pid r.2.1, r.2.2.file⟩

/-- A sequence of events (storage.py l.138-177). -/
def Shared.run (codec : Codec B W) (evs : List (Event P W)) : Shared P W K B :=
  evs.foldl (Shared.step F codec) (Shared.init codec)

end
end Sb
