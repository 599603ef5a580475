import Verif.Py.Basic

/-
Model of sbclassifier/safepickle.py l.20-34 as a transition system: any number of
processes call pickle_read and pickle_write on one file name, any of them can die
at any point.  A file is a list of bytes; dumping, copying and reading happen in
pieces of any size.

Assumptions on the library: `lockfile.FileLock` gives mutual exclusion, times out
after a while if somebody else has the lock, is released when the `with` block is
left normally or by an exception, and stays if its owner dies (its lock file is
left in place).  `shutil.move` renames in one step if the temporary directory is
on the file system of the target, and otherwise copies and unlinks.  What has been
written is there for later readers (no power failure).
-/

namespace Sb.SafePickle

/-- How `shutil.move` (safepickle.py l.34) works here, and whether the copy can
fail, say because the disk is full. -/
inductive Setup where
  | rename
  | copy (mayFail : Bool)

/-- Where a process is; `v` is the pickled value to be stored, `tmp` the contents
of the temporary file. -/
inductive Proc (B : Type) where
  | idle
  /-- pickle_write called, lock not yet acquired: l.29 -/
  | wWait (v : List B)
  /-- lock acquired, temporary file open: l.32-33 -/
  | wDump (v tmp : List B)
  /-- temporary file closed, before the move: l.34 -/
  | wMove (v tmp : List B)
  /-- the move is copying; `out` has been written to the target: l.34 -/
  | wCopy (v tmp out : List B)
  /-- the move is done: end of l.34 -/
  | wDone (v : List B)
  /-- an exception leaves the `with` block -/
  | wFail
  /-- pickle_read called, lock not yet acquired: l.22 -/
  | rWait
  /-- lock acquired: before l.23 -/
  | rOpen
  /-- file open, `acc` read so far: l.24 -/
  | rRead (acc : List B)
  /-- before the release; `none`: the file did not exist -/
  | rDone (res : Option (List B))
  | dead

/-- What the calls that have come to an end did, in the order of the releases of
the lock. -/
inductive Event (B : Type) where
  | wrote (v : List B)
  | read (res : Option (List B))
  | failed

/-- The global state: lock owner, contents of the target, processes.  `called` and
`log` are not in the code: the values passed to pickle_write so far, and the
finished calls. -/
structure Config (P B : Type) where
  lock : Option P
  file : Option (List B)
  proc : P → Proc B
  called : List (List B)
  log : List (Event B)

variable {P B : Type} [DecidableEq P]

/-- Process `p` moves on to `s`. -/
def Config.move (c : Config P B) (p : P) (s : Proc B) : Config P B :=
  { c with proc := fun q => if q = p then s else c.proc q }

/-- One step of one process, safepickle.py l.20-34. -/
inductive Step (setup : Setup) : Config P B → Config P B → Prop
  | callWrite (c p v) : c.proc p = .idle →
      Step setup c { c.move p (.wWait v) with called := v :: c.called }
  | callRead (c p) : c.proc p = .idle → Step setup c (c.move p .rWait)
  -- the lock, l.22, l.29
  | lockWrite (c p v) : c.proc p = .wWait v → c.lock = none →
      Step setup c { c.move p (.wDump v []) with lock := some p }
  | lockRead (c p) : c.proc p = .rWait → c.lock = none →
      Step setup c { c.move p .rOpen with lock := some p }
  | timeoutWrite (c p v q) : c.proc p = .wWait v → c.lock = some q →
      Step setup c { c.move p .idle with log := c.log ++ [.failed] }
  | timeoutRead (c p q) : c.proc p = .rWait → c.lock = some q →
      Step setup c { c.move p .idle with log := c.log ++ [.failed] }
  -- pickle.dump into the temporary file, l.32-33
  | dump (c p v tmp chunk) : c.proc p = .wDump v tmp → (tmp ++ chunk) <+: v →
      Step setup c (c.move p (.wDump v (tmp ++ chunk)))
  | dumpFails (c p v tmp) : c.proc p = .wDump v tmp → Step setup c (c.move p .wFail)
  | close (c p v) : c.proc p = .wDump v v → Step setup c (c.move p (.wMove v v))
  -- shutil.move, l.34
  | rename (c p v tmp) : setup = .rename → c.proc p = .wMove v tmp →
      Step setup c { c.move p (.wDone v) with file := some tmp }
  | copyOpen (c p v tmp b) : setup = .copy b → c.proc p = .wMove v tmp →
      Step setup c { c.move p (.wCopy v tmp []) with file := some [] }
  | copyChunk (c p v tmp out chunk) : c.proc p = .wCopy v tmp out → (out ++ chunk) <+: tmp →
      Step setup c { c.move p (.wCopy v tmp (out ++ chunk)) with file := some (out ++ chunk) }
  | copyFails (c p v tmp out) : setup = .copy true → c.proc p = .wCopy v tmp out →
      Step setup c (c.move p .wFail)
  | copied (c p v tmp) : c.proc p = .wCopy v tmp tmp → Step setup c (c.move p (.wDone v))
  -- leaving the with block
  | unlockWrite (c p v) : c.proc p = .wDone v →
      Step setup c { c.move p .idle with lock := none, log := c.log ++ [.wrote v] }
  | unlockFail (c p) : c.proc p = .wFail →
      Step setup c { c.move p .idle with lock := none, log := c.log ++ [.failed] }
  -- open and pickle.load, l.23-24
  | openMissing (c p) : c.proc p = .rOpen → c.file = none →
      Step setup c (c.move p (.rDone none))
  | openRead (c p f) : c.proc p = .rOpen → c.file = some f → Step setup c (c.move p (.rRead []))
  | readChunk (c p acc f n) : c.proc p = .rRead acc → c.file = some f →
      Step setup c (c.move p (.rRead (acc ++ (f.drop acc.length).take n)))
  | readEnd (c p acc f) : c.proc p = .rRead acc → c.file = some f → f.drop acc.length = [] →
      Step setup c (c.move p (.rDone (some acc)))
  | unlockRead (c p res) : c.proc p = .rDone res →
      Step setup c { c.move p .idle with lock := none, log := c.log ++ [.read res] }
  -- the process dies; the lock stays
  | die (c p) : Step setup c (c.move p .dead)

/-- Nobody is doing anything; the file holds `old`. -/
def start (old : Option (List B)) : Config P B := ⟨none, old, fun _ => .idle, [], []⟩

/-- Any number of steps by any processes. -/
inductive Steps (setup : Setup) : Config P B → Config P B → Prop
  | refl (c) : Steps setup c c
  | step {a b c} : Steps setup a b → Step setup b c → Steps setup a c

end Sb.SafePickle
