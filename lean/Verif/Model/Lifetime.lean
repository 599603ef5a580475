import Verif.Model.Trainer
import Verif.Model.CorpusText

/-
Programs that make observers and drop them again.

`connect` (base.py l.124, l.128; trainers.py l.50-51) keeps weak references, blinker's
default: a receiver is called as long as something else refers to it.  In the model this
something is a variable of the program.  An object is gone as soon as no variable
refers to it, as with the reference counts of CPython.
-/

namespace Sb.Corpora
open Py Mail

/-- An observer that is made and connected: what it does, and the senders for which it is
connected to `message_added` and to `message_removed` (`none` for any sender). -/
structure Made (ν σ : Type) where
  run : Observer ν σ
  added : List (Option Corpus)
  removed : List (Option Corpus)

/-- `Trainer(classifier, is_spam, corpora)`, trainers.py l.46-51. -/
def Made.trainer {ν W K : Type} [DecidableEq ν] [LinearOrder W] [BigramFormat W] (T : TokenOps ν W)
    (it : SetIter W) (isSpam : Bool) (corpora : List Corpus) : Made ν (Training ν W K) :=
  ⟨train T it isSpam, corpora.map some, corpora.map some⟩

/-- A statement of a program. -/
inductive Stmt (X ν σ : Type) where
  /-- `x = Trainer(...)`, or a decorated `def x(...)`; `none`: the value is not kept -/
  | make (x : Option X) (o : Made ν σ)
  /-- `y = x` -/
  | assign (y x : X)
  /-- `del x`, or the end of the function that `x` is local to -/
  | del (x : X)
  /-- a message is added or removed -/
  | op (o : Op ν Nat)

/-- A running program: the variables, the observers made so far (an observer is named by
its index), the signals, and the corpora. -/
structure Running (X ν σ : Type) where
  vars : Dict X Nat
  made : List (Made ν σ)
  signals : Signals Nat
  world : World ν σ

section
variable {X ν σ : Type} [DecidableEq X] (O : MailOps ν)

/-- Some variable refers to the observer. -/
def held (vars : Dict X Nat) (n : Nat) : Bool := vars.keys.any (fun x => vars.get? x == some n)

/-- blinker's `_cleanup_receiver`: the connections of an observer that is gone are
removed. -/
def Running.collect (s : Running X ν σ) : Running X ν σ :=
  { s with signals := ⟨s.signals.added.filter (fun e => held s.vars e.1),
                       s.signals.removed.filter (fun e => held s.vars e.1)⟩ }

/-- The observers by their index. -/
def runMade (made : List (Made ν σ)) (n : Nat) : Observer ν σ :=
  match made[n]? with
  | some o => o.run
  | none => fun _ _ => pure ()

/-- One statement; exceptions are caught by the program. -/
def Running.step (s : Running X ν σ) : Stmt X ν σ → Running X ν σ
  | .make x o =>
    Running.collect
      { s with
        vars := match x with
          | some x => s.vars.set x s.made.length
          | none => s.vars
        made := s.made ++ [o]
        signals := ⟨s.signals.added ++ o.added.map (fun c => (s.made.length, c)),
                    s.signals.removed ++ o.removed.map (fun c => (s.made.length, c))⟩ }
  | .assign y x =>
    match s.vars.get? x with
    | some n => Running.collect { s with vars := s.vars.set y n }
    | none => s
  | .del x => Running.collect { s with vars := s.vars.erase x }
  | .op o => { s with world := (runOp O (runMade s.made) s.signals o s.world).2 }

/-- A program. -/
def Running.exec (s : Running X ν σ) (p : List (Stmt X ν σ)) : Running X ν σ := p.foldl (Running.step O) s

/-- Its start. -/
def Running.start (w : World ν σ) : Running X ν σ := ⟨Dict.empty, [], ⟨[], []⟩, w⟩

end

/-- The program in the documentation of class Corpus, base.py l.124-130: two functions of
the same name, one connected to each signal. -/
def documentedProgram {ν : Type} (cls : Corpus → CorpusClass) (str : ν → Except Err Txt) :
    List (Stmt String ν (List Txt)) :=
  [.make (some "on_message_added") ⟨documented cls str (), [none], []⟩,
   .make (some "on_message_added") ⟨documented cls str (), [], [none]⟩]

end Sb.Corpora
