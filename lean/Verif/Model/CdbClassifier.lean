import Verif.Model.Client

/-
Model of class CDBClassifier, sbclassifier/classifiers/storage.py l.584-646.

The global name `cdb` the class uses is not bound anywhere in storage.py (the
import is commented out, l.57); it is a parameter here, `none` for the code as it
is.  Words are any type; numbers are written in decimal, and `int()` is modelled on
an optional sign followed by digits (the white space and underscores Python also
accepts are never written by `store`).
-/

namespace Sb
open Py

/-- decimal digits, most significant first -/
def digits (n : Nat) : List Nat :=
  if n < 10 then [n] else digits (n / 10) ++ [n % 10]

/-- `'{:d}'.format(i)`, storage.py l.643-645. -/
def showInt (i : Int) : List Char :=
  let ds := (digits i.natAbs).map (fun d => Char.ofNat (48 + d))
  if i < 0 then '-' :: ds else ds

/-- digits to a number; ValueError on any other character -/
def parseDigits (acc : Nat) : List Char → Except Err Nat
  | [] => .ok acc
  | c :: rest =>
    if 48 ≤ c.toNat ∧ c.toNat ≤ 57 then parseDigits (10 * acc + (c.toNat - 48)) rest
    else .error .valueError

/-- one or more digits -/
def parseNat : List Char → Except Err Nat
  | [] => .error .valueError
  | s => parseDigits 0 s

/-- `int(s)`, storage.py l.626, l.631. -/
def parseInt : List Char → Except Err Int
  | '-' :: s => (parseNat s).map (fun n : Nat => -(n : Int))
  | s => (parseNat s).map (fun n : Nat => (n : Int))

/-- `s.split(',')`, storage.py l.627, l.631. -/
def splitComma : List Char → List (List Char)
  | [] => [[]]
  | c :: rest =>
    match splitComma rest with
    | [] => [[]]
    | p :: ps => if c = ',' then [] :: p :: ps else (c :: p) :: ps

/-- `[int(i) for i in s.split(',')]`, storage.py l.626-627, l.631. -/
def parseInts (s : List Char) : Except Err (List Int) := (splitComma s).mapM parseInt

/-- `'{:d},{:d}'.format(a, b)`, storage.py l.643-645. -/
def formatPair (a b : Int) : List Char := showInt a ++ ',' :: showInt b

/-- What a working `cdb` module would provide, storage.py l.625, l.646: `read` of a
file gives a mapping with the pairs that were written to it.  `B` is the type of
file contents. -/
structure CdbModule (W B : Type) [DecidableEq W] where
  write : List (W × List Char) → B
  read : B → Except Err (Dict W (List Char))
  read_write : ∀ items : List (W × List Char), (items.map (·.1)).Nodup →
    ∃ d, read (write items) = .ok d ∧ d.Nodup ∧ ∀ k v, d.get? k = some v ↔ (k, v) ∈ items

section
variable {W B K : Type} [DecidableEq W]

/-- `from_string`, storage.py l.631: `WordInfo(*ints)` with the constructor of
basic.py l.153 taking spamcount first; too many arguments raise TypeError. -/
def fromString (s : List Char) : Except Err WordInfo := do
  match ← parseInts s with
  | [] => .ok ⟨0, 0⟩
  | [a] => .ok ⟨a, 0⟩
  | [a, b] => .ok ⟨a, b⟩
  | _ => .error .typeError

/-- The dict comprehension of storage.py l.632-633. -/
def readWords (sk : W) : List (W × List Char) → Dict W WordInfo → Except Err (Dict W WordInfo)
  | [], d => .ok d
  | (k, v) :: rest, d =>
    if k = sk then readWords sk rest d
    else
      match fromString v with
      | .ok r => readWords sk rest (d.set k r)
      | .error e => .error e

/-- `load` when the file exists, storage.py l.625-635. -/
def cdbLoadFile (md : CdbModule W B) (sk : W) (b : B) :
    M (Clf (Dict W WordInfo) K) Unit := fun c =>
  match md.read b with
  | .error e => (.error e, c)
  | .ok data =>
    match data.get? sk with
    | none => (.error .keyError, c)
    | some s =>
      match parseInts s with
      | .ok [nham, nspam] =>
        match readWords sk data.entries Dict.empty with
        | .error e => (.error e, { c with nham := nham, nspam := nspam })
        | .ok d => (.ok (), { c with nham := nham, nspam := nspam, store := d })
      | .ok _ => (.error .valueError, c)
      | .error e => (.error e, c)

/-- `CDBClassifier.load`, storage.py l.623-640. -/
def cdbLoad (md : Option (CdbModule W B)) (sk : W) (file : Option B) :
    M (Clf (Dict W WordInfo) K) Unit := fun c =>
  match file with
  | none => (.ok (), { c with store := Dict.empty, nham := 0, nspam := 0 })
  | some b =>
    match md with
    | none => (.error .nameError, c)
    | some m => cdbLoadFile m sk b c

/-- `CDBClassifier(filename)`, storage.py l.593-597. -/
def cdbNew (md : Option (CdbModule W B)) (sk : W) (file : Option B) :
    Except Err Unit × Clf (Dict W WordInfo) K :=
  cdbLoad md sk file (Clf.new false Dict.empty)

/-- The items `CDBClassifier.store` writes, storage.py l.643-645. -/
def cdbStoreItems (sk : W) (c : Clf (Dict W WordInfo) K) : List (W × List Char) :=
  (sk, formatPair c.nham c.nspam) ::
    c.store.entries.map (fun e => (e.1, formatPair e.2.hamcount e.2.spamcount))

/-- `CDBClassifier.store`, storage.py l.642-646: result and file. -/
def cdbStore (md : Option (CdbModule W B)) (sk : W) (c : Clf (Dict W WordInfo) K) (file : Option B) :
    Except Err Unit × Option B :=
  match md with
  | none => (.error .nameError, file)
  | some m => (.ok (), some (m.write (cdbStoreItems sk c)))

end
end Sb
