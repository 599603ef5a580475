import Verif.Model.Shelve
import Verif.Model.Mixed

/-
ShelveClassifier with the keys of its shelf, sbclassifier/classifiers/storage.py
l.180-329.

Model/Shelve.lean has a shelf that takes any word as a key.  A `shelve.Shelf` does not:
it stores under `key.encode('utf-8')`, so that a key must be a str without surrogates;
bytes have no `encode`, which makes AttributeError.  Here words are str or bytes, and
the file is a dictionary of encoded keys.  Otherwise this is Model/Shelve.lean.
-/

namespace Sb
open Py Sb.Strip Sb.Tokenize

/-- `key.encode('utf-8')` (shelve.py) -/
def encodeKey : Tok → Except Err (List Nat)
  | .str t => utf8 t
  | .bytes _ => .error .attributeError

/-- STATE_KEY, storage.py l.106 -/
def stateWord : Tok := .str (Mail.txt "saved state")

/-- the key of STATE_KEY in the file -/
def stateKey : List Nat := Mail.txt "saved state"

/-- The attributes of a ShelveClassifier besides those of Classifier, storage.py
l.201-225; the shelf by its encoded keys. -/
structure KShelf where
  db : Dict (List Nat) DbVal
  wordinfo : Dict Tok WordInfo
  changed : List Tok
  deleted : List Tok

/-- `_wordinfoget`, storage.py l.265-281. -/
def kGet (w : Tok) : M KShelf (Option WordInfo) := fun s =>
  match s.wordinfo.get? w with
  | some r => (.ok (some r), s)
  | none =>
    if w ∈ s.deleted then (.ok none, s)
    else
      match encodeKey w with
      | .error e => (.error e, s)
      | .ok k =>
        match s.db.get? k with
        | none => (.ok none, s)
        | some (.counts a b) => (.ok (some ⟨a, b⟩), { s with wordinfo := s.wordinfo.set w ⟨a, b⟩ })
        | some (.state ..) => (.error .valueError, s)

/-- `_wordinfoset`, storage.py l.283-318. -/
def kSet (w : Tok) (r : WordInfo) : M KShelf Unit := fun s =>
  if r.spamcount + r.hamcount ≤ 1 then
    match encodeKey w with
    | .error e => (.error e, s)
    | .ok k =>
      (.ok (), { db := s.db.set k (.counts r.spamcount r.hamcount), wordinfo := s.wordinfo.erase w,
                 changed := setRemove s.changed w, deleted := setRemove s.deleted w })
  else
    (.ok (), { s with wordinfo := s.wordinfo.set w r, changed := setAdd s.changed w })

/-- `_wordinfodel`, storage.py l.320-324. -/
def kDel (w : Tok) : M KShelf Unit := fun s =>
  if s.wordinfo.contains w then
    (.ok (), { s with wordinfo := s.wordinfo.erase w, deleted := setAdd s.deleted w })
  else (.error .keyError, s)

/-- `_write_state_key` and `_post_training`, storage.py l.256-263. -/
def kPost (nspam nham : Int) : M KShelf Unit :=
  M.modify (fun s => { s with db := s.db.set stateKey (.state pickleVersion nspam nham) })

/-- The record methods of ShelveClassifier. -/
def kshelf : Backend KShelf Tok where
  get := kGet
  set := kSet
  del := kDel
  post := kPost

/-- Loop body of `store` for changed words, storage.py l.235-237. -/
def kStoreChanged (w : Tok) : M KShelf Unit := fun s =>
  match s.wordinfo.get? w with
  | none => (.error .keyError, s)
  | some r =>
    match encodeKey w with
    | .error e => (.error e, s)
    | .ok k => (.ok (), { s with db := s.db.set k (.counts r.spamcount r.hamcount) })

/-- Loop body of `store` for deleted words, storage.py l.238-247; only KeyError is
caught. -/
def kStoreDeleted (w : Tok) : M KShelf Unit := fun s =>
  if s.wordinfo.contains w then (.error .exception, s)
  else
    match encodeKey w with
    | .error e => (.error e, s)
    | .ok k => (.ok (), { s with db := s.db.erase k })

/-- The part of `store` before the state key is written, storage.py l.235-251. -/
def kStoreWords (it it' : SetIter Tok) : M KShelf Unit := do
  let s ← M.get
  M.forEach kStoreChanged (it.order s.changed)
  let s ← M.get
  M.forEach kStoreDeleted (it'.order s.deleted)
  M.modify (fun s => { s with changed := [], deleted := [] })

section
variable {K : Type}

/-- `store`, storage.py l.227-254. -/
def kStore (it it' : SetIter Tok) : M (Clf KShelf K) Unit := do
  onStore (kStoreWords it it')
  postTraining kshelf

/-- `ShelveClassifier(filename)` on a shelf with contents `db`, storage.py l.190-225. -/
def kOpen (db : Dict (List Nat) DbVal) : Except Err Unit × Clf KShelf K :=
  let c : Clf KShelf K := Clf.new false ⟨db, Dict.empty, [], []⟩
  match db.get? stateKey with
  | none => (.ok (), c)
  | some (.state v nspam nham) =>
    if v ≠ pickleVersion then (.error .valueError, c)
    else (.ok (), { c with nspam := nspam, nham := nham })
  | some (.counts ..) => (.error .valueError, c)

end

section
variable {K : Type} [Field K] [LinearOrder K] (F : FloatOps K)

/-- Make one call on a ShelveClassifier. -/
def runKCall (c : Clf KShelf K) : ShCall Tok → Outcome Tok K × Clf KShelf K
  | .base call => runCall F kshelf c call
  | .store it it' => let r := kStore it it' c; (.ofUnit r.1, r.2)
  | .storeReopen it it' =>
    match kStore it it' c with
    | (.error e, c') => (.raised e, c')
    | (.ok _, c') => let r := kOpen c'.store.db; (.ofUnit r.1, r.2)

/-- Make a sequence of calls on a ShelveClassifier. -/
def execK (c : Clf KShelf K) : List (ShCall Tok) → List (Outcome Tok K) × Clf KShelf K
  | [] => ([], c)
  | call :: rest =>
    let r := runKCall F c call
    let rs := execK r.2 rest
    (r.1 :: rs.1, rs.2)

end
end Sb
