import Verif.Model.Client

/-
Model of class ShelveClassifier, sbclassifier/classifiers/storage.py l.180-329.

The shelf (`shelve.open`) is a dictionary from words to pickled tuples; pickling
of these tuples and UTF-8 encoding of the keys are taken to be faithful, and a
write to the shelf is taken to reach the file at once.  A ShelveClassifier is
never in bigram mode (l.191 calls the base constructor without argument).
-/

namespace Sb
open Py

/-- A value in the shelf: a WordInfo state (storage.py l.237, l.302) or the tuple
under the state key (l.257). -/
inductive DbVal where
  | counts (spam ham : Int)
  | state (version nspam nham : Int)
  deriving DecidableEq

/-- The attributes of a ShelveClassifier besides those of Classifier, storage.py
l.201-225: `db`, `wordinfo`, `changed_words`, `deleted_words`.  `trace` is not in
the code: it lists the contents of the shelf after each write, oldest first, so
that crash points can be talked about. -/
structure Shelf (W : Type) where
  db : Dict W DbVal
  wordinfo : Dict W WordInfo
  changed : List W
  deleted : List W
  trace : List (Dict W DbVal)

section
variable {W K : Type} [DecidableEq W]

/-- `self.db[k] = v` -/
def Shelf.put (k : W) (v : DbVal) : M (Shelf W) Unit :=
  M.modify (fun s => { s with db := s.db.set k v, trace := s.trace ++ [s.db.set k v] })

/-- `try: del self.db[k] except KeyError: pass`, storage.py l.244-247. -/
def Shelf.delete (k : W) : M (Shelf W) Unit :=
  M.modify (fun s => { s with db := s.db.erase k, trace := s.trace ++ [s.db.erase k] })

/-- `set.add` -/
def setAdd (l : List W) (w : W) : List W := if w ∈ l then l else w :: l

/-- `set.remove` with KeyError ignored -/
def setRemove (l : List W) (w : W) : List W := l.filter (fun x => decide (x ≠ w))

/-- `_wordinfoget`, storage.py l.265-281.  The tuple of the state key has three
components, so `__setstate__` (basic.py l.162-163) raises ValueError on it. -/
def shelfGet (w : W) : M (Shelf W) (Option WordInfo) := fun s =>
  match s.wordinfo.get? w with
  | some r => (.ok (some r), s)
  | none =>
    if w ∈ s.deleted then (.ok none, s)
    else
      match s.db.get? w with
      | none => (.ok none, s)
      | some (.counts a b) => (.ok (some ⟨a, b⟩), { s with wordinfo := s.wordinfo.set w ⟨a, b⟩ })
      | some (.state ..) => (.error .valueError, s)

/-- `_wordinfoset`, storage.py l.283-318. -/
def shelfSet (w : W) (r : WordInfo) : M (Shelf W) Unit := fun s =>
  if r.spamcount + r.hamcount ≤ 1 then
    let d := s.db.set w (.counts r.spamcount r.hamcount)
    (.ok (), { db := d, wordinfo := s.wordinfo.erase w, changed := setRemove s.changed w,
               deleted := setRemove s.deleted w, trace := s.trace ++ [d] })
  else
    (.ok (), { s with wordinfo := s.wordinfo.set w r, changed := setAdd s.changed w })

/-- `_wordinfodel`, storage.py l.320-324. -/
def shelfDel (w : W) : M (Shelf W) Unit := fun s =>
  if s.wordinfo.contains w then
    (.ok (), { s with wordinfo := s.wordinfo.erase w, deleted := setAdd s.deleted w })
  else (.error .keyError, s)

/-- `_write_state_key` and `_post_training`, storage.py l.256-263. -/
def writeStateKey (sk : W) (nspam nham : Int) : M (Shelf W) Unit :=
  Shelf.put sk (.state pickleVersion nspam nham)

/-- The record methods of ShelveClassifier; `sk` is STATE_KEY (storage.py l.106,
l.192). -/
def shelf (sk : W) : Backend (Shelf W) W where
  get := shelfGet
  set := shelfSet
  del := shelfDel
  post := writeStateKey sk

/-- Loop body of `store` for changed words, storage.py l.235-237. -/
def storeChanged (w : W) : M (Shelf W) Unit := fun s =>
  match s.wordinfo.get? w with
  | none => (.error .keyError, s)
  | some r => Shelf.put w (.counts r.spamcount r.hamcount) s

/-- Loop body of `store` for deleted words, storage.py l.238-247. -/
def storeDeleted (w : W) : M (Shelf W) Unit := fun s =>
  if s.wordinfo.contains w then (.error .exception, s) else Shelf.delete w s

/-- The part of `store` before the state key is written, storage.py l.235-251;
`it`, `it'` are the iteration orders of the two sets. -/
def storeWords (it it' : SetIter W) : M (Shelf W) Unit := do
  let s ← M.get
  M.forEach storeChanged (it.order s.changed)
  let s ← M.get
  M.forEach storeDeleted (it'.order s.deleted)
  M.modify (fun s => { s with changed := [], deleted := [] })

/-- `store`, storage.py l.227-254. -/
def shelveStore (sk : W) (it it' : SetIter W) : M (Clf (Shelf W) K) Unit := do
  onStore (storeWords it it')
  postTraining (shelf sk)

/-- `load` on an object with any attributes, over a shelf with contents `db`,
storage.py l.201-225.  `_probcache` is left alone.  `t[1:]` of a WordInfo state has
one component, so unpacking it into two raises ValueError, if its first component
happens to be the version; `self.db` has been assigned by then. -/
def shelveLoad (sk : W) (db : Dict W DbVal) : M (Clf (Shelf W) K) Unit := fun c =>
  match db.get? sk with
  | none =>
    (.ok (), { c with nspam := 0, nham := 0, store := ⟨db, Dict.empty, [], [], [db]⟩ })
  | some (.state v nspam nham) =>
    if v ≠ pickleVersion then (.error .valueError, { c with store := { c.store with db := db } })
    else (.ok (), { c with nspam := nspam, nham := nham, store := ⟨db, Dict.empty, [], [], [db]⟩ })
  | some (.counts ..) => (.error .valueError, { c with store := { c.store with db := db } })

/-- `ShelveClassifier(filename)` on a shelf with contents `db`, storage.py
l.190-195. -/
def shelveOpen (sk : W) (db : Dict W DbVal) : Except Err Unit × Clf (Shelf W) K :=
  shelveLoad sk db (Clf.new false ⟨Dict.empty, Dict.empty, [], [], []⟩)

/-- `_wordinfokeys`, storage.py l.326-329. -/
def shelfKeys (sk : W) (s : Shelf W) : Except Err (List W) :=
  if sk ∈ s.db.keys then .ok (s.db.keys.erase sk) else .error .valueError

end

/-- What a client can do with a ShelveClassifier: the calls of a Classifier,
store (storage.py l.227), and store, close (l.197) and construct a new object on
the same file (l.190).  `it`, `it'` are set iteration orders. -/
inductive ShCall (W : Type) where
  | base (c : Call W)
  | store (it it' : SetIter W)
  | storeReopen (it it' : SetIter W)

section
variable {W K : Type} [Field K] [LinearOrder K] [LinearOrder W] [BigramFormat W] (F : FloatOps K)

/-- Make one call on a ShelveClassifier. -/
def runShCall (sk : W) (c : Clf (Shelf W) K) : ShCall W → Outcome W K × Clf (Shelf W) K
  | .base call => runCall F (shelf sk) c call
  | .store it it' => let r := shelveStore sk it it' c; (.ofUnit r.1, r.2)
  | .storeReopen it it' =>
    match shelveStore sk it it' c with
    | (.error e, c') => (.raised e, c')
    | (.ok _, c') => let r := shelveOpen sk c'.store.db; (.ofUnit r.1, r.2)

/-- Make a sequence of calls on a ShelveClassifier. -/
def execSh (sk : W) (c : Clf (Shelf W) K) : List (ShCall W) → List (Outcome W K) × Clf (Shelf W) K
  | [] => ([], c)
  | call :: rest =>
    let r := runShCall F sk c call
    let rs := execSh sk r.2 rest
    (r.1 :: rs.1, rs.2)

end
end Sb
