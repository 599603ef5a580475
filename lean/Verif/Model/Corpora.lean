import Verif.Model.Caches
import Mathlib.Data.Rat.Defs

/-
Model of sbclassifier/corpora/base.py and sbclassifier/corpora/filesystem.py, and
of the part of blinker's signals they use.
-/

namespace Sb.Corpora
open Py Mail

/-- A cache object. -/
inductive CacheObj (ν : Type) where
  | naive (c : Naive Key ν)
  | file (c : FileCache ν)

/-- The cache objects that exist, the file system, and the state `user` that the
observers of the corpora act on.  A cache is named by its index. -/
structure World (ν σ : Type) where
  heap : List (CacheObj ν)
  fs : FS
  user : σ

/-- A corpus: the object itself (`obj`) and its attribute `message_cache`, base.py
l.139-140. -/
structure Corpus where
  obj : Nat
  cache : Nat
  deriving DecidableEq

/-- `len(cache)` of either class, caches.py l.73-74, l.134-135. -/
def CacheObj.len {ν : Type} : CacheObj ν → Nat
  | .naive c => c.len
  | .file c => c.len

section
variable {ν σ R : Type} (O : MailOps ν)

/-- `Corpus(cache)`, base.py l.139-140: `cache or NaiveCache(max_size=INFINITY)`. A
cache of length 0 is false. -/
def newCorpus (obj : Nat) (cache : Option Nat) (w : World ν σ) : Corpus × World ν σ :=
  let fresh : Corpus × World ν σ :=
    (⟨obj, w.heap.length⟩, { w with heap := w.heap ++ [.naive (.new none)] })
  match cache with
  | none => fresh
  | some i =>
    match w.heap[i]? with
    | none => fresh
    | some c => if c.len = 0 then fresh else (⟨obj, i⟩, w)

/-- `FileCorpus(directory, namefilter, cache_size)`, filesystem.py l.63-65. -/
def newFileCorpus (obj : Nat) (dir : Path) (accept : Txt → Bool) (cacheSize : Option Int)
    (w : World ν σ) : Except Err (Corpus × World ν σ) :=
  match FileCache.new dir accept cacheSize w.fs with
  | .error e => .error e
  | .ok c => .ok (newCorpus obj (some w.heap.length) { w with heap := w.heap ++ [.file c] })

/-- `self.message_cache.put(key, message)`, base.py l.159. -/
def cachePut (i : Nat) (key : Key) (m : ν) : M (World ν σ) Unit := fun w =>
  match w.heap[i]? with
  | none => (.ok (), w)
  | some (.naive c) => (.ok (), { w with heap := w.heap.set i (.naive (c.put key m)) })
  | some (.file c) =>
    match FileCache.put O key m (c, w.fs) with
    | (r, (c', fs')) => (r, { w with heap := w.heap.set i (.file c'), fs := fs' })

/-- `self.message_cache.pop(key)`, base.py l.172. -/
def cachePop (i : Nat) (key : Key) : M (World ν σ) Unit := fun w =>
  match w.heap[i]? with
  | none => (.ok (), w)
  | some (.naive c) => (.ok (), { w with heap := w.heap.set i (.naive (c.pop key).2) })
  | some (.file c) =>
    match FileCache.pop key (c, w.fs) with
    | (.ok _, (c', fs')) => (.ok (), { w with heap := w.heap.set i (.file c'), fs := fs' })
    | (.error e, (c', fs')) => (.error e, { w with heap := w.heap.set i (.file c'), fs := fs' })

/-- The receivers connected to a signal, each for one sender or for any (`none`),
blinker's `connect`.  All of them are alive (blinker keeps weak
references; see Model/Lifetime.lean). -/
abbrev Registry (R : Type) := List (R × Option Corpus)

/-- The two signals of base.py l.106, l.113. -/
structure Signals (R : Type) where
  added : Registry R
  removed : Registry R

/-- The receivers of a signal sent by a corpus, blinker's `receivers_for`: a set,
so that a receiver connected twice is called once. -/
def receiversFor (reg : Registry R) (c : Corpus) : List R :=
  (reg.filter (fun e => e.2 = none ∨ e.2 = some c)).map (·.1)

/-- An observer: what it does to the user's state.  It does not change corpora. -/
abbrev Observer (ν σ : Type) := Corpus → ν → M σ Unit

/-- A receiver called. -/
def callReceiver (run : R → Observer ν σ) (c : Corpus) (m : ν) (r : R) : M (World ν σ) Unit :=
  fun w => match run r c m w.user with
    | (x, u) => (x, { w with user := u })

/-- `signal.send(self, message=message)`, base.py l.161, l.175: every receiver in
turn; an exception ends it. -/
def send (it : SetIter R) (run : R → Observer ν σ) (reg : Registry R) (c : Corpus) (m : ν) :
    M (World ν σ) Unit :=
  M.forEach (callReceiver run c m) (it.order (receiversFor reg c))

/-- The key of base.py l.157. -/
def keyOf (m : ν) (messageId : Option Txt) : Key := if messageId.isSome then messageId else O.id m

/-- `Corpus.add_message`, base.py l.150-161. -/
def addMessage (it : SetIter R) (run : R → Observer ν σ) (S : Signals R) (c : Corpus) (m : ν)
    (messageId : Option Txt) (emit : Bool) : M (World ν σ) Unit := do
  cachePut O c.cache (keyOf O m messageId) m
  if emit then send it run S.added c m else pure ()

/-- `Corpus.remove_message`, base.py l.163-175. -/
def removeMessage (it : SetIter R) (run : R → Observer ν σ) (S : Signals R) (c : Corpus) (m : ν)
    (emit : Bool) : M (World ν σ) Unit := do
  cachePop c.cache (O.id m)
  if emit then send it run S.removed c m else pure ()

/-- `Corpus.__len__`, base.py l.242-243. -/
def corpusLen (c : Corpus) (w : World ν σ) : Nat :=
  match w.heap[c.cache]? with
  | some o => o.len
  | none => 0

/-- `Corpus.__getitem__`, base.py l.222-228. -/
def corpusGetItem (c : Corpus) (w : World ν σ) (key : Key) : Except Err ν :=
  match w.heap[c.cache]? with
  | some (.naive n) => n.getItem key
  | some (.file f) => f.getItem O w.fs key
  | none => .error .keyError

/-- `Corpus.get` with default None, base.py l.217-220. -/
def corpusGet (c : Corpus) (w : World ν σ) (key : Key) : Except Err (Option ν) :=
  match w.heap[c.cache]? with
  | some (.naive n) => .ok (n.get key)
  | some (.file f) => f.get O w.fs key
  | none => .ok none

/-- `list(corpus.keys())` and `list(corpus)`, base.py l.230-231, l.245-246. -/
def corpusKeys (c : Corpus) (w : World ν σ) : List Key :=
  match w.heap[c.cache]? with
  | some (.naive n) => n.data.keys
  | some (.file f) => (f.keys w.fs).map some
  | none => []

/-- What iterating `corpus.values()` gives, base.py l.233-234: the messages, and the
exception that ends it, if any. -/
def corpusValues (c : Corpus) (w : World ν σ) : List ν × Option Err :=
  match w.heap[c.cache]? with
  | some (.naive n) => (n.data.values, none)
  | some (.file f) => f.values O w.fs
  | none => ([], none)

/-- `key in corpus`, base.py l.239-240: the caches have no `__contains__`, so their
keys are searched. -/
def corpusContains (c : Corpus) (w : World ν σ) (key : Key) : Bool := (corpusKeys c w).contains key

/-- `corpus.items()`, base.py l.236-237: neither cache class has `items`. -/
def corpusItems (_c : Corpus) (_w : World ν σ) : Except Err (List (Key × ν)) := .error .attributeError

/-- One call of a method that changes a corpus; exceptions are caught by the caller. -/
inductive Op (ν R : Type) where
  | add (it : SetIter R) (c : Corpus) (m : ν) (messageId : Option Txt) (emit : Bool)
  | remove (it : SetIter R) (c : Corpus) (m : ν) (emit : Bool)

def runOp (run : R → Observer ν σ) (S : Signals R) : Op ν R → World ν σ → Except Err Unit × World ν σ
  | .add it c m i e, w => addMessage O it run S c m i e w
  | .remove it c m e, w => removeMessage O it run S c m e w

/-- A sequence of calls. -/
def runOps (run : R → Observer ν σ) (S : Signals R) (ops : List (Op ν R)) (w : World ν σ) : World ν σ :=
  ops.foldl (fun w op => (runOp O run S op w).2) w

/-! ### ExpiryFileCorpus -/

/-- An ExpiryFileCorpus, filesystem.py l.79-83; times in seconds. -/
structure Expiry where
  corpus : Corpus
  expireBefore : ℚ
  expiryDue : ℚ

/-- `ExpiryFileCorpus(expireBefore, directory, namefilter, cache_size)`,
filesystem.py l.79-83, at time `now`. -/
def newExpiry (obj : Nat) (expireBefore : ℚ) (dir : Path) (accept : Txt → Bool)
    (cacheSize : Option Int) (now : ℚ) (w : World ν σ) : Except Err (Expiry × World ν σ) :=
  match newFileCorpus obj dir accept cacheSize w with
  | .error e => .error e
  | .ok (c, w') => .ok (⟨c, expireBefore, now⟩, w')

/-- The loop of `remove_expired_messages`, filesystem.py l.96-104.  `stamp` is the
method `createTimestamp` of the message's class, `none` if it has none; `now k` is
the time read in the round for the key `k`.  remove_message has no parameter
`do_training` (l.102): TypeError. -/
def expireLoop (stamp : ν → Option ℚ) (now : Key → ℚ) (c : Corpus) (age : ℚ) (w : World ν σ) :
    List Key → (due : ℚ) → Except Err Unit × ℚ
  | [], due => (.ok (), due)
  | k :: rest, due =>
    match corpusGetItem O c w k with
    | .error e => (.error e, due)
    | .ok m =>
      match stamp m with
      | none => (.error .attributeError, due)
      | some t =>
        if t + age < now k then (.error .typeError, due)
        else expireLoop stamp now c age w rest (if t + age < due then t + age else due)

/-- `remove_expired_messages`, filesystem.py l.85-104; `now0` and `now1` are the
times read in l.90 and l.93. -/
def removeExpired (stamp : ν → Option ℚ) (now0 now1 : ℚ) (now : Key → ℚ) (x : Expiry) (w : World ν σ) :
    Except Err Unit × Expiry :=
  if now0 < x.expiryDue then (.ok (), x)
  else
    match expireLoop O stamp now x.corpus x.expireBefore w (corpusKeys x.corpus w)
        (now1 + x.expireBefore) with
    | (r, due) => (r, { x with expiryDue := due })

end
end Sb.Corpora
