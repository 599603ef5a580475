import Verif.Model.Message

/-
Model of sbclassifier/corpora/caches.py.  Logging is dropped.  The file system is
a tree of directories and files without symbolic links or permissions; a process
other than this one does not change it.
-/

namespace Sb.Corpora
open Py Mail

/-! ### NaiveCache -/

/-- The attributes of a NaiveCache, caches.py l.65-71; `none` is INFINITY. -/
structure Naive (κ ν : Type) where
  keys : List κ
  data : Dict κ ν
  maxSize : Option Int

namespace Naive
variable {κ ν : Type} [DecidableEq κ]

/-- `NaiveCache(max_size)`, caches.py l.65-71. -/
def new (maxSize : Option Int) : Naive κ ν := ⟨[], Dict.empty, maxSize⟩

/-- `NaiveCache.__len__`, caches.py l.73-74. -/
def len (c : Naive κ ν) : Nat := c.data.size

/-- `NaiveCache.get` with default None, caches.py l.99-100. -/
def get (c : Naive κ ν) (key : κ) : Option ν := c.data.get? key

/-- `NaiveCache.__getitem__`, caches.py l.79-80. -/
def getItem (c : Naive κ ν) (key : κ) : Except Err ν :=
  match c.data.get? key with
  | some v => .ok v
  | none => .error .keyError

/-- `NaiveCache.pop`, caches.py l.102-111: the first occurrence of the key in the
list of keys goes, and its entry; the result is the value or None. -/
def pop (c : Naive κ ν) (key : κ) : Option ν × Naive κ ν :=
  (c.data.get? key, { c with keys := c.keys.erase key, data := c.data.erase key })

/-- `len(self._keys) > self.max_size`, caches.py l.95. -/
def tooBig (c : Naive κ ν) : Bool :=
  match c.maxSize with
  | none => false
  | some n => decide (n < c.keys.length)

/-- caches.py l.90-92 -/
def insert (c : Naive κ ν) (key : κ) (v : ν) : Naive κ ν :=
  { c with data := c.data.set key v, keys := c.keys ++ [key] }

/-- `self._keys[0]` if something has to be flushed, caches.py l.95-96. -/
def toFlush (c : Naive κ ν) : Option κ := if c.tooBig then c.keys.head? else none

/-- `NaiveCache.put`, caches.py l.88-97. -/
def put (c : Naive κ ν) (key : κ) (v : ν) : Naive κ ν :=
  match (c.insert key v).toFlush with
  | none => c.insert key v
  | some k => ((c.insert key v).pop k).2

end Naive

/-! ### Files -/

/-- An absolute path: the names from the root on. -/
abbrev Path := List Txt

inductive Node where
  | file (b : List Nat)
  | dir
  deriving DecidableEq

/-- A file system: what there is at each path; the root always exists. -/
abbrev FS := Dict Path Node

def FS.isDir (fs : FS) (p : Path) : Bool := p == [] || fs.get? p == some .dir

/-- `s.split('/')` -/
def splitSlash : Txt → List Txt
  | [] => [[]]
  | c :: r =>
    match splitSlash r with
    | [] => [[]]
    | a :: as => if c = 47 then [] :: a :: as else (c :: a) :: as

/-- Resolving a path name step by step; `none` if something on the way is not a
directory. -/
def FS.walk (fs : FS) : Path → List Txt → Option Path
  | cur, [] => some cur
  | cur, c :: rest =>
    if fs.isDir cur then
      if c = [] ∨ c = txt "." then fs.walk cur rest
      else if c = txt ".." then fs.walk cur.dropLast rest
      else fs.walk (cur ++ [c]) rest
    else none

/-- The object named by `os.path.join(dir, name)`: an absolute name replaces `dir`. -/
def FS.resolve (fs : FS) (dir : Path) (name : Txt) : Option Path :=
  fs.walk (if name.head? = some 47 then [] else dir) (splitSlash name)

/-- `open(p, 'wb')` followed by writing `b`. -/
def FS.write (fs : FS) (p : Path) (b : List Nat) : Except Err FS :=
  if fs.isDir p then .error .osError else .ok (fs.set p (.file b))

/-- `os.remove(p)` -/
def FS.remove (fs : FS) (p : Path) : Except Err FS :=
  match fs.get? p with
  | some (.file _) => .ok (fs.erase p)
  | _ => .error .osError

/-- `os.listdir(dir)`; the order is that of the entries. -/
def FS.listdir (fs : FS) (dir : Path) : List Txt :=
  fs.entries.filterMap (fun e =>
    match e.1.getLast? with
    | some n => if e.1.dropLast = dir then some n else none
    | none => none)

/-- `os.path.isfile(os.path.join(dir, name))` -/
def FS.isFile (fs : FS) (dir : Path) (name : Txt) : Bool :=
  match fs.resolve dir name with
  | none => false
  | some p => match fs.get? p with
    | some (.file _) => true
    | _ => false

/-! ### FileCache -/

/-- What the caches and corpora use of a message object: `message.id()`,
`message.as_bytes()` (which can raise) and what `from_bytes(b, message_id)` returns if
`set_id` does not raise; see `MailOps.readAs`. -/
structure MailOps (ν : Type) where
  id : ν → Option Txt
  bytes : ν → Except Err (List Nat)
  parse : List Nat → Option Txt → ν
  parse_id : ∀ b k, id (parse b k) = k

/-- `from_bytes(b, message_id)` with a str, message.py l.153-157: `set_id` (l.247-258)
refuses two names. -/
def MailOps.readAs {ν : Type} (O : MailOps ν) (b : List Nat) (k : Txt) : Except Err ν :=
  if k = statsStartKey ∨ k = statsStorageKey then .error .valueError else .ok (O.parse b (some k))

/-- Keys of messages: an id or None. -/
abbrev Key := Option Txt

/-- The attributes of a FileCache, caches.py l.118-125; `accept` is
`fnmatch.fnmatch(·, self.namefilter)`. -/
structure FileCache (ν : Type) where
  cache : Naive Key ν
  dir : Path
  accept : Txt → Bool
  numFiles : Nat

namespace FileCache
variable {ν : Type} (O : MailOps ν)

/-- `_is_message`, caches.py l.127-129. -/
def isMessage (c : FileCache ν) (fs : FS) (name : Txt) : Bool :=
  fs.isFile c.dir name && c.accept name

/-- `keys` and `__iter__`, caches.py l.137-138, l.147-148. -/
def keys (c : FileCache ν) (fs : FS) : List Txt := (fs.listdir c.dir).filter (c.isMessage fs)

/-- `FileCache(directory, namefilter, max_size)`, caches.py l.118-125. -/
def new (dir : Path) (accept : Txt → Bool) (maxSize : Option Int) (fs : FS) :
    Except Err (FileCache ν) :=
  if fs.isDir dir then
    let c : FileCache ν := ⟨.new maxSize, dir, accept, 0⟩
    .ok { c with numFiles := (c.keys fs).length }
  else .error .osError

/-- `__len__`, caches.py l.134-135. -/
def len (c : FileCache ν) : Nat := c.numFiles

/-- `__getitem__`, caches.py l.140-145, reading with from_path (message.py
l.148-158) without an id. -/
def getItem (c : FileCache ν) (fs : FS) (key : Key) : Except Err ν :=
  match c.cache.data.get? key with
  | some v => .ok v
  | none =>
    match key with
    | none => .error .keyError
    | some k =>
      if (fs.listdir c.dir).contains k && c.isMessage fs k then
        match fs.resolve c.dir k with
        | some p =>
          match fs.get? p with
          | some (.file b) => .ok (O.parse b none)
          | _ => .error .osError
        | none => .error .osError
      else .error .keyError

/-- Reading one message file with its name as id, caches.py l.131-132, l.152. -/
def readFile (c : FileCache ν) (fs : FS) (k : Txt) : Except Err ν :=
  match fs.resolve c.dir k with
  | some p =>
    match fs.get? p with
    | some (.file b) => O.readAs b k
    | _ => .error .osError
  | none => .error .osError

/-- Reading some files one after the other: the messages, and the exception that ends it,
if any. -/
def readFiles (c : FileCache ν) (fs : FS) : List Txt → List ν × Option Err
  | [] => ([], none)
  | k :: ks =>
    match c.readFile O fs k with
    | .error e => ([], some e)
    | .ok m => (m :: (c.readFiles fs ks).1, (c.readFiles fs ks).2)

/-- What iterating `cache.values()` gives, caches.py l.150-152. -/
def values (c : FileCache ν) (fs : FS) : List ν × Option Err := c.readFiles O fs (c.keys fs)

/-- `get` with default None, caches.py l.164-168. -/
def get (c : FileCache ν) (fs : FS) (key : Key) : Except Err (Option ν) :=
  match c.getItem O fs key with
  | .ok v => .ok (some v)
  | .error .keyError => .ok none
  | .error e => .error e

/-- `os.remove(os.path.join(directory, name))` with OSError caught,
caches.py l.173-177. -/
def removeFile (c : FileCache ν) (fs : FS) (name : Txt) : FS :=
  match fs.resolve c.dir name with
  | none => fs
  | some p => match fs.remove p with
    | .ok fs' => fs'
    | .error _ => fs

/-- `pop`, caches.py l.170-178; `os.path.join` with None is a TypeError. -/
def pop (key : Key) : M (FileCache ν × FS) (Option ν) := fun (c, fs) =>
  let r := c.cache.pop key
  let c' := { c with cache := r.2 }
  match key with
  | none => (.error .typeError, (c', fs))
  | some k => (.ok r.1, (c', c'.removeFile fs k))

/-- The call of `super().put`, caches.py l.159: NaiveCache.put (l.88-97) with
FileCache's `pop`. -/
def superPut (key : Key) (v : ν) : M (FileCache ν × FS) Unit := fun (c, fs) =>
  let c' := { c with cache := c.cache.insert key v }
  match c'.cache.toFlush with
  | none => (.ok (), (c', fs))
  | some k =>
    match pop k (c', fs) with
    | (.ok _, s) => (.ok (), s)
    | (.error e, s) => (.error e, s)

/-- Writing the message, caches.py l.161-162: the file is opened (and emptied)
before `as_bytes` is called. -/
def writeFile (name : Txt) (v : ν) : M (FileCache ν × FS) Unit := fun (c, fs) =>
  match fs.resolve c.dir name with
  | none => (.error .osError, (c, fs))
  | some p =>
    match fs.write p [] with
    | .error e => (.error e, (c, fs))
    | .ok fs' =>
      match O.bytes v with
      | .error e => (.error e, (c, fs'))
      | .ok b =>
        match fs'.write p b with
        | .error e => (.error e, (c, fs'))
        | .ok fs'' => (.ok (), (c, fs''))

/-- `put`, caches.py l.154-162; `fnmatch` of None is a TypeError. -/
def put (key : Key) (v : ν) : M (FileCache ν × FS) Unit := fun s =>
  match key with
  | none => (.error .typeError, s)
  | some k =>
    if s.1.accept k then (do superPut (some k) v; writeFile O k v) s
    else (.error .valueError, s)

end FileCache
end Sb.Corpora
