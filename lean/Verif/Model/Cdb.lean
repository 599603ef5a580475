import Verif.Py.Basic
import Mathlib.Data.Nat.Bitwise

/-
Model of sbclassifier/cdb.py, function by function.

A file is a list of bytes, a byte a natural number below 256.  A str is a list of
characters.  An exception is a value; what has been written before it does not
matter here.  The memory map is a copy of the file's contents.
-/

namespace Sb.Cdb
open Py

abbrev Str := List Char
abbrev Bytes := List Nat

/-- UTF-8 encoding of one character, `bytes(c, 'utf-8')`. -/
def utf8Char (c : Char) : Bytes :=
  let n := c.toNat
  if n < 0x80 then [n]
  else if n < 0x800 then [0xc0 + n / 0x40, 0x80 + n % 0x40]
  else if n < 0x10000 then [0xe0 + n / 0x1000, 0x80 + n / 0x40 % 0x40, 0x80 + n % 0x40]
  else [0xf0 + n / 0x40000, 0x80 + n / 0x1000 % 0x40, 0x80 + n / 0x40 % 0x40, 0x80 + n % 0x40]

/-- `bytes(s, 'utf-8')` -/
def utf8 (s : Str) : Bytes := s.flatMap utf8Char

/-- The four bytes of `struct.pack('<L', n)`. -/
def le32 (n : Nat) : Bytes := [n % 256, n / 256 % 256, n / 65536 % 256, n / 16777216 % 256]

/-- `uint32_pack`, cdb.py l.23-24; struct.error if the number does not fit. -/
def uint32Pack (n : Nat) : Except Err Bytes :=
  if n < 4294967296 then .ok (le32 n) else .error .structError

/-- `uint32_unpack`, cdb.py l.19-20; struct.error unless there are four bytes. -/
def uint32Unpack : Bytes → Except Err Nat
  | [a, b, c, d] => .ok (a + 256 * b + 65536 * c + 16777216 * d)
  | _ => .error .structError

/-- The loop of `cdb_hash`, cdb.py l.31-33. -/
def hashFrom (h : Nat) : Str → Nat
  | [] => h
  | c :: rest => hashFrom (((h + (h <<< 5)) &&& 0xffffffff) ^^^ c.toNat) rest

/-- `cdb_hash` of a str, cdb.py l.29-34; CDB_HASHSTART is l.26. -/
def cdbHash (s : Str) : Nat := hashFrom 5381 s

/-! ### Making a database -/

/-- An entry of a hash table: hash value and position, cdb.py l.178. -/
abbrev Entry := Nat × Nat

/-- The dict `tables` with missing keys read as [], cdb.py l.168, l.178, l.184. -/
abbrev Tables := Nat → List Entry

/-- `tables.setdefault(i, []).append(e)`, cdb.py l.178. -/
def Tables.add (t : Tables) (i : Nat) (e : Entry) : Tables :=
  fun j => if j = i then t i ++ [e] else t j

/-- The loop writing keys and data, cdb.py l.172-179: final position, what is
written, tables. -/
def writeItems : List (Str × Str) → (pos : Nat) → (out : Bytes) → Tables →
    Except Err (Nat × Bytes × Tables)
  | [], pos, out, tables => .ok (pos, out, tables)
  | (key, value) :: rest, pos, out, tables => do
    let klen ← uint32Pack key.length
    let vlen ← uint32Pack value.length
    let h := cdbHash key
    writeItems rest (pos + 8 + key.length + value.length)
      (out ++ klen ++ vlen ++ utf8 key ++ utf8 value) (tables.add (h &&& 255) (h, pos))

/-- The `while` loop looking for a free slot, cdb.py l.190-191; `none` is the
object `null`.  In a table with a free slot `table.length` rounds are enough. -/
def probe (table : List (Option Entry)) : (fuel n : Nat) → Nat
  | 0, n => n
  | fuel + 1, n =>
    match table[n]? with
    | some (some _) => probe table fuel ((n + 1) % table.length)
    | _ => n

/-- One entry put into its table, cdb.py l.189-192. -/
def insertEntry (table : List (Option Entry)) (e : Entry) : List (Option Entry) :=
  table.set (probe table table.length ((e.1 >>> 8) % table.length)) (some e)

/-- The table for some entries, cdb.py l.184-192. -/
def makeTable (entries : List Entry) : List (Option Entry) :=
  entries.foldl insertEntry (List.replicate (2 * entries.length) none)

/-- One slot written, cdb.py l.193-194; `null` is (0, 0). -/
def packSlot (s : Option Entry) : Except Err Bytes := do
  let h ← uint32Pack (s.getD (0, 0)).1
  let p ← uint32Pack (s.getD (0, 0)).2
  .ok (h ++ p)

/-- The slots of a table written, cdb.py l.193-195. -/
def packTable : List (Option Entry) → Except Err Bytes
  | [] => .ok []
  | s :: rest => do
    let a ← packSlot s
    let b ← packTable rest
    .ok (a ++ b)

/-- The loop over the 256 tables, cdb.py l.183-195: what is written after the
data, and `final`. -/
def writeTables (tables : Tables) : List Nat → (pos : Nat) → (out final : Bytes) →
    Except Err (Bytes × Bytes)
  | [], _, out, final => .ok (out, final)
  | i :: rest, pos, out, final => do
    let entries := tables i
    let nslots := 2 * entries.length
    let a ← uint32Pack pos
    let b ← uint32Pack nslots
    let t ← packTable (makeTable entries)
    writeTables tables rest (pos + 8 * nslots) (out ++ t) (final ++ a ++ b)

/-- `seek(pos); write(data)` on a file: zeros fill a gap, but only if something is
written. -/
def writeAt (f : Bytes) (pos : Nat) (data : Bytes) : Bytes :=
  if data = [] then f
  else f.take pos ++ List.replicate (pos - f.length) 0 ++ data ++ f.drop (pos + data.length)

/-- `cdb_make`, cdb.py l.166-200, on a file with contents `f`. -/
def cdbMake (f : Bytes) (items : List (Str × Str)) : Except Err Bytes := do
  let (pos, out, tables) ← writeItems items 2048 [] (fun _ => [])
  let (out', final) ← writeTables tables (List.range 256) pos [] []
  .ok (writeAt (writeAt f 2048 (out ++ out')) 0 final)

/-! ### Reading -/

/-- `self.map[pos:pos+n]`, cdb.py l.102-104. -/
def slice (f : Bytes) (pos n : Nat) : Bytes := (f.drop pos).take n

/-- `self.eod`, cdb.py l.44. -/
def eod (f : Bytes) : Except Err Nat := uint32Unpack (f.take 4)

/-- The loop of `__iter__`, cdb.py l.60-70, from position `len` on. -/
def iterFrom (f : Bytes) (eod : Nat) (len : Nat) : Except Err (List (Bytes × Bytes)) :=
  if len < eod then
    match uint32Unpack (slice f len 4), uint32Unpack ((slice f len 8).drop 4) with
    | .ok klen, .ok vlen =>
      match iterFrom f eod (len + 8 + klen + vlen) with
      | .ok rest => .ok ((slice f (len + 8) klen, slice f (len + 8 + klen) vlen) :: rest)
      | .error e => .error e
    | _, _ => .error .structError
  else .ok []
termination_by eod - len

/-- `list(Cdb(fp))`, cdb.py l.39-55, l.58-70. -/
def cdbItems (f : Bytes) : Except Err (List (Bytes × Bytes)) := do
  let e ← eod f
  iterFrom f e 2048

/-- How a lookup key behaves: `cdb_hash(key)`, `len(key)`, and `key == data` for
bytes `data` (cdb.py l.107, l.114, l.138). -/
structure KeyOps (κ : Type) where
  hash : κ → Except Err Nat
  len : κ → Nat
  eq : κ → Bytes → Bool

/-- A str as key: on Python 3 a str never equals a bytes object. -/
def strKey : KeyOps Str where
  hash k := .ok (cdbHash k)
  len := List.length
  eq _ _ := false

/-- A bytes object as key: `ord` of an int raises TypeError in `cdb_hash`
(l.33). -/
def bytesKey : KeyOps Bytes where
  hash k := if k = [] then .ok 5381 else .error .typeError
  len := List.length
  eq k b := k == b

/-- What was meant (and what Python 2 did): a str key compared by content. -/
def contentKey : KeyOps Str where
  hash k := .ok (cdbHash k)
  len := List.length
  eq k b := utf8 k == b

/-- The search state of a Cdb object, cdb.py l.46-50, l.124. -/
structure Search where
  loop : Nat
  khash : Nat
  hpos : Nat
  hslots : Nat
  kpos : Nat

/-- `findstart`, cdb.py l.99-100. -/
def findstart (s : Search) : Search := { s with loop := 0 }

/-- The test of one slot's record, cdb.py l.135-142: `none` if the search goes
on. -/
def testRecord {κ : Type} (ops : KeyOps κ) (f : Bytes) (key : κ) (pos : Nat) :
    Except Err (Option Bytes) := do
  let u ← uint32Unpack ((slice f pos 8).take 4)
  if u = ops.len key then
    if ops.eq key (slice f (pos + 8) (ops.len key)) then
      let dlen ← uint32Unpack ((slice f pos 8).drop 4)
      .ok (some (slice f (pos + 8 + ops.len key) dlen))
    else .ok none
  else .ok none

/-- `self.kpos` after a slot, cdb.py l.132-134. -/
def nextPos (s : Search) : Nat :=
  if s.kpos + 8 = s.hpos + (s.hslots <<< 3) then s.hpos else s.kpos + 8

/-- The `while` loop of `findnext`, cdb.py l.126-144; `fuel` is the number of
slots not yet looked at. -/
def findLoop {κ : Type} (ops : KeyOps κ) (f : Bytes) (key : κ) :
    (fuel : Nat) → Search → Except Err Bytes × Search
  | 0, s => (.error .keyError, s)
  | fuel + 1, s =>
    match uint32Unpack ((slice f s.kpos 8).drop 4) with
    | .error e => (.error e, s)
    | .ok pos =>
      if pos = 0 then (.error .keyError, s)
      else
        let s' := { s with loop := s.loop + 1, kpos := nextPos s }
        match uint32Unpack ((slice f s.kpos 8).take 4) with
        | .error e => (.error e, s')
        | .ok u =>
          if u = s.khash then
            match testRecord ops f key pos with
            | .error e => (.error e, s')
            | .ok (some v) => (.ok v, s')
            | .ok none => findLoop ops f key fuel s'
          else findLoop ops f key fuel s'

/-- The start of a search, cdb.py l.113-124. -/
def findInit {κ : Type} (ops : KeyOps κ) (f : Bytes) (key : κ) (s : Search) :
    Except Err Search := do
  let u ← ops.hash key
  let buf := slice f ((u <<< 3) &&& 2047) 8
  let hslots ← uint32Unpack (buf.drop 4)
  if hslots = 0 then .error .keyError
  else do
    let hpos ← uint32Unpack (buf.take 4)
    .ok { s with khash := u, hpos := hpos, hslots := hslots,
                 kpos := hpos + (((u >>> 8) % hslots) <<< 3) }

/-- `findnext`, cdb.py l.112-144.  (Of the attributes only `hslots` is assigned
before the KeyError of l.118; it is assigned again before it is used, as `loop` is
still 0.) -/
def findnext {κ : Type} (ops : KeyOps κ) (f : Bytes) (key : κ) (s : Search) :
    Except Err Bytes × Search :=
  if s.loop = 0 then
    match findInit ops f key s with
    | .error e => (.error e, s)
    | .ok s' => findLoop ops f key (s'.hslots - s'.loop) s'
  else findLoop ops f key (s.hslots - s.loop) s

/-- `__getitem__`, cdb.py l.146-148. -/
def getItem {κ : Type} (ops : KeyOps κ) (f : Bytes) (key : κ) (s : Search) : Except Err Bytes :=
  (findnext ops f key (findstart s)).1

/-- `get`, cdb.py l.150-155. -/
def get {κ : Type} (ops : KeyOps κ) (f : Bytes) (key : κ) (default : Bytes) (s : Search) :
    Except Err Bytes :=
  match getItem ops f key s with
  | .ok v => .ok v
  | .error .keyError => .ok default
  | .error e => .error e

/-- The outcomes of `n` calls of `findnext` with the same key in a row. -/
def findMany {κ : Type} (ops : KeyOps κ) (f : Bytes) (key : κ) :
    (n : Nat) → Search → List (Except Err Bytes)
  | 0, _ => []
  | n + 1, s =>
    let r := findnext ops f key s
    r.1 :: findMany ops f key n r.2

/-! ### Opening, and the lists of keys, values and items -/

/-- `Cdb(fp)`, cdb.py l.39-45: the value of `self.eod`.  `mmap` of an empty file
raises ValueError (l.43). -/
def cdbOpen (f : Bytes) : Except Err Nat :=
  if f = [] then .error .valueError else eod f

/-- The generator `__iter__(fn)` from position `len` on, cdb.py l.60-70: what it
yields, and the exception that ends it, if any.  (`struct.unpack("<LL", b)` of
l.61 raises unless `b` has eight bytes.) -/
def iterGen {α : Type} (fn : Bytes → Bytes → α) (f : Bytes) (eod : Nat) (len : Nat) :
    List α × Option Err :=
  if len < eod then
    match uint32Unpack (slice f len 4), uint32Unpack ((slice f len 8).drop 4) with
    | .ok klen, .ok vlen =>
      let r := iterGen fn f eod (len + 8 + klen + vlen)
      (fn (slice f (len + 8) klen) (slice f (len + 8 + klen) vlen) :: r.1, r.2)
    | _, _ => ([], some .structError)
  else ([], none)
termination_by eod - len

/-- The loop `for i in ...: ret.append(i)`, cdb.py l.82-85, l.88-91, l.94-97. -/
def collect {α : Type} (g : List α × Option Err) : Except Err (List α) :=
  match g.2 with
  | none => .ok g.1
  | some e => .error e

/-- `iteritems()` of an opened database, cdb.py l.72-73. -/
def iterItems (f : Bytes) (eod : Nat) : List (Bytes × Bytes) × Option Err := iterGen Prod.mk f eod 2048

/-- `iterkeys()`, cdb.py l.75-76. -/
def iterKeys (f : Bytes) (eod : Nat) : List Bytes × Option Err := iterGen (fun k _ => k) f eod 2048

/-- `itervalues()`, cdb.py l.78-79. -/
def iterValues (f : Bytes) (eod : Nat) : List Bytes × Option Err := iterGen (fun _ v => v) f eod 2048

/-- `items()`, cdb.py l.81-85. -/
def items (f : Bytes) (eod : Nat) : Except Err (List (Bytes × Bytes)) := collect (iterItems f eod)

/-- `keys()`, cdb.py l.87-91. -/
def keys (f : Bytes) (eod : Nat) : Except Err (List Bytes) := collect (iterKeys f eod)

/-- `values()`, cdb.py l.93-97. -/
def values (f : Bytes) (eod : Nat) : Except Err (List Bytes) := collect (iterValues f eod)

/-- The file as `cdb_make` leaves it at the `flush` before the header is written,
cdb.py l.167-198. -/
def cdbMakeBody (f : Bytes) (items : List (Str × Str)) : Except Err Bytes := do
  let (pos, out, tables) ← writeItems items 2048 [] (fun _ => [])
  let (out', _) ← writeTables tables (List.range 256) pos [] []
  .ok (writeAt f 2048 (out ++ out'))

end Sb.Cdb
