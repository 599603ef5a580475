import Verif.Model.Fetch

/-
`SlurpingClassifier._generate_slurp`, the second half of `setup`, and `_save_caches`,
sbclassifier/classifiers/slurping.py l.199-264: how what is known about URLs is kept in
two files and read again by the next object.

The object is taken to have its corpus of cached pages, although l.224 raises (C62), and
`slurp_wordstream` to hold the URL of the message, although nobody ever assigns it (C62):
so this is about the code around the two faults.  A read or a write of a file is one step
that either gets the lock or times out (Model/SafePickle.lean looks inside).  A file that
holds a pickle of something else than the dictionary of l.238 or l.253 is not covered.
-/

namespace Sb.Slurp
open Py Py.Text Sb.Mail Sb.Net Sb.Strip Sb.Tokenize

/-- `pickle.dump` and `pickle.load` of the two dictionaries; `load` fails on damaged data. -/
structure UrlCodec (B : Type) where
  dumpBad : List (Txt × List Txt) → B
  loadBad : B → Except Err (List (Txt × List Txt))
  bad_trip : ∀ x, loadBad (dumpBad x) = .ok x
  dumpHttp : Dict Txt Txt → B
  loadHttp : B → Except Err (Dict Txt Txt)
  http_trip : ∀ x, loadHttp (dumpHttp x) = .ok x

/-- The files bad_urls.pck and http_error_urls.pck, slurping.py l.229-230. -/
structure UrlFiles (B : Type) where
  bad : Option B
  http : Option B

/-- During one call: which of the four uses of a lock time out (safepickle.py l.18). -/
structure Locks where
  readBad : Bool := false
  readHttp : Bool := false
  writeBad : Bool := false
  writeHttp : Bool := false

/-- A SlurpingClassifier: whether it has the attribute `setup_done`, the attribute
`do_slurp` if it has one, and its caches (which mean nothing before the set-up). -/
structure Slurper where
  ready : Bool
  doSlurp : Option Bool
  cache : Cache

/-- The dictionary of slurping.py l.238-240, l.243-245. -/
def freshBad : List (Txt × List Txt) :=
  [(txt "url:non_resolving", []), (txt "url:non_html", []), (txt "url:unknown_error", [])]

section
variable {B : Type}

/-- One file of the set-up, slurping.py l.231-245, l.246-255: `except (IOError,
ValueError)` starts afresh, anything else goes to the caller (a timeout of the lock is
neither). -/
def readOr {α : Type} (locked : Bool) (file : Option B) (load : B → Except Err α) (fresh : α) :
    Except Err α :=
  match file with
  | none => .ok fresh
  | some b =>
    if locked then .error .lockTimeout
    else
      match load b with
      | .ok v => .ok v
      | .error .osError => .ok fresh
      | .error .valueError => .ok fresh
      | .error e => .error e

/-- The set-up, slurping.py l.202-204, l.228-255. -/
def setUp (C : UrlCodec B) (l : Locks) : M (Slurper × UrlFiles B) Unit := fun s =>
  if s.1.ready then (.ok (), s)
  else
    match readOr l.readBad s.2.bad C.loadBad freshBad with
    | .error e => (.error e, s)
    | .ok bad =>
      match readOr l.readHttp s.2.http C.loadHttp Dict.empty with
      | .error e => (.error e, ({ s.1 with cache := { s.1.cache with bad := bad } }, s.2))
      | .ok http =>
        (.ok (), ({ s.1 with ready := true, cache := { s.1.cache with bad := bad, http := http } }, s.2))

/-- `_save_caches`, slurping.py l.257-264. -/
def saveCaches (C : UrlCodec B) (l : Locks) : M (Slurper × UrlFiles B) Unit := fun s =>
  if l.writeBad then (.error .lockTimeout, s)
  else
    let f := { s.2 with bad := some (C.dumpBad s.1.cache.bad) }
    if l.writeHttp then (.error .lockTimeout, (s.1, f))
    else (.ok (), (s.1, { f with http := some (C.dumpHttp s.1.cache.http) }))

/-- `self.slurp(*slurp_wordstream)`, slurping.py l.209. -/
def runSlurp (U : StrMore) (webPrefix : Txt) (w : World) (proto url : Txt) :
    M (Slurper × UrlFiles B) Slurped := fun s =>
  match slurp U false webPrefix w proto url s.1.cache with
  | (r, c) => (r, ({ s.1 with cache := c }, s.2))

/-- `self.do_slurp = b`, slurping.py l.207, l.210. -/
def setDoSlurp (b : Bool) : M (Slurper × UrlFiles B) Unit :=
  M.modify (fun s => ({ s.1 with doSlurp := some b }, s.2))

/-- `_generate_slurp`, slurping.py l.199-213, with `slurp_wordstream` (proto, url). -/
def generate (U : StrMore) (webPrefix : Txt) (C : UrlCodec B) (l : Locks) (w : World) (proto url : Txt) :
    M (Slurper × UrlFiles B) Slurped := do
  setUp C l
  if (← M.get).1.doSlurp = some false then pure (.list [])
  else
    setDoSlurp false
    let tokens ← runSlurp U webPrefix w proto url
    setDoSlurp true
    saveCaches C l
    pure tokens

/-- A new object; `pages` are the pages in the directory.  The log of the network is kept. -/
def Slurper.new (pages : Txt → Option Gen) (net : List Op) : Slurper :=
  ⟨false, none, ⟨[], Dict.empty, pages, net⟩⟩

/-- What a process does. -/
inductive Use where
  /-- a new object -/
  | restart (pages : Txt → Option Gen)
  /-- a message with a URL is learned, unlearned or scored -/
  | message (l : Locks) (w : World) (proto url : Txt)

/-- Processes with one object each, and the files. -/
structure Slurpers (P B : Type) where
  procs : P → Slurper
  files : UrlFiles B

variable {P : Type} [DecidableEq P]

/-- One use by the process `p`. -/
def Slurpers.step (U : StrMore) (webPrefix : Txt) (C : UrlCodec B) (s : Slurpers P B) (e : P × Use) :
    Slurpers P B :=
  match e.2 with
  | .restart pages =>
    { s with procs := Function.update s.procs e.1 (.new pages (s.procs e.1).cache.net) }
  | .message l w proto url =>
    match (generate U webPrefix C l w proto url (s.procs e.1, s.files)).2 with
    | (o, f) => ⟨Function.update s.procs e.1 o, f⟩

/-- Uses one after another. -/
def Slurpers.run (U : StrMore) (webPrefix : Txt) (C : UrlCodec B) (s : Slurpers P B) (es : List (P × Use)) :
    Slurpers P B :=
  es.foldl (Slurpers.step U webPrefix C) s

end
end Sb.Slurp
