import Verif.Model.Slurping
import Verif.Model.Mixed
import Verif.Model.Options

/-
`SlurpingClassifier.slurp`, sbclassifier/classifiers/slurping.py l.266-360: the tokens of a
web page.  The network is a parameter: what getaddrinfo and requests.get do at a call.
Which pages are in the corpus of cached pages is a parameter too, as are the tokens of a
cached page (`as_string`, `message_from_string` and `tokenize`, l.353-358).
-/

namespace Sb.Slurp
open Py Py.Text Sb.Mail Sb.Net Sb.Strip Sb.Tokenize

/-- What a call of `requests.get` does, slurping.py l.327-330. -/
inductive Fetched where
  /-- an exception of class RequestException, and its text -/
  | failed (text : Txt)
  /-- another exception -/
  | raised (e : Err)
  /-- a response, and its header Content-Type -/
  | page (ctype : Option Txt)

/-- The network at the time of a call. -/
structure World where
  /-- `socket.getaddrinfo(domain, port)`; the port is 80 or a text -/
  resolve : Txt → Option Txt → Option Err
  fetch : Txt → Fetched

/-- A use of the network. -/
inductive Op where
  | resolve (domain : Txt) (port : Option Txt)
  | request (url : Txt)
  deriving DecidableEq

/-- The attributes `bad_urls`, `http_error_urls` and `urlCorpus`, and the uses of the
network so far. -/
structure Cache where
  /-- a dictionary of tuples, in its order -/
  bad : List (Txt × List Txt)
  http : Dict Txt Txt
  pages : Txt → Option Gen
  net : List Op

/-- What `slurp` returns: a list of tokens, or a str. -/
inductive Slurped where
  | list (ts : List Tok)
  | str (t : Txt)
  deriving DecidableEq

/-- Its items, as `itertools.chain` (slurping.py l.190, l.196) and `list` (l.177) take them. -/
def Slurped.items : Slurped → List Tok
  | .list ts => ts
  | .str t => t.map (fun c => .str [c])

/-- The look at `bad_urls`, slurping.py l.289-291. -/
def knownBad (bad : List (Txt × List Txt)) (url : Txt) : Option Txt :=
  (bad.find? (fun e => e.2.contains url)).map Prod.fst

/-- `self.bad_urls[name] += (url,)`, slurping.py l.305, l.319, l.335, l.342. -/
def addBad (name url : Txt) : M Cache Unit := fun c =>
  if c.bad.any (fun e => e.1 = name) then
    (.ok (), { c with bad := c.bad.map (fun e => if e.1 = name then (e.1, e.2 ++ [url]) else e) })
  else (.error .keyError, c)

/-- `DOMAIN_AND_PORT_RE.match(url)`, slurping.py l.28, l.296: groups 1 and 3. -/
def domainPort (digit : Nat → Bool) (url : Txt) : Option (Txt × Option Txt) :=
  let stop := fun c : Nat => c = 58 || c = 47 || c = 92
  match url.takeWhile (fun c => !stop c) with
  | [] => none
  | d =>
    match url.dropWhile (fun c => !stop c) with
    | 58 :: r => if r.takeWhile digit = [] then some (d, none) else some (d, some (r.takeWhile digit))
    | _ => some (d, none)

/-- `URL_KEY_RE.sub('_', url)`, slurping.py l.30, l.310. -/
def urlKey (word : Nat → Bool) (url : Txt) : Txt := url.map (fun c => if word c then c else 95)

/-- `HTTP_ERROR_RE.match(text)`, slurping.py l.29, l.331: group 1. -/
def httpError (digit : Nat → Bool) (text : Txt) : Option Txt :=
  if (txt "HTTP Error ").isPrefixOf text then
    match (text.drop 11).takeWhile digit with
    | [] => none
    | n => some n
  else none

/-- The endings of slurping.py l.318. -/
def notHtmlNames : List Txt := [txt "jpg", txt "gif", txt "png", txt "css", txt "js"]

/-- Remember a URL, and return the kind as the only token. -/
def giveUp (name url : Txt) : M Cache Slurped := do
  addBad name url
  pure (.list [.str name])

/-- The page is asked for, slurping.py l.322-351.  `makeMessage` (l.349) is no method of a
corpus. -/
def request (U : StrMore) (w : World) (proto url : Txt) : M Cache Slurped := do
  let full := proto ++ txt "://" ++ url
  M.modify (fun c => { c with net := c.net ++ [.request full] })
  match w.fetch full with
  | .raised e => M.raise e
  | .failed text =>
    match httpError U.digit text with
    | some n =>
      M.modify (fun c => { c with http := c.http.set url (txt "url:http_" ++ n) })
      pure (.list [.str (txt "url:http_" ++ n)])
    | none => giveUp (txt "url:unknown_error") url
  | .page none => giveUp (txt "url:non_html") url
  | .page (some ct) =>
    if (txt "text/html").isPrefixOf ct then M.raise .attributeError
    else giveUp (txt "url:non_html") url

/-- From the cache or from the network, slurping.py l.308-360. -/
def retrieve (U : StrMore) (w : World) (webPrefix proto url : Txt) : M Cache Slurped := do
  match (← M.get).pages (urlKey U.word url) with
  | some g =>
    match g.stop with
    | some e => M.raise e
    | none => pure (.list (g.toks.map (fun t => .str (webPrefix ++ showWord t))))
  | none =>
    if ((splitOn 46 url).getLast?.getD []) ∈ notHtmlNames then giveUp (txt "url:non_html") url
    else request U w proto url

/-- Does the name resolve?  slurping.py l.295-306 -/
def resolve (U : StrMore) (w : World) (webPrefix proto url : Txt) : M Cache Slurped := do
  match domainPort U.digit url with
  | none => M.raise .attributeError
  | some (d, p) =>
    M.modify (fun c => { c with net := c.net ++ [.resolve d p] })
    match w.resolve d p with
    | some .osError => giveUp (txt "url:non_resolving") url
    | some e => M.raise e
    | none => retrieve U w webPrefix proto url

/-- `slurp`, slurping.py l.266-360.  `onlyBase` is X_ONLY_SLURP_BASE: `base_url` (called in l.286) has
two parameters and is called with one. -/
def slurp (U : StrMore) (onlyBase : Bool) (webPrefix : Txt) (w : World) (proto url : Txt) :
    M Cache Slurped := do
  if url = [] then pure (.list [.str (txt "url:non_resolving")])
  else if onlyBase then M.raise .typeError
  else
    let c ← M.get
    match knownBad c.bad url with
    | some err => pure (.list [.str err])
    | none =>
      match c.http.get? url with
      | some t => pure (.str t)
      | none => resolve U w webPrefix proto url

/-- Calls one after another, each with the network of its time. -/
def slurps (U : StrMore) (onlyBase : Bool) (webPrefix : Txt) (c : Cache) (calls : List (World × Txt × Txt)) :
    Cache :=
  calls.foldl (fun c x => (slurp U onlyBase webPrefix x.1 x.2.1 x.2.2 c).2) c

end Sb.Slurp
