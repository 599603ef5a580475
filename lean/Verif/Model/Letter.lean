import Verif.Model.Message
import Verif.Model.Mime

/-
What the tokenizer (sbclassifier/tokenizer.py l.1127-1423) asks a message, computed from
its list of headers: which headers it looks at.  How the standard library decodes the
values of headers is a parameter (`Lib`).  A header whose value is None is as good as
absent (parsed messages have none; message.py l.455 writes one under a name of its own).
-/

namespace Sb.Tokenize
open Py Py.Text Sb.Mail

/-- The functions of the email package that are applied to values of headers. -/
structure Lib where
  /-- decode_header; `none` if it raises one of the exceptions caught -/
  decode : HVal → Option (List (Chunk × Option Txt))
  /-- getaddresses -/
  addresses : List HVal → List AddrView
  /-- the addresses only -/
  recipients : List HVal → List Txt
  /-- str(value) -/
  text : HVal → Txt
  /-- the parameters of Content-Type, and Content-Disposition -/
  view : Option HVal → Option HVal → PartView
  /-- get_payload(decode=True), by Content-Transfer-Encoding and Content-Type -/
  payload : Option HVal → Option HVal → Payload
  blob : Option HVal → Option HVal → Blob
  /-- `mine_nntp` -/
  nntp : List HVal → Gen

/-- A value as the tokenizer gets it. -/
def toHVal : Stored → Option HVal
  | .none => none
  | .str t => some (.str t)
  | .header t => some (.header t)

/-- `msg.get(name)` -/
def getOne (h : Headers) (name : Txt) : Option HVal := toHVal (h.get name)

/-- `msg.get_all(name, [])` -/
def getAll (h : Headers) (name : Txt) : List HVal :=
  (h.filter (fun e => sameName e.1 name)).filterMap (fun e => toHVal (fetch e.2))

/-- The subject, tokenizer.py l.1222. -/
def getSubject (h : Headers) : HVal := (getOne h (txt "subject")).getD (.str [])

/-- The headers looked at by default, tokenizer.py l.1222-1423. -/
def headerView (E : Lib) (h : Headers) : HeaderView where
  subject := getSubject h
  subjectDecoded := E.decode (getSubject h)
  addresses f := if getAll h f = [] then none else some (E.addresses (getAll h f))
  toLines := getAll h (txt "to")
  ccLines := getAll h (txt "cc")
  mailer := getOne h (txt "x-mailer")
  msgid := getOne h (txt "message-id")
  names := h.map Prod.fst

/-- The headers looked at with options, tokenizer.py l.1166-1390. -/
def moreView (E : Lib) (h : Headers) : MoreView where
  items := h.filterMap (fun e => (toHVal (fetch e.2)).map (e.1, ·))
  get := getOne h
  recipients := E.recipients (getAll h (txt "to") ++ getAll h (txt "cc"))
  received := getAll h (txt "received")
  nntp := E.nntp (getAll h (txt "nntp-posting-host"))

/-- The message as the root of its tree of parts. -/
def rootPart (E : Lib) (h : Headers) (parts : Option (List Mime)) : Mime :=
  .part ((getOne h (txt "content-type")).map E.text) false
    (E.view (getOne h (txt "content-type")) (getOne h (txt "content-disposition")))
    (E.payload (getOne h (txt "content-transfer-encoding")) (getOne h (txt "content-type")))
    (E.blob (getOne h (txt "content-transfer-encoding")) (getOne h (txt "content-type"))) parts

end Sb.Tokenize
