import Verif.Model.Fields

/-
Messages with parts as they are read and written: `email.feedparser.FeedParser._parsegen`
and `BufferedSubFile` of the standard library, which `message_from_string` and
`message_from_bytes` (sbclassifier/message.py l.156, l.162) use, and `as_string`
(message.py l.269-284) for a message with all its parts.  Left out are
message/delivery-status, whose blocks are read in another way, and the `From ` line a part
can begin with.  Parameters are get_content_type() and get_boundary() as functions of the
headers.
-/

namespace Sb.Mail
open Py

/-- What the email package says about headers: get_content_type() (the flag says that the
default type is message/rfc822) and get_boundary(). -/
structure Types where
  ctype : Headers → Bool → Txt
  boundary : Headers → Option Txt

/-- How `_parsegen` goes on after the headers. -/
inductive BodyKind where
  | text
  | message
  | multipart (boundary : Option Txt) (digest : Bool)

/-- The choice by get_content_maintype(), and `multipart/digest` in `_new_message`. -/
def Types.kind (T : Types) (hs : Headers) (d : Bool) : BodyKind :=
  let c := T.ctype hs d
  let main := c.takeWhile (· != 47)
  if main = txt "message" then .message
  else if main = txt "multipart" then .multipart (T.boundary hs) (c == txt "multipart/digest")
  else .text

/-- A message or a part of one. -/
inductive Tree where
  | text (hs : Headers) (payload : Txt)
  /-- message/*: the payload is a list of one message -/
  | inner (hs : Headers) (m : Tree)
  /-- multipart/* with a text as its payload -/
  | uncut (hs : Headers) (payload : Txt) (epilogue : Option Txt)
  | cut (hs : Headers) (preamble : Option Txt) (parts : List Tree) (epilogue : Option Txt)

/-! ### Reading -/

/-- `boundaryre.match(line)` with the pattern
`--boundary(--)?[ \t]*(\r\n|\r|\n)?$`: whether it is the last boundary. -/
def sepOf (b l : Txt) : Option Bool :=
  if (45 :: 45 :: b).isPrefixOf l then
    let r := l.drop (b.length + 2)
    let fin := (txt "--").isPrefixOf r
    let r := (if fin then r.drop 2 else r).dropWhile isBlank
    if r = [] ∨ r = [10] ∨ r = [13] ∨ r = [13, 10] then some fin else none
  else none

/-- The lines before the first boundary, and those after it unless there is none or it is
the last boundary of the message. -/
def preambleOf (b : Txt) : List Txt → List Txt × Option (List Txt)
  | [] => ([], none)
  | l :: r =>
    match sepOf b l with
    | none => (l :: (preambleOf b r).1, (preambleOf b r).2)
    | some true => ([], none)
    | some false => ([], some r)

/-- The line is added to the first part. -/
def addFirst (l : Txt) : List (List Txt) → List (List Txt)
  | [] => [[l]]
  | s :: ss => (l :: s) :: ss

/-- The lines of each part, and those after the last boundary.  `fresh`: directly after a
boundary; further boundaries there are skipped, the last one too. -/
def segments (b : Txt) : (fresh : Bool) → List Txt → List (List Txt) × Option (List Txt)
  | _, [] => ([[]], none)
  | fresh, l :: r =>
    match sepOf b l with
    | none => (addFirst l (segments b false r).1, (segments b false r).2)
    | some last =>
      if fresh then segments b true r
      else if last then ([[]], some r)
      else ([] :: (segments b true r).1, (segments b true r).2)

/-- The last newline of the epilogue belongs to the boundary after it. -/
def trimEpilogue : Option Txt → Option Txt
  | none => none
  | some e => if e = [] then none else some (cutEnd e)

/-- The newline before a boundary is taken away from the message that was read last. -/
def trimLast : Tree → Tree
  | .text hs t => .text hs (cutEnd t)
  | .inner hs m => .inner hs (trimLast m)
  | .uncut hs t e => .uncut hs t (trimEpilogue e)
  | .cut hs p ms e => .cut hs p ms (trimEpilogue e)

/-- `_parsegen`; the number bounds the depth.  A part is read as if the lines up to the
next boundary were all there is (`push_eof_matcher`). -/
def readTree (T : Types) : Nat → Bool → List Txt → Tree
  | 0, _, ls => .text [] ls.flatten
  | n + 1, d, ls =>
    let f := parseFields true [] (takeHeaders ls).1
    let rest := f.back ++ (takeHeaders ls).2
    match T.kind f.headers d with
    | .text => .text f.headers rest.flatten
    | .message => .inner f.headers (readTree T n false rest)
    | .multipart none _ => .uncut f.headers rest.flatten none
    | .multipart (some b) dg =>
      match preambleOf b rest with
      | (p, none) => .uncut f.headers p.flatten (some [])
      | (p, some r) =>
        .cut f.headers (if p = [] then none else some (p.dropLast.flatten ++ cutEnd (p.getLastD [])))
          ((segments b true r).1.map fun s => trimLast (readTree T n dg s))
          ((segments b true r).2.map List.flatten)

/-- `message_from_string(text)`: message.py l.160-164.  Every part, and every message
that is read after the headers of another one, has fewer lines or another default type. -/
def readMail (T : Types) (t : Txt) : Tree :=
  readTree T (2 * (readLines t).length + 2) false (readLines t)

/-! ### Writing -/

/-- The printer for the parts of a message of this type: `_handle_multipart_signed` uses
a policy without a limit for the length of lines. -/
def Printer.inside (P : Printer) (ctype : Txt) : Printer :=
  match handlerOf ctype with
  | .multipart true => { P with wide := true }
  | _ => P

mutual
/-- The message as Generator sees it.  `d`: its default type is message/rfc822.  The
headers are folded as the printer says, so that it does not matter which of the two lists
of headers is used. -/
def Printer.docOf (P : Printer) (T : Types) (d : Bool) : Tree → Except Err Doc
  | .text hs t =>
    match P.foldAll hs with
    | .ok f => .ok (.doc (T.ctype hs d) f f [] none none [] (.str t))
    | .error e => .error e
  | .inner hs m =>
    match P.docOf T false m with
    | .ok x =>
      match P.foldAll hs with
      | .ok f => .ok (.doc (T.ctype hs d) f f [] none none [] (.parts [x]))
      | .error e => .error e
    | .error e => .error e
  | .uncut hs t epi =>
    match P.foldAll hs with
    | .ok f => .ok (.doc (T.ctype hs d) f f [] none epi ((T.boundary hs).getD []) (.str t))
    | .error e => .error e
  | .cut hs pre ms epi =>
    match (P.inside (T.ctype hs d)).docsOf T (T.ctype hs d == txt "multipart/digest") ms with
    | .ok xs =>
      match P.foldAll hs with
      | .ok f => .ok (.doc (T.ctype hs d) f f [] pre epi ((T.boundary hs).getD []) (.parts xs))
      | .error e => .error e
    | .error e => .error e
/-- All parts. -/
def Printer.docsOf (P : Printer) (T : Types) (d : Bool) : List Tree → Except Err (List Doc)
  | [] => .ok []
  | m :: ms =>
    match P.docOf T d m with
    | .ok x =>
      match P.docsOf T d ms with
      | .ok xs => .ok (x :: xs)
      | .error e => .error e
    | .error e => .error e
end

/-- `as_string(False, mangle_from_)` of a message with all its parts, if the exceptions
that headers can raise are raised first. -/
def Printer.writeTree (P : Printer) (T : Types) (mangle : Bool) (m : Tree) : Except Err Txt :=
  match P.docOf T false m with
  | .ok x => Mail.asString false mangle x
  | .error e => .error e

end Sb.Mail
