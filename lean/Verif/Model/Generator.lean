import Verif.Model.Message

/-
`Message.as_string` (sbclassifier/message.py l.269-284) and what it uses of the standard
library's `email.generator.Generator`: the choice of a handler by the content type, the
handlers, and the order in which headers and body are written.  Parameters are the text of
each header after folding, the boundary of a multipart message (chosen at random if there
is none) and the `From ` line.  A payload with surrogate escapes and a charset is seen as
it is after Generator has encoded it anew; parts are objects of the class Message, as
the parser makes them (`_class=Message`, message.py l.156, l.162).
-/

namespace Sb.Mail
open Py

/-- What get_payload() returns. -/
inductive Cargo (α : Type) where
  | none
  | str (t : Txt)
  /-- a bytes object -/
  | octets (b : List Nat)
  | parts (l : List α)

/-- A message or a part of one as Generator sees it. -/
inductive Doc where
  /-- `ctype`: get_content_type(); `folded`: the text of each header, folded; `wide`: the
  same without folding; `unixFrom`: get_unixfrom() or `From nobody ...`. -/
  | doc (ctype : Txt) (folded wide : List Txt) (unixFrom : Txt) (preamble epilogue : Option Txt)
      (boundary : Txt) (payload : Cargo Doc)

/-- The methods of Generator whose names begin with `_handle_`. -/
inductive Handler where
  | text
  | multipart (signed : Bool)
  | deliveryStatus
  | message
  deriving DecidableEq

/-- `s.replace('-', '_')` -/
def underscores (t : Txt) : Txt := t.map fun c => if c = 45 then 95 else c

/-- `getattr(self, '_handle_' + name, None)` -/
def handlerNamed (name : Txt) : Option Handler :=
  if name = txt "text" then some .text
  else if name = txt "multipart" then some (.multipart false)
  else if name = txt "multipart_signed" then some (.multipart true)
  else if name = txt "message_delivery_status" then some .deliveryStatus
  else if name = txt "message" then some .message
  else none

/-- `Generator._dispatch`: first `<maintype>_<subtype>`, then `<maintype>`, else the
handler for text. -/
def handlerOf (ctype : Txt) : Handler :=
  let main := ctype.takeWhile (· != 47)
  let sub := (ctype.dropWhile (· != 47)).drop 1
  match handlerNamed (underscores (main ++ 95 :: sub)) with
  | some h => h
  | none => (handlerNamed (underscores main)).getD .text

/-- `fcre.sub('>From ', payload)` with `fcre = re.compile(r'^From ', re.MULTILINE)`: a
line starts at the beginning and after a newline character. -/
def mangleFrom (start : Bool) : Txt → Txt
  | [] => []
  | c :: r =>
    if start && (txt "From ").isPrefixOf (c :: r) then 62 :: c :: mangleFrom (c == 10) r
    else c :: mangleFrom (c == 10) r

/-- `_write_lines`: CR LF, CR and LF become LF. -/
def toLf : Txt → Txt
  | [] => []
  | 13 :: 10 :: r => 10 :: toLf r
  | c :: r => if c = 13 then 10 :: toLf r else c :: toLf r

/-- `_write_lines(fcre.sub('>From ', text))`, or without the substitution -/
def written (mangle : Bool) (t : Txt) : Txt := toLf (if mangle then mangleFrom true t else t)

/-- `'\n'.join(texts)` -/
def joinLf : List Txt → Txt
  | [] => []
  | [a] => a
  | a :: b :: r => a ++ 10 :: joinLf (b :: r)

/-- The text without the newline at its end, if it has one (`lines[:-1]` joined again). -/
def chop (t : Txt) : Txt := if t.getLast? = some 10 then t.dropLast else t

/-- The end of `_handle_multipart`: preamble, parts between boundaries, epilogue. -/
def assemble (mangle : Bool) (preamble epilogue : Option Txt) (boundary : Txt) (texts : List Txt) :
    Txt :=
  (match preamble with | some p => written mangle p ++ [10] | none => []) ++
  45 :: 45 :: boundary ++ 10 ::
  (match texts with
    | [] => []
    | t :: ts => t ++ ts.flatMap (fun u => 10 :: 45 :: 45 :: boundary ++ 10 :: u)) ++
  10 :: 45 :: 45 :: boundary ++ 45 :: 45 :: 10 ::
  (match epilogue with | some e => written mangle e | none => [])

mutual
/-- The handlers: the text of the body.  `wide`: headers of parts are not folded. -/
def bodyOf (mangle wide : Bool) : Doc → Except Err Txt
  | .doc ctype _ _ _ pre epi boundary payload =>
    match handlerOf ctype, payload with
    | .text, .none => .ok []
    | .text, .str t => .ok (written mangle t)
    | .text, .octets _ => .error .typeError
    | .text, .parts _ => .error .typeError
    | .multipart _, .none => .ok (assemble mangle pre epi boundary [])
    | .multipart _, .str t => .ok t
    | .multipart _, .octets _ => .error .attributeError
    | .multipart s, .parts ds =>
      match flattenAll mangle (wide || s) ds with
      | .ok ts => .ok (assemble mangle pre epi boundary ts)
      | .error e => .error e
    | .deliveryStatus, .none => .error .typeError
    | .deliveryStatus, .str t => if t = [] then .ok [] else .error .attributeError
    | .deliveryStatus, .octets b => if b = [] then .ok [] else .error .attributeError
    | .deliveryStatus, .parts ds =>
      match flattenAll mangle wide ds with
      | .ok ts => .ok (joinLf (ts.map chop))
      | .error e => .error e
    | .message, .none => .error .typeError
    | .message, .str t => .ok t
    | .message, .octets _ => .error .typeError
    | .message, .parts [] => .error .indexError
    | .message, .parts (d :: _) => flatten mangle wide d
/-- `Generator._write`: the headers, an empty line, the body. -/
def flatten (mangle wide : Bool) : Doc → Except Err Txt
  | .doc ctype folded unfolded uf pre epi boundary payload =>
    match bodyOf mangle wide (.doc ctype folded unfolded uf pre epi boundary payload) with
    | .ok b => .ok ((if wide then unfolded else folded).flatten ++ 10 :: b)
    | .error e => .error e
/-- `g.flatten(part, unixfrom=False, ...)` for every part -/
def flattenAll (mangle wide : Bool) : List Doc → Except Err (List Txt)
  | [] => .ok []
  | d :: ds =>
    match flatten mangle wide d with
    | .ok t =>
      match flattenAll mangle wide ds with
      | .ok ts => .ok (t :: ts)
      | .error e => .error e
    | .error e => .error e
end

/-- `g.flatten(self, unixfrom)`, message.py l.278. -/
def generate (unixfrom mangle : Bool) : Doc → Except Err Txt
  | .doc ctype folded unfolded uf pre epi boundary payload =>
    match flatten mangle false (.doc ctype folded unfolded uf pre epi boundary payload) with
    | .ok t => .ok ((if unixfrom then uf ++ [10] else []) ++ t)
    | .error e => .error e

mutual
/-- `as_string(unixfrom, mangle_from_)`, message.py l.269-284. -/
def asString (unixfrom mangle : Bool) : Doc → Except Err Txt
  | .doc ctype folded unfolded uf pre epi boundary payload =>
    match generate unixfrom mangle (.doc ctype folded unfolded uf pre epi boundary payload) with
    | .ok t => .ok (forceCrlf t)
    | .error .typeError =>
      match payload with
      | .none => .error .typeError
      | .str t => if t = [] then .ok [] else .error .attributeError
      | .octets b => if b = [] then .ok [] else .error .attributeError
      | .parts ds =>
        match asStrings unixfrom ds with
        | .ok ts => .ok (forceCrlf (joinLf ts))
        | .error e => .error e
    | .error e => .error e
/-- The loop of message.py l.282-283: `mangle_from_` is not handed on. -/
def asStrings (unixfrom : Bool) : List Doc → Except Err (List Txt)
  | [] => .ok []
  | d :: ds =>
    match asString unixfrom true d with
    | .ok t =>
      match asStrings unixfrom ds with
      | .ok ts => .ok (t :: ts)
      | .error e => .error e
    | .error e => .error e
end

end Sb.Mail
