import Verif.Model.Tokenizer
import Verif.Model.Options

/-
Messages with parts: `email.message.Message.walk`, `get_content_type` and
`get_content_maintype` of the standard library, and the selection of parts in
sbclassifier/tokenizer.py l.787-809.  How a text is parsed into parts is not modelled:
any tree of parts may occur.
-/

namespace Sb.Tokenize
open Py Py.Re Py.Text Sb.Mail Sb.Strip

/-- A message or a part of one. -/
inductive Mime where
  /-- `ctype`: `str(...)` of the first Content-Type header; `digest`: get_default_type()
  is message/rfc822 (in a multipart/digest) and not text/plain; `view`: the rest of what `crack_content_xyz` asks; `payload`: what get_payload gives
  unless it is a list; `blob`: the same as seen by the options for octet streams and
  images; `parts`: the payload if it is a list. -/
  | part (ctype : Option Txt) (digest : Bool) (view : PartView) (payload : Payload) (blob : Blob)
      (parts : Option (List Mime))

namespace Mime

/-- `str.strip()` with the whitespace of `U` -/
def trim (U : Str) (t : Txt) : Txt := ((t.dropWhile U.space).reverse.dropWhile U.space).reverse

/-- `get_content_type()`: the default type if there is no header; what is before the
first semicolon, without whitespace around it and in lower case; text/plain if that has
not exactly one slash. -/
def contentType (U : Str) : Mime → Txt
  | part none d _ _ _ _ => if d then txt "message/rfc822" else txt "text/plain"
  | part (some v) _ _ _ _ _ =>
    let c := U.lower (trim U (v.takeWhile (· != 59)))
    if c.count 47 ≠ 1 then txt "text/plain" else c

/-- `get_content_maintype()`: what is before the first slash -/
def mainType (U : Str) (m : Mime) : Txt := (contentType U m).takeWhile (· != 47)

mutual
/-- `walk()`: the message, then its parts from left to right, each with its own parts -/
def walk : Mime → List Mime
  | part c d v p b none => [part c d v p b none]
  | part c d v p b (some ms) => part c d v p b (some ms) :: walkAll ms
/-- `for subpart in self.get_payload(): yield from subpart.walk()` -/
def walkAll : List Mime → List Mime
  | [] => []
  | m :: r => walk m ++ walkAll r
end

/-- The message as `crack_content_xyz` sees it. -/
def viewOf (U : Str) : Mime → PartView
  | part c d v p b ms => { v with contentType := contentType U (part c d v p b ms) }

/-- `get_payload(decode=True)`, None if the payload is a list -/
def payloadOf : Mime → Payload
  | part _ _ _ p _ none => p
  | part _ _ _ _ _ (some _) => .none

/-- The same for octet streams and images. -/
def blobOf : Mime → Blob
  | part _ _ _ _ b none => b
  | part _ _ _ _ _ (some _) => .none

/-- `textparts`, tokenizer.py l.792-795, in the order of `walk()` -/
def textparts (U : Str) (m : Mime) : List Mime := (walk m).filter (fun p => mainType U p == txt "text")

/-- `octetparts`, tokenizer.py l.798-801, in the order of `walk()` -/
def octetparts (U : Str) (m : Mime) : List Mime :=
  (walk m).filter (fun p => contentType U p == txt "application/octet-stream")

/-- `imageparts`, tokenizer.py l.804-809 -/
def imageparts (U : Str) (m : Mime) : List Mime :=
  (walk m).filter (fun p => (txt "image/").isPrefixOf (contentType U p))

/-- `Tokenizer.__call__`, tokenizer.py l.1127-1133, with the default options.  `texts`
are the members of the set of text parts in the order in which it is visited. -/
def tokenizeMessage (U : Str) (h : HeaderView) (m : Mime) (texts : List Mime) : Gen :=
  tokenize U ((walk m).map (viewOf U)) h (texts.map payloadOf)

/-- The same with options, tokenizer.py l.1127-1133. -/
def callMessage (U : StrMore) (o : Opts) (h : HeaderView) (x : MoreView) (m : Mime)
    (octets texts : List Mime) : Gen :=
  callWith U o false false ((walk m).map (viewOf U.toStr)) h x (octets.map blobOf)
    ((imageparts U.toStr m).map blobOf) (texts.map payloadOf)

end Mime
end Sb.Tokenize
