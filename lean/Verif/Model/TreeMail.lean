import Verif.Model.TextMail
import Verif.Model.Multipart

/-
The tokens of a message with parts that was read from a text: what the tokenizer
(sbclassifier/tokenizer.py l.787-809, l.1127-1133) sees of the trees that
`from_string` (message.py l.160-164) makes.  As in `Letter`, what the email package makes
of the values of headers is a parameter.
-/

namespace Sb.Tokenize
open Py Py.Text Sb.Mail

/-- One part, with its body and its parts. -/
def nodeOf (E : Lib) (dec : Decoder) (d : Bool) (h : Headers) (body : Txt) (parts : Option (List Mime)) : Mime :=
  .part ((getOne h (txt "content-type")).map E.text) d
    (E.view (getOne h (txt "content-type")) (getOne h (txt "content-disposition")))
    (dec (getOne h (txt "content-transfer-encoding")) (getOne h (txt "content-type")) body)
    (E.blob (getOne h (txt "content-transfer-encoding")) (getOne h (txt "content-type"))) parts

/-- get_content_type() and get_boundary() as functions of the Content-Type header. -/
def mailTypes (U : Str) (E : Lib) (bound : Option HVal → Option Txt) : Types where
  ctype h d := Mime.contentType U (nodeOf E (fun _ _ _ => .none) d h [] none)
  boundary h := bound (getOne h (txt "content-type"))

mutual
/-- The parts of a message as the tokenizer sees them. -/
def treeMime (T : Types) (E : Lib) (dec : Decoder) (d : Bool) : Tree → Mime
  | .text h t => nodeOf E dec d h t none
  | .inner h m => nodeOf E dec d h [] (some [treeMime T E dec false m])
  | .uncut h t _ => nodeOf E dec d h t none
  | .cut h _ ms _ => nodeOf E dec d h [] (some (treeMimes T E dec (T.ctype h d == txt "multipart/digest") ms))
/-- All parts of a list. -/
def treeMimes (T : Types) (E : Lib) (dec : Decoder) (d : Bool) : List Tree → List Mime
  | [] => []
  | m :: ms => treeMime T E dec d m :: treeMimes T E dec d ms
end

/-- The headers of the message itself. -/
def headersOf : Tree → Headers
  | .text h _ => h
  | .inner h _ => h
  | .uncut h _ _ => h
  | .cut h _ _ _ => h

/-- `tokenize(msg)`, tokenizer.py l.1127-1133, with the default options.  `order`: the
text parts are in a set (l.792-795); these are their numbers in the order in which it is
visited. -/
def treeTokens (U : Str) (T : Types) (E : Lib) (dec : Decoder) (order : List Nat) (m : Tree) : Gen :=
  let root := treeMime T E dec false m
  Mime.tokenizeMessage U (headerView E (headersOf m)) root
    (order.filterMap fun i => (Mime.textparts U root)[i]?)

end Sb.Tokenize
