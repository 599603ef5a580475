import Verif.Model.Letter
import Verif.Model.Fields

/-
The tokens of a message that was read from a text, if it has no parts.
-/

namespace Sb.Tokenize
open Py Py.Text Sb.Mail

/-- `get_payload(decode=True)` of a text, by Content-Transfer-Encoding and Content-Type. -/
abbrev Decoder := Option HVal → Option HVal → Txt → Payload

/-- `tokenize(msg)`, tokenizer.py l.1127-1133, with the default options, where `msg` was
read from a text (`from_string`, message.py l.160-164, and `readMessage`) and is not a
multipart message.  What is decoded is the body that was read. -/
def mailTokens (U : Str) (E : Lib) (dec : Decoder) (r : Reading) : Gen :=
  let E' : Lib := { E with payload := fun cte ct => dec cte ct r.body }
  Mime.tokenizeMessage U (headerView E' r.headers) (rootPart E' r.headers none)
    (Mime.textparts U (rootPart E' r.headers none))

end Sb.Tokenize
