import Verif.Model.Tokenizer

/-
URLStripper with FANCY_URL_RECOGNITION (sbclassifier/strippers.py l.35-37, l.56-72,
l.222-243).  The option is read when the stripper is made, that is when tokenizer.py is
imported (l.1062).
-/

namespace Sb.Strip
open Py Py.Re Py.Text Sb.Mail Sb.Tokenize

/-- `(?= p[^\.\s<>"'\x7f-\xff] )`, strippers.py l.63-66. -/
def aheadName (p : List Nat) : Re := .test fun t i =>
  p.isPrefixOf (t.drop i) &&
    match t[i + p.length]? with
    | some c => isUrlChar c && c != 46
    | none => false

/-- `url_fancy_re`, strippers.py l.56-72:
`\b (?: (?: (https? | ftp) :// ) | (?= ftp\.x ) | (?= www\.x ) ) ([^\s<>"'\x7f-\xff]+)`. -/
def fancyRe : Re :=
  .cat [boundary,
    .alt (.cat [.grp 1 (.alt (.seq (.lit (txt "http")) (.opt (.lit [115]))) (.lit (txt "ftp"))),
        .lit (txt "://")])
      (.alt (aheadName (txt "ftp.")) (aheadName (txt "www."))),
    .grp 2 (.plus (.chr isUrlChar))]

/-- `URLStripper.tokenize`, strippers.py l.231-306: without a protocol,
`guts.lower().startswith("www")` (l.235) asks bytes for a str. -/
def fancyTokenize : List Nat → Match → Except Err (List Tok) := fun t m =>
  if m.groups.any (·.1 == 1) then urlTokenize t m else .error .typeError

/-- `URLStripper()` with the option, strippers.py l.222-230. -/
def fancyUrls : Stripper := ofRe fancyRe .eps fancyTokenize

/-- The tokens of a decoded text with the option, tokenizer.py l.1523-1559; see
`bodyBytes`. -/
def fancyBody (t : List Nat) : Gen :=
  match subStr numericRe t with
  | .error e => .raise e
  | .ok t =>
    let t := lower t
    (Gen.yield (virusTokens t)).andThen
      (crack uuencode t fun t => crack fancyUrls t fun t => crack style t fun t =>
        crack comment t fun t => crack noframes t finishBody)

end Sb.Strip
