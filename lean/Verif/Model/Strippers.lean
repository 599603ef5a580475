import Verif.Model.Email
import Verif.Py.Regex
import Verif.Py.Text

/-
Model of sbclassifier/strippers.py, with its options at their defaults
(FANCY_URL_RECOGNITION, X_PICK_APART_URLS and X_LOOKUP_IP are False).

Texts are bytes, as lists of byte values.  The regular expressions are transcribed
into the pattern language of Verif/Py/Regex.lean.
-/

namespace Sb.Strip
open Py Py.Re Py.Text Sb.Mail

/-- A token as the generators yield it: a str or bytes. -/
inductive Tok where
  | str (t : Txt)
  | bytes (b : List Nat)
  deriving DecidableEq, Repr

/-! ### Patterns -/

/-- `html_style_start_re`, strippers.py l.48-50: `< \s* style\b [^>]* >`. -/
def styleStartRe : Re :=
  .cat [.lit [60], .star (.chr isSpace), .lit (txt "style"), boundary, .star (.chr (· != 62)), .lit [62]]

/-- `re.compile(br"</style>")`, strippers.py l.310. -/
def styleEndRe : Re := .lit (txt "</style>")

/-- `urlsep_re`, strippers.py l.52: `[;?:@&=+,$.]`. -/
def isUrlSep (c : Nat) : Bool := (txt ";?:@&=+,$.").contains c

/-- `[^\s<>"'\x7f-\xff]`, strippers.py l.80. -/
def isUrlChar (c : Nat) : Bool :=
  !(isSpace c || c == 60 || c == 62 || c == 34 || c == 39 || 127 ≤ c)

/-- `url_re`, strippers.py l.74-81: `(https? | ftp) :// ([^\s<>"'\x7f-\xff]+)`. -/
def urlRe : Re :=
  .cat [.grp 1 (.alt (.seq (.lit (txt "http")) (.opt (.lit [115]))) (.lit (txt "ftp"))),
    .lit (txt "://"), .grp 2 (.plus (.chr isUrlChar))]

/-- `uuencode_begin_re`, strippers.py l.83-88:
`^begin \s+ (\S+) \s+ (\S+) \s* $` with MULTILINE. -/
def uuBeginRe : Re :=
  .cat [bol, .lit (txt "begin"), .plus (.chr isSpace), .grp 1 (.plus (.chr (fun c => !isSpace c))),
    .plus (.chr isSpace), .grp 2 (.plus (.chr (fun c => !isSpace c))), .star (.chr isSpace), eol]

/-- `uuencode_end_re`, strippers.py l.90: `^end\s*\n` with MULTILINE. -/
def uuEndRe : Re := .cat [bol, .lit (txt "end"), .star (.chr isSpace), .lit [10]]

/-- strippers.py l.313: `<!--|<\s*comment\s*[^>]*>`. -/
def commentStartRe : Re :=
  .alt (.lit (txt "<!--"))
    (.cat [.lit [60], .star (.chr isSpace), .lit (txt "comment"), .star (.chr isSpace),
      .star (.chr (· != 62)), .lit [62]])

/-- strippers.py l.314: `-->|</comment>`. -/
def commentEndRe : Re := .alt (.lit (txt "-->")) (.lit (txt "</comment>"))

/-- strippers.py l.318: `<\s*noframes\s*>`. -/
def noframesStartRe : Re :=
  .cat [.lit [60], .star (.chr isSpace), .lit (txt "noframes"), .star (.chr isSpace), .lit [62]]

/-- strippers.py l.319: `</noframes\s*>`. -/
def noframesEndRe : Re := .cat [.lit (txt "</noframes"), .star (.chr isSpace), .lit [62]]

/-! ### Class Stripper -/

/-- A Stripper object: `find_start`, `find_end` and the method `tokenize`, which gets
the match object and through it the text.  strippers.py l.149-171, l.199-201. -/
structure Stripper where
  findStart : List Nat → Nat → Option Match
  findEnd : List Nat → Nat → Option Match
  tokenize : List Nat → Match → Except Err (List Tok)

/-- The loop of `Stripper.analyze`, strippers.py l.182-197, from position i on.
`kept` is what the retained portions join to (the separator is empty, l.156); `none`
means that more than `n` rounds are needed. -/
def analyzeFrom (S : Stripper) (t : List Nat) :
    (n i : Nat) → (kept : List Nat) → (toks : List Tok) → Option (Except Err (List Nat × List Tok))
  | 0, _, _, _ => none
  | n + 1, i, kept, toks =>
    match S.findStart t i with
    | none => some (.ok (kept ++ t.drop i, toks))
    | some m =>
      match S.tokenize t m with
      | .error e => some (.error e)
      | .ok new =>
        match S.findEnd t m.stop with
        | none => some (.ok (kept ++ slice t i m.start ++ t.drop m.start, toks ++ new))
        | some m' => analyzeFrom S t n m'.stop (kept ++ slice t i m.start) (toks ++ new)

/-- `analyze` ends after at most n rounds with r. -/
def Ends (S : Stripper) (t : List Nat) (n : Nat) (r : Except Err (List Nat × List Tok)) : Prop :=
  analyzeFrom S t n 0 [] [] = some r

/-- `Stripper.analyze`, strippers.py l.177-197; `none` if it runs for ever (for the
strippers below it does not, and `|text| + 1` rounds are enough). -/
def analyze (S : Stripper) (t : List Nat) : Option (Except Err (List Nat × List Tok)) :=
  analyzeFrom S t (t.length + 1) 0 [] []

/-- `Stripper.tokenize`, strippers.py l.199-201. -/
def noTokens : List Nat → Match → Except Err (List Tok) := fun _ _ => .ok []

/-- A stripper given by two patterns. -/
def ofRe (a b : Re) (tok : List Nat → Match → Except Err (List Tok)) : Stripper :=
  ⟨search a, search b, tok⟩

/-- `UUencodeStripper.tokenize`, strippers.py l.216-219: `crack_filename` (l.97-98)
starts with `"fname:" + fname`, a str plus bytes. -/
def uuTokenize : List Nat → Match → Except Err (List Tok) := fun _ _ => .error .typeError

/-- `urlsep_re.split(piece)`, and the same for the other separators: the pieces
between the characters of a class. -/
def splitBy (p : Nat → Bool) : List Nat → List (List Nat)
  | [] => [[]]
  | x :: t =>
    if p x then [] :: splitBy p t
    else
      match splitBy p t with
      | [] => [[x]]
      | w :: ws => (x :: w) :: ws

/-- The last loop of `URLStripper.tokenize`, strippers.py l.303-305.  The line before
it (l.302) computes `guts.rstrip(…)` and discards the result. -/
def urlChunks (guts : List Nat) : List (List Nat) :=
  (splitOn 47 guts).flatMap (splitBy isUrlSep)

/-- `URLStripper.tokenize`, strippers.py l.231-306.  `urlRe` always sets both groups. -/
def urlTokenize : List Nat → Match → Except Err (List Tok) := fun t m =>
  .ok (.bytes (txt "proto:" ++ m.group t 1) ::
    (urlChunks (m.group t 2)).map (fun chunk => .bytes (txt "url:" ++ chunk)))

/-- `UUencodeStripper()`, strippers.py l.211-214. -/
def uuencode : Stripper := ofRe uuBeginRe uuEndRe uuTokenize
/-- `URLStripper()`, strippers.py l.222-230: the pattern for the end is empty. -/
def urls : Stripper := ofRe urlRe .eps urlTokenize
/-- `StyleStripper`, strippers.py l.309-310. -/
def style : Stripper := ofRe styleStartRe styleEndRe noTokens
/-- `CommentStripper`, strippers.py l.313-314. -/
def comment : Stripper := ofRe commentStartRe commentEndRe noTokens
/-- `NoframesStripper`, strippers.py l.318-319. -/
def noframes : Stripper := ofRe noframesStartRe noframesEndRe noTokens

end Sb.Strip
