import Verif.Model.Fancy
import Verif.Model.Options

/-
SlurpingURLStripper, sbclassifier/classifiers/slurping.py l.131-159: the URLStripper that
is to note the URL for `_generate_slurp` (l.199-226) in the module's `slurp_wordstream` (l.102).
-/

namespace Sb.Slurp
open Py Py.Re Py.Text Sb.Mail Sb.Strip

/-- A value of `slurp_wordstream`, l.102: None, or a protocol and the rest of a URL. -/
abbrev SlurpVar := Option (List Nat × List Nat)

/-- What `URLStripper` object the class extends: strippers.py l.224-228 and the options. -/
inductive UrlKind where
  | plain
  | fancy
  | options (o : Tokenize.Opts)

/-- `URLStripper()`, strippers.py l.222-306 -/
def UrlKind.stripper : UrlKind → Stripper
  | .plain => urls
  | .fancy => fancyUrls
  | .options o => Tokenize.urlsWith o

/-- A value of `proto`, l.149: bytes, or None (with FANCY_URL_RECOGNITION). -/
def protoOf (t : List Nat) (m : Match) : Option (List Nat) :=
  if m.groups.any (·.1 == 1) then some (m.group t 1) else none

/-- `proto != "http"`, l.150: bytes and None are different from every str. -/
def isNotHttp : Option (List Nat) → Bool := fun _ => true

/-- `while guts and guts[-1] in '.:;?!/)'`, l.154-155.  `guts[-1]` is an int, and
`int in str` is a TypeError. -/
def cutGuts : List Nat → Except Err (List Nat)
  | [] => .ok []
  | _ :: _ => .error .typeError

/-- `SlurpingURLStripper.tokenize`, l.143-158.  The second component is the value that the name
`slurp_wordstream` has in the function at its end, if it has one: a local variable (l.157; there is no
`global` statement). -/
def slurpTokenize (S : Stripper) (t : List Nat) (m : Match) : Except Err (List Tok × SlurpVar) :=
  match S.tokenize t m with
  | .error e => .error e
  | .ok toks =>
    if isNotHttp (protoOf t m) then .ok (toks, none)
    else
      match cutGuts (m.group t 2) with
      | .error e => .error e
      | .ok guts => .ok (toks, some ((protoOf t m).getD [], guts))

/-- `SlurpingURLStripper()`: strippers.py l.177-197 calls the method above, and its local
variable is gone when it returns. -/
def slurpStripper (S : Stripper) : Stripper :=
  ⟨S.findStart, S.findEnd, fun t m => (slurpTokenize S t m).map (·.1)⟩

/-- `SlurpingURLStripper.analyze`, l.135-141, with the module's variable before and after:
l.139 assigns a local variable too. -/
def slurpAnalyze (k : UrlKind) (t : List Nat) : SlurpVar → Option (Except Err (List Nat × List Tok)) × SlurpVar :=
  fun noted => (analyze (slurpStripper k.stripper) t, noted)

/-- One text after the other. -/
def slurpAll (k : UrlKind) (texts : List (List Nat)) (noted : SlurpVar) : SlurpVar :=
  texts.foldl (fun n t => (slurpAnalyze k t n).2) noted

end Sb.Slurp
