import Verif.Model.Desk
import Verif.Model.Message

/-
What a mail filter does with a message: `remove_sb_headers()`
(sbclassifier/message.py l.552-562), `spamprob(tokenizer(message), evidence=True)`
(sbclassifier/classifiers/basic.py l.212-278 on sbclassifier/tokenizer.py l.1127-1133) and
`add_sb_headers(prob, clues, …)` (message.py l.344-457).  The filter itself (sb_filter.py
and the like) is not part of the repository.
-/

namespace Sb.Tokenize
open Py Py.Text Sb.Mail Sb.Strip

/-- A word of the evidence, basic.py l.273-276, as add_sb_headers gets it. -/
def evidenceWord : EvWord Tok → Word
  | .S => .bytes (txt "*S*")
  | .H => .bytes (txt "*H*")
  | .word (.str t) => .str t
  | .word (.bytes b) => .bytes b

section
variable {σ K : Type} [Field K] [LinearOrder K]

/-- All that a filter is set up with. -/
structure Screen (K : Type) where
  /-- the arithmetic of the classifier -/
  ops : FloatOps K
  /-- its numbers as Python floats -/
  float : K → PyFloat
  /-- the formatting of numbers and words in headers -/
  fmt : Fmt
  /-- methods of str -/
  strs : StrMore
  /-- options of the tokenizer -/
  tokens : Opts
  /-- arguments of add_sb_headers -/
  marks : Sb.Mail.Opts

/-- What remains the same of a message when it is filtered: what the email package makes of
its values, and its parts. -/
structure Content where
  lib : Lib
  parts : Option (List Mime)

/-- The message as the tokenizer sees it. -/
def Content.with (b : Content) (h : Headers) : Envelope := ⟨b.lib, h, b.parts⟩

/-- A filter at work on a message: remove_sb_headers, spamprob, add_sb_headers.  The parts
are visited in the order `v`, the set of tokens in the order `it`. -/
def Screen.run (s : Screen K) (B : Backend σ Tok) (b : Content) (v : Visit) (it : SetIter Tok) :
    M (Msg × Clf σ K) Unit := fun (m, c) =>
  match removeSbHeaders true true m with
  | (.error e, m1) => (.error e, m1, c)
  | (.ok _, m1) =>
    match scoreGen s.ops B it ((b.with m1.headers).tokens s.strs s.tokens v) true c with
    | (.error e, c1) => (.error e, m1, c1)
    | (.ok (p, clues), c1) =>
      let r := addSbHeaders s.fmt (s.float p)
        ((clues.getD []).map fun x => (evidenceWord x.1, s.float x.2)) s.marks m1
      (r.1, r.2, c1)

end
end Sb.Tokenize
