import Verif.Model.Letter
import Verif.Model.Mixed
import Verif.Model.Trainer

/-
Training and scoring with messages: `classifier.learn(tokenizer(message), is_spam)` and
the like, that is sbclassifier/tokenizer.py l.1127-1133 feeding
sbclassifier/classifiers/basic.py l.212-321.
-/

namespace Sb.Tokenize
open Py Py.Text Sb.Mail Sb.Strip
open Sb.Corpora (learnRaising unlearnRaising)

/-- A message: its headers, its parts, and what the email package makes of its values. -/
structure Envelope where
  lib : Lib
  headers : Headers
  parts : Option (List Mime)

/-- The root of the tree of parts. -/
def Envelope.root (e : Envelope) : Mime := rootPart e.lib e.headers e.parts

/-- The orders in which the two sets of parts are visited (tokenizer.py l.794, l.800: sets
of objects without an order of their own). -/
structure Visit where
  octets : List Mime
  texts : List Mime

/-- `tokenizer(message)`, tokenizer.py l.1127-1133 -/
def Envelope.tokens (U : StrMore) (o : Opts) (e : Envelope) (v : Visit) : Gen :=
  Mime.callMessage U o (headerView e.lib e.headers) (moreView e.lib e.headers) e.root v.octets v.texts

section
variable {σ K : Type}

/-- `learn` of a generator, basic.py l.296-308 -/
def learnGen (B : Backend σ Tok) (it : SetIter Tok) (g : Gen) (isSpam : Bool) : M (Clf σ K) Unit :=
  match g.stop with
  | none => learn B it (.iterator g.toks) isSpam
  | some e => learnRaising e isSpam

/-- `unlearn` of a generator, basic.py l.310-321 -/
def unlearnGen (B : Backend σ Tok) (it : SetIter Tok) (g : Gen) (isSpam : Bool) : M (Clf σ K) Unit :=
  match g.stop with
  | none => unlearn B it (.iterator g.toks) isSpam
  | some e => unlearnRaising e isSpam

variable [Field K] [LinearOrder K] (F : FloatOps K)

/-- `spamprob`, basic.py l.212-278, of a wordstream that gives `ws` and then raises `e`.  With
bigrams the words before the exception are looked up, and their probabilities cached
(l.529-540); else `set(wordstream)` (l.569) raises before any word is looked up. -/
def scoreRaising {W α : Type} [DecidableEq W] [BigramFormat W] (B : Backend σ W) (ws : List W) (e : Err) :
    M (Clf σ K) α := do
  match (← M.get).useBigrams with
  | none => M.raise .attributeError
  | some true => do
    let _ ← fillRaw F B 0 none ws [] []
    M.raise e
  | some false => M.raise e

/-- `spamprob` of a generator, basic.py l.212-278. -/
def scoreGen (B : Backend σ Tok) (it : SetIter Tok) (g : Gen) (ev : Bool) :
    M (Clf σ K) (K × Option (List (EvWord Tok × K))) :=
  match g.stop with
  | none => spamprob F B it (.iterator g.toks) ev
  | some e => scoreRaising F B g.toks e

/-- What a mail client does with messages. -/
inductive Step where
  | learn (e : Envelope) (v : Visit) (it : SetIter Tok) (isSpam : Bool)
  | unlearn (e : Envelope) (v : Visit) (it : SetIter Tok) (isSpam : Bool)
  | score (e : Envelope) (v : Visit) (it : SetIter Tok) (evidence : Bool)

/-- One step; exceptions are caught by the client. -/
def Step.run (B : Backend σ Tok) (U : StrMore) (o : Opts) (c : Clf σ K) : Step → Clf σ K
  | .learn e v it b => (learnGen B it (e.tokens U o v) b c).2
  | .unlearn e v it b => (unlearnGen B it (e.tokens U o v) b c).2
  | .score e v it ev => (scoreGen F B it (e.tokens U o v) ev c).2

/-- All steps of a session. -/
def desk (B : Backend σ Tok) (U : StrMore) (o : Opts) (c : Clf σ K) (steps : List Step) : Clf σ K :=
  steps.foldl (Step.run F B U o) c

end
end Sb.Tokenize
