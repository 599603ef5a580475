import Verif.Model.Corpora

/-
Model of the text of a corpus (corpora/base.py l.249-253, corpora/filesystem.py l.67-73)
and of the observers shown in the documentation of class Corpus (base.py l.124-130).
-/

namespace Sb.Corpora
open Py Mail

/-- The class of a corpus, as far as its text is concerned: Corpus itself, or FileCorpus
and ExpiryFileCorpus. -/
inductive CorpusClass where
  | base
  | file
  deriving DecidableEq

/-- `str(corpus)`, `repr(corpus)` and `'{}'.format(corpus)`: Corpus raises
NotImplementedError (base.py l.249-253); FileCorpus reads its attribute `directory`
(filesystem.py l.73), which is an attribute of its cache (caches.py l.120). -/
def corpusStr : CorpusClass → Except Err Txt
  | .base => .error .notImplemented
  | .file => .error .attributeError

/-- The function `on_message_added` of the documentation, base.py l.124-126 (l.128-130 is
the same for removals): it prints one line. `str` is `str(message)`, the message's
`as_string`; the observers act on the lines printed. -/
def documented {ν R : Type} (cls : Corpus → CorpusClass) (str : ν → Except Err Txt) :
    R → Observer ν (List Txt) := fun _ c m out =>
  match str m with
  | .error e => (.error e, out)
  | .ok s =>
    match corpusStr (cls c) with
    | .error e => (.error e, out)
    | .ok t => (.ok (), out ++ [txt "Message " ++ s ++ txt " was added to corpus " ++ t])

end Sb.Corpora
