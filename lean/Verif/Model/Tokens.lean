import Verif.Model.Classifier
import Mathlib.Data.String.Basic

namespace Sb

/-- BIGRAM_FORMAT = 'bi:{} {}' applied to str tokens, basic.py l.54. -/
instance : BigramFormat String := ⟨fun x y => "bi:" ++ x ++ " " ++ y⟩

end Sb
