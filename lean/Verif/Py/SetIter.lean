import Verif.Py.Basic
import Mathlib.Data.List.Dedup

namespace Py

/-- One possible set iteration order, used in examples. -/
def SetIter.dedup {W : Type} [DecidableEq W] : SetIter W where
  order := List.dedup
  nodup := List.nodup_dedup
  mem _ _ := List.mem_dedup

/-- Another one: the reverse. -/
def SetIter.revDedup {W : Type} [DecidableEq W] : SetIter W where
  order ws := (List.dedup ws).reverse
  nodup ws := by simpa using List.nodup_dedup ws
  mem _ _ := by simp

end Py
