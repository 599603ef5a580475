import Mathlib.Algebra.Order.Field.Basic
import Mathlib.Algebra.Order.Ring.Int
import Mathlib.Tactic.Linarith

/-
Floating-point arithmetic as used by sbclassifier/classifiers/basic.py.

Every arithmetic operation of the scoring code is modelled as the exact
operation over a linearly ordered field followed by a rounding function `rnd`.
`FloatOps` is the data, `FloatOps.Sound` the properties of the platform that
the theorems may use.  Theorems about bounds hold for every sound platform;
theorems about exact values are about the platform with `rnd = id`.
Overflow to infinity and NaN are not modelled.
-/

namespace Sb

/-- A floating-point platform over `K`. -/
structure FloatOps (K : Type*) where
  /-- rounding to a representable number -/
  rnd : K → K
  /-- `math.exp` -/
  exp : K → K
  /-- `math.log` on positive arguments (others raise ValueError, see the callers) -/
  log : K → K
  /-- `math.frexp` -/
  frexp : K → K × Int
  /-- the constant `LN2 = math.log(2)`, basic.py l.46-49 -/
  ln2 : K

namespace FloatOps
variable {K : Type*} [Field K] [LinearOrder K] (F : FloatOps K)

/-- `a + b` -/
def add (a b : K) : K := F.rnd (a + b)
/-- `a - b` -/
def sub (a b : K) : K := F.rnd (a - b)
/-- `a * b` -/
def mul (a b : K) : K := F.rnd (a * b)
/-- `a / b` for `b ≠ 0` (the callers treat `b = 0`) -/
def div (a b : K) : K := F.rnd (a / b)

/-- What a platform must satisfy.  `rnd` is a monotone projection that keeps
the constants written in the code which IEEE doubles represent exactly; `exp`
and `log` have the right sign and range; `frexp` splits a positive number below
one into a mantissa in [1/2, 1) and a non-positive exponent. -/
structure Sound : Prop where
  mono : ∀ a b, a ≤ b → F.rnd a ≤ F.rnd b
  idem : ∀ a, F.rnd (F.rnd a) = F.rnd a
  zero : F.rnd 0 = 0
  one : F.rnd 1 = 1
  negone : F.rnd (-1) = -1
  two : F.rnd 2 = 2
  half : F.rnd (1 / 2) = 1 / 2
  tenth_pos : 0 < F.rnd (1 / 10)
  exp_nonneg : ∀ a, a ≤ 0 → 0 ≤ F.exp a
  exp_le_one : ∀ a, a ≤ 0 → F.exp a ≤ 1
  exp_zero : F.exp 0 = 1
  log_nonpos : ∀ a, 0 < a → a ≤ 1 → F.log a ≤ 0
  ln2_nonneg : 0 ≤ F.ln2
  frexp_pos : ∀ a, 0 < a → a < 1 → 0 < (F.frexp a).1
  frexp_lt : ∀ a, 0 < a → a < 1 → (F.frexp a).1 < 1
  frexp_exp : ∀ a, 0 < a → a < 1 → (F.frexp a).2 ≤ 0
  frexp_zero : F.frexp 0 = (0, 0)

end FloatOps
end Sb
