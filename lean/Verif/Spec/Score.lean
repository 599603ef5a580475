import Mathlib.Analysis.SpecialFunctions.Log.Basic
import Mathlib.Analysis.SpecialFunctions.Exp

/-
Textbook formulas for scoring, over the real numbers.  No model definition is
used here.
-/

namespace Sb.Spec

/-- The chi-squared survival function with 2n degrees of freedom at x:
exp(-x/2) * sum_{k<n} (x/2)^k / k!. -/
noncomputable def chiSurvival (x : ℝ) (n : ℕ) : ℝ :=
  Real.exp (-(x / 2)) * ∑ k ∈ Finset.range n, (x / 2) ^ k / (k.factorial : ℝ)

/-- Fisher's combination of probabilities `ps`: one minus the chi-squared
survival function of -2 sum ln p. -/
noncomputable def fisher (ps : List ℝ) : ℝ :=
  1 - chiSurvival (-2 * (ps.map Real.log).sum) ps.length

/-- The combined indicator of Robinson and Peters for clue probabilities `ps`:
(S - H + 1)/2 with S from the 1-p and H from the p, and 1/2 without clues. -/
noncomputable def indicator (ps : List ℝ) : ℝ :=
  if ps = [] then 1 / 2 else (fisher (ps.map (1 - ·)) - fisher ps + 1) / 2

/-- Robinson's word probability with strength 0.45 and prior 0.5, for a word in
`s` of `ns` spam and `h` of `nh` ham messages (a total of zero counts as one). -/
noncomputable def robinson (ns nh s h : ℤ) : ℝ :=
  let rs : ℝ := s / (if ns = 0 then 1 else ns : ℤ)
  let rh : ℝ := h / (if nh = 0 then 1 else nh : ℤ)
  (0.45 * 0.5 + (h + s) * (rs / (rh + rs))) / (0.45 + (h + s))

end Sb.Spec
