import Verif.Proof.Numeric
import Verif.Model.Double
import Mathlib.Analysis.Complex.ExponentialBounds

/- Helper lemmas on the error of double arithmetic in the combination of clues. -/

set_option linter.unusedSectionVars false
set_option exponentiation.threshold 2000

namespace Sb
open Py Real Spec

/-! ### The chi-squared survival function is smooth -/

/-- `exp(-m) * sum_{k<n} m^k/k!` -/
noncomputable def chiQ (n : ℕ) (m : ℝ) : ℝ :=
  rexp (-m) * ∑ k ∈ Finset.range n, m ^ k / (k.factorial : ℝ)

theorem chiSurvival_eq (x : ℝ) (n : ℕ) : chiSurvival x n = chiQ n (x / 2) := rfl

theorem poisson_le_one {y : ℝ} (hy : 0 ≤ y) (k : ℕ) : rexp (-y) * (y ^ k / (k.factorial : ℝ)) ≤ 1 := by
  have h := Real.pow_div_factorial_le_exp y hy k
  calc rexp (-y) * (y ^ k / (k.factorial : ℝ)) ≤ rexp (-y) * rexp y := by gcongr
    _ = 1 := by rw [← Real.exp_add]; simp

theorem chiQ_deriv_one (n : ℕ) {y : ℝ} (hy : 0 ≤ y) : ‖deriv (chiQ n) y‖ ≤ 1 := by
  cases n with
  | zero =>
    have : chiQ 0 = fun _ => 0 := by funext m; simp [chiQ]
    rw [this]; simp
  | succ n =>
    have e : deriv (chiQ (n + 1)) y = _ := (hasDerivAt_chiSum n y).deriv
    rw [e, norm_neg, Real.norm_eq_abs, abs_of_nonneg (by positivity)]
    exact poisson_le_one hy n

theorem chiQ_differentiable (n : ℕ) (y : ℝ) : DifferentiableAt ℝ (chiQ n) y := by
  cases n with
  | zero =>
    have : chiQ 0 = fun _ => 0 := by funext m; simp [chiQ]
    rw [this]; simp
  | succ n => exact (hasDerivAt_chiSum n y).differentiableAt

theorem chiQ_lipschitz (n : ℕ) {a b : ℝ} (ha : 0 ≤ a) (hb : 0 ≤ b) :
    |chiQ n a - chiQ n b| ≤ |a - b| := by
  have := Convex.norm_image_sub_le_of_norm_deriv_le (f := chiQ n) (C := 1) (s := Set.Ici (0 : ℝ))
    (fun y _ => chiQ_differentiable n y) (fun y hy => chiQ_deriv_one n hy) (convex_Ici 0)
    (Set.mem_Ici.2 hb) (Set.mem_Ici.2 ha)
  simpa using this

theorem chiQ_deriv_inv (n : ℕ) {y : ℝ} (hy : 0 < y) : ‖deriv (chiQ n) y‖ ≤ n / y := by
  cases n with
  | zero =>
    have : chiQ 0 = fun _ => 0 := by funext m; simp [chiQ]
    rw [this]; simp
  | succ n =>
    have e : deriv (chiQ (n + 1)) y = _ := (hasDerivAt_chiSum n y).deriv
    rw [e, norm_neg, Real.norm_eq_abs, abs_of_nonneg (by positivity), le_div_iff₀ hy]
    have h := poisson_le_one hy.le (n + 1)
    have e2 : rexp (-y) * (y ^ n / (n.factorial : ℝ)) * y =
        ((n + 1 : ℕ) : ℝ) * (rexp (-y) * (y ^ (n + 1) / ((n + 1).factorial : ℝ))) := by
      rw [Nat.factorial_succ]
      have : (n.factorial : ℝ) ≠ 0 := by positivity
      push_cast
      field_simp
      ring
    rw [e2]
    have : (0 : ℝ) ≤ ((n + 1 : ℕ) : ℝ) := by positivity
    nlinarith

/-- a relative error of the argument costs the number of clues times as much -/
theorem chiQ_relative (n : ℕ) {a b θ : ℝ} (hb : 0 ≤ b) (hθ' : 0 ≤ θ) (hθ : θ ≤ 1 / 2) (h : |a - b| ≤ θ * b) :
    |chiQ n a - chiQ n b| ≤ 2 * n * θ := by
  rcases eq_or_lt_of_le hb with rfl | hb
  · have : a = 0 := by simpa using h
    subst this
    simp only [sub_self, abs_zero]
    positivity
  · have ha := (abs_le.1 h).1
    have := Convex.norm_image_sub_le_of_norm_deriv_le (f := chiQ n) (C := 2 * n / b)
      (s := Set.Ici (b / 2)) (fun y _ => chiQ_differentiable n y) (fun y hy => by
        have hy' : b / 2 ≤ y := hy
        refine (chiQ_deriv_inv n (by linarith)).trans ?_
        rw [div_le_div_iff₀ (by linarith) hb]
        have : (0 : ℝ) ≤ n := by positivity
        nlinarith) (convex_Ici _)
      (Set.mem_Ici.2 (by linarith : b / 2 ≤ b)) (Set.mem_Ici.2 (by nlinarith : b / 2 ≤ a))
    rw [Real.norm_eq_abs, Real.norm_eq_abs] at this
    refine this.trans ?_
    calc 2 * (n : ℝ) / b * |a - b| ≤ 2 * n / b * (θ * b) := by gcongr
      _ = 2 * n * θ := by field_simp

/-! ### One operation -/

/-- the working bound for a relative error -/
noncomputable def relErr : ℝ := 1 / 2 ^ 51
/-- the bound for an underflow -/
noncomputable def absErr : ℝ := 1 / 10 ^ 320

theorem relErr_pos : 0 < relErr := by unfold relErr; positivity
theorem absErr_pos : 0 < absErr := by unfold absErr; positivity
attribute [local irreducible] absErr
theorem relErr_le : relErr ≤ 1 / 10 ^ 15 := by unfold relErr; norm_num

section
variable {F : FloatOps ℝ} (hd : F.Double)
include hd

theorem rnd_err (a : ℝ) : |F.rnd a - a| ≤ relErr * |a| + absErr := by
  refine (hd.rnd a).trans ?_
  unfold relErr absErr
  gcongr <;> norm_num

theorem exp_err {a : ℝ} (h : a ≤ 0) : |F.exp a - rexp a| ≤ relErr * rexp a + absErr := by
  refine (hd.exp a h).trans ?_
  unfold relErr absErr
  gcongr <;> norm_num

theorem log_err {a : ℝ} (h : 0 < a) : |F.log a - Real.log a| ≤ relErr * |Real.log a| + absErr := by
  refine (hd.log a h).trans ?_
  unfold relErr absErr
  gcongr <;> norm_num

theorem rnd_rel {a : ℝ} (h : 1 / 10 ^ 300 ≤ |a|) : |F.rnd a - a| ≤ relErr * |a| := by
  refine (hd.rnd a).trans ?_
  have : (1 : ℝ) / 10 ^ 320 ≤ 1 / 2 ^ 52 * |a| := by
    calc (1 : ℝ) / 10 ^ 320 ≤ 1 / 2 ^ 52 * (1 / 10 ^ 300) := by norm_num
      _ ≤ _ := by gcongr
  unfold relErr
  have e : (1 : ℝ) / 2 ^ 51 = 1 / 2 ^ 52 + 1 / 2 ^ 52 := by norm_num
  rw [e]; linarith

/-! ### The loop of chi2Q -/

/-- the factor `m / i` of the loop -/
theorem factor_err {m : ℝ} (hm : 0 ≤ m) {i : ℕ} (hi : 0 < i) :
    |F.div m (F.rnd (i : ℝ)) - m / i| ≤ 4 * relErr * (m / i) + absErr := by
  have hi' : (1 : ℝ) ≤ i := by exact_mod_cast hi
  have h1 := rnd_rel hd (a := (i : ℝ)) (by
    rw [abs_of_pos (by linarith)]
    refine le_trans ?_ hi'
    norm_num)
  rw [abs_of_pos (by linarith : (0 : ℝ) < i)] at h1
  have hv := relErr_le
  have hv0 := relErr_pos
  have h3 := rnd_err hd (m / F.rnd (i : ℝ))
  generalize relErr = v at *
  set r := F.rnd (i : ℝ)
  have hr := abs_le.1 h1
  have hr0 : (0 : ℝ) < r := by nlinarith
  -- m / r against m / i
  have h2 : |m / r - m / i| ≤ 2 * v * (m / i) := by
    have e : m / r - m / i = (m / i) * ((i - r) / r) := by field_simp
    rw [e, abs_mul, abs_of_nonneg (by positivity : 0 ≤ m / (i : ℝ)), mul_comm]
    gcongr
    rw [abs_div, abs_of_pos hr0, div_le_iff₀ hr0, abs_sub_comm]
    refine h1.trans ?_
    nlinarith
  have h4 : m / r ≤ (1 + 2 * v) * (m / i) := by
    have := (abs_le.1 h2).2
    linarith
  have hq : 0 ≤ m / (i : ℝ) := by positivity
  rw [abs_of_nonneg (by positivity : 0 ≤ m / r)] at h3
  change |F.rnd (m / r) - m / i| ≤ _
  calc |F.rnd (m / r) - m / i| ≤ |F.rnd (m / r) - m / r| + |m / r - m / i| := abs_sub_le _ _ _
    _ ≤ (v * ((1 + 2 * v) * (m / i)) + absErr) + 2 * v * (m / i) := by
      gcongr
      exact h3.trans (by gcongr)
    _ ≤ 4 * v * (m / i) + absErr := by
      have : v * (2 * v * (m / i)) ≤ v * (m / i) := by
        have : 2 * v * (m / i) ≤ m / i := by
          have : 2 * v ≤ 1 := by linarith [show (1 : ℝ) / 10 ^ 15 ≤ 1 / 2 by norm_num]
          exact mul_le_of_le_one_left hq this
        gcongr
      linarith

/-- a bound for the growth of underflow errors in the loop -/
noncomputable def growth (i : ℕ) : ℝ := 5001 ^ i / (i.factorial : ℝ)

omit hd in
theorem growth_succ (i : ℕ) : growth (i + 1) = growth i * (5001 / (i + 1)) := by
  unfold growth
  rw [Nat.factorial_succ, pow_succ]
  push_cast
  field_simp

omit hd in
theorem growth_mono {i : ℕ} (h : i < 150) : growth i ≤ growth (i + 1) := by
  rw [growth_succ]
  have h0 : 0 ≤ growth i := by unfold growth; positivity
  have h' : (i : ℝ) + 1 ≤ 5001 := by
    have : (i : ℝ) < 150 := by exact_mod_cast h
    linarith
  have : (1 : ℝ) ≤ 5001 / (i + 1) := by
    rw [le_div_iff₀ (by positivity)]; linarith
  nlinarith

omit hd in
theorem one_le_growth {i : ℕ} (h : i ≤ 150) : 1 ≤ growth i := by
  induction i with
  | zero => simp [growth]
  | succ i ih => exact (ih (by omega)).trans (growth_mono (by omega))

omit hd in
theorem growth_le {i : ℕ} (h : i ≤ 150) : growth i ≤ 10 ^ 295 := by
  have h1 : ∀ k, i + k ≤ 150 → growth i ≤ growth (i + k) := by
    intro k
    induction k with
    | zero => intro _; exact le_rfl
    | succ k ih => intro hk; exact (ih (by omega)).trans (growth_mono (by omega))
  have h2 := h1 (150 - i) (by omega)
  have e : i + (150 - i) = 150 := by omega
  rw [e] at h2
  refine h2.trans ?_
  unfold growth
  rw [div_le_iff₀ (by positivity)]
  norm_num [Nat.factorial]

omit hd in
theorem coef_le {v α : ℝ} (hv0 : 0 < v) (hv : v ≤ 1 / 100) (hα1 : α ≤ 1 / 10) :
    (1 + v) * (α + α * (4 * v) + 4 * v) + v ≤ α + 6 * v := by
  have h1 : α * v ≤ 1 / 10 * v := by gcongr
  have h2 : v * v ≤ 1 / 100 * v := by gcongr
  have h3 : α * v * v ≤ 1 / 10 * v * (1 / 100) := by gcongr
  nlinarith

omit hd in
theorem factors_le {v : ℝ} (hv0 : 0 < v) (hv : v ≤ 1 / 10 ^ 15) :
    (1 + v) * (1 + 4 * v) ≤ 1 + 1 / 10 ^ 10 := by
  have h2 : v * v ≤ 1 / 10 ^ 15 * (1 / 10 ^ 15) := by gcongr
  nlinarith

/-- one round of the loop -/
theorem term_err {m T q t b α : ℝ} {i : ℕ} (hm : 0 ≤ m) (hm1 : m ≤ 5000) (hi : 0 < i) (hi1 : i ≤ 150)
    (hq : q = m / i) (hT : 0 ≤ T) (hT1 : T ≤ 1) (hα : 0 ≤ α) (hα1 : α ≤ 1 / 10)
    (hb : 0 ≤ b) (h : |t - T| ≤ α * T + b) :
    |F.mul t (F.div m (F.rnd (i : ℝ))) - T * q| ≤
      (α + 6 * relErr) * (T * q) + (b * (5001 / i) + 4 * absErr) := by
  have hv := relErr_le
  have hv0 := relErr_pos
  have hη0 := absErr_pos
  have hη : absErr ≤ 1 / 10 ^ 10 := by unfold absErr; norm_num
  have h1 := factor_err hd hm hi
  have hi' : (1 : ℝ) ≤ i := by exact_mod_cast hi
  have hi1' : (i : ℝ) ≤ 150 := by exact_mod_cast hi1
  rw [← hq] at h1
  have hq0 : 0 ≤ q := by rw [hq]; positivity
  have hr := rnd_err hd
  generalize relErr = v at *
  generalize absErr = η at *
  set d := F.div m (F.rnd (i : ℝ))
  have hd1 : |d| ≤ q * (1 + 4 * v) + η := by
    have := abs_sub_abs_le_abs_sub d q
    rw [abs_of_nonneg hq0] at this
    linarith
  have h2 : |t * d - T * q| ≤ (α * T + b) * (q * (1 + 4 * v) + η) + T * (4 * v * q + η) := by
    have e : t * d - T * q = (t - T) * d + T * (d - q) := by ring
    rw [e]
    refine (abs_add_le _ _).trans ?_
    rw [abs_mul, abs_mul, abs_of_nonneg hT]
    gcongr
  have h3 := hr (t * d)
  have h4 : |t * d| ≤ T * q + ((α * T + b) * (q * (1 + 4 * v) + η) + T * (4 * v * q + η)) := by
    have := abs_sub_abs_le_abs_sub (t * d) (T * q)
    rw [abs_of_nonneg (by positivity : 0 ≤ T * q)] at this
    linarith
  change |F.rnd (t * d) - T * q| ≤ _
  set E := (α * T + b) * (q * (1 + 4 * v) + η) + T * (4 * v * q + η) with hE
  have h5 : |F.rnd (t * d) - T * q| ≤ v * (T * q + E) + η + E := by
    refine (abs_sub_le _ (t * d) _).trans ?_
    gcongr
    exact h3.trans (by gcongr)
  refine h5.trans ?_
  have hP : 0 ≤ T * q := by positivity
  -- the error that is relative, and the rest
  have hE' : E ≤ (α + α * (4 * v) + 4 * v) * (T * q) + b * (q * (1 + 4 * v) + η) + 2 * η := by
    have e1 : α * T * η ≤ 1 * 1 * η := by gcongr; linarith
    have e2 : T * η ≤ 1 * η := by gcongr
    rw [hE]
    linarith
  have hA := coef_le hv0 (hv.trans (by norm_num)) hα1
  have hq1 : q ≤ 5000 / i := by rw [hq]; gcongr
  have hB : (1 + v) * (q * (1 + 4 * v) + η) ≤ 5001 / i := by
    have e1 := factors_le hv0 hv
    have e2 : (1 + v) * η ≤ 2 * (1 / 10 ^ 10) := by gcongr; linarith [hv.trans (show (1 : ℝ) / 10 ^ 15 ≤ 1 by norm_num)]
    have e3 : (2 : ℝ) * (1 / 10 ^ 10) ≤ 1 / 10 ^ 6 / i := by
      rw [le_div_iff₀ (by positivity)]
      calc (2 : ℝ) * (1 / 10 ^ 10) * i ≤ 2 * (1 / 10 ^ 10) * 150 := by gcongr
        _ ≤ _ := by norm_num
    calc (1 + v) * (q * (1 + 4 * v) + η) = q * ((1 + v) * (1 + 4 * v)) + (1 + v) * η := by ring
      _ ≤ 5000 / i * (1 + 1 / 10 ^ 10) + 1 / 10 ^ 6 / i := by
        gcongr
        exact e2.trans e3
      _ = (5000 * (1 + 1 / 10 ^ 10) + 1 / 10 ^ 6) / i := by ring
      _ ≤ 5001 / i := by gcongr; norm_num
  calc v * (T * q + E) + η + E = v * (T * q) + (1 + v) * E + η := by ring
    _ ≤ v * (T * q) + (1 + v) * ((α + α * (4 * v) + 4 * v) * (T * q) +
          b * (q * (1 + 4 * v) + η) + 2 * η) + η := by gcongr
    _ = ((1 + v) * (α + α * (4 * v) + 4 * v) + v) * (T * q) +
          b * ((1 + v) * (q * (1 + 4 * v) + η)) + ((1 + v) * 2 + 1) * η := by ring
    _ ≤ (α + 6 * v) * (T * q) + b * (5001 / i) + 4 * η := by
      have : (1 + v) * 2 + 1 ≤ 4 := by linarith [hv.trans (show (1 : ℝ) / 10 ^ 15 ≤ 1 / 2 by norm_num)]
      gcongr
    _ = _ := by ring

/-- one addition of the loop -/
theorem sum_err {R T r t ρ c b B : ℝ} (hR : 0 ≤ R) (hT : 0 ≤ T) (hρ1 : ρ ≤ 1 / 10)
    (hB : absErr ≤ B / 4) (hb : b ≤ B) (hc1 : c ≤ 1000 * B)
    (hr : |r - R| ≤ ρ * R + c) (ht : |t - T| ≤ ρ * T + b) :
    |F.add r t - (R + T)| ≤ (ρ + 2 * relErr) * (R + T) + (c + 2 * B) := by
  have hv := relErr_le
  have hv0 := relErr_pos
  have hη0 := absErr_pos
  have h1 := rnd_err hd (r + t)
  generalize relErr = v at *
  generalize absErr = η at *
  have h2 : |r + t - (R + T)| ≤ ρ * (R + T) + (c + b) := by
    have e : r + t - (R + T) = (r - R) + (t - T) := by ring
    rw [e]
    refine (abs_add_le _ _).trans ?_
    linarith
  have h3 : |r + t| ≤ (1 + ρ) * (R + T) + (c + b) := by
    have := abs_sub_abs_le_abs_sub (r + t) (R + T)
    rw [abs_of_nonneg (by positivity : 0 ≤ R + T)] at this
    linarith
  change |F.rnd (r + t) - (R + T)| ≤ _
  have h4 : v * ((1 + ρ) * (R + T) + (c + b)) ≤ 2 * v * (R + T) + B / 2 := by
    have e1 : v * ((1 + ρ) * (R + T)) ≤ v * (2 * (R + T)) := by gcongr; linarith
    have e2 : v * (c + b) ≤ v * (1001 * B) := by gcongr; linarith
    have e3 : v * (1001 * B) ≤ 1 / 10 ^ 15 * (1001 * B) := by gcongr; linarith
    have e4 : (1 : ℝ) / 10 ^ 15 * (1001 * B) ≤ B / 2 := by
      have : 0 ≤ B := by linarith
      linarith
    linarith
  have h5 : v * |r + t| ≤ v * ((1 + ρ) * (R + T) + (c + b)) := by gcongr
  have h6 := abs_sub_le (F.rnd (r + t)) (r + t) (R + T)
  linarith

omit hd in
theorem underflow_le {k : ℕ} (hk : k ≤ 150) : 4 * absErr * (k + 1) * growth k ≤ 1 / 10 ^ 20 := by
  have h1 := growth_le hk
  have h0 : 0 ≤ growth k := by unfold growth; positivity
  have h2 : (k : ℝ) + 1 ≤ 151 := by
    have : (k : ℝ) ≤ 150 := by exact_mod_cast hk
    linarith
  have := absErr_pos
  calc 4 * absErr * (k + 1) * growth k ≤ 4 * absErr * 151 * 10 ^ 295 := by gcongr
    _ ≤ _ := by unfold absErr; norm_num

omit hd in
theorem chiQ_succ (n : ℕ) (m : ℝ) :
    chiQ (n + 1) m = chiQ n m + rexp (-m) * (m ^ n / (n.factorial : ℝ)) := by
  unfold chiQ
  rw [Finset.sum_range_succ]; ring

omit hd in
theorem chiQ_nonneg {m : ℝ} (hm : 0 ≤ m) (n : ℕ) : 0 ≤ chiQ n m := by
  unfold chiQ; positivity

omit hd in
theorem chiQ_le_one {m : ℝ} (hm : 0 ≤ m) (n : ℕ) : chiQ n m ≤ 1 := by
  have := chiSurvival_le_one (x := 2 * m) (by linarith) n
  rw [chiSurvival_eq] at this
  convert this using 2
  ring

theorem loop_err {m : ℝ} (hm : 0 ≤ m) (hm1 : m ≤ 5000) (fuel : ℕ) :
    ∀ (k : ℕ) (t r : ℝ), k + fuel ≤ 149 →
      |t - rexp (-m) * (m ^ k / (k.factorial : ℝ))| ≤
        6 * (k + 1) * relErr * (rexp (-m) * (m ^ k / (k.factorial : ℝ))) +
          4 * absErr * (k + 1) * growth k →
      |r - chiQ (k + 1) m| ≤ 8 * (k + 1) * relErr * chiQ (k + 1) m + 2 * (k + 1) * (1 / 10 ^ 20) →
      |chi2Loop F m fuel (k + 1) t r - chiQ (k + 1 + fuel) m| ≤
        8 * (k + 1 + fuel) * relErr * chiQ (k + 1 + fuel) m +
          2 * (k + 1 + fuel) * (1 / 10 ^ 20) := by
  have hv := relErr_le
  have hv0 := relErr_pos
  induction fuel with
  | zero => intro k t r _ _ hr; simpa [chi2Loop] using hr
  | succ fuel ih =>
    intro k t r hk ht hr
    have hk' : (k : ℝ) ≤ 149 := by exact_mod_cast (by omega : k ≤ 149)
    have hT0 : 0 ≤ rexp (-m) * (m ^ k / (k.factorial : ℝ)) := by positivity
    have hT1 := poisson_le_one hm k
    have eT : rexp (-m) * (m ^ k / (k.factorial : ℝ)) * (m / ((k + 1 : ℕ) : ℝ)) =
        rexp (-m) * (m ^ (k + 1) / ((k + 1).factorial : ℝ)) := by
      rw [Nat.factorial_succ, pow_succ]
      push_cast
      field_simp
    have hη0 := absErr_pos
    have hg0 : 0 ≤ growth k := by unfold growth; positivity
    have hα : 6 * (k + 1) * relErr ≤ 1 / 10 := by
      calc 6 * ((k : ℝ) + 1) * relErr ≤ 6 * (149 + 1) * (1 / 10 ^ 15) := by gcongr
        _ ≤ 1 / 10 := by norm_num
    have h1 := term_err hd hm hm1 (Nat.succ_pos k) (by omega : k + 1 ≤ 150) rfl hT0 hT1
      (by positivity) hα (by positivity) ht
    rw [eT] at h1
    have h2 : |F.mul t (F.div m (F.rnd ((k + 1 : ℕ) : ℝ))) -
        rexp (-m) * (m ^ (k + 1) / ((k + 1).factorial : ℝ))| ≤
        6 * ((k + 1 : ℕ) + 1) * relErr * (rexp (-m) * (m ^ (k + 1) / ((k + 1).factorial : ℝ))) +
          4 * absErr * ((k + 1 : ℕ) + 1) * growth (k + 1) := by
      refine h1.trans ?_
      have e1 : 4 * absErr * (k + 1) * growth k * (5001 / ((k + 1 : ℕ) : ℝ)) =
          4 * absErr * (k + 1) * growth (k + 1) := by
        rw [growth_succ]; push_cast; ring
      have e2 : 4 * absErr ≤ 4 * absErr * growth (k + 1) := by
        have := one_le_growth (i := k + 1) (by omega)
        nlinarith
      rw [e1]
      push_cast
      linarith
    have hB : absErr ≤ 1 / 10 ^ 20 / 4 := by unfold absErr; norm_num
    have h3 := sum_err hd (R := chiQ (k + 1) m) (T := rexp (-m) * (m ^ (k + 1) / ((k + 1).factorial : ℝ)))
      (r := r) (t := F.mul t (F.div m (F.rnd ((k + 1 : ℕ) : ℝ)))) (ρ := (8 * k + 14) * relErr)
      (c := 2 * (k + 1) * (1 / 10 ^ 20)) (b := 4 * absErr * ((k + 1 : ℕ) + 1) * growth (k + 1))
      (B := 1 / 10 ^ 20) (chiQ_nonneg hm _) (by positivity)
      (by
        calc (8 * (k : ℝ) + 14) * relErr ≤ (8 * 149 + 14) * (1 / 10 ^ 15) := by gcongr
          _ ≤ 1 / 10 := by norm_num)
      hB (underflow_le (by omega))
      (by
        gcongr
        linarith)
      (by
        refine hr.trans ?_
        have : 8 * ((k : ℝ) + 1) * relErr ≤ (8 * k + 14) * relErr := by nlinarith
        have := mul_le_mul_of_nonneg_right this (chiQ_nonneg hm (k + 1))
        linarith)
      (by
        refine h2.trans ?_
        have : 6 * (((k + 1 : ℕ) : ℝ) + 1) * relErr ≤ (8 * k + 14) * relErr := by
          push_cast
          have : (0 : ℝ) ≤ k := by positivity
          nlinarith
        gcongr)
    rw [← chiQ_succ] at h3
    unfold chi2Loop
    have := ih (k + 1) _ _ (by omega) h2 (by
      refine h3.trans (le_of_eq ?_)
      push_cast
      ring)
    simp only
    have e : k + 1 + 1 + fuel = k + 1 + (fuel + 1) := by omega
    rw [e] at this
    refine this.trans (le_of_eq ?_)
    push_cast
    ring

/-- the error of chi2Q for a given argument -/
theorem chi2Q_err {x2 : ℝ} {n : ℕ} (hn : 0 < n) (hn1 : n ≤ 150) (hm : 0 ≤ F.div x2 2)
    (hm1 : F.div x2 2 ≤ 5000) :
    ∃ q, chi2Q F x2 (2 * (n : Int)) = .ok q ∧
      |q - chiQ n (F.div x2 2)| ≤ 8 * n * relErr + 1 / 10 ^ 17 := by
  unfold chi2Q
  rw [if_neg (by omega)]
  have hfuel : ((2 * (n : Int)) / 2 - 1).toNat = n - 1 := by omega
  simp only [hfuel]
  refine ⟨_, rfl, ?_⟩
  set m := F.div x2 2
  have h0 := exp_err hd (a := -m) (by linarith)
  have hv := relErr_le
  have hv0 := relErr_pos
  have hη0 := absErr_pos
  have := loop_err hd hm hm1 (n - 1) 0 (F.exp (-m)) (F.exp (-m)) (by omega)
    (by
      refine (by simpa using h0 : |F.exp (-m) - rexp (-m) * (m ^ 0 / (Nat.factorial 0 : ℝ))| ≤ _).trans ?_
      have := (Real.exp_pos (-m)).le
      simp only [growth]
      norm_num
      nlinarith)
    (by
      refine (by simpa [chiQ] using h0 : |F.exp (-m) - chiQ (0 + 1) m| ≤ _).trans ?_
      have := (Real.exp_pos (-m)).le
      have hη : absErr ≤ 1 / 10 ^ 20 := by unfold absErr; norm_num
      simp only [chiQ]
      norm_num at hη ⊢
      nlinarith)
  have e : 0 + 1 + (n - 1) = n := by omega
  rw [e] at this
  have hn' : (n : ℝ) ≤ 150 := by exact_mod_cast hn1
  have e2 : ((0 : ℕ) : ℝ) + 1 + ((n - 1 : ℕ) : ℝ) = n := by
    rw [Nat.cast_sub hn]; push_cast; ring
  rw [e2] at this
  have hq1 := chiQ_le_one hm n
  have hq0 := chiQ_nonneg hm n
  have h5 : |min (chi2Loop F m (n - 1) 1 (F.exp (-m)) (F.exp (-m))) 1 - chiQ n m| ≤
      |chi2Loop F m (n - 1) 1 (F.exp (-m)) (F.exp (-m)) - chiQ n m| := by
    have := abs_min_sub_min_le_max (chi2Loop F m (n - 1) 1 (F.exp (-m)) (F.exp (-m))) 1 (chiQ n m) 1
    rw [min_eq_left hq1] at this
    simpa using this
  refine h5.trans ((by simpa using this : _ ≤ _).trans ?_)
  have e3 : 8 * (n : ℝ) * relErr * chiQ n m ≤ 8 * n * relErr * 1 := by gcongr
  have e4 : 2 * (n : ℝ) * (1 / 10 ^ 20) ≤ 2 * 150 * (1 / 10 ^ 20) := by gcongr
  norm_num at e3 e4 ⊢
  linarith

/-! ### The running products -/

theorem rnd_log {a : ℝ} (h : 1 / 10 ^ 300 ≤ a) :
    0 < F.rnd a ∧ |Real.log (F.rnd a) - Real.log a| ≤ 2 * relErr ∧ a * (1 - relErr) ≤ F.rnd a := by
  have ha : 0 < a := lt_of_lt_of_le (by positivity) h
  have h1 := rnd_rel hd (a := a) (by rwa [abs_of_pos ha])
  rw [abs_of_pos ha] at h1
  have hv := relErr_le.trans (show (1 : ℝ) / 10 ^ 15 ≤ 1 / 100 by norm_num)
  have hv0 := relErr_pos
  generalize relErr = v at *
  obtain ⟨h2, h3⟩ := abs_le.1 h1
  have h4 : a * (1 - v) ≤ F.rnd a := by linarith
  have hpos : 0 < F.rnd a := lt_of_lt_of_le (by apply mul_pos ha; linarith) h4
  refine ⟨hpos, ?_, h4⟩
  rw [← Real.log_div hpos.ne' ha.ne']
  have hr : F.rnd a / a ≤ 1 + v := by rw [div_le_iff₀ ha]; linarith
  have hr' : 1 - v ≤ F.rnd a / a := by rw [le_div_iff₀ ha]; linarith
  have hr0 : 0 < F.rnd a / a := by positivity
  rw [abs_le]
  constructor
  · have h5 := Real.one_sub_inv_le_log_of_pos hr0
    have h6 : (F.rnd a / a)⁻¹ ≤ 1 + 2 * v := by
      rw [inv_le_comm₀ hr0 (by positivity), inv_eq_one_div, div_le_iff₀ (by positivity)]
      nlinarith
    linarith
  · have := Real.log_le_sub_one_of_pos hr0
    linarith

/-- the running product stands for a number whose logarithm is close to `l` -/
def Prod2.Close (p : Prod2 ℝ) (l ε : ℝ) : Prop :=
  1 / 10 ^ 201 ≤ p.x ∧ p.x ≤ 1 ∧ p.e ≤ 0 ∧ |Real.log p.x + p.e * Real.log 2 - l| ≤ ε

theorem Prod2.step_close (hF : F.Sound) {p : Prod2 ℝ} {l ε f lf : ℝ} (hp : p.Close l ε)
    (hf0 : 1 / 10 ^ 11 ≤ f) (hf1 : f ≤ 1) (hf : |Real.log f - lf| ≤ 2 * relErr) :
    (p.step F f).Close (l + lf) (ε + 4 * relErr) := by
  obtain ⟨hx0, hx1, he, h⟩ := hp
  have hfp : 0 < f := lt_of_lt_of_le (by positivity) hf0
  have hxp : 0 < p.x := lt_of_lt_of_le (by positivity) hx0
  have hbig : 1 / 10 ^ 300 ≤ p.x * f := by
    calc (1 : ℝ) / 10 ^ 300 ≤ 1 / 10 ^ 201 * (1 / 10 ^ 11) := by norm_num
      _ ≤ _ := by gcongr
  obtain ⟨hm0, hm, -⟩ := rnd_log hd hbig
  rw [Real.log_mul hxp.ne' hfp.ne'] at hm
  have hm1 : F.mul p.x f ≤ 1 := hF.le_one (mul_le_one₀ hx1 hfp.le hf1)
  change 0 < F.mul p.x f at hm0
  change |Real.log (F.mul p.x f) - _| ≤ _ at hm
  have key : |Real.log (F.mul p.x f) + p.e * Real.log 2 - (l + lf)| ≤ ε + 4 * relErr := by
    have e : Real.log (F.mul p.x f) + p.e * Real.log 2 - (l + lf) =
        (Real.log (F.mul p.x f) - (Real.log p.x + Real.log f)) +
        (Real.log p.x + p.e * Real.log 2 - l) + (Real.log f - lf) := by ring
    rw [e]
    refine (abs_add_le _ _).trans ?_
    have := abs_add_le (Real.log (F.mul p.x f) - (Real.log p.x + Real.log f))
      (Real.log p.x + p.e * Real.log 2 - l)
    linarith
  have ht : (1 : ℝ) / 10 ^ 201 ≤ tiny F := by
    obtain ⟨-, -, h3⟩ := rnd_log hd (a := 1 / 10 ^ 200) (by norm_num)
    refine le_trans ?_ h3
    have := relErr_le
    calc (1 : ℝ) / 10 ^ 201 ≤ 1 / 10 ^ 200 * (1 - 1 / 10 ^ 15) := by norm_num
      _ ≤ _ := by gcongr
  have ht1 : tiny F ≤ 1 := hF.le_one (by norm_num)
  unfold Prod2.step
  simp only
  split
  · rename_i hlt
    have hl : F.mul p.x f < 1 := lt_of_lt_of_le hlt ht1
    obtain ⟨h5, h6⟩ := hd.frexp _ hm0 hl
    have h7 := hF.frexp_lt _ hm0 hl
    have h8 := hF.frexp_exp _ hm0 hl
    refine ⟨le_trans (by norm_num) h5, h7.le, by simp only; omega, ?_⟩
    have h9 : 0 < (F.frexp (F.mul p.x f)).1 := lt_of_lt_of_le (by norm_num) h5
    have h10 : Real.log (F.frexp (F.mul p.x f)).1 + (F.frexp (F.mul p.x f)).2 * Real.log 2 =
        Real.log (F.mul p.x f) := by
      conv_rhs => rw [← h6]
      rw [Real.log_mul h9.ne' (by positivity), Real.log_zpow]
    rw [← h10] at key
    simp only
    push_cast
    convert key using 2
    ring
  · rename_i hge
    exact ⟨ht.trans (not_lt.1 hge), hm1, he, key⟩

theorem Prod2.foldl_close (hF : F.Sound) (g h : ℝ → ℝ) (ps : List ℝ)
    (hg : ∀ p ∈ ps, 1 / 10 ^ 11 ≤ g p ∧ g p ≤ 1 ∧ |Real.log (g p) - Real.log (h p)| ≤ 2 * relErr) :
    ∀ (p : Prod2 ℝ) (l ε : ℝ), p.Close l ε →
      (ps.foldl (fun p prob => Prod2.step F p (g prob)) p).Close
        (l + (ps.map (fun p => Real.log (h p))).sum) (ε + 4 * ps.length * relErr) := by
  induction ps with
  | nil => intro p l ε h; simpa using h
  | cons a t ih =>
    intro p l ε hp
    rw [List.foldl_cons]
    obtain ⟨h1, h2, h3⟩ := hg a (by simp)
    have := ih (fun p hp => hg p (by simp [hp])) _ _ _ (Prod2.step_close hd hF hp h1 h2 h3)
    have e1 : l + Real.log (h a) + (t.map (fun p => Real.log (h p))).sum =
        l + ((a :: t).map (fun p => Real.log (h p))).sum := by
      simp only [List.map_cons, List.sum_cons]; ring
    have e2 : ε + 4 * relErr + 4 * t.length * relErr = ε + 4 * (a :: t).length * relErr := by
      simp only [List.length_cons]; push_cast; ring
    rw [e1, e2] at this
    exact this

/-- an argument of chi2Q that went through a product, a logarithm and two
multiplications -/
theorem Prod2.arg_err (hF : F.Sound) {p : Prod2 ℝ} {l ε : ℝ} (hp : p.Close l ε) :
    ∃ L, p.ln F = .ok L ∧ L ≤ 0 ∧ ∃ M, 0 ≤ M ∧ |M + l| ≤ ε ∧
      0 ≤ F.div (F.mul (-2) L) 2 ∧
      |F.div (F.mul (-2) L) 2 - M| ≤ 10 * relErr * M + 7 * absErr := by
  obtain ⟨hx0, hx1, he, h⟩ := hp
  have hxp : 0 < p.x := lt_of_lt_of_le (by positivity) hx0
  have hok : p.Ok := ⟨hxp.le, hx1, he⟩
  have hln : p.ln F = .ok (F.add (F.log p.x) (F.mul (F.rnd (p.e : ℝ)) F.ln2)) := by
    unfold Prod2.ln
    rw [if_neg (not_le.2 hxp)]
  have hL0 := Prod2.ln_nonpos hF hok hln
  refine ⟨_, hln, hL0, -(Real.log p.x + p.e * Real.log 2), ?_, ?_, ?_, ?_⟩
  · have h1 := Real.log_nonpos hxp.le hx1
    have h2 : (p.e : ℝ) ≤ 0 := by exact_mod_cast he
    have h3 := Real.log_pos (show (1 : ℝ) < 2 by norm_num)
    nlinarith
  · rw [← abs_neg]
    convert h using 2
    ring
  · exact hF.nonneg (div_nonneg (hF.nonneg (by linarith)) (by norm_num))
  · set a := -Real.log p.x with ha
    have ha0 : 0 ≤ a := by have := Real.log_nonpos hxp.le hx1; linarith
    have hlg := log_err hd hxp
    rw [abs_of_nonpos (by linarith : Real.log p.x ≤ 0)] at hlg
    have hl2 := hd.ln2
    have hlog2 := Real.log_pos (show (1 : ℝ) < 2 by norm_num)
    have he' : |F.rnd (p.e : ℝ) - p.e| ≤ relErr * -(p.e : ℝ) := by
      rcases eq_or_lt_of_le he with h0 | h0
      · rw [h0]; simp [hF.zero]
      · have h1 : (p.e : ℝ) ≤ -1 := by exact_mod_cast (by omega : p.e ≤ -1)
        have h2 : |(p.e : ℝ)| = -(p.e : ℝ) := abs_of_neg (by linarith)
        have := rnd_rel hd (a := (p.e : ℝ)) (by
          rw [h2]
          refine le_trans (b := 1) (by norm_num) (by linarith))
        rwa [h2] at this
    have hr := rnd_err hd
    have hv := relErr_le.trans (show (1 : ℝ) / 10 ^ 15 ≤ 1 / 10 ^ 4 by norm_num)
    have hv0 := relErr_pos
    have hl2 : |F.ln2 - Real.log 2| ≤ relErr * Real.log 2 := by
      refine hl2.trans ?_
      unfold relErr
      gcongr <;> norm_num
    have hη0 := absErr_pos
    generalize relErr = v at *
    generalize absErr = η at *
    have hk0 : (0 : ℝ) ≤ -(p.e : ℝ) := by
      have : (p.e : ℝ) ≤ 0 := by exact_mod_cast he
      linarith
    set k : ℝ := -(p.e : ℝ) with hk
    set c := Real.log 2
    set A := F.log p.x
    set E := F.rnd (p.e : ℝ)
    set c' := F.ln2
    have hA : |A + a| ≤ v * a + η := by
      have e : A + a = A - Real.log p.x := by rw [ha]; ring
      rw [e]; exact hlg
    have hE : |E + k| ≤ v * k := by
      have e : E + k = E - p.e := by rw [hk]; ring
      rw [e]; exact he'
    have hM : -(Real.log p.x + p.e * c) = a + k * c := by rw [ha, hk]; ring
    rw [hM]
    -- the product of the exponent and ln 2
    have hP : |E * c' + k * c| ≤ 3 * v * (k * c) := by
      have e : E * c' + k * c = (E + k) * c' - k * (c' - c) := by ring
      rw [e]
      have hc' : |c'| ≤ (1 + v) * c := by
        have := abs_sub_abs_le_abs_sub c' c
        rw [abs_of_pos hlog2] at this
        linarith
      refine (abs_sub _ _).trans ?_
      rw [abs_mul, abs_mul, abs_of_nonneg hk0]
      calc |E + k| * |c'| + k * |c' - c| ≤ v * k * ((1 + v) * c) + k * (v * c) := by gcongr
        _ = (2 + v) * v * (k * c) := by ring
        _ ≤ 3 * v * (k * c) := by gcongr; linarith
    have hkc : 0 ≤ k * c := by positivity
    -- a rounded value close to a negative number
    have step : ∀ {x y α β : ℝ}, 0 ≤ y → α ≤ 1 / 100 → |x + y| ≤ α * y + β →
        |F.rnd x + y| ≤ (α + (1 + 1 / 100) * v) * y + ((1 + v) * β + η) := by
      intro x y α β hy hα hxy
      have h1 := hr x
      have h2 : |x| ≤ (1 + α) * y + β := by
        have := abs_add_le (x + y) (-y)
        rw [abs_neg, abs_of_nonneg hy] at this
        simp only [add_neg_cancel_right] at this
        linarith
      have h3 : v * |x| ≤ v * ((1 + α) * y + β) := by gcongr
      have h4 := abs_add_le (F.rnd x - x) (x + y)
      have e : F.rnd x - x + (x + y) = F.rnd x + y := by ring
      rw [e] at h4
      have h5 : v * ((1 + α) * y) ≤ v * ((1 + 1 / 100) * y) := by gcongr
      linarith
    have s1 := step hkc (by linarith : 3 * v ≤ 1 / 100) (by linarith : |E * c' + k * c| ≤ 3 * v * (k * c) + 0)
    change |F.mul E c' + k * c| ≤ _ at s1
    set Q := F.mul E c'
    have hX : |A + Q + (a + k * c)| ≤ 5 * v * (a + k * c) + 2 * η := by
      have e : A + Q + (a + k * c) = (A + a) + (Q + k * c) := by ring
      rw [e]
      refine (abs_add_le _ _).trans ?_
      have : v * a ≤ 5 * v * a := by nlinarith
      have : (3 * v + (1 + 1 / 100) * v) * (k * c) ≤ 5 * v * (k * c) := by gcongr; linarith
      linarith
    have hm0 : 0 ≤ a + k * c := by positivity
    set m := a + k * c
    have s2 := step hm0 (by linarith : 5 * v ≤ 1 / 100) hX
    change |F.add A Q + m| ≤ _ at s2
    set X := F.add A Q
    have hvm : 0 ≤ v * m := by positivity
    have hvη : v * η ≤ 1 / 10 ^ 4 * η := by gcongr
    -- the same for positive values
    have stepp : ∀ {x y α β : ℝ}, 0 ≤ y → α ≤ 1 / 100 → |x - y| ≤ α * y + β →
        |F.rnd x - y| ≤ (α + (1 + 1 / 100) * v) * y + ((1 + v) * β + η) := by
      intro x y α β hy hα hxy
      have h1 := hr x
      have h2 : |x| ≤ (1 + α) * y + β := by
        have := abs_sub_abs_le_abs_sub x y
        rw [abs_of_nonneg hy] at this
        linarith
      have h3 : v * |x| ≤ v * ((1 + α) * y + β) := by gcongr
      have h4 := abs_sub_le (F.rnd x) x y
      have h5 : v * ((1 + α) * y) ≤ v * ((1 + 1 / 100) * y) := by gcongr
      linarith
    have s3 := stepp (x := -2 * X) (y := 2 * m) (α := 7 * v) (β := 7 * η) (by positivity) (by linarith) (by
      have e : -2 * X - 2 * m = -(2 * (X + m)) := by ring
      rw [e, abs_neg, abs_mul, abs_two]
      linarith)
    change |F.mul (-2) X - 2 * m| ≤ _ at s3
    set Z := F.mul (-2) X
    have s4 := stepp (x := Z / 2) (y := m) (α := 8.5 * v) (β := 5 * η) hm0 (by linarith) (by
      have e : Z / 2 - m = (Z - 2 * m) / 2 := by ring
      rw [e, abs_div, abs_two]
      linarith)
    change |F.div Z 2 - m| ≤ _ at s4
    linarith

/-- what chi2Q returns for a running product, compared with the exact value -/
theorem Prod2.chi_err (hF : F.Sound) {p : Prod2 ℝ} {l ε : ℝ} {n : ℕ} (hn : 0 < n) (hn1 : n ≤ 150)
    (hp : p.Close l ε) (hl : l ≤ 0) (hl1 : -4000 ≤ l) (hε : ε ≤ 4 * n * relErr) :
    ∃ L q, p.ln F = .ok L ∧ chi2Q F (F.mul (-2) L) (2 * (n : Int)) = .ok q ∧ 0 ≤ q ∧ q ≤ 1 ∧
      |q - chiSurvival (-2 * l) n| ≤ 32 * n * relErr + 1 / 10 ^ 16 := by
  obtain ⟨L, hL, hL0, M, hM0, hM, hm0, hm⟩ := Prod2.arg_err hd hF hp
  have hv := relErr_le
  have hv0 := relErr_pos
  have hη0 := absErr_pos
  have hη : absErr ≤ 1 / 10 ^ 18 := by unfold absErr; norm_num
  have hn' : (n : ℝ) ≤ 150 := by exact_mod_cast hn1
  have hn0 : (0 : ℝ) < n := by exact_mod_cast hn
  have hMl := abs_le.1 hM
  have hε1 : ε ≤ 1 := by
    refine hε.trans ?_
    calc 4 * (n : ℝ) * relErr ≤ 4 * 150 * (1 / 10 ^ 15) := by gcongr
      _ ≤ 1 := by norm_num
  have hm1 : F.div (F.mul (-2) L) 2 ≤ 5000 := by
    have h1 := (abs_le.1 hm).2
    have h2 : 10 * relErr * M ≤ 10 * (1 / 10 ^ 15) * 4001 := by
      gcongr
      linarith
    norm_num at h2 hη
    linarith
  obtain ⟨q, hq, hqe⟩ := chi2Q_err hd hn hn1 hm0 hm1
  obtain ⟨hq0, hq1⟩ := chi2Q_bounds hF (hF.nonneg (by linarith : (0 : ℝ) ≤ -2 * L)) hq
  refine ⟨L, q, hL, hq, hq0, hq1, ?_⟩
  set m := F.div (F.mul (-2) L) 2
  -- a point at a relative distance
  obtain ⟨c, hc0, hc1, hc2⟩ : ∃ c, 0 ≤ c ∧ |c - M| ≤ 10 * relErr * M ∧ |m - c| ≤ 7 * absErr := by
    have hden : 0 < 10 * relErr * M + 7 * absErr := by positivity
    refine ⟨M + (m - M) * (10 * relErr * M / (10 * relErr * M + 7 * absErr)), ?_, ?_, ?_⟩
    · have : |(m - M) * (10 * relErr * M / (10 * relErr * M + 7 * absErr))| ≤ 10 * relErr * M := by
        rw [abs_mul, abs_of_nonneg (by positivity : 0 ≤ 10 * relErr * M / (10 * relErr * M + 7 * absErr))]
        calc |m - M| * (10 * relErr * M / (10 * relErr * M + 7 * absErr))
            ≤ (10 * relErr * M + 7 * absErr) * (10 * relErr * M / (10 * relErr * M + 7 * absErr)) := by
              gcongr
          _ = _ := by field_simp
      have := (abs_le.1 this).1
      have : 10 * relErr * M ≤ M := by nlinarith
      linarith
    · rw [add_sub_cancel_left, abs_mul,
        abs_of_nonneg (by positivity : 0 ≤ 10 * relErr * M / (10 * relErr * M + 7 * absErr))]
      calc |m - M| * (10 * relErr * M / (10 * relErr * M + 7 * absErr))
          ≤ (10 * relErr * M + 7 * absErr) * (10 * relErr * M / (10 * relErr * M + 7 * absErr)) := by
            gcongr
        _ = _ := by field_simp
    · have e : m - (M + (m - M) * (10 * relErr * M / (10 * relErr * M + 7 * absErr))) =
          (m - M) * (7 * absErr / (10 * relErr * M + 7 * absErr)) := by field_simp; ring
      rw [e, abs_mul, abs_of_nonneg (by positivity : 0 ≤ 7 * absErr / (10 * relErr * M + 7 * absErr))]
      calc |m - M| * (7 * absErr / (10 * relErr * M + 7 * absErr))
          ≤ (10 * relErr * M + 7 * absErr) * (7 * absErr / (10 * relErr * M + 7 * absErr)) := by
            gcongr
        _ = _ := by field_simp
  have k1 := chiQ_lipschitz n hm0 hc0
  have k2 := chiQ_relative n hM0 (by positivity : 0 ≤ 10 * relErr) (by linarith) hc1
  have k3 := chiQ_lipschitz n hM0 (by linarith : 0 ≤ -l)
  rw [sub_neg_eq_add] at k3
  have e : chiSurvival (-2 * l) n = chiQ n (-l) := by
    rw [chiSurvival_eq]; congr 1; ring
  rw [e]
  have t1 := abs_sub_le q (chiQ n m) (chiQ n (-l))
  have t2 := abs_sub_le (chiQ n m) (chiQ n c) (chiQ n (-l))
  have t3 := abs_sub_le (chiQ n c) (chiQ n M) (chiQ n (-l))
  norm_num at hη ⊢
  nlinarith

/-- the whole combination -/
theorem combine_err (hF : F.Sound) {ps : List ℝ} (hps : ∀ p ∈ ps, 1 / 10 ^ 10 ≤ p ∧ p ≤ 1 - 1 / 10 ^ 10)
    (hn1 : ps.length ≤ 150) :
    ∃ v, combine F ps = .ok v ∧ |v.1 - indicator ps| ≤ 1 / 10 ^ 11 ∧
      (ps ≠ [] → |v.2.1 - fisher (ps.map (1 - ·))| ≤ 1 / 10 ^ 11 ∧
        |v.2.2 - fisher ps| ≤ 1 / 10 ^ 11) := by
  have hv := relErr_le
  have hv0 := relErr_pos
  have hinit : (⟨1, 0⟩ : Prod2 ℝ).Close 0 0 := ⟨by norm_num, le_rfl, le_rfl, by simp⟩
  have hS := Prod2.foldl_close hd hF (fun p => F.sub 1 p) (fun p => 1 - p) ps (fun p hp => by
    obtain ⟨h1, h2⟩ := hps p hp
    obtain ⟨-, h3, h4⟩ := rnd_log hd (a := 1 - p) (by
      refine le_trans (b := 1 / 10 ^ 10) (by norm_num) (by linarith))
    refine ⟨le_trans ?_ h4, hF.le_one (by linarith [show (0 : ℝ) < 1 / 10 ^ 10 by positivity]), h3⟩
    calc (1 : ℝ) / 10 ^ 11 ≤ 1 / 10 ^ 10 * (1 - 1 / 10 ^ 15) := by norm_num
      _ ≤ (1 - p) * (1 - relErr) := by
        have : (0 : ℝ) ≤ 1 - p := by linarith [show (0 : ℝ) < 1 / 10 ^ 10 by positivity]
        gcongr
        linarith) _ _ _ hinit
  have hH := Prod2.foldl_close hd hF (fun p => p) (fun p => p) ps (fun p hp => by
    obtain ⟨h1, h2⟩ := hps p hp
    refine ⟨le_trans (by norm_num) h1, by linarith [show (0 : ℝ) < 1 / 10 ^ 10 by positivity], ?_⟩
    simp only [sub_self, abs_zero]
    linarith) _ _ _ hinit
  simp only [zero_add] at hS hH
  have hpos : (0 : ℝ) < 1 / 10 ^ 10 := by positivity
  have hS0 := sum_log_nonpos ps (fun p => 1 - p) (fun p hp => by
    constructor <;> linarith [(hps p hp).1, (hps p hp).2])
  have hH0 := sum_log_nonpos ps (fun p => p) (fun p hp => by
    constructor <;> linarith [(hps p hp).1, (hps p hp).2])
  have hlog : ∀ x : ℝ, 1 / 10 ^ 10 ≤ x → -25 ≤ Real.log x := by
    intro x hx
    have hx0 : 0 < x := lt_of_lt_of_le hpos hx
    rw [Real.le_log_iff_exp_le hx0]
    refine le_trans ?_ hx
    rw [Real.exp_neg, inv_eq_one_div]
    gcongr
    have := Real.exp_one_gt_d9
    calc (10 : ℝ) ^ 10 ≤ 2.7 ^ 25 := by norm_num
      _ ≤ (Real.exp 1) ^ 25 := by gcongr; linarith
      _ = Real.exp 25 := by rw [← Real.exp_nat_mul]; norm_num
  have hsum : ∀ (h : ℝ → ℝ), (∀ p ∈ ps, 1 / 10 ^ 10 ≤ h p) →
      -4000 ≤ (ps.map (fun p => Real.log (h p))).sum := by
    intro h hh
    have h1 : ∀ (l : List ℝ), (∀ p ∈ l, 1 / 10 ^ 10 ≤ h p) →
        -25 * (l.length : ℝ) ≤ (l.map (fun p => Real.log (h p))).sum := by
      intro l
      induction l with
      | nil => intro _; simp
      | cons a t ih =>
        intro hl
        have := hlog _ (hl a (by simp))
        have := ih (fun p hp => hl p (by simp [hp]))
        simp only [List.map_cons, List.sum_cons, List.length_cons]
        push_cast
        linarith
    have h2 := h1 ps hh
    have h3 : (ps.length : ℝ) ≤ 150 := by exact_mod_cast hn1
    linarith
  have hS1 := hsum (fun p => 1 - p) (fun p hp => by linarith [(hps p hp).2])
  have hH1 := hsum (fun p => p) (fun p hp => (hps p hp).1)
  by_cases hn : ps = []
  · subst hn
    have e : combine F [] = .ok (F.rnd (1 / 2),
        F.add (F.log 1) (F.mul (F.rnd ((0 : Int) : ℝ)) F.ln2),
        F.add (F.log 1) (F.mul (F.rnd ((0 : Int) : ℝ)) F.ln2)) := by
      have hl1 : (⟨1, 0⟩ : Prod2 ℝ).ln F =
          .ok (F.add (F.log 1) (F.mul (F.rnd ((0 : Int) : ℝ)) F.ln2)) := by
        unfold Prod2.ln
        rw [if_neg (by norm_num)]
      unfold combine
      simp only [List.foldl_nil, hl1, bind, Except.bind]
      rfl
    refine ⟨_, e, ?_, fun h => absurd rfl h⟩
    rw [hF.half]
    simp [indicator]
  have hl : 0 < ps.length := List.length_pos_iff.2 hn
  have hl' : (ps.length : ℝ) ≤ 150 := by exact_mod_cast hn1
  obtain ⟨LS, qs, a1, a2, a3, a4, a5⟩ := Prod2.chi_err hd hF hl hn1 hS hS0 hS1 le_rfl
  obtain ⟨LH, qh, b1, b2, b3, b4, b5⟩ := Prod2.chi_err hd hF hl hn1 hH hH0 hH1 le_rfl
  have hE : 32 * (ps.length : ℝ) * relErr + 1 / 10 ^ 16 ≤ 5 / 10 ^ 12 := by
    have : 32 * (ps.length : ℝ) * relErr ≤ 32 * 150 * (1 / 10 ^ 15) := by gcongr
    norm_num at this ⊢
    linarith
  have eS : chiSurvival (-2 * (ps.map (fun p => Real.log (1 - p))).sum) ps.length =
      1 - fisher (ps.map (1 - ·)) := by
    simp [fisher, Function.comp_def]
  have eH : chiSurvival (-2 * (ps.map (fun p => Real.log p)).sum) ps.length = 1 - fisher ps := by
    simp [fisher]
  rw [eS] at a5
  rw [eH] at b5
  have hfS : combine F ps = .ok (F.div (F.add (F.sub (F.sub 1 qs) (F.sub 1 qh)) 1) 2,
      F.sub 1 qs, F.sub 1 qh) := by
    unfold combine
    simp only [a1, b1, bind, Except.bind]
    rw [if_pos hl, a2]
    simp only
    rw [b2]
  refine ⟨_, hfS, ?_⟩
  have hη0 := absErr_pos
  have hη : absErr ≤ 1 / 10 ^ 15 := by unfold absErr; norm_num
  have hr := rnd_err hd
  -- a value between -2 and 2 is rounded with a small error
  have hsmall : ∀ x : ℝ, |x| ≤ 2 → |F.rnd x - x| ≤ 3 / 10 ^ 15 := by
    intro x hx
    have h1 := hr x
    have h2 : relErr * |x| ≤ 1 / 10 ^ 15 * 2 := by gcongr
    norm_num at h2 hη ⊢
    linarith
  have cS : |F.sub 1 qs - fisher (ps.map (1 - ·))| ≤ 6 / 10 ^ 12 := by
    have h1 := hsmall (1 - qs) (by rw [abs_le]; constructor <;> linarith)
    have h2 := abs_sub_le (F.rnd (1 - qs)) (1 - qs) (fisher (ps.map (1 - ·)))
    have h3 : |1 - qs - fisher (ps.map (1 - ·))| = |qs - (1 - fisher (ps.map (1 - ·)))| := by
      rw [← abs_neg]; congr 1; ring
    change |F.rnd (1 - qs) - _| ≤ _
    norm_num at h1 hE ⊢
    linarith
  have cH : |F.sub 1 qh - fisher ps| ≤ 6 / 10 ^ 12 := by
    have h1 := hsmall (1 - qh) (by rw [abs_le]; constructor <;> linarith)
    have h2 := abs_sub_le (F.rnd (1 - qh)) (1 - qh) (fisher ps)
    have h3 : |1 - qh - fisher ps| = |qh - (1 - fisher ps)| := by
      rw [← abs_neg]; congr 1; ring
    change |F.rnd (1 - qh) - _| ≤ _
    norm_num at h1 hE ⊢
    linarith
  refine ⟨?_, fun _ => ⟨cS.trans (by norm_num), cH.trans (by norm_num)⟩⟩
  have s0 : 0 ≤ F.sub 1 qs ∧ F.sub 1 qs ≤ 1 := ⟨hF.nonneg (by linarith), hF.le_one (by linarith)⟩
  have h0 : 0 ≤ F.sub 1 qh ∧ F.sub 1 qh ≤ 1 := ⟨hF.nonneg (by linarith), hF.le_one (by linarith)⟩
  set s := F.sub 1 qs
  set h := F.sub 1 qh
  have d1 := hsmall (s - h) (by rw [abs_le]; constructor <;> linarith)
  have d1' : F.sub s h ≤ 1 ∧ -1 ≤ F.sub s h := by
    refine ⟨hF.le_one (by linarith), ?_⟩
    have := hF.mono (-1) (s - h) (by linarith)
    rw [hF.negone] at this
    exact this
  change |F.sub s h - _| ≤ _ at d1
  set w := F.sub s h
  have d2 := hsmall (w + 1) (by rw [abs_le]; constructor <;> linarith)
  change |F.add w 1 - _| ≤ _ at d2
  have d2' : 0 ≤ F.add w 1 ∧ F.add w 1 ≤ 2 := by
    refine ⟨hF.nonneg (by linarith), ?_⟩
    have := hF.mono (w + 1) 2 (by linarith)
    rw [hF.two] at this
    exact this
  set x := F.add w 1
  have d3 := hsmall (x / 2) (by rw [abs_le]; constructor <;> linarith)
  change |F.div x 2 - _| ≤ _ at d3
  have hind : indicator ps = (fisher (ps.map (1 - ·)) - fisher ps + 1) / 2 := by
    unfold indicator; rw [if_neg hn]
  rw [hind]
  simp only
  rw [abs_le] at *
  norm_num at *
  constructor <;> linarith

/-! ### The word probability -/

omit hd in
/-- `a` is `b` up to `k` relative errors -/
def Near (k a b : ℝ) : Prop := b * rexp (-(k * relErr)) ≤ a ∧ a ≤ b * rexp (k * relErr)

omit hd in
theorem Near.refl {a k : ℝ} (ha : 0 ≤ a) (hk : 0 ≤ k) : Near k a a := by
  have h : 0 ≤ k * relErr := mul_nonneg hk relErr_pos.le
  constructor
  · exact mul_le_of_le_one_right ha (Real.exp_le_one_iff.2 (by linarith))
  · exact le_mul_of_one_le_right ha (Real.one_le_exp h)

omit hd in
theorem Near.mono {j k a b : ℝ} (h : Near j a b) (hb : 0 ≤ b) (hjk : j ≤ k) : Near k a b := by
  have : j * relErr ≤ k * relErr := mul_le_mul_of_nonneg_right hjk relErr_pos.le
  exact ⟨le_trans (by gcongr) h.1, h.2.trans (by gcongr)⟩

omit hd in
theorem Near.nonneg {k a b : ℝ} (h : Near k a b) (hb : 0 ≤ b) : 0 ≤ a :=
  le_trans (by positivity) h.1

omit hd in
theorem Near.trans {j k a b c : ℝ} (h : Near j a b) (h' : Near k b c) : Near (j + k) a c := by
  constructor
  · calc c * rexp (-((j + k) * relErr)) = c * rexp (-(k * relErr)) * rexp (-(j * relErr)) := by
          rw [mul_assoc, ← Real.exp_add]; congr 2; ring
      _ ≤ b * rexp (-(j * relErr)) := by gcongr; exact h'.1
      _ ≤ a := h.1
  · calc a ≤ b * rexp (j * relErr) := h.2
      _ ≤ c * rexp (k * relErr) * rexp (j * relErr) := by gcongr; exact h'.2
      _ = c * rexp ((j + k) * relErr) := by rw [mul_assoc, ← Real.exp_add]; congr 2; ring

omit hd in
theorem Near.mul {j k a b c d : ℝ} (h : Near j a b) (h' : Near k c d) (hb : 0 ≤ b) (hd : 0 ≤ d) :
    Near (j + k) (a * c) (b * d) := by
  have ha := h.nonneg hb
  have hc := h'.nonneg hd
  constructor
  · calc b * d * rexp (-((j + k) * relErr)) =
          (b * rexp (-(j * relErr))) * (d * rexp (-(k * relErr))) := by
          rw [mul_mul_mul_comm, ← Real.exp_add]; congr 2; ring
      _ ≤ a * c := by gcongr; exacts [h.1, h'.1]
  · calc a * c ≤ (b * rexp (j * relErr)) * (d * rexp (k * relErr)) := by
          gcongr; exacts [h.2, h'.2]
      _ = b * d * rexp ((j + k) * relErr) := by
          rw [mul_mul_mul_comm, ← Real.exp_add]; congr 2; ring

omit hd in
theorem Near.inv {k c d : ℝ} (h : Near k c d) (hd : 0 < d) : Near k c⁻¹ d⁻¹ := by
  have hc : 0 < c := lt_of_lt_of_le (by positivity) h.1
  constructor
  · rw [Real.exp_neg, ← mul_inv]
    exact inv_anti₀ hc h.2
  · have e : rexp (k * relErr) = (rexp (-(k * relErr)))⁻¹ := by rw [Real.exp_neg, inv_inv]
    rw [e, ← mul_inv]
    exact inv_anti₀ (by positivity) h.1

omit hd in
theorem Near.div {j k a b c d : ℝ} (h : Near j a b) (h' : Near k c d) (hb : 0 ≤ b) (hd : 0 < d) :
    Near (j + k) (a / c) (b / d) := by
  rw [div_eq_mul_inv, div_eq_mul_inv]
  exact h.mul (h'.inv hd) hb (by positivity)

omit hd in
theorem Near.add {k a b c d : ℝ} (h : Near k a b) (h' : Near k c d) : Near k (a + c) (b + d) := by
  constructor
  · rw [add_mul]; exact add_le_add h.1 h'.1
  · rw [add_mul]; exact add_le_add h.2 h'.2

theorem near_rnd (hF : F.Sound) {a : ℝ} (h : a = 0 ∨ 1 / 10 ^ 300 ≤ a) : Near 2 (F.rnd a) a := by
  rcases h with rfl | h
  · rw [hF.zero]; exact Near.refl le_rfl (by norm_num)
  · have ha : 0 < a := lt_of_lt_of_le (by positivity) h
    obtain ⟨h1, h2, -⟩ := rnd_log hd h
    rw [abs_le] at h2
    have e : ∀ x, a * rexp x = rexp (Real.log a + x) := by
      intro x; rw [Real.exp_add, Real.exp_log ha]
    constructor
    · rw [e, ← Real.le_log_iff_exp_le h1]; linarith
    · rw [e, ← Real.log_le_iff_le_exp h1]; linarith

omit hd in
/-- what `Near` means for a number that is not tiny -/
theorem Near.big {k a b B : ℝ} (h : Near k a b) (hk : k ≤ 100) (hb : 0 ≤ b) (hB : 2 * B ≤ b) : B ≤ a := by
  refine le_trans ?_ h.1
  have h1 : k * relErr ≤ 1 / 2 := by
    have := relErr_le
    calc k * relErr ≤ 100 * (1 / 10 ^ 15) := by
          have := relErr_pos
          gcongr
      _ ≤ 1 / 2 := by norm_num
  have h2 : 1 / 2 ≤ rexp (-(k * relErr)) := by
    have := Real.add_one_le_exp (-(k * relErr))
    linarith
  nlinarith

omit hd in
theorem Near.abs {k a b : ℝ} (h : Near k a b) (hk0 : 0 ≤ k) (hk : k ≤ 20) (hb : 0 ≤ b) :
    |a - b| ≤ 1 / 10 ^ 13 * b := by
  have hv := relErr_le
  have hv0 := relErr_pos
  have h1 : k * relErr ≤ 2 / 10 ^ 14 := by
    calc k * relErr ≤ 20 * (1 / 10 ^ 15) := by gcongr
      _ ≤ 2 / 10 ^ 14 := by norm_num
  have h0 : 0 ≤ k * relErr := by positivity
  have h2 : 1 - 1 / 10 ^ 13 ≤ rexp (-(k * relErr)) := by
    have := Real.add_one_le_exp (-(k * relErr))
    norm_num at h1 ⊢
    linarith
  have h3 : rexp (k * relErr) ≤ 1 + 1 / 10 ^ 13 := by
    have h4 : 0 < rexp (-(k * relErr)) := Real.exp_pos _
    have h5 : rexp (k * relErr) = 1 / rexp (-(k * relErr)) := by
      rw [Real.exp_neg, one_div, inv_inv]
    rw [h5, div_le_iff₀ h4]
    have h6 : 1 - 2 / 10 ^ 14 ≤ rexp (-(k * relErr)) := by
      have := Real.add_one_le_exp (-(k * relErr))
      linarith
    norm_num at h6 ⊢
    linarith
  rw [abs_le]
  have a1 := mul_le_mul_of_nonneg_left h2 hb
  have a2 := mul_le_mul_of_nonneg_left h3 hb
  obtain ⟨b1, b2⟩ := h
  constructor <;> linarith

/-- the word probability of a record that fits the totals -/
theorem freshProbability_err (hF : F.Sound) {ns nh : Int} {r : WordInfo} (hs : 0 ≤ r.spamcount)
    (hh : 0 ≤ r.hamcount) (hnz : r.spamcount ≠ 0 ∨ r.hamcount ≠ 0)
    (hs1 : r.spamcount ≤ if ns = 0 then 1 else ns) (hh1 : r.hamcount ≤ if nh = 0 then 1 else nh)
    (hns : ns ≤ 10 ^ 9) (hnh : nh ≤ 10 ^ 9) :
    ∃ p, freshProbability F ns nh r = .ok p ∧
      |p - robinson ns nh r.spamcount r.hamcount| ≤
        1 / 10 ^ 13 * robinson ns nh r.spamcount r.hamcount ∧
      1 / 10 ^ 10 ≤ p ∧ p ≤ 1 - 1 / 10 ^ 10 := by
  obtain ⟨-, hp0, hp1⟩ := freshProbability_exact hs hh hnz hs1 hh1
  unfold freshProbability
  set nh' := if nh = 0 then (1 : Int) else nh with hnh'
  set ns' := if ns = 0 then (1 : Int) else ns with hns'
  have pnh : 0 < nh' := by
    have : nh' ≠ 0 := by rw [hnh']; split <;> omega
    omega
  have pns : 0 < ns' := by
    have : ns' ≠ 0 := by rw [hns']; split <;> omega
    omega
  have bnh : nh' ≤ 10 ^ 9 := by rw [hnh']; split <;> omega
  have bns : ns' ≤ 10 ^ 9 := by rw [hns']; split <;> omega
  have erob : robinson ns nh r.spamcount r.hamcount =
      (0.45 * 0.5 + ((r.hamcount : ℝ) + r.spamcount) * (((r.spamcount : ℝ) / ns') /
        ((r.hamcount : ℝ) / nh' + (r.spamcount : ℝ) / ns'))) / (0.45 + (r.hamcount + r.spamcount)) := by
    unfold robinson
    simp only [← hnh', ← hns']
  rw [erob] at hp0 hp1 ⊢
  have qnh : (0 : ℝ) < (nh' : ℝ) := by exact_mod_cast pnh
  have qns : (0 : ℝ) < (ns' : ℝ) := by exact_mod_cast pns
  have cnh : (nh' : ℝ) ≤ 10 ^ 9 := by exact_mod_cast bnh
  have cns : (ns' : ℝ) ≤ 10 ^ 9 := by exact_mod_cast bns
  have qh : (0 : ℝ) ≤ (r.hamcount : ℝ) := by exact_mod_cast hh
  have qs : (0 : ℝ) ≤ (r.spamcount : ℝ) := by exact_mod_cast hs
  have qh1 : (r.hamcount : ℝ) ≤ nh' := by exact_mod_cast hh1
  have qs1 : (r.spamcount : ℝ) ≤ ns' := by exact_mod_cast hs1
  have dh : (r.hamcount : ℝ) = 0 ∨ (1 : ℝ) ≤ r.hamcount := by
    rcases eq_or_lt_of_le hh with h | h
    · left; rw [← h]; simp
    · right; exact_mod_cast h
  have ds : (r.spamcount : ℝ) = 0 ∨ (1 : ℝ) ≤ r.spamcount := by
    rcases eq_or_lt_of_le hs with h | h
    · left; rw [← h]; simp
    · right; exact_mod_cast h
  have dsum : (1 : ℝ) ≤ r.hamcount + r.spamcount := by
    have : (1 : Int) ≤ r.hamcount + r.spamcount := by omega
    exact_mod_cast this
  simp only
  rw [if_neg (by omega), if_neg (by omega)]
  have en : ((r.hamcount + r.spamcount : Int) : ℝ) = r.hamcount + r.spamcount := by push_cast; ring
  rw [en]
  generalize (r.hamcount : ℝ) = h at *
  generalize (r.spamcount : ℝ) = s at *
  generalize (nh' : ℝ) = N at *
  generalize (ns' : ℝ) = S at *
  -- the ratios
  have rh0 : 0 ≤ h / N := by positivity
  have rs0 : 0 ≤ s / S := by positivity
  have rh : h / N = 0 ∨ 1 / 10 ^ 9 ≤ h / N := by
    rcases dh with h0 | h0
    · left; rw [h0]; simp
    · right
      calc (1 : ℝ) / 10 ^ 9 ≤ 1 / N := by gcongr
        _ ≤ h / N := by gcongr
  have rs : s / S = 0 ∨ 1 / 10 ^ 9 ≤ s / S := by
    rcases ds with h0 | h0
    · left; rw [h0]; simp
    · right
      calc (1 : ℝ) / 10 ^ 9 ≤ 1 / S := by gcongr
        _ ≤ s / S := by gcongr
  have rh1 : h / N ≤ 1 := by rw [div_le_one qnh]; exact qh1
  have rs1 : s / S ≤ 1 := by rw [div_le_one qns]; exact qs1
  have rden : 1 / 10 ^ 9 ≤ h / N + s / S := by
    rcases dh with h0 | h0
    · rcases rs with h1 | h1
      · exfalso
        rw [div_eq_zero_iff] at h1
        rcases h1 with h1 | h1 <;> linarith
      · linarith
    · rcases rh with h1 | h1
      · exfalso
        rw [div_eq_zero_iff] at h1
        rcases h1 with h1 | h1 <;> linarith
      · linarith
  have weak : ∀ {x : ℝ}, 1 / 10 ^ 20 ≤ x → 1 / 10 ^ 300 ≤ x := fun hx => le_trans (by norm_num) hx
  have weak9 : ∀ {x : ℝ}, (x = 0 ∨ 1 / 10 ^ 9 ≤ x) → (x = 0 ∨ 1 / 10 ^ 300 ≤ x) := by
    rintro x (h | h)
    · exact .inl h
    · exact .inr (le_trans (by norm_num) h)
  have nh2 := near_rnd hd hF (weak9 rh)
  have ns2 := near_rnd hd hF (weak9 rs)
  have nsum := nh2.add ns2
  have nden : Near 4 (F.add (F.rnd (h / N)) (F.rnd (s / S))) (h / N + s / S) := by
    have := (near_rnd hd hF (.inr (weak (nsum.big (B := 1 / 10 ^ 20) (by norm_num) (by linarith)
      (le_trans (by norm_num) rden))))).trans nsum
    norm_num at this
    exact this
  have denpos : 0 < h / N + s / S := lt_of_lt_of_le (by norm_num) rden
  have den1 : F.add (F.rnd (h / N)) (F.rnd (s / S)) ≠ 0 := by
    have := nden.big (B := 1 / 10 ^ 20) (by norm_num) denpos.le (le_trans (by norm_num) rden)
    exact (lt_of_lt_of_le (by norm_num) this).ne'
  rw [if_neg den1]
  -- the raw probability
  have hp0' : 0 ≤ (s / S) / (h / N + s / S) := by positivity
  have np : Near 8 (F.div (F.rnd (s / S)) (F.add (F.rnd (h / N)) (F.rnd (s / S))))
      ((s / S) / (h / N + s / S)) := by
    have h1 := ns2.div nden rs0 denpos
    have h2 : F.rnd (s / S) / F.add (F.rnd (h / N)) (F.rnd (s / S)) = 0 ∨
        1 / 10 ^ 300 ≤ F.rnd (s / S) / F.add (F.rnd (h / N)) (F.rnd (s / S)) := by
      rcases rs with h3 | h3
      · left; rw [h3, hF.zero]; simp
      · right
        refine weak (h1.big (B := 1 / 10 ^ 20) (by norm_num) hp0' ?_)
        rw [le_div_iff₀ denpos]
        norm_num at h3 ⊢
        linarith
    have := (near_rnd hd hF h2).trans h1
    norm_num at this
    exact this
  set P := F.div (F.rnd (s / S)) (F.add (F.rnd (h / N)) (F.rnd (s / S)))
  -- the constants
  have n45 : Near 2 (unknownWordStrength F) 0.45 := by
    have := near_rnd hd hF (a := 45 / 100) (.inr (by norm_num))
    have e : (0.45 : ℝ) = 45 / 100 := by norm_num
    rw [e]
    exact this
  have e5 : unknownWordProb F = 0.5 := by
    unfold unknownWordProb; rw [hF.half]; norm_num
  have nsx : Near 4 (F.mul (unknownWordStrength F) (unknownWordProb F)) (0.45 * 0.5) := by
    have h1 := n45.mul (Near.refl (a := (0.5 : ℝ)) (k := 0) (by norm_num) le_rfl) (by norm_num) (by norm_num)
    rw [e5]
    have := (near_rnd hd hF (.inr (weak (h1.big (B := 1 / 10 ^ 20) (by norm_num) (by norm_num)
      (by norm_num))))).trans h1
    norm_num at this ⊢
    exact this
  have nn : Near 2 (F.rnd (h + s)) (h + s) := near_rnd hd hF (.inr (le_trans (by norm_num) dsum))
  have nden2 : Near 4 (F.add (unknownWordStrength F) (F.rnd (h + s))) (0.45 + (h + s)) := by
    have h1 := n45.add nn
    have := (near_rnd hd hF (.inr (weak (h1.big (B := 1 / 10 ^ 20) (by norm_num) (by linarith)
      (by norm_num; linarith))))).trans h1
    norm_num at this ⊢
    exact this
  have den2 : F.add (unknownWordStrength F) (F.rnd (h + s)) ≠ 0 := by
    have := nden2.big (B := 1 / 10 ^ 20) (by norm_num) (by linarith) (by norm_num; linarith)
    exact (lt_of_lt_of_le (by norm_num) this).ne'
  rw [if_neg den2]
  have nmul : Near 12 (F.mul (F.rnd (h + s)) P) ((h + s) * ((s / S) / (h / N + s / S))) := by
    have h1 := nn.mul np (by linarith) hp0'
    have h2 : F.rnd (h + s) * P = 0 ∨ 1 / 10 ^ 300 ≤ F.rnd (h + s) * P := by
      rcases rs with h3 | h3
      · left
        have : P = 0 := by
          change F.rnd (F.rnd (s / S) / _) = 0
          rw [h3, hF.zero, zero_div, hF.zero]
        rw [this, mul_zero]
      · right
        refine weak (h1.big (B := 1 / 10 ^ 20) (by norm_num) (by positivity) ?_)
        have : 2 * (1 / 10 ^ 20) ≤ (s / S) / (h / N + s / S) := by
          rw [le_div_iff₀ denpos]
          norm_num at h3 ⊢
          linarith
        calc (2 : ℝ) * (1 / 10 ^ 20) ≤ 1 * ((s / S) / (h / N + s / S)) := by rw [one_mul]; exact this
          _ ≤ _ := by gcongr
    have := (near_rnd hd hF h2).trans h1
    norm_num at this
    exact this
  have hnum0 : (0 : ℝ) ≤ (h + s) * ((s / S) / (h / N + s / S)) := by positivity
  have nadd : Near 14 (F.add (F.mul (unknownWordStrength F) (unknownWordProb F))
      (F.mul (F.rnd (h + s)) P)) (0.45 * 0.5 + (h + s) * ((s / S) / (h / N + s / S))) := by
    have h1 := (nsx.mono (by norm_num) (by norm_num : (4 : ℝ) ≤ 12)).add nmul
    have := (near_rnd hd hF (.inr (weak (h1.big (B := 1 / 10 ^ 20) (by norm_num) (by linarith)
      (by norm_num; linarith))))).trans h1
    norm_num at this ⊢
    exact this
  have hden2 : (0 : ℝ) < 0.45 + (h + s) := by linarith
  -- bounds of the exact value
  have pr1 : (s / S) / (h / N + s / S) ≤ 1 := by
    rw [div_le_one denpos]; linarith
  have low : 1.1 / 10 ^ 10 ≤ (0.45 * 0.5 + (h + s) * ((s / S) / (h / N + s / S))) / (0.45 + (h + s)) := by
    rw [le_div_iff₀ hden2]
    norm_num
    linarith
  have high : (0.45 * 0.5 + (h + s) * ((s / S) / (h / N + s / S))) / (0.45 + (h + s)) ≤ 1 - 1.1 / 10 ^ 10 := by
    rw [div_le_iff₀ hden2]
    have : (h + s) * ((s / S) / (h / N + s / S)) ≤ (h + s) * 1 := by
      gcongr
    norm_num at this ⊢
    linarith
  have nfin : Near 20 (F.div (F.add (F.mul (unknownWordStrength F) (unknownWordProb F))
      (F.mul (F.rnd (h + s)) P)) (F.add (unknownWordStrength F) (F.rnd (h + s))))
      ((0.45 * 0.5 + (h + s) * ((s / S) / (h / N + s / S))) / (0.45 + (h + s))) := by
    have h1 := nadd.div nden2 (by linarith) hden2
    have := (near_rnd hd hF (.inr (weak (h1.big (B := 1 / 10 ^ 20) (by norm_num) hp0.le
      (le_trans (by norm_num) low))))).trans h1
    norm_num at this ⊢
    exact this
  refine ⟨_, rfl, nfin.abs (by norm_num) le_rfl hp0.le, ?_⟩
  have := abs_le.1 (nfin.abs (by norm_num) le_rfl hp0.le)
  generalize (0.45 * 0.5 + (h + s) * ((s / S) / (h / N + s / S))) / (0.45 + (h + s)) = x at *
  norm_num at *
  constructor <;> linarith

end

end Sb
