import Verif.Model.Float
import Mathlib.Analysis.SpecialFunctions.Log.Basic
import Mathlib.Analysis.SpecialFunctions.Exp
import Mathlib.Data.Int.Log

/-
Two platforms for the floating-point model of Model/Float.lean: exact real
arithmetic (for statements about what the formulas of
sbclassifier/classifiers/basic.py l.109-130, l.212-278, l.352-415 compute), and
a fixed-point platform that really rounds.
-/

namespace Sb

/-- Arithmetic without rounding; `frexp` as documented for `math.frexp` (used
in basic.py l.244, l.247). -/
noncomputable def exactReal : FloatOps ℝ where
  rnd := id
  exp := Real.exp
  log := Real.log
  frexp x := if x = 0 then (0, 0) else (x / 2 ^ (Int.log 2 |x| + 1), Int.log 2 |x| + 1)
  ln2 := Real.log 2

theorem exactReal_sound : exactReal.Sound where
  mono _ _ h := h
  idem _ := rfl
  zero := rfl
  one := rfl
  negone := rfl
  two := rfl
  half := rfl
  tenth_pos := by norm_num [exactReal]
  exp_nonneg a _ := (Real.exp_pos a).le
  exp_le_one _ h := Real.exp_le_one_iff.2 h
  exp_zero := Real.exp_zero
  log_nonpos _ h0 h1 := Real.log_nonpos h0.le h1
  ln2_nonneg := Real.log_nonneg (by norm_num)
  frexp_pos a h0 _ := by
    simp only [exactReal, if_neg h0.ne']
    positivity
  frexp_lt a h0 _ := by
    simp only [exactReal, if_neg h0.ne', abs_of_pos h0]
    rw [div_lt_one (by positivity)]
    exact_mod_cast Int.lt_zpow_succ_log_self (R := ℝ) (b := 2) (by norm_num) a
  frexp_exp a h0 h1 := by
    simp only [exactReal, if_neg h0.ne', abs_of_pos h0]
    have : Int.log 2 a < 0 := by
      have := Int.lt_zpow_iff_log_lt (R := ℝ) (b := 2) (by norm_num) (x := 0) h0
      rw [← this]; simpa using h1
    omega
  frexp_zero := by simp [exactReal]

/-- The unit in the last place of a 53-bit significand at `x`. -/
noncomputable def ulp53 (x : ℝ) : ℝ := 2 ^ (Int.log 2 |x| - 52)

/-- Rounding down to a number with a 53-bit significand (IEEE binary64 rounding
towards minus infinity, with unbounded exponent). -/
noncomputable def round53 (x : ℝ) : ℝ := if x = 0 then 0 else ⌊x / ulp53 x⌋ * ulp53 x

/-- A platform that rounds every result, those of `exp` and `log` included, to
53 bits. -/
noncomputable def float53 : FloatOps ℝ where
  rnd := round53
  exp x := round53 (Real.exp x)
  log x := round53 (Real.log x)
  frexp := exactReal.frexp
  ln2 := round53 (Real.log 2)

/-- numbers with a 53-bit significand -/
def Rep53 (y : ℝ) : Prop := ∃ m k : ℤ, |m| ≤ 2 ^ 53 ∧ y = m * 2 ^ k

theorem ulp53_pos (x : ℝ) : 0 < ulp53 x := by unfold ulp53; positivity

theorem round53_le (x : ℝ) : round53 x ≤ x := by
  unfold round53
  split
  · simp_all
  · have := Int.floor_le (x / ulp53 x)
    exact (le_div_iff₀ (ulp53_pos x)).1 this

theorem two_zpow_log_le {x : ℝ} (h : x ≠ 0) : (2 : ℝ) ^ Int.log 2 |x| ≤ |x| := by
  exact_mod_cast Int.zpow_log_le_self (R := ℝ) (b := 2) (by norm_num) (abs_pos.2 h)

theorem lt_two_zpow_log {x : ℝ} : |x| < (2 : ℝ) ^ (Int.log 2 |x| + 1) := by
  exact_mod_cast Int.lt_zpow_succ_log_self (R := ℝ) (b := 2) (by norm_num) |x|

theorem abs_div_ulp53_lt {x : ℝ} : |x / ulp53 x| < 2 ^ 53 := by
  rw [abs_div, abs_of_pos (ulp53_pos x), div_lt_iff₀ (ulp53_pos x)]
  have := lt_two_zpow_log (x := x)
  have e : (2 : ℝ) ^ 53 * ulp53 x = 2 ^ (Int.log 2 |x| + 1) := by
    unfold ulp53
    rw [← zpow_natCast, ← zpow_add₀ (by norm_num)]
    congr 1; push_cast; ring
  rw [e]; exact this

theorem round53_rep (x : ℝ) : Rep53 (round53 x) := by
  unfold round53
  split
  · exact ⟨0, 0, by norm_num, by simp⟩
  · refine ⟨⌊x / ulp53 x⌋, _, ?_, rfl⟩
    have h := abs_lt.1 (abs_div_ulp53_lt (x := x))
    rw [abs_le]
    constructor
    · rw [Int.le_floor]; push_cast; linarith
    · have : (⌊x / ulp53 x⌋ : ℝ) ≤ 2 ^ 53 := (Int.floor_le _).trans h.2.le
      exact_mod_cast this

/-- on the grid of `x`, rounding down is optimal -/
theorem le_round53_grid {x y : ℝ} (hx : x ≠ 0) {m k : ℤ} (hk : Int.log 2 |x| - 52 ≤ k)
    (hy : y = m * 2 ^ k) (h : y ≤ x) : y ≤ round53 x := by
  unfold round53
  rw [if_neg hx]
  obtain ⟨j, hj⟩ := Int.eq_ofNat_of_zero_le (sub_nonneg.2 hk)
  have e : y = ((m * 2 ^ j : ℤ) : ℝ) * ulp53 x := by
    rw [hy, ulp53]; push_cast
    rw [mul_assoc, ← zpow_natCast, ← zpow_add₀ (by norm_num)]
    congr 2; omega
  rw [e]
  apply mul_le_mul_of_nonneg_right _ (ulp53_pos x).le
  have : (m * 2 ^ j : ℤ) ≤ ⌊x / ulp53 x⌋ := by
    rw [Int.le_floor, le_div_iff₀ (ulp53_pos x), ← e]; exact h
  exact_mod_cast this

theorem le_round53 {x y : ℝ} (hy : Rep53 y) (h : y ≤ x) : y ≤ round53 x := by
  obtain ⟨m, k, hm, rfl⟩ := hy
  by_cases hx : x = 0
  · subst hx; simpa [round53] using h
  by_cases hk : Int.log 2 |x| - 52 ≤ k
  · exact le_round53_grid hx hk rfl h
  · push Not at hk
    have hmr : |(m : ℝ)| ≤ 2 ^ 53 := by
      have : ((|m| : ℤ) : ℝ) ≤ ((2 ^ 53 : ℤ) : ℝ) := by exact_mod_cast hm
      norm_num at this ⊢; exact this
    have habs : |(m : ℝ) * 2 ^ k| ≤ 2 ^ (Int.log 2 |x|) := by
      rw [abs_mul, abs_of_pos (by positivity : (0 : ℝ) < 2 ^ k)]
      calc |(m : ℝ)| * 2 ^ k ≤ 2 ^ 53 * 2 ^ k := by gcongr
        _ = 2 ^ (53 + k) := by rw [zpow_add₀ (by norm_num)]; norm_cast
        _ ≤ 2 ^ (Int.log 2 |x|) := zpow_le_zpow_right₀ (by norm_num) (by omega)
    rcases lt_or_gt_of_ne hx with hneg | hpos
    · have h1 := two_zpow_log_le hx
      have h2 : |x| ≤ |(m : ℝ) * 2 ^ k| := by
        rw [abs_of_neg hneg]
        have := neg_le_abs ((m : ℝ) * 2 ^ k)
        linarith
      have e : |x| = 2 ^ (Int.log 2 |x|) := le_antisymm (h2.trans habs) h1
      have e2 : x = (-1 : ℤ) * 2 ^ (Int.log 2 |x|) := by
        rw [← e, abs_of_neg hneg]; push_cast; ring
      refine h.trans ?_
      exact le_round53_grid hx (by omega) e2 le_rfl
    · have h1 := two_zpow_log_le hx
      rw [abs_of_pos hpos] at h1 habs
      refine (le_abs_self _).trans (habs.trans ?_)
      refine le_round53_grid (m := 1) (k := Int.log 2 x) hx ?_ (by push_cast; ring) h1
      rw [abs_of_pos hpos]; omega

theorem round53_mono {a b : ℝ} (h : a ≤ b) : round53 a ≤ round53 b :=
  le_round53 (round53_rep a) ((round53_le a).trans h)

theorem round53_of_rep {a : ℝ} (h : Rep53 a) : round53 a = a :=
  le_antisymm (round53_le a) (le_round53 h le_rfl)

theorem round53_pos {a : ℝ} (h : 0 < a) : 0 < round53 a := by
  have h1 := two_zpow_log_le h.ne'
  rw [abs_of_pos h] at h1
  refine lt_of_lt_of_le (b := (2 : ℝ) ^ Int.log 2 a) (by positivity) ?_
  exact le_round53 ⟨1, Int.log 2 a, by norm_num, by norm_num⟩ h1

theorem float53_sound : float53.Sound where
  mono _ _ h := round53_mono h
  idem a := round53_of_rep (round53_rep a)
  zero := by simp [float53, round53]
  one := round53_of_rep ⟨1, 0, by norm_num, by norm_num⟩
  negone := round53_of_rep ⟨-1, 0, by norm_num, by norm_num⟩
  two := round53_of_rep ⟨2, 0, by norm_num, by norm_num⟩
  half := round53_of_rep ⟨1, -1, by norm_num, by norm_num⟩
  tenth_pos := round53_pos (by norm_num)
  exp_nonneg a _ := le_round53 ⟨0, 0, by norm_num, by norm_num⟩ (Real.exp_pos a).le
  exp_le_one a h := (round53_le _).trans (Real.exp_le_one_iff.2 h)
  exp_zero := by
    simp only [float53, Real.exp_zero]
    exact round53_of_rep ⟨1, 0, by norm_num, by norm_num⟩
  log_nonpos a h0 h1 := (round53_le _).trans (Real.log_nonpos h0.le h1)
  ln2_nonneg := le_round53 ⟨0, 0, by norm_num, by norm_num⟩ (Real.log_nonneg (by norm_num))
  frexp_pos := exactReal_sound.frexp_pos
  frexp_lt := exactReal_sound.frexp_lt
  frexp_exp := exactReal_sound.frexp_exp
  frexp_zero := exactReal_sound.frexp_zero

end Sb
