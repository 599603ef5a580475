import Verif.Model.Exact

/-
What IEEE double arithmetic promises about accuracy, as a hypothesis on a
platform of Model/Float.lean: every operation of basic.py l.109-130, l.234-270,
l.375-407 is within one unit in the last place of the exact result, or within
10^-320 of it where the result underflows (the smallest positive double is
about 4.9 * 10^-324).
-/

set_option exponentiation.threshold 2000

namespace Sb

/-- A platform as accurate as IEEE doubles.  `math.exp` and `math.log` are
allowed the same error as an arithmetic operation; `math.frexp` is exact. -/
structure FloatOps.Double (F : FloatOps ℝ) : Prop where
  rnd : ∀ a, |F.rnd a - a| ≤ 1 / 2 ^ 52 * |a| + 1 / 10 ^ 320
  exp : ∀ a, a ≤ 0 → |F.exp a - Real.exp a| ≤ 1 / 2 ^ 52 * Real.exp a + 1 / 10 ^ 320
  log : ∀ a, 0 < a → |F.log a - Real.log a| ≤ 1 / 2 ^ 52 * |Real.log a| + 1 / 10 ^ 320
  ln2 : |F.ln2 - Real.log 2| ≤ 1 / 2 ^ 52 * Real.log 2
  frexp : ∀ a, 0 < a → a < 1 → 1 / 2 ≤ (F.frexp a).1 ∧ (F.frexp a).1 * 2 ^ (F.frexp a).2 = a

theorem round53_close (x : ℝ) : |round53 x - x| ≤ 1 / 2 ^ 52 * |x| := by
  unfold round53
  split
  · simp_all
  · rename_i hx
    have h1 := Int.floor_le (x / ulp53 x)
    have h2 := Int.lt_floor_add_one (x / ulp53 x)
    have hu := ulp53_pos x
    rw [le_div_iff₀ hu] at h1
    rw [div_lt_iff₀ hu] at h2
    have h3 : ulp53 x ≤ 1 / 2 ^ 52 * |x| := by
      have := two_zpow_log_le hx
      have e : ulp53 x = 1 / 2 ^ 52 * 2 ^ Int.log 2 |x| := by
        unfold ulp53
        rw [zpow_sub₀ (by norm_num)]
        norm_num
        ring
      rw [e]
      gcongr
    rw [abs_le]
    constructor <;> nlinarith

theorem float53_double : float53.Double where
  rnd a := (round53_close a).trans (by simp)
  exp a _ := by
    have := round53_close (Real.exp a)
    rw [abs_of_pos (Real.exp_pos a)] at this
    exact this.trans (by simp)
  log a _ := (round53_close (Real.log a)).trans (by simp)
  ln2 := by
    have := round53_close (Real.log 2)
    rwa [abs_of_pos (Real.log_pos (by norm_num))] at this
  frexp a h0 _ := by
    simp only [float53, exactReal, if_neg h0.ne']
    refine ⟨?_, by field_simp⟩
    have h1 := two_zpow_log_le h0.ne'
    rw [le_div_iff₀ (by positivity), zpow_add₀ (by norm_num)]
    rw [abs_of_pos h0] at *
    norm_num
    linarith

/-! ### IEEE binary64, round to nearest, ties to even, with gradual underflow -/

/-- The integer nearest to `y`, the even one in case of a tie. -/
noncomputable def roundEven (y : ℝ) : ℤ :=
  if y - ⌊y⌋ < 1 / 2 then ⌊y⌋
  else if 1 / 2 < y - ⌊y⌋ then ⌊y⌋ + 1
  else if Even ⌊y⌋ then ⌊y⌋ else ⌊y⌋ + 1

theorem roundEven_floor (y : ℝ) : ⌊y⌋ ≤ roundEven y ∧ roundEven y ≤ ⌊y⌋ + 1 := by
  unfold roundEven; split_ifs <;> omega

theorem roundEven_close (y : ℝ) : |(roundEven y : ℝ) - y| ≤ 1 / 2 := by
  have h1 := Int.floor_le y
  have h2 := Int.lt_floor_add_one y
  unfold roundEven
  rw [abs_le]
  split_ifs <;> push_cast <;> constructor <;> linarith

theorem roundEven_mono {x y : ℝ} (h : x ≤ y) : roundEven x ≤ roundEven y := by
  rcases eq_or_lt_of_le (Int.floor_mono h) with he | hl
  · have e : (⌊x⌋ : ℝ) = ⌊y⌋ := by exact_mod_cast he
    unfold roundEven
    rw [he]
    split_ifs <;> first | omega | (exfalso; linarith)
  · have := (roundEven_floor x).2
    have := (roundEven_floor y).1
    omega

theorem roundEven_int (k : ℤ) : roundEven (k : ℝ) = k := by
  unfold roundEven
  rw [Int.floor_intCast]
  norm_num

/-- The exponent of the last place of a double near `x`: 53 bits, but not below
2^-1074. -/
noncomputable def exp64 (x : ℝ) : ℤ := max (Int.log 2 |x| - 52) (-1074)

/-- Rounding to binary64 (with unbounded exponents above). -/
noncomputable def round64 (x : ℝ) : ℝ := roundEven (x / 2 ^ exp64 x) * 2 ^ exp64 x

/-- IEEE binary64 arithmetic (overflow apart), with correctly rounded exp and log. -/
noncomputable def float64 : FloatOps ℝ where
  rnd := round64
  exp x := round64 (Real.exp x)
  log x := round64 (Real.log x)
  frexp := exactReal.frexp
  ln2 := round64 (Real.log 2)

theorem round64_grid {x b : ℝ} {m k : ℤ} (hk : exp64 x ≤ k) (hb : b = m * 2 ^ k) :
    (b ≤ x → b ≤ round64 x) ∧ (x ≤ b → round64 x ≤ b) := by
  have hu : (0 : ℝ) < 2 ^ exp64 x := by positivity
  obtain ⟨j, hj⟩ := Int.eq_ofNat_of_zero_le (sub_nonneg.2 hk)
  have e : b = ((m * 2 ^ j : ℤ) : ℝ) * 2 ^ exp64 x := by
    rw [hb]; push_cast
    rw [mul_assoc, ← zpow_natCast, ← zpow_add₀ (by norm_num)]
    congr 2; omega
  have e2 : b / 2 ^ exp64 x = ((m * 2 ^ j : ℤ) : ℝ) := by rw [e]; field_simp
  unfold round64
  constructor
  · intro h
    have h1 := roundEven_mono (div_le_div_of_nonneg_right h hu.le)
    rw [e2, roundEven_int] at h1
    rw [e]
    gcongr
  · intro h
    have h1 := roundEven_mono (div_le_div_of_nonneg_right h hu.le)
    rw [e2, roundEven_int] at h1
    rw [e]
    gcongr

theorem exp64_mono {x y : ℝ} (hx : x ≠ 0) (h : |x| ≤ |y|) : exp64 x ≤ exp64 y := by
  have := Int.log_mono_right (b := 2) (abs_pos.2 hx) h
  unfold exp64; omega

theorem round64_zero : round64 0 = 0 := by
  unfold round64
  have := roundEven_int 0
  simp only [Int.cast_zero] at this
  simp [this]

/-- crossing a power of two -/
theorem between64 {x y : ℝ} (hy : y ≠ 0) (h : exp64 x < exp64 y) :
    |x| ≤ 2 ^ Int.log 2 |y| ∧ (2 : ℝ) ^ Int.log 2 |y| ≤ |y| ∧ exp64 y ≤ Int.log 2 |y| ∧
      exp64 x ≤ Int.log 2 |y| := by
  have hlog : Int.log 2 |x| < Int.log 2 |y| := by unfold exp64 at h; omega
  refine ⟨?_, two_zpow_log_le hy, by unfold exp64 at *; omega, by unfold exp64 at *; omega⟩
  refine (lt_two_zpow_log (x := x)).le.trans ?_
  exact zpow_le_zpow_right₀ (by norm_num) (by omega)

theorem round64_same {x y : ℝ} (h : x ≤ y) (he : exp64 x = exp64 y) : round64 x ≤ round64 y := by
  unfold round64
  rw [he]
  have := roundEven_mono (div_le_div_of_nonneg_right h (by positivity : (0 : ℝ) ≤ 2 ^ exp64 y))
  gcongr

theorem round64_nonneg {x : ℝ} (h : 0 ≤ x) : 0 ≤ round64 x :=
  (round64_grid (m := 0) (k := exp64 x) le_rfl (by simp)).1 h

theorem round64_nonpos {x : ℝ} (h : x ≤ 0) : round64 x ≤ 0 :=
  (round64_grid (m := 0) (k := exp64 x) le_rfl (by simp)).2 h

theorem round64_mono {x y : ℝ} (h : x ≤ y) : round64 x ≤ round64 y := by
  rcases le_total x 0 with hx | hx
  · rcases le_total 0 y with hy | hy
    · exact (round64_nonpos hx).trans (round64_nonneg hy)
    · -- both negative
      rcases eq_or_ne y 0 with rfl | hy0
      · rw [round64_zero]; exact round64_nonpos hx
      have hx0 : x ≠ 0 := by rintro rfl; exact hy0 (le_antisymm hy h)
      have hab : |y| ≤ |x| := by rw [abs_of_nonpos hx, abs_of_nonpos hy]; linarith
      rcases eq_or_lt_of_le (exp64_mono hy0 hab) with he | hl
      · exact round64_same h he.symm
      · obtain ⟨h1, h2, h3, h4⟩ := between64 hx0 hl
        rw [abs_of_nonpos hy] at h1
        rw [abs_of_nonpos hx] at h1 h2 h3 h4
        have g1 := (round64_grid (x := x) (b := -2 ^ Int.log 2 (-x)) (m := -1) (k := Int.log 2 (-x))
          h3 (by push_cast; ring)).2 (by linarith)
        have g2 := (round64_grid (x := y) (b := -2 ^ Int.log 2 (-x)) (m := -1) (k := Int.log 2 (-x))
          h4 (by push_cast; ring)).1 (by linarith)
        exact g1.trans g2
  · have hy := hx.trans h
    rcases eq_or_ne x 0 with rfl | hx0
    · rw [round64_zero]; exact round64_nonneg hy
    have hy0 : y ≠ 0 := by rintro rfl; exact hx0 (le_antisymm h hx)
    have hab : |x| ≤ |y| := by rw [abs_of_nonneg hx, abs_of_nonneg hy]; exact h
    rcases eq_or_lt_of_le (exp64_mono hx0 hab) with he | hl
    · exact round64_same h he
    · obtain ⟨h1, h2, h3, h4⟩ := between64 hy0 hl
      rw [abs_of_nonneg hx] at h1
      rw [abs_of_nonneg hy] at h1 h2 h3 h4
      have g1 := (round64_grid (x := x) (b := 2 ^ Int.log 2 y) (m := 1) (k := Int.log 2 y)
        h4 (by push_cast; ring)).2 h1
      have g2 := (round64_grid (x := y) (b := 2 ^ Int.log 2 y) (m := 1) (k := Int.log 2 y)
        h3 (by push_cast; ring)).1 h2
      exact g1.trans g2

theorem round64_fixed {y : ℝ} {m k : ℤ} (hk : exp64 y ≤ k) (hy : y = m * 2 ^ k) : round64 y = y :=
  le_antisymm ((round64_grid hk hy).2 le_rfl) ((round64_grid hk hy).1 le_rfl)

theorem round64_idem (x : ℝ) : round64 (round64 x) = round64 x := by
  set y := round64 x with hy
  rcases eq_or_ne y 0 with h0 | h0
  · rw [h0, round64_zero]
  have hyd : y = (roundEven (x / 2 ^ exp64 x) : ℝ) * 2 ^ exp64 x := rfl
  have hexp : Int.log 2 |x| - 52 ≤ exp64 x ∧ -1074 ≤ exp64 x := by unfold exp64; omega
  have hx : |x| ≤ 2 ^ (exp64 x + 53) :=
    (lt_two_zpow_log (x := x)).le.trans (zpow_le_zpow_right₀ (by norm_num) (by omega))
  have hup : |y| ≤ 2 ^ (exp64 x + 53) := by
    rw [abs_le] at hx ⊢
    exact ⟨(round64_grid (m := -1) (k := exp64 x + 53) (by omega) (by push_cast; ring)).1 hx.1,
      (round64_grid (m := 1) (k := exp64 x + 53) (by omega) (by push_cast; ring)).2 hx.2⟩
  rcases eq_or_lt_of_le hup with he | hl
  · have hlog : Int.log 2 |y| = exp64 x + 53 := by
      rw [he]
      exact_mod_cast Int.log_zpow (R := ℝ) (b := 2) (by norm_num) (exp64 x + 53)
    have hk : exp64 y ≤ exp64 x + 53 := by unfold exp64 at *; omega
    rcases abs_choice y with ha | ha
    · exact round64_fixed hk (m := 1) (by rw [← ha, he]; push_cast; ring)
    · exact round64_fixed hk (m := -1) (by
        have : y = -|y| := by rw [ha]; ring
        rw [this, he]; push_cast; ring)
  · have hlog : Int.log 2 |y| < exp64 x + 53 :=
      (Int.lt_zpow_iff_log_lt (R := ℝ) (b := 2) (by norm_num) (abs_pos.2 h0)).1 (by exact_mod_cast hl)
    exact round64_fixed (m := roundEven (x / 2 ^ exp64 x)) (k := exp64 x)
      (by have := hexp.2; unfold exp64 at *; omega) hyd

theorem round64_close (x : ℝ) : |round64 x - x| ≤ 1 / 2 ^ 53 * |x| + 1 / 2 ^ 1075 := by
  rcases eq_or_ne x 0 with rfl | hx
  · rw [round64_zero]; simp
  have hu : (0 : ℝ) < 2 ^ exp64 x := by positivity
  have h1 := roundEven_close (x / 2 ^ exp64 x)
  have h2 : |round64 x - x| ≤ 1 / 2 * 2 ^ exp64 x := by
    have e : round64 x - x = ((roundEven (x / 2 ^ exp64 x) : ℝ) - x / 2 ^ exp64 x) * 2 ^ exp64 x := by
      unfold round64; field_simp
    rw [e, abs_mul, abs_of_pos hu]
    gcongr
  have h3 : (2 : ℝ) ^ exp64 x ≤ 2 ^ (Int.log 2 |x| - 52) + 2 ^ (-1074 : ℤ) := by
    unfold exp64
    rcases max_choice (Int.log 2 |x| - 52) (-1074) with h | h <;> rw [h]
    · exact le_add_of_nonneg_right (by positivity)
    · exact le_add_of_nonneg_left (by positivity)
  have h4 : (2 : ℝ) ^ (Int.log 2 |x| - 52) = 1 / 2 ^ 52 * 2 ^ Int.log 2 |x| := by
    rw [zpow_sub₀ (by norm_num)]
    norm_num
    ring
  have h5 := two_zpow_log_le hx
  have h6 : (2 : ℝ) ^ (-1074 : ℤ) = 1 / 2 ^ 1074 := by
    rw [zpow_neg, one_div]; norm_cast
  rw [h4, h6] at h3
  have h7 : (1 : ℝ) / 2 ^ 52 * 2 ^ Int.log 2 |x| ≤ 1 / 2 ^ 52 * |x| := by gcongr
  have e1 : (1 : ℝ) / 2 ^ 53 = 1 / 2 * (1 / 2 ^ 52) := by norm_num
  have e2 : (1 : ℝ) / 2 ^ 1075 = 1 / 2 * (1 / 2 ^ 1074) := by rw [pow_succ]; ring
  rw [e1, e2]
  generalize (1 : ℝ) / 2 ^ 1074 = z at *
  linarith

theorem round64_pow (x : ℝ) (m k : ℤ) (hx : x = m * 2 ^ k) (hk : exp64 x ≤ k) : round64 x = x :=
  round64_fixed hk hx

theorem exp64_le_of_lt {x : ℝ} (hx : x ≠ 0) {k : ℤ} (h : |x| < 2 ^ k) (hk : -1021 ≤ k) :
    exp64 x ≤ k - 53 := by
  have : Int.log 2 |x| < k :=
    (Int.lt_zpow_iff_log_lt (R := ℝ) (b := 2) (by norm_num) (abs_pos.2 hx)).1 (by exact_mod_cast h)
  unfold exp64; omega

theorem round64_one : round64 1 = 1 :=
  round64_fixed (m := 1) (k := 0) ((exp64_le_of_lt (k := 1) one_ne_zero (by norm_num) (by norm_num)).trans
    (by norm_num)) (by norm_num)

theorem float64_sound : float64.Sound where
  mono _ _ h := round64_mono h
  idem := round64_idem
  zero := round64_zero
  one := round64_one
  negone := round64_fixed (m := -1) (k := 0)
    ((exp64_le_of_lt (k := 1) (by norm_num) (by norm_num) (by norm_num)).trans (by norm_num)) (by norm_num)
  two := round64_fixed (m := 2) (k := 0)
    ((exp64_le_of_lt (k := 2) (by norm_num) (by norm_num) (by norm_num)).trans (by norm_num)) (by norm_num)
  half := round64_fixed (m := 1) (k := -1)
    ((exp64_le_of_lt (k := 1) (by norm_num) (by norm_num) (by norm_num)).trans (by norm_num)) (by norm_num)
  tenth_pos := by
    refine lt_of_lt_of_le (b := (1 : ℝ) / 16) (by norm_num) ?_
    refine (round64_grid (m := 1) (k := -4) ?_ (by norm_num)).1 (by norm_num)
    exact (exp64_le_of_lt (k := 1) (by norm_num) (by norm_num) (by norm_num)).trans (by norm_num)
  exp_nonneg a _ := round64_nonneg (Real.exp_pos a).le
  exp_le_one a h := (round64_mono (Real.exp_le_one_iff.2 h)).trans round64_one.le
  exp_zero := by simp only [float64, Real.exp_zero]; exact round64_one
  log_nonpos a h0 h1 := round64_nonpos (Real.log_nonpos h0.le h1)
  ln2_nonneg := round64_nonneg (Real.log_nonneg (by norm_num))
  frexp_pos := exactReal_sound.frexp_pos
  frexp_lt := exactReal_sound.frexp_lt
  frexp_exp := exactReal_sound.frexp_exp
  frexp_zero := exactReal_sound.frexp_zero

theorem round64_double (x : ℝ) : |round64 x - x| ≤ 1 / 2 ^ 52 * |x| + 1 / 10 ^ 320 := by
  refine (round64_close x).trans ?_
  gcongr ?_ * |x| + ?_ <;> norm_num

theorem float64_double : float64.Double where
  rnd := round64_double
  exp a _ := by
    have := round64_double (Real.exp a)
    rwa [abs_of_pos (Real.exp_pos a)] at this
  log a _ := round64_double (Real.log a)
  ln2 := by
    have h1 := round64_close (Real.log 2)
    have h2 : (1 : ℝ) / 2 ≤ Real.log 2 := by
      have := Real.one_sub_inv_le_log_of_pos (show (0 : ℝ) < 2 by norm_num)
      norm_num at this ⊢
      exact this
    rw [abs_of_pos (by linarith : 0 < Real.log 2)] at h1
    refine h1.trans ?_
    have h3 : (1 : ℝ) / 2 ^ 1075 ≤ 1 / 2 ^ 53 * (1 / 2) := by norm_num
    have h4 : (1 : ℝ) / 2 ^ 53 * (1 / 2) ≤ 1 / 2 ^ 53 * Real.log 2 := by gcongr
    have e : (1 : ℝ) / 2 ^ 52 = 1 / 2 ^ 53 + 1 / 2 ^ 53 := by norm_num
    rw [e, add_mul]
    linarith
  frexp := float53_double.frexp

end Sb
