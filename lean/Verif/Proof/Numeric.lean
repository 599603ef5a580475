import Verif.Model.Classifier
import Verif.Model.Exact
import Verif.Spec.Score
import Mathlib.Analysis.Calculus.Deriv.MeanValue
import Mathlib.Analysis.Calculus.Deriv.Pow
import Mathlib.Analysis.SpecialFunctions.ExpDeriv
import Mathlib.Tactic.Positivity
import Mathlib.Tactic.FieldSimp

/- Helper lemmas on the numeric part of the classifier. -/

set_option linter.unusedSectionVars false

namespace Sb
open Py

/-! ### Any sound platform -/

section
variable {K : Type} [Field K] [LinearOrder K] [IsStrictOrderedRing K] {F : FloatOps K}

namespace FloatOps.Sound
variable (hF : F.Sound)
include hF

theorem nonneg {a : K} (h : 0 ≤ a) : 0 ≤ F.rnd a := by
  have := hF.mono 0 a h; rwa [hF.zero] at this

theorem nonpos {a : K} (h : a ≤ 0) : F.rnd a ≤ 0 := by
  have := hF.mono a 0 h; rwa [hF.zero] at this

theorem le_one {a : K} (h : a ≤ 1) : F.rnd a ≤ 1 := by
  have := hF.mono a 1 h; rwa [hF.one] at this

theorem one_le {a : K} (h : 1 ≤ a) : 1 ≤ F.rnd a := by
  have := hF.mono 1 a h; rwa [hF.one] at this

end FloatOps.Sound

theorem freshProbability_bounds (hF : F.Sound) {ns nh : Int} {r : WordInfo} {p : K}
    (hs : 0 ≤ r.spamcount) (hh : 0 ≤ r.hamcount) (h : freshProbability F ns nh r = .ok p) :
    0 ≤ p ∧ p ≤ 1 := by
  unfold freshProbability at h
  set nh' := if nh = 0 then (1 : Int) else nh with hnh'
  set ns' := if ns = 0 then (1 : Int) else ns with hns'
  simp only at h
  by_cases c1 : r.hamcount > nh'
  · rw [if_pos c1] at h; cases h
  rw [if_neg c1] at h
  by_cases c2 : r.spamcount > ns'
  · rw [if_pos c2] at h; cases h
  rw [if_neg c2] at h
  have pnh : (0 : K) ≤ (nh' : K) := by exact_mod_cast (by omega : (0 : Int) ≤ nh')
  have pns : (0 : K) ≤ (ns' : K) := by exact_mod_cast (by omega : (0 : Int) ≤ ns')
  have phh : (0 : K) ≤ (r.hamcount : K) := by exact_mod_cast hh
  have phs : (0 : K) ≤ (r.spamcount : K) := by exact_mod_cast hs
  set hr := F.rnd ((r.hamcount : K) / (nh' : K)) with hhr
  set sr := F.rnd ((r.spamcount : K) / (ns' : K)) with hsr
  have hr0 : 0 ≤ hr := hF.nonneg (div_nonneg phh pnh)
  have sr0 : 0 ≤ sr := hF.nonneg (div_nonneg phs pns)
  by_cases c3 : F.add hr sr = 0
  · rw [if_pos c3] at h; cases h
  rw [if_neg c3] at h
  have hden : 0 ≤ F.add hr sr := hF.nonneg (by linarith)
  have hden' : 0 < F.add hr sr := lt_of_le_of_ne hden (Ne.symm c3)
  have hle : sr ≤ F.add hr sr := by
    have := hF.mono sr (hr + sr) (by linarith)
    rw [hsr, hF.idem, ← hsr] at this
    exact this
  set prob := F.div sr (F.add hr sr) with hprob
  have p0 : 0 ≤ prob := hF.nonneg (div_nonneg sr0 hden)
  have p1 : prob ≤ 1 := hF.le_one ((div_le_one hden').2 hle)
  have pn : (0 : K) ≤ ((r.hamcount + r.spamcount : Int) : K) := by
    exact_mod_cast (by omega : (0 : Int) ≤ r.hamcount + r.spamcount)
  set n := F.rnd ((r.hamcount + r.spamcount : Int) : K) with hn
  have n0 : 0 ≤ n := hF.nonneg pn
  set S := unknownWordStrength F with hS
  have S0 : 0 ≤ S := hF.nonneg (by norm_num)
  have hX : unknownWordProb F = 1 / 2 := hF.half
  have hSX0 : 0 ≤ F.mul S (unknownWordProb F) := hF.nonneg (by rw [hX]; positivity)
  have hSX1 : F.mul S (unknownWordProb F) ≤ S := by
    have := hF.mono (S * unknownWordProb F) S (by rw [hX]; linarith)
    have e : F.rnd S = S := by rw [hS]; exact hF.idem _
    rw [e] at this; exact this
  have hnp0 : 0 ≤ F.mul n prob := hF.nonneg (mul_nonneg n0 p0)
  have hnp1 : F.mul n prob ≤ n := by
    have := hF.mono (n * prob) n (mul_le_of_le_one_right n0 p1)
    have e : F.rnd n = n := by rw [hn]; exact hF.idem _
    rw [e] at this; exact this
  by_cases c4 : F.add S n = 0
  · rw [if_pos c4] at h; cases h
  rw [if_neg c4] at h
  cases h
  have d0 : 0 ≤ F.add S n := hF.nonneg (by linarith)
  have d1 : 0 < F.add S n := lt_of_le_of_ne d0 (Ne.symm c4)
  have num0 : 0 ≤ F.add (F.mul S (unknownWordProb F)) (F.mul n prob) := hF.nonneg (by linarith)
  have num1 : F.add (F.mul S (unknownWordProb F)) (F.mul n prob) ≤ F.add S n :=
    hF.mono _ _ (by linarith)
  exact ⟨hF.nonneg (div_nonneg num0 d0), hF.le_one ((div_le_one d1).2 num1)⟩

/-- Positive ratios of integers do not round to zero (true unless the platform
underflows on them). -/
def FloatOps.PosRatios (F : FloatOps K) : Prop :=
  ∀ a b : Int, 0 < a → 0 < b → 0 < F.rnd ((a : K) / (b : K))

theorem freshProbability_exceeds {ns nh : Int} {r : WordInfo}
    (h : r.hamcount > (if nh = 0 then 1 else nh) ∨ r.spamcount > (if ns = 0 then 1 else ns)) :
    freshProbability F ns nh r = .error .exception := by
  unfold freshProbability
  simp only
  by_cases h1 : r.hamcount > (if nh = 0 then 1 else nh)
  · rw [if_pos h1]
  · rw [if_neg h1, if_pos (h.resolve_left h1)]

theorem freshProbability_zero (hF : F.Sound) {ns nh : Int} (hns : 0 ≤ ns) (hnh : 0 ≤ nh) :
    freshProbability F ns nh ⟨0, 0⟩ = .error .zeroDivisionError := by
  unfold freshProbability
  simp only
  rw [if_neg (by split <;> omega), if_neg (by split <;> omega), if_pos]
  simp [FloatOps.add, hF.zero]

theorem freshProbability_total (hF : F.Sound) (hr : F.PosRatios) {ns nh : Int} {r : WordInfo}
    (hs : 0 ≤ r.spamcount) (hh : 0 ≤ r.hamcount) (hnz : r.spamcount ≠ 0 ∨ r.hamcount ≠ 0)
    (hs1 : r.spamcount ≤ if ns = 0 then 1 else ns) (hh1 : r.hamcount ≤ if nh = 0 then 1 else nh) :
    ∃ p, freshProbability F ns nh r = .ok p := by
  unfold freshProbability
  set nh' := if nh = 0 then (1 : Int) else nh with hnh'
  set ns' := if ns = 0 then (1 : Int) else ns with hns'
  have pnh : 0 < nh' := by
    have : nh' ≠ 0 := by rw [hnh']; split <;> omega
    omega
  have pns : 0 < ns' := by
    have : ns' ≠ 0 := by rw [hns']; split <;> omega
    omega
  simp only
  rw [if_neg (by omega), if_neg (by omega)]
  have qnh : (0 : K) < (nh' : K) := by exact_mod_cast pnh
  have qns : (0 : K) < (ns' : K) := by exact_mod_cast pns
  have qh : (0 : K) ≤ (r.hamcount : K) := by exact_mod_cast hh
  have qs : (0 : K) ≤ (r.spamcount : K) := by exact_mod_cast hs
  have sr0 : 0 ≤ F.rnd ((r.spamcount : K) / (ns' : K)) := hF.nonneg (div_nonneg qs qns.le)
  have hr0 : 0 ≤ F.rnd ((r.hamcount : K) / (nh' : K)) := hF.nonneg (div_nonneg qh qnh.le)
  have den : 0 < F.add (F.rnd ((r.hamcount : K) / (nh' : K))) (F.rnd ((r.spamcount : K) / (ns' : K))) := by
    rcases hnz with h | h
    · have h1 := hr r.spamcount ns' (by omega) pns
      have := hF.mono _ _ (by linarith : F.rnd ((r.spamcount : K) / (ns' : K)) ≤
        F.rnd ((r.hamcount : K) / (nh' : K)) + F.rnd ((r.spamcount : K) / (ns' : K)))
      rw [hF.idem] at this
      exact lt_of_lt_of_le h1 this
    · have h1 := hr r.hamcount nh' (by omega) pnh
      have := hF.mono _ _ (by linarith : F.rnd ((r.hamcount : K) / (nh' : K)) ≤
        F.rnd ((r.hamcount : K) / (nh' : K)) + F.rnd ((r.spamcount : K) / (ns' : K)))
      rw [hF.idem] at this
      exact lt_of_lt_of_le h1 this
  rw [if_neg den.ne']
  have den2 : 0 < F.add (unknownWordStrength F) (F.rnd ((r.hamcount + r.spamcount : Int) : K)) := by
    have h1 : 1 ≤ F.rnd ((r.hamcount + r.spamcount : Int) : K) :=
      hF.one_le (by exact_mod_cast (by omega : (1 : Int) ≤ r.hamcount + r.spamcount))
    have h2 : 0 ≤ unknownWordStrength F := hF.nonneg (by norm_num)
    have := hF.one_le (by linarith : 1 ≤ unknownWordStrength F + F.rnd ((r.hamcount + r.spamcount : Int) : K))
    exact lt_of_lt_of_le one_pos this
  rw [if_neg den2.ne']
  exact ⟨_, rfl⟩

theorem chi2Loop_nonneg (hF : F.Sound) {m : K} (hm : 0 ≤ m) (fuel : Nat) :
    ∀ (i : Nat) (term result : K), 0 ≤ term → 0 ≤ result → 0 ≤ chi2Loop F m fuel i term result := by
  induction fuel with
  | zero => intro i term result _ h; exact h
  | succ fuel ih =>
    intro i term result ht hr
    have hi : 0 ≤ F.rnd (i : K) := hF.nonneg (by positivity)
    have ht' : 0 ≤ F.mul term (F.div m (F.rnd (i : K))) :=
      hF.nonneg (mul_nonneg ht (hF.nonneg (div_nonneg hm hi)))
    exact ih _ _ _ ht' (hF.nonneg (by linarith))

theorem chi2Q_bounds (hF : F.Sound) {x2 : K} {v : Int} {q : K} (hx : 0 ≤ x2)
    (h : chi2Q F x2 v = .ok q) : 0 ≤ q ∧ q ≤ 1 := by
  unfold chi2Q at h
  split at h
  · cases h
  · cases h
    have hm : 0 ≤ F.div x2 2 := hF.nonneg (by positivity)
    have he : 0 ≤ F.exp (-F.div x2 2) := hF.exp_nonneg _ (by linarith)
    exact ⟨le_min (chi2Loop_nonneg hF hm _ _ _ _ he he) zero_le_one, min_le_right _ _⟩

/-- running product in range -/
def Prod2.Ok (p : Prod2 K) : Prop := 0 ≤ p.x ∧ p.x ≤ 1 ∧ p.e ≤ 0

theorem Prod2.step_ok (hF : F.Sound) {p : Prod2 K} (hp : p.Ok) {f : K} (h0 : 0 ≤ f) (h1 : f ≤ 1) :
    (p.step F f).Ok := by
  obtain ⟨hx0, hx1, he⟩ := hp
  have hm0 : 0 ≤ F.mul p.x f := hF.nonneg (mul_nonneg hx0 h0)
  have hm1 : F.mul p.x f ≤ 1 := hF.le_one (mul_le_one₀ hx1 h0 h1)
  unfold Prod2.step
  simp only
  split
  · rename_i hlt
    rcases eq_or_lt_of_le hm0 with h | h
    · rw [← h, hF.frexp_zero]; exact ⟨le_rfl, zero_le_one, by simpa using he⟩
    · have htiny : tiny F ≤ 1 := hF.le_one (by
        rw [div_le_one (by positivity)]
        exact one_le_pow₀ (by norm_num))
      have hl : F.mul p.x f < 1 := lt_of_lt_of_le hlt htiny
      refine ⟨(hF.frexp_pos _ h hl).le, (hF.frexp_lt _ h hl).le, ?_⟩
      have := hF.frexp_exp _ h hl
      simp only; omega
  · exact ⟨hm0, hm1, he⟩

theorem Prod2.foldl_ok (hF : F.Sound) (g : K → K) (ps : List K)
    (hg : ∀ p ∈ ps, 0 ≤ g p ∧ g p ≤ 1) :
    ∀ p : Prod2 K, p.Ok → (ps.foldl (fun p prob => Prod2.step F p (g prob)) p).Ok := by
  induction ps with
  | nil => intro p hp; exact hp
  | cons a t ih =>
    intro p hp
    rw [List.foldl_cons]
    have := hg a (by simp)
    exact ih (fun p hp => hg p (by simp [hp])) _ (Prod2.step_ok hF hp this.1 this.2)

theorem Prod2.ln_nonpos (hF : F.Sound) {p : Prod2 K} (hp : p.Ok) {l : K} (h : p.ln F = .ok l) :
    l ≤ 0 := by
  unfold Prod2.ln at h
  split at h
  · cases h
  · rename_i hpos
    cases h
    have h1 := hF.log_nonpos p.x (not_le.1 hpos) hp.2.1
    have h2 : F.rnd (p.e : K) ≤ 0 := hF.nonpos (by exact_mod_cast hp.2.2)
    have h3 : F.mul (F.rnd (p.e : K)) F.ln2 ≤ 0 :=
      hF.nonpos (mul_nonpos_of_nonpos_of_nonneg h2 hF.ln2_nonneg)
    exact hF.nonpos (by linarith)

theorem combine_bounds (hF : F.Sound) {ps : List K} (hps : ∀ p ∈ ps, 0 ≤ p ∧ p ≤ 1) {v : K × K × K}
    (h : combine F ps = .ok v) : 0 ≤ v.1 ∧ v.1 ≤ 1 ∧
      (ps ≠ [] → 0 ≤ v.2.1 ∧ v.2.1 ≤ 1 ∧ 0 ≤ v.2.2 ∧ v.2.2 ≤ 1 ∧
        v.1 = F.div (F.add (F.sub v.2.1 v.2.2) 1) 2) ∧
      (ps = [] → v.1 = 1 / 2) := by
  have hinit : (⟨1, 0⟩ : Prod2 K).Ok := ⟨zero_le_one, le_rfl, le_rfl⟩
  have hS := Prod2.foldl_ok hF (fun p => F.sub 1 p) ps
    (fun p hp => ⟨hF.nonneg (by linarith [(hps p hp).2]), hF.le_one (by linarith [(hps p hp).1])⟩)
    ⟨1, 0⟩ hinit
  have hH := Prod2.foldl_ok hF (fun p => p) ps (fun p hp => hps p hp) ⟨1, 0⟩ hinit
  unfold combine at h
  simp only [bind, Except.bind] at h
  cases hs : (List.foldl (fun p prob => Prod2.step F p (F.sub 1 prob)) ⟨1, 0⟩ ps).ln F with
  | error e => rw [hs] at h; simp at h
  | ok S =>
    rw [hs] at h
    simp only at h
    cases hh : (List.foldl (fun p prob => Prod2.step F p prob) ⟨1, 0⟩ ps).ln F with
    | error e => rw [hh] at h; simp at h
    | ok H =>
      rw [hh] at h
      simp only at h
      have hS0 := Prod2.ln_nonpos hF hS hs
      have hH0 := Prod2.ln_nonpos hF hH hh
      split at h
      · rename_i hn
        have hne : ps ≠ [] := by rintro rfl; simp at hn
        cases hq : chi2Q F (F.mul (-2) S) (2 * (ps.length : Int)) with
        | error e => rw [hq] at h; simp at h
        | ok qs =>
          rw [hq] at h
          simp only at h
          cases hq2 : chi2Q F (F.mul (-2) H) (2 * (ps.length : Int)) with
          | error e => rw [hq2] at h; simp at h
          | ok qh =>
            rw [hq2] at h
            simp only at h
            cases h
            obtain ⟨a1, a2⟩ := chi2Q_bounds hF (hF.nonneg (by linarith)) hq
            obtain ⟨b1, b2⟩ := chi2Q_bounds hF (hF.nonneg (by linarith)) hq2
            have s0 : 0 ≤ F.sub 1 qs := hF.nonneg (by linarith)
            have s1 : F.sub 1 qs ≤ 1 := hF.le_one (by linarith)
            have t0 : 0 ≤ F.sub 1 qh := hF.nonneg (by linarith)
            have t1 : F.sub 1 qh ≤ 1 := hF.le_one (by linarith)
            have d0 : -1 ≤ F.sub (F.sub 1 qs) (F.sub 1 qh) := by
              have := hF.mono (-1) (F.sub 1 qs - F.sub 1 qh) (by linarith)
              rw [hF.negone] at this; exact this
            have d1 : F.sub (F.sub 1 qs) (F.sub 1 qh) ≤ 1 := hF.le_one (by linarith)
            have e0 : 0 ≤ F.add (F.sub (F.sub 1 qs) (F.sub 1 qh)) 1 := hF.nonneg (by linarith)
            have e1 : F.add (F.sub (F.sub 1 qs) (F.sub 1 qh)) 1 ≤ 2 := by
              have := hF.mono (F.sub (F.sub 1 qs) (F.sub 1 qh) + 1) 2 (by linarith)
              rw [hF.two] at this; exact this
            exact ⟨hF.nonneg (by positivity), hF.le_one (by linarith),
              fun _ => ⟨s0, s1, t0, t1, rfl⟩, fun h => absurd h hne⟩
      · rename_i hn
        have hnil : ps = [] := by
          cases ps with
          | nil => rfl
          | cons a t => simp at hn
        cases h
        simp only [hF.half]
        refine ⟨by norm_num, by norm_num, fun h => absurd hnil h, fun _ => trivial⟩

end

/-! ### Exact arithmetic -/

section
open Real Spec

theorem chi2Loop_exact (m e : ℝ) (fuel : Nat) :
    ∀ (i : Nat) (term result : ℝ), term = e * (m ^ i / (i.factorial : ℝ)) →
      result = e * ∑ k ∈ Finset.range (i + 1), m ^ k / (k.factorial : ℝ) →
      chi2Loop exactReal m fuel (i + 1) term result =
        e * ∑ k ∈ Finset.range (i + 1 + fuel), m ^ k / (k.factorial : ℝ) := by
  induction fuel with
  | zero => intro i term result _ hr; simpa [chi2Loop] using hr
  | succ fuel ih =>
    intro i term result ht hr
    unfold chi2Loop
    simp only
    have h1 : exactReal.mul term (exactReal.div m (exactReal.rnd ((i + 1 : ℕ) : ℝ))) =
        e * (m ^ (i + 1) / ((i + 1).factorial : ℝ)) := by
      change term * (m / ((i + 1 : ℕ) : ℝ)) = _
      rw [ht, Nat.factorial_succ, pow_succ]
      have : (i.factorial : ℝ) ≠ 0 := by positivity
      have : ((i + 1 : ℕ) : ℝ) ≠ 0 := by positivity
      push_cast at *
      field_simp
    have h2 : exactReal.add result (e * (m ^ (i + 1) / ((i + 1).factorial : ℝ))) =
        e * ∑ k ∈ Finset.range (i + 1 + 1), m ^ k / (k.factorial : ℝ) := by
      change result + _ = _
      rw [hr, Finset.sum_range_succ _ (i + 1)]; ring
    rw [h1, h2, ih (i + 1) _ _ rfl rfl]
    congr 3; omega

theorem chiSurvival_le_one {x : ℝ} (hx : 0 ≤ x) (n : ℕ) : chiSurvival x n ≤ 1 := by
  unfold chiSurvival
  have h := Real.sum_le_exp_of_nonneg (x := x / 2) (by positivity) n
  calc rexp (-(x / 2)) * ∑ k ∈ Finset.range n, (x / 2) ^ k / (k.factorial : ℝ)
      ≤ rexp (-(x / 2)) * rexp (x / 2) := by gcongr
    _ = 1 := by rw [← Real.exp_add]; simp

theorem chiSurvival_nonneg {x : ℝ} (hx : 0 ≤ x) (n : ℕ) : 0 ≤ chiSurvival x n := by
  unfold chiSurvival; positivity

theorem chi2Q_exact {x2 : ℝ} (hx : 0 ≤ x2) (n : ℕ) (hn : 0 < n) :
    chi2Q exactReal x2 (2 * (n : Int)) = .ok (chiSurvival x2 n) := by
  unfold chi2Q
  rw [if_neg (by omega)]
  have hfuel : ((2 * (n : Int)) / 2 - 1).toNat = n - 1 := by omega
  simp only [hfuel]
  have : chi2Loop exactReal (exactReal.div x2 2) (n - 1) (0 + 1) (exactReal.exp (-exactReal.div x2 2))
      (exactReal.exp (-exactReal.div x2 2)) = chiSurvival x2 n := by
    have h := chi2Loop_exact (x2 / 2) (Real.exp (-(x2 / 2))) (n - 1) 0 (Real.exp (-(x2 / 2)))
      (Real.exp (-(x2 / 2))) (by simp) (by simp)
    have e : 0 + 1 + (n - 1) = n := by omega
    rw [e] at h
    exact h
  rw [zero_add] at this
  rw [this, min_eq_left (chiSurvival_le_one hx n)]

theorem chi2Q_exact_all {x2 : ℝ} (hx : 0 ≤ x2) {v : Int} (hv : v % 2 = 0) :
    chi2Q exactReal x2 v = .ok (chiSurvival x2 (max 1 (v / 2).toNat)) := by
  by_cases h : 2 ≤ v
  · have e : v = 2 * (((v / 2).toNat : ℕ) : Int) := by omega
    have e2 : max 1 (v / 2).toNat = (v / 2).toNat := by omega
    rw [e2]
    conv_lhs => rw [e]
    exact chi2Q_exact hx _ (by omega)
  · have e2 : max 1 (v / 2).toNat = 1 := by omega
    rw [e2]
    unfold chi2Q
    rw [if_neg (by omega)]
    have hfuel : (v / 2 - 1).toNat = 0 := by omega
    simp only [hfuel, chi2Loop]
    have : exactReal.exp (-exactReal.div x2 2) = chiSurvival x2 1 := by
      simp [chiSurvival, exactReal, FloatOps.div]
    rw [this, min_eq_left (chiSurvival_le_one hx 1)]

theorem hasDerivAt_chiSum (n : ℕ) (y : ℝ) :
    HasDerivAt (fun y => rexp (-y) * ∑ k ∈ Finset.range (n + 1), y ^ k / (k.factorial : ℝ))
      (-(rexp (-y) * (y ^ n / (n.factorial : ℝ)))) y := by
  have hexp : HasDerivAt (fun y : ℝ => rexp (-y)) (-rexp (-y)) y := by
    have := (hasDerivAt_neg y).exp
    simpa using this
  induction n with
  | zero => simpa using hexp
  | succ n ih =>
    have h1 : HasDerivAt (fun y : ℝ => rexp (-y) * (y ^ (n + 1) / ((n + 1).factorial : ℝ)))
        (-rexp (-y) * (y ^ (n + 1) / ((n + 1).factorial : ℝ)) +
          rexp (-y) * (((n + 1 : ℕ) * y ^ n) / ((n + 1).factorial : ℝ))) y := by
      have h2 := ((hasDerivAt_pow (n + 1) y).div_const ((n + 1).factorial : ℝ))
      exact hexp.mul h2
    have h3 := ih.add h1
    have e : (fun y : ℝ => rexp (-y) * ∑ k ∈ Finset.range (n + 1 + 1), y ^ k / (k.factorial : ℝ)) =
        (fun y : ℝ => rexp (-y) * ∑ k ∈ Finset.range (n + 1), y ^ k / (k.factorial : ℝ) +
          rexp (-y) * (y ^ (n + 1) / ((n + 1).factorial : ℝ))) := by
      funext y; rw [Finset.sum_range_succ _ (n + 1)]; ring
    rw [e]
    refine h3.congr_deriv ?_
    rw [Nat.factorial_succ]
    have : (n.factorial : ℝ) ≠ 0 := by positivity
    have : ((n : ℝ) + 1) ≠ 0 := by positivity
    push_cast
    field_simp
    ring

theorem chiSum_antitone (n : ℕ) :
    AntitoneOn (fun y => rexp (-y) * ∑ k ∈ Finset.range n, y ^ k / (k.factorial : ℝ)) (Set.Ici 0) := by
  cases n with
  | zero => intro a _ b _ _; simp
  | succ n =>
    apply antitoneOn_of_deriv_nonpos (convex_Ici 0)
    · exact fun y _ => (hasDerivAt_chiSum n y).continuousAt.continuousWithinAt
    · exact fun y _ => (hasDerivAt_chiSum n y).differentiableAt.differentiableWithinAt
    · intro y hy
      rw [interior_Ici, Set.mem_Ioi] at hy
      rw [(hasDerivAt_chiSum n y).deriv]
      have : 0 ≤ rexp (-y) * (y ^ n / (n.factorial : ℝ)) := by positivity
      linarith

theorem chiSum_strictAnti (n : ℕ) (hn : 0 < n) :
    StrictAntiOn (fun y => rexp (-y) * ∑ k ∈ Finset.range n, y ^ k / (k.factorial : ℝ)) (Set.Ici 0) := by
  obtain ⟨n, rfl⟩ := Nat.exists_eq_succ_of_ne_zero hn.ne'
  apply strictAntiOn_of_deriv_neg (convex_Ici 0)
  · exact fun y _ => (hasDerivAt_chiSum n y).continuousAt.continuousWithinAt
  · intro y hy
    rw [interior_Ici, Set.mem_Ioi] at hy
    rw [(hasDerivAt_chiSum n y).deriv]
    have : 0 < rexp (-y) * (y ^ n / (n.factorial : ℝ)) := by positivity
    linarith

theorem chiSurvival_strictAnti {x y : ℝ} (hx : 0 ≤ x) (h : x < y) {n : ℕ} (hn : 0 < n) :
    chiSurvival y n < chiSurvival x n :=
  chiSum_strictAnti n hn (Set.mem_Ici.2 (by linarith : 0 ≤ x / 2)) (Set.mem_Ici.2 (by linarith))
    (by linarith)

theorem chiSurvival_anti {x y : ℝ} (hx : 0 ≤ x) (h : x ≤ y) (n : ℕ) :
    chiSurvival y n ≤ chiSurvival x n :=
  chiSum_antitone n (Set.mem_Ici.2 (by linarith : 0 ≤ x / 2)) (Set.mem_Ici.2 (by linarith))
    (by linarith)

theorem chiSurvival_mono_n {x : ℝ} (hx : 0 ≤ x) {n n' : ℕ} (h : n ≤ n') :
    chiSurvival x n ≤ chiSurvival x n' := by
  unfold chiSurvival
  apply mul_le_mul_of_nonneg_left _ (Real.exp_pos _).le
  apply Finset.sum_le_sum_of_subset_of_nonneg
  · intro k hk; simp at *; omega
  · intro k _ _; positivity

theorem chiSurvival_zero {n : ℕ} (hn : 0 < n) : chiSurvival 0 n = 1 := by
  unfold chiSurvival
  obtain ⟨n, rfl⟩ := Nat.exists_eq_succ_of_ne_zero hn.ne'
  rw [Finset.sum_range_succ']
  simp

/-! products -/

/-- the running product stands for a positive number with logarithm `l` -/
def Prod2.Rep (p : Prod2 ℝ) (l : ℝ) : Prop := 0 < p.x ∧ Real.log p.x + p.e * Real.log 2 = l

theorem frexp_exact {x : ℝ} (hx : 0 < x) :
    0 < (exactReal.frexp x).1 ∧
      Real.log (exactReal.frexp x).1 + (exactReal.frexp x).2 * Real.log 2 = Real.log x := by
  simp only [exactReal, if_neg hx.ne']
  refine ⟨by positivity, ?_⟩
  rw [Real.log_div hx.ne' (by positivity), Real.log_zpow]
  push_cast; ring

theorem Prod2.step_rep {p : Prod2 ℝ} {l f : ℝ} (hp : p.Rep l) (hf : 0 < f) :
    (p.step exactReal f).Rep (l + Real.log f) := by
  obtain ⟨h0, h1⟩ := hp
  have hm : exactReal.mul p.x f = p.x * f := rfl
  have hpos : 0 < p.x * f := by positivity
  unfold Prod2.step
  simp only [hm]
  split
  · obtain ⟨a, b⟩ := frexp_exact hpos
    refine ⟨a, ?_⟩
    simp only
    rw [Real.log_mul h0.ne' hf.ne'] at b
    push_cast
    linarith
  · refine ⟨hpos, ?_⟩
    simp only
    rw [Real.log_mul h0.ne' hf.ne']
    linarith

theorem Prod2.foldl_rep (g : ℝ → ℝ) (ps : List ℝ) (hg : ∀ p ∈ ps, 0 < g p) :
    ∀ (p : Prod2 ℝ) (l : ℝ), p.Rep l →
      (ps.foldl (fun p prob => Prod2.step exactReal p (g prob)) p).Rep
        (l + (ps.map (fun p => Real.log (g p))).sum) := by
  induction ps with
  | nil => intro p l h; simpa using h
  | cons a t ih =>
    intro p l h
    rw [List.foldl_cons]
    have := ih (fun p hp => hg p (by simp [hp])) _ _ (Prod2.step_rep h (hg a (by simp)))
    simpa [add_assoc] using this

theorem Prod2.ln_rep {p : Prod2 ℝ} {l : ℝ} (h : p.Rep l) : p.ln exactReal = .ok l := by
  unfold Prod2.ln
  rw [if_neg (not_le.2 h.1)]
  have : exactReal.add (exactReal.log p.x) (exactReal.mul (exactReal.rnd (p.e : ℝ)) exactReal.ln2) =
      Real.log p.x + p.e * Real.log 2 := rfl
  rw [this, h.2]

theorem sum_log_nonpos (ps : List ℝ) (g : ℝ → ℝ) (h : ∀ p ∈ ps, 0 < g p ∧ g p < 1) :
    (ps.map (fun p => Real.log (g p))).sum ≤ 0 := by
  induction ps with
  | nil => simp
  | cons a t ih =>
    have h1 := h a (by simp)
    have h2 := ih (fun p hp => h p (by simp [hp]))
    have h3 := Real.log_nonpos h1.1.le h1.2.le
    simp only [List.map_cons, List.sum_cons]; linarith

theorem combine_exact (ps : List ℝ) (hps : ∀ p ∈ ps, 0 < p ∧ p < 1) :
    combine exactReal ps = .ok (indicator ps,
      if ps = [] then 0 else fisher (ps.map (1 - ·)), if ps = [] then 0 else fisher ps) := by
  have hinit : (⟨1, 0⟩ : Prod2 ℝ).Rep 0 := ⟨one_pos, by simp⟩
  have hS := Prod2.ln_rep (Prod2.foldl_rep (fun p => exactReal.sub 1 p) ps
    (fun p hp => by change 0 < 1 - p; linarith [(hps p hp).2]) _ _ hinit)
  have hH := Prod2.ln_rep (Prod2.foldl_rep (fun p => p) ps (fun p hp => (hps p hp).1) _ _ hinit)
  have hS0 := sum_log_nonpos ps (fun p => 1 - p) (fun p hp => by
    constructor <;> linarith [(hps p hp).1, (hps p hp).2])
  have hH0 := sum_log_nonpos ps (fun p => p) hps
  unfold combine
  simp only [hS, hH, bind, Except.bind, zero_add]
  by_cases hn : ps = []
  · subst hn
    simp [indicator, exactReal]
  · have hl : 0 < ps.length := List.length_pos_iff.2 hn
    rw [if_pos hl]
    have e1 : exactReal.mul (-2) (ps.map (fun p => Real.log (exactReal.sub 1 p))).sum =
        -2 * ((ps.map (1 - ·)).map Real.log).sum := by
      rw [List.map_map]; rfl
    have e2 : exactReal.mul (-2) (ps.map (fun p => Real.log p)).sum = -2 * (ps.map Real.log).sum := rfl
    have e3 : ((ps.map (1 - ·)).map Real.log).sum ≤ 0 := by rw [List.map_map]; exact hS0
    rw [e1, e2, chi2Q_exact (by linarith) _ hl, chi2Q_exact (by linarith) _ hl]
    simp only [if_neg hn, indicator]
    simp [fisher, exactReal, FloatOps.sub, FloatOps.div, FloatOps.add]

theorem freshProbability_exact {ns nh : Int} {r : WordInfo} (hs : 0 ≤ r.spamcount)
    (hh : 0 ≤ r.hamcount) (hnz : r.spamcount ≠ 0 ∨ r.hamcount ≠ 0)
    (hs1 : r.spamcount ≤ if ns = 0 then 1 else ns) (hh1 : r.hamcount ≤ if nh = 0 then 1 else nh) :
    freshProbability exactReal ns nh r = .ok (robinson ns nh r.spamcount r.hamcount) ∧
      0 < robinson ns nh r.spamcount r.hamcount ∧ robinson ns nh r.spamcount r.hamcount < 1 := by
  unfold freshProbability robinson
  set nh' := if nh = 0 then (1 : Int) else nh with hnh'
  set ns' := if ns = 0 then (1 : Int) else ns with hns'
  have pnh : 0 < nh' := by
    have : nh' ≠ 0 := by rw [hnh']; split <;> omega
    omega
  have pns : 0 < ns' := by
    have : ns' ≠ 0 := by rw [hns']; split <;> omega
    omega
  have qnh : (0 : ℝ) < (nh' : ℝ) := by exact_mod_cast pnh
  have qns : (0 : ℝ) < (ns' : ℝ) := by exact_mod_cast pns
  have qh : (0 : ℝ) ≤ (r.hamcount : ℝ) := by exact_mod_cast hh
  have qs : (0 : ℝ) ≤ (r.spamcount : ℝ) := by exact_mod_cast hs
  simp only
  rw [if_neg (by omega), if_neg (by omega)]
  set sr : ℝ := (r.spamcount : ℝ) / (ns' : ℝ) with hsr
  set hr : ℝ := (r.hamcount : ℝ) / (nh' : ℝ) with hhr
  have sr0 : 0 ≤ sr := div_nonneg qs qns.le
  have hr0 : 0 ≤ hr := div_nonneg qh qnh.le
  have den : 0 < hr + sr := by
    rcases hnz with h | h
    · have : (0 : ℝ) < r.spamcount := by exact_mod_cast (by omega : 0 < r.spamcount)
      have : 0 < sr := div_pos this qns
      linarith
    · have : (0 : ℝ) < r.hamcount := by exact_mod_cast (by omega : 0 < r.hamcount)
      have : 0 < hr := div_pos this qnh
      linarith
  have en : ((r.hamcount + r.spamcount : Int) : ℝ) = r.hamcount + r.spamcount := by push_cast; ring
  have n0 : (0 : ℝ) ≤ r.hamcount + r.spamcount := by linarith
  have e1 : exactReal.add (exactReal.rnd hr) (exactReal.rnd sr) = hr + sr := rfl
  rw [e1, if_neg den.ne']
  have e2 : exactReal.add (unknownWordStrength exactReal)
      (exactReal.rnd ((r.hamcount + r.spamcount : Int) : ℝ)) = 45 / 100 + (r.hamcount + r.spamcount) := by
    change (45 / 100 : ℝ) + ((r.hamcount + r.spamcount : Int) : ℝ) = _
    rw [en]
  rw [e2, if_neg (by positivity)]
  have e3 : exactReal.div (exactReal.add (exactReal.mul (unknownWordStrength exactReal)
      (unknownWordProb exactReal)) (exactReal.mul (exactReal.rnd ((r.hamcount + r.spamcount : Int) : ℝ))
        (exactReal.div (exactReal.rnd sr) (hr + sr)))) (45 / 100 + (r.hamcount + r.spamcount)) =
      (45 / 100 * (1 / 2) + (r.hamcount + r.spamcount) * (sr / (hr + sr))) /
        (45 / 100 + (r.hamcount + r.spamcount)) := by
    rw [← en]; rfl
  rw [e3]
  have p0 : 0 ≤ sr / (hr + sr) := div_nonneg sr0 den.le
  have p1 : sr / (hr + sr) ≤ 1 := (div_le_one den).2 (by linarith)
  refine ⟨by norm_num, by positivity, ?_⟩
  rw [div_lt_one (by positivity)]
  have := mul_le_of_le_one_right n0 p1
  linarith

theorem exactReal_posRatios : exactReal.PosRatios := by
  intro a b ha hb
  have : (0 : ℝ) < a := by exact_mod_cast ha
  have : (0 : ℝ) < b := by exact_mod_cast hb
  change (0 : ℝ) < a / b
  positivity

theorem float53_posRatios : float53.PosRatios := by
  intro a b ha hb
  have : (0 : ℝ) < a := by exact_mod_cast ha
  have : (0 : ℝ) < b := by exact_mod_cast hb
  exact round53_pos (by positivity)

/-- exact word probability of a record that training can leave -/
theorem freshProbability_exact_ok {ns nh : Int} {r : WordInfo} {p : ℝ} (hs : 0 ≤ r.spamcount)
    (hh : 0 ≤ r.hamcount) (hnz : r.spamcount ≠ 0 ∨ r.hamcount ≠ 0)
    (h : freshProbability exactReal ns nh r = .ok p) :
    r.spamcount ≤ (if ns = 0 then 1 else ns) ∧ r.hamcount ≤ (if nh = 0 then 1 else nh) ∧
      p = robinson ns nh r.spamcount r.hamcount ∧ 0 < p ∧ p < 1 := by
  by_cases hg : r.hamcount > (if nh = 0 then 1 else nh) ∨ r.spamcount > (if ns = 0 then 1 else ns)
  · rw [freshProbability_exceeds hg] at h; cases h
  · push Not at hg
    obtain ⟨h1, h2, h3⟩ := freshProbability_exact hs hh hnz hg.2 hg.1
    rw [h1] at h
    cases h
    exact ⟨hg.2, hg.1, rfl, h2, h3⟩

theorem indicator_perm {ps qs : List ℝ} (h : ps.Perm qs) : indicator ps = indicator qs := by
  unfold indicator fisher
  have e1 : ps = [] ↔ qs = [] := by
    constructor
    · rintro rfl; exact List.nil_perm.1 h
    · rintro rfl; exact List.perm_nil.1 h
  have e2 := (h.map Real.log).sum_eq
  have e3 := ((h.map (1 - ·)).map Real.log).sum_eq
  have e4 := h.length_eq
  simp only [List.length_map, e2, e3, e4, e1]

theorem fisher_perm {ps qs : List ℝ} (h : ps.Perm qs) : fisher ps = fisher qs := by
  unfold fisher
  rw [(h.map Real.log).sum_eq, h.length_eq]

theorem indicator_mirror (ps : List ℝ) : indicator (ps.map (1 - ·)) = 1 - indicator ps := by
  unfold indicator
  by_cases h : ps = []
  · subst h; norm_num
  · have h' : ps.map (1 - ·) ≠ [] := by simpa using h
    rw [if_neg h, if_neg h']
    have : (ps.map (1 - ·)).map (1 - ·) = ps := by
      rw [List.map_map]
      conv_rhs => rw [← List.map_id ps]
      apply List.map_congr_left
      intro a _; simp
    rw [this]; ring

theorem sum_log_mono {ps qs : List ℝ} (g : ℝ → ℝ)
    (h : List.Forall₂ (fun p q => 0 < g p ∧ g p ≤ g q) ps qs) :
    (ps.map (fun p => Real.log (g p))).sum ≤ (qs.map (fun p => Real.log (g p))).sum := by
  induction h with
  | nil => simp
  | cons hab _ ih =>
    simp only [List.map_cons, List.sum_cons]
    have := Real.log_le_log hab.1 hab.2
    linarith

theorem indicator_mono {ps qs : List ℝ} (hp : ∀ p ∈ ps, 0 < p ∧ p < 1) (hq : ∀ p ∈ qs, 0 < p ∧ p < 1)
    (h : List.Forall₂ (· ≤ ·) ps qs) : indicator ps ≤ indicator qs := by
  have hlen := h.length_eq
  unfold indicator
  by_cases h0 : ps = []
  · subst h0; cases h; simp
  · have h0' : qs ≠ [] := by rintro rfl; cases h; exact h0 rfl
    rw [if_neg h0, if_neg h0']
    have m1 : (ps.map Real.log).sum ≤ (qs.map Real.log).sum := by
      apply sum_log_mono (fun p => p)
      clear h0 h0' hlen
      induction h with
      | nil => exact .nil
      | cons hab _ ih =>
        exact .cons ⟨(hp _ (by simp)).1, hab⟩ (ih (fun p h => hp p (by simp [h])) (fun p h => hq p (by simp [h])))
    have m2 : ((qs.map (1 - ·)).map Real.log).sum ≤ ((ps.map (1 - ·)).map Real.log).sum := by
      rw [List.map_map, List.map_map]
      apply sum_log_mono (fun p => 1 - p)
      clear h0 h0' hlen m1
      induction h with
      | nil => exact .nil
      | cons hab _ ih =>
        refine .cons ⟨?_, by linarith⟩ (ih (fun p h => hp p (by simp [h])) (fun p h => hq p (by simp [h])))
        have := (hq _ (List.mem_cons_self)).2
        linarith
    have z1 := sum_log_nonpos qs (fun p => p) hq
    have z2 : ((ps.map (1 - ·)).map Real.log).sum ≤ 0 := by
      rw [List.map_map]
      exact sum_log_nonpos ps (fun p => 1 - p) (fun p h => by constructor <;> linarith [(hp p h).1, (hp p h).2])
    unfold fisher
    rw [List.length_map, List.length_map, ← hlen]
    have a1 := chiSurvival_anti (x := -2 * (qs.map Real.log).sum) (y := -2 * (ps.map Real.log).sum)
      (by linarith) (by linarith) ps.length
    have a2 := chiSurvival_anti (x := -2 * ((ps.map (1 - ·)).map Real.log).sum)
      (y := -2 * ((qs.map (1 - ·)).map Real.log).sum) (by linarith) (by linarith) ps.length
    linarith

theorem indicator_replicate {p : ℝ} (h0 : 1 / 2 < p) (h1 : p < 1) {n : ℕ} (hn : 0 < n) :
    1 / 2 < indicator (List.replicate n p) := by
  unfold indicator
  have hne : List.replicate n p ≠ [] := by
    intro h; have := congrArg List.length h; simp at this; omega
  rw [if_neg hne]
  unfold fisher
  simp only [List.map_replicate, List.sum_replicate, List.length_replicate, nsmul_eq_mul]
  have hl : Real.log (1 - p) < Real.log p := Real.log_lt_log (by linarith) (by linarith)
  have hl0 : Real.log p ≤ 0 := Real.log_nonpos (by linarith) h1.le
  have hn' : (0 : ℝ) < n := by exact_mod_cast hn
  have := chiSurvival_strictAnti (x := -2 * (n * Real.log p)) (y := -2 * (n * Real.log (1 - p)))
    (by nlinarith) (by nlinarith) hn
  linarith

end
end Sb
