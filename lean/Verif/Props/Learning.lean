import Verif.Props.Mirror
import Verif.Props.Shared

/-
Properties C96 (learning a message moves its tokens towards its class) and C97
(which side of 0.5 a score is on).  Exact arithmetic.
-/

set_option linter.unusedSectionVars false

namespace Sb.Props
open Sb Py Spec

/-! ### the arithmetic of word probabilities -/

theorem smooth_mono {n n' p p' : ℝ} (hn : 0 ≤ n) (hnn : n ≤ n') (hp : p ≤ p') (hx : 1 / 2 ≤ p') :
    (0.45 * 0.5 + n * p) / (0.45 + n) ≤ (0.45 * 0.5 + n' * p') / (0.45 + n') := by
  have h1 : (0 : ℝ) < 0.45 + n := by linarith
  have h2 : (0 : ℝ) < 0.45 + n' := by linarith
  rw [div_le_div_iff₀ h1 h2]
  have a : 0 ≤ n * (p' - p) := mul_nonneg hn (by linarith)
  have b : 0 ≤ n * n' * (p' - p) := mul_nonneg (mul_nonneg hn (by linarith)) (by linarith)
  have c : 0 ≤ (n' - n) * (p' - 1 / 2) := mul_nonneg (by linarith) (by linarith)
  nlinarith

theorem smooth_anti {n p p' : ℝ} (hn : 0 ≤ n) (hp : p' ≤ p) :
    (0.45 * 0.5 + n * p') / (0.45 + n) ≤ (0.45 * 0.5 + n * p) / (0.45 + n) := by
  have h1 : (0 : ℝ) < 0.45 + n := by linarith
  rw [div_le_div_iff_of_pos_right h1]
  have := mul_le_mul_of_nonneg_left hp hn
  linarith

/-- the share of spam as a fraction of counts -/
theorem share_eq {s S h H : ℝ} (hS : 0 < S) (hH : 0 < H) :
    s / S / (h / H + s / S) = s * H / (h * S + s * H) := by
  have e : h / H + s / S = (h * S + s * H) / (H * S) := by field_simp
  rw [e, div_div_div_eq]
  by_cases hz : h * S + s * H = 0
  · rw [hz]; simp
  · field_simp

/-- the arithmetic of one more spam message with the word, if at least one of the
ham messages has it and there are at most 11 spam messages per ham message -/
theorem smooth_raise {s S h H : ℝ} (hs : 0 ≤ s) (hsS : s ≤ S) (hS : 0 < S) (h1 : 1 ≤ h) (hH : h ≤ H)
    (hb : S + 1 ≤ 11 * H) :
    (0.45 * 0.5 + (h + s) * (s / S / (h / H + s / S))) / (0.45 + (h + s)) ≤
      (0.45 * 0.5 + (h + (s + 1)) * ((s + 1) / (S + 1) / (h / H + (s + 1) / (S + 1)))) /
        (0.45 + (h + (s + 1))) := by
  have hH0 : 0 < H := by linarith
  obtain ⟨t, ht⟩ : ∃ t, t = h / H := ⟨_, rfl⟩
  have ht0 : 0 < t := by rw [ht]; positivity
  have ht1 : t ≤ 1 := by rw [ht]; exact (div_le_one hH0).2 hH
  have hp : s / S / (h / H + s / S) = s / (t * S + s) := by
    rw [← ht]
    have : t + s / S = (t * S + s) / S := by field_simp
    rw [this]
    field_simp
  have hp' : (s + 1) / (S + 1) / (h / H + (s + 1) / (S + 1)) = (s + 1) / (t * (S + 1) + (s + 1)) := by
    rw [← ht]
    have : t + (s + 1) / (S + 1) = (t * (S + 1) + (s + 1)) / (S + 1) := by field_simp
    rw [this]
    field_simp
  rw [hp, hp']
  have hk' : t * (S + 1) ≤ 11 * h := by
    rw [ht, div_mul_eq_mul_div, div_le_iff₀ hH0]
    nlinarith
  have a : 0 < t * S + s := by positivity
  have b : 0 < t * (S + 1) + (s + 1) := by positivity
  have hd : (s + 1) / (t * (S + 1) + (s + 1)) - s / (t * S + s) =
      (t * S - s * t) / ((t * (S + 1) + (s + 1)) * (t * S + s)) := by
    rw [div_sub_div _ _ b.ne' a.ne']
    congr 1
    ring
  have hx : 1 / 2 - s / (t * S + s) = (t * S - s) / (2 * (t * S + s)) := by
    rw [div_sub_div _ _ (by norm_num) a.ne']
    congr 1
    ring
  have key : 0.45 * (1 / 2 - s / (t * S + s)) ≤
      (h + s + 1) * (0.45 + (h + s)) * ((s + 1) / (t * (S + 1) + (s + 1)) - s / (t * S + s)) := by
    rw [hd, hx, ← mul_div_assoc, ← mul_div_assoc, div_le_div_iff₀ (by positivity) (by positivity)]
    have e : 0.45 * (t * S - s) * ((t * (S + 1) + (s + 1)) * (t * S + s)) =
        (0.45 * (t * S - s) * (t * (S + 1) + (s + 1))) * (t * S + s) := by ring
    have e' : (h + s + 1) * (0.45 + (h + s)) * (t * S - s * t) * (2 * (t * S + s)) =
        (2 * ((h + s + 1) * (0.45 + (h + s))) * (t * S - s * t)) * (t * S + s) := by ring
    rw [e, e']
    refine mul_le_mul_of_nonneg_right ?_ a.le
    have c0 : 0 ≤ t * S - s * t := by nlinarith
    have c1 : t * S - s ≤ t * S - s * t := by nlinarith
    have c2 : 0.45 * (t * (S + 1) + (s + 1)) ≤ 2 * ((h + s + 1) * (0.45 + (h + s))) := by
      have q1 : 0 ≤ (h - 1) * (2 * h - 0.05) := mul_nonneg (by linarith) (by linarith)
      have q2 : 0 ≤ s * h := mul_nonneg hs (by linarith)
      have q3 : 0 ≤ s * s := mul_nonneg hs hs
      nlinarith
    calc 0.45 * (t * S - s) * (t * (S + 1) + (s + 1))
        = (t * S - s) * (0.45 * (t * (S + 1) + (s + 1))) := by ring
      _ ≤ (t * S - s * t) * (0.45 * (t * (S + 1) + (s + 1))) :=
          mul_le_mul_of_nonneg_right c1 (by positivity)
      _ ≤ (t * S - s * t) * (2 * ((h + s + 1) * (0.45 + (h + s)))) := mul_le_mul_of_nonneg_left c2 c0
      _ = 2 * ((h + s + 1) * (0.45 + (h + s))) * (t * S - s * t) := by ring
  generalize (s + 1) / (t * (S + 1) + (s + 1)) = p' at *
  generalize s / (t * S + s) = p at *
  rw [div_le_div_iff₀ (by linarith) (by linarith)]
  nlinarith

/-- one more spam message with the word -/
theorem robinson_own {ns nh s h : ℤ} (hns : 0 ≤ ns) (hnh : 0 ≤ nh) (hs : 0 ≤ s) (hh : 0 ≤ h)
    (hnz : s ≠ 0 ∨ h ≠ 0) (hs1 : s ≤ ns) (hh1 : h ≤ if nh = 0 then 1 else nh)
    (hb : h = 0 ∨ ns + 1 ≤ 11 * nh) :
    robinson ns nh s h ≤ robinson (ns + 1) nh (s + 1) h := by
  have hs' : (0 : ℝ) ≤ s := by exact_mod_cast hs
  unfold robinson
  simp only
  rw [if_neg (by omega : ¬ ns + 1 = 0)]
  rcases hb with rfl | hb
  · -- no ham message has the word
    have h0 : 0 < s := by omega
    have hs0 : (0 : ℝ) < s := by exact_mod_cast h0
    rw [if_neg (by omega : ¬ ns = 0)]
    have hns0 : (0 : ℝ) < ns := by
      have : 0 < ns := by omega
      exact_mod_cast this
    push_cast
    simp only [zero_div, zero_add]
    rw [div_self (by positivity), div_self (by positivity)]
    exact smooth_mono hs' (by linarith) le_rfl (by norm_num)
  · have hnh0 : ¬ nh = 0 := by omega
    rw [if_neg hnh0] at hh1 ⊢
    have hH : (0 : ℝ) < nh := by
      have : 0 < nh := by omega
      exact_mod_cast this
    by_cases hz : h = 0
    · subst hz
      have h0 : 0 < s := by omega
      have hs0 : (0 : ℝ) < s := by exact_mod_cast h0
      rw [if_neg (by omega : ¬ ns = 0)]
      have hns0 : (0 : ℝ) < ns := by
        have : 0 < ns := by omega
        exact_mod_cast this
      push_cast
      simp only [zero_div, zero_add]
      rw [div_self (by positivity), div_self (by positivity)]
      exact smooth_mono hs' (by linarith) le_rfl (by norm_num)
    · have h1 : (1 : ℝ) ≤ h := by
        have : 1 ≤ h := by omega
        exact_mod_cast this
      have hhH : (h : ℝ) ≤ nh := by exact_mod_cast hh1
      by_cases hn0 : ns = 0
      · -- the first spam message
        subst hn0
        have : s = 0 := by omega
        subst this
        push_cast
        simp only [zero_div, add_zero, mul_zero, div_one]
        have e : (0.45 * 0.5 : ℝ) / (0.45 + h) = (0.45 * 0.5 + h * 0) / (0.45 + h) := by ring
        rw [e]
        refine smooth_mono (by linarith) (by linarith) (by positivity) ?_
        rw [div_le_div_iff₀ (by norm_num) (by positivity)]
        have : (h : ℝ) / nh ≤ 1 := (div_le_one hH).2 hhH
        linarith
      · rw [if_neg hn0]
        have hns0 : (0 : ℝ) < ns := by
          have : 0 < ns := by omega
          exact_mod_cast this
        have := smooth_raise (s := s) (S := ns) (h := h) (H := nh) hs' (by exact_mod_cast hs1) hns0 h1 hhH
          (by exact_mod_cast hb)
        push_cast
        exact this

/-- one more spam message without the word -/
theorem robinson_other {ns nh s h : ℤ} (hns : 0 ≤ ns) (hnh : 0 ≤ nh) (hs : 0 ≤ s) (hh : 0 ≤ h) :
    robinson (ns + 1) nh s h ≤ robinson ns nh s h := by
  unfold robinson
  simp only
  rw [if_neg (by omega : ¬ ns + 1 = 0)]
  have hs' : (0 : ℝ) ≤ s := by exact_mod_cast hs
  have hh' : (0 : ℝ) ≤ h := by exact_mod_cast hh
  by_cases hn0 : ns = 0
  · subst hn0; simp
  rw [if_neg hn0]
  refine smooth_anti (by linarith) ?_
  have hns0 : (0 : ℝ) < ns := by
    have : 0 < ns := by omega
    exact_mod_cast this
  have hnh0 : (0 : ℝ) < ((if nh = 0 then 1 else nh : ℤ) : ℝ) := by
    have : 0 < (if nh = 0 then 1 else nh : ℤ) := by split <;> omega
    exact_mod_cast this
  generalize ((if nh = 0 then 1 else nh : ℤ) : ℝ) = H at *
  push_cast
  rw [share_eq (by linarith) hnh0, share_eq hns0 hnh0]
  rcases eq_or_lt_of_le hs' with h0 | h0
  · rw [← h0]; simp
  · apply div_le_div_of_nonneg_left (by positivity) (by positivity)
    nlinarith

section
variable {W : Type} [LinearOrder W] [BigramFormat W]

/-- helper: what one more training call does to the counts -/
theorem after_learn (ub : Bool) (calls : List (Call W)) (it : SetIter W) (s : Stream W) (b : Bool) :
    let c := after exactReal ub calls
    let c' := after exactReal ub (calls ++ [.learn it s b])
    c'.nspam = (if b then c.nspam + 1 else c.nspam) ∧ c'.nham = (if b then c.nham else c.nham + 1) ∧
    ∀ w, c'.store.get? w = if w ∈ trained ub s then some (bump b (c.store.get? w)) else c.store.get? w := by
  obtain ⟨-, -, hub⟩ := after_ok exactReal ub calls
  intro c c'
  have hc : c' = afterAdd it (trainTokens ub s) b c := by
    change after exactReal ub (calls ++ [.learn it s b]) = _
    rw [after_append]
    change (learn (memory W) it s b c).2 = _ at *
    rw [learn_memory it s b c hub]
  rw [hc]
  refine ⟨rfl, rfl, fun w => ?_⟩
  rw [← trainTokens_eq]
  exact get?_addAll it _ b _ w

/-! ### C96 -/

/-- **C96**, tokens of the message, learned as spam: the probability of a token does
not go down, provided that there are then at most 11 spam messages per ham message,
or no ham message has the token. -/
theorem C96_own_words_partial (ub : Bool) (calls : List (Call W)) (it : SetIter W) (s : Stream W) (w : W)
    (hw : w ∈ trained ub s) (p p' : ℝ)
    (hb : (after exactReal ub calls).nspam + 1 ≤ 11 * (after exactReal ub calls).nham ∨
      ∀ r, (after exactReal ub calls).store.get? w = some r → r.hamcount = 0)
    (h : tokenProb exactReal (after exactReal ub calls) w = .ok p)
    (h' : tokenProb exactReal (after exactReal ub (calls ++ [.learn it s true])) w = .ok p') : p ≤ p' := by
  obtain ⟨hs, hk, -⟩ := after_ok exactReal ub calls
  obtain ⟨hs', hk', -⟩ := after_ok exactReal ub (calls ++ [.learn it s true])
  obtain ⟨e1, e2, e3⟩ := after_learn ub calls it s true
  have e3 := e3 w
  rw [tokenProb_eq _ hk] at h
  rw [tokenProb_eq _ hk'] at h'
  generalize after exactReal ub calls = c at *
  generalize after exactReal ub (calls ++ [.learn it s true]) = c' at *
  simp only [if_true] at e1 e2
  rw [if_pos hw] at e3
  have a := hs.nspam
  have b := hs.nham
  cases hr : c.store.get? w with
  | none =>
    rw [hr] at h e3
    cases h
    rw [e3] at h'
    obtain ⟨r0, r1, r2⟩ := hs'.records w _ e3
    obtain ⟨-, -, rfl, -⟩ := freshProbability_exact_ok r0 r1 r2 h'
    rw [e1, e2]
    change (1 / 2 : ℝ) ≤ robinson (c.nspam + 1) c.nham 1 0
    unfold robinson
    rw [if_neg (by omega : ¬ c.nspam + 1 = 0)]
    have : (0 : ℝ) < ((c.nspam + 1 : ℤ) : ℝ) := by
      have : 0 < c.nspam + 1 := by omega
      exact_mod_cast this
    simp only [Int.cast_zero, Int.cast_one, zero_div, zero_add]
    rw [div_self (by positivity)]
    norm_num
  | some r =>
    rw [hr] at h e3
    rw [e3] at h'
    obtain ⟨q0, q1, q2⟩ := hs.records w r hr
    obtain ⟨r0, r1, r2⟩ := hs'.records w _ e3
    obtain ⟨f1, f2, rfl, -⟩ := freshProbability_exact_ok q0 q1 q2 h
    obtain ⟨g1, g2, rfl, -⟩ := freshProbability_exact_ok r0 r1 r2 h'
    rw [e1, e2]
    change robinson c.nspam c.nham r.spamcount r.hamcount ≤
      robinson (c.nspam + 1) c.nham (r.spamcount + 1) r.hamcount
    have g1 : r.spamcount + 1 ≤ if c'.nspam = 0 then 1 else c'.nspam := g1
    rw [e1, if_neg (by omega)] at g1
    exact robinson_own a b q0 q1 q2 (by omega) f2 (hb.symm.imp (fun h => h r hr) id)

/-- **C96**, the other tokens, message learned as spam: the probability of a token
that the message does not have does not go up. -/
theorem C96_other_words (ub : Bool) (calls : List (Call W)) (it : SetIter W) (s : Stream W) (w : W)
    (hw : w ∉ trained ub s) (p p' : ℝ)
    (h : tokenProb exactReal (after exactReal ub calls) w = .ok p)
    (h' : tokenProb exactReal (after exactReal ub (calls ++ [.learn it s true])) w = .ok p') : p' ≤ p := by
  obtain ⟨hs, hk, -⟩ := after_ok exactReal ub calls
  obtain ⟨hs', hk', -⟩ := after_ok exactReal ub (calls ++ [.learn it s true])
  obtain ⟨e1, e2, e3⟩ := after_learn ub calls it s true
  have e3 := e3 w
  rw [tokenProb_eq _ hk] at h
  rw [tokenProb_eq _ hk'] at h'
  generalize after exactReal ub calls = c at *
  generalize after exactReal ub (calls ++ [.learn it s true]) = c' at *
  simp only [if_true] at e1 e2
  rw [if_neg hw] at e3
  cases hr : c.store.get? w with
  | none =>
    rw [hr] at h e3
    cases h
    rw [e3] at h'
    cases h'
    exact le_rfl
  | some r =>
    rw [hr] at h e3
    rw [e3] at h'
    obtain ⟨q0, q1, q2⟩ := hs.records w r hr
    obtain ⟨f1, f2, rfl, -⟩ := freshProbability_exact_ok q0 q1 q2 h
    obtain ⟨g1, g2, rfl, -⟩ := freshProbability_exact_ok q0 q1 q2 h'
    rw [e1, e2]
    exact robinson_other hs.nspam hs.nham q0 q1

/-- **C96**, tokens of the message, learned as ham: the probability of a token does
not go up, provided that there are then at most 11 ham messages per spam message, or
no spam message has the token. -/
theorem C96_own_words_ham_partial (ub : Bool) (calls : List (Call W)) (it : SetIter W) (s : Stream W) (w : W)
    (hw : w ∈ trained ub s) (p p' : ℝ)
    (hb : (after exactReal ub calls).nham + 1 ≤ 11 * (after exactReal ub calls).nspam ∨
      ∀ r, (after exactReal ub calls).store.get? w = some r → r.spamcount = 0)
    (h : tokenProb exactReal (after exactReal ub calls) w = .ok p)
    (h' : tokenProb exactReal (after exactReal ub (calls ++ [.learn it s false])) w = .ok p') : p' ≤ p := by
  obtain ⟨hs, hk, -⟩ := after_ok exactReal ub calls
  obtain ⟨hs', hk', -⟩ := after_ok exactReal ub (calls ++ [.learn it s false])
  obtain ⟨e1, e2, e3⟩ := after_learn ub calls it s false
  have e3 := e3 w
  rw [tokenProb_eq _ hk] at h
  rw [tokenProb_eq _ hk'] at h'
  generalize after exactReal ub calls = c at *
  generalize after exactReal ub (calls ++ [.learn it s false]) = c' at *
  simp only [Bool.false_eq_true, if_false] at e1 e2
  rw [if_pos hw] at e3
  have a := hs.nspam
  have b := hs.nham
  cases hr : c.store.get? w with
  | none =>
    rw [hr] at h e3
    cases h
    rw [e3] at h'
    obtain ⟨r0, r1, r2⟩ := hs'.records w _ e3
    obtain ⟨-, -, rfl, -⟩ := freshProbability_exact_ok r0 r1 r2 h'
    rw [e1, e2]
    change robinson c.nspam (c.nham + 1) 0 1 ≤ (1 / 2 : ℝ)
    unfold robinson
    simp only [Int.cast_zero, zero_div, mul_zero, Int.cast_one]
    norm_num
  | some r =>
    rw [hr] at h e3
    rw [e3] at h'
    obtain ⟨q0, q1, q2⟩ := hs.records w r hr
    obtain ⟨r0, r1, r2⟩ := hs'.records w _ e3
    obtain ⟨f1, f2, rfl, -⟩ := freshProbability_exact_ok q0 q1 q2 h
    obtain ⟨g1, g2, rfl, -⟩ := freshProbability_exact_ok r0 r1 r2 h'
    rw [e1, e2]
    change robinson c.nspam (c.nham + 1) r.spamcount (r.hamcount + 1) ≤
      robinson c.nspam c.nham r.spamcount r.hamcount
    have g2 : r.hamcount + 1 ≤ if c'.nham = 0 then 1 else c'.nham := g2
    rw [e2, if_neg (by omega)] at g2
    have key := robinson_own (ns := c.nham) (nh := c.nspam) (s := r.hamcount) (h := r.spamcount) b a q1 q0 q2.symm
      (by omega) f1 (hb.symm.imp (fun h => h r hr) id)
    rw [robinson_mirror a b q0 q1 q2, robinson_mirror a (by omega) q0 (by omega) (Or.inr (by omega))] at key
    linarith

/-- **C96**, the other tokens, message learned as ham: the probability of a token that
the message does not have does not go down. -/
theorem C96_other_words_ham (ub : Bool) (calls : List (Call W)) (it : SetIter W) (s : Stream W) (w : W)
    (hw : w ∉ trained ub s) (p p' : ℝ)
    (h : tokenProb exactReal (after exactReal ub calls) w = .ok p)
    (h' : tokenProb exactReal (after exactReal ub (calls ++ [.learn it s false])) w = .ok p') : p ≤ p' := by
  obtain ⟨hs, hk, -⟩ := after_ok exactReal ub calls
  obtain ⟨hs', hk', -⟩ := after_ok exactReal ub (calls ++ [.learn it s false])
  obtain ⟨e1, e2, e3⟩ := after_learn ub calls it s false
  have e3 := e3 w
  rw [tokenProb_eq _ hk] at h
  rw [tokenProb_eq _ hk'] at h'
  generalize after exactReal ub calls = c at *
  generalize after exactReal ub (calls ++ [.learn it s false]) = c' at *
  simp only [Bool.false_eq_true, if_false] at e1 e2
  rw [if_neg hw] at e3
  cases hr : c.store.get? w with
  | none =>
    rw [hr] at h e3
    cases h
    rw [e3] at h'
    cases h'
    exact le_rfl
  | some r =>
    rw [hr] at h e3
    rw [e3] at h'
    obtain ⟨q0, q1, q2⟩ := hs.records w r hr
    obtain ⟨f1, f2, rfl, -⟩ := freshProbability_exact_ok q0 q1 q2 h
    obtain ⟨g1, g2, rfl, -⟩ := freshProbability_exact_ok q0 q1 q2 h'
    rw [e1, e2]
    have key := robinson_other (ns := c.nham) (nh := c.nspam) hs.nham hs.nspam q1 q0
    rw [robinson_mirror hs.nspam hs.nham q0 q1 q2,
      robinson_mirror hs.nspam (by have := hs.nham; omega) q0 q1 q2] at key
    linarith

/-- The probability of a token as a number (0 if there is none). -/
noncomputable def probOf (c : Clf (Dict W WordInfo) ℝ) (w : W) : ℝ :=
  match tokenProb exactReal c w with
  | .ok p => p
  | .error _ => 0

/-- A token strong enough to be a clue. -/
def Strong (c : Clf (Dict W WordInfo) ℝ) (w : W) : Prop := 1 / 10 ≤ |probOf c w - 1 / 2|

open Classical in
/-- helper: the score of a message with at most 150 strong tokens -/
theorem unigram_score (calls : List (Call W)) (it : SetIter W) (s : Stream W) (ev : Bool) (p : ℝ)
    (o : Option (List (EvWord W × ℝ)))
    (h : (spamprob exactReal (memory W) it s ev (after exactReal false calls)).1 = .ok (p, o)) :
    (∀ w ∈ s.items, tokenProb exactReal (after exactReal false calls) w =
        .ok (probOf (after exactReal false calls) w) ∧ 0 < probOf (after exactReal false calls) w ∧
        probOf (after exactReal false calls) w < 1) ∧
    (((it.order s.items).filter (fun w => decide (Strong (after exactReal false calls) w))).length ≤ 150 →
      p = indicator (((it.order s.items).filter (fun w => decide (Strong (after exactReal false calls) w))).map
        (probOf (after exactReal false calls)))) := by
  obtain ⟨hs, hk, hub⟩ := after_ok exactReal false calls
  have htp := tokenProb_eq exactReal hk
  generalize after exactReal false calls = c at *
  rw [spamprob_eq _ hk] at h
  obtain ⟨clues, S, H, h1, h2, -⟩ := pureSpamprob_ok h
  rw [combine_exact _ (clues_exact_strict hs h1)] at h2
  rw [hub] at h1
  obtain ⟨all, hf, hnd, hcl⟩ := unigram_ok (it.nodup _) h1
  have hval : ∀ w t, pureClue exactReal c.nspam c.nham c.store.get? w = .ok t →
      tokenProb exactReal c w = .ok (probOf c w) ∧ t.prob = probOf c w ∧
        t.distance = |probOf c w - 1 / 2| := by
    intro w t ht
    obtain ⟨-, t2, t3⟩ := pureClue_ok ht
    have e : tokenProb exactReal c w = .ok t.prob := by rw [htp]; exact t2
    have e2 : probOf c w = t.prob := by unfold probOf; rw [e]
    rw [e2]
    exact ⟨e, rfl, t3⟩
  constructor
  · intro w hw
    obtain ⟨t, -, ht⟩ := forall2_mem_left hf ((it.mem _ _).2 hw)
    have e := (hval w t ht).1
    refine ⟨e, ?_⟩
    rw [htp] at e
    exact pureProb_exact_strict hs e
  · intro hlen
    have hmap : ∀ (l : List W) (r : List (Clue W ℝ)),
        List.Forall₂ (fun x y => pureClue exactReal c.nspam c.nham c.store.get? x = .ok y) l r →
        (r.filter (fun t => decide (t.distance ≥ minimumProbStrength exactReal))).map (·.prob) =
          (l.filter (fun w => decide (Strong c w))).map (probOf c) := by
      intro l r hlr
      induction hlr with
      | nil => rfl
      | @cons a _ _ _ hab _ ih =>
        obtain ⟨-, v1, v2⟩ := hval _ _ hab
        rw [List.filter_cons, List.filter_cons, v2]
        have : (|probOf c a - 1 / 2| ≥ minimumProbStrength exactReal) = Strong c a := rfl
        simp only [this]
        split
        · rw [List.map_cons, List.map_cons, ih, v1]
        · exact ih
    have hm := hmap _ _ hf
    have hl2 : (all.filter (fun t => decide (t.distance ≥ minimumProbStrength exactReal))).length ≤ 150 := by
      have := congrArg List.length hm
      rw [List.length_map, List.length_map] at this
      rw [this]; exact hlen
    have hk2 : clues = (all.filter (fun t => decide (t.distance ≥ minimumProbStrength exactReal))).mergeSort clueLe := by
      rw [hcl]
      unfold keepStrongest maxDiscriminators
      rw [if_neg (by rw [List.length_mergeSort]; omega)]
    have hp : (clues.map (·.prob)).Perm (((it.order s.items).filter (fun w => decide (Strong c w))).map (probOf c)) := by
      rw [← hm, hk2]
      exact (List.mergeSort_perm _ _).map _
    rw [← indicator_perm hp]
    exact (congrArg Prod.fst (Except.ok.inj h2)).symm

open Classical in
/-- **C96**, the score of the message itself: learning a message as spam does not
lower its score, if there are then at most 11 spam messages per ham message, at most
150 of its tokens are clues, and the same of its tokens are clues before and after. -/
theorem C96_score_partial (calls : List (Call W)) (it it1 it2 : SetIter W) (s s' : Stream W) (ev ev' : Bool) (p p' : ℝ)
    (o o' : Option (List (EvWord W × ℝ)))
    (hss : ∀ w, w ∈ s'.items ↔ w ∈ s.items)
    (hb : (after exactReal false calls).nspam + 1 ≤ 11 * (after exactReal false calls).nham)
    (h : (spamprob exactReal (memory W) it1 s' ev (after exactReal false calls)).1 = .ok (p, o))
    (h' : (spamprob exactReal (memory W) it2 s' ev'
      (after exactReal false (calls ++ [.learn it s true]))).1 = .ok (p', o'))
    (hsame : ∀ w ∈ s.items, Strong (after exactReal false calls) w ↔
      Strong (after exactReal false (calls ++ [.learn it s true])) w)
    (hcard : (s.items.toFinset.filter (fun w => Strong (after exactReal false calls) w)).card ≤ 150) :
    p ≤ p' := by
  obtain ⟨a1, a2⟩ := unigram_score calls it1 s' ev p o h
  obtain ⟨b1, b2⟩ := unigram_score (calls ++ [.learn it s true]) it2 s' ev' p' o' h'
  have hmono : ∀ w ∈ s'.items, probOf (after exactReal false calls) w ≤
      probOf (after exactReal false (calls ++ [.learn it s true])) w := by
    intro w hw
    have hw' : w ∈ trained false s := by
      have : trained false s = s.items := by cases s <;> simp [trained, Stream.items]
      rw [this]; exact (hss w).1 hw
    exact C96_own_words_partial false calls it s w hw' _ _ (Or.inl hb) (a1 w hw).1 (b1 w hw).1
  generalize after exactReal false calls = c at *
  generalize after exactReal false (calls ++ [.learn it s true]) = c' at *
  have hset : ∀ (it : SetIter W), ((it.order s'.items).filter (fun w => decide (Strong c w))).length ≤ 150 := by
    intro it
    have hnd : ((it.order s'.items).filter (fun w => decide (Strong c w))).Nodup :=
      (it.nodup _).sublist List.filter_sublist
    rw [← List.toFinset_card_of_nodup hnd]
    refine le_trans (Finset.card_le_card ?_) hcard
    intro w hw
    rw [List.mem_toFinset, List.mem_filter, it.mem, decide_eq_true_eq] at hw
    rw [Finset.mem_filter, List.mem_toFinset]
    exact ⟨(hss w).1 hw.1, hw.2⟩
  have hfil : ∀ (it : SetIter W), (it.order s'.items).filter (fun w => decide (Strong c' w)) =
      (it.order s'.items).filter (fun w => decide (Strong c w)) := by
    intro it
    apply List.filter_congr
    intro w hw
    have := hsame w ((hss w).1 ((it.mem _ _).1 hw))
    simp only [decide_eq_decide]
    exact this.symm
  rw [a2 (hset it1), b2 (by rw [hfil]; exact hset it2), hfil]
  have hperm : ((it2.order s'.items).filter (fun w => decide (Strong c w))).Perm
      ((it1.order s'.items).filter (fun w => decide (Strong c w))) := by
    refine List.Perm.filter _ ((List.perm_ext_iff_of_nodup (it2.nodup _) (it1.nodup _)).2 ?_)
    intro w
    rw [it2.mem, it1.mem]
  rw [indicator_perm (hperm.map (probOf c'))]
  have hmem : ∀ w ∈ (it1.order s'.items).filter (fun w => decide (Strong c w)), w ∈ s'.items := by
    intro w hw
    exact (it1.mem _ _).1 (List.mem_of_mem_filter hw)
  refine indicator_mono ?_ ?_ ?_
  · intro q hq
    obtain ⟨w, hw, rfl⟩ := List.mem_map.1 hq
    exact (a1 w (hmem w hw)).2
  · intro q hq
    obtain ⟨w, hw, rfl⟩ := List.mem_map.1 hq
    exact (b1 w (hmem w hw)).2
  · rw [List.forall₂_map_left_iff, List.forall₂_map_right_iff]
    generalize (it1.order s'.items).filter (fun w => decide (Strong c w)) = l at *
    clear hperm a2
    induction l with
    | nil => exact .nil
    | cons w l ih =>
      exact .cons (hmono w (hmem w (by simp))) (ih (fun x hx => hmem x (by simp [hx])))

end

/-- **C96**, the full claim: learning a message as spam never lowers the score of that
message. -/
def C96Claim : Prop := ∀ (calls : List (Call String)) (it : SetIter String) (s : Stream String) (p p' : ℝ)
    (o o' : Option (List (EvWord String × ℝ))),
  (spamprob exactReal (memory String) it s false (after exactReal false calls)).1 = .ok (p, o) →
  (spamprob exactReal (memory String) it s false (after exactReal false (calls ++ [.learn it s true]))).1 =
    .ok (p', o') → p ≤ p'

theorem indicator_single {p : ℝ} (h0 : 0 < p) (h1 : p < 1) : indicator [p] = p := by
  unfold indicator fisher chiSurvival
  simp only [List.cons_ne_nil, if_false, List.map_cons, List.map_nil, List.sum_cons, List.sum_nil, add_zero,
    List.length_singleton, Finset.sum_range_one, pow_zero, Nat.factorial_zero, Nat.cast_one, div_one, mul_one]
  have e1 : -(-2 * Real.log (1 - p) / 2) = Real.log (1 - p) := by ring
  have e2 : -(-2 * Real.log p / 2) = Real.log p := by ring
  rw [e1, e2, Real.exp_log (by linarith), Real.exp_log h0]
  ring

/-- helper: the probability of a word with known counts -/
theorem probOf_known {W : Type} [LinearOrder W] [BigramFormat W] (calls : List (Call W)) (w : W) (r : WordInfo)
    (hr : (after exactReal false calls).store.get? w = some r)
    (h1 : r.spamcount ≤ if (after exactReal false calls).nspam = 0 then 1 else (after exactReal false calls).nspam)
    (h2 : r.hamcount ≤ if (after exactReal false calls).nham = 0 then 1 else (after exactReal false calls).nham) :
    probOf (after exactReal false calls) w =
      robinson (after exactReal false calls).nspam (after exactReal false calls).nham r.spamcount r.hamcount := by
  obtain ⟨hs, hk, -⟩ := after_ok exactReal false calls
  unfold probOf
  rw [tokenProb_eq _ hk, hr]
  obtain ⟨q0, q1, q2⟩ := hs.records w r hr
  change (match freshProbability exactReal _ _ r with | .ok p => p | .error _ => 0) = _
  rw [(freshProbability_exact q0 q1 q2 h1 h2).1]

/-- helper: training calls are a valid history -/
theorem valid_learns (l : List (List String × Bool)) : ∀ L : Ledger String,
    ∃ L', Valid false L (l.map (fun x => Call.learn .dedup (.list x.1) x.2)) L' := by
  induction l with
  | nil => exact fun L => ⟨L, .nil L⟩
  | cons x r ih =>
    intro L
    obtain ⟨L', h⟩ := ih (msgOf false (.list x.1) x.2 ::ₘ L)
    exact ⟨L', .learn h⟩

open Classical in
/-- helper: the score of a message with one strong token -/
theorem score_single (l : List (List String × Bool)) (w : String) (q : ℝ)
    (hq : probOf (after exactReal false (l.map (fun x => Call.learn .dedup (.list x.1) x.2))) w = q)
    (hst : 1 / 10 ≤ |q - 1 / 2|) :
    ∃ o, (spamprob exactReal (memory String) .dedup (.list [w]) false
      (after exactReal false (l.map (fun x => Call.learn .dedup (.list x.1) x.2)))).1 = .ok (q, o) := by
  obtain ⟨L, hv⟩ := valid_learns l 0
  obtain ⟨⟨p, o⟩, h⟩ := C07_valid_history_scores false _ L hv .dedup (.list [w]) false
  obtain ⟨a1, a2⟩ := unigram_score _ _ _ _ _ _ h
  have hi := a1 w (by simp [Stream.items])
  generalize after (W := String) exactReal false _ = c at *
  have ho : SetIter.dedup.order (Stream.items (.list [w])) = [w] := rfl
  have hf : (SetIter.dedup.order (Stream.items (.list [w]))).filter (fun w => decide (Strong c w)) = [w] := by
    rw [ho, List.filter_cons, if_pos (by rw [decide_eq_true_eq]; unfold Strong; rw [hq]; exact hst)]
    rfl
  rw [hf] at a2
  have := a2 (by simp)
  rw [List.map_cons, List.map_nil, indicator_single hi.2.1 hi.2.2, hq] at this
  subst this
  exact ⟨o, h⟩

/-- One ham message with "lunch", and eleven spam messages without it. -/
def elevenToOne : List (List String × Bool) := (["lunch"], false) :: List.replicate 11 (["pills"], true)

/-- **C96** is false for the code as it is, with one message more than the bound of
C96_own_words_partial: after one ham message with "lunch" and eleven spam messages
without it, learning "lunch" as spam lowers its score. -/
theorem C96_claim_false : ¬ C96Claim := by
  intro hc
  have r1 : (after exactReal false (elevenToOne.map (fun x => Call.learn .dedup (.list x.1) x.2))).store.get? "lunch" =
    some ⟨0, 1⟩ := rfl
  have r2 : (after exactReal false ((elevenToOne ++ [(["lunch"], true)]).map
    (fun x => Call.learn .dedup (.list x.1) x.2))).store.get? "lunch" = some ⟨1, 1⟩ := rfl
  have n1 : (after exactReal false (elevenToOne.map (fun x => Call.learn .dedup (.list x.1) x.2))).nspam = 11 := rfl
  have n2 : (after exactReal false (elevenToOne.map (fun x => Call.learn .dedup (.list x.1) x.2))).nham = 1 := rfl
  have n3 : (after exactReal false ((elevenToOne ++ [(["lunch"], true)]).map
    (fun x => Call.learn .dedup (.list x.1) x.2))).nspam = 12 := rfl
  have n4 : (after exactReal false ((elevenToOne ++ [(["lunch"], true)]).map
    (fun x => Call.learn .dedup (.list x.1) x.2))).nham = 1 := rfl
  have p1 := probOf_known _ _ _ r1 (by rw [n1]; decide) (by rw [n2]; decide)
  have p2 := probOf_known _ _ _ r2 (by rw [n3]; decide) (by rw [n4]; decide)
  rw [n1, n2] at p1
  rw [n3, n4] at p2
  have v1 : robinson 11 1 0 1 = 9 / 58 := by norm_num [robinson]
  have v2 : robinson 12 1 1 1 = 197 / 1274 := by norm_num [robinson]
  obtain ⟨o, h⟩ := score_single elevenToOne "lunch" (9 / 58) (by rw [p1]; exact v1) (by norm_num [abs_le, le_abs])
  obtain ⟨o', h'⟩ := score_single (elevenToOne ++ [(["lunch"], true)]) "lunch" (197 / 1274) (by rw [p2]; exact v2)
    (by norm_num [abs_le, le_abs])
  rw [List.map_append] at h'
  have := hc _ _ _ _ _ _ _ h h'
  norm_num at this

/-- Both messages of the bound: at eleven to one, "lunch" is not lowered. -/
example : (after exactReal false (((["lunch"], false) :: List.replicate 10 (["pills"], true)).map
      (fun x : List String × Bool => Call.learn .dedup (.list x.1) x.2))).nspam + 1 ≤
    11 * (after exactReal false (((["lunch"], false) :: List.replicate 10 (["pills"], true)).map
      (fun x : List String × Bool => Call.learn .dedup (.list x.1) x.2))).nham ∧
    "lunch" ∈ trained false (Stream.list ["lunch"]) ∧
    robinson 10 1 0 1 < robinson 11 1 1 1 := by
  refine ⟨?_, by simp [trained], by norm_num [robinson]⟩
  have n1 : (after exactReal false (((["lunch"], false) :: List.replicate 10 (["pills"], true)).map
      (fun x : List String × Bool => Call.learn .dedup (.list x.1) x.2))).nspam = 10 := rfl
  have n2 : (after exactReal false (((["lunch"], false) :: List.replicate 10 (["pills"], true)).map
      (fun x : List String × Bool => Call.learn .dedup (.list x.1) x.2))).nham = 1 := rfl
  rw [n1, n2]; norm_num

/-! ### C97 -/

theorem sum_log_eq (ps : List ℝ) (h : ∀ p ∈ ps, 0 < p) : (ps.map Real.log).sum = Real.log ps.prod ∧ 0 < ps.prod := by
  induction ps with
  | nil => simp
  | cons p r ih =>
    obtain ⟨h1, h2⟩ := ih (fun x hx => h x (by simp [hx]))
    have h0 := h p (by simp)
    rw [List.map_cons, List.sum_cons, List.prod_cons, h1, Real.log_mul h0.ne' h2.ne']
    exact ⟨rfl, by positivity⟩

theorem chi_lt_iff {x y : ℝ} (hx : 0 ≤ x) (hy : 0 ≤ y) {n : ℕ} (hn : 0 < n) :
    chiSurvival y n < chiSurvival x n ↔ x < y := by
  constructor
  · intro h
    by_contra hc
    exact absurd (chiSurvival_anti hy (not_lt.1 hc) n) (not_le.2 h)
  · exact fun h => chiSurvival_strictAnti hx h hn

/-- the indicator is above 1/2 exactly if the product of the probabilities exceeds the
product of their complements -/
theorem indicator_side (ps : List ℝ) (h : ∀ p ∈ ps, 0 < p ∧ p < 1) :
    (1 / 2 < indicator ps ↔ (ps.map (1 - ·)).prod < ps.prod) ∧
    (indicator ps < 1 / 2 ↔ ps.prod < (ps.map (1 - ·)).prod) := by
  unfold indicator
  by_cases h0 : ps = []
  · subst h0; simp
  rw [if_neg h0]
  have hn : 0 < ps.length := List.length_pos_iff.2 h0
  obtain ⟨a1, a2⟩ := sum_log_eq ps (fun p hp => (h p hp).1)
  have hq : ∀ q ∈ ps.map (1 - ·), 0 < q ∧ q < 1 := by
    intro q hq
    obtain ⟨p, hp, rfl⟩ := List.mem_map.1 hq
    constructor <;> linarith [(h p hp).1, (h p hp).2]
  obtain ⟨b1, b2⟩ := sum_log_eq (ps.map (1 - ·)) (fun p hp => (hq p hp).1)
  have z1 := sum_log_nonpos ps (fun p => p) h
  have z2 := sum_log_nonpos (ps.map (1 - ·)) (fun p => p) hq
  have z1 : (ps.map Real.log).sum ≤ 0 := z1
  have z2 : ((ps.map (1 - ·)).map Real.log).sum ≤ 0 := z2
  unfold fisher
  rw [List.length_map]
  rw [a1] at z1 ⊢
  rw [b1] at z2 ⊢
  have c1 := chi_lt_iff (x := -2 * Real.log ps.prod) (y := -2 * Real.log (ps.map (1 - ·)).prod)
    (by linarith) (by linarith) hn
  have c2 := chi_lt_iff (x := -2 * Real.log (ps.map (1 - ·)).prod) (y := -2 * Real.log ps.prod)
    (by linarith) (by linarith) hn
  have d1 := Real.log_lt_log_iff a2 b2
  have d2 := Real.log_lt_log_iff b2 a2
  generalize chiSurvival (-2 * Real.log ps.prod) ps.length = X at *
  generalize chiSurvival (-2 * Real.log (ps.map (1 - ·)).prod) ps.length = Y at *
  constructor
  · rw [← d2]
    constructor
    · intro hh; have := c1.1 (by linarith); linarith
    · intro hh; have := c1.2 (by linarith); linarith
  · rw [← d1]
    constructor
    · intro hh; have := c2.1 (by linarith); linarith
    · intro hh; have := c2.2 (by linarith); linarith

section
variable {W : Type} [LinearOrder W] [BigramFormat W]

/-- **C97**, what decides: a score is above 0.5 exactly if the product of the clue
probabilities exceeds the product of their complements, and below 0.5 exactly if it is
smaller, as for naive Bayes with equal priors.  With or without bigrams. -/
theorem C97_side (ub : Bool) (calls : List (Call W)) (it : SetIter W) (s : Stream W)
    (p H S : ℝ) (rest : List (EvWord W × ℝ))
    (h : (spamprob exactReal (memory W) it s true (after exactReal ub calls)).1 =
      .ok (p, some ((.H, H) :: (.S, S) :: rest))) :
    (1 / 2 < p ↔ (rest.map (fun e => 1 - e.2)).prod < (rest.map (·.2)).prod) ∧
    (p < 1 / 2 ↔ (rest.map (·.2)).prod < (rest.map (fun e => 1 - e.2)).prod) := by
  have hin : ∀ q ∈ rest.map (·.2), 0 < q ∧ q < 1 := by
    intro q hq
    obtain ⟨hs, hk, -⟩ := after_ok exactReal ub calls
    obtain ⟨clues, h1, h2, h3, -⟩ := evidence_inv exactReal hk h
    apply clues_exact_strict hs h1
    have := (h3.map (·.2)).subset hq
    rw [List.map_map] at this
    exact this
  rw [(C13_score_formula ub calls it s p H S rest h).1]
  have := indicator_side _ hin
  rw [List.map_map] at this
  exact this

/-- the logarithm of the odds -/
noncomputable def odds (p : ℝ) : ℝ := Real.log p - Real.log (1 - p)

theorem odds_sum (ps : List ℝ) (h : ∀ p ∈ ps, 0 < p ∧ p < 1) :
    (ps.map odds).sum = Real.log ps.prod - Real.log (ps.map (1 - ·)).prod ∧ 0 < ps.prod ∧
      0 < (ps.map (1 - ·)).prod := by
  induction ps with
  | nil => simp
  | cons p r ih =>
    obtain ⟨h1, h2, h3⟩ := ih (fun x hx => h x (by simp [hx]))
    have h0 := h p (by simp)
    have h4 : 0 < 1 - p := by linarith
    rw [List.map_cons, List.sum_cons, List.prod_cons, List.map_cons, List.prod_cons, h1,
      Real.log_mul h0.1.ne' h2.ne', Real.log_mul h4.ne' h3.ne']
    refine ⟨by unfold odds; ring, mul_pos h0.1 h2, mul_pos h4 h3⟩

theorem indicator_side_odds (ps : List ℝ) (h : ∀ p ∈ ps, 0 < p ∧ p < 1) :
    (1 / 2 < indicator ps ↔ 0 < (ps.map odds).sum) ∧ (indicator ps < 1 / 2 ↔ (ps.map odds).sum < 0) := by
  obtain ⟨h1, h2, h3⟩ := odds_sum ps h
  obtain ⟨s1, s2⟩ := indicator_side ps h
  rw [s1, s2, h1, sub_pos, sub_neg, Real.log_lt_log_iff h3 h2, Real.log_lt_log_iff h2 h3]
  exact ⟨Iff.rfl, Iff.rfl⟩

theorem odds_mono {p q : ℝ} (hp : 0 < p) (hq : q < 1) (h : p ≤ q) : odds p ≤ odds q := by
  have h1 := Real.log_le_log hp h
  have h2 := Real.log_le_log (show 0 < 1 - q by linarith) (show 1 - q ≤ 1 - p by linarith)
  unfold odds; linarith

theorem odds_half : odds (1 / 2) = 0 := by unfold odds; norm_num

open Classical in
/-- the clues kept of a message and of a longer one: what is added outweighs what is dropped -/
theorem kept_sum {nspam nham : Int} {info : W → Option WordInfo} {o1 o2 : List W} {L1 L2 : List (Clue W ℝ)}
    (n1 : o1.Nodup) (n2 : o2.Nodup)
    (h1 : pureCluesUnigram exactReal nspam nham info o1 = .ok L1)
    (h2 : pureCluesUnigram exactReal nspam nham info o2 = .ok L2)
    (hsub : ∀ w ∈ o1, w ∈ o2) (g : ℝ → ℝ)
    (hg0 : ∀ b ∈ L2, b.word ∉ o1 → 0 ≤ g b.prob)
    (hg : ∀ a ∈ L1, ∀ b ∈ L2, b.word ∉ o1 → a.distance ≤ b.distance → g a.prob ≤ g b.prob) :
    (L1.map (fun c => g c.prob)).sum ≤ (L2.map (fun c => g c.prob)).sum := by
  obtain ⟨a1, a2, -, a4, a5⟩ := unigram_selection n1 h1
  obtain ⟨b1, b2, -, b4, b5⟩ := unigram_selection n2 h2
  have a1 := List.Nodup.of_map _ a1
  have b1 := List.Nodup.of_map _ b1
  have sA : (L1.map (fun c => g c.prob)).sum = ∑ c ∈ L1.toFinset, g c.prob := (List.sum_toFinset _ a1).symm
  have sB : (L2.map (fun c => g c.prob)).sum = ∑ c ∈ L2.toFinset, g c.prob := (List.sum_toFinset _ b1).symm
  have cA := List.toFinset_card_of_nodup a1
  have cB := List.toFinset_card_of_nodup b1
  rw [sA, sB]
  have drop : ∀ a ∈ L1, a ∉ L2 → L2.length = 150 ∧ ∀ b ∈ L2, clueLe a b = true := by
    intro a ha hn
    obtain ⟨x1, x2, x3⟩ := a4 a ha
    obtain ⟨c, hc, hd⟩ := b5 a.word (hsub _ x1)
    obtain rfl : a = c := Except.ok.inj (x2.symm.trans hc)
    exact (hd x3).resolve_left hn
  have new : ∀ b ∈ L2, b ∉ L1 → b.word ∉ o1 := by
    intro b hb hn hw
    obtain ⟨y1, y2, y3⟩ := b4 b hb
    obtain ⟨c, hc, hd⟩ := a5 b.word hw
    obtain rfl : b = c := Except.ok.inj (y2.symm.trans hc)
    obtain ⟨hl, hle⟩ := (hd y3).resolve_left hn
    have : ∃ a ∈ L1, a ∉ L2 := by
      by_contra hcon
      push Not at hcon
      have hs : insert b L1.toFinset ⊆ L2.toFinset := by
        intro x hx
        rcases Finset.mem_insert.1 hx with rfl | hx
        · exact List.mem_toFinset.2 hb
        · exact List.mem_toFinset.2 (hcon x (List.mem_toFinset.1 hx))
      have := Finset.card_le_card hs
      rw [Finset.card_insert_of_notMem (by rw [List.mem_toFinset]; exact hn)] at this
      omega
    obtain ⟨a, ha, han⟩ := this
    have e := clueLe_antisymm_word _ _ (hle a ha) ((drop a ha han).2 b hb)
    have : b = a := by
      have := (a4 a ha).2.1
      rw [← e] at this
      exact Except.ok.inj (y2.symm.trans this)
    exact han (this ▸ hb)
  rw [← Finset.sum_inter_add_sum_sdiff L1.toFinset L2.toFinset, ← Finset.sum_inter_add_sum_sdiff L2.toFinset L1.toFinset,
    Finset.inter_comm L2.toFinset]
  refine add_le_add le_rfl ?_
  have hnn : ∀ b ∈ L2.toFinset \ L1.toFinset, 0 ≤ g b.prob := by
    intro b hb
    rw [Finset.mem_sdiff, List.mem_toFinset, List.mem_toFinset] at hb
    exact hg0 b hb.1 (new b hb.1 hb.2)
  by_cases hE : L1.toFinset \ L2.toFinset = ∅
  · rw [hE, Finset.sum_empty]
    exact Finset.sum_nonneg hnn
  · obtain ⟨a, ha⟩ := Finset.nonempty_iff_ne_empty.2 hE
    have hcard : (L1.toFinset \ L2.toFinset).card ≤ (L2.toFinset \ L1.toFinset).card := by
      rw [Finset.mem_sdiff, List.mem_toFinset, List.mem_toFinset] at ha
      have h150 := (drop a ha.1 ha.2).1
      have x1 := Finset.card_sdiff_add_card_inter L1.toFinset L2.toFinset
      have x2 := Finset.card_sdiff_add_card_inter L2.toFinset L1.toFinset
      rw [Finset.inter_comm] at x2
      omega
    have hne : (L2.toFinset \ L1.toFinset).Nonempty := by
      rw [← Finset.card_pos]
      exact lt_of_lt_of_le (Finset.card_pos.2 ⟨a, ha⟩) hcard
    obtain ⟨b, hb, hmin⟩ := Finset.exists_min_image _ (fun c : Clue W ℝ => g c.prob) hne
    have u1 : ∑ c ∈ L1.toFinset \ L2.toFinset, g c.prob ≤ (L1.toFinset \ L2.toFinset).card • g b.prob := by
      refine Finset.sum_le_card_nsmul _ _ _ ?_
      intro c hc
      rw [Finset.mem_sdiff, List.mem_toFinset, List.mem_toFinset] at hc hb
      exact hg c hc.1 b hb.1 (new b hb.1 hb.2) (by
        rcases (clueLe_iff _ _).1 ((drop c hc.1 hc.2).2 b hb.1) with x | ⟨x, -⟩
        · exact x.le
        · exact x.le)
    have u2 : (L2.toFinset \ L1.toFinset).card • g b.prob ≤ ∑ c ∈ L2.toFinset \ L1.toFinset, g c.prob :=
      Finset.card_nsmul_le_sum _ _ _ (fun c hc => hmin c hc)
    exact u1.trans ((nsmul_le_nsmul_left (hnn b hb) hcard).trans u2)

/-- **C97**, spammy tokens never make a message look like ham, nor hammy ones like spam:
if tokens of probability at least 0.5 are added to a message, a score above 0.5 stays
above 0.5, and one that was not below is not below afterwards; the same with "above" and
"below" exchanged.  However many clues there are. -/
theorem C97_added_tokens (calls : List (Call W)) (it it' : SetIter W) (s s' : Stream W) (ev ev' : Bool) (p p' : ℝ)
    (o o' : Option (List (EvWord W × ℝ)))
    (h : (spamprob exactReal (memory W) it s ev (after exactReal false calls)).1 = .ok (p, o))
    (h' : (spamprob exactReal (memory W) it' s' ev' (after exactReal false calls)).1 = .ok (p', o'))
    (hsub : ∀ w ∈ s.items, w ∈ s'.items) :
    ((∀ w ∈ s'.items, w ∉ s.items → ∀ q, tokenProb exactReal (after exactReal false calls) w = .ok q → 1 / 2 ≤ q) →
      (1 / 2 < p → 1 / 2 < p') ∧ (1 / 2 ≤ p → 1 / 2 ≤ p')) ∧
    ((∀ w ∈ s'.items, w ∉ s.items → ∀ q, tokenProb exactReal (after exactReal false calls) w = .ok q → q ≤ 1 / 2) →
      (p < 1 / 2 → p' < 1 / 2) ∧ (p ≤ 1 / 2 → p' ≤ 1 / 2)) := by
  obtain ⟨hs, hk, hub⟩ := after_ok exactReal false calls
  have htp := tokenProb_eq exactReal hk
  generalize after exactReal false calls = c at *
  rw [spamprob_eq _ hk] at h h'
  obtain ⟨L1, S1, H1, h1, h2, -⟩ := pureSpamprob_ok h
  obtain ⟨L2, S2, H2, h1', h2', -⟩ := pureSpamprob_ok h'
  have r1 := clues_exact_strict hs h1
  have r2 := clues_exact_strict hs h1'
  rw [combine_exact _ r1] at h2
  rw [combine_exact _ r2] at h2'
  rw [hub] at h1 h1'
  have e1 : indicator (L1.map (·.prob)) = p := congrArg Prod.fst (Except.ok.inj h2)
  have e2 : indicator (L2.map (·.prob)) = p' := congrArg Prod.fst (Except.ok.inj h2')
  have s1 := indicator_side_odds _ r1
  have s2 := indicator_side_odds _ r2
  rw [e1, List.map_map] at s1
  rw [e2, List.map_map] at s2
  have key := kept_sum (it.nodup s.items) (it'.nodup s'.items) h1 h1' (by
    intro w hw
    rw [it'.mem]
    exact hsub w ((it.mem _ _).1 hw))
  have m1 := (unigram_selection (it.nodup s.items) h1).2.2.2.1
  have m2 := (unigram_selection (it'.nodup s'.items) h1').2.2.2.1
  have val : ∀ b ∈ L2, b.word ∉ it.order s.items → b.word ∈ s'.items ∧ b.word ∉ s.items ∧
      tokenProb exactReal c b.word = .ok b.prob ∧ b.distance = |b.prob - 1 / 2| := by
    intro b hb hn
    obtain ⟨x1, x2, -⟩ := m2 b hb
    obtain ⟨-, t2, t3⟩ := pureClue_ok x2
    rw [it'.mem] at x1
    rw [it.mem] at hn
    exact ⟨x1, hn, by rw [htp]; exact t2, t3⟩
  have dist : ∀ a ∈ L1, a.distance = |a.prob - 1 / 2| := by
    intro a ha
    obtain ⟨-, x2, -⟩ := m1 a ha
    exact (pureClue_ok x2).2.2
  have in1 : ∀ a ∈ L1, 0 < a.prob ∧ a.prob < 1 := fun a ha => r1 _ (List.mem_map_of_mem ha)
  have in2 : ∀ a ∈ L2, 0 < a.prob ∧ a.prob < 1 := fun a ha => r2 _ (List.mem_map_of_mem ha)
  constructor
  · intro hnew
    have hge : ∀ b ∈ L2, b.word ∉ it.order s.items → 1 / 2 ≤ b.prob := by
      intro b hb hn
      obtain ⟨v1, v2, v3, -⟩ := val b hb hn
      exact hnew _ v1 v2 _ v3
    have hsum := key odds (by
      intro b hb hn
      rw [← odds_half]
      exact odds_mono (by norm_num) (in2 b hb).2 (hge b hb hn)) (by
      intro a ha b hb hn hd
      refine odds_mono (in1 a ha).1 (in2 b hb).2 ?_
      rw [dist a ha, (val b hb hn).2.2.2, abs_of_nonneg (show 0 ≤ b.prob - 1 / 2 by linarith [hge b hb hn])] at hd
      linarith [le_abs_self (a.prob - 1 / 2)])
    change (L1.map (odds ∘ (·.prob))).sum ≤ (L2.map (odds ∘ (·.prob))).sum at hsum
    refine ⟨fun hh => s2.1.2 (lt_of_lt_of_le (s1.1.1 hh) hsum), fun hh => not_lt.1 fun hc => not_lt.2 hh (s1.2.2 ?_)⟩
    exact lt_of_le_of_lt hsum (s2.2.1 hc)
  · intro hnew
    have hge : ∀ b ∈ L2, b.word ∉ it.order s.items → b.prob ≤ 1 / 2 := by
      intro b hb hn
      obtain ⟨v1, v2, v3, -⟩ := val b hb hn
      exact hnew _ v1 v2 _ v3
    have hsum := key (fun x => -odds x) (by
      intro b hb hn
      rw [neg_nonneg, ← odds_half]
      exact odds_mono (in2 b hb).1 (by norm_num) (hge b hb hn)) (by
      intro a ha b hb hn hd
      refine neg_le_neg (odds_mono (in2 b hb).1 (in1 a ha).2 ?_)
      rw [dist a ha, (val b hb hn).2.2.2, abs_of_nonpos (show b.prob - 1 / 2 ≤ 0 by linarith [hge b hb hn])] at hd
      linarith [neg_le_abs (a.prob - 1 / 2)])
    have neg : ∀ l : List (Clue W ℝ), (l.map (fun c => -odds c.prob)).sum = -(l.map (odds ∘ (·.prob))).sum := by
      intro l
      induction l with
      | nil => simp
      | cons a r ih => rw [List.map_cons, List.sum_cons, ih, List.map_cons, List.sum_cons]; simp only [Function.comp]; ring
    rw [neg, neg, neg_le_neg_iff] at hsum
    refine ⟨fun hh => s2.2.2 (lt_of_le_of_lt hsum (s1.2.1 hh)), fun hh => not_lt.1 fun hc => not_lt.2 hh (s1.1.2 ?_)⟩
    exact lt_of_lt_of_le (s2.1.1 hc) hsum

end

/-- More than C97 says: adding tokens of probability at least 0.5 to a message never lowers
its score. -/
def AddedNeverLowers : Prop := ∀ (calls : List (Call String)) (it : SetIter String) (s s' : Stream String) (p p' : ℝ)
    (o o' : Option (List (EvWord String × ℝ))),
  (spamprob exactReal (memory String) it s false (after exactReal false calls)).1 = .ok (p, o) →
  (spamprob exactReal (memory String) it s' false (after exactReal false calls)).1 = .ok (p', o') →
  (∀ w ∈ s.items, w ∈ s'.items) →
  (∀ w ∈ s'.items, w ∉ s.items → ∀ q, tokenProb exactReal (after exactReal false calls) w = .ok q → 1 / 2 ≤ q) →
  p ≤ p'

/-- Twenty spam messages with "pills" and "cheap", a ham message with "cheap", and one
with "lunch". -/
def twentyPills : List (List String × Bool) :=
  (["cheap"], false) :: (["lunch"], false) :: List.replicate 20 (["pills", "cheap"], true)

/-- "pills" is such a token: 0.98..., and both messages can be scored. -/
example : (∃ v, (spamprob exactReal (memory String) .dedup (.list ["cheap"]) false
      (after exactReal false (twentyPills.map (fun x => Call.learn .dedup (.list x.1) x.2)))).1 = .ok v) ∧
    (∃ v, (spamprob exactReal (memory String) .dedup (.list ["cheap", "pills"]) false
      (after exactReal false (twentyPills.map (fun x => Call.learn .dedup (.list x.1) x.2)))).1 = .ok v) ∧
    ∀ q, tokenProb exactReal (after exactReal false (twentyPills.map (fun x => Call.learn .dedup (.list x.1) x.2)))
      "pills" = .ok q → 1 / 2 ≤ q := by
  obtain ⟨L, hv⟩ := valid_learns twentyPills 0
  refine ⟨C07_valid_history_scores false _ L hv .dedup _ false, C07_valid_history_scores false _ L hv .dedup _ false, ?_⟩
  have r1 : (after exactReal false (twentyPills.map (fun x => Call.learn .dedup (.list x.1) x.2))).store.get? "pills" =
    some ⟨20, 0⟩ := rfl
  have n1 : (after exactReal false (twentyPills.map (fun x => Call.learn .dedup (.list x.1) x.2))).nspam = 20 := rfl
  have n2 : (after exactReal false (twentyPills.map (fun x => Call.learn .dedup (.list x.1) x.2))).nham = 2 := rfl
  have p1 := probOf_known _ _ _ r1 (by rw [n1]; decide) (by rw [n2]; decide)
  rw [n1, n2] at p1
  intro q hq
  unfold probOf at p1
  rw [hq] at p1
  change q = _ at p1
  rw [p1]; norm_num [robinson]

/-- a bound for two clues: the stronger one does not matter -/
theorem indicator_pair_le {a b : ℝ} (ha : 0 < a) (ha1 : a < 1) (hb : 0 < b) (hb1 : b < 1) :
    indicator [a, b] ≤ (1 + b * (1 - Real.log b)) / 2 := by
  have e : chiSurvival (-2 * Real.log b) 2 = b * (1 - Real.log b) := by
    unfold chiSurvival
    have e1 : -(-2 * Real.log b / 2) = Real.log b := by ring
    rw [e1, Real.exp_log hb]
    simp only [Finset.sum_range_succ, Finset.sum_range_zero, pow_zero, pow_one, Nat.factorial]
    push_cast
    ring
  have la : Real.log a ≤ 0 := Real.log_nonpos ha.le ha1.le
  have lb : Real.log b ≤ 0 := Real.log_nonpos hb.le hb1.le
  have h1 := chiSurvival_anti (x := -2 * Real.log b) (y := -2 * (Real.log a + (Real.log b + 0)))
    (by linarith) (by linarith) 2
  have la' : Real.log (1 - a) ≤ 0 := Real.log_nonpos (by linarith) (by linarith)
  have lb' : Real.log (1 - b) ≤ 0 := Real.log_nonpos (by linarith) (by linarith)
  have h2 := chiSurvival_nonneg (x := -2 * (Real.log (1 - a) + (Real.log (1 - b) + 0))) (by linarith) 2
  rw [e] at h1
  unfold indicator fisher
  rw [if_neg (by simp)]
  simp only [List.map_cons, List.map_nil, List.sum_cons, List.sum_nil, List.length_cons, List.length_nil]
  linarith

open Classical in
/-- **C97**, only the side of 0.5 is kept, not the score: "pills" alone scores 0.98..., and
adding "cheap", of probability 0.66, lowers that. -/
theorem C97_score_can_drop : ¬ AddedNeverLowers := by
  intro hc
  have r1 : (after exactReal false (twentyPills.map (fun x => Call.learn .dedup (.list x.1) x.2))).store.get? "pills" =
    some ⟨20, 0⟩ := rfl
  have r2 : (after exactReal false (twentyPills.map (fun x => Call.learn .dedup (.list x.1) x.2))).store.get? "cheap" =
    some ⟨20, 1⟩ := rfl
  have n1 : (after exactReal false (twentyPills.map (fun x => Call.learn .dedup (.list x.1) x.2))).nspam = 20 := rfl
  have n2 : (after exactReal false (twentyPills.map (fun x => Call.learn .dedup (.list x.1) x.2))).nham = 2 := rfl
  have p1 := probOf_known _ _ _ r1 (by rw [n1]; decide) (by rw [n2]; decide)
  have p2 := probOf_known _ _ _ r2 (by rw [n1]; decide) (by rw [n2]; decide)
  rw [n1, n2] at p1 p2
  have v1 : robinson 20 2 20 0 = 809 / 818 := by norm_num [robinson]
  have v2 : robinson 20 2 20 1 = 569 / 858 := by norm_num [robinson]
  rw [v1] at p1
  rw [v2] at p2
  obtain ⟨o, h⟩ := score_single twentyPills "pills" (809 / 818) p1 (by norm_num [abs_le, le_abs])
  obtain ⟨L, hv⟩ := valid_learns twentyPills 0
  obtain ⟨⟨p', o'⟩, h'⟩ := C07_valid_history_scores false _ L hv .dedup (.list ["pills", "cheap"]) false
  have hle := hc _ _ _ _ _ _ _ _ h h' (by simp [Stream.items]) (by
    intro w hw hn q hq
    simp only [Stream.items, List.mem_cons, List.not_mem_nil, or_false] at hw hn
    rcases hw with rfl | rfl
    · exact absurd rfl hn
    · unfold probOf at p2
      rw [hq] at p2
      change q = _ at p2
      rw [p2]; norm_num)
  obtain ⟨-, a2⟩ := unigram_score _ _ _ _ _ _ h'
  generalize after (W := String) exactReal false _ = c at *
  have ho : SetIter.dedup.order (Stream.items (.list ["pills", "cheap"])) = ["pills", "cheap"] := by decide
  have hf : (SetIter.dedup.order (Stream.items (.list ["pills", "cheap"]))).filter (fun w => decide (Strong c w)) =
      ["pills", "cheap"] := by
    rw [ho, List.filter_cons, if_pos (by
      rw [decide_eq_true_eq]; unfold Strong; rw [p1]; norm_num [abs_le, le_abs]), List.filter_cons, if_pos (by
      rw [decide_eq_true_eq]; unfold Strong; rw [p2]; norm_num [abs_le, le_abs])]
    rfl
  rw [hf] at a2
  have hp := a2 (by simp)
  rw [List.map_cons, List.map_cons, List.map_nil, p1, p2] at hp
  have hb := indicator_pair_le (a := 809 / 818) (b := 569 / 858) (by norm_num) (by norm_num) (by norm_num) (by norm_num)
  rw [← hp] at hb
  have hlog : -Real.log (569 / 858) ≤ 0.46 := by
    rw [← Real.log_inv]
    have h1 : Real.log ((569 / 858 : ℝ)⁻¹) ≤ Real.log ((1.23 : ℝ) ^ 2) :=
      Real.log_le_log (by norm_num) (by norm_num)
    have h2 := Real.log_le_sub_one_of_pos (show (0 : ℝ) < 1.23 by norm_num)
    rw [Real.log_pow] at h1
    push_cast at h1
    linarith
  generalize Real.log (569 / 858) = t at *
  linarith

end Sb.Props
