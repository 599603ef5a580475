import Verif.Props.Scoring
import Verif.Proof.Rounding

/-
Property C92: what rounding does to scores.  The platform is any that is sound
(Model/Float.lean) and as accurate as IEEE doubles (Model/Double.lean: relative
error 2^-52 per operation, or an absolute error of 10^-320 where a result
underflows).
-/

set_option linter.unusedSectionVars false

namespace Sb.Props
open Sb Py Spec

section
variable {W : Type} [LinearOrder W] [BigramFormat W]

/-- helper -/
theorem pureClues_length {F : FloatOps ℝ} {ns nh : Int} {info : W → Option WordInfo} {it : SetIter W}
    {s : Stream W} {ub : Bool} {clues : List (Clue W ℝ)}
    (h : pureClues F ns nh (some ub) info it s = .ok clues) : clues.length ≤ 150 := by
  cases ub with
  | false => exact (unigram_selection (it.nodup _) h).2.1
  | true =>
    obtain ⟨acc, rfl, -⟩ := bigram_selection h
    obtain ⟨k, -, hl, -⟩ := keepStrongest_suffix (acc.map (·.clue)).reverse
    omega

/-- helper: the clue probabilities stay away from 0 and 1 -/
theorem pureClues_inside {F : FloatOps ℝ} (hF : F.Sound) (hd : F.Double)
    {c : Clf (Dict W WordInfo) ℝ} (hs : Sane c) (hns : c.nspam ≤ 10 ^ 9) (hnh : c.nham ≤ 10 ^ 9)
    {it : SetIter W} {s : Stream W} {ub : Option Bool} {clues : List (Clue W ℝ)}
    (h : pureClues F c.nspam c.nham ub c.store.get? it s = .ok clues) :
    ∀ p ∈ clues.map (·.prob), 1 / 10 ^ 10 ≤ p ∧ p ≤ 1 - 1 / 10 ^ 10 := by
  intro p hp
  obtain ⟨cl, hcl, rfl⟩ := List.mem_map.1 hp
  have h1 := (pureClue_ok (pureClues_mem h hcl)).2.1
  cases hw : c.store.get? cl.word with
  | none =>
    rw [hw] at h1
    have h1 := Except.ok.inj h1
    rw [← h1]
    norm_num [unknownWordProb, hF.half]
  | some r =>
    rw [hw] at h1
    have h1 : freshProbability F c.nspam c.nham r = .ok cl.prob := h1
    obtain ⟨a, b, d⟩ := hs.records _ r hw
    by_cases hg : r.hamcount > (if c.nham = 0 then 1 else c.nham) ∨
        r.spamcount > (if c.nspam = 0 then 1 else c.nspam)
    · rw [freshProbability_exceeds hg] at h1; cases h1
    · push Not at hg
      obtain ⟨p, h2, -, h3⟩ := freshProbability_err hd hF a b d hg.2 hg.1 hns hnh
      rw [h1] at h2
      cases h2
      exact h3

/-- **C92**, word probabilities: with totals up to 10^9 the probability of a record
that fits the totals is Robinson's formula up to a relative error of 10^-13, and it
stays 10^-10 away from 0 and 1. -/
theorem C92_probability (F : FloatOps ℝ) (hF : F.Sound) (hd : F.Double) (ub : Bool)
    (calls : List (Call W)) (r : WordInfo) (hs : 0 ≤ r.spamcount) (hh : 0 ≤ r.hamcount)
    (hnz : ¬ (r.spamcount = 0 ∧ r.hamcount = 0))
    (hs1 : r.spamcount ≤ max 1 (after F ub calls).nspam)
    (hh1 : r.hamcount ≤ max 1 (after F ub calls).nham)
    (hns : (after F ub calls).nspam ≤ 10 ^ 9) (hnh : (after F ub calls).nham ≤ 10 ^ 9) :
    let c := after F ub calls
    let exact := robinson c.nspam c.nham r.spamcount r.hamcount
    ∃ p, (probability F r c).1 = .ok p ∧ |p - exact| ≤ 1 / 10 ^ 13 * exact ∧
      1 / 10 ^ 10 ≤ p ∧ p ≤ 1 - 1 / 10 ^ 10 := by
  obtain ⟨hsn, -, -⟩ := after_ok F ub calls
  have h8 := C08_probability_is_fresh F ub calls r
  have a := hsn.nspam
  have b := hsn.nham
  intro c exact
  change r.spamcount ≤ max 1 c.nspam at hs1
  change r.hamcount ≤ max 1 c.nham at hh1
  change 0 ≤ c.nspam at a
  change 0 ≤ c.nham at b
  rw [h8]
  exact freshProbability_err hd hF hs hh (ns := c.nspam) (nh := c.nham) (by omega)
    (by split <;> omega) (by split <;> omega) hns hnh

/-- **C92**, the score: whatever was trained (with totals up to 10^9), in both modes,
a returned score differs from the exact indicator of the clue probabilities in the
evidence by at most 10^-11; so do S and H from Fisher's exact combinations. -/
theorem C92_score (F : FloatOps ℝ) (hF : F.Sound) (hd : F.Double) (ub : Bool)
    (calls : List (Call W)) (hns : (after F ub calls).nspam ≤ 10 ^ 9)
    (hnh : (after F ub calls).nham ≤ 10 ^ 9) (it : SetIter W) (s : Stream W)
    (p H S : ℝ) (rest : List (EvWord W × ℝ))
    (h : (spamprob F (memory W) it s true (after F ub calls)).1 =
      .ok (p, some ((.H, H) :: (.S, S) :: rest))) :
    |p - indicator (rest.map (·.2))| ≤ 1 / 10 ^ 11 ∧
    (rest ≠ [] → |S - fisher (rest.map (fun e => 1 - e.2))| ≤ 1 / 10 ^ 11 ∧
      |H - fisher (rest.map (·.2))| ≤ 1 / 10 ^ 11) := by
  obtain ⟨hs, hk, hub⟩ := after_ok F ub calls
  obtain ⟨clues, h1, h2, h3, -⟩ := evidence_inv F hk h
  have hlen : (clues.map (·.prob)).length ≤ 150 := by
    rw [List.length_map]
    rw [hub] at h1
    exact pureClues_length h1
  obtain ⟨v, hv, hv1, hv2⟩ := combine_err hd hF (pureClues_inside hF hd hs hns hnh h1) hlen
  rw [h2] at hv
  cases hv
  have hp : (rest.map (·.2)).Perm (clues.map (·.prob)) := by
    have := h3.map (·.2)
    rw [List.map_map] at this
    exact this
  have hmm : rest.map (fun e => 1 - e.2) = (rest.map (·.2)).map (1 - ·) := by rw [List.map_map]; rfl
  refine ⟨by rw [indicator_perm hp]; exact hv1, fun hne => ?_⟩
  have hne' : clues.map (·.prob) ≠ [] := by
    intro h0
    rw [h0] at hp
    have := List.perm_nil.1 hp
    simp at this
    exact hne this
  rw [hmm, fisher_perm (hp.map _), fisher_perm hp]
  exact hv2 hne'

/-- **C92**, no exception: after a valid history of at most 10^9 ham and 10^9 spam
messages spamprob returns, for every message and in both modes. -/
theorem C92_returns (F : FloatOps ℝ) (hF : F.Sound) (hd : F.Double) (ub : Bool)
    (calls : List (Call W)) (L : Ledger W) (hv : Valid ub 0 calls L)
    (hns : (after F ub calls).nspam ≤ 10 ^ 9) (hnh : (after F ub calls).nham ≤ 10 ^ 9)
    (it : SetIter W) (s : Stream W) (ev : Bool) :
    ∃ v, (spamprob F (memory W) it s ev (after F ub calls)).1 = .ok v := by
  obtain ⟨hs, hk, hub⟩ := after_ok F ub calls
  have htot : ∀ w, ∃ p, pureProb F (after F ub calls).nspam (after F ub calls).nham
      ((after F ub calls).store.get? w) = .ok p := by
    intro w
    cases hw : (after F ub calls).store.get? w with
    | none => exact ⟨_, rfl⟩
    | some r =>
      obtain ⟨a, b, c⟩ := hs.records w r hw
      obtain ⟨d, e⟩ := C07_counts_within_totals F ub calls L hv w r hw
      obtain ⟨p, hp, -⟩ := freshProbability_err hd hF a b c (ns := (after F ub calls).nspam)
        (nh := (after F ub calls).nham) (by split <;> omega) (by split <;> omega) hns hnh
      exact ⟨p, hp⟩
  obtain ⟨clues, hc⟩ := pureClues_total htot ub it s
  have hlen : (clues.map (·.prob)).length ≤ 150 := by
    rw [List.length_map]
    exact pureClues_length hc
  have hin := pureClues_inside hF hd hs hns hnh (ub := some ub) hc
  obtain ⟨v, hv, -⟩ := combine_err hd hF hin hlen
  rw [spamprob_eq _ hk, hub]
  exact ⟨_, pureSpamprob_of hc hv⟩

/-- IEEE binary64 with round-to-nearest-even satisfies the hypotheses, and scores a
message after training. -/
example : float64.Sound ∧ float64.Double ∧
    ∃ v, (spamprob float64 (memory String) .dedup (.list ["pills"]) true
      (after float64 false [.learn .dedup (.list ["pills"]) true])).1 = .ok v :=
  ⟨float64_sound, float64_double, C92_returns float64 float64_sound float64_double false
    [.learn .dedup (.list ["pills"]) true] _ (.learn (.nil _))
    (by show (1 : Int) ≤ _; norm_num) (by show (0 : Int) ≤ _; norm_num) _ _ _⟩

/-- So does rounding down to 53 bits. -/
example : float53.Sound ∧ float53.Double := ⟨float53_sound, float53_double⟩

end

/-! Too many messages -/

/-- helper -/
theorem round64_large {x : ℝ} (h0 : 0 ≤ x) (h1 : x ≤ 100) : round64 (2 ^ 60 + x) = 2 ^ 60 := by
  have hpos : (0 : ℝ) < 2 ^ 60 + x := by positivity
  have hlog : Int.log 2 |2 ^ 60 + x| = 60 := by
    rw [abs_of_pos hpos]
    apply le_antisymm
    · have := (Int.lt_zpow_iff_log_lt (R := ℝ) (b := 2) (x := 61) (by norm_num) hpos).1 (by
        norm_num; linarith)
      omega
    · refine (Int.zpow_le_iff_le_log (R := ℝ) (b := 2) (x := 60) (by norm_num) hpos).1 ?_
      norm_num
      linarith
  have hexp : exp64 (2 ^ 60 + x) = 8 := by
    unfold exp64; rw [hlog]; norm_num
  unfold round64
  rw [hexp]
  have e : (2 ^ 60 + x) / (2 : ℝ) ^ (8 : ℤ) = 2 ^ 52 + x / 256 := by norm_num; ring
  have hfl : ⌊(2 : ℝ) ^ 52 + x / 256⌋ = 2 ^ 52 := by
    rw [Int.floor_eq_iff]
    push_cast
    constructor <;> linarith
  have hr : roundEven ((2 ^ 60 + x) / (2 : ℝ) ^ (8 : ℤ)) = 2 ^ 52 := by
    rw [e]
    unfold roundEven
    rw [hfl]
    push_cast
    rw [if_pos (by linarith)]
  rw [hr]
  norm_num

/-- helper: a word in n of n spam messages gets probability one if n is 2^60 -/
theorem float64_certain {n : Int} (hn : (n : ℝ) = 2 ^ 60) (h0 : 0 < n) :
    freshProbability float64 n 0 ⟨n, 0⟩ = .ok 1 := by
  have hF := float64_sound
  unfold freshProbability
  simp only [if_true, if_neg h0.ne', Int.cast_zero, zero_div, zero_add, hn, hF.zero]
  rw [if_neg (by norm_num), if_neg (by omega)]
  have e2 : float64.rnd ((2 ^ 60 : ℝ) / 2 ^ 60) = 1 := by
    rw [div_self (by norm_num), hF.one]
  have e3 : float64.add 0 1 = 1 := by unfold FloatOps.add; rw [zero_add, hF.one]
  rw [e2, e3, if_neg one_ne_zero]
  have e4 : float64.div 1 1 = 1 := by unfold FloatOps.div; rw [div_one, hF.one]
  have e5 : float64.rnd (2 ^ 60 : ℝ) = 2 ^ 60 := by
    have := round64_large (x := 0) le_rfl (by norm_num)
    rw [add_zero] at this
    exact this
  have hS0 : 0 ≤ unknownWordStrength float64 := hF.nonneg (by norm_num)
  have hS1 : unknownWordStrength float64 ≤ 1 := hF.le_one (by norm_num)
  have e6 : float64.add (unknownWordStrength float64) (2 ^ 60) = 2 ^ 60 := by
    have := round64_large hS0 (hS1.trans (by norm_num))
    rw [add_comm] at this
    exact this
  have e7 : float64.mul (2 ^ 60) 1 = 2 ^ 60 := by
    unfold FloatOps.mul
    rw [mul_one]
    exact e5
  have e8 : float64.add (float64.mul (unknownWordStrength float64) (unknownWordProb float64)) (2 ^ 60) =
      2 ^ 60 := by
    have hx : unknownWordProb float64 = 1 / 2 := hF.half
    rw [hx]
    have h0 : 0 ≤ float64.mul (unknownWordStrength float64) (1 / 2) := hF.nonneg (by positivity)
    have h1 : float64.mul (unknownWordStrength float64) (1 / 2) ≤ 1 := hF.le_one (by linarith)
    have := round64_large h0 (h1.trans (by norm_num))
    rw [add_comm] at this
    exact this
  rw [e4, e5, e6, if_neg (by norm_num), e7, e8]
  unfold FloatOps.div
  rw [div_self (by norm_num), hF.one]

/-- helper -/
theorem valid_replicate (n : ℕ) : ∀ L : Ledger String,
    Valid false L (List.replicate n (.learn .dedup (.list ["pills"]) true))
      (Multiset.replicate n (msgOf false (.list ["pills"]) true) + L) := by
  induction n with
  | zero => intro L; simpa using Valid.nil L
  | succ n ih =>
    intro L
    rw [List.replicate_succ]
    refine .learn ?_
    have := ih (msgOf false (.list ["pills"]) true ::ₘ L)
    rw [Multiset.replicate_succ, Multiset.cons_add]
    rwa [Multiset.add_cons] at this

/-- **C92**, the bound on the number of messages is needed: with IEEE doubles, after
the same word was learned in 2^60 spam messages, scoring a message with that word
raises ValueError (its probability rounds to one, and the logarithm of the product of
the 1-p is taken at zero). -/
theorem C92_limit (n : ℕ) (hn : n = 2 ^ 60) :
    (spamprob float64 (memory String) .dedup (.list ["pills"]) false
      (after float64 false (List.replicate n (.learn .dedup (.list ["pills"]) true)))).1 =
        .error .valueError := by
  have hF := float64_sound
  have hd := float64_double
  have hn' : ((n : Int) : ℝ) = 2 ^ 60 := by
    have : (n : ℝ) = 2 ^ 60 := by exact_mod_cast hn
    push_cast; exact this
  have hpos : 0 < n := by rw [hn]; positivity
  clear hn
  set calls : List (Call String) := List.replicate n (.learn .dedup (.list ["pills"]) true) with hcalls
  obtain ⟨-, hk, hub⟩ := after_ok float64 false calls
  have hv := valid_replicate n 0
  rw [add_zero, ← hcalls] at hv
  obtain ⟨h1, h2, h3⟩ := C02_counts_are_ledger float64 false calls _ hv
  change (after float64 false calls).nspam = _ at h1
  change (after float64 false calls).nham = _ at h2
  have h3 := h3 "pills"
  change (after float64 false calls).store.get? "pills" = _ at h3
  have ht : trained false (.list ["pills"]) = ["pills"] := rfl
  have k1 : spamTotal (Multiset.replicate n (msgOf false (.list ["pills"]) true)) = n := by
    unfold spamTotal
    rw [Multiset.countP_eq_card.2 (fun m hm => by rw [Multiset.eq_of_mem_replicate hm]; rfl),
      Multiset.card_replicate]
  have k2 : hamTotal (Multiset.replicate n (msgOf false (.list ["pills"]) true)) = 0 := by
    unfold hamTotal
    rw [Multiset.countP_eq_zero]
    intro m hm
    rw [Multiset.eq_of_mem_replicate hm]
    simp [msgOf]
  have k3 : spamCount (Multiset.replicate n (msgOf false (.list ["pills"]) true)) "pills" = n := by
    unfold spamCount
    rw [Multiset.countP_eq_card.2 (fun m hm => by
      rw [Multiset.eq_of_mem_replicate hm]; simp [msgOf, ht]), Multiset.card_replicate]
  have k4 : hamCount (Multiset.replicate n (msgOf false (.list ["pills"]) true)) "pills" = 0 := by
    unfold hamCount
    rw [Multiset.countP_eq_zero]
    intro m hm
    rw [Multiset.eq_of_mem_replicate hm]
    simp [msgOf]
  have k5 : recordOf (Multiset.replicate n (msgOf false (.list ["pills"]) true)) "pills" =
      some ⟨n, 0⟩ := by
    unfold recordOf
    rw [k3, k4, if_neg (by omega)]
    rfl
  rw [k1] at h1
  rw [k2] at h2
  rw [k5] at h3
  rw [spamprob_eq float64 hk, hub, h1, h2]
  have e3 : SetIter.dedup.order ["pills"] = ["pills"] := by decide
  have e4 : pureProb float64 (n : Int) ((0 : ℕ) : Int) (some ⟨(n : Int), 0⟩) = .ok 1 :=
    float64_certain hn' (by exact_mod_cast hpos)
  have hstr : minimumProbStrength float64 ≤ |float64.sub 1 (float64.rnd (1 / 2))| := by
    rw [hF.half]
    have e : float64.sub 1 (1 / 2) = 1 / 2 := by
      unfold FloatOps.sub
      have : (1 : ℝ) - 1 / 2 = 1 / 2 := by norm_num
      rw [this, hF.half]
    rw [e, abs_of_pos (by norm_num)]
    have := hF.mono (1 / 10) (1 / 2) (by norm_num)
    rw [hF.half] at this
    exact this
  have hclue := pureClue_of_prob (F := float64) (nspam := (n : Int)) (nham := ((0 : ℕ) : Int))
    (info := (after float64 false calls).store.get?) (w := "pills") (p := 1) (by rw [h3]; exact e4)
  have hcl : pureClues float64 (n : Int) ((0 : ℕ) : Int) (some false)
      (after float64 false calls).store.get? .dedup (.list ["pills"]) =
        .ok [⟨|float64.sub 1 (float64.rnd (1 / 2))|, 1, "pills",
          (after float64 false calls).store.get? "pills"⟩] := by
    unfold pureClues pureCluesUnigram Stream.items
    simp only [e3, List.mapM_cons, List.mapM_nil]
    rw [hclue]
    simp only [bind, Except.bind, pure, Except.pure]
    rw [List.filter_cons_of_pos (by simpa using hstr), List.filter_nil, List.mergeSort_singleton]
    rfl
  unfold pureSpamprob
  rw [hcl]
  simp only [bind, Except.bind, List.map_cons, List.map_nil]
  have hcomb : combine float64 [(1 : ℝ)] = .error .valueError := by
    unfold combine
    simp only [List.foldl_cons, List.foldl_nil]
    have s0 : float64.sub 1 1 = 0 := by unfold FloatOps.sub; rw [sub_self, hF.zero]
    have s1 : float64.mul 1 0 = 0 := by unfold FloatOps.mul; rw [mul_zero, hF.zero]
    have s2 : Prod2.step float64 ⟨1, 0⟩ (float64.sub 1 1) = ⟨0, 0⟩ := by
      unfold Prod2.step
      rw [s0, s1]
      simp only
      split
      · rw [hF.frexp_zero]; rfl
      · rfl
    rw [s2]
    unfold Prod2.ln
    simp only
    rw [if_pos le_rfl]
    rfl
  rw [hcomb]

/-- A finite double: 53 bits and a sign, exponent not below that of the smallest one.  (The
greatest exponent is left out: nothing here overflows.) -/
def Binary64 (y : ℝ) : Prop := ∃ m k : ℤ, |m| < 2 ^ 53 ∧ -1074 ≤ k ∧ y = m * 2 ^ k

theorem roundEven_nearest (z : ℝ) (m : ℤ) : |(roundEven z : ℝ) - z| ≤ |(m : ℝ) - z| ∧
    (m ≠ roundEven z → |(m : ℝ) - z| = |(roundEven z : ℝ) - z| →
      Even (roundEven z) ∧ (m = roundEven z + 1 ∨ m = roundEven z - 1)) := by
  have h1 := roundEven_close z
  rcases eq_or_ne m (roundEven z) with rfl | hne
  · exact ⟨le_rfl, fun h => absurd rfl h⟩
  have h2 : (1 : ℝ) ≤ |(m : ℝ) - roundEven z| := by
    have : (1 : ℤ) ≤ |m - roundEven z| := Int.one_le_abs (sub_ne_zero.2 hne)
    exact_mod_cast this
  have h3 : |(m : ℝ) - roundEven z| ≤ |(m : ℝ) - z| + |(roundEven z : ℝ) - z| := by
    have := abs_sub_le (m : ℝ) z (roundEven z)
    rwa [abs_sub_comm z] at this
  refine ⟨by linarith, fun _ he => ?_⟩
  have h4 : |(roundEven z : ℝ) - z| = 1 / 2 := by linarith
  constructor
  · have f1 := Int.floor_le z
    have f2 := Int.lt_floor_add_one z
    revert h4
    unfold roundEven
    split_ifs with a b c
    · intro h4
      rw [abs_sub_comm, abs_of_nonneg (by linarith)] at h4
      linarith
    · intro h4
      push_cast at h4
      rw [abs_of_nonneg (by linarith)] at h4
      linarith
    · intro _; exact c
    · intro _; exact (Int.not_even_iff_odd.1 c).add_one
  · have h5 : |(m : ℝ) - roundEven z| ≤ 1 := by linarith
    have h6 : |m - roundEven z| ≤ 1 := by exact_mod_cast h5
    rw [abs_le] at h6
    omega

/-- **C92.** The arithmetic of these theorems can be that of IEEE doubles: `round64` gives
the nearest double, in case of a tie the one whose last bit is 0. -/
theorem C92_nearest (x : ℝ) : Binary64 (round64 x) ∧
    (∀ y, Binary64 y → |round64 x - x| ≤ |y - x|) ∧
    (∀ y, Binary64 y → y ≠ round64 x → |y - x| = |round64 x - x| →
      ∃ m k : ℤ, -1074 ≤ k ∧ Even m ∧ round64 x = m * 2 ^ k ∧
        (y = (m + 1) * 2 ^ k ∨ y = (m - 1) * 2 ^ k)) := by
  rcases eq_or_ne x 0 with rfl | hx0
  · rw [round64_zero]
    refine ⟨⟨0, 0, by norm_num, by norm_num, by norm_num⟩, fun y _ => by simp, fun y _ hne he => ?_⟩
    exact absurd (by simpa using he) hne
  have hu : (0 : ℝ) < 2 ^ exp64 x := by positivity
  have hexp : Int.log 2 |x| - 52 ≤ exp64 x ∧ -1074 ≤ exp64 x := by unfold exp64; omega
  set z := x / 2 ^ exp64 x with hz
  have hxz : x = z * 2 ^ exp64 x := by rw [hz]; field_simp
  have hr : round64 x = (roundEven z : ℝ) * 2 ^ exp64 x := rfl
  have scale : ∀ a : ℝ, |a * 2 ^ exp64 x - x| = |a - z| * 2 ^ exp64 x := by
    intro a
    have : a * 2 ^ exp64 x - x = (a - z) * 2 ^ exp64 x := by rw [sub_mul, ← hxz]
    rw [this, abs_mul, abs_of_pos hu]
  -- a double of the grid
  have grid : ∀ {y : ℝ} {m k : ℤ}, exp64 x ≤ k → y = m * 2 ^ k →
      ∃ n : ℤ, y = n * 2 ^ exp64 x := by
    intro y m k hk hy
    obtain ⟨j, hj⟩ := Int.eq_ofNat_of_zero_le (sub_nonneg.2 hk)
    refine ⟨m * 2 ^ j, ?_⟩
    rw [hy]; push_cast
    rw [mul_assoc, ← zpow_natCast, ← zpow_add₀ (by norm_num)]
    congr 2; omega
  -- a finer double is farther away than a power of two
  have fine : ∀ {y : ℝ} {m k : ℤ}, |m| < 2 ^ 53 → -1074 ≤ k → k < exp64 x → y = m * 2 ^ k →
      ∃ n : ℤ, |(n : ℝ) * 2 ^ exp64 x - x| < |y - x| := by
    intro y m k hm hk hlt hy
    have he : exp64 x = Int.log 2 |x| - 52 := by unfold exp64 at hlt ⊢; omega
    have hyl : |y| < 2 ^ Int.log 2 |x| := by
      have h1 : |y| = |(m : ℝ)| * 2 ^ k := by rw [hy, abs_mul, abs_of_pos (by positivity : (0 : ℝ) < 2 ^ k)]
      have h2 : |(m : ℝ)| < 2 ^ 53 := by exact_mod_cast hm
      have h3 : (2 : ℝ) ^ (53 : ℕ) * 2 ^ k ≤ 2 ^ Int.log 2 |x| := by
        rw [← zpow_natCast, ← zpow_add₀ (by norm_num)]
        exact zpow_le_zpow_right₀ (by norm_num) (by push_cast; omega)
      rw [h1]
      refine lt_of_lt_of_le ?_ h3
      gcongr
    have hb := two_zpow_log_le hx0
    have hp : (2 : ℝ) ^ Int.log 2 |x| = ((2 ^ 52 : ℤ) : ℝ) * 2 ^ exp64 x := by
      have e52 : ((2 ^ 52 : ℤ) : ℝ) = 2 ^ (52 : ℤ) := by norm_cast
      rw [e52, ← zpow_add₀ (by norm_num)]
      congr 1; omega
    rw [abs_lt] at hyl
    rcases le_total 0 x with hx | hx
    · rw [abs_of_nonneg hx] at hb hp hyl
      refine ⟨2 ^ 52, ?_⟩
      rw [← hp, abs_of_nonpos (by linarith), abs_of_nonpos (by linarith)]
      linarith
    · rw [abs_of_nonpos hx] at hb hp hyl
      refine ⟨-2 ^ 52, ?_⟩
      have hp' : ((-2 ^ 52 : ℤ) : ℝ) * 2 ^ exp64 x = -2 ^ Int.log 2 (-x) := by rw [hp]; push_cast; ring
      rw [hp', abs_of_nonneg (by linarith), abs_of_nonneg (by linarith)]
      linarith
  refine ⟨?_, ?_, ?_⟩
  · have hx : |x| ≤ 2 ^ (exp64 x + 53) :=
      (lt_two_zpow_log (x := x)).le.trans (zpow_le_zpow_right₀ (by norm_num) (by omega))
    have hup : |round64 x| ≤ 2 ^ (exp64 x + 53) := by
      rw [abs_le] at hx ⊢
      exact ⟨(round64_grid (m := -1) (k := exp64 x + 53) (by omega) (by push_cast; ring)).1 hx.1,
        (round64_grid (m := 1) (k := exp64 x + 53) (by omega) (by push_cast; ring)).2 hx.2⟩
    have hR : |roundEven z| ≤ 2 ^ 53 := by
      rw [hr, abs_mul, abs_of_pos hu, zpow_add₀ (by norm_num), mul_comm ((2 : ℝ) ^ exp64 x)] at hup
      have := le_of_mul_le_mul_right hup hu
      exact_mod_cast this
    rcases lt_or_eq_of_le hR with h | h
    · exact ⟨_, _, h, hexp.2, hr⟩
    · rcases abs_eq (by norm_num : (0 : ℤ) ≤ 2 ^ 53) |>.1 h with h | h
      · refine ⟨1, exp64 x + 53, by norm_num, by omega, ?_⟩
        rw [hr, h, zpow_add₀ (by norm_num)]; push_cast; norm_num; ring
      · refine ⟨-1, exp64 x + 53, by norm_num, by omega, ?_⟩
        rw [hr, h, zpow_add₀ (by norm_num)]; push_cast; norm_num; ring
  · rintro y ⟨m, k, h1, h2, h3⟩
    have near : ∀ n : ℤ, |round64 x - x| ≤ |(n : ℝ) * 2 ^ exp64 x - x| := by
      intro n
      rw [hr, scale, scale]
      have := (roundEven_nearest z n).1
      gcongr
    rcases le_or_gt (exp64 x) k with hk | hk
    · obtain ⟨n, rfl⟩ := grid hk h3
      exact near n
    · obtain ⟨n, hn⟩ := fine h1 h2 hk h3
      exact (near n).trans hn.le
  · rintro y ⟨m, k, h1, h2, h3⟩ hne he
    rcases le_or_gt (exp64 x) k with hk | hk
    · obtain ⟨n, rfl⟩ := grid hk h3
      rw [hr, scale, scale] at he
      have hn : n ≠ roundEven z := by rintro rfl; exact hne hr.symm
      obtain ⟨e1, e2⟩ := (roundEven_nearest z n).2 hn (mul_right_cancel₀ hu.ne' he)
      refine ⟨roundEven z, exp64 x, hexp.2, e1, hr, ?_⟩
      rcases e2 with rfl | rfl
      · left; push_cast; ring
      · right; push_cast; ring
    · obtain ⟨n, hn⟩ := fine h1 h2 hk h3
      rw [he, hr, scale, scale] at hn
      have := (roundEven_nearest z n).1
      exact absurd hn (not_lt.2 (by gcongr))

example : Binary64 3 ∧ ¬ Binary64 (2 ^ 53 + 1) := by
  refine ⟨⟨3, 0, by norm_num, by norm_num, by norm_num⟩, ?_⟩
  rintro ⟨m, k, h1, h2, h3⟩
  have h1' : |(m : ℝ)| < 2 ^ 53 := by exact_mod_cast h1
  rcases le_or_gt k 0 with hk | hk
  · have : (2 : ℝ) ^ k ≤ 1 := zpow_le_one_of_nonpos₀ (by norm_num) hk
    have hm := le_abs_self (m : ℝ)
    have hp : (0 : ℝ) < 2 ^ k := by positivity
    nlinarith [abs_nonneg (m : ℝ)]
  · obtain ⟨j, rfl⟩ := Int.eq_ofNat_of_zero_le hk.le
    have : (2 ^ 53 + 1 : ℤ) = m * 2 ^ j := by
      rw [zpow_natCast] at h3
      exact_mod_cast h3
    have hj : j = (j - 1) + 1 := by omega
    have h2 : (2 : ℤ) ∣ 2 ^ 53 + 1 := ⟨m * 2 ^ (j - 1), by
      rw [this, hj, pow_succ]; simp only [Nat.add_sub_cancel]; ring⟩
    norm_num at h2
end Sb.Props
