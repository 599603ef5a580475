import Verif.Props.Training
import Verif.Proof.Order

/-
Properties C03 (scores), C07, C10-C20: scoring.  States are those reached from a
new in-memory classifier by any list of calls (`exec`), valid or not, unless a
theorem says more.  An evidence list is written
`(.H, H) :: (.S, S) :: clues`.
-/

set_option linter.unusedSectionVars false

namespace Sb.Props
open Sb Py Spec

section
variable {W K : Type} [LinearOrder W] [BigramFormat W] [Field K] [LinearOrder K]

/-- The classifier after the calls `calls`. -/
abbrev after (F : FloatOps K) (ub : Bool) (calls : List (Call W)) : Clf (Dict W WordInfo) K :=
  (exec F (memory W) (Clf.new ub Dict.empty) calls).2

/-- What `probability` says about a token: 0.5 if the database has no record. -/
def tokenProb (F : FloatOps K) (c : Clf (Dict W WordInfo) K) (w : W) : Except Err K :=
  match c.store.get? w with
  | none => .ok (F.rnd (1 / 2))
  | some r => (probability F r c).1

/-- Distance of a probability from 0.5 as the platform computes it. -/
def strength (F : FloatOps K) (p : K) : K := |F.rnd (p - F.rnd (1 / 2))|

/-! helpers -/

theorem after_ok (F : FloatOps K) (ub : Bool) (calls : List (Call W)) :
    Sane (after F ub calls) ∧ Coherent F (after F ub calls) ∧
      (after F ub calls).useBigrams = some ub :=
  sane_exec F (ub := ub) calls (Clf.new ub Dict.empty) (sane_new ub) (coherent_of_empty F _ rfl) rfl

theorem tokenProb_eq (F : FloatOps K) {c : Clf (Dict W WordInfo) K} (hk : Coherent F c) (w : W) :
    tokenProb F c w = pureProb F c.nspam c.nham (c.store.get? w) := by
  unfold tokenProb pureProb
  cases c.store.get? w with
  | none => rfl
  | some r =>
    exact (computes_probability (F := F) (Inv := fun _ => True) r c ⟨hk, trivial, rfl, rfl, rfl⟩).1

theorem spamprob_eq (F : FloatOps K) {c : Clf (Dict W WordInfo) K} (hk : Coherent F c)
    (it : SetIter W) (s : Stream W) (ev : Bool) :
    (spamprob F (memory W) it s ev c).1 =
      pureSpamprob F c.nspam c.nham c.useBigrams c.store.get? it s ev :=
  (spamprob_memory c hk it s ev).1

/-- helper: what a returned evidence list is made of -/
theorem evidence_inv (F : FloatOps K) {c : Clf (Dict W WordInfo) K} (hk : Coherent F c)
    {it : SetIter W} {s : Stream W} {p H S : K} {rest : List (EvWord W × K)}
    (h : (spamprob F (memory W) it s true c).1 = .ok (p, some ((.H, H) :: (.S, S) :: rest))) :
    ∃ clues, pureClues F c.nspam c.nham c.useBigrams c.store.get? it s = .ok clues ∧
      combine F (clues.map (·.prob)) = .ok (p, S, H) ∧
      rest.Perm (clues.map (fun c => (EvWord.word c.word, c.prob))) ∧
      rest.Pairwise (fun a b => a.2 ≤ b.2) := by
  rw [spamprob_eq F hk] at h
  obtain ⟨clues, S', H', h1, h2, h3⟩ := pureSpamprob_ok h
  simp only [if_true, evidenceList, Option.some.injEq, List.cons.injEq, Prod.mk.injEq, true_and] at h3
  obtain ⟨rfl, rfl, rfl⟩ := h3
  refine ⟨clues, h1, h2, List.mergeSort_perm _ _, ?_⟩
  have := List.pairwise_mergeSort (le := fun a b : EvWord W × K => decide (a.2 ≤ b.2))
    (by intro a b c; simpa using le_trans) (by intro a b; simpa using le_total a.2 b.2)
    (clues.map (fun c => (EvWord.word c.word, c.prob)))
  exact this.imp (by intro a b; simp)

end

section
variable {W K : Type} [LinearOrder W] [BigramFormat W] [Field K] [LinearOrder K]
  [IsStrictOrderedRing K]

/-! ### C03, C07 -/

/-- **C03**, scores: histories leaving the same messages learned score every
message alike (returned value, evidence and errors). -/
theorem C03_order_independent_scores (F : FloatOps K) (ub : Bool) (calls calls' : List (Call W))
    (L : Ledger W) (hv : Valid ub 0 calls L) (hv' : Valid ub 0 calls' L) (it : SetIter W)
    (s : Stream W) (ev : Bool) :
    (spamprob F (memory W) it s ev (after F ub calls)).1 =
    (spamprob F (memory W) it s ev (after F ub calls')).1 := by
  obtain ⟨h1, h2, h3⟩ := C03_order_independent_counts F ub calls calls' L hv hv'
  obtain ⟨-, k1, u1⟩ := after_ok F ub calls
  obtain ⟨-, k2, u2⟩ := after_ok F ub calls'
  rw [spamprob_eq F k1, spamprob_eq F k2, u1, u2]
  have : (after F ub calls).store.get? = (after F ub calls').store.get? := funext h3
  rw [this]
  have e1 : (after F ub calls).nspam = (after F ub calls').nspam := h1
  have e2 : (after F ub calls).nham = (after F ub calls').nham := h2
  rw [e1, e2]

/-- Two different histories with the same messages in the end. -/
example : Valid (W := String) false 0
      [.learn .dedup (.list ["a"]) true, .learn .dedup (.list ["b"]) false]
      {(({"b"} : Finset String), false), ({"a"}, true)} ∧
    Valid (W := String) false 0
      [.learn .dedup (.list ["b", "b"]) false, .learn .dedup (.list ["c"]) false,
       .unlearn .dedup (.list ["c"]) false, .learn .revDedup (.iterator ["a"]) true]
      {(({"b"} : Finset String), false), ({"a"}, true)} := by
  have e1 : msgOf (W := String) false (.list ["a"]) true = ({"a"}, true) := by decide
  have e2 : msgOf (W := String) false (.list ["b"]) false = ({"b"}, false) := by decide
  have e3 : msgOf (W := String) false (.list ["b", "b"]) false = ({"b"}, false) := by decide
  have e4 : msgOf (W := String) false (.list ["c"]) false = ({"c"}, false) := by decide
  have e5 : msgOf (W := String) false (.iterator ["a"]) true = ({"a"}, true) := by decide
  constructor
  · refine .learn (.learn ?_)
    rw [e1, e2]; exact .nil _
  · refine .learn (.learn (.unlearn (by simp) (.learn ?_)))
    rw [e3, e4, e5, Multiset.erase_cons_head]
    have : (({"a"}, true) ::ₘ ({"b"}, false) ::ₘ (0 : Ledger String)) =
        {(({"b"} : Finset String), false), ({"a"}, true)} := by decide
    rw [this]; exact .nil _

/-- **C07**, counts: after a valid history no word count exceeds its total. -/
theorem C07_counts_within_totals (F : FloatOps K) (ub : Bool) (calls : List (Call W)) (L : Ledger W)
    (hv : Valid ub 0 calls L) (w : W) (r : WordInfo) (hr : (after F ub calls).store.get? w = some r) :
    r.spamcount ≤ (after F ub calls).nspam ∧ r.hamcount ≤ (after F ub calls).nham := by
  obtain ⟨h1, h2, h3⟩ := C02_counts_are_ledger F ub calls L hv
  have h3 := h3 w
  change (after F ub calls).store.get? w = _ at h3
  change (after F ub calls).nspam = _ at h1
  change (after F ub calls).nham = _ at h2
  rw [hr] at h3
  rw [h1, h2]
  unfold recordOf at h3
  split at h3
  · cases h3
  · cases h3
    have := spamCount_le L w
    have := hamCount_le L w
    simp only; omega

/-- helper: after a valid history each token has a probability -/
theorem tokenProb_ok_of_valid (F : FloatOps K) (hF : F.Sound) (hr : F.PosRatios) (ub : Bool)
    (calls : List (Call W)) (L : Ledger W) (hv : Valid ub 0 calls L) (w : W) :
    ∃ p, pureProb F (after F ub calls).nspam (after F ub calls).nham
      ((after F ub calls).store.get? w) = .ok p := by
  cases hw : (after F ub calls).store.get? w with
  | none => exact ⟨_, rfl⟩
  | some r =>
    obtain ⟨hs, -, -⟩ := after_ok F ub calls
    obtain ⟨a, b, c⟩ := hs.records w r hw
    obtain ⟨d, e⟩ := C07_counts_within_totals F ub calls L hv w r hw
    exact freshProbability_total hF hr a b c (by split <;> omega) (by split <;> omega)

/-- helper: clue selection succeeds if every token has a probability -/
theorem pureClues_total {F : FloatOps K} {nspam nham : Int} {info : W → Option WordInfo}
    (h : ∀ w, ∃ p, pureProb F nspam nham (info w) = .ok p) (ub : Bool) (it : SetIter W) (s : Stream W) :
    ∃ clues, pureClues F nspam nham (some ub) info it s = .ok clues := by
  have hc : ∀ w, ∃ c, pureClue F nspam nham info w = .ok c := by
    intro w
    obtain ⟨p, hp⟩ := h w
    exact ⟨_, pureClue_of_prob hp⟩
  cases ub with
  | false =>
    obtain ⟨all, hall⟩ := mapM_ok_of_forall (pureClue F nspam nham info) (it.order s.items)
      (fun w _ => hc w)
    refine ⟨keepStrongest ((all.filter (fun t => decide (t.distance ≥ minimumProbStrength F))).mergeSort
      clueLe), ?_⟩
    simp only [pureClues, pureCluesUnigram, hall]; rfl
  | true =>
    have hcons : ∀ w ix seen raw, ∃ st, pureConsider F nspam nham info w ix seen raw = .ok st := by
      intro w ix seen raw
      unfold pureConsider
      split
      · exact ⟨_, rfl⟩
      · obtain ⟨c, hc⟩ := hc w
        rw [hc]
        simp only [bind, Except.bind]
        split <;> exact ⟨_, rfl⟩
    have hfill : ∀ (ws : List W) i last seen raw,
        ∃ raw', pureFill F nspam nham info i last ws seen raw = .ok raw' := by
      intro ws
      induction ws with
      | nil => intro i last seen raw; exact ⟨_, rfl⟩
      | cons token rest ih =>
        intro i last seen raw
        unfold pureFill
        obtain ⟨st, hst⟩ := hcons token [i] seen raw
        rw [hst]
        simp only [bind, Except.bind]
        have : ∃ st', purePair F nspam nham info i last token st = .ok st' := by
          cases last with
          | none => exact ⟨_, rfl⟩
          | some l => exact hcons _ _ _ _
        obtain ⟨st', hst'⟩ := this
        rw [hst']
        exact ih _ _ _ _
    obtain ⟨raw, hraw⟩ := hfill s.items 0 none [] []
    simp only [pureClues, pureCluesBigram, hraw]
    exact ⟨_, rfl⟩

/-- helper: exact clue probabilities are strictly between 0 and 1 -/
theorem pureProb_exact_strict {c : Clf (Dict W WordInfo) ℝ} (hs : Sane c) {w : W} {p : ℝ}
    (h : pureProb exactReal c.nspam c.nham (c.store.get? w) = .ok p) : 0 < p ∧ p < 1 := by
  cases hw : c.store.get? w with
  | none =>
    rw [hw] at h
    cases h
    constructor <;> norm_num [unknownWordProb, exactReal]
  | some r =>
    rw [hw] at h
    obtain ⟨a, b, d⟩ := hs.records w r hw
    exact (freshProbability_exact_ok a b d h).2.2.2

/-- helper -/
theorem clues_exact_strict {c : Clf (Dict W WordInfo) ℝ} (hs : Sane c) {it : SetIter W} {s : Stream W}
    {ub : Option Bool} {clues : List (Clue W ℝ)}
    (h : pureClues exactReal c.nspam c.nham ub c.store.get? it s = .ok clues) :
    ∀ p ∈ clues.map (·.prob), 0 < p ∧ p < 1 := by
  intro p hp
  obtain ⟨cl, hcl, rfl⟩ := List.mem_map.1 hp
  exact pureProb_exact_strict hs (pureClue_ok (pureClues_mem h hcl)).2.1

/-- **C07.** After a valid history spamprob returns, for every message (exact
arithmetic). -/
theorem C07_valid_history_scores (ub : Bool) (calls : List (Call W)) (L : Ledger W)
    (hv : Valid ub 0 calls L) (it : SetIter W) (s : Stream W) (ev : Bool) :
    ∃ v, (spamprob exactReal (memory W) it s ev (after exactReal ub calls)).1 = .ok v := by
  obtain ⟨hs, hk, hub⟩ := after_ok exactReal ub calls
  rw [spamprob_eq _ hk, hub]
  obtain ⟨clues, hc⟩ := pureClues_total (tokenProb_ok_of_valid exactReal exactReal_sound
    exactReal_posRatios ub calls L hv) ub it s
  exact ⟨_, pureSpamprob_of hc (combine_exact _ (clues_exact_strict hs hc))⟩

/-- helper: the combination step only raises ValueError -/
theorem combine_error {F : FloatOps K} {ps : List K} {e : Err} (h : combine F ps = .error e) :
    e = .valueError := by
  have hln : ∀ (p : Prod2 K) e, p.ln F = .error e → e = .valueError := by
    intro p e h
    unfold Prod2.ln at h
    split at h
    · cases h; rfl
    · cases h
  have hq : ∀ (x : K) (n : Nat), ∃ q, chi2Q F x (2 * (n : Int)) = .ok q := by
    intro x n
    unfold chi2Q
    rw [if_neg (by omega)]
    exact ⟨_, rfl⟩
  unfold combine at h
  simp only [bind, Except.bind] at h
  split at h
  · rename_i h1; cases h; exact hln _ _ h1
  · split at h
    · rename_i h1; cases h; exact hln _ _ h1
    · split at h
      · rename_i S _ _ H _ _
        obtain ⟨q1, hq1⟩ := hq (F.mul (-2) S) ps.length
        obtain ⟨q2, hq2⟩ := hq (F.mul (-2) H) ps.length
        rw [hq1] at h
        simp only at h
        rw [hq2] at h
        cases h
      · cases h

/-- **C07**, rounding: on any sound platform without underflow of count ratios,
after a valid history clue selection succeeds, and the only error spamprob could
raise is the ValueError of the logarithm of a product that rounded to zero. -/
theorem C07_valid_history_rounded (F : FloatOps K) (hF : F.Sound) (hr : F.PosRatios) (ub : Bool)
    (calls : List (Call W)) (L : Ledger W) (hv : Valid ub 0 calls L) (it : SetIter W) (s : Stream W)
    (ev : Bool) (e : Err)
    (he : (spamprob F (memory W) it s ev (after F ub calls)).1 = .error e) :
    e = .valueError := by
  obtain ⟨hs, hk, hub⟩ := after_ok F ub calls
  rw [spamprob_eq _ hk, hub] at he
  obtain ⟨clues, hc⟩ := pureClues_total (tokenProb_ok_of_valid F hF hr ub calls L hv) ub it s
  unfold pureSpamprob at he
  rw [hc] at he
  simp only [bind, Except.bind] at he
  cases hcb : combine F (clues.map (·.prob)) with
  | error e' => rw [hcb] at he; cases he; exact combine_error hcb
  | ok v =>
    rw [hcb] at he
    cases ev <;> cases he

example : float53.Sound ∧ float53.PosRatios := ⟨float53_sound, float53_posRatios⟩

/-- **C07**, necessity of the hypothesis: after an unlearn of a message that was
never learned, scoring raises. -/
theorem C07_invalid_history_raises (F : FloatOps K) :
    (spamprob F (memory String) .dedup (.list ["a"]) false
      (after F false [.learn .dedup (.list ["a"]) true, .learn .dedup (.list ["a"]) true,
        .unlearn .dedup (.list ["b"]) true])).1 = .error .exception := by
  obtain ⟨-, hk, hub⟩ := after_ok F false [.learn .dedup (.list ["a"]) true,
    .learn .dedup (.list ["a"]) true, .unlearn .dedup (.list ["b"]) true]
  have e : (after F false [.learn .dedup (.list ["a"]) true,
      .learn .dedup (.list ["a"]) true, .unlearn .dedup (.list ["b"]) true]).store.get? "a" =
      some ⟨2, 0⟩ := rfl
  have e1 : (after F false [.learn .dedup (.list ["a"]) true,
      .learn .dedup (.list ["a"]) true, .unlearn .dedup (.list ["b"]) true]).nspam = 1 := rfl
  have e2 : (after F false [.learn .dedup (.list ["a"]) true,
      .learn .dedup (.list ["a"]) true, .unlearn .dedup (.list ["b"]) true]).nham = 0 := rfl
  rw [spamprob_eq F hk, hub, e1, e2]
  have e3 : SetIter.dedup.order ["a"] = ["a"] := by decide
  have e4 : pureProb F 1 0 (some ⟨2, 0⟩) = .error .exception :=
    freshProbability_exceeds (F := F) (ns := 1) (nh := 0) (r := ⟨2, 0⟩) (.inr (by simp))
  unfold pureSpamprob pureClues pureCluesUnigram Stream.items
  simp only [e3, List.mapM_cons]
  rw [pureClue_error (by rw [e]; exact e4)]
  rfl

/-! ### C10 -/

/-- **C10**, value: Robinson's formula, strictly between 0 and 1. -/
theorem C10_exact_formula (ub : Bool) (calls : List (Call W)) (r : WordInfo)
    (hs : 0 ≤ r.spamcount) (hh : 0 ≤ r.hamcount) (hnz : ¬ (r.spamcount = 0 ∧ r.hamcount = 0))
    (hs1 : r.spamcount ≤ max 1 (after exactReal ub calls).nspam)
    (hh1 : r.hamcount ≤ max 1 (after exactReal ub calls).nham) :
    let c := after exactReal ub calls
    let p := robinson c.nspam c.nham r.spamcount r.hamcount
    (probability exactReal r c).1 = .ok p ∧ 0 < p ∧ p < 1 := by
  obtain ⟨hsn, -, -⟩ := after_ok exactReal ub calls
  have := C08_probability_is_fresh exactReal ub calls r
  have a := hsn.nspam
  have b := hsn.nham
  intro c p
  change r.spamcount ≤ max 1 c.nspam at hs1
  change r.hamcount ≤ max 1 c.nham at hh1
  change 0 ≤ c.nspam at a
  change 0 ≤ c.nham at b
  have key := freshProbability_exact (ns := c.nspam) (nh := c.nham) hs hh (by omega)
    (by split <;> omega)
    (by split <;> omega)
  exact ⟨by rw [this]; exact key.1, key.2⟩

example : robinson 1 1 1 0 = 1.225 / 1.45 := by norm_num [robinson]

/-- **C10**, bounds: under any monotone rounding, a probability that is returned
for non-negative counts is between 0 and 1. -/
theorem C10_rounded_bounds (F : FloatOps K) (hF : F.Sound) (ub : Bool) (calls : List (Call W))
    (r : WordInfo) (hs : 0 ≤ r.spamcount) (hh : 0 ≤ r.hamcount) (p : K)
    (h : (probability F r (after F ub calls)).1 = .ok p) : 0 ≤ p ∧ p ≤ 1 := by
  have := C08_probability_is_fresh F ub calls r
  exact freshProbability_bounds hF hs hh (this.symm.trans h)

example : float53.Sound := float53_sound

/-- **C10**, errors: for non-negative counts, `probability` raises Exception
exactly if a count exceeds its (at least 1) total, ZeroDivisionError exactly if
both counts are zero, and returns otherwise. -/
theorem C10_raises_iff (F : FloatOps K) (hF : F.Sound) (hr : F.PosRatios) (ub : Bool)
    (calls : List (Call W)) (r : WordInfo) (hs : 0 ≤ r.spamcount) (hh : 0 ≤ r.hamcount) :
    let c := after F ub calls
    let res := (probability F r c).1
    let exceeds := max 1 c.nspam < r.spamcount ∨ max 1 c.nham < r.hamcount
    let zero := r.spamcount = 0 ∧ r.hamcount = 0
    (exceeds → res = .error .exception) ∧ (zero → res = .error .zeroDivisionError) ∧
    (¬ exceeds → ¬ zero → ∃ p, res = .ok p) := by
  obtain ⟨hsn, -, -⟩ := after_ok F ub calls
  have e := C08_probability_is_fresh F ub calls r
  have a := hsn.nspam
  have b := hsn.nham
  intro c res exceeds zero
  have e : res = freshProbability F c.nspam c.nham r := e
  have a : 0 ≤ c.nspam := a
  have b : 0 ≤ c.nham := b
  rw [e]
  refine ⟨fun h => ?_, fun h => ?_, fun h1 h2 => ?_⟩
  · apply freshProbability_exceeds
    rcases h with h | h
    · right; split <;> omega
    · left; split <;> omega
  · obtain ⟨rs, rh⟩ := r
    obtain ⟨rfl, rfl⟩ : rs = 0 ∧ rh = 0 := h
    exact freshProbability_zero hF a b
  · have h2 : ¬ (r.spamcount = 0 ∧ r.hamcount = 0) := h2
    have h1 : ¬ (max 1 c.nspam < r.spamcount ∨ max 1 c.nham < r.hamcount) := h1
    refine freshProbability_total hF hr hs hh (by omega) ?_ ?_
    · split <;> omega
    · split <;> omega

/-! ### C11 -/

/-- **C11**, errors: ValueError exactly for odd degrees of freedom. -/
theorem C11_odd_raises (F : FloatOps K) (x2 : K) (v : Int) :
    (Odd v → chi2Q F x2 v = .error .valueError) ∧ (Even v → ∃ q, chi2Q F x2 v = .ok q) := by
  constructor
  · intro h
    unfold chi2Q
    rw [if_pos (by rw [Int.odd_iff] at h; omega)]
  · intro h
    unfold chi2Q
    rw [if_neg (by rw [Int.even_iff] at h; omega)]
    exact ⟨_, rfl⟩

/-- **C11**, bounds, under any monotone rounding. -/
theorem C11_rounded_bounds (F : FloatOps K) (hF : F.Sound) (x2 : K) (hx : 0 ≤ x2) (v : Int) (q : K)
    (h : chi2Q F x2 v = .ok q) : 0 ≤ q ∧ q ≤ 1 := chi2Q_bounds hF hx h

/-- **C11**, value: the chi-squared survival function with v = 2n degrees of
freedom. -/
theorem C11_exact_value (x2 : ℝ) (hx : 0 ≤ x2) (n : ℕ) (hn : 0 < n) :
    chi2Q exactReal x2 (2 * n) = .ok (chiSurvival x2 n) := chi2Q_exact hx n hn

example : chiSurvival 2 2 = Real.exp (-1) * 2 := by
  norm_num [chiSurvival, Finset.sum_range_succ]

/-- **C11**, monotonicity and value at 0 (exact arithmetic, any even v). -/
theorem C11_exact_monotone (x y : ℝ) (hx : 0 ≤ x) (hxy : x ≤ y) (v v' : Int) (hv : Even v)
    (hv' : Even v') (hvv : v ≤ v') (a b c : ℝ) (ha : chi2Q exactReal x v = .ok a)
    (hb : chi2Q exactReal y v = .ok b) (hc : chi2Q exactReal x v' = .ok c) :
    b ≤ a ∧ a ≤ c ∧ (x = 0 → a = 1) := by
  rw [Int.even_iff] at hv hv'
  rw [chi2Q_exact_all hx hv] at ha
  rw [chi2Q_exact_all (hx.trans hxy) hv] at hb
  rw [chi2Q_exact_all hx hv'] at hc
  cases ha; cases hb; cases hc
  refine ⟨chiSurvival_anti hx hxy _, chiSurvival_mono_n hx (by omega), ?_⟩
  rintro rfl
  exact chiSurvival_zero (by omega)

example : ∃ a b c, chi2Q exactReal 1 4 = .ok a ∧ chi2Q exactReal 3 4 = .ok b ∧
    chi2Q exactReal 1 10 = .ok c :=
  ⟨_, _, _, chi2Q_exact_all (by norm_num) (by norm_num), chi2Q_exact_all (by norm_num) (by norm_num),
    chi2Q_exact_all (by norm_num) (by norm_num)⟩

/-! ### C12, C13 -/

/-- **C12.** Whatever was trained, whatever the message, in both modes and under
any monotone rounding: a returned score is between 0 and 1. -/
theorem C12_score_bounds (F : FloatOps K) (hF : F.Sound) (ub : Bool) (calls : List (Call W))
    (it : SetIter W) (s : Stream W) (ev : Bool) (v : K × Option (List (EvWord W × K)))
    (h : (spamprob F (memory W) it s ev (after F ub calls)).1 = .ok v) : 0 ≤ v.1 ∧ v.1 ≤ 1 := by
  obtain ⟨hs, hk, -⟩ := after_ok F ub calls
  rw [spamprob_eq F hk] at h
  obtain ⟨clues, S, H, h1, h2, -⟩ := pureSpamprob_ok h
  have hb : ∀ p ∈ clues.map (·.prob), 0 ≤ p ∧ p ≤ 1 := by
    intro p hp
    obtain ⟨cl, hcl, rfl⟩ := List.mem_map.1 hp
    have h3 := (pureClue_ok (pureClues_mem h1 hcl)).2.1
    cases hw : (after F ub calls).store.get? cl.word with
    | none =>
      rw [hw] at h3
      have h3 := Except.ok.inj h3
      rw [← h3]
      constructor <;> norm_num [unknownWordProb, hF.half]
    | some r =>
      rw [hw] at h3
      obtain ⟨a, b, -⟩ := hs.records _ r hw
      exact freshProbability_bounds hF a b h3
  obtain ⟨a, b, -, -⟩ := combine_bounds hF hb h2
  exact ⟨a, b⟩

/-- A score that is returned (exact arithmetic, one clue), so that C12 and C13
are not vacuous. -/
example : ∃ v, (spamprob exactReal (memory String) .dedup (.list ["pills"]) true
    (after exactReal false [.learn .dedup (.list ["pills"]) true])).1 = .ok v :=
  C07_valid_history_scores false _ _ (.learn (.nil _)) _ _ _

/-- **C13.** In exact arithmetic the score is the indicator (S - H + 1)/2 of the
clue probabilities in the evidence, and S and H are Fisher's combinations of the
1-p and of the p: the products with frexp exponents stand for the sums of
logarithms. -/
theorem C13_score_formula (ub : Bool) (calls : List (Call W)) (it : SetIter W) (s : Stream W)
    (p H S : ℝ) (rest : List (EvWord W × ℝ))
    (h : (spamprob exactReal (memory W) it s true (after exactReal ub calls)).1 =
      .ok (p, some ((.H, H) :: (.S, S) :: rest))) :
    p = indicator (rest.map (·.2)) ∧
    (rest ≠ [] → S = fisher (rest.map (fun e => 1 - e.2)) ∧ H = fisher (rest.map (·.2))) := by
  obtain ⟨hs, hk, -⟩ := after_ok exactReal ub calls
  obtain ⟨clues, h1, h2, h3, -⟩ := evidence_inv exactReal hk h
  rw [combine_exact _ (clues_exact_strict hs h1)] at h2
  have hp : (rest.map (·.2)).Perm (clues.map (·.prob)) := by
    have := h3.map (·.2)
    rw [List.map_map] at this
    exact this
  have hmm : rest.map (fun e => 1 - e.2) = (rest.map (·.2)).map (1 - ·) := by rw [List.map_map]; rfl
  simp only [Except.ok.injEq, Prod.mk.injEq] at h2
  obtain ⟨rfl, hS, hH⟩ := h2
  refine ⟨indicator_perm hp.symm, fun hne => ?_⟩
  have hne' : clues.map (·.prob) ≠ [] := by
    intro h0
    rw [h0] at hp
    have := List.perm_nil.1 hp
    simp at this
    exact hne this
  rw [if_neg hne'] at hS hH
  rw [hmm, ← hS, ← hH]
  exact ⟨fisher_perm (hp.symm.map _), fisher_perm hp.symm⟩

/-! ### C14 -/

/-- helper -/
theorem order_perm {it it' : SetIter W} {ws ws' : List W} (h : ∀ w, w ∈ ws ↔ w ∈ ws') :
    (it.order ws).Perm (it'.order ws') :=
  (List.perm_ext_iff_of_nodup (it.nodup ws) (it'.nodup ws')).2
    (fun w => by rw [it.mem, it'.mem, h])

/-- **C14.** In unigram mode messages with the same token set have the same
returned score and evidence, whatever the set iteration orders. -/
theorem C14_only_the_token_set (F : FloatOps K) (calls : List (Call W)) (it it' : SetIter W)
    (s s' : Stream W) (hs : ∀ w, w ∈ s.items ↔ w ∈ s'.items) (ev : Bool)
    (v : K × Option (List (EvWord W × K))) :
    (spamprob F (memory W) it s ev (after F false calls)).1 = .ok v ↔
    (spamprob F (memory W) it' s' ev (after F false calls)).1 = .ok v := by
  obtain ⟨-, hk, hub⟩ := after_ok F false calls
  rw [spamprob_eq F hk, spamprob_eq F hk, hub]
  have key : ∀ (it it' : SetIter W) (s s' : Stream W), (∀ w, w ∈ s.items ↔ w ∈ s'.items) →
      pureSpamprob F (after F false calls).nspam (after F false calls).nham (some false)
        (after F false calls).store.get? it s ev = .ok v →
      pureSpamprob F (after F false calls).nspam (after F false calls).nham (some false)
        (after F false calls).store.get? it' s' ev = .ok v := by
    intro it it' s s' hs h
    obtain ⟨clues, S, H, h1, h2, h3⟩ := pureSpamprob_ok h
    have h1' := unigram_perm (order_perm (it' := it') hs) (it.nodup _) h1
    rw [pureSpamprob_of (it := it') (s := s') (ub := some false) h1' h2, ← h3]
  exact ⟨key it it' s s' hs, key it' it s' s (fun w => (hs w).symm)⟩

/-- **C14**, errors: on a sound platform without underflow of count ratios the
outcome is the same also when spamprob raises. -/
theorem C14_same_errors (F : FloatOps K) (hF : F.Sound) (hr : F.PosRatios) (calls : List (Call W))
    (it it' : SetIter W) (s s' : Stream W) (hs : ∀ w, w ∈ s.items ↔ w ∈ s'.items) (ev : Bool) :
    (spamprob F (memory W) it s ev (after F false calls)).1 =
    (spamprob F (memory W) it' s' ev (after F false calls)).1 := by
  obtain ⟨hsn, hk, hub⟩ := after_ok F false calls
  rw [spamprob_eq F hk, spamprob_eq F hk, hub]
  have herr : ∀ w e, pureClue F (after F false calls).nspam (after F false calls).nham
      (after F false calls).store.get? w = .error e → e = .exception := by
    intro w e he
    cases hw : (after F false calls).store.get? w with
    | none =>
      rw [pureClue_of_prob (p := unknownWordProb F) (by rw [hw]; rfl)] at he; cases he
    | some r =>
      obtain ⟨a, b, d⟩ := hsn.records w r hw
      by_cases hg : r.hamcount > (if (after F false calls).nham = 0 then 1 else (after F false calls).nham) ∨
          r.spamcount > (if (after F false calls).nspam = 0 then 1 else (after F false calls).nspam)
      · rw [pureClue_error (e := .exception) (by rw [hw]; exact freshProbability_exceeds hg)] at he
        cases he; rfl
      · push Not at hg
        obtain ⟨p, hp⟩ := freshProbability_total hF hr a b d hg.2 hg.1
        rw [pureClue_of_prob (p := p) (by rw [hw]; exact hp)] at he; cases he
  have hcl : pureClues F (after F false calls).nspam (after F false calls).nham (some false)
        (after F false calls).store.get? it s =
      pureClues F (after F false calls).nspam (after F false calls).nham (some false)
        (after F false calls).store.get? it' s' := by
    have gen : ∀ (o o' : List W), o.Perm o' → o.Nodup →
        (∀ cl, pureCluesUnigram F (after F false calls).nspam (after F false calls).nham
          (after F false calls).store.get? o ≠ .ok cl) →
        pureCluesUnigram F (after F false calls).nspam (after F false calls).nham
          (after F false calls).store.get? o' = .error .exception := by
      intro o o' hp hn hne
      unfold pureCluesUnigram
      rw [mapM_error _ .exception o' (fun w _ e => herr w e)]
      · rfl
      · intro r hr
        obtain ⟨r', hr', -⟩ := mapM_perm _ hp.symm hr
        apply hne
        unfold pureCluesUnigram
        rw [hr']; rfl
    have hp := order_perm (it := it) (it' := it') hs
    simp only [pureClues]
    cases h1 : pureCluesUnigram F (after F false calls).nspam (after F false calls).nham
        (after F false calls).store.get? (it.order s.items) with
    | ok cl => exact (unigram_perm hp (it.nodup _) h1).symm
    | error e =>
      have hne : ∀ cl, pureCluesUnigram F (after F false calls).nspam (after F false calls).nham
          (after F false calls).store.get? (it.order s.items) ≠ .ok cl := by
        intro cl; rw [h1]; intro h; cases h
      have := gen _ _ (List.Perm.refl _) (it.nodup _) hne
      rw [h1] at this
      rw [this, gen _ _ hp (it.nodup _) hne]
  unfold pureSpamprob
  rw [hcl]

example : (∀ w, w ∈ (Stream.list ["a", "b", "a"]).items ↔ w ∈ (Stream.iterator ["b", "a"]).items) ∧
    SetIter.dedup.order ["a", "b"] ≠ SetIter.revDedup.order ["a", "b"] := by
  refine ⟨by simp [Stream.items, or_comm], by decide⟩

/-! ### C15 -/

/-- **C15**, no evidence: a message none of whose tokens reaches strength 0.1
scores exactly 0.5. -/
theorem C15_no_evidence (F : FloatOps K) (hF : F.Sound) (hlog : F.log 1 = 0) (calls : List (Call W))
    (it : SetIter W) (s : Stream W) (ev : Bool)
    (hw : ∀ w ∈ s.items, ∃ q, tokenProb F (after F false calls) w = .ok q ∧
      strength F q < F.rnd (1 / 10)) :
    ∃ o, (spamprob F (memory W) it s ev (after F false calls)).1 = .ok (1 / 2, o) := by
  obtain ⟨-, hk, hub⟩ := after_ok F false calls
  rw [spamprob_eq F hk, hub]
  have h0 : pureCluesUnigram F (after F false calls).nspam (after F false calls).nham
      (after F false calls).store.get? [] = .ok [] := by
    simp [pureCluesUnigram, keepStrongest]; rfl
  have h1 : pureClues F (after F false calls).nspam (after F false calls).nham (some false)
      (after F false calls).store.get? it s = .ok [] := by
    refine unigram_weaken (order := []) (extra := it.order s.items) (by simp) (it.nodup _) ?_ h0
    intro w hwm
    obtain ⟨q, hq, hlt⟩ := hw w ((it.mem _ _).1 hwm)
    rw [tokenProb_eq F hk] at hq
    exact ⟨_, pureClue_of_prob hq, hlt⟩
  have h2 : combine F (([] : List (Clue W K)).map (·.prob)) =
      .ok (F.rnd (1 / 2), F.add 0 (F.mul (F.rnd ((0 : Int) : K)) F.ln2),
        F.add 0 (F.mul (F.rnd ((0 : Int) : K)) F.ln2)) := by
    simp only [combine, List.map_nil, List.foldl_nil, Prod2.ln, List.length_nil, hlog]
    rw [if_neg (not_le.2 one_pos)]
    rfl
  rw [hF.half] at h2
  exact ⟨_, pureSpamprob_of h1 h2⟩

/-- **C15**, neutral tokens: adding tokens that are unknown, or of strength below
0.1, changes neither score nor evidence. -/
theorem C15_neutral_tokens_inert (F : FloatOps K) (hF : F.Sound) (calls : List (Call W))
    (it it' : SetIter W) (s s' : Stream W) (ev : Bool) (hsub : ∀ w ∈ s.items, w ∈ s'.items)
    (hw : ∀ w ∈ s'.items, w ∉ s.items →
      (after F false calls).store.get? w = none ∨
      ∃ q, tokenProb F (after F false calls) w = .ok q ∧ strength F q < F.rnd (1 / 10))
    (v : K × Option (List (EvWord W × K)))
    (h : (spamprob F (memory W) it s ev (after F false calls)).1 = .ok v) :
    (spamprob F (memory W) it' s' ev (after F false calls)).1 = .ok v := by
  obtain ⟨-, hk, hub⟩ := after_ok F false calls
  rw [spamprob_eq F hk, hub] at h ⊢
  obtain ⟨clues, S, H, h1, h2, h3⟩ := pureSpamprob_ok h
  have h1' : pureClues F (after F false calls).nspam (after F false calls).nham (some false)
      (after F false calls).store.get? it' s' = .ok clues := by
    refine unigram_weaken (order := it.order s.items)
      (extra := (it'.order s'.items).filter (fun w => decide (w ∉ s.items))) ?_ (it'.nodup _) ?_ h1
    · refine (List.perm_ext_iff_of_nodup (it'.nodup _) ?_).2 ?_
      · rw [List.nodup_append]
        refine ⟨it.nodup _, (it'.nodup _).sublist List.filter_sublist, ?_⟩
        rintro a ha b hb rfl
        rw [List.mem_filter] at hb
        exact (of_decide_eq_true hb.2) ((it.mem _ _).1 ha)
      · intro w
        rw [List.mem_append, List.mem_filter, it.mem, it'.mem, decide_eq_true_eq]
        constructor
        · intro h; by_cases hs : w ∈ s.items
          · exact .inl hs
          · exact .inr ⟨h, hs⟩
        · rintro (h | h)
          · exact hsub w h
          · exact h.1
    · intro w hwm
      rw [List.mem_filter, it'.mem, decide_eq_true_eq] at hwm
      rcases hw w hwm.1 hwm.2 with hn | ⟨q, hq, hlt⟩
      · refine ⟨_, pureClue_of_prob (p := unknownWordProb F) (by rw [hn]; rfl), ?_⟩
        simp only [unknownWordProb, FloatOps.sub, sub_self, hF.zero, abs_zero]
        exact hF.tenth_pos
      · rw [tokenProb_eq F hk] at hq
        exact ⟨_, pureClue_of_prob hq, hlt⟩
  rw [pureSpamprob_of h1' h2, ← h3]

/-- "pills" is a clue, "never seen" is unknown. -/
example : (after exactReal false [.learn .dedup (.list ["pills"]) true]).store.get? "never seen" = none ∧
    exactReal.log 1 = 0 ∧ exactReal.Sound :=
  ⟨rfl, by simp [exactReal], exactReal_sound⟩

/-! ### C16 -/

/-- **C16.** In exact arithmetic: if the clue probabilities of one scoring are
pointwise at least those of another (in the order of the evidence lists), its
score is at least the other's.  The two classifiers may differ. -/
theorem C16_monotone (ub ub' : Bool) (calls calls' : List (Call W)) (it it' : SetIter W)
    (s s' : Stream W) (p p' H H' S S' : ℝ) (rest rest' : List (EvWord W × ℝ))
    (h : (spamprob exactReal (memory W) it s true (after exactReal ub calls)).1 =
      .ok (p, some ((.H, H) :: (.S, S) :: rest)))
    (h' : (spamprob exactReal (memory W) it' s' true (after exactReal ub' calls')).1 =
      .ok (p', some ((.H, H') :: (.S, S') :: rest')))
    (hle : List.Forall₂ (fun e e' => e.2 ≤ e'.2) rest rest') : p ≤ p' := by
  have key : ∀ (ub : Bool) (calls : List (Call W)) (it : SetIter W) (s : Stream W) (p H S : ℝ)
      (rest : List (EvWord W × ℝ)),
      (spamprob exactReal (memory W) it s true (after exactReal ub calls)).1 =
        .ok (p, some ((.H, H) :: (.S, S) :: rest)) → ∀ q ∈ rest.map (·.2), 0 < q ∧ q < 1 := by
    intro ub calls it s p H S rest h q hq
    obtain ⟨hs, hk, -⟩ := after_ok exactReal ub calls
    obtain ⟨clues, h1, h2, h3, -⟩ := evidence_inv exactReal hk h
    apply clues_exact_strict hs h1
    have := (h3.map (·.2)).subset hq
    rw [List.map_map] at this
    exact this
  rw [(C13_score_formula ub calls it s p H S rest h).1,
    (C13_score_formula ub' calls' it' s' p' H' S' rest' h').1]
  refine indicator_mono (key _ _ _ _ _ _ _ _ h) (key _ _ _ _ _ _ _ _ h') ?_
  exact List.forall₂_map_left_iff.2 (List.forall₂_map_right_iff.2 hle)

/-! ### C18, C19 -/

/-- **C18.** Which clues are used, in unigram mode: distinct tokens of the
message, at most 150, with their probabilities, each of strength at least 0.1;
a token of that strength is missing only if there are 150 clues, all at least as
strong. -/
theorem C18_clue_selection (F : FloatOps K) (calls : List (Call W)) (it : SetIter W) (s : Stream W)
    (p H S : K) (rest : List (EvWord W × K))
    (h : (spamprob F (memory W) it s true (after F false calls)).1 =
      .ok (p, some ((.H, H) :: (.S, S) :: rest))) :
    (rest.map (·.1)).Nodup ∧ rest.length ≤ 150 ∧
    (∀ e ∈ rest, ∃ w ∈ s.items, e.1 = .word w ∧ tokenProb F (after F false calls) w = .ok e.2 ∧
      F.rnd (1 / 10) ≤ strength F e.2) ∧
    (∀ w ∈ s.items, ∃ q, tokenProb F (after F false calls) w = .ok q ∧
      (F.rnd (1 / 10) ≤ strength F q →
        (.word w, q) ∈ rest ∨ (rest.length = 150 ∧ ∀ e ∈ rest, strength F q ≤ strength F e.2))) := by
  obtain ⟨-, hk, hub⟩ := after_ok F false calls
  obtain ⟨clues, h1, -, h3, -⟩ := evidence_inv F hk h
  rw [hub] at h1
  obtain ⟨a, b, -, d, e⟩ := unigram_selection (it.nodup _) h1
  have hmem : ∀ x, x ∈ rest ↔ ∃ c ∈ clues, (EvWord.word c.word, c.prob) = x := by
    intro x; rw [h3.mem_iff, List.mem_map]
  have hlen : rest.length = clues.length := by rw [h3.length_eq, List.length_map]
  refine ⟨?_, by omega, ?_, ?_⟩
  · have : (rest.map (·.1)).Perm ((clues.map (·.word)).map EvWord.word) := by
      have := h3.map (·.1)
      rw [List.map_map] at this
      rw [List.map_map]
      exact this
    rw [this.nodup_iff]
    exact a.map (fun x y hxy => by cases hxy; rfl)
  · intro x hx
    obtain ⟨c, hc, rfl⟩ := (hmem x).1 hx
    obtain ⟨d1, d2, d3⟩ := d c hc
    obtain ⟨-, d4, d5⟩ := pureClue_ok d2
    refine ⟨c.word, (it.mem _ _).1 d1, rfl, ?_, ?_⟩
    · rw [tokenProb_eq F hk]; exact d4
    · rw [d5] at d3; exact d3
  · intro w hw
    obtain ⟨c, hc, hcc⟩ := e w ((it.mem _ _).2 hw)
    obtain ⟨c1, c2, c3⟩ := pureClue_ok hc
    refine ⟨c.prob, by rw [tokenProb_eq F hk]; exact c2, fun hst => ?_⟩
    have hst' : minimumProbStrength F ≤ c.distance := by rw [c3]; exact hst
    rcases hcc hst' with h4 | ⟨h4, h5⟩
    · left; rw [hmem]; exact ⟨c, h4, by rw [c1]⟩
    · right
      refine ⟨by omega, fun x hx => ?_⟩
      obtain ⟨c', hc', rfl⟩ := (hmem x).1 hx
      have h6 := h5 c' hc'
      have h7 := (pureClue_ok (d c' hc').2.1).2.2
      have : c.distance ≤ c'.distance := by
        rw [clueLe_iff] at h6
        rcases h6 with h6 | ⟨h6, -⟩
        · exact h6.le
        · exact h6.le
      rw [c3, h7] at this
      exact this

/-- **C18**, at most 150 qualify: then all of them are used. -/
theorem C18_all_used (F : FloatOps K) (calls : List (Call W)) (it : SetIter W) (s : Stream W)
    (p H S : K) (rest : List (EvWord W × K))
    (h : (spamprob F (memory W) it s true (after F false calls)).1 =
      .ok (p, some ((.H, H) :: (.S, S) :: rest)))
    (Q : Finset W) (hQ : Q.card ≤ 150)
    (hall : ∀ w ∈ s.items, ∀ q, tokenProb F (after F false calls) w = .ok q →
      F.rnd (1 / 10) ≤ strength F q → w ∈ Q)
    (w : W) (hw : w ∈ s.items) (q : K) (hq : tokenProb F (after F false calls) w = .ok q)
    (hst : F.rnd (1 / 10) ≤ strength F q) : (.word w, q) ∈ rest := by
  obtain ⟨a, b, c, d⟩ := C18_clue_selection F calls it s p H S rest h
  obtain ⟨q', hq', hd⟩ := d w hw
  rw [hq] at hq'
  cases hq'
  rcases hd hst with h1 | ⟨h1, -⟩
  · exact h1
  · by_contra hnot
    -- the words of the evidence list form a subset of Q of size 150, and w is not among them
    have hwnot : EvWord.word w ∉ rest.map (·.1) := by
      intro hmem
      obtain ⟨e, he, hew⟩ := List.mem_map.1 hmem
      obtain ⟨w', hw', hew', hp', -⟩ := c e he
      rw [hew] at hew'
      cases hew'
      rw [hq] at hp'
      cases hp'
      apply hnot
      have : e = (EvWord.word w, e.2) := by rw [← hew]
      rw [← this]; exact he
    have hsub : ((EvWord.word w) :: rest.map (·.1)).toFinset ⊆ Q.map ⟨EvWord.word, fun x y h => by cases h; rfl⟩ := by
      intro x hx
      rw [List.mem_toFinset, List.mem_cons] at hx
      rw [Finset.mem_map]
      rcases hx with rfl | hx
      · exact ⟨w, hall w hw q hq hst, rfl⟩
      · obtain ⟨e, he, rfl⟩ := List.mem_map.1 hx
        obtain ⟨w', hw', hew', hp', hs'⟩ := c e he
        exact ⟨w', hall w' hw' _ hp' hs', hew'.symm⟩
    have hcard := Finset.card_le_card hsub
    rw [Finset.card_map, List.toFinset_card_of_nodup (List.nodup_cons.2 ⟨hwnot, a⟩)] at hcard
    simp only [List.length_cons, List.length_map] at hcard
    omega

/-- **C19.** `evidence=True` and `evidence=False` return the same probability and
raise the same errors. -/
theorem C19_same_probability (F : FloatOps K) (ub : Bool) (calls : List (Call W)) (it : SetIter W)
    (s : Stream W) :
    (spamprob F (memory W) it s false (after F ub calls)).1 =
      (spamprob F (memory W) it s true (after F ub calls)).1.map (fun v => (v.1, none)) := by
  obtain ⟨-, hk, -⟩ := after_ok F ub calls
  rw [spamprob_eq F hk, spamprob_eq F hk]
  unfold pureSpamprob
  cases pureClues F (after F ub calls).nspam (after F ub calls).nham (after F ub calls).useBigrams
      (after F ub calls).store.get? it s with
  | error e => rfl
  | ok clues =>
    simp only [bind, Except.bind]
    cases combine F (clues.map (·.prob)) with
    | error e => rfl
    | ok t => rfl

/-- **C19**, evidence: the list starts with *H* and *S*; the rest is sorted by
probability, lists exactly the clues that `_getclues` selects, with their
probabilities; and with clues the score is (S - H + 1)/2. -/
theorem C19_evidence (F : FloatOps K) (hF : F.Sound) (ub : Bool) (calls : List (Call W))
    (it : SetIter W) (s : Stream W) (p : K) (ev : List (EvWord W × K))
    (h : (spamprob F (memory W) it s true (after F ub calls)).1 = .ok (p, some ev)) :
    ∃ H S rest clues, ev = (.H, H) :: (.S, S) :: rest ∧
      rest.Pairwise (fun a b => a.2 ≤ b.2) ∧
      (getClues F (memory W) it s (after F ub calls)).1 = .ok clues ∧
      rest.Perm (clues.map (fun c => (.word c.word, c.prob))) ∧
      (∀ e ∈ rest, ∃ w, e.1 = .word w ∧ tokenProb F (after F ub calls) w = .ok e.2) ∧
      (rest ≠ [] → p = F.div (F.add (F.sub S H) 1) 2) ∧ (rest = [] → p = 1 / 2) := by
  obtain ⟨hs, hk, hub⟩ := after_ok F ub calls
  have h' := h
  rw [spamprob_eq F hk] at h
  obtain ⟨clues, S, H, h1, h2, h3⟩ := pureSpamprob_ok h
  simp only [if_true, Option.some.injEq] at h3
  unfold evidenceList at h3
  subst h3
  obtain ⟨clues', g1, g2, g3, g4⟩ := evidence_inv F hk h'
  rw [h1] at g1
  cases g1
  have hb : ∀ p ∈ clues.map (·.prob), 0 ≤ p ∧ p ≤ 1 := by
    intro p hp
    obtain ⟨cl, hcl, rfl⟩ := List.mem_map.1 hp
    have h3 := (pureClue_ok (pureClues_mem h1 hcl)).2.1
    cases hw : (after F ub calls).store.get? cl.word with
    | none =>
      rw [hw] at h3
      have h3 := Except.ok.inj h3
      rw [← h3]
      constructor <;> norm_num [unknownWordProb, hF.half]
    | some r =>
      rw [hw] at h3
      obtain ⟨a, b, -⟩ := hs.records _ r hw
      exact freshProbability_bounds hF a b h3
  have hgc : (getClues F (memory W) it s (after F ub calls)).1 = .ok clues := by
    rw [← h1]
    exact (computes_getClues (F := F) (reads_memory _) it s (probesIn_true _ _) _
      ⟨hk, rfl, rfl, rfl, rfl⟩).1
  obtain ⟨-, -, c1, c2⟩ := combine_bounds hF hb h2
  refine ⟨H, S, _, clues, rfl, g4, hgc, g3, ?_, ?_, ?_⟩
  · intro e he
    obtain ⟨cl, hcl, rfl⟩ := List.mem_map.1 (g3.subset he)
    refine ⟨cl.word, rfl, ?_⟩
    rw [tokenProb_eq F hk]
    exact (pureClue_ok (pureClues_mem h1 hcl)).2.1
  · intro hne
    have : clues.map (·.prob) ≠ [] := by
      intro h0
      apply hne
      have hc0 : clues = [] := by simpa using h0
      rw [hc0] at g3 ⊢; exact List.perm_nil.1 g3
    exact (c1 this).2.2.2.2
  · intro h0
    apply c2
    rw [h0] at g3
    have := List.nil_perm.1 g3
    have hc0 : clues = [] := by simpa using this
    rw [hc0]; rfl

/-! ### C20 -/

/-- Where a bigram-mode candidate `w` occurs in the message `ws`: a token at its
position, or a pair at two adjacent positions. -/
def OccursAt (ws : List W) (w : W) (pos : List Nat) : Prop :=
  (∃ i, ws[i]? = some w ∧ pos = [i]) ∨
  (∃ i x y, ws[i]? = some x ∧ ws[i + 1]? = some y ∧ w = BigramFormat.bi x y ∧ pos = [i, i + 1])

/-- **C20.** Bigram mode.  There is a list of tiles (word, probability, positions)
such that: tiles are pairwise disjoint in positions; each is a token or adjacent
pair of the message of strength at least 0.1 with its probability; each token or
pair of that strength that is not a tile overlaps a tile at least as strong; and
the evidence lists tiles, all of them if there are at most 150, and otherwise 150
strongest ones. -/
theorem C20_tiling (F : FloatOps K) (calls : List (Call W)) (it : SetIter W) (s : Stream W)
    (p H S : K) (rest : List (EvWord W × K))
    (h : (spamprob F (memory W) it s true (after F true calls)).1 =
      .ok (p, some ((.H, H) :: (.S, S) :: rest))) :
    ∃ tiles : List (W × K × List Nat),
      tiles.Pairwise (fun a b => List.Disjoint a.2.2 b.2.2) ∧
      (tiles.map (·.1)).Nodup ∧
      (∀ t ∈ tiles, OccursAt s.items t.1 t.2.2 ∧ tokenProb F (after F true calls) t.1 = .ok t.2.1 ∧
        F.rnd (1 / 10) ≤ strength F t.2.1) ∧
      (∀ w pos, OccursAt s.items w pos → ∃ q, tokenProb F (after F true calls) w = .ok q ∧
        (F.rnd (1 / 10) ≤ strength F q → (∃ t ∈ tiles, t.1 = w) ∨
          ∃ pos', OccursAt s.items w pos' ∧ ∃ t ∈ tiles, ¬ List.Disjoint pos' t.2.2 ∧
            strength F q ≤ strength F t.2.1)) ∧
      rest.length = min tiles.length 150 ∧
      (rest.map (·.1)).Nodup ∧
      (∀ e ∈ rest, ∃ t ∈ tiles, e = (.word t.1, t.2.1)) ∧
      (∀ t ∈ tiles, (.word t.1, t.2.1) ∈ rest ∨
        (rest.length = 150 ∧ ∀ e ∈ rest, strength F t.2.1 ≤ strength F e.2)) := by
  obtain ⟨-, hk, hub⟩ := after_ok F true calls
  obtain ⟨clues, h1, -, h3, -⟩ := evidence_inv F hk h
  rw [hub] at h1
  obtain ⟨acc, hcl, a1, a2, a3, a4, a5⟩ := bigram_selection h1
  set lst := (acc.map (·.clue)).reverse with hlst
  obtain ⟨k, hk1, hk2, hk3⟩ := keepStrongest_suffix lst
  have hlen : rest.length = clues.length := by rw [h3.length_eq, List.length_map]
  have hll : lst.length = acc.length := by rw [hlst]; simp
  have hmem : ∀ x, x ∈ rest ↔ ∃ c ∈ clues, (EvWord.word c.word, c.prob) = x := by
    intro x; rw [h3.mem_iff, List.mem_map]
  have hsub : ∀ c ∈ clues, ∃ d ∈ acc, d.clue = c := by
    intro c hc
    rw [hcl, hk1] at hc
    have := (List.drop_sublist _ _).subset hc
    rw [hlst, List.mem_reverse, List.mem_map] at this
    exact this
  have hdist : ∀ d ∈ acc, d.clue.distance = strength F d.clue.prob := by
    intro d hd
    exact (pureClue_ok (a1 d hd).1).2.2
  have hle : ∀ c c' : Clue W K, clueLe c c' = true → c.distance ≤ c'.distance := by
    intro c c' h6
    rw [clueLe_iff] at h6
    rcases h6 with h6 | ⟨h6, -⟩
    · exact h6.le
    · exact h6.le
  refine ⟨acc.map (fun d => (d.clue.word, d.clue.prob, d.indices)), ?_, ?_, ?_, ?_, ?_, ?_, ?_, ?_⟩
  · rw [List.pairwise_map]; exact a3
  · rw [List.map_map]; exact a2
  · intro t ht
    obtain ⟨d, hd, rfl⟩ := List.mem_map.1 ht
    obtain ⟨b1, b2, b3⟩ := a1 d hd
    refine ⟨b3, ?_, ?_⟩
    · rw [tokenProb_eq F hk]; exact (pureClue_ok b1).2.1
    · rw [hdist d hd] at b2; exact b2
  · intro w pos hocc
    have hw : w ∈ s.items ∨ ∃ p ∈ s.items.zip s.items.tail, w = BigramFormat.bi p.1 p.2 := by
      rcases hocc with ⟨i, hi, -⟩ | ⟨i, x, y, hx, hy, rfl, -⟩
      · exact .inl (List.mem_of_getElem? hi)
      · refine .inr ⟨(x, y), ?_, rfl⟩
        refine List.mem_of_getElem? (i := i) ?_
        rw [List.getElem?_zip_eq_some]
        exact ⟨hx, by rw [List.getElem?_tail]; exact hy⟩
    obtain ⟨c, hc, hcc⟩ := a5 w hw
    obtain ⟨c1, c2, c3⟩ := pureClue_ok hc
    refine ⟨c.prob, by rw [tokenProb_eq F hk]; exact c2, fun hst => ?_⟩
    obtain ⟨d, d1, d2, d3⟩ := hcc (by rw [c3]; exact hst)
    rcases d3 with d3 | ⟨i, hi, a, ha, hia, hca⟩
    · left
      exact ⟨_, List.mem_map.2 ⟨d, d3, rfl⟩, by simp only; rw [d1, c1]⟩
    · right
      refine ⟨d.indices, ?_, _, List.mem_map.2 ⟨a, ha, rfl⟩, ?_, ?_⟩
      · have := d2.2.2
        rw [d1, c1] at this
        exact this
      · intro hdj; exact hdj hi hia
      · have := hle _ _ hca
        rw [c3, hdist a ha] at this
        exact this
  · rw [hlen, hcl, hk2, List.length_map, hll]
  · have : (rest.map (·.1)).Perm ((clues.map (·.word)).map EvWord.word) := by
      have := h3.map (·.1)
      rw [List.map_map] at this
      rw [List.map_map]
      exact this
    rw [this.nodup_iff]
    refine List.Nodup.map (fun x y hxy => by cases hxy; rfl) ?_
    rw [hcl, hk1]
    have : (lst.map (·.word)).Nodup := by
      rw [hlst, List.map_reverse, List.nodup_reverse, List.map_map]
      exact a2
    exact this.sublist ((List.drop_sublist _ _).map _)
  · intro e he
    obtain ⟨c, hc, rfl⟩ := (hmem e).1 he
    obtain ⟨d, hd, rfl⟩ := hsub c hc
    exact ⟨_, List.mem_map.2 ⟨d, hd, rfl⟩, rfl⟩
  · intro t ht
    obtain ⟨d, hd, rfl⟩ := List.mem_map.1 ht
    have hdl : d.clue ∈ lst := by rw [hlst, List.mem_reverse, List.mem_map]; exact ⟨d, hd, rfl⟩
    have hdl' := hdl
    rw [← List.take_append_drop k lst, List.mem_append] at hdl'
    rcases hdl' with h5 | h5
    · right
      have hk0 : 0 < k := by
        rcases Nat.eq_zero_or_pos k with h0 | h0
        · rw [h0] at h5; simp at h5
        · exact h0
      refine ⟨by rw [hlen, hcl]; omega, fun e he => ?_⟩
      obtain ⟨c, hc, rfl⟩ := (hmem e).1 he
      obtain ⟨d', hd', rfl⟩ := hsub c hc
      have hpw : lst.Pairwise (fun a b => clueLe a b = true) := by
        rw [hlst, List.pairwise_reverse, List.pairwise_map]; exact a4
      rw [← List.take_append_drop k lst, List.pairwise_append] at hpw
      rw [hcl, hk1] at hc
      have := hle _ _ (hpw.2.2 _ h5 _ hc)
      rw [hdist d hd, hdist d' hd'] at this
      exact this
    · left
      rw [hmem]
      exact ⟨d.clue, by rw [hcl, hk1]; exact h5, rfl⟩

/-- A bigram-mode scoring that returns. -/
example : ∃ v, (spamprob exactReal (memory String) .dedup (.list ["a", "b", "c"]) true
    (after exactReal true [.learn .dedup (.list ["a", "b", "c"]) true])).1 = .ok v :=
  C07_valid_history_scores true _ _ (.learn (.nil _)) _ _ _

end
end Sb.Props
