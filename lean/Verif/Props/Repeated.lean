import Verif.Props.Learning

/-
Property C110: learning everything again.
-/

set_option linter.unusedSectionVars false
namespace Sb.Props
open Sb Py Spec

variable {W : Type} [LinearOrder W] [BigramFormat W]

/-- helper -/
theorem robinson_scale {ns nh s h : ℤ} (k : ℕ) (hk : 1 ≤ k) (hs : 0 ≤ s) (hh : 0 ≤ h) (hs1 : ns = 0 → s = 0)
    (hh1 : nh = 0 → h = 0) :
    (1 / 2 ≤ robinson ns nh s h → robinson ns nh s h ≤ robinson (k * ns) (k * nh) (k * s) (k * h)) ∧
    (robinson ns nh s h ≤ 1 / 2 → robinson (k * ns) (k * nh) (k * s) (k * h) ≤ robinson ns nh s h) := by
  have hk' : (1 : ℝ) ≤ k := by exact_mod_cast hk
  have hk0 : (k : ℝ) ≠ 0 := by linarith
  have hkz : (k : ℤ) ≠ 0 := by omega
  have hs' : (0 : ℝ) ≤ s := by exact_mod_cast hs
  have hh' : (0 : ℝ) ≤ h := by exact_mod_cast hh
  have ratio : ∀ n x : ℤ, (n = 0 → x = 0) →
      (((k : ℤ) * x : ℤ) : ℝ) / ((if (k : ℤ) * n = 0 then 1 else (k : ℤ) * n : ℤ) : ℝ) =
        (x : ℝ) / ((if n = 0 then 1 else n : ℤ) : ℝ) := by
    intro n x hx
    by_cases hn : n = 0
    · subst hn; rw [hx rfl]; simp
    · have : (k : ℤ) * n ≠ 0 := mul_ne_zero hkz hn
      rw [if_neg this, if_neg hn]
      push_cast
      exact mul_div_mul_left _ _ hk0
  unfold robinson
  simp only
  rw [ratio ns s hs1, ratio nh h hh1]
  generalize (s : ℝ) / _ / _ = p
  push_cast
  rw [← mul_add]
  have hn : (0 : ℝ) ≤ h + s := by linarith
  generalize (h : ℝ) + s = n at *
  have h1 : (0 : ℝ) < 0.45 + n := by linarith
  have hkn : n ≤ k * n := by nlinarith
  have h2 : (0 : ℝ) < 0.45 + k * n := by linarith
  have hc : 0 ≤ k * n - n := by linarith
  constructor
  · intro h
    rw [le_div_iff₀ h1] at h
    rw [div_le_div_iff₀ h1 h2]
    have : 0 ≤ n * (p - 1 / 2) := by nlinarith
    have e : 0 ≤ (k - 1) * (n * (p - 1 / 2)) := mul_nonneg (by linarith) this
    nlinarith
  · intro h
    rw [div_le_iff₀ h1] at h
    rw [div_le_div_iff₀ h2 h1]
    have : 0 ≤ n * (1 / 2 - p) := by nlinarith
    have e : 0 ≤ (k - 1) * (n * (1 / 2 - p)) := mul_nonneg (by linarith) this
    nlinarith

/-- helper: the probability of a token in terms of the messages learned -/
theorem tokenProb_ledger (ub : Bool) (calls : List (Call W)) (L : Ledger W) (hv : Valid ub 0 calls L) (w : W) :
    tokenProb exactReal (after exactReal ub calls) w = .ok (if spamCount L w = 0 ∧ hamCount L w = 0 then 1 / 2
      else robinson (spamTotal L) (hamTotal L) (spamCount L w) (hamCount L w)) := by
  obtain ⟨-, hk, -⟩ := after_ok exactReal ub calls
  obtain ⟨h1, h2, h3⟩ := C02_counts_are_ledger exactReal ub calls L hv
  have h3 := h3 w
  change (after exactReal ub calls).store.get? w = _ at h3
  change (after exactReal ub calls).nspam = _ at h1
  change (after exactReal ub calls).nham = _ at h2
  rw [tokenProb_eq _ hk, h1, h2, h3]
  unfold recordOf
  have a := spamCount_le L w
  have b := hamCount_le L w
  split
  · rfl
  · rename_i hne
    refine (freshProbability_exact (r := ⟨spamCount L w, hamCount L w⟩) (by simp) (by simp)
      (by simp only; omega) ?_ ?_).1
    · simp only; split <;> omega
    · simp only; split <;> omega

/-- **C110.** If every message is learned `k` times instead of once, in any order, each
token keeps its side, and its probability moves away from 1/2 or stays. -/
theorem C110_tokens_partial (ub : Bool) (calls calls' : List (Call W)) (L : Ledger W) (k : ℕ) (hk : 1 ≤ k)
    (hv : Valid ub 0 calls L) (hv' : Valid ub 0 calls' (k • L)) (w : W) :
    ∃ p p', tokenProb exactReal (after exactReal ub calls) w = .ok p ∧
      tokenProb exactReal (after exactReal ub calls') w = .ok p' ∧
      (1 / 2 ≤ p → p ≤ p') ∧ (p ≤ 1 / 2 → p' ≤ p) := by
  refine ⟨_, _, tokenProb_ledger ub calls L hv w, tokenProb_ledger ub calls' (k • L) hv' w, ?_⟩
  have a := spamCount_le L w
  have b := hamCount_le L w
  have e1 : spamTotal (k • L) = k * spamTotal L := Multiset.countP_nsmul ..
  have e2 : hamTotal (k • L) = k * hamTotal L := Multiset.countP_nsmul ..
  have e3 : spamCount (k • L) w = k * spamCount L w := Multiset.countP_nsmul ..
  have e4 : hamCount (k • L) w = k * hamCount L w := Multiset.countP_nsmul ..
  rw [e1, e2, e3, e4]
  have hz : (k * spamCount L w = 0 ∧ k * hamCount L w = 0) ↔ (spamCount L w = 0 ∧ hamCount L w = 0) := by
    simp; omega
  simp only [hz]
  split
  · exact ⟨fun _ => le_rfl, fun _ => le_rfl⟩
  · have := robinson_scale (ns := spamTotal L) (nh := hamTotal L) (s := spamCount L w) (h := hamCount L w) k hk
      (by simp) (by simp) (by omega) (by omega)
    push_cast at this ⊢
    exact this

/-- **C110.** So a clue stays a clue. -/
theorem C110_clues_partial (ub : Bool) (calls calls' : List (Call W)) (L : Ledger W) (k : ℕ) (hk : 1 ≤ k)
    (hv : Valid ub 0 calls L) (hv' : Valid ub 0 calls' (k • L)) (w : W)
    (h : Strong (after exactReal ub calls) w) : Strong (after exactReal ub calls') w := by
  obtain ⟨p, p', h1, h2, h3, h4⟩ := C110_tokens_partial ub calls calls' L k hk hv hv' w
  unfold Strong probOf at h ⊢
  rw [h1] at h
  rw [h2]
  simp only at h ⊢
  refine h.trans ?_
  rcases le_total (1 / 2) p with hp | hp
  · have := h3 hp
    rw [abs_of_nonneg (by linarith), abs_of_nonneg (by linarith)]
    linarith
  · have := h4 hp
    rw [abs_of_nonpos (by linarith), abs_of_nonpos (by linarith)]
    linarith

/-- The claim: learning every message `k` times instead of once leaves each message on its
side. -/
def C110Claim : Prop :=
  ∀ (calls calls' : List (Call String)) (L : Ledger String) (k : ℕ), 1 ≤ k → Valid false 0 calls L →
    Valid false 0 calls' (k • L) → ∀ (it it' : SetIter String) (s : Stream String) (p p' : ℝ)
    (o o' : Option (List (EvWord String × ℝ))),
    (spamprob exactReal (memory String) it s false (after exactReal false calls)).1 = .ok (p, o) →
    (spamprob exactReal (memory String) it' s false (after exactReal false calls')).1 = .ok (p', o') →
    1 / 2 < p → 1 / 2 < p'

/-- helper: the clues of a score -/
theorem score_clues (calls : List (Call W)) (it : SetIter W) (s : Stream W) (ev : Bool) (p : ℝ)
    (o : Option (List (EvWord W × ℝ)))
    (h : (spamprob exactReal (memory W) it s ev (after exactReal false calls)).1 = .ok (p, o)) :
    ∃ ps : List ℝ, p = indicator ps ∧ (∀ q ∈ ps, 0 < q ∧ q < 1) ∧
      (∀ q ∈ ps, ∃ w ∈ s.items, q = probOf (after exactReal false calls) w ∧ Strong (after exactReal false calls) w) ∧
      ((∃ w ∈ s.items, Strong (after exactReal false calls) w) → ps ≠ []) := by
  obtain ⟨hs, hk, hub⟩ := after_ok exactReal false calls
  have htp := tokenProb_eq exactReal hk
  generalize after exactReal false calls = c at *
  rw [spamprob_eq _ hk] at h
  obtain ⟨clues, S, H, h1, h2, -⟩ := pureSpamprob_ok h
  have hin := clues_exact_strict hs h1
  rw [combine_exact _ hin] at h2
  rw [hub] at h1
  obtain ⟨-, -, -, a4, a5⟩ := unigram_selection (it.nodup _) h1
  have hval : ∀ w t, pureClue exactReal c.nspam c.nham c.store.get? w = .ok t →
      t.prob = probOf c w ∧ t.distance = |probOf c w - 1 / 2| := by
    intro w t ht
    obtain ⟨-, t2, t3⟩ := pureClue_ok ht
    have e : tokenProb exactReal c w = .ok t.prob := by rw [htp]; exact t2
    have e2 : probOf c w = t.prob := by unfold probOf; rw [e]
    rw [e2]
    exact ⟨rfl, t3⟩
  refine ⟨clues.map (·.prob), (congrArg Prod.fst (Except.ok.inj h2)).symm, hin, ?_, ?_⟩
  · intro q hq
    obtain ⟨t, ht, rfl⟩ := List.mem_map.1 hq
    obtain ⟨b1, b2, b3⟩ := a4 t ht
    obtain ⟨v1, v2⟩ := hval _ _ b2
    refine ⟨t.word, (it.mem _ _).1 b1, v1, ?_⟩
    unfold Strong
    rw [← v2]
    exact b3
  · rintro ⟨w, hw, hst⟩ hnil
    obtain ⟨t, ht, hin⟩ := a5 w ((it.mem _ _).2 hw)
    have hd : minimumProbStrength exactReal ≤ t.distance := by
      rw [(hval _ _ ht).2]; exact hst
    have hnil' : clues = [] := List.map_eq_nil_iff.1 hnil
    rw [hnil'] at hin
    rcases hin hd with h | ⟨h, -⟩
    · cases h
    · simp at h

/-- **C110** for a message whose tokens are all on one side, one of them strong enough to be
a clue: it stays on its side. -/
theorem C110_one_sided_partial (calls calls' : List (Call W)) (L : Ledger W) (k : ℕ) (hk : 1 ≤ k)
    (hv : Valid false 0 calls L) (hv' : Valid false 0 calls' (k • L)) (it : SetIter W) (s : Stream W) (ev : Bool)
    (p : ℝ) (o : Option (List (EvWord W × ℝ)))
    (h : (spamprob exactReal (memory W) it s ev (after exactReal false calls')).1 = .ok (p, o))
    (hst : ∃ w ∈ s.items, Strong (after exactReal false calls) w) :
    ((∀ w ∈ s.items, 1 / 2 ≤ probOf (after exactReal false calls) w) → 1 / 2 < p) ∧
    ((∀ w ∈ s.items, probOf (after exactReal false calls) w ≤ 1 / 2) → p < 1 / 2) := by
  obtain ⟨ps, rfl, h1, h2, h3⟩ := score_clues calls' it s ev p o h
  have hne := h3 (by
    obtain ⟨w, hw, hs⟩ := hst
    exact ⟨w, hw, C110_clues_partial false calls calls' L k hk hv hv' w hs⟩)
  obtain ⟨s1, s2⟩ := indicator_side_odds ps h1
  have hprob : ∀ w, (1 / 2 ≤ probOf (after exactReal false calls) w → 1 / 2 ≤ probOf (after exactReal false calls') w) ∧
      (probOf (after exactReal false calls) w ≤ 1 / 2 → probOf (after exactReal false calls') w ≤ 1 / 2) := by
    intro w
    obtain ⟨q, q', e1, e2, e3, e4⟩ := C110_tokens_partial false calls calls' L k hk hv hv' w
    have f1 : probOf (after exactReal false calls) w = q := by unfold probOf; rw [e1]
    have f2 : probOf (after exactReal false calls') w = q' := by unfold probOf; rw [e2]
    rw [f1, f2]
    exact ⟨fun h => h.trans (e3 h), fun h => (e4 h).trans h⟩
  constructor
  · intro hall
    rw [s1]
    refine List.sum_pos _ ?_ (by simpa using hne)
    intro x hx
    obtain ⟨q, hq, rfl⟩ := List.mem_map.1 hx
    obtain ⟨w, hw, rfl, hs⟩ := h2 q hq
    have := (hprob w).1 (hall w hw)
    unfold Strong at hs
    rw [abs_of_nonneg (by linarith)] at hs
    have hq1 := (h1 _ hq).2
    have l1 := Real.log_lt_log (show (0 : ℝ) < 1 - probOf (after exactReal false calls') w by linarith)
      (show 1 - probOf (after exactReal false calls') w < probOf (after exactReal false calls') w by linarith)
    unfold odds
    linarith
  · intro hall
    rw [s2]
    have hneg : 0 < (ps.map (fun q => - odds q)).sum := by
      refine List.sum_pos _ ?_ (by simpa using hne)
      intro x hx
      obtain ⟨q, hq, rfl⟩ := List.mem_map.1 hx
      obtain ⟨w, hw, rfl, hs⟩ := h2 q hq
      have := (hprob w).2 (hall w hw)
      unfold Strong at hs
      rw [abs_of_nonpos (by linarith)] at hs
      have hq1 := (h1 _ hq).1
      have l1 := Real.log_lt_log hq1
        (show probOf (after exactReal false calls') w < 1 - probOf (after exactReal false calls') w by linarith)
      unfold odds
      linarith
    have e : (ps.map (fun q => - odds q)).sum = - (ps.map odds).sum := by
      clear hneg hne h1 h2 h3 s1 s2 h
      induction ps with
      | nil => simp
      | cons x r ih => simp only [List.map_cons, List.sum_cons, ih]; ring
    linarith

/-- Nine of ten spam messages and one of ten ham messages have "pills", another ham message
has "lunch". -/
def tenAndTen : List (List String × Bool) :=
  (["pills"], false) :: (["lunch"], false) :: (["other"], true) ::
    (List.replicate 8 (["other"], false) ++ List.replicate 9 (["pills"], true))

/-- helper -/
theorem pair_score (l : List (List String × Bool)) (a b : ℝ) (ha : 3 / 5 ≤ a) (hb : b ≤ 2 / 5)
    (p1 : probOf (after exactReal false (l.map (fun x => Call.learn .dedup (.list x.1) x.2))) "pills" = a)
    (p2 : probOf (after exactReal false (l.map (fun x => Call.learn .dedup (.list x.1) x.2))) "lunch" = b) :
    ∃ p o, (spamprob exactReal (memory String) .dedup (.list ["pills", "lunch"]) false
      (after exactReal false (l.map (fun x => Call.learn .dedup (.list x.1) x.2)))).1 = .ok (p, o) ∧
      p = indicator [a, b] := by
  classical
  obtain ⟨L, hv⟩ := valid_learns l 0
  obtain ⟨⟨p', o'⟩, h'⟩ := C07_valid_history_scores false _ L hv .dedup (.list ["pills", "lunch"]) false
  refine ⟨p', o', h', ?_⟩
  obtain ⟨-, a2⟩ := unigram_score _ _ _ _ _ _ h'
  generalize after (W := String) exactReal false _ = c at *
  have ho : SetIter.dedup.order (Stream.items (.list ["pills", "lunch"])) = ["pills", "lunch"] := by decide
  have hf : (SetIter.dedup.order (Stream.items (.list ["pills", "lunch"]))).filter (fun w => decide (Strong c w)) =
      ["pills", "lunch"] := by
    rw [ho, List.filter_cons, if_pos (by
      rw [decide_eq_true_eq]; unfold Strong; rw [p1, le_abs]; left; linarith), List.filter_cons, if_pos (by
      rw [decide_eq_true_eq]; unfold Strong; rw [p2, le_abs]; right; linarith)]
    rfl
  rw [hf] at a2
  have hp := a2 (by simp)
  rw [List.map_cons, List.map_cons, List.map_nil, p1, p2] at hp
  exact hp

/-- helper: learning a list of messages -/
theorem valid_list (l : List (List String × Bool)) : ∀ L0 : Ledger String,
    Valid false L0 (l.map (fun x => Call.learn .dedup (.list x.1) x.2))
      (((l.map (fun x => (x.1.toFinset, x.2)) : List (Msg String)) : Ledger String) + L0) := by
  induction l with
  | nil => intro L0; simpa using Valid.nil L0
  | cons x r ih =>
    intro L0
    have := ih (msgOf false (.list x.1) x.2 ::ₘ L0)
    refine .learn ?_
    convert this using 1
    rw [List.map_cons, ← Multiset.cons_coe, Multiset.cons_add, Multiset.add_cons]
    rfl

/-- helper -/
theorem probOf_ledger (calls : List (Call String)) (L : Ledger String) (hv : Valid false 0 calls L) (w : String)
    (S H s h : ℕ) (hS : spamTotal L = S) (hH : hamTotal L = H) (hs : spamCount L w = s) (hh : hamCount L w = h)
    (hne : ¬ (s = 0 ∧ h = 0)) : probOf (after exactReal false calls) w = robinson S H s h := by
  unfold probOf
  rw [tokenProb_ledger false calls L hv w, hS, hH, hs, hh, if_neg hne]

/-- helper -/
theorem tenAndTen_counts :
    let L : Ledger String := ((tenAndTen.map (fun x => (x.1.toFinset, x.2)) : List (Msg String)) : Ledger String) + 0
    spamTotal L = 10 ∧ hamTotal L = 10 ∧ spamCount L "pills" = 9 ∧ hamCount L "pills" = 1 ∧
    spamCount L "lunch" = 0 ∧ hamCount L "lunch" = 1 := by decide

/-- **C110 is false**: learning everything twice turns a message from spam to ham. -/
theorem C110_claim_false : ¬ C110Claim := by
  intro hc
  obtain ⟨c1, c2, c3, c4, c5, c6⟩ := tenAndTen_counts
  have v1 := valid_list tenAndTen 0
  have v2 := valid_list (tenAndTen ++ tenAndTen) 0
  have e : (((tenAndTen ++ tenAndTen).map (fun x => (x.1.toFinset, x.2)) : List (Msg String)) : Ledger String) + 0 =
      2 • (((tenAndTen.map (fun x => (x.1.toFinset, x.2)) : List (Msg String)) : Ledger String) + 0) := by
    simp only [add_zero, List.map_append, two_nsmul]
    rfl
  rw [e] at v2
  have d1 : ∀ (q : Msg String → Prop) [DecidablePred q] (L : Ledger String) (n : ℕ), L.countP q = n →
      (2 • L).countP q = 2 * n := by
    intro q _ L n h
    rw [Multiset.countP_nsmul, h]
  have e1 := probOf_ledger _ _ v1 "pills" 10 10 9 1 c1 c2 c3 c4 (by decide)
  have e2 := probOf_ledger _ _ v1 "lunch" 10 10 0 1 c1 c2 c5 c6 (by decide)
  have e3 := probOf_ledger _ _ v2 "pills" 20 20 18 2 (d1 _ _ _ c1) (d1 _ _ _ c2) (d1 _ _ _ c3) (d1 _ _ _ c4) (by decide)
  have e4 := probOf_ledger _ _ v2 "lunch" 20 20 0 2 (d1 _ _ _ c1) (d1 _ _ _ c2) (d1 _ _ _ c5) (d1 _ _ _ c6) (by decide)
  have w1 : robinson (10 : ℕ) (10 : ℕ) (9 : ℕ) (1 : ℕ) = 369 / 418 := by norm_num [robinson]
  have w2 : robinson (10 : ℕ) (10 : ℕ) (0 : ℕ) (1 : ℕ) = 9 / 58 := by norm_num [robinson]
  have w3 : robinson (20 : ℕ) (20 : ℕ) (18 : ℕ) (2 : ℕ) = 729 / 818 := by norm_num [robinson]
  have w4 : robinson (20 : ℕ) (20 : ℕ) (0 : ℕ) (2 : ℕ) = 9 / 98 := by norm_num [robinson]
  rw [w1] at e1
  rw [w2] at e2
  rw [w3] at e3
  rw [w4] at e4
  obtain ⟨p, o, h, hp⟩ := pair_score tenAndTen _ _ (by norm_num) (by norm_num) e1 e2
  obtain ⟨p', o', h', hp'⟩ := pair_score (tenAndTen ++ tenAndTen) _ _ (by norm_num) (by norm_num) e3 e4
  have s1 := (indicator_side [369 / 418, 9 / 58] (by
    intro q hq; simp only [List.mem_cons, List.not_mem_nil, or_false] at hq
    rcases hq with rfl | rfl <;> norm_num)).1
  have s2 := (indicator_side [729 / 818, 9 / 98] (by
    intro q hq; simp only [List.mem_cons, List.not_mem_nil, or_false] at hq
    rcases hq with rfl | rfl <;> norm_num)).2
  have hlow : p' < 1 / 2 := by rw [hp']; exact s2.2 (by norm_num)
  have hhigh : 1 / 2 < p := by rw [hp]; exact s1.2 (by norm_num)
  have := hc _ _ _ 2 (by norm_num) v1 v2 .dedup .dedup _ p p' o o' h h' hhigh
  linarith

/-- One spam and one ham message, and both learned twice: "pills" goes from 0.84 to 0.91. -/
example :
    let spam : Call String := .learn .dedup (.list ["pills"]) true
    let ham : Call String := .learn .dedup (.list ["lunch"]) false
    let L : Ledger String := {msgOf false (.list ["lunch"]) false, msgOf false (.list ["pills"]) true}
    Valid false 0 [spam, ham] L ∧ Valid false 0 [spam, spam, ham, ham] (2 • L) ∧
    tokenProb exactReal (after exactReal false [spam, ham]) "pills" = .ok (49 / 58) ∧
    tokenProb exactReal (after exactReal false [spam, spam, ham, ham]) "pills" = .ok (89 / 98) := by
  intro spam ham L
  have h1 : Valid false 0 [spam, ham] L := .learn (.learn (.nil _))
  have h2 : Valid false 0 [spam, spam, ham, ham] (2 • L) := by
    refine .learn (.learn (.learn (.learn ?_)))
    have : 2 • L = msgOf false (.list ["lunch"]) false ::ₘ msgOf false (.list ["lunch"]) false ::ₘ
        msgOf false (.list ["pills"]) true ::ₘ msgOf false (.list ["pills"]) true ::ₘ 0 := by decide
    rw [this]
    exact .nil _
  refine ⟨h1, h2, ?_, ?_⟩
  · rw [tokenProb_ledger _ _ _ h1]
    have a : spamCount L "pills" = 1 := by decide
    have b : hamCount L "pills" = 0 := by decide
    have c : spamTotal L = 1 := by decide
    have d : hamTotal L = 1 := by decide
    rw [a, b, c, d]
    norm_num [robinson]
  · rw [tokenProb_ledger _ _ _ h2]
    have a : spamCount (2 • L) "pills" = 2 := by decide
    have b : hamCount (2 • L) "pills" = 0 := by decide
    have c : spamTotal (2 • L) = 2 := by decide
    have d : hamTotal (2 • L) = 2 := by decide
    rw [a, b, c, d]
    norm_num [robinson]

end Sb.Props
