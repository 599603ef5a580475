import Verif.Props.Scoring

/-
Property C17: exchanging the roles of spam and ham.  Without a bound on the number
of clue tokens it is false (truncation prefers spam clues among equally strong ones).
-/

set_option linter.unusedSectionVars false

namespace Sb.Props
open Sb Py Spec

/-- The same call with spam and ham exchanged. -/
def mirrorCall {W : Type} : Call W → Call W
  | .learn it s b => .learn it s (!b)
  | .unlearn it s b => .unlearn it s (!b)
  | .spamprob it s ev => .spamprob it s ev
  | .probability r => .probability ⟨r.hamcount, r.spamcount⟩

/-- C17 without the bound of 150 clue tokens, for tokens of type `W`. -/
def C17_Unrestricted (W : Type) [LinearOrder W] [BigramFormat W] : Prop :=
  ∀ (calls : List (Call W)) (it : SetIter W) (s : Stream W) (p : ℝ)
    (e : Option (List (EvWord W × ℝ))) (ev : Bool),
    (spamprob exactReal (memory W) it s ev (after exactReal false calls)).1 = .ok (p, e) →
    ∃ e', (spamprob exactReal (memory W) it s ev (after exactReal false (calls.map mirrorCall))).1 =
      .ok (1 - p, e')

section
variable {W : Type} [LinearOrder W] [BigramFormat W]

/-- helper: two databases with exchanged counts -/
structure Mirrored {K : Type} (c c' : Clf (Dict W WordInfo) K) : Prop where
  nspam : c'.nspam = c.nham
  nham : c'.nham = c.nspam
  info : ∀ w, c'.store.get? w = (c.store.get? w).map (fun r => ⟨r.hamcount, r.spamcount⟩)

theorem bump_mirror (b : Bool) (o : Option WordInfo) :
    bump (!b) (o.map (fun r => ⟨r.hamcount, r.spamcount⟩)) =
      ⟨(bump b o).hamcount, (bump b o).spamcount⟩ := by
  cases b <;> cases o <;> rfl

theorem drop1_mirror (b : Bool) (o : Option WordInfo) :
    drop1 (!b) (o.map (fun r => ⟨r.hamcount, r.spamcount⟩)) =
      (drop1 b o).map (fun r => ⟨r.hamcount, r.spamcount⟩) := by
  cases o with
  | none => rfl
  | some r =>
    have : dec1 (!b) ⟨r.hamcount, r.spamcount⟩ = ⟨(dec1 b r).hamcount, (dec1 b r).spamcount⟩ := by
      cases b
      · by_cases h : r.hamcount > 0 <;> simp [dec1, h]
      · by_cases h : r.spamcount > 0 <;> simp [dec1, h]
    simp only [drop1, Option.map_some, this]
    by_cases h : (dec1 b r).hamcount = 0 ∧ (dec1 b r).spamcount = 0
    · rw [if_pos h, if_pos h.symm]; rfl
    · rw [if_neg h, if_neg (fun h' => h h'.symm)]; rfl

/-- helper: stores and totals after a call do not depend on the cache -/
theorem runCall_mirror {K : Type} [Field K] [LinearOrder K] [IsStrictOrderedRing K] (F : FloatOps K)
    {ub : Bool} (c c' : Clf (Dict W WordInfo) K) (hk : Coherent F c) (hk' : Coherent F c')
    (hub : c.useBigrams = some ub) (hub' : c'.useBigrams = some ub) (hm : Mirrored c c')
    (call : Call W) :
    Mirrored (runCall F (memory W) c call).2 (runCall F (memory W) c' (mirrorCall call)).2 := by
  cases call with
  | learn it s b =>
    simp only [runCall, mirrorCall, learn_memory _ _ _ _ hub, learn_memory _ _ _ _ hub']
    refine ⟨?_, ?_, ?_⟩
    · cases b <;> simp [afterAdd, hm.nspam]
    · cases b <;> simp [afterAdd, hm.nham]
    · intro w
      simp only [afterAdd, get?_addAll, hm.info w, bump_mirror]
      split <;> rfl
  | unlearn it s b =>
    simp only [runCall, mirrorCall, unlearn_memory _ _ _ _ hub, unlearn_memory _ _ _ _ hub']
    have ht : total (!b) c' = total b c := by
      cases b <;> simp [total, hm.nspam, hm.nham]
    rw [ht]
    split
    · exact ⟨hm.nspam, hm.nham, hm.info⟩
    · refine ⟨?_, ?_, ?_⟩
      · cases b <;> simp [afterRemove, hm.nspam]
      · cases b <;> simp [afterRemove, hm.nham]
      · intro w
        simp only [afterRemove, get?_removeAll, hm.info w, drop1_mirror]
        split <;> rfl
  | spamprob it s ev =>
    obtain ⟨-, -, h3, h4, h5, -⟩ := spamprob_memory (F := F) c hk it s ev
    obtain ⟨-, -, h3', h4', h5', -⟩ := spamprob_memory (F := F) c' hk' it s ev
    simp only [runCall, mirrorCall]
    exact ⟨by rw [h4', h5, hm.nspam], by rw [h5', h4, hm.nham], by rw [h3, h3']; exact hm.info⟩
  | probability r =>
    obtain ⟨-, h2⟩ := computes_probability (F := F) (Inv := fun d => d = c.store)
      (ub := c.useBigrams) (nspam := c.nspam) (nham := c.nham) r c ⟨hk, rfl, rfl, rfl, rfl⟩
    obtain ⟨-, h2'⟩ := computes_probability (F := F) (Inv := fun d => d = c'.store)
      (ub := c'.useBigrams) (nspam := c'.nspam) (nham := c'.nham) ⟨r.hamcount, r.spamcount⟩ c'
      ⟨hk', rfl, rfl, rfl, rfl⟩
    simp only [runCall, mirrorCall]
    exact ⟨by rw [h2'.nspam, h2.nham, hm.nspam], by rw [h2'.nham, h2.nspam, hm.nham],
      by rw [h2.inv, h2'.inv]; exact hm.info⟩

theorem after_mirror {K : Type} [Field K] [LinearOrder K] [IsStrictOrderedRing K] (F : FloatOps K)
    (ub : Bool) (calls : List (Call W)) :
    Mirrored (after F ub calls) (after F ub (calls.map mirrorCall)) := by
  have key : ∀ (calls : List (Call W)) (c c' : Clf (Dict W WordInfo) K), Sane c → Sane c' →
      Coherent F c → Coherent F c' → c.useBigrams = some ub → c'.useBigrams = some ub →
      Mirrored c c' → Mirrored (exec F (memory W) c calls).2
        (exec F (memory W) c' (calls.map mirrorCall)).2 := by
    intro calls
    induction calls with
    | nil => intro c c' _ _ _ _ _ _ h; exact h
    | cons call rest ih =>
      intro c c' s s' k k' u u' h
      obtain ⟨a1, a2, a3⟩ := sane_runCall F c s k u call
      obtain ⟨b1, b2, b3⟩ := sane_runCall F c' s' k' u' (mirrorCall call)
      exact ih _ _ a1 b1 a2 b2 a3 b3 (runCall_mirror F c c' k k' u u' h call)
  exact key calls _ _ (sane_new ub) (sane_new ub) (coherent_of_empty F _ rfl)
    (coherent_of_empty F _ rfl) rfl rfl ⟨rfl, rfl, fun _ => rfl⟩

/-- helper -/
theorem robinson_mirror {ns nh s h : ℤ} (hns : 0 ≤ ns) (hnh : 0 ≤ nh) (hs : 0 ≤ s) (hh : 0 ≤ h)
    (hnz : s ≠ 0 ∨ h ≠ 0) : robinson nh ns h s = 1 - robinson ns nh s h := by
  unfold robinson
  have p1 : (0 : ℝ) < ((if ns = 0 then 1 else ns : ℤ) : ℝ) := by
    have : 0 < (if ns = 0 then 1 else ns : ℤ) := by split <;> omega
    exact_mod_cast this
  have p2 : (0 : ℝ) < ((if nh = 0 then 1 else nh : ℤ) : ℝ) := by
    have : 0 < (if nh = 0 then 1 else nh : ℤ) := by split <;> omega
    exact_mod_cast this
  have hs' : (0 : ℝ) ≤ s := by exact_mod_cast hs
  have hh' : (0 : ℝ) ≤ h := by exact_mod_cast hh
  have hpos : (0 : ℝ) < (h : ℝ) / ((if nh = 0 then 1 else nh : ℤ) : ℝ) +
      (s : ℝ) / ((if ns = 0 then 1 else ns : ℤ) : ℝ) := by
    rcases hnz with h0 | h0
    · have : (0 : ℝ) < s := by
        have : 0 < s := by omega
        exact_mod_cast this
      have := div_pos this p1
      have := div_nonneg hh' p2.le
      linarith
    · have : (0 : ℝ) < h := by
        have : 0 < h := by omega
        exact_mod_cast this
      have := div_pos this p2
      have := div_nonneg hs' p1.le
      linarith
  simp only
  set a := (h : ℝ) / ((if nh = 0 then 1 else nh : ℤ) : ℝ)
  set b := (s : ℝ) / ((if ns = 0 then 1 else ns : ℤ) : ℝ)
  have hd : (0.45 : ℝ) + (h + s) ≠ 0 := by
    have : (0 : ℝ) < 0.45 + (h + s) := by norm_num; linarith
    exact this.ne'
  have hba : b + a ≠ 0 := by rw [add_comm]; exact hpos.ne'
  have hab := hpos.ne'
  have h1 : a / (b + a) = 1 - b / (a + b) := by
    rw [add_comm b a]; field_simp; ring
  rw [h1, add_comm (s : ℝ) h, eq_sub_iff_add_eq, ← add_div, div_eq_one_iff_eq hd]
  ring

/-- helper -/
theorem pureProb_mirror {c c' : Clf (Dict W WordInfo) ℝ} (hs : Sane c) (hm : Mirrored c c') {w : W}
    {q : ℝ} (h : pureProb exactReal c.nspam c.nham (c.store.get? w) = .ok q) :
    pureProb exactReal c'.nspam c'.nham (c'.store.get? w) = .ok (1 - q) := by
  rw [hm.nspam, hm.nham, hm.info w]
  cases hw : c.store.get? w with
  | none =>
    rw [hw] at h
    cases h
    simp only [Option.map_none, pureProb, unknownWordProb, exactReal, id]
    norm_num
  | some r =>
    rw [hw] at h
    obtain ⟨a, b, d⟩ := hs.records w r hw
    have h : freshProbability exactReal c.nspam c.nham r = .ok q := h
    obtain ⟨e1, e2, rfl, -⟩ := freshProbability_exact_ok a b d h
    obtain ⟨k1, -⟩ := freshProbability_exact (ns := c.nham) (nh := c.nspam)
      (r := ⟨r.hamcount, r.spamcount⟩) b a d.symm e2 e1
    simp only [Option.map_some]
    change freshProbability exactReal _ _ _ = _
    rw [k1, robinson_mirror hs.nspam hs.nham a b d]

/-- **C17.** In exact arithmetic and unigram mode, if at most 150
tokens of the message have strength at least 0.1, a classifier trained with spam
and ham exchanged returns 1 - p. -/
theorem C17_mirror (calls : List (Call W)) (it : SetIter W) (s : Stream W) (ev : Bool) (p : ℝ)
    (e : Option (List (EvWord W × ℝ)))
    (h : (spamprob exactReal (memory W) it s ev (after exactReal false calls)).1 = .ok (p, e))
    (Q : Finset W) (hQ : Q.card ≤ 150)
    (hall : ∀ w ∈ s.items, ∀ q, tokenProb exactReal (after exactReal false calls) w = .ok q →
      1 / 10 ≤ |q - 1 / 2| → w ∈ Q) :
    ∃ e', (spamprob exactReal (memory W) it s ev
        (after exactReal false (calls.map mirrorCall))).1 = .ok (1 - p, e') := by
  obtain ⟨hs, hk, hub⟩ := after_ok exactReal false calls
  obtain ⟨hs', hk', hub'⟩ := after_ok exactReal false (calls.map mirrorCall)
  have hm := after_mirror exactReal false calls
  generalize hc : after exactReal false calls = c at *
  generalize hc' : after exactReal false (calls.map mirrorCall) = c' at *
  rw [spamprob_eq _ hk] at h
  rw [spamprob_eq _ hk', hub']
  obtain ⟨clues, S, H, h1, h2, -⟩ := pureSpamprob_ok h
  have h1s := h1
  rw [hub] at h1
  obtain ⟨all, hf, hnd, hcl⟩ := unigram_ok (it.nodup _) h1
  let flip : Clue W ℝ → Clue W ℝ := fun t =>
    ⟨t.distance, 1 - t.prob, t.word, t.record.map (fun r => ⟨r.hamcount, r.spamcount⟩)⟩
  have hf' : List.Forall₂ (fun x y => pureClue exactReal c'.nspam c'.nham c'.store.get? x = .ok y)
      (it.order s.items) (all.map flip) := by
    rw [List.forall₂_map_right_iff]
    refine hf.imp (fun w t ht => ?_)
    obtain ⟨t1, t2, t3⟩ := pureClue_ok ht
    have e1 := pureClue_of_prob t2
    rw [ht] at e1
    have e1 := Except.ok.inj e1
    rw [pureClue_of_prob (pureProb_mirror hs hm t2)]
    congr 1
    rw [e1]
    simp only [flip, hm.info w, Clue.mk.injEq, and_true]
    simp only [FloatOps.sub, exactReal, id]
    rw [← abs_neg]
    congr 1
    ring
  have hfilt : (all.filter (fun t => decide (t.distance ≥ minimumProbStrength exactReal))).length ≤ 150 := by
    set fl := all.filter (fun t => decide (t.distance ≥ minimumProbStrength exactReal)) with hfl
    have hnd' : (fl.map (·.word)).Nodup := hnd.sublist (List.filter_sublist.map _)
    have hsub : (fl.map (·.word)).toFinset ⊆ Q := by
      intro w hw
      rw [List.mem_toFinset, List.mem_map] at hw
      obtain ⟨t, ht, rfl⟩ := hw
      rw [hfl, List.mem_filter, decide_eq_true_eq] at ht
      obtain ⟨w, hw, htw⟩ := forall2_mem_right hf ht.1
      obtain ⟨t1, t2, t3⟩ := pureClue_ok htw
      rw [t1]
      refine hall w ((it.mem _ _).1 hw) t.prob ?_ ?_
      · rw [tokenProb_eq _ hk]; exact t2
      · have := ht.2
        rw [t3] at this
        exact this
    have := Finset.card_le_card hsub
    rw [List.toFinset_card_of_nodup hnd', List.length_map] at this
    omega
  have hkeep : ∀ l : List (Clue W ℝ), l.length ≤ 150 → keepStrongest l = l := by
    intro l hl
    unfold keepStrongest maxDiscriminators
    rw [if_neg (by omega)]
  have hfm : (all.map flip).filter (fun t => decide (t.distance ≥ minimumProbStrength exactReal)) =
      (all.filter (fun t => decide (t.distance ≥ minimumProbStrength exactReal))).map flip := by
    rw [List.filter_map]; rfl
  have h1' : pureClues exactReal c'.nspam c'.nham (some false) c'.store.get? it s =
      .ok (((all.filter (fun t => decide (t.distance ≥ minimumProbStrength exactReal))).map flip).mergeSort
        clueLe) := by
    simp only [pureClues, pureCluesUnigram, (mapM_ok_iff _ _ _).2 hf']
    change Except.ok (keepStrongest _) = _
    rw [hfm, hkeep]
    rw [List.length_mergeSort, List.length_map]
    exact hfilt
  rw [hkeep _ (by rw [List.length_mergeSort]; exact hfilt)] at hcl
  rw [combine_exact _ (clues_exact_strict hs h1s)] at h2
  simp only [Except.ok.injEq, Prod.mk.injEq] at h2
  obtain ⟨rfl, -, -⟩ := h2
  have hstrict' := clues_exact_strict (c := c') hs' h1'
  have hperm : ((((all.filter (fun t => decide (t.distance ≥ minimumProbStrength exactReal))).map
      flip).mergeSort clueLe).map (·.prob)).Perm ((clues.map (·.prob)).map (1 - ·)) := by
    refine ((List.mergeSort_perm _ _).map _).trans ?_
    rw [List.map_map, List.map_map, hcl]
    have := ((List.mergeSort_perm (all.filter
      (fun t => decide (t.distance ≥ minimumProbStrength exactReal))) clueLe).symm.map
        (fun t => 1 - t.prob))
    exact this
  have hcomb := combine_exact _ hstrict'
  rw [indicator_perm hperm, indicator_mirror] at hcomb
  exact ⟨_, pureSpamprob_of h1' hcomb⟩

/-- A message with one qualifying token. -/
example : ∃ v, (spamprob exactReal (memory String) .dedup (.list ["pills"]) true
    (after exactReal false [.learn .dedup (.list ["pills"]) true])).1 = .ok v ∧
    ∃ Q : Finset String, Q.card ≤ 150 ∧ ∀ w ∈ (Stream.list ["pills"]).items, w ∈ Q := by
  obtain ⟨v, hv⟩ := C07_valid_history_scores (W := String) false _ _
    (.learn (it := .dedup) (s := .list ["pills"]) (b := true) (.nil _)) .dedup (.list ["pills"]) true
  exact ⟨v, hv, {"pills"}, by simp, by simp [Stream.items]⟩

end

section
variable {W : Type} [LinearOrder W] [BigramFormat W] [Infinite W]

/-- Tokens 0..149. -/
noncomputable def groupA (W : Type) [Infinite W] : List W := (List.range 150).map (Infinite.natEmbedding W)
/-- Tokens 150..299. -/
noncomputable def groupB (W : Type) [Infinite W] : List W :=
  (List.range 150).map (fun n => Infinite.natEmbedding W (n + 150))

/-- One message with group A in one class, one with group B in the other. -/
noncomputable def biasedCalls (b : Bool) : List (Call W) :=
  [.learn .dedup (.list (groupA W)) b, .learn .dedup (.list (groupB W)) (!b)]

theorem groups_disjoint {w : W} (h1 : w ∈ groupA W) (h2 : w ∈ groupB W) : False := by
  unfold groupA groupB at *
  rw [List.mem_map] at h1 h2
  obtain ⟨a, ha, rfl⟩ := h1
  obtain ⟨c, hc, h⟩ := h2
  have := (Infinite.natEmbedding W).injective h
  rw [List.mem_range] at ha hc
  omega

theorem groupA_nodup : (groupA W).Nodup := List.nodup_range.map (Infinite.natEmbedding W).injective
theorem groupB_nodup : (groupB W).Nodup :=
  List.nodup_range.map (fun a c h => by
    have := (Infinite.natEmbedding W).injective h
    omega)

/-- helper: both classifiers score above 1/2 -/
theorem biased (b : Bool) : ∃ p e, 1 / 2 < p ∧
    (spamprob exactReal (memory W) .dedup (.list (groupA W ++ groupB W)) false
      (after exactReal false (biasedCalls b))).1 = .ok (p, e) := by
  obtain ⟨hs, hk, hub⟩ := after_ok exactReal false (biasedCalls (W := W) b)
  have hnspam : (after exactReal false (biasedCalls (W := W) b)).nspam = 1 := by
    simp only [after, biasedCalls, exec, runCall]
    rw [learn_memory (ub := false) _ _ _ _ (by rw [learn_memory (ub := false) _ _ _ _ rfl]; rfl),
      learn_memory (ub := false) _ _ _ _ rfl]
    cases b <;> rfl
  have hnham : (after exactReal false (biasedCalls (W := W) b)).nham = 1 := by
    simp only [after, biasedCalls, exec, runCall]
    rw [learn_memory (ub := false) _ _ _ _ (by rw [learn_memory (ub := false) _ _ _ _ rfl]; rfl),
      learn_memory (ub := false) _ _ _ _ rfl]
    cases b <;> rfl
  have hinfo : ∀ w, (after exactReal false (biasedCalls (W := W) b)).store.get? w =
      if w ∈ groupA W then some (if b then ⟨1, 0⟩ else ⟨0, 1⟩)
      else if w ∈ groupB W then some (if b then ⟨0, 1⟩ else ⟨1, 0⟩) else none := by
    intro w
    simp only [after, biasedCalls, exec, runCall]
    rw [learn_memory (ub := false) _ _ _ _ (by rw [learn_memory (ub := false) _ _ _ _ rfl]; rfl),
      learn_memory (ub := false) _ _ _ _ rfl]
    simp only [afterAdd, get?_addAll, trainTokens, Stream.items, Clf.new, Dict.get?_empty,
      Bool.false_eq_true, if_false]
    by_cases h1 : w ∈ groupA W
    · have h2 : w ∉ groupB W := fun h => groups_disjoint h1 h
      simp only [if_pos h1, if_neg h2]
      cases b <;> rfl
    · simp only [if_neg h1]
      by_cases h2 : w ∈ groupB W
      · simp only [if_pos h2]
        cases b <;> rfl
      · simp only [if_neg h2]
  generalize after exactReal false (biasedCalls (W := W) b) = c at *
  rw [spamprob_eq _ hk, hub]
  -- the spammy and the hammy group
  obtain ⟨G, G', hG, hGn, hmem⟩ : ∃ G G' : List W, G.length = 150 ∧ G.Nodup ∧
      (∀ w ∈ groupA W ++ groupB W, (w ∈ G ∧ c.store.get? w = some ⟨1, 0⟩) ∨
        (w ∈ G' ∧ c.store.get? w = some ⟨0, 1⟩)) ∧
      (∀ w ∈ G, w ∈ groupA W ++ groupB W ∧ c.store.get? w = some ⟨1, 0⟩) := by
    cases b with
    | true =>
      refine ⟨groupA W, groupB W, by simp [groupA], groupA_nodup, ?_, ?_⟩
      · intro w hw
        rw [List.mem_append] at hw
        by_cases h1 : w ∈ groupA W
        · left; rw [hinfo, if_pos h1]; exact ⟨h1, rfl⟩
        · right; rw [hinfo, if_neg h1, if_pos (hw.resolve_left h1)]; exact ⟨hw.resolve_left h1, rfl⟩
      · intro w hw
        rw [hinfo, if_pos hw]; exact ⟨List.mem_append_left _ hw, rfl⟩
    | false =>
      refine ⟨groupB W, groupA W, by simp [groupB], groupB_nodup, ?_, ?_⟩
      · intro w hw
        rw [List.mem_append] at hw
        by_cases h1 : w ∈ groupA W
        · right; rw [hinfo, if_pos h1]; exact ⟨h1, rfl⟩
        · left; rw [hinfo, if_neg h1, if_pos (hw.resolve_left h1)]; exact ⟨hw.resolve_left h1, rfl⟩
      · intro w hw
        rw [hinfo, if_neg (fun h => groups_disjoint h hw), if_pos hw]
        exact ⟨List.mem_append_right _ hw, rfl⟩
  obtain ⟨hmem, hGm⟩ := hmem
  have hi : pureProb exactReal c.nspam c.nham (some ⟨1, 0⟩) = .ok (49 / 58) := by
    rw [hnspam, hnham]
    have := (freshProbability_exact (ns := 1) (nh := 1) (r := ⟨1, 0⟩) (by norm_num) (by norm_num)
      (by norm_num) (by norm_num) (by norm_num)).1
    refine this.trans ?_
    norm_num [robinson]
  have lo : pureProb exactReal c.nspam c.nham (some ⟨0, 1⟩) = .ok (9 / 58) := by
    rw [hnspam, hnham]
    have := (freshProbability_exact (ns := 1) (nh := 1) (r := ⟨0, 1⟩) (by norm_num) (by norm_num)
      (by norm_num) (by norm_num) (by norm_num)).1
    refine this.trans ?_
    norm_num [robinson]
  have hprob : ∀ w, ∃ p, pureProb exactReal c.nspam c.nham (c.store.get? w) = .ok p := by
    intro w
    rw [hinfo]
    split
    · cases b
      · exact ⟨_, lo⟩
      · exact ⟨_, hi⟩
    · split
      · cases b
        · exact ⟨_, hi⟩
        · exact ⟨_, lo⟩
      · exact ⟨_, rfl⟩
  obtain ⟨clues, hc⟩ := pureClues_total hprob false .dedup (.list (groupA W ++ groupB W))
  obtain ⟨a1, a2, -, a4, a5⟩ := unigram_selection (SetIter.dedup.nodup _) hc
  have hmin : minimumProbStrength exactReal = (1 / 10 : ℝ) := rfl
  have hhi : ∀ t ∈ clues, t.prob = 49 / 58 := by
    intro t ht
    obtain ⟨t1, t2, t3⟩ := a4 t ht
    obtain ⟨-, u2, u3⟩ := pureClue_ok t2
    rcases hmem t.word ((SetIter.dedup.mem _ _).1 t1) with ⟨-, h1⟩ | ⟨-, h1⟩
    · rw [h1, hi] at u2; exact (Except.ok.inj u2).symm
    · exfalso
      rw [h1, lo] at u2
      have u2 := Except.ok.inj u2
      have hin : ∀ w ∈ G, w ∈ clues.map (·.word) := by
        intro w hw
        obtain ⟨g1, g2⟩ := hGm w hw
        obtain ⟨d, d1, d2⟩ := a5 w ((SetIter.dedup.mem _ _).2 g1)
        obtain ⟨v1, v2, v3⟩ := pureClue_ok d1
        rw [g2, hi] at v2
        have v2 := Except.ok.inj v2
        have hd : d.distance = 10 / 29 := by
          rw [v3, ← v2]
          simp only [FloatOps.sub, exactReal, id]
          norm_num [abs_of_pos]
        have htd : t.distance = 10 / 29 := by
          rw [u3, ← u2]
          simp only [FloatOps.sub, exactReal, id]
          rw [abs_of_neg] <;> norm_num
        rcases d2 (by rw [hmin, hd]; norm_num) with d3 | ⟨-, d3⟩
        · rw [← v1]; exact List.mem_map.2 ⟨d, d3, rfl⟩
        · exfalso
          have := d3 t ht
          rw [clueLe_iff, hd, htd, ← v2, ← u2] at this
          norm_num at this
      have hnot : t.word ∉ G := by
        intro h
        have := (hGm _ h).2
        rw [h1] at this
        cases this
      have hsub : (t.word :: G).toFinset ⊆ (clues.map (·.word)).toFinset := by
        intro w hw
        rw [List.mem_toFinset, List.mem_cons] at hw
        rw [List.mem_toFinset]
        rcases hw with rfl | hw
        · exact List.mem_map.2 ⟨t, ht, rfl⟩
        · exact hin w hw
      have := Finset.card_le_card hsub
      rw [List.toFinset_card_of_nodup (List.nodup_cons.2 ⟨hnot, hGn⟩),
        List.toFinset_card_of_nodup a1, List.length_cons, List.length_map] at this
      omega
  have hne : 0 < clues.length := by
    have hG0 : G ≠ [] := by intro h; rw [h] at hG; simp at hG
    obtain ⟨w, hw⟩ := List.exists_mem_of_ne_nil _ hG0
    obtain ⟨g1, g2⟩ := hGm w hw
    obtain ⟨d, d1, d2⟩ := a5 w ((SetIter.dedup.mem _ _).2 g1)
    obtain ⟨v1, v2, v3⟩ := pureClue_ok d1
    rw [g2, hi] at v2
    have v2 := Except.ok.inj v2
    have hd : d.distance = 10 / 29 := by
      rw [v3, ← v2]
      simp only [FloatOps.sub, exactReal, id]
      norm_num [abs_of_pos]
    rcases d2 (by rw [hmin, hd]; norm_num) with d3 | ⟨d3, -⟩
    · exact List.length_pos_of_mem d3
    · omega
  have hrep : clues.map (·.prob) = List.replicate clues.length (49 / 58 : ℝ) := by
    rw [List.eq_replicate_iff]
    refine ⟨by simp, ?_⟩
    intro x hx
    obtain ⟨t, ht, rfl⟩ := List.mem_map.1 hx
    exact hhi t ht
  have hcomb := combine_exact (clues.map (·.prob)) (by
    rw [hrep]; intro p hp; rw [List.eq_of_mem_replicate hp]; norm_num)
  refine ⟨_, _, ?_, pureSpamprob_of hc hcomb⟩
  rw [hrep]
  exact indicator_replicate (by norm_num) (by norm_num) hne

/-- **C17**, the bound is needed: with 150 spam words and 150 ham words of equal strength the
classifier and its mirror image both score above 1/2. -/
theorem C17_fails_beyond_150 : ¬ C17_Unrestricted W := by
  intro h
  obtain ⟨p, e, hp, h1⟩ := biased (W := W) true
  obtain ⟨e', h2⟩ := h _ _ _ _ _ _ h1
  have : (biasedCalls (W := W) true).map mirrorCall = biasedCalls false := rfl
  rw [this] at h2
  obtain ⟨p', e'', hp', h3⟩ := biased (W := W) false
  rw [h2] at h3
  cases h3
  linarith

end
end Sb.Props
