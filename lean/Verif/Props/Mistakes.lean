import Verif.Props.Shared

/-
Property C106: unlearning what was never learned.  The documentation of `unlearn` asks
for the arguments of an earlier `learn`; this is what happens otherwise.
-/

set_option linter.unusedSectionVars false

namespace Sb.Props
open Sb Py Spec

section
variable {W K : Type} [LinearOrder W] [BigramFormat W]

/-! ### Specification -/

/-- The number of learned messages of class `b`. -/
def classTotal (L : Ledger W) (b : Bool) : Nat := L.countP (fun m => m.2 = b)

/-- The number of learned messages of class `b` with the token `w`. -/
def classCount (L : Ledger W) (b : Bool) (w : W) : Nat := L.countP (fun m => m.2 = b ∧ w ∈ m.1)

/-- What the database says about `w` in class `b`; no record says 0. -/
def countOf (c : Clf (Dict W WordInfo) K) (b : Bool) (w : W) : Int :=
  match c.store.get? w with
  | none => 0
  | some r => if b then r.spamcount else r.hamcount

/-- The number of messages of class `b` the classifier believes in. -/
def totalOf (c : Clf (Dict W WordInfo) K) (b : Bool) : Int := if b then c.nspam else c.nham

/-- What a call means for the messages of class `b` with property `p`: one more, one
less, or nothing. -/
def change (ub : Bool) (b : Bool) (p : List W → Bool) : Call W → Int
  | .learn _ s b' => if b' = b ∧ p (trained ub s) then 1 else 0
  | .unlearn _ s b' => if b' = b ∧ p (trained ub s) then -1 else 0
  | _ => 0

/-- `n` is the largest sum of a final part of the list. -/
def Peak (l : List Int) (n : Int) : Prop :=
  (∃ t, t <:+ l ∧ t.sum = n) ∧ ∀ t, t <:+ l → t.sum ≤ n

/-- Unlearning a message that is not learned raises ValueError. -/
def C106Claim : Prop :=
  ∀ (ub : Bool) (calls : List (Call String)) (L : Ledger String), Valid ub 0 calls L →
    ∀ (it : SetIter String) (s : Stream String) (b : Bool), msgOf ub s b ∉ L →
      (unlearn (memory String) it s b (after exactReal ub calls)).1 = .error .valueError

/-! ### Helpers -/

theorem peak_nil : Peak [] 0 :=
  ⟨⟨[], List.suffix_rfl, rfl⟩, fun t ht => by rw [List.suffix_nil.1 ht]; rfl⟩

theorem peak_nonneg {l : List Int} {n : Int} (h : Peak l n) : 0 ≤ n := h.2 [] (List.nil_suffix)

theorem peak_concat {l : List Int} {n : Int} (h : Peak l n) (x : Int) :
    Peak (l ++ [x]) (max 0 (n + x)) := by
  obtain ⟨⟨t, ht, hs⟩, hm⟩ := h
  constructor
  · rcases le_total 0 (n + x) with h0 | h0
    · refine ⟨t ++ [x], ?_, ?_⟩
      · obtain ⟨u, rfl⟩ := ht
        exact ⟨u, by rw [List.append_assoc]⟩
      · rw [List.sum_append, hs, max_eq_right h0]; simp
    · exact ⟨[], List.nil_suffix, by rw [max_eq_left h0]; rfl⟩
  · intro u hu
    rcases List.eq_nil_or_concat u with rfl | ⟨v, y, rfl⟩
    · exact le_max_left _ _
    · rw [List.concat_eq_append] at hu ⊢
      obtain ⟨p, hp⟩ := hu
      rw [← List.append_assoc] at hp
      obtain ⟨h1, h2⟩ := List.append_inj' hp rfl
      cases h2
      have := hm v ⟨p, h1⟩
      rw [List.sum_append]
      simp only [List.sum_cons, List.sum_nil, add_zero]
      exact le_max_of_le_right (by omega)

theorem countOf_nonneg {c : Clf (Dict W WordInfo) K} (hc : Sane c) (b : Bool) (w : W) :
    0 ≤ countOf c b w := by
  unfold countOf
  cases h : c.store.get? w with
  | none => exact le_rfl
  | some r =>
    obtain ⟨h1, h2, -⟩ := hc.records w r h
    cases b
    · exact h2
    · exact h1

/-- records are made of their counts -/
theorem record_of_counts {c : Clf (Dict W WordInfo) K} (hc : Sane c) (w : W) :
    c.store.get? w = if countOf c true w = 0 ∧ countOf c false w = 0 then none
      else some ⟨countOf c true w, countOf c false w⟩ := by
  unfold countOf
  cases h : c.store.get? w with
  | none => simp
  | some r =>
    obtain ⟨-, -, h3⟩ := hc.records w r h
    simp only [if_true, Bool.false_eq_true, if_false]
    rw [if_neg (by omega)]

theorem same_records {c c' : Clf (Dict W WordInfo) K} (hc : Sane c) (hc' : Sane c') :
    (∀ w, c'.store.get? w = c.store.get? w) ↔ ∀ b w, countOf c' b w = countOf c b w := by
  constructor
  · intro h b w
    unfold countOf
    rw [h]
  · intro h w
    rw [record_of_counts hc, record_of_counts hc', h, h]

theorem countOf_add (it : SetIter W) (ws : List W) (b b' : Bool) (c : Clf (Dict W WordInfo) K) (w : W) :
    countOf (afterAdd it ws b c) b' w = countOf c b' w + if b = b' ∧ w ∈ ws then 1 else 0 := by
  simp only [countOf, afterAdd, get?_addAll]
  by_cases hw : w ∈ ws
  · rw [if_pos hw]
    cases c.store.get? w <;> cases b <;> cases b' <;> simp [bump, WordInfo.new, hw]
  · rw [if_neg hw]
    simp [hw]

theorem countOf_remove {c : Clf (Dict W WordInfo) K} (hc : Sane c) (it : SetIter W) (ws : List W)
    (b b' : Bool) (w : W) :
    countOf (afterRemove it ws b c) b' w =
      if b = b' ∧ w ∈ ws then max 0 (countOf c b' w - 1) else countOf c b' w := by
  simp only [countOf, afterRemove, get?_removeAll]
  by_cases hw : w ∈ ws
  · rw [if_pos hw]
    cases h : c.store.get? w with
    | none => simp [drop1]
    | some r =>
      obtain ⟨h1, h2, h3⟩ := hc.records w r h
      simp only [drop1]
      have key : ∀ r' : WordInfo, (match (if r'.hamcount = 0 ∧ r'.spamcount = 0 then none else some r') with
          | none => 0
          | some r => if b' then r.spamcount else r.hamcount) =
          if b' then r'.spamcount else r'.hamcount := by
        intro r'
        by_cases h0 : r'.hamcount = 0 ∧ r'.spamcount = 0
        · rw [if_pos h0]; cases b' <;> simp [h0]
        · rw [if_neg h0]
      rw [key (dec1 b r)]
      simp only [dec1, hw, and_true]
      cases b <;> cases b' <;> simp <;> split <;> first | omega | (simp <;> omega)
  · rw [if_neg hw]
    simp [hw]

theorem totalOf_add (it : SetIter W) (ws : List W) (b b' : Bool) (c : Clf (Dict W WordInfo) K) :
    totalOf (afterAdd it ws b c) b' = totalOf c b' + if b = b' then 1 else 0 := by
  cases b <;> cases b' <;> simp [totalOf, afterAdd]

theorem totalOf_remove (it : SetIter W) (ws : List W) (b b' : Bool) (c : Clf (Dict W WordInfo) K) :
    totalOf (afterRemove it ws b c) b' = totalOf c b' - if b = b' then 1 else 0 := by
  cases b <;> cases b' <;> simp [totalOf, afterRemove]

theorem totalOf_nonneg {c : Clf (Dict W WordInfo) K} (hc : Sane c) (b : Bool) : 0 ≤ totalOf c b := by
  cases b
  · exact hc.nham
  · exact hc.nspam

theorem sane_afterAdd {c : Clf (Dict W WordInfo) K} (hc : Sane c) (it : SetIter W) (ws : List W)
    (b : Bool) : Sane (afterAdd it ws b c) := by
  refine ⟨?_, ?_, ?_⟩
  · have := hc.nspam; cases b <;> simp [afterAdd] <;> omega
  · have := hc.nham; cases b <;> simp [afterAdd] <;> omega
  · intro w r hr
    simp only [afterAdd, get?_addAll] at hr
    split at hr
    · cases hr
      cases ho : c.store.get? w with
      | none => cases b <;> simp [bump, WordInfo.new]
      | some r0 =>
        have := hc.records w r0 ho
        cases b <;> simp [bump] <;> omega
    · exact hc.records w r hr

end

section
variable {W K : Type} [LinearOrder W] [BigramFormat W] [Field K] [LinearOrder K]

/-- what a call does to the counts -/
theorem counts_runCall (F : FloatOps K) {c : Clf (Dict W WordInfo) K} (hc : Sane c) (hk : Coherent F c)
    {ub : Bool} (hub : c.useBigrams = some ub) (call : Call W) :
    let c' := (runCall F (memory W) c call).2
    (∀ b, totalOf c' b = max 0 (totalOf c b + change ub b (fun _ => true) call)) ∧
    ((∀ b, 0 ≤ totalOf c b + change ub b (fun _ => true) call) →
      ∀ b w, countOf c' b w = max 0 (countOf c b w + change ub b (fun ws => ws.contains w) call)) := by
  have n0 := totalOf_nonneg hc
  have m0 := countOf_nonneg hc
  cases call with
  | learn it s b =>
    simp only [runCall, learn_memory it s b c hub, change]
    refine ⟨fun b' => ?_, fun _ b' w => ?_⟩
    · rw [totalOf_add]
      have := n0 b'
      by_cases h : b = b' <;> simp [h] <;> omega
    · rw [countOf_add, trainTokens_eq]
      have := m0 b' w
      simp only [List.contains_iff_mem]
      split <;> omega
  | unlearn it s b =>
    simp only [runCall, unlearn_memory it s b c hub, change]
    have e : total b c = totalOf c b := rfl
    rw [e]
    by_cases ht : totalOf c b ≤ 0
    · rw [if_pos ht]
      refine ⟨fun b' => ?_, fun h => ?_⟩
      · change totalOf c b' = _
        have := n0 b'
        by_cases h : b = b'
        · subst h
          simp
          omega
        · simp [h]; omega
      · have := h b
        simp at this
        omega
    · rw [if_neg ht]
      refine ⟨fun b' => ?_, fun _ b' w => ?_⟩
      · rw [totalOf_remove]
        have := n0 b'
        by_cases h : b = b'
        · subst h; simp; omega
        · simp [h]; omega
      · rw [countOf_remove hc, trainTokens_eq]
        have := m0 b' w
        simp only [List.contains_iff_mem]
        split <;> omega
  | spamprob it s ev =>
    obtain ⟨-, -, h3, h4, h5, -⟩ := spamprob_memory (F := F) c hk it s ev
    simp only [runCall, change, add_zero]
    refine ⟨fun b => ?_, fun _ b w => ?_⟩
    · rw [max_eq_right (n0 b)]; unfold totalOf; rw [h4, h5]
    · rw [max_eq_right (m0 b w)]; unfold countOf; rw [h3]
  | probability r =>
    obtain ⟨-, h2⟩ := computes_probability (F := F) (Inv := fun d => d = c.store)
      (ub := c.useBigrams) (nspam := c.nspam) (nham := c.nham) r c ⟨hk, rfl, rfl, rfl, rfl⟩
    simp only [runCall, change, add_zero]
    refine ⟨fun b => ?_, fun _ b w => ?_⟩
    · rw [max_eq_right (n0 b)]; unfold totalOf; rw [h2.nspam, h2.nham]
    · rw [max_eq_right (m0 b w)]; unfold countOf; rw [h2.inv]

/-! ### The counts after any history -/

/-- **C106**, totals: after any history, mistaken or not, the number of messages of a
class is the largest surplus of learned over unlearned messages in a final part of it:
an unlearn too many is refused and forgotten. -/
theorem C106_totals (F : FloatOps K) (ub : Bool) (calls : List (Call W)) (b : Bool) :
    Peak (calls.map (change ub b (fun _ => true))) (totalOf (after F ub calls) b) := by
  induction calls using List.reverseRecOn with
  | nil => cases b <;> exact peak_nil
  | append_singleton l call ih =>
    obtain ⟨hs, hk, hub⟩ := after_ok F ub l
    rw [after_append, (counts_runCall F hs hk hub call).1 b, List.map_append]
    exact peak_concat ih _

/-- **C106**, tokens: if no class was ever unlearned more often than learned, the totals
are the differences, and the count of a token is the largest surplus of learned over
unlearned messages with it in a final part of the history: an unlearn too many is not
refused but forgotten for this token alone. -/
theorem C106_counts (F : FloatOps K) (ub : Bool) (calls : List (Call W))
    (h : ∀ b pre, pre <+: calls → 0 ≤ (pre.map (change ub b (fun _ => true))).sum) (b : Bool) :
    totalOf (after F ub calls) b = (calls.map (change ub b (fun _ => true))).sum ∧
    ∀ w, Peak (calls.map (change ub b (fun ws => ws.contains w))) (countOf (after F ub calls) b w) := by
  induction calls using List.reverseRecOn generalizing b with
  | nil => exact ⟨by cases b <;> rfl, fun w => peak_nil⟩
  | append_singleton l call ih =>
    have ih := ih (fun b pre hp => h b pre (hp.trans (List.prefix_append _ _)))
    obtain ⟨hs, hk, hub⟩ := after_ok F ub l
    obtain ⟨h1, h2⟩ := counts_runCall F hs hk hub call
    have hall : ∀ b, 0 ≤ totalOf (after F ub l) b + change ub b (fun _ => true) call := by
      intro b
      have := h b (l ++ [call]) List.prefix_rfl
      rw [List.map_append, List.sum_append, ← (ih b).1] at this
      simpa using this
    refine ⟨?_, fun w => ?_⟩
    · rw [after_append, h1 b, max_eq_right (hall b), (ih b).1, List.map_append, List.sum_append]
      simp
    · rw [after_append, h2 hall b w, List.map_append]
      exact peak_concat ((ih b).2 w) _

/-- Two messages with "a" learned, two without "a" unlearned, and "b" unlearned twice
before it is learned: "a" still counts 2, "b" 1, of one message in all. -/
example : totalOf (after exactReal false
      [.learn .dedup (.list ["a"]) true, .learn .dedup (.list ["a"]) true,
       .unlearn .dedup (.list ["b"]) true, .unlearn .dedup (.list ["b"]) true,
       .learn .dedup (.list ["b"]) true]) true = 1 ∧
    countOf (after exactReal false
      [.learn .dedup (.list ["a"]) true, .learn .dedup (.list ["a"]) true,
       .unlearn .dedup (.list ["b"]) true, .unlearn .dedup (.list ["b"]) true,
       .learn .dedup (.list ["b"]) true]) true "a" = 2 ∧
    countOf (after exactReal false
      [.learn .dedup (.list ["a"]) true, .learn .dedup (.list ["a"]) true,
       .unlearn .dedup (.list ["b"]) true, .unlearn .dedup (.list ["b"]) true,
       .learn .dedup (.list ["b"]) true]) true "b" = 1 := ⟨rfl, rfl, rfl⟩

example : ∀ (b : Bool) (pre : List (Call String)), pre <+: [.learn .dedup (.list ["a"]) true,
      .learn .dedup (.list ["a"]) true, .unlearn .dedup (.list ["b"]) true,
      .unlearn .dedup (.list ["b"]) true, .learn .dedup (.list ["b"]) true] →
    0 ≤ (pre.map (change false b (fun _ => true))).sum := by
  intro b pre h
  rw [← List.mem_inits] at h
  simp only [List.inits, List.map_cons, List.map_nil, List.mem_cons,
    List.not_mem_nil, or_false] at h
  rcases h with rfl | rfl | rfl | rfl | rfl | rfl <;> cases b <;> decide

/-! ### Learning again what was unlearned -/

/-- **C106**, the way back: learning a message after unlearning it always restores the
totals, and it restores the database exactly if every token of the message had a count
of this class. -/
theorem C106_learn_undoes_unlearn_iff (c : Clf (Dict W WordInfo) K) (ub : Bool)
    (hub : c.useBigrams = some ub) (hc : Sane c) (it it' : SetIter W) (s : Stream W) (b : Bool)
    (ht : 0 < totalOf c b) :
    let r1 := unlearn (memory W) it s b c
    let r2 := learn (memory W) it' s b r1.2
    r1.1 = .ok () ∧ r2.1 = .ok () ∧ r2.2.nspam = c.nspam ∧ r2.2.nham = c.nham ∧
    ((∀ w, r2.2.store.get? w = c.store.get? w) ↔ ∀ w ∈ trained ub s, 0 < countOf c b w) := by
  have h1 := unlearn_memory it s b c hub
  rw [if_neg (by unfold total; unfold totalOf at ht; omega)] at h1
  have hub' : (afterRemove it (trainTokens ub s) b c).useBigrams = some ub := hub
  have h2 := learn_memory it' s b _ hub'
  have hs1 : Sane (afterRemove it (trainTokens ub s) b c) := by
    have := (sane_exec exactReal (ub := ub) [.unlearn it s b]
      { useBigrams := c.useBigrams, store := c.store, probcache := Dict.empty, nspam := c.nspam, nham := c.nham }
      ⟨hc.nspam, hc.nham, hc.records⟩ (coherent_of_empty _ _ rfl) hub).1
    simp only [exec, runCall] at this
    rw [unlearn_memory it s b _ (by exact hub), if_neg (by unfold total; unfold totalOf at ht; simpa using ht)] at this
    exact ⟨this.nspam, this.nham, this.records⟩
  simp only [h1, h2]
  refine ⟨trivial, trivial, ?_, ?_, ?_⟩
  · cases b <;> simp [afterRemove, afterAdd]
  · cases b <;> simp [afterRemove, afterAdd]
  · rw [same_records hc (sane_afterAdd hs1 _ _ _), trainTokens_eq]
    constructor
    · intro h w hw
      have := h b w
      rw [countOf_add, countOf_remove hc] at this
      simp only [hw, and_self, if_true] at this
      omega
    · intro h b' w
      rw [countOf_add, countOf_remove hc]
      by_cases hw : b = b' ∧ w ∈ trained ub s
      · rw [if_pos hw, if_pos hw]
        have := h w hw.2
        rw [hw.1] at this
        omega
      · rw [if_neg hw, if_neg hw]; omega

/-- "pills" was spam and "cheap" both; "lunch" was not spam. -/
example : (∀ w ∈ trained false (.list ["pills", "cheap"]), 0 < countOf (demo ℝ) true w) ∧
    ¬ ∀ w ∈ trained false (.list ["pills", "lunch"]), 0 < countOf (demo ℝ) true w := by
  constructor
  · intro w hw
    simp only [trained, Bool.false_eq_true, if_false, List.mem_cons, List.not_mem_nil, or_false] at hw
    rcases hw with rfl | rfl <;> decide
  · intro h
    exact absurd (h "lunch" (by simp [trained])) (by decide)

end

/-! ### Scoring afterwards -/

section
variable {W : Type} [LinearOrder W] [BigramFormat W]

/-- helper -/
theorem fits_iff {n c : Int} (h : 0 ≤ n) : c ≤ (if n = 0 then 1 else n) ↔ c ≤ max 1 n := by
  split <;> omega

theorem tokenProb_ok_iff {c : Clf (Dict W WordInfo) ℝ} (hc : Sane c) (w : W) :
    (∃ p, pureProb exactReal c.nspam c.nham (c.store.get? w) = .ok p) ↔
      ∀ b, countOf c b w ≤ max 1 (totalOf c b) := by
  unfold countOf totalOf
  cases h : c.store.get? w with
  | none =>
    refine ⟨fun _ b => by simp only; omega, fun _ => ⟨_, rfl⟩⟩
  | some r =>
    obtain ⟨h1, h2, h3⟩ := hc.records w r h
    rw [Bool.forall_bool]
    simp only [Bool.false_eq_true, if_false, if_true]
    constructor
    · rintro ⟨p, hp⟩
      by_contra hn
      have : freshProbability exactReal c.nspam c.nham r = .error .exception := by
        apply freshProbability_exceeds
        rw [gt_iff_lt, gt_iff_lt, ← not_le, ← not_le, fits_iff hc.nham, fits_iff hc.nspam]
        tauto
      change freshProbability exactReal c.nspam c.nham r = .ok p at hp
      rw [this] at hp
      cases hp
    · rintro ⟨ha, hb⟩
      exact freshProbability_total exactReal_sound exactReal_posRatios h1 h2 h3
        ((fits_iff hc.nspam).2 hb) ((fits_iff hc.nham).2 ha)

/-- helper: one token or pair of the bigram mode -/
theorem consider_ok_iff {nspam nham : Int} {info : W → Option WordInfo} (w : W) (ix : List Nat)
    {seen : List W} (hseen : ∀ x ∈ seen, ∃ cl, pureClue exactReal nspam nham info x = .ok cl)
    (raw : List (Cand W ℝ)) :
    ((∃ st, pureConsider exactReal nspam nham info w ix seen raw = .ok st) ↔
      ∃ cl, pureClue exactReal nspam nham info w = .ok cl) ∧
    ∀ st, pureConsider exactReal nspam nham info w ix seen raw = .ok st →
      ∀ x ∈ st.1, ∃ cl, pureClue exactReal nspam nham info x = .ok cl := by
  unfold pureConsider
  by_cases hw : w ∈ seen
  · simp only [if_pos hw]
    exact ⟨⟨fun _ => hseen w hw, fun _ => ⟨_, rfl⟩⟩, fun st h => by cases h; exact hseen⟩
  · simp only [if_neg hw]
    cases hc : pureClue exactReal nspam nham info w with
    | error e =>
      refine ⟨⟨?_, ?_⟩, ?_⟩
      · rintro ⟨st, h⟩; cases h
      · rintro ⟨cl, h⟩; cases h
      · intro st h; cases h
    | ok cl =>
      simp only [bind, Except.bind]
      refine ⟨⟨fun _ => ⟨cl, rfl⟩, fun _ => ?_⟩, ?_⟩
      · split <;> exact ⟨_, rfl⟩
      · intro st h x hx
        have : st.1 = w :: seen := by
          split at h <;> · cases h; rfl
        rw [this] at hx
        rcases List.mem_cons.1 hx with rfl | hx
        · exact ⟨cl, hc⟩
        · exact hseen x hx

/-- helper: all tokens and pairs of the bigram mode -/
theorem fill_ok_iff {nspam nham : Int} {info : W → Option WordInfo} (ws : List W) :
    ∀ (i : Nat) (last : Option W) (seen : List W) (raw : List (Cand W ℝ)),
      (∀ x ∈ seen, ∃ cl, pureClue exactReal nspam nham info x = .ok cl) →
      ((∃ r, pureFill exactReal nspam nham info i last ws seen raw = .ok r) ↔
        PAdj (fun w => ∃ cl, pureClue exactReal nspam nham info w = .ok cl) last ws) := by
  induction ws with
  | nil => intro i last seen raw _; exact ⟨fun _ => trivial, fun _ => ⟨_, rfl⟩⟩
  | cons token rest ih =>
    intro i last seen raw hseen
    unfold pureFill PAdj
    obtain ⟨h1, h2⟩ := consider_ok_iff (nspam := nspam) (nham := nham) (info := info) token [i] hseen raw
    cases hc : pureConsider exactReal nspam nham info token [i] seen raw with
    | error e =>
      rw [hc] at h1
      refine ⟨?_, ?_⟩
      · rintro ⟨r, h⟩; cases h
      · rintro ⟨h, -⟩
        obtain ⟨st, h⟩ := h1.2 h
        cases h
    | ok st =>
      have hs := h2 st hc
      have ht := h1.1 ⟨st, hc⟩
      simp only [bind, Except.bind]
      cases last with
      | none =>
        simp only [purePair, pure, Except.pure]
        rw [ih _ _ _ _ hs]
        exact ⟨fun h => ⟨ht, fun l hl => (by cases hl), h⟩, fun h => h.2.2⟩
      | some l =>
        obtain ⟨h3, h4⟩ := consider_ok_iff (nspam := nspam) (nham := nham) (info := info)
          (BigramFormat.bi l token) [i - 1, i] hs st.2
        simp only [purePair]
        cases hp : pureConsider exactReal nspam nham info (BigramFormat.bi l token) [i - 1, i] st.1 st.2 with
        | error e =>
          rw [hp] at h3
          refine ⟨?_, ?_⟩
          · rintro ⟨r, h⟩; cases h
          · rintro ⟨-, h, -⟩
            obtain ⟨st, h⟩ := h3.2 (h l rfl)
            cases h
        | ok st' =>
          simp only
          rw [ih _ _ _ _ (h4 st' hp)]
          exact ⟨fun h => ⟨ht, fun l' hl => by cases hl; exact h3.1 ⟨st', hp⟩, h⟩, fun h => h.2.2⟩

/-- The tokens that scoring a message looks at: all of them, and with bigrams also the
pairs of neighbours. -/
def lookedUp (ub : Bool) (ws : List W) : List W :=
  if ub then ws ++ List.zipWith BigramFormat.bi ws ws.tail else ws

/-- helper -/
theorem pAdj_iff (P : W → Prop) (ws : List W) (last : Option W) :
    PAdj P last ws ↔ (∀ w ∈ ws, P w) ∧ (∀ l w, last = some l → ws.head? = some w → P (BigramFormat.bi l w)) ∧
      ∀ w ∈ List.zipWith BigramFormat.bi ws ws.tail, P w := by
  induction ws generalizing last with
  | nil => simp [PAdj]
  | cons a t ih =>
    rw [PAdj, ih]
    cases t with
    | nil => simp
    | cons b u => simp; tauto

/-- helper: the messages that can be scored, on any sane object -/
theorem scores_iff {c : Clf (Dict W WordInfo) ℝ} {ub : Bool} (hs : Sane c) (hk : Coherent exactReal c)
    (hub : c.useBigrams = some ub) (it : SetIter W) (s : Stream W) (ev : Bool) :
    (∃ v, (spamprob exactReal (memory W) it s ev c).1 = .ok v) ↔
      ∀ w ∈ lookedUp ub s.items, ∀ b, countOf c b w ≤ max 1 (totalOf c b) := by
  rw [spamprob_eq _ hk, hub]
  have hclue : ∀ w, (∃ cl, pureClue exactReal c.nspam
      c.nham c.store.get? w = .ok cl) ↔
      ∀ b, countOf c b w ≤ max 1 (totalOf c b) := by
    intro w
    rw [← tokenProb_ok_iff hs]
    cases hp : pureProb exactReal c.nspam
        c.nham (c.store.get? w) with
    | ok p => exact ⟨fun _ => ⟨p, rfl⟩, fun _ => ⟨_, pureClue_of_prob hp⟩⟩
    | error e =>
      rw [pureClue_error hp]
      constructor <;> rintro ⟨_, h⟩ <;> cases h
  have hclues : (∃ clues, pureClues exactReal c.nspam
        c.nham (some ub) c.store.get? it s = .ok clues) ↔
      ∀ w ∈ lookedUp ub s.items, ∀ b, countOf c b w ≤
        max 1 (totalOf c b) := by
    simp only [← hclue]
    cases ub with
    | false =>
      simp only [pureClues, pureCluesUnigram, bind, Except.bind, lookedUp, Bool.false_eq_true, if_false]
      constructor
      · rintro ⟨clues, h⟩ w hw
        cases hm : (it.order s.items).mapM (pureClue exactReal c.nspam
            c.nham c.store.get?) with
        | error e => rw [hm] at h; cases h
        | ok all =>
          obtain ⟨y, -, hy⟩ := forall2_mem_left ((mapM_ok_iff _ _ _).1 hm) ((it.mem _ _).2 hw)
          exact ⟨y, hy⟩
      · intro h
        obtain ⟨all, hall⟩ := mapM_ok_of_forall (pureClue exactReal c.nspam
          c.nham c.store.get?) (it.order s.items)
          (fun w hw => h w ((it.mem _ _).1 hw))
        rw [hall]
        exact ⟨_, rfl⟩
    | true =>
      have hf := fill_ok_iff (nspam := c.nspam)
        (nham := c.nham) (info := c.store.get?)
        s.items 0 none [] [] (by simp)
      simp only [pureClues, pureCluesBigram, bind, Except.bind]
      have hp : PAdj (fun w => ∃ cl, pureClue exactReal c.nspam
          c.nham c.store.get? w = .ok cl) none s.items ↔
          ∀ w ∈ lookedUp true s.items, ∃ cl, pureClue exactReal c.nspam
          c.nham c.store.get? w = .ok cl := by
        rw [pAdj_iff]
        simp only [lookedUp, if_true, List.mem_append]
        constructor
        · rintro ⟨h1, -, h3⟩ w (hw | hw)
          · exact h1 w hw
          · exact h3 w hw
        · intro h
          exact ⟨fun w hw => h w (.inl hw), fun l w hl => (by cases hl), fun w hw => h w (.inr hw)⟩
      rw [← hp, ← hf]
      cases hr : pureFill exactReal c.nspam c.nham
          c.store.get? 0 none s.items [] [] with
      | error e => constructor <;> rintro ⟨_, h⟩ <;> cases h
      | ok raw => exact ⟨fun _ => ⟨_, rfl⟩, fun _ => ⟨_, rfl⟩⟩
  rw [← hclues]
  constructor
  · rintro ⟨v, hv⟩
    obtain ⟨clues, S, H, h1, -, -⟩ := pureSpamprob_ok hv
    exact ⟨clues, h1⟩
  · rintro ⟨clues, hc⟩
    exact ⟨_, pureSpamprob_of hc (combine_exact _ (clues_exact_strict hs hc))⟩

/-- **C106**, scores: after any history, mistaken or not, a message can be scored exactly
if no token looked at has more messages of a class than there are (or than one). -/
theorem C106_scores_iff (ub : Bool) (calls : List (Call W)) (it : SetIter W) (s : Stream W) (ev : Bool) :
    (∃ v, (spamprob exactReal (memory W) it s ev (after exactReal ub calls)).1 = .ok v) ↔
      ∀ w ∈ lookedUp ub s.items, ∀ b, countOf (after exactReal ub calls) b w ≤
        max 1 (totalOf (after exactReal ub calls) b) := by
  obtain ⟨hs, hk, hub⟩ := after_ok exactReal ub calls
  exact scores_iff hs hk hub it s ev

/-- With bigrams the pair of "a" and "b" is looked at as well. -/
example : lookedUp true ["a", "b"] = ["a", "b", BigramFormat.bi "a" "b"] := rfl

theorem counts_represents {K : Type} {L : Ledger W} {ub : Bool} {c : Clf (Dict W WordInfo) K}
    (h : Represents L ub c) (b : Bool) (w : W) :
    countOf c b w = classCount L b w ∧ totalOf c b = classTotal L b := by
  constructor
  · unfold countOf
    rw [h.info w]
    unfold recordOf
    cases b
    · by_cases h0 : spamCount L w = 0 ∧ hamCount L w = 0
      · rw [if_pos h0]; simp only; rw [show classCount L false w = hamCount L w from rfl, h0.2]; rfl
      · rw [if_neg h0]; rfl
    · by_cases h0 : spamCount L w = 0 ∧ hamCount L w = 0
      · rw [if_pos h0]; simp only; rw [show classCount L true w = spamCount L w from rfl, h0.1]; rfl
      · rw [if_neg h0]; rfl
  · unfold totalOf
    rw [h.nspam, h.nham]
    cases b <;> rfl

theorem classCount_le (L : Ledger W) (b : Bool) (w : W) : classCount L b w ≤ classTotal L b := by
  cases b
  · exact hamCount_le L w
  · exact spamCount_le L w

/-- **C106**, one mistake: after a proper history that learned a message of the class,
unlearning any message returns.  All messages can still be scored exactly if every token
that is not in the unlearned message is missing from a learned message of the class (or
the class has one message only). -/
theorem C106_one_mistake_partial (ub : Bool) (calls : List (Call W)) (L : Ledger W) (hv : Valid ub 0 calls L)
    (it : SetIter W) (s : Stream W) (b : Bool) (ht : 0 < classTotal L b) :
    (unlearn (memory W) it s b (after exactReal ub calls)).1 = .ok () ∧
    ((∀ it' s' ev, ∃ v, (spamprob exactReal (memory W) it' s' ev
        (after exactReal ub (calls ++ [.unlearn it s b]))).1 = .ok v) ↔
      ∀ w, w ∉ trained ub s → classCount L b w < classTotal L b ∨ classTotal L b = 1) := by
  have hr : Represents L ub (after exactReal ub calls) :=
    (exec_valid exactReal hv (Clf.new ub Dict.empty) (represents_new ub)
      (coherent_of_empty exactReal _ rfl)).1
  obtain ⟨hs, hk, hub⟩ := after_ok exactReal ub calls
  have hu := unlearn_memory it s b _ hub
  have hb := fun w => counts_represents hr b w
  have hpos : ¬ total b (after exactReal ub calls) ≤ 0 := by
    have h1 := fun w => (hb w).2
    change ¬ totalOf (after exactReal ub calls) b ≤ 0
    have : totalOf (after exactReal ub calls) b = classTotal L b := by
      unfold totalOf
      rw [hr.nspam, hr.nham]
      cases b <;> rfl
    omega
  rw [if_neg hpos] at hu
  refine ⟨by rw [hu], ?_⟩
  have ha : after exactReal ub (calls ++ [.unlearn it s b]) =
      afterRemove it (trainTokens ub s) b (after exactReal ub calls) := by
    rw [after_append]
    simp only [runCall, hu]
  have hcount : ∀ b' w, countOf (after exactReal ub (calls ++ [.unlearn it s b])) b' w =
      if b = b' ∧ w ∈ trained ub s then max 0 ((classCount L b' w : Int) - 1) else classCount L b' w := by
    intro b' w
    rw [ha, countOf_remove hs, (counts_represents hr b' w).1]
    rw [trainTokens_eq]
  have htotal : ∀ (w : W) b', totalOf (after exactReal ub (calls ++ [.unlearn it s b])) b' =
      (classTotal L b' : Int) - if b = b' then 1 else 0 := by
    intro w b'
    rw [ha, totalOf_remove, (counts_represents hr b' w).2]
  have hiff : ∀ it' (s' : Stream W) ev, (∃ v, (spamprob exactReal (memory W) it' s' ev
      (after exactReal ub (calls ++ [.unlearn it s b]))).1 = .ok v) ↔ _ :=
    fun it' s' ev => C106_scores_iff ub (calls ++ [.unlearn it s b]) it' s' ev
  constructor
  · intro h w hw
    have h1 := (hiff .dedup (.list [w]) false).1 (h _ _ _) w (by cases ub <;> simp [Stream.items, lookedUp]) b
    rw [hcount, htotal w, if_neg (by tauto), if_pos rfl] at h1
    have := classCount_le L b w
    omega
  · intro h it' s' ev
    rw [hiff]
    intro w hw b'
    rw [hcount, htotal w]
    have h2 := classCount_le L b' w
    by_cases hbb : b = b'
    · subst hbb
      rw [if_pos rfl]
      by_cases hi : w ∈ trained ub s
      · rw [if_pos ⟨rfl, hi⟩]; omega
      · rw [if_neg (by tauto)]
        have := h w hi
        omega
    · rw [if_neg (by tauto), if_neg hbb]; omega

/-- With "a" and "b" learned as spam in two messages no token is in both. -/
example : Valid (W := String) false 0 [.learn .dedup (.list ["a"]) true, .learn .dedup (.list ["b"]) true]
      {(({"b"} : Finset String), true), ({"a"}, true)} ∧
    0 < classTotal ({(({"b"} : Finset String), true), ({"a"}, true)} : Ledger String) true ∧
    ∀ w, w ∉ trained false (Stream.list ["c"]) →
      classCount ({(({"b"} : Finset String), true), ({"a"}, true)} : Ledger String) true w <
        classTotal ({(({"b"} : Finset String), true), ({"a"}, true)} : Ledger String) true ∨
      classTotal ({(({"b"} : Finset String), true), ({"a"}, true)} : Ledger String) true = 1 := by
  refine ⟨?_, by decide, fun w _ => .inl ?_⟩
  · have e1 : msgOf (W := String) false (.list ["a"]) true = ({"a"}, true) := by decide
    have e2 : msgOf (W := String) false (.list ["b"]) true = ({"b"}, true) := by decide
    refine .learn (.learn ?_)
    rw [e1, e2]; exact .nil _
  · have h2 : classTotal ({(({"b"} : Finset String), true), ({"a"}, true)} : Ledger String) true = 2 := by
      decide
    rw [h2]
    unfold classCount
    by_cases hb : w = "b"
    · subst hb; decide
    · have : ({(({"b"} : Finset String), true), ({"a"}, true)} : Ledger String) =
          ({"b"}, true) ::ₘ {({"a"}, true)} := rfl
      rw [this, Multiset.countP_cons_of_neg _ (by simp [hb])]
      exact lt_of_le_of_lt (Multiset.countP_le_card _ _) (by decide)

end

/-! ### The claim -/

/-- helper: one learned message -/
theorem one_learned : Valid (W := String) false 0 [.learn .dedup (.list ["a"]) true]
    {(({"a"} : Finset String), true)} := by
  refine .learn ?_
  have e1 : msgOf (W := String) false (.list ["a"]) true = ({"a"}, true) := by decide
  rw [e1]; exact .nil _

/-- **C106** is violated: with "a" learned as spam, unlearning "b" as spam succeeds. -/
theorem C106_claim_false : ¬ C106Claim := by
  intro h
  have := h false _ _ one_learned .dedup (.list ["b"]) true (by decide)
  have hu := unlearn_memory .dedup (.list ["b"]) true
    (after exactReal false [.learn (.dedup : SetIter String) (.list ["a"]) true]) (ub := false) rfl
  rw [if_neg (by decide)] at hu
  rw [hu] at this
  cases this

/-- One mistake makes a properly trained classifier unusable: two messages "a" learned,
one "b" unlearned, and "a" cannot be scored any more. -/
theorem C106_one_mistake_breaks :
    ∃ L : Ledger String, Valid false 0 [.learn .dedup (.list ["a"]) true, .learn .dedup (.list ["a"]) true] L ∧
      ¬ ∃ v, (spamprob exactReal (memory String) .dedup (.list ["a"]) false (after exactReal false
        ([.learn .dedup (.list ["a"]) true, .learn .dedup (.list ["a"]) true] ++
          [.unlearn .dedup (.list ["b"]) true]))).1 = .ok v := by
  refine ⟨_, .learn (.learn (.nil _)), ?_⟩
  rw [C106_scores_iff]
  intro h
  have := h "a" (by simp [Stream.items, lookedUp]) true
  revert this
  decide

end Sb.Props
