import Verif.Spec.Training
import Verif.Proof.Training
import Verif.Proof.Scoring

/- Helper lemmas: the in-memory classifier and the ledger of learned messages. -/

set_option linter.unusedSectionVars false
set_option linter.unusedSimpArgs false

namespace Sb
open Py Spec

section
variable {W : Type} [BigramFormat W]

theorem enhanceList_eq (ws : List W) :
    enhanceList ws = (ws.zip ws.tail).flatMap (fun p => [p.1, BigramFormat.bi p.1 p.2]) := by
  match ws with
  | [] => rfl
  | [_] => rfl
  | a :: b :: t =>
    have := enhanceList_eq (b :: t)
    simp only [List.tail_cons] at this
    simp [enhanceList, this]

theorem enhanceIterTail_eq (t : List W) :
    enhanceIterTail t = (List.range (t.length / 3)).flatMap (fun k =>
        match t[3 * k]?, t[3 * k + 1]?, t[3 * k + 2]? with
        | some x, some y, some z => [x, BigramFormat.bi y z]
        | _, _, _ => []) := by
  match t with
  | [] => simp [enhanceIterTail, enhanceIter]
  | [_] => simp [enhanceIterTail, enhanceIter]
  | [_, _] => simp [enhanceIterTail, enhanceIter]
  | x :: y :: z :: t =>
    have ih := enhanceIterTail_eq t
    have hl : (x :: y :: z :: t).length / 3 = t.length / 3 + 1 := by
      simp only [List.length_cons]; omega
    rw [hl, List.range_succ_eq_map, List.flatMap_cons, enhanceIterTail, ih]
    have : ∀ k, 3 * (k + 1) = 3 * k + 3 := fun k => by omega
    simp [List.flatMap_map, this]

theorem enhanceIter_eq (ws : List W) :
    enhanceIter ws = (List.range ((ws.length - 1) / 3)).flatMap (fun k =>
        match ws[if k = 0 then 0 else 3 * k + 1]?, ws[if k = 0 then 1 else 3 * k + 2]?,
          ws[3 * k + 3]? with
        | some x, some y, some z => [x, BigramFormat.bi y z]
        | _, _, _ => []) := by
  match ws with
  | [] => simp [enhanceIterTail, enhanceIter]
  | [_] => simp [enhanceIterTail, enhanceIter]
  | [_, _] => simp [enhanceIterTail, enhanceIter]
  | [_, _, _] => simp [enhanceIterTail, enhanceIter]
  | x :: y :: u :: z :: t =>
    have hl : ((x :: y :: u :: z :: t).length - 1) / 3 = t.length / 3 + 1 := by
      simp only [List.length_cons]; omega
    rw [hl, List.range_succ_eq_map, List.flatMap_cons, enhanceIter, enhanceIterTail_eq]
    have h3 : ∀ k, 3 * (k + 1) = 3 * k + 3 := fun k => by omega
    simp [List.flatMap_map, h3]

theorem trainTokens_eq [DecidableEq W] (ub : Bool) (s : Stream W) :
    trainTokens ub s = trained ub s := by
  cases s <;> cases ub <;>
    simp [trainTokens, trained, Stream.items, enhance, enhanceList_eq, enhanceIter_eq] <;> rfl

end

section
variable {W : Type} [DecidableEq W]

theorem spamTotal_cons (m : Msg W) (L : Ledger W) :
    spamTotal (m ::ₘ L) = spamTotal L + if m.2 = true then 1 else 0 := by
  unfold spamTotal; rw [Multiset.countP_cons]

theorem hamTotal_cons (m : Msg W) (L : Ledger W) :
    hamTotal (m ::ₘ L) = hamTotal L + if m.2 = false then 1 else 0 := by
  unfold hamTotal; rw [Multiset.countP_cons]

theorem spamCount_cons (m : Msg W) (L : Ledger W) (w : W) :
    spamCount (m ::ₘ L) w = spamCount L w + if m.2 = true ∧ w ∈ m.1 then 1 else 0 := by
  unfold spamCount; rw [Multiset.countP_cons]

theorem hamCount_cons (m : Msg W) (L : Ledger W) (w : W) :
    hamCount (m ::ₘ L) w = hamCount L w + if m.2 = false ∧ w ∈ m.1 then 1 else 0 := by
  unfold hamCount; rw [Multiset.countP_cons]

theorem spamCount_le (L : Ledger W) (w : W) : spamCount L w ≤ spamTotal L := by
  unfold spamCount spamTotal
  induction L using Multiset.induction_on with
  | empty => simp
  | cons m L ih => 
    rw [Multiset.countP_cons, Multiset.countP_cons]
    have : (if m.2 = true ∧ w ∈ m.1 then 1 else 0) ≤ (if m.2 = true then 1 else 0) := by
      by_cases h : m.2 = true <;> simp [h]; split <;> omega
    omega

theorem hamCount_le (L : Ledger W) (w : W) : hamCount L w ≤ hamTotal L := by
  unfold hamCount hamTotal
  induction L using Multiset.induction_on with
  | empty => simp
  | cons m L ih => 
    rw [Multiset.countP_cons, Multiset.countP_cons]
    have : (if m.2 = false ∧ w ∈ m.1 then 1 else 0) ≤ (if m.2 = false then 1 else 0) := by
      by_cases h : m.2 = false <;> simp [h]; split <;> omega
    omega

/-- `recordOf` in terms of the two counts -/
def mkRecord (a b : Nat) : Option WordInfo := if a = 0 ∧ b = 0 then none else some ⟨a, b⟩

theorem recordOf_eq (L : Ledger W) (w : W) :
    recordOf L w = mkRecord (spamCount L w) (hamCount L w) := rfl

theorem bump_mkRecord (b : Bool) (x y : Nat) :
    some (bump b (mkRecord x y)) = mkRecord (x + if b then 1 else 0) (y + if b then 0 else 1) := by
  unfold mkRecord bump
  by_cases h : x = 0 ∧ y = 0
  · obtain ⟨rfl, rfl⟩ := h
    cases b <;> simp [WordInfo.new]
  · cases b <;> simp [h] <;> omega

theorem drop1_mkRecord (b : Bool) (x y : Nat) :
    drop1 b (mkRecord (x + if b then 1 else 0) (y + if b then 0 else 1)) = mkRecord x y := by
  rw [← bump_mkRecord]
  apply drop1_bump
  intro r hr
  unfold mkRecord at hr
  split at hr
  · cases hr
  · cases hr; simp only; omega

/-- The classifier object represents the ledger `L`. -/
structure Represents {K : Type} (L : Ledger W) (ub : Bool) (c : Clf (Dict W WordInfo) K) : Prop where
  ub : c.useBigrams = some ub
  nspam : c.nspam = spamTotal L
  nham : c.nham = hamTotal L
  info : ∀ w, c.store.get? w = recordOf L w

variable {K : Type}

theorem represents_new (ub : Bool) :
    Represents (0 : Ledger W) ub (Clf.new ub Dict.empty : Clf (Dict W WordInfo) K) :=
  ⟨rfl, rfl, rfl, fun _ => rfl⟩

theorem represents_afterAdd {L : Ledger W} {ub : Bool} {c : Clf (Dict W WordInfo) K}
    (h : Represents L ub c) (it : SetIter W) (ws : List W) (b : Bool) :
    Represents ((ws.toFinset, b) ::ₘ L) ub (afterAdd it ws b c) := by
  refine ⟨h.ub, ?_, ?_, ?_⟩
  · rw [spamTotal_cons]; cases b <;> simp [afterAdd, h.nspam]
  · rw [hamTotal_cons]; cases b <;> simp [afterAdd, h.nham]
  · intro w
    simp only [afterAdd, get?_addAll, h.info, recordOf_eq, spamCount_cons, hamCount_cons]
    by_cases hw : w ∈ ws
    · rw [if_pos hw, bump_mkRecord]
      cases b <;> simp [hw]
    · simp [hw]

theorem represents_afterRemove {L : Ledger W} {ub : Bool} {c : Clf (Dict W WordInfo) K}
    (ws : List W) (b : Bool) 
    (h : Represents ((ws.toFinset, b) ::ₘ L) ub c) (it : SetIter W) :
    Represents L ub (afterRemove it ws b c) := by
  refine ⟨h.ub, ?_, ?_, ?_⟩
  · have := h.nspam
    rw [spamTotal_cons] at this; cases b <;> simp [afterRemove] <;> simp at this <;> omega
  · have := h.nham
    rw [hamTotal_cons] at this; cases b <;> simp [afterRemove] <;> simp at this <;> omega
  · intro w
    simp only [afterRemove, get?_removeAll, h.info, recordOf_eq, spamCount_cons, hamCount_cons]
    by_cases hw : w ∈ ws
    · rw [if_pos hw]
      have := drop1_mkRecord b (spamCount L w) (hamCount L w)
      cases b <;> simpa [hw] using this
    · simp [hw]

theorem total_pos {L : Ledger W} {ub : Bool} {c : Clf (Dict W WordInfo) K} {ws : List W} {b : Bool}
    (h : Represents ((ws.toFinset, b) ::ₘ L) ub c) : ¬ total b c ≤ 0 := by
  have h1 := h.nspam
  have h2 := h.nham
  rw [spamTotal_cons] at h1
  rw [hamTotal_cons] at h2
  unfold total
  cases b
  · simp at h2 ⊢; omega
  · simp at h1 ⊢; omega

end

section
variable {W K : Type} [LinearOrder W] [BigramFormat W] [Field K] [LinearOrder K] (F : FloatOps K)

/-- Invariant: the object represents the ledger and its cache is coherent. -/
theorem exec_valid {ub : Bool} {L L' : Ledger W} {calls : List (Call W)}
    (hv : Valid ub L calls L') :
    ∀ c : Clf (Dict W WordInfo) K, Represents L ub c → Coherent F c →
      Represents L' ub (exec F (memory W) c calls).2 ∧
      Coherent F (exec F (memory W) c calls).2 := by
  induction hv with
  | nil L => intro c hc hk; exact ⟨hc, hk⟩
  | @learn L L' it s b calls _ ih =>
    intro c hc hk
    simp only [exec, runCall, learn_memory it s b c hc.ub, trainTokens_eq]
    exact ih _ (represents_afterAdd hc it _ b) (coherent_of_empty F _ rfl)
  | @unlearn L L' it s b calls hm _ ih =>
    intro c hc hk
    have hc' : Represents (msgOf ub s b ::ₘ L.erase (msgOf ub s b)) ub c := by
      rw [Multiset.cons_erase hm]; exact hc
    simp only [exec, runCall, unlearn_memory it s b c hc.ub, trainTokens_eq]
    rw [if_neg (total_pos hc')]
    exact ih _ (represents_afterRemove _ b hc' it) (coherent_of_empty F _ rfl)
  | @spamprob L L' it s ev calls _ ih =>
    intro c hc hk
    obtain ⟨-, h2, h3, h4, h5, h6⟩ := spamprob_memory (F := F) c hk it s ev
    simp only [exec, runCall]
    refine ih _ ⟨?_, ?_, ?_, ?_⟩ h2
    · rw [h6, hc.ub]
    · rw [h4, hc.nspam]
    · rw [h5, hc.nham]
    · rw [h3]; exact hc.info
  | @probability L L' r calls _ ih =>
    intro c hc hk
    obtain ⟨-, h2⟩ := computes_probability (F := F) (Inv := fun d => d = c.store)
      (ub := c.useBigrams) (nspam := c.nspam) (nham := c.nham) r c ⟨hk, rfl, rfl, rfl, rfl⟩
    simp only [exec, runCall]
    refine ih _ ⟨?_, ?_, ?_, ?_⟩ h2.coherent
    · rw [h2.ub, hc.ub]
    · rw [h2.nspam, hc.nspam]
    · rw [h2.nham, hc.nham]
    · rw [h2.inv]; exact hc.info

end
end Sb
