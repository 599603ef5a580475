import Verif.Model.Client

/- Helper lemmas: two classifiers whose record methods behave alike behave alike. -/

set_option linter.unusedSectionVars false

namespace Sb
open Py

variable {σ τ W K : Type}

/-- From related states the two give the same result and end in related states. -/
def Alike {α : Type} (R : σ → τ → Prop) (m : M σ α) (n : M τ α) : Prop :=
  ∀ s t, R s t → (m s).1 = (n t).1 ∧ R (m s).2 (n t).2

namespace Alike
variable {α β γ : Type} {R : σ → τ → Prop}

theorem pure (a : α) : Alike R (Pure.pure a) (Pure.pure a) := fun _ _ h => ⟨rfl, h⟩

theorem raise (e : Err) : Alike R (M.raise e : M σ α) (M.raise e) := fun _ _ h => ⟨rfl, h⟩

theorem bind {m : M σ α} {n : M τ α} {f : α → M σ β} {g : α → M τ β} (h : Alike R m n)
    (hf : ∀ a, Alike R (f a) (g a)) : Alike R (m >>= f) (n >>= g) := by
  intro s t hst
  obtain ⟨h1, h2⟩ := h s t hst
  rw [M.bind_run, M.bind_run]
  cases hm : m s with
  | mk r s' =>
    cases hn : n t with
    | mk r' t' =>
      rw [hm, hn] at h1 h2
      simp only at h1 h2
      subst h1
      cases r with
      | error e => exact ⟨rfl, h2⟩
      | ok a => exact hf a s' t' h2

theorem forEach {f : γ → M σ Unit} {g : γ → M τ Unit} (l : List γ)
    (h : ∀ x ∈ l, Alike R (f x) (g x)) : Alike R (M.forEach f l) (M.forEach g l) := by
  induction l with
  | nil => exact pure _
  | cons x xs ih =>
    exact bind (h x (by simp)) fun _ => ih fun y hy => h y (by simp [hy])

theorem mapAll {f : γ → M σ β} {g : γ → M τ β} (l : List γ)
    (h : ∀ x ∈ l, Alike R (f x) (g x)) : Alike R (M.mapAll f l) (M.mapAll g l) := by
  induction l with
  | nil => exact pure _
  | cons x xs ih =>
    exact bind (h x (by simp)) fun _ => bind (ih fun y hy => h y (by simp [hy])) fun _ => pure _

end Alike

/-- The record methods behave alike on words satisfying `P`. -/
structure BackendsAlike (R : σ → τ → Prop) (P : W → Prop) (B : Backend σ W) (B' : Backend τ W) :
    Prop where
  get : ∀ w, P w → Alike R (B.get w) (B'.get w)
  set : ∀ w r, P w → Alike R (B.set w r) (B'.set w r)
  del : ∀ w, P w → Alike R (B.del w) (B'.del w)
  post : ∀ n m, Alike R (B.post n m) (B'.post n m)

/-- Two unigram classifiers that agree but for their records, which are related. -/
structure ClfAlike (R : σ → τ → Prop) (c : Clf σ K) (d : Clf τ K) : Prop where
  ub : c.useBigrams = some false
  ub' : d.useBigrams = some false
  store : R c.store d.store
  cache : c.probcache = d.probcache
  nspam : c.nspam = d.nspam
  nham : c.nham = d.nham

section
variable {R : σ → τ → Prop} {P : W → Prop} {B : Backend σ W} {B' : Backend τ W}

theorem alike_onStore {α : Type} {m : M σ α} {n : M τ α} (h : Alike R m n) :
    Alike (ClfAlike (K := K) R) (onStore m) (onStore n) := by
  intro c d hcd
  obtain ⟨h1, h2⟩ := h c.store d.store hcd.store
  exact ⟨h1, ⟨hcd.ub, hcd.ub', h2, hcd.cache, hcd.nspam, hcd.nham⟩⟩

theorem alike_post (h : BackendsAlike R P B B') :
    Alike (ClfAlike (K := K) R) (postTraining B) (postTraining B') := by
  intro c d hcd
  unfold postTraining
  rw [← hcd.nspam, ← hcd.nham]
  exact alike_onStore (h.post _ _) c d hcd

theorem alike_addWord (h : BackendsAlike R P B B') (b : Bool) {w : W} (hw : P w) :
    Alike (ClfAlike (K := K) R) (addWord B b w) (addWord B' b w) := by
  unfold addWord
  exact .bind (alike_onStore (h.get w hw)) fun _ => alike_onStore (h.set w _ hw)

theorem alike_removeWord (h : BackendsAlike R P B B') (b : Bool) {w : W} (hw : P w) :
    Alike (ClfAlike (K := K) R) (removeWord B b w) (removeWord B' b w) := by
  unfold removeWord
  refine .bind (alike_onStore (h.get w hw)) fun o => ?_
  cases o with
  | none => exact .pure _
  | some r =>
    simp only
    generalize (if b = true then _ else _ : WordInfo) = r'
    by_cases hz : r'.hamcount = 0 ∧ r'.spamcount = 0
    · simp only [if_pos hz]
      exact alike_onStore (h.del w hw)
    · simp only [if_neg hz]
      exact alike_onStore (h.set w _ hw)

theorem alike_addMsg (h : BackendsAlike R P B B') (it : SetIter W) (ws : List W) (b : Bool)
    (hw : ∀ w ∈ ws, P w) : Alike (ClfAlike (K := K) R) (addMsg B it ws b) (addMsg B' it ws b) := by
  have tail : Alike (ClfAlike (K := K) R)
      (do M.forEach (addWord B b) (it.order ws); postTraining B)
      (do M.forEach (addWord B' b) (it.order ws); postTraining B') :=
    .bind (.forEach _ fun w hm => alike_addWord h b (hw w ((it.mem ws w).1 hm)))
      fun _ => alike_post h
  unfold addMsg
  refine .bind ?_ fun _ => ?_
  · intro c d hcd
    exact ⟨rfl, ⟨hcd.ub, hcd.ub', hcd.store, rfl, hcd.nspam, hcd.nham⟩⟩
  · cases b
    · refine Alike.bind ?_ fun _ => tail
      intro c d hcd
      exact ⟨rfl, ⟨hcd.ub, hcd.ub', hcd.store, hcd.cache, hcd.nspam, by simp [hcd.nham]⟩⟩
    · refine Alike.bind ?_ fun _ => tail
      intro c d hcd
      exact ⟨rfl, ⟨hcd.ub, hcd.ub', hcd.store, hcd.cache, by simp [hcd.nspam], hcd.nham⟩⟩

theorem alike_removeMsg (h : BackendsAlike R P B B') (it : SetIter W) (ws : List W) (b : Bool)
    (hw : ∀ w ∈ ws, P w) :
    Alike (ClfAlike (K := K) R) (removeMsg B it ws b) (removeMsg B' it ws b) := by
  have tail : Alike (ClfAlike (K := K) R)
      (do M.forEach (removeWord B b) (it.order ws); postTraining B)
      (do M.forEach (removeWord B' b) (it.order ws); postTraining B') :=
    .bind (.forEach _ fun w hm => alike_removeWord h b (hw w ((it.mem ws w).1 hm)))
      fun _ => alike_post h
  unfold removeMsg
  refine .bind ?_ fun _ => ?_
  · intro c d hcd
    exact ⟨rfl, ⟨hcd.ub, hcd.ub', hcd.store, rfl, hcd.nspam, hcd.nham⟩⟩
  · intro c d hcd
    rw [M.bind_run_ok (M.get_run _), M.bind_run_ok (M.get_run _)]
    cases b with
    | true =>
      simp only [if_true]
      rw [hcd.nspam]
      split
      · exact (Alike.bind (.raise _) fun _ => tail) c d hcd
      · refine (Alike.bind ?_ fun _ => tail) c d hcd
        intro c d hcd
        exact ⟨rfl, ⟨hcd.ub, hcd.ub', hcd.store, hcd.cache, by simp [hcd.nspam], hcd.nham⟩⟩
    | false =>
      simp only [Bool.false_eq_true, if_false]
      rw [hcd.nham]
      split
      · exact (Alike.bind (.raise _) fun _ => tail) c d hcd
      · refine (Alike.bind ?_ fun _ => tail) c d hcd
        intro c d hcd
        exact ⟨rfl, ⟨hcd.ub, hcd.ub', hcd.store, hcd.cache, hcd.nspam, by simp [hcd.nham]⟩⟩

variable [Field K] [LinearOrder K] (F : FloatOps K)

theorem alike_probability (r : WordInfo) :
    Alike (ClfAlike (K := K) R) (probability F r) (probability F r) := by
  intro c d hcd
  unfold probability
  rw [hcd.cache, hcd.nspam, hcd.nham]
  cases cacheGet d.probcache r with
  | some p => exact ⟨rfl, hcd⟩
  | none =>
    cases freshProbability F d.nspam d.nham r with
    | error e => exact ⟨rfl, hcd⟩
    | ok p => exact ⟨rfl, ⟨hcd.ub, hcd.ub', hcd.store, rfl, rfl, rfl⟩⟩

theorem alike_wordDistanceGet (h : BackendsAlike R P B B') {w : W} (hw : P w) :
    Alike (ClfAlike (K := K) R) (wordDistanceGet F B w) (wordDistanceGet F B' w) := by
  unfold wordDistanceGet
  refine .bind (alike_onStore (h.get w hw)) fun o => .bind ?_ fun _ => .pure _
  cases o with
  | none => exact .pure _
  | some r => exact alike_probability F r

variable [LinearOrder W] [BigramFormat W]

theorem alike_spamprob (h : BackendsAlike R P B B') (it : SetIter W) (s : Stream W) (ev : Bool)
    (hw : ∀ w ∈ s.items, P w) :
    Alike (ClfAlike (K := K) R) (spamprob F B it s ev) (spamprob F B' it s ev) := by
  unfold spamprob
  refine .bind ?_ fun clues => ?_
  · intro c d hcd
    unfold getClues
    rw [M.bind_run_ok (M.get_run _), M.bind_run_ok (M.get_run _), hcd.ub, hcd.ub']
    refine Alike.bind (.mapAll _ fun w hm => alike_wordDistanceGet F h (hw w ((it.mem _ w).1 hm)))
      (fun _ => .pure _) c d hcd
  · cases combine F (clues.map (·.prob)) with
    | error e => exact .raise _
    | ok v =>
      obtain ⟨p, S, H⟩ := v
      cases ev <;> exact .pure _

/-- The words of a call. -/
def WordsIn (P : W → Prop) : Call W → Prop
  | .learn _ s _ => ∀ w ∈ s.items, P w
  | .unlearn _ s _ => ∀ w ∈ s.items, P w
  | .spamprob _ s _ => ∀ w ∈ s.items, P w
  | .probability _ => True

theorem alike_runCall (h : BackendsAlike R P B B') (call : Call W) (hw : WordsIn P call)
    {c : Clf σ K} {d : Clf τ K} (hcd : ClfAlike R c d) :
    (runCall F B c call).1 = (runCall F B' d call).1 ∧
      ClfAlike R (runCall F B c call).2 (runCall F B' d call).2 := by
  cases call with
  | learn it s b =>
    have : Alike (ClfAlike (K := K) R) (learn B it s b) (learn B' it s b) := by
      intro c d hcd
      unfold learn
      rw [M.bind_run_ok (M.get_run _), M.bind_run_ok (M.get_run _), hcd.ub, hcd.ub']
      exact alike_addMsg h it s.items b hw c d hcd
    obtain ⟨h1, h2⟩ := this c d hcd
    exact ⟨by simp only [runCall, h1], h2⟩
  | unlearn it s b =>
    have : Alike (ClfAlike (K := K) R) (unlearn B it s b) (unlearn B' it s b) := by
      intro c d hcd
      unfold unlearn
      rw [M.bind_run_ok (M.get_run _), M.bind_run_ok (M.get_run _), hcd.ub, hcd.ub']
      exact alike_removeMsg h it s.items b hw c d hcd
    obtain ⟨h1, h2⟩ := this c d hcd
    exact ⟨by simp only [runCall, h1], h2⟩
  | spamprob it s ev =>
    obtain ⟨h1, h2⟩ := alike_spamprob F h it s ev hw c d hcd
    exact ⟨by simp only [runCall, h1], h2⟩
  | probability r =>
    obtain ⟨h1, h2⟩ := alike_probability (R := R) F r c d hcd
    exact ⟨by simp only [runCall, h1], h2⟩

end
end Sb
