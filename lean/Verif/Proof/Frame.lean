import Verif.Model.Classifier

/- Helper lemmas: state properties kept by whatever a method does, also if it
raises. -/

set_option linter.unusedSectionVars false

namespace Sb
open Py

/-- `m` keeps `P`, whether it returns or raises. -/
def Keeps {σ α : Type} (P : σ → Prop) (m : M σ α) : Prop := ∀ c, P c → P (m c).2

theorem Keeps.bind {σ α β : Type} {P : σ → Prop} {m : M σ α} {f : α → M σ β} (hm : Keeps P m)
    (hf : ∀ a, Keeps P (f a)) : Keeps P (m >>= f) := by
  intro c hc
  rw [M.bind_run]
  have := hm c hc
  cases h : m c with
  | mk r c' =>
    rw [h] at this
    cases r with
    | error e => exact this
    | ok a => exact hf a c' this

theorem Keeps.forEach {σ γ : Type} {P : σ → Prop} {f : γ → M σ Unit} {l : List γ}
    (hf : ∀ x ∈ l, Keeps P (f x)) : Keeps P (M.forEach f l) := by
  induction l with
  | nil => intro c hc; exact hc
  | cons x t ih =>
    rw [M.forEach_cons]
    exact Keeps.bind (hf x (by simp)) (fun _ => ih (fun y hy => hf y (by simp [hy])))

section
variable {σ W K : Type} {B : Backend σ W} {P : σ → Prop}

/-- the record methods keep `P` -/
structure BackendKeeps (B : Backend σ W) (P : σ → Prop) : Prop where
  get : ∀ w, Keeps P (B.get w)
  set : ∀ w r, Keeps P (B.set w r)
  del : ∀ w, Keeps P (B.del w)
  post : ∀ n m, Keeps P (B.post n m)

theorem Keeps.onStore {α : Type} {m : M σ α} (hm : Keeps P m) :
    Keeps (fun c : Clf σ K => P c.store) (onStore m) := by
  intro c hc
  exact hm c.store hc

theorem Keeps.post (h : BackendKeeps B P) : Keeps (fun c : Clf σ K => P c.store) (postTraining B) :=
  fun c hc => h.post _ _ c.store hc

theorem Keeps.addWord (h : BackendKeeps B P) (b : Bool) (w : W) :
    Keeps (fun c : Clf σ K => P c.store) (addWord B b w) :=
  Keeps.bind (Keeps.onStore (h.get w)) (fun _ => Keeps.onStore (h.set w _))

theorem Keeps.removeWord (h : BackendKeeps B P) (b : Bool) (w : W) :
    Keeps (fun c : Clf σ K => P c.store) (removeWord B b w) := by
  refine Keeps.bind (Keeps.onStore (h.get w)) (fun o => ?_)
  cases o with
  | none => exact fun c hc => hc
  | some r =>
    have key : ∀ q : WordInfo, Keeps (fun c : Clf σ K => P c.store)
        (if q.hamcount = 0 ∧ q.spamcount = 0 then Sb.onStore (B.del w) else Sb.onStore (B.set w q)) := by
      intro q
      split
      · exact Keeps.onStore (h.del w)
      · exact Keeps.onStore (h.set w _)
    exact key _

theorem Keeps.addMsg (h : BackendKeeps B P) (it : SetIter W) (ws : List W) (b : Bool) :
    Keeps (fun c : Clf σ K => P c.store) (addMsg B it ws b) := by
  refine Keeps.bind (fun c hc => hc) (fun _ => ?_)
  have h2 : Keeps (fun c : Clf σ K => P c.store)
      (M.forEach (Sb.addWord B b) (it.order ws) >>= fun _ => postTraining B) :=
    Keeps.bind (Keeps.forEach (fun w _ => Keeps.addWord h b w)) (fun _ => Keeps.post h)
  cases b
  · exact Keeps.bind (fun c hc => hc) (fun _ => h2)
  · exact Keeps.bind (fun c hc => hc) (fun _ => h2)

theorem Keeps.removeMsg (h : BackendKeeps B P) (it : SetIter W) (ws : List W) (b : Bool) :
    Keeps (fun c : Clf σ K => P c.store) (removeMsg B it ws b) := by
  refine Keeps.bind (fun c hc => hc) (fun _ => ?_)
  refine Keeps.bind (fun c hc => hc) (fun c0 => ?_)
  have h2 : Keeps (fun c : Clf σ K => P c.store)
      (M.forEach (Sb.removeWord B b) (it.order ws) >>= fun _ => postTraining B) :=
    Keeps.bind (Keeps.forEach (fun w _ => Keeps.removeWord h b w)) (fun _ => Keeps.post h)
  cases b
  · simp only [Bool.false_eq_true, if_false]
    split
    · exact fun c hc => hc
    · exact Keeps.bind (fun c hc => hc) (fun _ => h2)
  · simp only [if_true]
    split
    · exact fun c hc => hc
    · exact Keeps.bind (fun c hc => hc) (fun _ => h2)

theorem Keeps.learn [BigramFormat W] (h : BackendKeeps B P) (it : SetIter W) (s : Stream W) (b : Bool) :
    Keeps (fun c : Clf σ K => P c.store) (learn B it s b) := by
  refine Keeps.bind (fun c hc => hc) (fun c0 => ?_)
  cases c0.useBigrams with
  | none => exact fun c hc => hc
  | some ub => exact Keeps.addMsg h it _ b

theorem Keeps.unlearn [BigramFormat W] (h : BackendKeeps B P) (it : SetIter W) (s : Stream W) (b : Bool) :
    Keeps (fun c : Clf σ K => P c.store) (unlearn B it s b) := by
  refine Keeps.bind (fun c hc => hc) (fun c0 => ?_)
  cases c0.useBigrams with
  | none => exact fun c hc => hc
  | some ub => exact Keeps.removeMsg h it _ b

end
end Sb
