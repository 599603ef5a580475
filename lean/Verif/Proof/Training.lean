import Verif.Model.Classifier
import Mathlib.Data.List.Nodup
import Mathlib.Data.List.Dedup

/- Helper lemmas: the effect of `learn` / `unlearn` of the in-memory classifier
on the lookup function. -/

set_option linter.unusedSectionVars false

namespace Sb
open Py

variable {W K : Type} [DecidableEq W]

theorem forEach_total {σ γ : Type} {f : γ → M σ Unit} {g : σ → γ → σ}
    (h : ∀ x c, f x c = (.ok (), g c x)) (l : List γ) (c : σ) :
    M.forEach f l c = (.ok (), l.foldl g c) := by
  induction l generalizing c with
  | nil => rfl
  | cons x xs ih => rw [M.forEach_cons, M.bind_run_ok (h x c)]; exact ih _

/-- one more message of class `b` -/
def bump (b : Bool) (o : Option WordInfo) : WordInfo :=
  let r := o.getD WordInfo.new
  if b then { r with spamcount := r.spamcount + 1 } else { r with hamcount := r.hamcount + 1 }

/-- one message of class `b` less, not below zero -/
def dec1 (b : Bool) (r : WordInfo) : WordInfo :=
  if b then
    if r.spamcount > 0 then { r with spamcount := r.spamcount - 1 } else r
  else
    if r.hamcount > 0 then { r with hamcount := r.hamcount - 1 } else r

/-- lookup after one message of class `b` less -/
def drop1 (b : Bool) (o : Option WordInfo) : Option WordInfo :=
  match o with
  | none => none
  | some r => if (dec1 b r).hamcount = 0 ∧ (dec1 b r).spamcount = 0 then none else some (dec1 b r)

def addStore (b : Bool) (d : Dict W WordInfo) (w : W) : Dict W WordInfo :=
  d.set w (bump b (d.get? w))

def removeStore (b : Bool) (d : Dict W WordInfo) (w : W) : Dict W WordInfo :=
  match drop1 b (d.get? w), d.get? w with
  | some r, _ => d.set w r
  | none, some _ => d.erase w
  | none, none => d

theorem addWord_memory (b : Bool) (w : W) (c : Clf (Dict W WordInfo) K) :
    addWord (memory W) b w c = (.ok (), { c with store := addStore b c.store w }) := rfl

theorem removeWord_memory (b : Bool) (w : W) (c : Clf (Dict W WordInfo) K) :
    removeWord (memory W) b w c = (.ok (), { c with store := removeStore b c.store w }) := by
  have hget : onStore (K := K) ((memory W).get w) c = (.ok (c.store.get? w), c) := rfl
  unfold removeWord
  rw [M.bind_run_ok hget]
  cases h : c.store.get? w with
  | none => simp [removeStore, drop1, h]
  | some r =>
    simp only [removeStore, drop1, h]
    change (if (dec1 b r).hamcount = 0 ∧ (dec1 b r).spamcount = 0 then onStore ((memory W).del w)
      else onStore ((memory W).set w (dec1 b r)) : M (Clf (Dict W WordInfo) K) Unit) c = _
    split
    · simp [onStore, memory, Dict.contains, h]
    · rfl

theorem foldl_store (g : Dict W WordInfo → W → Dict W WordInfo) (l : List W)
    (c : Clf (Dict W WordInfo) K) :
    l.foldl (fun c w => { c with store := g c.store w }) c = { c with store := l.foldl g c.store } := by
  induction l generalizing c with
  | nil => rfl
  | cons x xs ih => simp only [List.foldl_cons]; rw [ih]

theorem get?_addStore (b : Bool) (d : Dict W WordInfo) (w w' : W) :
    (addStore b d w).get? w' = if w = w' then some (bump b (d.get? w')) else d.get? w' := by
  unfold addStore
  rw [Dict.get?_set]
  split
  · rename_i h; rw [h]
  · rfl

theorem get?_removeStore (b : Bool) (d : Dict W WordInfo) (w w' : W) :
    (removeStore b d w).get? w' = if w = w' then drop1 b (d.get? w') else d.get? w' := by
  unfold removeStore
  by_cases hw : w = w'
  · subst hw
    rw [if_pos rfl]
    cases h : d.get? w with
    | none => simp [drop1, h]
    | some r =>
      cases h2 : drop1 b (some r) with
      | none => simp
      | some r' => simp
  · rw [if_neg hw]
    split
    · rw [Dict.get?_set, if_neg hw]
    · rw [Dict.get?_erase, if_neg hw]
    · rfl

theorem get?_foldl {g : Dict W WordInfo → W → Dict W WordInfo}
    {f : Option WordInfo → Option WordInfo}
    (hg : ∀ d w w', (g d w).get? w' = if w = w' then f (d.get? w') else d.get? w')
    (l : List W) (hl : l.Nodup) (d : Dict W WordInfo) (w : W) :
    (l.foldl g d).get? w = if w ∈ l then f (d.get? w) else d.get? w := by
  induction l generalizing d with
  | nil => simp
  | cons x xs ih =>
    rw [List.nodup_cons] at hl
    rw [List.foldl_cons, ih hl.2, hg]
    by_cases hx : x = w
    · subst hx
      simp [hl.1]
    · have : w ≠ x := fun h => hx h.symm
      simp [hx, this]

/-- the in-memory store after learning the tokens `ws` -/
def addAll (it : SetIter W) (ws : List W) (b : Bool) (d : Dict W WordInfo) : Dict W WordInfo :=
  (it.order ws).foldl (addStore b) d

def removeAll (it : SetIter W) (ws : List W) (b : Bool) (d : Dict W WordInfo) : Dict W WordInfo :=
  (it.order ws).foldl (removeStore b) d

theorem get?_addAll (it : SetIter W) (ws : List W) (b : Bool) (d : Dict W WordInfo) (w : W) :
    (addAll it ws b d).get? w = if w ∈ ws then some (bump b (d.get? w)) else d.get? w := by
  unfold addAll
  rw [get?_foldl (f := fun o => some (bump b o)) (fun d w w' => get?_addStore b d w w')
    _ (it.nodup ws)]
  simp [it.mem]

theorem get?_removeAll (it : SetIter W) (ws : List W) (b : Bool) (d : Dict W WordInfo) (w : W) :
    (removeAll it ws b d).get? w = if w ∈ ws then drop1 b (d.get? w) else d.get? w := by
  unfold removeAll
  rw [get?_foldl (f := drop1 b) (fun d w w' => get?_removeStore b d w w') _ (it.nodup ws)]
  simp [it.mem]

/-- the object after `_add_msg` -/
def afterAdd (it : SetIter W) (ws : List W) (b : Bool) (c : Clf (Dict W WordInfo) K) :
    Clf (Dict W WordInfo) K :=
  { useBigrams := c.useBigrams
    store := addAll it ws b c.store
    probcache := Dict.empty
    nspam := if b then c.nspam + 1 else c.nspam
    nham := if b then c.nham else c.nham + 1 }

/-- the object after a successful `_remove_msg` -/
def afterRemove (it : SetIter W) (ws : List W) (b : Bool) (c : Clf (Dict W WordInfo) K) :
    Clf (Dict W WordInfo) K :=
  { useBigrams := c.useBigrams
    store := removeAll it ws b c.store
    probcache := Dict.empty
    nspam := if b then c.nspam - 1 else c.nspam
    nham := if b then c.nham else c.nham - 1 }

theorem postTraining_memory (c : Clf (Dict W WordInfo) K) :
    postTraining (memory W) c = (.ok (), c) := rfl

theorem addMsg_memory (it : SetIter W) (ws : List W) (b : Bool) (c : Clf (Dict W WordInfo) K) :
    addMsg (memory W) it ws b c = (.ok (), afterAdd it ws b c) := by
  have hloop : ∀ c : Clf (Dict W WordInfo) K, M.forEach (addWord (memory W) b) (it.order ws) c =
      (.ok (), { c with store := addAll it ws b c.store }) := by
    intro c
    rw [forEach_total (g := fun c w => { c with store := addStore b c.store w })
      (fun w c => addWord_memory b w c), foldl_store]
    rfl
  unfold addMsg
  rw [M.bind_run_ok (M.modify_run _ _)]
  cases b
  · rw [if_neg (by decide), M.bind_run_ok (M.modify_run _ _)]
    exact M.bind_run_ok (hloop _)
  · rw [if_pos rfl, M.bind_run_ok (M.modify_run _ _)]
    exact M.bind_run_ok (hloop _)

/-- the total that `_remove_msg` checks -/
def total (b : Bool) {σ : Type} (c : Clf σ K) : Int := if b then c.nspam else c.nham

theorem removeMsg_memory (it : SetIter W) (ws : List W) (b : Bool) (c : Clf (Dict W WordInfo) K) :
    removeMsg (memory W) it ws b c =
      if total b c ≤ 0 then (.error .valueError, { c with probcache := Dict.empty })
      else (.ok (), afterRemove it ws b c) := by
  have hloop : ∀ c : Clf (Dict W WordInfo) K, M.forEach (removeWord (memory W) b) (it.order ws) c =
      (.ok (), { c with store := removeAll it ws b c.store }) := by
    intro c
    rw [forEach_total (g := fun c w => { c with store := removeStore b c.store w })
      (fun w c => removeWord_memory b w c), foldl_store]
    rfl
  unfold removeMsg total
  rw [M.bind_run_ok (M.modify_run _ _), M.bind_run_ok (M.get_run _)]
  cases b
  · simp only [Bool.false_eq_true, if_false]
    by_cases h : c.nham ≤ 0
    · rw [if_pos h, if_pos h]; rfl
    · rw [if_neg h, if_neg h, M.bind_run_ok (M.modify_run _ _)]
      exact M.bind_run_ok (hloop _)
  · simp only [if_true]
    by_cases h : c.nspam ≤ 0
    · rw [if_pos h, if_pos h]; rfl
    · rw [if_neg h, if_neg h, M.bind_run_ok (M.modify_run _ _)]
      exact M.bind_run_ok (hloop _)

variable [BigramFormat W]

theorem learn_memory (it : SetIter W) (s : Stream W) (b : Bool) (c : Clf (Dict W WordInfo) K)
    {ub : Bool} (hub : c.useBigrams = some ub) :
    learn (memory W) it s b c = (.ok (), afterAdd it (trainTokens ub s) b c) := by
  unfold learn
  rw [M.bind_run_ok (M.get_run _), hub]
  exact addMsg_memory ..

theorem unlearn_memory (it : SetIter W) (s : Stream W) (b : Bool) (c : Clf (Dict W WordInfo) K)
    {ub : Bool} (hub : c.useBigrams = some ub) :
    unlearn (memory W) it s b c =
      if total b c ≤ 0 then (.error .valueError, { c with probcache := Dict.empty })
      else (.ok (), afterRemove it (trainTokens ub s) b c) := by
  unfold unlearn
  rw [M.bind_run_ok (M.get_run _)]
  simp only [hub]
  rw [removeMsg_memory it (trainTokens ub s) b c, hub]

/-! Record arithmetic -/

theorem drop1_bump {b : Bool} {o : Option WordInfo}
    (h : ∀ r, o = some r → 0 ≤ r.spamcount ∧ 0 ≤ r.hamcount ∧ (r.spamcount ≠ 0 ∨ r.hamcount ≠ 0)) :
    drop1 b (some (bump b o)) = o := by
  cases o with
  | none => cases b <;> simp [drop1, bump, dec1, WordInfo.new]
  | some r =>
    obtain ⟨h1, h2, h3⟩ := h r rfl
    obtain ⟨s, hh⟩ := r
    simp only at h1 h2 h3
    cases b
    · have : hh + 1 > 0 := by omega
      simp only [drop1, bump, dec1, Option.getD_some, Bool.false_eq_true, if_false, this, if_true,
        Int.add_sub_cancel]
      rw [if_neg (by omega)]
    · have : s + 1 > 0 := by omega
      simp only [drop1, bump, dec1, Option.getD_some, this, if_true,
        Int.add_sub_cancel]
      rw [if_neg (by omega)]

end Sb
