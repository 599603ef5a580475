import Verif.Proof.Shelve

/- Helper lemmas: what is in the file of a ShelveClassifier, key by key. -/

set_option linter.unusedSectionVars false

namespace Sb
open Py

section
variable {W K : Type} [DecidableEq W]

/-- a step that writes at most one key, `w` -/
structure Touch (w : W) (s s' : Shelf W) : Prop where
  trace : (s'.trace = s.trace ∧ s'.db = s.db) ∨ s'.trace = s.trace ++ [s'.db]
  frame : ∀ x, x ≠ w → s'.db.get? x = s.db.get? x

/-- a step of training: the record of one word, written only if the word is counted once -/
structure Trains (w : W) (s s' : Shelf W) : Prop extends Touch w s s' where
  view : ∀ x, x ≠ w → view s' x = view s x
  write : s'.db.get? w = s.db.get? w ∨
    ∃ r, Sb.view s' w = some r ∧ r.spamcount + r.hamcount ≤ 1

/-- every contents on the way is old or new at each key -/
def Between (s s' : Shelf W) : Prop :=
  ∀ db ∈ s'.trace, db ∈ s.trace ∨ ∀ x, db.get? x = s.db.get? x ∨ db.get? x = s'.db.get? x

theorem between_refl (s : Shelf W) : Between s s := fun _ h => .inl h

/-- a step without a write, then another one -/
theorem Trains.after_quiet {w : W} {s s1 s' : Shelf W} (h1 : s1.db = s.db) (h2 : s1.trace = s.trace)
    (h3 : ∀ x, x ≠ w → Sb.view s1 x = Sb.view s x) (h : Trains w s1 s') : Trains w s s' := by
  refine ⟨⟨?_, ?_⟩, ?_, ?_⟩
  · rw [← h1, ← h2]; exact h.trace
  · intro x hx; rw [← h1]; exact h.frame x hx
  · intro x hx; rw [h.view x hx, h3 x hx]
  · rw [← h1]; exact h.write

theorem Trains.refl (w : W) (s : Shelf W) : Trains w s s :=
  ⟨⟨.inl ⟨rfl, rfl⟩, fun _ _ => rfl⟩, fun _ _ => rfl, .inl rfl⟩

theorem trains_get (w : W) (s : Shelf W) : (shelfGet w s).2.db = s.db ∧ (shelfGet w s).2.trace = s.trace ∧
    ∀ x, x ≠ w → Sb.view (shelfGet w s).2 x = Sb.view s x := by
  unfold shelfGet
  cases h1 : s.wordinfo.get? w with
  | some r => exact ⟨rfl, rfl, fun _ _ => rfl⟩
  | none =>
    simp only
    split
    · exact ⟨rfl, rfl, fun _ _ => rfl⟩
    · split
      · exact ⟨rfl, rfl, fun _ _ => rfl⟩
      · refine ⟨rfl, rfl, fun x hx => ?_⟩
        unfold view
        simp only [Dict.get?_set_ne _ _ (Ne.symm hx)]
      · exact ⟨rfl, rfl, fun _ _ => rfl⟩

theorem trains_set (w : W) (r : WordInfo) (s : Shelf W) : Trains w s (shelfSet w r s).2 := by
  unfold shelfSet
  split
  · rename_i h
    refine ⟨⟨.inr rfl, ?_⟩, ?_, .inr ⟨r, ?_, h⟩⟩
    · intro x hx
      simp only [Dict.get?_set_ne _ _ (Ne.symm hx)]
    · intro x hx
      unfold view
      simp only [Dict.get?_erase, Dict.get?_set_ne _ _ (Ne.symm hx), mem_setRemove, if_neg (Ne.symm hx)]
      simp [hx]
    · unfold view
      simp [mem_setRemove]
  · refine ⟨⟨.inl ⟨rfl, rfl⟩, fun _ _ => rfl⟩, ?_, .inl rfl⟩
    intro x hx
    unfold view
    simp only [Dict.get?_set_ne _ _ (Ne.symm hx)]

theorem trains_del (w : W) (s : Shelf W) : Trains w s (shelfDel w s).2 := by
  unfold shelfDel
  split
  · refine ⟨⟨.inl ⟨rfl, rfl⟩, fun _ _ => rfl⟩, ?_, .inl rfl⟩
    intro x hx
    unfold view
    simp only [Dict.get?_erase, if_neg (Ne.symm hx), mem_setAdd]
    simp [hx]
  · exact .refl w s

theorem addWord_trains {sk : W} (b : Bool) (w : W) (c : Clf (Shelf W) K) :
    Trains w c.store (addWord (shelf sk) b w c).2.store := by
  obtain ⟨g1, g2, g3⟩ := trains_get w c.store
  unfold addWord
  rw [M.bind_run]
  have e : onStore (K := K) ((shelf sk).get w) c =
      ((shelfGet w c.store).1, { c with store := (shelfGet w c.store).2 }) := rfl
  rw [e]
  cases h : shelfGet w c.store with
  | mk o s1 =>
    rw [h] at g1 g2 g3
    cases o with
    | error e => exact (Trains.refl w s1).after_quiet g1 g2 g3
    | ok a => exact (trains_set w _ s1).after_quiet g1 g2 g3

theorem removeWord_trains {sk : W} (b : Bool) (w : W) (c : Clf (Shelf W) K) :
    Trains w c.store (removeWord (shelf sk) b w c).2.store := by
  obtain ⟨g1, g2, g3⟩ := trains_get w c.store
  unfold removeWord
  rw [M.bind_run]
  have e : onStore (K := K) ((shelf sk).get w) c =
      ((shelfGet w c.store).1, { c with store := (shelfGet w c.store).2 }) := rfl
  rw [e]
  cases h : shelfGet w c.store with
  | mk o s1 =>
    rw [h] at g1 g2 g3
    cases o with
    | error e => exact (Trains.refl w s1).after_quiet g1 g2 g3
    | ok a =>
      cases a with
      | none => exact (Trains.refl w s1).after_quiet g1 g2 g3
      | some r =>
        simp only
        generalize (if b = true then if r.spamcount > 0 then ({ r with spamcount := r.spamcount - 1 } : WordInfo) else r
          else if r.hamcount > 0 then { r with hamcount := r.hamcount - 1 } else r) = q
        split
        · exact (trains_del w s1).after_quiet g1 g2 g3
        · exact (trains_set w _ s1).after_quiet g1 g2 g3

/-- a loop over different words -/
theorem forEach_touch {σ : Type} (π : σ → Shelf W) {f : W → M σ Unit}
    (h : ∀ w s, Touch w (π s) (π (f w s).2)) (l : List W) (hl : l.Nodup) (s : σ) :
    (∀ x, x ∉ l → (π (M.forEach f l s).2).db.get? x = (π s).db.get? x) ∧
    Between (π s) (π (M.forEach f l s).2) := by
  induction l generalizing s with
  | nil => exact ⟨fun _ _ => rfl, between_refl _⟩
  | cons w t ih =>
    obtain ⟨hw, ht⟩ := List.nodup_cons.1 hl
    obtain ⟨h1, h2⟩ := h w s
    rw [M.forEach_cons, M.bind_run]
    cases hf : f w s with
    | mk o s1 =>
      rw [hf] at h1 h2
      have hstep : Between (π s) (π s1) := by
        intro db hdb
        rcases h1 with ⟨h1, -⟩ | h1
        · rw [h1] at hdb; exact .inl hdb
        · simp only [h1, List.mem_append, List.mem_singleton] at hdb
          rcases hdb with hdb | rfl
          · exact .inl hdb
          · exact .inr (fun x => .inr rfl)
      cases o with
      | error e =>
        refine ⟨fun x hx => h2 x (by rintro rfl; simp at hx), hstep⟩
      | ok u =>
        obtain ⟨i1, i2⟩ := ih ht s1
        refine ⟨fun x hx => ?_, fun db hdb => ?_⟩
        · simp only [List.mem_cons, not_or] at hx
          exact (i1 x hx.2).trans (h2 x hx.1)
        · rcases i2 db hdb with hd | hd
          · rcases hstep db hd with hd | hd
            · exact .inl hd
            · refine .inr (fun x => ?_)
              rcases hd x with e | e
              · exact .inl e
              · by_cases hx : x = w
                · subst hx; exact .inr (e.trans (i1 x hw).symm)
                · exact .inl (e.trans (h2 x hx))
          · refine .inr (fun x => ?_)
            rcases hd x with e | e
            · by_cases hx : x = w
              · subst hx; exact .inr (e.trans (i1 x hw).symm)
              · exact .inl (e.trans (h2 x hx))
            · exact .inr e

/-- a loop of training -/
theorem forEach_trains {σ : Type} (π : σ → Shelf W) {f : W → M σ Unit}
    (h : ∀ w s, Trains w (π s) (π (f w s).2)) (l : List W) (hl : l.Nodup) (s : σ) :
    (∀ x, x ∉ l → view (π (M.forEach f l s).2) x = view (π s) x) ∧
    ∀ x, (π (M.forEach f l s).2).db.get? x = (π s).db.get? x ∨
      ∃ r, view (π (M.forEach f l s).2) x = some r ∧ r.spamcount + r.hamcount ≤ 1 := by
  induction l generalizing s with
  | nil => exact ⟨fun _ _ => rfl, fun _ => .inl rfl⟩
  | cons w t ih =>
    obtain ⟨hw, ht⟩ := List.nodup_cons.1 hl
    obtain ⟨⟨-, h2⟩, h3, h4⟩ := h w s
    rw [M.forEach_cons, M.bind_run]
    cases hf : f w s with
    | mk o s1 =>
      rw [hf] at h2 h3 h4
      have hstep : ∀ x, (π s1).db.get? x = (π s).db.get? x ∨
          ∃ r, view (π s1) x = some r ∧ r.spamcount + r.hamcount ≤ 1 := by
        intro x
        by_cases hx : x = w
        · subst hx; exact h4
        · exact .inl (h2 x hx)
      cases o with
      | error e => exact ⟨fun x hx => h3 x (by rintro rfl; simp at hx), hstep⟩
      | ok u =>
        obtain ⟨i1, i2⟩ := ih ht s1
        refine ⟨fun x hx => ?_, fun x => ?_⟩
        · simp only [List.mem_cons, not_or] at hx
          exact (i1 x hx.2).trans (h3 x hx.1)
        · rcases i2 x with e | e
          · rcases hstep x with e' | ⟨r, e', hr⟩
            · exact .inl (e.trans e')
            · by_cases hx : x = w
              · subst hx
                exact .inr ⟨r, (i1 x hw).trans e', hr⟩
              · exact .inl (e.trans (h2 x hx))
          · exact .inr e

/-- then the state key is written -/
theorem between_state {sk : W} {s s1 : Shelf W} (h : Between s s1) (hk : s1.db.get? sk = s.db.get? sk)
    (n m : Int) : Between s (writeStateKey sk n m s1).2 := by
  intro db hdb
  change db ∈ s1.trace ++ [s1.db.set sk (.state pickleVersion n m)] at hdb
  simp only [List.mem_append, List.mem_singleton] at hdb
  rcases hdb with hdb | rfl
  · rcases h db hdb with h | h
    · exact .inl h
    · refine .inr (fun x => ?_)
      by_cases hx : x = sk
      · subst hx
        exact .inl ((h x).elim id (fun e => e.trans hk))
      · refine (h x).imp id (fun e => e.trans ?_)
        change _ = (s1.db.set sk _).get? x
        rw [Dict.get?_set_ne _ _ (Ne.symm hx)]
  · exact .inr (fun x => .inr rfl)

theorem view_state {sk : W} (s : Shelf W) (n m : Int) {w : W} (hw : w ≠ sk) :
    view (writeStateKey sk n m s).2 w = view s w ∧
    (writeStateKey sk n m s).2.db.get? w = s.db.get? w := by
  have : (writeStateKey sk n m s).2.db.get? w = s.db.get? w := by
    change (s.db.set sk _).get? w = _
    rw [Dict.get?_set_ne _ _ (Ne.symm hw)]
  refine ⟨?_, this⟩
  unfold view
  rw [this]
  rfl

/-- training with one message -/
structure Call1 (sk : W) (s s' : Shelf W) : Prop where
  between : Between s s'
  write : ∀ x, x ≠ sk → s'.db.get? x = s.db.get? x ∨
    ∃ r, view s' x = some r ∧ r.spamcount + r.hamcount ≤ 1

theorem call1_refl (sk : W) (s : Shelf W) : Call1 sk s s := ⟨between_refl s, fun _ _ => .inl rfl⟩

/-- the loop of `_add_msg` or `_remove_msg`, and the state key -/
theorem call1_loop {sk : W} {f : W → M (Clf (Shelf W) K) Unit}
    (h : ∀ w c, Trains w c.store (f w c).2.store) {l : List W} (hl : l.Nodup) (hsk : sk ∉ l)
    (c : Clf (Shelf W) K) :
    Call1 sk c.store ((do M.forEach f l; postTraining (shelf sk) : M (Clf (Shelf W) K) Unit) c).2.store := by
  obtain ⟨h1, h2⟩ := forEach_touch (fun c : Clf (Shelf W) K => c.store) (fun w c => (h w c).toTouch) l hl c
  obtain ⟨-, h4⟩ := forEach_trains (fun c : Clf (Shelf W) K => c.store) h l hl c
  rw [M.bind_run]
  cases hf : M.forEach f l c with
  | mk o c1 =>
    rw [hf] at h1 h2 h4
    cases o with
    | error e => exact ⟨h2, fun x _ => h4 x⟩
    | ok u =>
      have e : (postTraining (shelf sk) c1).2.store = (writeStateKey sk c1.nspam c1.nham c1.store).2 := rfl
      simp only
      rw [e]
      refine ⟨between_state h2 (h1 sk hsk) _ _, fun x hx => ?_⟩
      obtain ⟨v1, v2⟩ := view_state c1.store c1.nspam c1.nham hx
      rw [v1, v2]
      exact h4 x

theorem addMsg_call1 {sk : W} (it : SetIter W) (ws : List W) (hws : sk ∉ ws) (b : Bool) (c : Clf (Shelf W) K) :
    Call1 sk c.store (addMsg (shelf sk) it ws b c).2.store := by
  have hsk : sk ∉ it.order ws := fun h => hws ((it.mem _ _).1 h)
  cases b with
  | true =>
    exact call1_loop (addWord_trains (sk := sk) true) (it.nodup ws) hsk
      { c with probcache := Dict.empty, nspam := c.nspam + 1 }
  | false =>
    exact call1_loop (addWord_trains (sk := sk) false) (it.nodup ws) hsk
      { c with probcache := Dict.empty, nham := c.nham + 1 }

theorem removeMsg_call1 {sk : W} (it : SetIter W) (ws : List W) (hws : sk ∉ ws) (b : Bool)
    (c : Clf (Shelf W) K) : Call1 sk c.store (removeMsg (shelf sk) it ws b c).2.store := by
  have hsk : sk ∉ it.order ws := fun h => hws ((it.mem _ _).1 h)
  unfold removeMsg
  rw [M.bind_run_ok (M.modify_run _ _), M.bind_run_ok (M.get_run _)]
  cases b with
  | true =>
    simp only [if_true]
    by_cases ht : c.nspam ≤ 0
    · simp only [if_pos ht]
      exact call1_refl sk c.store
    · simp only [if_neg ht]
      exact call1_loop (removeWord_trains (sk := sk) true) (it.nodup ws) hsk
        { c with probcache := Dict.empty, nspam := c.nspam - 1 }
  | false =>
    simp only [Bool.false_eq_true, if_false]
    by_cases ht : c.nham ≤ 0
    · simp only [if_pos ht]
      exact call1_refl sk c.store
    · simp only [if_neg ht]
      exact call1_loop (removeWord_trains (sk := sk) false) (it.nodup ws) hsk
        { c with probcache := Dict.empty, nham := c.nham - 1 }

theorem touch_put (w : W) (v : DbVal) (s : Shelf W) : Touch w s (Shelf.put w v s).2 :=
  ⟨.inr rfl, fun _ hx => Dict.get?_set_ne _ _ (Ne.symm hx)⟩

theorem storeChanged_touch (w : W) (s : Shelf W) : Touch w s (storeChanged w s).2 := by
  unfold storeChanged
  split
  · exact (Trains.refl w s).toTouch
  · exact touch_put w _ s

theorem storeDeleted_touch (w : W) (s : Shelf W) : Touch w s (storeDeleted w s).2 := by
  unfold storeDeleted
  split
  · exact (Trains.refl w s).toTouch
  · refine ⟨.inr rfl, fun x hx => ?_⟩
    change (s.db.erase w).get? x = _
    rw [Dict.get?_erase, if_neg (Ne.symm hx)]

/-- the contents during `store` -/
theorem store_between {sk : W} (it it' : SetIter W) {c : Clf (Shelf W) K} {d : Dict W WordInfo}
    (h : Rel sk c.store d) : Between c.store (shelveStore sk it it' c).2.store := by
  obtain ⟨hi, hs, ha⟩ := h
  obtain ⟨s1, e1, a1, a2, a3, a4⟩ := storeChanged_all (sk := sk) (it.order c.store.changed) c.store hi
    (fun w hw => (it.mem _ _).1 hw)
  obtain ⟨s2, e2, b1, b4⟩ := storeDeleted_all (it'.order s1.deleted) s1 (fun w hw => by
    rw [a1]; exact hi.deleted w (by rw [← a3]; exact (it'.mem _ _).1 hw))
  obtain ⟨p1, p2⟩ := forEach_touch (fun s : Shelf W => s) storeChanged_touch _ (it.nodup c.store.changed) c.store
  obtain ⟨q1, q2⟩ := forEach_touch (fun s : Shelf W => s) storeDeleted_touch _ (it'.nodup s1.deleted) s1
  rw [e1] at p1 p2
  rw [e2] at q1 q2
  simp only [it.mem] at p1
  simp only [it'.mem, a3] at q1
  have hdis : ∀ x ∈ c.store.deleted, x ∉ c.store.changed := by
    intro x hx hc
    obtain ⟨r, hr, -⟩ := hi.changed x hc
    rw [hi.deleted x hx] at hr
    cases hr
  have hb : Between c.store s2 := by
    intro db hdb
    rcases q2 db hdb with hd | hd
    · rcases p2 db hd with hd | hd
      · exact .inl hd
      · refine .inr (fun x => ?_)
        rcases hd x with e | e
        · exact .inl e
        · by_cases hx : x ∈ c.store.deleted
          · exact .inl (e.trans (p1 x (hdis x hx)))
          · exact .inr (e.trans (q1 x hx).symm)
    · refine .inr (fun x => ?_)
      rcases hd x with e | e
      · by_cases hx : x ∈ c.store.deleted
        · exact .inl (e.trans (p1 x (hdis x hx)))
        · exact .inr (e.trans (q1 x hx).symm)
      · exact .inr e
  have hsk : s2.db.get? sk = c.store.db.get? sk := by
    have h1 : sk ∉ c.store.changed := by
      intro hc
      obtain ⟨r, hr, -⟩ := hi.changed sk hc
      rw [hi.skInfo] at hr
      cases hr
    exact (q1 sk hi.skDel).trans (p1 sk h1)
  have e3 : storeWords it it' c.store = (.ok (), { s2 with changed := [], deleted := [] }) := by
    unfold storeWords
    refine (M.bind_run_ok (M.get_run _)).trans ?_
    refine (M.bind_run_ok e1).trans ?_
    refine (M.bind_run_ok (M.get_run _)).trans ?_
    refine (M.bind_run_ok e2).trans ?_
    rfl
  have e4 : onStore (K := K) (storeWords it it') c = (.ok (), { c with store := { s2 with changed := [], deleted := [] } }) := by
    unfold onStore; rw [e3]
  unfold shelveStore
  rw [M.bind_run_ok e4]
  exact between_state (s1 := { s2 with changed := [], deleted := [] }) hb hsk _ _

/-- a word counted once is in the file -/
theorem once_in_file {sk : W} {s : Shelf W} (hi : ShInv sk s) {w : W} {r : WordInfo} (h : view s w = some r)
    (hr : r.spamcount + r.hamcount ≤ 1) : dbView s.db w = some r := by
  unfold view at h
  cases hw : s.wordinfo.get? w with
  | some q =>
    rw [hw] at h
    cases h
    have hc : w ∉ s.changed := by
      intro hc
      obtain ⟨q, hq, h2⟩ := hi.changed w hc
      rw [hw] at hq
      cases hq
      omega
    unfold dbView
    rw [hi.clean w r hw hc]
  | none =>
    rw [hw] at h
    simp only at h
    split at h
    · cases h
    · exact h

end
end Sb
