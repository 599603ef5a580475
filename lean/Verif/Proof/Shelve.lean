import Verif.Model.Shelve
import Verif.Proof.Training
import Verif.Proof.Scoring
import Mathlib.Tactic.Linarith

/- Helper lemmas: ShelveClassifier simulates the in-memory classifier. -/

set_option linter.unusedSectionVars false

namespace Sb
open Py

section
variable {W K : Type} [DecidableEq W]

/-- the record the classifier would find for a word -/
def view (s : Shelf W) (w : W) : Option WordInfo :=
  match s.wordinfo.get? w with
  | some r => some r
  | none =>
    if w ∈ s.deleted then none
    else
      match s.db.get? w with
      | some (.counts a b) => some ⟨a, b⟩
      | _ => none

/-- the record in the shelf -/
def dbView (db : Dict W DbVal) (w : W) : Option WordInfo :=
  match db.get? w with
  | some (.counts a b) => some ⟨a, b⟩
  | _ => none

/-- Invariant of the attributes of a ShelveClassifier. -/
structure ShInv (sk : W) (s : Shelf W) : Prop where
  changed : ∀ w ∈ s.changed, ∃ r, s.wordinfo.get? w = some r ∧ 2 ≤ r.spamcount + r.hamcount
  deleted : ∀ w ∈ s.deleted, s.wordinfo.get? w = none
  clean : ∀ w r, s.wordinfo.get? w = some r → w ∉ s.changed →
    s.db.get? w = some (.counts r.spamcount r.hamcount)
  skInfo : s.wordinfo.get? sk = none
  skDel : sk ∉ s.deleted
  words : ∀ w, w ≠ sk → ∀ v, s.db.get? w = some v → ∃ a b, v = .counts a b

/-- the records of an in-memory database are sane -/
def SaneRecords (d : Dict W WordInfo) : Prop :=
  ∀ w r, d.get? w = some r → 0 ≤ r.spamcount ∧ 0 ≤ r.hamcount ∧ (r.spamcount ≠ 0 ∨ r.hamcount ≠ 0)

/-- shelf and in-memory database agree -/
structure Rel (sk : W) (s : Shelf W) (d : Dict W WordInfo) : Prop where
  inv : ShInv sk s
  sane : SaneRecords d
  agree : ∀ w, w ≠ sk → view s w = d.get? w

theorem mem_setAdd (l : List W) (w x : W) : x ∈ setAdd l w ↔ x = w ∨ x ∈ l := by
  unfold setAdd
  split
  · constructor
    · exact .inr
    · rintro (rfl | h) <;> assumption
  · exact List.mem_cons

theorem mem_setRemove (l : List W) (w x : W) : x ∈ setRemove l w ↔ x ∈ l ∧ x ≠ w := by
  simp [setRemove]

/-- the state after `_wordinfoget` -/
def afterGet (s : Shelf W) (w : W) : Shelf W := (shelfGet w s).2

theorem shelfGet_spec {sk : W} {s : Shelf W} (hi : ShInv sk s) {w : W} (hw : w ≠ sk) :
    (shelfGet w s).1 = .ok (view s w) ∧ ShInv sk (afterGet s w) ∧
    (∀ x, view (afterGet s w) x = view s x) ∧
    (∀ r, view s w = some r → (afterGet s w).wordinfo.get? w = some r ∧ w ∉ s.deleted) ∧
    (afterGet s w).db = s.db ∧ (afterGet s w).trace = s.trace ∧ (afterGet s w).changed = s.changed ∧
    (afterGet s w).deleted = s.deleted ∧
    (view s w = none → s.wordinfo.get? w = none ∧ (afterGet s w) = s) := by
  unfold afterGet shelfGet view
  cases h1 : s.wordinfo.get? w with
  | some r =>
    refine ⟨rfl, hi, fun _ => rfl, ?_, rfl, rfl, rfl, rfl, ?_⟩
    · rintro r' h
      refine ⟨?_, ?_⟩
      · simp only at h ⊢; rw [h1]; exact h
      · intro hd
        rw [hi.deleted w hd] at h1; cases h1
    · intro h; cases h
  | none =>
    by_cases h2 : w ∈ s.deleted
    · simp only [if_pos h2]
      refine ⟨by trivial, hi, fun _ => by trivial, ?_, by trivial, by trivial, by trivial, by trivial,
        fun _ => ⟨by trivial, by trivial⟩⟩
      intro r h; cases h
    · simp only [if_neg h2]
      cases h3 : s.db.get? w with
      | none =>
        refine ⟨by trivial, hi, fun _ => by trivial, ?_, by trivial, by trivial, by trivial, by trivial,
          fun _ => ⟨by trivial, by trivial⟩⟩
        intro r h; cases h
      | some v =>
        obtain ⟨a, b, rfl⟩ := hi.words w hw v h3
        simp only
        refine ⟨by trivial, ?_, ?_, ?_, by trivial, by trivial, by trivial, by trivial, fun h => by cases h⟩
        · refine ⟨?_, ?_, ?_, ?_, hi.skDel, hi.words⟩
          · intro x hx
            obtain ⟨r, hr, h4⟩ := hi.changed x hx
            refine ⟨r, ?_, h4⟩
            rw [Dict.get?_set_ne]
            · exact hr
            · rintro rfl; rw [h1] at hr; cases hr
          · intro x hx
            rw [Dict.get?_set_ne]
            · exact hi.deleted x hx
            · rintro rfl; exact h2 hx
          · intro x r hr hx
            simp only [Dict.get?_set] at hr
            split at hr
            · rename_i he; subst he; cases hr; exact h3
            · exact hi.clean x r hr hx
          · rw [Dict.get?_set_ne _ _ hw]; exact hi.skInfo
        · intro x
          simp only [Dict.get?_set]
          by_cases hx : w = x
          · subst hx; simp [h1, h2, h3]
          · simp [hx]
        · intro r h
          cases h
          exact ⟨by simp, h2⟩

/-- `_wordinfoset` after `_wordinfoget` -/
theorem shelfSet_spec {sk : W} {s : Shelf W} (hi : ShInv sk s) {w : W} (hw : w ≠ sk) (r : WordInfo)
    (hdel : 2 ≤ r.spamcount + r.hamcount → w ∉ s.deleted) :
    ∃ s', shelfSet w r s = (.ok (), s') ∧ ShInv sk s' ∧
      (∀ x, view s' x = if w = x then some r else view s x) ∧
      s'.db.get? sk = s.db.get? sk ∧
      (s'.trace = s.trace ∧ s'.db = s.db ∨
        s'.trace = s.trace ++ [s'.db] ∧ r.spamcount + r.hamcount ≤ 1 ∧
          s'.db = s.db.set w (.counts r.spamcount r.hamcount)) := by
  unfold shelfSet
  by_cases h : r.spamcount + r.hamcount ≤ 1
  · simp only [if_pos h]
    refine ⟨_, rfl, ?_, ?_, ?_, .inr ⟨rfl, h, rfl⟩⟩
    · refine ⟨?_, ?_, ?_, ?_, ?_, ?_⟩
      · intro x hx
        simp only [mem_setRemove] at hx
        obtain ⟨q, hq, h2⟩ := hi.changed x hx.1
        refine ⟨q, ?_, h2⟩
        simp only [Dict.get?_erase]
        rw [if_neg (fun e => hx.2 e.symm)]
        exact hq
      · intro x hx
        simp only [mem_setRemove] at hx
        simp only [Dict.get?_erase]
        split
        · rfl
        · exact hi.deleted x hx.1
      · intro x q hq hx
        simp only [Dict.get?_erase] at hq
        split at hq
        · cases hq
        · rename_i hne
          simp only [mem_setRemove, not_and] at hx
          simp only [Dict.get?_set, if_neg hne]
          exact hi.clean x q hq (fun hm => hx hm (fun e => hne e.symm))
      · simp only [Dict.get?_erase]; split
        · rfl
        · exact hi.skInfo
      · simp only [mem_setRemove]; exact fun hx => hi.skDel hx.1
      · intro x hx v hv
        simp only [Dict.get?_set] at hv
        split at hv
        · cases hv; exact ⟨_, _, rfl⟩
        · exact hi.words x hx v hv
    · intro x
      unfold view
      simp only [Dict.get?_erase, Dict.get?_set, mem_setRemove]
      by_cases hx : w = x
      · subst hx; simp
      · have : x ≠ w := fun e => hx e.symm
        simp [hx, this]
    · simp only [Dict.get?_set, if_neg hw]
  · simp only [if_neg h]
    have hnd : w ∉ s.deleted := hdel (by omega)
    refine ⟨_, rfl, ?_, ?_, rfl, .inl ⟨rfl, rfl⟩⟩
    · refine ⟨?_, ?_, ?_, ?_, hi.skDel, hi.words⟩
      · intro x hx
        simp only [mem_setAdd] at hx
        simp only [Dict.get?_set]
        by_cases hwx : w = x
        · rw [if_pos hwx]; exact ⟨r, rfl, by omega⟩
        · rw [if_neg hwx]
          exact hi.changed x (hx.resolve_left (fun e => hwx e.symm))
      · intro x hx
        simp only [Dict.get?_set]
        rw [if_neg (by rintro rfl; exact hnd hx)]
        exact hi.deleted x hx
      · intro x q hq hx
        simp only [mem_setAdd, not_or] at hx
        simp only [Dict.get?_set] at hq
        rw [if_neg (fun e => hx.1 e.symm)] at hq
        exact hi.clean x q hq hx.2
      · simp only [Dict.get?_set, if_neg hw]; exact hi.skInfo
    · intro x
      unfold view
      simp only [Dict.get?_set]
      by_cases hx : w = x
      · subst hx; simp
      · simp [hx]

/-- `_wordinfodel` of a loaded word that is not marked as changed -/
theorem shelfDel_spec {sk : W} {s : Shelf W} (hi : ShInv sk s) {w : W} (hw : w ≠ sk) {r : WordInfo}
    (hl : s.wordinfo.get? w = some r) (hch : w ∉ s.changed) :
    ∃ s', shelfDel w s = (.ok (), s') ∧ ShInv sk s' ∧
      (∀ x, view s' x = if w = x then none else view s x) ∧ s'.db = s.db ∧ s'.trace = s.trace := by
  unfold shelfDel
  have hc : s.wordinfo.contains w = true := by simp [Dict.contains, hl]
  rw [if_pos hc]
  refine ⟨_, rfl, ?_, ?_, rfl, rfl⟩
  · refine ⟨?_, ?_, ?_, ?_, ?_, hi.words⟩
    · intro x hx
      obtain ⟨q, hq, h2⟩ := hi.changed x hx
      refine ⟨q, ?_, h2⟩
      simp only [Dict.get?_erase]
      rw [if_neg (by rintro rfl; exact hch hx)]
      exact hq
    · intro x hx
      simp only [mem_setAdd] at hx
      simp only [Dict.get?_erase]
      by_cases h : w = x
      · rw [if_pos h]
      · rw [if_neg h]; exact hi.deleted x (hx.resolve_left (fun e => h e.symm))
    · intro x q hq hx
      simp only [Dict.get?_erase] at hq
      split at hq
      · cases hq
      · exact hi.clean x q hq hx
    · simp only [Dict.get?_erase]; split
      · rfl
      · exact hi.skInfo
    · simp only [mem_setAdd, not_or]; exact ⟨fun e => hw e.symm, hi.skDel⟩
  · intro x
    unfold view
    simp only [Dict.get?_erase, mem_setAdd]
    by_cases hx : w = x
    · subst hx; simp
    · have : x ≠ w := fun e => hx e.symm
      simp [hx, this]

theorem sane_addStore {d : Dict W WordInfo} (h : SaneRecords d) (b : Bool) (w : W) :
    SaneRecords (addStore b d w) := by
  intro x r hr
  rw [get?_addStore] at hr
  split at hr
  · cases hr
    unfold bump
    cases hd : d.get? x with
    | none => cases b <;> simp [WordInfo.new]
    | some q =>
      obtain ⟨h1, h2, h3⟩ := h x q hd
      cases b <;> simp <;> omega
  · exact h x r hr

theorem sane_removeStore {d : Dict W WordInfo} (h : SaneRecords d) (b : Bool) (w : W) :
    SaneRecords (removeStore b d w) := by
  intro x r hr
  rw [get?_removeStore] at hr
  split at hr
  · cases ho : d.get? x with
    | none => rw [ho] at hr; simp [drop1] at hr
    | some r0 =>
      have h0 := h x r0 ho
      rw [ho] at hr
      simp only [drop1] at hr
      split at hr
      · cases hr
      · rename_i hnz
        cases hr
        have : 0 ≤ (dec1 b r0).spamcount ∧ 0 ≤ (dec1 b r0).hamcount := by
          cases b <;> simp only [dec1] <;> split <;> (try split) <;> simp_all <;> omega
        omega
  · exact h x r hr

/-- what the shelf went through: only direct writes of records with total at
most one -/
def Grew (sk : W) (s s' : Shelf W) : Prop :=
  s'.db.get? sk = s.db.get? sk ∧
  ((s'.trace = s.trace ∧ s'.db = s.db) ∨ ∃ (w : W) (r : WordInfo), w ≠ sk ∧ s'.trace = s.trace ++ [s'.db] ∧
    r.spamcount + r.hamcount ≤ 1 ∧ 0 ≤ r.spamcount ∧ 0 ≤ r.hamcount ∧
    (r.spamcount ≠ 0 ∨ r.hamcount ≠ 0) ∧ s'.db = s.db.set w (.counts r.spamcount r.hamcount))

theorem addWord_shelf {sk : W} (b : Bool) {w : W} (hw : w ≠ sk) (c : Clf (Shelf W) K)
    {d : Dict W WordInfo} (hr : Rel sk c.store d) :
    ∃ s', addWord (shelf sk) b w c = (.ok (), { c with store := s' }) ∧
      Rel sk s' (addStore b d w) ∧ Grew sk c.store s' := by
  obtain ⟨g1, g2, g3, g4, g5, g6, g7, g8, g9⟩ := shelfGet_spec hr.inv hw
  have e1 : onStore (K := K) ((shelf sk).get w) c = (.ok (view c.store w), { c with store := afterGet c.store w }) := by
    unfold onStore
    change (match shelfGet w c.store with | (r, s') => (r, { c with store := s' })) = _
    rw [← g1]; rfl
  set r' := bump b (view c.store w) with hr'
  have hag : view c.store w = d.get? w := hr.agree w hw
  obtain ⟨s', k1, k2, k3, k4, k5⟩ := shelfSet_spec g2 hw r' (by
    intro h2
    rw [g8]
    cases hv : view c.store w with
    | some q => exact (g4 q hv).2
    | none =>
      exfalso
      rw [hr', hv] at h2
      cases b <;> simp [bump, WordInfo.new] at h2)
  have hs := sane_addStore hr.sane b w
  have e2 : onStore (K := K) ((shelf sk).set w r') { c with store := afterGet c.store w } =
      (.ok (), { c with store := s' }) := by
    unfold onStore
    change (match shelfSet w r' (afterGet c.store w) with | (r, s') => (r, { c with store := s' })) = _
    rw [k1]
  refine ⟨s', ?_, ⟨k2, hs, ?_⟩, ?_⟩
  · unfold addWord
    rw [M.bind_run_ok e1]
    exact e2
  · intro x hx
    rw [k3, get?_addStore, g3]
    by_cases hwx : w = x
    · rw [if_pos hwx, if_pos hwx, hr', hag, hwx]
    · rw [if_neg hwx, if_neg hwx]; exact hr.agree x hx
  · refine ⟨by rw [k4, g5], ?_⟩
    rcases k5 with ⟨k5, k6⟩ | ⟨k5, k6, k7⟩
    · left; rw [k5, k6, g6, g5]; exact ⟨rfl, rfl⟩
    · right
      have h3 := hs w r' (by rw [get?_addStore, if_pos rfl, hr', hag])
      exact ⟨w, r', hw, by rw [k5, g6], k6, h3.1, h3.2.1, h3.2.2, by rw [k7, g5]⟩

theorem removeWord_shelf {sk : W} (b : Bool) {w : W} (hw : w ≠ sk) (c : Clf (Shelf W) K)
    {d : Dict W WordInfo} (hr : Rel sk c.store d) :
    ∃ s', removeWord (shelf sk) b w c = (.ok (), { c with store := s' }) ∧
      Rel sk s' (removeStore b d w) ∧ s'.db.get? sk = c.store.db.get? sk := by
  obtain ⟨g1, g2, g3, g4, g5, g6, g7, g8, g9⟩ := shelfGet_spec hr.inv hw
  have e1 : onStore (K := K) ((shelf sk).get w) c = (.ok (view c.store w), { c with store := afterGet c.store w }) := by
    unfold onStore
    change (match shelfGet w c.store with | (r, s') => (r, { c with store := s' })) = _
    rw [← g1]; rfl
  have hag : view c.store w = d.get? w := hr.agree w hw
  have hs := sane_removeStore hr.sane b w
  unfold removeWord
  rw [M.bind_run_ok e1]
  cases hv : view c.store w with
  | none =>
    have hst := (g9 hv).2
    refine ⟨c.store, by rw [hst]; rfl, ⟨hr.inv, hs, ?_⟩, rfl⟩
    intro x hx
    rw [get?_removeStore]
    by_cases hwx : w = x
    · subst hwx; rw [if_pos rfl, ← hag, hv]; rfl
    · rw [if_neg hwx]; exact hr.agree x hx
  | some q =>
    obtain ⟨l1, l2⟩ := g4 q hv
    have hq := hr.sane w q (by rw [← hag, hv])
    by_cases hz : (dec1 b q).hamcount = 0 ∧ (dec1 b q).spamcount = 0
    · obtain ⟨s', k1, k2, k3, k4, k5⟩ := shelfDel_spec g2 hw l1 (by
        intro hc
        obtain ⟨r, hr1, hr2⟩ := g2.changed w hc
        rw [l1] at hr1
        cases hr1
        obtain ⟨q1, q2, q3⟩ := hq
        cases b
        · by_cases h : q.hamcount > 0 <;> simp [dec1, h] at hz <;> omega
        · by_cases h : q.spamcount > 0 <;> simp [dec1, h] at hz <;> omega)
      have e2 : onStore (K := K) ((shelf sk).del w) { c with store := afterGet c.store w } =
          (.ok (), { c with store := s' }) := by
        unfold onStore
        change (match shelfDel w (afterGet c.store w) with | (r, s') => (r, { c with store := s' })) = _
        rw [k1]
      refine ⟨s', ?_, ⟨k2, hs, ?_⟩, by rw [k4, g5]⟩
      · refine Eq.trans ?_ e2
        have : (if (dec1 b q).hamcount = 0 ∧ (dec1 b q).spamcount = 0 then onStore (K := K) ((shelf sk).del w)
            else onStore ((shelf sk).set w (dec1 b q))) { c with store := afterGet c.store w } = 
            onStore (K := K) ((shelf sk).del w) { c with store := afterGet c.store w } := by
          rw [if_pos hz]
        rw [← this]
        rfl
      · intro x hx
        rw [k3, get?_removeStore, g3]
        by_cases hwx : w = x
        · subst hwx
          rw [if_pos rfl, if_pos rfl, ← hag, hv]
          simp only [drop1, if_pos hz]
        · rw [if_neg hwx, if_neg hwx]; exact hr.agree x hx
    · obtain ⟨s', k1, k2, k3, k4, k5⟩ := shelfSet_spec g2 hw (dec1 b q) (by
        intro _; rw [g8]; exact l2)
      have e2 : onStore (K := K) ((shelf sk).set w (dec1 b q)) { c with store := afterGet c.store w } =
          (.ok (), { c with store := s' }) := by
        unfold onStore
        change (match shelfSet w (dec1 b q) (afterGet c.store w) with | (r, s') => (r, { c with store := s' })) = _
        rw [k1]
      refine ⟨s', ?_, ⟨k2, hs, ?_⟩, by rw [k4, g5]⟩
      · refine Eq.trans ?_ e2
        have : (if (dec1 b q).hamcount = 0 ∧ (dec1 b q).spamcount = 0 then onStore (K := K) ((shelf sk).del w)
            else onStore ((shelf sk).set w (dec1 b q))) { c with store := afterGet c.store w } = 
            onStore (K := K) ((shelf sk).set w (dec1 b q)) { c with store := afterGet c.store w } := by
          rw [if_neg hz]
        rw [← this]
        rfl
      · intro x hx
        rw [k3, get?_removeStore, g3]
        by_cases hwx : w = x
        · subst hwx
          rw [if_pos rfl, if_pos rfl, ← hag, hv]
          simp only [drop1, if_neg hz]
        · rw [if_neg hwx, if_neg hwx]; exact hr.agree x hx


theorem addAll_shelf {sk : W} (b : Bool) (l : List W) (hl : ∀ w ∈ l, w ≠ sk) (c : Clf (Shelf W) K)
    {d : Dict W WordInfo} (hr : Rel sk c.store d) :
    ∃ s', M.forEach (addWord (shelf sk) b) l c = (.ok (), { c with store := s' }) ∧
      Rel sk s' (l.foldl (addStore b) d) ∧ Relation.ReflTransGen (Grew sk) c.store s' := by
  induction l generalizing c d with
  | nil => exact ⟨c.store, rfl, hr, .refl⟩
  | cons w t ih =>
    obtain ⟨s1, e1, r1, g1⟩ := addWord_shelf b (hl w (by simp)) c hr
    obtain ⟨s2, e2, r2, g2⟩ := ih (fun x hx => hl x (by simp [hx])) { c with store := s1 } r1
    refine ⟨s2, ?_, r2, .head g1 g2⟩
    rw [M.forEach_cons, M.bind_run_ok e1]
    exact e2

theorem removeAll_shelf {sk : W} (b : Bool) (l : List W) (hl : ∀ w ∈ l, w ≠ sk) (c : Clf (Shelf W) K)
    {d : Dict W WordInfo} (hr : Rel sk c.store d) :
    ∃ s', M.forEach (removeWord (shelf sk) b) l c = (.ok (), { c with store := s' }) ∧
      Rel sk s' (l.foldl (removeStore b) d) ∧ s'.db.get? sk = c.store.db.get? sk := by
  induction l generalizing c d with
  | nil => exact ⟨c.store, rfl, hr, rfl⟩
  | cons w t ih =>
    obtain ⟨s1, e1, r1, g1⟩ := removeWord_shelf b (hl w (by simp)) c hr
    obtain ⟨s2, e2, r2, g2⟩ := ih (fun x hx => hl x (by simp [hx])) { c with store := s1 } r1
    refine ⟨s2, ?_, r2, g2.trans g1⟩
    rw [M.forEach_cons, M.bind_run_ok e1]
    exact e2

/-- writing the state key changes nothing else -/
theorem rel_writeState {sk : W} {s : Shelf W} {d : Dict W WordInfo} (h : Rel sk s d) (n m : Int) :
    Rel sk (writeStateKey sk n m s).2 d := by
  obtain ⟨hi, hs, ha⟩ := h
  refine ⟨⟨hi.changed, hi.deleted, ?_, hi.skInfo, hi.skDel, ?_⟩, hs, ?_⟩
  · intro w r hr hc
    have hne : sk ≠ w := by rintro rfl; rw [show (writeStateKey sk n m s).2.wordinfo = s.wordinfo from rfl, hi.skInfo] at hr; cases hr
    change (s.db.set sk _).get? w = _
    rw [Dict.get?_set_ne _ _ hne]
    exact hi.clean w r hr hc
  · intro w hw v hv
    change (s.db.set sk _).get? w = _ at hv
    rw [Dict.get?_set_ne _ _ (Ne.symm hw)] at hv
    exact hi.words w hw v hv
  · intro w hw
    rw [← ha w hw]
    simp only [view, writeStateKey, Shelf.put, M.modify]
    rw [Dict.get?_set_ne _ _ (Ne.symm hw)]
    rfl

/-- the tuple under the state key is up to date, or absent with zero totals -/
def StateOk (sk : W) (c : Clf (Shelf W) K) : Prop :=
  c.store.db.get? sk = some (.state 5 c.nspam c.nham) ∨
    (c.store.db.get? sk = none ∧ c.nspam = 0 ∧ c.nham = 0)

theorem addMsg_shelf {sk : W} (it : SetIter W) (ws : List W) (hws : ∀ w ∈ ws, w ≠ sk) (b : Bool)
    (c : Clf (Shelf W) K) {d : Dict W WordInfo} (hr : Rel sk c.store d) :
    ∃ s1 s', addMsg (shelf sk) it ws b c = (.ok (),
        { useBigrams := c.useBigrams, store := s', probcache := Dict.empty,
          nspam := if b then c.nspam + 1 else c.nspam, nham := if b then c.nham else c.nham + 1 }) ∧
      Rel sk s' (addAll it ws b d) ∧ Relation.ReflTransGen (Grew sk) c.store s1 ∧
      s' = (writeStateKey sk (if b then c.nspam + 1 else c.nspam)
        (if b then c.nham else c.nham + 1) s1).2 := by
  have hl : ∀ w ∈ it.order ws, w ≠ sk := fun w hw => hws w ((it.mem _ _).1 hw)
  cases b with
  | true =>
    obtain ⟨s1, e1, r1, g1⟩ := addAll_shelf true (it.order ws) hl
      { c with probcache := Dict.empty, nspam := c.nspam + 1 } hr
    refine ⟨s1, _, ?_, rel_writeState r1 _ _, g1, rfl⟩
    unfold addMsg
    refine (M.bind_run_ok (M.modify_run _ _)).trans ?_
    refine (M.bind_run_ok (M.modify_run _ _)).trans ?_
    exact M.bind_run_ok e1
  | false =>
    obtain ⟨s1, e1, r1, g1⟩ := addAll_shelf false (it.order ws) hl
      { c with probcache := Dict.empty, nham := c.nham + 1 } hr
    refine ⟨s1, _, ?_, rel_writeState r1 _ _, g1, rfl⟩
    unfold addMsg
    refine (M.bind_run_ok (M.modify_run _ _)).trans ?_
    refine (M.bind_run_ok (M.modify_run _ _)).trans ?_
    exact M.bind_run_ok e1

theorem removeMsg_shelf {sk : W} (it : SetIter W) (ws : List W) (hws : ∀ w ∈ ws, w ≠ sk) (b : Bool)
    (c : Clf (Shelf W) K) {d : Dict W WordInfo} (hr : Rel sk c.store d) :
    if total b c ≤ 0 then
      removeMsg (shelf sk) it ws b c = (.error .valueError, { c with probcache := Dict.empty })
    else ∃ s', removeMsg (shelf sk) it ws b c = (.ok (),
        { useBigrams := c.useBigrams, store := s', probcache := Dict.empty,
          nspam := if b then c.nspam - 1 else c.nspam, nham := if b then c.nham else c.nham - 1 }) ∧
      Rel sk s' (removeAll it ws b d) ∧
      s'.db.get? sk = some (.state 5 (if b then c.nspam - 1 else c.nspam)
        (if b then c.nham else c.nham - 1)) := by
  have hl : ∀ w ∈ it.order ws, w ≠ sk := fun w hw => hws w ((it.mem _ _).1 hw)
  cases b with
  | true =>
    by_cases ht : c.nspam ≤ 0
    · have : total true c ≤ 0 := ht
      rw [if_pos this]
      unfold removeMsg
      refine (M.bind_run_ok (M.modify_run _ _)).trans ?_
      refine (M.bind_run_ok (M.get_run _)).trans ?_
      simp only [if_pos ht, if_true]
      rfl
    · have : ¬ total true c ≤ 0 := ht
      rw [if_neg this]
      obtain ⟨s1, e1, r1, g1⟩ := removeAll_shelf true (it.order ws) hl
        { c with probcache := Dict.empty, nspam := c.nspam - 1 } hr
      refine ⟨_, ?_, rel_writeState r1 (c.nspam - 1) c.nham, ?_⟩
      · unfold removeMsg
        refine (M.bind_run_ok (M.modify_run _ _)).trans ?_
        refine (M.bind_run_ok (M.get_run _)).trans ?_
        simp only [if_neg ht, if_true]
        refine (M.bind_run_ok (M.modify_run _ _)).trans ?_
        exact M.bind_run_ok e1
      · exact Dict.get?_set_self _ _ _
  | false =>
    by_cases ht : c.nham ≤ 0
    · have : total false c ≤ 0 := ht
      rw [if_pos this]
      unfold removeMsg
      refine (M.bind_run_ok (M.modify_run _ _)).trans ?_
      refine (M.bind_run_ok (M.get_run _)).trans ?_
      simp only [if_pos ht, Bool.false_eq_true, if_false]
      rfl
    · have : ¬ total false c ≤ 0 := ht
      rw [if_neg this]
      obtain ⟨s1, e1, r1, g1⟩ := removeAll_shelf false (it.order ws) hl
        { c with probcache := Dict.empty, nham := c.nham - 1 } hr
      refine ⟨_, ?_, rel_writeState r1 c.nspam (c.nham - 1), ?_⟩
      · unfold removeMsg
        refine (M.bind_run_ok (M.modify_run _ _)).trans ?_
        refine (M.bind_run_ok (M.get_run _)).trans ?_
        simp only [if_neg ht, Bool.false_eq_true, if_false]
        refine (M.bind_run_ok (M.modify_run _ _)).trans ?_
        exact M.bind_run_ok e1
      · exact Dict.get?_set_self _ _ _

/-! store and open -/

/-- the loop writing the changed words -/
theorem storeChanged_all {sk : W} (l : List W) :
    ∀ (s : Shelf W), ShInv sk s → (∀ w ∈ l, w ∈ s.changed) →
    ∃ s', M.forEach storeChanged l s = (.ok (), s') ∧
      s'.wordinfo = s.wordinfo ∧ s'.changed = s.changed ∧ s'.deleted = s.deleted ∧
      (∀ w, s'.db.get? w = if w ∈ l then
        (s.wordinfo.get? w).map (fun r => DbVal.counts r.spamcount r.hamcount) else s.db.get? w) := by
  induction l with
  | nil => intro s hi _; exact ⟨s, rfl, rfl, rfl, rfl, by simp⟩
  | cons w t ih =>
    intro s hi hl
    obtain ⟨r, hr, -⟩ := hi.changed w (hl w (by simp))
    have hwsk : w ≠ sk := by rintro rfl; rw [hi.skInfo] at hr; cases hr
    have e1 : storeChanged w s = (.ok (), (Shelf.put w (.counts r.spamcount r.hamcount) s).2) := by
      unfold storeChanged; rw [hr]; rfl
    have hi1 : ShInv sk (Shelf.put w (.counts r.spamcount r.hamcount) s).2 := by
      refine ⟨hi.changed, hi.deleted, ?_, hi.skInfo, hi.skDel, ?_⟩
      · intro x q hq hx
        change s.wordinfo.get? x = some q at hq
        change (s.db.set w (.counts r.spamcount r.hamcount)).get? x = _
        simp only [Dict.get?_set]
        split
        · rename_i h; subst h; rw [hr] at hq; cases hq; rfl
        · exact hi.clean x q hq hx
      · intro x hx v hv
        change (s.db.set w (.counts r.spamcount r.hamcount)).get? x = _ at hv
        simp only [Dict.get?_set] at hv
        split at hv
        · cases hv; exact ⟨_, _, rfl⟩
        · exact hi.words x hx v hv
    obtain ⟨s', e2, a1, a2, a3, a4⟩ := ih _ hi1 (fun x hx => hl x (by simp [hx]))
    change s'.wordinfo = s.wordinfo at a1
    change s'.changed = s.changed at a2
    change s'.deleted = s.deleted at a3
    change ∀ x, s'.db.get? x = if x ∈ t then (s.wordinfo.get? x).map (fun r => DbVal.counts r.spamcount r.hamcount)
      else (s.db.set w (.counts r.spamcount r.hamcount)).get? x at a4
    refine ⟨s', ?_, a1, a2, a3, ?_⟩
    · rw [M.forEach_cons, M.bind_run_ok e1]; exact e2
    · intro x
      rw [a4]
      simp only [Dict.get?_set, List.mem_cons]
      by_cases h1 : x ∈ t
      · rw [if_pos h1, if_pos (.inr h1)]
      · rw [if_neg h1]
        by_cases h2 : w = x
        · subst h2; rw [if_pos rfl, if_pos (.inl rfl), hr]; rfl
        · rw [if_neg h2, if_neg]
          rintro (h | h)
          · exact h2 h.symm
          · exact h1 h

/-- the loop removing the deleted words -/
theorem storeDeleted_all (l : List W) :
    ∀ (s : Shelf W), (∀ w ∈ l, s.wordinfo.get? w = none) →
    ∃ s', M.forEach storeDeleted l s = (.ok (), s') ∧
      s'.wordinfo = s.wordinfo ∧
      (∀ w, s'.db.get? w = if w ∈ l then none else s.db.get? w) := by
  induction l with
  | nil => intro s _; exact ⟨s, rfl, rfl, by simp⟩
  | cons w t ih =>
    intro s hl
    have e1 : storeDeleted w s = (.ok (), { s with db := s.db.erase w, trace := s.trace ++ [s.db.erase w] }) := by
      unfold storeDeleted
      rw [if_neg (by simp [Dict.contains, hl w (by simp)])]
      rfl
    obtain ⟨s', e2, a1, a4⟩ := ih { s with db := s.db.erase w, trace := s.trace ++ [s.db.erase w] }
      (fun x hx => hl x (by simp [hx]))
    refine ⟨s', ?_, a1, ?_⟩
    · rw [M.forEach_cons, M.bind_run_ok e1]; exact e2
    · intro x
      rw [a4]
      simp only [Dict.get?_erase, List.mem_cons]
      by_cases h1 : x ∈ t
      · rw [if_pos h1, if_pos (.inr h1)]
      · rw [if_neg h1]
        by_cases h2 : w = x
        · subst h2; rw [if_pos rfl, if_pos (.inl rfl)]
        · rw [if_neg h2, if_neg]
          rintro (h | h)
          · exact h2 h.symm
          · exact h1 h

/-- after the word part of `store` the shelf holds every record -/
theorem storeWords_spec {sk : W} (it it' : SetIter W) {s : Shelf W} {d : Dict W WordInfo}
    (h : Rel sk s d) :
    ∃ s', storeWords it it' s = (.ok (), s') ∧ Rel sk s' d ∧ s'.changed = [] ∧ s'.deleted = [] ∧
      s'.db.get? sk = s.db.get? sk ∧ (∀ w, w ≠ sk → dbView s'.db w = d.get? w) := by
  obtain ⟨hi, hs, ha⟩ := h
  obtain ⟨s1, e1, a1, a2, a3, a4⟩ := storeChanged_all (sk := sk) (it.order s.changed) s hi
    (fun w hw => (it.mem _ _).1 hw)
  obtain ⟨s2, e2, b1, b4⟩ := storeDeleted_all (it'.order s1.deleted) s1 (fun w hw => by
    rw [a1]; exact hi.deleted w (by rw [← a3]; exact (it'.mem _ _).1 hw))
  have hdb : ∀ w, s2.db.get? w = if w ∈ s.deleted then none else if w ∈ s.changed then
      (s.wordinfo.get? w).map (fun r => DbVal.counts r.spamcount r.hamcount) else s.db.get? w := by
    intro w
    rw [b4, a4]
    simp only [it.mem, it'.mem, a3]
  have hv : ∀ w, w ≠ sk → dbView s2.db w = d.get? w := by
    intro w hw
    rw [← ha w hw]
    unfold dbView view
    rw [hdb]
    by_cases h1 : w ∈ s.deleted
    · rw [if_pos h1, hi.deleted w h1]; simp [h1]
    · rw [if_neg h1]
      by_cases h2 : w ∈ s.changed
      · obtain ⟨r, hr, -⟩ := hi.changed w h2
        rw [if_pos h2, hr]; rfl
      · rw [if_neg h2]
        cases h3 : s.wordinfo.get? w with
        | none => simp [h1]
        | some r => rw [hi.clean w r h3 h2]
  have hsk : s2.db.get? sk = s.db.get? sk := by
    rw [hdb, if_neg hi.skDel, if_neg]
    intro h
    obtain ⟨r, hr, -⟩ := hi.changed sk h
    rw [hi.skInfo] at hr; cases hr
  have hwi : s2.wordinfo = s.wordinfo := by rw [b1, a1]
  refine ⟨{ s2 with changed := [], deleted := [] }, ?_, ⟨⟨?_, ?_, ?_, ?_, ?_, ?_⟩, hs, ?_⟩, rfl, rfl, hsk, hv⟩
  · unfold storeWords
    refine (M.bind_run_ok (M.get_run _)).trans ?_
    refine (M.bind_run_ok e1).trans ?_
    refine (M.bind_run_ok (M.get_run _)).trans ?_
    refine (M.bind_run_ok e2).trans ?_
    rfl
  · intro w hw; simp at hw
  · intro w hw; simp at hw
  · intro w r hr _
    simp only [hwi] at hr
    have hnd : w ∉ s.deleted := by intro h; rw [hi.deleted w h] at hr; cases hr
    simp only
    rw [hdb, if_neg hnd]
    by_cases h2 : w ∈ s.changed
    · rw [if_pos h2, hr]; rfl
    · rw [if_neg h2]; exact hi.clean w r hr h2
  · simp only [hwi]; exact hi.skInfo
  · simp
  · intro w hw v hv
    simp only at hv
    rw [hdb] at hv
    split at hv
    · cases hv
    · split at hv
      · cases h3 : s.wordinfo.get? w with
        | none => rw [h3] at hv; cases hv
        | some r => rw [h3] at hv; cases hv; exact ⟨_, _, rfl⟩
      · exact hi.words w hw v hv
  · intro w hw
    have := hv w hw
    unfold dbView at this
    unfold view
    simp only [hwi, List.not_mem_nil, if_false]
    cases h3 : s.wordinfo.get? w with
    | some r =>
      simp only
      rw [← ha w hw]
      unfold view
      rw [h3]
    | none => simp only; exact this

/-- a freshly opened shelf agrees with the records it holds -/
theorem rel_open {sk : W} {db : Dict W DbVal} {d : Dict W WordInfo} (hs : SaneRecords d)
    (hw : ∀ w, w ≠ sk → ∀ v, db.get? w = some v → ∃ a b, v = .counts a b)
    (hv : ∀ w, w ≠ sk → dbView db w = d.get? w) (t : List (Dict W DbVal)) :
    Rel sk ⟨db, Dict.empty, [], [], t⟩ d := by
  refine ⟨⟨by simp, by simp, by simp, by simp, by simp, hw⟩, hs, ?_⟩
  intro w hne
  rw [← hv w hne]
  simp [view, dbView]

end

/-! calls -/

section
variable {W K : Type} [LinearOrder W] [BigramFormat W] [Field K] [LinearOrder K] (F : FloatOps K)

/-- ShelveClassifier and in-memory classifier in corresponding states -/
structure Sim (sk : W) (cs : Clf (Shelf W) K) (cm : Clf (Dict W WordInfo) K) : Prop where
  ub : cs.useBigrams = some false
  ub' : cm.useBigrams = some false
  nspam : cs.nspam = cm.nspam
  nham : cs.nham = cm.nham
  coh : Coherent F cs
  coh' : Coherent F cm
  rel : Rel sk cs.store cm.store
  state : StateOk sk cs

/-- the call does not mention the state key as a word -/
def Avoids (sk : W) : Call W → Prop
  | .learn _ s _ => ∀ w ∈ s.items, w ≠ sk
  | .unlearn _ s _ => ∀ w ∈ s.items, w ≠ sk
  | .spamprob _ s _ => ∀ w ∈ s.items, w ≠ sk
  | .probability _ => True

theorem reads_shelf {sk : W} (d : Dict W WordInfo) (db : Dict W DbVal) (tr : List (Dict W DbVal)) :
    Reads (shelf sk) (fun s => Rel sk s d ∧ s.db = db ∧ s.trace = tr) (fun w => w ≠ sk) d.get? := by
  rintro w hw s ⟨hr, rfl, rfl⟩
  obtain ⟨g1, g2, g3, -, g5, g6, -⟩ := shelfGet_spec hr.inv hw
  refine ⟨?_, ⟨g2, hr.sane, ?_⟩, g5, g6⟩
  · rw [← hr.agree w hw]; exact g1
  · intro x hx
    rw [← hr.agree x hx]; exact g3 x

theorem sim_runCall {sk : W} {cs : Clf (Shelf W) K} {cm : Clf (Dict W WordInfo) K}
    (h : Sim F sk cs cm) (call : Call W) (ha : Avoids sk call) :
    (runCall F (shelf sk) cs call).1 = (runCall F (memory W) cm call).1 ∧
    Sim F sk (runCall F (shelf sk) cs call).2 (runCall F (memory W) cm call).2 := by
  cases call with
  | learn it s b =>
    obtain ⟨s1, s', e, r, -, hs'⟩ := addMsg_shelf it s.items ha b cs h.rel
    have e' : learn (shelf sk) it s b cs = addMsg (shelf sk) it s.items b cs := by
      unfold learn
      rw [M.bind_run_ok (M.get_run _), h.ub]
      rfl
    simp only [runCall]
    rw [e', e, learn_memory it s b cm h.ub']
    refine ⟨rfl, ⟨h.ub, h.ub', ?_, ?_, coherent_of_empty F _ rfl, coherent_of_empty F _ rfl, ?_, ?_⟩⟩
    · simp only [afterAdd, h.nspam]
    · simp only [afterAdd, h.nham]
    · simp only [afterAdd]; exact r
    · left
      simp only
      rw [hs']
      exact Dict.get?_set_self _ _ _
  | unlearn it s b =>
    have e := removeMsg_shelf it s.items ha b cs h.rel
    have e' : unlearn (shelf sk) it s b cs = removeMsg (shelf sk) it s.items b cs := by
      unfold unlearn
      rw [M.bind_run_ok (M.get_run _), h.ub]
      rfl
    have ht : total b cs = total b cm := by unfold total; rw [h.nspam, h.nham]
    simp only [runCall]
    rw [e', unlearn_memory it s b cm h.ub', ← ht]
    split at e
    · rename_i h0
      rw [e, if_pos h0]
      exact ⟨rfl, ⟨h.ub, h.ub', h.nspam, h.nham, coherent_of_empty F _ rfl,
        coherent_of_empty F _ rfl, h.rel, h.state⟩⟩
    · rename_i h0
      obtain ⟨s', e, r, hs'⟩ := e
      rw [e, if_neg h0]
      refine ⟨rfl, ⟨h.ub, h.ub', ?_, ?_, coherent_of_empty F _ rfl, coherent_of_empty F _ rfl, ?_, ?_⟩⟩
      · simp only [afterRemove, h.nspam]
      · simp only [afterRemove, h.nham]
      · simp only [afterRemove]; exact r
      · left; exact hs'
  | spamprob it s ev =>
    obtain ⟨a1, a2⟩ := computes_spamprob (F := F) (ub := cs.useBigrams) (nspam := cs.nspam)
      (nham := cs.nham) (reads_shelf (sk := sk) cm.store cs.store.db cs.store.trace) it s ev
      (by rw [h.ub]; exact ha) cs ⟨h.coh, ⟨h.rel, rfl, rfl⟩, rfl, rfl, rfl⟩
    obtain ⟨b1, b2, b3, b4, b5, b6⟩ := spamprob_memory (F := F) cm h.coh' it s ev
    simp only [runCall]
    refine ⟨?_, ⟨by rw [a2.ub, h.ub], by rw [b6, h.ub'], by rw [a2.nspam, b4, h.nspam],
      by rw [a2.nham, b5, h.nham], a2.coherent, b2, by rw [b3]; exact a2.inv.1, ?_⟩⟩
    · rw [a1, b1, h.nspam, h.nham, h.ub, h.ub']
    · unfold StateOk; rw [a2.inv.2.1, a2.nspam, a2.nham]; exact h.state
  | probability r =>
    obtain ⟨a1, a2⟩ := computes_probability (F := F) (Inv := fun d => d = cs.store)
      (ub := cs.useBigrams) (nspam := cs.nspam) (nham := cs.nham) r cs ⟨h.coh, rfl, rfl, rfl, rfl⟩
    obtain ⟨b1, b2⟩ := computes_probability (F := F) (Inv := fun d => d = cm.store)
      (ub := cm.useBigrams) (nspam := cm.nspam) (nham := cm.nham) r cm ⟨h.coh', rfl, rfl, rfl, rfl⟩
    simp only [runCall]
    refine ⟨?_, ⟨by rw [a2.ub, h.ub], by rw [b2.ub, h.ub'], by rw [a2.nspam, b2.nspam, h.nspam],
      by rw [a2.nham, b2.nham, h.nham], a2.coherent, b2.coherent, by rw [a2.inv, b2.inv]; exact h.rel, ?_⟩⟩
    · rw [a1, b1, h.nspam, h.nham]
    · unfold StateOk; rw [a2.inv, a2.nspam, a2.nham]; exact h.state

theorem store_shelf {sk : W} {cs : Clf (Shelf W) K} {cm : Clf (Dict W WordInfo) K}
    (h : Sim F sk cs cm) (it it' : SetIter W) :
    ∃ cs', shelveStore sk it it' cs = (.ok (), cs') ∧ Sim F sk cs' cm ∧
      cs'.store.db.get? sk = some (.state 5 cm.nspam cm.nham) ∧
      (∀ w, w ≠ sk → dbView cs'.store.db w = cm.store.get? w) ∧
      cs'.probcache = cs.probcache ∧ cs'.store.changed = [] ∧ cs'.store.deleted = [] := by
  obtain ⟨s', e, r, c1, c2, -, hv⟩ := storeWords_spec it it' h.rel
  have e1 : onStore (K := K) (storeWords it it') cs = (.ok (), { cs with store := s' }) := by
    unfold onStore; rw [e]
  refine ⟨{ cs with store := (writeStateKey sk cs.nspam cs.nham s').2 }, ?_, ?_, ?_, ?_, rfl, c1, c2⟩
  · unfold shelveStore
    exact M.bind_run_ok e1
  · exact ⟨h.ub, h.ub', h.nspam, h.nham, h.coh, h.coh', rel_writeState r _ _, .inl (Dict.get?_set_self _ _ _)⟩
  · rw [← h.nspam, ← h.nham]; exact Dict.get?_set_self _ _ _
  · intro w hw
    rw [← hv w hw]
    simp only [dbView, writeStateKey, Shelf.put, M.modify]
    rw [Dict.get?_set_ne _ _ (Ne.symm hw)]

theorem sim_new (sk : W) : Sim F sk (shelveOpen sk Dict.empty : _ × Clf (Shelf W) K).2
    (Clf.new false Dict.empty) := by
  refine ⟨rfl, rfl, rfl, rfl, coherent_of_empty F _ rfl, coherent_of_empty F _ rfl, ?_, .inr ⟨rfl, rfl, rfl⟩⟩
  exact rel_open (by intro w r h; simp [Clf.new] at h) (by intro w _ v h; simp at h)
    (by intro w _; simp [dbView, Clf.new]) _

theorem sim_reopen {sk : W} {cs : Clf (Shelf W) K} {cm : Clf (Dict W WordInfo) K}
    (h : Sim F sk cs cm) (it it' : SetIter W) :
    (shelveOpen sk (shelveStore sk it it' cs).2.store.db : _ × Clf (Shelf W) K).1 = .ok () ∧
    Sim F sk (shelveOpen sk (shelveStore sk it it' cs).2.store.db : _ × Clf (Shelf W) K).2 cm := by
  obtain ⟨cs', e, hs, hk, hv, -⟩ := store_shelf F h it it'
  rw [e]
  simp only [shelveOpen, shelveLoad, hk]
  refine ⟨rfl, ?_⟩
  have hne : ¬ ((5 : Int) ≠ pickleVersion) := by simp [pickleVersion]
  rw [if_neg hne]
  refine ⟨rfl, h.ub', rfl, rfl, coherent_of_empty F _ rfl, h.coh', ?_, .inl hk⟩
  exact rel_open h.rel.sane hs.rel.inv.words hv _


/-! crash points -/

/-- the records in a shelf with totals `n`, `m` are usable -/
def DbOk (sk : W) (n m : Int) (db : Dict W DbVal) : Prop :=
  ∀ w, w ≠ sk → ∀ v, db.get? w = some v → ∃ a b, v = .counts a b ∧ 0 ≤ a ∧ 0 ≤ b ∧
    (a ≠ 0 ∨ b ≠ 0) ∧ a ≤ max 1 n ∧ b ≤ max 1 m

/-- the totals a shelf will be opened with -/
def Totals (sk : W) (n m : Int) (db : Dict W DbVal) : Prop :=
  db.get? sk = some (.state 5 n m) ∨ (db.get? sk = none ∧ n = 0 ∧ m = 0)

/-- a shelf whose records fit its totals -/
def CrashOk (sk : W) (db : Dict W DbVal) : Prop :=
  ∃ n m : Int, 0 ≤ n ∧ 0 ≤ m ∧ Totals sk n m db ∧ DbOk sk n m db

theorem DbOk.mono {sk : W} {n m n' m' : Int} {db : Dict W DbVal} (h : DbOk sk n m db)
    (h1 : n ≤ n') (h2 : m ≤ m') : DbOk sk n' m' db := by
  intro w hw v hv
  obtain ⟨a, b, e, c1, c2, c3, c4, c5⟩ := h w hw v hv
  exact ⟨a, b, e, c1, c2, c3, by omega, by omega⟩

theorem DbOk.set {sk : W} {n m : Int} {db : Dict W DbVal} (h : DbOk sk n m db) (w : W) (r : WordInfo)
    (h1 : 0 ≤ r.spamcount) (h2 : 0 ≤ r.hamcount) (h3 : r.spamcount ≠ 0 ∨ r.hamcount ≠ 0)
    (h4 : r.spamcount ≤ max 1 n) (h5 : r.hamcount ≤ max 1 m) :
    DbOk sk n m (db.set w (.counts r.spamcount r.hamcount)) := by
  intro x hx v hv
  rw [Dict.get?_set] at hv
  split at hv
  · cases hv; exact ⟨_, _, rfl, h1, h2, h3, h4, h5⟩
  · exact h x hx v hv

theorem DbOk.setKey {sk : W} {n m : Int} {db : Dict W DbVal} (h : DbOk sk n m db) (v : DbVal) :
    DbOk sk n m (db.set sk v) := by
  intro x hx u hu
  rw [Dict.get?_set_ne _ _ (Ne.symm hx)] at hu
  exact h x hx u hu

theorem DbOk.erase {sk : W} {n m : Int} {db : Dict W DbVal} (h : DbOk sk n m db) (w : W) :
    DbOk sk n m (db.erase w) := by
  intro x hx u hu
  rw [Dict.get?_erase] at hu
  split at hu
  · cases hu
  · exact h x hx u hu

/-- the current contents fit the totals `n`, `m`, and every earlier contents some
totals -/
structure Safe (sk : W) (n m : Int) (s : Shelf W) : Prop where
  hn : 0 ≤ n
  hm : 0 ≤ m
  totals : Totals sk n m s.db
  db : DbOk sk n m s.db
  trace : ∀ x ∈ s.trace, CrashOk sk x

theorem Safe.crash {sk : W} {n m : Int} {s : Shelf W} (h : Safe sk n m s) : CrashOk sk s.db :=
  ⟨n, m, h.hn, h.hm, h.totals, h.db⟩

theorem Safe.step {sk : W} {n m : Int} {s s' : Shelf W} (h : Safe sk n m s)
    (hk : s'.db.get? sk = s.db.get? sk) (hd : DbOk sk n m s'.db) (ht : s'.trace = s.trace ++ [s'.db]) :
    Safe sk n m s' := by
  have ht' : Totals sk n m s'.db := by unfold Totals; rw [hk]; exact h.totals
  refine ⟨h.hn, h.hm, ht', hd, ?_⟩
  intro x hx
  rw [ht, List.mem_append] at hx
  rcases hx with hx | hx
  · exact h.trace x hx
  · rw [List.mem_singleton] at hx; subst hx; exact ⟨n, m, h.hn, h.hm, ht', hd⟩

theorem Safe.grew {sk : W} {n m : Int} {s s' : Shelf W} (h : Safe sk n m s)
    (hg : Relation.ReflTransGen (Grew sk) s s') : Safe sk n m s' := by
  induction hg with
  | refl => exact h
  | tail _ hg ih =>
    obtain ⟨hk, ⟨h1, h2⟩ | ⟨w, r, hw, h1, h2, h3, h4, h5, h6⟩⟩ := hg
    · refine ⟨ih.hn, ih.hm, ?_, ?_, ?_⟩
      · rw [h2]; exact ih.totals
      · rw [h2]; exact ih.db
      · rw [h1]; exact ih.trace
    · refine ih.step hk ?_ h1
      rw [h6]
      exact ih.db.set w r h3 h4 h5 (by omega) (by omega)

/-- writing larger totals is safe -/
theorem Safe.state {sk : W} {n m n' m' : Int} {s : Shelf W} (h : Safe sk n m s) (h1 : n ≤ n')
    (h2 : m ≤ m') : Safe sk n' m' (writeStateKey sk n' m' s).2 := by
  have hd : DbOk sk n' m' (s.db.set sk (.state 5 n' m')) := (h.db.mono h1 h2).setKey _
  have := h.hn
  have := h.hm
  have ht : Totals sk n' m' (s.db.set sk (.state 5 n' m')) := .inl (Dict.get?_set_self _ _ _)
  refine ⟨by omega, by omega, ht, hd, ?_⟩
  intro x hx
  change x ∈ s.trace ++ [s.db.set sk (.state 5 n' m')] at hx
  rw [List.mem_append] at hx
  rcases hx with hx | hx
  · exact h.trace x hx
  · rw [List.mem_singleton] at hx; subst hx; exact ⟨n', m', by omega, by omega, ht, hd⟩

theorem Safe.storeChanged_all {sk : W} {n m : Int} (l : List W) (hl : ∀ w ∈ l, w ≠ sk) :
    ∀ s : Shelf W, Safe sk n m s → (∀ w r, s.wordinfo.get? w = some r → 0 ≤ r.spamcount ∧
      0 ≤ r.hamcount ∧ (r.spamcount ≠ 0 ∨ r.hamcount ≠ 0) ∧ r.spamcount ≤ max 1 n ∧
      r.hamcount ≤ max 1 m) → Safe sk n m (M.forEach storeChanged l s).2 := by
  induction l with
  | nil => intro s h _; exact h
  | cons w t ih =>
    intro s h hr
    rw [M.forEach_cons]
    cases hw : s.wordinfo.get? w with
    | none =>
      have e : storeChanged w s = (.error .keyError, s) := by unfold storeChanged; rw [hw]
      rw [M.bind_run_error e]
      exact h
    | some r =>
      have e : storeChanged w s = (.ok (), (Shelf.put w (.counts r.spamcount r.hamcount) s).2) := by
        unfold storeChanged; rw [hw]; rfl
      rw [M.bind_run_ok e]
      obtain ⟨c1, c2, c3, c4, c5⟩ := hr w r hw
      refine ih (fun x hx => hl x (by simp [hx])) _ (h.step ?_ ?_ rfl) hr
      · exact Dict.get?_set_ne _ _ (hl w (by simp))
      · exact h.db.set w r c1 c2 c3 c4 c5

theorem Safe.storeDeleted_all {sk : W} {n m : Int} (l : List W) (hl : ∀ w ∈ l, w ≠ sk) :
    ∀ s : Shelf W, Safe sk n m s → Safe sk n m (M.forEach storeDeleted l s).2 := by
  induction l with
  | nil => intro s h; exact h
  | cons w t ih =>
    intro s h
    rw [M.forEach_cons]
    by_cases hw : s.wordinfo.contains w
    · have e : storeDeleted w s = (.error .exception, s) := by unfold storeDeleted; rw [if_pos hw]
      rw [M.bind_run_error e]
      exact h
    · have e : storeDeleted w s = (.ok (), (Shelf.delete w s).2) := by
        unfold storeDeleted; rw [if_neg hw]; rfl
      rw [M.bind_run_ok e]
      refine ih (fun x hx => hl x (by simp [hx])) _ (h.step ?_ (h.db.erase w) rfl)
      change (s.db.erase w).get? sk = _
      rw [Dict.get?_erase, if_neg (hl w (by simp))]

/-- word counts within the totals -/
def Bounded (c : Clf (Dict W WordInfo) K) : Prop :=
  0 ≤ c.nspam ∧ 0 ≤ c.nham ∧
  ∀ w r, c.store.get? w = some r → r.spamcount ≤ c.nspam ∧ r.hamcount ≤ c.nham

theorem bounded_afterAdd {c : Clf (Dict W WordInfo) K} (h : Bounded c) (it : SetIter W) (ws : List W)
    (b : Bool) : Bounded (afterAdd it ws b c) := by
  obtain ⟨h1, h2, h3⟩ := h
  refine ⟨?_, ?_, ?_⟩
  · cases b <;> simp [afterAdd] <;> omega
  · cases b <;> simp [afterAdd] <;> omega
  · intro w r hr
    simp only [afterAdd, get?_addAll] at hr ⊢
    split at hr
    · cases hr
      cases hw : c.store.get? w with
      | none => cases b <;> simp [bump, WordInfo.new] <;> omega
      | some q =>
        have := h3 w q hw
        cases b <;> simp [bump] <;> omega
    · have := h3 w r hr
      cases b <;> simp <;> omega

theorem safe_storeWords {sk : W} {cs : Clf (Shelf W) K} {cm : Clf (Dict W WordInfo) K}
    (h : Sim F sk cs cm) (hb : Bounded cm) (hs : Safe sk cs.nspam cs.nham cs.store)
    (it it' : SetIter W) : Safe sk cs.nspam cs.nham (shelveStore sk it it' cs).2.store := by
  have hrec : ∀ w r, cs.store.wordinfo.get? w = some r → w ≠ sk ∧ 0 ≤ r.spamcount ∧
      0 ≤ r.hamcount ∧ (r.spamcount ≠ 0 ∨ r.hamcount ≠ 0) ∧ r.spamcount ≤ max 1 cs.nspam ∧
      r.hamcount ≤ max 1 cs.nham := by
    intro w r hr
    have hw : w ≠ sk := by rintro rfl; rw [h.rel.inv.skInfo] at hr; cases hr
    have : cm.store.get? w = some r := by
      rw [← h.rel.agree w hw]; unfold view; rw [hr]
    obtain ⟨c1, c2, c3⟩ := h.rel.sane w r this
    obtain ⟨c4, c5⟩ := hb.2.2 w r this
    rw [h.nspam, h.nham]
    exact ⟨hw, c1, c2, c3, by omega, by omega⟩
  have hch : ∀ w ∈ it.order cs.store.changed, w ∈ cs.store.changed := fun w hw => (it.mem _ _).1 hw
  obtain ⟨s1, e1, a1, a2, a3, -⟩ := storeChanged_all (sk := sk) _ cs.store h.rel.inv hch
  have hs1 : Safe sk cs.nspam cs.nham s1 := by
    have := Safe.storeChanged_all (it.order cs.store.changed) (fun w hw => by
      obtain ⟨r, hr, -⟩ := h.rel.inv.changed w (hch w hw)
      exact (hrec w r hr).1) cs.store hs (fun w r hr => (hrec w r hr).2)
    rw [e1] at this
    exact this
  have hdel : ∀ w ∈ it'.order s1.deleted, w ∈ cs.store.deleted := fun w hw => by
    rw [← a3]; exact (it'.mem _ _).1 hw
  obtain ⟨s2, e2, b1, b4⟩ := storeDeleted_all (it'.order s1.deleted) s1 (fun w hw => by
    rw [a1]; exact h.rel.inv.deleted w (hdel w hw))
  have hs2 : Safe sk cs.nspam cs.nham s2 := by
    have := Safe.storeDeleted_all (it'.order s1.deleted) (fun w hw he => by
      subst he; exact h.rel.inv.skDel (hdel _ hw)) s1 hs1
    rw [e2] at this
    exact this
  have e3 : storeWords it it' cs.store = (.ok (), { s2 with changed := [], deleted := [] }) := by
    unfold storeWords
    refine (M.bind_run_ok (M.get_run _)).trans ?_
    refine (M.bind_run_ok e1).trans ?_
    refine (M.bind_run_ok (M.get_run _)).trans ?_
    refine (M.bind_run_ok e2).trans ?_
    rfl
  have e4 : onStore (K := K) (storeWords it it') cs =
      (.ok (), { cs with store := { s2 with changed := [], deleted := [] } }) := by
    unfold onStore; rw [e3]
  have e5 : shelveStore sk it it' cs = (.ok (), { cs with store :=
      (writeStateKey sk cs.nspam cs.nham { s2 with changed := [], deleted := [] }).2 }) := by
    unfold shelveStore
    exact M.bind_run_ok e4
  rw [e5]
  exact Safe.state (s := { s2 with changed := [], deleted := [] })
    ⟨hs2.hn, hs2.hm, hs2.totals, hs2.db, hs2.trace⟩ le_rfl le_rfl

/-- the records of a shelf as an in-memory dictionary -/
def memOf (sk : W) (db : Dict W DbVal) : Dict W WordInfo :=
  db.keys.foldl (fun d w => if w = sk then d else
    match dbView db w with | some r => d.set w r | none => d) Dict.empty

theorem get?_memOf (sk : W) (db : Dict W DbVal) (w : W) :
    (memOf sk db).get? w = if w = sk then none else dbView db w := by
  have key : ∀ (l : List W) (d : Dict W WordInfo), (l.foldl (fun d w => if w = sk then d else
      match dbView db w with | some r => d.set w r | none => d) d).get? w =
      if w ∈ l ∧ w ≠ sk ∧ (dbView db w).isSome then dbView db w else d.get? w := by
    intro l
    induction l with
    | nil => intro d; simp
    | cons x t ih =>
      intro d
      rw [List.foldl_cons, ih]
      by_cases hx : x = sk
      · rw [if_pos hx]
        by_cases hw : w = sk
        · rw [if_neg (by simp [hw]), if_neg (by simp [hw])]
        · have : w ≠ x := by rw [hx]; exact hw
          simp [this]
      · rw [if_neg hx]
        by_cases hw : w = x
        · subst hw
          cases hv : dbView db w with
          | none => simp
          | some r => simp [hx]
        · cases hv : dbView db x with
          | none => simp [hw]
          | some r => simp only [Dict.get?_set_ne _ _ (Ne.symm hw)]; simp [hw]
  unfold memOf
  rw [key]
  by_cases hw : w = sk
  · simp [hw]
  · rw [if_neg hw]
    cases hv : dbView db w with
    | none => simp
    | some r =>
      have : w ∈ db.keys := by
        rw [Dict.mem_keys_iff]
        unfold dbView at hv
        cases h : db.get? w with
        | none => rw [h] at hv; cases hv
        | some v => exact ⟨v, rfl⟩
      simp [hw, this]

/-- a shelf whose records fit its totals opens, and the object corresponds to an
in-memory one -/
theorem open_crashOk {sk : W} {db : Dict W DbVal} {n m : Int} (ht : Totals sk n m db)
    (hd : DbOk sk n m db) :
    (shelveOpen sk db : _ × Clf (Shelf W) K).1 = .ok () ∧
    Sim F sk (shelveOpen sk db : _ × Clf (Shelf W) K).2
      ⟨some false, memOf sk db, Dict.empty, n, m⟩ := by
  have hr : Rel sk (⟨db, Dict.empty, [], [], [db]⟩ : Shelf W) (memOf sk db) := by
    refine rel_open ?_ ?_ ?_ _
    · intro w r h
      rw [get?_memOf] at h
      split at h
      · cases h
      · rename_i hw
        unfold dbView at h
        split at h
        · rename_i a b hab
          obtain ⟨a', b', e, c1, c2, c3, -⟩ := hd w hw _ hab
          cases e; cases h
          exact ⟨c1, c2, c3⟩
        · cases h
    · intro w hw v hv
      obtain ⟨a, b, e, -⟩ := hd w hw v hv
      exact ⟨a, b, e⟩
    · intro w hw; rw [get?_memOf, if_neg hw]
  rcases ht with ht | ⟨ht, rfl, rfl⟩
  · simp only [shelveOpen, shelveLoad, ht]
    rw [if_neg (by simp [pickleVersion])]
    exact ⟨rfl, rfl, rfl, rfl, rfl, coherent_of_empty F _ rfl, coherent_of_empty F _ rfl, hr, .inl ht⟩
  · simp only [shelveOpen, shelveLoad, ht]
    exact ⟨by trivial, rfl, rfl, rfl, rfl, coherent_of_empty F _ rfl, coherent_of_empty F _ rfl, hr,
      .inr ⟨ht, rfl, rfl⟩⟩

end
end Sb
