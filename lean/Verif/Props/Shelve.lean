import Verif.Proof.Shelve
import Verif.Proof.Frame
import Verif.Props.Scoring

/-
Properties C28-C31: ShelveClassifier; and the exception to C08 (`load` on a used
object).  `sk` stands for the state key, 'saved state' in the code; the theorems
hold for any key.  `shelveOpen sk Dict.empty` is a ShelveClassifier on a new file.
-/

set_option linter.unusedSectionVars false

namespace Sb.Props
open Sb Py Spec

section
variable {W K : Type} [LinearOrder W] [BigramFormat W] [Field K] [LinearOrder K]

/-- No token of the call is the state key. -/
def AvoidsKey (sk : W) : ShCall W → Prop
  | .base (.learn _ s _) => sk ∉ s.items
  | .base (.unlearn _ s _) => sk ∉ s.items
  | .base (.spamprob _ s _) => sk ∉ s.items
  | _ => True

/-- A ShelveClassifier on a new file after the calls `calls`. -/
abbrev shelfAfter (F : FloatOps K) (sk : W) (calls : List (ShCall W)) : Clf (Shelf W) K :=
  (execSh F sk (shelveOpen sk Dict.empty).2 calls).2

/-- The same calls on the in-memory classifier, where storing and reopening do
nothing: outcomes and final object. -/
def execMem (F : FloatOps K) (c : Clf (Dict W WordInfo) K) :
    List (ShCall W) → List (Outcome W K) × Clf (Dict W WordInfo) K
  | [] => ([], c)
  | .base call :: rest =>
    let r := runCall F (memory W) c call
    let rs := execMem F r.2 rest
    (r.1 :: rs.1, rs.2)
  | _ :: rest =>
    let rs := execMem F c rest
    (.done :: rs.1, rs.2)

/-- The in-memory classifier after the same calls. -/
abbrev memAfter (F : FloatOps K) (calls : List (ShCall W)) : Clf (Dict W WordInfo) K :=
  (execMem F (Clf.new false Dict.empty) calls).2

/-- helper -/
theorem avoids_of {sk : W} {call : Call W} (h : AvoidsKey sk (.base call)) : Avoids sk call := by
  cases call with
  | learn it s b => exact fun w hw he => h (he ▸ hw)
  | unlearn it s b => exact fun w hw he => h (he ▸ hw)
  | spamprob it s b => exact fun w hw he => h (he ▸ hw)
  | probability r => trivial

/-- helper: the simulation along a history -/
theorem sim_exec (F : FloatOps K) {sk : W} (calls : List (ShCall W)) (ha : ∀ c ∈ calls, AvoidsKey sk c) :
    ∀ (cs : Clf (Shelf W) K) (cm : Clf (Dict W WordInfo) K), Sim F sk cs cm →
      (execSh F sk cs calls).1 = (execMem F cm calls).1 ∧
      Sim F sk (execSh F sk cs calls).2 (execMem F cm calls).2 := by
  induction calls with
  | nil => intro cs cm h; exact ⟨rfl, h⟩
  | cons call rest ih =>
    intro cs cm h
    have ih := ih (fun c hc => ha c (by simp [hc]))
    cases call with
    | base call =>
      obtain ⟨h1, h2⟩ := sim_runCall F h call (avoids_of (ha _ (by simp)))
      obtain ⟨h3, h4⟩ := ih _ _ h2
      exact ⟨by simp only [execSh, execMem, runShCall, h1, h3], h4⟩
    | store it it' =>
      obtain ⟨cs', e, h2, -⟩ := store_shelf F h it it'
      obtain ⟨h3, h4⟩ := ih _ _ h2
      simp only [execSh, execMem, runShCall, e, Outcome.ofUnit]
      exact ⟨by rw [h3], h4⟩
    | storeReopen it it' =>
      obtain ⟨cs', e, h2, -⟩ := store_shelf F h it it'
      obtain ⟨h5, h6⟩ := sim_reopen F h it it'
      rw [e] at h5 h6
      obtain ⟨h3, h4⟩ := ih _ _ h6
      simp only [execSh, execMem, runShCall, e]
      rw [h5]
      exact ⟨by rw [h3]; rfl, h4⟩

/-- helper -/
theorem sim_after (F : FloatOps K) {sk : W} (calls : List (ShCall W)) (ha : ∀ c ∈ calls, AvoidsKey sk c) :
    Sim F sk (shelfAfter F sk calls) (memAfter F calls) :=
  (sim_exec F calls ha _ _ (sim_new F sk)).2

/-! ### C28, C29 -/

/-- **C28.** Any history of learn, unlearn, spamprob, probability, store and
reopen whose tokens avoid the state key: every outcome (results and errors) is the
one of the in-memory classifier, and so are the totals and the record found for
each word afterwards. -/
theorem C28_shelve_is_classifier (F : FloatOps K) (sk : W) (calls : List (ShCall W))
    (ha : ∀ c ∈ calls, AvoidsKey sk c) :
    (execSh F sk (shelveOpen sk Dict.empty).2 calls).1 =
      (execMem F (Clf.new false Dict.empty) calls).1 ∧
    (shelfAfter F sk calls).nspam = (memAfter F calls).nspam ∧
    (shelfAfter F sk calls).nham = (memAfter F calls).nham ∧
    ∀ w, w ≠ sk → ((shelf sk).get w (shelfAfter F sk calls).store).1 =
      .ok ((memAfter F calls).store.get? w) := by
  obtain ⟨h1, h2⟩ := sim_exec F calls ha _ _ (sim_new F sk)
  refine ⟨h1, h2.nspam, h2.nham, fun w hw => ?_⟩
  have h3 := (shelfGet_spec h2.rel.inv hw).1
  rw [h2.rel.agree w hw] at h3
  exact h3

example : ∀ c ∈ ([.base (.learn .dedup (.list ["a", "b"]) true), .store .dedup .dedup,
      .base (.unlearn .dedup (.list ["a", "b"]) true), .storeReopen .dedup .dedup,
      .base (.spamprob .dedup (.list ["a"]) true)] : List (ShCall String)),
    AvoidsKey "saved state" c := by
  simp [AvoidsKey, Stream.items]

/-- **C29.** After any such history, store succeeds, and an object constructed on
the stored file has the totals and word records of the in-memory classifier; the
words listed are those with a record. -/
theorem C29_store_reopen (F : FloatOps K) (sk : W) (calls : List (ShCall W))
    (ha : ∀ c ∈ calls, AvoidsKey sk c) (it it' : SetIter W) :
    ∃ c' : Clf (Shelf W) K, shelveStore sk it it' (shelfAfter F sk calls) = (.ok (), c') ∧
      ∃ c2 : Clf (Shelf W) K, shelveOpen sk c'.store.db = (.ok (), c2) ∧
        c2.nspam = (memAfter F calls).nspam ∧ c2.nham = (memAfter F calls).nham ∧
        (∀ w, w ≠ sk → ((shelf sk).get w c2.store).1 = .ok ((memAfter F calls).store.get? w)) ∧
        sk ∈ c2.store.db.keys ∧
        ∀ w, w ≠ sk → (w ∈ c2.store.db.keys ↔ ((memAfter F calls).store.get? w).isSome) := by
  have h := sim_after F calls ha
  obtain ⟨c', e, h2, hk, hv, -⟩ := store_shelf F h it it'
  obtain ⟨h5, h6⟩ := sim_reopen F h it it'
  rw [e] at h5 h6
  refine ⟨c', e, (shelveOpen sk c'.store.db).2, ?_, h6.nspam, h6.nham, ?_, ?_, ?_⟩
  · rw [← h5]
  · intro w hw
    have h3 := (shelfGet_spec h6.rel.inv hw).1
    rw [h6.rel.agree w hw] at h3
    exact h3
  · have : (shelveOpen sk c'.store.db : _ × Clf (Shelf W) K).2.store.db = c'.store.db := by
      simp [shelveOpen, shelveLoad, hk, pickleVersion]
    rw [this, Dict.mem_keys_iff]
    exact ⟨_, hk⟩
  · intro w hw
    have : (shelveOpen sk c'.store.db : _ × Clf (Shelf W) K).2.store.db = c'.store.db := by
      simp [shelveOpen, shelveLoad, hk, pickleVersion]
    rw [this, ← hv w hw, Dict.mem_keys_iff]
    unfold dbView
    constructor
    · rintro ⟨v, hv'⟩
      obtain ⟨a, b, rfl⟩ := h2.rel.inv.words w hw v hv'
      rw [hv']; rfl
    · intro h
      cases hg : c'.store.db.get? w with
      | none => rw [hg] at h; cases h
      | some v => exact ⟨v, rfl⟩

/-- helper: a shelf never holds a key twice -/
theorem shelf_keeps_nodup (sk : W) : BackendKeeps (shelf sk) (fun s : Shelf W => s.db.Nodup) where
  get w s h := by
    change (shelfGet w s).2.db.Nodup
    unfold shelfGet
    split
    · exact h
    · split
      · exact h
      · split <;> exact h
  set w r s h := by
    change (shelfSet w r s).2.db.Nodup
    unfold shelfSet
    split
    · exact h.set _ _
    · exact h
  del w s h := by
    change (shelfDel w s).2.db.Nodup
    unfold shelfDel
    split <;> exact h
  post n m s h := h.set _ _

/-- helper -/
theorem store_keeps_nodup (sk : W) (it it' : SetIter W) :
    Keeps (fun c : Clf (Shelf W) K => c.store.db.Nodup) (shelveStore sk it it') := by
  refine Keeps.bind (Keeps.onStore (P := fun s : Shelf W => s.db.Nodup) ?_)
    (fun _ => Keeps.post (shelf_keeps_nodup sk))
  refine Keeps.bind (fun c hc => hc) (fun s => ?_)
  refine Keeps.bind (Keeps.forEach (fun w _ s hs => ?_)) (fun _ => ?_)
  · unfold storeChanged
    split
    · exact hs
    · exact hs.set _ _
  refine Keeps.bind (fun c hc => hc) (fun s => ?_)
  refine Keeps.bind (Keeps.forEach (fun w _ s hs => ?_)) (fun _ c hc => hc)
  unfold storeDeleted
  split
  · exact hs
  · exact hs.erase _

/-- helper -/
theorem execSh_nodup (F : FloatOps K) (sk : W) (calls : List (ShCall W)) :
    ∀ c : Clf (Shelf W) K, c.store.db.Nodup → (execSh F sk c calls).2.store.db.Nodup := by
  induction calls with
  | nil => intro c hc; exact hc
  | cons call rest ih =>
    intro c hc
    refine ih _ ?_
    cases call with
    | base call =>
      cases call with
      | learn it s b => exact Keeps.learn (shelf_keeps_nodup sk) it s b c hc
      | unlearn it s b => exact Keeps.unlearn (shelf_keeps_nodup sk) it s b c hc
      | spamprob it s ev =>
        exact spamprob_frame F (shelf sk) (fun c => c.store.db.Nodup)
          (fun w => Keeps.onStore ((shelf_keeps_nodup sk).get w)) (fun c pc hc => hc) it s ev c hc
      | probability r =>
        simp only [runShCall, runCall]
        unfold probability
        split
        · exact hc
        · split <;> exact hc
    | store it it' => exact store_keeps_nodup sk it it' c hc
    | storeReopen it it' =>
      have h := store_keeps_nodup sk it it' c hc
      simp only [runShCall]
      split
      · rename_i e; rw [e] at h; exact h
      · rename_i e
        rw [e] at h
        simp only [shelveOpen, shelveLoad]
        split
        · exact h
        · split <;> exact h
        · exact h

/-- **C29**, word list: after store, `_wordinfokeys` returns each word with a
record once, and not the state key. -/
theorem C29_wordinfokeys (F : FloatOps K) (sk : W) (calls : List (ShCall W))
    (ha : ∀ c ∈ calls, AvoidsKey sk c) (it it' : SetIter W) :
    ∃ l, shelfKeys sk (shelveStore sk it it' (shelfAfter F sk calls)).2.store = .ok l ∧ l.Nodup ∧
      sk ∉ l ∧ ∀ w, w ≠ sk → (w ∈ l ↔ ((memAfter F calls).store.get? w).isSome) := by
  have hn : (shelveStore sk it it' (shelfAfter F sk calls)).2.store.db.Nodup :=
    store_keeps_nodup sk it it' _ (execSh_nodup F sk calls _ Dict.nodup_empty)
  obtain ⟨c', e, c2, e2, -, -, -, hk, h⟩ := C29_store_reopen F sk calls ha it it'
  have hdb : c2.store.db = c'.store.db := by
    obtain ⟨c'', e', -, hk', -⟩ := store_shelf F (sim_after F calls ha) it it'
    rw [e] at e'
    cases e'
    have : c2 = (shelveOpen sk c'.store.db : _ × Clf (Shelf W) K).2 := by rw [e2]
    rw [this]
    simp [shelveOpen, shelveLoad, hk', pickleVersion]
  rw [e] at hn ⊢
  rw [hdb] at hk h
  have hn : c'.store.db.keys.Nodup := hn
  refine ⟨c'.store.db.keys.erase sk, ?_, List.Nodup.erase _ hn, hn.not_mem_erase, ?_⟩
  · simp only [shelfKeys, if_pos hk]
  · intro w hw
    rw [List.mem_erase_of_ne hw]
    exact h w hw

/-! ### C30 -/

/-- A history that never unlearns. -/
def NoUnlearn : ShCall W → Prop
  | .base (.unlearn ..) => False
  | _ => True

/-- helper: along histories without unlearn every contents of the file is usable -/
theorem safe_exec (F : FloatOps K) {sk : W} (calls : List (ShCall W)) (ha : ∀ c ∈ calls, AvoidsKey sk c)
    (hu : ∀ c ∈ calls, NoUnlearn c) :
    ∀ (cs : Clf (Shelf W) K) (cm : Clf (Dict W WordInfo) K), Sim F sk cs cm → Bounded cm →
      Safe sk cs.nspam cs.nham cs.store →
      Safe sk (execSh F sk cs calls).2.nspam (execSh F sk cs calls).2.nham (execSh F sk cs calls).2.store := by
  induction calls with
  | nil => intro cs cm _ _ h; exact h
  | cons call rest ih =>
    intro cs cm h hb hs
    have ih := ih (fun c hc => ha c (by simp [hc])) (fun c hc => hu c (by simp [hc]))
    cases call with
    | base call =>
      have hav := avoids_of (ha _ (List.mem_cons_self ..))
      obtain ⟨-, h2⟩ := sim_runCall F h call hav
      cases call with
      | learn it s b =>
        refine ih _ _ h2 ?_ ?_
        · simp only [runCall]
          rw [learn_memory it s b cm h.ub']
          exact bounded_afterAdd hb it _ b
        · obtain ⟨s1, s', e, r, g, hs'⟩ := addMsg_shelf it s.items hav b cs h.rel
          have e' : learn (shelf sk) it s b cs = addMsg (shelf sk) it s.items b cs := by
            unfold learn
            rw [M.bind_run_ok (M.get_run _), h.ub]
            rfl
          simp only [runShCall, runCall]
          rw [e', e]
          simp only
          rw [hs']
          exact (hs.grew g).state (by split <;> omega) (by split <;> omega)
      | unlearn it s b => exact absurd (hu _ (List.mem_cons_self ..)) (by simp [NoUnlearn])
      | spamprob it s ev =>
        obtain ⟨a1, a2⟩ := computes_spamprob (F := F) (ub := cs.useBigrams) (nspam := cs.nspam)
          (nham := cs.nham) (reads_shelf (sk := sk) cm.store cs.store.db cs.store.trace) it s ev
          (by rw [h.ub]; exact hav) cs ⟨h.coh, ⟨h.rel, rfl, rfl⟩, rfl, rfl, rfl⟩
        obtain ⟨b1, b2, b3, b4, b5, b6⟩ := spamprob_memory (F := F) cm h.coh' it s ev
        refine ih _ _ h2 ?_ ?_
        · simp only [runCall]
          unfold Bounded
          rw [b3, b4, b5]
          exact hb
        · simp only [runShCall, runCall]
          rw [a2.nspam, a2.nham]
          refine ⟨hs.hn, hs.hm, ?_, ?_, ?_⟩
          · rw [a2.inv.2.1]; exact hs.totals
          · rw [a2.inv.2.1]; exact hs.db
          · rw [a2.inv.2.2]; exact hs.trace
      | probability r =>
        obtain ⟨a1, a2⟩ := computes_probability (F := F) (Inv := fun d => d = cs.store)
          (ub := cs.useBigrams) (nspam := cs.nspam) (nham := cs.nham) r cs ⟨h.coh, rfl, rfl, rfl, rfl⟩
        obtain ⟨b1, b2⟩ := computes_probability (F := F) (Inv := fun d => d = cm.store)
          (ub := cm.useBigrams) (nspam := cm.nspam) (nham := cm.nham) r cm ⟨h.coh', rfl, rfl, rfl, rfl⟩
        refine ih _ _ h2 ?_ ?_
        · simp only [runCall]
          unfold Bounded
          rw [b2.inv, b2.nspam, b2.nham]
          exact hb
        · simp only [runShCall, runCall]
          rw [a2.nspam, a2.nham, a2.inv]
          exact hs
    | store it it' =>
      obtain ⟨cs', e, h2, -⟩ := store_shelf F h it it'
      have h3 := safe_storeWords F h hb hs it it'
      simp only [execSh, runShCall]
      refine ih _ cm (by rw [e]; exact h2) hb ?_
      rw [e] at h3 ⊢
      have e1 : cs'.nspam = cs.nspam := h2.nspam.trans h.nspam.symm
      have e2 : cs'.nham = cs.nham := h2.nham.trans h.nham.symm
      simp only
      rw [e1, e2]
      exact h3
    | storeReopen it it' =>
      obtain ⟨cs', e, h2, hk, -⟩ := store_shelf F h it it'
      obtain ⟨h5, h6⟩ := sim_reopen F h it it'
      have h3 := safe_storeWords F h hb hs it it'
      simp only [execSh, runShCall]
      rw [e] at h5 h6 h3 ⊢
      refine ih _ cm h6 hb ?_
      have e1 := h6.nspam.trans h.nspam.symm
      have e2 := h6.nham.trans h.nham.symm
      simp only at e1 e2 h3 ⊢
      rw [e1, e2]
      have hst : (shelveOpen sk cs'.store.db : _ × Clf (Shelf W) K).2.store =
          ⟨cs'.store.db, Dict.empty, [], [], [cs'.store.db]⟩ := by
        simp [shelveOpen, shelveLoad, hk, pickleVersion]
      rw [hst]
      refine ⟨h3.hn, h3.hm, h3.totals, h3.db, ?_⟩
      intro x hx
      rw [List.mem_singleton] at hx
      subst hx
      exact h3.crash

/-- helper -/
theorem safe_after (F : FloatOps K) {sk : W} (calls : List (ShCall W)) (ha : ∀ c ∈ calls, AvoidsKey sk c)
    (hu : ∀ c ∈ calls, NoUnlearn c) :
    Safe sk (shelfAfter F sk calls).nspam (shelfAfter F sk calls).nham (shelfAfter F sk calls).store := by
  refine safe_exec F calls ha hu _ _ (sim_new F sk) ⟨le_rfl, le_rfl, ?_⟩ ⟨le_rfl, le_rfl, .inr ⟨rfl, rfl, rfl⟩, ?_, ?_⟩
  · intro w r h; cases h
  · intro w _ v h; cases h
  · intro x hx
    have hx : x ∈ [(Dict.empty : Dict W DbVal)] := hx
    rw [List.mem_singleton] at hx
    subst hx
    exact ⟨0, 0, le_rfl, le_rfl, .inr ⟨rfl, rfl, rfl⟩, by intro w _ v h; cases h⟩

end

section
variable {W : Type} [LinearOrder W] [BigramFormat W]

/-- **C30**, the part that holds: let a history of any calls but unlearn stop
after any single write to the file, leaving contents `db`.  Then `db` opens, the
totals are not negative, no word is counted in more messages than were trained
(or one, if a first message was only partly written), and every message can be
scored. -/
theorem C30_crash_without_unlearn_partial (sk : W) (calls : List (ShCall W))
    (ha : ∀ c ∈ calls, AvoidsKey sk c) (hu : ∀ c ∈ calls, NoUnlearn c) (db : Dict W DbVal)
    (hdb : db ∈ (shelfAfter exactReal sk calls).store.trace) :
    ∃ c : Clf (Shelf W) ℝ, shelveOpen sk db = (.ok (), c) ∧ 0 ≤ c.nspam ∧ 0 ≤ c.nham ∧
      (∀ w, w ≠ sk → ∃ o, ((shelf sk).get w c.store).1 = .ok o ∧
        ∀ r, o = some r → 0 ≤ r.spamcount ∧ r.spamcount ≤ max 1 c.nspam ∧
          0 ≤ r.hamcount ∧ r.hamcount ≤ max 1 c.nham) ∧
      ∀ (it : SetIter W) (s : Stream W) (ev : Bool), sk ∉ s.items →
        ∃ v, (spamprob exactReal (shelf sk) it s ev c).1 = .ok v := by
  obtain ⟨n, m, hn, hm, ht, hd⟩ := (safe_after exactReal calls ha hu).trace db hdb
  obtain ⟨h1, h2⟩ := open_crashOk exactReal ht hd
  have hrec : ∀ w r, (memOf sk db).get? w = some r → 0 ≤ r.spamcount ∧ 0 ≤ r.hamcount ∧
      (r.spamcount ≠ 0 ∨ r.hamcount ≠ 0) ∧ r.spamcount ≤ max 1 n ∧ r.hamcount ≤ max 1 m := by
    intro w r hr
    rw [get?_memOf] at hr
    split at hr
    · cases hr
    · rename_i hw
      unfold dbView at hr
      split at hr
      · rename_i a b hab
        obtain ⟨a', b', e, c1, c2, c3, c4, c5⟩ := hd w hw _ hab
        cases e; cases hr
        exact ⟨c1, c2, c3, c4, c5⟩
      · cases hr
  refine ⟨(shelveOpen sk db).2, by rw [← h1], by rw [h2.nspam]; exact hn, by rw [h2.nham]; exact hm, ?_, ?_⟩
  · intro w hw
    have h3 := (shelfGet_spec h2.rel.inv hw).1
    rw [h2.rel.agree w hw] at h3
    refine ⟨_, h3, fun r hr => ?_⟩
    obtain ⟨c1, c2, c3, c4, c5⟩ := hrec w r hr
    rw [h2.nspam, h2.nham]
    exact ⟨c1, c4, c2, c5⟩
  · intro it s ev hs
    have hsim := (sim_runCall exactReal h2 (.spamprob it s ev) (fun w hw he => hs (he ▸ hw))).1
    let cm : Clf (Dict W WordInfo) ℝ := ⟨some false, memOf sk db, Dict.empty, n, m⟩
    have hcoh : Coherent exactReal cm := coherent_of_empty _ _ rfl
    have hsane : Sane cm := ⟨hn, hm, fun w r hr => by
      obtain ⟨c1, c2, c3, -⟩ := hrec w r hr; exact ⟨c1, c2, c3⟩⟩
    have hprob : ∀ w, ∃ p, pureProb exactReal n m ((memOf sk db).get? w) = .ok p := by
      intro w
      cases hw : (memOf sk db).get? w with
      | none => exact ⟨_, rfl⟩
      | some r =>
        obtain ⟨c1, c2, c3, c4, c5⟩ := hrec w r hw
        exact freshProbability_total exactReal_sound exactReal_posRatios c1 c2 c3
          (by split <;> omega) (by split <;> omega)
    obtain ⟨clues, hc⟩ := pureClues_total hprob false it s
    have hv := pureSpamprob_of (ev := ev) hc (combine_exact _ (clues_exact_strict hsane hc))
    have hm' : (spamprob exactReal (memory W) it s ev cm).1 = _ := (spamprob_eq exactReal hcoh it s ev).trans hv
    simp only [runCall] at hsim
    change Outcome.ofScore (spamprob exactReal (shelf sk) it s ev (shelveOpen sk db).2).1 =
      Outcome.ofScore (spamprob exactReal (memory W) it s ev cm).1 at hsim
    rw [hm'] at hsim
    cases hr : (spamprob exactReal (shelf sk) it s ev (shelveOpen sk db).2).1 with
    | ok v => exact ⟨v, rfl⟩
    | error e => rw [hr] at hsim; cases hsim

/-- **C30**, crash between two calls of any history, unlearn included: the file
opens, and the totals in it are those of all messages trained so far. -/
theorem C30_crash_between_calls_partial (sk : W) (calls : List (ShCall W))
    (ha : ∀ c ∈ calls, AvoidsKey sk c) :
    ∃ c : Clf (Shelf W) ℝ, shelveOpen sk (shelfAfter exactReal sk calls).store.db = (.ok (), c) ∧
      c.nspam = (memAfter exactReal calls).nspam ∧ c.nham = (memAfter exactReal calls).nham := by
  have h := sim_after exactReal calls ha
  have h1 := h.nspam
  have h2 := h.nham
  rcases h.state with hk | ⟨hk, e1, e2⟩
  · refine ⟨(shelveOpen sk (shelfAfter exactReal sk calls).store.db).2, ?_, ?_, ?_⟩ <;>
      simp only [shelveOpen, shelveLoad, hk] <;> rw [if_neg (by simp [pickleVersion])]
    · exact h1
    · exact h2
  · refine ⟨(shelveOpen sk (shelfAfter exactReal sk calls).store.db).2, ?_, ?_, ?_⟩ <;>
      simp only [shelveOpen, shelveLoad, hk]
    · rw [← h1, e1]
    · rw [← h2, e2]

example : (∀ c ∈ ([.base (.learn .dedup (.list ["a", "b"]) true), .store .dedup .dedup,
      .base (.learn .dedup (.list ["a"]) true)] : List (ShCall String)), AvoidsKey "saved state" c) ∧
    (∀ c ∈ ([.base (.learn .dedup (.list ["a", "b"]) true), .store .dedup .dedup,
      .base (.learn .dedup (.list ["a"]) true)] : List (ShCall String)), NoUnlearn c) := by
  simp [AvoidsKey, NoUnlearn, Stream.items]

/-- the calls of the base class in a history -/
def baseCalls : List (ShCall W) → List (Call W)
  | [] => []
  | .base c :: rest => c :: baseCalls rest
  | _ :: rest => baseCalls rest

/-- **C30** as one would like it: after any valid history, whatever the file holds
can be opened and used for scoring. -/
def C30Claim (sk : W) : Prop :=
  ∀ (calls : List (ShCall W)) (L : Ledger W), (∀ c ∈ calls, AvoidsKey sk c) →
    Valid false 0 (baseCalls calls) L →
    ∀ (it : SetIter W) (s : Stream W), sk ∉ s.items →
      ∃ v, (spamprob exactReal (shelf sk) it s false
        (shelveOpen sk (shelfAfter exactReal sk calls).store.db).2).1 = .ok v

/-- The history refuting the claim: learn a message three times, store, unlearn it
twice, stop without store. -/
def crashCalls : List (ShCall String) :=
  [.base (.learn .dedup (.list ["a"]) true), .base (.learn .dedup (.list ["a"]) true),
   .base (.learn .dedup (.list ["a"]) true), .store .dedup .dedup,
   .base (.unlearn .dedup (.list ["a"]) true)]

/-- **C30** is false with unlearn: the totals in the file are newer than the word
counts, and scoring raises. -/
theorem C30_claim_false : ¬ C30Claim "saved state" := by
  intro h
  obtain ⟨v, hv⟩ := h crashCalls _ (by simp [crashCalls, AvoidsKey, Stream.items])
    (by
      simp only [crashCalls, baseCalls]
      exact .learn (.learn (.learn (.unlearn (by simp) (.nil _))))) .dedup (.list ["a"])
    (by simp [Stream.items])
  have ht : Totals "saved state" 2 0 (shelfAfter exactReal "saved state" crashCalls).store.db := .inl rfl
  have hw : (shelfAfter exactReal "saved state" crashCalls).store.db.get? "a" = some (.counts 3 0) := rfl
  have e1 : (shelveOpen "saved state" (shelfAfter exactReal "saved state" crashCalls).store.db :
    _ × Clf (Shelf String) ℝ).2.nspam = 2 := rfl
  have e2 : (shelveOpen "saved state" (shelfAfter exactReal "saved state" crashCalls).store.db :
    _ × Clf (Shelf String) ℝ).2.nham = 0 := rfl
  have hr : Rel "saved state" (shelveOpen "saved state" (shelfAfter exactReal "saved state" crashCalls).store.db :
    _ × Clf (Shelf String) ℝ).2.store (⟨[("a", ⟨3, 0⟩)]⟩ : Dict String WordInfo) := by
    have hdb : (shelfAfter exactReal "saved state" crashCalls).store.db =
      ⟨[("a", .counts 3 0), ("saved state", .state 5 2 0)]⟩ := rfl
    refine rel_open (db := (shelfAfter exactReal "saved state" crashCalls).store.db) ?_ ?_ ?_ _
    · intro w r h
      have := Dict.mem_entries_of_get? h
      simp at this
      rw [this.2]; simp
    · rw [hdb]
      intro w hw v h
      have := Dict.mem_entries_of_get? h
      simp at this
      rcases this with ⟨-, rfl⟩ | ⟨h1, -⟩
      · exact ⟨_, _, rfl⟩
      · exact absurd h1 hw
    · rw [hdb]
      intro w hw
      by_cases h : w = "a"
      · subst h; rfl
      · have h' : ¬ "a" = w := fun e => h e.symm
        have h'' : ¬ "saved state" = w := fun e => hw e.symm
        simp [dbView, Dict.get?, Dict.getL, h', h'']
  obtain ⟨a1, -⟩ := computes_spamprob (F := exactReal) (ub := some false) (nspam := 2)
      (nham := 0) (reads_shelf (sk := "saved state") _ _ _) .dedup (.list ["a"]) false
      (by simp [ProbesIn, Stream.items]) _ ⟨coherent_of_empty _ _ rfl, ⟨hr, rfl, rfl⟩, rfl, e1, e2⟩
  rw [a1] at hv
  have e3 : SetIter.dedup.order ["a"] = ["a"] := by decide
  have e4 : pureProb exactReal 2 0 (some ⟨3, 0⟩) = .error .exception :=
    freshProbability_exceeds (F := exactReal) (ns := 2) (nh := 0) (r := ⟨3, 0⟩) (.inr (by simp))
  unfold pureSpamprob pureClues pureCluesUnigram Stream.items at hv
  simp only [e3, List.mapM_cons] at hv
  rw [pureClue_error (by exact e4)] at hv
  cases hv

end

/-! ### C31 -/

section
variable {W K : Type} [LinearOrder W] [BigramFormat W] [Field K] [LinearOrder K]

/-- **C31**, the part that holds: after any history avoiding the state key, a
message without the state key can be learned. -/
theorem C31_other_tokens_partial (F : FloatOps K) (sk : W) (calls : List (ShCall W))
    (ha : ∀ c ∈ calls, AvoidsKey sk c) (it : SetIter W) (s : Stream W) (hs : sk ∉ s.items) (b : Bool) :
    (learn (shelf sk) it s b (shelfAfter F sk calls)).1 = .ok () := by
  have h := (sim_runCall F (sim_after F calls ha) (.learn it s b) (fun w hw he => hs (he ▸ hw))).1
  simp only [runCall] at h
  rw [learn_memory it s b _ (sim_after F calls ha).ub'] at h
  cases hr : (learn (shelf sk) it s b (shelfAfter F sk calls)).1 with
  | ok u => rfl
  | error e => rw [hr] at h; cases h

/-- helper -/
theorem forEach_append_error {σ γ : Type} {f : γ → M σ Unit} {l1 l2 : List γ} {x : γ} {c c' c'' : σ} {e : Err}
    (h1 : M.forEach f l1 c = (.ok (), c')) (h2 : f x c' = (.error e, c'')) :
    M.forEach f (l1 ++ x :: l2) c = (.error e, c'') := by
  induction l1 generalizing c with
  | nil => 
    have h1 : ((.ok (), c) : Except Err Unit × σ) = (.ok (), c') := h1
    cases h1
    rw [List.nil_append, M.forEach_cons, M.bind_run_error h2]
  | cons y t ih =>
    rw [List.cons_append, M.forEach_cons]
    rw [M.forEach_cons] at h1
    cases hy : f y c with
    | mk r c1 =>
      cases r with
      | error e' => rw [M.bind_run_error hy] at h1; cases h1
      | ok u =>
        rw [M.bind_run_ok hy] at h1
        rw [M.bind_run_ok hy]
        exact ih h1

/-- **C31** fails: once any message has been trained, learning a message
containing the state key raises ValueError, and the total has been raised by
then. -/
theorem C31_state_key_raises (F : FloatOps K) (sk : W) (calls : List (ShCall W))
    (ha : ∀ c ∈ calls, AvoidsKey sk c) (it0 : SetIter W) (s0 : Stream W) (b0 : Bool) (hs0 : sk ∉ s0.items)
    (it : SetIter W) (s : Stream W) (hs : sk ∈ s.items) (b : Bool) :
    let c := shelfAfter F sk (calls ++ [.base (.learn it0 s0 b0)])
    (learn (shelf sk) it s b c).1 = .error .valueError ∧
    (learn (shelf sk) it s b c).2.nspam = (if b then c.nspam + 1 else c.nspam) ∧
    (learn (shelf sk) it s b c).2.nham = (if b then c.nham else c.nham + 1) := by
  intro c
  have hav : ∀ c ∈ calls ++ [.base (.learn it0 s0 b0)], AvoidsKey sk c := by
    intro c hc
    rcases List.mem_append.1 hc with hc | hc
    · exact ha c hc
    · rw [List.mem_singleton] at hc; subst hc; exact hs0
  have h : Sim F sk c _ := sim_after F _ hav
  have hkey : ∃ n m, c.store.db.get? sk = some (.state 5 n m) := by
    have happ : ∀ (l : List (ShCall W)) (x : ShCall W) (c0 : Clf (Shelf W) K),
        (execSh F sk c0 (l ++ [x])).2 = (runShCall F sk (execSh F sk c0 l).2 x).2 := by
      intro l x
      induction l with
      | nil => intro c0; rfl
      | cons y t ih => intro c0; simp only [List.cons_append, execSh]; exact ih _
    have h0 := sim_after F calls ha
    obtain ⟨s1, s', e, r, g, hs'⟩ := addMsg_shelf (sk := sk) it0 s0.items
      (fun w hw he => hs0 (he ▸ hw)) b0 _ h0.rel
    have e' : learn (shelf sk) it0 s0 b0 (shelfAfter F sk calls) =
        addMsg (shelf sk) it0 s0.items b0 (shelfAfter F sk calls) := by
      unfold learn
      rw [M.bind_run_ok (M.get_run _), h0.ub]
      rfl
    have : c = (learn (shelf sk) it0 s0 b0 (shelfAfter F sk calls)).2 := happ calls _ _
    rw [this, e', e]
    simp only
    rw [hs']
    exact ⟨_, _, Dict.get?_set_self _ _ _⟩
  obtain ⟨n, m, hkey⟩ := hkey
  obtain ⟨l1, l2, hl⟩ := List.append_of_mem ((it.mem s.items sk).2 hs)
  have hnd := it.nodup s.items
  rw [hl] at hnd
  have hl1 : ∀ w ∈ l1, w ≠ sk := by
    rintro w hw rfl
    exact (List.nodup_append.1 hnd).2.2 w hw w (List.mem_cons_self ..) rfl
  let c0 : Clf (Shelf W) K := { c with
    probcache := Dict.empty
    nspam := if b then c.nspam + 1 else c.nspam
    nham := if b then c.nham else c.nham + 1 }
  obtain ⟨s1, e1, r1, g1⟩ := addAll_shelf (K := K) b l1 hl1 c0 h.rel
  have hk1 : s1.db.get? sk = some (.state 5 n m) := by
    have : ∀ s1, Relation.ReflTransGen (Grew sk) c0.store s1 → s1.db.get? sk = some (.state 5 n m) := by
      intro s1 hg
      induction hg with
      | refl => exact hkey
      | tail _ hg ih => rw [hg.1, ih]
    exact this s1 g1
  have e2 : addWord (shelf sk) b sk { c0 with store := s1 } = (.error .valueError, { c0 with store := s1 }) := by
    have : onStore (K := K) ((shelf sk).get sk) { c0 with store := s1 } =
        (.error .valueError, { c0 with store := s1 }) := by
      simp only [onStore, shelf, shelfGet, r1.inv.skInfo, if_neg r1.inv.skDel, hk1]
    unfold addWord
    exact M.bind_run_error this
  have e3 := forEach_append_error (l2 := l2) e1 e2
  rw [← hl] at e3
  have e5 : learn (shelf sk) it s b c = addMsg (shelf sk) it s.items b c := by
    unfold learn
    rw [M.bind_run_ok (M.get_run _), h.ub]
    rfl
  have e4 : learn (shelf sk) it s b c = (.error .valueError, { c0 with store := s1 }) := by
    rw [e5]
    unfold addMsg
    refine (M.bind_run_ok (M.modify_run _ _)).trans ?_
    cases b
    · refine (M.bind_run_ok (M.modify_run _ _)).trans ?_
      exact M.bind_run_error e3
    · refine (M.bind_run_ok (M.modify_run _ _)).trans ?_
      exact M.bind_run_error e3
  rw [e4]
  exact ⟨rfl, rfl, rfl⟩

/-- **C31** as one would like it: whatever was trained before, a message can be
learned. -/
def C31Claim (sk : W) (K : Type) : Prop :=
  ∀ (it it' : SetIter W) (s s' : Stream W) (b b' : Bool) (c : Clf (Shelf W) K),
    learn (shelf sk) it s b (shelveOpen sk Dict.empty).2 = (.ok (), c) →
    (learn (shelf sk) it' s' b' c).1 = .ok ()

/-- helper -/
theorem learn_unigram {σ : Type} (B : Backend σ W) (it : SetIter W) (s : Stream W) (b : Bool) (c : Clf σ K)
    (h : c.useBigrams = some false) : learn B it s b c = addMsg B it s.items b c := by
  unfold learn
  rw [M.bind_run_ok (M.get_run _), h]
  rfl

/-- **C31** is false: the first message consisting of the state key is accepted,
the second one raises ValueError. -/
theorem C31_claim_false (sk : W) : ¬ C31Claim sk K := by
  intro h
  have hone : SetIter.dedup.order [sk] = [sk] := by simp [SetIter.dedup]
  let s1 : Shelf W := ⟨(Dict.empty.set sk (.counts 1 0)).set sk (.state 5 1 0), Dict.empty, [], [],
    [Dict.empty, Dict.empty.set sk (.counts 1 0), (Dict.empty.set sk (.counts 1 0)).set sk (.state 5 1 0)]⟩
  have e1 : learn (shelf sk) .dedup (.list [sk]) true (shelveOpen sk Dict.empty).2 =
      (.ok (), (⟨some false, s1, Dict.empty, 1, 0⟩ : Clf (Shelf W) K)) := by
    rw [learn_unigram _ _ _ _ _ rfl]
    change addMsg (shelf sk) .dedup [sk] true _ = _
    unfold addMsg
    rw [hone]
    rfl
  have e2 : (learn (shelf sk) .dedup (.list [sk]) true
      (⟨some false, s1, Dict.empty, 1, 0⟩ : Clf (Shelf W) K)).1 = .error .valueError := by
    rw [learn_unigram _ _ _ _ _ rfl]
    change (addMsg (shelf sk) .dedup [sk] true _).1 = _
    have hg : shelfGet sk s1 = (.error .valueError, s1) := by
      simp [shelfGet, s1]
    have ha : ∀ c : Clf (Shelf W) K, c.store = s1 → addWord (shelf sk) true sk c = (.error .valueError, c) := by
      intro c hc
      have : onStore (K := K) ((shelf sk).get sk) c = (.error .valueError, c) := by
        change (match shelfGet sk c.store with | (r, s') => (r, { c with store := s' })) = _
        rw [hc, hg, ← hc]
      exact M.bind_run_error this
    have hx : addMsg (shelf sk) .dedup [sk] true (⟨some false, s1, Dict.empty, 1, 0⟩ : Clf (Shelf W) K) =
        (.error .valueError, ⟨some false, s1, Dict.empty, 2, 0⟩) := by
      unfold addMsg
      rw [hone]
      refine (M.bind_run_ok (M.modify_run _ _)).trans ?_
      refine (M.bind_run_ok (M.modify_run _ _)).trans ?_
      refine M.bind_run_error ?_
      rw [M.forEach_cons]
      exact M.bind_run_error (ha _ rfl)
    rw [hx]
  have h2 := h .dedup .dedup (.list [sk]) (.list [sk]) true true _ e1
  rw [e2] at h2
  cases h2

end

/-! ### C08: load on a used object -/

/-- Object A: "a" learned once as spam and once as ham, then a probability asked
for and the database stored. -/
def loadCallsA : List (ShCall String) :=
  [.base (.learn .dedup (.list ["a"]) true), .base (.learn .dedup (.list ["a"]) false),
   .store .dedup .dedup]

/-- Object B, opened on the file of A: another ham message is learned and stored. -/
def loadCallsB : List (ShCall String) :=
  [.base (.learn .dedup (.list ["c"]) false), .store .dedup .dedup]

/-- **C08**, the exception: object A is asked for a probability, then B changes
the file, then A calls load(): A now answers from its old cache and differs from a
new object on the same file. -/
theorem C08_load_keeps_stale_cache :
    let a := shelfAfter exactReal "saved state" loadCallsA
    let a1 := (probability exactReal ⟨1, 1⟩ a).2
    let b := (execSh exactReal "saved state" (shelveOpen "saved state" a.store.db).2 loadCallsB).2
    let a2 := (shelveLoad "saved state" b.store.db a1).2
    let fresh := (shelveOpen "saved state" b.store.db : _ × Clf (Shelf String) ℝ).2
    a2.nspam = fresh.nspam ∧ a2.nham = fresh.nham ∧ a2.store = fresh.store ∧
    ∃ p q, (probability exactReal ⟨1, 1⟩ a2).1 = .ok p ∧
      (probability exactReal ⟨1, 1⟩ fresh).1 = .ok q ∧ p ≠ q := by
  intro a a1 b a2 fresh
  have fp : ∀ (c : Clf (Shelf String) ℝ) (r : WordInfo) (p : ℝ), c.probcache = Dict.empty →
      freshProbability exactReal c.nspam c.nham r = .ok p →
      probability exactReal r c = (.ok p, { c with probcache := cacheSet Dict.empty r p }) := by
    intro c r p h1 h2
    unfold probability
    rw [h1, h2]
    rfl
  have h11 : freshProbability exactReal 1 1 ⟨1, 1⟩ = .ok (robinson 1 1 1 1) :=
    (freshProbability_exact (ns := 1) (nh := 1) (r := ⟨1, 1⟩) (by simp) (by simp) (by simp) (by simp) (by simp)).1
  have h12 : freshProbability exactReal 1 2 ⟨1, 1⟩ = .ok (robinson 1 2 1 1) :=
    (freshProbability_exact (ns := 1) (nh := 2) (r := ⟨1, 1⟩) (by simp) (by simp) (by simp) (by simp) (by simp)).1
  have ha : a.probcache = Dict.empty := rfl
  have ea : a1 = { a with probcache := cacheSet Dict.empty ⟨1, 1⟩ (robinson 1 1 1 1) } :=
    congrArg Prod.snd (fp a ⟨1, 1⟩ _ ha h11)
  have hk : b.store.db.get? "saved state" = some (.state 5 1 2) := rfl
  have ef : fresh = ⟨some false, ⟨b.store.db, Dict.empty, [], [], [b.store.db]⟩, Dict.empty, 1, 2⟩ := by
    simp only [fresh, shelveOpen, shelveLoad, hk]
    rw [if_neg (by simp [pickleVersion])]
    rfl
  have e2 : a2 = ⟨a1.useBigrams, ⟨b.store.db, Dict.empty, [], [], [b.store.db]⟩, a1.probcache, 1, 2⟩ := by
    simp only [a2, shelveLoad, hk]
    rw [if_neg (by simp [pickleVersion])]
  refine ⟨by rw [e2, ef], by rw [e2, ef], by rw [e2, ef], robinson 1 1 1 1, robinson 1 2 1 1, ?_, ?_, ?_⟩
  · unfold probability
    have : cacheGet a2.probcache ⟨1, 1⟩ = some (robinson 1 1 1 1) := by
      rw [e2, ea]
      simp only
      rw [cacheGet_cacheSet, if_pos rfl]
    rw [this]
  · rw [fp fresh ⟨1, 1⟩ _ (by rw [ef]) (by rw [ef]; exact h12)]
  · norm_num [robinson]

end Sb.Props
