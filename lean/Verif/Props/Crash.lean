import Verif.Proof.ShelveFile
import Verif.Props.Shelve
import Verif.Props.Mistakes

/-
Property C30, continued: what is in the file of a ShelveClassifier at every moment, with
unlearn, and which messages can be scored by an object constructed on it.
-/

set_option linter.unusedSectionVars false

namespace Sb.Props
open Sb Py Spec

section
variable {W : Type} [LinearOrder W] [BigramFormat W]

/-- The contents of the file after the calls `calls` on a ShelveClassifier on a new file. -/
noncomputable abbrev fileAfter (sk : W) (calls : List (ShCall W)) : Dict W DbVal :=
  (shelfAfter exactReal sk calls).store.db

/-- What a classifier knows about a word after the calls. -/
noncomputable abbrev recordNow (calls : List (ShCall W)) (w : W) : Option WordInfo :=
  (memAfter exactReal calls).store.get? w

/-- The moments at which the file is right about a word: the last call was `store` (or a
`store` with a reopen), or just one message counts for the word. -/
def UpToDate (calls : List (ShCall W)) (w : W) : Prop :=
  (∃ before it it', calls = before ++ [.store it it'] ∨ calls = before ++ [.storeReopen it it']) ∨
  ∃ r, recordNow calls w = some r ∧ r.spamcount + r.hamcount = 1

/-! ### Lemmas -/

theorem execSh_concat (sk : W) (calls : List (ShCall W)) (call : ShCall W) :
    ∀ c : Clf (Shelf W) ℝ, (execSh exactReal sk c (calls ++ [call])).2 =
      (runShCall exactReal sk (execSh exactReal sk c calls).2 call).2 := by
  induction calls with
  | nil => intro c; rfl
  | cons x t ih => intro c; exact ih _

theorem execMem_concat (calls : List (ShCall W)) (call : ShCall W) :
    ∀ c : Clf (Dict W WordInfo) ℝ, (execMem exactReal c (calls ++ [call])).2 =
      (execMem exactReal (execMem exactReal c calls).2 [call]).2 := by
  induction calls with
  | nil => intro c; rfl
  | cons x t ih =>
    intro c
    cases x with
    | base b => exact ih _
    | store => exact ih _
    | storeReopen => exact ih _

/-- helper: one call, unless it stores -/
theorem call_call1 {sk : W} {cs : Clf (Shelf W) ℝ} {cm : Clf (Dict W WordInfo) ℝ}
    (h : Sim exactReal sk cs cm) (call : Call W) (ha : AvoidsKey sk (.base call)) :
    Call1 sk cs.store (runShCall exactReal sk cs (.base call)).2.store := by
  cases call with
  | learn it s b =>
    have e' : learn (shelf sk) it s b cs = addMsg (shelf sk) it s.items b cs := by
      unfold learn
      rw [M.bind_run_ok (M.get_run _), h.ub]
      rfl
    simp only [runShCall, runCall]
    rw [e']
    exact addMsg_call1 it s.items ha b cs
  | unlearn it s b =>
    have e' : unlearn (shelf sk) it s b cs = removeMsg (shelf sk) it s.items b cs := by
      unfold unlearn
      rw [M.bind_run_ok (M.get_run _), h.ub]
      rfl
    simp only [runShCall, runCall]
    rw [e']
    exact removeMsg_call1 it s.items ha b cs
  | spamprob it s ev =>
    obtain ⟨a1, a2⟩ := computes_spamprob (F := exactReal) (ub := cs.useBigrams) (nspam := cs.nspam)
      (nham := cs.nham) (reads_shelf (sk := sk) cm.store cs.store.db cs.store.trace) it s ev
      (by rw [h.ub]; exact avoids_of ha) cs ⟨h.coh, ⟨h.rel, rfl, rfl⟩, rfl, rfl, rfl⟩
    simp only [runShCall, runCall]
    refine ⟨fun db hdb => .inl ?_, fun x _ => .inl ?_⟩
    · rw [a2.inv.2.2] at hdb; exact hdb
    · rw [a2.inv.2.1]
  | probability r =>
    obtain ⟨a1, a2⟩ := computes_probability (F := exactReal) (Inv := fun d => d = cs.store)
      (ub := cs.useBigrams) (nspam := cs.nspam) (nham := cs.nham) r cs ⟨h.coh, rfl, rfl, rfl, rfl⟩
    simp only [runShCall, runCall]
    rw [a2.inv]
    exact call1_refl sk cs.store

/-- helper -/
theorem avoids_left {sk : W} {p q : List (ShCall W)} (ha : ∀ c ∈ p ++ q, AvoidsKey sk c) :
    ∀ c ∈ p, AvoidsKey sk c := fun c hc => ha c (by simp [hc])

/-- helper: the file at an up-to-date moment -/
theorem file_upToDate {sk : W} {calls : List (ShCall W)} (ha : ∀ c ∈ calls, AvoidsKey sk c) {w : W}
    (hw : w ≠ sk) (h : UpToDate calls w) : dbView (fileAfter sk calls) w = recordNow calls w := by
  have hs := sim_after exactReal calls ha
  rcases h with ⟨p, it, it', h⟩ | ⟨r, hr, h1⟩
  · rcases h with rfl | rfl
    · obtain ⟨cs', e, -, -, hv, -⟩ := store_shelf exactReal (sim_after exactReal p (avoids_left ha)) it it'
      unfold recordNow memAfter fileAfter shelfAfter
      rw [execSh_concat, execMem_concat]
      simp only [runShCall, execMem]
      rw [e]
      exact hv w hw
    · obtain ⟨cs', e, -, hk, hv, -⟩ := store_shelf exactReal (sim_after exactReal p (avoids_left ha)) it it'
      unfold recordNow memAfter fileAfter shelfAfter
      rw [execSh_concat, execMem_concat]
      simp only [runShCall, execMem]
      rw [e]
      simp only
      have : (shelveOpen sk cs'.store.db : _ × Clf (Shelf W) ℝ).2.store.db = cs'.store.db := by
        simp [shelveOpen, shelveLoad, hk, pickleVersion]
      rw [this]
      exact hv w hw
  · rw [hr]
    exact once_in_file hs.rel.inv (by rw [hs.rel.agree w hw]; exact hr) (by omega)

/-- helper: a call changes the file at a word only to make it right -/
theorem file_step {sk : W} {p : List (ShCall W)} {call : ShCall W} (ha : ∀ c ∈ p ++ [call], AvoidsKey sk c)
    {w : W} (hw : w ≠ sk) (h : ¬ UpToDate (p ++ [call]) w) :
    dbView (fileAfter sk (p ++ [call])) w = dbView (fileAfter sk p) w := by
  have hs' := sim_after exactReal (p ++ [call]) ha
  have hs := sim_after exactReal p (avoids_left ha)
  cases call with
  | store it it' => exact absurd (.inl ⟨p, it, it', .inl rfl⟩) h
  | storeReopen it it' => exact absurd (.inl ⟨p, it, it', .inr rfl⟩) h
  | base call =>
    have h1 := (call_call1 hs call (ha _ (by simp))).write w hw
    rw [← execSh_concat] at h1
    rcases h1 with h1 | ⟨r, h1, h2⟩
    · unfold dbView
      rw [h1]
    · exfalso
      have h3 : recordNow (p ++ [.base call]) w = some r := by
        rw [← h1]; exact (hs'.rel.agree w hw).symm
      have := hs'.rel.sane w r h3
      exact h (.inr ⟨r, h3, by omega⟩)

/-- helper: the file is as at the last up-to-date moment -/
theorem file_since {sk : W} {before : List (ShCall W)} {w : W} (hw : w ≠ sk) (rest : List (ShCall W))
    (ha : ∀ c ∈ before ++ rest, AvoidsKey sk c)
    (h : ∀ p, p ≠ [] → p <+: rest → ¬ UpToDate (before ++ p) w) :
    dbView (fileAfter sk (before ++ rest)) w = dbView (fileAfter sk before) w := by
  induction rest using List.reverseRecOn with
  | nil => simp
  | append_singleton t c ih =>
    rw [← List.append_assoc] at ha ⊢
    rw [file_step ha hw (by rw [List.append_assoc]; exact h _ (by simp) List.prefix_rfl)]
    exact ih (avoids_left ha) (fun p hp hpre => h p hp (hpre.trans (List.prefix_append _ _)))

/-- helper: there is a last up-to-date moment, or none -/
theorem last_upToDate (calls : List (ShCall W)) (w : W) :
    (∃ before rest, calls = before ++ rest ∧ UpToDate before w ∧
      ∀ p, p ≠ [] → p <+: rest → ¬ UpToDate (before ++ p) w) ∨
    ∀ p, p <+: calls → ¬ UpToDate p w := by
  induction calls using List.reverseRecOn with
  | nil =>
    by_cases h : UpToDate ([] : List (ShCall W)) w
    · exact .inl ⟨[], [], rfl, h, fun p hp hpre => absurd (List.prefix_nil.1 hpre) hp⟩
    · refine .inr (fun p hp => ?_)
      rw [List.prefix_nil.1 hp]; exact h
  | append_singleton t c ih =>
    by_cases h : UpToDate (t ++ [c]) w
    · exact .inl ⟨t ++ [c], [], by simp, h, fun p hp hpre => absurd (List.prefix_nil.1 hpre) hp⟩
    · rcases ih with ⟨b, r, rfl, hb, hr⟩ | ih
      · refine .inl ⟨b, r ++ [c], by simp, hb, fun p hp hpre => ?_⟩
        rcases List.prefix_concat_iff.1 hpre with rfl | hpre
        · rw [← List.append_assoc]; exact h
        · exact hr p hp hpre
      · refine .inr (fun p hp => ?_)
        rcases List.prefix_concat_iff.1 hp with rfl | hp
        · exact h
        · exact ih p hp

/-- helper: a record in the file was right at some moment -/
theorem file_record {sk : W} {calls : List (ShCall W)} (ha : ∀ c ∈ calls, AvoidsKey sk c) {w : W}
    (hw : w ≠ sk) : dbView (fileAfter sk calls) w = none ∨
      ∃ p, p <+: calls ∧ dbView (fileAfter sk calls) w = recordNow p w := by
  rcases last_upToDate calls w with ⟨b, r, rfl, hb, hr⟩ | h
  · right
    refine ⟨b, List.prefix_append _ _, ?_⟩
    rw [file_since hw r ha hr]
    exact file_upToDate (avoids_left ha) hw hb
  · left
    have := file_since (before := []) hw calls ha (fun p _ hpre => by simpa using h p hpre)
    simpa [fileAfter, shelfAfter, execSh, shelveOpen, shelveLoad, dbView] using this

/-- helper: an object constructed on contents with sane records -/
theorem opened {sk : W} {db : Dict W DbVal} {n m : Int} (ht : Totals sk n m db) (hn : 0 ≤ n) (hm : 0 ≤ m)
    (hd : ∀ w, w ≠ sk → ∀ v, db.get? w = some v → ∃ a b, v = .counts a b ∧ 0 ≤ a ∧ 0 ≤ b ∧ (a ≠ 0 ∨ b ≠ 0)) :
    ∃ c : Clf (Shelf W) ℝ, shelveOpen sk db = (.ok (), c) ∧ c.nspam = n ∧ c.nham = m ∧
      (∀ w, w ≠ sk → ((shelf sk).get w c.store).1 = .ok (dbView db w)) ∧
      ∀ (it : SetIter W) (s : Stream W) (ev : Bool), sk ∉ s.items →
        ((∃ v, (spamprob exactReal (shelf sk) it s ev c).1 = .ok v) ↔
          ∀ w ∈ s.items, ∀ r, dbView db w = some r → r.spamcount ≤ max 1 n ∧ r.hamcount ≤ max 1 m) := by
  have hrec : ∀ w r, (memOf sk db).get? w = some r → 0 ≤ r.spamcount ∧ 0 ≤ r.hamcount ∧
      (r.spamcount ≠ 0 ∨ r.hamcount ≠ 0) := by
    intro w r h
    rw [get?_memOf] at h
    split at h
    · cases h
    · rename_i hw
      unfold dbView at h
      split at h
      · rename_i a b hab
        obtain ⟨a', b', e, c1, c2, c3⟩ := hd w hw _ hab
        cases e; cases h
        exact ⟨c1, c2, c3⟩
      · cases h
  have hr : Rel sk (⟨db, Dict.empty, [], [], [db]⟩ : Shelf W) (memOf sk db) := by
    refine rel_open hrec ?_ ?_ _
    · intro w hw v hv
      obtain ⟨a, b, e, -⟩ := hd w hw v hv
      exact ⟨a, b, e⟩
    · intro w hw; rw [get?_memOf, if_neg hw]
  have h : (shelveOpen sk db : _ × Clf (Shelf W) ℝ).1 = .ok () ∧
      Sim exactReal sk (shelveOpen sk db : _ × Clf (Shelf W) ℝ).2 ⟨some false, memOf sk db, Dict.empty, n, m⟩ := by
    rcases ht with ht | ⟨ht, rfl, rfl⟩
    · simp only [shelveOpen, shelveLoad, ht]
      rw [if_neg (by simp [pickleVersion])]
      exact ⟨rfl, rfl, rfl, rfl, rfl, coherent_of_empty _ _ rfl, coherent_of_empty _ _ rfl, hr, .inl ht⟩
    · simp only [shelveOpen, shelveLoad, ht]
      exact ⟨by trivial, rfl, rfl, rfl, rfl, coherent_of_empty _ _ rfl, coherent_of_empty _ _ rfl, hr,
        .inr ⟨ht, rfl, rfl⟩⟩
  obtain ⟨h1, h2⟩ := h
  refine ⟨(shelveOpen sk db).2, by rw [← h1], h2.nspam, h2.nham, ?_, ?_⟩
  · intro w hw
    have h3 := (shelfGet_spec h2.rel.inv hw).1
    rw [h2.rel.agree w hw, get?_memOf, if_neg hw] at h3
    exact h3
  · intro it s ev hs
    have hsim := (sim_runCall exactReal h2 (.spamprob it s ev) (fun w hw he => hs (he ▸ hw))).1
    simp only [runCall] at hsim
    have hiff : (∃ v, (spamprob exactReal (shelf sk) it s ev (shelveOpen sk db).2).1 = .ok v) ↔
        ∃ v, (spamprob exactReal (memory W) it s ev
          (⟨some false, memOf sk db, Dict.empty, n, m⟩ : Clf (Dict W WordInfo) ℝ)).1 = .ok v := by
      revert hsim
      cases (spamprob exactReal (shelf sk) it s ev (shelveOpen sk db).2).1 <;>
        cases (spamprob exactReal (memory W) it s ev
          (⟨some false, memOf sk db, Dict.empty, n, m⟩ : Clf (Dict W WordInfo) ℝ)).1 <;>
        simp [Outcome.ofScore]
    rw [hiff, scores_iff ⟨hn, hm, hrec⟩ (coherent_of_empty _ _ rfl) rfl]
    simp only [lookedUp, Bool.false_eq_true, if_false, Bool.forall_bool, countOf, totalOf, get?_memOf]
    refine forall₂_congr (fun w hw => ?_)
    have hwk : w ≠ sk := fun e => hs (e ▸ hw)
    rw [if_neg hwk]
    cases dbView db w with
    | none => simp
    | some r => simp [and_comm]

/-- helper: the records on the file are sane -/
theorem file_sane {sk : W} {calls : List (ShCall W)} (ha : ∀ c ∈ calls, AvoidsKey sk c) :
    ∀ w, w ≠ sk → ∀ v, (fileAfter sk calls).get? w = some v →
      ∃ a b, v = .counts a b ∧ 0 ≤ a ∧ 0 ≤ b ∧ (a ≠ 0 ∨ b ≠ 0) := by
  intro w hw v hv
  obtain ⟨a, b, rfl⟩ := (sim_after exactReal calls ha).rel.inv.words w hw v hv
  have e : dbView (fileAfter sk calls) w = some ⟨a, b⟩ := by unfold dbView; rw [hv]
  rcases file_record ha hw with h | ⟨p, ⟨q, rfl⟩, h⟩
  · rw [e] at h; cases h
  · rw [e] at h
    exact ⟨a, b, rfl, (sim_after exactReal p (avoids_left ha)).rel.sane w _ h.symm⟩

/-- helper: the totals on the file -/
theorem file_totals {sk : W} {calls : List (ShCall W)} (ha : ∀ c ∈ calls, AvoidsKey sk c) :
    Totals sk (memAfter exactReal calls).nspam (memAfter exactReal calls).nham (fileAfter sk calls) := by
  have h := sim_after exactReal calls ha
  rw [← h.nspam, ← h.nham]
  exact h.state

theorem memAfter_base (calls : List (ShCall W)) :
    memAfter exactReal calls = after exactReal false (baseCalls calls) := by
  have : ∀ c : Clf (Dict W WordInfo) ℝ, (execMem exactReal c calls).2 =
      (exec exactReal (memory W) c (baseCalls calls)).2 := by
    induction calls with
    | nil => intro c; rfl
    | cons x t ih =>
      intro c
      cases x with
      | base b => exact ih _
      | store => exact ih _
      | storeReopen => exact ih _
  exact this _

theorem mem_sane (calls : List (ShCall W)) : Sane (memAfter exactReal calls) := by
  rw [memAfter_base]; exact (after_ok exactReal false _).1

theorem execMem_append (p q : List (ShCall W)) : ∀ c : Clf (Dict W WordInfo) ℝ,
    (execMem exactReal c (p ++ q)).2 = (execMem exactReal (execMem exactReal c p).2 q).2 := by
  induction p with
  | nil => intro c; rfl
  | cons x t ih =>
    intro c
    cases x with
    | base b => exact ih _
    | store => exact ih _
    | storeReopen => exact ih _

/-- helper: without unlearn the totals grow and the counts stay within them -/
theorem grows (calls : List (ShCall W)) (hu : ∀ c ∈ calls, NoUnlearn c) :
    ∀ c : Clf (Dict W WordInfo) ℝ, c.useBigrams = some false → Coherent exactReal c → Bounded c →
      Bounded (execMem exactReal c calls).2 ∧ c.nspam ≤ (execMem exactReal c calls).2.nspam ∧
      c.nham ≤ (execMem exactReal c calls).2.nham ∧ (execMem exactReal c calls).2.useBigrams = some false ∧
      Coherent exactReal (execMem exactReal c calls).2 := by
  induction calls with
  | nil => intro c h1 h2 h3; exact ⟨h3, le_rfl, le_rfl, h1, h2⟩
  | cons x t ih =>
    intro c h1 h2 h3
    have ih := ih (fun c hc => hu c (by simp [hc]))
    cases x with
    | store => exact ih c h1 h2 h3
    | storeReopen => exact ih c h1 h2 h3
    | base call =>
      cases call with
      | unlearn it s b => exact absurd (hu _ (List.mem_cons_self ..)) (by simp [NoUnlearn])
      | learn it s b =>
        have e := learn_memory it s b c h1
        obtain ⟨i1, i2, i3, i4⟩ := ih (afterAdd it (trainTokens false s) b c) h1
          (coherent_of_empty _ _ rfl) (bounded_afterAdd h3 it _ b)
        simp only [execMem, runCall, e]
        refine ⟨i1, le_trans ?_ i2, le_trans ?_ i3, i4⟩ <;> cases b <;> simp [afterAdd]
      | spamprob it s ev =>
        obtain ⟨b1, b2, b3, b4, b5, b6⟩ := spamprob_memory (F := exactReal) c h2 it s ev
        obtain ⟨i1, i2, i3, i4⟩ := ih _ (b6.trans h1) b2 (by unfold Bounded; rw [b3, b4, b5]; exact h3)
        rw [b4] at i2
        rw [b5] at i3
        exact ⟨i1, i2, i3, i4⟩
      | probability r =>
        obtain ⟨b1, b2⟩ := computes_probability (F := exactReal) (Inv := fun d => d = c.store)
          (ub := c.useBigrams) (nspam := c.nspam) (nham := c.nham) r c ⟨h2, rfl, rfl, rfl, rfl⟩
        obtain ⟨i1, i2, i3, i4⟩ := ih _ (b2.ub.trans h1) b2.coherent
          (by unfold Bounded; rw [b2.inv, b2.nspam, b2.nham]; exact h3)
        rw [b2.nspam] at i2
        rw [b2.nham] at i3
        exact ⟨i1, i2, i3, i4⟩

/-! ### C30 -/

/-- **C30**, what the file says between two calls: an object constructed on the file after
any calls has the totals of all messages trained so far; about a word it knows what was
right at the last moment at which the file was up to date for this word, and nothing if
there was no such moment. -/
theorem C30_file_partial (sk : W) (calls : List (ShCall W)) (ha : ∀ c ∈ calls, AvoidsKey sk c) :
    ∃ c : Clf (Shelf W) ℝ, shelveOpen sk (fileAfter sk calls) = (.ok (), c) ∧
      c.nspam = (memAfter exactReal calls).nspam ∧ c.nham = (memAfter exactReal calls).nham ∧
      ∀ w, w ≠ sk →
        (∀ before rest, calls = before ++ rest → UpToDate before w →
          (∀ p, p ≠ [] → p <+: rest → ¬ UpToDate (before ++ p) w) →
          ((shelf sk).get w c.store).1 = .ok (recordNow before w)) ∧
        ((∀ p, p <+: calls → ¬ UpToDate p w) → ((shelf sk).get w c.store).1 = .ok none) := by
  have hs := mem_sane calls
  obtain ⟨c, h1, h2, h3, h4, -⟩ := opened (file_totals ha) hs.nspam hs.nham (file_sane ha)
  refine ⟨c, h1, h2, h3, fun w hw => ⟨?_, ?_⟩⟩
  · rintro before rest rfl hb hr
    rw [h4 w hw, file_since hw rest ha hr, file_upToDate (avoids_left ha) hw hb]
  · intro h
    rw [h4 w hw]
    have := file_since (before := []) hw calls ha (fun p _ hpre => by simpa using h p hpre)
    rw [List.nil_append] at this
    rw [this]
    rfl

/-- In the history that refutes the claim, the file was last right about "a" at the `store`:
it says 3 messages, not 2. -/
example : (∀ c ∈ crashCalls, AvoidsKey "saved state" c) ∧
    crashCalls = crashCalls.take 4 ++ crashCalls.drop 4 ∧ UpToDate (crashCalls.take 4) "a" ∧
    (∀ p, p ≠ [] → p <+: crashCalls.drop 4 → ¬ UpToDate (crashCalls.take 4 ++ p) "a") ∧
    recordNow (crashCalls.take 4) "a" = some ⟨3, 0⟩ ∧ recordNow crashCalls "a" = some ⟨2, 0⟩ := by
  refine ⟨by simp [crashCalls, AvoidsKey, Stream.items], by simp, .inl ⟨crashCalls.take 3, .dedup, .dedup, .inl rfl⟩,
    ?_, rfl, rfl⟩
  intro p hp hpre
  have : p = crashCalls.drop 4 := by
    have h : p <+: [] ++ [.base (.unlearn .dedup (.list ["a"]) true)] := hpre
    rcases List.prefix_concat_iff.1 h with h | h
    · exact h
    · exact absurd (List.prefix_nil.1 h) hp
  subst this
  rw [List.take_append_drop]
  rintro (⟨b, it, it', h | h⟩ | ⟨r, h1, h2⟩)
  · have := congrArg List.getLast? h
    simp [crashCalls] at this
  · have := congrArg List.getLast? h
    simp [crashCalls] at this
  · have h3 : recordNow crashCalls "a" = some ⟨2, 0⟩ := rfl
    rw [h3] at h1
    cases h1
    simp at h2

/-- **C30**, every other moment: the contents after any single write are, key by key, those
before or those after the call under way. -/
theorem C30_moment_partial (sk : W) (calls : List (ShCall W)) (ha : ∀ c ∈ calls, AvoidsKey sk c)
    (db : Dict W DbVal) (hdb : db ∈ (shelfAfter exactReal sk calls).store.trace) :
    ∃ p q, (q = p ∨ ∃ call, q = p ++ [call]) ∧ q <+: calls ∧
      ∀ x, db.get? x = (fileAfter sk p).get? x ∨ db.get? x = (fileAfter sk q).get? x := by
  induction calls using List.reverseRecOn with
  | nil =>
    have hdb : db ∈ [(Dict.empty : Dict W DbVal)] := hdb
    rw [List.mem_singleton] at hdb
    subst hdb
    exact ⟨[], [], .inl rfl, List.nil_prefix, fun x => .inl rfl⟩
  | append_singleton t call ih =>
    have hs := sim_after exactReal t (avoids_left ha)
    have main : ∀ s', Between (shelfAfter exactReal sk t).store s' → db ∈ s'.trace →
        s'.db = fileAfter sk (t ++ [call]) → ∃ p q, (q = p ∨ ∃ call, q = p ++ [call]) ∧ q <+: t ++ [call] ∧
        ∀ x, db.get? x = (fileAfter sk p).get? x ∨ db.get? x = (fileAfter sk q).get? x := by
      intro s' hb hm he
      rcases hb db hm with h | h
      · obtain ⟨p, q, h1, h2, h3⟩ := ih (avoids_left ha) h
        exact ⟨p, q, h1, h2.trans (List.prefix_append _ _), h3⟩
      · exact ⟨t, t ++ [call], .inr ⟨call, rfl⟩, List.prefix_rfl, fun x => by rw [← he]; exact h x⟩
    unfold shelfAfter at hdb
    rw [execSh_concat] at hdb
    cases call with
    | base call =>
      refine main _ (call_call1 hs call (ha _ (by simp))).between hdb ?_
      unfold fileAfter shelfAfter
      rw [execSh_concat]
    | store it it' =>
      refine main _ (store_between it it' hs.rel) hdb ?_
      unfold fileAfter shelfAfter
      rw [execSh_concat]
      rfl
    | storeReopen it it' =>
      obtain ⟨cs', e, h2, hk, -⟩ := store_shelf exactReal hs it it'
      have hst : (shelveOpen sk cs'.store.db : _ × Clf (Shelf W) ℝ).2.store =
          ⟨cs'.store.db, Dict.empty, [], [], [cs'.store.db]⟩ := by
        simp [shelveOpen, shelveLoad, hk, pickleVersion]
      refine ⟨t ++ [.storeReopen it it'], _, .inl rfl, List.prefix_rfl, fun x => .inl ?_⟩
      unfold fileAfter shelfAfter
      rw [execSh_concat]
      simp only [runShCall, e] at hdb ⊢
      rw [hst] at hdb ⊢
      rw [List.mem_singleton.1 hdb]

/-- While a first message with "a" and "b" is learned, "a" is in the file before "b" and
before the totals. -/
example : ∃ db ∈ (shelfAfter exactReal "saved state"
      [.base (.learn .dedup (.list ["a", "b"]) true)]).store.trace,
    db.get? "a" = some (.counts 1 0) ∧ db.get? "b" = none ∧ db.get? "saved state" = none :=
  ⟨⟨[("a", .counts 1 0)]⟩, by
    have : (shelfAfter exactReal "saved state" [.base (.learn .dedup (.list ["a", "b"]) true)]).store.trace =
      [⟨[]⟩, ⟨[("a", .counts 1 0)]⟩, ⟨[("a", .counts 1 0), ("b", .counts 1 0)]⟩,
        ⟨[("a", .counts 1 0), ("b", .counts 1 0), ("saved state", .state 5 1 0)]⟩] := rfl
    rw [this]; simp, rfl, rfl, rfl⟩

/-- **C30**, scoring from the file: whatever the moment, an object can be constructed on
the file, and it can score a message exactly if no token of the message is counted more
often in a class than messages are (or than once). -/
theorem C30_scores_iff_partial (sk : W) (calls : List (ShCall W)) (ha : ∀ c ∈ calls, AvoidsKey sk c)
    (db : Dict W DbVal) (hdb : db ∈ (shelfAfter exactReal sk calls).store.trace) :
    ∃ c : Clf (Shelf W) ℝ, shelveOpen sk db = (.ok (), c) ∧ 0 ≤ c.nspam ∧ 0 ≤ c.nham ∧
      ∀ (it : SetIter W) (s : Stream W) (ev : Bool), sk ∉ s.items →
        ((∃ v, (spamprob exactReal (shelf sk) it s ev c).1 = .ok v) ↔
          ∀ w ∈ s.items, ∀ r, ((shelf sk).get w c.store).1 = .ok (some r) →
            r.spamcount ≤ max 1 c.nspam ∧ r.hamcount ≤ max 1 c.nham) := by
  obtain ⟨p, q, h1, ⟨u, rfl⟩, h3⟩ := C30_moment_partial sk calls ha db hdb
  have hq := avoids_left ha
  have hp : ∀ c ∈ p, AvoidsKey sk c := by
    rcases h1 with rfl | ⟨call, rfl⟩
    · exact hq
    · exact avoids_left hq
  have hd : ∀ w, w ≠ sk → ∀ v, db.get? w = some v → ∃ a b, v = .counts a b ∧ 0 ≤ a ∧ 0 ≤ b ∧ (a ≠ 0 ∨ b ≠ 0) := by
    intro w hw v hv
    rcases h3 w with e | e <;> rw [e] at hv
    · exact file_sane hp w hw v hv
    · exact file_sane hq w hw v hv
  have ht : ∃ n m, 0 ≤ n ∧ 0 ≤ m ∧ Totals sk n m db := by
    rcases h3 sk with e | e
    · exact ⟨_, _, (mem_sane p).nspam, (mem_sane p).nham, by unfold Totals; rw [e]; exact file_totals hp⟩
    · exact ⟨_, _, (mem_sane q).nspam, (mem_sane q).nham, by unfold Totals; rw [e]; exact file_totals hq⟩
  obtain ⟨n, m, hn, hm, ht⟩ := ht
  obtain ⟨c, c1, c2, c3, c4, c5⟩ := opened ht hn hm hd
  refine ⟨c, c1, by rw [c2]; exact hn, by rw [c3]; exact hm, fun it s ev hs => ?_⟩
  rw [c5 it s ev hs, c2, c3]
  refine forall₂_congr (fun w hw => ?_)
  rw [c4 w (fun e => hs (e ▸ hw))]
  simp

/-- **C30** with unlearn, when it is safe: if every unlearn was proper and came before the
last `store`, every message can be scored from the file. -/
theorem C30_stored_partial (sk : W) (before rest : List (ShCall W)) (it it' : SetIter W) (L : Ledger W)
    (ha : ∀ c ∈ before ++ [.store it it'] ++ rest, AvoidsKey sk c) (hv : Valid false 0 (baseCalls before) L)
    (hu : ∀ c ∈ rest, NoUnlearn c) :
    ∃ c : Clf (Shelf W) ℝ, shelveOpen sk (fileAfter sk (before ++ [.store it it'] ++ rest)) = (.ok (), c) ∧
      ∀ (it : SetIter W) (s : Stream W) (ev : Bool), sk ∉ s.items →
        ∃ v, (spamprob exactReal (shelf sk) it s ev c).1 = .ok v := by
  have hs := mem_sane (before ++ [.store it it'] ++ rest)
  obtain ⟨c, h1, -, -, -, h5⟩ := opened (file_totals ha) hs.nspam hs.nham (file_sane ha)
  refine ⟨c, h1, fun it₁ s ev hsk => (h5 it₁ s ev hsk).2 (fun w hw r hr => ?_)⟩
  have hwk : w ≠ sk := fun e => hsk (e ▸ hw)
  have hstored : memAfter exactReal (before ++ [.store it it']) = after exactReal false (baseCalls before) := by
    unfold memAfter
    rw [execMem_concat]
    exact memAfter_base before
  have hrep : Represents L false (after exactReal false (baseCalls before)) :=
    (exec_valid exactReal hv (Clf.new false Dict.empty) (represents_new false)
      (coherent_of_empty exactReal _ rfl)).1
  have hbound : Bounded (memAfter exactReal (before ++ [.store it it'])) := by
    rw [hstored]
    obtain ⟨k1, k2, k3⟩ := (after_ok exactReal false (baseCalls before)).1
    refine ⟨k1, k2, fun w r hr => ?_⟩
    have e1 := counts_represents hrep true w
    have e2 := counts_represents hrep false w
    have l1 := classCount_le L true w
    have l2 := classCount_le L false w
    simp only [countOf, totalOf, hr, Bool.false_eq_true, if_false, if_true] at e1 e2
    omega
  have hub : (memAfter exactReal (before ++ [.store it it'])).useBigrams = some false := by
    rw [hstored]; exact (after_ok exactReal false (baseCalls before)).2.2
  have hcoh : Coherent exactReal (memAfter exactReal (before ++ [.store it it'])) := by
    rw [hstored]; exact (after_ok exactReal false (baseCalls before)).2.1
  have hup : UpToDate (before ++ [.store it it']) w := .inl ⟨before, it, it', .inl rfl⟩
  rcases last_upToDate (before ++ [.store it it'] ++ rest) w with ⟨b, t, e, hb, ht⟩ | h
  · have hpre : ∃ x, b = before ++ [.store it it'] ++ x ∧ rest = x ++ t := by
      rcases List.append_eq_append_iff.1 e with ⟨x, e1, e2⟩ | ⟨x, e1, e2⟩
      · exact ⟨x, e1, e2⟩
      · by_cases hx : x = []
        · subst hx
          simp only [List.append_nil] at e1
          exact ⟨[], by simp [e1], by simpa using e2.symm⟩
        · exact absurd (e1 ▸ hup) (ht x hx ⟨rest, e2.symm⟩)
    obtain ⟨x, rfl, rfl⟩ := hpre
    rw [← List.append_assoc] at hr ha ⊢
    rw [file_since hwk t ha ht, file_upToDate (avoids_left ha) hwk hb] at hr
    have g1 := grows x (fun c hc => hu c (by simp [hc])) _ hub hcoh hbound
    rw [← execMem_append] at g1
    obtain ⟨⟨-, -, f1⟩, -, -, f4, f5⟩ := g1
    have g2 := grows t (fun c hc => hu c (by simp [hc])) _ f4 f5 ⟨(mem_sane _).nspam, (mem_sane _).nham, f1⟩
    rw [← execMem_append] at g2
    obtain ⟨-, f2, f3, -⟩ := g2
    have := f1 w r hr
    have l1 := le_max_right 1 (memAfter exactReal (before ++ [.store it it'] ++ x ++ t)).nspam
    have l2 := le_max_right 1 (memAfter exactReal (before ++ [.store it it'] ++ x ++ t)).nham
    unfold memAfter at *
    exact ⟨this.1.trans (f2.trans l1), this.2.trans (f3.trans l2)⟩
  · exact absurd hup (h _ ⟨rest, rfl⟩)

/-- A message is learned twice and unlearned, the database stored, and another learned. -/
example : Valid (W := String) false 0 (baseCalls [.base (.learn .dedup (.list ["a"]) true),
      .base (.learn .dedup (.list ["a"]) true), .base (.unlearn .dedup (.list ["a"]) true)])
      {msgOf false (.list ["a"]) true} ∧
    ∀ c ∈ ([.base (.learn .dedup (.list ["b"]) false)] : List (ShCall String)), NoUnlearn c := by
  refine ⟨?_, by simp [NoUnlearn]⟩
  simp only [baseCalls]
  refine .learn (.learn (.unlearn (by simp) ?_))
  simp only [Multiset.erase_cons_head]
  exact .nil _

end
end Sb.Props
