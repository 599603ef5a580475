import Verif.Model.ShelveKeys
import Verif.Proof.Simulation
import Verif.Proof.Shelve

/- Helper lemmas about Model/ShelveKeys.lean. -/

set_option linter.unusedSectionVars false

namespace Sb
open Py Sb.Strip Sb.Tokenize

/-! ### Words that have a key -/

/-- The word has a key in the file. -/
def HasKey (w : Tok) : Prop := ∃ k, encodeKey w = .ok k

theorem not_hasKey {w : Tok} : ¬ HasKey w ↔ ∃ e, encodeKey w = .error e := by
  unfold HasKey
  cases h : encodeKey w <;> simp

/-- Every word the object remembers has a key. -/
structure KInv (s : KShelf) : Prop where
  wordinfo : ∀ w r, s.wordinfo.get? w = some r → HasKey w
  changed : ∀ w ∈ s.changed, HasKey w
  deleted : ∀ w ∈ s.deleted, HasKey w

/-- … and it is in unigram mode. -/
structure KFine {K : Type} (c : Clf KShelf K) : Prop where
  ub : c.useBigrams = some false
  inv : KInv c.store

/-- The computation keeps `I`, also if it raises. -/
def Retains {σ α : Type} (I : σ → Prop) (m : M σ α) : Prop := ∀ s, I s → I (m s).2

namespace Retains
variable {σ α β γ : Type} {I : σ → Prop}

theorem pure (a : α) : Retains I (Pure.pure a) := fun _ h => h
theorem raise (e : Err) : Retains I (M.raise e : M σ α) := fun _ h => h

theorem bind {m : M σ α} {f : α → M σ β} (h : Retains I m) (hf : ∀ a, Retains I (f a)) :
    Retains I (m >>= f) := by
  intro s hs
  have h1 := h s hs
  rw [M.bind_run]
  cases hm : m s with
  | mk r s' =>
    rw [hm] at h1
    cases r with
    | error e => exact h1
    | ok a => exact hf a s' h1

theorem forEach {f : γ → M σ Unit} (h : ∀ x, Retains I (f x)) (l : List γ) :
    Retains I (M.forEach f l) := by
  induction l with
  | nil => exact pure _
  | cons x xs ih => exact bind (h x) fun _ => ih

theorem mapAll {f : γ → M σ β} (h : ∀ x, Retains I (f x)) (l : List γ) :
    Retains I (M.mapAll f l) := by
  induction l with
  | nil => exact pure _
  | cons x xs ih => exact bind (h x) fun _ => bind ih fun _ => pure _

end Retains

theorem kGet_noKey {s : KShelf} (h : KInv s) {w : Tok} {e : Err} (hw : encodeKey w = .error e) :
    kGet w s = (.error e, s) := by
  have hn : ¬ HasKey w := not_hasKey.2 ⟨e, hw⟩
  have h1 : s.wordinfo.get? w = none := by
    cases hg : s.wordinfo.get? w with
    | none => rfl
    | some r => exact absurd (h.wordinfo w r hg) hn
  unfold kGet
  rw [h1]
  simp only
  rw [if_neg (fun hd => hn (h.deleted w hd)), hw]

theorem kGet_retains {w : Tok} : Retains KInv (kGet w) := by
  intro s hs
  unfold kGet
  cases hg : s.wordinfo.get? w with
  | some r => exact hs
  | none =>
    simp only
    split
    · exact hs
    · cases hk : encodeKey w with
      | error e => exact hs
      | ok k =>
        simp only
        cases s.db.get? k with
        | none => exact hs
        | some v =>
          cases v with
          | state a b c => exact hs
          | counts a b =>
            refine ⟨?_, hs.changed, hs.deleted⟩
            intro v r hv
            simp only [Dict.get?_set] at hv
            split at hv
            · rename_i he
              exact ⟨k, he ▸ hk⟩
            · exact hs.wordinfo v r hv

theorem kSet_retains {w : Tok} (hw : HasKey w) (r : WordInfo) : Retains KInv (kSet w r) := by
  intro s hs
  unfold kSet
  split
  · obtain ⟨k, hk⟩ := hw
    rw [hk]
    refine ⟨?_, ?_, ?_⟩
    · intro v r hv
      simp only [Dict.get?_erase] at hv
      split at hv
      · cases hv
      · exact hs.wordinfo v r hv
    · intro v hv; exact hs.changed v ((mem_setRemove _ _ _).1 hv).1
    · intro v hv; exact hs.deleted v ((mem_setRemove _ _ _).1 hv).1
  · refine ⟨?_, ?_, hs.deleted⟩
    · intro v r hv
      simp only [Dict.get?_set] at hv
      split at hv
      · rename_i he; subst he; exact hw
      · exact hs.wordinfo v r hv
    · intro v hv
      rcases (mem_setAdd _ _ _).1 hv with rfl | hv
      · exact hw
      · exact hs.changed v hv

theorem kDel_retains {w : Tok} : Retains KInv (kDel w) := by
  intro s hs
  unfold kDel
  split
  · rename_i hc
    refine ⟨?_, hs.changed, ?_⟩
    · intro v r hv
      simp only [Dict.get?_erase] at hv
      split at hv
      · cases hv
      · exact hs.wordinfo v r hv
    · intro v hv
      rcases (mem_setAdd _ _ _).1 hv with rfl | hv
      · rw [Dict.contains_iff, Dict.mem_keys_iff] at hc
        obtain ⟨r, hr⟩ := hc
        exact hs.wordinfo _ _ hr
      · exact hs.deleted v hv
  · exact hs

section
variable {K : Type}

theorem onStore_retains {α : Type} {m : M KShelf α} (h : Retains KInv m) :
    Retains (KFine (K := K)) (onStore m) := fun c hc => ⟨hc.ub, h c.store hc.inv⟩

theorem modify_retains {f : Clf KShelf K → Clf KShelf K} (h1 : ∀ c, (f c).store = c.store)
    (h2 : ∀ c, (f c).useBigrams = c.useBigrams) : Retains KFine (M.modify f) :=
  fun c hc => ⟨(h2 c).trans hc.ub, by simp only [M.modify_run, h1]; exact hc.inv⟩

theorem kPost_retains : Retains (KFine (K := K)) (postTraining kshelf) := by
  intro c hc
  refine ⟨hc.ub, ?_⟩
  exact ⟨hc.inv.wordinfo, hc.inv.changed, hc.inv.deleted⟩

/-- the word has no key: the loop body raises and does nothing -/
theorem addWord_noKey {c : Clf KShelf K} (hc : KFine c) (b : Bool) {w : Tok} {e : Err}
    (hw : encodeKey w = .error e) : addWord kshelf b w c = (.error e, c) := by
  unfold addWord
  apply M.bind_run_error
  show ((kGet w c.store).1, { c with store := (kGet w c.store).2 }) = _
  rw [kGet_noKey hc.inv hw]

theorem removeWord_noKey {c : Clf KShelf K} (hc : KFine c) (b : Bool) {w : Tok} {e : Err}
    (hw : encodeKey w = .error e) : removeWord kshelf b w c = (.error e, c) := by
  unfold removeWord
  apply M.bind_run_error
  show ((kGet w c.store).1, { c with store := (kGet w c.store).2 }) = _
  rw [kGet_noKey hc.inv hw]

theorem addWord_retains (b : Bool) (w : Tok) : Retains (KFine (K := K)) (addWord kshelf b w) := by
  by_cases hw : HasKey w
  · unfold addWord
    exact .bind (onStore_retains kGet_retains) fun _ => onStore_retains (kSet_retains hw _)
  · obtain ⟨e, he⟩ := not_hasKey.1 hw
    intro c hc
    rw [addWord_noKey hc b he]
    exact hc

theorem removeWord_retains (b : Bool) (w : Tok) : Retains (KFine (K := K)) (removeWord kshelf b w) := by
  by_cases hw : HasKey w
  · unfold removeWord
    refine .bind (onStore_retains kGet_retains) fun o => ?_
    cases o with
    | none => exact .pure _
    | some r =>
      simp only
      generalize (if b = true then _ else _ : WordInfo) = r'
      by_cases hz : r'.hamcount = 0 ∧ r'.spamcount = 0
      · simp only [if_pos hz]
        exact onStore_retains kDel_retains
      · simp only [if_neg hz]
        exact onStore_retains (kSet_retains hw _)
  · obtain ⟨e, he⟩ := not_hasKey.1 hw
    intro c hc
    rw [removeWord_noKey hc b he]
    exact hc

/-- The object after the first steps of `_add_msg`. -/
def counted (b : Bool) (c : Clf KShelf K) : Clf KShelf K :=
  { c with probcache := Dict.empty, nspam := if b then c.nspam + 1 else c.nspam,
           nham := if b then c.nham else c.nham + 1 }

/-- The object after the first steps of `_remove_msg`. -/
def uncounted (b : Bool) (c : Clf KShelf K) : Clf KShelf K :=
  { c with probcache := Dict.empty, nspam := if b then c.nspam - 1 else c.nspam,
           nham := if b then c.nham else c.nham - 1 }

theorem learn_run {c : Clf KShelf K} (hc : KFine c) (it : SetIter Tok) (s : Stream Tok) (b : Bool) :
    learn kshelf it s b c =
      (do M.forEach (addWord kshelf b) (it.order s.items); postTraining kshelf) (counted b c) := by
  unfold learn
  rw [M.bind_run_ok (M.get_run _), hc.ub]
  cases b <;> rfl

theorem unlearn_run {c : Clf KShelf K} (hc : KFine c) (it : SetIter Tok) (s : Stream Tok) (b : Bool) :
    unlearn kshelf it s b c =
      if (if b then c.nspam else c.nham) ≤ 0 then
        (.error .valueError, { c with probcache := Dict.empty })
      else
        (do M.forEach (removeWord kshelf b) (it.order s.items); postTraining kshelf)
          (uncounted b c) := by
  obtain ⟨ub, st, pc, ns, nh⟩ := c
  have h : ub = some false := hc.ub
  subst h
  cases b with
  | true =>
    simp only [if_true]
    by_cases hz : ns ≤ 0
    · rw [if_pos hz]
      simp [unlearn, removeMsg, M.bind_run, hz]
    · rw [if_neg hz]
      simp [unlearn, removeMsg, M.bind_run, hz, trainTokens, uncounted]
  | false =>
    simp only [Bool.false_eq_true, if_false]
    by_cases hz : nh ≤ 0
    · rw [if_pos hz]
      simp [unlearn, removeMsg, M.bind_run, hz]
    · rw [if_neg hz]
      simp [unlearn, removeMsg, M.bind_run, hz, trainTokens, uncounted]

theorem learn_retains (it : SetIter Tok) (s : Stream Tok) (b : Bool) :
    Retains (KFine (K := K)) (learn kshelf it s b) := by
  intro c hc
  rw [learn_run hc]
  refine Retains.bind (.forEach (addWord_retains b) _) (fun _ => kPost_retains) _ ?_
  exact ⟨hc.ub, hc.inv⟩

theorem unlearn_retains (it : SetIter Tok) (s : Stream Tok) (b : Bool) :
    Retains (KFine (K := K)) (unlearn kshelf it s b) := by
  intro c hc
  rw [unlearn_run hc]
  by_cases hz : (if b then c.nspam else c.nham) ≤ 0
  all_goals first | rw [if_pos hz] | rw [if_neg hz]
  · exact ⟨hc.ub, hc.inv⟩
  · refine Retains.bind (.forEach (removeWord_retains b) _) (fun _ => kPost_retains) _ ?_
    exact ⟨hc.ub, hc.inv⟩

theorem kStoreChanged_retains (w : Tok) : Retains KInv (kStoreChanged w) := by
  intro s hs
  unfold kStoreChanged
  cases s.wordinfo.get? w with
  | none => exact hs
  | some r =>
    simp only
    cases encodeKey w with
    | error e => exact hs
    | ok k => exact ⟨hs.wordinfo, hs.changed, hs.deleted⟩

theorem kStoreDeleted_retains (w : Tok) : Retains KInv (kStoreDeleted w) := by
  intro s hs
  unfold kStoreDeleted
  split
  · exact hs
  · cases encodeKey w with
    | error e => exact hs
    | ok k => exact ⟨hs.wordinfo, hs.changed, hs.deleted⟩

theorem kStore_retains (it it' : SetIter Tok) : Retains (KFine (K := K)) (kStore it it') := by
  unfold kStore
  refine .bind (onStore_retains ?_) fun _ => kPost_retains
  unfold kStoreWords
  refine .bind (fun s h => h) fun s => .bind (.forEach kStoreChanged_retains _) fun _ =>
    .bind (fun s h => h) fun s => .bind (.forEach kStoreDeleted_retains _) fun _ => ?_
  exact fun s h => ⟨h.wordinfo, by simp, by simp⟩

theorem kOpen_fine (db : Dict (List Nat) DbVal) : KFine (kOpen (K := K) db).2 := by
  have h : KFine (Clf.new (K := K) false (⟨db, Dict.empty, [], []⟩ : KShelf)) :=
    ⟨rfl, ⟨fun w r h => by simp [Clf.new] at h, by simp [Clf.new], by simp [Clf.new]⟩⟩
  unfold kOpen
  cases db.get? stateKey with
  | none => exact h
  | some v =>
    cases v with
    | counts a b => exact h
    | state a b c =>
      simp only
      split
      · exact h
      · exact ⟨h.ub, h.inv⟩

variable [Field K] [LinearOrder K] (F : FloatOps K)

theorem wordDistance_noKey {c : Clf KShelf K} (hc : KFine c) {w : Tok} {e : Err}
    (hw : encodeKey w = .error e) : wordDistanceGet F kshelf w c = (.error e, c) := by
  unfold wordDistanceGet
  apply M.bind_run_error
  show ((kGet w c.store).1, { c with store := (kGet w c.store).2 }) = _
  rw [kGet_noKey hc.inv hw]

theorem probability_retains (r : WordInfo) : Retains (KFine (K := K)) (probability F r) := by
  intro c hc
  unfold probability
  cases cacheGet c.probcache r with
  | some p => exact hc
  | none =>
    simp only
    cases freshProbability F c.nspam c.nham r with
    | error e => exact hc
    | ok p => exact ⟨hc.ub, hc.inv⟩

theorem wordDistance_retains (w : Tok) : Retains (KFine (K := K)) (wordDistanceGet F kshelf w) := by
  unfold wordDistanceGet
  refine .bind (onStore_retains kGet_retains) fun o => .bind ?_ fun _ => .pure _
  cases o with
  | none => exact .pure _
  | some r => exact probability_retains F r

theorem spamprob_run {c : Clf KShelf K} (hc : KFine c) (it : SetIter Tok) (s : Stream Tok) (ev : Bool) :
    spamprob F kshelf it s ev c =
      (do
        let clues ← getCluesUnigram F kshelf it s.items
        match combine F (clues.map Clue.prob) with
        | .error e => M.raise e
        | .ok (prob, S, H) =>
          if ev then pure (prob, some (evidenceList clues S H))
          else pure (prob, none)) c := by
  unfold spamprob getClues
  rw [M.bind_run, M.bind_run_ok (M.get_run _), hc.ub]
  rfl

theorem spamprob_retains (it : SetIter Tok) (s : Stream Tok) (ev : Bool) :
    Retains (KFine (K := K)) (spamprob F kshelf it s ev) := by
  intro c hc
  rw [spamprob_run F hc]
  refine Retains.bind (.bind (.mapAll (wordDistance_retains F) _) fun _ => .pure _) (fun clues => ?_) c hc
  cases combine F (clues.map (·.prob)) with
  | error e => exact .raise _
  | ok v =>
    obtain ⟨p, S, H⟩ := v
    cases ev <;> exact .pure _

theorem runKCall_fine {c : Clf KShelf K} (hc : KFine c) (call : ShCall Tok) :
    KFine (runKCall F c call).2 := by
  cases call with
  | base call =>
    cases call with
    | learn it s b => exact learn_retains it s b c hc
    | unlearn it s b => exact unlearn_retains it s b c hc
    | spamprob it s ev => exact spamprob_retains F it s ev c hc
    | probability r => exact probability_retains F r c hc
  | store it it' => exact kStore_retains it it' c hc
  | storeReopen it it' =>
    have h := kStore_retains (K := K) it it' c hc
    simp only [runKCall]
    cases hr : kStore it it' c with
    | mk r c' =>
      rw [hr] at h
      cases r with
      | error e => exact h
      | ok u => exact kOpen_fine _

theorem execK_fine (calls : List (ShCall Tok)) {c : Clf KShelf K} (hc : KFine c) :
    KFine (execK F c calls).2 := by
  induction calls generalizing c with
  | nil => exact hc
  | cons call rest ih => exact ih (runKCall_fine F hc call)

/-! ### Streams with a word that has no key -/

theorem forEach_raises {σ γ : Type} {I : σ → Prop} {f : γ → M σ Unit} (hk : ∀ x, Retains I (f x))
    {w : γ} (hw : ∀ s, I s → ∃ e, (f w s).1 = .error e) {l : List γ} (hl : w ∈ l) {s : σ} (hs : I s) :
    ∃ e, (M.forEach f l s).1 = .error e := by
  induction l generalizing s with
  | nil => cases hl
  | cons x xs ih =>
    rw [M.forEach_cons, M.bind_run]
    have h1 := hk x s hs
    cases hf : f x s with
    | mk r s' =>
      rw [hf] at h1
      cases r with
      | error e => exact ⟨e, rfl⟩
      | ok a =>
        rcases List.mem_cons.1 hl with rfl | hl
        · obtain ⟨e, he⟩ := hw s hs
          rw [hf] at he
          cases he
        · exact ih hl h1

theorem mapAll_raises {σ γ β : Type} {I : σ → Prop} {f : γ → M σ β} (hk : ∀ x, Retains I (f x))
    {w : γ} (hw : ∀ s, I s → ∃ e, (f w s).1 = .error e) {l : List γ} (hl : w ∈ l) {s : σ} (hs : I s) :
    ∃ e, (M.mapAll f l s).1 = .error e := by
  induction l generalizing s with
  | nil => cases hl
  | cons x xs ih =>
    have h1 := hk x s hs
    show ∃ e, ((f x >>= fun y => M.mapAll f xs >>= fun ys => pure (y :: ys)) s).1 = _
    rw [M.bind_run]
    cases hf : f x s with
    | mk r s' =>
      rw [hf] at h1
      cases r with
      | error e => exact ⟨e, rfl⟩
      | ok a =>
        rcases List.mem_cons.1 hl with rfl | hl
        · obtain ⟨e, he⟩ := hw s hs
          rw [hf] at he
          cases he
        · obtain ⟨e, he⟩ := ih hl h1
          refine ⟨e, ?_⟩
          simp only
          rw [M.bind_run]
          cases hm : M.mapAll f xs s' with
          | mk r s'' =>
            rw [hm] at he
            simp only at he
            subst he
            rfl

end
end Sb
