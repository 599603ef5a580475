import Verif.Proof.ShelveKeys
import Verif.Props.TokenMessage
import Verif.Props.Shelve
import Verif.Props.Mixed

/-
Property C83: ShelveClassifier with the words the tokenizer yields.  `kOpen db` is a
ShelveClassifier on a file with contents `db`.
-/

set_option linter.unusedSectionVars false

namespace Sb.Props
open Sb Py Spec Sb.Strip Sb.Tokenize

/-! ### Helpers: words with a key, and the relation to Model/Shelve.lean -/

/-- A str of characters that are not surrogates. -/
def Storable (w : Tok) : Prop := ∃ t, w = .str t ∧ ∀ c ∈ t, c < 0x110000 ∧ ¬ Surrogate c

theorem storable_key {w : Tok} (h : Storable w) : ∃ k, encodeKey w = .ok k := by
  obtain ⟨t, rfl, ht⟩ := h
  show ∃ k, utf8 t = .ok k
  cases he : utf8 t with
  | ok k => exact ⟨k, rfl⟩
  | error e =>
    obtain ⟨c, hc, hs⟩ := utf8_error.1 ⟨e, he⟩
    exact absurd hs (ht c hc).2

theorem storable_inj {v w : Tok} (hv : Storable v) (hw : Storable w) {k : List Nat}
    (h1 : encodeKey v = .ok k) (h2 : encodeKey w = .ok k) : v = w := by
  obtain ⟨s, rfl, hs⟩ := hv
  obtain ⟨t, rfl, ht⟩ := hw
  rw [encodes_injective (utf8_ok.1 h1) (utf8_ok.1 h2) (fun c hc => (hs c hc).1)
    (fun c hc => (ht c hc).1)]

theorem stateWord_storable : Storable stateWord := by
  refine ⟨_, rfl, ?_⟩
  unfold Surrogate
  decide

theorem stateWord_key : encodeKey stateWord = .ok stateKey := by decide

/-- The two files hold the same values under the same words. -/
def SameFile (db : Dict (List Nat) DbVal) (db' : Dict Tok DbVal) : Prop :=
  ∀ w k, Storable w → encodeKey w = .ok k → db.get? k = db'.get? w

theorem SameFile.set {db db'} (h : SameFile db db') {w : Tok} {k : List Nat} (hw : Storable w)
    (hk : encodeKey w = .ok k) (v : DbVal) : SameFile (db.set k v) (db'.set w v) := by
  intro w' k' hw' hk'
  rw [Dict.get?_set, Dict.get?_set]
  by_cases he : w' = w
  · subst he
    rw [hk] at hk'
    cases hk'
    simp
  · have : k' ≠ k := fun e => he (storable_inj hw' hw hk' (e ▸ hk))
    rw [if_neg (Ne.symm this), if_neg (Ne.symm he)]
    exact h w' k' hw' hk'

theorem SameFile.erase {db db'} (h : SameFile db db') {w : Tok} {k : List Nat} (hw : Storable w)
    (hk : encodeKey w = .ok k) : SameFile (db.erase k) (db'.erase w) := by
  intro w' k' hw' hk'
  rw [Dict.get?_erase, Dict.get?_erase]
  by_cases he : w' = w
  · subst he
    rw [hk] at hk'
    cases hk'
    simp
  · have : k' ≠ k := fun e => he (storable_inj hw' hw hk' (e ▸ hk))
    rw [if_neg (Ne.symm this), if_neg (Ne.symm he)]
    exact h w' k' hw' hk'

/-- The attributes correspond. -/
structure KRel (s : KShelf) (t : Shelf Tok) : Prop where
  db : SameFile s.db t.db
  wordinfo : s.wordinfo = t.wordinfo
  changed : s.changed = t.changed
  deleted : s.deleted = t.deleted
  fitsC : ∀ w ∈ s.changed, Storable w
  fitsD : ∀ w ∈ s.deleted, Storable w

theorem kshelf_alike : BackendsAlike KRel Storable kshelf (shelf stateWord) where
  get w hw := by
    intro s t h
    obtain ⟨k, hk⟩ := storable_key hw
    show (kGet w s).1 = (shelfGet w t).1 ∧ KRel (kGet w s).2 (shelfGet w t).2
    unfold kGet shelfGet
    rw [h.wordinfo, h.deleted]
    cases t.wordinfo.get? w with
    | some r => exact ⟨rfl, h⟩
    | none =>
      simp only
      by_cases hd : w ∈ t.deleted
      · simp only [if_pos hd]; exact ⟨trivial, h⟩
      · simp only [if_neg hd]
        rw [hk]
        simp only
        rw [h.db w k hw hk]
        cases t.db.get? w with
        | none => exact ⟨rfl, h⟩
        | some v =>
          cases v with
          | counts a b => exact ⟨rfl, ⟨h.db, rfl, h.changed, rfl, h.fitsC, h.deleted ▸ h.fitsD⟩⟩
          | state a b c => exact ⟨rfl, h⟩
  set w r hw := by
    intro s t h
    obtain ⟨k, hk⟩ := storable_key hw
    show (kSet w r s).1 = (shelfSet w r t).1 ∧ KRel (kSet w r s).2 (shelfSet w r t).2
    unfold kSet shelfSet
    by_cases hz : r.spamcount + r.hamcount ≤ 1
    · simp only [if_pos hz]
      rw [hk]
      refine ⟨rfl, ⟨h.db.set hw hk _, ?_, ?_, ?_, ?_, ?_⟩⟩
      · simp only [h.wordinfo]
      · simp only [h.changed]
      · simp only [h.deleted]
      · intro v hv; exact h.fitsC v ((mem_setRemove _ _ _).1 hv).1
      · intro v hv; exact h.fitsD v ((mem_setRemove _ _ _).1 hv).1
    · simp only [if_neg hz]
      refine ⟨trivial, ⟨h.db, ?_, ?_, h.deleted, ?_, h.fitsD⟩⟩
      · simp only [h.wordinfo]
      · simp only [h.changed]
      · intro v hv
        rcases (mem_setAdd _ _ _).1 hv with rfl | hv
        · exact hw
        · exact h.fitsC v hv
  del w hw := by
    intro s t h
    show (kDel w s).1 = (shelfDel w t).1 ∧ KRel (kDel w s).2 (shelfDel w t).2
    unfold kDel shelfDel
    rw [h.wordinfo]
    by_cases hz : t.wordinfo.contains w
    · simp only [if_pos hz]
      refine ⟨trivial, ⟨h.db, rfl, h.changed, ?_, h.fitsC, ?_⟩⟩
      · simp only [h.deleted]
      · intro v hv
        rcases (mem_setAdd _ _ _).1 hv with rfl | hv
        · exact hw
        · exact h.fitsD v hv
    · simp only [if_neg hz]
      exact ⟨trivial, h⟩
  post n m := by
    intro s t h
    exact ⟨rfl, ⟨h.db.set stateWord_storable stateWord_key _, h.wordinfo, h.changed, h.deleted,
      h.fitsC, h.fitsD⟩⟩

theorem storeChanged_alike {w : Tok} (hw : Storable w) :
    Alike KRel (kStoreChanged w) (storeChanged w) := by
  intro s t h
  obtain ⟨k, hk⟩ := storable_key hw
  unfold kStoreChanged storeChanged
  rw [h.wordinfo]
  cases t.wordinfo.get? w with
  | none => exact ⟨rfl, h⟩
  | some r =>
    simp only
    rw [hk]
    exact ⟨rfl, ⟨h.db.set hw hk _, rfl, h.changed, h.deleted, h.fitsC, h.fitsD⟩⟩

theorem storeDeleted_alike {w : Tok} (hw : Storable w) :
    Alike KRel (kStoreDeleted w) (storeDeleted w) := by
  intro s t h
  obtain ⟨k, hk⟩ := storable_key hw
  unfold kStoreDeleted storeDeleted
  rw [h.wordinfo]
  by_cases hz : t.wordinfo.contains w
  · simp only [if_pos hz]
    exact ⟨trivial, h⟩
  · simp only [if_neg hz]
    rw [hk]
    exact ⟨rfl, ⟨h.db.erase hw hk, rfl, h.changed, h.deleted, h.fitsC, h.fitsD⟩⟩

theorem storeWords_alike (it it' : SetIter Tok) :
    Alike KRel (kStoreWords it it') (storeWords it it') := by
  unfold kStoreWords storeWords
  intro s t h
  rw [M.bind_run_ok (M.get_run _), M.bind_run_ok (M.get_run _), h.changed]
  have hc : ∀ w ∈ it.order t.changed, Storable w := fun w hw =>
    h.fitsC w (h.changed ▸ (it.mem _ w).1 hw)
  refine Alike.bind (.forEach _ fun w hw => storeChanged_alike (hc w hw)) (fun _ => ?_) s t h
  intro s t h
  rw [M.bind_run_ok (M.get_run _), M.bind_run_ok (M.get_run _), h.deleted]
  have hd : ∀ w ∈ it'.order t.deleted, Storable w := fun w hw =>
    h.fitsD w (h.deleted ▸ (it'.mem _ w).1 hw)
  refine Alike.bind (.forEach _ fun w hw => storeDeleted_alike (hd w hw)) (fun _ => ?_) s t h
  intro s t h
  exact ⟨rfl, ⟨h.db, h.wordinfo, rfl, rfl, by simp, by simp⟩⟩

section
variable {K : Type}

theorem kStore_alike (it it' : SetIter Tok) :
    Alike (ClfAlike (K := K) KRel) (kStore it it') (shelveStore stateWord it it') := by
  unfold kStore shelveStore
  exact .bind (alike_onStore (storeWords_alike it it')) fun _ => alike_post kshelf_alike

theorem kOpen_alike {db : Dict (List Nat) DbVal} {db' : Dict Tok DbVal} (h : SameFile db db') :
    (kOpen (K := K) db).1 = (shelveOpen (K := K) stateWord db').1 ∧
      ClfAlike KRel (kOpen (K := K) db).2 (shelveOpen stateWord db').2 := by
  unfold kOpen shelveOpen shelveLoad
  rw [h _ _ stateWord_storable stateWord_key]
  have hr : ∀ tr, KRel ⟨db, Dict.empty, [], []⟩ ⟨db', Dict.empty, [], [], tr⟩ := fun tr =>
    ⟨h, rfl, rfl, rfl, by simp, by simp⟩
  cases db'.get? stateWord with
  | none => exact ⟨rfl, ⟨rfl, rfl, hr _, rfl, rfl, rfl⟩⟩
  | some v =>
    cases v with
    | counts a b => exact ⟨rfl, ⟨rfl, rfl, hr _, rfl, rfl, rfl⟩⟩
    | state a b c =>
      simp only
      by_cases hz : a ≠ pickleVersion
      · simp only [if_pos hz]
        exact ⟨trivial, ⟨rfl, rfl, hr _, rfl, rfl, rfl⟩⟩
      · simp only [if_neg hz]
        exact ⟨trivial, ⟨rfl, rfl, hr _, rfl, rfl, rfl⟩⟩

end

section
variable {K : Type} [Field K] [LinearOrder K]

/-- All tokens of the call are as `P` says. -/
def TokensOf (P : Tok → Prop) : ShCall Tok → Prop
  | .base call => ∀ t, streamOf call = some t → ∀ w ∈ t.items, P w
  | _ => True

theorem execK_alike (F : FloatOps K) (calls : List (ShCall Tok)) (hp : ∀ c ∈ calls, TokensOf Storable c) :
    ∀ (c : Clf KShelf K) (d : Clf (Shelf Tok) K), ClfAlike KRel c d →
      (execK F c calls).1 = (execSh F stateWord d calls).1 ∧
      ClfAlike KRel (execK F c calls).2 (execSh F stateWord d calls).2 := by
  induction calls with
  | nil => intro c d h; exact ⟨rfl, h⟩
  | cons call rest ih =>
    intro c d h
    have key : (runKCall F c call).1 = (runShCall F stateWord d call).1 ∧
        ClfAlike KRel (runKCall F c call).2 (runShCall F stateWord d call).2 := by
      cases call with
      | base call =>
        refine alike_runCall F kshelf_alike call ?_ h
        have := hp (.base call) (by simp)
        cases call <;> first | exact this _ rfl | trivial
      | store it it' =>
        obtain ⟨h1, h2⟩ := kStore_alike (K := K) it it' c d h
        exact ⟨by simp only [runKCall, runShCall, h1], h2⟩
      | storeReopen it it' =>
        obtain ⟨h1, h2⟩ := kStore_alike (K := K) it it' c d h
        simp only [runKCall, runShCall]
        cases hm : kStore it it' c with
        | mk r c' =>
          cases hn : shelveStore stateWord it it' d with
          | mk r' d' =>
            rw [hm, hn] at h1 h2
            simp only at h1
            subst h1
            cases r with
            | error e => exact ⟨rfl, h2⟩
            | ok u =>
              obtain ⟨h3, h4⟩ := kOpen_alike (K := K) h2.store.db
              exact ⟨by simp only [h3], h4⟩
    obtain ⟨h1, h2⟩ := ih (fun c hc => hp c (by simp [hc])) _ _ key.2
    exact ⟨by simp only [execK, execSh, key.1, h1], h2⟩

/-! ### The property -/

/-- A ShelveClassifier on a file with contents `db` after the calls `calls`. -/
abbrev kAfter (F : FloatOps K) (db : Dict (List Nat) DbVal) (calls : List (ShCall Tok)) : Clf KShelf K :=
  (execK F (kOpen db).2 calls).2

/-- The claim of C83: a ShelveClassifier on a new file learns and scores any message
whose tokens are bytes, as the tokenizer yields them. -/
def C83Claim (F : FloatOps K) : Prop :=
  ∀ (it : SetIter Tok) (s : Stream Tok) (b ev : Bool), (∀ w ∈ s.items, IsBytes w) →
    (learn kshelf it s b (kAfter F Dict.empty [])).1 = .ok () ∧
    ∀ e, (spamprob F kshelf it s ev (kAfter F Dict.empty [])).1 ≠ .error e

/-- **C83**, what happens instead.  Take a ShelveClassifier on any file after any
calls, successful or not, and a message with at least one token whose tokens are all
bytes.  Learning raises AttributeError, after the message was counted; forgetting
raises AttributeError, after it was discounted, unless the total is 0 (ValueError);
scoring raises AttributeError.  Nothing else changes, in particular not the file. -/
theorem C83_bytes_partial (F : FloatOps K) (db : Dict (List Nat) DbVal) (calls : List (ShCall Tok))
    (it : SetIter Tok) (s : Stream Tok) (b ev : Bool) (hne : s.items ≠ [])
    (hb : ∀ w ∈ s.items, IsBytes w) :
    let c := kAfter F db calls
    learn kshelf it s b c = (.error .attributeError,
      { c with probcache := Dict.empty, nspam := if b then c.nspam + 1 else c.nspam,
               nham := if b then c.nham else c.nham + 1 }) ∧
    unlearn kshelf it s b c =
      (if (if b then c.nspam else c.nham) ≤ 0 then
        (.error .valueError, { c with probcache := Dict.empty })
      else (.error .attributeError,
        { c with probcache := Dict.empty, nspam := if b then c.nspam - 1 else c.nspam,
                 nham := if b then c.nham else c.nham - 1 })) ∧
    spamprob F kshelf it s ev c = (.error .attributeError, c) := by
  intro c
  have hc : KFine c := execK_fine F calls (kOpen_fine db)
  cases hl : it.order s.items with
  | nil =>
    cases hi : s.items with
    | nil => exact absurd hi hne
    | cons w ws =>
      have := (it.mem s.items w).2 (by rw [hi]; simp)
      rw [hl] at this
      cases this
  | cons w ws =>
    have hw : encodeKey w = .error .attributeError := by
      have := hb w ((it.mem s.items w).1 (by rw [hl]; simp))
      cases w with
      | str t => exact this.elim
      | bytes t => rfl
    refine ⟨?_, ?_, ?_⟩
    · rw [learn_run hc, hl, M.forEach_cons]
      exact M.bind_run_error (M.bind_run_error (addWord_noKey (c := counted b c) ⟨hc.ub, hc.inv⟩ b hw))
    · rw [unlearn_run hc, hl, M.forEach_cons]
      by_cases hz : (if b then c.nspam else c.nham) ≤ 0
      · rw [if_pos hz, if_pos hz]
      · rw [if_neg hz, if_neg hz]
        exact M.bind_run_error
          (M.bind_run_error (removeWord_noKey (c := uncounted b c) ⟨hc.ub, hc.inv⟩ b hw))
    · rw [spamprob_run F hc]
      unfold getCluesUnigram
      rw [hl]
      exact M.bind_run_error (M.bind_run_error (M.bind_run_error (wordDistance_noKey F hc hw)))

/-- **C83**, mixed messages: one token that is bytes or has a surrogate is enough for
learning, forgetting and scoring to raise. -/
theorem C83_one_bad_token (F : FloatOps K) (db : Dict (List Nat) DbVal) (calls : List (ShCall Tok))
    (it : SetIter Tok) (s : Stream Tok) (b ev : Bool) (w : Tok) (hw : w ∈ s.items)
    (hb : IsBytes w ∨ ∃ t c, w = .str t ∧ c ∈ t ∧ Surrogate c) :
    (∃ e, (learn kshelf it s b (kAfter F db calls)).1 = .error e) ∧
    (∃ e, (unlearn kshelf it s b (kAfter F db calls)).1 = .error e) ∧
    ∃ e, (spamprob F kshelf it s ev (kAfter F db calls)).1 = .error e := by
  set c := kAfter F db calls
  have hc : KFine c := execK_fine F calls (kOpen_fine db)
  have hk : ∃ e, encodeKey w = .error e := by
    rcases hb with hb | ⟨t, x, rfl, hx, hs⟩
    · cases w with
      | str t => exact hb.elim
      | bytes t => exact ⟨_, rfl⟩
    · exact utf8_error.2 ⟨x, hx, hs⟩
  obtain ⟨e, he⟩ := hk
  have hm := (it.mem s.items w).2 hw
  refine ⟨?_, ?_, ?_⟩
  · rw [learn_run hc]
    obtain ⟨e', h⟩ := forEach_raises (addWord_retains (K := K) b)
      (fun d hd => ⟨e, by rw [addWord_noKey hd b he]⟩) hm (s := counted b c) ⟨hc.ub, hc.inv⟩
    refine ⟨e', ?_⟩
    rw [M.bind_run]
    cases hr : M.forEach (addWord kshelf b) (it.order s.items) (counted b c) with
    | mk r c' => rw [hr] at h; simp only at h; subst h; rfl
  · rw [unlearn_run hc]
    by_cases hz : (if b then c.nspam else c.nham) ≤ 0
    · rw [if_pos hz]; exact ⟨_, rfl⟩
    · rw [if_neg hz]
      obtain ⟨e', h⟩ := forEach_raises (removeWord_retains (K := K) b)
        (fun d hd => ⟨e, by rw [removeWord_noKey hd b he]⟩) hm (s := uncounted b c) ⟨hc.ub, hc.inv⟩
      refine ⟨e', ?_⟩
      rw [M.bind_run]
      cases hr : M.forEach (removeWord kshelf b) (it.order s.items) (uncounted b c) with
      | mk r c' => rw [hr] at h; simp only at h; subst h; rfl
  · rw [spamprob_run F hc]
    obtain ⟨e', h⟩ := mapAll_raises (wordDistance_retains (K := K) F)
      (fun d hd => ⟨e, by rw [wordDistance_noKey F hd he]⟩) hm hc
    refine ⟨e', ?_⟩
    unfold getCluesUnigram
    cases hr : M.mapAll (wordDistanceGet F kshelf) (it.order s.items) c with
    | mk r c' =>
      rw [hr] at h
      simp only at h
      subst h
      rw [M.bind_run_error (M.bind_run_error hr)]

/-- **C83**, surrogates: a message of str tokens that all have a surrogate raises
UnicodeEncodeError (a ValueError). -/
theorem C83_surrogates (F : FloatOps K) (db : Dict (List Nat) DbVal) (calls : List (ShCall Tok))
    (it : SetIter Tok) (s : Stream Tok) (b ev : Bool) (hne : s.items ≠ [])
    (hb : ∀ w ∈ s.items, ∃ t c, w = .str t ∧ c ∈ t ∧ Surrogate c) :
    (learn kshelf it s b (kAfter F db calls)).1 = .error .valueError ∧
    (unlearn kshelf it s b (kAfter F db calls)).1 = .error .valueError ∧
    (spamprob F kshelf it s ev (kAfter F db calls)).1 = .error .valueError := by
  set c := kAfter F db calls
  have hc : KFine c := execK_fine F calls (kOpen_fine db)
  cases hl : it.order s.items with
  | nil =>
    cases hi : s.items with
    | nil => exact absurd hi hne
    | cons w ws =>
      have := (it.mem s.items w).2 (by rw [hi]; simp)
      rw [hl] at this
      cases this
  | cons w ws =>
    have hw : encodeKey w = .error .valueError := by
      obtain ⟨t, x, rfl, hx, hs⟩ := hb w ((it.mem s.items w).1 (by rw [hl]; simp))
      obtain ⟨e, he⟩ := utf8_error.2 ⟨x, hx, hs⟩
      have := utf8_error_value he
      subst this
      exact he
    refine ⟨?_, ?_, ?_⟩
    · rw [learn_run hc, hl, M.forEach_cons,
        M.bind_run_error (M.bind_run_error (addWord_noKey (c := counted b c) ⟨hc.ub, hc.inv⟩ b hw))]
    · rw [unlearn_run hc, hl, M.forEach_cons]
      by_cases hz : (if b then c.nspam else c.nham) ≤ 0
      · rw [if_pos hz]
      · rw [if_neg hz, M.bind_run_error
          (M.bind_run_error (removeWord_noKey (c := uncounted b c) ⟨hc.ub, hc.inv⟩ b hw))]
    · rw [spamprob_run F hc]
      unfold getCluesUnigram
      rw [hl]
      exact congrArg Prod.fst
        (M.bind_run_error (M.bind_run_error (M.bind_run_error (wordDistance_noKey F hc hw))))

/-- **C83**, str tokens: if all tokens are str without surrogates, none of them
'saved state', then learning, forgetting, scoring, storing and reopening have the same
outcomes as learning, forgetting and scoring have with the in-memory classifier. -/
theorem C83_str_like_memory (F : FloatOps K) (calls : List (ShCall Tok))
    (h : ∀ c ∈ calls, TokensOf (fun w => Storable w ∧ w ≠ .str (Mail.txt "saved state")) c) :
    (execK F (kOpen Dict.empty).2 calls).1 = (execMem F (Clf.new false Dict.empty) calls).1 := by
  have h1 : ∀ c ∈ calls, TokensOf Storable c := by
    intro c hc
    have := h c hc
    cases c with
    | base call => exact fun t ht w hw => (this t ht w hw).1
    | store _ _ => trivial
    | storeReopen _ _ => trivial
  have h2 : ∀ c ∈ calls, AvoidsKey stateWord c := by
    intro c hc
    have := h c hc
    cases c with
    | base call => cases call <;> first | exact fun hm => (this _ rfl _ hm).2 rfl | trivial
    | store _ _ => trivial
    | storeReopen _ _ => trivial
  have h0 : SameFile Dict.empty Dict.empty := fun w k _ _ => rfl
  rw [(execK_alike F calls h1 _ _ (kOpen_alike h0).2).1]
  exact (sim_exec F calls h2 _ _ (sim_new F stateWord)).1

/-- **C83**, faithful keys: on str tokens without surrogates the shelf of encoded keys
behaves like a dictionary of words, on every file. -/
theorem C83_keys_faithful (F : FloatOps K) (db : Dict (List Nat) DbVal) (db' : Dict Tok DbVal)
    (hdb : ∀ t b, Encodes t b → (∀ c ∈ t, c < 0x110000) → db.get? b = db'.get? (.str t))
    (calls : List (ShCall Tok)) (h : ∀ c ∈ calls, TokensOf Storable c) :
    (execK F (kOpen db).2 calls).1 = (execSh F (.str (Mail.txt "saved state")) (shelveOpen (.str (Mail.txt "saved state")) db').2 calls).1 := by
  have h0 : SameFile db db' := by
    rintro w k ⟨t, rfl, ht⟩ hk
    exact hdb t k (utf8_ok.1 hk) fun c hc => (ht c hc).1
  exact (execK_alike F calls h _ _ (kOpen_alike h0).2).1

end

/-- **C83**, refutation. -/
theorem C83_claim_false {K : Type} [Field K] [LinearOrder K] (F : FloatOps K) : ¬ C83Claim F := by
  intro h
  have h1 := (h .dedup (.list [.bytes [97]]) true true (by
    intro w hw
    simp only [Stream.items, List.mem_singleton] at hw
    subst hw; trivial)).1
  have h2 := (C83_bytes_partial F Dict.empty [] .dedup (.list [.bytes [97]]) true true (by simp [Stream.items])
    (by
      intro w hw
      simp only [Stream.items, List.mem_singleton] at hw
      subst hw; trivial)).1
  rw [h2] at h1
  cases h1

/-- Tokens a shelf can hold, one of them beyond ASCII. -/
example : ∀ w ∈ (Stream.list [Tok.str (Mail.txt "viagra"), .str [0x20AC]]).items,
    Storable w ∧ w ≠ .str (Mail.txt "saved state") := by
  intro w hw
  simp only [Stream.items, List.mem_cons, List.not_mem_nil, or_false] at hw
  rcases hw with rfl | rfl
  · exact ⟨⟨_, rfl, by unfold Surrogate; decide⟩, by decide⟩
  · exact ⟨⟨_, rfl, by unfold Surrogate; decide⟩, by decide⟩

/-- A history of C83_str_like_memory that writes to the file. -/
example : ∀ c ∈ [ShCall.base (.learn .dedup (.list [Tok.str (Mail.txt "viagra")]) true),
      .storeReopen .dedup .dedup, .base (.spamprob .dedup (.list [Tok.str (Mail.txt "viagra")]) true)],
    TokensOf (fun w => Storable w ∧ w ≠ .str (Mail.txt "saved state")) c := by
  intro c hc
  have hw : Storable (.str (Mail.txt "viagra")) ∧ Tok.str (Mail.txt "viagra") ≠ .str (Mail.txt "saved state") :=
    ⟨⟨_, rfl, by unfold Surrogate; decide⟩, by decide⟩
  simp only [List.mem_cons, List.not_mem_nil, or_false] at hc
  rcases hc with rfl | rfl | rfl
  · intro t ht w h
    cases ht
    rw [List.mem_singleton.1 h]; exact hw
  · trivial
  · intro t ht w h
    cases ht
    rw [List.mem_singleton.1 h]; exact hw

/-- The word "é" is stored under its two bytes. -/
example : (kSet (.str [0xE9]) ⟨1, 0⟩ ⟨Dict.empty, Dict.empty, [], []⟩).2.db.get? [0xC3, 0xA9] =
    some (.counts 1 0) := by decide

/-- A str of a lone surrogate, as the email package makes of a raw 8-bit byte. -/
example : ∃ t c, (Tok.str [0xDCE9]) = .str t ∧ c ∈ t ∧ Surrogate c :=
  ⟨_, 0xDCE9, rfl, by simp, by unfold Surrogate; decide⟩

end Sb.Props
