import Verif.Model.Pickle
import Verif.Props.Scoring

/-
Properties C23, C26, C27: pickling.  `codec` is the pickle format, a `Disk` the
file and its lock.
-/

set_option linter.unusedSectionVars false

namespace Sb.Props
open Sb Py Spec

section
variable {W K B : Type} [LinearOrder W] [BigramFormat W] [Field K] [LinearOrder K]

/-- helper -/
theorem pickleNew_of_enc (codec : Codec B W) (st : PState W) (h : st.version = 5) :
    (pickleNew codec ⟨false, some (codec.enc st)⟩ : _ × Clf (Dict W WordInfo) K) =
      (.ok (), ⟨some false, st.wordinfo, Dict.empty, st.nspam, st.nham⟩) := by
  obtain ⟨v, wi, ns, nh⟩ := st
  have h : v = 5 := h
  subst h
  simp [pickleNew, pickleLoad, pickleRead, codec.dec_enc, unpickle, setState, pickleVersion, getState,
    Clf.new]

/-! ### C23 -/

/-- **C23.** After any history (`calls`) on a new PickleClassifier, store succeeds
if the lock is free, whatever the file held before, and a classifier constructed
on the file then has the same totals and word counts and gives the same result for
every message. -/
theorem C23_pickle_round_trip (F : FloatOps K) (codec : Codec B W) (calls : List (Call W))
    (old : Option B) :
    let c := after F false calls
    ∃ disk, pickleStore codec c ⟨false, old⟩ = (.ok (), disk) ∧
      ∃ c' : Clf (Dict W WordInfo) K, pickleNew codec disk = (.ok (), c') ∧
        c'.nspam = c.nspam ∧ c'.nham = c.nham ∧ (∀ w, c'.store.get? w = c.store.get? w) ∧
        ∀ (it : SetIter W) (s : Stream W) (ev : Bool),
          (spamprob F (memory W) it s ev c').1 = (spamprob F (memory W) it s ev c).1 := by
  intro c
  obtain ⟨hs, hk, hub⟩ := after_ok F false calls
  refine ⟨⟨false, some (codec.enc (getState c))⟩, rfl, _, pickleNew_of_enc codec _ rfl, rfl, rfl,
    fun _ => rfl, ?_⟩
  intro it s ev
  rw [spamprob_eq F (coherent_of_empty F _ rfl), spamprob_eq F hk, hub]
  rfl

/-- A specification of a stored classifier: the live classifier and the one last
stored (`none`: nothing stored, a new classifier).  Loading and reopening go back
to the stored one. -/
def execSaved (F : FloatOps K) (c : Clf (Dict W WordInfo) K) (saved : Option (Clf (Dict W WordInfo) K)) :
    List (PkCall W) → List (Outcome W K) × Clf (Dict W WordInfo) K
  | [] => ([], c)
  | .base call :: rest =>
    let r := runCall F (memory W) c call
    let rs := execSaved F r.2 saved rest
    (r.1 :: rs.1, rs.2)
  | .store :: rest => let rs := execSaved F c (some c) rest; (.done :: rs.1, rs.2)
  | _ :: rest =>
    let rs := execSaved F (saved.getD (Clf.new false Dict.empty)) saved rest
    (.done :: rs.1, rs.2)

/-- A history in which no load is made before the first store. -/
def LoadsStored : Bool → List (PkCall W) → Prop
  | _, [] => True
  | _, .store :: rest => LoadsStored true rest
  | b, .load :: rest => b = true ∧ LoadsStored b rest
  | b, _ :: rest => LoadsStored b rest

/-- helper: equal up to the cache -/
structure SameClf (F : FloatOps K) (c d : Clf (Dict W WordInfo) K) : Prop where
  ub : c.useBigrams = some false
  ub' : d.useBigrams = some false
  nspam : c.nspam = d.nspam
  nham : c.nham = d.nham
  store : c.store = d.store
  coh : Coherent F c
  coh' : Coherent F d

/-- helper -/
theorem sameClf_runCall (F : FloatOps K) {c d : Clf (Dict W WordInfo) K} (h : SameClf F c d)
    (call : Call W) :
    (runCall F (memory W) c call).1 = (runCall F (memory W) d call).1 ∧
    SameClf F (runCall F (memory W) c call).2 (runCall F (memory W) d call).2 := by
  cases call with
  | learn it s b =>
    simp only [runCall, learn_memory it s b c h.ub, learn_memory it s b d h.ub']
    refine ⟨trivial, h.ub, h.ub', ?_, ?_, ?_, coherent_of_empty F _ rfl, coherent_of_empty F _ rfl⟩
    · simp only [afterAdd, h.nspam]
    · simp only [afterAdd, h.nham]
    · simp only [afterAdd, h.store]
  | unlearn it s b =>
    simp only [runCall, unlearn_memory it s b c h.ub, unlearn_memory it s b d h.ub']
    have : total b c = total b d := by unfold total; rw [h.nspam, h.nham]
    rw [this]
    split
    · exact ⟨rfl, h.ub, h.ub', h.nspam, h.nham, h.store, coherent_of_empty F _ rfl, coherent_of_empty F _ rfl⟩
    · refine ⟨rfl, h.ub, h.ub', ?_, ?_, ?_, coherent_of_empty F _ rfl, coherent_of_empty F _ rfl⟩
      · simp only [afterRemove, h.nspam]
      · simp only [afterRemove, h.nham]
      · simp only [afterRemove, h.store]
  | spamprob it s ev =>
    obtain ⟨a1, a2, a3, a4, a5, a6⟩ := spamprob_memory (F := F) c h.coh it s ev
    obtain ⟨b1, b2, b3, b4, b5, b6⟩ := spamprob_memory (F := F) d h.coh' it s ev
    simp only [runCall]
    refine ⟨?_, by rw [a6, h.ub], by rw [b6, h.ub'], by rw [a4, b4, h.nspam], by rw [a5, b5, h.nham],
      by rw [a3, b3, h.store], a2, b2⟩
    rw [a1, b1, h.nspam, h.nham, h.ub, h.ub', h.store]
  | probability r =>
    obtain ⟨a1, a2⟩ := computes_probability (F := F) (Inv := fun d => d = c.store)
      (ub := c.useBigrams) (nspam := c.nspam) (nham := c.nham) r c ⟨h.coh, rfl, rfl, rfl, rfl⟩
    obtain ⟨b1, b2⟩ := computes_probability (F := F) (Inv := fun x => x = d.store)
      (ub := d.useBigrams) (nspam := d.nspam) (nham := d.nham) r d ⟨h.coh', rfl, rfl, rfl, rfl⟩
    simp only [runCall]
    refine ⟨?_, by rw [a2.ub, h.ub], by rw [b2.ub, h.ub'], by rw [a2.nspam, b2.nspam, h.nspam],
      by rw [a2.nham, b2.nham, h.nham], by rw [a2.inv, b2.inv, h.store], a2.coherent, b2.coherent⟩
    rw [a1, b1, h.nspam, h.nham]

/-- helper -/
theorem execPk_saved (F : FloatOps K) (codec : Codec B W) (calls : List (PkCall W)) :
    ∀ (c d : Clf (Dict W WordInfo) K) (disk : Disk B) (saved : Option (Clf (Dict W WordInfo) K)),
      SameClf F c d → disk.locked = false →
      (match saved with
        | none => disk.file = none
        | some e => disk.file = some (codec.enc (getState e)) ∧ e.useBigrams = some false ∧ Coherent F e) →
      LoadsStored saved.isSome calls →
      (execPk F codec c disk calls).1 = (execSaved F d saved calls).1 ∧
      SameClf F (execPk F codec c disk calls).2.1 (execSaved F d saved calls).2 := by
  induction calls with
  | nil => intro c d disk saved h _ _ _; exact ⟨rfl, h⟩
  | cons call rest ih =>
    intro c d disk saved h hl hf hls
    obtain ⟨lk, file⟩ := disk
    have hl : lk = false := hl
    subst hl
    cases call with
    | base call =>
      obtain ⟨h1, h2⟩ := sameClf_runCall F h call
      obtain ⟨h3, h4⟩ := ih _ _ ⟨false, file⟩ saved h2 rfl hf hls
      exact ⟨by simp only [execPk, execSaved, runPkCall, h1, h3], h4⟩
    | store =>
      have e : getState c = getState d := by
        simp only [getState, h.nspam, h.nham, h.store]
      obtain ⟨h3, h4⟩ := ih c d ⟨false, some (codec.enc (getState c))⟩ (some d) h rfl
        ⟨by rw [e], h.ub', h.coh'⟩ hls
      exact ⟨by simp only [execPk, execSaved, runPkCall, pickleStore, pickleWrite]; rw [← h3]; rfl, h4⟩
    | load =>
      obtain ⟨hsv, hls⟩ := hls
      cases saved with
      | none => cases hsv
      | some e =>
        obtain ⟨hfile, hu, hc⟩ := hf
        have hfile : file = some (codec.enc (getState e)) := hfile
        subst hfile
        have el : pickleLoad codec ⟨false, some (codec.enc (getState e))⟩ c =
            (.ok (), { c with store := e.store, nspam := e.nspam, nham := e.nham, probcache := Dict.empty }) := by
          simp [pickleLoad, pickleRead, codec.dec_enc, unpickle, setState, pickleVersion, getState]
        obtain ⟨h3, h4⟩ := ih { c with store := e.store, nspam := e.nspam, nham := e.nham, probcache := Dict.empty }
          e ⟨false, some (codec.enc (getState e))⟩ (some e)
          ⟨h.ub, hu, rfl, rfl, rfl, coherent_of_empty F _ rfl, hc⟩ rfl ⟨rfl, hu, hc⟩ hls
        simp only [execPk, execSaved, runPkCall, el, Option.getD_some]
        exact ⟨by rw [← h3]; rfl, h4⟩
    | reopen =>
      cases saved with
      | none =>
        have hfile : file = none := hf
        subst hfile
        have el : (pickleNew codec ⟨false, none⟩ : _ × Clf (Dict W WordInfo) K) =
            (.ok (), Clf.new false Dict.empty) := rfl
        obtain ⟨h3, h4⟩ := ih (Clf.new false Dict.empty) (Clf.new false Dict.empty)
          ⟨false, none⟩ none ⟨rfl, rfl, rfl, rfl, rfl, coherent_of_empty F _ rfl, coherent_of_empty F _ rfl⟩
          rfl rfl hls
        simp only [execPk, execSaved, runPkCall, el, Option.getD_none]
        exact ⟨by rw [← h3]; rfl, h4⟩
      | some e =>
        obtain ⟨hfile, hu, hc⟩ := hf
        have hfile : file = some (codec.enc (getState e)) := hfile
        subst hfile
        obtain ⟨h3, h4⟩ := ih ⟨some false, e.store, Dict.empty, e.nspam, e.nham⟩
          e ⟨false, some (codec.enc (getState e))⟩ (some e)
          ⟨rfl, hu, rfl, rfl, rfl, coherent_of_empty F _ rfl, hc⟩ rfl ⟨rfl, hu, hc⟩ hls
        simp only [execPk, execSaved, runPkCall, pickleNew_of_enc codec (getState e) rfl, Option.getD_some]
        exact ⟨by rw [← h3]; rfl, h4⟩

/-- **C23**, whole histories: with the lock free and no file at first, any history
of training, scoring, store, load and reopen has the outcomes of the in-memory
classifier with a saved copy, and ends with the same totals and word counts. -/
theorem C23_history (F : FloatOps K) (codec : Codec B W) (calls : List (PkCall W))
    (hls : LoadsStored false calls) :
    let r := execPk F codec (pickleNew codec ⟨false, none⟩).2 ⟨false, none⟩ calls
    let m := execSaved F (Clf.new false Dict.empty) none calls
    r.1 = m.1 ∧ r.2.1.nspam = m.2.nspam ∧ r.2.1.nham = m.2.nham ∧
      ∀ w, r.2.1.store.get? w = m.2.store.get? w := by
  intro r m
  obtain ⟨h1, h2⟩ := execPk_saved F codec calls (Clf.new false Dict.empty) (Clf.new false Dict.empty)
    ⟨false, none⟩ none ⟨rfl, rfl, rfl, rfl, rfl, coherent_of_empty F _ rfl, coherent_of_empty F _ rfl⟩
    rfl rfl hls
  exact ⟨h1, h2.nspam, h2.nham, fun w => by rw [← h2.store]; rfl⟩

/-- **C23.** Nothing of what a method returns or raises is left out of the outcomes: calls
with the same outcome return the same score and the same evidence. -/
theorem C23_outcomes {σ : Type} (F : FloatOps K) (Bk Bk' : Backend σ W) (c c' : Clf σ K) (it it' : SetIter W)
    (s s' : Stream W) (ev ev' b b' : Bool) (r r' : WordInfo) :
    ((runCall F Bk c (.spamprob it s ev)).1 = (runCall F Bk' c' (.spamprob it' s' ev')).1 ↔
      (spamprob F Bk it s ev c).1 = (spamprob F Bk' it' s' ev' c').1) ∧
    ((runCall F Bk c (.probability r : Call W)).1 = (runCall F Bk' c' (.probability r')).1 ↔
      (probability F r c).1 = (probability F r' c').1) ∧
    ((runCall F Bk c (.learn it s b)).1 = (runCall F Bk' c' (.learn it' s' b')).1 ↔
      (learn Bk it s b c).1 = (learn Bk' it' s' b' c').1) ∧
    ((runCall F Bk c (.unlearn it s b)).1 = (runCall F Bk' c' (.unlearn it' s' b')).1 ↔
      (unlearn Bk it s b c).1 = (unlearn Bk' it' s' b' c').1) := by
  have h1 : ∀ a a' : Except Err (K × Option (List (EvWord W × K))),
      Outcome.ofScore a = Outcome.ofScore a' ↔ a = a' := by
    rintro (a | ⟨a, x⟩) (a' | ⟨a', x'⟩) <;> simp [Outcome.ofScore]
  have h2 : ∀ a a' : Except Err K, (Outcome.ofProb a : Outcome W K) = Outcome.ofProb a' ↔ a = a' := by
    rintro (a | a) (a' | a') <;> simp [Outcome.ofProb]
  have h3 : ∀ a a' : Except Err Unit, (Outcome.ofUnit a : Outcome W K) = Outcome.ofUnit a' ↔ a = a' := by
    rintro (a | a) (a' | a') <;> simp [Outcome.ofUnit]
  exact ⟨h1 _ _, h2 _ _, h3 _ _, h3 _ _⟩

/-- A codec exists: the identity. -/
def idCodec (W : Type) : Codec (PState W) W := ⟨id, fun st => .ok (.clf st), fun _ => rfl⟩

example : LoadsStored false ([.base (.learn .dedup (.list ["a"]) true), .store,
    .base (.unlearn .dedup (.list ["a"]) true), .load, .reopen] : List (PkCall String)) :=
  ⟨rfl, trivial⟩

/-! ### C26 -/

/-- **C26**, the full claim: constructing a PickleClassifier on a file that holds
a stored classifier yields its totals, or raises. -/
def C26Claim (K : Type) (codec : Codec B W) : Prop :=
  ∀ (st : PState W) (locked : Bool) (c : Clf (Dict W WordInfo) K),
    pickleNew codec ⟨locked, some (codec.enc st)⟩ = (.ok (), c) →
    c.nspam = st.nspam ∧ c.nham = st.nham ∧ ∀ w, c.store.get? w = st.wordinfo.get? w

/-- **C26** is false, with every pickle format, even for files this very version
stored: while the lock is held the new object is silently empty. -/
theorem C26_claim_false (codec : Codec B W) : ¬ C26Claim K codec := by
  intro h
  have := (h ⟨5, Dict.empty, 7, 3⟩ true (Clf.new false Dict.empty) rfl).1
  simp [Clf.new] at this

/-- **C26**, consequence: the next store replaces the data by the empty
classifier. -/
theorem C26_next_store_destroys (codec : Codec B W) (st : PState W) :
    let c : Clf (Dict W WordInfo) K := (pickleNew codec ⟨true, some (codec.enc st)⟩).2
    pickleStore codec c ⟨false, some (codec.enc st)⟩ =
      (.ok (), ⟨false, some (codec.enc ⟨5, Dict.empty, 0, 0⟩)⟩) := rfl

/-- **C26**, a file of another version also counts as new. -/
theorem C26_other_version (codec : Codec B W) (st : PState W) (hv : st.version ≠ 5) (locked : Bool) :
    (pickleNew codec ⟨locked, some (codec.enc st)⟩ : _ × Clf (Dict W WordInfo) K) =
      (.ok (), Clf.new false Dict.empty) := by
  cases locked
  · have : st.version ≠ pickleVersion := hv
    simp [pickleNew, pickleLoad, pickleRead, codec.dec_enc, unpickle, setState, this, Clf.new]
  · rfl

example : (⟨4, Dict.empty, 7, 3⟩ : PState String).version ≠ 5 := by decide

/-- **C26**, what load does, on an object in any state: it raises only if the file
holds an object of another class; it takes over the stored classifier exactly if
the lock was free, the file existed, could be decoded and had version 5; in every
other case it silently empties the object. -/
theorem C26_load_outcome_partial (codec : Codec B W) (disk : Disk B) (c : Clf (Dict W WordInfo) K) :
    ((∃ b st, disk = ⟨false, some b⟩ ∧ codec.dec b = .ok (.clf st) ∧ st.version = 5 ∧
        pickleLoad codec disk c = (.ok (), { c with
          store := st.wordinfo
          probcache := Dict.empty
          nspam := st.nspam
          nham := st.nham })) ∨
     (∃ b e, disk = ⟨false, some b⟩ ∧ codec.dec b = .ok (.other e) ∧
        pickleLoad codec disk c = (.error e, c)) ∨
     ((disk.locked = true ∨ disk.file = none ∨ (∃ b e, disk.file = some b ∧ codec.dec b = .error e) ∨
        (∃ b st, disk.file = some b ∧ codec.dec b = .ok (.clf st) ∧ st.version ≠ 5)) ∧
      pickleLoad codec disk c = (.ok (), { c with store := Dict.empty, nspam := 0, nham := 0 }))) := by
  obtain ⟨lk, file⟩ := disk
  cases lk with
  | true => exact .inr (.inr ⟨.inl rfl, rfl⟩)
  | false =>
    cases file with
    | none => exact .inr (.inr ⟨.inr (.inl rfl), rfl⟩)
    | some b =>
      cases hd : codec.dec b with
      | error e =>
        refine .inr (.inr ⟨.inr (.inr (.inl ⟨b, e, rfl, hd⟩)), ?_⟩)
        simp [pickleLoad, pickleRead, hd]
      | ok o =>
        cases o with
        | other e =>
          refine .inr (.inl ⟨b, e, rfl, hd, ?_⟩)
          simp [pickleLoad, pickleRead, hd]
        | clf st =>
          by_cases hv : st.version = 5
          · refine .inl ⟨b, st, rfl, hd, hv, ?_⟩
            simp [pickleLoad, pickleRead, hd, unpickle, setState, pickleVersion, getState, hv]
          · refine .inr (.inr ⟨.inr (.inr (.inr ⟨b, st, rfl, hd, hv⟩)), ?_⟩)
            have : st.version ≠ pickleVersion := hv
            simp [pickleLoad, pickleRead, hd, unpickle, setState, this]

/-! ### C27 -/

/-- **C27**, the full claim: a classifier that went through pickle and back
supports training and scoring like the original. -/
def C27Claim (F : FloatOps K) (W : Type) [LinearOrder W] [BigramFormat W] : Prop :=
  ∀ (ub : Bool) (calls : List (Call W)) (c' : Clf (Dict W WordInfo) K) (call : Call W),
    unpickle (getState (after F ub calls)) = .ok c' →
    (runCall F (memory W) c' call).1 = (runCall F (memory W) (after F ub calls) call).1

/-- **C27**, what holds: unpickling succeeds, and the copy has the totals, the word
counts and the word probabilities of the original. -/
theorem C27_counts_survive_partial (F : FloatOps K) (ub : Bool) (calls : List (Call W)) :
    let c := after F ub calls
    ∃ c', unpickle (getState c) = .ok c' ∧ c'.nspam = c.nspam ∧ c'.nham = c.nham ∧
      (∀ w, c'.store.get? w = c.store.get? w) ∧
      ∀ r, (probability F r c').1 = (probability F r c).1 := by
  intro c
  obtain ⟨hs, hk, hub⟩ := after_ok F ub calls
  refine ⟨⟨none, c.store, Dict.empty, c.nspam, c.nham⟩, ?_, rfl, rfl, fun _ => rfl, ?_⟩
  · simp [unpickle, setState, getState, pickleVersion]
  · intro r
    rw [(computes_probability (F := F) (Inv := fun _ => True) r c ⟨hk, trivial, rfl, rfl, rfl⟩).1,
      (computes_probability (F := F) (Inv := fun _ => True) r _
        ⟨coherent_of_empty F _ rfl, trivial, rfl, rfl, rfl⟩).1]

/-- **C27**, what fails: on every unpickled classifier, learn, unlearn and spamprob
raise AttributeError, whatever the message, and change nothing. -/
theorem C27_unusable (F : FloatOps K) (st : PState W) (c' : Clf (Dict W WordInfo) K)
    (h : unpickle st = .ok c') (it : SetIter W) (s : Stream W) (b : Bool) :
    learn (memory W) it s b c' = (.error .attributeError, c') ∧
    unlearn (memory W) it s b c' = (.error .attributeError, c') ∧
    spamprob F (memory W) it s b c' = (.error .attributeError, c') := by
  have hub : c'.useBigrams = none := by
    unfold unpickle setState at h
    split at h
    · rename_i he
      split at he
      · cases he
      · cases h; cases he; rfl
    · cases h
  refine ⟨?_, ?_, ?_⟩
  · unfold learn
    rw [M.bind_run_ok (M.get_run _), hub]; rfl
  · unfold unlearn
    rw [M.bind_run_ok (M.get_run _), hub]; rfl
  · have : getClues F (memory W) it s c' = (.error .attributeError, c') := by
      unfold getClues
      rw [M.bind_run_ok (M.get_run _), hub]; rfl
    unfold spamprob
    exact M.bind_run_error this

example : ∃ c', (unpickle (getState (demo ℝ)) : Except Err (Clf (Dict String WordInfo) ℝ)) = .ok c' :=
  ⟨_, rfl⟩

/-- **C27** is false. -/
theorem C27_claim_false (F : FloatOps K) : ¬ C27Claim F W := by
  intro h
  have h1 := h false [] ⟨none, Dict.empty, Dict.empty, 0, 0⟩
    (.learn ⟨fun ws => ws.dedup, List.nodup_dedup, fun _ _ => List.mem_dedup⟩ (.list []) true) rfl
  have h2 := (C27_unusable F (getState (after F false ([] : List (Call W)))) ⟨none, Dict.empty, Dict.empty, 0, 0⟩ rfl
    ⟨fun ws => ws.dedup, List.nodup_dedup, fun _ _ => List.mem_dedup⟩ (.list []) true).1
  simp only [runCall] at h1
  rw [h2, learn_memory (ub := false) _ _ _ _ rfl] at h1
  cases h1

/-- **C27**, a tuple of another version is refused with ValueError. -/
theorem C27_version (st : PState W) (hv : st.version ≠ 5) :
    (unpickle st : Except Err (Clf (Dict W WordInfo) K)) = .error .valueError := by
  have : st.version ≠ pickleVersion := hv
  simp [unpickle, setState, this]

end
end Sb.Props
