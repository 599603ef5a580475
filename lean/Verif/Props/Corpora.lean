import Verif.Model.Corpora
import Verif.Props.Caches
import Verif.Py.SetIter

/-
Properties C47, C48 and C69 of Corpus.
-/

set_option linter.unusedSectionVars false

namespace Sb.Props
open Sb.Corpora Py Mail

section
variable {ν σ R : Type} (O : MailOps ν)

/-- The corpus an operation is called on. -/
def opCorpus : Op ν R → Corpus
  | .add _ c _ _ _ => c
  | .remove _ c _ _ => c

/-- What an operation asks of a cache of the corpus. -/
def opCall : Op ν R → CacheCall Key ν
  | .add _ _ m i _ => .put (match i with
      | some k => some k
      | none => O.id m) m
  | .remove _ _ m _ => .pop (O.id m)

/-- The calls a cache gets, in order. -/
def callsOn (i : Nat) (ops : List (Op ν R)) : List (CacheCall Key ν) :=
  (ops.filter (fun op => (opCorpus op).cache = i)).map (opCall O)

/-- The step on the caches alone. -/
def cacheStep : Op ν R → M (World ν σ) Unit
  | .add _ c m i _ => cachePut O c.cache (keyOf O m i) m
  | .remove _ c m _ => cachePop c.cache (O.id m)

def opEmit : Op ν R → Bool
  | .add _ _ _ _ e => e
  | .remove _ _ _ e => e

/-- The signal sent by an operation. -/
def opSend (run : R → Observer ν σ) (S : Signals R) : Op ν R → M (World ν σ) Unit
  | .add it c m _ _ => send it run S.added c m
  | .remove it c m _ => send it run S.removed c m

theorem runOp_eq (run : R → Observer ν σ) (S : Signals R) (op : Op ν R) (w : World ν σ) :
    runOp O run S op w =
      match cacheStep O op w with
      | (.ok _, w') => if opEmit op then opSend run S op w' else (.ok (), w')
      | (.error e, w') => (.error e, w') := by
  cases op with
  | add it c m i e =>
    simp only [runOp, addMessage, cacheStep, opEmit, opSend, M.bind_run]
    split <;> rename_i h <;> rw [h] <;> cases e <;> rfl
  | remove it c m e =>
    simp only [runOp, removeMessage, cacheStep, opEmit, opSend, M.bind_run]
    split <;> rename_i h <;> rw [h] <;> cases e <;> rfl

theorem forEach_caches (run : R → Observer ν σ) (c : Corpus) (m : ν) (l : List R) (w : World ν σ) :
    (M.forEach (callReceiver run c m) l w).2.heap = w.heap ∧
    (M.forEach (callReceiver run c m) l w).2.fs = w.fs := by
  induction l generalizing w with
  | nil => exact ⟨rfl, rfl⟩
  | cons r t ih =>
    simp only [M.forEach_cons, M.bind_run]
    cases h : callReceiver run c m r w with
    | mk x w' =>
      have hw : w'.heap = w.heap ∧ w'.fs = w.fs := by
        unfold callReceiver at h
        cases hh : run r c m w.user with
        | mk a b => rw [hh] at h; cases h; exact ⟨rfl, rfl⟩
      cases x with
      | ok _ => exact ⟨(ih w').1.trans hw.1, (ih w').2.trans hw.2⟩
      | error e => exact hw

theorem opSend_caches (run : R → Observer ν σ) (S : Signals R) (op : Op ν R) (w : World ν σ) :
    (opSend run S op w).2.heap = w.heap ∧ (opSend run S op w).2.fs = w.fs := by
  cases op <;> exact forEach_caches run _ _ _ w

theorem runOp_caches (run : R → Observer ν σ) (S : Signals R) (op : Op ν R) (w : World ν σ) :
    (runOp O run S op w).2.heap = (cacheStep O op w).2.heap ∧
    (runOp O run S op w).2.fs = (cacheStep O op w).2.fs := by
  rw [runOp_eq]
  cases h : cacheStep O op w with
  | mk x w' =>
    cases x with
    | error e => exact ⟨rfl, rfl⟩
    | ok u =>
      simp only
      cases opEmit op
      · exact ⟨rfl, rfl⟩
      · exact opSend_caches run S op w'

/-- The caches and the files after a step depend on the caches and files before. -/
theorem cacheStep_caches {σ' : Type} (op : Op ν R) (w : World ν σ) (w' : World ν σ')
    (hh : w.heap = w'.heap) (hf : w.fs = w'.fs) :
    (cacheStep O op w).2.heap = (cacheStep O op w').2.heap ∧
    (cacheStep O op w).2.fs = (cacheStep O op w').2.fs := by
  obtain ⟨heap, fs, u⟩ := w
  obtain ⟨heap', fs', u'⟩ := w'
  cases hh; cases hf
  cases op with
  | add it c m i e =>
    simp only [cacheStep, cachePut]
    cases h : heap[c.cache]? with
    | none => exact ⟨rfl, rfl⟩
    | some o =>
      cases o with
      | naive n => exact ⟨rfl, rfl⟩
      | file f => exact ⟨rfl, rfl⟩
  | remove it c m e =>
    simp only [cacheStep, cachePop]
    cases h : heap[c.cache]? with
    | none => exact ⟨rfl, rfl⟩
    | some o =>
      cases o with
      | naive n => exact ⟨rfl, rfl⟩
      | file f =>
        simp only
        cases hp : FileCache.pop (O.id m) (f, fs) with
        | mk x y => cases x <;> exact ⟨rfl, rfl⟩

/-! ### C48 -/

/-- **C48.** Observers cannot disturb a corpus: whatever observers there are, and even
if they raise, the caches and files after a sequence of calls are the same. -/
theorem C48_observers_cannot_disturb {σ' : Type} (run : R → Observer ν σ) (S : Signals R)
    (run' : R → Observer ν σ') (S' : Signals R) (ops : List (Op ν R)) (w : World ν σ) (w' : World ν σ')
    (hh : w.heap = w'.heap) (hf : w.fs = w'.fs) :
    (runOps O run S ops w).heap = (runOps O run' S' ops w').heap ∧
    (runOps O run S ops w).fs = (runOps O run' S' ops w').fs := by
  induction ops generalizing w w' with
  | nil => exact ⟨hh, hf⟩
  | cons op r ih =>
    have h1 := runOp_caches O run S op w
    have h2 := runOp_caches O run' S' op w'
    have h3 := cacheStep_caches O op w w' hh hf
    exact ih _ _ (h1.1.trans (h3.1.trans h2.1.symm)) (h1.2.trans (h3.2.trans h2.2.symm))

/-- A signal is sent only if the change was made: if the cache raises, the observers
hear nothing; otherwise they do, if they are to. -/
theorem C48_signal_after_change (run : R → Observer ν σ) (S : Signals R) (it : SetIter R) (c : Corpus)
    (m : ν) (i : Option Txt) (e : Bool) (w : World ν σ) :
    (∀ err w', cachePut O c.cache (keyOf O m i) m w = (.error err, w') →
      addMessage O it run S c m i e w = (.error err, w')) ∧
    (∀ err w', cachePop c.cache (O.id m) w = (.error err, w') →
      removeMessage O it run S c m e w = (.error err, w')) ∧
    (∀ w', cachePut O c.cache (keyOf O m i) m w = (.ok (), w') →
      addMessage O it run S c m i true w = send it run S.added c m w' ∧
      addMessage O it run S c m i false w = (.ok (), w')) ∧
    (∀ w', cachePop c.cache (O.id m) w = (.ok (), w') →
      removeMessage O it run S c m true w = send it run S.removed c m w' ∧
      removeMessage O it run S c m false w = (.ok (), w')) :=
  ⟨fun _ _ h => M.bind_run_error h, fun _ _ h => M.bind_run_error h,
   fun _ h => ⟨M.bind_run_ok h, M.bind_run_ok h⟩, fun _ h => ⟨M.bind_run_ok h, M.bind_run_ok h⟩⟩

/-- An observer that writes down what it hears. -/
def logging : R → Observer ν (List (R × Corpus × ν)) := fun r c m l => (.ok (), l ++ [(r, c, m)])

/-- All caches are in memory. -/
def InMemory (w : World ν σ) : Prop := ∀ o ∈ w.heap, ∃ n, o = .naive n

theorem cacheStep_inMemory (op : Op ν R) (w : World ν σ) (h : InMemory w) :
    (cacheStep O op w).1 = .ok () ∧ InMemory (cacheStep O op w).2 ∧
    (cacheStep O op w).2.user = w.user := by
  have hset : ∀ (i : Nat) (n : Naive Key ν), InMemory { w with heap := w.heap.set i (.naive n) } := by
    intro i n o ho
    rcases List.mem_or_eq_of_mem_set ho with h' | h'
    · exact h o h'
    · exact ⟨n, h'⟩
  cases op with
  | add it c m i e =>
    simp only [cacheStep, cachePut]
    cases hc : w.heap[c.cache]? with
    | none => exact ⟨rfl, h, rfl⟩
    | some o =>
      obtain ⟨n, rfl⟩ := h o (List.mem_of_getElem? hc)
      exact ⟨rfl, hset _ _, rfl⟩
  | remove it c m e =>
    simp only [cacheStep, cachePop]
    cases hc : w.heap[c.cache]? with
    | none => exact ⟨rfl, h, rfl⟩
    | some o =>
      obtain ⟨n, rfl⟩ := h o (List.mem_of_getElem? hc)
      exact ⟨rfl, hset _ _, rfl⟩

theorem forEach_logging (c : Corpus) (m : ν) (l : List R) (w : World ν (List (R × Corpus × ν))) :
    M.forEach (callReceiver logging c m) l w =
      (.ok (), { w with user := w.user ++ l.map (fun r => (r, c, m)) }) := by
  induction l generalizing w with
  | nil => simp
  | cons r t ih =>
    have h1 : callReceiver logging c m r w = (.ok (), { w with user := w.user ++ [(r, c, m)] }) := rfl
    rw [M.forEach_cons, M.bind_run_ok h1, ih]
    simp

variable [DecidableEq R]

/-- What one operation tells the observer `r`. -/
def heard (S : Signals R) (r : R) : Op ν R → Option (R × Corpus × ν)
  | .add _ c m _ e => if e ∧ ((r, none) ∈ S.added ∨ (r, some c) ∈ S.added) then some (r, c, m) else none
  | .remove _ c m e => if e ∧ ((r, none) ∈ S.removed ∨ (r, some c) ∈ S.removed) then some (r, c, m) else none

theorem filter_receivers (it : SetIter R) (reg : Registry R) (c : Corpus) (m : ν) (r : R) :
    ((it.order (receiversFor reg c)).map (fun r => (r, c, m))).filter (fun e => e.1 = r) =
      if (r, none) ∈ reg ∨ (r, some c) ∈ reg then [(r, c, m)] else [] := by
  have hnd := it.nodup (receiversFor reg c)
  have hmem : r ∈ it.order (receiversFor reg c) ↔ ((r, none) ∈ reg ∨ (r, some c) ∈ reg) := by
    rw [it.mem, receiversFor, List.mem_map]
    constructor
    · rintro ⟨⟨a, b⟩, h, rfl⟩
      simp only [List.mem_filter, decide_eq_true_eq] at h
      rcases h.2 with h2 | h2
      · left; rw [← h2]; exact h.1
      · right; rw [← h2]; exact h.1
    · rintro (h | h)
      · exact ⟨(r, none), by simp [h], rfl⟩
      · exact ⟨(r, some c), by simp [h], rfl⟩
  generalize it.order (receiversFor reg c) = l at hnd hmem
  simp only [← hmem]
  clear hmem
  induction l with
  | nil => simp
  | cons a t ih =>
    simp only [List.nodup_cons] at hnd
    have ih := ih hnd.2
    by_cases ha : a = r
    · subst ha
      simp only [List.map_cons, List.filter_cons, decide_true, if_true, ih, if_neg hnd.1, List.mem_cons,
        true_or]
    · simp only [List.map_cons, List.filter_cons, ha, decide_false, Bool.false_eq_true, if_false, ih,
        List.mem_cons, Ne.symm ha, false_or]

/-- **C48.** Every observer hears of every change with emit_signal=True of a corpus it
is connected to (or of any corpus, if it is connected to all) exactly once, in the
order of the calls, and of nothing else. -/
theorem C48_each_once (S : Signals R) (ops : List (Op ν R)) (w : World ν (List (R × Corpus × ν)))
    (h : InMemory w) (r : R) :
    (runOps O logging S ops w).user.filter (fun e => e.1 = r) =
      w.user.filter (fun e => e.1 = r) ++ ops.filterMap (heard S r) := by
  induction ops generalizing w with
  | nil => simp [runOps]
  | cons op t ih =>
    obtain ⟨h1, h2, h3⟩ := cacheStep_inMemory O op w h
    have step : InMemory (runOp O logging S op w).2 ∧
        (runOp O logging S op w).2.user.filter (fun e => e.1 = r) =
          w.user.filter (fun e => e.1 = r) ++ (heard S r op).toList := by
      constructor
      · intro o ho
        rw [(runOp_caches O logging S op w).1] at ho
        exact h2 o ho
      · rw [runOp_eq]
        cases hc : cacheStep O op w with
        | mk x w' =>
          rw [hc] at h1 h3
          simp only at h1 h3
          subst h1
          simp only
          cases op with
          | add it c m i e =>
            cases e
            · simp [opEmit, heard, h3]
            · simp only [opEmit, if_true, opSend, send, forEach_logging, List.filter_append, h3,
                filter_receivers, heard, true_and]
              split <;> rfl
          | remove it c m e =>
            cases e
            · simp [opEmit, heard, h3]
            · simp only [opEmit, if_true, opSend, send, forEach_logging, List.filter_append, h3,
                filter_receivers, heard, true_and]
              split <;> rfl
    refine (ih _ step.1).trans ?_
    rw [step.2, List.append_assoc, List.filterMap_cons]
    cases heard S r op <;> rfl

end

section
variable {ν σ R : Type} (O : MailOps ν)

theorem cacheStep_naive (op : Op ν R) (w : World ν σ) (i : Nat) (n : Naive Key ν)
    (h : w.heap[i]? = some (.naive n)) :
    (cacheStep O op w).2.heap[i]? =
      some (.naive (if (opCorpus op).cache = i then cacheCall n (opCall O op) else n)) := by
  have hlt : i < w.heap.length := (List.getElem?_eq_some_iff.1 h).1
  have other : ∀ (j : Nat) (o : CacheObj ν), j ≠ i → (w.heap.set j o)[i]? = some (.naive n) := by
    intro j o hj
    rw [List.getElem?_set_ne hj, h]
  cases op with
  | add it c m k e =>
    have hk : keyOf O m k = (match k with
      | some k => some k
      | none => O.id m) := by cases k <;> rfl
    simp only [cacheStep, cachePut, opCorpus, opCall]
    rw [hk]
    by_cases hc : c.cache = i
    · simp only [hc, h, if_true, cacheCall, List.getElem?_set_self hlt]
    · simp only [hc, if_false]
      cases ho : w.heap[c.cache]? with
      | none => exact h
      | some o =>
        cases o with
        | naive _ => exact other _ _ hc
        | file f => exact other _ _ hc
  | remove it c m e =>
    simp only [cacheStep, cachePop, opCorpus, opCall]
    by_cases hc : c.cache = i
    · simp only [hc, h, if_true, cacheCall, List.getElem?_set_self hlt]
    · simp only [hc, if_false]
      cases ho : w.heap[c.cache]? with
      | none => exact h
      | some o =>
        cases o with
        | naive _ => exact other _ _ hc
        | file f =>
          simp only
          cases hp : FileCache.pop (O.id m) (f, w.fs) with
          | mk x y => cases x <;> exact other _ _ hc

/-- A cache in memory gets the calls of the operations on its corpora, and no others. -/
theorem runOps_naive (run : R → Observer ν σ) (S : Signals R) (ops : List (Op ν R)) (w : World ν σ)
    (i : Nat) (n : Naive Key ν) (h : w.heap[i]? = some (.naive n)) :
    (runOps O run S ops w).heap[i]? = some (.naive (cacheCalls (callsOn O i ops) n)) := by
  induction ops generalizing w n with
  | nil => exact h
  | cons op t ih =>
    have h1 := cacheStep_naive O op w i n h
    rw [← (runOp_caches O run S op w).1] at h1
    refine (ih _ _ h1).trans ?_
    by_cases hc : (opCorpus op).cache = i
    · simp [callsOn, hc, cacheCalls]
    · simp [callsOn, hc]

/-- What a corpus holds under a key after some operations: the message last added
under it, unless it was removed since.  Corpora that share the cache count. -/
def lastOp (c : Corpus) (key : Key) : List (Op ν R) → Option ν → Option ν
  | [], o => o
  | .add _ c' m i _ :: r, o =>
    lastOp c key r (if c'.cache = c.cache ∧ (i.orElse fun _ => O.id m) = key then some m else o)
  | .remove _ c' m _ :: r, o =>
    lastOp c key r (if c'.cache = c.cache ∧ O.id m = key then none else o)

theorem lastCall_callsOn (c : Corpus) (key : Key) (ops : List (Op ν R)) (o : Option ν) :
    lastCall key (callsOn O c.cache ops) o = lastOp O c key ops o := by
  induction ops generalizing o with
  | nil => rfl
  | cons op r ih =>
    cases op with
    | add it c' m i e =>
      simp only [lastOp, ← ih]
      have hi : (i.orElse fun _ => O.id m) = (match i with
        | some k => some k
        | none => O.id m) := by cases i <;> rfl
      rw [hi]
      by_cases hc : c'.cache = c.cache
      · simp only [callsOn, List.filter_cons, opCorpus, hc, decide_true, if_true, List.map_cons, opCall,
          lastCall, true_and]
      · simp [callsOn, opCorpus, hc]
    | remove it c' m e =>
      simp only [lastOp, ← ih]
      by_cases hc : c'.cache = c.cache
      · simp only [callsOn, List.filter_cons, opCorpus, hc, decide_true, if_true, List.map_cons, opCall,
          lastCall, true_and]
      · simp [callsOn, opCorpus, hc]

theorem unbounded_get (run : R → Observer ν σ) (S : Signals R) (ops : List (Op ν R)) (w : World ν σ)
    (c : Corpus) (h : w.heap[c.cache]? = some (.naive (.new none))) (key : Key) :
    corpusGet O c (runOps O run S ops w) key = .ok (lastOp O c key ops none) := by
  simp only [corpusGet, runOps_naive O run S ops w _ _ h]
  rw [(C46_unbounded_is_dict _ key).1, lastCall_callsOn]

/-- **C48.** A new corpus is a dictionary: `get` gives the message last added under the
key and not removed since, whatever the observers do. -/
theorem C48_get (run : R → Observer ν σ) (S : Signals R) (obj : Nat) (w : World ν σ) (ops : List (Op ν R))
    (key : Key) :
    corpusGet O (newCorpus obj none w).1 (runOps O run S ops (newCorpus obj none w).2) key =
      .ok (lastOp O (newCorpus obj none w).1 key ops none) := by
  refine unbounded_get O run S ops _ _ ?_ key
  simp [newCorpus]

/-! ### C47 -/

/-- The claim: a corpus respects the bound of the cache it is given. -/
def C47Claim : Prop :=
  ∀ (O : MailOps (Option Txt × List Nat)) (w : World (Option Txt × List Nat) Unit) (i : Nat) (n : Int)
    (calls : List (CacheCall Key (Option Txt × List Nat))) (ops : List (Op (Option Txt × List Nat) Unit)),
    w.heap[i]? = some (.naive (cacheCalls calls (.new (some n)))) →
    corpusLen (newCorpus 0 (some i) w).1
      (runOps O (fun _ _ _ => pure ()) ⟨[], []⟩ ops (newCorpus 0 (some i) w).2) ≤ n.toNat

/-- **C47**, true part: a cache that is not empty is used, and its bound respected. -/
theorem C47_bounded_partial (run : R → Observer ν σ) (S : Signals R) (obj : Nat) (w : World ν σ) (i : Nat)
    (n : Int) (calls : List (CacheCall Key ν)) (ops : List (Op ν R))
    (h : w.heap[i]? = some (.naive (cacheCalls calls (.new (some n)))))
    (hne : (cacheCalls calls (.new (some n) : Naive Key ν)).len ≠ 0) :
    newCorpus obj (some i) w = (⟨obj, i⟩, w) ∧
    corpusLen ⟨obj, i⟩ (runOps O run S ops w) ≤ n.toNat ∧
    (runOps O run S ops w).heap[i]? =
      some (.naive (cacheCalls (calls ++ callsOn O i ops) (.new (some n)))) := by
  have h1 := runOps_naive O run S ops w i _ h
  have h2 : cacheCalls (callsOn O i ops) (cacheCalls calls (.new (some n) : Naive Key ν)) =
      cacheCalls (calls ++ callsOn O i ops) (.new (some n)) := by
    simp [cacheCalls]
  rw [h2] at h1
  refine ⟨by simp [newCorpus, h, CacheObj.len, hne], ?_, h1⟩
  simp only [corpusLen, h1, CacheObj.len]
  exact C45_bounded n _

/-- An empty cache is not used: it never changes, and the corpus is an unbounded
dictionary. -/
theorem C47_empty_replaced (run : R → Observer ν σ) (S : Signals R) (obj : Nat) (w : World ν σ) (i : Nat)
    (n : Naive Key ν) (ops : List (Op ν R)) (h : w.heap[i]? = some (.naive n)) (he : n.len = 0)
    (hops : ∀ op ∈ ops, opCorpus op = (newCorpus obj (some i) w).1) (key : Key) :
    (runOps O run S ops (newCorpus obj (some i) w).2).heap[i]? = some (.naive n) ∧
    corpusGet O (newCorpus obj (some i) w).1 (runOps O run S ops (newCorpus obj (some i) w).2) key =
      .ok (lastOp O (newCorpus obj (some i) w).1 key ops none) := by
  have hlt : i < w.heap.length := (List.getElem?_eq_some_iff.1 h).1
  have hnew : newCorpus obj (some i) w =
      (⟨obj, w.heap.length⟩, { w with heap := w.heap ++ [.naive (.new none)] }) := by
    simp [newCorpus, h, CacheObj.len, he]
  rw [hnew] at hops ⊢
  constructor
  · have h1 : (w.heap ++ [CacheObj.naive (.new none)])[i]? = some (.naive n) := by
      rw [List.getElem?_append_left hlt, h]
    rw [runOps_naive O run S ops { w with heap := w.heap ++ [.naive (.new none)] } i n h1]
    have : callsOn O i ops = [] := by
      rw [callsOn, List.map_eq_nil_iff, List.filter_eq_nil_iff]
      intro op hop
      rw [hops op hop]
      simp
      omega
    rw [this]
    rfl
  · exact unbounded_get O run S ops _ _ (by simp) key

/-- Messages for the examples: an id and some bytes. -/
def sampleMail : MailOps (Option Txt × List Nat) where
  id m := m.1
  bytes m := .ok m.2
  parse b k := (k, b)
  parse_id _ _ := rfl

/-- **C47** is false for an empty cache: a corpus with a cache of size one holds two
messages. -/
theorem C47_claim_false : ¬ C47Claim := by
  intro h
  have := h sampleMail ⟨[.naive (.new (some 1))], Dict.empty, ()⟩ 0 1 []
    [.add .dedup ⟨0, 1⟩ (some [5], []) none true, .add .dedup ⟨0, 1⟩ (some [6], []) none true] rfl
  revert this
  decide

example : (cacheCalls [.put none 1] (.new (some 2)) : Naive Key Nat).len ≠ 0 := by decide

/-- The theorem on observers, in a case: the observer 7 is connected to the first of
two corpora, and hears of one of three changes. -/
example : (runOps sampleMail logging ⟨[(7, some ⟨0, 0⟩)], []⟩
    [.add .dedup ⟨0, 0⟩ (some [1], [2]) none true, .add .dedup ⟨1, 1⟩ (some [1], [3]) none true,
      .add .dedup ⟨0, 0⟩ (some [1], [4]) none false]
    ⟨[.naive (.new none), .naive (.new none)], Dict.empty, []⟩).user = [(7, ⟨0, 0⟩, (some [1], [2]))] := by
  decide

/-! ### C69 -/

/-- The claim: a corpus gives its contents as a dictionary does, with `items()` too. -/
def C69Claim : Prop :=
  ∀ (O : MailOps (Option Txt × List Nat)) (w : World (Option Txt × List Nat) Unit) (c : Corpus) (k : Key)
    (v : Option Txt × List Nat),
    ∃ l, corpusItems c w = .ok l ∧ ((k, v) ∈ l ↔ corpusGet O c w k = .ok (some v))

/-- **C69**, true part: for a corpus in memory, in any state, the keys are different,
`len` counts them, `in` and `get` and `[]` agree with them, and the values are the
messages under the keys in the same order. -/
theorem C69_mapping_partial (w : World ν σ) (c : Corpus) (b : Option Int) (calls : List (CacheCall Key ν))
    (h : w.heap[c.cache]? = some (.naive (cacheCalls calls (.new b)))) (k : Key) (v : ν) :
    (corpusKeys c w).Nodup ∧
    corpusLen c w = (corpusKeys c w).length ∧
    (corpusContains c w k = true ↔ k ∈ corpusKeys c w) ∧
    (k ∈ corpusKeys c w ↔ ∃ m, corpusGet O c w k = .ok (some m)) ∧
    (corpusGet O c w k = .ok (some v) ↔ corpusGetItem O c w k = .ok v) ∧
    (k ∉ corpusKeys c w ↔ corpusGetItem O c w k = .error .keyError) ∧
    (k ∉ corpusKeys c w ↔ corpusGet O c w k = .ok none) ∧
    (corpusKeys c w).map (corpusGetItem O c w) = (corpusValues O c w).1.map .ok ∧
    (corpusValues O c w).2 = none := by
  have hnd : (cacheCalls calls (.new b) : Naive Key ν).data.Nodup := ((cacheInv_new b).calls calls).nodup
  generalize cacheCalls calls (.new b) = n at h hnd
  simp only [corpusKeys, corpusLen, corpusContains, corpusGet, corpusGetItem, corpusValues, h]
  refine ⟨hnd, by simp [CacheObj.len, Naive.len, Dict.size, Dict.keys], by simp, ?_, ?_, ?_, ?_, ?_, trivial⟩
  · rw [Dict.mem_keys_iff]; simp [Naive.get]
  · unfold Naive.get Naive.getItem; cases n.data.get? k <;> simp
  · rw [← Dict.get?_eq_none_iff]; unfold Naive.getItem; cases n.data.get? k <;> simp
  · rw [← Dict.get?_eq_none_iff]; simp [Naive.get]
  · simp only [Dict.keys, Dict.values, List.map_map]
    apply List.map_congr_left
    intro e he
    have : n.data.get? e.1 = some e.2 := Dict.get?_of_mem hnd he
    simp [corpusGetItem, h, Naive.getItem, this]

/-- **C69** is false as it stands: `items()` raises AttributeError for every corpus. -/
theorem C69_claim_false : ¬ C69Claim ∧ ∀ (c : Corpus) (w : World ν σ), corpusItems c w = .error .attributeError := by
  refine ⟨?_, fun _ _ => rfl⟩
  intro h
  obtain ⟨l, hl, _⟩ := h sampleMail ⟨[], Dict.empty, ()⟩ ⟨0, 0⟩ none (none, [])
  cases hl

example : corpusKeys ⟨0, 0⟩ (⟨[.naive (cacheCalls [.put (some [1]) 'a', .put none 'b'] (.new none))], Dict.empty, ()⟩ :
    World Char Unit) = [some [1], none] := by decide

end
end Sb.Props
