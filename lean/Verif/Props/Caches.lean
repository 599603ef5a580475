import Verif.Model.Caches
import Mathlib.Data.List.Perm.Subperm
import Mathlib.Data.List.Basic

/-
Properties C45 and C46 of NaiveCache.
-/

set_option linter.unusedSectionVars false

namespace Sb.Props
open Sb.Corpora Py

variable {κ ν : Type} [DecidableEq κ]

/-- A call that changes a cache. -/
inductive CacheCall (κ ν : Type) where
  | put (k : κ) (v : ν)
  | pop (k : κ)

/-- The cache after a call. -/
def cacheCall (c : Naive κ ν) : CacheCall κ ν → Naive κ ν
  | .put k v => c.put k v
  | .pop k => (c.pop k).2

/-- The cache after a sequence of calls. -/
def cacheCalls (calls : List (CacheCall κ ν)) (c : Naive κ ν) : Naive κ ν := calls.foldl cacheCall c

/-! ### C45 -/

/-- What is true of every cache all the time. -/
structure CacheInv (c : Naive κ ν) : Prop where
  nodup : c.data.Nodup
  sub : ∀ k ∈ c.data.keys, k ∈ c.keys
  bound : ∀ n, c.maxSize = some n → c.keys.length ≤ n.toNat

theorem cacheInv_new (n : Option Int) : CacheInv (Naive.new n : Naive κ ν) where
  nodup := Dict.nodup_empty
  sub k hk := by simp [Naive.new, Dict.keys, Dict.empty] at hk
  bound n _ := by simp [Naive.new]

theorem pop_sub {c : Naive κ ν} (hs : ∀ k ∈ c.data.keys, k ∈ c.keys) (k : κ) :
    ∀ x ∈ (c.pop k).2.data.keys, x ∈ (c.pop k).2.keys := by
  intro x hx
  simp only [Naive.pop, Dict.mem_keys_erase] at hx ⊢
  exact (List.mem_erase_of_ne hx.1).2 (hs x hx.2)

theorem insert_sub {c : Naive κ ν} (hs : ∀ k ∈ c.data.keys, k ∈ c.keys) (k : κ) (v : ν) :
    ∀ x ∈ (c.insert k v).data.keys, x ∈ (c.insert k v).keys := by
  intro x hx
  simp only [Naive.insert, Dict.mem_keys_set, List.mem_append, List.mem_singleton] at hx ⊢
  rcases hx with h | h
  · exact .inr h
  · exact .inl (hs x h)

theorem CacheInv.pop {c : Naive κ ν} (h : CacheInv c) (k : κ) : CacheInv (c.pop k).2 where
  nodup := h.nodup.erase k
  sub := pop_sub h.sub k
  bound n hn := by
    have h1 := h.bound n hn
    have h2 : (c.keys.erase k).length ≤ c.keys.length := List.length_erase_le
    exact Nat.le_trans h2 h1

theorem toFlush_insert {c : Naive κ ν} {k : κ} {v : ν} {n : Int} (hn : c.maxSize = some n) :
    (c.insert k v).toFlush = if n.toNat ≤ c.keys.length then (c.keys ++ [k]).head? else none := by
  unfold Naive.toFlush Naive.tooBig
  simp only [Naive.insert, hn, List.length_append, List.length_singleton, decide_eq_true_eq]
  by_cases h : n.toNat ≤ c.keys.length
  · rw [if_pos h, if_pos (by omega)]
  · rw [if_neg h, if_neg (by omega)]

theorem toFlush_none {c : Naive κ ν} (hn : c.maxSize = none) : c.toFlush = none := by
  unfold Naive.toFlush Naive.tooBig; rw [hn]; rfl

theorem CacheInv.put {c : Naive κ ν} (h : CacheInv c) (k : κ) (v : ν) : CacheInv (c.put k v) := by
  have hnd : (c.insert k v).data.Nodup := h.nodup.set k v
  have hsub := insert_sub h.sub k v
  unfold Naive.put
  cases hm : c.maxSize with
  | none =>
    have : (c.insert k v).maxSize = none := hm
    rw [toFlush_none this]
    exact ⟨hnd, hsub, fun n hn => by rw [this] at hn; cases hn⟩
  | some n =>
    rw [toFlush_insert hm]
    have hb := h.bound n hm
    by_cases hl : n.toNat ≤ c.keys.length
    · rw [if_pos hl]
      cases hh : (c.keys ++ [k]).head? with
      | none => simp at hh
      | some a =>
        simp only
        refine ⟨hnd.erase a, pop_sub hsub a, ?_⟩
        intro n' hn'
        have hn' : some n = some n' := hm ▸ hn'
        cases hn'
        have ha : a ∈ c.keys ++ [k] := List.mem_of_head? hh
        have := List.length_erase_of_mem ha
        simp only [Naive.pop, Naive.insert, this, List.length_append, List.length_singleton]
        omega
    · rw [if_neg hl]
      refine ⟨hnd, hsub, ?_⟩
      intro n' hn'
      have hn' : some n = some n' := hm ▸ hn'
      cases hn'
      simp only [Naive.insert, List.length_append, List.length_singleton]
      omega

theorem CacheInv.calls {c : Naive κ ν} (h : CacheInv c) (calls : List (CacheCall κ ν)) :
    CacheInv (cacheCalls calls c) := by
  induction calls generalizing c with
  | nil => exact h
  | cons a r ih =>
    refine ih (c := cacheCall c a) ?_
    cases a with
    | put k v => exact h.put k v
    | pop k => exact h.pop k

theorem maxSize_put (c : Naive κ ν) (k : κ) (v : ν) : (c.put k v).maxSize = c.maxSize := by
  unfold Naive.put; split <;> rfl

theorem maxSize_calls (c : Naive κ ν) (calls : List (CacheCall κ ν)) :
    (cacheCalls calls c).maxSize = c.maxSize := by
  induction calls generalizing c with
  | nil => rfl
  | cons a r ih =>
    refine (ih (cacheCall c a)).trans ?_
    cases a with
    | put k v => exact maxSize_put c k v
    | pop k => rfl

theorem CacheInv.len_le {c : Naive κ ν} (h : CacheInv c) {n : Int} (hn : c.maxSize = some n) :
    c.len ≤ n.toNat := by
  have h1 : c.data.keys.length ≤ c.keys.length := (List.subperm_of_subset h.nodup h.sub).length_le
  have h2 : c.len = c.data.keys.length := by simp [Naive.len, Dict.size, Dict.keys]
  rw [h2]
  exact Nat.le_trans h1 (h.bound n hn)

/-- **C45.** A cache of size `n` never holds more than `n` entries (none, if `n` is
negative). -/
theorem C45_bounded (n : Int) (calls : List (CacheCall κ ν)) :
    (cacheCalls calls (.new (some n))).len ≤ n.toNat :=
  ((cacheInv_new (some n)).calls calls).len_le (by rw [maxSize_calls]; rfl)

/-- The bound is reached. -/
example : (cacheCalls [.put 1 'a', .put 2 'b', .put 3 'c', .pop 2, .put 4 'd'] (.new (some 2))).len = 2 := by
  decide

/-! ### C46 -/

/-- The last `n` elements of a list; `none` is infinity. -/
def lastOf {α : Type} (n : Option Nat) (l : List α) : List α :=
  match n with
  | none => l
  | some n => l.drop (l.length - n)

/-- What a first-in first-out cache holds after a call, oldest entry first. -/
def fifoCall (n : Option Nat) (q : List (κ × ν)) : CacheCall κ ν → List (κ × ν)
  | .put k v => lastOf n (q ++ [(k, v)])
  | .pop k => q.filter (fun e => e.1 ≠ k)

/-- What it holds after a sequence of calls. -/
def fifo (n : Option Nat) (calls : List (CacheCall κ ν)) (q : List (κ × ν)) : List (κ × ν) :=
  calls.foldl (fifoCall n) q

/-- No put uses a key that is in the cache at that time. -/
def FreshPuts (n : Option Nat) : List (CacheCall κ ν) → List (κ × ν) → Prop
  | [], _ => True
  | .put k v :: r, q => k ∉ q.map (·.1) ∧ FreshPuts n r (fifoCall n q (.put k v))
  | .pop k :: r, q => FreshPuts n r (fifoCall n q (.pop k))

/-- The caches that have seen no repeated key: the two attributes agree. -/
structure FifoInv (n : Option Int) (q : List (κ × ν)) (c : Naive κ ν) : Prop where
  entries : c.data.entries = q
  keys : c.keys = q.map (·.1)
  nodup : (q.map (·.1)).Nodup
  size : c.maxSize = n
  bound : ∀ m, n = some m → q.length ≤ m.toNat

theorem setL_fresh {l : List (κ × ν)} {k : κ} (v : ν) (h : k ∉ l.map (·.1)) :
    Dict.setL l k v = l ++ [(k, v)] := by
  induction l with
  | nil => rfl
  | cons e t ih =>
    obtain ⟨a, b⟩ := e
    simp only [List.map_cons, List.mem_cons, not_or] at h
    simp only [Dict.setL, if_neg (fun x => h.1 (Eq.symm x)), ih h.2, List.cons_append]

theorem erase_map_nodup {l : List (κ × ν)} (h : (l.map (·.1)).Nodup) (k : κ) :
    (l.map (·.1)).erase k = (l.filter (fun e => e.1 ≠ k)).map (·.1) := by
  rw [h.erase_eq_filter]
  induction l with
  | nil => rfl
  | cons e t ih =>
    simp only [List.map_cons, List.nodup_cons] at h
    by_cases hk : e.1 = k
    · simp only [List.map_cons, List.filter_cons, hk]
      simpa using ih h.2
    · have : (e.1 != k) = true := by simp [hk]
      simp only [List.map_cons, List.filter_cons, this, if_true, hk, ne_eq, not_false_eq_true,
        decide_true]
      rw [ih h.2]

theorem FifoInv.pop {n : Option Int} {q : List (κ × ν)} {c : Naive κ ν} (h : FifoInv n q c) (k : κ) :
    FifoInv n (q.filter (fun e => e.1 ≠ k)) (c.pop k).2 where
  entries := by simp only [Naive.pop, Dict.erase, h.entries]
  keys := by simp only [Naive.pop, h.keys]; exact erase_map_nodup h.nodup k
  nodup := by rw [← erase_map_nodup h.nodup]; exact h.nodup.erase k
  size := h.size
  bound m hm := Nat.le_trans (List.length_filter_le _ _) (h.bound m hm)

theorem filter_head {q : List (κ × ν)} {a : κ × ν} (h : ((a :: q).map (·.1)).Nodup) :
    (a :: q).filter (fun e => e.1 ≠ a.1) = q := by
  simp only [List.map_cons, List.nodup_cons] at h
  rw [List.filter_cons_of_neg (by simp), List.filter_eq_self]
  intro e he
  have : e.1 ≠ a.1 := fun hh => h.1 (hh ▸ List.mem_map_of_mem he)
  simpa using this

theorem FifoInv.put {n : Option Int} {q : List (κ × ν)} {c : Naive κ ν} (h : FifoInv n q c) {k : κ}
    (v : ν) (hk : k ∉ q.map (·.1)) :
    FifoInv n (fifoCall (n.map Int.toNat) q (.put k v)) (c.put k v) := by
  have hnd : ((q ++ [(k, v)]).map (·.1)).Nodup := by
    rw [List.map_append, List.nodup_append]
    refine ⟨h.nodup, by simp, ?_⟩
    intro a ha b hb
    simp at hb
    rintro rfl
    exact hk (hb ▸ ha)
  have hent : (c.insert k v).data.entries = q ++ [(k, v)] := by
    simp only [Naive.insert, Dict.set, h.entries]
    exact setL_fresh v hk
  have hkeys : (c.insert k v).keys = (q ++ [(k, v)]).map (·.1) := by
    simp [Naive.insert, h.keys]
  simp only [fifoCall]
  unfold Naive.put
  cases n with
  | none =>
    have hm : (c.insert k v).maxSize = none := h.size
    rw [toFlush_none hm]
    exact ⟨hent, hkeys, hnd, h.size, fun m hm => by cases hm⟩
  | some m =>
    rw [toFlush_insert h.size]
    have hb := h.bound m rfl
    have hl : c.keys.length = q.length := by rw [h.keys]; simp
    by_cases hf : m.toNat ≤ c.keys.length
    · rw [if_pos hf]
      have hdrop : lastOf (Option.map Int.toNat (some m)) (q ++ [(k, v)]) = (q ++ [(k, v)]).drop 1 := by
        simp only [lastOf, Option.map_some, List.length_append, List.length_singleton]
        congr 1
        omega
      rw [hdrop, h.keys]
      cases hq : q ++ [(k, v)] with
      | nil => simp at hq
      | cons a r =>
        have hhead : ((q.map (·.1)) ++ [k]).head? = some a.1 := by
          have := congrArg (fun l : List (κ × ν) => (l.map (·.1)).head?) hq
          simpa using this
        rw [hhead]
        simp only
        rw [hq] at hnd hent hkeys
        simp only [List.drop_one, List.tail_cons]
        refine ⟨?_, ?_, ?_, h.size, ?_⟩
        · simp only [Naive.pop, Dict.erase, hent]; exact filter_head hnd
        · simp only [Naive.pop, hkeys]; simp
        · simp only [List.map_cons, List.nodup_cons] at hnd; exact hnd.2
        · intro m' hm'
          cases hm'
          have := congrArg List.length hq
          simp only [List.length_append, List.length_nil, List.length_cons] at this
          omega
    · rw [if_neg hf]
      have hdrop : lastOf (Option.map Int.toNat (some m)) (q ++ [(k, v)]) = q ++ [(k, v)] := by
        simp only [lastOf, Option.map_some, List.length_append, List.length_singleton]
        have : q.length + 1 - m.toNat = 0 := by omega
        rw [this]; rfl
      rw [hdrop]
      refine ⟨hent, hkeys, hnd, h.size, ?_⟩
      intro m' hm'
      cases hm'
      simp only [List.length_append, List.length_singleton]
      omega

theorem fifo_calls {n : Option Int} {q : List (κ × ν)} {c : Naive κ ν} (h : FifoInv n q c)
    (calls : List (CacheCall κ ν)) (hf : FreshPuts (n.map Int.toNat) calls q) :
    FifoInv n (fifo (n.map Int.toNat) calls q) (cacheCalls calls c) := by
  induction calls generalizing q c with
  | nil => exact h
  | cons a r ih =>
    cases a with
    | put k v => exact ih (h.put v hf.1) hf.2
    | pop k => exact ih (h.pop k) hf

theorem fifoInv_new (n : Option Int) : FifoInv n [] (Naive.new n : Naive κ ν) :=
  ⟨rfl, rfl, by simp, rfl, fun _ _ => by simp⟩

/-- **C46**, true part: as long as no put uses a key that is in the cache, the cache
holds what a first-in first-out cache holds, in order, whatever is popped. -/
theorem C46_fifo_partial (n : Option Int) (calls : List (CacheCall κ ν))
    (hf : FreshPuts (n.map Int.toNat) calls []) :
    (cacheCalls calls (.new n)).data.entries = fifo (n.map Int.toNat) calls [] :=
  (fifo_calls (fifoInv_new n) calls hf).entries

/-- Puts of different keys only: the cache holds the last `n` of them. -/
theorem C46_last_n_partial (n : Int) (items : List (κ × ν)) (h : (items.map (·.1)).Nodup) :
    (cacheCalls (items.map (fun e => .put e.1 e.2)) (.new (some n))).data.entries =
      items.drop (items.length - n.toNat) := by
  have key : ∀ (l done q : List (κ × ν)), ((done ++ l).map (·.1)).Nodup →
      q = done.drop (done.length - n.toNat) →
      FreshPuts (some n.toNat) (l.map (fun e => .put e.1 e.2)) q ∧
      fifo (some n.toNat) (l.map (fun e => .put e.1 e.2)) q =
        (done ++ l).drop ((done ++ l).length - n.toNat) := by
    intro l
    induction l with
    | nil => intro done q _ hq; exact ⟨trivial, by simpa [fifo] using hq⟩
    | cons e r ih =>
      intro done q hd hq
      have hstep : fifoCall (some n.toNat) q (.put e.1 e.2) =
          (done ++ [e]).drop ((done ++ [e]).length - n.toNat) := by
        simp only [fifoCall, lastOf, hq, List.length_append, List.length_drop, List.length_singleton]
        by_cases hn : done.length ≤ n.toNat
        · have h1 : done.length - n.toNat = 0 := by omega
          rw [h1]
          rfl
        · have h2 : (done.drop (done.length - n.toNat) ++ [(e.1, e.2)]) =
              (done ++ [e]).drop (done.length - n.toNat) := by
            rw [List.drop_append_of_le_length (by omega)]
          rw [h2, List.drop_drop]
          congr 1
          omega
      have hd' : ((done ++ [e] ++ r).map (·.1)).Nodup := by simpa using hd
      obtain ⟨i1, i2⟩ := ih (done ++ [e]) _ hd' hstep
      refine ⟨⟨?_, i1⟩, ?_⟩
      · intro hm
        obtain ⟨x, hx, hxe⟩ := List.mem_map.1 hm
        rw [hq] at hx
        have hx := List.mem_of_mem_drop hx
        rw [List.map_append, List.nodup_append] at hd
        exact hd.2.2 x.1 (List.mem_map_of_mem hx) e.1 (by simp) hxe
      · have : fifo (some n.toNat) (List.map (fun e => CacheCall.put e.1 e.2) (e :: r)) q =
            fifo (some n.toNat) (List.map (fun e => CacheCall.put e.1 e.2) r)
              (fifoCall (some n.toNat) q (.put e.1 e.2)) := rfl
        rw [this, i2]
        simp
  obtain ⟨h1, h2⟩ := key items [] [] (by simpa using h) (by simp)
  exact (C46_fifo_partial (some n) _ h1).trans (by simpa using h2)

/-- What a dictionary holds for a key after some calls. -/
def lastCall (k : κ) : List (CacheCall κ ν) → Option ν → Option ν
  | [], o => o
  | .put k' v :: r, o => lastCall k r (if k' = k then some v else o)
  | .pop k' :: r, o => lastCall k r (if k' = k then none else o)

/-- An unbounded cache is a dictionary, for every sequence of calls; pop returns what
it removes. -/
theorem C46_unbounded_is_dict (calls : List (CacheCall κ ν)) (k : κ) :
    (cacheCalls calls (.new none)).get k = lastCall k calls none ∧
    ((cacheCalls calls (.new none)).pop k).1 = lastCall k calls none := by
  have key : ∀ (l : List (CacheCall κ ν)) (c : Naive κ ν), c.maxSize = none →
      (cacheCalls l c).get k = lastCall k l (c.get k) := by
    intro l
    induction l with
    | nil => intro c _; rfl
    | cons a r ih =>
      intro c hc
      cases a with
      | put k' v =>
        have hp : c.put k' v = c.insert k' v := by
          unfold Naive.put
          rw [toFlush_none (c := c.insert k' v) hc]
        refine (ih (c.put k' v) (by rw [maxSize_put]; exact hc)).trans ?_
        rw [hp]
        simp only [lastCall, Naive.get, Naive.insert, Dict.get?_set]
      | pop k' =>
        refine (ih (c.pop k').2 hc).trans ?_
        simp only [lastCall, Naive.get, Naive.pop, Dict.get?_erase]
  have := key calls (.new none) rfl
  exact ⟨this, this⟩

/-- The claim for all sequences: what was put last is in the cache. -/
def C46Claim : Prop :=
  ∀ (n : Int) (calls : List (CacheCall Nat Nat)) (k v : Nat), 1 ≤ n →
    (cacheCalls (calls ++ [.put k v]) (.new (some n))).get k = some v

/-- Exactly when it is not: the cache is full and the key is the one that entered
first (and has not been popped since). -/
theorem C46_put_get (n : Int) (calls : List (CacheCall κ ν)) (k : κ) (v : ν) (hn : 1 ≤ n) :
    (cacheCalls (calls ++ [.put k v]) (.new (some n))).get k =
      if (cacheCalls calls (.new (some n))).keys.length = n.toNat ∧
          (cacheCalls calls (.new (some n))).keys.head? = some k
      then none else some v := by
  rw [cacheCalls, List.foldl_append]
  have hm : (cacheCalls calls (.new (some n) : Naive κ ν)).maxSize = some n := by
    rw [maxSize_calls]; rfl
  have hb := ((cacheInv_new (κ := κ) (ν := ν) (some n)).calls calls).bound n hm
  change ((cacheCalls calls (.new (some n))).put k v).get k = _
  generalize cacheCalls calls (.new (some n)) = c at hm hb
  unfold Naive.put
  rw [toFlush_insert hm]
  by_cases hl : n.toNat ≤ c.keys.length
  · rw [if_pos hl]
    cases hk : c.keys with
    | nil => rw [hk] at hl; simp at hl; omega
    | cons a r =>
      have hlen : (a :: r).length = n.toNat := by rw [← hk]; omega
      simp only [List.cons_append, List.head?_cons, Naive.pop, Naive.get, Naive.insert,
        Dict.get?_erase, Dict.get?_set, hlen, true_and, Option.some.injEq, if_true]
  · rw [if_neg hl, if_neg (by intro h; omega)]
    simp [Naive.get, Naive.insert]

/-- **C46** is false in general: in a cache of size two, putting a key again can evict
that very key. -/
theorem C46_claim_false : ¬ C46Claim := by
  intro h
  have := h 2 [.put 1 10, .put 2 20] 1 11 (by decide)
  revert this
  decide

/-- And a repeated key evicts early: two keys are in use, the cache of size two has
room for both, but the first is gone. -/
theorem C46_evicts_early :
    (cacheCalls [.put 1 10, .put 1 11, .put 2 20] (.new (some 2))).get 1 = none ∧
    (cacheCalls [.put 1 10, .put 1 11, .put 2 20] (.new (some 2))).len = 1 := by decide

example : (cacheCalls [.put 1 'a', .put 2 'b', .put 3 'c', .pop 2, .put 2 'd'] (.new (some 2))).data.entries =
    [(3, 'c'), (2, 'd')] := by decide
example : FreshPuts (some 2) [.put 1 'a', .put 2 'b', .put 3 'c', .pop 2, .put 2 'd'] [] := by
  simp [FreshPuts, fifoCall, lastOf]

end Sb.Props
