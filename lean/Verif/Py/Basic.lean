/-
Python run-time notions shared by all models: exceptions as values, a state
monad in which effects made before an exception persist, and insertion-ordered
dictionaries.  Nothing in this file is specific to /repo.
-/

namespace Py

/-- The exception classes that the modelled code raises or lets through. -/
inductive Err where
  | keyError | valueError | typeError | attributeError | zeroDivisionError
  | nameError | indexError | structError | exception | lockTimeout | eofError
  | osError | assertionError | notImplemented | overflowError | importError
  deriving DecidableEq, Repr, Inhabited

/-- A Python computation over an object state `σ`: it ends with a value or an
exception, and in both cases with the state reached so far (an exception does
not roll effects back). -/
def M (σ α : Type _) := σ → Except Err α × σ

namespace M
variable {σ α β : Type _}

@[inline] protected def pure (a : α) : M σ α := fun s => (.ok a, s)

@[inline] protected def bind (x : M σ α) (f : α → M σ β) : M σ β := fun s =>
  match x s with
  | (.ok a, s') => f a s'
  | (.error e, s') => (.error e, s')

instance : Monad (M σ) where
  pure := M.pure
  bind := M.bind

/-- `raise` -/
@[inline] def raise (e : Err) : M σ α := fun s => (.error e, s)
@[inline] def get : M σ σ := fun s => (.ok s, s)
@[inline] def modify (f : σ → σ) : M σ Unit := fun s => (.ok (), f s)

/-- `for x in l: f(x)` -/
def forEach {γ : Type _} (f : γ → M σ Unit) : List γ → M σ Unit
  | [] => pure ()
  | x :: xs => do f x; forEach f xs

/-- `[f(x) for x in l]` -/
def mapAll {γ : Type _} (f : γ → M σ β) : List γ → M σ (List β)
  | [] => pure []
  | x :: xs => do
    let y ← f x
    let ys ← mapAll f xs
    pure (y :: ys)

@[simp] theorem pure_run (a : α) (s : σ) : (pure a : M σ α) s = (.ok a, s) := rfl
@[simp] theorem raise_run (e : Err) (s : σ) : (raise e : M σ α) s = (.error e, s) := rfl
@[simp] theorem get_run (s : σ) : (get : M σ σ) s = (.ok s, s) := rfl
@[simp] theorem modify_run (f : σ → σ) (s : σ) : (modify f) s = (.ok (), f s) := rfl
theorem bind_run (x : M σ α) (f : α → M σ β) (s : σ) :
    (x >>= f) s = match x s with
      | (.ok a, s') => f a s'
      | (.error e, s') => (.error e, s') := rfl

theorem bind_run_ok {x : M σ α} {f : α → M σ β} {s s' : σ} {a : α}
    (h : x s = (.ok a, s')) : (x >>= f) s = f a s' := by
  rw [bind_run, h]

theorem bind_run_error {x : M σ α} {f : α → M σ β} {s s' : σ} {e : Err}
    (h : x s = (.error e, s')) : (x >>= f) s = (.error e, s') := by
  rw [bind_run, h]

@[simp] theorem forEach_nil {γ : Type _} (f : γ → M σ Unit) : forEach f [] = pure () := rfl
@[simp] theorem forEach_cons {γ : Type _} (f : γ → M σ Unit) (x : γ) (xs : List γ) :
    forEach f (x :: xs) = (do f x; forEach f xs) := rfl

end M

/-! ### Dictionaries -/

/-- A Python `dict`: insertion-ordered association list. -/
structure Dict (κ ν : Type _) where
  entries : List (κ × ν)
  deriving DecidableEq, Repr

namespace Dict
variable {κ ν : Type _} [DecidableEq κ]

/-- `{}` -/
def empty : Dict κ ν := ⟨[]⟩

instance : Inhabited (Dict κ ν) := ⟨empty⟩

def getL : List (κ × ν) → κ → Option ν
  | [], _ => none
  | (k', v) :: t, k => if k' = k then some v else getL t k

/-- `d.get(k)` -/
def get? (d : Dict κ ν) (k : κ) : Option ν := getL d.entries k

def setL : List (κ × ν) → κ → ν → List (κ × ν)
  | [], k, v => [(k, v)]
  | (k', v') :: t, k, v => if k' = k then (k', v) :: t else (k', v') :: setL t k v

/-- `d[k] = v`: an existing key keeps its position, a new one goes last. -/
def set (d : Dict κ ν) (k : κ) (v : ν) : Dict κ ν := ⟨setL d.entries k v⟩

/-- `del d[k]` / `d.pop(k, None)` (the caller decides about a missing key). -/
def erase (d : Dict κ ν) (k : κ) : Dict κ ν := ⟨d.entries.filter (fun e => decide (e.1 ≠ k))⟩

/-- `list(d)` -/
def keys (d : Dict κ ν) : List κ := d.entries.map (·.1)

/-- `list(d.values())` -/
def values (d : Dict κ ν) : List ν := d.entries.map (·.2)

/-- `len(d)` -/
def size (d : Dict κ ν) : Nat := d.entries.length

/-- `k in d` -/
def contains (d : Dict κ ν) (k : κ) : Bool := (d.get? k).isSome

/-- No key occurs twice: true of every Python dict. -/
def Nodup (d : Dict κ ν) : Prop := d.keys.Nodup

@[simp] theorem get?_empty (k : κ) : (empty : Dict κ ν).get? k = none := rfl

theorem getL_setL (l : List (κ × ν)) (k k' : κ) (v : ν) :
    getL (setL l k v) k' = if k = k' then some v else getL l k' := by
  induction l with
  | nil => simp [setL, getL]
  | cons e t ih =>
    obtain ⟨a, b⟩ := e
    simp only [setL]
    by_cases h : a = k
    · subst h
      by_cases h2 : a = k' <;> simp [getL, h2]
    · by_cases h2 : a = k'
      · subst h2
        have : k ≠ a := fun h' => h h'.symm
        simp [h, getL, this]
      · simp [h, getL, h2, ih]

theorem get?_set (d : Dict κ ν) (k k' : κ) (v : ν) :
    (d.set k v).get? k' = if k = k' then some v else d.get? k' := getL_setL ..

@[simp] theorem get?_set_self (d : Dict κ ν) (k : κ) (v : ν) : (d.set k v).get? k = some v := by
  simp [get?_set]

theorem get?_set_ne (d : Dict κ ν) {k k' : κ} (v : ν) (h : k ≠ k') :
    (d.set k v).get? k' = d.get? k' := by
  simp [get?_set, h]

theorem getL_filter (l : List (κ × ν)) (k k' : κ) :
    getL (l.filter (fun e => decide (e.1 ≠ k))) k' = if k = k' then none else getL l k' := by
  induction l with
  | nil => simp [getL]
  | cons e t ih =>
    obtain ⟨a, b⟩ := e
    by_cases h : a = k
    · subst h
      rw [List.filter_cons_of_neg (by simp), ih]
      by_cases h2 : a = k' <;> simp [getL, h2]
    · rw [List.filter_cons_of_pos (by simp [h])]
      by_cases h2 : a = k'
      · subst h2
        have : k ≠ a := fun h' => h h'.symm
        simp [getL, this]
      · simp only [getL, if_neg h2]; exact ih

theorem get?_erase (d : Dict κ ν) (k k' : κ) :
    (d.erase k).get? k' = if k = k' then none else d.get? k' := getL_filter ..

@[simp] theorem get?_erase_self (d : Dict κ ν) (k : κ) : (d.erase k).get? k = none := by
  simp [get?_erase]

theorem getL_isSome_iff (l : List (κ × ν)) (k : κ) :
    (getL l k).isSome ↔ k ∈ l.map (·.1) := by
  induction l with
  | nil => simp [getL]
  | cons e t ih =>
    obtain ⟨a, b⟩ := e
    by_cases h : a = k
    · simp [getL, h]
    · have h' : k ≠ a := fun x => h x.symm
      simp only [getL, if_neg h, ih]
      simp [h']

theorem isSome_get?_iff (d : Dict κ ν) (k : κ) : (d.get? k).isSome ↔ k ∈ d.keys :=
  getL_isSome_iff ..

theorem mem_keys_iff (d : Dict κ ν) (k : κ) : k ∈ d.keys ↔ ∃ v, d.get? k = some v := by
  rw [← isSome_get?_iff, Option.isSome_iff_exists]

theorem get?_eq_none_iff (d : Dict κ ν) (k : κ) : d.get? k = none ↔ k ∉ d.keys := by
  rw [← isSome_get?_iff]; cases d.get? k <;> simp

theorem contains_iff (d : Dict κ ν) (k : κ) : d.contains k = true ↔ k ∈ d.keys := by
  rw [contains, isSome_get?_iff]

theorem mem_of_getL {l : List (κ × ν)} {k : κ} {v : ν} (h : getL l k = some v) : (k, v) ∈ l := by
  induction l with
  | nil => simp [getL] at h
  | cons e t ih =>
    obtain ⟨a, b⟩ := e
    by_cases h2 : a = k
    · simp [getL, h2] at h; subst h; subst h2; simp
    · simp only [getL, if_neg h2] at h; exact List.mem_cons_of_mem _ (ih h)

theorem mem_entries_of_get? {d : Dict κ ν} {k : κ} {v : ν} (h : d.get? k = some v) :
    (k, v) ∈ d.entries := mem_of_getL h

theorem getL_of_mem {l : List (κ × ν)} (hn : (l.map (·.1)).Nodup) {k : κ} {v : ν}
    (h : (k, v) ∈ l) : getL l k = some v := by
  induction l with
  | nil => simp at h
  | cons e t ih =>
    obtain ⟨a, b⟩ := e
    simp only [List.map_cons, List.nodup_cons] at hn
    rcases List.mem_cons.1 h with h | h
    · cases h; simp [getL]
    · have : a ≠ k := by
        rintro rfl
        exact hn.1 (List.mem_map.2 ⟨_, h, rfl⟩)
      simp [getL, this, ih hn.2 h]

theorem get?_of_mem {d : Dict κ ν} (hn : d.Nodup) {k : κ} {v : ν} (h : (k, v) ∈ d.entries) :
    d.get? k = some v := getL_of_mem hn h

theorem keys_setL (l : List (κ × ν)) (k : κ) (v : ν) :
    (setL l k v).map (·.1) = if k ∈ l.map (·.1) then l.map (·.1) else l.map (·.1) ++ [k] := by
  induction l with
  | nil => simp [setL]
  | cons e t ih =>
    obtain ⟨a, b⟩ := e
    by_cases h : a = k
    · simp [setL, h]
    · have h' : k ≠ a := fun x => h x.symm
      simp only [setL, if_neg h, List.map_cons, ih, List.mem_cons]
      by_cases h2 : k ∈ t.map (·.1) <;> simp [h2, h']

theorem keys_set (d : Dict κ ν) (k : κ) (v : ν) :
    (d.set k v).keys = if k ∈ d.keys then d.keys else d.keys ++ [k] := keys_setL ..

theorem mem_keys_set (d : Dict κ ν) (k k' : κ) (v : ν) :
    k' ∈ (d.set k v).keys ↔ k' = k ∨ k' ∈ d.keys := by
  rw [keys_set]
  split
  · constructor
    · exact Or.inr
    · rintro (rfl | h) <;> assumption
  · simp [or_comm]

theorem Nodup.set {d : Dict κ ν} (h : d.Nodup) (k : κ) (v : ν) : (d.set k v).Nodup := by
  unfold Nodup at *
  rw [keys_set]
  split
  · exact h
  · rename_i hk
    rw [List.nodup_append]
    refine ⟨h, by simp, ?_⟩
    intro a ha b hb
    simp at hb
    rintro rfl
    exact hk (hb ▸ ha)

theorem keys_erase (d : Dict κ ν) (k : κ) : (d.erase k).keys = d.keys.filter (fun x => decide (x ≠ k)) := by
  simp only [keys, erase]
  rw [List.filter_map]
  rfl

theorem Nodup.erase {d : Dict κ ν} (h : d.Nodup) (k : κ) : (d.erase k).Nodup := by
  unfold Nodup at *
  rw [keys_erase]
  exact h.filter _

theorem mem_keys_erase (d : Dict κ ν) (k k' : κ) : k' ∈ (d.erase k).keys ↔ k' ≠ k ∧ k' ∈ d.keys := by
  rw [keys_erase]; simp [and_comm]

omit [DecidableEq κ] in
theorem nodup_empty : (empty : Dict κ ν).Nodup := by simp [Nodup, keys, empty]

end Dict

/-! ### Sets -/

/-- The order in which `for x in set(ws)` visits the elements.  CPython leaves
it to hash values and table history, so it is a parameter: any duplicate-free
list with the same elements.  Every theorem is quantified over it. -/
structure SetIter (W : Type _) where
  order : List W → List W
  nodup : ∀ ws, (order ws).Nodup
  mem : ∀ ws w, w ∈ order ws ↔ w ∈ ws

end Py
