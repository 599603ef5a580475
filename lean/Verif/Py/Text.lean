/-
Operations on Python str and bytes objects that the models share.  A text is the
list of its code points (str) or byte values (bytes).
-/

namespace Py.Text

/-- `t.split(c)` for a separator of one character. -/
def splitOn (c : Nat) : List Nat → List (List Nat)
  | [] => [[]]
  | x :: rest =>
    match splitOn c rest with
    | [] => [[]]
    | p :: ps => if x = c then [] :: p :: ps else (x :: p) :: ps

/-- `c.join(parts)` for a separator of one character. -/
def joinWith (c : Nat) : List (List Nat) → List Nat
  | [] => []
  | [p] => p
  | p :: q :: ps => p ++ c :: joinWith c (q :: ps)

/-- `parts[-n:]` for n ≥ 1: the last n items (all of them if there are fewer). -/
def lastN {α : Type} (n : Nat) (l : List α) : List α := l.drop (l.length - n)

/-- Decimal digits of a number, most significant first; `k` bounds the number of
digits but the first. -/
def digitsUpTo : (k n : Nat) → List Nat
  | 0, n => [48 + n]
  | k + 1, n => if n < 10 then [48 + n] else digitsUpTo k (n / 10) ++ [48 + n % 10]

/-- `str(n)` -/
def digitsOf (n : Nat) : List Nat := digitsUpTo n n

/-- The number written by decimal digits. -/
def digitsVal (ds : List Nat) : Nat := ds.foldl (fun acc d => 10 * acc + (d - 48)) 0

/-- A finished word, if there is one. -/
def flush (cur : List Nat) : List (List Nat) := if cur = [] then [] else [cur]

/-- The loop of `t.split()`; `cur` is the word being read. -/
def wordsFrom (space : Nat → Bool) : (cur t : List Nat) → List (List Nat)
  | cur, [] => flush cur
  | cur, x :: rest =>
    if space x then flush cur ++ wordsFrom space [] rest else wordsFrom space (cur ++ [x]) rest

/-- `t.split()`: the maximal runs of characters that are not white space. -/
def words (space : Nat → Bool) (t : List Nat) : List (List Nat) := wordsFrom space [] t

/-! ### Facts -/

theorem splitOn_ne_nil (c : Nat) (t : List Nat) : splitOn c t ≠ [] := by
  cases t with
  | nil => simp [splitOn]
  | cons x rest =>
    simp only [splitOn]
    split
    · simp
    · split <;> simp

theorem joinWith_cons {c : Nat} (p : List Nat) {ps : List (List Nat)} (h : ps ≠ []) :
    joinWith c (p :: ps) = p ++ c :: joinWith c ps := by
  cases ps with
  | nil => exact absurd rfl h
  | cons q ps => rfl

theorem join_split (c : Nat) (t : List Nat) : joinWith c (splitOn c t) = t := by
  induction t with
  | nil => rfl
  | cons x rest ih =>
    simp only [splitOn]
    cases hs : splitOn c rest with
    | nil => exact absurd hs (splitOn_ne_nil _ _)
    | cons p ps =>
      rw [hs] at ih
      simp only
      by_cases h : x = c
      · simp only [h, if_true]
        rw [joinWith_cons _ (by simp), ih]; rfl
      · simp only [h, if_false]
        cases ps with
        | nil => simpa [joinWith] using ih
        | cons q ps =>
          rw [joinWith_cons _ (by simp)] at ih ⊢
          simp [← ih]

theorem not_mem_of_mem_splitOn {c : Nat} {t p : List Nat} (h : p ∈ splitOn c t) : c ∉ p := by
  induction t generalizing p with
  | nil => simp [splitOn] at h; simp [h]
  | cons x rest ih =>
    simp only [splitOn] at h
    cases hs : splitOn c rest with
    | nil => exact absurd hs (splitOn_ne_nil _ _)
    | cons q ps =>
      rw [hs] at h ih
      simp only at h
      by_cases hx : x = c
      · simp only [hx, if_true] at h
        rcases List.mem_cons.1 h with h | h
        · simp [h]
        · exact ih h
      · simp only [hx, if_false] at h
        rcases List.mem_cons.1 h with h | h
        · subst h
          have := ih (p := q) (by simp)
          simp only [List.mem_cons, not_or]
          exact ⟨fun e => hx e.symm, this⟩
        · exact ih (List.mem_cons_of_mem _ h)

theorem splitOn_of_not_mem {c : Nat} {p : List Nat} (h : c ∉ p) : splitOn c p = [p] := by
  induction p with
  | nil => rfl
  | cons x rest ih =>
    simp only [List.mem_cons, not_or] at h
    have hx : x ≠ c := fun e => h.1 e.symm
    simp [splitOn, ih h.2, hx]

theorem splitOn_append {c : Nat} {p t : List Nat} (h : c ∉ p) :
    splitOn c (p ++ c :: t) = p :: splitOn c t := by
  induction p with
  | nil =>
    cases hs : splitOn c t with
    | nil => exact absurd hs (splitOn_ne_nil _ _)
    | cons q ps => simp [splitOn, hs]
  | cons x rest ih =>
    simp only [List.mem_cons, not_or] at h
    have hx : x ≠ c := fun e => h.1 e.symm
    simp [splitOn, ih h.2, hx]

/-- splitting is compositional at every separator -/
theorem splitOn_append_sep (c : Nat) (s t : List Nat) :
    splitOn c (s ++ c :: t) = splitOn c s ++ splitOn c t := by
  induction s with
  | nil =>
    cases hs : splitOn c t with
    | nil => exact absurd hs (splitOn_ne_nil _ _)
    | cons q ps => simp [splitOn, hs]
  | cons x rest ih =>
    rw [List.cons_append]
    simp only [splitOn]
    rw [ih]
    cases hs : splitOn c rest with
    | nil => exact absurd hs (splitOn_ne_nil _ _)
    | cons q ps =>
      simp only [List.cons_append]
      by_cases hx : x = c <;> simp [hx]

theorem splitOn_joinWith {c : Nat} {ps : List (List Nat)} (hne : ps ≠ [])
    (h : ∀ p ∈ ps, c ∉ p) : splitOn c (joinWith c ps) = ps := by
  induction ps with
  | nil => exact absurd rfl hne
  | cons p qs ih =>
    cases qs with
    | nil => exact splitOn_of_not_mem (h p (by simp))
    | cons q qs =>
      rw [joinWith_cons _ (by simp), splitOn_append (h p (by simp)),
        ih (by simp) (fun x hx => h x (List.mem_cons_of_mem _ hx))]

theorem joinWith_append {c : Nat} {ps qs : List (List Nat)} (h1 : ps ≠ []) (h2 : qs ≠ []) :
    joinWith c (ps ++ qs) = joinWith c ps ++ c :: joinWith c qs := by
  induction ps with
  | nil => exact absurd rfl h1
  | cons p ps ih =>
    cases ps with
    | nil => rw [List.singleton_append, joinWith_cons _ h2]; rfl
    | cons q ps =>
      rw [List.cons_append, joinWith_cons p (ps := q :: ps ++ qs) (by simp), ih (by simp),
        joinWith_cons p (ps := q :: ps) (by simp)]
      simp

theorem length_splitOn (c : Nat) (t : List Nat) : (splitOn c t).length = t.count c + 1 := by
  induction t with
  | nil => rfl
  | cons x rest ih =>
    simp only [splitOn]
    cases hs : splitOn c rest with
    | nil => exact absurd hs (splitOn_ne_nil _ _)
    | cons q ps =>
      rw [hs] at ih
      simp only
      by_cases hx : x = c
      · subst hx; simp at ih ⊢; omega
      · simp [hx] at ih ⊢; omega

/-! Decimal notation is injective. -/

theorem digitsVal_append_single (ds : List Nat) (d : Nat) :
    digitsVal (ds ++ [d]) = 10 * digitsVal ds + (d - 48) := by
  simp [digitsVal, List.foldl_append]

theorem digitsVal_digitsUpTo {k n : Nat} (h : n ≤ k) : digitsVal (digitsUpTo k n) = n := by
  induction k generalizing n with
  | zero => simp [digitsUpTo, digitsVal]
  | succ k ih =>
    rw [digitsUpTo]
    split
    · simp [digitsVal]
    · rw [digitsVal_append_single, ih (by omega)]; omega

theorem digitsVal_digitsOf (n : Nat) : digitsVal (digitsOf n) = n :=
  digitsVal_digitsUpTo (Nat.le_refl _)

theorem digitsOf_injective {m n : Nat} (h : digitsOf m = digitsOf n) : m = n := by
  rw [← digitsVal_digitsOf m, h, digitsVal_digitsOf]

theorem digitsUpTo_range {k n : Nat} (h : n ≤ k) : ∀ d ∈ digitsUpTo k n, 48 ≤ d ∧ d ≤ 57 := by
  induction k generalizing n with
  | zero => intro d hd; simp [digitsUpTo] at hd; omega
  | succ k ih =>
    rw [digitsUpTo]
    split
    · intro d hd; simp at hd; omega
    · intro d hd
      rcases List.mem_append.1 hd with h' | h'
      · exact ih (n := n / 10) (by omega) d h'
      · simp at h'; omega

theorem digitsOf_range (n : Nat) : ∀ d ∈ digitsOf n, 48 ≤ d ∧ d ≤ 57 :=
  digitsUpTo_range (Nat.le_refl _)

theorem digitsOf_ne_nil (n : Nat) : digitsOf n ≠ [] := by
  rw [digitsOf]; cases n with
  | zero => simp [digitsUpTo]
  | succ n => rw [digitsUpTo]; split <;> simp

/-! White space splitting. -/

theorem words_space_cons {space : Nat → Bool} {x : Nat} {t : List Nat} (h : space x = true) :
    words space (x :: t) = words space t := by
  simp [words, wordsFrom, h, flush]

theorem words_nil_of_space {space : Nat → Bool} {t : List Nat} (h : ∀ c ∈ t, space c = true) :
    words space t = [] := by
  induction t with
  | nil => rfl
  | cons x rest ih =>
    rw [words_space_cons (h x (by simp))]
    exact ih (fun c hc => h c (List.mem_cons_of_mem _ hc))

theorem wordsFrom_append {space : Nat → Bool} {w : List Nat} (h : ∀ c ∈ w, space c = false)
    (cur t : List Nat) : wordsFrom space cur (w ++ t) = wordsFrom space (cur ++ w) t := by
  induction w generalizing cur with
  | nil => simp
  | cons x w ih =>
    rw [List.cons_append, wordsFrom, if_neg (by simp [h x (by simp)]),
      ih (fun c hc => h c (List.mem_cons_of_mem _ hc))]
    simp

/-- a run of non-space characters followed by the end or by white space is a word -/
theorem words_cons {space : Nat → Bool} {w t : List Nat} (hw : w ≠ [])
    (h : ∀ c ∈ w, space c = false) (ht : t = [] ∨ ∃ y s, t = y :: s ∧ space y = true) :
    words space (w ++ t) = w :: words space t := by
  rw [words, wordsFrom_append h, List.nil_append]
  rcases ht with rfl | ⟨y, s, rfl, hy⟩
  · simp [wordsFrom, flush, hw, words]
  · simp [wordsFrom, flush, hw, words, hy]

theorem mem_wordsFrom {space : Nat → Bool} {cur t w : List Nat}
    (hc : ∀ c ∈ cur, space c = false) (h : w ∈ wordsFrom space cur t) :
    w ≠ [] ∧ ∀ c ∈ w, space c = false := by
  induction t generalizing cur with
  | nil =>
    simp only [wordsFrom, flush] at h
    split at h <;> simp at h
    subst h
    exact ⟨by assumption, hc⟩
  | cons x rest ih =>
    rw [wordsFrom] at h
    split at h
    · rcases List.mem_append.1 h with h | h
      · simp only [flush] at h
        split at h <;> simp at h
        subst h
        exact ⟨by assumption, hc⟩
      · exact ih (by simp) h
    · rename_i hx
      refine ih ?_ h
      intro c hcm
      rcases List.mem_append.1 hcm with h' | h'
      · exact hc c h'
      · simp at h'; subst h'; simpa using hx

/-- every word is non-empty and has no white space in it -/
theorem mem_words {space : Nat → Bool} {t w : List Nat} (h : w ∈ words space t) :
    w ≠ [] ∧ ∀ c ∈ w, space c = false := mem_wordsFrom (by simp) h

theorem wordsFrom_flatten (space : Nat → Bool) (cur t : List Nat)
    (hc : ∀ c ∈ cur, space c = false) :
    (wordsFrom space cur t).flatten = cur ++ t.filter (fun c => !space c) := by
  induction t generalizing cur with
  | nil => by_cases h : cur = [] <;> simp [wordsFrom, flush, h]
  | cons x rest ih =>
    rw [wordsFrom]
    split
    · rename_i hx
      rw [List.flatten_append, ih [] (by simp)]
      by_cases h : cur = [] <;> simp [flush, h, hx]
    · rename_i hx
      have hx' : space x = false := by simpa using hx
      rw [ih]
      · simp [hx']
      · intro c hcm
        rcases List.mem_append.1 hcm with h' | h'
        · exact hc c h'
        · simp at h'; subst h'; exact hx'

/-- the words together are the text without its white space -/
theorem words_flatten (space : Nat → Bool) (t : List Nat) :
    (words space t).flatten = t.filter (fun c => !space c) := by
  rw [words, wordsFrom_flatten space [] t (by simp)]; simp

end Py.Text
