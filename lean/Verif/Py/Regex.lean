/-
The part of Python's `re` module that the strippers and the tokenizer use, over texts
as lists of code points or byte values.

`run` is a backtracking matcher in the style of CPython's: it lists all ways to match
in the order in which the engine tries them, so that its first element is the match
the engine finds.  Repetitions are greedy.  An iteration of a repetition that consumes
nothing ends the repetition; none of the patterns used has one.  `Matches` is the
declarative meaning of a pattern; `run_iff` says that the matcher finds exactly those.
-/

namespace Py.Re

/-- Patterns. -/
inductive Re where
  /-- the empty pattern -/
  | eps
  /-- one character of a class -/
  | chr (p : Nat → Bool)
  /-- ab -/
  | seq (a b : Re)
  /-- a|b -/
  | alt (a b : Re)
  /-- a{0,n} -/
  | upTo (n : Nat) (a : Re)
  /-- a* -/
  | star (a : Re)
  /-- (a), group number k -/
  | grp (k : Nat) (a : Re)
  /-- an assertion about a position in a text: ^, $, \b, lookahead -/
  | test (q : List Nat → Nat → Bool)

/-- A position reached, with the groups captured so far (the latest first). -/
structure St where
  pos : Nat
  groups : List (Nat × Nat × Nat)

/-- A greedy repetition with at most `n` rounds. -/
def rep (f : St → List St) : Nat → St → List St
  | 0, s => [s]
  | n + 1, s => (f s).flatMap (fun s' => if s.pos < s'.pos then rep f n s' else []) ++ [s]

/-- All matches at a position, in the order in which they are tried. -/
def run (t : List Nat) : Re → St → List St
  | .eps, s => [s]
  | .chr p, s =>
    match t[s.pos]? with
    | some c => if p c then [{ s with pos := s.pos + 1 }] else []
    | none => []
  | .seq a b, s => (run t a s).flatMap (run t b)
  | .alt a b, s => run t a s ++ run t b s
  | .upTo n a, s => rep (run t a) n s
  | .star a, s => rep (run t a) t.length s
  | .grp k a, s => (run t a s).map (fun s' => { s' with groups := (k, s.pos, s'.pos) :: s'.groups })
  | .test q, s => if q t s.pos then [s] else []

/-- A match object: `span()` and the groups. -/
structure Match where
  start : Nat
  stop : Nat
  groups : List (Nat × Nat × Nat)

/-- `pattern.match(text, pos)` -/
def matchAt (r : Re) (t : List Nat) (i : Nat) : Option Match :=
  (run t r ⟨i, []⟩).head?.map (fun s => ⟨i, s.pos, s.groups⟩)

/-- The first of the positions i, i+1, … (n of them) with a match. -/
def searchFrom (r : Re) (t : List Nat) : (n i : Nat) → Option Match
  | 0, _ => none
  | n + 1, i => (matchAt r t i).or (searchFrom r t n (i + 1))

/-- `pattern.search(text, pos)`: the leftmost match that starts at `pos` or later. -/
def search (r : Re) (t : List Nat) (i : Nat) : Option Match := searchFrom r t (t.length + 1 - i) i

/-- `text[a:b]` -/
def slice (t : List Nat) (a b : Nat) : List Nat := (t.drop a).take (b - a)

/-- `m.group(k)` as text; empty if the group took no part. -/
def Match.group (m : Match) (t : List Nat) (k : Nat) : List Nat :=
  match m.groups.find? (fun g => g.1 == k) with
  | some g => slice t g.2.1 g.2.2
  | none => []

/-- The non-overlapping matches from a position on, leftmost first, as `findall`,
`sub` and `split` find them; `n` bounds their number.  (For patterns that do not match
the empty text.) -/
def allFrom (r : Re) (t : List Nat) : (n i : Nat) → List Match
  | 0, _ => []
  | n + 1, i =>
    match search r t i with
    | none => []
    | some m => m :: allFrom r t n m.stop

/-- `pattern.finditer(text)` -/
def all (r : Re) (t : List Nat) : List Match := allFrom r t (t.length + 1) 0

/-! ### Abbreviations -/

namespace Re

/-- a+ -/
def plus (a : Re) : Re := .seq a (.star a)
/-- a? -/
def opt (a : Re) : Re := .upTo 1 a
/-- a literal text -/
def lit : List Nat → Re
  | [] => .eps
  | [c] => .chr (· == c)
  | c :: cs => .seq (.chr (· == c)) (lit cs)
/-- a sequence -/
def cat : List Re → Re
  | [] => .eps
  | [a] => a
  | a :: as => .seq a (cat as)

end Re

/-- `\s` in a bytes pattern -/
def isSpace (c : Nat) : Bool := c == 32 || (9 ≤ c && c ≤ 13)
/-- `\d` in a bytes pattern -/
def isDigit (c : Nat) : Bool := 48 ≤ c && c ≤ 57
/-- `\w` in a bytes pattern -/
def isWord (c : Nat) : Bool :=
  isDigit c || (65 ≤ c && c ≤ 90) || (97 ≤ c && c ≤ 122) || c == 95

/-- whether the character at a position is a word character -/
def wordAt (t : List Nat) (i : Nat) : Bool :=
  match t[i]? with
  | some c => isWord c
  | none => false
/-- whether the character before a position is a word character -/
def wordBefore (t : List Nat) (i : Nat) : Bool := i != 0 && wordAt t (i - 1)
/-- `\b` -/
def boundary : Re := .test (fun t i => wordBefore t i != wordAt t i)
/-- `^` with MULTILINE -/
def bol : Re := .test (fun t i => i == 0 || t[i - 1]? == some 10)
/-- `$` with MULTILINE -/
def eol : Re := .test (fun t i => t.length ≤ i || t[i]? == some 10)
/-- `(?!p)` for a class -/
def notAhead (p : Nat → Bool) : Re := .test (fun t i => match t[i]? with
  | some c => !p c
  | none => true)

/-! ### The declarative meaning -/

/-- `Matches t r i j`: the pattern matches the text from position i to position j. -/
inductive Matches (t : List Nat) : Re → Nat → Nat → Prop
  | eps (i : Nat) : Matches t .eps i i
  | chr {p : Nat → Bool} {i c : Nat} : t[i]? = some c → p c = true → Matches t (.chr p) i (i + 1)
  | seq {a b : Re} {i j k : Nat} : Matches t a i j → Matches t b j k → Matches t (.seq a b) i k
  | altL {a b : Re} {i j : Nat} : Matches t a i j → Matches t (.alt a b) i j
  | altR {a b : Re} {i j : Nat} : Matches t b i j → Matches t (.alt a b) i j
  | upToZ {n : Nat} {a : Re} {i : Nat} : Matches t (.upTo n a) i i
  | upToS {n : Nat} {a : Re} {i j k : Nat} : Matches t a i j → i < j → Matches t (.upTo n a) j k →
      Matches t (.upTo (n + 1) a) i k
  | starZ {a : Re} {i : Nat} : Matches t (.star a) i i
  | starS {a : Re} {i j k : Nat} : Matches t a i j → i < j → Matches t (.star a) j k →
      Matches t (.star a) i k
  | grp {k : Nat} {a : Re} {i j : Nat} : Matches t a i j → Matches t (.grp k a) i j
  | test {q : List Nat → Nat → Bool} {i : Nat} : q t i = true → Matches t (.test q) i i

theorem Matches.le {t : List Nat} {r : Re} {i j : Nat} (h : Matches t r i j) : i ≤ j := by
  induction h <;> omega

theorem lt_length_of_getElem? {t : List Nat} {i c : Nat} (h : t[i]? = some c) : i < t.length := by
  rcases Nat.lt_or_ge i t.length with h' | h'
  · exact h'
  · rw [List.getElem?_eq_none_iff.2 h'] at h; cases h

theorem Matches.bound {t : List Nat} {r : Re} {i j : Nat} (h : Matches t r i j) (hi : i ≤ t.length) :
    j ≤ t.length := by
  induction h with
  | chr h _ => exact lt_length_of_getElem? h
  | seq _ _ ih1 ih2 => exact ih2 (ih1 hi)
  | upToS _ _ _ ih1 ih2 => exact ih2 (ih1 hi)
  | starS _ _ _ ih1 ih2 => exact ih2 (ih1 hi)
  | altL _ ih => exact ih hi
  | altR _ ih => exact ih hi
  | grp _ ih => exact ih hi
  | _ => exact hi

/-- the shortest text a pattern can match -/
def minLen : Re → Nat
  | .eps => 0
  | .chr _ => 1
  | .seq a b => minLen a + minLen b
  | .alt a b => min (minLen a) (minLen b)
  | .upTo _ _ => 0
  | .star _ => 0
  | .grp _ a => minLen a
  | .test _ => 0

theorem Matches.minLen_le {t : List Nat} {r : Re} {i j : Nat} (h : Matches t r i j) :
    i + minLen r ≤ j := by
  induction h with
  | upToS _ _ h3 _ _ => have := h3.le; simp only [minLen]; omega
  | starS _ _ h3 _ _ => have := h3.le; simp only [minLen]; omega
  | _ => simp only [minLen] at *; omega

theorem rep_sound {t : List Nat} {a : Re} (ih : ∀ s s', s' ∈ run t a s → Matches t a s.pos s'.pos)
    {n : Nat} {s s' : St} (h : s' ∈ rep (run t a) n s) : Matches t (.upTo n a) s.pos s'.pos := by
  induction n generalizing s with
  | zero => simp [rep] at h; subst h; exact .upToZ
  | succ n ihn =>
    simp only [rep, List.mem_append, List.mem_flatMap, List.mem_singleton] at h
    rcases h with ⟨s1, h1, h2⟩ | h
    · split at h2
      · exact .upToS (ih s s1 h1) (by assumption) (ihn h2)
      · simp at h2
    · subst h; exact .upToZ

theorem upTo_to_star {t : List Nat} {a : Re} {n i j : Nat} (h : Matches t (.upTo n a) i j) :
    Matches t (.star a) i j := by
  generalize hr : Re.upTo n a = r at h
  induction h generalizing n with
  | upToZ => cases hr; exact .starZ
  | upToS h1 h2 _ _ ih => cases hr; exact .starS h1 h2 (ih rfl)
  | _ => cases hr

theorem run_sound {t : List Nat} {r : Re} {s s' : St} (h : s' ∈ run t r s) :
    Matches t r s.pos s'.pos := by
  induction r generalizing s s' with
  | eps => simp [run] at h; subst h; exact .eps _
  | chr p =>
    simp only [run] at h
    split at h
    · split at h
      · simp at h; subst h; exact .chr (by assumption) (by assumption)
      · simp at h
    · simp at h
  | seq a b iha ihb =>
    simp only [run, List.mem_flatMap] at h
    obtain ⟨s1, h1, h2⟩ := h
    exact .seq (iha h1) (ihb h2)
  | alt a b iha ihb =>
    simp only [run, List.mem_append] at h
    rcases h with h | h
    · exact .altL (iha h)
    · exact .altR (ihb h)
  | upTo n a ih => exact rep_sound (fun _ _ => ih) h
  | star a ih => exact upTo_to_star (rep_sound (fun _ _ => ih) h)
  | grp k a ih =>
    simp only [run, List.mem_map] at h
    obtain ⟨s1, h1, rfl⟩ := h
    exact .grp (ih (s' := s1) h1)
  | test q =>
    simp only [run] at h
    split at h
    · simp at h; subst h; exact .test (by assumption)
    · simp at h

theorem rep_complete {t : List Nat} {a : Re}
    (ih : ∀ (s : St) j, Matches t a s.pos j → ∃ s' ∈ run t a s, s'.pos = j)
    {n : Nat} {s : St} {k : Nat} (h : Matches t (.upTo n a) s.pos k) :
    ∃ s' ∈ rep (run t a) n s, s'.pos = k := by
  induction n generalizing s with
  | zero => cases h; exact ⟨s, by simp [rep], rfl⟩
  | succ n ihn =>
    cases h with
    | upToZ => exact ⟨s, by simp [rep], rfl⟩
    | upToS h1 h2 h3 =>
      obtain ⟨s1, hs1, hp⟩ := ih s _ h1
      subst hp
      obtain ⟨s2, hs2, hp2⟩ := ihn h3
      refine ⟨s2, ?_, hp2⟩
      simp only [rep, List.mem_append, List.mem_flatMap]
      exact .inl ⟨s1, hs1, by rw [if_pos h2]; exact hs2⟩

theorem star_to_upTo {t : List Nat} {a : Re} {i k : Nat} (h : Matches t (.star a) i k) :
    ∀ n, k - i ≤ n → Matches t (.upTo n a) i k := by
  generalize hr : Re.star a = r at h
  induction h with
  | starZ => cases hr; intro n _; exact .upToZ
  | starS h1 h2 h3 _ ih =>
    cases hr
    intro n hn
    have := h3.le
    cases n with
    | zero => omega
    | succ n => exact .upToS h1 h2 (ih rfl n (by omega))
  | _ => cases hr

theorem run_complete {t : List Nat} {r : Re} {s : St} {j : Nat} (h : Matches t r s.pos j) :
    ∃ s' ∈ run t r s, s'.pos = j := by
  induction r generalizing s j with
  | eps => cases h; exact ⟨s, by simp [run], rfl⟩
  | chr p =>
    cases h with
    | chr h1 h2 => exact ⟨_, by simp only [run, h1, h2, if_true, List.mem_singleton]; rfl, rfl⟩
  | seq a b iha ihb =>
    cases h with
    | seq h1 h2 =>
      obtain ⟨s1, hs1, rfl⟩ := iha h1
      obtain ⟨s2, hs2, rfl⟩ := ihb h2
      exact ⟨s2, by simp only [run, List.mem_flatMap]; exact ⟨s1, hs1, hs2⟩, rfl⟩
  | alt a b iha ihb =>
    cases h with
    | altL h1 =>
      obtain ⟨s1, hs1, hp⟩ := iha h1
      exact ⟨s1, by simp only [run, List.mem_append]; exact .inl hs1, hp⟩
    | altR h1 =>
      obtain ⟨s1, hs1, hp⟩ := ihb h1
      exact ⟨s1, by simp only [run, List.mem_append]; exact .inr hs1, hp⟩
  | upTo n a ih => exact rep_complete (fun _ _ => ih) h
  | star a ih =>
    by_cases hi : s.pos ≤ t.length
    · have hb := h.bound hi
      exact rep_complete (fun _ _ => ih) (star_to_upTo h t.length (by omega))
    · -- beyond the end nothing can be consumed
      have : ∀ {r : Re} {i k : Nat}, Matches t r i k → t.length < i → k = i := by
        intro r i k hm
        induction hm with
        | chr h _ => intro hl; have := lt_length_of_getElem? h; omega
        | seq _ _ ih1 ih2 => intro hl; have := ih1 hl; subst this; exact ih2 hl
        | upToS _ _ _ ih1 ih2 => intro hl; have := ih1 hl; subst this; exact ih2 hl
        | starS _ _ _ ih1 ih2 => intro hl; have := ih1 hl; subst this; exact ih2 hl
        | altL _ ih => exact ih
        | altR _ ih => exact ih
        | grp _ ih => exact ih
        | _ => intro _; rfl
      have hj := this h (by omega)
      subst hj
      refine ⟨s, ?_, rfl⟩
      simp only [run]
      cases t.length <;> simp [rep]
  | grp k a ih =>
    cases h with
    | grp h1 =>
      obtain ⟨s1, hs1, hp⟩ := ih h1
      exact ⟨⟨s1.pos, (k, s.pos, s1.pos) :: s1.groups⟩,
        by simp only [run, List.mem_map]; exact ⟨s1, hs1, rfl⟩, hp⟩
  | test q =>
    cases h with
    | test h1 => exact ⟨s, by simp [run, h1], rfl⟩

/-- the matcher finds exactly the matches -/
theorem run_iff {t : List Nat} {r : Re} {s : St} {j : Nat} :
    (∃ s' ∈ run t r s, s'.pos = j) ↔ Matches t r s.pos j :=
  ⟨by rintro ⟨s', h, rfl⟩; exact run_sound h, run_complete⟩

/-! ### match and search -/

theorem matchAt_some {r : Re} {t : List Nat} {i : Nat} {m : Match} (h : matchAt r t i = some m) :
    m.start = i ∧ Matches t r i m.stop := by
  unfold matchAt at h
  cases hr : run t r ⟨i, []⟩ with
  | nil => rw [hr] at h; simp at h
  | cons s rest =>
    rw [hr] at h
    simp at h
    subst h
    have : s ∈ run t r ⟨i, []⟩ := by rw [hr]; simp
    exact ⟨rfl, run_sound this⟩

theorem matchAt_none {r : Re} {t : List Nat} {i : Nat} :
    matchAt r t i = none ↔ ∀ j, ¬ Matches t r i j := by
  unfold matchAt
  constructor
  · intro h j hm
    obtain ⟨s', hs, _⟩ := run_complete (s := ⟨i, []⟩) hm
    cases hr : run t r ⟨i, []⟩ with
    | nil => rw [hr] at hs; simp at hs
    | cons s rest => rw [hr] at h; simp at h
  · intro h
    cases hr : run t r ⟨i, []⟩ with
    | nil => rfl
    | cons s rest =>
      have : s ∈ run t r ⟨i, []⟩ := by rw [hr]; simp
      exact absurd (run_sound this) (h _)

theorem searchFrom_some {r : Re} {t : List Nat} {n i : Nat} {m : Match}
    (h : searchFrom r t n i = some m) :
    i ≤ m.start ∧ m.start < i + n ∧ matchAt r t m.start = some m ∧
      ∀ k, i ≤ k → k < m.start → matchAt r t k = none := by
  induction n generalizing i with
  | zero => simp [searchFrom] at h
  | succ n ih =>
    simp only [searchFrom] at h
    cases hm : matchAt r t i with
    | some m' =>
      rw [hm] at h
      simp at h
      subst h
      have := (matchAt_some hm).1
      exact ⟨by omega, by omega, by rw [this]; exact hm, by intro k h1 h2; omega⟩
    | none =>
      rw [hm] at h
      simp at h
      have := ih h
      refine ⟨by omega, by omega, this.2.2.1, ?_⟩
      intro k h1 h2
      by_cases hk : k = i
      · subst hk; exact hm
      · exact this.2.2.2 k (by omega) h2

theorem searchFrom_none {r : Re} {t : List Nat} {n i : Nat} :
    searchFrom r t n i = none ↔ ∀ k, i ≤ k → k < i + n → matchAt r t k = none := by
  induction n generalizing i with
  | zero => simp [searchFrom]; intro k h1 h2; omega
  | succ n ih =>
    simp only [searchFrom]
    constructor
    · intro h k h1 h2
      cases hm : matchAt r t i with
      | some m' => rw [hm] at h; simp at h
      | none =>
        rw [hm] at h
        simp at h
        by_cases hk : k = i
        · subst hk; exact hm
        · exact ih.1 h k (by omega) (by omega)
    · intro h
      rw [h i (Nat.le_refl _) (by omega), Option.none_or]
      exact ih.2 (fun k h1 h2 => h k (by omega) (by omega))

/-- `search` finds a match, at the leftmost position where there is one. -/
theorem search_some {r : Re} {t : List Nat} {i : Nat} {m : Match} (h : search r t i = some m) :
    i ≤ m.start ∧ m.stop ≤ t.length ∧ Matches t r m.start m.stop ∧
      ∀ k, i ≤ k → k < m.start → ∀ j, ¬ Matches t r k j := by
  obtain ⟨h1, h2, h3, h4⟩ := searchFrom_some h
  have hm := (matchAt_some h3).2
  exact ⟨h1, hm.bound (by omega), hm, fun k a b => matchAt_none.1 (h4 k a b)⟩

/-- `search` finds nothing exactly if there is no match. -/
theorem search_none {r : Re} {t : List Nat} {i : Nat} :
    search r t i = none ↔ ∀ k, i ≤ k → k ≤ t.length → ∀ j, ¬ Matches t r k j := by
  unfold search
  rw [searchFrom_none]
  constructor
  · intro h k h1 h2; exact matchAt_none.1 (h k h1 (by omega))
  · intro h k h1 h2; exact matchAt_none.2 (h k h1 (by omega))

/-- There is a match somewhere. -/
def Occurs (r : Re) (t : List Nat) : Prop := ∃ i j, i ≤ t.length ∧ Matches t r i j

theorem search_zero_none {r : Re} {t : List Nat} : search r t 0 = none ↔ ¬ Occurs r t := by
  rw [search_none]
  constructor
  · rintro h ⟨i, j, h1, h2⟩; exact h i (Nat.zero_le _) h1 j h2
  · intro h k _ h1 j h2; exact h ⟨k, j, h1, h2⟩

theorem all_eq_nil {r : Re} {t : List Nat} : all r t = [] ↔ ¬ Occurs r t := by
  unfold all
  rw [← search_zero_none]
  simp only [allFrom]
  cases search r t 0 <;> simp

/-! ### Literals and classes, in terms of the text -/

theorem matches_seq {t : List Nat} {a b : Re} {i k : Nat} :
    Matches t (.seq a b) i k ↔ ∃ j, Matches t a i j ∧ Matches t b j k :=
  ⟨by intro h; cases h with | seq h1 h2 => exact ⟨_, h1, h2⟩,
   by rintro ⟨j, h1, h2⟩; exact .seq h1 h2⟩

theorem matches_alt {t : List Nat} {a b : Re} {i k : Nat} :
    Matches t (.alt a b) i k ↔ Matches t a i k ∨ Matches t b i k :=
  ⟨by intro h; cases h with
      | altL h => exact .inl h
      | altR h => exact .inr h,
   by rintro (h | h); exact .altL h; exact .altR h⟩

theorem matches_grp {t : List Nat} {n : Nat} {a : Re} {i k : Nat} :
    Matches t (.grp n a) i k ↔ Matches t a i k :=
  ⟨by intro h; cases h with | grp h => exact h, .grp⟩

theorem matches_test {t : List Nat} {q : List Nat → Nat → Bool} {i k : Nat} :
    Matches t (.test q) i k ↔ k = i ∧ q t i = true :=
  ⟨by intro h; cases h with | test h => exact ⟨rfl, h⟩, by rintro ⟨rfl, h⟩; exact .test h⟩

theorem matches_eps {t : List Nat} {i k : Nat} : Matches t .eps i k ↔ k = i :=
  ⟨by intro h; cases h; rfl, by rintro rfl; exact .eps _⟩

theorem matches_chr {t : List Nat} {p : Nat → Bool} {i k : Nat} :
    Matches t (.chr p) i k ↔ k = i + 1 ∧ ∃ c, t[i]? = some c ∧ p c = true :=
  ⟨by intro h; cases h with | chr h1 h2 => exact ⟨rfl, _, h1, h2⟩,
   by rintro ⟨rfl, c, h1, h2⟩; exact .chr h1 h2⟩

/-- The text read from position i is s followed by something. -/
def ReadsAt (t : List Nat) (i : Nat) (s : List Nat) : Prop := ∃ post, t.drop i = s ++ post

theorem drop_eq_cons_iff {t : List Nat} {i c : Nat} {rest : List Nat} :
    t.drop i = c :: rest ↔ t[i]? = some c ∧ t.drop (i + 1) = rest := by
  constructor
  · intro h
    have h1 : (t.drop i)[0]? = some c := by rw [h]; rfl
    rw [List.getElem?_drop] at h1
    refine ⟨by simpa using h1, ?_⟩
    have h2 : (t.drop i).drop 1 = rest := by rw [h]; rfl
    rwa [List.drop_drop] at h2
  · rintro ⟨h1, h2⟩
    have hl := lt_length_of_getElem? h1
    rw [List.drop_eq_getElem_cons hl, h2]
    rw [List.getElem?_eq_getElem hl] at h1
    cases h1; rfl

theorem readsAt_nil (t : List Nat) (i : Nat) : ReadsAt t i [] := ⟨t.drop i, rfl⟩

theorem readsAt_cons {t : List Nat} {i c : Nat} {s : List Nat} :
    ReadsAt t i (c :: s) ↔ t[i]? = some c ∧ ReadsAt t (i + 1) s := by
  constructor
  · rintro ⟨post, h⟩
    rw [List.cons_append, drop_eq_cons_iff] at h
    exact ⟨h.1, post, h.2⟩
  · rintro ⟨h1, post, h2⟩
    exact ⟨post, by rw [List.cons_append, drop_eq_cons_iff]; exact ⟨h1, h2⟩⟩

theorem readsAt_append {t : List Nat} {i : Nat} {a b : List Nat} :
    ReadsAt t i (a ++ b) ↔ ReadsAt t i a ∧ ReadsAt t (i + a.length) b := by
  induction a generalizing i with
  | nil => simp [readsAt_nil]
  | cons c a ih =>
    rw [List.cons_append, readsAt_cons, ih, readsAt_cons, and_assoc]
    rw [show i + 1 + a.length = i + (c :: a).length by simp; omega]

theorem matches_lit {t : List Nat} {s : List Nat} {i j : Nat} :
    Matches t (.lit s) i j ↔ j = i + s.length ∧ ReadsAt t i s := by
  induction s generalizing i j with
  | nil => simp [Re.lit, matches_eps, readsAt_nil]
  | cons c s ih =>
    cases s with
    | nil =>
      simp only [Re.lit, matches_chr, readsAt_cons, List.length_cons, List.length_nil]
      constructor
      · rintro ⟨h, c', h1, h2⟩
        simp at h2; subst h2
        exact ⟨by omega, h1, readsAt_nil _ _⟩
      · rintro ⟨h, h1, _⟩
        exact ⟨by omega, c, h1, by simp⟩
    | cons d s =>
      simp only [Re.lit, matches_seq, matches_chr]
      constructor
      · rintro ⟨k, ⟨rfl, c', h1, h2⟩, h3⟩
        simp at h2; subst h2
        obtain ⟨h4, h5⟩ := ih.1 h3
        exact ⟨by simp only [List.length_cons] at h4 ⊢; omega, readsAt_cons.2 ⟨h1, h5⟩⟩
      · rintro ⟨h, h1⟩
        rw [readsAt_cons] at h1
        exact ⟨i + 1, ⟨rfl, c, h1.1, by simp⟩,
          ih.2 ⟨by simp only [List.length_cons] at h ⊢; omega, h1.2⟩⟩

theorem matches_upTo_chr {t : List Nat} {p : Nat → Bool} {n i j : Nat} :
    Matches t (.upTo n (.chr p)) i j ↔
      ∃ s : List Nat, s.length ≤ n ∧ j = i + s.length ∧ (∀ c ∈ s, p c = true) ∧ ReadsAt t i s := by
  induction n generalizing i with
  | zero =>
    constructor
    · intro h; cases h; exact ⟨[], by simp, by simp, by simp, readsAt_nil _ _⟩
    · rintro ⟨s, h1, h2, _, _⟩
      have : s.length = 0 := by omega
      rw [this] at h2; subst h2; exact .upToZ
  | succ n ih =>
    constructor
    · intro h
      cases h with
      | upToZ => exact ⟨[], by simp, by simp, by simp, readsAt_nil _ _⟩
      | upToS h1 h2 h3 =>
        obtain ⟨hj, c, hc, hp⟩ := matches_chr.1 h1
        subst hj
        obtain ⟨s, h4, h5, h6, h7⟩ := ih.1 h3
        refine ⟨c :: s, by simp; omega, by simp; omega, ?_, readsAt_cons.2 ⟨hc, h7⟩⟩
        intro d hd
        rcases List.mem_cons.1 hd with rfl | hd
        · exact hp
        · exact h6 d hd
    · rintro ⟨s, h1, h2, h3, h4⟩
      cases s with
      | nil => simp at h2; subst h2; exact .upToZ
      | cons c s =>
        rw [readsAt_cons] at h4
        simp only [List.length_cons] at h1 h2
        exact .upToS (.chr h4.1 (h3 c (by simp))) (by omega)
          (ih.2 ⟨s, by omega, by omega, fun d hd => h3 d (List.mem_cons_of_mem _ hd), h4.2⟩)

theorem matches_star_chr {t : List Nat} {p : Nat → Bool} {i j : Nat} :
    Matches t (.star (.chr p)) i j ↔
      ∃ s : List Nat, j = i + s.length ∧ (∀ c ∈ s, p c = true) ∧ ReadsAt t i s := by
  constructor
  · intro h
    obtain ⟨s, _, h2⟩ := matches_upTo_chr.1 (star_to_upTo h (j - i) (Nat.le_refl _))
    exact ⟨s, h2⟩
  · rintro ⟨s, h2⟩
    exact upTo_to_star (matches_upTo_chr.2 ⟨s, Nat.le_refl _, h2⟩)

theorem matches_plus_chr {t : List Nat} {p : Nat → Bool} {i j : Nat} :
    Matches t (.plus (.chr p)) i j ↔
      ∃ s : List Nat, s ≠ [] ∧ j = i + s.length ∧ (∀ c ∈ s, p c = true) ∧ ReadsAt t i s := by
  simp only [Re.plus, matches_seq, matches_chr, matches_star_chr]
  constructor
  · rintro ⟨k, ⟨rfl, c, hc, hp⟩, s, h1, h2, h3⟩
    refine ⟨c :: s, by simp, by simp; omega, ?_, readsAt_cons.2 ⟨hc, h3⟩⟩
    intro d hd
    rcases List.mem_cons.1 hd with rfl | hd
    · exact hp
    · exact h2 d hd
  · rintro ⟨s, hne, h1, h2, h3⟩
    cases s with
    | nil => exact absurd rfl hne
    | cons c s =>
      rw [readsAt_cons] at h3
      simp only [List.length_cons] at h1
      exact ⟨i + 1, ⟨rfl, c, h3.1, h2 c (by simp)⟩, s, by omega,
        fun d hd => h2 d (List.mem_cons_of_mem _ hd), h3.2⟩

/-! ### The first match found -/

theorem head_flatMap {α β : Type} {l : List α} {f : α → List β} {x : β}
    (h : (l.flatMap f).head? = some x) : ∃ a ∈ l, (f a).head? = some x := by
  induction l with
  | nil => simp at h
  | cons a l ih =>
    rw [List.flatMap_cons] at h
    cases hf : f a with
    | nil =>
      rw [hf, List.nil_append] at h
      obtain ⟨b, hb, hx⟩ := ih h
      exact ⟨b, List.mem_cons_of_mem _ hb, hx⟩
    | cons y ys =>
      rw [hf] at h
      refine ⟨a, by simp, ?_⟩
      rw [hf]
      simpa using h

/-- a greedy repetition of a class stops only where the class does, or after n rounds -/
theorem rep_chr_head {t : List Nat} {p : Nat → Bool} {n : Nat} {s s' : St}
    (h : (rep (run t (.chr p)) n s).head? = some s') :
    s'.pos = s.pos + n ∨ ∀ c, t[s'.pos]? = some c → p c = false := by
  induction n generalizing s with
  | zero => simp [rep] at h; subst h; exact .inl rfl
  | succ n ih =>
    simp only [rep] at h
    cases hc : t[s.pos]? with
    | none =>
      simp [run, hc] at h
      subst h
      right; intro c h'; rw [hc] at h'; cases h'
    | some c =>
      cases hp : p c with
      | false =>
        simp [run, hc, hp] at h
        subst h
        right; intro d h'; rw [hc] at h'; cases h'; exact hp
      | true =>
        have hr : run t (.chr p) s = [⟨s.pos + 1, s.groups⟩] := by simp [run, hc, hp]
        rw [hr] at h
        simp only [List.flatMap_cons, List.flatMap_nil, List.append_nil, Nat.lt_succ_self,
          if_true] at h
        have hne : rep (run t (.chr p)) n ⟨s.pos + 1, s.groups⟩ ≠ [] := by cases n <;> simp [rep]
        rw [List.head?_append, Option.or_of_isSome (by simpa using hne)] at h
        rcases ih h with h | h
        · left; simp at h; omega
        · exact .inr h

/-- a greedy star of a class stops only where the class does -/
theorem star_chr_head {t : List Nat} {p : Nat → Bool} {s s' : St}
    (h : (run t (.star (.chr p)) s).head? = some s') :
    ∀ c, t[s'.pos]? = some c → p c = false := by
  rcases rep_chr_head h with h | h
  · intro c hc
    have := lt_length_of_getElem? hc
    omega
  · exact h

/-- patterns without groups -/
def noGrp : Re → Bool
  | .seq a b => noGrp a && noGrp b
  | .alt a b => noGrp a && noGrp b
  | .upTo _ a => noGrp a
  | .star a => noGrp a
  | .grp _ _ => false
  | _ => true

theorem rep_groups {f : St → List St} (hf : ∀ s s', s' ∈ f s → s'.groups = s.groups)
    {n : Nat} {s s' : St} (h : s' ∈ rep f n s) : s'.groups = s.groups := by
  induction n generalizing s with
  | zero => simp [rep] at h; rw [h]
  | succ n ih =>
    simp only [rep, List.mem_append, List.mem_flatMap, List.mem_singleton] at h
    rcases h with ⟨s1, h1, h2⟩ | h
    · split at h2
      · rw [ih h2, hf _ _ h1]
      · simp at h2
    · rw [h]

theorem run_groups {t : List Nat} {r : Re} (hr : noGrp r = true) {s s' : St}
    (h : s' ∈ run t r s) : s'.groups = s.groups := by
  induction r generalizing s s' with
  | eps => simp [run] at h; rw [h]
  | chr p =>
    simp only [run] at h
    split at h
    · split at h
      · simp at h; rw [h]
      · simp at h
    · simp at h
  | seq a b iha ihb =>
    simp only [noGrp, Bool.and_eq_true] at hr
    simp only [run, List.mem_flatMap] at h
    obtain ⟨s1, h1, h2⟩ := h
    rw [ihb hr.2 h2, iha hr.1 h1]
  | alt a b iha ihb =>
    simp only [noGrp, Bool.and_eq_true] at hr
    simp only [run, List.mem_append] at h
    rcases h with h | h
    · exact iha hr.1 h
    · exact ihb hr.2 h
  | upTo n a ih => exact rep_groups (fun _ _ => ih hr) h
  | star a ih => exact rep_groups (fun _ _ => ih hr) h
  | grp k a ih => cases hr
  | test q =>
    simp only [run] at h
    split at h
    · simp at h; rw [h]
    · simp at h

/-- s occurs in t -/
def Contains (t s : List Nat) : Prop := ∃ pre post, t = pre ++ s ++ post

theorem contains_iff_readsAt {t s : List Nat} : Contains t s ↔ ∃ i, i ≤ t.length ∧ ReadsAt t i s := by
  constructor
  · rintro ⟨pre, post, rfl⟩
    refine ⟨pre.length, by simp, post, ?_⟩
    rw [List.append_assoc, List.drop_left]
  · rintro ⟨i, _, post, h⟩
    exact ⟨t.take i, post, by rw [List.append_assoc, ← h, List.take_append_drop]⟩

theorem readsAt_slice {t s : List Nat} {i : Nat} (h : ReadsAt t i s) :
    slice t i (i + s.length) = s := by
  obtain ⟨post, h⟩ := h
  unfold slice
  rw [h, show i + s.length - i = s.length by omega, List.take_left]

theorem readsAt_iff_slice {t s : List Nat} {i : Nat} :
    ReadsAt t i s ↔ slice t i (i + s.length) = s := by
  refine ⟨readsAt_slice, fun h => ⟨(t.drop i).drop s.length, ?_⟩⟩
  unfold slice at h
  rw [show i + s.length - i = s.length by omega] at h
  conv => lhs; rw [← List.take_append_drop s.length (t.drop i), h]

end Py.Re
