import Verif.Py.Basic
import Mathlib.Data.List.Perm.Basic
import Mathlib.Order.Basic

/-
`list.sort` when `<` may raise.

A sort by comparisons is a decision tree: it asks whether one element is less than
another, goes on depending on the answer, and ends with the arranged list.  What
CPython documents of `sort` is that it uses `<` alone, that it raises what a
comparison raises, and that with an ordering the result is a rearrangement in
ascending order; the order in which elements are compared is not documented.  So
nothing more than that is assumed (`Sorts`), and the theorems hold for every tree.
-/

namespace Py

/-- A run of a comparison sort. -/
inductive Cmp (α : Type) where
  | done (l : List α)
  | ask (a b : α) (yes no : Cmp α)

namespace Cmp
variable {α : Type}

/-- The run with a `<` that always answers. -/
def run (lt : α → α → Bool) : Cmp α → List α
  | done l => l
  | ask a b yes no => if lt a b then yes.run lt else no.run lt

/-- The run with a `<` that may raise: the exception ends the sort. -/
def exec (lt : α → α → Except Err Bool) : Cmp α → Except Err (List α)
  | done l => .ok l
  | ask a b yes no =>
    match lt a b with
    | .error e => .error e
    | .ok true => yes.exec lt
    | .ok false => no.exec lt

/-- Only pairs of elements satisfying `P` are compared. -/
def Asks (P : α → Prop) : Cmp α → Prop
  | done _ => True
  | ask a b yes no => P a ∧ P b ∧ yes.Asks P ∧ no.Asks P

end Cmp

/-- `lt` is the strict part of an ordering (in which different elements may tie). -/
structure StrictOrder {α : Type} (lt : α → α → Bool) : Prop where
  asymm : ∀ a b, lt a b = true → lt b a = false
  negTrans : ∀ a b c, lt a b = false → lt b c = false → lt a c = false

/-- A sort: for every list a tree that compares elements of the list, and that with
any ordering rearranges the list into ascending order. -/
structure Sorts {α : Type} (S : List α → Cmp α) : Prop where
  asks : ∀ l, (S l).Asks (· ∈ l)
  perm : ∀ l lt, StrictOrder lt → ((S l).run lt).Perm l
  sorted : ∀ l lt, StrictOrder lt → ((S l).run lt).Pairwise (fun a b => lt b a = false)

/-! ### There is such a sort: insertion -/

namespace Cmp
variable {α : Type}

/-- Insert `x` into `l`, having passed `pre`; then go on. -/
def insert (x : α) (pre : List α) : List α → (List α → Cmp α) → Cmp α
  | [], k => k (pre ++ [x])
  | y :: ys, k => ask x y (k (pre ++ x :: y :: ys)) (insert x (pre ++ [y]) ys k)

/-- Insert the elements one after the other. -/
def insertAll : List α → List α → Cmp α
  | [], acc => done acc
  | x :: xs, acc => insert x [] acc (insertAll xs)

theorem asks_insert {P : α → Prop} (x : α) (hx : P x) (l : List α) (k : List α → Cmp α) :
    ∀ pre, (∀ y ∈ l, P y) → (∀ m : List α, m.Perm (pre ++ x :: l) → (k m).Asks P) →
      (insert x pre l k).Asks P := by
  induction l with
  | nil => intro pre _ hk; exact hk _ (List.Perm.refl _)
  | cons y ys ih =>
    intro pre hl hk
    refine ⟨hx, hl y (by simp), hk _ (List.Perm.refl _), ih _ (fun z hz => hl z (by simp [hz])) ?_⟩
    intro m hm
    apply hk
    refine hm.trans ?_
    rw [List.append_assoc]
    exact (List.Perm.swap x y ys).append_left pre

theorem asks_insertAll {P : α → Prop} (xs : List α) :
    ∀ acc, (∀ x ∈ xs, P x) → (∀ x ∈ acc, P x) → (insertAll xs acc).Asks P := by
  induction xs with
  | nil => intro acc _ _; trivial
  | cons x xs ih =>
    intro acc hxs hacc
    refine asks_insert x (hxs x (by simp)) acc _ [] hacc fun m hm => ?_
    refine ih m (fun y hy => hxs y (by simp [hy])) fun y hy => ?_
    have := hm.subset hy
    rcases List.mem_cons.1 this with rfl | h
    · exact hxs _ (by simp)
    · exact hacc y h

theorem run_insert (lt : α → α → Bool) (h : StrictOrder lt) (x : α) (l : List α)
    (k : List α → Cmp α) :
    ∀ pre, (pre ++ l).Pairwise (fun a b => lt b a = false) → (∀ a ∈ pre, lt x a = false) →
      ∃ m, (insert x pre l k).run lt = (k m).run lt ∧ m.Perm (pre ++ x :: l) ∧
        m.Pairwise (fun a b => lt b a = false) := by
  induction l with
  | nil =>
    intro pre hp hx
    refine ⟨pre ++ [x], rfl, List.Perm.refl _, ?_⟩
    rw [List.append_nil] at hp
    rw [List.pairwise_append]
    exact ⟨hp, by simp, fun a ha b hb => by simp at hb; subst hb; exact hx a ha⟩
  | cons y ys ih =>
    intro pre hp hx
    have hrun : (insert x pre (y :: ys) k).run lt = if lt x y = true
        then (k (pre ++ x :: y :: ys)).run lt else (insert x (pre ++ [y]) ys k).run lt := rfl
    rw [hrun]
    cases hxy : lt x y with
    | true =>
      rw [if_pos rfl]
      refine ⟨_, rfl, List.Perm.refl _, ?_⟩
      rw [List.pairwise_append, List.pairwise_cons] at hp
      obtain ⟨h1, ⟨h2, h3⟩, h4⟩ := hp
      rw [List.pairwise_append, List.pairwise_cons, List.pairwise_cons]
      have hyx := h.asymm x y hxy
      refine ⟨h1, ⟨?_, h2, h3⟩, ?_⟩
      · intro z hz
        rcases List.mem_cons.1 hz with rfl | hz
        · exact hyx
        · exact h.negTrans z y x (h2 z hz) hyx
      · intro a ha b hb
        rcases List.mem_cons.1 hb with rfl | hb
        · exact hx a ha
        · exact h4 a ha b hb
    | false =>
      rw [if_neg (by simp)]
      obtain ⟨m, h1, h2, h3⟩ := ih (pre ++ [y]) (by rw [List.append_assoc]; exact hp)
        (fun a ha => by
          rcases List.mem_append.1 ha with ha | ha
          · exact hx a ha
          · simp at ha; subst ha; exact hxy)
      refine ⟨m, h1, h2.trans ?_, h3⟩
      rw [List.append_assoc]
      exact (List.Perm.swap x y ys).append_left pre

theorem run_insertAll (lt : α → α → Bool) (h : StrictOrder lt) (xs : List α) :
    ∀ acc, acc.Pairwise (fun a b => lt b a = false) →
      ((insertAll xs acc).run lt).Perm (xs ++ acc) ∧
      ((insertAll xs acc).run lt).Pairwise (fun a b => lt b a = false) := by
  induction xs with
  | nil => intro acc hacc; exact ⟨List.Perm.refl _, hacc⟩
  | cons x xs ih =>
    intro acc hacc
    obtain ⟨m, h1, h2, h3⟩ := run_insert lt h x acc (insertAll xs) [] hacc (by simp)
    obtain ⟨h4, h5⟩ := ih m h3
    unfold insertAll
    rw [h1]
    refine ⟨h4.trans ?_, h5⟩
    refine (h2.append_left xs).trans ?_
    exact List.perm_middle

end Cmp

theorem sorts_insertion (α : Type) : Sorts (fun l : List α => Cmp.insertAll l []) where
  asks l := Cmp.asks_insertAll l [] (fun _ h => h) (by simp)
  perm l lt h := by simpa using (Cmp.run_insertAll lt h l [] .nil).1
  sorted l lt h := (Cmp.run_insertAll lt h l [] .nil).2

/-! ### What a sort does with a `<` that raises on some pairs -/

section
variable {α : Type}

/-- A `<` that answers like `lt` whenever it answers. -/
def AgreesWith (plt : α → α → Except Err Bool) (lt : α → α → Bool) : Prop :=
  ∀ a b r, plt a b = .ok r → lt a b = r

theorem exec_ok {plt : α → α → Except Err Bool} {lt : α → α → Bool} (h : AgreesWith plt lt) :
    ∀ (t : Cmp α) {l}, t.exec plt = .ok l → t.run lt = l := by
  intro t
  induction t with
  | done l => intro l' h'; cases h'; rfl
  | ask a b yes no ih1 ih2 =>
    intro l' h'
    unfold Cmp.exec at h'
    unfold Cmp.run
    cases hp : plt a b with
    | error e => rw [hp] at h'; cases h'
    | ok r =>
      rw [hp] at h'
      rw [h a b r hp]
      cases r
      · exact ih2 h'
      · exact ih1 h'

theorem exec_error {plt : α → α → Except Err Bool} {E : Err → Prop}
    (h : ∀ a b e, plt a b = .error e → E e) :
    ∀ (t : Cmp α) {e}, t.exec plt = .error e → E e := by
  intro t
  induction t with
  | done l => intro e h'; cases h'
  | ask a b yes no ih1 ih2 =>
    intro e h'
    unfold Cmp.exec at h'
    cases hp : plt a b with
    | error e' => rw [hp] at h'; cases h'; exact h a b _ hp
    | ok r =>
      rw [hp] at h'
      cases r
      · exact ih2 h'
      · exact ih1 h'

/-- Where all pairs of elements can be compared, the sort succeeds. -/
theorem exec_total {plt : α → α → Except Err Bool} {lt : α → α → Bool} {P : α → Prop}
    (h : ∀ a b, P a → P b → plt a b = .ok (lt a b)) :
    ∀ (t : Cmp α), t.Asks P → t.exec plt = .ok (t.run lt) := by
  intro t
  induction t with
  | done l => intro _; rfl
  | ask a b yes no ih1 ih2 =>
    rintro ⟨ha, hb, h1, h2⟩
    unfold Cmp.exec Cmp.run
    rw [h a b ha hb]
    cases lt a b
    · exact ih2 h2
    · exact ih1 h1

/-- If the answers of `<` are compatible with two orderings that disagree on a pair
of elements of the list, every sort raises: it has to compare some pair that cannot
be compared. -/
theorem exec_raises {S : List α → Cmp α} (hS : Sorts S) {plt : α → α → Except Err Bool}
    {lt lt' : α → α → Bool} (h : StrictOrder lt) (h' : StrictOrder lt')
    (hp : AgreesWith plt lt) (hp' : AgreesWith plt lt') {l : List α} {a b : α} (ha : a ∈ l)
    (hb : b ∈ l) (hab : lt a b = true) (hba : lt' b a = true) :
    ∃ e, (S l).exec plt = .error e := by
  cases hr : (S l).exec plt with
  | error e => exact ⟨e, rfl⟩
  | ok r =>
    exfalso
    have e1 := exec_ok hp _ hr
    have e2 := exec_ok hp' _ hr
    have p := hS.perm l lt h
    have s := hS.sorted l lt h
    have s' := hS.sorted l lt' h'
    rw [e1] at p s
    rw [e2] at s'
    have ha' := p.symm.subset ha
    have hb' := p.symm.subset hb
    have hne : a ≠ b := by
      rintro rfl
      have := h.asymm a a hab
      rw [hab] at this
      cases this
    -- whichever of the two comes first, one of the orderings objects
    have key : ∀ (r : List α), a ∈ r → b ∈ r → r.Pairwise (fun a b => lt b a = false) →
        r.Pairwise (fun a b => lt' b a = false) → False := by
      intro r
      induction r with
      | nil => intro h; cases h
      | cons x t ih =>
        intro ha hb s s'
        rw [List.pairwise_cons] at s s'
        rcases List.mem_cons.1 ha with hax | hat
        · rcases List.mem_cons.1 hb with hbx | hbt
          · exact hne (hax.trans hbx.symm)
          · have := s'.1 b hbt
            rw [← hax, hba] at this; cases this
        · rcases List.mem_cons.1 hb with hbx | hbt
          · have := s.1 a hat
            rw [← hbx, hab] at this; cases this
          · exact ih hat hbt s.2 s'.2
    exact key r ha' hb' s s'

end

end Py
