import Verif.Proof.Scoring
import Verif.Proof.Numeric
import Mathlib.Data.List.Sort
import Mathlib.Data.List.Nodup
import Mathlib.Data.Finset.Card

/- Helper lemmas on clue selection: sorting is canonical, and which clues are
kept. -/

set_option linter.unusedSectionVars false

namespace Sb
open Py

/-! ### mapM in Except -/

section
variable {α β ε : Type}

theorem mapM_ok_iff (g : α → Except ε β) (l : List α) (r : List β) :
    l.mapM g = .ok r ↔ List.Forall₂ (fun x y => g x = .ok y) l r := by
  induction l generalizing r with
  | nil =>
    rw [List.mapM_nil]
    constructor
    · intro h; cases h; exact .nil
    · intro h; cases h; rfl
  | cons a t ih =>
    rw [List.mapM_cons]
    constructor
    · intro h
      cases ha : g a with
      | error e => rw [ha] at h; cases h
      | ok b =>
        rw [ha] at h
        cases ht : t.mapM g with
        | error e => rw [ht] at h; cases h
        | ok bs =>
          rw [ht] at h
          cases h
          exact .cons ha ((ih bs).1 ht)
    · intro h
      cases h with
      | cons hb hbs =>
        rw [hb, (ih _).2 hbs]; rfl

theorem mapM_perm (g : α → Except ε β) {l l' : List α} (h : l.Perm l') :
    ∀ {r : List β}, l.mapM g = .ok r → ∃ r', l'.mapM g = .ok r' ∧ r.Perm r' := by
  induction h with
  | nil => intro r h; exact ⟨r, h, .refl _⟩
  | cons x _ ih =>
    intro r h
    rw [mapM_ok_iff] at h
    cases h with
    | cons hb hbs =>
      obtain ⟨r', h1, h2⟩ := ih ((mapM_ok_iff _ _ _).2 hbs)
      exact ⟨_ :: r', (mapM_ok_iff _ _ _).2 (.cons hb ((mapM_ok_iff _ _ _).1 h1)), h2.cons _⟩
  | swap x y l =>
    intro r h
    rw [mapM_ok_iff] at h
    cases h with
    | cons hb hbs =>
      cases hbs with
      | cons hc hcs =>
        exact ⟨_ :: _ :: _, (mapM_ok_iff _ _ _).2 (.cons hc (.cons hb hcs)), .swap _ _ _⟩
  | trans _ _ ih1 ih2 =>
    intro r h
    obtain ⟨r1, h1, p1⟩ := ih1 h
    obtain ⟨r2, h2, p2⟩ := ih2 h1
    exact ⟨r2, h2, p1.trans p2⟩

theorem mapM_ok_of_forall (g : α → Except ε β) (l : List α) (h : ∀ x ∈ l, ∃ y, g x = .ok y) :
    ∃ r, l.mapM g = .ok r := by
  induction l with
  | nil => exact ⟨[], rfl⟩
  | cons a t ih =>
    obtain ⟨y, hy⟩ := h a (by simp)
    obtain ⟨r, hr⟩ := ih (fun x hx => h x (by simp [hx]))
    exact ⟨y :: r, by rw [List.mapM_cons, hy, hr]; rfl⟩

/-- if some element fails, and all failures are `e`, then mapM fails with `e` -/
theorem mapM_error (g : α → Except ε β) (e : ε) (l : List α)
    (he : ∀ x ∈ l, ∀ e', g x = .error e' → e' = e) (h : ∀ r, l.mapM g ≠ .ok r) :
    l.mapM g = .error e := by
  induction l with
  | nil => exact absurd rfl (h [])
  | cons a t ih =>
    rw [List.mapM_cons]
    cases ha : g a with
    | error e' => rw [he a (by simp) e' ha]; rfl
    | ok b =>
      have : t.mapM g = .error e := by
        apply ih (fun x hx => he x (by simp [hx]))
        intro r hr
        apply h (b :: r)
        rw [List.mapM_cons, ha, hr]; rfl
      rw [this]; rfl

theorem forall2_mem_right {R : α → β → Prop} {l : List α} {r : List β} (h : List.Forall₂ R l r)
    {y : β} (hy : y ∈ r) : ∃ x ∈ l, R x y := by
  induction h with
  | nil => cases hy
  | cons hab _ ih =>
    rcases List.mem_cons.1 hy with rfl | hy
    · exact ⟨_, by simp, hab⟩
    · obtain ⟨x, hx, hr⟩ := ih hy
      exact ⟨x, by simp [hx], hr⟩

theorem forall2_mem_left {R : α → β → Prop} {l : List α} {r : List β} (h : List.Forall₂ R l r)
    {x : α} (hx : x ∈ l) : ∃ y ∈ r, R x y := by
  induction h with
  | nil => cases hx
  | cons hab _ ih =>
    rcases List.mem_cons.1 hx with rfl | hx
    · exact ⟨_, by simp, hab⟩
    · obtain ⟨y, hy, hr⟩ := ih hx
      exact ⟨y, by simp [hy], hr⟩

end

/-! ### clue order -/

section
variable {W K : Type} [LinearOrder W] [Field K] [LinearOrder K]

theorem clueLe_iff (a b : Clue W K) : clueLe a b = true ↔
    a.distance < b.distance ∨ (a.distance = b.distance ∧
      (a.prob < b.prob ∨ (a.prob = b.prob ∧ a.word ≤ b.word))) := by
  simp [clueLe]

theorem clueLe_trans (a b c : Clue W K) (h1 : clueLe a b = true) (h2 : clueLe b c = true) :
    clueLe a c = true := by
  rw [clueLe_iff] at *
  rcases h1 with h1 | ⟨e1, h1⟩
  · rcases h2 with h2 | ⟨e2, h2⟩
    · exact .inl (h1.trans h2)
    · exact .inl (e2 ▸ h1)
  · rcases h2 with h2 | ⟨e2, h2⟩
    · exact .inl (e1 ▸ h2)
    · refine .inr ⟨e1.trans e2, ?_⟩
      rcases h1 with h1 | ⟨f1, h1⟩
      · rcases h2 with h2 | ⟨f2, h2⟩
        · exact .inl (h1.trans h2)
        · exact .inl (f2 ▸ h1)
      · rcases h2 with h2 | ⟨f2, h2⟩
        · exact .inl (f1 ▸ h2)
        · exact .inr ⟨f1.trans f2, h1.trans h2⟩

theorem clueLe_total (a b : Clue W K) : (clueLe a b || clueLe b a) = true := by
  rw [Bool.or_eq_true, clueLe_iff, clueLe_iff]
  rcases lt_trichotomy a.distance b.distance with h | h | h
  · exact .inl (.inl h)
  · rcases lt_trichotomy a.prob b.prob with h' | h' | h'
    · exact .inl (.inr ⟨h, .inl h'⟩)
    · rcases le_total a.word b.word with h'' | h''
      · exact .inl (.inr ⟨h, .inr ⟨h', h''⟩⟩)
      · exact .inr (.inr ⟨h.symm, .inr ⟨h'.symm, h''⟩⟩)
    · exact .inr (.inr ⟨h.symm, .inl h'⟩)
  · exact .inr (.inl h)

theorem clueLe_antisymm_word (a b : Clue W K) (h1 : clueLe a b = true) (h2 : clueLe b a = true) :
    a.word = b.word := by
  rw [clueLe_iff] at *
  rcases h1 with h1 | ⟨e1, h1⟩
  · rcases h2 with h2 | ⟨e2, h2⟩
    · exact absurd h1 (not_lt.2 h2.le)
    · exact absurd e2 h1.ne'
  · rcases h2 with h2 | ⟨e2, h2⟩
    · exact absurd e1 h2.ne'
    · rcases h1 with h1 | ⟨f1, h1⟩
      · rcases h2 with h2 | ⟨f2, h2⟩
        · exact absurd h1 (not_lt.2 h2.le)
        · exact absurd f2 h1.ne'
      · rcases h2 with h2 | ⟨f2, h2⟩
        · exact absurd f1 h2.ne'
        · exact le_antisymm h1 h2

theorem eq_of_word_eq {α β : Type} (f : α → β) {l : List α} (h : (l.map f).Nodup) {a b : α}
    (ha : a ∈ l) (hb : b ∈ l) (hf : f a = f b) : a = b :=
  List.inj_on_of_nodup_map h ha hb hf

theorem sortClues_perm {l l' : List (Clue W K)} (h : l.Perm l') (hn : (l.map (·.word)).Nodup) :
    l.mergeSort clueLe = l'.mergeSort clueLe := by
  have p := ((List.mergeSort_perm l clueLe).trans h).trans (List.mergeSort_perm l' clueLe).symm
  refine p.eq_of_pairwise (le := fun a b => clueLe a b = true) ?_
    (List.pairwise_mergeSort clueLe_trans clueLe_total l)
    (List.pairwise_mergeSort clueLe_trans clueLe_total l')
  intro a b ha hb h1 h2
  refine eq_of_word_eq _ hn (List.mem_mergeSort.1 ha) ?_ (clueLe_antisymm_word a b h1 h2)
  exact h.symm.subset (List.mem_mergeSort.1 hb)

theorem keepStrongest_suffix {α : Type} (l : List α) : ∃ k, keepStrongest l = l.drop k ∧
    (keepStrongest l).length = min l.length 150 ∧ k = l.length - 150 := by
  unfold keepStrongest maxDiscriminators
  split
  · exact ⟨l.length - 150, rfl, by simp; omega, rfl⟩
  · exact ⟨0, by simp, by omega, by omega⟩

end

section
variable {W K : Type} [LinearOrder W] [Field K] [LinearOrder K] {F : FloatOps K}
  {nspam nham : Int} {info : W → Option WordInfo}

theorem pureClue_ok {w : W} {c : Clue W K} (h : pureClue F nspam nham info w = .ok c) :
    c.word = w ∧ pureProb F nspam nham (info w) = .ok c.prob ∧
      c.distance = |F.sub c.prob (F.rnd (1 / 2))| := by
  unfold pureClue at h
  cases hp : pureProb F nspam nham (info w) with
  | error e => rw [hp] at h; cases h
  | ok p => rw [hp] at h; cases h; exact ⟨rfl, rfl, rfl⟩

theorem pureClue_of_prob {w : W} {p : K} (h : pureProb F nspam nham (info w) = .ok p) :
    pureClue F nspam nham info w =
      .ok { distance := |F.sub p (F.rnd (1 / 2))|, prob := p, word := w, record := info w } := by
  unfold pureClue; rw [h]; rfl

theorem pureClue_error {w : W} {e : Err} (h : pureProb F nspam nham (info w) = .error e) :
    pureClue F nspam nham info w = .error e := by
  unfold pureClue; rw [h]; rfl

theorem map_word_of_forall2 {l : List W} {r : List (Clue W K)}
    (h : List.Forall₂ (fun x y => pureClue F nspam nham info x = .ok y) l r) :
    r.map (·.word) = l := by
  induction h with
  | nil => rfl
  | cons hab _ ih => simp [(pureClue_ok hab).1, ih]

theorem unigram_ok {order : List W} {clues : List (Clue W K)} (hn : order.Nodup)
    (h : pureCluesUnigram F nspam nham info order = .ok clues) :
    ∃ all : List (Clue W K),
      List.Forall₂ (fun x y => pureClue F nspam nham info x = .ok y) order all ∧
      (all.map (·.word)).Nodup ∧
      clues = keepStrongest ((all.filter (fun t => decide (t.distance ≥ minimumProbStrength F))).mergeSort
        clueLe) := by
  unfold pureCluesUnigram at h
  cases hm : order.mapM (pureClue F nspam nham info) with
  | error e => rw [hm] at h; cases h
  | ok all =>
    rw [hm] at h
    cases h
    have hf := (mapM_ok_iff _ _ _).1 hm
    exact ⟨all, hf, by rw [map_word_of_forall2 hf]; exact hn, rfl⟩

/-- Unigram clues do not depend on the iteration order. -/
theorem unigram_perm {order order' : List W} (hp : order.Perm order') (hn : order.Nodup)
    {clues : List (Clue W K)} (h : pureCluesUnigram F nspam nham info order = .ok clues) :
    pureCluesUnigram F nspam nham info order' = .ok clues := by
  unfold pureCluesUnigram at h ⊢
  cases hm : order.mapM (pureClue F nspam nham info) with
  | error e => rw [hm] at h; cases h
  | ok all =>
    rw [hm] at h
    obtain ⟨all', hm', pm⟩ := mapM_perm _ hp hm
    rw [hm']
    have hf := (mapM_ok_iff _ _ _).1 hm
    have : (all.map (·.word)).Nodup := by rw [map_word_of_forall2 hf]; exact hn
    rw [← h]
    change Except.ok _ = Except.ok _
    rw [sortClues_perm (pm.filter _)]
    exact (this.sublist (List.filter_sublist.map _))

/-- Unigram clues depend on the strong words only: `order'` may contain further
words, all of them weak. -/
theorem unigram_weaken {order order' extra : List W} (hp : order'.Perm (order ++ extra))
    (hn : order'.Nodup)
    (hweak : ∀ w ∈ extra, ∃ c, pureClue F nspam nham info w = .ok c ∧ c.distance < minimumProbStrength F)
    {clues : List (Clue W K)} (h : pureCluesUnigram F nspam nham info order = .ok clues) :
    pureCluesUnigram F nspam nham info order' = .ok clues := by
  refine unigram_perm hp.symm (hp.nodup_iff.1 hn) ?_
  unfold pureCluesUnigram at h ⊢
  cases hm : order.mapM (pureClue F nspam nham info) with
  | error e => rw [hm] at h; cases h
  | ok all =>
    rw [hm] at h
    obtain ⟨ex, hex⟩ := mapM_ok_of_forall (pureClue F nspam nham info) extra
      (fun w hw => by obtain ⟨c, hc, -⟩ := hweak w hw; exact ⟨c, hc⟩)
    have hf := (mapM_ok_iff _ _ _).1 hm
    have hfe := (mapM_ok_iff _ _ _).1 hex
    have hall : (order ++ extra).mapM (pureClue F nspam nham info) = .ok (all ++ ex) :=
      (mapM_ok_iff _ _ _).2 (List.rel_append hf hfe)
    rw [hall, ← h]
    change Except.ok _ = Except.ok _
    have : ex.filter (fun t => decide (t.distance ≥ minimumProbStrength F)) = [] := by
      rw [List.filter_eq_nil_iff]
      intro c hc
      obtain ⟨w, hw, hwc⟩ := forall2_mem_right hfe hc
      obtain ⟨c', hc', hlt⟩ := hweak w hw
      rw [hwc] at hc'; cases hc'
      simpa using hlt
    rw [List.filter_append, this, List.append_nil]

/-- Which unigram clues are used. -/
theorem unigram_selection {order : List W} {clues : List (Clue W K)} (hn : order.Nodup)
    (h : pureCluesUnigram F nspam nham info order = .ok clues) :
    (clues.map (·.word)).Nodup ∧ clues.length ≤ 150 ∧
    clues.Pairwise (fun a b => clueLe a b = true) ∧
    (∀ c ∈ clues, c.word ∈ order ∧ pureClue F nspam nham info c.word = .ok c ∧
      minimumProbStrength F ≤ c.distance) ∧
    (∀ w ∈ order, ∃ c, pureClue F nspam nham info w = .ok c ∧
      (minimumProbStrength F ≤ c.distance →
        c ∈ clues ∨ (clues.length = 150 ∧ ∀ c' ∈ clues, clueLe c c' = true))) := by
  obtain ⟨all, hf, hnd, rfl⟩ := unigram_ok hn h
  set sel := all.filter (fun t => decide (t.distance ≥ minimumProbStrength F)) with hsel
  set srt := sel.mergeSort clueLe with hsrt
  obtain ⟨k, hk, hlen, hkk⟩ := keepStrongest_suffix srt
  have hsub : (keepStrongest srt).Sublist srt := by rw [hk]; exact List.drop_sublist _ _
  have hpw : srt.Pairwise (fun a b => clueLe a b = true) :=
    List.pairwise_mergeSort clueLe_trans clueLe_total _
  have hndsrt : (srt.map (·.word)).Nodup := by
    have : (srt.map (·.word)).Perm (sel.map (·.word)) := (List.mergeSort_perm _ _).map _
    rw [this.nodup_iff]
    exact hnd.sublist (List.filter_sublist.map _)
  have hmem : ∀ c, c ∈ srt ↔ c ∈ all ∧ minimumProbStrength F ≤ c.distance := by
    intro c; rw [hsrt, List.mem_mergeSort, hsel, List.mem_filter]; simp
  refine ⟨hndsrt.sublist (hsub.map _), by omega, hpw.sublist hsub, ?_, ?_⟩
  · intro c hc
    obtain ⟨hc1, hc2⟩ := (hmem c).1 (hsub.subset hc)
    obtain ⟨w, hw, hwc⟩ := forall2_mem_right hf hc1
    have := (pureClue_ok hwc).1
    subst this
    exact ⟨hw, hwc, hc2⟩
  · intro w hw
    obtain ⟨c, hc, hwc⟩ := forall2_mem_left hf hw
    refine ⟨c, hwc, fun hd => ?_⟩
    have hcs : c ∈ srt := (hmem c).2 ⟨hc, hd⟩
    rw [hk]
    have hcs' := hcs
    rw [← List.take_append_drop k srt, List.mem_append] at hcs'
    rcases hcs' with h1 | h1
    · right
      refine ⟨?_, ?_⟩
      · rw [← hk, hlen]
        have : 0 < k := by
          rcases Nat.eq_zero_or_pos k with h0 | h0
          · rw [h0] at h1; simp at h1
          · exact h0
        omega
      · intro c' hc'
        have hp2 := hpw
        rw [← List.take_append_drop k srt, List.pairwise_append] at hp2
        exact hp2.2.2 c h1 c' hc'
    · exact .inl h1

end

/-! ### bigram mode -/

section
variable {W K : Type} [LinearOrder W] [BigramFormat W] [Field K] [LinearOrder K] {F : FloatOps K}
  {nspam nham : Int} {info : W → Option WordInfo}

/-- A candidate of a text `ws`: a token with its position, or an adjacent pair
with its two positions, that is strong enough. -/
def CandOf (F : FloatOps K) (nspam nham : Int) (info : W → Option WordInfo) (ws : List W)
    (c : Cand W K) : Prop :=
  pureClue F nspam nham info c.clue.word = .ok c.clue ∧ minimumProbStrength F ≤ c.clue.distance ∧
  ((∃ i, ws[i]? = some c.clue.word ∧ c.indices = [i]) ∨
   (∃ i x y, ws[i]? = some x ∧ ws[i + 1]? = some y ∧ c.clue.word = BigramFormat.bi x y ∧
      c.indices = [i, i + 1]))

/-- Loop invariant of the filling loop. -/
structure FillInv (F : FloatOps K) (nspam nham : Int) (info : W → Option WordInfo) (ws : List W)
    (seen : List W) (raw : List (Cand W K)) : Prop where
  cand : ∀ c ∈ raw, CandOf F nspam nham info ws c
  nodup : (raw.map (·.clue.word)).Nodup
  sub : ∀ c ∈ raw, c.clue.word ∈ seen
  complete : ∀ w ∈ seen, ∃ c, pureClue F nspam nham info w = .ok c ∧
    (minimumProbStrength F ≤ c.distance → ∃ d ∈ raw, d.clue = c)

theorem pureConsider_inv {ws seen seen' : List W} {raw raw' : List (Cand W K)} {w : W} {ix : List Nat}
    (hI : FillInv F nspam nham info ws seen raw)
    (hw : (∃ i, ws[i]? = some w ∧ ix = [i]) ∨
      (∃ i x y, ws[i]? = some x ∧ ws[i + 1]? = some y ∧ w = BigramFormat.bi x y ∧ ix = [i, i + 1]))
    (h : pureConsider F nspam nham info w ix seen raw = .ok (seen', raw')) :
    FillInv F nspam nham info ws seen' raw' ∧ w ∈ seen' ∧ ∀ x ∈ seen, x ∈ seen' := by
  unfold pureConsider at h
  split at h
  · rename_i hs
    cases h; exact ⟨hI, hs, fun _ h => h⟩
  · rename_i hs
    cases hc : pureClue F nspam nham info w with
    | error e => rw [hc] at h; cases h
    | ok c =>
      rw [hc] at h
      simp only [bind, Except.bind] at h
      have hcw := (pureClue_ok hc).1
      split at h
      · rename_i hd
        cases h
        refine ⟨⟨?_, ?_, ?_, ?_⟩, by simp, fun x hx => by simp [hx]⟩
        · intro d hd'
          rcases List.mem_append.1 hd' with h1 | h1
          · exact hI.cand d h1
          · simp at h1; subst h1
            simp only [CandOf, hcw]
            exact ⟨hc, hd, hw⟩
        · simp only [List.map_append, List.map_cons, List.map_nil]
          rw [List.nodup_append]
          refine ⟨hI.nodup, by simp, ?_⟩
          intro a ha b hb hab
          simp at hb
          obtain ⟨d, hd1, hd2⟩ := List.mem_map.1 ha
          apply hs
          rw [← hcw, ← hb, ← hab, ← hd2]
          exact hI.sub d hd1
        · intro d hd'
          rcases List.mem_append.1 hd' with h1 | h1
          · simp [hI.sub d h1]
          · simp at h1; subst h1; simp [hcw]
        · intro x hx
          rcases List.mem_cons.1 hx with rfl | hx
          · exact ⟨c, hc, fun _ => ⟨⟨c, ix⟩, by simp, rfl⟩⟩
          · obtain ⟨c', h1, h2⟩ := hI.complete x hx
            refine ⟨c', h1, fun hm => ?_⟩
            obtain ⟨d, hd1, hd2⟩ := h2 hm
            exact ⟨d, by simp [hd1], hd2⟩
      · rename_i hd
        cases h
        refine ⟨⟨hI.cand, hI.nodup, fun d hd' => by simp [hI.sub d hd'], ?_⟩, by simp,
          fun x hx => by simp [hx]⟩
        intro x hx
        rcases List.mem_cons.1 hx with rfl | hx
        · exact ⟨c, hc, fun hm => absurd hm hd⟩
        · exact hI.complete x hx

theorem pureFill_inv {ws : List W} (rest : List W) :
    ∀ (pre : List W) (last : Option W) (seen : List W) (raw raw' : List (Cand W K)),
      ws = pre ++ rest → last = pre.getLast? →
      FillInv F nspam nham info ws seen raw →
      (∀ w ∈ pre, w ∈ seen) → (∀ p ∈ pre.zip pre.tail, BigramFormat.bi p.1 p.2 ∈ seen) →
      pureFill F nspam nham info pre.length last rest seen raw = .ok raw' →
      ∃ seen', FillInv F nspam nham info ws seen' raw' ∧ (∀ w ∈ ws, w ∈ seen') ∧
        (∀ p ∈ ws.zip ws.tail, BigramFormat.bi p.1 p.2 ∈ seen') := by
  induction rest with
  | nil =>
    intro pre last seen raw raw' hws hlast hI h1 h2 h
    cases h
    simp at hws
    subst hws
    exact ⟨seen, hI, h1, h2⟩
  | cons token rest ih =>
    intro pre last seen raw raw' hws hlast hI h1 h2 h
    unfold pureFill at h
    cases hc1 : pureConsider F nspam nham info token [pre.length] seen raw with
    | error e => rw [hc1] at h; cases h
    | ok st1 =>
      rw [hc1] at h
      simp only [bind, Except.bind] at h
      obtain ⟨seen1, raw1⟩ := st1
      have hpos : ws[pre.length]? = some token := by rw [hws]; simp
      obtain ⟨hI1, hm1, hs1⟩ := pureConsider_inv hI (.inl ⟨_, hpos, rfl⟩) hc1
      cases hc2 : purePair F nspam nham info pre.length last token (seen1, raw1) with
      | error e => rw [hc2] at h; cases h
      | ok st2 =>
        rw [hc2] at h
        simp only at h
        obtain ⟨seen2, raw2⟩ := st2
        have key : FillInv F nspam nham info ws seen2 raw2 ∧ (∀ x ∈ seen1, x ∈ seen2) ∧
            (∀ l, last = some l → BigramFormat.bi l token ∈ seen2) := by
          cases last with
          | none => cases hc2; exact ⟨hI1, fun _ h => h, fun l hl => by cases hl⟩
          | some l =>
            have hne : pre ≠ [] := by rintro rfl; simp at hlast
            obtain ⟨p0, hp0⟩ : ∃ p0, pre = p0 ++ [l] := by
              refine ⟨pre.dropLast, ?_⟩
              have hg : pre.getLast hne = l := by
                have := List.getLast?_eq_some_getLast hne
                rw [this] at hlast
                exact (Option.some.inj hlast).symm
              conv_lhs => rw [← List.dropLast_append_getLast hne]
              rw [hg]
            have hlen : pre.length = p0.length + 1 := by rw [hp0]; simp
            have e : [pre.length - 1, pre.length] = [p0.length, p0.length + 1] := by rw [hlen]; rfl
            obtain ⟨a, b, c⟩ := pureConsider_inv hI1 (.inr ⟨p0.length, l, token,
              by rw [hws, hp0]; simp, by rw [← hlen]; exact hpos, rfl, e⟩) hc2
            exact ⟨a, c, fun l' hl' => by cases hl'; exact b⟩
        obtain ⟨hI2, hs2, hp2⟩ := key
        have hws' : ws = (pre ++ [token]) ++ rest := by rw [hws]; simp
        have hlen' : (pre ++ [token]).length = pre.length + 1 := by simp
        rw [← hlen'] at h
        refine ih (pre ++ [token]) (some token) seen2 raw2 raw' hws' (by simp) hI2 ?_ ?_ h
        · intro w hw
          rcases List.mem_append.1 hw with hw | hw
          · exact hs2 _ (hs1 _ (h1 w hw))
          · simp at hw; subst hw; exact hs2 _ hm1
        · intro p hp
          by_cases hne : pre = []
          · subst hne; simp at hp
          · have hz : (pre ++ [token]).zip (pre ++ [token]).tail =
                pre.zip pre.tail ++ [(pre.getLast hne, token)] := by
              clear * - hne
              induction pre with
              | nil => exact absurd rfl hne
              | cons a t ih =>
                cases t with
                | nil => rfl
                | cons b t => 
                  have := ih (by simp)
                  simp only [List.cons_append, List.tail_cons, List.zip_cons_cons] at this ⊢
                  rw [this]
                  simp
            rw [hz] at hp
            rcases List.mem_append.1 hp with hp | hp
            · exact hs2 _ (hs1 _ (h2 p hp))
            · simp at hp; subst hp
              refine hp2 _ ?_
              rw [hlast, List.getLast?_eq_some_getLast hne]

/-- Result of the filling loop. -/
theorem pureFill_ok {ws : List W} {raw : List (Cand W K)}
    (h : pureFill F nspam nham info 0 none ws [] [] = .ok raw) :
    (∀ c ∈ raw, CandOf F nspam nham info ws c) ∧ (raw.map (·.clue.word)).Nodup ∧
    (∀ w, (w ∈ ws ∨ ∃ p ∈ ws.zip ws.tail, w = BigramFormat.bi p.1 p.2) →
      ∃ c, pureClue F nspam nham info w = .ok c ∧
        (minimumProbStrength F ≤ c.distance → ∃ d ∈ raw, d.clue = c)) := by
  obtain ⟨seen, hI, h1, h2⟩ := pureFill_inv (F := F) (nspam := nspam) (nham := nham) (info := info)
    (ws := ws) ws [] none [] [] raw rfl rfl
    ⟨by simp, by simp, by simp, by simp⟩ (by simp) (by simp) h
  refine ⟨hI.cand, hI.nodup, ?_⟩
  rintro w (hw | ⟨p, hp, rfl⟩)
  · exact hI.complete w (h1 w hw)
  · exact hI.complete _ (h2 p hp)

/-- Greedy tiling: accepted candidates are pairwise disjoint and disjoint from
the positions already taken; a rejected one overlaps something taken before. -/
theorem tile_spec (l : List (Cand W K)) :
    ∀ seen, (tile seen l).Sublist l ∧
      (tile seen l).Pairwise (fun a b => List.Disjoint a.indices b.indices) ∧
      (∀ c ∈ tile seen l, List.Disjoint seen c.indices) ∧
      (∀ pre c post, l = pre ++ c :: post → c ∈ tile seen l ∨
        (∃ i ∈ c.indices, i ∈ seen ∨ ∃ d ∈ pre, d ∈ tile seen l ∧ i ∈ d.indices)) := by
  induction l with
  | nil =>
    intro seen
    exact ⟨.refl _, .nil, by simp [tile], by intro pre c post h; simp at h⟩
  | cons a t ih =>
    intro seen
    unfold tile
    split
    · rename_i hov
      obtain ⟨h1, h2, h3, h4⟩ := ih seen
      refine ⟨h1.cons _, h2, h3, ?_⟩
      intro pre c post h
      cases pre with
      | nil =>
        simp at h
        obtain ⟨rfl, rfl⟩ := h
        right
        rw [List.any_eq_true] at hov
        obtain ⟨i, hi, hs⟩ := hov
        exact ⟨i, hi, .inl (by simpa using hs)⟩
      | cons b pre =>
        simp at h
        obtain ⟨rfl, rfl⟩ := h
        rcases h4 pre c post rfl with h5 | ⟨i, hi, h6 | ⟨d, hd, h6, h7⟩⟩
        · exact .inl h5
        · exact .inr ⟨i, hi, .inl h6⟩
        · exact .inr ⟨i, hi, .inr ⟨d, by simp [hd], h6, h7⟩⟩
    · rename_i hov
      obtain ⟨h1, h2, h3, h4⟩ := ih (a.indices ++ seen)
      refine ⟨h1.cons_cons _, ?_, ?_, ?_⟩
      · rw [List.pairwise_cons]
        refine ⟨fun b hb => ?_, h2⟩
        have := h3 b hb
        rw [List.disjoint_append_left] at this
        exact this.1
      · intro c hc
        rcases List.mem_cons.1 hc with rfl | hc
        · intro i hi hi'
          apply hov
          rw [List.any_eq_true]
          exact ⟨i, hi', by simpa using hi⟩
        · have := h3 c hc
          rw [List.disjoint_append_left] at this
          exact this.2
      · intro pre c post h
        cases pre with
        | nil => simp at h; exact .inl (by simp [h.1])
        | cons b pre =>
          simp at h
          obtain ⟨rfl, rfl⟩ := h
          rcases h4 pre c post rfl with h5 | ⟨i, hi, h6 | ⟨d, hd, h6, h7⟩⟩
          · exact .inl (by simp [h5])
          · rcases List.mem_append.1 h6 with h6 | h6
            · exact .inr ⟨i, hi, .inr ⟨a, by simp, by simp, h6⟩⟩
            · exact .inr ⟨i, hi, .inl h6⟩
          · exact .inr ⟨i, hi, .inr ⟨d, by simp [hd], by simp [h6], h7⟩⟩

/-- Bigram-mode clue selection. -/
theorem bigram_selection {ws : List W} {clues : List (Clue W K)}
    (h : pureCluesBigram F nspam nham info ws = .ok clues) :
    ∃ accepted : List (Cand W K),
      clues = keepStrongest (accepted.map (·.clue)).reverse ∧
      (∀ c ∈ accepted, CandOf F nspam nham info ws c) ∧
      (accepted.map (·.clue.word)).Nodup ∧
      accepted.Pairwise (fun a b => List.Disjoint a.indices b.indices) ∧
      accepted.Pairwise (fun a b => clueLe b.clue a.clue = true) ∧
      (∀ w, (w ∈ ws ∨ ∃ p ∈ ws.zip ws.tail, w = BigramFormat.bi p.1 p.2) →
        ∃ c, pureClue F nspam nham info w = .ok c ∧
          (minimumProbStrength F ≤ c.distance → ∃ d : Cand W K, d.clue = c ∧ CandOf F nspam nham info ws d ∧
            (d ∈ accepted ∨ ∃ i ∈ d.indices, ∃ a ∈ accepted, i ∈ a.indices ∧
              clueLe c a.clue = true))) := by
  unfold pureCluesBigram at h
  cases hf : pureFill F nspam nham info 0 none ws [] [] with
  | error e => rw [hf] at h; cases h
  | ok raw =>
    rw [hf] at h
    cases h
    obtain ⟨h1, h2, h3⟩ := pureFill_ok hf
    set le := fun a b : Cand W K => clueLe b.clue a.clue with hle
    set srt := raw.mergeSort le with hsrt
    have hpw : srt.Pairwise (fun a b => clueLe b.clue a.clue = true) :=
      List.pairwise_mergeSort (le := le) (fun a b c hab hbc => clueLe_trans _ _ _ hbc hab)
        (fun a b => clueLe_total b.clue a.clue) raw
    obtain ⟨t1, t2, t3, t4⟩ := tile_spec srt []
    have hmem : ∀ c ∈ srt, c ∈ raw := fun c hc => List.mem_mergeSort.1 hc
    refine ⟨tile [] srt, rfl, fun c hc => h1 c (hmem c (t1.subset hc)), ?_, t2, hpw.sublist t1, ?_⟩
    · have : (srt.map (·.clue.word)).Perm (raw.map (·.clue.word)) := (List.mergeSort_perm _ _).map _
      exact (this.nodup_iff.2 h2).sublist (t1.map _)
    · intro w hw
      obtain ⟨c, hc, hcc⟩ := h3 w hw
      refine ⟨c, hc, fun hd => ?_⟩
      obtain ⟨d, hd1, hd2⟩ := hcc hd
      refine ⟨d, hd2, h1 d hd1, ?_⟩
      obtain ⟨pre, post, hpp⟩ := List.append_of_mem (List.mem_mergeSort (le := le).2 hd1)
      rcases t4 pre d post hpp with h5 | ⟨i, hi, h6 | ⟨a, ha, h6, h7⟩⟩
      · exact .inl h5
      · simp at h6
      · refine .inr ⟨i, hi, a, h6, h7, ?_⟩
        have hpw' := hpw
        rw [hsrt, hpp, List.pairwise_append] at hpw'
        rw [← hd2]
        exact hpw'.2.2 a ha d (by simp)

/-- In both modes every clue is the clue of its word. -/
theorem pureClues_mem {ub : Option Bool} {it : SetIter W} {s : Stream W} {clues : List (Clue W K)}
    (h : pureClues F nspam nham ub info it s = .ok clues) {c : Clue W K} (hc : c ∈ clues) :
    pureClue F nspam nham info c.word = .ok c := by
  match ub, h with
  | none, h => cases h
  | some true, h =>
    obtain ⟨acc, rfl, h1, -⟩ := bigram_selection h
    obtain ⟨k, hk, -⟩ := keepStrongest_suffix (acc.map (·.clue)).reverse
    rw [hk] at hc
    have := (List.drop_sublist _ _).subset hc
    simp at this
    obtain ⟨d, hd, rfl⟩ := this
    exact (h1 d hd).1
  | some false, h =>
    exact ((unigram_selection (it.nodup _) h).2.2.2.1 c hc).2.1

/-! ### spamprob -/

theorem pureSpamprob_ok {ub : Option Bool} {it : SetIter W} {s : Stream W} {ev : Bool}
    {v : K × Option (List (EvWord W × K))}
    (h : pureSpamprob F nspam nham ub info it s ev = .ok v) :
    ∃ clues S H, pureClues F nspam nham ub info it s = .ok clues ∧
      combine F (clues.map (·.prob)) = .ok (v.1, S, H) ∧
      v.2 = if ev then some (evidenceList clues S H) else none := by
  unfold pureSpamprob at h
  cases hc : pureClues F nspam nham ub info it s with
  | error e => rw [hc] at h; cases h
  | ok clues =>
    rw [hc] at h
    simp only [bind, Except.bind] at h
    cases hk : combine F (clues.map (·.prob)) with
    | error e => rw [hk] at h; cases h
    | ok t =>
      obtain ⟨p, S, H⟩ := t
      rw [hk] at h
      simp only at h
      refine ⟨clues, S, H, rfl, ?_⟩
      cases ev <;> (cases h; exact ⟨hk, rfl⟩)

theorem pureSpamprob_of {ub : Option Bool} {it : SetIter W} {s : Stream W} {ev : Bool}
    {clues : List (Clue W K)} {p S H : K} (h1 : pureClues F nspam nham ub info it s = .ok clues)
    (h2 : combine F (clues.map (·.prob)) = .ok (p, S, H)) :
    pureSpamprob F nspam nham ub info it s ev =
      .ok (p, if ev then some (evidenceList clues S H) else none) := by
  unfold pureSpamprob
  rw [h1]
  simp only [bind, Except.bind]
  rw [h2]
  cases ev <;> rfl

end
end Sb
