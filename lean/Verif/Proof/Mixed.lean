import Verif.Model.Mixed
import Verif.Proof.Order

/- Helper lemmas: sorting clue tuples whose words are str or bytes. -/

set_option linter.unusedSectionVars false

namespace Sb
open Py Sb.Strip

section
variable {K : Type} [LinearOrder K]

/-- a key for the tuple order, one of the two kinds of words coming first -/
def clueKey (flip : Bool) (a : Clue Tok K) : K ×ₗ K ×ₗ (Bool ×ₗ List Nat) :=
  toLex (a.distance, toLex (a.prob, wordKey flip a.word))

def clueLtBy (flip : Bool) (a b : Clue Tok K) : Bool := decide (clueKey flip a < clueKey flip b)

theorem clueKey_lt (flip : Bool) (a b : Clue Tok K) : clueKey flip a < clueKey flip b ↔
    a.distance < b.distance ∨ (a.distance = b.distance ∧ (a.prob < b.prob ∨ (a.prob = b.prob ∧
      wordKey flip a.word < wordKey flip b.word))) := by
  unfold clueKey
  rw [Prod.Lex.toLex_lt_toLex]
  simp only [Prod.Lex.toLex_lt_toLex]

theorem strictOrder_clueLtBy {α : Type} (f : α → Clue Tok K) (flip : Bool) :
    StrictOrder (fun a b => clueLtBy flip (f a) (f b)) where
  asymm a b h := by
    simp only [clueLtBy, decide_eq_true_eq, decide_eq_false_iff_not] at *
    exact not_lt.2 h.le
  negTrans a b c h h' := by
    simp only [clueLtBy, decide_eq_false_iff_not, not_lt] at *
    exact h'.trans h

theorem wordLt_ok {a b : Tok} {r : Bool} (h : wordLt a b = .ok r) (flip : Bool) :
    decide (wordKey flip a < wordKey flip b) = r := by
  cases a <;> cases b <;> simp only [wordLt] at h <;> cases h <;>
    simp [wordKey, Prod.Lex.toLex_lt_toLex]

/-- str and bytes -/
def Mixed : Tok → Tok → Prop
  | .str _, .bytes _ => True
  | .bytes _, .str _ => True
  | _, _ => False

theorem wordLt_eq {a b : Tok} (h : ¬ Mixed a b) (flip : Bool) :
    wordLt a b = .ok (decide (wordKey flip a < wordKey flip b)) := by
  cases a <;> cases b <;> simp [Mixed] at h <;>
    simp [wordLt, wordKey, Prod.Lex.toLex_lt_toLex]

theorem wordLt_error {a b : Tok} (h : Mixed a b) : wordLt a b = .error .typeError := by
  cases a <;> cases b <;> simp [Mixed] at h <;> rfl

/-- two tuples between which Python has no order -/
def Clash (a b : Clue Tok K) : Prop :=
  a.distance = b.distance ∧ a.prob = b.prob ∧ Mixed a.word b.word

theorem mixed_ne {a b : Tok} (h : Mixed a b) : a ≠ b := by
  rintro rfl
  cases a <;> exact h

theorem clueLt_eq {a b : Clue Tok K} (h : ¬ Clash a b) (flip : Bool) :
    clueLt a b = .ok (clueLtBy flip a b) := by
  unfold clueLt clueLtBy
  by_cases hd : a.distance = b.distance
  · rw [if_neg (not_not.2 hd)]
    by_cases hp : a.prob = b.prob
    · rw [if_neg (not_not.2 hp)]
      by_cases hw : a.word = b.word
      · rw [if_neg (not_not.2 hw)]
        congr 1
        rw [eq_comm, decide_eq_false_iff_not, clueKey_lt]
        simp [hd, hp, hw]
      · rw [if_pos hw, wordLt_eq (fun hm => h ⟨hd, hp, hm⟩) flip]
        congr 1
        rw [decide_eq_decide, clueKey_lt]
        simp [hd, hp]
    · rw [if_pos hp]
      congr 1
      rw [decide_eq_decide, clueKey_lt]
      simp [hd, hp]
  · rw [if_pos hd]
    congr 1
    rw [decide_eq_decide, clueKey_lt]
    simp [hd]

theorem clueLt_error {a b : Clue Tok K} (h : Clash a b) : clueLt a b = .error .typeError := by
  obtain ⟨hd, hp, hm⟩ := h
  unfold clueLt
  rw [if_neg (not_not.2 hd), if_neg (not_not.2 hp), if_pos (mixed_ne hm), wordLt_error hm]

theorem agrees_clueLt {α : Type} (f : α → Clue Tok K) (flip : Bool) :
    AgreesWith (fun a b => clueLt (f a) (f b)) (fun a b => clueLtBy flip (f a) (f b)) := by
  intro a b r h
  by_cases hc : Clash (f a) (f b)
  · simp only [clueLt_error hc] at h; cases h
  · simp only [clueLt_eq hc flip] at h
    cases h; rfl

theorem clueLe_iff_key [Field K] (a b : Clue Tok K) : clueLe a b = true ↔ ¬ clueKey false b < clueKey false a := by
  rw [clueLe_iff, clueKey_lt]
  have hle : a.word ≤ b.word ↔ ¬ wordKey false b.word < wordKey false a.word := by
    rw [not_lt]; rfl
  rw [hle]
  rcases lt_trichotomy a.distance b.distance with h | h | h
  · simp [h, h.not_gt, h.ne']
  · rcases lt_trichotomy a.prob b.prob with h' | h' | h'
    · simp [h, h', h'.not_gt, h'.ne']
    · simp [h, h']
    · simp [h, h', h'.not_gt, h'.ne']
  · simp [h, h.not_gt, h.ne']

/-- Sorting tuples of a list in which some two cannot be compared raises TypeError,
whatever the sort. -/
theorem sort_clash (S : SortAlg) {α : Type} (f : α → Clue Tok K) {l : List α} {a b : α} (ha : a ∈ l)
    (hb : b ∈ l) (h : Clash (f a) (f b)) :
    S.sort (fun a b => clueLt (f a) (f b)) l = .error .typeError := by
  have key : ∀ {a b : α}, a ∈ l → b ∈ l → Clash (f a) (f b) → (f a).word = .str (match (f a).word with
      | .str t => t | .bytes t => t) → ∃ e, S.sort (fun a b => clueLt (f a) (f b)) l = .error e := by
    intro a b ha hb h hs
    obtain ⟨hd, hp, hm⟩ := h
    refine exec_raises (S.sorts α) (strictOrder_clueLtBy f false) (strictOrder_clueLtBy f true)
      (agrees_clueLt f false) (agrees_clueLt f true) ha hb ?_ ?_
    · rw [clueLtBy, decide_eq_true_eq, clueKey_lt]
      refine .inr ⟨hd, .inr ⟨hp, ?_⟩⟩
      cases h1 : (f a).word <;> cases h2 : (f b).word <;> rw [h1, h2] at hm <;> rw [h1] at hs <;>
        simp [Mixed] at hm <;> simp at hs
      simp [wordKey, Prod.Lex.toLex_lt_toLex]
    · rw [clueLtBy, decide_eq_true_eq, clueKey_lt]
      refine .inr ⟨hd.symm, .inr ⟨hp.symm, ?_⟩⟩
      cases h1 : (f a).word <;> cases h2 : (f b).word <;> rw [h1, h2] at hm <;> rw [h1] at hs <;>
        simp [Mixed] at hm <;> simp at hs
      simp [wordKey, Prod.Lex.toLex_lt_toLex]
  have hex : ∃ e, S.sort (fun a b => clueLt (f a) (f b)) l = .error e := by
    cases hw : (f a).word with
    | str t => exact key ha hb h (by rw [hw])
    | bytes t =>
      cases hw' : (f b).word with
      | str t => 
        refine key hb ha ⟨h.1.symm, h.2.1.symm, ?_⟩ (by rw [hw'])
        rw [hw, hw']; trivial
      | bytes t => have := h.2.2; rw [hw, hw'] at this; exact this.elim
  obtain ⟨e, he⟩ := hex
  have := exec_error (plt := fun a b => clueLt (f a) (f b)) (E := fun e => e = .typeError) (by
    intro a b e h'
    by_cases hc : Clash (f a) (f b)
    · rw [clueLt_error hc] at h'; cases h'; rfl
    · rw [clueLt_eq hc false] at h'; cases h') (S.tree l) he
  rw [he, this]

/-- Without such a pair, the sort gives what Model/Classifier.lean has. -/
theorem sort_fine [Field K] (S : SortAlg) {α : Type} (f : α → Clue Tok K) {l : List α}
    (hn : (l.map (fun a => (f a).word)).Nodup)
    (h : ∀ a ∈ l, ∀ b ∈ l, ¬ Clash (f a) (f b)) :
    S.sort (fun a b => clueLt (f a) (f b)) l = .ok (l.mergeSort (fun a b => clueLe (f a) (f b))) := by
  have hrun := exec_total (plt := fun a b => clueLt (f a) (f b))
    (lt := fun a b => clueLtBy false (f a) (f b)) (P := (· ∈ l))
    (fun a b ha hb => clueLt_eq (h a ha b hb) false) (S.tree l) ((S.sorts α).asks l)
  unfold SortAlg.sort
  rw [hrun]
  congr 1
  have hso := strictOrder_clueLtBy f false
  have p := (S.sorts α).perm l _ hso
  have s := (S.sorts α).sorted l _ hso
  refine (p.trans (List.mergeSort_perm l _).symm).eq_of_pairwise
    (le := fun a b => clueLe (f a) (f b) = true) ?_ ?_ ?_
  · intro a b ha hb h1 h2
    refine eq_of_word_eq _ hn (p.subset ha) ((List.mem_mergeSort).1 hb) ?_
    exact clueLe_antisymm_word _ _ h1 h2
  · refine s.imp fun {a b} hab => ?_
    rw [clueLe_iff_key]
    simpa [clueLtBy] using hab
  · exact List.pairwise_mergeSort (le := fun a b => clueLe (f a) (f b))
      (fun a b c => clueLe_trans _ _ _) (fun a b => clueLe_total _ _) l

theorem sortReverse_clash (S : SortAlg) {α : Type} (f : α → Clue Tok K) {l : List α} {a b : α}
    (ha : a ∈ l) (hb : b ∈ l) (h : Clash (f a) (f b)) :
    S.sortReverse (fun a b => clueLt (f a) (f b)) l = .error .typeError := by
  unfold SortAlg.sortReverse
  rw [sort_clash S f (List.mem_reverse.2 ha) (List.mem_reverse.2 hb) h]
  rfl

theorem sortReverse_fine [Field K] (S : SortAlg) {α : Type} (f : α → Clue Tok K) {l : List α}
    (hn : (l.map (fun a => (f a).word)).Nodup)
    (h : ∀ a ∈ l, ∀ b ∈ l, ¬ Clash (f a) (f b)) :
    S.sortReverse (fun a b => clueLt (f a) (f b)) l =
      .ok (l.mergeSort (fun a b => clueLe (f b) (f a))) := by
  unfold SortAlg.sortReverse
  rw [sort_fine S f (by rw [List.map_reverse, List.nodup_reverse]; exact hn)
    (fun a ha b hb => h a (List.mem_reverse.1 ha) b (List.mem_reverse.1 hb))]
  change Except.ok _ = Except.ok _
  congr 1
  have p1 := List.mergeSort_perm l.reverse (fun a b => clueLe (f a) (f b))
  refine (((List.reverse_perm _).trans p1).trans (List.reverse_perm l)).trans
    (List.mergeSort_perm l _).symm |>.eq_of_pairwise (le := fun a b => clueLe (f b) (f a) = true) ?_ ?_ ?_
  · intro a b ha hb h1 h2
    refine eq_of_word_eq _ hn ?_ ((List.mem_mergeSort).1 hb) ?_
    · exact List.mem_reverse.1 (List.mem_mergeSort.1 (List.mem_reverse.1 ha))
    · exact clueLe_antisymm_word _ _ h2 h1
  · rw [List.pairwise_reverse]
    exact List.pairwise_mergeSort (le := fun a b => clueLe (f a) (f b))
      (fun a b c => clueLe_trans _ _ _) (fun a b => clueLe_total _ _) _
  · exact List.pairwise_mergeSort (le := fun a b => clueLe (f b) (f a))
      (fun a b c h1 h2 => clueLe_trans _ _ _ h2 h1) (fun a b => clueLe_total _ _) l

end

/-! ### scoring -/

section
variable {σ K : Type} [Field K] [LinearOrder K] {S : SortAlg} {F : FloatOps K}

theorem ofExcept_snd {τ α : Type} (r : Except Err α) (c : τ) : (ofExcept r c).2 = c := by
  cases r <;> rfl

theorem bind_pureTail_snd {τ α β : Type} (m : M τ α) (f g : α → M τ β)
    (h : ∀ a c, (f a c).2 = (g a c).2) (c : τ) : ((m >>= f) c).2 = ((m >>= g) c).2 := by
  rw [M.bind_run, M.bind_run]
  cases m c with
  | mk r c' =>
    cases r with
    | error e => rfl
    | ok a => exact h a c'

theorem wordClues_snd (B : Backend σ Tok) (it : SetIter Tok) (s : Stream Tok) (c : Clf σ K) :
    (wordClues S F B it s c).2 = (getClues F B it s c).2 := by
  unfold wordClues getClues
  rw [M.bind_run_ok (M.get_run _), M.bind_run_ok (M.get_run _)]
  match c.useBigrams with
  | none => rfl
  | some true =>
    refine bind_pureTail_snd _ _ _ (fun a c => ?_) c
    rw [M.bind_run]
    cases S.sortReverse (fun a b => clueLt a.clue b.clue) a <;> rfl
  | some false =>
    refine bind_pureTail_snd _ _ _ (fun a c => ?_) c
    rw [M.bind_run]
    cases S.sort clueLt (a.filter (fun t => decide (t.distance ≥ minimumProbStrength F))) <;> rfl

theorem tail_snd {τ α : Type} (o : Except Err (K × K × K)) (f : K → K → K → M τ α)
    (hf : ∀ a b d c, (f a b d c).2 = c) (c : τ) :
    ((match o with
      | .error e => M.raise e
      | .ok (a, b, d) => f a b d : M τ α) c).2 = c := by
  cases o with
  | error e => rfl
  | ok v => exact hf _ _ _ c

theorem wordSpamprob_snd (B : Backend σ Tok) (it : SetIter Tok) (s : Stream Tok) (ev : Bool)
    (c : Clf σ K) : (wordSpamprob S F B it s ev c).2 = (spamprob F B it s ev c).2 := by
  have hw : ∀ (clues : List (Clue Tok K)) (c : Clf σ K),
      ((match combine F (clues.map (·.prob)) with
        | .error e => M.raise e
        | .ok (prob, s, h) => if ev then pure (prob, some (evidenceList clues s h))
            else pure (prob, none) : M (Clf σ K) (K × Option (List (EvWord Tok × K)))) c).2 = c := by
    intro clues c
    refine tail_snd _ _ (fun a b d c => ?_) c
    cases ev <;> rfl
  have h1 : ∀ m : M (Clf σ K) (List (Clue Tok K)),
      ((m >>= fun clues => (match combine F (clues.map (·.prob)) with
        | .error e => M.raise e
        | .ok (prob, s, h) => if ev then pure (prob, some (evidenceList clues s h))
            else pure (prob, none) : M (Clf σ K) (K × Option (List (EvWord Tok × K))))) c).2 =
      (m c).2 := by
    intro m
    rw [M.bind_run]
    cases m c with
    | mk r c' =>
      cases r with
      | error e => rfl
      | ok a => exact hw a c'
  calc (wordSpamprob S F B it s ev c).2 = (wordClues S F B it s c).2 := h1 _
    _ = (getClues F B it s c).2 := wordClues_snd B it s c
    _ = (spamprob F B it s ev c).2 := (h1 _).symm

variable (S F) in
/-- `_getclues` with the sort, without cache -/
def pureWordClues (nspam nham : Int) (ub : Option Bool) (info : Tok → Option WordInfo)
    (it : SetIter Tok) (s : Stream Tok) : Except Err (List (Clue Tok K)) :=
  match ub with
  | none => .error .attributeError
  | some true => do
    let raw ← pureFill F nspam nham info 0 none s.items [] []
    let raw ← S.sortReverse (fun a b => clueLt a.clue b.clue) raw
    pure (keepStrongest ((tile [] raw).map (·.clue)).reverse)
  | some false => do
    let all ← (it.order s.items).mapM (pureClue F nspam nham info)
    let clues ← S.sort clueLt (all.filter (fun t => decide (t.distance ≥ minimumProbStrength F)))
    pure (keepStrongest clues)

theorem computes_ofExcept {τ α : Type} {P : τ → Prop} (r : Except Err α) :
    Computes P (ofExcept r) r := by
  cases r with
  | error e => exact Computes.raise e
  | ok a => exact Computes.pure a

variable {B : Backend σ Tok} {Inv : σ → Prop} {P : Tok → Prop} {ub : Option Bool} {nspam nham : Int}
  {info : Tok → Option WordInfo}

theorem computes_wordClues (hB : Reads B Inv P info) (it : SetIter Tok) (s : Stream Tok)
    (hP : ProbesIn P ub s) :
    Computes (Scoring F Inv ub nspam nham) (wordClues S F B it s)
      (pureWordClues S F nspam nham ub info it s) := by
  intro c hc
  unfold wordClues
  rw [M.bind_run_ok (M.get_run _), hc.ub]
  match ub, hP, hc with
  | none, _, hc => exact Computes.raise _ c hc
  | some true, hP, hc =>
    refine Computes.bind (computes_fillRaw hB s.items 0 none [] [] hP) (fun raw _ => ?_) c hc
    exact Computes.bind (computes_ofExcept _) fun _ _ => Computes.pure _
  | some false, hP, hc =>
    refine Computes.bind (Computes.mapAll _ fun x hx =>
      computes_wordDistanceGet hB (hP x ((it.mem s.items x).1 hx))) (fun all _ => ?_) c hc
    exact Computes.bind (computes_ofExcept _) fun _ _ => Computes.pure _

variable (S F) in
/-- `spamprob` with the sort, without cache -/
def pureWordSpamprob (nspam nham : Int) (ub : Option Bool) (info : Tok → Option WordInfo)
    (it : SetIter Tok) (s : Stream Tok) (evidence : Bool) :
    Except Err (K × Option (List (EvWord Tok × K))) := do
  let clues ← pureWordClues S F nspam nham ub info it s
  match combine F (clues.map (·.prob)) with
  | .error e => .error e
  | .ok (prob, s, h) =>
    if evidence then pure (prob, some (evidenceList clues s h)) else pure (prob, none)

theorem computes_wordSpamprob (hB : Reads B Inv P info) (it : SetIter Tok) (s : Stream Tok)
    (ev : Bool) (hP : ProbesIn P ub s) :
    Computes (Scoring F Inv ub nspam nham) (wordSpamprob S F B it s ev)
      (pureWordSpamprob S F nspam nham ub info it s ev) := by
  unfold wordSpamprob pureWordSpamprob
  refine Computes.bind (computes_wordClues hB it s hP) fun clues _ => ?_
  cases combine F (clues.map (·.prob)) with
  | error e => exact Computes.raise _
  | ok v =>
    obtain ⟨prob, S, H⟩ := v
    cases ev <;> exact Computes.pure _

/-- The words looked at when scoring `s`. -/
def Looked (ub : Option Bool) (s : Stream Tok) (w : Tok) : Prop :=
  w ∈ s.items ∨ (ub = some true ∧ ∃ p ∈ s.items.zip s.items.tail, w = BigramFormat.bi p.1 p.2)

/-- Two of the words cannot be ordered. -/
def HasClash (F : FloatOps K) (nspam nham : Int) (ub : Option Bool) (info : Tok → Option WordInfo)
    (s : Stream Tok) : Prop :=
  ∃ u v c d, Looked ub s u ∧ Looked ub s v ∧ pureClue F nspam nham info u = .ok c ∧
    pureClue F nspam nham info v = .ok d ∧ minimumProbStrength F ≤ c.distance ∧ Clash c d

theorem mem_zip_tail {α : Type} {l : List α} {i : Nat} {x y : α} (hx : l[i]? = some x)
    (hy : l[i + 1]? = some y) : (x, y) ∈ l.zip l.tail := by
  refine List.mem_of_getElem? (i := i) ?_
  rw [List.getElem?_zip_eq_some]
  exact ⟨hx, by rw [List.getElem?_tail]; exact hy⟩

theorem pureWordClues_fine (it : SetIter Tok) (s : Stream Tok)
    (h : ¬ HasClash F nspam nham ub info s) :
    pureWordClues S F nspam nham ub info it s = pureClues F nspam nham ub info it s := by
  match ub, h with
  | none, _ => rfl
  | some true, h =>
    simp only [pureWordClues, pureClues, pureCluesBigram]
    cases hf : pureFill F nspam nham info 0 none s.items [] [] with
    | error e => rfl
    | ok raw =>
      simp only [bind, Except.bind]
      obtain ⟨h1, h2, h3⟩ := pureFill_ok hf
      rw [sortReverse_fine S (fun a : Cand Tok K => a.clue) h2]
      · intro a ha b hb hc
        apply h
        have hl : ∀ a ∈ raw, Looked (some true) s a.clue.word := by
          intro a ha
          obtain ⟨-, -, ⟨i, hi, -⟩ | ⟨i, x, y, hx, hy, hw, -⟩⟩ := h1 a ha
          · exact .inl (List.mem_of_getElem? hi)
          · exact .inr ⟨rfl, (x, y), mem_zip_tail hx hy, hw⟩
        exact ⟨a.clue.word, b.clue.word, a.clue, b.clue, hl a ha, hl b hb, (h1 a ha).1, (h1 b hb).1,
          (h1 a ha).2.1, hc⟩
  | some false, h =>
    simp only [pureWordClues, pureClues, pureCluesUnigram]
    cases hf : (it.order s.items).mapM (pureClue F nspam nham info) with
    | error e => rfl
    | ok all =>
      simp only [bind, Except.bind]
      have hf2 := (mapM_ok_iff _ _ _).1 hf
      have hnd : (all.map (·.word)).Nodup := by
        rw [map_word_of_forall2 hf2]; exact it.nodup _
      rw [sort_fine S (fun a : Clue Tok K => a)]
      · exact hnd.sublist (List.filter_sublist.map _)
      · intro a ha b hb hc
        apply h
        rw [List.mem_filter] at ha hb
        obtain ⟨w, hw, hwa⟩ := forall2_mem_right hf2 ha.1
        obtain ⟨v, hv, hvb⟩ := forall2_mem_right hf2 hb.1
        exact ⟨w, v, a, b, .inl ((it.mem _ _).1 hw), .inl ((it.mem _ _).1 hv), hwa, hvb,
          by simpa using ha.2, hc⟩

theorem pureWordClues_clash (it : SetIter Tok) (s : Stream Tok) {b : Bool}
    (ht : ∀ w, ∃ p, pureProb F nspam nham (info w) = .ok p)
    (h : HasClash F nspam nham (some b) info s) :
    pureWordClues S F nspam nham (some b) info it s = .error .typeError := by
  obtain ⟨u, v, c, d, hu, hv, hc, hd, hs, hcl⟩ := h
  have hs' : minimumProbStrength F ≤ d.distance := by rw [← hcl.1]; exact hs
  match b with
  | true =>
    simp only [pureWordClues]
    cases hf : pureFill F nspam nham info 0 none s.items [] [] with
    | error e =>
      exfalso
      have hcons : ∀ w ix seen raw, ∃ st, pureConsider F nspam nham info w ix seen raw = .ok st := by
        intro w ix seen raw
        unfold pureConsider
        split
        · exact ⟨_, rfl⟩
        · obtain ⟨p, hp⟩ := ht w
          rw [pureClue_of_prob hp]
          simp only [bind, Except.bind]
          split <;> exact ⟨_, rfl⟩
      have hfill : ∀ (ws : List Tok) i last seen raw,
          ∃ raw', pureFill F nspam nham info i last ws seen raw = .ok raw' := by
        intro ws
        induction ws with
        | nil => intro i last seen raw; exact ⟨_, rfl⟩
        | cons token rest ih =>
          intro i last seen raw
          unfold pureFill
          obtain ⟨st, hst⟩ := hcons token [i] seen raw
          rw [hst]
          simp only [bind, Except.bind]
          have : ∃ st', purePair F nspam nham info i last token st = .ok st' := by
            cases last with
            | none => exact ⟨_, rfl⟩
            | some l => exact hcons _ _ _ _
          obtain ⟨st', hst'⟩ := this
          rw [hst']
          exact ih _ _ _ _
      obtain ⟨raw, hraw⟩ := hfill s.items 0 none [] []
      rw [hraw] at hf
      cases hf
    | ok raw =>
      simp only [bind, Except.bind]
      obtain ⟨h1, h2, h3⟩ := pureFill_ok hf
      have hm : ∀ {u c}, Looked (some true) s u → pureClue F nspam nham info u = .ok c →
          minimumProbStrength F ≤ c.distance → ∃ a ∈ raw, a.clue = c := by
        intro u c hu hc hs
        have hu' : u ∈ s.items ∨ ∃ p ∈ s.items.zip s.items.tail, u = BigramFormat.bi p.1 p.2 := by
          rcases hu with h | ⟨-, h⟩
          · exact .inl h
          · exact .inr h
        obtain ⟨c', hc', hh⟩ := h3 u hu'
        rw [hc] at hc'; cases hc'
        exact hh hs
      obtain ⟨a, ha, rfl⟩ := hm hu hc hs
      obtain ⟨a', ha', rfl⟩ := hm hv hd hs'
      rw [sortReverse_clash S (fun a : Cand Tok K => a.clue) ha ha' hcl]
  | false =>
    simp only [pureWordClues]
    obtain ⟨all, hall⟩ := mapM_ok_of_forall (pureClue F nspam nham info) (it.order s.items)
      (fun w _ => by obtain ⟨p, hp⟩ := ht w; exact ⟨_, pureClue_of_prob hp⟩)
    rw [hall]
    simp only [bind, Except.bind]
    have hf2 := (mapM_ok_iff _ _ _).1 hall
    have hm : ∀ {u c}, Looked (some false) s u → pureClue F nspam nham info u = .ok c →
        minimumProbStrength F ≤ c.distance →
        c ∈ all.filter (fun t => decide (t.distance ≥ minimumProbStrength F)) := by
      intro u c hu hc hs
      have hu' : u ∈ it.order s.items := by
        rcases hu with h | ⟨h, -⟩
        · exact (it.mem _ _).2 h
        · cases h
      obtain ⟨c', hc', hh⟩ := forall2_mem_left hf2 hu'
      rw [hc] at hh; cases hh
      rw [List.mem_filter]
      exact ⟨hc', by simpa using hs⟩
    rw [sort_clash S (fun a : Clue Tok K => a) (hm hu hc hs) (hm hv hd hs') hcl]

theorem pureWordSpamprob_fine (it : SetIter Tok) (s : Stream Tok) (ev : Bool)
    (h : ¬ HasClash F nspam nham ub info s) :
    pureWordSpamprob S F nspam nham ub info it s ev = pureSpamprob F nspam nham ub info it s ev := by
  unfold pureWordSpamprob pureSpamprob
  rw [pureWordClues_fine it s h]
  cases pureClues F nspam nham ub info it s with
  | error e => rfl
  | ok clues =>
    simp only [bind, Except.bind]
    cases combine F (clues.map (·.prob)) <;> rfl

theorem pureWordSpamprob_clash (it : SetIter Tok) (s : Stream Tok) (ev : Bool) {b : Bool}
    (ht : ∀ w, ∃ p, pureProb F nspam nham (info w) = .ok p)
    (h : HasClash F nspam nham (some b) info s) :
    pureWordSpamprob S F nspam nham (some b) info it s ev = .error .typeError := by
  unfold pureWordSpamprob
  rw [pureWordClues_clash it s ht h]
  rfl

end

end Sb
