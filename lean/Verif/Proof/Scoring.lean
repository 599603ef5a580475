import Verif.Model.Classifier

/- Helper lemmas: scoring with cache and stateful record lookup computes the
same as a pure function of totals and lookups. -/

set_option linter.unusedSectionVars false

namespace Sb
open Py

variable {σ W K : Type}

/-- `m`, started in any state satisfying `P`, returns `r` and ends in `P`. -/
def Computes {α : Type} (P : σ → Prop) (m : M σ α) (r : Except Err α) : Prop :=
  ∀ c, P c → (m c).1 = r ∧ P (m c).2

namespace Computes
variable {α β γ : Type} {P : σ → Prop}

theorem pure (a : α) : Computes P (Pure.pure a : M σ α) (.ok a) := fun _ h => ⟨rfl, h⟩

theorem raise (e : Err) : Computes P (M.raise e : M σ α) (.error e) := fun _ h => ⟨rfl, h⟩

theorem bind {m : M σ α} {r : Except Err α} {f : α → M σ β} {g : α → Except Err β}
    (h : Computes P m r) (hf : ∀ a, r = .ok a → Computes P (f a) (g a)) :
    Computes P (m >>= f) (r >>= g) := by
  intro c hc
  obtain ⟨h1, h2⟩ := h c hc
  rw [M.bind_run]
  cases hm : m c with
  | mk r' c' =>
    rw [hm] at h1 h2
    simp only at h1 h2
    subst h1
    cases r' with
    | error e => exact ⟨rfl, h2⟩
    | ok a => exact hf a rfl c' h2

theorem mapAll {f : γ → M σ β} {g : γ → Except Err β} (l : List γ)
    (h : ∀ x ∈ l, Computes P (f x) (g x)) :
    Computes P (M.mapAll f l) (l.mapM g) := by
  induction l with
  | nil => rw [List.mapM_nil]; exact pure _
  | cons x xs ih =>
    rw [List.mapM_cons]
    refine bind (h x (by simp)) fun a _ => ?_
    exact bind (ih fun y hy => h y (by simp [hy])) fun b _ => pure _

end Computes

/-- What scoring needs to know about the record methods: from states in `Inv`,
looking up a word satisfying `P` gives the value of the lookup function `info`
and stays in `Inv`. -/
def Reads (B : Backend σ W) (Inv : σ → Prop) (P : W → Prop) (info : W → Option WordInfo) : Prop :=
  ∀ w, P w → Computes Inv (B.get w) (.ok (info w))

theorem reads_memory [DecidableEq W] (d : Dict W WordInfo) :
    Reads (memory W) (fun d' => d' = d) (fun _ => True) d.get? := by
  rintro w - d' rfl
  exact ⟨rfl, rfl⟩

section
variable [Field K] [LinearOrder K] (F : FloatOps K)

/-- Every cached probability is the one that would be computed now. -/
def Coherent (c : Clf σ K) : Prop :=
  ∀ r p, cacheGet c.probcache r = some p → freshProbability F c.nspam c.nham r = .ok p

theorem coherent_of_empty (c : Clf σ K) (h : c.probcache = Dict.empty) : Coherent F c := by
  intro r p hp
  simp [h, cacheGet] at hp

omit [Field K] [LinearOrder K] in
theorem cacheGet_cacheSet (pc : Dict Int (Dict Int K)) (r r' : WordInfo) (p : K) :
    cacheGet (cacheSet pc r p) r' = if r = r' then some p else cacheGet pc r' := by
  obtain ⟨a, b⟩ := r
  obtain ⟨a', b'⟩ := r'
  unfold cacheSet cacheGet
  simp only [WordInfo.mk.injEq]
  cases h : pc.get? a with
  | none =>
    simp only [Dict.get?_set]
    by_cases ha : a = a'
    · subst ha
      simp only [if_true, true_and, h]
      rw [Dict.get?_set]; simp
    · simp [ha]
  | some d =>
    simp only [Dict.get?_set]
    by_cases ha : a = a'
    · subst ha
      simp only [if_true, true_and, h]
      rw [Dict.get?_set]
    · simp [ha]

/-- The state during scoring: totals fixed, cache coherent, records in `Inv`. -/
structure Scoring (Inv : σ → Prop) (ub : Option Bool) (nspam nham : Int) (c : Clf σ K) : Prop where
  coherent : Coherent F c
  inv : Inv c.store
  ub : c.useBigrams = ub
  nspam : c.nspam = nspam
  nham : c.nham = nham

variable {F} {Inv : σ → Prop} {ub : Option Bool} {nspam nham : Int}

theorem computes_onStore {α : Type} {m : M σ α} {r : Except Err α} (h : Computes Inv m r) :
    Computes (Scoring F Inv ub nspam nham) (onStore m) r := by
  intro c hc
  obtain ⟨h1, h2⟩ := h c.store hc.inv
  exact ⟨h1, ⟨hc.coherent, h2, hc.ub, hc.nspam, hc.nham⟩⟩

theorem computes_probability (r : WordInfo) :
    Computes (Scoring F Inv ub nspam nham) (probability F r)
      (freshProbability F nspam nham r) := by
  intro c hc
  unfold probability
  cases h : cacheGet c.probcache r with
  | some p =>
    have := hc.coherent r p h
    rw [hc.nspam, hc.nham] at this
    exact ⟨this.symm, hc⟩
  | none =>
    rw [← hc.nspam, ← hc.nham]
    cases h2 : freshProbability F c.nspam c.nham r with
    | error e => exact ⟨rfl, ⟨hc.coherent, hc.inv, hc.ub, rfl, rfl⟩⟩
    | ok p =>
      refine ⟨rfl, ⟨?_, hc.inv, hc.ub, rfl, rfl⟩⟩
      intro r' p' h'
      simp only [cacheGet_cacheSet] at h'
      simp only
      by_cases hr : r = r'
      · subst hr; simp at h'; rw [← h']; exact h2
      · rw [if_neg hr] at h'
        exact hc.coherent r' p' h'

variable (F nspam nham)

/-- The probability of a looked-up word, computed without cache. -/
def pureProb (o : Option WordInfo) : Except Err K :=
  match o with
  | none => .ok (unknownWordProb F)
  | some r => freshProbability F nspam nham r

/-- The clue tuple of a word, computed without cache. -/
def pureClue (info : W → Option WordInfo) (w : W) : Except Err (Clue W K) := do
  let p ← pureProb F nspam nham (info w)
  pure { distance := |F.sub p (F.rnd (1 / 2))|, prob := p, word := w, record := info w }

variable {F nspam nham} {B : Backend σ W} {P : W → Prop} {info : W → Option WordInfo}

theorem computes_wordDistanceGet (hB : Reads B Inv P info) {w : W} (hw : P w) :
    Computes (Scoring F Inv ub nspam nham) (wordDistanceGet F B w) (pureClue F nspam nham info w) := by
  have h1 : Computes (Scoring F Inv ub nspam nham) (onStore (B.get w)) (.ok (info w)) :=
    computes_onStore (hB w hw)
  have : pureClue F nspam nham info w = ((.ok (info w) : Except Err (Option WordInfo)) >>= fun record => do
      let p ← pureProb F nspam nham record
      pure { distance := |F.sub p (F.rnd (1 / 2))|, prob := p, word := w, record := record }) := rfl
  rw [this]
  unfold wordDistanceGet
  refine Computes.bind h1 fun record _ => ?_
  refine Computes.bind (r := pureProb F nspam nham record) ?_ fun p _ => Computes.pure _
  cases record with
  | none => exact Computes.pure _
  | some r => exact computes_probability r

variable (F nspam nham) in
/-- `_getclues`, unigram branch, without cache -/
def pureCluesUnigram [LinearOrder W] (info : W → Option WordInfo) (order : List W) :
    Except Err (List (Clue W K)) := do
  let all ← order.mapM (pureClue F nspam nham info)
  pure (keepStrongest
    ((all.filter (fun t => decide (t.distance ≥ minimumProbStrength F))).mergeSort clueLe))

theorem computes_getCluesUnigram [LinearOrder W] (hB : Reads B Inv P info) (it : SetIter W)
    (ws : List W) (hP : ∀ w ∈ ws, P w) :
    Computes (Scoring F Inv ub nspam nham) (getCluesUnigram F B it ws)
      (pureCluesUnigram F nspam nham info (it.order ws)) := by
  unfold getCluesUnigram pureCluesUnigram
  refine Computes.bind (Computes.mapAll _ fun x hx => ?_) fun all _ => Computes.pure _
  exact computes_wordDistanceGet hB (hP x ((it.mem ws x).1 hx))

variable (F nspam nham) in
def pureConsider [DecidableEq W] (info : W → Option WordInfo) (w : W) (indices : List Nat)
    (seen : List W) (raw : List (Cand W K)) : Except Err (List W × List (Cand W K)) :=
  if w ∈ seen then pure (seen, raw)
  else do
    let tup ← pureClue F nspam nham info w
    if tup.distance ≥ minimumProbStrength F then pure (w :: seen, raw ++ [⟨tup, indices⟩])
    else pure (w :: seen, raw)

theorem computes_considerClue [DecidableEq W] (hB : Reads B Inv P info) {w : W} (hw : P w)
    (indices : List Nat) (seen : List W) (raw : List (Cand W K)) :
    Computes (Scoring F Inv ub nspam nham) (considerClue F B w indices seen raw)
      (pureConsider F nspam nham info w indices seen raw) := by
  unfold considerClue pureConsider
  split
  · exact Computes.pure _
  · refine Computes.bind (computes_wordDistanceGet hB hw) fun tup _ => ?_
    split <;> exact Computes.pure _

variable (F nspam nham) in
def purePair [DecidableEq W] [BigramFormat W] (info : W → Option WordInfo) (i : Nat)
    (last : Option W) (token : W) (st : List W × List (Cand W K)) :
    Except Err (List W × List (Cand W K)) :=
  match last with
  | none => pure st
  | some l => pureConsider F nspam nham info (BigramFormat.bi l token) [i - 1, i] st.1 st.2

variable (F nspam nham) in
def pureFill [DecidableEq W] [BigramFormat W] (info : W → Option WordInfo) :
    (i : Nat) → (last : Option W) → List W → List W → List (Cand W K) → Except Err (List (Cand W K))
  | _, _, [], _, raw => pure raw
  | i, last, token :: rest, seen, raw => do
    let st ← pureConsider F nspam nham info token [i] seen raw
    let st ← purePair F nspam nham info i last token st
    pureFill info (i + 1) (some token) rest st.1 st.2

/-- the words a bigram-mode scoring looks up -/
def PAdj [BigramFormat W] (P : W → Prop) : Option W → List W → Prop
  | _, [] => True
  | last, w :: rest => P w ∧ (∀ l, last = some l → P (BigramFormat.bi l w)) ∧ PAdj P (some w) rest

theorem computes_fillRaw [DecidableEq W] [BigramFormat W] (hB : Reads B Inv P info)
    (ws : List W) : ∀ (i : Nat) (last : Option W) (seen : List W) (raw : List (Cand W K)),
    PAdj P last ws →
    Computes (Scoring F Inv ub nspam nham) (fillRaw F B i last ws seen raw)
      (pureFill F nspam nham info i last ws seen raw) := by
  induction ws with
  | nil => intro i last seen raw _; exact Computes.pure _
  | cons token rest ih =>
    intro i last seen raw hP
    unfold fillRaw pureFill
    refine Computes.bind (computes_considerClue hB hP.1 _ _ _) fun a _ => ?_
    refine Computes.bind (r := purePair F nspam nham info i last token a) ?_ fun a _ => ?_
    · cases last with
      | none => exact Computes.pure _
      | some l => exact computes_considerClue hB (hP.2.1 l rfl) _ _ _
    · exact ih _ _ _ _ hP.2.2

variable (F nspam nham) in
/-- `_getclues`, bigram branch, without cache -/
def pureCluesBigram [LinearOrder W] [BigramFormat W] (info : W → Option WordInfo) (ws : List W) :
    Except Err (List (Clue W K)) := do
  let raw ← pureFill F nspam nham info 0 none ws [] []
  let raw := raw.mergeSort (fun a b => clueLe b.clue a.clue)
  pure (keepStrongest ((tile [] raw).map (·.clue)).reverse)

theorem computes_getCluesBigram [LinearOrder W] [BigramFormat W] (hB : Reads B Inv P info)
    (ws : List W) (hP : PAdj P none ws) :
    Computes (Scoring F Inv ub nspam nham) (getCluesBigram F B ws)
      (pureCluesBigram F nspam nham info ws) := by
  unfold getCluesBigram pureCluesBigram
  exact Computes.bind (computes_fillRaw hB ws 0 none [] [] hP) fun raw _ => Computes.pure _

variable (F nspam nham) in
/-- `_getclues` without cache -/
def pureClues [LinearOrder W] [BigramFormat W] (ub : Option Bool) (info : W → Option WordInfo)
    (it : SetIter W) (s : Stream W) : Except Err (List (Clue W K)) :=
  match ub with
  | none => .error .attributeError
  | some true => pureCluesBigram F nspam nham info s.items
  | some false => pureCluesUnigram F nspam nham info (it.order s.items)

/-- the words a scoring call looks up all satisfy `P` -/
def ProbesIn [BigramFormat W] (P : W → Prop) (ub : Option Bool) (s : Stream W) : Prop :=
  match ub with
  | none => True
  | some true => PAdj P none s.items
  | some false => ∀ w ∈ s.items, P w

theorem computes_getClues [LinearOrder W] [BigramFormat W] (hB : Reads B Inv P info)
    (it : SetIter W) (s : Stream W) (hP : ProbesIn P ub s) :
    Computes (Scoring F Inv ub nspam nham) (getClues F B it s)
      (pureClues F nspam nham ub info it s) := by
  intro c hc
  unfold getClues
  rw [M.bind_run_ok (M.get_run _), hc.ub]
  match ub, hP, hc with
  | none, _, hc => exact Computes.raise _ c hc
  | some true, hP, hc => exact computes_getCluesBigram hB s.items hP c hc
  | some false, hP, hc => exact computes_getCluesUnigram hB it s.items hP c hc

variable (F nspam nham) in
/-- `spamprob` without cache -/
def pureSpamprob [LinearOrder W] [BigramFormat W] (ub : Option Bool) (info : W → Option WordInfo)
    (it : SetIter W) (s : Stream W) (evidence : Bool) :
    Except Err (K × Option (List (EvWord W × K))) := do
  let clues ← pureClues F nspam nham ub info it s
  match combine F (clues.map (·.prob)) with
  | .error e => .error e
  | .ok (prob, S, H) =>
    if evidence then pure (prob, some (evidenceList clues S H)) else pure (prob, none)

theorem computes_spamprob [LinearOrder W] [BigramFormat W] (hB : Reads B Inv P info)
    (it : SetIter W) (s : Stream W) (ev : Bool) (hP : ProbesIn P ub s) :
    Computes (Scoring F Inv ub nspam nham) (spamprob F B it s ev)
      (pureSpamprob F nspam nham ub info it s ev) := by
  unfold spamprob pureSpamprob
  refine Computes.bind (computes_getClues hB it s hP) fun clues _ => ?_
  cases combine F (clues.map (·.prob)) with
  | error e => exact Computes.raise _
  | ok v =>
    obtain ⟨prob, S, H⟩ := v
    cases ev <;> exact Computes.pure _

theorem pAdj_true [BigramFormat W] (last : Option W) (ws : List W) : PAdj (fun _ => True) last ws := by
  induction ws generalizing last with
  | nil => trivial
  | cons w rest ih => exact ⟨trivial, fun _ _ => trivial, ih _⟩

theorem probesIn_true [BigramFormat W] (ub : Option Bool) (s : Stream W) :
    ProbesIn (fun _ => True) ub s := by
  cases ub with
  | none => trivial
  | some b => cases b; exact fun _ _ => trivial; exact pAdj_true _ _

/-- The in-memory classifier with a coherent cache scores as the pure function
does, and changes nothing but its (still coherent) cache. -/
theorem spamprob_memory [LinearOrder W] [BigramFormat W] (c : Clf (Dict W WordInfo) K)
    (hc : Coherent F c) (it : SetIter W) (s : Stream W) (ev : Bool) :
    (spamprob F (memory W) it s ev c).1 =
      pureSpamprob F c.nspam c.nham c.useBigrams c.store.get? it s ev ∧
    Coherent F (spamprob F (memory W) it s ev c).2 ∧
    (spamprob F (memory W) it s ev c).2.store = c.store ∧
    (spamprob F (memory W) it s ev c).2.nspam = c.nspam ∧
    (spamprob F (memory W) it s ev c).2.nham = c.nham ∧
    (spamprob F (memory W) it s ev c).2.useBigrams = c.useBigrams := by
  obtain ⟨h1, h2⟩ := computes_spamprob (F := F) (ub := c.useBigrams) (nspam := c.nspam)
    (nham := c.nham) (reads_memory c.store) it s ev (probesIn_true _ _) c ⟨hc, rfl, rfl, rfl, rfl⟩
  exact ⟨h1, h2.coherent, h2.inv, h2.nspam, h2.nham, h2.ub⟩

end

end Sb
