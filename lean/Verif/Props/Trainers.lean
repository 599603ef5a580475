import Verif.Props.Trainer

/-
Property C51 with several trainers: a spam corpus and a ham corpus, say.
-/

set_option linter.unusedSectionVars false

namespace Sb.Props
open Sb.Corpora Sb.Spec Py Mail

variable {ν W K R : Type} [DecidableEq ν] [LinearOrder W] [BigramFormat W] [DecidableEq R] (O : MailOps ν)

/-- A trainer: its name, what it trains its messages as, and its corpora. -/
structure TrainerOf (R : Type) where
  name : R
  isSpam : Bool
  corpora : List Corpus

/-- The signals after the trainers have been made one after the other. -/
def connectAll (ts : List (TrainerOf R)) : Signals R :=
  ts.foldl (fun S t => connectTrainer t.name t.corpora S) ⟨[], []⟩

/-- What the trainer of this name trains its messages as. -/
def spamOf (ts : List (TrainerOf R)) (r : R) : Bool :=
  match ts.find? (fun t => t.name = r) with
  | some t => t.isSpam
  | none => false

/-- The observers: every trainer has its method `train`. -/
def trainersRun (T : TokenOps ν W) (itW : SetIter W) (ts : List (TrainerOf R)) :
    R → Observer ν (Training ν W K) :=
  fun r => train T itW (spamOf ts r)

/-- The trainers that listen to a corpus. -/
def listening (ts : List (TrainerOf R)) (c : Corpus) : List (TrainerOf R) := ts.filter (fun t => c ∈ t.corpora)

/-- What an operation has the classifier learn: the message, once for each trainer
listening to the corpus. -/
def learnedBy (T : TokenOps ν W) (ub : Bool) (ts : List (TrainerOf R)) (op : Op ν R) : List (Msg W) :=
  if opEmit op then
    match T.tokens (opMessage op) with
    | .ok ws => (listening ts (opCorpus op)).map (fun t => msgOf ub (.iterator ws) t.isSpam)
    | .error _ => []
  else []

theorem connectAll_eq (ts : List (TrainerOf R)) (S : Signals R) :
    ts.foldl (fun S t => connectTrainer t.name t.corpora S) S =
      ⟨S.added ++ ts.flatMap (fun t => t.corpora.map (fun c => (t.name, some c))),
       S.removed ++ ts.flatMap (fun t => t.corpora.map (fun c => (t.name, some c)))⟩ := by
  induction ts generalizing S with
  | nil => simp
  | cons t r ih => rw [List.foldl_cons, ih]; simp [connectTrainer]

theorem mem_receivers (ts : List (TrainerOf R)) (c : Corpus) (r : R) :
    r ∈ receiversFor (ts.flatMap (fun t => t.corpora.map (fun c => (t.name, some c)))) c ↔
      r ∈ (listening ts c).map (·.name) := by
  simp only [receiversFor, listening, List.mem_map, List.mem_filter, List.mem_flatMap, decide_eq_true_eq]
  constructor
  · rintro ⟨e, ⟨⟨t, ht, c', hc', rfl⟩, he⟩, rfl⟩
    simp only [reduceCtorEq, Option.some.injEq, false_or] at he
    exact ⟨t, ⟨ht, he ▸ hc'⟩, rfl⟩
  · rintro ⟨t, ⟨ht, hc⟩, rfl⟩
    exact ⟨(t.name, some c), ⟨⟨t, ht, c, hc, rfl⟩, by simp⟩, rfl⟩

theorem spamOf_mem {ts : List (TrainerOf R)} (hn : (ts.map (·.name)).Nodup) {t : TrainerOf R} (ht : t ∈ ts) :
    spamOf ts t.name = t.isSpam := by
  unfold spamOf
  induction ts with
  | nil => cases ht
  | cons a r ih =>
    simp only [List.map_cons, List.nodup_cons] at hn
    rcases List.mem_cons.1 ht with rfl | ht
    · simp
    · have : a.name ≠ t.name := fun h => hn.1 (h ▸ List.mem_map_of_mem ht)
      rw [List.find?_cons_of_neg (by simpa using this)]
      exact ih hn.2 ht

/-- The order in which the trainers are called is an order of those that listen. -/
theorem order_trainers (it : SetIter R) (ts : List (TrainerOf R)) (hn : (ts.map (·.name)).Nodup) (c : Corpus) :
    (it.order (receiversFor (ts.flatMap (fun t => t.corpora.map (fun c => (t.name, some c)))) c)).Perm
      ((listening ts c).map (·.name)) := by
  rw [List.perm_ext_iff_of_nodup (it.nodup _)
    (show ((listening ts c).map (·.name)).Nodup from hn.sublist ((List.filter_sublist (l := ts)).map _))]
  intro r
  rw [it.mem, mem_receivers]

/-- Trainers called in turn with a message that has tokens. -/
theorem trainers_called (T : TokenOps ν W) (itW : SetIter W) (ub : Bool) (ts : List (TrainerOf R)) (c : Corpus)
    (m : ν) (hk : T.hasKey m = true) {ws : List W} (hws : T.tokens m = .ok ws) (rs : List R)
    (w : World ν (Training ν W K)) (L : Ledger W) (hL : Represents L ub w.user.clf) :
    (M.forEach (callReceiver (trainersRun T itW ts) c m) rs w).1 = .ok () ∧
    Represents (Multiset.ofList (rs.map (fun r => msgOf ub (.iterator ws) (spamOf ts r))) + L) ub
      (M.forEach (callReceiver (trainersRun T itW ts) c m) rs w).2.user.clf := by
  induction rs generalizing w L with
  | nil => exact ⟨rfl, by simpa using hL⟩
  | cons r rs ih =>
    have hstep : callReceiver (trainersRun T itW ts) c m r w = (.ok (), { w with
        user := ⟨afterAdd itW (trainTokens ub (.iterator ws)) (spamOf ts r) w.user.clf,
          fun x => if x = m then some (spamOf ts r) else w.user.trained x⟩ }) := by
      simp only [callReceiver, trainersRun, train, trainWith, hk, if_true, learnTokens, hws,
        learn_memory itW _ (spamOf ts r) _ hL.ub]
    rw [M.forEach_cons, M.bind_run_ok hstep]
    have h1 := represents_afterAdd hL itW (trainTokens ub (.iterator ws)) (spamOf ts r)
    obtain ⟨i1, i2⟩ := ih { w with
        user := ⟨afterAdd itW (trainTokens ub (.iterator ws)) (spamOf ts r) w.user.clf,
          fun x => if x = m then some (spamOf ts r) else w.user.trained x⟩ } _ h1
    refine ⟨i1, ?_⟩
    rw [List.map_cons, ← Multiset.cons_coe, Multiset.cons_add, ← Multiset.add_cons]
    have hm : msgOf ub (.iterator ws) (spamOf ts r) =
        ((trainTokens ub (.iterator ws)).toFinset, spamOf ts r) := by rw [trainTokens_eq]; rfl
    rw [hm]
    exact i2

/-- One operation on a corpus in memory. -/
theorem runOp_trainers (T : TokenOps ν W) (itW : SetIter W) (ub : Bool) (ts : List (TrainerOf R))
    (hn : (ts.map (·.name)).Nodup) (op : Op ν R) (hk : T.hasKey (opMessage op) = true)
    (hT : ∃ ws, T.tokens (opMessage op) = .ok ws) (w : World ν (Training ν W K)) (h : InMemory w)
    (L : Ledger W) (hL : Represents L ub w.user.clf) :
    (runOp O (trainersRun T itW ts) (connectAll ts) op w).1 = .ok () ∧
    Represents (Multiset.ofList (learnedBy T ub ts op) + L) ub
      (runOp O (trainersRun T itW ts) (connectAll ts) op w).2.user.clf := by
  obtain ⟨ws, hws⟩ := hT
  obtain ⟨h1, -, h3⟩ := cacheStep_inMemory O op w h
  rw [runOp_eq]
  cases hc : cacheStep O op w with
  | mk x w' =>
    rw [hc] at h1 h3
    simp only at h1 h3
    subst h1
    simp only
    cases he : opEmit op with
    | false => simpa [learnedBy, he, h3] using hL
    | true =>
      simp only [if_true]
      obtain ⟨it, hsend⟩ : ∃ it : SetIter R, opSend (trainersRun T itW ts) (connectAll ts) op w' =
          M.forEach (callReceiver (trainersRun T itW ts) (opCorpus op) (opMessage op)) (it.order
            (receiversFor (ts.flatMap (fun t => t.corpora.map (fun c => (t.name, some c)))) (opCorpus op))) w' := by
        cases op with
        | add it c m i e => exact ⟨it, by simp [opSend, send, connectAll, connectAll_eq, opCorpus, opMessage]⟩
        | remove it c m e => exact ⟨it, by simp [opSend, send, connectAll, connectAll_eq, opCorpus, opMessage]⟩
      rw [hsend]
      have hperm := order_trainers it ts hn (opCorpus op)
      obtain ⟨i1, i2⟩ := trainers_called T itW ub ts (opCorpus op) (opMessage op) hk hws _ w' L
        (by rw [h3]; exact hL)
      refine ⟨i1, ?_⟩
      have hmap : learnedBy T ub ts op =
          ((listening ts (opCorpus op)).map (·.name)).map (fun r => msgOf ub (.iterator ws) (spamOf ts r)) := by
        simp only [learnedBy, he, if_true, hws, List.map_map]
        apply List.map_congr_left
        intro t ht
        simp only [Function.comp, spamOf_mem hn (List.mem_filter.1 ht).1]
      rw [hmap, ← Multiset.coe_eq_coe.2 (hperm.map _)]
      exact i2

/-- **C51** with any number of trainers on any corpora in memory, exactly: no operation
raises, and the classifier has learned every message that was added or removed, once
per trainer and signal, as what that trainer trains; in whatever order they are
called. -/
theorem C51_trainers_partial (T : TokenOps ν W) (itW : SetIter W) (ub : Bool) (ts : List (TrainerOf R))
    (hn : (ts.map (·.name)).Nodup) (ops : List (Op ν R))
    (hT : ∀ op ∈ ops, T.hasKey (opMessage op) = true ∧ ∃ ws, T.tokens (opMessage op) = .ok ws)
    (w : World ν (Training ν W K)) (h : InMemory w) (L : Ledger W) (hL : Represents L ub w.user.clf) :
    Represents (Multiset.ofList (ops.flatMap (learnedBy T ub ts)) + L) ub
      (runOps O (trainersRun T itW ts) (connectAll ts) ops w).user.clf := by
  induction ops generalizing w L with
  | nil => simpa [runOps] using hL
  | cons op r ih =>
    obtain ⟨hk, hws⟩ := hT op (by simp)
    obtain ⟨-, h2⟩ := runOp_trainers O T itW ub ts hn op hk hws w h L hL
    have := ih (fun o ho => hT o (by simp [ho])) _
      (runOp_inMemory O (trainersRun T itW ts) (connectAll ts) op w h) _ h2
    rw [List.flatMap_cons, ← Multiset.coe_add, add_assoc, add_left_comm]
    exact this

/-- **C51**, a move: a message is put into the spam corpus and later moved to the ham
corpus, each with its trainer. It ends up learned twice as spam and once as ham. -/
theorem C51_moved_partial (T : TokenOps ν W) (itW : SetIter W) (ub : Bool) (a b : R) (hab : a ≠ b)
    (spam ham : Corpus) (hc : spam ≠ ham) (it1 it2 it3 : SetIter R) (m : ν) (hk : T.hasKey m = true)
    {ws : List W} (hws : T.tokens m = .ok ws) (w : World ν (Training ν W K)) (h : InMemory w) (L : Ledger W)
    (hL : Represents L ub w.user.clf) :
    Represents (msgOf ub (.iterator ws) true ::ₘ msgOf ub (.iterator ws) true ::ₘ
        msgOf ub (.iterator ws) false ::ₘ L) ub
      (runOps O (trainersRun T itW [⟨a, true, [spam]⟩, ⟨b, false, [ham]⟩])
        (connectAll [⟨a, true, [spam]⟩, ⟨b, false, [ham]⟩])
        [.add it1 spam m none true, .remove it2 spam m true, .add it3 ham m none true] w).user.clf := by
  have := C51_trainers_partial O T itW ub [⟨a, true, [spam]⟩, ⟨b, false, [ham]⟩] (by simpa using hab)
    [.add it1 spam m none true, .remove it2 spam m true, .add it3 ham m none true]
    (by simp [opMessage, hk, hws]) w h L hL
  simp only [List.flatMap_cons, List.flatMap_nil, learnedBy, opEmit, opMessage, opCorpus, hws, listening,
    List.filter, List.mem_singleton, hc, hc.symm, decide_true, decide_false, if_true, List.map_cons, List.map_nil,
    List.append_nil, List.cons_append, List.nil_append] at this
  simpa [← Multiset.cons_coe] using this

/-- The totals after such a move. -/
example :
    let w := runOps sampleMail (trainersRun (⟨fun _ => true, fun _ => .ok ["x"]⟩ : TokenOps _ String) .dedup
        [⟨true, true, [⟨0, 0⟩]⟩, ⟨false, false, [⟨1, 1⟩]⟩])
      (connectAll [⟨true, true, [⟨0, 0⟩]⟩, ⟨false, false, [⟨1, 1⟩]⟩])
      [.add .dedup ⟨0, 0⟩ (some [1], []) none true, .remove .dedup ⟨0, 0⟩ (some [1], []) true,
        .add .dedup ⟨1, 1⟩ (some [1], []) none true]
      (⟨[.naive (.new none), .naive (.new none)], Dict.empty, ⟨Clf.new false Dict.empty, fun _ => none⟩⟩ :
          World _ (Training _ String Rat))
    w.user.clf.nspam = 2 ∧ w.user.clf.nham = 1 ∧ corpusLen ⟨0, 0⟩ w = 0 ∧ corpusLen ⟨1, 1⟩ w = 1 := by
  decide

end Sb.Props
