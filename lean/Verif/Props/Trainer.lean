import Verif.Model.Trainer
import Verif.Props.Corpora
import Verif.Proof.Ledger
import Mathlib.Data.Multiset.AddSub
import Verif.Model.Tokens
import Verif.Model.Exact

/-
Properties C51 (trainers) and C70 (training with tokens that fail to come).
-/

set_option linter.unusedSectionVars false

namespace Sb.Props
open Sb.Corpora Sb.Spec Py Mail

section
variable {K σ : Type}

/-! ### C70 -/

/-- The claim: training that raises changes nothing. -/
def C70Claim : Prop :=
  ∀ (c : Clf (Dict String WordInfo) Rat) (e : Err) (isSpam : Bool),
    (∀ e' c', learnRaising e isSpam c = (.error e', c') → c'.nspam = c.nspam ∧ c'.nham = c.nham) ∧
    (∀ e' c', unlearnRaising e isSpam c = (.error e', c') → c'.nspam = c.nspam ∧ c'.nham = c.nham)

/-- **C70**, exactly: if the tokens raise, learn raises it too; the message has been
counted, none of its words has. -/
theorem C70_learn (c : Clf σ K) (ub : Bool) (hub : c.useBigrams = some ub) (e : Err) (isSpam : Bool) :
    learnRaising e isSpam c = (.error e,
      { c with probcache := Dict.empty
               nspam := c.nspam + (if isSpam then 1 else 0)
               nham := c.nham + (if isSpam then 0 else 1) }) := by
  unfold learnRaising addMsgRaising
  rw [M.bind_run_ok (M.get_run _), hub]
  cases isSpam <;> simp [M.bind_run, hub]

/-- **C70**, exactly: unlearn the same way; without messages to unlearn it is ValueError. -/
theorem C70_unlearn (c : Clf σ K) (ub : Bool) (hub : c.useBigrams = some ub) (e : Err) (isSpam : Bool) :
    unlearnRaising e isSpam c =
      if (if isSpam then c.nspam else c.nham) ≤ 0 then (.error .valueError, { c with probcache := Dict.empty })
      else (.error e,
        { c with probcache := Dict.empty
                 nspam := c.nspam - (if isSpam then 1 else 0)
                 nham := c.nham - (if isSpam then 0 else 1) }) := by
  unfold unlearnRaising removeMsgRaising
  rw [M.bind_run_ok (M.get_run _), hub]
  cases isSpam
  · simp only [M.bind_run_ok (M.modify_run _ _), M.bind_run_ok (M.get_run _), Bool.false_eq_true, if_false]
    by_cases h : c.nham ≤ 0
    · rw [if_pos h, if_pos h, M.bind_run_error (M.raise_run _ _), hub]
    · rw [if_neg h, if_neg h, M.bind_run_ok (M.modify_run _ _)]
      simp [hub]
  · simp only [M.bind_run_ok (M.modify_run _ _), M.bind_run_ok (M.get_run _), if_true]
    by_cases h : c.nspam ≤ 0
    · rw [if_pos h, if_pos h, M.bind_run_error (M.raise_run _ _), hub]
    · rw [if_neg h, if_neg h, M.bind_run_ok (M.modify_run _ _)]
      simp [hub]

/-- What holds of both: the word counts are untouched. -/
theorem C70_words_untouched_partial (c : Clf σ K) (e : Err) (isSpam : Bool) :
    (learnRaising e isSpam c).2.store = c.store ∧ (unlearnRaising e isSpam c).2.store = c.store := by
  cases hub : c.useBigrams with
  | none =>
    unfold learnRaising unlearnRaising
    rw [M.bind_run_ok (M.get_run _), M.bind_run_ok (M.get_run _), hub]
    exact ⟨rfl, rfl⟩
  | some ub =>
    rw [C70_learn c ub hub, C70_unlearn c ub hub]
    refine ⟨rfl, ?_⟩
    by_cases h : (if isSpam = true then c.nspam else c.nham) ≤ 0
    · rw [if_pos h]
    · rw [if_neg h]

/-- **C70** is false: the totals change. -/
theorem C70_claim_false : ¬ C70Claim := by
  intro h
  have := (h (Clf.new false Dict.empty) .typeError true).1 _ _ (C70_learn _ false rfl _ _)
  have h2 := this.1
  simp [Clf.new] at h2

/-- A classifier can be left with a word that is in more messages than there are. -/
example : ((unlearnRaising .typeError true : M (Clf (Dict String WordInfo) Rat) Unit)
    { useBigrams := some false, store := ⟨[("a", ⟨1, 0⟩)]⟩, probcache := Dict.empty, nspam := 1, nham := 0 }).2.nspam = 0 := by
  rw [C70_unlearn _ false rfl]; rfl

end

/-! ### C51 -/

section
variable {ν W K R : Type} [DecidableEq ν] [LinearOrder W] [BigramFormat W] [DecidableEq R] (O : MailOps ν)

/-- The signals when there is one trainer. -/
def oneTrainer (r : R) (corpora : List Corpus) : Signals R := connectTrainer r corpora ⟨[], []⟩

def opMessage : Op ν R → ν
  | .add _ _ m _ _ => m
  | .remove _ _ m _ => m

theorem order_one (it : SetIter R) {l : List R} {r : R} (h : ∀ x ∈ l, x = r) :
    it.order l = if l = [] then [] else [r] := by
  have hnd := it.nodup l
  have hm := it.mem l
  cases hl : l with
  | nil =>
    rw [if_pos rfl]
    rw [List.eq_nil_iff_forall_not_mem]
    intro x hx
    rw [it.mem] at hx
    simp at hx
  | cons a t =>
    rw [if_neg (by simp), ← hl]
    have hall : ∀ x ∈ it.order l, x = r := fun x hx => h x ((hm x).1 hx)
    have hr : r ∈ it.order l := by
      rw [hm, ← h a (by rw [hl]; simp), hl]; simp
    generalize it.order l = o at hnd hall hr
    match o, hnd, hall, hr with
    | [x], _, hall, _ => rw [hall x (by simp)]
    | x :: y :: t, hnd, hall, _ =>
      exfalso
      have h1 := hall x (by simp)
      have h2 := hall y (by simp)
      simp [h1, h2] at hnd

/-- A signal of a corpus calls the trainer if the corpus is one of its corpora. -/
theorem send_one (it : SetIter R) (run : R → Observer ν (Training ν W K)) (r : R) (corpora : List Corpus)
    (c : Corpus) (m : ν) (w : World ν (Training ν W K)) :
    send it run (corpora.map (fun c => (r, some c))) c m w =
      if c ∈ corpora then callReceiver run c m r w else (.ok (), w) := by
  have hr : ∀ x ∈ receiversFor (corpora.map (fun c => (r, some c))) c, x = r := by
    intro x hx
    simp only [receiversFor, List.mem_map, List.mem_filter] at hx
    obtain ⟨e, ⟨⟨c', -, rfl⟩, -⟩, rfl⟩ := hx
    rfl
  have hne : receiversFor (corpora.map (fun c => (r, some c))) c = [] ↔ c ∉ corpora := by
    rw [List.eq_nil_iff_forall_not_mem]
    constructor
    · intro h hc
      apply h r
      simp only [receiversFor, List.mem_map, List.mem_filter]
      exact ⟨(r, some c), ⟨⟨c, hc, rfl⟩, by simp⟩, rfl⟩
    · intro hc x hx
      simp only [receiversFor, List.mem_map, List.mem_filter] at hx
      obtain ⟨e, ⟨⟨c', hc', rfl⟩, he⟩, -⟩ := hx
      simp at he
      exact hc (he ▸ hc')
  rw [send, order_one it hr]
  by_cases hc : c ∈ corpora
  · rw [if_pos hc, if_neg (fun h => hne.1 h hc)]
    simp only [M.forEach_cons, M.forEach_nil, M.bind_run]
    cases h : callReceiver run c m r w with
    | mk x w' => cases x <;> rfl
  · rw [if_neg hc, if_pos (hne.2 hc)]
    rfl

/-- The observers when there is one trainer. -/
def trainerRun (T : TokenOps ν W) (itW : SetIter W) (isSpam : Bool) : R → Observer ν (Training ν W K) :=
  fun _ => train T itW isSpam

/-- What a trainer does at an operation on a corpus in memory. -/
theorem runOp_trainer (run : R → Observer ν (Training ν W K)) (r : R) (corpora : List Corpus) (op : Op ν R)
    (w : World ν (Training ν W K)) (h : InMemory w) :
    ((runOp O run (oneTrainer r corpora) op w).1, (runOp O run (oneTrainer r corpora) op w).2.user) =
      if opEmit op = true ∧ opCorpus op ∈ corpora then run r (opCorpus op) (opMessage op) w.user
      else (.ok (), w.user) := by
  obtain ⟨h1, -, h3⟩ := cacheStep_inMemory O op w h
  rw [runOp_eq]
  cases hc : cacheStep O op w with
  | mk x w' =>
    rw [hc] at h1 h3
    simp only at h1 h3
    subst h1
    simp only
    by_cases he : opEmit op = true
    · have hs : opSend run (oneTrainer r corpora) op w' =
          if opCorpus op ∈ corpora then callReceiver run (opCorpus op) (opMessage op) r w' else (.ok (), w') := by
        cases op <;> exact send_one _ run r corpora _ _ w'
      rw [if_pos he, hs]
      by_cases hcc : opCorpus op ∈ corpora
      · rw [if_pos hcc, if_pos ⟨he, hcc⟩]
        unfold callReceiver
        rw [h3]
      · rw [if_neg hcc, if_neg (fun h => hcc h.2), h3]
    · rw [if_neg he, if_neg (fun h => he h.1), h3]

theorem runOp_inMemory {σ : Type} (run : R → Observer ν σ) (S : Signals R) (op : Op ν R) (w : World ν σ)
    (h : InMemory w) : InMemory (runOp O run S op w).2 := by
  intro o ho
  rw [(runOp_caches O run S op w).1] at ho
  exact (cacheStep_inMemory O op w h).2.1 o ho

/-- **C51**, the actual behaviour with the package's own class Message, which has no
method `key`: every change that is signalled raises AttributeError, nothing is ever
trained, and the corpora change all the same. -/
theorem C51_no_key (T : TokenOps ν W) (itW : SetIter W) (isSpam : Bool) (hT : ∀ m, T.hasKey m = false)
    (r : R) (corpora : List Corpus) (ops : List (Op ν R)) (w : World ν (Training ν W K)) (h : InMemory w) :
    (runOps O (trainerRun T itW isSpam) (oneTrainer r corpora) ops w).user = w.user ∧
    (∀ op, (runOp O (trainerRun T itW isSpam) (oneTrainer r corpora) op w).1 =
      if opEmit op = true ∧ opCorpus op ∈ corpora then .error .attributeError else .ok ()) ∧
    (runOps O (trainerRun T itW isSpam) (oneTrainer r corpora) ops w).heap =
      (runOps O (trainerRun T itW isSpam) ⟨[], []⟩ ops w).heap := by
  have key : ∀ (op : Op ν R) (w : World ν (Training ν W K)), InMemory w →
      ((runOp O (trainerRun T itW isSpam) (oneTrainer r corpora) op w).1,
        (runOp O (trainerRun T itW isSpam) (oneTrainer r corpora) op w).2.user) =
      (if opEmit op = true ∧ opCorpus op ∈ corpora then .error .attributeError else .ok (), w.user) := by
    intro op w hw
    rw [runOp_trainer O _ r corpora op w hw]
    split
    · simp [trainerRun, train, trainWith, hT]
    · rfl
  refine ⟨?_, fun op => congrArg Prod.fst (key op w h),
    (C48_observers_cannot_disturb O _ _ _ _ ops w w rfl rfl).1⟩
  induction ops generalizing w with
  | nil => rfl
  | cons op t ih =>
    exact (ih _ (runOp_inMemory O _ _ op w h)).trans (congrArg Prod.snd (key op w h))

/-- What an operation trains. -/
def trainedBy (T : TokenOps ν W) (ub isSpam : Bool) (corpora : List Corpus) (op : Op ν R) : Option (Msg W) :=
  if opEmit op = true ∧ opCorpus op ∈ corpora then
    match T.tokens (opMessage op) with
    | .ok ws => some (msgOf ub (.iterator ws) isSpam)
    | .error _ => none
  else none

/-- **C51**, the actual behaviour with messages that have a method `key`, and tokens:
both adding and removing a message train it once more; nothing is ever untrained. -/
theorem C51_trains_on_removal (T : TokenOps ν W) (itW : SetIter W) (ub isSpam : Bool)
    (hT : ∀ m, T.hasKey m = true ∧ ∃ ws, T.tokens m = .ok ws)
    (r : R) (corpora : List Corpus) (ops : List (Op ν R)) (w : World ν (Training ν W K)) (h : InMemory w)
    (L : Ledger W) (hL : Represents L ub w.user.clf) :
    Represents (Multiset.ofList (ops.filterMap (trainedBy T ub isSpam corpora)) + L) ub
      (runOps O (trainerRun T itW isSpam) (oneTrainer r corpora) ops w).user.clf := by
  induction ops generalizing w L with
  | nil => simpa [runOps] using hL
  | cons op t ih =>
    have hu := congrArg Prod.snd (runOp_trainer O (trainerRun T itW isSpam) r corpora op w h)
    simp only at hu
    have hw := runOp_inMemory O (trainerRun T itW isSpam) (oneTrainer r corpora) op w h
    change Represents _ ub (runOps O (trainerRun T itW isSpam) (oneTrainer r corpora) t
      (runOp O (trainerRun T itW isSpam) (oneTrainer r corpora) op w).2).user.clf
    by_cases hc : opEmit op = true ∧ opCorpus op ∈ corpora
    · obtain ⟨hk, ws, hws⟩ := hT (opMessage op)
      have htr : trainedBy T ub isSpam corpora op = some (msgOf ub (.iterator ws) isSpam) := by
        simp [trainedBy, hc, hws]
      rw [if_pos hc] at hu
      have hclf : (runOp O (trainerRun T itW isSpam) (oneTrainer r corpora) op w).2.user.clf =
          afterAdd itW (trainTokens ub (.iterator ws)) isSpam w.user.clf := by
        rw [hu]
        simp only [trainerRun, train, trainWith, hk, if_true, learnTokens, hws,
          learn_memory itW _ isSpam _ hL.ub]
      have hstep := represents_afterAdd hL itW (trainTokens ub (.iterator ws)) isSpam
      rw [← hclf] at hstep
      have := ih _ hw _ hstep
      rw [List.filterMap_cons, htr]
      simp only
      rw [← Multiset.cons_coe, Multiset.cons_add, ← Multiset.add_cons]
      rw [trainTokens_eq] at this
      exact this
    · have htr : trainedBy T ub isSpam corpora op = none := by
        unfold trainedBy; rw [if_neg hc]
      rw [if_neg hc] at hu
      rw [List.filterMap_cons, htr]
      exact ih _ hw L (by rw [hu]; exact hL)

/-- The claim: with a trainer on a corpus that starts empty, the classifier has learned
the messages in the corpus. -/
def C51Claim : Prop :=
  ∀ (T : TokenOps (Option Txt × List Nat) String) (itW : SetIter String) (ops : List (Op (Option Txt × List Nat) Unit)),
    (∀ m, T.hasKey m = true ∧ ∃ ws, T.tokens m = .ok ws) →
    (∀ op ∈ ops, opEmit op = true ∧ opCorpus op = ⟨0, 0⟩) →
    (runOps sampleMail (trainerRun T itW true) (oneTrainer () [⟨0, 0⟩]) ops
        (⟨[.naive (.new none)], Dict.empty, ⟨Clf.new false Dict.empty, fun _ => none⟩⟩ :
          World _ (Training _ String Rat))).user.clf.nspam =
      corpusLen ⟨0, 0⟩ (runOps sampleMail (trainerRun T itW true) (oneTrainer () [⟨0, 0⟩]) ops
        (⟨[.naive (.new none)], Dict.empty, ⟨Clf.new false Dict.empty, fun _ => none⟩⟩ :
          World _ (Training _ String Rat)))

/-- **C51** is false: adding a message and removing it leaves two messages learned. -/
theorem C51_claim_false : ¬ C51Claim := by
  intro h
  have := h ⟨fun _ => true, fun _ => .ok ["x"]⟩ .dedup
    [.add .dedup ⟨0, 0⟩ (some [1], []) none true, .remove .dedup ⟨0, 0⟩ (some [1], []) true]
    (fun m => ⟨rfl, _, rfl⟩) (by simp [opEmit, opCorpus])
  revert this
  decide

/-- The method that should have been connected does what is claimed: it unlearns. -/
theorem C51_untrain (T : TokenOps ν W) (itW : SetIter W) (ub isSpam : Bool) (c : Corpus) (m : ν)
    (s : Training ν W K) (hk : T.hasKey m = true) (ws : List W) (hws : T.tokens m = .ok ws)
    (hub : s.clf.useBigrams = some ub) (hpos : 0 < (if isSpam then s.clf.nspam else s.clf.nham)) :
    (untrain T itW isSpam c m s).1 = .ok () ∧
    (untrain T itW isSpam c m s).2.clf = (unlearn (memory W) itW (.iterator ws) isSpam s.clf).2 ∧
    (untrain T itW isSpam c m s).2.trained m = none ∧
    (train T itW isSpam c m s).2.trained m = some isSpam := by
  have ht : ¬ total isSpam s.clf ≤ 0 := by unfold total; omega
  simp only [untrain, train, trainWith, hk, if_true, unlearnTokens, learnTokens, hws,
    unlearn_memory itW _ isSpam _ hub, learn_memory itW _ isSpam _ hub, if_neg ht]
  simp

/-- A message whose tokens raise is not remembered as trained (nor as untrained), and
the exception reaches whoever adds or removes the message; the classifier is left as
C70 says. -/
theorem C51_failed (T : TokenOps ν W) (itW : SetIter W) (isSpam : Bool) (c : Corpus) (m : ν)
    (s : Training ν W K) (hk : T.hasKey m = true) (e : Err) (he : T.tokens m = .error e)
    (ub : Bool) (hub : s.clf.useBigrams = some ub) :
    (train T itW isSpam c m s).1 = .error e ∧
    (train T itW isSpam c m s).2.trained = s.trained ∧
    (train T itW isSpam c m s).2.clf = (learnRaising e isSpam s.clf).2 ∧
    (untrain T itW isSpam c m s).2.trained = s.trained ∧
    (untrain T itW isSpam c m s).2.clf = (unlearnRaising e isSpam s.clf).2 := by
  simp only [untrain, train, trainWith, hk, if_true, unlearnTokens, learnTokens, he,
    C70_learn _ ub hub, C70_unlearn _ ub hub]
  by_cases h0 : (if isSpam then s.clf.nspam else s.clf.nham) ≤ 0
  · simp only [if_pos h0, and_self]
  · simp only [if_neg h0, and_self]

example : (train (⟨fun _ => true, fun _ => .error .typeError⟩ : TokenOps Nat String) .dedup true ⟨0, 0⟩ 7
    (⟨Clf.new false Dict.empty, fun _ => none⟩ : Training Nat String Rat)).2.clf.nspam = 1 := by decide

/-- A world with one corpus in memory and a classifier that has learned nothing. -/
def freshTraining : World (Option Txt × List Nat) (Training (Option Txt × List Nat) String Rat) :=
  ⟨[.naive (.new none)], Dict.empty, ⟨Clf.new false Dict.empty, fun _ => none⟩⟩

theorem freshTraining_inMemory : InMemory freshTraining := by
  intro o h
  exact ⟨_, List.mem_singleton.1 h⟩

/-- A message is added to a corpus and removed. -/
def addRemove : List (Op (Option Txt × List Nat) Unit) :=
  [.add .dedup ⟨0, 0⟩ (some [1], []) none true, .remove .dedup ⟨0, 0⟩ (some [1], []) true]

/-- It has been learned twice. -/
example : (runOps sampleMail (trainerRun ⟨fun _ => true, fun _ => .ok ["x"]⟩ .dedup true) (oneTrainer () [⟨0, 0⟩])
    addRemove freshTraining).user.clf.nspam = 2 := by
  rw [(C51_trains_on_removal sampleMail ⟨fun _ => true, fun _ => .ok ["x"]⟩ .dedup false true (fun _ => ⟨rfl, _, rfl⟩)
    () [⟨0, 0⟩] addRemove freshTraining freshTraining_inMemory 0 (represents_new _)).nspam]
  decide

/-- Without a method `key` nothing has been learned. -/
example : (runOps sampleMail (trainerRun ⟨fun _ => false, fun _ => .ok ["x"]⟩ .dedup true) (oneTrainer () [⟨0, 0⟩])
    addRemove freshTraining).user.clf.nspam = 0 := by
  rw [(C51_no_key sampleMail ⟨fun _ => false, fun _ => .ok ["x"]⟩ .dedup true (fun _ => rfl) () [⟨0, 0⟩] addRemove
    freshTraining freshTraining_inMemory).1]
  rfl

/-- Untraining what has been trained: nothing is left of it. -/
example :
    let T : TokenOps Nat String := ⟨fun _ => true, fun _ => .ok ["x"]⟩
    let s := (train T .dedup true ⟨0, 0⟩ 7 (⟨Clf.new false Dict.empty, fun _ => none⟩ : Training Nat String Rat)).2
    0 < s.clf.nspam ∧ (untrain T .dedup true ⟨0, 0⟩ 7 s).2.clf.nspam = 0 ∧
    (untrain T .dedup true ⟨0, 0⟩ 7 s).2.trained 7 = none := by decide

end
end Sb.Props
