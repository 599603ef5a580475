import Verif.Model.CorpusText
import Verif.Props.Trainer

/-
Property C111: the observers shown in the documentation.
-/

set_option linter.unusedSectionVars false

namespace Sb.Props
open Sb.Corpora Py Mail

variable {ν R : Type} [DecidableEq R] (O : MailOps ν)

/-- The claim: with the observer of the documentation connected, adding a message prints
a line. -/
def C111Claim : Prop :=
  ∀ (cls : Corpus → CorpusClass) (str : Option Txt × List Nat → Except Err Txt) (c : Corpus)
    (m : Option Txt × List Nat) (w : World (Option Txt × List Nat) (List Txt)) (s : Txt), InMemory w →
    str m = .ok s →
    (addMessage sampleMail .dedup (documented (R := Unit) cls str) ⟨[((), none)], []⟩ c m none true w).1 = .ok () ∧
    (addMessage sampleMail .dedup (documented (R := Unit) cls str) ⟨[((), none)], []⟩ c m none true
      w).2.user.length = w.user.length + 1

/-- What the observer of the documentation raises. -/
def complaintOf (cls : Corpus → CorpusClass) (str : ν → Except Err Txt) (c : Corpus) (m : ν) : Err :=
  match str m with
  | .error e => e
  | .ok _ => if cls c = .base then .notImplemented else .attributeError

theorem documented_raises (cls : Corpus → CorpusClass) (str : ν → Except Err Txt) (r : R) (c : Corpus) (m : ν)
    (out : List Txt) : documented cls str r c m out = (.error (complaintOf cls str c m), out) := by
  unfold documented complaintOf
  cases str m with
  | error e => rfl
  | ok s => cases cls c <;> rfl

/-- The registry that an operation uses. -/
def opRegistry (S : Signals R) : Op ν R → Registry R
  | .add _ _ _ _ _ => S.added
  | .remove _ _ _ _ => S.removed

/-- Somebody is told of the operation. -/
def Observed (S : Signals R) (op : Op ν R) : Prop :=
  opEmit op = true ∧ ∃ r o, (r, o) ∈ opRegistry S op ∧ (o = none ∨ o = some (opCorpus op))

/-- **C111**, exactly, for every history, every way of connecting the observers and corpora
of both kinds: nothing is ever printed. -/
theorem C111_never_printed_partial (cls : Corpus → CorpusClass) (str : ν → Except Err Txt) (S : Signals R)
    (ops : List (Op ν R)) (w : World ν (List Txt)) :
    (runOps O (documented cls str) S ops w).user = w.user := by
  have hcall : ∀ c m (l : List R) (w : World ν (List Txt)),
      (M.forEach (callReceiver (documented cls str) c m) l w).2.user = w.user := by
    intro c m l w
    cases l with
    | nil => rfl
    | cons r l =>
      have : callReceiver (documented cls str) c m r w = (.error (complaintOf cls str c m), w) := by
        simp only [callReceiver, documented_raises]
      rw [M.forEach_cons, M.bind_run_error this]
  have hcache : ∀ (op : Op ν R) (w : World ν (List Txt)), (cacheStep O op w).2.user = w.user := by
    intro op w
    cases op with
    | add it c m i e =>
      simp only [cacheStep, cachePut]
      split <;> rfl
    | remove it c m e =>
      simp only [cacheStep, cachePop]
      split
      · rfl
      · rfl
      · split <;> rfl
  induction ops generalizing w with
  | nil => rfl
  | cons op r ih =>
    refine (ih (runOp O (documented cls str) S op w).2).trans ?_
    rw [runOp_eq]
    have h1 := hcache op w
    cases hc : cacheStep O op w with
    | mk x w' =>
      rw [hc] at h1
      cases x with
      | error e => exact h1
      | ok u =>
        simp only
        cases he : opEmit op with
        | false => exact h1
        | true =>
          simp only [if_true]
          refine Eq.trans ?_ h1
          cases op <;> exact hcall _ _ _ _

/-- And every operation that is signalled to such an observer raises, though the change is
made: the corpora are as they would be without observers. -/
theorem C111_raises_partial (cls : Corpus → CorpusClass) (str : ν → Except Err Txt) (S : Signals R)
    (op : Op ν R) (w : World ν (List Txt)) (h : InMemory w) :
    (Observed S op → (runOp O (documented cls str) S op w).1 =
      .error (complaintOf cls str (opCorpus op) (opMessage op))) ∧
    (¬ Observed S op → (runOp O (documented cls str) S op w).1 = .ok ()) ∧
    (runOp O (documented cls str) S op w).2.heap = (runOp O (documented cls str) ⟨[], []⟩ op w).2.heap := by
  rw [← and_assoc]
  refine ⟨?_, ?_⟩
  · unfold Observed
    obtain ⟨h1, -, -⟩ := cacheStep_inMemory O op w h
    rw [runOp_eq]
    cases hc : cacheStep O op w with
    | mk x w' =>
      rw [hc] at h1
      simp only at h1
      subst h1
      simp only
      cases he : opEmit op with
      | false => simp
      | true =>
        simp only [if_true, true_and]
        obtain ⟨it, hsend⟩ : ∃ it : SetIter R, opSend (documented cls str) S op w' =
            M.forEach (callReceiver (documented cls str) (opCorpus op) (opMessage op))
              (it.order (receiversFor (opRegistry S op) (opCorpus op))) w' := by
          cases op with
          | add it c m i e => exact ⟨it, rfl⟩
          | remove it c m e => exact ⟨it, rfl⟩
        rw [hsend]
        have hmem : ∀ r, r ∈ it.order (receiversFor (opRegistry S op) (opCorpus op)) ↔
            ∃ o, (r, o) ∈ opRegistry S op ∧ (o = none ∨ o = some (opCorpus op)) := by
          intro r
          rw [it.mem]
          simp only [receiversFor, List.mem_map, List.mem_filter, decide_eq_true_eq]
          constructor
          · rintro ⟨⟨r', o⟩, ⟨h1, h2⟩, rfl⟩
            exact ⟨o, h1, h2⟩
          · rintro ⟨o, h1, h2⟩
            exact ⟨(r, o), ⟨h1, h2⟩, rfl⟩
        cases hl : it.order (receiversFor (opRegistry S op) (opCorpus op)) with
        | nil =>
          rw [hl] at hmem
          refine ⟨?_, fun _ => rfl⟩
          rintro ⟨r, o, hro⟩
          have := (hmem r).2 ⟨o, hro⟩
          simp at this
        | cons r l =>
          rw [hl] at hmem
          obtain ⟨o, hro⟩ := (hmem r).1 (by simp)
          refine ⟨fun _ => ?_, fun hn => absurd ⟨r, o, hro⟩ hn⟩
          have : callReceiver (documented cls str) (opCorpus op) (opMessage op) r w' =
              (.error (complaintOf cls str (opCorpus op) (opMessage op)), w') := by
            simp only [callReceiver, documented_raises]
          rw [M.forEach_cons, M.bind_run_error this]
  · rw [(runOp_caches O (documented cls str) S op w).1,
      (runOp_caches O (documented cls str) ⟨[], []⟩ op w).1]

/-- **C111** is false: NotImplementedError. -/
theorem C111_claim_false : ¬ C111Claim := by
  intro h
  have := (h (fun _ => .base) (fun _ => .ok []) ⟨0, 0⟩ (some [1], []) ⟨[.naive (.new none)], Dict.empty, []⟩ []
    (by intro o ho; exact ⟨_, List.mem_singleton.1 ho⟩) rfl).1
  revert this
  decide

/-- The message is in the corpus all the same. -/
example :
    let r := addMessage sampleMail .dedup (documented (R := Unit) (fun _ => .base) (fun _ => .ok []))
      ⟨[((), none)], []⟩ ⟨0, 0⟩ (some [1], []) none true ⟨[.naive (.new none)], Dict.empty, []⟩
    r.1 = .error .notImplemented ∧ corpusLen ⟨0, 0⟩ r.2 = 1 ∧ r.2.user = [] := by decide

end Sb.Props
