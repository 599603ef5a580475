import Verif.Model.Shared
import Verif.Props.Pickle
import Mathlib.Data.List.Infix

/-
Property C93: several processes train with the same classifier file.  What a
process knows is described by the list of the calls its counts come from (its
history), and so is the file.
-/

set_option linter.unusedSectionVars false

namespace Sb.Props
open Sb Py Spec

section
variable {P W K B : Type} [DecidableEq P] [LinearOrder W] [BigramFormat W] [Field K] [LinearOrder K]

/-- The histories of the processes and of the file (`none`: there is no file). -/
structure Histories (P W : Type) where
  procs : P → List (Call W)
  file : Option (List (Call W))

/-- A call of the classifier is added to the history of its process; storing makes the
history of the process that of the file, and loading or constructing the reverse; with
a timeout storing does nothing, and loading or constructing starts from nothing. -/
def Histories.step (h : Histories P W) (e : Event P W) : Histories P W :=
  match e.call, e.timeout with
  | .base c, _ => { h with procs := Function.update h.procs e.pid (h.procs e.pid ++ [c]) }
  | .store, false => { h with file := some (h.procs e.pid) }
  | .store, true => h
  | .load, false | .reopen, false =>
    { h with procs := Function.update h.procs e.pid (h.file.getD []) }
  | .load, true | .reopen, true => { h with procs := Function.update h.procs e.pid [] }

/-- The histories after the events, from nothing. -/
def histories (evs : List (Event P W)) : Histories P W :=
  evs.foldl Histories.step ⟨fun _ => [], none⟩

/-- helper: the counts of `c` come from the calls `l` -/
structure From (F : FloatOps K) (l : List (Call W)) (c : Clf (Dict W WordInfo) K) : Prop where
  ub : c.useBigrams = some false
  nspam : c.nspam = (after F false l).nspam
  nham : c.nham = (after F false l).nham
  store : c.store = (after F false l).store

/-- helper -/
theorem after_append (F : FloatOps K) (ub : Bool) (l : List (Call W)) (call : Call W) :
    after F ub (l ++ [call]) = (runCall F (memory W) (after F ub l) call).2 := by
  unfold after
  generalize Clf.new ub Dict.empty = c
  induction l generalizing c with
  | nil => rfl
  | cons a t ih => exact ih _

/-- helper -/
theorem probability_frame (F : FloatOps K) (c : Clf (Dict W WordInfo) K) (r : WordInfo) :
    let c' := (probability F r c).2
    c'.store = c.store ∧ c'.nspam = c.nspam ∧ c'.nham = c.nham ∧ c'.useBigrams = c.useBigrams := by
  unfold probability
  split
  · exact ⟨rfl, rfl, rfl, rfl⟩
  · split <;> exact ⟨rfl, rfl, rfl, rfl⟩

/-- helper -/
theorem From.runCall {F : FloatOps K} {l : List (Call W)} {c : Clf (Dict W WordInfo) K}
    (h : From F l c) (call : Call W) : From F (l ++ [call]) (runCall F (memory W) c call).2 := by
  obtain ⟨-, -, hub⟩ := after_ok F false l
  have e := after_append F false l call
  obtain ⟨h1, h2, h3, h4⟩ := h
  generalize after F false l = d at *
  cases call with
  | learn it s b =>
    rw [Sb.runCall, learn_memory it s b d hub] at e
    simp only [Sb.runCall, learn_memory it s b c h1]
    exact ⟨h1, by rw [e]; simp only [afterAdd, h2], by rw [e]; simp only [afterAdd, h3],
      by rw [e]; simp only [afterAdd, h4]⟩
  | unlearn it s b =>
    rw [Sb.runCall, unlearn_memory it s b d hub] at e
    simp only [Sb.runCall, unlearn_memory it s b c h1]
    have : total b c = total b d := by unfold total; rw [h2, h3]
    rw [this]
    split at e
    · rename_i hc
      rw [if_pos hc]
      exact ⟨h1, by rw [e]; exact h2, by rw [e]; exact h3, by rw [e]; exact h4⟩
    · rename_i hc
      rw [if_neg hc]
      exact ⟨h1, by rw [e]; simp only [afterRemove, h2], by rw [e]; simp only [afterRemove, h3],
        by rw [e]; simp only [afterRemove, h4]⟩
  | spamprob it s ev =>
    obtain ⟨a1, a2, a3, a4⟩ := C09_scoring_does_not_train F c it s ev
    obtain ⟨b1, b2, b3, b4⟩ := C09_scoring_does_not_train F d it s ev
    simp only [Sb.runCall] at e ⊢
    exact ⟨by rw [a4, h1], by rw [e, a2, b2, h2], by rw [e, a3, b3, h3], by rw [e, a1, b1, h4]⟩
  | probability r =>
    obtain ⟨a1, a2, a3, a4⟩ := probability_frame F c r
    obtain ⟨b1, b2, b3, b4⟩ := probability_frame F d r
    simp only [Sb.runCall] at e ⊢
    exact ⟨by rw [a4, h1], by rw [e, a2, b2, h2], by rw [e, a3, b3, h3], by rw [e, a1, b1, h4]⟩

/-- helper: the invariant of a run -/
structure Tracks (F : FloatOps K) (codec : Codec B W) (h : Histories P W) (s : Shared P W K B) : Prop where
  procs : ∀ p, From F (h.procs p) (s.procs p)
  file : s.file = h.file.map (fun l => codec.enc (getState (after F false l)))

/-- helper -/
theorem from_nil (F : FloatOps K) (pc : Dict Int (Dict Int K)) :
    From F [] (⟨some false, Dict.empty, pc, 0, 0⟩ : Clf (Dict W WordInfo) K) := ⟨rfl, rfl, rfl, rfl⟩

/-- helper -/
theorem Tracks.step {F : FloatOps K} {codec : Codec B W} {h : Histories P W} {s : Shared P W K B}
    (ht : Tracks F codec h s) (e : Event P W) : Tracks F codec (h.step e) (s.step F codec e) := by
  obtain ⟨pid, tmo, call⟩ := e
  obtain ⟨hp, hf⟩ := ht
  have upd : ∀ {l : List (Call W)} {c : Clf (Dict W WordInfo) K}, From F l c → ∀ p,
      From F (Function.update h.procs pid l p) (Function.update s.procs pid c p) := by
    intro l c hc p
    by_cases hpp : p = pid
    · subst hpp; rw [Function.update_self, Function.update_self]; exact hc
    · rw [Function.update_of_ne hpp, Function.update_of_ne hpp]; exact hp p
  have self : Function.update s.procs pid (s.procs pid) = s.procs := Function.update_eq_self _ _
  have hub := (hp pid).ub
  cases call with
  | base c => exact ⟨upd ((hp pid).runCall c), hf⟩
  | store =>
    cases tmo with
    | true => exact ⟨by simp only [Shared.step, runPkCall, self]; exact hp, hf⟩
    | false =>
      refine ⟨by simp only [Shared.step, runPkCall, self]; exact hp, ?_⟩
      obtain ⟨h1, h2, h3, h4⟩ := hp pid
      simp only [Shared.step, runPkCall, pickleStore, pickleWrite, Histories.step, getState, h2, h3, h4]
      rfl
  | load =>
    cases tmo with
    | true =>
      refine ⟨upd (c := (pickleLoad codec ⟨true, s.file⟩ (s.procs pid)).2) ?_, hf⟩
      exact ⟨hub, rfl, rfl, rfl⟩
    | false =>
      refine ⟨upd (c := (pickleLoad codec ⟨false, s.file⟩ (s.procs pid)).2) ?_, hf⟩
      rw [hf]
      cases h.file with
      | none => exact ⟨hub, rfl, rfl, rfl⟩
      | some l =>
        simp only [Option.map_some, pickleLoad, pickleRead, codec.dec_enc, unpickle, setState,
          pickleVersion, getState]
        exact ⟨hub, rfl, rfl, rfl⟩
  | reopen =>
    cases tmo with
    | true =>
      refine ⟨upd (c := (pickleNew codec ⟨true, s.file⟩).2) ?_, hf⟩
      exact from_nil F _
    | false =>
      refine ⟨upd (c := (pickleNew codec ⟨false, s.file⟩).2) ?_, hf⟩
      rw [hf]
      cases h.file with
      | none => exact from_nil F _
      | some l =>
        rw [Option.map_some, pickleNew_of_enc codec _ rfl]
        exact ⟨rfl, rfl, rfl, rfl⟩

/-- helper -/
theorem tracks_run (F : FloatOps K) (codec : Codec B W) (evs : List (Event P W)) :
    Tracks F codec (histories evs) (Shared.run F codec evs : Shared P W K B) := by
  have key : ∀ (evs : List (Event P W)) (h : Histories P W) (s : Shared P W K B), Tracks F codec h s →
      Tracks F codec (evs.foldl Histories.step h) (evs.foldl (Shared.step F codec) s) := by
    intro evs
    induction evs with
    | nil => intro h s ht; exact ht
    | cons e t ih => intro h s ht; exact ih _ _ (ht.step e)
  exact key evs _ _ ⟨fun _ => from_nil F _, rfl⟩

/-- **C93**, in any case: whatever the interleaving, and whatever calls run into the
timeout of the lock, the file holds exactly the classifier trained with the calls of
its history, and each process has the counts that come from its own. -/
theorem C93_file_partial (F : FloatOps K) (codec : Codec B W) (evs : List (Event P W)) :
    let s : Shared P W K B := Shared.run F codec evs
    s.file = (histories evs).file.map (fun l => codec.enc (getState (after F false l))) ∧
    ∀ p, let c := after F false ((histories evs).procs p)
      (s.procs p).nspam = c.nspam ∧ (s.procs p).nham = c.nham ∧
        ∀ w, (s.procs p).store.get? w = c.store.get? w := by
  have h := tracks_run F codec evs (K := K)
  refine ⟨h.file, fun p => ⟨(h.procs p).nspam, (h.procs p).nham, fun w => ?_⟩⟩
  rw [(h.procs p).store]

/-- What a user expects: as long as nobody unlearns (and no lock times out), the number
of learned messages in the file never goes down. -/
def C93Claim (P K : Type) [DecidableEq P] [Field K] [LinearOrder K] (F : FloatOps K)
    (codec : Codec B W) : Prop :=
  ∀ evs more : List (Event P W), (∀ e ∈ evs ++ more, e.timeout = false ∧
      ∀ it s b, e.call ≠ .base (.unlearn it s b)) →
    ∀ c c' : Clf (Dict W WordInfo) K,
      pickleNew codec ⟨false, (Shared.run F codec evs : Shared P W K B).file⟩ = (.ok (), c) →
      pickleNew codec ⟨false, (Shared.run F codec (evs ++ more) : Shared P W K B).file⟩ = (.ok (), c') →
      c.nspam + c.nham ≤ c'.nspam + c'.nham

/-- **C93** is false: one process learns two messages and stores them; the other one,
which was opened before, stores its single message over them. -/
theorem C93_claim_false (F : FloatOps K) (codec : Codec B W) (w : W) :
    ¬ C93Claim Bool K F codec := by
  intro h
  have := h
    [⟨false, false, .base (.learn .dedup (.list [w]) true)⟩,
     ⟨false, false, .base (.learn .dedup (.list [w]) false)⟩, ⟨false, false, .store⟩]
    [⟨true, false, .base (.learn .dedup (.list [w]) true)⟩, ⟨true, false, .store⟩]
    (by intro e he; simp at he; rcases he with rfl | rfl | rfl | rfl | rfl <;> simp) _ _
    (by rw [(tracks_run F codec _).file]; exact pickleNew_of_enc codec _ rfl)
    (by rw [(tracks_run F codec _).file]; exact pickleNew_of_enc codec _ rfl)
  simp only [getState] at this
  exact absurd this (by change ¬ ((1 : Int) + 1 ≤ 1 + 0); decide)

/-- A schedule without overlaps: nobody stores unless their object is based on the file
as it is (`cur`: the processes whose last load, construction or store was not followed
by a store of another process), and no lock times out. -/
def NoOverlap : (P → Bool) → List (Event P W) → Prop
  | _, [] => True
  | cur, e :: rest =>
    e.timeout = false ∧
    match e.call with
    | .base _ => NoOverlap cur rest
    | .store => cur e.pid = true ∧ NoOverlap (fun q => decide (q = e.pid)) rest
    | .load | .reopen => NoOverlap (Function.update cur e.pid true) rest

/-- helper -/
theorem noOverlap_step {cur : P → Bool} {e : Event P W} {t : List (Event P W)} {h : Histories P W}
    (hn : NoOverlap cur (e :: t)) (hc : ∀ p, cur p = true → h.file.getD [] <+: h.procs p) :
    ∃ cur' : P → Bool, NoOverlap cur' t ∧
      (∀ p, cur' p = true → (h.step e).file.getD [] <+: (h.step e).procs p) ∧
      h.file.getD [] <+: (h.step e).file.getD [] := by
  obtain ⟨pid, tmo, call⟩ := e
  obtain ⟨ht, hn⟩ := hn
  have ht : tmo = false := ht
  subst ht
  cases call with
  | base c =>
    refine ⟨cur, hn, ?_, List.prefix_rfl⟩
    intro p hp
    change h.file.getD [] <+: Function.update h.procs pid (h.procs pid ++ [c]) p
    by_cases hpp : p = pid
    · subst hpp; rw [Function.update_self]; exact (hc p hp).trans (List.prefix_append _ _)
    · rw [Function.update_of_ne hpp]; exact hc p hp
  | store =>
    obtain ⟨h1, h2⟩ : cur pid = true ∧ NoOverlap (fun q => decide (q = pid)) t := hn
    refine ⟨_, h2, ?_, hc pid h1⟩
    intro p hp
    have : p = pid := by simpa using hp
    subst this
    exact List.prefix_rfl
  | load =>
    refine ⟨_, hn, ?_, List.prefix_rfl⟩
    intro p hp
    change h.file.getD [] <+: Function.update h.procs pid (h.file.getD []) p
    by_cases hpp : p = pid
    · subst hpp; rw [Function.update_self]
    · rw [Function.update_of_ne hpp] at hp ⊢; exact hc p hp
  | reopen =>
    refine ⟨_, hn, ?_, List.prefix_rfl⟩
    intro p hp
    change h.file.getD [] <+: Function.update h.procs pid (h.file.getD []) p
    by_cases hpp : p = pid
    · subst hpp; rw [Function.update_self]
    · rw [Function.update_of_ne hpp] at hp ⊢; exact hc p hp

/-- **C93**, without overlaps: then what is in the file is never lost; its history only
grows at its end. -/
theorem C93_nothing_lost_partial (evs more : List (Event P W))
    (h : NoOverlap (fun _ => true) (evs ++ more)) :
    ((histories evs).file).getD [] <+: ((histories (evs ++ more)).file).getD [] := by
  have run : ∀ (evs : List (Event P W)) (cur : P → Bool) (hs : Histories P W),
      NoOverlap cur evs → (∀ p, cur p = true → hs.file.getD [] <+: hs.procs p) →
      hs.file.getD [] <+: ((evs.foldl Histories.step hs).file).getD [] := by
    intro evs
    induction evs with
    | nil => intro _ hs _ _; exact List.prefix_rfl
    | cons e t ih =>
      intro cur hs hn hc
      obtain ⟨cur', h1, h2, h3⟩ := noOverlap_step hn hc
      exact h3.trans (ih cur' _ h1 h2)
  have key : ∀ (evs : List (Event P W)) (cur : P → Bool) (hs : Histories P W),
      NoOverlap cur (evs ++ more) → (∀ p, cur p = true → hs.file.getD [] <+: hs.procs p) →
      ((evs.foldl Histories.step hs).file).getD [] <+:
        (((evs ++ more).foldl Histories.step hs).file).getD [] := by
    intro evs
    induction evs with
    | nil => intro cur hs hn hc; exact run more cur hs hn hc
    | cons e t ih =>
      intro cur hs hn hc
      obtain ⟨cur', h1, h2, -⟩ := noOverlap_step hn hc
      exact ih cur' _ h1 h2
  exact key evs (fun _ => true) _ h (fun _ _ => List.prefix_rfl)

/-- helper: the calls of a history are among those made -/
theorem histories_calls (evs : List (Event P W)) :
    (∀ p, ∀ c ∈ (histories evs).procs p, ∃ e ∈ evs, e.call = .base c) ∧
    ∀ c ∈ ((histories evs).file).getD [], ∃ e ∈ evs, e.call = .base c := by
  induction evs using List.reverseRecOn with
  | nil => exact ⟨fun p c hc => absurd hc List.not_mem_nil, fun c hc => absurd hc List.not_mem_nil⟩
  | append_singleton t e ih =>
    have hstep : histories (t ++ [e]) = (histories t).step e := by
      unfold histories; rw [List.foldl_append]; rfl
    rw [hstep]
    generalize histories t = h at ih
    obtain ⟨h1, h2⟩ := ih
    have up : ∀ {c : Call W}, (∃ e ∈ t, e.call = .base c) → ∃ e' ∈ t ++ [e], e'.call = .base c := by
      rintro c ⟨e', he, hc⟩
      exact ⟨e', List.mem_append_left _ he, hc⟩
    have upd : ∀ {l : List (Call W)}, (∀ c ∈ l, ∃ e' ∈ t ++ [e], e'.call = .base c) → ∀ p,
        ∀ c ∈ Function.update h.procs e.pid l p, ∃ e' ∈ t ++ [e], e'.call = .base c := by
      intro l hl p c hc
      by_cases hp : p = e.pid
      · subst hp; rw [Function.update_self] at hc; exact hl c hc
      · rw [Function.update_of_ne hp] at hc; exact up (h1 p c hc)
    have hf : ∀ c ∈ h.file.getD [], ∃ e' ∈ t ++ [e], e'.call = .base c := fun c hc => up (h2 c hc)
    have hp : ∀ p, ∀ c ∈ h.procs p, ∃ e' ∈ t ++ [e], e'.call = .base c := fun p c hc => up (h1 p c hc)
    unfold Histories.step
    split
    · rename_i c _ hc
      refine ⟨upd ?_, hf⟩
      intro c' hc'
      rcases List.mem_append.mp hc' with h' | h'
      · exact hp _ c' h'
      · rw [List.mem_singleton.mp h']
        exact ⟨e, List.mem_append_right _ (List.mem_singleton.mpr rfl), hc⟩
    · exact ⟨hp, hp _⟩
    · exact ⟨hp, hf⟩
    · exact ⟨upd hf, hf⟩
    · exact ⟨upd hf, hf⟩
    · exact ⟨upd (fun c hc => absurd hc List.not_mem_nil), hf⟩
    · exact ⟨upd (fun c hc => absurd hc List.not_mem_nil), hf⟩

/-- helper: without unlearning the number of messages does not go down -/
theorem after_mono (F : FloatOps K) (l more : List (Call W))
    (h : ∀ c ∈ more, ∀ it s b, c ≠ .unlearn it s b) :
    (after F false l).nspam + (after F false l).nham ≤
      (after F false (l ++ more)).nspam + (after F false (l ++ more)).nham := by
  induction more using List.reverseRecOn with
  | nil => rw [List.append_nil]
  | append_singleton t c ih =>
    refine (ih (fun c' hc' => h c' (List.mem_append_left _ hc'))).trans ?_
    have hc := h c (List.mem_append_right _ (List.mem_singleton.mpr rfl))
    obtain ⟨-, -, hub⟩ := after_ok F false (l ++ t)
    rw [← List.append_assoc, after_append]
    generalize after F false (l ++ t) = d at *
    cases c with
    | learn it s b =>
      simp only [Sb.runCall, learn_memory it s b d hub, afterAdd]
      cases b <;> simp
    | unlearn it s b => exact absurd rfl (hc it s b)
    | spamprob it s ev =>
      obtain ⟨b1, b2, b3, b4⟩ := C09_scoring_does_not_train F d it s ev
      simp only [Sb.runCall]
      rw [b2, b3]
    | probability r =>
      obtain ⟨b1, b2, b3, b4⟩ := probability_frame F d r
      simp only [Sb.runCall]
      rw [b2, b3]

/-- **C93**, without overlaps: then the claim holds. -/
theorem C93_monotone_partial (F : FloatOps K) (codec : Codec B W) (evs more : List (Event P W))
    (hno : NoOverlap (fun _ => true) (evs ++ more))
    (h : ∀ e ∈ evs ++ more, ∀ it s b, e.call ≠ .base (.unlearn it s b))
    (c c' : Clf (Dict W WordInfo) K)
    (hc : pickleNew codec ⟨false, (Shared.run F codec evs : Shared P W K B).file⟩ = (.ok (), c))
    (hc' : pickleNew codec ⟨false, (Shared.run F codec (evs ++ more) : Shared P W K B).file⟩ =
      (.ok (), c')) :
    c.nspam + c.nham ≤ c'.nspam + c'.nham := by
  have key : ∀ (evs : List (Event P W)) (c : Clf (Dict W WordInfo) K),
      pickleNew codec ⟨false, (Shared.run F codec evs : Shared P W K B).file⟩ = (.ok (), c) →
      c.nspam = (after F false (((histories evs).file).getD [])).nspam ∧
      c.nham = (after F false (((histories evs).file).getD [])).nham := by
    intro evs c hc
    rw [(tracks_run F codec evs).file] at hc
    cases hfile : (histories evs).file with
    | none =>
      rw [hfile] at hc
      have := congrArg Prod.snd hc
      subst this
      exact ⟨rfl, rfl⟩
    | some l =>
      rw [hfile, Option.map_some, pickleNew_of_enc codec _ rfl] at hc
      have := congrArg Prod.snd hc
      subst this
      exact ⟨rfl, rfl⟩
  obtain ⟨a1, a2⟩ := key evs c hc
  obtain ⟨b1, b2⟩ := key _ c' hc'
  obtain ⟨r, hr⟩ := C93_nothing_lost_partial evs more hno
  rw [a1, a2, b1, b2, ← hr]
  refine after_mono F _ _ ?_
  intro x hx it s b hxe
  obtain ⟨e, he, hce⟩ := (histories_calls (evs ++ more)).2 x (by rw [← hr]; exact List.mem_append_right _ hx)
  exact h e he it s b (by rw [hce, hxe])

/-- A session: a process constructs its object, makes calls, and stores. -/
def session (p : P) (calls : List (Call W)) : List (Event P W) :=
  ⟨p, false, .reopen⟩ :: calls.map (fun c => ⟨p, false, .base c⟩) ++ [⟨p, false, .store⟩]

/-- helper -/
theorem session_step (p : P) (calls : List (Call W)) (h : Histories P W) :
    ((session p calls).foldl Histories.step h).file = some (h.file.getD [] ++ calls) := by
  have key : ∀ (calls : List (Call W)) (h : Histories P W),
      ((calls.map (fun c => (⟨p, false, .base c⟩ : Event P W))).foldl Histories.step h).procs p =
        h.procs p ++ calls := by
    intro calls
    induction calls with
    | nil => intro h; simp
    | cons a t ih =>
      intro h
      rw [List.map_cons, List.foldl_cons, ih]
      simp [Histories.step]
  unfold session
  rw [List.foldl_append]
  change some (((calls.map (fun c => (⟨p, false, .base c⟩ : Event P W))).foldl Histories.step
    (h.step ⟨p, false, .reopen⟩)).procs p) = _
  rw [key]
  simp [Histories.step]

/-- **C93**, one after the other: if the processes have their sessions one after the
other, the file ends up as if one classifier had made all the calls in order; so a
classifier constructed on it has the totals, the word counts and the scores of that. -/
theorem C93_sessions_partial (F : FloatOps K) (codec : Codec B W)
    (sessions : List (P × List (Call W))) (hne : sessions ≠ []) :
    let all := sessions.flatMap (·.2)
    let s : Shared P W K B := Shared.run F codec (sessions.flatMap (fun x => session x.1 x.2))
    s.file = some (codec.enc (getState (after F false all))) ∧
    ∃ c : Clf (Dict W WordInfo) K, pickleNew codec ⟨false, s.file⟩ = (.ok (), c) ∧
      c.nspam = (after F false all).nspam ∧ c.nham = (after F false all).nham ∧
      (∀ w, c.store.get? w = (after F false all).store.get? w) ∧
      ∀ (it : SetIter W) (st : Stream W) (ev : Bool),
        (spamprob F (memory W) it st ev c).1 =
          (spamprob F (memory W) it st ev (after F false all)).1 := by
  intro all s
  have hfile : (histories (sessions.flatMap (fun x => session x.1 x.2))).file = some all := by
    have key : ∀ (ss : List (P × List (Call W))) (h : Histories P W), ss ≠ [] →
        ((ss.flatMap (fun x => session x.1 x.2)).foldl Histories.step h).file =
          some (h.file.getD [] ++ ss.flatMap (·.2)) := by
      intro ss
      induction ss with
      | nil => intro h hn; exact absurd rfl hn
      | cons x t ih =>
        intro h _
        rw [List.flatMap_cons, List.foldl_append, List.flatMap_cons]
        by_cases ht : t = []
        · subst ht
          simp only [List.flatMap_nil, List.foldl_nil, List.append_nil]
          exact session_step _ _ _
        · rw [ih _ ht, session_step]
          simp
    have := key sessions ⟨fun _ => [], none⟩ hne
    exact this
  have hs : s.file = some (codec.enc (getState (after F false all))) := by
    have := (tracks_run F codec (sessions.flatMap (fun x => session x.1 x.2)) (K := K)).file
    rw [hfile] at this
    exact this
  obtain ⟨disk, h1, c, h2, h3, h4, h5, h6⟩ := C23_pickle_round_trip F codec all none
  refine ⟨hs, c, ?_, h3, h4, h5, h6⟩
  have : disk = ⟨false, s.file⟩ := by
    rw [hs]
    have h1 := congrArg Prod.snd h1
    exact h1.symm
  rw [← this]
  exact h2

/-- Two processes in turn; their schedule has no overlap. -/
example : NoOverlap (fun _ : Bool => true)
    (session false [.learn .dedup (.list ["pills"]) true] ++
      session true [.learn .dedup (.list ["lunch"]) false]) := by
  refine ⟨rfl, rfl, rfl, rfl, rfl, rfl, rfl, rfl, ?_⟩
  trivial

/-- The schedule of `C93_claim_false` has one. -/
example (w : W) : ¬ NoOverlap (fun _ : Bool => true)
    [⟨false, false, .base (.learn .dedup (.list [w]) true)⟩, ⟨false, false, .store⟩,
     ⟨true, false, .base (.learn .dedup (.list [w]) true)⟩, ⟨true, false, .store⟩] := by
  intro h
  exact absurd h.2.2.2.2.2.1 (by simp)

end
end Sb.Props
