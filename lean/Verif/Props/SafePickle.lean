import Verif.Model.SafePickle
import Mathlib.Data.List.Basic

/-
Properties C24, C25: crashes and concurrency of pickle_read / pickle_write.
`P` is the type of process identifiers; nothing is assumed about how many there
are.
-/

set_option linter.unusedSectionVars false

namespace Sb.Props
open Sb.SafePickle

variable {P B : Type} [DecidableEq P]

/-- Specification: what a file holding `old` holds after the finished calls
`log`, if they happened one after the other. -/
def afterLog (old : Option (List B)) : List (Event B) → Option (List B)
  | [] => old
  | .wrote v :: t => afterLog (some v) t
  | _ :: t => afterLog old t

/-- Specification: each read in `log` returns what the write before it stored. -/
def ReadsLastWrite (old : Option (List B)) : List (Event B) → Prop
  | [] => True
  | .wrote v :: t => ReadsLastWrite (some v) t
  | .read r :: t => r = old ∧ ReadsLastWrite old t
  | .failed :: t => ReadsLastWrite old t

/-! helpers -/

theorem afterLog_append (old : Option (List B)) (l m : List (Event B)) :
    afterLog old (l ++ m) = afterLog (afterLog old l) m := by
  induction l generalizing old with
  | nil => rfl
  | cons e t ih => cases e <;> exact ih _

theorem readsLastWrite_append (old : Option (List B)) (l m : List (Event B)) :
    ReadsLastWrite old (l ++ m) ↔ ReadsLastWrite old l ∧ ReadsLastWrite (afterLog old l) m := by
  induction l generalizing old with
  | nil => simp [ReadsLastWrite, afterLog]
  | cons e t ih =>
    cases e with
    | wrote v => exact ih _
    | read r => simp only [List.cons_append, ReadsLastWrite, afterLog, ih, and_assoc]
    | failed => exact ih _

/-- the process is inside a with block -/
def Inside : Proc B → Prop
  | .wDump .. | .wMove .. | .wCopy .. | .wDone _ | .wFail | .rOpen | .rRead _ | .rDone _ => True
  | _ => False

/-- what must hold of the file when its lock owner is at `s`; `base` is what the
finished calls left -/
def FileOk (setup : Setup) (base file : Option (List B)) : Proc B → Prop
  | .wDump _ _ => file = base
  | .wMove v tmp => file = base ∧ tmp = v
  | .wCopy v tmp out => file = some out ∧ tmp = v ∧ ∃ b, setup = .copy b
  | .wDone v => file = some v
  | .wFail => file = base
  | .rOpen => file = base
  | .rRead acc => file = base ∧ ∃ f, file = some f ∧ acc <+: f
  | .rDone res => file = base ∧ res = base
  | _ => True

/-- values a process is working with were passed to pickle_write -/
def ValueOk (called : List (List B)) : Proc B → Prop
  | .wWait v | .wDump v _ | .wMove v _ | .wCopy v _ _ | .wDone v => v ∈ called
  | _ => True

/-- a log entry of a value passed to pickle_write -/
def EventOk (called : List (List B)) : Event B → Prop
  | .wrote v => v ∈ called
  | _ => True

structure Good (setup : Setup) (old : Option (List B)) (c : Config P B) : Prop where
  inside : ∀ p, Inside (c.proc p) → c.lock = some p
  owner : ∀ p, c.lock = some p → Inside (c.proc p) ∨ c.proc p = .dead
  free : c.lock = none → c.file = afterLog old c.log
  held : ∀ p, c.lock = some p → FileOk setup (afterLog old c.log) c.file (c.proc p)
  value : ∀ p, ValueOk c.called (c.proc p)
  events : ∀ e ∈ c.log, EventOk c.called e
  reads : ReadsLastWrite old c.log
  complete : setup = .rename → c.file = old ∨ ∃ v ∈ c.called, c.file = some v

theorem proc_move (c : Config P B) (p q : P) (s : Proc B) :
    (c.move p s).proc q = if q = p then s else c.proc q := rfl

theorem valueOk_cons {called : List (List B)} {s : Proc B} (v : List B) (h : ValueOk called s) :
    ValueOk (v :: called) s := by
  cases s <;> simp only [ValueOk] at h ⊢ <;> exact List.mem_cons_of_mem _ h

theorem eventOk_cons {called : List (List B)} {e : Event B} (v : List B) (h : EventOk called e) :
    EventOk (v :: called) e := by
  cases e <;> simp only [EventOk] at h ⊢
  exact List.mem_cons_of_mem _ h

/-- a step inside the with block that changes only the process -/
theorem Good.internal {setup : Setup} {old : Option (List B)} {c : Config P B} (h : Good setup old c)
    {p : P} {s : Proc B} (hl : c.lock = some p) (hi : Inside s)
    (hf : FileOk setup (afterLog old c.log) c.file s) (hv : ValueOk c.called s) :
    Good setup old (c.move p s) where
  inside q hq := by
    rw [proc_move] at hq
    split at hq
    · rename_i e; rw [e]; exact hl
    · exact h.inside q hq
  owner q hq := by
    rw [proc_move]
    split
    · exact .inl hi
    · exact h.owner q hq
  free hn := by rw [show (c.move p s).lock = c.lock from rfl, hl] at hn; cases hn
  held q hq := by
    have : q = p := by
      have hq : c.lock = some q := hq
      rw [hl] at hq; cases hq; rfl
    rw [proc_move, if_pos this]
    exact hf
  value q := by
    rw [proc_move]
    split
    · exact hv
    · exact h.value q
  events := h.events
  reads := h.reads
  complete := h.complete

theorem good_step {setup : Setup} (hs : setup ≠ .copy true) {old : Option (List B)} {a b : Config P B}
    (h : Good setup old a) (st : Step setup a b) : Good setup old b := by
  have lockOf : ∀ {p : P} {s : Proc B}, a.proc p = s → Inside s → a.lock = some p := by
    intro p s e hi; exact h.inside p (by rw [e]; exact hi)
  have fileOf : ∀ {p : P} {s : Proc B}, a.proc p = s → Inside s →
      FileOk setup (afterLog old a.log) a.file s := by
    intro p s e hi
    have := h.held p (lockOf e hi)
    rwa [e] at this
  have valOf : ∀ {p : P} {s : Proc B}, a.proc p = s → ValueOk a.called s := by
    intro p s e; have := h.value p; rwa [e] at this
  have outside : ∀ {p : P} {s s' : Proc B} {called' : List (List B)} {log' : List (Event B)},
      a.proc p = s → ¬ Inside s → ¬ Inside s' → s ≠ .dead →
      (∀ q, ValueOk a.called (a.proc q) → ValueOk called' (a.proc q)) → ValueOk called' s' →
      afterLog old log' = afterLog old a.log → (∀ e ∈ log', EventOk called' e) →
      ReadsLastWrite old log' → (∀ v, v ∈ a.called → v ∈ called') →
      Good setup old { a.move p s' with called := called', log := log' } := by
    intro p s s' called' log' e hi hi' hd h1 h2 h3 h4 h5 h6
    have hnl : a.lock ≠ some p := by
      intro hl
      rcases h.owner p hl with ho | ho
      · rw [e] at ho; exact hi ho
      · rw [e] at ho; exact hd ho
    refine ⟨?_, ?_, ?_, ?_, ?_, h4, h5, ?_⟩
    · intro q hq
      have hq : Inside (if q = p then s' else a.proc q) := hq
      split at hq
      · exact absurd hq hi'
      · exact h.inside q hq
    · intro q hq
      have hq : a.lock = some q := hq
      have hne : q ≠ p := by rintro rfl; exact hnl hq
      change Inside (if q = p then s' else a.proc q) ∨ (if q = p then s' else a.proc q) = _
      rw [if_neg hne]
      exact h.owner q hq
    · intro hn
      change a.file = afterLog old log'
      rw [h3]; exact h.free hn
    · intro q hq
      have hq : a.lock = some q := hq
      have hne : q ≠ p := by rintro rfl; exact hnl hq
      change FileOk setup (afterLog old log') a.file (if q = p then s' else a.proc q)
      rw [if_neg hne, h3]
      exact h.held q hq
    · intro q
      change ValueOk called' (if q = p then s' else a.proc q)
      split
      · exact h2
      · exact h1 q (h.value q)
    · intro hr
      rcases h.complete hr with hc | ⟨v, hv, hc⟩
      · exact .inl hc
      · exact .inr ⟨v, h6 v hv, hc⟩
  -- taking the lock
  have take : ∀ {p : P} {s s' : Proc B}, a.proc p = s → a.lock = none → Inside s' →
      FileOk setup (afterLog old a.log) a.file s' → ValueOk a.called s' →
      Good setup old { a.move p s' with lock := some p } := by
    intro p s s' e hl hi hf hv
    refine ⟨?_, ?_, ?_, ?_, ?_, h.events, h.reads, h.complete⟩
    · intro q hq
      have hq : Inside (if q = p then s' else a.proc q) := hq
      split at hq
      · rename_i e; rw [e]
      · have := h.inside q hq; rw [hl] at this; cases this
    · intro q hq
      have hq : some p = some q := hq
      cases hq
      left
      change Inside (if p = p then s' else a.proc p)
      rw [if_pos rfl]; exact hi
    · intro hn; cases hn
    · intro q hq
      have hq : some p = some q := hq
      cases hq
      change FileOk setup (afterLog old a.log) a.file (if p = p then s' else a.proc p)
      rw [if_pos rfl]; exact hf
    · intro q
      change ValueOk a.called (if q = p then s' else a.proc q)
      split
      · exact hv
      · exact h.value q
  -- releasing the lock
  have release : ∀ {p : P} {s : Proc B} {e : Event B}, a.proc p = s → Inside s →
      a.file = afterLog old (a.log ++ [e]) → EventOk a.called e →
      ReadsLastWrite old (a.log ++ [e]) →
      Good setup old { a.move p .idle with lock := none, log := a.log ++ [e] } := by
    intro p s e hp hi hf he hr
    have hl := lockOf hp hi
    refine ⟨?_, ?_, fun _ => hf, ?_, ?_, ?_, hr, h.complete⟩
    · intro q hq
      have hq : Inside (if q = p then .idle else a.proc q) := hq
      split at hq
      · exact hq.elim
      · rename_i hne
        have := h.inside q hq; rw [hl] at this; cases this; exact absurd rfl hne
    · intro q hq; cases hq
    · intro q hq; cases hq
    · intro q
      change ValueOk a.called (if q = p then .idle else a.proc q)
      split
      · trivial
      · exact h.value q
    · intro x hx
      rcases List.mem_append.1 hx with hx | hx
      · exact h.events x hx
      · rw [List.mem_singleton] at hx; subst hx; exact he
  -- a step of the lock owner that changes the file
  have write : ∀ {p : P} {s s' : Proc B} {f : List B}, a.proc p = s → Inside s → Inside s' →
      FileOk setup (afterLog old a.log) (some f) s' → ValueOk a.called s' →
      (setup = .rename → f ∈ a.called) →
      Good setup old { a.move p s' with file := some f } := by
    intro p s s' f e hi hi' hf hv hc
    have hl := lockOf e hi
    refine ⟨?_, ?_, ?_, ?_, ?_, h.events, h.reads, fun hr => .inr ⟨f, hc hr, rfl⟩⟩
    · intro q hq
      have hq : Inside (if q = p then s' else a.proc q) := hq
      split at hq
      · rename_i e; rw [e]; exact hl
      · exact h.inside q hq
    · intro q hq
      change Inside (if q = p then s' else a.proc q) ∨ (if q = p then s' else a.proc q) = _
      split
      · exact .inl hi'
      · exact h.owner q hq
    · intro hn
      have hn : a.lock = none := hn
      rw [hl] at hn; cases hn
    · intro q hq
      have hq : a.lock = some q := hq
      rw [hl] at hq; cases hq
      change FileOk setup (afterLog old a.log) (some f) (if p = p then s' else a.proc p)
      rw [if_pos rfl]; exact hf
    · intro q
      change ValueOk a.called (if q = p then s' else a.proc q)
      split
      · exact hv
      · exact h.value q
  have failedLog : afterLog old (a.log ++ [.failed]) = afterLog old a.log := by
    rw [afterLog_append]; rfl
  have failedReads : ReadsLastWrite old (a.log ++ [.failed]) := by
    rw [readsLastWrite_append]; exact ⟨h.reads, trivial⟩
  have failedEvents : ∀ e ∈ a.log ++ [.failed], EventOk a.called e := by
    intro x hx
    rcases List.mem_append.1 hx with hx | hx
    · exact h.events x hx
    · rw [List.mem_singleton] at hx; subst hx; trivial
  cases st with
  | callWrite p v hp =>
    exact outside hp (fun h => h) (fun h => h) (by simp) (fun q hq => valueOk_cons v hq)
      (by simp [ValueOk]) rfl (fun e he => eventOk_cons v (h.events e he)) h.reads
      (fun v hv => List.mem_cons_of_mem _ hv)
  | callRead p hp =>
    exact outside hp (fun h => h) (fun h => h) (by simp) (fun q hq => hq) trivial rfl h.events h.reads
      (fun v hv => hv)
  | lockWrite p v hp hl => exact take hp hl trivial (h.free hl) (valOf hp :)
  | lockRead p hp hl => exact take hp hl trivial (h.free hl) trivial
  | timeoutWrite p v q hp hl =>
    exact outside hp (fun h => h) (fun h => h) (by simp) (fun q hq => hq) trivial failedLog failedEvents
      failedReads (fun v hv => hv)
  | timeoutRead p q hp hl =>
    exact outside hp (fun h => h) (fun h => h) (by simp) (fun q hq => hq) trivial failedLog failedEvents
      failedReads (fun v hv => hv)
  | dump p v tmp chunk hp hc =>
    exact h.internal (lockOf hp trivial) trivial (fileOf hp trivial :) (valOf hp :)
  | dumpFails p v tmp hp =>
    exact h.internal (lockOf hp trivial) trivial (fileOf hp trivial :) trivial
  | close p v hp =>
    exact h.internal (lockOf hp trivial) trivial ⟨(fileOf hp trivial :), rfl⟩ (valOf hp :)
  | rename p v tmp hr hp =>
    obtain ⟨-, rfl⟩ := fileOf hp trivial
    exact write hp trivial trivial rfl (valOf hp :) (fun _ => (valOf hp :))
  | copyOpen p v tmp b hb hp =>
    obtain ⟨-, rfl⟩ := fileOf hp trivial
    exact write hp trivial trivial ⟨rfl, rfl, b, hb⟩ (valOf hp :) (fun hr => by rw [hb] at hr; cases hr)
  | copyChunk p v tmp out chunk hp hc =>
    obtain ⟨-, rfl, b, hb⟩ := fileOf hp trivial
    exact write hp trivial trivial ⟨rfl, rfl, b, hb⟩ (valOf hp :) (fun hr => by rw [hb] at hr; cases hr)
  | copyFails p v tmp out hc hp => exact absurd hc hs
  | copied p v tmp hp =>
    obtain ⟨hf, rfl, -⟩ := fileOf hp trivial
    exact h.internal (lockOf hp trivial) trivial hf (valOf hp :)
  | unlockWrite p v hp =>
    refine release hp trivial ?_ (valOf hp :) ?_
    · rw [afterLog_append]; exact fileOf hp trivial
    · rw [readsLastWrite_append]; exact ⟨h.reads, trivial⟩
  | unlockFail p hp =>
    refine release hp trivial ?_ trivial failedReads
    rw [failedLog]; exact fileOf hp trivial
  | openMissing p hp hf =>
    have hb : a.file = afterLog old a.log := fileOf hp trivial
    exact h.internal (lockOf hp trivial) trivial ⟨hb, by rw [← hb, hf]⟩ trivial
  | openRead p f hp hf =>
    exact h.internal (lockOf hp trivial) trivial ⟨(fileOf hp trivial :), f, hf, List.nil_prefix⟩ trivial
  | readChunk p acc f n hp hf =>
    obtain ⟨hb, f', hf', ⟨t, ht⟩⟩ := fileOf hp trivial
    rw [hf] at hf'
    cases hf'
    refine h.internal (lockOf hp trivial) trivial ⟨hb, f, hf, ?_⟩ trivial
    rw [← ht, List.drop_left]
    exact List.prefix_append_right_inj acc |>.2 (List.take_prefix n t)
  | readEnd p acc f hp hf he =>
    obtain ⟨hb, f', hf', ⟨t, ht⟩⟩ := fileOf hp trivial
    rw [hf] at hf'
    cases hf'
    refine h.internal (lockOf hp trivial) trivial ⟨hb, ?_⟩ trivial
    rw [← ht, List.drop_left] at he
    rw [he, List.append_nil] at ht
    rw [← hb, hf, ht]
  | unlockRead p res hp =>
    obtain ⟨hb, hres⟩ := fileOf hp trivial
    refine release hp trivial ?_ trivial ?_
    · rw [afterLog_append]; exact hb
    · rw [readsLastWrite_append]; exact ⟨h.reads, hres, trivial⟩
  | die p =>
    refine ⟨?_, ?_, h.free, ?_, ?_, h.events, h.reads, h.complete⟩
    · intro q hq
      rw [proc_move] at hq
      split at hq
      · exact hq.elim
      · exact h.inside q hq
    · intro q hq
      rw [proc_move]
      split
      · exact .inr rfl
      · exact h.owner q hq
    · intro q hq
      rw [proc_move]
      split
      · trivial
      · exact h.held q hq
    · intro q
      rw [proc_move]
      split
      · trivial
      · exact h.value q

theorem good_start (setup : Setup) (old : Option (List B)) : Good setup old (start old : Config P B) where
  inside _ h := h.elim
  owner _ h := by cases h
  free _ := rfl
  held _ h := by cases h
  value _ := trivial
  events _ h := by cases h
  reads := trivial
  complete _ := .inl rfl

theorem good_steps {setup : Setup} (hs : setup ≠ .copy true) {old : Option (List B)} {c : Config P B}
    (h : Steps setup (start old) c) : Good setup old c := by
  generalize ha : (start old : Config P B) = a at h
  induction h with
  | refl => subst ha; exact good_start setup old
  | step _ st ih => exact good_step hs ih st

/-! ### C25 -/

/-- **C25.** Any number of processes calling pickle_read and pickle_write in any
interleaving, dying anywhere, with the move being a rename or a copy that does not
fail: every finished read returned the complete contents left by the write
finished before it (the initial contents if none), every value stored had been
passed to pickle_write, and whenever nobody holds the lock the file is complete. -/
theorem C25_no_tearing {setup : Setup} (hs : setup ≠ .copy true) (old : Option (List B))
    (c : Config P B) (h : Steps setup (start old) c) :
    ReadsLastWrite old c.log ∧ (∀ v, Event.wrote v ∈ c.log → v ∈ c.called) ∧
    (c.lock = none → c.file = afterLog old c.log) := by
  have hg := good_steps hs h
  exact ⟨hg.reads, fun v hv => hg.events _ hv, hg.free⟩

/-- **C25**, mutual exclusion: two processes are never inside at the same time. -/
theorem C25_mutual_exclusion {setup : Setup} (hs : setup ≠ .copy true) (old : Option (List B))
    (c : Config P B) (h : Steps setup (start old) c) (p q : P) (hp : Inside (c.proc p))
    (hq : Inside (c.proc q)) : p = q := by
  have hg := good_steps hs h
  have h1 := hg.inside p hp
  have h2 := hg.inside q hq
  rw [h1] at h2
  exact Option.some.inj h2

/-- helper: a complete write by one process -/
theorem run_write_rename (p : P) (v : List B) (c : Config P B)
    (hp : c.proc p = .idle) (hl : c.lock = none) :
    ∃ d : Config P B, Steps .rename c d ∧ d.proc p = .idle ∧ d.lock = none ∧ d.file = some v ∧
      d.log = c.log ++ [.wrote v] ∧ ∀ q, q ≠ p → d.proc q = c.proc q := by
  refine ⟨_, .step (.step (.step (.step (.step (.step (.refl c) (.callWrite c p v hp))
    (.lockWrite _ p v (by simp [Config.move]) hl)) (.dump _ p v [] v (by simp [Config.move]) (by simp)))
    (.close _ p v (by simp [Config.move]))) (.rename _ p v v rfl (by simp [Config.move])))
    (.unlockWrite _ p v (by simp [Config.move])), ?_, rfl, rfl, rfl, ?_⟩
  · simp [Config.move]
  · intro q hq; simp [Config.move, hq]

/-- Reads and writes can be completed: a run where process 0 stores [1, 2] over
[7]. -/
example : ∃ d : Config Nat Nat, Steps .rename (start (some [7])) d ∧ d.file = some [1, 2] ∧
    d.log = [.wrote [1, 2]] := by
  obtain ⟨d, h1, -, -, h2, h3, -⟩ := run_write_rename 0 [1, 2] (start (some [7])) rfl rfl
  exact ⟨d, h1, h2, h3⟩

/-- **C25** without the hypothesis: if the copy can fail, a failed store leaves a
torn file with the lock free, for any nonempty value. -/
theorem C25_failed_copy_tears (old : Option (List B)) (p : P) (v : List B) :
    ∃ c : Config P B, Steps (.copy true) (start old) c ∧ c.lock = none ∧ c.log = [.failed] ∧
      c.file = some [] := by
  refine ⟨_, .step (.step (.step (.step (.step (.step (.step (.refl _) (.callWrite _ p v rfl))
    (.lockWrite _ p v (by simp [Config.move]) rfl)) (.dump _ p v [] v (by simp [Config.move]) (by simp)))
    (.close _ p v (by simp [Config.move]))) (.copyOpen _ p v v true rfl (by simp [Config.move])))
    (.copyFails _ p v v [] rfl (by simp [Config.move])))
    (.unlockFail _ p (by simp [Config.move])), rfl, rfl, rfl⟩

/-! ### C24 -/

/-- **C24**, the full claim: whatever happens and wherever processes die, the file
holds its old contents or a complete value passed to pickle_write. -/
def C24Claim (P B : Type) [DecidableEq P] (setup : Setup) : Prop :=
  ∀ (old : Option (List B)) (c : Config P B), Steps setup (start old) c →
    c.file = old ∨ ∃ v ∈ c.called, c.file = some v

/-- **C24**, same file system (the move is a rename): the claim holds at every
point of every run, hence at every crash point. -/
theorem C24_crash_safe_rename_partial : C24Claim P B .rename := by
  intro old c h
  exact (good_steps (by simp) h).complete rfl

/-- **C24**, one store: old or new contents, nothing else. -/
theorem C24_one_store_partial (old : Option (List B)) (v : List B) (c : Config P B)
    (h : Steps .rename (start old) c) (h1 : ∀ u ∈ c.called, u = v) :
    c.file = old ∨ c.file = some v := by
  rcases C24_crash_safe_rename_partial old c h with h2 | ⟨u, hu, h2⟩
  · exact .inl h2
  · rw [h1 u hu] at h2; exact .inr h2

/-- helper: died right after the copy opened the target -/
theorem run_copy_dies (old : Option (List B)) (p : P) (v : List B) (b : Bool) :
    ∃ c : Config P B, Steps (.copy b) (start old) c ∧ c.proc p = .dead ∧ c.lock = some p ∧
      c.called = [v] ∧ c.file = some [] := by
  refine ⟨_, .step (.step (.step (.step (.step (.step (.refl _) (.callWrite _ p v rfl))
    (.lockWrite _ p v (by simp [Config.move]) rfl)) (.dump _ p v [] v (by simp [Config.move]) (by simp)))
    (.close _ p v (by simp [Config.move]))) (.copyOpen _ p v v b rfl (by simp [Config.move])))
    (.die _ p), ?_, rfl, rfl, rfl⟩
  simp [Config.move]

/-- **C24** is false if the temporary directory is on another file system: the
process can die leaving the target empty. -/
theorem C24_claim_false_copy (p : P) (x y : B) (b : Bool) : ¬ C24Claim P B (.copy b) := by
  intro h
  obtain ⟨c, hc, -, -, h1, h2⟩ := run_copy_dies (some [x]) p [y] b
  rcases h (some [x]) c hc with h3 | ⟨v, hv, h3⟩
  · rw [h2] at h3; simp at h3
  · rw [h1] at hv
    simp at hv
    rw [h2, hv] at h3; simp at h3

/-- **C24**, the lock left behind: once a process has died inside, no call ever
completes again; each one ends with a timeout. -/
theorem C24_dead_owner_blocks {setup : Setup} (c d : Config P B) (p : P)
    (h : Steps setup c d) (hl : c.lock = some p) (hp : c.proc p = .dead)
    (hin : ∀ q, Inside (c.proc q) → False) :
    d.lock = some p ∧ d.file = c.file ∧ ∃ n, d.log = c.log ++ List.replicate n .failed := by
  have key : d.lock = some p ∧ d.proc p = .dead ∧ (∀ q, ¬ Inside (d.proc q)) ∧ d.file = c.file ∧
      ∃ n, d.log = c.log ++ List.replicate n .failed := by
    induction h with
    | refl => exact ⟨hl, hp, hin, rfl, 0, by simp⟩
    | step _ st ih =>
      obtain ⟨h1, h2, h3, h4, n, h5⟩ := ih
      have keep : ∀ (a : Config P B) (q : P) (s : Proc B), a.proc p = .dead → (∀ q, ¬ Inside (a.proc q)) →
          (a.proc q = .dead → s = .dead) → ¬ Inside s →
          (a.move q s).proc p = .dead ∧ ∀ r, ¬ Inside ((a.move q s).proc r) := by
        intro a q s ha hb hd hs
        refine ⟨?_, ?_⟩
        · rw [proc_move]
          split
          · rename_i e; exact hd (e ▸ ha)
          · exact ha
        · intro r
          rw [proc_move]
          split
          · exact hs
          · exact hb r
      have more : ∀ l : List (Event B), l = c.log ++ List.replicate n .failed →
          ∃ n, l ++ [.failed] = c.log ++ List.replicate n .failed := by
        rintro l rfl
        exact ⟨n + 1, by rw [List.append_assoc, ← List.replicate_succ']⟩
      cases st with
      | callWrite q v hq =>
        obtain ⟨k1, k2⟩ := keep _ q (.wWait v) h2 h3 (fun e => by rw [hq] at e; cases e) (fun h => h)
        exact ⟨h1, k1, k2, h4, n, h5⟩
      | callRead q hq =>
        obtain ⟨k1, k2⟩ := keep _ q .rWait h2 h3 (fun e => by rw [hq] at e; cases e) (fun h => h)
        exact ⟨h1, k1, k2, h4, n, h5⟩
      | timeoutWrite q v r hq _ =>
        obtain ⟨k1, k2⟩ := keep _ q .idle h2 h3 (fun e => by rw [hq] at e; cases e) (fun h => h)
        exact ⟨h1, k1, k2, h4, more _ h5⟩
      | timeoutRead q r hq _ =>
        obtain ⟨k1, k2⟩ := keep _ q .idle h2 h3 (fun e => by rw [hq] at e; cases e) (fun h => h)
        exact ⟨h1, k1, k2, h4, more _ h5⟩
      | die q =>
        obtain ⟨k1, k2⟩ := keep _ q .dead h2 h3 (fun _ => rfl) (fun h => h)
        exact ⟨h1, k1, k2, h4, n, h5⟩
      | lockWrite q v hq hn => rw [h1] at hn; cases hn
      | lockRead q hq hn => rw [h1] at hn; cases hn
      | dump q v tmp chunk hq _ => exact absurd (by rw [hq]; trivial) (h3 q)
      | dumpFails q v tmp hq => exact absurd (by rw [hq]; trivial) (h3 q)
      | close q v hq => exact absurd (by rw [hq]; trivial) (h3 q)
      | rename q v tmp _ hq => exact absurd (by rw [hq]; trivial) (h3 q)
      | copyOpen q v tmp b _ hq => exact absurd (by rw [hq]; trivial) (h3 q)
      | copyChunk q v tmp out chunk hq _ => exact absurd (by rw [hq]; trivial) (h3 q)
      | copyFails q v tmp out _ hq => exact absurd (by rw [hq]; trivial) (h3 q)
      | copied q v tmp hq => exact absurd (by rw [hq]; trivial) (h3 q)
      | unlockWrite q v hq => exact absurd (by rw [hq]; trivial) (h3 q)
      | unlockFail q hq => exact absurd (by rw [hq]; trivial) (h3 q)
      | openMissing q hq _ => exact absurd (by rw [hq]; trivial) (h3 q)
      | openRead q f hq _ => exact absurd (by rw [hq]; trivial) (h3 q)
      | readChunk q acc f n hq _ => exact absurd (by rw [hq]; trivial) (h3 q)
      | readEnd q acc f hq _ _ => exact absurd (by rw [hq]; trivial) (h3 q)
      | unlockRead q res hq => exact absurd (by rw [hq]; trivial) (h3 q)
  exact ⟨key.1, key.2.2.2.1, key.2.2.2.2⟩

/-- The hypotheses are met by the run of `run_copy_dies`. -/
example : ∃ c : Config Nat Nat, Steps (.copy false) (start (some [7])) c ∧ c.lock = some 0 ∧
    c.proc 0 = .dead := by
  obtain ⟨c, h1, h2, h3, -⟩ := run_copy_dies (some [7]) 0 [1, 2] false
  exact ⟨c, h1, h3, h2⟩

end Sb.Props
