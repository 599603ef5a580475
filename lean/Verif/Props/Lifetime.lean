import Verif.Model.Lifetime
import Verif.Props.Trainers
import Verif.Props.CorpusText

/-
Property C112: observers that nothing refers to; and C111 for the program of the
documentation as it stands.
-/

set_option linter.unusedSectionVars false

namespace Sb.Props
open Sb.Corpora Sb.Spec Py Mail

variable {X ν σ W K : Type} [DecidableEq X] [DecidableEq ν] [LinearOrder W] [BigramFormat W] (O : MailOps ν)

/-- The observers a program makes, oldest first. -/
def observersOf (p : List (Stmt X ν σ)) : List (Made ν σ) :=
  p.filterMap (fun
    | .make _ o => some o
    | _ => none)

/-- What a variable refers to after a program, given newest statement first: the number of
the observer. -/
def refersTo (x : X) : List (Stmt X ν σ) → Option Nat
  | [] => none
  | .make (some y) _ :: past => if x = y then some (observersOf past).length else refersTo x past
  | .make none _ :: past => refersTo x past
  | .assign y z :: past =>
    if x = y then
      match refersTo z past with
      | some n => some n
      | none => refersTo x past
    else refersTo x past
  | .del y :: past => if x = y then none else refersTo x past
  | .op _ :: past => refersTo x past

theorem observersOf_length (p : List (Stmt X ν σ)) : (observersOf p.reverse).length = (observersOf p).length := by
  simp [observersOf, List.filterMap_reverse]

theorem held_iff (vars : Dict X Nat) (n : Nat) : held vars n = true ↔ ∃ x, vars.get? x = some n := by
  simp only [held, List.any_eq_true, beq_iff_eq]
  constructor
  · rintro ⟨x, -, h⟩; exact ⟨x, h⟩
  · rintro ⟨x, h⟩; exact ⟨x, (Dict.mem_keys_iff _ _).2 ⟨n, h⟩, h⟩

/-- A program and one more statement. -/
theorem exec_snoc (w : World ν σ) (p : List (Stmt X ν σ)) (a : Stmt X ν σ) :
    Running.exec O (.start w) (p ++ [a]) = Running.step O (Running.exec O (.start w) p) a := by
  simp [Running.exec]

theorem exec_made (w : World ν σ) (p : List (Stmt X ν σ)) :
    (Running.exec O (.start w) p).made = observersOf p := by
  induction p using List.reverseRecOn with
  | nil => rfl
  | append_singleton p a ih =>
    rw [exec_snoc]
    have hsplit : observersOf (p ++ [a]) = observersOf p ++ observersOf [a] := by simp [observersOf]
    rw [hsplit, ← ih]
    cases a with
    | make x o => simp [Running.step, Running.collect, observersOf]
    | assign y x =>
      simp only [Running.step]
      split <;> simp [Running.collect, observersOf]
    | del x => simp [Running.step, Running.collect, observersOf]
    | op o => simp [Running.step, observersOf]

theorem exec_vars (w : World ν σ) (p : List (Stmt X ν σ)) (x : X) :
    (Running.exec O (.start w) p).vars.get? x = refersTo x p.reverse := by
  induction p using List.reverseRecOn generalizing x with
  | nil => rfl
  | append_singleton p a ih =>
    have hm := exec_made O w p
    rw [exec_snoc, List.reverse_append, List.reverse_singleton, List.singleton_append]
    cases a with
    | make y o =>
      cases y with
      | none => simpa [Running.step, Running.collect, refersTo] using ih x
      | some y =>
        simp only [Running.step, Running.collect, refersTo, Dict.get?_set, hm, observersOf_length, ih]
        by_cases h : y = x
        · subst h; simp
        · simp [h, Ne.symm h]
    | assign y z =>
      simp only [Running.step, refersTo, ← ih]
      cases hz : (Running.exec O (.start w) p).vars.get? z with
      | none => simp
      | some n =>
        simp only [Running.collect, Dict.get?_set]
        by_cases h : y = x
        · subst h; simp
        · simp [h, Ne.symm h]
    | del y =>
      simp only [Running.step, Running.collect, refersTo, Dict.get?_erase, ← ih]
      by_cases h : y = x
      · subst h; simp
      · simp [h, Ne.symm h]
    | op o => simpa [Running.step, refersTo] using ih x

/-- The connections a program has: those of the observers that some variable refers to. -/
theorem exec_signals (w : World ν σ) (p : List (Stmt X ν σ)) (n : Nat) (c : Option Corpus) :
    ((n, c) ∈ (Running.exec O (.start w) p).signals.added ↔
      held (Running.exec O (.start w) p).vars n = true ∧ ∃ o, (observersOf p)[n]? = some o ∧ c ∈ o.added) ∧
    ((n, c) ∈ (Running.exec O (.start w) p).signals.removed ↔
      held (Running.exec O (.start w) p).vars n = true ∧ ∃ o, (observersOf p)[n]? = some o ∧ c ∈ o.removed) := by
  induction p using List.reverseRecOn with
  | nil => simp [Running.exec, Running.start, observersOf]
  | append_singleton p a ih =>
    obtain ⟨ih1, ih2⟩ := ih
    have hm := exec_made O w p
    rw [exec_snoc]
    have hsplit : observersOf (p ++ [a]) = observersOf p ++ observersOf [a] := by simp [observersOf]
    rw [hsplit]
    -- a variable that refers to an observer after the statement did so before, or the
    -- observer is the one just made
    generalize hs : Running.exec O (.start w) p = s at *
    cases a with
    | make x o =>
      have ho : observersOf [(.make x o : Stmt X ν σ)] = [o] := rfl
      rw [ho]
      simp only [Running.step, Running.collect, List.mem_filter, List.mem_append, List.mem_map, hm]
      have hheld : n ≠ (observersOf p).length → held (match x with
          | some x => s.vars.set x (observersOf p).length
          | none => s.vars) n = true → held s.vars n = true := by
        intro hn
        cases x with
        | none => exact id
        | some x =>
          simp only [held_iff, Dict.get?_set]
          rintro ⟨y, hy⟩
          by_cases h : x = y
          · rw [if_pos h] at hy
            exact absurd (Option.some.inj hy).symm hn
          · rw [if_neg h] at hy
            exact ⟨y, hy⟩
      by_cases hn : n = (observersOf p).length
      · subst hn
        have hno : ¬ ∃ o, (observersOf p)[(observersOf p).length]? = some o ∧ c ∈ o.added := by simp
        have hno' : ¬ ∃ o, (observersOf p)[(observersOf p).length]? = some o ∧ c ∈ o.removed := by simp
        constructor
        · constructor
          · rintro ⟨h1 | ⟨c', hc', h⟩, h2⟩
            · exact absurd (ih1.1 h1).2 hno
            · cases h
              exact ⟨h2, o, by simp, hc'⟩
          · rintro ⟨h1, o', ho', hc⟩
            simp at ho'
            subst ho'
            exact ⟨.inr ⟨c, hc, rfl⟩, h1⟩
        · constructor
          · rintro ⟨h1 | ⟨c', hc', h⟩, h2⟩
            · exact absurd (ih2.1 h1).2 hno'
            · cases h
              exact ⟨h2, o, by simp, hc'⟩
          · rintro ⟨h1, o', ho', hc⟩
            simp at ho'
            subst ho'
            exact ⟨.inr ⟨c, hc, rfl⟩, h1⟩
      · have hget : (observersOf p ++ [o])[n]? = (observersOf p)[n]? := by
          rcases Nat.lt_or_ge n (observersOf p).length with h | h
          · exact List.getElem?_append_left h
          · rw [List.getElem?_eq_none (by simp; omega), List.getElem?_eq_none h]
        rw [hget]
        constructor
        · constructor
          · rintro ⟨h1 | ⟨c', hc', h⟩, h2⟩
            · exact ⟨h2, (ih1.1 h1).2⟩
            · exact absurd (congrArg Prod.fst h).symm hn
          · rintro ⟨h1, h2⟩
            exact ⟨.inl (ih1.2 ⟨hheld hn h1, h2⟩), h1⟩
        · constructor
          · rintro ⟨h1 | ⟨c', hc', h⟩, h2⟩
            · exact ⟨h2, (ih2.1 h1).2⟩
            · exact absurd (congrArg Prod.fst h).symm hn
          · rintro ⟨h1, h2⟩
            exact ⟨.inl (ih2.2 ⟨hheld hn h1, h2⟩), h1⟩
    | assign y x =>
      have ho : observersOf [(.assign y x : Stmt X ν σ)] = [] := rfl
      rw [ho, List.append_nil]
      simp only [Running.step]
      cases hx : s.vars.get? x with
      | none => exact ⟨ih1, ih2⟩
      | some k =>
        simp only [Running.collect, List.mem_filter, ih1, ih2]
        have hheld : held (s.vars.set y k) n = true → held s.vars n = true := by
          simp only [held_iff, Dict.get?_set]
          rintro ⟨z, hz⟩
          by_cases h : y = z
          · rw [if_pos h] at hz
            exact ⟨x, hx.trans hz⟩
          · rw [if_neg h] at hz
            exact ⟨z, hz⟩
        constructor <;> exact ⟨fun h => ⟨h.2, h.1.2⟩, fun h => ⟨⟨hheld h.1, h.2⟩, h.1⟩⟩
    | del x =>
      have ho : observersOf [(.del x : Stmt X ν σ)] = [] := rfl
      rw [ho, List.append_nil]
      simp only [Running.step, Running.collect, List.mem_filter, ih1, ih2]
      have hheld : held (s.vars.erase x) n = true → held s.vars n = true := by
        simp only [held_iff, Dict.get?_erase]
        rintro ⟨z, hz⟩
        by_cases h : x = z
        · rw [if_pos h] at hz; cases hz
        · rw [if_neg h] at hz; exact ⟨z, hz⟩
      constructor <;> exact ⟨fun h => ⟨h.2, h.1.2⟩, fun h => ⟨⟨hheld h.1, h.2⟩, h.1⟩⟩
    | op o =>
      have ho : observersOf [(.op o : Stmt X ν σ)] = [] := rfl
      rw [ho, List.append_nil]
      exact ⟨ih1, ih2⟩

/-- **C112**, exactly, for every program: the observers that are called when a corpus sends
a signal are the ones connected to it to which some variable refers at that moment. -/
theorem C112_called_partial (w : World ν σ) (p : List (Stmt X ν σ)) (c : Corpus) (n : Nat) :
    (n ∈ receiversFor (Running.exec O (.start w) p).signals.added c ↔
      ∃ o, (observersOf p)[n]? = some o ∧ (none ∈ o.added ∨ some c ∈ o.added) ∧
        ∃ x, refersTo x p.reverse = some n) ∧
    (n ∈ receiversFor (Running.exec O (.start w) p).signals.removed c ↔
      ∃ o, (observersOf p)[n]? = some o ∧ (none ∈ o.removed ∨ some c ∈ o.removed) ∧
        ∃ x, refersTo x p.reverse = some n) := by
  have hh : held (Running.exec O (.start w) p).vars n = true ↔ ∃ x, refersTo x p.reverse = some n := by
    rw [held_iff]
    simp only [exec_vars]
  have key : ∀ (reg : Registry Nat) (f : Made ν σ → List (Option Corpus)),
      (∀ c, (n, c) ∈ reg ↔ held (Running.exec O (.start w) p).vars n = true ∧
        ∃ o, (observersOf p)[n]? = some o ∧ c ∈ f o) →
      (n ∈ receiversFor reg c ↔ ∃ o, (observersOf p)[n]? = some o ∧ (none ∈ f o ∨ some c ∈ f o) ∧
        ∃ x, refersTo x p.reverse = some n) := by
    intro reg f h
    simp only [receiversFor, List.mem_map, List.mem_filter, decide_eq_true_eq]
    constructor
    · rintro ⟨⟨n', o⟩, ⟨h1, h2⟩, rfl⟩
      obtain ⟨h3, ob, h4, h5⟩ := (h o).1 h1
      refine ⟨ob, h4, ?_, hh.1 h3⟩
      rcases h2 with h2 | h2 <;> simp only at h2 <;> subst h2
      · exact .inl h5
      · exact .inr h5
    · rintro ⟨ob, h4, h5 | h5, h6⟩
      · exact ⟨(n, none), ⟨(h none).2 ⟨hh.2 h6, ob, h4, h5⟩, .inl rfl⟩, rfl⟩
      · exact ⟨(n, some c), ⟨(h (some c)).2 ⟨hh.2 h6, ob, h4, h5⟩, .inr rfl⟩, rfl⟩
  exact ⟨key _ Made.added (fun c => (exec_signals O w p n c).1),
    key _ Made.removed (fun c => (exec_signals O w p n c).2)⟩

/-! ### Programs with trainers -/

/-- A statement of a program that makes trainers only. -/
inductive TrainerStmt (X ν : Type) where
  | make (x : Option X) (isSpam : Bool) (corpora : List Corpus)
  | assign (y x : X)
  | del (x : X)
  | op (o : Op ν Nat)

/-- The statement as the model has it. -/
def asStmt (T : TokenOps ν W) (itW : SetIter W) : TrainerStmt X ν → Stmt X ν (Training ν W K)
  | .make x isSpam corpora => .make x (.trainer T itW isSpam corpora)
  | .assign y x => .assign y x
  | .del x => .del x
  | .op o => .op o

/-- The trainers a program makes, numbered. -/
def trainersOf (p : List (TrainerStmt X ν)) : List (TrainerOf Nat) :=
  (p.filterMap (fun
    | .make _ b cs => some (b, cs)
    | _ => none)).zipIdx.map (fun t => ⟨t.2, t.1.1, t.1.2⟩)

/-- What a variable refers to, newest statement first: the number of the trainer. -/
def trainerIn (x : X) : List (TrainerStmt X ν) → Option Nat
  | [] => none
  | .make (some y) _ _ :: past => if x = y then some (trainersOf past).length else trainerIn x past
  | .make none _ _ :: past => trainerIn x past
  | .assign y z :: past =>
    if x = y then
      match trainerIn z past with
      | some n => some n
      | none => trainerIn x past
    else trainerIn x past
  | .del y :: past => if x = y then none else trainerIn x past
  | .op _ :: past => trainerIn x past

open Classical in
/-- The trainers that listen to a corpus and are referred to by a variable after the
program `past`. -/
noncomputable def keptListening (past : List (TrainerStmt X ν)) (c : Corpus) : List (TrainerOf Nat) :=
  (trainersOf past).filter (fun t => c ∈ t.corpora ∧ ∃ x, trainerIn x past.reverse = some t.name)

/-- What one operation has the classifier learn after the program `past`. -/
noncomputable def learnedKept (T : TokenOps ν W) (ub : Bool) (past : List (TrainerStmt X ν)) (op : Op ν Nat) :
    List (Msg W) :=
  if opEmit op then
    match T.tokens (opMessage op) with
    | .ok ws => (keptListening past (opCorpus op)).map (fun t => msgOf ub (.iterator ws) t.isSpam)
    | .error _ => []
  else []

/-- What a program has the classifier learn; `past` is what has been run of it. -/
noncomputable def learnedIn (T : TokenOps ν W) (ub : Bool) :
    (past rest : List (TrainerStmt X ν)) → List (Msg W)
  | _, [] => []
  | past, .op o :: rest => learnedKept T ub past o ++ learnedIn T ub (past ++ [.op o]) rest
  | past, a :: rest => learnedIn T ub (past ++ [a]) rest

theorem trainersOf_length (T : TokenOps ν W) (itW : SetIter W) (p : List (TrainerStmt X ν)) :
    (trainersOf p).length = (observersOf (p.map (asStmt (K := K) T itW))).length := by
  simp only [trainersOf, List.length_map, List.length_zipIdx]
  induction p with
  | nil => rfl
  | cons a p ih => cases a <;> simpa [observersOf, asStmt] using ih

theorem trainerIn_eq (T : TokenOps ν W) (itW : SetIter W) (x : X) (p : List (TrainerStmt X ν)) :
    trainerIn x p = refersTo x (p.map (asStmt (K := K) T itW)) := by
  induction p generalizing x with
  | nil => rfl
  | cons a p ih =>
    cases a with
    | make y b cs =>
      cases y with
      | none => simpa [trainerIn, refersTo, asStmt] using ih x
      | some y => simp only [trainerIn, List.map_cons, asStmt, refersTo, trainersOf_length (K := K) T itW, ih]
    | assign y z => simp only [trainerIn, List.map_cons, asStmt, refersTo, ih]
    | del y => simp only [trainerIn, List.map_cons, asStmt, refersTo, ih]
    | op o => simpa [trainerIn, refersTo, asStmt] using ih x

/-- The table of trainers and the table of observers agree. -/
theorem mem_trainersOf (T : TokenOps ν W) (itW : SetIter W) (p : List (TrainerStmt X ν)) (t : TrainerOf Nat) :
    t ∈ trainersOf p →
    (observersOf (p.map (asStmt (K := K) T itW)))[t.name]? = some (.trainer T itW t.isSpam t.corpora) := by
  intro h
  simp only [trainersOf, List.mem_map] at h
  obtain ⟨⟨⟨b, cs⟩, i⟩, h1, rfl⟩ := h
  have h2 := List.mem_zipIdx h1
  simp only [Nat.zero_add, Nat.sub_zero, Nat.zero_le, true_and] at h2
  have key : observersOf (p.map (asStmt (K := K) T itW)) =
      (p.filterMap (fun
        | .make _ b cs => some (b, cs)
        | _ => none)).map (fun e => Made.trainer T itW e.1 e.2) := by
    clear h1 h2
    induction p with
    | nil => rfl
    | cons a p ih => cases a <;> simpa [observersOf, asStmt] using ih
  rw [key, List.getElem?_map]
  obtain ⟨h3, h4⟩ := h2
  rw [List.getElem?_eq_getElem h3, ← h4]
  rfl

theorem trainersOf_names (p : List (TrainerStmt X ν)) : ((trainersOf p).map (·.name)).Nodup := by
  simp only [trainersOf, List.map_map]
  have : ((fun t : TrainerOf Nat => t.name) ∘ fun t : (Bool × List Corpus) × Nat =>
      (⟨t.2, t.1.1, t.1.2⟩ : TrainerOf Nat)) = Prod.snd := rfl
  rw [this, List.zipIdx_map_snd]
  exact List.nodup_range' ..

theorem forEach_congr {α σ : Type} {f g : α → M σ Unit} {l : List α} (h : ∀ x ∈ l, f x = g x) :
    M.forEach f l = M.forEach g l := by
  induction l with
  | nil => rfl
  | cons a l ih =>
    rw [M.forEach_cons, M.forEach_cons, h a (by simp), ih (fun x hx => h x (by simp [hx]))]

/-- One operation after a program. -/
theorem op_kept (T : TokenOps ν W) (itW : SetIter W) (ub : Bool) (past : List (TrainerStmt X ν)) (op : Op ν Nat)
    (hk : T.hasKey (opMessage op) = true) (hT : ∃ ws, T.tokens (opMessage op) = .ok ws)
    (w₀ : World ν (Training ν W K)) (L : Ledger W)
    (h : InMemory (Running.exec O (.start w₀) (past.map (asStmt T itW))).world)
    (hL : Represents L ub (Running.exec O (.start w₀) (past.map (asStmt T itW))).world.user.clf) :
    let s := Running.exec O (.start w₀) (past.map (asStmt (X := X) T itW))
    (runOp O (runMade s.made) s.signals op s.world).1 = .ok () ∧
    Represents (Multiset.ofList (learnedKept T ub past op) + L) ub
      (runOp O (runMade s.made) s.signals op s.world).2.user.clf := by
  obtain ⟨ws, hws⟩ := hT
  intro s
  obtain ⟨h1, -, h3⟩ := cacheStep_inMemory O op s.world h
  rw [runOp_eq]
  cases hc : cacheStep O op s.world with
  | mk x w' =>
    rw [hc] at h1 h3
    simp only at h1 h3
    subst h1
    simp only
    cases he : opEmit op with
    | false => simpa [learnedKept, he, h3] using hL
    | true =>
      simp only [if_true]
      obtain ⟨it, reg, hsend, hreg⟩ : ∃ (it : SetIter Nat) (reg : Registry Nat),
          opSend (runMade s.made) s.signals op w' =
            M.forEach (callReceiver (runMade s.made) (opCorpus op) (opMessage op))
              (it.order (receiversFor reg (opCorpus op))) w' ∧
          ∀ n, n ∈ receiversFor reg (opCorpus op) ↔ n ∈ (keptListening past (opCorpus op)).map (·.name) := by
        have hrec : ∀ n, (∃ o, (observersOf (past.map (asStmt (X := X) (K := K) T itW)))[n]? = some o ∧
            (∃ cs b, o = Made.trainer T itW b cs ∧ opCorpus op ∈ cs) ∧
            ∃ x, refersTo x (past.map (asStmt (X := X) (K := K) T itW)).reverse = some n) ↔
            n ∈ (keptListening past (opCorpus op)).map (·.name) := by
          intro n
          simp only [keptListening, List.mem_map, List.mem_filter, decide_eq_true_eq]
          constructor
          · rintro ⟨o, ho, ⟨cs, b, rfl, hcs⟩, x, hx⟩
            have hn : n < (trainersOf past).length := by
              rw [trainersOf_length (K := K) T itW]
              exact (List.getElem?_eq_some_iff.1 ho).1
            have hname : ((trainersOf past)[n]).name = n := by
              simp [trainersOf]
            have hmem := mem_trainersOf (K := K) T itW past _ (List.getElem_mem hn)
            rw [hname, ho] at hmem
            have hcs' : cs = ((trainersOf past)[n]).corpora := by
              have := congrArg Made.added (Option.some.inj hmem)
              simpa [Made.trainer] using (List.map_injective_iff.2 (Option.some_injective _)) this
            refine ⟨(trainersOf past)[n], ⟨List.getElem_mem hn, hcs' ▸ hcs, x, ?_⟩, hname⟩
            rw [hname, trainerIn_eq (K := K) T itW, List.map_reverse]
            exact hx
          · rintro ⟨t, ⟨ht, hc, x, hx⟩, rfl⟩
            refine ⟨_, mem_trainersOf (K := K) T itW past t ht, ⟨t.corpora, t.isSpam, rfl, hc⟩, x, ?_⟩
            rw [← List.map_reverse, ← trainerIn_eq (K := K) T itW]
            exact hx
        have hshape : ∀ (n : Nat) (o : Made ν (Training ν W K)), (observersOf (past.map (asStmt (X := X) (K := K) T itW)))[n]? = some o →
            ∃ b cs, o = Made.trainer T itW b cs := by
          intro n o ho
          have := List.mem_of_getElem? ho
          simp only [observersOf, List.mem_filterMap, List.mem_map] at this
          obtain ⟨a, ⟨a', -, rfl⟩, ha⟩ := this
          cases a' with
          | make x b cs => exact ⟨b, cs, (Option.some.inj ha).symm⟩
          | assign y x => cases ha
          | del x => cases ha
          | op o => cases ha
        cases op with
        | add it c m i e =>
          refine ⟨it, s.signals.added, rfl, fun n => ?_⟩
          rw [← hrec n]
          refine (C112_called_partial O w₀ (past.map (asStmt T itW)) c n).1.trans ?_
          constructor
          · rintro ⟨o, ho, h5, h6⟩
            obtain ⟨b, cs, rfl⟩ := hshape n o ho
            exact ⟨_, ho, ⟨cs, b, rfl, by simpa [Made.trainer, opCorpus] using h5⟩, h6⟩
          · rintro ⟨o, ho, ⟨cs, b, rfl, hcs⟩, h6⟩
            exact ⟨_, ho, .inr (by simpa [Made.trainer, opCorpus] using hcs), h6⟩
        | remove it c m e =>
          refine ⟨it, s.signals.removed, rfl, fun n => ?_⟩
          rw [← hrec n]
          refine (C112_called_partial O w₀ (past.map (asStmt T itW)) c n).2.trans ?_
          constructor
          · rintro ⟨o, ho, h5, h6⟩
            obtain ⟨b, cs, rfl⟩ := hshape n o ho
            exact ⟨_, ho, ⟨cs, b, rfl, by simpa [Made.trainer, opCorpus] using h5⟩, h6⟩
          · rintro ⟨o, ho, ⟨cs, b, rfl, hcs⟩, h6⟩
            exact ⟨_, ho, .inr (by simpa [Made.trainer, opCorpus] using hcs), h6⟩
      rw [hsend]
      have hnod : ((keptListening past (opCorpus op)).map (·.name)).Nodup :=
        (trainersOf_names past).sublist ((List.filter_sublist (l := trainersOf past)).map _)
      have hperm : (it.order (receiversFor reg (opCorpus op))).Perm
          ((keptListening past (opCorpus op)).map (·.name)) := by
        rw [List.perm_ext_iff_of_nodup (it.nodup _) hnod]
        intro r
        rw [it.mem, hreg]
      have hcongr : M.forEach (callReceiver (runMade s.made) (opCorpus op) (opMessage op))
            (it.order (receiversFor reg (opCorpus op))) =
          M.forEach (callReceiver (trainersRun T itW (trainersOf past)) (opCorpus op) (opMessage op))
            (it.order (receiversFor reg (opCorpus op))) := by
        apply forEach_congr
        intro r hr
        rw [it.mem, hreg, List.mem_map] at hr
        obtain ⟨t, ht, rfl⟩ := hr
        have ht' : t ∈ trainersOf past := (List.mem_filter.1 ht).1
        have hrun : runMade s.made t.name = trainersRun T itW (trainersOf past) t.name := by
          simp only [runMade, s, exec_made, mem_trainersOf (K := K) T itW past t ht', trainersRun,
            spamOf_mem (trainersOf_names past) ht', Made.trainer]
        funext w
        simp only [callReceiver, hrun]
      rw [hcongr]
      obtain ⟨i1, i2⟩ := trainers_called T itW ub (trainersOf past) (opCorpus op) (opMessage op) hk hws
        (it.order (receiversFor reg (opCorpus op))) w' L (by rw [h3]; exact hL)
      refine ⟨i1, ?_⟩
      have hmap : learnedKept T ub past op = ((keptListening past (opCorpus op)).map (·.name)).map
          (fun r => msgOf ub (.iterator ws) (spamOf (trainersOf past) r)) := by
        simp only [learnedKept, he, if_true, hws, List.map_map]
        apply List.map_congr_left
        intro t ht
        simp only [Function.comp, spamOf_mem (trainersOf_names past) (List.mem_filter.1 ht).1]
      rw [hmap, ← Multiset.coe_eq_coe.2 (hperm.map _)]
      exact i2

/-- **C112** for trainers, exactly, for every program on corpora in memory: the classifier
learns every message that is added or removed, once for each trainer of the corpus that
some variable refers to at that moment, and nothing else. -/
theorem C112_trained_partial (T : TokenOps ν W) (itW : SetIter W) (ub : Bool) (p : List (TrainerStmt X ν))
    (hT : ∀ op, .op op ∈ p → T.hasKey (opMessage op) = true ∧ ∃ ws, T.tokens (opMessage op) = .ok ws)
    (w : World ν (Training ν W K)) (h : InMemory w) (L : Ledger W) (hL : Represents L ub w.user.clf) :
    Represents (Multiset.ofList (learnedIn T ub [] p) + L) ub
      (Running.exec O (.start w) (p.map (asStmt T itW))).world.user.clf := by
  have key : ∀ (rest past : List (TrainerStmt X ν)) (L : Ledger W),
      (∀ op, .op op ∈ rest → T.hasKey (opMessage op) = true ∧ ∃ ws, T.tokens (opMessage op) = .ok ws) →
      InMemory (Running.exec O (.start w) (past.map (asStmt T itW))).world →
      Represents L ub (Running.exec O (.start w) (past.map (asStmt T itW))).world.user.clf →
      Represents (Multiset.ofList (learnedIn T ub past rest) + L) ub
        (Running.exec O (.start w) ((past ++ rest).map (asStmt T itW))).world.user.clf := by
    intro rest
    induction rest with
    | nil => intro past L _ _ hL; simpa [learnedIn] using hL
    | cons a rest ih =>
      intro past L hT h hL
      have hrest : ∀ op, .op op ∈ rest → T.hasKey (opMessage op) = true ∧ ∃ ws, T.tokens (opMessage op) = .ok ws :=
        fun op ho => hT op (by simp [ho])
      have hpast : past ++ a :: rest = (past ++ [a]) ++ rest := by simp
      have hsnoc : Running.exec O (.start w) ((past ++ [a]).map (asStmt T itW)) =
          Running.step O (Running.exec O (.start w) (past.map (asStmt T itW))) (asStmt T itW a) := by
        rw [List.map_append, List.map_singleton, exec_snoc]
      rw [hpast]
      cases a with
      | op o =>
        obtain ⟨hk, hws⟩ := hT o (by simp)
        obtain ⟨-, h2⟩ := op_kept O T itW ub past o hk hws w L h hL
        have := ih (past ++ [.op o]) _ hrest
          (by rw [hsnoc]; exact runOp_inMemory O _ _ o _ h) (by rw [hsnoc]; exact h2)
        rw [learnedIn, ← Multiset.coe_add, add_assoc, add_left_comm]
        exact this
      | make x b cs =>
        exact ih (past ++ [.make x b cs]) L hrest (by rw [hsnoc]; exact h) (by rw [hsnoc]; exact hL)
      | assign y x =>
        have hw : (Running.step O (Running.exec O (.start w) (past.map (asStmt T itW)))
            (asStmt T itW (.assign y x))).world = (Running.exec O (.start w) (past.map (asStmt T itW))).world := by
          simp only [asStmt, Running.step]
          split <;> rfl
        exact ih (past ++ [.assign y x]) L hrest (by rw [hsnoc, hw]; exact h) (by rw [hsnoc, hw]; exact hL)
      | del x =>
        exact ih (past ++ [.del x]) L hrest (by rw [hsnoc]; exact h) (by rw [hsnoc]; exact hL)
  exact key p [] L hT h hL

/-- The claim: a trainer trains the messages added to its corpora. -/
def C112Claim : Prop :=
  ∀ (x : Option String) (c : Corpus) (w : World (Option Txt × List Nat) (Training (Option Txt × List Nat) String ℚ)),
    InMemory w → w.user.clf = Clf.new false Dict.empty →
    (Running.exec sampleMail (.start w)
      ([.make x true [c], .op (.add .dedup c (some [1], []) none true)].map
        (asStmt ⟨fun _ => true, fun _ => .ok ["pills"]⟩ .dedup))).world.user.clf.nspam = 1

/-- **C112** is false: `SpamTrainer(classifier, [corpus])` as a statement of its own. -/
theorem C112_claim_false : ¬ C112Claim := by
  intro h
  have := h none ⟨0, 0⟩ ⟨[.naive (.new none)], Dict.empty, ⟨Clf.new false Dict.empty, fun _ => none⟩⟩
    (by intro o ho; exact ⟨_, List.mem_singleton.1 ho⟩) rfl
  revert this
  decide

/-- A trainer that is kept, and dropped later: it trains until then. -/
example :
    let w := (Running.exec sampleMail (.start (⟨[.naive (.new none)], Dict.empty, ⟨Clf.new false Dict.empty, fun _ => none⟩⟩ :
          World _ (Training (Option Txt × List Nat) String ℚ)))
      ([.make (some "t") true [⟨0, 0⟩], .make none true [⟨0, 0⟩], .op (.add .dedup ⟨0, 0⟩ (some [1], []) none true),
        .assign "u" "t", .del "t", .op (.add .dedup ⟨0, 0⟩ (some [2], []) none true),
        .make (some "u") false [], .op (.add .dedup ⟨0, 0⟩ (some [3], []) none true)].map
        (asStmt ⟨fun _ => true, fun _ => .ok ["pills"]⟩ .dedup))).world
    w.user.clf.nspam = 2 ∧ w.user.clf.nham = 0 ∧ corpusLen ⟨0, 0⟩ w = 3 := by
  decide

/-! ### The program of the documentation -/

/-- **C111** for the program of the documentation as it stands, both functions under the
name `on_message_added`: the first one is gone when the second is made. So adding a
message tells nobody, and removing one raises. -/
theorem C111_program_partial (cls : Corpus → CorpusClass) (str : ν → Except Err Txt)
    (w : World ν (List Txt)) (h : InMemory w) :
    let s := Running.exec O (.start w) (documentedProgram cls str)
    (∀ it c m i e, (runOp O (runMade s.made) s.signals (.add it c m i e) s.world).1 = .ok ()) ∧
    (∀ it c m, (runOp O (runMade s.made) s.signals (.remove it c m true) s.world).1 =
      .error (complaintOf cls str c m)) := by
  have hs : (Running.exec O (.start w) (documentedProgram cls str)).signals = ⟨[], [(1, none)]⟩ := by
    simp [Running.exec, documentedProgram, Running.step, Running.collect, Running.start, held, Dict.keys, Dict.set,
      Dict.setL, Dict.empty, Dict.get?, Dict.getL]
  have hw : (Running.exec O (.start w) (documentedProgram cls str)).world = w := rfl
  have hm : (Running.exec O (.start w) (documentedProgram cls str)).made =
      [⟨documented cls str (), [none], []⟩, ⟨documented cls str (), [], [none]⟩] := rfl
  intro s
  simp only [s, hs, hw, hm]
  constructor
  · intro it c m i e
    obtain ⟨h1, -, -⟩ := cacheStep_inMemory O (.add it c m i e) w h
    rw [runOp_eq]
    cases hc : cacheStep O (.add it c m i e) w with
    | mk x w' =>
      rw [hc] at h1
      simp only at h1
      subst h1
      simp only
      split
      · have : it.order (receiversFor ([] : Registry Nat) c) = [] := by
          apply List.eq_nil_iff_forall_not_mem.2
          intro r hr
          rw [it.mem] at hr
          simp [receiversFor] at hr
        simp [opSend, send, this]
      · rfl
  · intro it c m
    obtain ⟨h1, -, -⟩ := cacheStep_inMemory O (.remove it c m true) w h
    rw [runOp_eq]
    cases hc : cacheStep O (.remove it c m true) w with
    | mk x w' =>
      rw [hc] at h1
      simp only at h1
      subst h1
      simp only [opEmit, if_true, opSend, send]
      have hmem : ∀ r, r ∈ it.order (receiversFor ([(1, none)] : Registry Nat) c) ↔ r = 1 := by
        intro r
        rw [it.mem]
        simp [receiversFor]
      cases hl : it.order (receiversFor ([(1, none)] : Registry Nat) c) with
      | nil =>
        rw [hl] at hmem
        have := (hmem 1).2 rfl
        simp at this
      | cons r l =>
        rw [hl] at hmem
        obtain rfl := (hmem r).1 (by simp)
        have : callReceiver (runMade [⟨documented cls str (), [none], []⟩, ⟨documented cls str (), [], [none]⟩]) c m
            1 w' = (.error (complaintOf cls str c m), w') := by
          simp only [callReceiver, runMade, List.getElem?_cons_succ, List.getElem?_cons_zero, documented_raises]
        rw [M.forEach_cons, M.bind_run_error this]

end Sb.Props
