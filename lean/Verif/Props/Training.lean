import Verif.Proof.Ledger
import Verif.Py.SetIter
import Verif.Model.Tokens
import Verif.Model.Exact

/-
Properties C01-C06, C08, C09, C21, C22: training.  `memory W` is the record
storage of the base Classifier; `it`, `it'`, … are set iteration orders.
-/

set_option linter.unusedSectionVars false

namespace Sb.Props
open Sb Py Spec

variable {W K : Type} [LinearOrder W] [BigramFormat W] [Field K] [LinearOrder K]

/-- A classifier whose totals and records are as training leaves them: nothing
negative, no record with two zeros. -/
structure Sane (c : Clf (Dict W WordInfo) K) : Prop where
  nspam : 0 ≤ c.nspam
  nham : 0 ≤ c.nham
  records : ∀ w r, c.store.get? w = some r →
    0 ≤ r.spamcount ∧ 0 ≤ r.hamcount ∧ (r.spamcount ≠ 0 ∨ r.hamcount ≠ 0)

/-- A small trained classifier for the examples: "cheap" and "pills" learned as
spam, "cheap" and "lunch" as ham. -/
def demo (K : Type) : Clf (Dict String WordInfo) K :=
  { useBigrams := some false
    store := ⟨[("cheap", ⟨1, 1⟩), ("pills", ⟨1, 0⟩), ("lunch", ⟨0, 1⟩)]⟩
    probcache := Dict.empty, nspam := 1, nham := 1 }

theorem demo_sane : Sane (demo K) where
  nspam := by simp [demo]
  nham := by simp [demo]
  records w r h := by
    have h' := Dict.mem_entries_of_get? h
    simp [demo] at h'
    rcases h' with ⟨-, rfl⟩ | ⟨-, rfl⟩ | ⟨-, rfl⟩ <;> simp

/-! ### C01 -/

/-- **C01.** learn followed by unlearn of the same wordstream restores totals and
records, and neither call raises. -/
theorem C01_unlearn_undoes_learn (c : Clf (Dict W WordInfo) K) (ub : Bool)
    (hub : c.useBigrams = some ub) (hc : Sane c)
    (it it' : SetIter W) (s : Stream W) (isSpam : Bool) :
    let r1 := learn (memory W) it s isSpam c
    let r2 := unlearn (memory W) it' s isSpam r1.2
    r1.1 = .ok () ∧ r2.1 = .ok () ∧
    r2.2.nspam = c.nspam ∧ r2.2.nham = c.nham ∧ ∀ w, r2.2.store.get? w = c.store.get? w := by
  have h1 := learn_memory it s isSpam c hub
  have hub' : (afterAdd it (trainTokens ub s) isSpam c).useBigrams = some ub := hub
  have h2 := unlearn_memory it' s isSpam _ hub'
  have hpos : ¬ total isSpam (afterAdd it (trainTokens ub s) isSpam c) ≤ 0 := by
    have := hc.nspam; have := hc.nham
    cases isSpam <;> simp [total, afterAdd] <;> omega
  rw [if_neg hpos] at h2
  simp only [h1, h2]
  refine ⟨trivial, trivial, ?_, ?_, ?_⟩
  · cases isSpam <;> simp [afterRemove, afterAdd]
  · cases isSpam <;> simp [afterRemove, afterAdd]
  · intro w
    simp only [afterRemove, afterAdd, get?_removeAll, get?_addAll]
    split
    · exact drop1_bump (fun r hr => hc.records w r hr)
    · rfl

example : (demo ℝ).useBigrams = some false ∧ Sane (demo ℝ) := ⟨rfl, demo_sane⟩

/-! ### C02, C03 -/

/-- **C02.** After any valid history from a new classifier, totals and records
are those of the messages learned. -/
theorem C02_counts_are_ledger (F : FloatOps K) (ub : Bool) (calls : List (Call W)) (L : Ledger W)
    (hv : Valid ub 0 calls L) :
    let c := (exec F (memory W) (Clf.new ub Dict.empty) calls).2
    c.nspam = spamTotal L ∧ c.nham = hamTotal L ∧ ∀ w, c.store.get? w = recordOf L w := by
  obtain ⟨h, -⟩ := exec_valid F hv (Clf.new ub Dict.empty) (represents_new ub)
    (coherent_of_empty F _ rfl)
  exact ⟨h.nspam, h.nham, h.info⟩

/-- A training call of a history. -/
def IsTraining : Call W → Prop
  | .learn .. => True
  | .unlearn .. => True
  | _ => False

/-- **C02**, second half: no training call of a valid history raises. -/
theorem C02_training_does_not_raise (F : FloatOps K) (ub : Bool) (calls rest : List (Call W))
    (call : Call W) (L : Ledger W) (hcall : IsTraining call)
    (hv : Valid ub 0 (calls ++ call :: rest) L) :
    (runCall F (memory W) (exec F (memory W) (Clf.new ub Dict.empty) calls).2 call).1 = .done := by
  have key : ∀ (calls : List (Call W)) (L0 L : Ledger W) (c : Clf (Dict W WordInfo) K),
      Valid ub L0 (calls ++ call :: rest) L → Represents L0 ub c → Coherent F c →
      (runCall F (memory W) (exec F (memory W) c calls).2 call).1 = .done := by
    intro calls
    induction calls with
    | nil =>
      intro L0 L c hv hr hk
      simp only [List.nil_append] at hv
      cases hv with
      | @learn _ _ it s b _ hv => simp [exec, runCall, learn_memory it s b c hr.ub, Outcome.ofUnit]
      | @unlearn _ _ it s b _ hm hv =>
        have hc' : Represents (msgOf ub s b ::ₘ L0.erase (msgOf ub s b)) ub c := by
          rw [Multiset.cons_erase hm]; exact hr
        simp only [exec, runCall, unlearn_memory it s b c hr.ub]
        rw [if_neg (total_pos hc')]
        rfl
      | spamprob hv => exact hcall.elim
      | probability hv => exact hcall.elim
    | cons a calls ih =>
      intro L0 L c hv hr hk
      have split : ∃ L1, Valid ub L0 [a] L1 ∧ Valid ub L1 (calls ++ call :: rest) L := by
        simp only [List.cons_append] at hv
        cases hv with
        | learn hv => exact ⟨_, .learn (.nil _), hv⟩
        | unlearn hm hv => exact ⟨_, .unlearn hm (.nil _), hv⟩
        | spamprob hv => exact ⟨_, .spamprob (.nil _), hv⟩
        | probability hv => exact ⟨_, .probability (.nil _), hv⟩
      obtain ⟨L1, ha, hv⟩ := split
      obtain ⟨h1, h2⟩ := exec_valid F ha c hr hk
      exact ih L1 L _ hv h1 h2
  exact key calls 0 L _ hv (represents_new ub) (coherent_of_empty F _ rfl)

/-- A valid history: learn a spam twice and a ham once, score, unlearn the spam
once. -/
example : Valid (W := String) false 0
    [.learn .dedup (.list ["cheap", "pills"]) true,
     .learn .revDedup (.iterator ["pills", "cheap", "pills"]) true,
     .learn .dedup (.list ["lunch"]) false,
     .spamprob .dedup (.list ["cheap"]) true,
     .unlearn .dedup (.list ["cheap", "pills"]) true]
    {({"cheap", "pills"}, true), ({"lunch"}, false)} := by
  have e1 : msgOf (W := String) false (.list ["cheap", "pills"]) true = ({"cheap", "pills"}, true) := by
    decide
  have e2 : msgOf (W := String) false (.iterator ["pills", "cheap", "pills"]) true =
      ({"cheap", "pills"}, true) := by decide
  have e3 : msgOf (W := String) false (.list ["lunch"]) false = ({"lunch"}, false) := by decide
  refine .learn (.learn (.learn (.spamprob (.unlearn ?_ ?_))))
  · rw [e1, e2, e3]; decide
  · rw [e1, e2, e3]
    have : (({"lunch"}, false) ::ₘ ({"cheap", "pills"}, true) ::ₘ ({"cheap", "pills"}, true) ::ₘ
        (0 : Ledger String)).erase ({"cheap", "pills"}, true) =
        {({"cheap", "pills"}, true), ({"lunch"}, false)} := by decide
    rw [this]; exact .nil _

/-- **C02**, the named methods: `learn_spam` counts one spam more for every token of
the message, `learn_ham` one ham, and nothing else; `unlearn_spam` and `unlearn_ham`
of the same message take back exactly this. -/
theorem C02_named (c : Clf (Dict W WordInfo) K) (hub : c.useBigrams = some false) (hc : Sane c)
    (it it' : SetIter W) (s : Stream W) :
    (∃ d e, learnSpam (memory W) it s c = (.ok (), d) ∧ d.nspam = c.nspam + 1 ∧ d.nham = c.nham ∧
      (∀ w ∈ s.items, d.store.get? w = some (match c.store.get? w with
        | some r => ⟨r.spamcount + 1, r.hamcount⟩
        | none => ⟨1, 0⟩)) ∧
      (∀ w, w ∉ s.items → d.store.get? w = c.store.get? w) ∧
      unlearnSpam (memory W) it' s d = (.ok (), e) ∧ e.nspam = c.nspam ∧ e.nham = c.nham ∧
      ∀ w, e.store.get? w = c.store.get? w) ∧
    (∃ d e, learnHam (memory W) it s c = (.ok (), d) ∧ d.nspam = c.nspam ∧ d.nham = c.nham + 1 ∧
      (∀ w ∈ s.items, d.store.get? w = some (match c.store.get? w with
        | some r => ⟨r.spamcount, r.hamcount + 1⟩
        | none => ⟨0, 1⟩)) ∧
      (∀ w, w ∉ s.items → d.store.get? w = c.store.get? w) ∧
      unlearnHam (memory W) it' s d = (.ok (), e) ∧ e.nspam = c.nspam ∧ e.nham = c.nham ∧
      ∀ w, e.store.get? w = c.store.get? w) := by
  refine ⟨?_, ?_⟩
  · have h := C01_unlearn_undoes_learn c false hub hc it it' s true
    rw [learn_memory it s true c hub] at h
    refine ⟨afterAdd it (trainTokens false s) true c, _, learn_memory it s true c hub, by simp [afterAdd],
      by simp [afterAdd], ?_, ?_, Prod.ext h.2.1 rfl, h.2.2⟩
    · intro w hw
      simp only [afterAdd, get?_addAll]
      rw [if_pos (show w ∈ trainTokens false s from hw)]
      cases c.store.get? w <;> rfl
    · intro w hw
      simp only [afterAdd, get?_addAll]
      rw [if_neg (show w ∉ trainTokens false s from hw)]
  · have h := C01_unlearn_undoes_learn c false hub hc it it' s false
    rw [learn_memory it s false c hub] at h
    refine ⟨afterAdd it (trainTokens false s) false c, _, learn_memory it s false c hub, by simp [afterAdd],
      by simp [afterAdd], ?_, ?_, Prod.ext h.2.1 rfl, h.2.2⟩
    · intro w hw
      simp only [afterAdd, get?_addAll]
      rw [if_pos (show w ∈ trainTokens false s from hw)]
      cases c.store.get? w <;> rfl
    · intro w hw
      simp only [afterAdd, get?_addAll]
      rw [if_neg (show w ∉ trainTokens false s from hw)]

/-- **C02**, the named methods do what `learn` and `unlearn` do, in every mode and
with every storage. -/
theorem C02_named_alias {σ : Type} (B : Backend σ W) (it : SetIter W) (s : Stream W) (c : Clf σ K) :
    learnSpam B it s c = learn B it s true c ∧ learnHam B it s c = learn B it s false c ∧
    unlearnSpam B it s c = unlearn B it s true c ∧ unlearnHam B it s c = unlearn B it s false c :=
  ⟨rfl, rfl, rfl, rfl⟩

example : (demo ℝ).useBigrams = some false ∧ Sane (demo ℝ) := ⟨rfl, demo_sane⟩

/-- **C03**, counts: histories leaving the same messages learned give the same
totals and records (whatever the order of the calls, and whatever was learned
and unlearned in between). -/
theorem C03_order_independent_counts (F : FloatOps K) (ub : Bool) (calls calls' : List (Call W))
    (L : Ledger W) (hv : Valid ub 0 calls L) (hv' : Valid ub 0 calls' L) :
    let c := (exec F (memory W) (Clf.new ub Dict.empty) calls).2
    let c' := (exec F (memory W) (Clf.new ub Dict.empty) calls').2
    c.nspam = c'.nspam ∧ c.nham = c'.nham ∧ ∀ w, c.store.get? w = c'.store.get? w := by
  obtain ⟨h1, h2, h3⟩ := C02_counts_are_ledger F ub calls L hv
  obtain ⟨h1', h2', h3'⟩ := C02_counts_are_ledger F ub calls' L hv'
  exact ⟨h1.trans h1'.symm, h2.trans h2'.symm, fun w => (h3 w).trans (h3' w).symm⟩

/-! ### C04 -/

/-- **C04.** In unigram mode wordstreams with the same set of tokens train
alike: same outcome, same totals, same records. -/
theorem C04_only_the_token_set (c : Clf (Dict W WordInfo) K) (hub : c.useBigrams = some false)
    (it it' : SetIter W) (s s' : Stream W) (hs : ∀ w, w ∈ s.items ↔ w ∈ s'.items) (isSpam : Bool) :
    (let r := learn (memory W) it s isSpam c
     let r' := learn (memory W) it' s' isSpam c
     r.1 = r'.1 ∧ r.2.nspam = r'.2.nspam ∧ r.2.nham = r'.2.nham ∧
       ∀ w, r.2.store.get? w = r'.2.store.get? w) ∧
    (let r := unlearn (memory W) it s isSpam c
     let r' := unlearn (memory W) it' s' isSpam c
     r.1 = r'.1 ∧ r.2.nspam = r'.2.nspam ∧ r.2.nham = r'.2.nham ∧
       ∀ w, r.2.store.get? w = r'.2.store.get? w) := by
  simp only [learn_memory _ _ _ c hub, unlearn_memory _ _ _ c hub]
  constructor
  · refine ⟨trivial, rfl, rfl, fun w => ?_⟩
    simp [afterAdd, get?_addAll, trainTokens, hs]
  · split
    · exact ⟨rfl, rfl, rfl, fun _ => rfl⟩
    · refine ⟨rfl, rfl, rfl, fun w => ?_⟩
      simp [afterRemove, get?_removeAll, trainTokens, hs]

example : ∀ w, w ∈ (Stream.list ["a", "b", "a"]).items ↔ w ∈ (Stream.iterator ["b", "a"]).items := by
  simp [Stream.items, or_comm]

/-! ### C05, C06 -/

/-- **C05**, guard: unlearn raises ValueError exactly when the total of the class
is not positive, and then leaves totals and records alone; otherwise it
returns. -/
theorem C05_unlearn_guard (c : Clf (Dict W WordInfo) K) (ub : Bool) (hub : c.useBigrams = some ub)
    (it : SetIter W) (s : Stream W) (isSpam : Bool) :
    let r := unlearn (memory W) it s isSpam c
    let tot := if isSpam then c.nspam else c.nham
    (tot ≤ 0 → r.1 = .error .valueError ∧ r.2.nspam = c.nspam ∧ r.2.nham = c.nham ∧
      r.2.store = c.store) ∧
    (0 < tot → r.1 = .ok () ∧
      r.2.nspam = (if isSpam then c.nspam - 1 else c.nspam) ∧
      r.2.nham = (if isSpam then c.nham else c.nham - 1)) := by
  simp only [unlearn_memory it s isSpam c hub]
  constructor
  · intro h
    rw [if_pos (by exact h)]
    exact ⟨rfl, rfl, rfl, rfl⟩
  · intro h
    rw [if_neg (by unfold total; omega)]
    exact ⟨rfl, rfl, rfl⟩

/-- helper: every single call keeps the object sane -/
theorem sane_runCall (F : FloatOps K) (c : Clf (Dict W WordInfo) K) (hc : Sane c) (hk : Coherent F c)
    {ub : Bool} (hub : c.useBigrams = some ub) (call : Call W) :
    Sane (runCall F (memory W) c call).2 ∧ Coherent F (runCall F (memory W) c call).2 ∧
    (runCall F (memory W) c call).2.useBigrams = some ub := by
  cases call with
  | learn it s b =>
    simp only [runCall, learn_memory it s b c hub]
    refine ⟨⟨?_, ?_, ?_⟩, coherent_of_empty F _ rfl, hub⟩
    · have := hc.nspam; cases b <;> simp [afterAdd] <;> omega
    · have := hc.nham; cases b <;> simp [afterAdd] <;> omega
    · intro w r hr
      simp only [afterAdd, get?_addAll] at hr
      split at hr
      · cases hr
        cases ho : c.store.get? w with
        | none => cases b <;> simp [bump, WordInfo.new]
        | some r0 =>
          have := hc.records w r0 ho
          cases b <;> simp [bump] <;> omega
      · exact hc.records w r hr
  | unlearn it s b =>
    simp only [runCall, unlearn_memory it s b c hub]
    split
    · exact ⟨⟨hc.nspam, hc.nham, hc.records⟩, coherent_of_empty F _ rfl, hub⟩
    · rename_i ht
      refine ⟨⟨?_, ?_, ?_⟩, coherent_of_empty F _ rfl, hub⟩
      · have := hc.nspam; cases b <;> simp [afterRemove] <;> simp [total] at ht <;> omega
      · have := hc.nham; cases b <;> simp [afterRemove] <;> simp [total] at ht <;> omega
      · intro w r hr
        simp only [afterRemove, get?_removeAll] at hr
        split at hr
        · cases ho : c.store.get? w with
          | none => rw [ho] at hr; simp [drop1] at hr
          | some r0 =>
            have h0 := hc.records w r0 ho
            rw [ho] at hr
            simp only [drop1] at hr
            split at hr
            · cases hr
            · rename_i hnz
              cases hr
              have : 0 ≤ (dec1 b r0).spamcount ∧ 0 ≤ (dec1 b r0).hamcount := by
                cases b <;> simp only [dec1] <;> split <;> (try split) <;> simp_all <;> omega
              omega
        · exact hc.records w r hr
  | spamprob it s ev =>
    obtain ⟨-, h2, h3, h4, h5, h6⟩ := spamprob_memory (F := F) c hk it s ev
    simp only [runCall]
    exact ⟨⟨by rw [h4]; exact hc.nspam, by rw [h5]; exact hc.nham, by rw [h3]; exact hc.records⟩,
      h2, by rw [h6, hub]⟩
  | probability r =>
    obtain ⟨-, h2⟩ := computes_probability (F := F) (Inv := fun d => d = c.store)
      (ub := c.useBigrams) (nspam := c.nspam) (nham := c.nham) r c ⟨hk, rfl, rfl, rfl, rfl⟩
    simp only [runCall]
    exact ⟨⟨by rw [h2.nspam]; exact hc.nspam, by rw [h2.nham]; exact hc.nham,
      by rw [h2.inv]; exact hc.records⟩, h2.coherent, by rw [h2.ub, hub]⟩

/-- helper: so does every history -/
theorem sane_exec (F : FloatOps K) {ub : Bool} (calls : List (Call W)) :
    ∀ c : Clf (Dict W WordInfo) K, Sane c → Coherent F c → c.useBigrams = some ub →
      Sane (exec F (memory W) c calls).2 ∧ Coherent F (exec F (memory W) c calls).2 ∧
      (exec F (memory W) c calls).2.useBigrams = some ub := by
  induction calls with
  | nil => intro c h1 h2 h3; exact ⟨h1, h2, h3⟩
  | cons call rest ih =>
    intro c h1 h2 h3
    obtain ⟨a, b, d⟩ := sane_runCall F c h1 h2 h3 call
    exact ih _ a b d

theorem sane_new (ub : Bool) : Sane (Clf.new ub Dict.empty : Clf (Dict W WordInfo) K) :=
  ⟨le_rfl, le_rfl, by intro w r h; simp [Clf.new] at h⟩

/-- **C05**, second half: nothing ever becomes negative, in any history from a
new classifier, valid or not. -/
theorem C05_never_negative (F : FloatOps K) (ub : Bool) (calls : List (Call W)) :
    let c := (exec F (memory W) (Clf.new ub Dict.empty) calls).2
    0 ≤ c.nspam ∧ 0 ≤ c.nham ∧
      ∀ w r, c.store.get? w = some r → 0 ≤ r.spamcount ∧ 0 ≤ r.hamcount := by
  obtain ⟨h, -, -⟩ := sane_exec F (ub := ub) calls (Clf.new ub Dict.empty) (sane_new ub)
    (coherent_of_empty F _ rfl) rfl
  exact ⟨h.nspam, h.nham, fun w r hr => ⟨(h.records w r hr).1, (h.records w r hr).2.1⟩⟩

/-- **C06.** No history from a new classifier, valid or not, leaves a record with
two zeros. -/
theorem C06_no_dead_records (F : FloatOps K) (ub : Bool) (calls : List (Call W)) :
    let c := (exec F (memory W) (Clf.new ub Dict.empty) calls).2
    ∀ w r, c.store.get? w = some r → ¬ (r.spamcount = 0 ∧ r.hamcount = 0) := by
  obtain ⟨h, -, -⟩ := sane_exec F (ub := ub) calls (Clf.new ub Dict.empty) (sane_new ub)
    (coherent_of_empty F _ rfl) rfl
  intro c w r hr
  have := (h.records w r hr).2.2
  omega

/-- **C06**, second half: unlearning the only message with a word removes the
word from the database (`wordinfo` no longer lists it). -/
theorem C06_last_occurrence_removed (c : Clf (Dict W WordInfo) K) (ub : Bool)
    (hub : c.useBigrams = some ub) (it : SetIter W) (s : Stream W) (isSpam : Bool) (w : W)
    (hw : w ∈ trained ub s)
    (hr : c.store.get? w = some (if isSpam then ⟨1, 0⟩ else ⟨0, 1⟩))
    (hpos : 0 < if isSpam then c.nspam else c.nham) :
    w ∉ (unlearn (memory W) it s isSpam c).2.store.keys := by
  rw [← Dict.get?_eq_none_iff, unlearn_memory it s isSpam c hub,
    if_neg (by unfold total; omega)]
  simp only [afterRemove, get?_removeAll, trainTokens_eq, if_pos hw, hr]
  cases isSpam <;> simp [drop1, dec1]

example : "pills" ∈ trained false (Stream.list ["pills"]) ∧
    (demo ℝ).store.get? "pills" = some (if true then ⟨1, 0⟩ else ⟨0, 1⟩) ∧
    0 < (if true then (demo ℝ).nspam else (demo ℝ).nham) := by
  refine ⟨by simp [trained], by decide, by simp [demo]⟩

/-! ### C08, C09 -/

/-- **C08.** After any history of training and scoring calls, any further call
has the outcome it would have with an empty probability cache, and leaves the
same totals and records. -/
theorem C08_cache_invisible (F : FloatOps K) (ub : Bool) (calls : List (Call W)) (call : Call W) :
    let c := (exec F (memory W) (Clf.new ub Dict.empty) calls).2
    let c0 := { c with probcache := Dict.empty }
    (runCall F (memory W) c call).1 = (runCall F (memory W) c0 call).1 ∧
    (runCall F (memory W) c call).2.store = (runCall F (memory W) c0 call).2.store ∧
    (runCall F (memory W) c call).2.nspam = (runCall F (memory W) c0 call).2.nspam ∧
    (runCall F (memory W) c call).2.nham = (runCall F (memory W) c0 call).2.nham := by
  obtain ⟨-, hk, hub⟩ := sane_exec F (ub := ub) calls (Clf.new ub Dict.empty) (sane_new ub)
    (coherent_of_empty F _ rfl) rfl
  intro c c0
  have hub0 : c0.useBigrams = some ub := hub
  have hk0 : Coherent F c0 := coherent_of_empty F _ rfl
  cases call with
  | learn it s b =>
    simp only [runCall, learn_memory it s b c hub, learn_memory it s b c0 hub0]
    exact ⟨trivial, rfl, rfl, rfl⟩
  | unlearn it s b =>
    simp only [runCall, unlearn_memory it s b c hub, unlearn_memory it s b c0 hub0]
    have : total b c0 = total b c := rfl
    rw [this]
    split <;> exact ⟨rfl, rfl, rfl, rfl⟩
  | spamprob it s ev =>
    obtain ⟨h1, -, h3, h4, h5, -⟩ := spamprob_memory (F := F) c hk it s ev
    obtain ⟨h1', -, h3', h4', h5', -⟩ := spamprob_memory (F := F) c0 hk0 it s ev
    simp only [runCall]
    rw [h1, h1', h3, h3', h4, h4', h5, h5']
    exact ⟨rfl, rfl, rfl, rfl⟩
  | probability r =>
    obtain ⟨h1, h2⟩ := computes_probability (F := F) (Inv := fun d => d = c.store)
      (ub := c.useBigrams) (nspam := c.nspam) (nham := c.nham) r c ⟨hk, rfl, rfl, rfl, rfl⟩
    obtain ⟨h1', h2'⟩ := computes_probability (F := F) (Inv := fun d => d = c0.store)
      (ub := c0.useBigrams) (nspam := c0.nspam) (nham := c0.nham) r c0 ⟨hk0, rfl, rfl, rfl, rfl⟩
    simp only [runCall]
    rw [h1, h1', h2.inv, h2'.inv, h2.nspam, h2'.nspam, h2.nham, h2'.nham]
    exact ⟨rfl, rfl, rfl, rfl⟩

/-- **C08**, value: probability(record) after any history is the fresh
computation from the current totals. -/
theorem C08_probability_is_fresh (F : FloatOps K) (ub : Bool) (calls : List (Call W)) (r : WordInfo) :
    let c := (exec F (memory W) (Clf.new ub Dict.empty) calls).2
    (probability F r c).1 = freshProbability F c.nspam c.nham r := by
  obtain ⟨-, hk, -⟩ := sane_exec F (ub := ub) calls (Clf.new ub Dict.empty) (sane_new ub)
    (coherent_of_empty F _ rfl) rfl
  exact (computes_probability (F := F) (Inv := fun _ => True) r _ ⟨hk, trivial, rfl, rfl, rfl⟩).1

/-- The cache is really used: a second query does not recompute (the stored value
is found in the cache), so C08 is not about an unused cache. -/
example (r : WordInfo) (p : K) :
    cacheGet (cacheSet Dict.empty r p) r = some p := by
  rw [cacheGet_cacheSet, if_pos rfl]

/-- helper: a property of states kept by every record lookup is kept by scoring -/
theorem spamprob_frame {σ : Type} (F : FloatOps K) (B : Backend σ W) (P : Clf σ K → Prop)
    (hget : ∀ w c, P c → P (onStore (B.get w) c).2)
    (hcache : ∀ c pc, P c → P { c with probcache := pc })
    (it : SetIter W) (s : Stream W) (ev : Bool) (c : Clf σ K) (hc : P c) :
    P (spamprob F B it s ev c).2 := by
  have bind : ∀ {α β : Type} (m : M (Clf σ K) α) (f : α → M (Clf σ K) β),
      (∀ c, P c → P (m c).2) → (∀ a c, P c → P (f a c).2) → ∀ c, P c → P ((m >>= f) c).2 := by
    intro α β m f hm hf c hc
    rw [M.bind_run]
    have := hm c hc
    cases h : m c with
    | mk r c' =>
      rw [h] at this
      cases r with
      | error e => exact this
      | ok a => exact hf a c' this
  have hprob : ∀ r c, P c → P (probability F r c).2 := by
    intro r c hc
    unfold probability
    split
    · exact hc
    · split
      · exact hc
      · exact hcache _ _ hc
  have hdist : ∀ w c, P c → P (wordDistanceGet F B w c).2 := by
    intro w c hc
    unfold wordDistanceGet
    refine bind _ _ (hget w) (fun o => ?_) c hc
    refine bind _ _ (fun c hc => ?_) (fun p c hc => hc)
    cases o with
    | none => exact hc
    | some r => exact hprob r c hc
  have hmap : ∀ (l : List W) c, P c → P (M.mapAll (wordDistanceGet F B) l c).2 := by
    intro l
    induction l with
    | nil => intro c hc; exact hc
    | cons x xs ih =>
      intro c hc
      exact bind _ _ (hdist x) (fun a => bind _ _ ih (fun b c hc => hc)) c hc
  have hcons : ∀ w ix seen raw c, P c → P (considerClue F B w ix seen raw c).2 := by
    intro w ix seen raw c hc
    unfold considerClue
    split
    · exact hc
    · refine bind _ _ (hdist w) (fun t c hc => ?_) c hc
      split <;> exact hc
  have hfill : ∀ (l : List W) i last seen raw c, P c → P (fillRaw F B i last l seen raw c).2 := by
    intro l
    induction l with
    | nil => intro i last seen raw c hc; exact hc
    | cons x xs ih =>
      intro i last seen raw c hc
      unfold fillRaw
      refine bind _ _ (hcons _ _ _ _) (fun st => bind _ _ (fun c hc => ?_) (fun st => ih _ _ _ _)) c hc
      unfold considerPair
      split
      · exact hc
      · exact hcons _ _ _ _ _ hc
  have hclues : ∀ c, P c → P (getClues F B it s c).2 := by
    intro c hc
    unfold getClues
    refine bind _ _ (fun c hc => hc) (fun c0 c hc => ?_) c hc
    match c0.useBigrams with
    | none => exact hc
    | some true => exact bind _ _ (hfill _ _ _ _ _) (fun _ c hc => hc) c hc
    | some false => exact bind _ _ (hmap _) (fun _ c hc => hc) c hc
  unfold spamprob
  refine bind _ _ hclues (fun clues c hc => ?_) c hc
  cases combine F (clues.map (·.prob)) with
  | error e => exact hc
  | ok v => simp only; split <;> exact hc

/-- **C09.** spamprob leaves the records, the totals and the mode alone, whatever
the state (even with an incoherent cache) and whether it returns or raises. -/
theorem C09_scoring_does_not_train (F : FloatOps K) (c : Clf (Dict W WordInfo) K) (it : SetIter W)
    (s : Stream W) (ev : Bool) :
    let c' := (spamprob F (memory W) it s ev c).2
    c'.store = c.store ∧ c'.nspam = c.nspam ∧ c'.nham = c.nham ∧ c'.useBigrams = c.useBigrams := by
  refine spamprob_frame F (memory W) (fun c' => c'.store = c.store ∧ c'.nspam = c.nspam ∧
    c'.nham = c.nham ∧ c'.useBigrams = c.useBigrams) ?_ ?_ it s ev c ⟨rfl, rfl, rfl, rfl⟩
  · intro w c' h; exact h
  · intro c' pc h; exact h

/-! ### C21, C22 -/

/-- helper -/
theorem dropLast_eq_zip {α : Type} : ∀ l : List α, l.dropLast = (l.zip l.tail).map Prod.fst
  | [] => rfl
  | [_] => rfl
  | a :: b :: t => by
    have := dropLast_eq_zip (b :: t)
    simp only [List.tail_cons] at this
    simp [this]

/-- **C21** (partial; the full claim, that every token and every adjacent pair is
trained, is refuted below).  In bigram mode, learning a list changes exactly the
records of the tokens other than the last position and of the adjacent pairs. -/
theorem C21_bigram_training_partial (c : Clf (Dict W WordInfo) K) (hub : c.useBigrams = some true)
    (it : SetIter W) (ws : List W) (isSpam : Bool) (w : W) :
    (learn (memory W) it (.list ws) isSpam c).2.store.get? w =
      if w ∈ ws.dropLast ∨ ∃ p ∈ ws.zip ws.tail, w = BigramFormat.bi p.1 p.2 then
        some (let r := (c.store.get? w).getD ⟨0, 0⟩
          if isSpam then ⟨r.spamcount + 1, r.hamcount⟩ else ⟨r.spamcount, r.hamcount + 1⟩)
      else c.store.get? w := by
  have hmem : w ∈ trainTokens true (.list ws) ↔
      w ∈ ws.dropLast ∨ ∃ p ∈ ws.zip ws.tail, w = BigramFormat.bi p.1 p.2 := by
    have h1 : w ∈ ws.dropLast ↔ ∃ p ∈ ws.zip ws.tail, w = p.1 := by
      have hd : ws.dropLast = (ws.zip ws.tail).map Prod.fst := by
        exact dropLast_eq_zip ws
      rw [hd, List.mem_map]
      constructor
      · rintro ⟨p, hp, rfl⟩; exact ⟨p, hp, rfl⟩
      · rintro ⟨p, hp, rfl⟩; exact ⟨p, hp, rfl⟩
    rw [trainTokens_eq, h1]
    simp only [trained, if_true, List.mem_flatMap, List.mem_cons, List.not_mem_nil, or_false]
    constructor
    · rintro ⟨p, hp, h | h⟩
      · exact .inl ⟨p, hp, h⟩
      · exact .inr ⟨p, hp, h⟩
    · rintro (⟨p, hp, h⟩ | ⟨p, hp, h⟩)
      · exact ⟨p, hp, .inl h⟩
      · exact ⟨p, hp, .inr h⟩
  rw [learn_memory it _ isSpam c hub]
  simp only [afterAdd, get?_addAll, hmem]
  rfl

/-- The documented claim of C21: learning a list in bigram mode trains each of
its tokens. -/
def C21Claim (W K : Type) [LinearOrder W] [BigramFormat W] : Prop :=
  ∀ (it : SetIter W) (ws : List W) (w : W), w ∈ ws →
    ∃ r, (learn (memory W) it (.list ws) true (Clf.new true Dict.empty : Clf (Dict W WordInfo) K)).2.store.get? w
      = some r

/-- **C21**, refutation: a one-token message trains nothing (and the message
total still grows). -/
theorem C21_claim_false : ¬ C21Claim String K := by
  intro h
  obtain ⟨r, hr⟩ := h .dedup ["hello"] "hello" (by simp)
  rw [C21_bigram_training_partial _ rfl] at hr
  simp [Clf.new] at hr

/-- For every list ending in a token that occurs nowhere else, that token is not
trained. -/
theorem C21_last_token_lost (c : Clf (Dict W WordInfo) K) (hub : c.useBigrams = some true)
    (it : SetIter W) (ws : List W) (w : W) (isSpam : Bool) (hw : w ∉ ws)
    (hbi : ∀ a b, w ≠ BigramFormat.bi a b) :
    (learn (memory W) it (.list (ws ++ [w])) isSpam c).2.store.get? w = c.store.get? w := by
  rw [C21_bigram_training_partial c hub it (ws ++ [w]) isSpam w, if_neg]
  rintro (h | ⟨p, -, h⟩)
  · rw [List.dropLast_concat] at h; exact hw h
  · exact hbi _ _ h

example : "c" ∉ ["a", "b"] ∧ ∀ a b : String, "c" ≠ BigramFormat.bi a b := by
  refine ⟨by decide, fun a b h => ?_⟩
  have : "c".toList = ("bi:" ++ a ++ " " ++ b).toList := congrArg String.toList h
  simp [String.toList_append] at this

/-- **C22** (partial; the full claim is refuted below).  The tokens trained in
bigram mode from a one-shot iterator, by position. -/
theorem C22_iterator_training_partial (c : Clf (Dict W WordInfo) K) (hub : c.useBigrams = some true)
    (it : SetIter W) (ws : List W) (isSpam : Bool) (w : W) :
    (learn (memory W) it (.iterator ws) isSpam c).2.store.get? w =
      if w ∈ trained true (.iterator ws) then
        some (let r := (c.store.get? w).getD ⟨0, 0⟩
          if isSpam then ⟨r.spamcount + 1, r.hamcount⟩ else ⟨r.spamcount, r.hamcount + 1⟩)
      else c.store.get? w := by
  rw [learn_memory it _ isSpam c hub]
  simp only [afterAdd, get?_addAll, trainTokens_eq]
  rfl

/-- The claim of C22 in bigram mode: a list and an iterator over it train the
same records. -/
def C22Claim (W K : Type) [LinearOrder W] [BigramFormat W] : Prop :=
  ∀ (it : SetIter W) (ws : List W) (w : W),
    (learn (memory W) it (.list ws) true (Clf.new true Dict.empty : Clf (Dict W WordInfo) K)).2.store.get? w =
    (learn (memory W) it (.iterator ws) true (Clf.new true Dict.empty : Clf (Dict W WordInfo) K)).2.store.get? w

/-- **C22**, refutation: from an iterator over three tokens nothing is trained at
all. -/
theorem C22_claim_false : ¬ C22Claim String K := by
  intro h
  have h1 := h .dedup ["a", "b", "c"] "a"
  rw [C21_bigram_training_partial _ rfl, C22_iterator_training_partial _ rfl] at h1
  simp [Clf.new, trained] at h1

/-- **C22**, unigram half: a list and an iterator over the same items do train
the same records. -/
theorem C22_unigram_same (c : Clf (Dict W WordInfo) K) (hub : c.useBigrams = some false)
    (it it' : SetIter W) (ws : List W) (isSpam : Bool) (w : W) :
    (learn (memory W) it (.list ws) isSpam c).2.store.get? w =
    (learn (memory W) it' (.iterator ws) isSpam c).2.store.get? w :=
  (C04_only_the_token_set c hub it it' (.list ws) (.iterator ws) (fun _ => Iff.rfl) isSpam).1.2.2.2 w

end Sb.Props
