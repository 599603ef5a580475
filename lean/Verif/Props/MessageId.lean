import Verif.Model.Message
import Verif.Model.Slurping
import Mathlib.Tactic.NormNum
import Mathlib.Tactic.Linarith
import Mathlib.Tactic.Positivity
import Mathlib.Tactic.FieldSimp
import Mathlib.Algebra.Order.Field.Power

/-
Properties C35 (message ids) and C36 (classification thresholds) of message.py.
-/

namespace Sb.Props
open Sb.Mail Py

/-! ### C35 -/

/-- A client's actions that concern the id. -/
inductive IdOp where
  /-- `m.set_id(a)` -/
  | setId (a : IdArg)
  /-- `m.set_id_from_payload()` -/
  | fromPayload
  /-- any change of the headers -/
  | setHeaders (h : Headers)

/-- The object after an action, whether or not it raises. -/
def IdOp.run (m : Msg) : IdOp → Msg
  | .setId a => (Mail.setId a m).2
  | .fromPayload => (setIdFromPayload m).2
  | .setHeaders h => { m with headers := h }

/-- The two strings that no message may have as id. -/
def Reserved (t : Txt) : Prop := t = txt "Statistics start date" ∨ t = txt "Persistent statistics"

/-- When a call of set_id is accepted, and what it does then. -/
theorem C35_accepted (m m' : Msg) (a : IdArg) :
    setId a m = (.ok (), m') ↔
      ∃ t, a = .str t ∧ ¬ Reserved t ∧
        (m.messageid = none ∨ m.messageid = some [] ∨ m.messageid = some t) ∧
        m' = { m with messageid := some t } := by
  have hch : ∀ t, idChanges m.messageid (.str t) = false ↔
      (m.messageid = none ∨ m.messageid = some [] ∨ m.messageid = some t) := by
    intro t
    cases m.messageid with
    | none => simp [idChanges]
    | some old =>
      by_cases ho : old = []
      · simp [idChanges, ho]
      · by_cases hs : t = old
        · simp [idChanges, hs]
        · simp [idChanges, hs, ho, Ne.symm hs]
  unfold setId
  constructor
  · intro h
    split at h
    · simp at h
    · rename_i hc
      cases a with
      | none => simp at h
      | other => simp at h
      | str t =>
        simp only at h
        split at h
        · simp at h
        · rename_i hr
          simp only [Prod.mk.injEq, true_and] at h
          exact ⟨t, rfl, hr, (hch t).1 (by simpa using hc), h.symm⟩
  · rintro ⟨t, rfl, hr, hid, rfl⟩
    rw [(hch t).2 hid]
    simp only [Bool.false_eq_true, if_false]
    exact if_neg hr

/-- A rejected call raises and leaves the whole object alone; the exception is
ValueError except for an argument of a wrong type on a message without id. -/
theorem C35_rejected (m m' : Msg) (a : IdArg) (e : Err) (h : setId a m = (.error e, m')) :
    m' = m ∧ (e = .valueError ∨
      e = .typeError ∧ a = .other ∧ (m.messageid = none ∨ m.messageid = some [])) := by
  unfold setId at h
  by_cases hc : idChanges m.messageid a = true
  · rw [if_pos hc] at h
    simp only [Prod.mk.injEq, Except.error.injEq] at h
    exact ⟨h.2.symm, .inl h.1.symm⟩
  · rw [if_neg hc] at h
    cases a with
    | none =>
      simp only [Prod.mk.injEq, Except.error.injEq] at h
      exact ⟨h.2.symm, .inl h.1.symm⟩
    | other =>
      simp only [Prod.mk.injEq, Except.error.injEq] at h
      refine ⟨h.2.symm, .inr ⟨h.1.symm, rfl, ?_⟩⟩
      cases hid : m.messageid with
      | none => exact .inl rfl
      | some old => right; simpa [hid, idChanges] using hc
    | str s =>
      simp only at h
      split at h
      · simp only [Prod.mk.injEq, Except.error.injEq] at h
        exact ⟨h.2.symm, .inl h.1.symm⟩
      · simp at h

/-- What set_id_from_payload does: with an acceptable header it sets and returns
the id; with a raw 8-bit header on a message without id it raises TypeError;
otherwise it returns None.  Only in the first case the object changes. -/
theorem C35_from_payload (m : Msg) :
    (∃ t, m.headers.get (txt "X-Spambayes-MailId") = .str t ∧
      setIdFromPayload m = (.ok (some t), { m with messageid := some t })) ∨
    setIdFromPayload m = (.ok none, m) ∨
    ((∃ t, m.headers.get (txt "X-Spambayes-MailId") = .header t) ∧
      setIdFromPayload m = (.error .typeError, m)) := by
  unfold setIdFromPayload
  rw [show txt "X-Spambayes-MailId" = mailIdName from rfl]
  generalize hg : m.headers.get mailIdName = g
  generalize hr : setId (IdArg.ofStored g) m = r
  obtain ⟨r, m'⟩ := r
  cases r with
  | ok u =>
    obtain ⟨t, ht, -, -, hm⟩ := (C35_accepted m m' _).1 hr
    left
    cases g with
    | none => simp [IdArg.ofStored] at ht
    | header s => simp [IdArg.ofStored] at ht
    | str s =>
      simp only [IdArg.ofStored, IdArg.str.injEq] at ht
      subst ht hm
      exact ⟨s, rfl, rfl⟩
  | error e =>
    obtain ⟨rfl, he⟩ := C35_rejected _ _ _ _ hr
    rcases he with rfl | ⟨rfl, ho, -⟩
    · right; left; rfl
    · right; right
      cases g with
      | none => simp [IdArg.ofStored] at ho
      | str s => simp [IdArg.ofStored] at ho
      | header s => exact ⟨⟨s, rfl⟩, rfl⟩

theorem run_messageid (m : Msg) (op : IdOp) :
    (op.run m).messageid = m.messageid ∨
      ∃ t, (op.run m).messageid = some t ∧ ¬ Reserved t ∧
        (m.messageid = none ∨ m.messageid = some [] ∨ m.messageid = some t) := by
  have key : ∀ a, (setId a m).2.messageid = m.messageid ∨
      ∃ t, (setId a m).2.messageid = some t ∧ ¬ Reserved t ∧
        (m.messageid = none ∨ m.messageid = some [] ∨ m.messageid = some t) := by
    intro a
    generalize hr : setId a m = r
    obtain ⟨r, m'⟩ := r
    cases r with
    | ok u =>
      obtain ⟨t, -, h1, h2, rfl⟩ := (C35_accepted m m' _).1 hr
      exact .inr ⟨t, rfl, h1, h2⟩
    | error e => exact .inl (by rw [(C35_rejected _ _ _ _ hr).1])
  cases op with
  | setId a => exact key a
  | setHeaders h => exact .inl rfl
  | fromPayload =>
    have := key (IdArg.ofStored (m.headers.get mailIdName))
    simp only [IdOp.run, setIdFromPayload]
    generalize setId (IdArg.ofStored (m.headers.get mailIdName)) m = r at this
    obtain ⟨r, m'⟩ := r
    cases r with
    | ok u => exact this
    | error e => cases e <;> exact this

/-- Once a message has a non-empty id, nothing changes it. -/
theorem C35_write_once (m : Msg) (id : Txt) (hne : id ≠ []) (h : m.messageid = some id)
    (ops : List IdOp) : (ops.foldl IdOp.run m).messageid = some id := by
  induction ops generalizing m with
  | nil => exact h
  | cons op r ih =>
    refine ih _ ?_
    rcases run_messageid m op with h1 | ⟨t, h1, -, h2⟩
    · rw [h1, h]
    · rcases h2 with h2 | h2 | h2
      · simp [h] at h2
      · simp [h, hne] at h2
      · rw [h1, ← h2, h]

/-- A reserved id is never stored. -/
theorem C35_never_reserved (ops : List IdOp) (t : Txt)
    (h : (ops.foldl IdOp.run Msg.new).messageid = some t) : ¬ Reserved t := by
  have : ∀ (ops : List IdOp) (m : Msg), (∀ t, m.messageid = some t → ¬ Reserved t) →
      ∀ t, (ops.foldl IdOp.run m).messageid = some t → ¬ Reserved t := by
    intro ops
    induction ops with
    | nil => intro m hm t ht; exact hm t ht
    | cons op r ih =>
      intro m hm
      refine ih _ ?_
      intro t ht
      rcases run_messageid m op with h1 | ⟨t', h1, h2, -⟩
      · exact hm t (h1 ▸ ht)
      · rw [h1] at ht; cases ht; exact h2
  exact this ops Msg.new (by simp [Msg.new]) t h

/-- The empty id does not count as set: this is why the theorem asks for a
non-empty one. -/
theorem C35_empty_id_replaced (t : Txt) (h : ¬ Reserved t) :
    ([IdOp.setId (.str []), .setId (.str t)].foldl IdOp.run Msg.new).messageid = some t := by
  have h1 : setId (.str []) Msg.new = (.ok (), { Msg.new with messageid := some [] }) := by decide
  have h2 : setId (.str t) { Msg.new with messageid := some [] } =
      (.ok (), { Msg.new with messageid := some t }) :=
    (C35_accepted _ _ _).2 ⟨t, rfl, h, .inr (.inl rfl), rfl⟩
  simp [IdOp.run, h1, h2]

example : ¬ Reserved (txt "42") := by unfold Reserved; decide
example : ([IdOp.setId (.str (txt "42")), .setId (.str (txt "43")),
    .setHeaders [(txt "x-spambayes-mailid", .str (txt "44"))], .fromPayload,
    .setId .none].foldl IdOp.run Msg.new).messageid = some (txt "42") := by decide

/-! ### C36 -/

/-- A finite IEEE double. -/
def IsDouble (q : ℚ) : Prop := ∃ m e : ℤ, |m| < 2 ^ 53 ∧ -1074 ≤ e ∧ q = m * 2 ^ e

/-- No double lies between a number and the next integer multiple of the spacing. -/
theorem double_gap {q : ℚ} (hq : IsDouble q) {k : ℕ} {n : ℤ}
    (hlow : (2 : ℚ) ^ (52 : ℤ) * 2 ^ (-(k : ℤ)) ≤ q) (hn : q < n * 2 ^ (-(k : ℤ))) :
    q ≤ (n - 1) * 2 ^ (-(k : ℤ)) := by
  obtain ⟨m, e, hm, he, rfl⟩ := hq
  have h2 : (0 : ℚ) < 2 ^ (-(k : ℤ)) := by positivity
  have h2e : (0 : ℚ) < 2 ^ e := by positivity
  have hmq : (m : ℚ) < 2 ^ (53 : ℤ) := by
    have : m < 2 ^ 53 := lt_of_le_of_lt (le_abs_self m) hm
    exact_mod_cast this
  have hek : -(k : ℤ) ≤ e := by
    by_contra hlt
    have h1 : (m : ℚ) * 2 ^ e < 2 ^ (53 : ℤ) * 2 ^ e := by
      exact mul_lt_mul_of_pos_right hmq h2e
    have h3 : (2 : ℚ) ^ (53 : ℤ) * 2 ^ e = 2 ^ (53 + e) := (zpow_add₀ (by norm_num) _ _).symm
    have h4 : (2 : ℚ) ^ (52 : ℤ) * 2 ^ (-(k : ℤ)) = 2 ^ (52 + -(k : ℤ)) :=
      (zpow_add₀ (by norm_num) _ _).symm
    rw [h3] at h1
    rw [h4] at hlow
    have h5 : (2 : ℚ) ^ (53 + e) ≤ 2 ^ (52 + -(k : ℤ)) :=
      zpow_le_zpow_right₀ (by norm_num) (by omega)
    linarith
  obtain ⟨d, hd⟩ : ∃ d : ℕ, e = -(k : ℤ) + d := ⟨(e + k).toNat, by omega⟩
  have hsplit : (2 : ℚ) ^ e = 2 ^ (-(k : ℤ)) * ((2 ^ d : ℤ) : ℚ) := by
    rw [hd, zpow_add₀ (by norm_num)]; push_cast; rw [zpow_natCast]
  have heq : (m : ℚ) * 2 ^ e = ((m * 2 ^ d : ℤ) : ℚ) * 2 ^ (-(k : ℤ)) := by
    rw [hsplit]; push_cast; ring
  rw [heq] at hn ⊢
  have hlt : ((m * 2 ^ d : ℤ) : ℚ) < (n : ℚ) := lt_of_mul_lt_mul_right hn h2.le
  have hlt' : m * 2 ^ d < n := by exact_mod_cast hlt
  have : ((m * 2 ^ d : ℤ) : ℚ) ≤ ((n - 1 : ℤ) : ℚ) := by
    exact_mod_cast (by omega : m * 2 ^ d ≤ n - 1)
  have := mul_le_mul_of_nonneg_right this h2.le
  push_cast at this ⊢
  exact this

/-- The double that a decimal literal in the source stands for: the nearest one. -/
def Literal (x d : ℚ) : Prop := IsDouble d ∧ ∀ e, IsDouble e → |d - x| ≤ |e - x|

theorem literal_iff {x d : ℚ} {k : ℕ} {n : ℤ} (hk : k ≤ 1074) (hn : |n| < 2 ^ 53)
    (h1 : 2 * |n * (2 : ℚ) ^ (-(k : ℤ)) - x| < 2 ^ (-(k : ℤ)))
    (h2 : (2 : ℚ) ^ (52 : ℤ) * 2 ^ (-(k : ℤ)) + |n * (2 : ℚ) ^ (-(k : ℤ)) - x| ≤ x) :
    Literal x d ↔ d = n * 2 ^ (-(k : ℤ)) := by
  have hL : IsDouble (n * 2 ^ (-(k : ℤ))) := ⟨n, -k, hn, by omega, rfl⟩
  have only : ∀ e, IsDouble e → |e - x| ≤ |n * (2 : ℚ) ^ (-(k : ℤ)) - x| → e = n * 2 ^ (-(k : ℤ)) := by
    intro e he hle
    obtain ⟨a1, a2⟩ := abs_le.1 hle
    obtain ⟨b1, b2⟩ := abs_le.1 (le_refl |n * (2 : ℚ) ^ (-(k : ℤ)) - x|)
    have hlow : (2 : ℚ) ^ (52 : ℤ) * 2 ^ (-(k : ℤ)) ≤ e := by linarith
    rcases lt_trichotomy e (n * 2 ^ (-(k : ℤ))) with h | h | h
    · have := double_gap he hlow h
      rw [sub_mul] at this
      linarith
    · exact h
    · have := double_gap (n := n + 1) he hlow (by push_cast; rw [add_mul]; linarith)
      push_cast at this
      rw [add_sub_cancel_right] at this
      linarith
  constructor
  · exact fun h => only d h.1 (h.2 _ hL)
  · rintro rfl
    refine ⟨hL, fun e he => ?_⟩
    by_contra hc
    push Not at hc
    have := only e he hc.le
    rw [this] at hc
    exact lt_irrefl _ hc

theorem literal_ham {d : ℚ} : Literal (1 / 5) d ↔ d = hamCutoff := by
  rw [literal_iff (k := 55) (n := 7205759403792794) (by norm_num) (by norm_num)
    (by rw [abs_of_nonneg (by norm_num)]; norm_num) (by rw [abs_of_nonneg (by norm_num)]; norm_num)]
  rw [show (7205759403792794 : ℤ) * (2 : ℚ) ^ (-((55 : ℕ) : ℤ)) = hamCutoff by norm_num [hamCutoff]]

theorem literal_spam {d : ℚ} : Literal (9 / 10) d ↔ d = spamCutoff := by
  rw [literal_iff (k := 53) (n := 8106479329266893) (by norm_num) (by norm_num)
    (by rw [abs_of_nonneg (by norm_num)]; norm_num) (by rw [abs_of_nonneg (by norm_num)]; norm_num)]
  rw [show (8106479329266893 : ℤ) * (2 : ℚ) ^ (-((53 : ℕ) : ℤ)) = spamCutoff by norm_num [spamCutoff]]

theorem literal_low {d : ℚ} : Literal (5 / 1000) d ↔ d = lowEnd := by
  rw [literal_iff (k := 60) (n := 5764607523034235) (by norm_num) (by norm_num)
    (by rw [abs_of_nonneg (by norm_num)]; norm_num) (by rw [abs_of_nonneg (by norm_num)]; norm_num)]
  rw [show (5764607523034235 : ℤ) * (2 : ℚ) ^ (-((60 : ℕ) : ℤ)) = lowEnd by norm_num [lowEnd]]

theorem literal_high {d : ℚ} : Literal (995 / 1000) d ↔ d = highEnd := by
  rw [literal_iff (k := 53) (n := 8962163258467287) (by norm_num) (by norm_num)
    (by rw [abs_of_nonpos (by norm_num)]; norm_num) (by rw [abs_of_nonpos (by norm_num)]; norm_num)]
  rw [show (8962163258467287 : ℤ) * (2 : ℚ) ^ (-((53 : ℕ) : ℤ)) = highEnd by norm_num [highEnd]]

/-- For doubles, being below the literal 0.2 is being below one fifth. -/
theorem lt_hamCutoff {q : ℚ} (hq : IsDouble q) : q < hamCutoff ↔ q < 1 / 5 := by
  constructor
  · intro h
    by_contra hge
    have h1 := double_gap (k := 55) (n := 7205759403792794) hq
      (by norm_num; linarith) (by norm_num [hamCutoff] at h ⊢; linarith)
    norm_num at h1
    linarith
  · intro h
    have : (1 : ℚ) / 5 < hamCutoff := by norm_num [hamCutoff]
    linarith

/-- For doubles, being above the literal 0.9 is being above nine tenths, the literal
itself excepted. -/
theorem spamCutoff_lt {q : ℚ} (hq : IsDouble q) :
    spamCutoff < q ↔ 9 / 10 < q ∧ q ≠ spamCutoff := by
  constructor
  · intro h
    have : (9 : ℚ) / 10 < spamCutoff := by norm_num [spamCutoff]
    exact ⟨by linarith, ne_of_gt h⟩
  · rintro ⟨h, hne⟩
    by_contra hle
    have hlt : q < spamCutoff := lt_of_le_of_ne (not_lt.1 hle) hne
    have h1 := double_gap (k := 53) (n := 8106479329266893) hq
      (by norm_num; linarith) (by norm_num [spamCutoff] at hlt ⊢; linarith)
    norm_num at h1
    linarith

/-- The classification of every double, NaN and the infinities included; `cut` is the double
written 0.9. -/
theorem C36_thresholds (m : Msg) (p : PyFloat)
    (hp : ∀ q, p = .fin q → IsDouble q) (cut : ℚ) (hcut : Literal (9 / 10) cut) :
    ∃ c, setClassification (.float p) m = (.ok c, { m with c := some c }) ∧
      (c = .ham ↔ p = .negInf ∨ ∃ q, p = .fin q ∧ q < 1 / 5) ∧
      (c = .spam ↔ p = .posInf ∨ ∃ q, p = .fin q ∧ 9 / 10 < q ∧ q ≠ cut) ∧
      (c = .unsure ↔ p = .nan ∨ ∃ q, p = .fin q ∧ 1 / 5 ≤ q ∧ (q ≤ 9 / 10 ∨ q = cut)) := by
  rw [literal_spam.1 hcut]
  refine ⟨clsOf p, rfl, ?_⟩
  cases p with
  | nan => simp [clsOf, PyFloat.lt]
  | posInf => simp [clsOf, PyFloat.lt]
  | negInf => simp [clsOf, PyFloat.lt]
  | fin q =>
    have hd := hp q rfl
    have e1 : PyFloat.lt (.fin q) (.fin hamCutoff) = true ↔ q < 1 / 5 := by
      simp only [PyFloat.lt, decide_eq_true_eq]; exact lt_hamCutoff hd
    have e2 : PyFloat.lt (.fin spamCutoff) (.fin q) = true ↔ 9 / 10 < q ∧ q ≠ spamCutoff := by
      simp only [PyFloat.lt, decide_eq_true_eq]; exact spamCutoff_lt hd
    unfold clsOf
    by_cases h1 : q < 1 / 5
    · rw [if_pos (e1.2 h1)]
      refine ⟨by simpa using h1, ?_, ?_⟩
      · have : ¬ (9 : ℚ) / 10 < q := by linarith
        simp [this]
      · have : ¬ (1 : ℚ) / 5 ≤ q := by linarith
        simp only [reduceCtorEq, PyFloat.fin.injEq, exists_eq_left', this, false_and, or_false]
    · rw [if_neg (fun h => h1 (e1.1 h))]
      by_cases h2 : 9 / 10 < q ∧ q ≠ spamCutoff
      · rw [if_pos (e2.2 h2)]
        refine ⟨by simpa using h1, by simp [h2], ?_⟩
        have : ¬ q ≤ 9 / 10 := by linarith [h2.1]
        simp [this, h2.2]
      · rw [if_neg (fun h => h2 (e2.1 h))]
        refine ⟨by simpa using h1, ?_, ?_⟩
        · simp [h2]
        · have h3 : q ≤ 9 / 10 ∨ q = spamCutoff := by
            by_contra hc
            push Not at hc
            exact h2 hc
          simp only [reduceCtorEq, PyFloat.fin.injEq, exists_eq_left', false_or, true_iff]
          exact ⟨by linarith, h3⟩

/-- ham < unsure < spam -/
def rank : Cls → Nat
  | .ham => 0
  | .unsure => 1
  | .spam => 2

/-- A higher probability never gets a hammier classification. -/
theorem C36_monotone (m : Msg) (p q : PyFloat) (h : p.le q = true) (c d : Cls) (m1 m2 : Msg)
    (hc : setClassification (.float p) m = (.ok c, m1))
    (hd : setClassification (.float q) m = (.ok d, m2)) : rank c ≤ rank d := by
  simp only [setClassification, Prod.mk.injEq, Except.ok.injEq] at hc hd
  obtain ⟨rfl, -⟩ := hc
  obtain ⟨rfl, -⟩ := hd
  have hcut : hamCutoff < spamCutoff := by norm_num [hamCutoff, spamCutoff]
  unfold clsOf
  generalize hamCutoff = x at *
  generalize spamCutoff = y at *
  cases p with
  | nan => simp [PyFloat.le] at h
  | posInf => cases q <;> simp [PyFloat.le, PyFloat.lt, rank] at *
  | negInf => simp [PyFloat.lt, rank]
  | fin a =>
    cases q with
    | nan => simp [PyFloat.le] at h
    | negInf => simp [PyFloat.le] at h
    | posInf =>
      have : ∀ c, rank c ≤ 2 := by intro c; cases c <;> simp [rank]
      simpa [PyFloat.lt, rank] using this _
    | fin b =>
      simp only [PyFloat.le, PyFloat.lt, decide_eq_true_eq] at h ⊢
      split_ifs <;> first | (simp [rank]; done) | (exfalso; linarith)

/-- An enumeration member is taken as it is; anything else (an int, say) is a
ValueError that leaves the object alone. -/
theorem C36_other_arguments (m : Msg) (c : Cls) :
    setClassification (.cls c) m = (.ok c, { m with c := some c }) ∧
    setClassification .other m = (.error .valueError, m) := ⟨rfl, rfl⟩

/-- slurping.is_unsure and set_classification agree except at the two cutoffs and
for NaN. -/
theorem C36_is_unsure (m m' : Msg) (p : PyFloat) (c : Cls) (low high : ℚ)
    (hlow : Literal (1 / 5) low) (hhigh : Literal (9 / 10) high)
    (hc : setClassification (.float p) m = (.ok c, m')) :
    Slurp.isUnsure p = true ↔
      c = .unsure ∧ p ≠ .fin low ∧ p ≠ .fin high ∧ p ≠ .nan := by
  rw [literal_ham.1 hlow, literal_spam.1 hhigh]
  simp only [setClassification, Prod.mk.injEq, Except.ok.injEq] at hc
  obtain ⟨rfl, -⟩ := hc
  have hcut : hamCutoff < spamCutoff := by norm_num [hamCutoff, spamCutoff]
  unfold Slurp.isUnsure clsOf
  cases p with
  | nan => simp [PyFloat.lt]
  | posInf => simp [PyFloat.lt]
  | negInf => simp [PyFloat.lt]
  | fin q =>
    simp only [PyFloat.lt, Bool.and_eq_true, decide_eq_true_eq, ne_eq, PyFloat.fin.injEq,
      reduceCtorEq, not_false_eq_true, and_true]
    constructor
    · rintro ⟨h1, h2⟩
      rw [if_neg (by linarith), if_neg (by linarith)]
      exact ⟨rfl, ne_of_gt h1, ne_of_lt h2⟩
    · rintro ⟨h, h1, h2⟩
      split_ifs at h with h3 h4
      exact ⟨lt_of_le_of_ne (not_lt.1 h3) (Ne.symm h1), lt_of_le_of_ne (not_lt.1 h4) h2⟩

example : IsDouble (1 / 2) := ⟨1, -1, by norm_num, by norm_num, by norm_num⟩
example : Literal (1 / 5) (7205759403792794 / 2 ^ 55) ∧ Literal (9 / 10) (8106479329266893 / 2 ^ 53) :=
  ⟨literal_ham.2 (by norm_num [hamCutoff]), literal_spam.2 (by norm_num [spamCutoff])⟩
example : clsOf (.fin (1 / 8)) = .ham ∧ clsOf (.fin (1 / 2)) = .unsure ∧
    clsOf (.fin (15 / 16)) = .spam := by decide +kernel

end Sb.Props
