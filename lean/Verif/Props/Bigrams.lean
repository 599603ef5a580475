import Verif.Props.Mixed
import Verif.Props.OptionBody
import Verif.Props.Training

/-
Property C98: the words made of two adjacent tokens.  `_enhance_wordstream` says that "a
space should be sufficient as a separator, since spaces aren't in any other tokens, apart
from 'synthetic' ones" and that the prefix avoids conflicts with other tokens.
-/

set_option linter.unusedSectionVars false

namespace Sb.Props
open Sb Py Spec Sb.Strip Sb.Mail Sb.Tokenize

/-- A str without a space. -/
def Spaceless : Tok → Prop
  | .str t => 32 ∉ t
  | .bytes _ => False

/-- The second token directly follows the first one. -/
def Adjacent (x y : Tok) (ws : List Tok) : Prop := ∃ u v, ws = u ++ x :: y :: v

/-- **C98**, the name of a pair: `bi:`, the tokens as Python shows them, and a space
between them. -/
theorem C98_name (x y : Tok) : ∃ u v,
    (BigramFormat.bi x y : Tok) = .str (txt "bi:" ++ u ++ [32] ++ v) ∧
    (∀ t, x = .str t → u = t) ∧ (∀ b, x = .bytes b → u = bytesRepr b) ∧
    (∀ t, y = .str t → v = t) ∧ (∀ b, y = .bytes b → v = bytesRepr b) := by
  refine ⟨showWord x, showWord y, rfl, ?_, ?_, ?_, ?_⟩ <;> rintro _ rfl <;> rfl

/-- helper: a quoted bytes literal shows where it ends -/
theorem reprBytes_prefix {q : Nat} (hq : q = 34 ∨ q = 39) {a b A B : List Nat}
    (h : a.flatMap (reprByte q) ++ q :: A = b.flatMap (reprByte q) ++ q :: B) : a = b ∧ A = B := by
  induction a generalizing b with
  | nil =>
    cases b with
    | nil => exact ⟨rfl, by simpa using h⟩
    | cons c b =>
      rw [List.flatMap_cons, List.append_assoc] at h
      exact absurd h.symm (reprByte_not_quote hq)
  | cons c a ih =>
    cases b with
    | nil =>
      rw [List.flatMap_cons, List.append_assoc] at h
      exact absurd h (reprByte_not_quote hq)
    | cons d b =>
      rw [List.flatMap_cons, List.flatMap_cons, List.append_assoc, List.append_assoc] at h
      obtain ⟨h1, h2⟩ := reprByte_head hq h
      obtain ⟨h3, h4⟩ := ih h2
      exact ⟨by rw [h1, h3], h4⟩

theorem bytesRepr_prefix {a b A B : List Nat} (h : bytesRepr a ++ A = bytesRepr b ++ B) : a = b ∧ A = B := by
  unfold bytesRepr at h
  have hq : ∀ l : List Nat, (if l.contains 39 && !l.contains 34 then 34 else 39) = 34 ∨
      (if l.contains 39 && !l.contains 34 then 34 else 39) = 39 := by
    intro l
    split <;> simp
  have ha := hq a
  revert h ha
  generalize (if a.contains 39 && !a.contains 34 then 34 else 39) = q
  generalize (if b.contains 39 && !b.contains 34 then 34 else 39) = q'
  intro h ha
  simp only [List.cons_append, List.cons.injEq, true_and, List.append_assoc, List.nil_append] at h
  obtain ⟨rfl, h⟩ := h
  exact reprBytes_prefix ha h

theorem space_unique {a b A B : List Nat} (ha : 32 ∉ a) (hb : 32 ∉ b) (h : a ++ 32 :: A = b ++ 32 :: B) :
    a = b ∧ A = B := by
  induction a generalizing b with
  | nil =>
    cases b with
    | nil => exact ⟨rfl, by simpa using h⟩
    | cons c b => simp only [List.nil_append, List.cons_append, List.cons.injEq] at h; simp [← h.1] at hb
  | cons c a ih =>
    cases b with
    | nil => simp only [List.nil_append, List.cons_append, List.cons.injEq] at h; simp [h.1] at ha
    | cons d b =>
      simp only [List.cons_append, List.cons.injEq] at h
      obtain ⟨e1, e2⟩ := ih (fun hx => ha (by simp [hx])) (fun hx => hb (by simp [hx])) h.2
      exact ⟨by rw [h.1, e1], e2⟩

/-- **C98**, bytes, as the tokenizer makes them: different pairs have different names,
even if there are spaces or quotes in the tokens. -/
theorem C98_bytes (x y x' y' : Tok) (hx : IsBytes x) (hy : IsBytes y) (hx' : IsBytes x') (hy' : IsBytes y')
    (h : (BigramFormat.bi x y : Tok) = BigramFormat.bi x' y') : x = x' ∧ y = y' := by
  cases x <;> cases y <;> cases x' <;> cases y' <;> simp only [IsBytes] at *
  have h := Tok.str.inj h
  simp only [showWord, List.append_assoc] at h
  obtain ⟨rfl, h2⟩ := bytesRepr_prefix (List.append_cancel_left h)
  exact ⟨rfl, by rw [bytesRepr_inj (List.append_cancel_left h2)]⟩

/-- **C98**, str: different pairs have different names, if there are no spaces in the
first tokens. -/
theorem C98_str_partial (t u t' u' : Txt) (ht : 32 ∉ t) (ht' : 32 ∉ t')
    (h : (BigramFormat.bi (.str t) (.str u) : Tok) = BigramFormat.bi (.str t') (.str u')) : t = t' ∧ u = u' := by
  have h := Tok.str.inj h
  simp only [showWord, List.append_assoc] at h
  exact space_unique ht ht' (List.append_cancel_left h)

/-- **C98**, a pair is not a token: no bytes and no str without a space is the name of a
pair. -/
theorem C98_not_a_token (x y w : Tok) (hw : IsBytes w ∨ Spaceless w) : (BigramFormat.bi x y : Tok) ≠ w := by
  rintro rfl
  rcases hw with hw | hw
  · exact hw
  · exact hw (by simp [showWord, txt])

/-- **C98**, the full claim: different pairs of tokens have different names. -/
def C98Claim : Prop := ∀ x y x' y' : Tok, (BigramFormat.bi x y : Tok) = BigramFormat.bi x' y' → x = x' ∧ y = y'

/-- **C98** is false for tokens with spaces, of which the tokenizer makes many: the str
"skip:w 10" and "a", and the str "skip:w" and "10 a". -/
theorem C98_claim_false : ¬ C98Claim := by
  intro h
  have := (h (.str (txt "skip:w 10")) (.str (txt "a")) (.str (txt "skip:w")) (.str (txt "10 a")) (by decide)).1
  revert this
  decide

/-- **C98**, nor does it hold for bytes and str together: b'a' and the str "b'a'". -/
theorem C98_mixed (y : Tok) : (BigramFormat.bi (.bytes [97]) y : Tok) = BigramFormat.bi (.str (txt "b'a'")) y := by
  have : bytesRepr [97] = txt "b'a'" := by decide
  change Tok.str (txt "bi:" ++ bytesRepr [97] ++ _ ++ _) = _
  rw [this]
  rfl

theorem mem_zip_tail {x y : Tok} {ws : List Tok} : (x, y) ∈ ws.zip ws.tail ↔ Adjacent x y ws := by
  induction ws with
  | nil => simp [Adjacent]
  | cons a r ih =>
    cases r with
    | nil =>
      simp only [List.tail_cons, List.zip_nil_right, List.not_mem_nil, false_iff]
      rintro ⟨u, v, h⟩
      have := congrArg List.length h
      simp at this
      omega
    | cons b r =>
      rw [List.tail_cons, List.zip_cons_cons, List.mem_cons, Prod.mk.injEq]
      rw [List.tail_cons] at ih
      rw [ih]
      constructor
      · rintro (⟨rfl, rfl⟩ | ⟨u, v, h⟩)
        · exact ⟨[], r, rfl⟩
        · exact ⟨a :: u, v, by rw [h]; rfl⟩
      · rintro ⟨u, v, h⟩
        cases u with
        | nil => simp only [List.nil_append, List.cons.injEq] at h; exact .inl ⟨h.1.symm, h.2.1.symm⟩
        | cons c u => simp only [List.cons_append, List.cons.injEq] at h; exact .inr ⟨u, v, h.2⟩

theorem mem_trained_pair (P : Tok → Prop)
    (hinj : ∀ x y x' y', P x → P y → P x' → P y' → (BigramFormat.bi x y : Tok) = BigramFormat.bi x' y' →
      x = x' ∧ y = y')
    (hno : ∀ x y w, P w → (BigramFormat.bi x y : Tok) ≠ w) {x y : Tok} (hx : P x) (hy : P y) {ws : List Tok}
    (hws : ∀ w ∈ ws, P w) : (BigramFormat.bi x y : Tok) ∈ trained true (.list ws) ↔ Adjacent x y ws := by
  rw [← mem_zip_tail]
  simp only [trained, if_true, List.mem_flatMap, List.mem_cons, List.not_mem_nil, or_false]
  constructor
  · rintro ⟨⟨a, b⟩, hab, h⟩
    have hin : P a ∧ P b := by
      obtain ⟨u, v, e⟩ := mem_zip_tail.1 hab
      exact ⟨hws a (by simp [e]), hws b (by simp [e])⟩
    rcases h with h | h
    · exact absurd h (hno _ _ _ hin.1)
    · obtain ⟨rfl, rfl⟩ := hinj _ _ _ _ hx hy hin.1 hin.2 h
      exact hab
  · exact fun h => ⟨(x, y), h, .inr rfl⟩

section
variable {K : Type} [Field K] [LinearOrder K] [IsStrictOrderedRing K]

open Classical in
/-- The number of messages of a class in which `y` directly follows `x`. -/
noncomputable def pairCount (msgs : List (List Tok × Bool)) (isSpam : Bool) (x y : Tok) : Nat :=
  msgs.countP (fun m => decide (m.2 = isSpam ∧ Adjacent x y m.1))

open Classical in
/-- helper: counts of learned messages -/
theorem counts_learned (msgs : List (List Tok × Bool)) (it : SetIter Tok) (w : Tok) (L : Ledger Tok) :
    ∃ L', Valid true L (msgs.map (fun m => Call.learn it (.list m.1) m.2)) L' ∧
      spamCount L' w = spamCount L w + msgs.countP (fun m => decide (m.2 = true ∧ w ∈ trained true (.list m.1))) ∧
      hamCount L' w = hamCount L w + msgs.countP (fun m => decide (m.2 = false ∧ w ∈ trained true (.list m.1))) := by
  induction msgs generalizing L with
  | nil => exact ⟨L, .nil L, rfl, rfl⟩
  | cons m r ih =>
    obtain ⟨L', h1, h2, h3⟩ := ih (msgOf true (.list m.1) m.2 ::ₘ L)
    refine ⟨L', .learn h1, ?_, ?_⟩
    · rw [h2, List.countP_cons]
      unfold spamCount
      rw [Multiset.countP_cons]
      simp only [msgOf, List.mem_toFinset, decide_eq_true_eq]
      split_ifs <;> omega
    · rw [h3, List.countP_cons]
      unfold hamCount
      rw [Multiset.countP_cons]
      simp only [msgOf, List.mem_toFinset, decide_eq_true_eq]
      split_ifs <;> omega

/-- **C98**, in the database: after learning messages whose tokens are all bytes, or all
str without spaces, with bigrams, the record of a pair has the numbers of spam and ham
messages in which the second token directly follows the first; there is none if no
message has the pair. -/
theorem C98_counts (F : FloatOps K) (P : Tok → Prop) (hP : P = IsBytes ∨ P = Spaceless) (it : SetIter Tok)
    (msgs : List (List Tok × Bool)) (hm : ∀ m ∈ msgs, ∀ w ∈ m.1, P w) (x y : Tok) (hx : P x) (hy : P y) :
    (exec F (memory Tok) (Clf.new true Dict.empty)
      (msgs.map (fun m => Call.learn it (.list m.1) m.2))).2.store.get? (BigramFormat.bi x y) =
    if pairCount msgs true x y = 0 ∧ pairCount msgs false x y = 0 then none
    else some ⟨pairCount msgs true x y, pairCount msgs false x y⟩ := by
  obtain ⟨L, hv, h1, h2⟩ := counts_learned msgs it (BigramFormat.bi x y) 0
  rw [(C02_counts_are_ledger F true _ L hv).2.2]
  have hmem : ∀ m ∈ msgs, (BigramFormat.bi x y : Tok) ∈ trained true (.list m.1) ↔ Adjacent x y m.1 := by
    intro m hmm
    refine mem_trained_pair P ?_ ?_ hx hy (hm m hmm)
    · rcases hP with rfl | rfl
      · exact C98_bytes
      · intro a b a' b' ha hb ha' hb' h
        cases a <;> cases b <;> cases a' <;> cases b' <;> simp only [Spaceless] at ha hb ha' hb'
        obtain ⟨rfl, rfl⟩ := C98_str_partial _ _ _ _ ha ha' h
        exact ⟨rfl, rfl⟩
    · rcases hP with rfl | rfl
      · exact fun a b w hw => C98_not_a_token a b w (.inl hw)
      · exact fun a b w hw => C98_not_a_token a b w (.inr hw)
  have z1 : spamCount (0 : Ledger Tok) (BigramFormat.bi x y) = 0 := rfl
  have z2 : hamCount (0 : Ledger Tok) (BigramFormat.bi x y) = 0 := rfl
  have h1' : spamCount L (BigramFormat.bi x y) = pairCount msgs true x y := by
    rw [h1, z1, zero_add]
    refine List.countP_congr ?_
    intro m hmm
    simp only [decide_eq_true_eq, hmem m hmm]
  have h2' : hamCount L (BigramFormat.bi x y) = pairCount msgs false x y := by
    rw [h2, z2, zero_add]
    refine List.countP_congr ?_
    intro m hmm
    simp only [decide_eq_true_eq, hmem m hmm]
  unfold recordOf
  rw [h1', h2']

end

/-- Two pairs of bytes with spaces. -/
example : IsBytes (.bytes (txt "skip:w 10")) ∧ IsBytes (.bytes (txt "a")) ∧
    (BigramFormat.bi (Tok.bytes (txt "skip:w 10")) (.bytes (txt "a")) : Tok) ≠
      BigramFormat.bi (Tok.bytes (txt "skip:w")) (.bytes (txt "10 a")) := by
  refine ⟨trivial, trivial, by decide⟩

/-- "cheap pills" in one of two spam messages. -/
example : pairCount [([.bytes (txt "cheap"), .bytes (txt "pills")], true),
      ([.bytes (txt "pills"), .bytes (txt "cheap")], true)] true (.bytes (txt "cheap")) (.bytes (txt "pills")) = 1 := by
  have h1 : Adjacent (.bytes (txt "cheap")) (.bytes (txt "pills")) [.bytes (txt "cheap"), .bytes (txt "pills")] :=
    ⟨[], [], rfl⟩
  have h2 : ¬ Adjacent (.bytes (txt "cheap")) (.bytes (txt "pills")) [.bytes (txt "pills"), .bytes (txt "cheap")] := by
    rw [← mem_zip_tail]; decide
  simp [pairCount, h1, h2]

end Sb.Props
