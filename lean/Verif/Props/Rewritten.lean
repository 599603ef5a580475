import Verif.Props.Reread
import Verif.Props.WordCounts
import Verif.Props.TokenHeaders
import Verif.Model.TextMail

/-
C118: does writing a message and reading it again change its tokens?
-/

set_option linter.unusedSectionVars false
namespace Sb.Props
open Sb Sb.Mail Sb.Tokenize Sb.Strip Py Py.Re Py.Text Spec

/-! ### The words of the statements -/

/-- The same text, with CR put before some of its line feeds. -/
inductive MoreCr : List Nat → List Nat → Prop
  | nil : MoreCr [] []
  | char (c : Nat) {a b : List Nat} : MoreCr a b → MoreCr (c :: a) (c :: b)
  | lf {a b : List Nat} : MoreCr a b → MoreCr (10 :: a) (13 :: 10 :: b)

/-- No "<script" or "<iframe" (or with a slash) is broken over two lines. -/
def Unbroken (t : List Nat) : Prop :=
  ∀ q s n, (q = [] ∨ q = txt "/") → (∀ c ∈ s, Blank c) → (n = txt "script" ∨ n = txt "iframe") →
    Contains (Mail.lower t) (txt "<" ++ q ++ s ++ n) → 10 ∉ s

/-! ### Texts with other line ends -/

theorem eol_refl (t : List Nat) : MoreCr t t := by
  induction t with
  | nil => exact .nil
  | cons c t ih => exact .char c ih

theorem eol_append {a b c d : List Nat} (h : MoreCr a b) (h' : MoreCr c d) : MoreCr (a ++ c) (b ++ d) := by
  induction h with
  | nil => exact h'
  | char x _ ih => exact .char x ih
  | lf _ ih => exact .lf ih

theorem eol_left {a c s : List Nat} (h : MoreCr (a ++ c) s) :
    ∃ b d, s = b ++ d ∧ MoreCr a b ∧ MoreCr c d := by
  induction a generalizing s with
  | nil => exact ⟨[], s, rfl, .nil, h⟩
  | cons x a ih =>
    cases h with
    | char _ h =>
      obtain ⟨b, d, rfl, h1, h2⟩ := ih h
      exact ⟨x :: b, d, rfl, .char x h1, h2⟩
    | lf h =>
      obtain ⟨b, d, rfl, h1, h2⟩ := ih h
      exact ⟨13 :: 10 :: b, d, rfl, .lf h1, h2⟩

theorem eol_right {t b d : List Nat} (h : MoreCr t (b ++ d)) :
    (∃ a c, t = a ++ c ∧ MoreCr a b ∧ MoreCr c d) ∨
    ∃ b' d' a c, b = b' ++ [13] ∧ d = 10 :: d' ∧ t = a ++ 10 :: c ∧ MoreCr a b' ∧ MoreCr c d' := by
  generalize he : b ++ d = s at h
  induction h generalizing b with
  | nil =>
    obtain ⟨rfl, rfl⟩ := List.append_eq_nil_iff.1 he
    exact .inl ⟨[], [], rfl, .nil, .nil⟩
  | @char c a s' h ih =>
    cases b with
    | nil => cases he; exact .inl ⟨[], _, rfl, .nil, .char c h⟩
    | cons x b =>
      obtain ⟨rfl, he'⟩ := List.cons.inj he
      rcases ih he' with ⟨a0, c0, rfl, h1, h2⟩ | ⟨b', d', a0, c0, rfl, rfl, rfl, h1, h2⟩
      · exact .inl ⟨x :: a0, c0, rfl, .char x h1, h2⟩
      · exact .inr ⟨x :: b', d', x :: a0, c0, rfl, rfl, rfl, .char x h1, h2⟩
  | @lf a s' h ih =>
    cases b with
    | nil => cases he; exact .inl ⟨[], _, rfl, .nil, .lf h⟩
    | cons x b =>
      obtain ⟨rfl, he'⟩ := List.cons.inj he
      cases b with
      | nil => cases he'; exact .inr ⟨[], _, [], _, rfl, rfl, rfl, .nil, h⟩
      | cons y b =>
        obtain ⟨rfl, he''⟩ := List.cons.inj he'
        rcases ih he'' with ⟨a0, c0, rfl, h1, h2⟩ | ⟨b', d', a0, c0, rfl, rfl, rfl, h1, h2⟩
        · exact .inl ⟨10 :: a0, c0, rfl, .lf h1, h2⟩
        · exact .inr ⟨13 :: 10 :: b', d', 10 :: a0, c0, rfl, rfl, rfl, .lf h1, h2⟩

theorem eol_same {w v : List Nat} (h : MoreCr w v) (hw : 10 ∉ w) : v = w := by
  induction h with
  | nil => rfl
  | char c _ ih => rw [ih (fun h => hw (.tail _ h))]
  | lf _ _ => exact absurd (List.mem_cons_self ..) hw

theorem eol_same' {w v : List Nat} (h : MoreCr w v) (hv : 10 ∉ v) : v = w := by
  induction h with
  | nil => rfl
  | char c _ ih => rw [ih (fun h => hv (.tail _ h))]
  | lf _ _ => exact absurd (.tail _ (List.mem_cons_self ..)) hv

theorem eol_find {t b w d : List Nat} (h : MoreCr t (b ++ w ++ d)) (hw : w ≠ [])
    (hc : ∀ c ∈ w, c ≠ 13 ∧ c ≠ 10) : ∃ a c, t = a ++ w ++ c ∧ MoreCr a b ∧ MoreCr c d := by
  rw [List.append_assoc] at h
  rcases eol_right h with ⟨a, x, rfl, h1, h2⟩ | ⟨b', d', a, c, -, h2, -⟩
  · rcases eol_right h2 with ⟨y, c, rfl, h3, h4⟩ | ⟨b', d', a', c, rfl, -⟩
    · have := eol_same' h3 (fun h => (hc _ h).2 rfl)
      subst this
      exact ⟨a, c, by simp, h1, h4⟩
    · exact absurd rfl (hc 13 (by simp)).1
  · obtain ⟨x, r, rfl⟩ := List.exists_cons_of_ne_nil hw
    exact absurd (List.cons.inj h2).1 (hc x (by simp)).2

theorem eol_contains {t s w : List Nat} (h : MoreCr t s) (hw : w ≠ []) (hc : ∀ c ∈ w, c ≠ 13 ∧ c ≠ 10) :
    Contains s w ↔ Contains t w := by
  constructor
  · rintro ⟨b, d, rfl⟩
    obtain ⟨a, c, rfl, -, -⟩ := eol_find h hw hc
    exact ⟨a, c, rfl⟩
  · rintro ⟨a, c, rfl⟩
    obtain ⟨b, d, rfl, h1, h2⟩ := eol_left h
    obtain ⟨e, f, rfl, h3, h4⟩ := eol_left h1
    rw [eol_same h4 (fun h => (hc _ h).2 rfl)]
    exact ⟨e, d, rfl⟩

theorem eol_lower {t s : List Nat} (h : MoreCr t s) : MoreCr (Mail.lower t) (Mail.lower s) := by
  induction h with
  | nil => exact .nil
  | char c _ ih => exact .char _ ih
  | lf _ ih => exact .lf ih

theorem eol_mem {t s : List Nat} (h : MoreCr t s) {c : Nat} (hc : c ≠ 13) : c ∈ s ↔ c ∈ t := by
  induction h with
  | nil => simp
  | char x _ ih => simp [ih]
  | lf _ ih => simp [ih, hc]

theorem eol_words {t s : List Nat} (h : MoreCr t s) : words Re.isSpace s = words Re.isSpace t := by
  have key : ∀ cur, wordsFrom Re.isSpace cur s = wordsFrom Re.isSpace cur t := by
    induction h with
    | nil => intro cur; rfl
    | char c _ ih =>
      intro cur
      simp only [wordsFrom]
      rw [ih, ih]
    | lf _ ih =>
      intro cur
      simp only [wordsFrom, show Re.isSpace 10 = true from rfl, show Re.isSpace 13 = true from rfl, if_true]
      rw [ih]
      simp [flush]
  exact key []

/-! ### What is found in both texts -/

theorem eol_entity {t s : List Nat} (h : MoreCr t s) : HasEntity s ↔ HasEntity t := by
  constructor
  · rintro ⟨ds, h1, h2, h3⟩
    refine ⟨ds, h1, h2, (eol_contains h (by simp [txt]) ?_).1 h3⟩
    intro c hc
    simp only [List.mem_append] at hc
    rcases hc with (hc | hc) | hc
    · revert c; decide
    · have := h2 c hc; omega
    · revert c; decide
  · rintro ⟨ds, h1, h2, h3⟩
    refine ⟨ds, h1, h2, (eol_contains h (by simp [txt]) ?_).2 h3⟩
    intro c hc
    simp only [List.mem_append] at hc
    rcases hc with (hc | hc) | hc
    · revert c; decide
    · have := h2 c hc; omega
    · revert c; decide

theorem eol_break {t s : List Nat} (h : MoreCr t s) : HasBreak s ↔ HasBreak t := by
  unfold HasBreak
  rw [eol_contains h (by decide) (by decide), eol_contains h (by decide) (by decide),
    eol_contains h (by decide) (by decide)]

theorem eol_spaces {t s : List Nat} (h : MoreCr t s) (hs : ∀ c ∈ s, Re.isSpace c = true) :
    ∀ c ∈ t, Re.isSpace c = true := by
  intro c hc
  by_cases h13 : c = 13
  · subst h13; rfl
  · exact hs c ((eol_mem h h13).2 hc)

theorem eol_begin {t s : List Nat} (h : MoreCr t s) (hb : HasBegin s) : HasBegin t := by
  obtain ⟨pre, s1, mode, s2, name, s3, post, rfl, hpre, hpost, ⟨a1, b1⟩, ⟨a2, b2⟩, ⟨a3, b3⟩, ⟨a4, b4⟩, b5⟩ := hb
  have nsp : ∀ {w : List Nat}, (∀ c ∈ w, Re.isSpace c = false) → ∀ c ∈ w, c ≠ 13 ∧ c ≠ 10 := by
    intro w hw c hc
    have := hw c hc
    constructor <;> rintro rfl <;> exact absurd this (by decide)
  rw [show pre ++ txt "begin" ++ s1 ++ mode ++ s2 ++ name ++ s3 ++ post =
    pre ++ txt "begin" ++ (s1 ++ mode ++ s2 ++ name ++ s3 ++ post) by simp] at h
  obtain ⟨p, x, rfl, h1, h2⟩ := eol_find h (by decide) (by decide)
  rw [show s1 ++ mode ++ s2 ++ name ++ s3 ++ post = s1 ++ mode ++ (s2 ++ name ++ s3 ++ post) by simp] at h2
  obtain ⟨q1, y, rfl, h3, h4⟩ := eol_find h2 a2 (nsp b2)
  rw [show s2 ++ name ++ s3 ++ post = s2 ++ name ++ (s3 ++ post) by simp] at h4
  obtain ⟨q2, z, rfl, h5, h6⟩ := eol_find h4 a4 (nsp b4)
  have hp : p = [] ∨ p.getLast? = some 10 := by
    rcases hpre with rfl | hpre
    · cases h1; exact .inl rfl
    · obtain ⟨u, rfl⟩ := List.getLast?_eq_some_iff.1 hpre
      rcases eol_right h1 with ⟨a, c, rfl, -, h8⟩ | ⟨b', d', a, c, -, h8, rfl, -, h9⟩
      · cases h8 with
        | char _ h => cases h; exact .inr (by simp)
      · have := (List.cons.inj h8).2
        subst this
        cases h9
        exact .inr (by simp)
  have ne : ∀ {a b : List Nat}, MoreCr a b → b ≠ [] → a ≠ [] := by
    rintro a b h hb rfl; cases h; exact hb rfl
  rcases eol_right h6 with ⟨q3, po, rfl, h7, h8⟩ | ⟨b', d', q3, po, rfl, rfl, rfl, h7, h8⟩
  · refine ⟨p, q1, mode, q2, name, q3, po, by simp, hp, ?_, ⟨ne h3 a1, eol_spaces h3 b1⟩, ⟨a2, b2⟩,
      ⟨ne h5 a3, eol_spaces h5 b3⟩, ⟨a4, b4⟩, eol_spaces h7 b5⟩
    rcases hpost with rfl | hpost
    · cases h8; exact .inl rfl
    · cases h8 with
      | nil => exact .inl rfl
      | char c _ => exact .inr hpost
      | lf _ => exact .inr rfl
  · refine ⟨p, q1, mode, q2, name, q3, 10 :: po, by simp, hp, .inr rfl, ⟨ne h3 a1, eol_spaces h3 b1⟩,
      ⟨a2, b2⟩, ⟨ne h5 a3, eol_spaces h5 b3⟩, ⟨a4, b4⟩, eol_spaces h7 (fun c hc => b5 c (by simp [hc]))⟩

/-! ### URLs -/

/-- How many characters are not ends of lines. -/
def weight (t : List Nat) : Nat := (t.filter (fun c => c != 13 && c != 10)).length

theorem weight_eol {t s : List Nat} (h : MoreCr t s) : weight s = weight t := by
  induction h with
  | nil => rfl
  | char c _ ih =>
    unfold weight at ih ⊢
    simp only [List.filter_cons]
    split <;> simp [ih]
  | lf _ ih => unfold weight at ih ⊢; simpa using ih

theorem weight_append (a b : List Nat) : weight (a ++ b) = weight a + weight b := by simp [weight]

theorem urlStart_plain {w : List Nat} (h : UrlStart w) : w ≠ [] ∧ ∀ c ∈ w, c ≠ 13 ∧ c ≠ 10 := by
  obtain ⟨p, x, hp, hx, rfl⟩ := h
  refine ⟨by simp, ?_⟩
  intro c hc
  simp only [List.mem_append, List.mem_singleton] at hc
  rcases hc with (hc | hc) | rfl
  · rcases hp with rfl | rfl | rfl <;> revert c <;> decide
  · revert c; decide
  · have := hx.1
    unfold Blank at this
    omega

theorem eol_urls {t out : List Nat} {toks : List Tok} (h : WithoutUrls t out toks) :
    ∀ {s}, MoreCr t s → ∃ out', WithoutUrls s out' toks ∧ MoreCr out out' := by
  induction h with
  | @plain t hn =>
    intro s hs
    refine ⟨s, .plain ?_, hs⟩
    rintro pre w post rfl hw
    obtain ⟨a, c, rfl, -, -⟩ := eol_find hs (urlStart_plain hw).1 (urlStart_plain hw).2
    exact hn _ _ _ rfl hw
  | @cut t pre p guts post out ws toks he hp hne hg hmax hfirst hpc _ ih =>
    intro s hs
    subst he
    obtain ⟨x, post', rfl, h1, h2⟩ := eol_left hs
    obtain ⟨pre', u, rfl, h3, h4⟩ := eol_left h1
    have hline : ∀ c ∈ p ++ txt "://" ++ guts, c ≠ 13 ∧ c ≠ 10 := by
      intro c hc
      simp only [List.mem_append] at hc
      rcases hc with (hc | hc) | hc
      · rcases hp with rfl | rfl | rfl <;> revert c <;> decide
      · revert c; decide
      · have := (hg c hc).1
        unfold Blank at this
        omega
    have hu := eol_same h4 (fun h => (hline _ h).2 rfl)
    subst hu
    obtain ⟨out', h5, h6⟩ := ih h2
    refine ⟨pre' ++ out', .cut rfl hp hne hg ?_ ?_ hpc h5, eol_append h3 h6⟩
    · intro c hc
      cases h2 with
      | nil => cases hc
      | char d _ => exact hmax c hc
      | lf _ => cases hc; intro hu; exact hu.1 (.inr (by omega))
    · intro a w b hab hw
      obtain ⟨wne, wline⟩ := urlStart_plain hw
      rw [hab] at hs
      obtain ⟨a0, b0, he0, h7, -⟩ := eol_find hs wne wline
      have hle := hfirst a0 w b0 he0 hw
      have hpa : pre <+: a0 := by
        refine List.prefix_of_prefix_length_le (l₃ := a0 ++ w ++ b0) ?_ ⟨w ++ b0, by simp⟩ hle
        exact ⟨(p ++ txt "://" ++ guts) ++ post, by rw [← he0]; simp⟩
      by_contra hlt
      push Not at hlt
      have hap : a <+: pre' := by
        refine List.prefix_of_prefix_length_le (l₃ := a ++ w ++ b) ⟨w ++ b, by simp⟩ ?_ (Nat.le_of_lt hlt)
        exact ⟨(p ++ txt "://" ++ guts) ++ post', by rw [← hab]; simp⟩
      obtain ⟨y, rfl⟩ := hap
      obtain ⟨x, rfl⟩ := hpa
      have hy : y ≠ [] := by rintro rfl; simp at hlt
      obtain ⟨c, y, rfl⟩ := List.exists_cons_of_ne_nil hy
      obtain ⟨d, w, rfl⟩ := List.exists_cons_of_ne_nil wne
      have hcd : c = d := by
        simp only [List.append_assoc, List.cons_append, List.append_cancel_left_eq, List.cons.injEq] at hab
        exact hab.1
      subst hcd
      have e1 := weight_eol h3
      have e2 := weight_eol h7
      rw [weight_append] at e1 e2
      have : weight (c :: y) = weight y + 1 := by
        have := wline c (by simp)
        simp [weight, this.1, this.2]
      omega

/-! ### Words that may go over several lines -/

theorem eol_cut {t b w d : List Nat} (h : MoreCr t (b ++ w ++ d)) (hne : w ≠ []) (h1 : w.head? ≠ some 10)
    (h2 : w.getLast? ≠ some 13) :
    ∃ a v c, t = a ++ v ++ c ∧ MoreCr a b ∧ MoreCr v w ∧ MoreCr c d := by
  rcases eol_right h with ⟨x, c, rfl, hx, hc⟩ | ⟨b', d', a, c, hb, -⟩
  · rcases eol_right hx with ⟨a, v, rfl, ha, hv⟩ | ⟨b', d', a, c', -, rfl, -⟩
    · exact ⟨a, v, c, rfl, ha, hv, hc⟩
    · exact absurd rfl h1
  · have : (b ++ w).getLast? = some 13 := by rw [hb]; simp
    rw [List.getLast?_append_of_ne_nil _ hne] at this
    exact absurd this h2

theorem last_ne {x y : List Nat} (h : y ≠ []) (h' : y.getLast? ≠ some 13) : (x ++ y).getLast? ≠ some 13 := by
  rwa [List.getLast?_append_of_ne_nil _ h]

theorem eol_det {a b b' d d' : List Nat} (h : MoreCr a b) : MoreCr a b' → b ++ d = b' ++ d' → b = b' := by
  induction h generalizing b' with
  | nil => intro h' _; cases h'; rfl
  | char c _ ih =>
    intro h' e
    cases h' with
    | char _ h' => rw [ih h' (List.cons.inj e).2]
    | lf h' => exact absurd (List.cons.inj e).1 (by decide)
  | lf _ ih =>
    intro h' e
    cases h' with
    | char _ h' => exact absurd (List.cons.inj e).1 (by decide)
    | lf h' => rw [ih h' (List.cons.inj (List.cons.inj e).2).2]

/-- The beginnings a of t and b of s correspond to each other. -/
def Aligned (t s a b : List Nat) : Prop := ∃ c d, t = a ++ c ∧ s = b ++ d ∧ MoreCr a b ∧ MoreCr c d

theorem aligned_lt {t s a b a' b' : List Nat} (h : Aligned t s a b) (h' : Aligned t s a' b') :
    b.length < b'.length ↔ a.length < a'.length := by
  have mono : ∀ {a b a' b' : List Nat}, Aligned t s a b → Aligned t s a' b' → a.length ≤ a'.length →
      b.length ≤ b'.length ∧ (a.length < a'.length → b.length < b'.length) := by
    rintro a b a' b' ⟨c, d, e1, e2, h1, -⟩ ⟨c', d', e3, e4, h2, -⟩ hl
    obtain ⟨x, rfl⟩ : a <+: a' :=
      List.prefix_of_prefix_length_le (l₃ := t) ⟨c, e1.symm⟩ ⟨c', e3.symm⟩ hl
    obtain ⟨u, v, rfl, h3, h4⟩ := eol_left h2
    have hu : b = u := eol_det h1 h3 (d := d) (d' := v ++ d') (by rw [← e2, e4]; simp)
    subst hu
    refine ⟨by simp, fun hlt => ?_⟩
    cases h4 with
    | nil => simp at hlt
    | char _ _ => simp
    | lf _ => simp
  constructor
  · intro hlt
    by_contra hle
    have := (mono h' h (by omega)).1
    omega
  · intro hlt
    exact (mono h h' (by omega)).2 hlt

/-- Words of the kind L are not changed by CR before a line feed, and neither begin with a
line feed nor end with CR. -/
structure Blind (L : List Nat → Prop) : Prop where
  edge : ∀ w, L w → w ≠ [] ∧ w.head? ≠ some 10 ∧ w.getLast? ≠ some 13
  more : ∀ v w, MoreCr v w → (L w ↔ L v)

theorem blind_noWord {L : List Nat → Prop} (hL : Blind L) {t s : List Nat} (h : MoreCr t s)
    (ht : NoWord L t) : NoWord L s := by
  rintro pre w post rfl hw
  obtain ⟨h1, h2, h3⟩ := hL.edge w hw
  obtain ⟨a, v, c, rfl, -, hv, -⟩ := eol_cut h h1 h2 h3
  exact ht a v c rfl ((hL.more v w hv).1 hw)

theorem blind_firstWord {L : List Nat → Prop} (hL : Blind L) {t s pre w post : List Nat} (h : MoreCr t s)
    (ht : FirstWord L t pre w post) :
    ∃ pre' w' post', FirstWord L s pre' w' post' ∧ MoreCr pre pre' ∧ MoreCr post post' := by
  obtain ⟨rfl, hw, hfirst⟩ := ht
  obtain ⟨x, post', rfl, hx, hpost⟩ := eol_left h
  obtain ⟨pre', w', rfl, hpre, hw'⟩ := eol_left hx
  refine ⟨pre', w', post', ⟨rfl, (hL.more w w' hw').2 hw, ?_⟩, hpre, hpost⟩
  intro p v q e hv
  rw [e] at h
  obtain ⟨h1, h2, h3⟩ := hL.edge v hv
  obtain ⟨a, u, c, e', ha, hu, hc⟩ := eol_cut h h1 h2 h3
  have hle := hfirst a u c e' ((hL.more u v hu).1 hv)
  have k1 : Aligned (pre ++ w ++ post) (pre' ++ w' ++ post') pre pre' :=
    ⟨w ++ post, w' ++ post', by simp, by simp, hpre, eol_append hw' hpost⟩
  have k2 : Aligned (pre ++ w ++ post) (pre' ++ w' ++ post') a p :=
    ⟨u ++ c, v ++ q, by rw [e']; simp, by rw [e]; simp, ha, eol_append hu hc⟩
  have := aligned_lt k2 k1
  omega

theorem eol_without {Op Cl : List Nat → Prop} (hO : Blind Op) (hC : Blind Cl) {t out : List Nat}
    (h : Without Op Cl t out) : ∀ {s}, MoreCr t s → ∃ out', Without Op Cl s out' ∧ MoreCr out out' := by
  induction h with
  | plain hn => intro s hs; exact ⟨s, .plain (blind_noWord hO hs hn), hs⟩
  | unterminated h1 h2 =>
    intro s hs
    obtain ⟨pre', w', post', h3, -, h5⟩ := blind_firstWord hO hs h1
    exact ⟨s, .unterminated h3 (blind_noWord hC h5 h2), hs⟩
  | cut h1 h2 _ ih =>
    intro s hs
    obtain ⟨pre', w', post', h3, h4, h5⟩ := blind_firstWord hO hs h1
    obtain ⟨mid', v', rest', h6, -, h8⟩ := blind_firstWord hC h5 h2
    obtain ⟨out', h9, h10⟩ := ih h8
    exact ⟨pre' ++ out', .cut h3 h6 h9, eol_append h4 h10⟩

theorem eol_blank {t s : List Nat} (h : MoreCr t s) : (∀ c ∈ s, Blank c) ↔ ∀ c ∈ t, Blank c := by
  constructor
  · intro hs c hc
    by_cases h13 : c = 13
    · subst h13; unfold Blank; omega
    · exact hs c ((eol_mem h h13).2 hc)
  · intro ht c hc
    by_cases h13 : c = 13
    · subst h13; unfold Blank; omega
    · exact ht c ((eol_mem h h13).1 hc)

theorem eol_head {t s : List Nat} (h : MoreCr t s) :
    s.head? = t.head? ∨ t.head? = some 10 ∧ s.head? = some 13 := by
  cases h with
  | nil => exact .inl rfl
  | char c _ => exact .inl rfl
  | lf _ => exact .inr ⟨rfl, rfl⟩

theorem eol_last {t s : List Nat} (h : MoreCr t s) : s.getLast? = t.getLast? := by
  have ne : ∀ {a b : List Nat}, MoreCr a b → (b = [] ↔ a = []) := by
    intro a b h; cases h <;> simp
  induction h with
  | nil => rfl
  | @char c a b h ih =>
    rw [List.getLast?_cons, List.getLast?_cons, ih]
  | @lf a b h ih =>
    rw [List.getLast?_cons, List.getLast?_cons, List.getLast?_cons, ih]
    rfl

/-- The parts of a word with a fixed beginning and end, around a fixed name. -/
theorem eol_frame {o n e v : List Nat} {x y : List Nat} (ho : ∀ c ∈ o, c ≠ 13 ∧ c ≠ 10)
    (hn : ∀ c ∈ n, c ≠ 13 ∧ c ≠ 10) (he : ∀ c ∈ e, c ≠ 13 ∧ c ≠ 10) :
    MoreCr (o ++ x ++ n ++ y ++ e) v →
      ∃ x' y', v = o ++ x' ++ n ++ y' ++ e ∧ MoreCr x x' ∧ MoreCr y y' := by
  intro h
  obtain ⟨h1, e', rfl, g1, k1⟩ := eol_left h
  obtain ⟨h2, y', rfl, g2, k2⟩ := eol_left g1
  obtain ⟨h3, n', rfl, g3, k3⟩ := eol_left g2
  obtain ⟨o', x', rfl, k5, k4⟩ := eol_left g3
  rw [eol_same k1 (fun h => (he _ h).2 rfl), eol_same k3 (fun h => (hn _ h).2 rfl),
    eol_same k5 (fun h => (ho _ h).2 rfl)]
  exact ⟨x', y', rfl, k4, k2⟩

theorem eol_frame' {o n e v : List Nat} {x y : List Nat} (ho : ∀ c ∈ o, c ≠ 13 ∧ c ≠ 10)
    (hn : ∀ c ∈ n, c ≠ 13 ∧ c ≠ 10) (he : ∀ c ∈ e, c ≠ 13 ∧ c ≠ 10) (ho' : o ≠ []) (hn' : n ≠ []) (he' : e ≠ []) :
    MoreCr v (o ++ x ++ n ++ y ++ e) →
      ∃ x' y', v = o ++ x' ++ n ++ y' ++ e ∧ MoreCr x' x ∧ MoreCr y' y := by
  intro h
  rw [show o ++ x ++ n ++ y ++ e = [] ++ o ++ (x ++ n ++ y ++ e) by simp] at h
  obtain ⟨a, c, rfl, g1, g2⟩ := eol_find h ho' ho
  cases g1
  rw [show x ++ n ++ y ++ e = x ++ n ++ (y ++ e) by simp] at g2
  obtain ⟨x', c', rfl, g3, g4⟩ := eol_find g2 hn' hn
  rw [show y ++ e = y ++ e ++ [] by simp] at g4
  obtain ⟨y', c'', rfl, g5, g6⟩ := eol_find g4 he' he
  cases g6
  exact ⟨x', y', by simp, g3, g5⟩

theorem eol_fixed {w : List Nat} (hw : ∀ c ∈ w, c ≠ 13 ∧ c ≠ 10) {a b : List Nat} (h : MoreCr a b) :
    b = w ↔ a = w := by
  constructor
  · rintro rfl; exact (eol_same' h (fun h => (hw _ h).2 rfl)).symm
  · rintro rfl; exact eol_same h (fun h => (hw _ h).2 rfl)

theorem blind_style : Blind StyleOpen := by
  refine ⟨?_, ?_⟩
  · rintro w ⟨ws, body, -, -, -, rfl⟩
    exact ⟨by simp [txt], by simp [txt], last_ne (by decide) (by decide)⟩
  · intro v w h
    have hd : ∀ {a b : List Nat}, MoreCr a b →
        ((∀ c, b.head? = some c → ¬ WordChar c) ↔ ∀ c, a.head? = some c → ¬ WordChar c) := by
      intro a b h
      rcases eol_head h with e | ⟨e1, e2⟩
      · rw [e]
      · rw [e1, e2]; simp [WordChar]
    constructor
    · rintro ⟨ws, body, h1, h2, h3, rfl⟩
      obtain ⟨x, y, rfl, k1, k2⟩ := eol_frame' (by decide) (by decide) (by decide) (by decide) (by decide)
        (by decide) h
      exact ⟨x, y, (eol_blank k1).1 h1, fun hm => h2 ((eol_mem k2 (by decide)).2 hm), (hd k2).1 h3, rfl⟩
    · rintro ⟨ws, body, h1, h2, h3, rfl⟩
      obtain ⟨x, y, rfl, k1, k2⟩ := eol_frame (by decide) (by decide) (by decide) h
      exact ⟨x, y, (eol_blank k1).2 h1, fun hm => h2 ((eol_mem k2 (by decide)).1 hm), (hd k2).2 h3, rfl⟩

theorem blind_fixed {w : List Nat} (hne : w ≠ []) (hw : ∀ c ∈ w, c ≠ 13 ∧ c ≠ 10) : Blind (fun v => v = w) := by
  refine ⟨?_, fun v u h => eol_fixed hw h⟩
  rintro v rfl
  refine ⟨hne, fun h => (hw 10 (List.mem_of_head? h)).2 rfl, fun h => (hw 13 (List.mem_of_getLast? h)).1 rfl⟩

theorem blind_or {L L' : List Nat → Prop} (h : Blind L) (h' : Blind L') : Blind (fun w => L w ∨ L' w) := by
  refine ⟨?_, fun v w hv => by rw [h.more v w hv, h'.more v w hv]⟩
  rintro w (hw | hw)
  · exact h.edge w hw
  · exact h'.edge w hw

theorem blind_commentOpen : Blind CommentOpen := by
  refine blind_or (blind_fixed (by decide) (by decide)) ⟨?_, ?_⟩
  · rintro w ⟨ws, body, -, -, rfl⟩
    exact ⟨by simp [txt], by simp [txt], last_ne (by decide) (by decide)⟩
  · intro v w h
    constructor
    · rintro ⟨ws, body, h1, h2, rfl⟩
      obtain ⟨x, y, rfl, k1, k2⟩ := eol_frame' (by decide) (by decide) (by decide) (by decide) (by decide)
        (by decide) h
      exact ⟨x, y, (eol_blank k1).1 h1, fun hm => h2 ((eol_mem k2 (by decide)).2 hm), rfl⟩
    · rintro ⟨ws, body, h1, h2, rfl⟩
      obtain ⟨x, y, rfl, k1, k2⟩ := eol_frame (by decide) (by decide) (by decide) h
      exact ⟨x, y, (eol_blank k1).2 h1, fun hm => h2 ((eol_mem k2 (by decide)).1 hm), rfl⟩

theorem blind_commentClose : Blind CommentClose :=
  blind_or (blind_fixed (by decide) (by decide)) (blind_fixed (by decide) (by decide))

theorem blind_styleClose : Blind StyleClose := blind_fixed (by decide) (by decide)

theorem blind_noframesOpen : Blind NoframesOpen := by
  refine ⟨?_, ?_⟩
  · rintro w ⟨ws, body, -, -, rfl⟩
    exact ⟨by simp [txt], by simp [txt], last_ne (by decide) (by decide)⟩
  · intro v w h
    constructor
    · rintro ⟨ws, body, h1, h2, rfl⟩
      obtain ⟨x, y, rfl, k1, k2⟩ := eol_frame' (by decide) (by decide) (by decide) (by decide) (by decide)
        (by decide) h
      exact ⟨x, y, (eol_blank k1).1 h1, (eol_blank k2).1 h2, rfl⟩
    · rintro ⟨ws, body, h1, h2, rfl⟩
      obtain ⟨x, y, rfl, k1, k2⟩ := eol_frame (by decide) (by decide) (by decide) h
      exact ⟨x, y, (eol_blank k1).2 h1, (eol_blank k2).2 h2, rfl⟩

theorem blind_noframesClose : Blind NoframesClose := by
  refine ⟨?_, ?_⟩
  · rintro w ⟨ws, -, rfl⟩
    exact ⟨by simp [txt], by simp [txt], last_ne (by decide) (by decide)⟩
  · intro v w h
    constructor
    · rintro ⟨ws, h1, rfl⟩
      rw [show txt "</noframes" ++ ws ++ txt ">" =
        txt "<" ++ [] ++ txt "/noframes" ++ ws ++ txt ">" by simp [txt]] at h
      obtain ⟨x, y, rfl, k1, k2⟩ := eol_frame' (by decide) (by decide) (by decide) (by decide) (by decide)
        (by decide) h
      cases k1
      exact ⟨y, (eol_blank k2).1 h1, by simp [txt]⟩
    · rintro ⟨ws, h1, rfl⟩
      rw [show txt "</noframes" ++ ws ++ txt ">" =
        txt "<" ++ [] ++ txt "/noframes" ++ ws ++ txt ">" by simp [txt]] at h
      obtain ⟨x, y, rfl, k1, k2⟩ := eol_frame (by decide) (by decide) (by decide) h
      cases k1
      exact ⟨y, (eol_blank k2).2 h1, by simp [txt]⟩

theorem eol_tag {t s : List Nat} (h : MoreCr t s) (hs : HasTag s) : HasTag t := by
  obtain ⟨c, rest, h1, h2, h3, h4, h5, pre, post, rfl⟩ := hs
  obtain ⟨a, v, d, rfl, -, hv, -⟩ := eol_cut h (by simp [txt]) (by simp [txt]) (by
    rw [show txt "<" ++ c :: rest ++ txt ">" = (txt "<" ++ c :: rest) ++ txt ">" from rfl]
    exact last_ne (by decide) (by decide))
  rw [show txt "<" ++ c :: rest ++ txt ">" = txt "<" ++ [] ++ [c] ++ rest ++ txt ">" by simp] at hv
  have hc : c ≠ 13 ∧ c ≠ 10 := by
    constructor <;> rintro rfl <;> exact absurd h1 (by decide)
  obtain ⟨x, y, rfl, k1, k2⟩ := eol_frame' (by decide) (by simpa using hc) (by decide) (by decide) (by simp)
    (by decide) hv
  cases k1
  have hlen : y.length ≤ rest.length := by
    clear hv h h4 h5
    induction k2 with
    | nil => simp
    | char _ _ ih => simp [ih]
    | lf _ ih => simp; omega
  refine ⟨c, y, h1, h2, h3, ?_, by omega, a, d, by simp⟩
  rintro e he rfl
  exact h4 62 ((eol_mem k2 (by decide)).2 he) rfl

/-! ### Virus clues -/

theorem reads_split {t l : List Nat} {k : Nat} (hk : k ≤ t.length) (h : ReadsAt t k l) :
    ∃ a c, t = a ++ l ++ c ∧ a.length = k := by
  obtain ⟨post, h⟩ := h
  refine ⟨t.take k, post, ?_, by simp; omega⟩
  rw [List.append_assoc, ← h, List.take_append_drop]

theorem reads_append (a l c : List Nat) : ReadsAt (a ++ l ++ c) a.length l := ⟨c, by simp⟩

/-- A clue between two texts. -/
def ClueBetween (a l c : List Nat) : Prop :=
  ((∃ q s n, l = txt "<" ++ q ++ s ++ n ∧ (q = [] ∨ q = txt "/") ∧ (∀ x ∈ s, Re.isSpace x = true) ∧
    (n = txt "script" ∨ n = txt "iframe")) ∧ ∀ x, c.head? = some x → isWord x = false) ∨
  ((∀ x, a.getLast? = some x → isWord x = false) ∧
    ((∃ q, (q = [] ∨ q = txt "'" ∨ q = txt "\"") ∧ l = txt "src=" ++ q ++ txt "cid:") ∨
    ∃ n q, (n = txt "height" ∨ n = txt "width") ∧ (q = [] ∨ q = txt "'" ∨ q = txt "\"") ∧
      l = n ++ txt "=" ++ q ++ txt "0"))

theorem clue_between {a l c : List Nat} : Clue (a ++ l ++ c) a.length l ↔ ClueBetween a l c := by
  have h1 : NoWordAt (a ++ l ++ c) (a.length + l.length) ↔ ∀ x, c.head? = some x → isWord x = false := by
    unfold NoWordAt
    rw [show a.length + l.length = (a ++ l).length by simp, List.getElem?_append_right (Nat.le_refl _)]
    simp [List.head?_eq_getElem?]
  have h2 : NoWordBefore (a ++ l ++ c) a.length ↔ ∀ x, a.getLast? = some x → isWord x = false := by
    unfold NoWordBefore NoWordAt
    by_cases ha : a = []
    · subst ha; simp
    · have hl : 0 < a.length := List.length_pos_iff.2 ha
      rw [List.append_assoc, List.getElem?_append_left (by omega), ← List.getLast?_eq_getElem?]
      simp [ha]
  unfold Clue ClueBetween
  rw [h1, h2]
  constructor
  · rintro (⟨q, s, n, k1, k2, k3, k4, k5⟩ | ⟨k1, k2⟩ | ⟨k1, k2⟩)
    · exact .inl ⟨⟨q, s, n, k1, k2, k3, k4⟩, k5⟩
    · exact .inr ⟨k1, .inl k2⟩
    · exact .inr ⟨k1, .inr k2⟩
  · rintro (⟨⟨q, s, n, k1, k2, k3, k4⟩, k5⟩ | ⟨k1, k2 | k2⟩)
    · exact .inl ⟨q, s, n, k1, k2, k3, k4, k5⟩
    · exact .inr (.inl ⟨k1, k2⟩)
    · exact .inr (.inr ⟨k1, k2⟩)

theorem clue_later {a b l c d : List Nat} (ha : MoreCr a b) (hc : MoreCr c d) :
    ClueBetween b l d ↔ ClueBetween a l c := by
  have h1 : (∀ x, d.head? = some x → isWord x = false) ↔ ∀ x, c.head? = some x → isWord x = false := by
    rcases eol_head hc with e | ⟨e1, e2⟩
    · rw [e]
    · rw [e1, e2]
      constructor <;> intro _ x hx <;> cases hx <;> rfl
  unfold ClueBetween
  rw [h1, eol_last ha]

theorem clue_back {t b l d : List Nat} (h : MoreCr t (b ++ l ++ d)) (hl : ClueBetween b l d) :
    ∃ a v c, t = a ++ v ++ c ∧ MoreCr a b ∧ MoreCr v l ∧ MoreCr c d ∧ ClueBetween a v c := by
  have fixed : ∀ {w : List Nat}, w ≠ [] → (∀ c ∈ w, c ≠ 13 ∧ c ≠ 10) → l = w →
      ∃ a v c, t = a ++ v ++ c ∧ MoreCr a b ∧ MoreCr v l ∧ MoreCr c d ∧ ClueBetween a v c := by
    rintro w h1 h2 rfl
    obtain ⟨a, c, rfl, k1, k2⟩ := eol_find h h1 h2
    exact ⟨a, l, c, rfl, k1, eol_refl l, k2, (clue_later k1 k2).1 hl⟩
  have hl' := hl
  rcases hl' with ⟨⟨q, s, n, rfl, h2, h3, h4⟩, h5⟩ | ⟨-, ⟨q, rfl | rfl | rfl, e⟩ |
    ⟨n, q, rfl | rfl, rfl | rfl | rfl, e⟩⟩
  · have hn : n ≠ [] ∧ ∀ c ∈ n, c ≠ 13 ∧ c ≠ 10 := by rcases h4 with rfl | rfl <;> decide
    have ho : ∀ c ∈ txt "<" ++ q, c ≠ 13 ∧ c ≠ 10 := by rcases h2 with rfl | rfl <;> decide
    obtain ⟨a, v, c, rfl, k1, k2, k3⟩ := eol_cut h (by simp [txt]) (by simp [txt])
      (by rcases h4 with rfl | rfl <;> exact last_ne (by decide) (by decide))
    rw [show txt "<" ++ q ++ s ++ n = (txt "<" ++ q ++ s) ++ n ++ [] by simp] at k2
    obtain ⟨x, e, rfl, k4, k5⟩ := eol_find k2 hn.1 hn.2
    cases k5
    rw [show txt "<" ++ q ++ s = [] ++ (txt "<" ++ q) ++ s by simp] at k4
    obtain ⟨x, s', rfl, k5, k6⟩ := eol_find k4 (by simp [txt]) ho
    cases k5
    refine ⟨a, _, c, rfl, k1, by simpa using k2, k3, (clue_later k1 k3).1 (.inl ⟨⟨q, s', n, by simp, h2, ?_, h4⟩, h5⟩)⟩
    exact eol_spaces k6 h3
  all_goals exact fixed (by decide) (by decide) e

theorem eol_clues {t s : List Nat} (h : MoreCr t s)
    (hU : ∀ a l c, t = a ++ l ++ c → ClueBetween a l c → 10 ∉ l) {i : Nat} {ls : List (List Nat)}
    (hc : Clues t i ls) : ∀ {a b}, Aligned t s a b → a.length = i → Clues s b.length ls := by
  have back : ∀ {k l}, k ≤ s.length → Clue s k l → ReadsAt s k l →
      ∃ a b, Aligned t s a b ∧ b.length = k ∧ Clue t a.length l ∧ ReadsAt t a.length l ∧ a.length ≤ t.length := by
    intro k l hk hcl hr
    obtain ⟨b, d, rfl, rfl⟩ := reads_split hk hr
    obtain ⟨a, v, c, rfl, k1, k2, k3, k4⟩ := clue_back h (clue_between.1 hcl)
    have := eol_same k2 (hU a v c rfl k4)
    subst this
    exact ⟨a, b, ⟨l ++ c, l ++ d, by simp, by simp, k1, eol_append k2 k3⟩, rfl, clue_between.2 k4,
      reads_append .., by simp⟩
  induction hc with
  | done hn =>
    intro a b hab hi
    refine .done ?_
    intro k l hk hk2 hcl hr
    obtain ⟨a', b', h1, rfl, h3, h4, h5⟩ := back hk2 hcl hr
    refine hn a'.length l ?_ h5 h3 h4
    have := aligned_lt h1 hab
    omega
  | @next i k l ls h1 h2 h3 h4 h5 _ ih =>
    intro a b hab hi
    obtain ⟨a', c, e, rfl⟩ := reads_split h2 h5
    have h4' : ClueBetween a' l c := by rw [e] at h4; exact clue_between.1 h4
    have h10 := hU a' l c e h4'
    have hs := h
    rw [e] at hs
    obtain ⟨x, d, hsd, g1, g2⟩ := eol_left hs
    obtain ⟨b', l', rfl, g3, g4⟩ := eol_left g1
    have := eol_same g4 h10
    subst this
    have hal : Aligned t s a' b' := ⟨l' ++ c, l' ++ d, by rw [e]; simp, by rw [hsd]; simp, g3, eol_append g4 g2⟩
    refine .next ?_ ?_ ?_ (k := b'.length) ?_ ?_ ?_
    · have := aligned_lt hal hab
      omega
    · rw [hsd]; simp
    · intro k l'' hk hk2 hcl hr
      obtain ⟨a'', b'', m1, rfl, m3, m4, m5⟩ := back (by rw [hsd]; simp; omega) hcl hr
      refine h3 a''.length l'' ?_ ?_ m3 m4
      · have := aligned_lt m1 hab
        omega
      · exact (aligned_lt m1 hal).1 hk2
    · rw [hsd]; exact clue_between.2 ((clue_later g3 g2).2 h4')
    · rw [hsd]; exact reads_append ..
    · have := ih (a := a' ++ l') (b := b' ++ l') ⟨c, d, e, hsd, eol_append g3 g4, g2⟩ (by simp)
      simpa using this

theorem clue_unique {a l c l' c' : List Nat} (e : l ++ c = l' ++ c') (h : ClueBetween a l c)
    (h' : ClueBetween a l' c') : l' = l := by
  have span : ∀ {s n : List Nat}, (∀ x ∈ s, Re.isSpace x = true) →
      (∃ x r, n = x :: r ∧ Re.isSpace x = false) → (s ++ n).takeWhile Re.isSpace = s := by
    rintro s n hs ⟨x, r, rfl, hx⟩
    rw [List.takeWhile_append_of_pos hs, List.takeWhile_cons_of_neg (by simp [hx]), List.append_nil]
  have name : ∀ {n : List Nat} (p : List Nat), n = txt "script" ∨ n = txt "iframe" →
      ∃ x r, n ++ p = x :: r ∧ Re.isSpace x = false ∧ x ≠ 47 := by
    rintro n p (rfl | rfl)
    · exact ⟨115, _, rfl, by decide, by decide⟩
    · exact ⟨105, _, rfl, by decide, by decide⟩
  rcases h with ⟨⟨q, s, n, rfl, h1, h2, h3⟩, -⟩ | ⟨-, ⟨q, rfl | rfl | rfl, rfl⟩ |
    ⟨n, q, rfl | rfl, rfl | rfl | rfl, rfl⟩⟩ <;>
  rcases h' with ⟨⟨q', s', n', rfl, h1', h2', h3'⟩, -⟩ | ⟨-, ⟨q', rfl | rfl | rfl, rfl⟩ |
    ⟨n', q', rfl | rfl, rfl | rfl | rfl, rfl⟩⟩
  case inl.inl =>
    have e1 : q ++ (s ++ (n ++ c)) = q' ++ (s' ++ (n' ++ c')) := by
      simpa [txt] using e
    obtain ⟨x, r, ex, hx, hx47⟩ := name c h3
    obtain ⟨x', r', ex', hx', hx47'⟩ := name c' h3'
    have slash : ∀ {s n : List Nat} {x : Nat} {r m : List Nat}, (∀ x ∈ s, Re.isSpace x = true) → n = x :: r →
        x ≠ 47 → s ++ n ≠ 47 :: m := by
      intro s n x r m hs hn hx
      cases s with
      | nil => subst hn; intro h; exact hx (List.cons.inj h).1
      | cons y s =>
        intro h
        have := hs y (by simp)
        rw [(List.cons.inj h).1] at this
        exact absurd this (by decide)
    have hq : q' = q := by
      rcases h1 with rfl | rfl <;> rcases h1' with rfl | rfl
      · rfl
      · exact absurd (show s ++ (n ++ c) = 47 :: (s' ++ (n' ++ c')) from e1) (slash h2 ex hx47)
      · exact absurd (show s' ++ (n' ++ c') = 47 :: (s ++ (n ++ c)) from e1.symm) (slash h2' ex' hx47')
      · rfl
    subst hq
    have e2 := List.append_cancel_left e1
    have hs : s' = s := by
      rw [← span h2 ⟨x, r, ex, hx⟩, ← span h2' ⟨x', r', ex', hx'⟩, e2]
    subst hs
    have e3 := List.append_cancel_left e2
    have hn : n' = n := by
      rcases h3 with rfl | rfl <;> rcases h3' with rfl | rfl <;> first | rfl | (simp [txt] at e3)
    rw [hn]
  all_goals first | rfl | (exfalso; simp [txt] at e)

/-- The clues of a text are determined. -/
theorem clues_unique {t : List Nat} {i : Nat} {ls : List (List Nat)} (h : Clues t i ls) :
    ∀ {ls'}, Clues t i ls' → ls' = ls := by
  induction h with
  | done hn =>
    intro ls' h'
    cases h' with
    | done _ => rfl
    | next h1 h2 h3 h4 h5 _ => exact absurd h5 (hn _ _ h1 h2 h4)
  | @next i k l ls h1 h2 h3 h4 h5 _ ih =>
    intro ls' h'
    cases h' with
    | done hn => exact absurd h5 (hn _ _ h1 h2 h4)
    | @next _ k' l' ls' g1 g2 g3 g4 g5 g6 =>
      have hk : k' = k := by
        by_contra hne
        rcases Nat.lt_or_gt_of_ne hne with hlt | hlt
        · exact h3 k' l' g1 hlt g4 g5
        · exact g3 k l h1 hlt h4 h5
      subst hk
      obtain ⟨a, c, e, ha⟩ := reads_split h2 h5
      obtain ⟨a', c', e', ha'⟩ := reads_split h2 g5
      have haa : a' = a ∧ l' ++ c' = l ++ c := by
        have : a' ++ (l' ++ c') = a ++ (l ++ c) := by rw [← List.append_assoc, ← List.append_assoc, ← e, ← e']
        exact List.append_inj this (by omega)
      obtain ⟨rfl, hlc⟩ := haa
      subst ha
      have hl : l' = l := clue_unique (a := a') hlc.symm (by rw [e] at h4; exact clue_between.1 h4)
        (by rw [e'] at g4; exact clue_between.1 g4)
      subst hl
      rw [ih g6]

/-- **C80.** These are the tokens: there is only one way to find the clues. -/
theorem C80_determined (t : List Nat) (ls : List (List Nat)) (h : Clues t 0 ls) :
    virusTokens t = ls.map (fun l => .str (txt "virus:" ++ bytesRepr l)) := by
  obtain ⟨ls', h', e⟩ := C80_virus_tokens t
  rw [e, clues_unique h h']

theorem unbroken_clue {t : List Nat} (h : Unbroken t) {a l c : List Nat} (e : Mail.lower t = a ++ l ++ c)
    (hl : ClueBetween a l c) : 10 ∉ l := by
  rcases hl with ⟨⟨q, s, n, rfl, h1, h2, h3⟩, -⟩ | ⟨-, ⟨q, rfl | rfl | rfl, rfl⟩ |
    ⟨n, q, rfl | rfl, rfl | rfl | rfl, rfl⟩⟩
  · have := h q s n h1 (fun c hc => isSpace_iff.1 (h2 c hc)) h3 ⟨a, c, e⟩
    simp only [List.mem_append, not_or]
    exact ⟨⟨⟨by decide, by rcases h1 with rfl | rfl <;> decide⟩, this⟩, by rcases h3 with rfl | rfl <;> decide⟩
  all_goals decide

theorem unbroken_of {t : List Nat}
    (h : ∀ p ∈ (Mail.lower t).zip (Mail.lower t).tail, p.1 = 60 → p.2 ≠ 47 ∧ p.2 ≠ 10 ∧ Re.isSpace p.2 = false) :
    Unbroken t := by
  have mem : ∀ (a : List Nat) (x y : Nat) (r : List Nat), (x, y) ∈ (a ++ x :: y :: r).zip (a ++ x :: y :: r).tail := by
    intro a x y r
    induction a with
    | nil => simp
    | cons z a ih =>
      cases a with
      | nil => simp
      | cons w a => exact List.mem_cons_of_mem _ ih
  rintro q s n hq hs hn ⟨a, b, e⟩ h10
  rw [e] at h
  rcases hq with rfl | rfl
  · cases s with
    | nil => cases h10
    | cons x s =>
      have := h (60, x) (by simpa [txt] using mem a 60 x (s ++ (n ++ b))) rfl
      rw [isSpace_iff.2 (hs x (by simp))] at this
      exact absurd this.2.2 (by decide)
  · exact (h (60, 47) (by simpa [txt] using mem a 60 47 (s ++ (n ++ b))) rfl).1 rfl

theorem eol_virus {t s : List Nat} (h : MoreCr t s) (ht : Unbroken t) :
    virusTokens (Mail.lower s) = virusTokens (Mail.lower t) := by
  obtain ⟨ls, h1, h2⟩ := C80_virus_tokens (Mail.lower t)
  have h3 := eol_clues (eol_lower h) (fun a l c e hl => unbroken_clue ht e hl) h1 (a := []) (b := [])
    ⟨_, _, rfl, rfl, .nil, eol_lower h⟩ rfl
  rw [C80_determined _ _ h3, h2]

/-! ### The body -/

theorem eol_stripped {t s out : List Nat} {toks : List Tok} (h : MoreCr t s) (ht : Stripped t out toks) :
    ∃ out', Stripped s out' toks ∧ MoreCr out out' := by
  obtain ⟨a, b, c, h1, h2, h3, h4⟩ := ht
  obtain ⟨a', k1, e1⟩ := eol_urls ((C84_urls _ _ _).1 h1) h
  obtain ⟨b', k2, e2⟩ := eol_without blind_style blind_styleClose ((C84_sections _ _ _).2.1.1 h2).2 e1
  obtain ⟨c', k3, e3⟩ := eol_without blind_commentOpen blind_commentClose ((C84_sections _ _ _).1.1 h3).2 e2
  obtain ⟨d', k4, e4⟩ := eol_without blind_noframesOpen blind_noframesClose ((C84_sections _ _ _).2.2.1 h4).2 e3
  exact ⟨d', ⟨a', b', c', (C84_urls _ _ _).2 k1, (C84_sections _ _ _).2.1.2 ⟨rfl, k2⟩,
    (C84_sections _ _ _).1.2 ⟨rfl, k3⟩, (C84_sections _ _ _).2.2.2 ⟨rfl, k4⟩⟩, e4⟩

theorem stripped_total (t : List Nat) : ∃ out toks, Stripped t out toks := by
  obtain ⟨a, toks, h1⟩ := (C84_total t).2.2.2
  obtain ⟨b, h2⟩ := (C84_total a).2.1
  obtain ⟨c, h3⟩ := (C84_total b).1
  obtain ⟨d, h4⟩ := (C84_total c).2.2.1
  exact ⟨d, toks, a, b, c, (C84_urls _ _ _).2 h1, (C84_sections _ _ _).2.1.2 ⟨rfl, h2⟩,
    (C84_sections _ _ _).1.2 ⟨rfl, h3⟩, (C84_sections _ _ _).2.2.2 ⟨rfl, h4⟩⟩

/-- **C118.** A text that can be tokenized, and in which no "<script" is broken over two
lines, has the same tokens with other ends of lines. -/
theorem C118_line_ends (t s : List Nat) (h : MoreCr t s) (ht : Unbroken t)
    (hok : (bodyBytes t).stop = none) : bodyBytes s = bodyBytes t := by
  obtain ⟨out, toks, hu⟩ := stripped_total (Mail.lower t)
  obtain ⟨out', hu', ho⟩ := eol_stripped (eol_lower h) hu
  obtain ⟨h1, h2, -⟩ := C55_body_partial t out toks hu
  obtain ⟨g1, g2, -⟩ := C55_body_partial s out' toks hu'
  obtain ⟨k1, k2, k3, k4, k5⟩ := h1.1 hok
  have hstop : (bodyBytes s).stop = none := by
    refine g1.2 ⟨fun he => k1 ((eol_entity h).1 he), fun hb => k2 (eol_begin (eol_lower h) hb),
      fun hb => k3 ((eol_break ho).1 hb), fun hb => k4 (eol_tag ho hb), ?_⟩
    rw [eol_words ho]; exact k5
  have htoks : (bodyBytes s).toks = (bodyBytes t).toks := by
    rw [g2 hstop, h2 hok, eol_words ho, eol_virus h ht]
  have : ∀ g g' : Gen, g.toks = g'.toks → g.stop = g'.stop → g = g' := by
    rintro ⟨_, _⟩ ⟨_, _⟩ rfl rfl; rfl
  exact this _ _ htoks (hstop.trans hok.symm)

/-! ### The message -/

theorem eol_force {t : Txt} (h : NoLoneCr t) : MoreCr t (forceCrlf t) := by
  induction t using crlf_induction with
  | h0 => exact .nil
  | h1 r ih =>
    rw [forceCrlf]
    refine .char 13 (.char 10 (ih ?_))
    intro i hi
    exact h (i + 2) hi
  | h2 c r hc ih =>
    have hr : NoLoneCr r := fun i hi => h (i + 1) hi
    rw [crlf_cons hc]
    by_cases h13 : c = 13
    · subst h13
      have := h 0 rfl
      cases r with
      | nil => cases this
      | cons d r =>
        have hd : d = 10 := by simpa using this
        subst hd
        exact absurd rfl (hc r)
    · by_cases h10 : c = 10
      · subst h10
        rw [if_pos (.inr rfl)]
        exact .lf (ih hr)
      · rw [if_neg (by simp [h13, h10])]
        exact .char c (ih hr)

theorem asString_crlf {mg : Bool} {ct : Txt} {w : List Txt} {u : Txt} {p e : Option Txt} {b t x : Txt}
    (h : asString false mg (.doc ct [] w u p e b (.str t)) = .ok (13 :: 10 :: x)) : forceCrlf x = x := by
  rw [asString.eq_def] at h
  simp only at h
  cases hg : generate false mg (.doc ct [] w u p e b (.str t)) with
  | ok y =>
    rw [hg] at h
    have h1 := C43_idempotent y
    rw [Except.ok.inj h, forceCrlf] at h1
    exact (List.cons.inj (List.cons.inj h1).2).2
  | error er =>
    rw [hg] at h
    cases er <;> simp only at h
    case typeError =>
      split at h <;> cases h
    all_goals cases h

theorem forall₂_same {xs ys : List Txt} (h : List.Forall₂ (fun x y : Txt => y = x) xs ys) : ys = xs := by
  induction h with
  | nil => rfl
  | cons h1 _ ih => rw [h1, ih]

theorem headers_same {hs hs' : Headers} (h : SameHeaders hs hs')
    (hs1 : ∀ x ∈ hs, ∃ v, x.2 = .str v ∧ Short x.1 v) : hs' = hs := by
  induction h with
  | nil => rfl
  | @cons x y xs ys hxy _ ih =>
    obtain ⟨v, h1, h2⟩ := hs1 x (by simp)
    rw [ih (fun z hz => hs1 z (by simp [hz]))]
    have : y = x := Prod.ext hxy.1 (by rw [hxy.2.2 v h1 h2, h1])
    rw [this]

theorem short_continued {n v : Txt} (h : Short n v) : Continued v := by
  rintro a c d b rfl hc
  exact absurd hc (h.1 c (by simp))

/-- The claim: a message that is written and read again has the same tokens. -/
def C118Claim : Prop :=
  ∀ (P : Printer) (U : Str) (E : Lib) (dec : Decoder) (uf mg : Bool) (t s : Txt) (w : List Txt) (u : Txt)
    (p e : Option Txt) (b : Txt),
    (∀ t, Ascii t → dec none none t = .bytes t) → Ascii t →
    getOne (readMessage t).headers (txt "content-type") = none →
    getOne (readMessage t).headers (txt "content-transfer-encoding") = none →
    (mailTokens U E dec (readMessage t)).stop = none →
    P.asString uf mg (readMessage t).headers
      (fun f => .doc (txt "text/plain") f w u p e b (.str (readMessage t).body)) = .ok s →
    mailTokens U E dec (readMessage s) = mailTokens U E dec (readMessage t)

/-- **C118, where it holds.** A text message with headers of one line each, without
a broken "<script" in its body and without lines that are quoted, has the same tokens after it was
written and read again; so it is scored, and learned, as before. -/
theorem C118_same_tokens_partial (P : Printer) (U : Str) (E : Lib) (dec : Decoder) (uf mg : Bool)
    (r : Reading) (w : List Txt) (u : Txt) (p e : Option Txt) (b : Txt)
    (hdec : ∀ t, Ascii t → dec none none t = .bytes t)
    (hu : uf = true → OneLine u ∧ ∃ x, u = txt "From " ++ x)
    (hh : ∀ x ∈ r.headers, FieldName x.1 ∧ ∃ v, x.2 = .str v ∧ Ascii v ∧ Short x.1 v)
    (h1 : getOne r.headers (txt "content-type") = none)
    (h2 : getOne r.headers (txt "content-transfer-encoding") = none)
    (ha : Ascii r.body) (hc : NoLoneCr r.body) (hm : Unbroken r.body)
    (hq : mg = true → ∀ l ∈ lines r.body, ¬ txt "From " <+: l)
    (hok : (mailTokens U E dec r).stop = none) :
    ∃ s, P.asString uf mg r.headers
        (fun f => .doc (txt "text/plain") f w u p e b (.str r.body)) = .ok s ∧
      mailTokens U E dec (readMessage s) = mailTokens U E dec r := by
  have hP : Parsed (fun ct => ¬ NamesStatus ct) (.doc (txt "text/plain") [] w u p e b (.str r.body)) :=
    text_parsed ..
  have hfields : ∀ x ∈ r.headers, FieldName x.1 ∧
      (x.2 = .none ∨ ∃ v, x.2 = .str v ∧ Ascii v ∧ Continued v) := by
    intro x hx
    obtain ⟨g1, v, g2, g3, g4⟩ := hh x hx
    exact ⟨g1, .inr ⟨v, g2, g3, short_continued g4⟩⟩
  obtain ⟨s, k1, k2, k3, -⟩ := C116_text P uf mg r.headers (txt "text") (txt "plain") w u p e b r.body
    (by decide) (by unfold PrintsAsText; decide) hP hu hfields
  obtain ⟨s', l1, -, -, l4⟩ := C116_reread_partial P uf mg r.headers (txt "text/plain") w u p e b
    (.str r.body) hP hu hfields
  have hss : s' = s := by
    rw [show txt "text/plain" = txt "text" ++ 47 :: txt "plain" from rfl, k1] at l1
    exact (Except.ok.inj l1).symm
  subst hss
  refine ⟨s', l1, ?_⟩
  have hhs : (readMessage s').headers = r.headers := headers_same k2 (fun x hx => by
    obtain ⟨-, v, g2, -, g4⟩ := hh x hx; exact ⟨v, g2, g4⟩)
  have hl : lines (readMessage s').body = lines r.body := by
    refine forall₂_same ?_
    have : ∀ {xs ys : List Txt}, List.Forall₂ (fun x y => y = x ∨ mg = true ∧ y = quoteFrom x) xs ys →
        (∀ l ∈ xs, mg = true → ¬ txt "From " <+: l) → List.Forall₂ (fun x y : Txt => y = x) xs ys := by
      intro xs ys h
      induction h with
      | nil => intro _; exact .nil
      | @cons x y xs ys hxy _ ih =>
        intro hn
        refine .cons ?_ (ih (fun l hl => hn l (by simp [hl])))
        rcases hxy with h | ⟨h, h'⟩
        · exact h
        · rw [h', quoteFrom, if_neg (hn x (by simp) h)]
    exact this k3 (fun l hl h => hq h l hl)
  have hbody : (readMessage s').body = forceCrlf r.body := by
    rw [← asString_crlf l4, forceCrlf_eq, forceCrlf_eq r.body, hl]
  have hmore : MoreCr r.body (readMessage s').body := by rw [hbody]; exact eol_force hc
  have ha' : Ascii (readMessage s').body := by
    intro c hc'
    by_cases h13 : c = 13
    · omega
    · exact ha c ((eol_mem hmore h13).1 hc')
  have key : ∀ r' : Reading, r'.headers = r.headers → Ascii r'.body → mailTokens U E dec r' =
      convertToBytes ((tokenizeHeaders U false false [{ E.view none (getOne r.headers (txt "content-disposition"))
        with contentType := txt "text/plain" }] (headerView E r.headers)).andThen
          (Gen.each textPart [.bytes r'.body])) := by
    intro r' e1 e2
    unfold mailTokens
    simp only [rootPart, e1, h1, h2, hdec _ e2]
    rfl
  rw [key _ hhs ha', key r rfl ha]
  rw [key r rfl ha] at hok
  have hstop : (bodyBytes r.body).stop = none := by
    have := ((convert_stop _).1 hok).1
    rw [andThen_stop_none, each_stop_none] at this
    exact this.2 (.bytes r.body) (by simp)
  have : textPart (.bytes (readMessage s').body) = textPart (.bytes r.body) :=
    C118_line_ends _ _ hmore hm hstop
  simp only [Gen.each, this]

/-- What `get_payload` does with the texts below. -/
def plainDecoder : Decoder := fun _ _ t => .bytes t

def strict : Printer := ⟨true, fun _ _ => .error .exception, false⟩

/-- `as_string` of a message that was read from a text. -/
def rewrite (mg : Bool) (t : Txt) : Except Err Txt :=
  strict.asString false mg (readMessage t).headers
    (fun f => .doc (txt "text/plain") f [] [] none none [] (.str (readMessage t).body))

/-- A line of the body that begins with "From ". -/
def vow : Txt := txt "Subject: hi\n\nFrom now on\n"

/-- A subject of more than one line when it is written. -/
def lengthy : Txt :=
  txt "Subject: one, two, three, four, five, six, seven, eight, nine, ten, eleven, twelve, more\n\nhello\n"

theorem rewrite_eq {mg : Bool} {t b : Txt} {hs : Headers} {fs : List Txt} (h1 : (readMessage t).headers = hs)
    (h2 : strict.foldAll hs = .ok fs) (h3 : (readMessage t).body = b) :
    rewrite mg t = .ok (forceCrlf (fs.flatten ++ 10 :: written mg b)) := by
  unfold rewrite Printer.asString
  rw [h1, h2, h3]
  simp only
  rw [asString.eq_def]
  simp only [generate, flatten, bodyOf.eq_def, show handlerOf (txt "text/plain") = .text by decide]
  rfl

theorem mail_eq {U : Str} {E : Lib} {dec : Decoder} {r : Reading} {hs : Headers} {b : Txt}
    (h1 : r.headers = hs) (h2 : r.body = b) : mailTokens U E dec r = mailTokens U E dec ⟨none, hs, b⟩ := by
  subst h1; subst h2; rfl

theorem vow_read : (readMessage vow).headers = [(txt "Subject", .str (txt "hi"))] ∧
    (readMessage vow).body = txt "From now on\n" := by decide

theorem vow_tokens : mailTokens asciiStr plainLib plainDecoder (readMessage vow) =
    ⟨["content-type:text/plain", "from:none", "to:none", "cc:none", "sender:none", "reply-to:none",
      "x-mailer:none", "message-id:invalid", "header:Subject:1", "from", "now"].map (fun s => .bytes (txt s)),
      none⟩ := by
  rw [mail_eq vow_read.1 vow_read.2]
  decide

/-- The token "from" becomes ">from". -/
theorem C118_quoted : ∃ s, rewrite true vow = .ok s ∧
    Tok.bytes (txt "from") ∈ (mailTokens asciiStr plainLib plainDecoder (readMessage vow)).toks ∧
    Tok.bytes (txt "from") ∉ (mailTokens asciiStr plainLib plainDecoder (readMessage s)).toks ∧
    Tok.bytes (txt ">from") ∈ (mailTokens asciiStr plainLib plainDecoder (readMessage s)).toks := by
  refine ⟨txt "Subject: hi\r\n\r\n>From now on\r\n", ?_, ?_, ?_⟩
  · rw [rewrite_eq vow_read.1 (fs := [txt "Subject: hi\n"]) (by decide) vow_read.2]
    decide
  · rw [vow_tokens]; decide
  · rw [mail_eq (hs := [(txt "Subject", .str (txt "hi"))]) (b := txt ">From now on\r\n") (by decide) (by decide)]
    decide

/-- A tag that is broken over two lines. -/
def crooked : Txt := txt "Subject: hi\n\n<\nscript\n"

theorem crooked_read : (readMessage crooked).headers = [(txt "Subject", .str (txt "hi"))] ∧
    (readMessage crooked).body = txt "<\nscript\n" := by decide

/-- The end of the line is part of the token for a tag that is broken over two lines. -/
theorem C118_broken : ∃ s, rewrite false crooked = .ok s ∧
    (mailTokens asciiStr plainLib plainDecoder (readMessage crooked)).stop = none ∧
    Tok.bytes (txt "virus:b'<\\nscript'") ∈ (mailTokens asciiStr plainLib plainDecoder (readMessage crooked)).toks ∧
    Tok.bytes (txt "virus:b'<\\nscript'") ∉ (mailTokens asciiStr plainLib plainDecoder (readMessage s)).toks ∧
    Tok.bytes (txt "virus:b'<\\r\\nscript'") ∈ (mailTokens asciiStr plainLib plainDecoder (readMessage s)).toks := by
  refine ⟨txt "Subject: hi\r\n\r\n<\r\nscript\r\n", ?_, ?_, ?_, ?_⟩
  · rw [rewrite_eq crooked_read.1 (fs := [txt "Subject: hi\n"]) (by decide) crooked_read.2]
    decide
  · rw [mail_eq crooked_read.1 crooked_read.2]; decide
  · rw [mail_eq crooked_read.1 crooked_read.2]; decide
  · rw [mail_eq (hs := [(txt "Subject", .str (txt "hi"))]) (b := txt "<\r\nscript\r\n") (by decide) (by decide)]
    decide

theorem lengthy_read : (readMessage lengthy).headers = [(txt "Subject", .str (txt
      "one, two, three, four, five, six, seven, eight, nine, ten, eleven, twelve, more"))] ∧
    (readMessage lengthy).body = txt "hello\n" := by decide

set_option maxRecDepth 4000 in
/-- A subject that is folded gets another token, with the end of the line in it. -/
theorem C118_folded : ∃ s, rewrite false lengthy = .ok s ∧
    Tok.bytes (txt "subject:, \n ") ∈ (mailTokens asciiStr plainLib plainDecoder (readMessage s)).toks ∧
    Tok.bytes (txt "subject:, \n ") ∉ (mailTokens asciiStr plainLib plainDecoder (readMessage lengthy)).toks := by
  refine ⟨txt ("Subject: one, two, three, four, five, six, seven, eight, nine, ten, eleven,\r\n" ++
    " twelve, more\r\n\r\nhello\r\n"), ?_, ?_, ?_⟩
  · rw [rewrite_eq lengthy_read.1 (fs := [txt ("Subject: one, two, three, four, five, six, seven, eight, nine, " ++
      "ten, eleven,\n twelve, more\n")]) (by decide) lengthy_read.2]
    decide
  · rw [mail_eq (hs := [(txt "Subject", .str (txt ("one, two, three, four, five, six, seven, eight, nine, " ++
      "ten, eleven,\r\n twelve, more")))]) (b := txt "hello\r\n") (by decide) (by decide)]
    decide
  · rw [mail_eq lengthy_read.1 lengthy_read.2]
    decide

/-- **C118 is false**, both with mangle_from_ and without (C118_folded, C118_broken). -/
theorem C118_claim_false : ¬ C118Claim := by
  intro h
  obtain ⟨s, h1, h2, h3, -⟩ := C118_quoted
  have := h strict asciiStr plainLib plainDecoder false true vow s [] [] none none []
    (fun _ _ => rfl) (by unfold Ascii; decide) (by decide) (by decide) (by rw [vow_tokens]) h1
  rw [this] at h3
  exact h3 h2

/-- A message that keeps its tokens. -/
example : ∃ s, rewrite true (txt "Subject: hi\nTo: me\n\nsee http://a.b/c <!-- <b> -->\nFreedom\n") = .ok s ∧
    mailTokens asciiStr plainLib plainDecoder (readMessage s) =
      mailTokens asciiStr plainLib plainDecoder
        (readMessage (txt "Subject: hi\nTo: me\n\nsee http://a.b/c <!-- <b> -->\nFreedom\n")) := by
  have hr : (readMessage (txt "Subject: hi\nTo: me\n\nsee http://a.b/c <!-- <b> -->\nFreedom\n")).headers =
      [(txt "Subject", .str (txt "hi")), (txt "To", .str (txt "me"))] := by decide
  have hb : (readMessage (txt "Subject: hi\nTo: me\n\nsee http://a.b/c <!-- <b> -->\nFreedom\n")).body =
      txt "see http://a.b/c <!-- <b> -->\nFreedom\n" := by decide
  refine C118_same_tokens_partial strict asciiStr plainLib plainDecoder false true _ [] [] none none []
    (fun _ _ => rfl) (by simp) ?_ (by rw [hr]; decide) (by rw [hr]; decide) ?_ ?_ ?_ ?_ (by rw [mail_eq hr hb]; decide)
  · rw [hr]
    have sh : ∀ n v, v ≠ [] → (∀ c ∈ v, ¬ Ends c ∧ c ≠ 32 ∧ c ≠ 9) → n.length + 2 + v.length ≤ 78 → Short n v := by
      rintro n v - h1 h2
      exact ⟨fun c hc => (h1 c hc).1, fun c r hv => (h1 c (by simp [hv])).2, h2⟩
    intro x hx
    simp only [List.mem_cons, List.not_mem_nil, or_false] at hx
    rcases hx with rfl | rfl
    · exact ⟨by unfold FieldName; decide, _, rfl, by unfold Ascii; decide,
        sh _ _ (by decide) (by unfold Ends; decide) (by decide)⟩
    · exact ⟨by unfold FieldName; decide, _, rfl, by unfold Ascii; decide,
        sh _ _ (by decide) (by unfold Ends; decide) (by decide)⟩
  · rw [hb]; unfold Ascii; decide
  · rw [hb]
    intro i hi
    exact absurd (List.mem_of_getElem? hi) (by decide)
  · rw [hb]
    exact unbroken_of (by decide)
  · rw [hb]; intro _; decide

end Sb.Props
