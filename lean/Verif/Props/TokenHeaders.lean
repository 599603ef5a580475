import Mathlib.Data.List.Forall2
import Verif.Props.TokenMessage

/-
C79: the host of the Message-Id.
C80: the clues for viruses and worms.
C81: the tokens of the subject, of the addresses, of the number of recipients, and of
X-Mailer, and the order of all tokens of the headers.
-/

set_option linter.unusedSectionVars false

namespace Sb.Props
open Py Py.Re Py.Text Sb.Mail Sb.Strip Sb.Tokenize

/-! ### C79 -/

/-- The value of a Message-Id header begins with white space and `<LOCAL@HOST>`, where
LOCAL is anything without `@` and HOST anything without `>`. -/
def MsgId (space : Nat → Bool) (x host : Txt) : Prop :=
  ∃ s l rest : Txt, x = s ++ txt "<" ++ l ++ txt "@" ++ host ++ txt ">" ++ rest ∧
    (∀ c ∈ s, space c = true) ∧ l ≠ [] ∧ 64 ∉ l ∧ host ≠ [] ∧ 62 ∉ host

theorem split_unique {d : Nat} : ∀ {u u' v v' : Txt}, d ∉ u → d ∉ u' → u ++ d :: v = u' ++ d :: v' →
    u = u' ∧ v = v' := by
  intro u
  induction u with
  | nil =>
    intro u' v v' _ h2 h3
    cases u' with
    | nil => simpa using h3
    | cons x u' =>
      simp at h3
      exact absurd (by simp [h3.1]) h2
  | cons x u ih =>
    intro u' v v' h1 h2 h3
    cases u' with
    | nil =>
      simp at h3
      exact absurd (by simp [h3.1]) h1
    | cons y u' =>
      simp only [List.cons_append, List.cons.injEq] at h3
      obtain ⟨g1, g2⟩ := ih (fun h => h1 (List.mem_cons_of_mem _ h))
        (fun h => h2 (List.mem_cons_of_mem _ h)) h3.2
      exact ⟨by rw [h3.1, g1], g2⟩

theorem msgId_unique {space : Nat → Bool} (hsp : space 60 = false) {x host host' : Txt}
    (h : MsgId space x host) (h' : MsgId space x host') : host = host' := by
  obtain ⟨s, l, r, e, h1, h2, h3, h4, h5⟩ := h
  obtain ⟨s', l', r', e', h1', h2', h3', h4', h5'⟩ := h'
  have n1 : 60 ∉ s := fun hm => by have := h1 _ hm; rw [hsp] at this; cases this
  have n2 : 60 ∉ s' := fun hm => by have := h1' _ hm; rw [hsp] at this; cases this
  rw [e] at e'
  simp only [List.append_assoc, show txt "<" = [60] from rfl, show txt "@" = [64] from rfl,
    show txt ">" = [62] from rfl, List.singleton_append] at e'
  obtain ⟨_, e2⟩ := split_unique n1 n2 e'
  obtain ⟨_, e3⟩ := split_unique h3 h3' e2
  exact (split_unique h5 h5' e3).1

theorem matchAt_msgid {U : Str} {x : Txt} {m : Match} (h : matchAt (messageIdRe U) x 0 = some m) :
    MsgId U.space x (m.group x 1) := by
  unfold matchAt at h
  cases hh : (run x (messageIdRe U) ⟨0, []⟩).head? with
  | none => rw [hh] at h; cases h
  | some st =>
    rw [hh] at h
    simp only [Option.map_some, Option.some.injEq] at h
    subst h
    have hmem : st ∈ run x (messageIdRe U) ⟨0, []⟩ := List.mem_of_head? hh
    rw [messageIdRe, run_cat, List.mem_flatMap] at hmem
    obtain ⟨s1, hs1, hmem⟩ := hmem
    rw [run_cat, List.mem_flatMap] at hmem
    obtain ⟨s2, hs2, hmem⟩ := hmem
    rw [run_cat, List.mem_flatMap] at hmem
    obtain ⟨s3, hs3, hmem⟩ := hmem
    rw [run_cat, List.mem_flatMap] at hmem
    obtain ⟨s4, hs4, hmem⟩ := hmem
    rw [run_cat, List.mem_flatMap] at hmem
    obtain ⟨s5, hs5, hmem⟩ := hmem
    rw [run, List.mem_map] at hs5
    obtain ⟨s5', hs5, rfl⟩ := hs5
    obtain ⟨s, e1, a1, r1⟩ := matches_star_chr.1 (run_sound hs1)
    obtain ⟨e2, r2⟩ := matches_lit.1 (run_sound hs2)
    obtain ⟨l, n3, e3, a3, r3⟩ := matches_plus_chr.1 (run_sound hs3)
    obtain ⟨e4, r4⟩ := matches_lit.1 (run_sound hs4)
    obtain ⟨host, n5, e5, a5, r5⟩ := matches_plus_chr.1 (run_sound hs5)
    have hm := run_sound hmem
    simp only [Re.cat, matches_seq, matches_lit, matches_star_chr] at hm
    obtain ⟨k, ⟨hk, r6⟩, _⟩ := hm
    have hg := run_groups (r := .cat [.lit [62], .star (.chr U.space)]) rfl hmem
    have hgrp : Match.group ⟨0, st.pos, st.groups⟩ x 1 = host := by
      simp only [Match.group, hg]
      simp only [List.find?, beq_self_eq_true]
      rw [e5]
      exact readsAt_slice r5
    rw [hgrp]
    simp only at e1 r1 r6
    rw [Nat.zero_add] at e1
    rw [e1] at r2 e2
    rw [e2] at r3 e3
    rw [e3] at r4 e4
    rw [e4] at r5 e5
    rw [e5] at r6
    have hr : ReadsAt x 0 (s ++ txt "<" ++ l ++ txt "@" ++ host ++ txt ">") := by
      simp only [readsAt_append, List.length_append, Nat.zero_add, ← Nat.add_assoc]
      exact ⟨⟨⟨⟨⟨r1, r2⟩, r3⟩, r4⟩, r5⟩, r6⟩
    obtain ⟨rest, he⟩ := hr
    exact ⟨s, l, rest, he, a1, n3, fun hc => by simpa using a3 _ hc, n5, fun hc => by simpa using a5 _ hc⟩

theorem matches_msgid {U : Str} {x host : Txt} (h : MsgId U.space x host) :
    ∃ j, Matches x (messageIdRe U) 0 j := by
  obtain ⟨s, l, rest, he, a1, n3, a3, n5, a5⟩ := h
  have hr : ReadsAt x 0 (s ++ txt "<" ++ l ++ txt "@" ++ host ++ txt ">") := ⟨rest, he⟩
  simp only [readsAt_append, List.length_append, ← Nat.add_assoc] at hr
  simp only [messageIdRe, Re.cat, matches_seq, matches_grp, matches_lit, matches_star_chr, matches_plus_chr]
  exact ⟨_, _, ⟨s, rfl, a1, hr.1.1.1.1.1⟩, _, ⟨rfl, hr.1.1.1.1.2⟩, _,
    ⟨l, n3, rfl, fun c hc => by have : c ≠ 64 := (fun e => a3 (e ▸ hc)); simpa using this, hr.1.1.1.2⟩, _,
    ⟨rfl, hr.1.1.2⟩, _,
    ⟨host, n5, rfl, fun c hc => by have : c ≠ 62 := (fun e => a5 (e ▸ hc)); simpa using this, hr.1.2⟩, _,
    ⟨rfl, hr.2⟩, [], rfl, by simp, readsAt_nil _ _⟩

/-- **C79.** A Message-Id of the usual form gives its host, any other (and none at all)
counts as invalid; a value with raw 8-bit characters raises TypeError. -/
theorem C79_message_id (U : Str) (hsp : U.space 60 = false) (x : Txt) :
    (∀ host, MsgId U.space x host → messageIdTokens U (some (.str x)) =
      .yield [.str (txt "message-id:@" ++ host)]) ∧
    ((∀ host, ¬ MsgId U.space x host) → messageIdTokens U (some (.str x)) =
      .yield [.str (txt "message-id:invalid")]) ∧
    messageIdTokens U none = .yield [.str (txt "message-id:invalid")] ∧
    messageIdTokens U (some (.header x)) = .raise .typeError := by
  have hinv : ∀ y : Txt, (∀ host, ¬ MsgId U.space y host) →
      messageIdToken U y = .str (txt "message-id:invalid") := by
    intro y hy
    unfold messageIdToken
    cases hm : matchAt (messageIdRe U) y 0 with
    | none => rfl
    | some m => exact absurd (matchAt_msgid hm) (hy _)
  refine ⟨?_, ?_, ?_, rfl⟩
  · intro host hh
    obtain ⟨j, hj⟩ := matches_msgid hh
    unfold messageIdTokens messageIdToken
    cases hm : matchAt (messageIdRe U) x 0 with
    | none => exact absurd hj (matchAt_none.1 hm j)
    | some m => simp only [hm]; rw [msgId_unique hsp (matchAt_msgid hm) hh]
  · intro hh
    unfold messageIdTokens
    simp only [hinv x hh]
  · unfold messageIdTokens
    simp only
    rw [hinv []]
    rintro host ⟨s, l, rest, he, _⟩
    have := congrArg List.length he
    simp [txt] at this

example : MsgId isSpace (txt " <1234@mail.example.org>") (txt "mail.example.org") :=
  ⟨txt " ", txt "1234", [], by decide, by decide, by decide, by decide, by decide, by decide⟩
example : messageIdTokens asciiStr (some (.str (txt " <1234@mail.example.org>"))) =
    ⟨[.str (txt "message-id:@mail.example.org")], none⟩ := by decide
example : messageIdTokens asciiStr (some (.str (txt "<1234>"))) =
    ⟨[.str (txt "message-id:invalid")], none⟩ := by decide

/-! ### C80 -/

/-- The list of all matches from a position on: each is the first one at or after the end
of the one before it. -/
inductive Scan (r : Re) (t : List Nat) : Nat → List Match → Prop
  | done {i : Nat} : (∀ k j, i ≤ k → k ≤ t.length → ¬ Matches t r k j) → Scan r t i []
  | next {i : Nat} {m : Match} {ms : List Match} : i ≤ m.start → m.start ≤ t.length →
      (∀ k j, i ≤ k → k < m.start → ¬ Matches t r k j) → Matches t r m.start m.stop →
      Scan r t m.stop ms → Scan r t i (m :: ms)

theorem scan_allFrom {r : Re} (hr : 0 < minLen r) {t : List Nat} {n : Nat} :
    ∀ {i : Nat}, t.length - i < n → i ≤ t.length → Scan r t i (allFrom r t n i) := by
  induction n with
  | zero => intro i h; omega
  | succ n ih =>
    intro i hn hi
    rw [allFrom]
    cases hs : search r t i with
    | none =>
      refine .done ?_
      intro k j hk hk2 hm
      exact search_none.1 hs k hk hk2 j hm
    | some m =>
      obtain ⟨h1, h2, h3, h4⟩ := search_some hs
      have h5 := h3.minLen_le
      exact .next h1 (by have := h3.le; omega) (fun k j a b => h4 k a b j) h3 (ih (by omega) h2)

/-- The character at a position, if any, is not a word character. -/
def NoWordAt (t : List Nat) (i : Nat) : Prop := ∀ c, t[i]? = some c → isWord c = false
/-- The character before a position, if any, is not a word character. -/
def NoWordBefore (t : List Nat) (i : Nat) : Prop := i = 0 ∨ NoWordAt t (i - 1)

/-- A clue at position i: a script or iframe tag, a source like src="cid:, or a height or
width of 0. -/
def Clue (t : List Nat) (i : Nat) (l : List Nat) : Prop :=
  (∃ q s n, l = txt "<" ++ q ++ s ++ n ∧ (q = [] ∨ q = txt "/") ∧ (∀ c ∈ s, isSpace c = true) ∧
    (n = txt "script" ∨ n = txt "iframe") ∧ NoWordAt t (i + l.length)) ∨
  (NoWordBefore t i ∧ ∃ q, (q = [] ∨ q = txt "'" ∨ q = txt "\"") ∧ l = txt "src=" ++ q ++ txt "cid:") ∨
  (NoWordBefore t i ∧ ∃ n q, (n = txt "height" ∨ n = txt "width") ∧
    (q = [] ∨ q = txt "'" ∨ q = txt "\"") ∧ l = n ++ txt "=" ++ q ++ txt "0")

theorem matches_opt_chr {t : List Nat} {p : Nat → Bool} {i j : Nat} :
    Matches t (.opt (.chr p)) i j ↔
      ∃ q : List Nat, (q = [] ∨ ∃ c, p c = true ∧ q = [c]) ∧ j = i + q.length ∧ ReadsAt t i q := by
  rw [Re.opt, matches_upTo_chr]
  constructor
  · rintro ⟨s, h1, h2, h3, h4⟩
    refine ⟨s, ?_, h2, h4⟩
    cases s with
    | nil => exact .inl rfl
    | cons c s =>
      have : s = [] := List.length_eq_zero_iff.1 (by simp only [List.length_cons] at h1; omega)
      subst this
      exact .inr ⟨c, h3 c (by simp), rfl⟩
  · rintro ⟨q, hq, h2, h4⟩
    refine ⟨q, ?_, h2, ?_, h4⟩
    · rcases hq with rfl | ⟨c, _, rfl⟩ <;> simp
    · rcases hq with rfl | ⟨c, hc, rfl⟩
      · simp
      · simpa using hc

theorem matches_quote {t : List Nat} {i j : Nat} :
    Matches t quote i j ↔
      ∃ q : List Nat, (q = [] ∨ q = txt "'" ∨ q = txt "\"") ∧ j = i + q.length ∧ ReadsAt t i q := by
  rw [quote, matches_opt_chr]
  constructor
  · rintro ⟨q, hq, h⟩
    refine ⟨q, ?_, h⟩
    rcases hq with rfl | ⟨c, hc, rfl⟩
    · exact .inl rfl
    · simp only [Bool.or_eq_true, beq_iff_eq] at hc
      rcases hc with rfl | rfl
      · exact .inr (.inl rfl)
      · exact .inr (.inr rfl)
  · rintro ⟨q, hq, h⟩
    refine ⟨q, ?_, h⟩
    rcases hq with rfl | rfl | rfl
    · exact .inl rfl
    · exact .inr ⟨39, by decide, rfl⟩
    · exact .inr ⟨34, by decide, rfl⟩

theorem noWordAt_iff {t : List Nat} {i : Nat} : wordAt t i = false ↔ NoWordAt t i := by
  unfold wordAt NoWordAt
  cases t[i]? <;> simp

theorem noWordBefore_iff {t : List Nat} {i : Nat} : wordBefore t i = false ↔ NoWordBefore t i := by
  unfold wordBefore NoWordBefore
  rw [← noWordAt_iff]
  by_cases h : i = 0
  · simp [h]
  · simp [h]

/-- a boundary before a word character -/
theorem boundary_start {t : List Nat} {i j c : Nat} {s : List Nat} (hc : isWord c = true)
    (h : ReadsAt t i (c :: s)) : Matches t boundary i j ↔ j = i ∧ NoWordBefore t i := by
  rw [boundary, matches_test]
  have hw : wordAt t i = true := by simp [wordAt, (readsAt_cons.1 h).1, hc]
  rw [hw, ← noWordBefore_iff]
  simp

/-- a boundary after a word character -/
theorem boundary_stop {t : List Nat} {i j c : Nat} {s : List Nat} (hc : isWord c = true)
    (h : ReadsAt t i (s ++ [c])) :
    Matches t boundary (i + (s ++ [c]).length) j ↔
      j = i + (s ++ [c]).length ∧ NoWordAt t (i + (s ++ [c]).length) := by
  rw [boundary, matches_test]
  have hw : wordBefore t (i + (s ++ [c]).length) = true := by
    have := (readsAt_cons.1 (readsAt_append.1 h).2).1
    simp [wordBefore, wordAt, this, hc, ← Nat.add_assoc]
  rw [hw, ← noWordAt_iff]
  simp

theorem matches_virus {t : List Nat} {i j : Nat} :
    Matches t virusRe i j ↔ ∃ l, Clue t i l ∧ ReadsAt t i l ∧ j = i + l.length := by
  have hq : ∀ {t i j}, Matches t (.opt (.lit [47])) i j ↔
      ∃ q : List Nat, (q = [] ∨ q = txt "/") ∧ j = i + q.length ∧ ReadsAt t i q := by
    intro t i j
    rw [show Re.lit [47] = .chr (· == 47) from rfl, matches_opt_chr]
    constructor
    · rintro ⟨q, rfl | ⟨c, hc, rfl⟩, h⟩
      · exact ⟨[], .inl rfl, h⟩
      · simp at hc; subst hc; exact ⟨[47], .inr rfl, h⟩
    · rintro ⟨q, rfl | rfl, h⟩
      · exact ⟨[], .inl rfl, h⟩
      · exact ⟨[47], .inr ⟨47, by decide, rfl⟩, h⟩
  simp only [virusRe, Re.cat, matches_seq, matches_alt, matches_lit, hq, matches_star_chr, matches_quote]
  constructor
  · rintro (⟨_, ⟨rfl, h1⟩, _, ⟨q, hq1, rfl, h2⟩, _, ⟨s, rfl, hs, h3⟩, k, hn, hb⟩ |
      ⟨k, hb, _, ⟨rfl, h1⟩, _, ⟨q, hq1, rfl, h2⟩, rfl, h3⟩ |
      ⟨k, hb, l, hn, _, ⟨rfl, h1⟩, _, ⟨q, hq1, rfl, h2⟩, rfl, h3⟩)
    · obtain ⟨n, hn1, rfl, h4⟩ : ∃ n : List Nat, (n = txt "script" ∨ n = txt "iframe") ∧
          k = i + [60].length + q.length + s.length + n.length ∧
          ReadsAt t (i + [60].length + q.length + s.length) n := by
        rcases hn with ⟨rfl, h⟩ | ⟨rfl, h⟩
        · exact ⟨_, .inl rfl, rfl, h⟩
        · exact ⟨_, .inr rfl, rfl, h⟩
      have hb' : j = i + [60].length + q.length + s.length + n.length ∧
          NoWordAt t (i + [60].length + q.length + s.length + n.length) := by
        rcases hn1 with rfl | rfl
        · exact (boundary_stop (c := 116) (s := txt "scrip") (by decide) h4).1 hb
        · exact (boundary_stop (c := 101) (s := txt "ifram") (by decide) h4).1 hb
      refine ⟨txt "<" ++ q ++ s ++ n, .inl ⟨q, s, n, rfl, hq1, hs, hn1, ?_⟩, ?_, ?_⟩
      · simp only [List.length_append, ← Nat.add_assoc]
        exact hb'.2
      · simp only [readsAt_append, List.length_append, ← Nat.add_assoc]
        exact ⟨⟨⟨h1, h2⟩, h3⟩, h4⟩
      · rw [hb'.1]; simp only [List.length_append, ← Nat.add_assoc]; rfl
    · have hk : k = i := by rw [boundary, matches_test] at hb; exact hb.1
      subst hk
      have hb' := ((boundary_start (c := 115) (s := txt "rc=") (by decide) h1).1 hb).2
      refine ⟨txt "src=" ++ q ++ txt "cid:", .inr (.inl ⟨hb', q, hq1, rfl⟩), ?_, ?_⟩
      · simp only [readsAt_append, List.length_append, ← Nat.add_assoc]
        exact ⟨⟨h1, h2⟩, h3⟩
      · simp only [List.length_append, ← Nat.add_assoc]
    · have hk : k = i := by rw [boundary, matches_test] at hb; exact hb.1
      subst hk
      obtain ⟨n, hn1, rfl, h4⟩ : ∃ n : List Nat, (n = txt "height" ∨ n = txt "width") ∧
          l = k + n.length ∧ ReadsAt t k n := by
        rcases hn with ⟨rfl, h⟩ | ⟨rfl, h⟩
        · exact ⟨_, .inl rfl, rfl, h⟩
        · exact ⟨_, .inr rfl, rfl, h⟩
      have hb' : NoWordBefore t k := by
        rcases hn1 with rfl | rfl
        · exact ((boundary_start (c := 104) (s := txt "eight") (by decide) h4).1 hb).2
        · exact ((boundary_start (c := 119) (s := txt "idth") (by decide) h4).1 hb).2
      refine ⟨n ++ txt "=" ++ q ++ txt "0", .inr (.inr ⟨hb', n, q, hn1, hq1, rfl⟩), ?_, ?_⟩
      · simp only [readsAt_append, List.length_append, ← Nat.add_assoc]
        exact ⟨⟨⟨h4, h1⟩, h2⟩, h3⟩
      · simp only [List.length_append, ← Nat.add_assoc]; rfl
  · rintro ⟨l, ⟨q, s, n, rfl, hq1, hs, hn1, hw⟩ | ⟨hw, q, hq1, rfl⟩ | ⟨hw, n, q, hn1, hq1, rfl⟩, hr, rfl⟩
    · simp only [readsAt_append, List.length_append, ← Nat.add_assoc] at hr hw
      refine .inl ⟨_, ⟨rfl, hr.1.1.1⟩, _, ⟨q, hq1, rfl, hr.1.1.2⟩, _, ⟨s, rfl, hs, hr.1.2⟩,
        i + [60].length + q.length + s.length + n.length, ?_, ?_⟩
      · rcases hn1 with rfl | rfl
        · exact .inl ⟨rfl, hr.2⟩
        · exact .inr ⟨rfl, hr.2⟩
      · simp only [List.length_append, ← Nat.add_assoc]
        rcases hn1 with rfl | rfl
        · exact (boundary_stop (c := 116) (s := txt "scrip") (by decide) hr.2).2 ⟨rfl, hw⟩
        · exact (boundary_stop (c := 101) (s := txt "ifram") (by decide) hr.2).2 ⟨rfl, hw⟩
    · simp only [readsAt_append, List.length_append, ← Nat.add_assoc] at hr
      refine .inr (.inl ⟨i, (boundary_start (c := 115) (s := txt "rc=") (by decide) hr.1.1).2 ⟨rfl, hw⟩, _,
        ⟨rfl, hr.1.1⟩, _, ⟨q, hq1, rfl, hr.1.2⟩, ?_, hr.2⟩)
      simp only [List.length_append, ← Nat.add_assoc]
    · simp only [readsAt_append, List.length_append, ← Nat.add_assoc] at hr
      refine .inr (.inr ⟨i, ?_, i + n.length, ?_, _, ⟨rfl, hr.1.1.2⟩, _, ⟨q, hq1, rfl, hr.1.2⟩, ?_, hr.2⟩)
      · rcases hn1 with rfl | rfl
        · exact (boundary_start (c := 104) (s := txt "eight") (by decide) hr.1.1.1).2 ⟨rfl, hw⟩
        · exact (boundary_start (c := 119) (s := txt "idth") (by decide) hr.1.1.1).2 ⟨rfl, hw⟩
      · rcases hn1 with rfl | rfl
        · exact .inl ⟨rfl, hr.1.1.1⟩
        · exact .inr ⟨rfl, hr.1.1.1⟩
      · simp only [List.length_append, ← Nat.add_assoc]; rfl

/-- The clues of a text from position i on, with their positions: each is the first one
at or after the end of the one before it. -/
inductive Clues (t : List Nat) : Nat → List (List Nat) → Prop
  | done {i : Nat} : (∀ k l, i ≤ k → k ≤ t.length → Clue t k l → ¬ ReadsAt t k l) → Clues t i []
  | next {i k : Nat} {l : List Nat} {ls : List (List Nat)} : i ≤ k → k ≤ t.length →
      (∀ k' l', i ≤ k' → k' < k → Clue t k' l' → ¬ ReadsAt t k' l') → Clue t k l → ReadsAt t k l →
      Clues t (k + l.length) ls → Clues t i (l :: ls)

theorem clues_of_scan {t : List Nat} {i : Nat} {ms : List Match} (h : Scan virusRe t i ms) :
    Clues t i (ms.map (fun m => slice t m.start m.stop)) := by
  induction h with
  | done h =>
    refine .done ?_
    intro k l hk hk2 hc hr
    exact h k _ hk hk2 (matches_virus.2 ⟨l, hc, hr, rfl⟩)
  | next h1 h2 h3 h4 _ ih =>
    obtain ⟨l, hc, hr, hj⟩ := matches_virus.1 h4
    rw [List.map_cons, hj, readsAt_slice hr]
    rw [hj] at ih
    refine .next h1 h2 ?_ hc hr ih
    intro k l' hk hk2 hc' hr'
    exact h3 k _ hk hk2 (matches_virus.2 ⟨l', hc', hr', rfl⟩)

/-- **C80.** The tokens for virus clues are exactly the clues in the text, left to right,
each in the notation of a bytes literal: `virus:b'<script'` and so on. -/
theorem C80_virus_tokens (t : List Nat) :
    ∃ ls, Clues t 0 ls ∧ virusTokens t = ls.map (fun l => .str (txt "virus:" ++ bytesRepr l)) := by
  refine ⟨_, clues_of_scan (scan_allFrom (by decide) (n := t.length + 1) (by omega) (Nat.zero_le _)), ?_⟩
  unfold virusTokens all
  rw [List.map_map]
  rfl

/-- How a byte is shown between quotes q: with a backslash if it is q or a backslash; tab,
line feed and carriage return by a letter; other characters from space to tilde as they
are; the rest by two digits of the hexadecimal system. -/
inductive ShowsByte (q : Nat) : Nat → Txt → Prop where
  | escaped {c : Nat} : c = q ∨ c = 92 → ShowsByte q c [92, c]
  | tab : ShowsByte q 9 (txt "\\t")
  | newline : ShowsByte q 10 (txt "\\n")
  | return : ShowsByte q 13 (txt "\\r")
  | plain {c : Nat} : 32 ≤ c → c ≤ 126 → c ≠ q → c ≠ 92 → ShowsByte q c [c]
  | hex {h l : Nat} : h < 16 → l < 16 → (∀ c, c = 16 * h + l → ¬ (32 ≤ c ∧ c ≤ 126) ∧ c ∉ [9, 10, 13]) →
      ShowsByte q (16 * h + l) (txt "\\x" ++ [(txt "0123456789abcdef").getD h 0,
        (txt "0123456789abcdef").getD l 0])

/-- **C80.** The notation of a bytes literal: b, a quote, the bytes, the quote; the double
quote only if there are single but no double quotes in it. -/
theorem C80_shown (b : List Nat) (hb : ∀ c ∈ b, c < 256) :
    ∃ q ss, List.Forall₂ (ShowsByte q) b ss ∧ bytesRepr b = txt "b" ++ [q] ++ ss.flatten ++ [q] ∧
      (39 ∈ b ∧ 34 ∉ b → q = 34) ∧ (¬ (39 ∈ b ∧ 34 ∉ b) → q = 39) := by
  refine ⟨if b.contains 39 && !b.contains 34 then 34 else 39,
    b.map (reprByte (if b.contains 39 && !b.contains 34 then 34 else 39)), ?_, ?_, ?_, ?_⟩
  · have hq : (if b.contains 39 && !b.contains 34 then 34 else 39) = 34 ∨
        (if b.contains 39 && !b.contains 34 then 34 else 39) = 39 := by
      split <;> simp
    revert hq
    generalize (if b.contains 39 && !b.contains 34 then 34 else 39) = q
    intro hq
    rw [List.forall₂_map_right_iff, List.forall₂_same]
    intro c hc
    have hc := hb c hc
    unfold reprByte
    split_ifs with h1 h2 h3 h4 h5
    · exact .escaped h1
    · subst h2; exact .tab
    · subst h3; exact .newline
    · subst h4; exact .return
    · have e : c = 16 * (c / 16) + c % 16 := by omega
      have hh : hex2 c = [(txt "0123456789abcdef").getD (c / 16) 0,
          (txt "0123456789abcdef").getD (c % 16) 0] := by
        have key : ∀ d, d < 16 → (if d < 10 then 48 + d else 87 + d) =
            (txt "0123456789abcdef").getD d 0 := by decide
        simp only [hex2, List.map_cons, List.map_nil]
        rw [key _ (by omega), key _ (by omega)]
      rw [hh]
      have := ShowsByte.hex (q := q) (h := c / 16) (l := c % 16) (by omega) (by omega) (by
        intro d hd
        rw [← e] at hd
        subst hd
        simp [h2, h3, h4]
        omega)
      rwa [← e] at this
    · exact .plain (by omega) (by omega) (by tauto) (by tauto)
  · simp only [bytesRepr, List.flatMap_def]
    rfl
  · rintro ⟨h1, h2⟩
    simp [h1, h2]
  · intro h
    rw [if_neg]
    simpa using h

example : bytesRepr (txt "it's\n" ++ [0, 255, 127]) = txt "b\"it's\\n\\x00\\xff\\x7f\"" := by decide

/-- **C80.** So there is such a token exactly if the text has a clue. -/
theorem C80_some_iff (t : List Nat) :
    virusTokens t ≠ [] ↔ ∃ k l, k ≤ t.length ∧ Clue t k l ∧ ReadsAt t k l := by
  obtain ⟨ls, h, e⟩ := C80_virus_tokens t
  rw [e]
  cases h with
  | done h =>
    simp only [List.map_nil, ne_eq, not_true_eq_false, false_iff]
    rintro ⟨k, l, h1, h2, h3⟩
    exact h k l (Nat.zero_le _) h1 h2 h3
  | next h1 h2 h3 h4 h5 _ =>
    simp only [List.map_cons, ne_eq, reduceCtorEq, not_false_iff, true_iff]
    exact ⟨_, _, h2, h4, h5⟩

example : Clue (txt "a <iframe src=\"cid:x") 2 (txt "<iframe") :=
  .inl ⟨[], [], txt "iframe", rfl, .inl rfl, by simp, .inr rfl, by
    intro c hc; have : c = 32 := by simpa [txt] using hc.symm
    subst this; decide⟩
example : virusTokens (txt "a <iframe src=\"cid:x width=0> </ script>") =
    [.str (txt "virus:b'<iframe'"), .str (txt "virus:b'src=\"cid:'"), .str (txt "virus:b'width=0'"),
      .str (txt "virus:b'</ script'")] := by decide
example : virusTokens (txt "<scripts minwidth=0 height=\"10") = [] := by decide

/-! ### C81 -/

/-- **C81.** The tokens of a piece of the subject that can be tokenized: its charset, its
words of 3 to 12 characters (in the case they have), and its runs of other characters than
word characters. -/
theorem C81_subject (U : Str) (x : Txt) (charset : Option Txt) (h : PieceFine U (.str x)) :
    (subjectCharset charset).andThen (subjectChunk U (.str x)) =
      .yield ((match charset with
          | none => []
          | some c => [.str (txt "subjectcharset:" ++ c)]) ++
        ((words (fun c => !(U.word c || decide (128 ≤ c ∧ c ≤ 255) || (txt "$.%").contains c))
          (x.map (fun c => if c = 13 then 32 else c))).filter (fun w => 3 ≤ w.length)).map
            (fun w => .str (txt "subject:" ++ w)) ++
        (words U.word (x.map (fun c => if c = 13 then 32 else c))).map
          (fun w => .str (txt "subject:" ++ w))) := by
  obtain ⟨x', hx, h⟩ := h
  injection hx with hx
  subst hx
  rw [show (fun c => !(U.word c || decide (128 ≤ c ∧ c ≤ 255) || (txt "$.%").contains c)) =
    (fun c => !subjectCh U c) by rw [subjectCh_eq]] at h ⊢
  simp only [subjectChunk, subjectText, noCr]
  generalize words (fun c => !subjectCh U c) (x.map (fun c => if c = 13 then 32 else c)) = ws at h
  have hE : Gen.each (fun w => (wordStr w).map subjectTok) ws =
      ⟨(ws.filter (fun w => 3 ≤ w.length)).map (fun w => .str (txt "subject:" ++ w)), none⟩ := by
    rw [each_ok (f := fun w => (wordStr w).map subjectTok)
      (fun w hw => show (wordStr w).stop = none from wordStr_stop.2 (h w hw))]
    congr 1
    induction ws with
    | nil => rfl
    | cons w ws ih =>
      rw [List.flatMap_cons, ih (fun v hv => h v (List.mem_cons_of_mem _ hv))]
      have hw := h w (by simp)
      by_cases h3 : 3 ≤ w.length
      · simp [wordStr, maxWord, h3, hw, Gen.yield, Gen.map, subjectTok]
      · simp [wordStr, maxWord, h3, Gen.yield, Gen.map]
  rw [hE]
  cases charset <;> simp [subjectCharset, Gen.yield, Gen.andThen]

/-- What one address contributes: its name, in lower case, if it has one, and the two
sides of the `@`, in lower case. -/
def AddressTokens (U : Str) (field : Txt) (a : AddrView) (toks : List Tok) : Prop :=
  ∃ ns as : List Tok, toks = ns ++ as ∧
    (a.name = [] → ns = []) ∧
    (a.name ≠ [] → a.decoded = none → ns = [.str (field ++ txt ":name:" ++ U.lower a.name),
      .str (field ++ txt ":charset:invalid")]) ∧
    (a.name ≠ [] → ∀ x, a.decoded = some [(.inl x, none)] →
      ns = [.str (field ++ txt ":name:" ++ U.lower x)]) ∧
    (a.name ≠ [] → ∀ b cs, a.decoded = some [(.inr b, some cs)] →
      ns = [.str (field ++ txt ":name:" ++ bytesRepr (lower b)), .str (field ++ txt ":charset:" ++ cs)]) ∧
    (a.addr = [] → as = [.str (field ++ txt ":addr:none")]) ∧
    (a.addr ≠ [] → ∃ ps : List Txt, joinWith 64 ps = U.lower a.addr ∧ (∀ p ∈ ps, 64 ∉ p) ∧ ps ≠ [] ∧
      as = ps.map (fun p => .str (field ++ txt ":addr:" ++ p)))

/-- **C81.** A subject is taken piece by piece; if it cannot be decoded, it is one piece with
the charset "invalid". -/
theorem C81_pieces (U : Str) (h : HeaderView) :
    (∀ ps, h.subjectDecoded = some ps → subjectTokens U h =
      Gen.each (fun p => (subjectCharset p.2).andThen (subjectChunk U p.1)) ps) ∧
    (∀ x, h.subjectDecoded = none → h.subject = .str x → subjectTokens U h =
      (Gen.yield [.str (txt "subjectcharset:invalid")]).andThen (subjectChunk U (.str x))) := by
  constructor
  · intro ps h1
    unfold subjectTokens subjectChunks
    rw [h1]
  · intro x h1 h2
    have : ∀ g : Gen, g.andThen (.yield []) = g := by
      intro g
      cases g with
      | mk toks stop => cases stop <;> simp [Gen.andThen, Gen.yield]
    unfold subjectTokens subjectChunks
    rw [h1, h2]
    show (Gen.andThen _ _).andThen (.yield []) = _
    rw [this]
    rfl

/-- **C81.** The tokens of an address header: a mark if there is no such header;
otherwise the tokens of its addresses in order, and the number of addresses without a
name, if there are any, as a rounded power of two. -/
theorem C81_addresses (U : Str) (h : HeaderView) (field : Txt) :
    (h.addresses field = none → fieldTokens U h field = [.str (field ++ txt ":none")]) ∧
    (∀ as, h.addresses field = some as → ∃ tss : List (List Tok),
      List.Forall₂ (AddressTokens U field) as tss ∧
      fieldTokens U h field = tss.flatten ++
        (if ∀ a ∈ as, a.name ≠ [] then []
          else [.str (field ++ txt ":no real name:2**" ++
            digitsOf (U.log2 (as.countP (fun a => a.name = []))))])) := by
  refine ⟨?_, ?_⟩
  · intro h0; simp [fieldTokens, h0]
  · intro as h0
    refine ⟨as.map (addrTokens U field), ?_, ?_⟩
    · rw [List.forall₂_map_right_iff, List.forall₂_same]
      intro a _
      refine ⟨_, _, rfl, ?_, ?_, ?_, ?_, ?_, ?_⟩
      · intro hn; simp [hn]
      · intro hn hd; simp [hn, hd, nameTokens, showName, txt]
      · intro hn x hd; simp [hn, hd, nameTokens, showName]
      · intro hn b cs hd; simp [hn, hd, nameTokens, showName]
      · intro ha; simp [ha]
      · intro ha
        refine ⟨splitOn 64 (U.lower a.addr), join_split _ _, fun p hp => not_mem_of_mem_splitOn hp,
          splitOn_ne_nil _ _, by simp [ha]⟩
    · unfold fieldTokens
      rw [h0]
      simp only [List.countP_eq_length_filter, List.flatMap_def]
      congr 1
      by_cases hn : ∀ a ∈ as, a.name ≠ []
      · rw [if_pos hn, if_pos]
        rw [List.length_eq_zero_iff, List.filter_eq_nil_iff]
        intro a ha; simpa using hn a ha
      · rw [if_neg hn, if_neg]
        rw [List.length_eq_zero_iff, List.filter_eq_nil_iff]
        intro h'
        exact hn (fun a ha => by simpa using h' a ha)

theorem countAddrs_eq (ls : List Txt) :
    countAddrs (ls.map HVal.str) = .ok ((ls.map (fun t => t.count 44 + 1)).sum) := by
  induction ls with
  | nil => rfl
  | cons t ls ih => simp [countAddrs, ih, length_splitOn]

/-- **C81.** The number of recipients in To or Cc lines is taken to be the number of
commas and lines; it is reported as a rounded power of two if there is such a line. -/
theorem C81_recipients (U : Str) (field : Txt) (ls : List Txt) :
    countTokens U field (ls.map HVal.str) =
      .yield (if ls = [] then []
        else [.str (field ++ txt ":2**" ++ digitsOf (U.log2 ((ls.map (fun t => t.count 44 + 1)).sum)))]) := by
  unfold countTokens
  rw [countAddrs_eq]
  cases ls with
  | nil => rfl
  | cons t ls =>
    have : ((t :: ls).map (fun t => t.count 44 + 1)).sum ≠ 0 := by
      rw [List.map_cons, List.sum_cons]; omega
    simp only [this, if_false, reduceCtorEq]

/-- **C81.** X-Mailer: in lower case, with single spaces between the words. -/
theorem C81_mailer (U : Str) (x : Txt) :
    mailerTokens U (some (.str x)) =
      .yield [.str (txt "x-mailer:" ++ joinWith 32 (words U.space (U.lower x)))] ∧
    mailerTokens U none = mailerTokens U (some (.str (txt "none"))) := ⟨rfl, rfl⟩

/-- **C81.** All tokens of the headers, in order. -/
theorem C81_order (U : Str) (countAll recordAbsence : Bool) (parts : List PartView) (h : HeaderView)
    (hf : (tokenizeHeaders U countAll recordAbsence parts h).stop = none) :
    (tokenizeHeaders U countAll recordAbsence parts h).toks =
      parts.flatMap (fun p => (crackContent U p).toks) ++
      (subjectTokens U h).toks ++
      fieldTokens U h (txt "from") ++ fieldTokens U h (txt "to") ++ fieldTokens U h (txt "cc") ++
      fieldTokens U h (txt "sender") ++ fieldTokens U h (txt "reply-to") ++
      (countTokens U (txt "to") h.toLines).toks ++ (countTokens U (txt "cc") h.ccLines).toks ++
      (mailerTokens U h.mailer).toks ++ (messageIdTokens U h.msgid).toks ++
      headerTokens U.lower countAll recordAbsence h.names := by
  unfold tokenizeHeaders at hf ⊢
  simp only [andThen_stop_none, each_stop_none] at hf
  obtain ⟨h1, h2, _, h4, h5, h6, h7, _⟩ := hf
  rw [each_ok h1]
  rw [andThen_toks rfl, andThen_toks h2, andThen_toks rfl, andThen_toks h4, andThen_toks h5,
    andThen_toks h6, andThen_toks h7]
  simp [Gen.yield, addressHeaders, List.append_assoc]

/-- Cases -/
example : subjectChunk asciiStr (.str (txt "FREE money!! 29.95$")) =
    ⟨[txt "subject:FREE", txt "subject:money", txt "subject:29.95$", txt "subject: ",
      txt "subject:!! ", txt "subject:.", txt "subject:$"].map Tok.str, none⟩ := by decide
example : fieldTokens asciiStr ⟨.str [], none, fun _ =>
      some [⟨txt "Jo Doe", some [(.inl (txt "Jo Doe"), none)], txt "Jo@Example.org"⟩,
        ⟨[], none, txt "x"⟩, ⟨txt "?", none, []⟩], [], [], none, none, []⟩ (txt "to") =
    [txt "to:name:jo doe", txt "to:addr:jo", txt "to:addr:example.org", txt "to:addr:x",
      txt "to:name:?", txt "to:charset:invalid", txt "to:addr:none",
      txt "to:no real name:2**0"].map Tok.str := by decide
example : countTokens asciiStr (txt "to") [.str (txt "\"Doe, Jo\" <jo@a>"), .str (txt "b@c,d@e")] =
    ⟨[.str (txt "to:2**2")], none⟩ := by decide
example : mailerTokens asciiStr (some (.str (txt "Some  Mailer\t1.0"))) =
    ⟨[.str (txt "x-mailer:some mailer 1.0")], none⟩ := by decide

end Sb.Props
