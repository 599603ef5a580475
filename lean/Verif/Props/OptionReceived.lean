import Verif.Props.OptionHeaders
import Verif.Props.Sections
import Mathlib.Data.List.Infix

/-
C88: the tokens mined from Received headers.
-/

set_option linter.unusedSectionVars false

namespace Sb.Props
open Py Py.Re Py.Text Sb.Mail Sb.Strip Sb.Tokenize
open Sb.Net (breakdownHost breakdownIpaddr)

/-! ### Specification -/

/-- A letter from a to z. -/
def Letter (c : Nat) : Prop := 97 ≤ c ∧ c ≤ 122

/-- A complaint: words of letters in parentheses, two or more of them, with white space
between them. -/
def Complaint (U : Str) (w : Txt) : Prop :=
  ∃ body, w = txt "(" ++ body ++ txt ")" ∧ (∀ c ∈ body, Letter c ∨ U.space c = true) ∧
    (∃ a, body.head? = some a ∧ Letter a) ∧ (∃ a, body.getLast? = some a ∧ Letter a) ∧
    ∃ c ∈ body, U.space c = true

/-- A host: "from ", two or more characters that are letters, digits, dots, underscores and
hyphens, the last one a letter, and a closing parenthesis or white space. -/
def HostClue (U : Str) (w host : Txt) : Prop :=
  ∃ c, w = txt "from " ++ host ++ [c] ∧ 2 ≤ host.length ∧
    (∀ a ∈ host, Letter a ∨ (48 ≤ a ∧ a ≤ 57) ∨ a ∈ txt "._-") ∧
    (∃ a, host.getLast? = some a ∧ Letter a) ∧ (c ∈ txt ")" ∨ U.space c = true)

/-- One to three digits and perhaps a dot. -/
def Quad (U : StrMore) (q : Txt) : Prop :=
  ∃ ds, (q = ds ∨ q = ds ++ txt ".") ∧ ds ≠ [] ∧ ds.length ≤ 3 ∧ ∀ c ∈ ds, U.digit c = true

/-- An address: four such pieces in brackets or parentheses. -/
def IpClue (U : StrMore) (w ip : Txt) : Prop :=
  ∃ x y a b c d, w = [x] ++ ip ++ [y] ∧ ip = a ++ b ++ c ++ d ∧ x ∈ txt "[(" ∧ y ∈ txt "])" ∧
    Quad U a ∧ Quad U b ∧ Quad U c ∧ Quad U d

/-- All words of the kind L in a text, from left to right, without overlaps. -/
inductive AllWords (L : List Nat → Prop) : List Nat → List (List Nat) → Prop
  | none {t : List Nat} : NoWord L t → AllWords L t []
  | more {t pre w post : List Nat} {ws : List (List Nat)} : FirstWord L t pre w post →
      AllWords L post ws → AllWords L t (w :: ws)

/-- The parts of the first host: its last label, its last two labels and so on. -/
def HostParts (U : Str) (h : Txt) (parts : List Txt) : Prop :=
  (NoWord (fun w => ∃ host, HostClue U w host) h ∧ parts = []) ∨
  ∃ pre w post host labels, FirstWord (fun w => ∃ host, HostClue U w host) h pre w post ∧
    HostClue U w host ∧ host = joinWith 46 labels ∧ labels ≠ [] ∧ (∀ l ∈ labels, 46 ∉ l) ∧
    parts = (List.range labels.length).map
      (fun i => joinWith 46 (labels.drop (labels.length - (i + 1))))

/-- The parts of the first address: its first label, its first two labels and so on,
always four of them. -/
def IpParts (U : StrMore) (h : Txt) (parts : List Txt) : Prop :=
  (NoWord (fun w => ∃ ip, IpClue U w ip) h ∧ parts = []) ∨
  ∃ pre w post ip labels, FirstWord (fun w => ∃ ip, IpClue U w ip) h pre w post ∧
    IpClue U w ip ∧ ip = joinWith 46 labels ∧ labels ≠ [] ∧ (∀ l ∈ labels, 46 ∉ l) ∧
    parts = [joinWith 46 (labels.take 1), joinWith 46 (labels.take 2), joinWith 46 (labels.take 3),
      joinWith 46 (labels.take 4)]

/-- The tokens of a Received header: its complaints, the parts of its first host and of
its first address.  Before, its words are put on one line, in lower case. -/
def ReceivedTokens (U : StrMore) (v : Txt) (toks : List Tok) : Prop :=
  ∃ ws h cs hosts ips, InWords U.space v ws ∧ h = U.lower (joinWith 32 ws) ∧
    AllWords (Complaint U.toStr) h cs ∧ HostParts U.toStr h hosts ∧ IpParts U h ips ∧
    toks = (cs ++ hosts ++ ips).map (fun t => .str (txt "received:" ++ t))

/-- What is used about `\s` and `\d`: white space is neither a letter, an ASCII digit, one
of the characters . _ - nor a parenthesis, and a dot, a bracket and a parenthesis are not
digits. -/
structure PlainClasses (U : StrMore) : Prop where
  space : ∀ c, U.space c = true → ¬ Letter c ∧ ¬ (48 ≤ c ∧ c ≤ 57) ∧ c ∉ txt "._-()"
  digit : ∀ c ∈ txt ".])", U.digit c = false

/-! ### Patterns -/

theorem isLetter_iff {c : Nat} : isLetter c = true ↔ Letter c := by simp [isLetter, Letter]

/-- Words that end with a character that cannot be in them are prefix free. -/
theorem lang_end {r : Re} {L : List Nat → Prop} (n : Nat) (P : Nat → Prop)
    (hi : ∀ t i j, Matches t r i j ↔ ∃ w, L w ∧ j = i + w.length ∧ ReadsAt t i w)
    (h : ∀ w, L w → ∃ p u x, w = p ++ (u ++ [x]) ∧ p.length = n ∧ (∀ c ∈ u, P c) ∧ ¬ P x) :
    Lang r L where
  iff := hi
  pre w w' hw hw' hp := by
    obtain ⟨p, u, x, rfl, hn, hu, hx⟩ := h w hw
    obtain ⟨p', u', x', rfl, hn', hu', hx'⟩ := h w' hw'
    obtain ⟨post, he'⟩ := hp
    rw [List.append_assoc] at he'
    obtain ⟨rfl, he⟩ := List.append_inj he' (by omega)
    rw [List.append_assoc, List.singleton_append] at he
    rcases List.eq_nil_or_concat post with rfl | ⟨post, y, rfl⟩
    · rw [← he]
    · rw [show u ++ x :: post.concat y = (u ++ x :: post) ++ [y] by simp] at he
      have he := congrArg List.dropLast he
      rw [List.dropLast_concat, List.dropLast_concat] at he
      exact absurd (hu' x (by rw [← he]; simp)) hx
  ne w hw := by
    obtain ⟨p, u, x, rfl, _⟩ := h w hw
    simp

/-- Words of letters, each after white space. -/
def MoreWords (U : Str) (s : Txt) : Prop :=
  (∀ c ∈ s, Letter c ∨ U.space c = true) ∧
    (s = [] ∨ (∃ a, s.head? = some a ∧ U.space a = true) ∧ ∃ a, s.getLast? = some a ∧ Letter a)

def moreRe (U : Str) : Re := .seq (.plus (.chr U.space)) (.plus (.chr isLetter))

theorem matches_more {U : Str} {t : Txt} {i j : Nat} : Matches t (moreRe U) i j ↔
    ∃ sp lt : Txt, sp ≠ [] ∧ (∀ c ∈ sp, U.space c = true) ∧ lt ≠ [] ∧ (∀ c ∈ lt, Letter c) ∧
      j = i + (sp ++ lt).length ∧ ReadsAt t i (sp ++ lt) := by
  simp only [moreRe, matches_seq, matches_plus_chr, isLetter_iff]
  constructor
  · rintro ⟨k, ⟨sp, h1, rfl, h3, h4⟩, lt, h5, rfl, h7, h8⟩
    exact ⟨sp, lt, h1, h3, h5, h7, by simp; omega, readsAt_append.2 ⟨h4, h8⟩⟩
  · rintro ⟨sp, lt, h1, h3, h5, h7, rfl, h8⟩
    rw [readsAt_append] at h8
    exact ⟨_, ⟨sp, h1, rfl, h3, h8.1⟩, lt, h5, by simp; omega, h7, h8.2⟩

theorem more_sound {U : Str} {t : Txt} {i j : Nat} (h : Matches t (.star (moreRe U)) i j) :
    ∃ s, MoreWords U s ∧ j = i + s.length ∧ ReadsAt t i s := by
  generalize hr : Re.star (moreRe U) = r at h
  induction h with
  | starZ => exact ⟨[], ⟨by simp, .inl rfl⟩, rfl, readsAt_nil _ _⟩
  | starS h1 _ _ _ ih2 =>
    cases hr
    obtain ⟨s, ⟨a1, a2⟩, a3, a4⟩ := ih2 rfl
    obtain ⟨sp, lt, b1, b2, b3, b4, rfl, b6⟩ := matches_more.1 h1
    refine ⟨sp ++ lt ++ s, ⟨?_, .inr ⟨?_, ?_⟩⟩, ?_, ?_⟩
    · intro c hc
      rw [List.mem_append, List.mem_append] at hc
      rcases hc with (hc | hc) | hc
      · exact .inr (b2 c hc)
      · exact .inl (b4 c hc)
      · exact a1 c hc
    · obtain ⟨a, sp, rfl⟩ := List.exists_cons_of_ne_nil b1
      exact ⟨a, by simp, b2 a (by simp)⟩
    · rcases a2 with rfl | ⟨_, a, ha, hl⟩
      · refine ⟨lt.getLast b3, ?_, b4 _ (List.getLast_mem _)⟩
        rw [List.append_nil, List.getLast?_append, List.getLast?_eq_some_getLast b3]; rfl
      · exact ⟨a, by rw [List.getLast?_append, ha]; rfl, hl⟩
    · rw [a3, List.length_append (bs := s)]; omega
    · exact readsAt_append.2 ⟨b6, a4⟩
  | _ => cases hr

theorem takeWhile_all {p : Nat → Bool} {l : Txt} : ∀ c ∈ l.takeWhile p, p c = true :=
  fun _ hc => (List.mem_takeWhile_imp hc)

theorem dropWhile_head {p : Nat → Bool} {l : Txt} {a : Nat} (h : (l.dropWhile p).head? = some a) :
    p a = false := by
  have := List.head?_dropWhile_not p l
  rw [h] at this
  simpa using this

theorem more_complete {U : Str} (hU : ∀ c, U.space c = true → ¬ Letter c) {t : Txt} :
    ∀ (n : Nat) (s : Txt) (i : Nat), s.length ≤ n → MoreWords U s → ReadsAt t i s →
      Matches t (.star (moreRe U)) i (i + s.length) := by
  intro n
  induction n with
  | zero =>
    intro s i hs _ _
    have : s = [] := List.length_eq_zero_iff.1 (by omega)
    subst this
    exact .starZ
  | succ n ih =>
    intro s i hs ⟨h1, h2⟩ hr
    rcases h2 with rfl | ⟨⟨a, ha, hsp⟩, b, hb, hl⟩
    · exact .starZ
    · let sp := s.takeWhile U.space
      let s1 := s.dropWhile U.space
      let lt := s1.takeWhile isLetter
      let s2 := s1.dropWhile isLetter
      have e1 : sp ++ s1 = s := List.takeWhile_append_dropWhile
      have e2 : lt ++ s2 = s1 := List.takeWhile_append_dropWhile
      have hne : sp ≠ [] := by
        obtain ⟨a', s', rfl⟩ := List.exists_cons_of_ne_nil (l := s) (by rintro rfl; cases ha)
        simp only [List.head?_cons, Option.some.injEq] at ha
        subst ha
        simp [sp, hsp]
      have hs1 : s1 ≠ [] := by
        intro h0
        rw [h0, List.append_nil] at e1
        have := takeWhile_all (p := U.space) (l := s) b (by
          rw [show s.takeWhile U.space = s from e1]
          exact List.mem_of_getLast? hb)
        exact hU b this hl
      have hlt : lt ≠ [] := by
        obtain ⟨d, s1', hd⟩ := List.exists_cons_of_ne_nil hs1
        have hd1 : U.space d = false := dropWhile_head (p := U.space) (l := s) (by
          rw [show s.dropWhile U.space = s1 from rfl, hd]; rfl)
        have hd2 : Letter d := by
          rcases h1 d (by rw [← e1, hd]; simp) with h | h
          · exact h
          · rw [hd1] at h; cases h
        simp [lt, hd, isLetter_iff.2 hd2]
      have hlast : s2 = [] ∨ s2.getLast? = some b := by
        by_cases h0 : s2 = []
        · exact .inl h0
        · right
          rw [← e1, ← e2, List.getLast?_append, List.getLast?_append,
            List.getLast?_eq_some_getLast h0] at hb
          rw [List.getLast?_eq_some_getLast h0]
          simpa using hb
      have hm2 : MoreWords U s2 := by
        refine ⟨fun c hc => h1 c (by rw [← e1, ← e2]; simp [hc]), ?_⟩
        rcases hlast with h0 | h0
        · exact .inl h0
        · refine .inr ⟨?_, b, h0, hl⟩
          obtain ⟨d, s2', hd⟩ := List.exists_cons_of_ne_nil (l := s2) (by
            intro h; rw [h] at h0; cases h0)
          have hd1 : isLetter d = false := dropWhile_head (p := isLetter) (l := s1) (by
            rw [show s1.dropWhile isLetter = s2 from rfl, hd]; rfl)
          refine ⟨d, by rw [hd]; rfl, ?_⟩
          rcases h1 d (by rw [← e1, ← e2, hd]; simp) with h | h
          · rw [isLetter_iff.2 h] at hd1; cases hd1
          · exact h
      rw [← e1, ← e2, ← List.append_assoc, readsAt_append] at hr
      have hpos : 0 < sp.length := List.length_pos_iff.2 hne
      have hlen : s.length = (sp ++ lt).length + s2.length := by
        rw [← e1, ← e2]; simp; omega
      have hlen2 : (sp ++ lt).length = sp.length + lt.length := List.length_append
      have hm := ih s2 (i + (sp ++ lt).length) (by omega) hm2 hr.2
      rw [hlen, ← Nat.add_assoc]
      exact .starS (matches_more.2 ⟨sp, lt, hne, takeWhile_all, hlt,
        fun c hc => isLetter_iff.1 (takeWhile_all c hc), rfl, hr.1⟩) (by omega) hm

theorem star_plus {t : Txt} {r : Re} {i j : Nat} (h : Matches t (.star r) i j) (hij : i < j) :
    Matches t (.plus r) i j := by
  cases h with
  | starZ => omega
  | starS h1 _ h2 => exact .seq h1 h2

theorem lang_complaints {U : StrMore} (hU : PlainClasses U) :
    Lang (complaintsRe U.toStr) (Complaint U.toStr) := by
  refine lang_end 1 (fun c => Letter c ∨ U.space c = true) ?_ ?_
  · intro t i j
    simp only [complaintsRe, Re.cat, matches_seq, matches_lit, matches_plus_chr, isLetter_iff]
    constructor
    · rintro ⟨_, ⟨rfl, r1⟩, _, ⟨lt, n2, rfl, a2, r2⟩, k, h3, rfl, r4⟩
      rw [Re.plus, matches_seq] at h3
      obtain ⟨_, h3, h3'⟩ := h3
      obtain ⟨sp, lt', b1, b2, b3, b4, rfl, b6⟩ := matches_more.1 h3
      obtain ⟨s, ⟨c1, c2⟩, rfl, c4⟩ := more_sound h3'
      refine ⟨_, ⟨lt ++ (sp ++ lt' ++ s), rfl, ?_, ?_, ?_, ?_⟩, ?_, ?_⟩
      · intro c hc
        simp only [List.mem_append] at hc
        rcases hc with hc | (hc | hc) | hc
        · exact .inl (a2 c hc)
        · exact .inr (b2 c hc)
        · exact .inl (b4 c hc)
        · exact c1 c hc
      · obtain ⟨a, lt, rfl⟩ := List.exists_cons_of_ne_nil n2
        exact ⟨a, by simp, a2 a (by simp)⟩
      · rcases c2 with rfl | ⟨_, a, ha, hl⟩
        · refine ⟨lt'.getLast b3, ?_, b4 _ (List.getLast_mem _)⟩
          rw [List.append_nil, List.getLast?_append, List.getLast?_append,
            List.getLast?_eq_some_getLast b3]; rfl
        · exact ⟨a, by rw [List.getLast?_append, List.getLast?_append, ha]; rfl, hl⟩
      · obtain ⟨a, sp, rfl⟩ := List.exists_cons_of_ne_nil b1
        exact ⟨a, by simp, b2 a (by simp)⟩
      · simp [txt]; omega
      · simp only [readsAt_append, List.length_append, ← Nat.add_assoc] at b6 ⊢
        simp only [List.length_append, ← Nat.add_assoc] at c4 r4
        exact ⟨⟨r1, r2, b6, c4⟩, r4⟩
    · rintro ⟨w, ⟨body, rfl, h1, ⟨a, ha, hla⟩, ⟨b, hb, hlb⟩, c, hc, hsp⟩, rfl, hr⟩
      have e1 : body.takeWhile isLetter ++ body.dropWhile isLetter = body :=
        List.takeWhile_append_dropWhile
      have hlt : body.takeWhile isLetter ≠ [] := by
        obtain ⟨a', s', rfl⟩ := List.exists_cons_of_ne_nil (l := body) (by rintro rfl; cases ha)
        simp only [List.head?_cons, Option.some.injEq] at ha
        subst ha
        simp [isLetter_iff.2 hla]
      have hs1 : body.dropWhile isLetter ≠ [] := by
        intro h0
        rw [h0, List.append_nil] at e1
        have := takeWhile_all (p := isLetter) (l := body) c (by rw [e1]; exact hc)
        exact (hU.space c hsp).1 (isLetter_iff.1 this)
      have hm : MoreWords U.toStr (body.dropWhile isLetter) := by
        refine ⟨fun d hd => h1 d (by rw [← e1]; exact List.mem_append_right _ hd), .inr ⟨?_, ?_⟩⟩
        · obtain ⟨d, s', hd⟩ := List.exists_cons_of_ne_nil hs1
          have hd1 : isLetter d = false := dropWhile_head (l := body) (by rw [hd]; rfl)
          refine ⟨d, by rw [hd]; rfl, ?_⟩
          rcases h1 d (by rw [← e1, hd]; simp) with h | h
          · rw [isLetter_iff.2 h] at hd1; cases hd1
          · exact h
        · refine ⟨b, ?_, hlb⟩
          rw [← e1, List.getLast?_append, List.getLast?_eq_some_getLast hs1] at hb
          rw [List.getLast?_eq_some_getLast hs1]
          simpa using hb
      have hlet : ∀ d ∈ body.takeWhile isLetter, Letter d :=
        fun d hd => isLetter_iff.1 (takeWhile_all d hd)
      rw [← e1]
      rw [← e1] at hr
      generalize body.takeWhile isLetter = lt at *
      generalize body.dropWhile isLetter = s at *
      simp only [readsAt_append, List.length_append, ← Nat.add_assoc] at hr
      obtain ⟨⟨r1, r2, r3⟩, r4⟩ := hr
      have := more_complete (fun c h => (hU.space c h).1) s.length s _ (Nat.le_refl _) hm r3
      have hpos := List.length_pos_iff.2 hs1
      exact ⟨_, ⟨rfl, r1⟩, _, ⟨lt, hlt, rfl, hlet, r2⟩, _, star_plus this (Nat.lt_add_of_pos_right hpos),
        by simp [txt]; omega, r4⟩
  · rintro w ⟨body, rfl, h1, _⟩
    refine ⟨txt "(", body, 41, by simp [txt], rfl, h1, ?_⟩
    rintro (h | h)
    · exact absurd h.1 (by decide)
    · exact (hU.space 41 h).2.2 (by decide)

theorem isHostCh_iff {c : Nat} :
    isHostCh c = true ↔ Letter c ∨ (48 ≤ c ∧ c ≤ 57) ∨ c ∈ txt "._-" := by
  simp only [isHostCh, Bool.or_eq_true, isLetter_iff, beq_iff_eq, isDigit, Bool.and_eq_true,
    decide_eq_true_eq, show txt "._-" = [46, 95, 45] from rfl, List.mem_cons, List.not_mem_nil,
    or_false, or_assoc]

/-- The host itself. -/
theorem matches_hostBody {t : Txt} {i j : Nat} :
    Matches t (.seq (.plus (.chr isHostCh)) (.chr isLetter)) i j ↔
      ∃ host : Txt, j = i + host.length ∧ ReadsAt t i host ∧ 2 ≤ host.length ∧
        (∀ a ∈ host, Letter a ∨ (48 ≤ a ∧ a ≤ 57) ∨ a ∈ txt "._-") ∧
        (∃ a, host.getLast? = some a ∧ Letter a) := by
  simp only [matches_seq, matches_plus_chr, matches_chr, isHostCh_iff, isLetter_iff]
  constructor
  · rintro ⟨_, ⟨s, n1, rfl, a1, r1⟩, rfl, c, hc, hl⟩
    have := List.length_pos_iff.2 n1
    refine ⟨s ++ [c], by simp; omega, readsAt_append.2 ⟨r1, ?_⟩, by simp; omega, ?_,
      c, by simp, hl⟩
    · rw [readsAt_cons]; exact ⟨hc, readsAt_nil _ _⟩
    · intro a ha
      rcases List.mem_append.1 ha with ha | ha
      · exact a1 a ha
      · rw [List.mem_singleton] at ha; subst ha; exact .inl hl
  · rintro ⟨host, rfl, r1, n1, a1, c, hc, hl⟩
    obtain ⟨s, rfl⟩ : ∃ s, host = s ++ [c] := by
      rw [List.getLast?_eq_some_iff] at hc; exact hc
    rw [readsAt_append, readsAt_cons] at r1
    refine ⟨_, ⟨s, ?_, rfl, fun a ha => a1 a (by simp [ha]), r1.1⟩, by simp; omega, c, r1.2.1, hl⟩
    rintro rfl
    simp at n1

theorem lang_host {U : StrMore} (hU : PlainClasses U) :
    Lang (receivedHostRe U.toStr) (fun w => ∃ host, HostClue U.toStr w host) := by
  refine lang_end 5 (fun c => Letter c ∨ (48 ≤ c ∧ c ≤ 57) ∨ c ∈ txt "._-") ?_ ?_
  · intro t i j
    simp only [receivedHostRe, Re.cat, matches_seq, matches_grp, matches_lit]
    constructor
    · rintro ⟨_, ⟨rfl, r1⟩, _, h2, h3⟩
      rw [← matches_seq, matches_hostBody] at h2
      obtain ⟨host, rfl, r2, n2, a2, l2⟩ := h2
      rw [matches_chr] at h3
      obtain ⟨rfl, c, hc, hl⟩ := h3
      refine ⟨_, ⟨host, c, rfl, n2, a2, l2, ?_⟩, ?_, ?_⟩
      · simpa [txt] using hl
      · simp [txt]; omega
      · simp only [readsAt_append, List.length_append, ← Nat.add_assoc]
        exact ⟨⟨r1, r2⟩, readsAt_cons.2 ⟨hc, readsAt_nil _ _⟩⟩
    · rintro ⟨w, ⟨host, c, rfl, n2, a2, l2, hl⟩, rfl, hr⟩
      simp only [readsAt_append, List.length_append, ← Nat.add_assoc] at hr
      obtain ⟨⟨r1, r2⟩, r3⟩ := hr
      refine ⟨_, ⟨rfl, r1⟩, i + (txt "from ").length + host.length, ?_, ?_⟩
      · rw [← matches_seq, matches_hostBody]
        exact ⟨host, rfl, r2, n2, a2, l2⟩
      · rw [matches_chr]
        refine ⟨by simp; omega, c, (readsAt_cons.1 r3).1, ?_⟩
        simpa [txt] using hl
  · rintro w ⟨host, c, rfl, _, h1, _, h2⟩
    refine ⟨txt "from ", host, c, by simp, rfl, h1, ?_⟩
    rcases h2 with h2 | h2
    · rw [show txt ")" = [41] from rfl, List.mem_singleton] at h2
      subst h2
      rintro (h | h | h)
      · exact absurd h.1 (by decide)
      · exact absurd h.1 (by decide)
      · revert h; decide
    · obtain ⟨a1, a2, a3⟩ := hU.space c h2
      rintro (h | h | h)
      · exact a1 h
      · exact a2 h
      · exact a3 (by simp only [txt] at h ⊢; simp at h ⊢; omega)

theorem matches_quad {U : StrMore} {t : Txt} {i j : Nat} :
    Matches t (quadRe U) i j ↔ ∃ q, Quad U q ∧ j = i + q.length ∧ ReadsAt t i q := by
  simp only [quadRe, matches_seq, matches_chr, matches_upTo_chr, Quad,
    show Re.lit [46] = .chr (· == 46) from rfl, matches_opt_chr]
  constructor
  · rintro ⟨_, ⟨_, ⟨rfl, c, hc, hd⟩, s, n2, rfl, a2, r2⟩, q, hq, rfl, r3⟩
    refine ⟨c :: s ++ q, ⟨c :: s, ?_, by simp, by simp; omega, ?_⟩, by simp; omega, ?_⟩
    · rcases hq with rfl | ⟨d, hd, rfl⟩
      · exact .inl (by simp)
      · right; simp at hd; subst hd; rfl
    · intro d hd'
      rcases List.mem_cons.1 hd' with rfl | hd'
      · exact hd
      · exact a2 d hd'
    · rw [readsAt_append, readsAt_cons]
      refine ⟨⟨hc, r2⟩, ?_⟩
      rw [List.length_cons, show i + (s.length + 1) = i + 1 + s.length by omega]
      exact r3
  · rintro ⟨q, ⟨ds, hq, n1, n2, a⟩, rfl, hr⟩
    obtain ⟨c, s, rfl⟩ := List.exists_cons_of_ne_nil n1
    have : ∃ q', q = c :: s ++ q' ∧ (q' = [] ∨ ∃ d, (d == 46) = true ∧ q' = [d]) := by
      rcases hq with rfl | rfl
      · exact ⟨[], by simp, .inl rfl⟩
      · exact ⟨[46], rfl, .inr ⟨46, rfl, rfl⟩⟩
    obtain ⟨q', rfl, hq'⟩ := this
    rw [readsAt_append, readsAt_cons] at hr
    rw [List.length_cons] at n2
    refine ⟨_, ⟨_, ⟨rfl, c, hr.1.1, a c (by simp)⟩, s, by omega, rfl,
      fun d hd => a d (by simp [hd]), hr.1.2⟩, q', hq', by simp; omega, ?_⟩
    have := hr.2
    rw [List.length_cons, show i + (s.length + 1) = i + 1 + s.length by omega] at this
    exact this

theorem matches_ipBody {U : StrMore} {t : Txt} {i j : Nat} :
    Matches t (.cat [quadRe U, quadRe U, quadRe U, quadRe U]) i j ↔
      ∃ ip : Txt, j = i + ip.length ∧ ReadsAt t i ip ∧
        ∃ a b c d, ip = a ++ b ++ c ++ d ∧ Quad U a ∧ Quad U b ∧ Quad U c ∧ Quad U d := by
  simp only [Re.cat, matches_seq, matches_quad]
  constructor
  · rintro ⟨_, ⟨a, ha, rfl, r1⟩, _, ⟨b, hb, rfl, r2⟩, _, ⟨c, hc, rfl, r3⟩, d, hd, rfl, r4⟩
    refine ⟨_, ?_, ?_, a, b, c, d, rfl, ha, hb, hc, hd⟩
    · simp; omega
    · simp only [readsAt_append, List.length_append, ← Nat.add_assoc]
      exact ⟨⟨⟨r1, r2⟩, r3⟩, r4⟩
  · rintro ⟨ip, rfl, hr, a, b, c, d, rfl, ha, hb, hc, hd⟩
    simp only [readsAt_append, List.length_append, ← Nat.add_assoc] at hr
    obtain ⟨⟨⟨r1, r2⟩, r3⟩, r4⟩ := hr
    exact ⟨_, ⟨a, ha, rfl, r1⟩, _, ⟨b, hb, rfl, r2⟩, _, ⟨c, hc, rfl, r3⟩, d, hd,
      by simp; omega, r4⟩

theorem quad_chars {U : StrMore} {q : Txt} (h : Quad U q) :
    ∀ c ∈ q, U.digit c = true ∨ c = 46 := by
  obtain ⟨ds, rfl | rfl, _, _, h⟩ := h
  · exact fun c hc => .inl (h c hc)
  · intro c hc
    rcases List.mem_append.1 hc with hc | hc
    · exact .inl (h c hc)
    · exact .inr (List.mem_singleton.1 hc)

theorem lang_ip {U : StrMore} (hU : PlainClasses U) :
    Lang (receivedIpRe U) (fun w => ∃ ip, IpClue U w ip) := by
  refine lang_end 1 (fun c => U.digit c = true ∨ c = 46) ?_ ?_
  · intro t i j
    have e : receivedIpRe U = .seq (.chr (fun c => c == 91 || c == 40))
        (.seq (.grp 1 (.cat [quadRe U, quadRe U, quadRe U, quadRe U]))
          (.chr (fun c => c == 93 || c == 41))) := rfl
    rw [e]
    simp only [matches_seq, matches_grp, matches_chr, matches_ipBody]
    constructor
    · rintro ⟨_, ⟨rfl, x, hx, hx'⟩, _, ⟨ip, rfl, r2, a, b, c, d, rfl, h⟩, rfl, y, hy, hy'⟩
      refine ⟨_, ⟨_, x, y, a, b, c, d, rfl, rfl, ?_, ?_, h⟩, ?_, ?_⟩
      · simpa [txt] using hx'
      · simpa [txt] using hy'
      · simp; omega
      · simp only [readsAt_append, readsAt_cons, readsAt_nil, and_true, List.length_append, List.length_singleton,
          ← Nat.add_assoc] at r2 hy ⊢
        exact ⟨⟨hx, r2⟩, hy⟩
    · rintro ⟨w, ⟨ip, x, y, a, b, c, d, rfl, rfl, hx, hy, h⟩, rfl, hr⟩
      simp only [readsAt_append, readsAt_cons, readsAt_nil, and_true, List.length_append, List.length_singleton,
          ← Nat.add_assoc] at hr
      refine ⟨_, ⟨rfl, x, hr.1.1, by simpa [txt] using hx⟩, _,
        ⟨_, rfl, ?_, a, b, c, d, rfl, h⟩, ?_, y, ?_, by simpa [txt] using hy⟩
      · simp only [readsAt_append, ← Nat.add_assoc, List.length_append]
        exact hr.1.2
      · simp; omega
      · have := hr.2
        simp only [List.length_append, ← Nat.add_assoc]
        exact this
  · rintro w ⟨ip, x, y, a, b, c, d, rfl, rfl, _, hy, ha, hb, hc, hd⟩
    refine ⟨[x], a ++ b ++ c ++ d, y, List.append_assoc _ _ _, rfl, ?_, ?_⟩
    · intro e he
      simp only [List.mem_append] at he
      rcases he with ((he | he) | he) | he
      · exact quad_chars ha e he
      · exact quad_chars hb e he
      · exact quad_chars hc e he
      · exact quad_chars hd e he
    · rintro (h | h)
      · rw [hU.digit y (by simp only [txt] at hy ⊢; simp at hy ⊢; omega)] at h; cases h
      · subst h; revert hy; decide

/-! ### Groups -/

/-- What group 1 holds, for patterns with one group. -/
theorem matchAt_group {a b c : Re} (hc : noGrp c = true) {t : Txt} {i : Nat} {m : Match}
    (h : matchAt (.cat [a, .grp 1 b, c]) t i = some m) :
    ∃ j k, Matches t a i j ∧ Matches t b j k ∧ Matches t c k m.stop ∧ m.group t 1 = slice t j k := by
  unfold matchAt at h
  cases hh : (run t (.cat [a, .grp 1 b, c]) ⟨i, []⟩).head? with
  | none => rw [hh] at h; cases h
  | some st =>
    rw [hh] at h
    simp only [Option.map_some, Option.some.injEq] at h
    subst h
    have hmem : st ∈ run t (.cat [a, .grp 1 b, c]) ⟨i, []⟩ := List.mem_of_head? hh
    rw [run_cat, List.mem_flatMap] at hmem
    obtain ⟨s1, hs1, hmem⟩ := hmem
    rw [run_cat, List.mem_flatMap] at hmem
    obtain ⟨s2, hs2, hmem⟩ := hmem
    rw [run, List.mem_map] at hs2
    obtain ⟨s2', hs2, rfl⟩ := hs2
    refine ⟨s1.pos, s2'.pos, run_sound hs1, run_sound hs2,
      run_sound (s := ⟨s2'.pos, (1, s1.pos, s2'.pos) :: s2'.groups⟩) hmem, ?_⟩
    have hg := run_groups (r := .cat [c]) hc hmem
    simp only [Match.group, hg, List.find?, beq_self_eq_true]

theorem search_matchAt {r : Re} {t : Txt} {i : Nat} {m : Match} (h : search r t i = some m) :
    matchAt r t m.start = some m := (searchFrom_some h).2.2.1

theorem readsAt_length {t u w : Txt} {i : Nat} (h : ReadsAt t i u) (h' : ReadsAt t i w)
    (hl : u.length = w.length) : u = w := by
  obtain ⟨a, ha⟩ := h
  obtain ⟨b, hb⟩ := h'
  rw [ha] at hb
  exact (List.append_inj hb hl).1

theorem firstWord_readsAt {L : List Nat → Prop} {t pre w post : Txt}
    (h : FirstWord L t pre w post) : ReadsAt t pre.length w :=
  ⟨post, by rw [h.1, List.append_assoc, List.drop_left]⟩

theorem search_host {U : StrMore} (hU : PlainClasses U) {h : Txt} {m : Match}
    (hs : search (receivedHostRe U.toStr) h 0 = some m) :
    ∃ pre w post, FirstWord (fun w => ∃ host, HostClue U.toStr w host) h pre w post ∧
      HostClue U.toStr w (m.group h 1) := by
  obtain ⟨pre, w, hf, h1, h2, h3⟩ := lang_search_some (lang_host hU) (Nat.zero_le _) hs
  rw [List.drop_zero] at hf
  rw [Nat.zero_add] at h1
  refine ⟨pre, w, _, hf, ?_⟩
  have hm := search_matchAt hs
  unfold receivedHostRe at hm
  obtain ⟨j, k, m1, m2, m3, hg⟩ := matchAt_group rfl hm
  rw [matches_lit] at m1
  obtain ⟨rfl, r1⟩ := m1
  rw [matches_hostBody] at m2
  obtain ⟨host, rfl, r2, n2, a2, l2⟩ := m2
  rw [matches_chr] at m3
  obtain ⟨e3, c, hc, hl⟩ := m3
  rw [readsAt_slice r2] at hg
  rw [hg]
  have hw : txt "from " ++ host ++ [c] = w := by
    refine readsAt_length (t := h) (i := m.start) ?_ (h1 ▸ firstWord_readsAt hf) ?_
    · simp only [readsAt_append, readsAt_cons, readsAt_nil, and_true, List.length_append,
        ← Nat.add_assoc]
      exact ⟨⟨r1, r2⟩, hc⟩
    · simp; omega
  exact ⟨c, hw.symm, n2, a2, l2, by simpa [txt] using hl⟩

theorem search_ip {U : StrMore} (hU : PlainClasses U) {h : Txt} {m : Match}
    (hs : search (receivedIpRe U) h 0 = some m) :
    ∃ pre w post, FirstWord (fun w => ∃ ip, IpClue U w ip) h pre w post ∧
      IpClue U w (m.group h 1) := by
  obtain ⟨pre, w, hf, h1, h2, h3⟩ := lang_search_some (lang_ip hU) (Nat.zero_le _) hs
  rw [List.drop_zero] at hf
  rw [Nat.zero_add] at h1
  refine ⟨pre, w, _, hf, ?_⟩
  have hm := search_matchAt hs
  unfold receivedIpRe at hm
  obtain ⟨j, k, m1, m2, m3, hg⟩ := matchAt_group rfl hm
  rw [matches_chr] at m1
  obtain ⟨rfl, x, r1, hx⟩ := m1
  rw [matches_ipBody] at m2
  obtain ⟨ip, rfl, r2, a, b, c, d, hip, hq⟩ := m2
  rw [matches_chr] at m3
  obtain ⟨e3, y, hy, hl⟩ := m3
  rw [readsAt_slice r2] at hg
  rw [hg]
  have hw : [x] ++ ip ++ [y] = w := by
    refine readsAt_length (t := h) (i := m.start) ?_ (h1 ▸ firstWord_readsAt hf) ?_
    · simp only [readsAt_append, readsAt_cons, readsAt_nil, and_true, List.length_append,
        ← Nat.add_assoc]
      exact ⟨⟨r1, r2⟩, hy⟩
    · simp; omega
  exact ⟨x, y, a, b, c, d, hw.symm, hip, by simpa [txt] using hx, by simpa [txt] using hl, hq⟩

theorem allWords_all {r : Re} {L : List Nat → Prop} (hL : Lang r L) {t : Txt} {n : Nat} :
    ∀ {i : Nat}, t.length - i < n → i ≤ t.length →
      AllWords L (t.drop i) ((allFrom r t n i).map (fun m => slice t m.start m.stop)) := by
  induction n with
  | zero => intro i h; omega
  | succ n ih =>
    intro i hn hi
    rw [allFrom]
    cases hs : search r t i with
    | none => exact .none (lang_search_none hL hi hs)
    | some m =>
      obtain ⟨pre, w, hf, h1, h2, h3⟩ := lang_search_some hL hi hs
      have hw : slice t m.start m.stop = w := by
        rw [h2]
        refine readsAt_slice ⟨t.drop m.stop, ?_⟩
        rw [h1, ← List.drop_drop, hf.1, List.append_assoc, List.drop_left]
      have hne := List.length_pos_iff.2 (hL.ne w hf.2.1)
      simp only [List.map_cons]
      rw [hw]
      exact .more hf (ih (by omega) h3)

theorem allWords_unique {r : Re} {L : List Nat → Prop} (hL : Lang r L) {t : Txt} {ws ws' : List Txt}
    (h : AllWords L t ws) (h' : AllWords L t ws') : ws = ws' := by
  induction h generalizing ws' with
  | none hn =>
    cases h' with
    | none _ => rfl
    | more hf _ => exact absurd hf.2.1 (hn _ _ _ hf.1)
  | more hf _ ih =>
    cases h' with
    | none hn => exact absurd hf.2.1 (hn _ _ _ hf.1)
    | more hf' h2 =>
      obtain ⟨_, rfl, rfl⟩ := firstWord_unique hL hf hf'
      rw [ih h2]

theorem labels_exist (host : Txt) :
    host = joinWith 46 (splitOn 46 host) ∧ splitOn 46 host ≠ [] ∧ ∀ l ∈ splitOn 46 host, 46 ∉ l :=
  ⟨(join_split 46 host).symm, splitOn_ne_nil _ _, fun _ hl => not_mem_of_mem_splitOn hl⟩

theorem hostParts_search {U : StrMore} (hU : PlainClasses U) (h : Txt) :
    ∃ parts, HostParts U.toStr h parts ∧
      breakdownTokens (search (receivedHostRe U.toStr) h 0) h breakdownHost =
        parts.map (fun t => .str (txt "received:" ++ t)) := by
  cases hs : search (receivedHostRe U.toStr) h 0 with
  | none =>
    refine ⟨[], .inl ⟨?_, rfl⟩, rfl⟩
    have := lang_search_none (lang_host hU) (Nat.zero_le _) hs
    rwa [List.drop_zero] at this
  | some m =>
    obtain ⟨pre, w, post, hf, hc⟩ := search_host hU hs
    obtain ⟨l1, l2, l3⟩ := labels_exist (m.group h 1)
    refine ⟨_, .inr ⟨pre, w, post, _, _, hf, hc, l1, l2, l3, rfl⟩, ?_⟩
    simp only [breakdownTokens, breakdownHost, lastN,
      List.range'_eq_map_range, List.map_map]
    refine List.map_congr_left (fun i _ => ?_)
    simp [Nat.add_comm]

theorem ipParts_search {U : StrMore} (hU : PlainClasses U) (h : Txt) :
    ∃ parts, IpParts U h parts ∧
      breakdownTokens (search (receivedIpRe U) h 0) h breakdownIpaddr =
        parts.map (fun t => .str (txt "received:" ++ t)) := by
  cases hs : search (receivedIpRe U) h 0 with
  | none =>
    refine ⟨[], .inl ⟨?_, rfl⟩, rfl⟩
    have := lang_search_none (lang_ip hU) (Nat.zero_le _) hs
    rwa [List.drop_zero] at this
  | some m =>
    obtain ⟨pre, w, post, hf, hc⟩ := search_ip hU hs
    obtain ⟨l1, l2, l3⟩ := labels_exist (m.group h 1)
    exact ⟨_, .inr ⟨pre, w, post, _, _, hf, hc, l1, l2, l3, rfl⟩, rfl⟩

theorem hostClue_unique {U : Str} {w a b : Txt} (h : HostClue U w a) (h' : HostClue U w b) :
    a = b := by
  obtain ⟨c, rfl, _⟩ := h
  obtain ⟨d, he, _⟩ := h'
  rw [List.append_assoc, List.append_assoc] at he
  have := congrArg List.dropLast (List.append_cancel_left he)
  rwa [List.dropLast_concat, List.dropLast_concat] at this

theorem ipClue_unique {U : StrMore} {w a b : Txt} (h : IpClue U w a) (h' : IpClue U w b) :
    a = b := by
  obtain ⟨x, y, _, _, _, _, rfl, _⟩ := h
  obtain ⟨x', y', _, _, _, _, he, _⟩ := h'
  rw [List.append_assoc, List.append_assoc] at he
  have := congrArg List.dropLast (List.append_inj he rfl).2
  rwa [List.dropLast_concat, List.dropLast_concat] at this

theorem labels_unique {a : Txt} {l l' : List Txt} (h : a = joinWith 46 l) (hn : l ≠ [])
    (hd : ∀ x ∈ l, 46 ∉ x) (h' : a = joinWith 46 l') (hn' : l' ≠ []) (hd' : ∀ x ∈ l', 46 ∉ x) :
    l = l' := by
  rw [← splitOn_joinWith hn hd, ← splitOn_joinWith hn' hd', ← h, ← h']

theorem hostParts_unique {U : StrMore} (hU : PlainClasses U) {h : Txt} {a b : List Txt}
    (ha : HostParts U.toStr h a) (hb : HostParts U.toStr h b) : a = b := by
  rcases ha with ⟨hn, rfl⟩ | ⟨pre, w, post, host, labels, hf, hc, h1, h2, h3, rfl⟩ <;>
    rcases hb with ⟨hn', rfl⟩ | ⟨pre', w', post', host', labels', hf', hc', h1', h2', h3', rfl⟩
  · rfl
  · exact absurd hf'.2.1 (hn _ _ _ hf'.1)
  · exact absurd hf.2.1 (hn' _ _ _ hf.1)
  · obtain ⟨_, rfl, _⟩ := firstWord_unique (lang_host hU) hf hf'
    obtain rfl := hostClue_unique hc hc'
    obtain rfl := labels_unique h1 h2 h3 h1' h2' h3'
    rfl

theorem ipParts_unique {U : StrMore} (hU : PlainClasses U) {h : Txt} {a b : List Txt}
    (ha : IpParts U h a) (hb : IpParts U h b) : a = b := by
  rcases ha with ⟨hn, rfl⟩ | ⟨pre, w, post, host, labels, hf, hc, h1, h2, h3, rfl⟩ <;>
    rcases hb with ⟨hn', rfl⟩ | ⟨pre', w', post', host', labels', hf', hc', h1', h2', h3', rfl⟩
  · rfl
  · exact absurd hf'.2.1 (hn _ _ _ hf'.1)
  · exact absurd hf.2.1 (hn' _ _ _ hf.1)
  · obtain ⟨_, rfl, _⟩ := firstWord_unique (lang_ip hU) hf hf'
    obtain rfl := ipClue_unique hc hc'
    obtain rfl := labels_unique h1 h2 h3 h1' h2' h3'
    rfl

/-! ### C88 -/

/-- **C88.** The tokens of a Received header that is a str are those of the
specification, and no others. -/
theorem C88_received (U : StrMore) (hU : PlainClasses U) (v : Txt) (toks : List Tok) :
    receivedLine U (.str v) = .yield toks ↔ ReceivedTokens U v toks := by
  have hex : ∃ toks, receivedLine U (.str v) = .yield toks ∧ ReceivedTokens U v toks := by
    obtain ⟨hosts, h1, e1⟩ := hostParts_search hU (U.lower (joinWith 32 (words U.space v)))
    obtain ⟨ips, h2, e2⟩ := ipParts_search hU (U.lower (joinWith 32 (words U.space v)))
    have h3 := allWords_all (lang_complaints hU) (t := U.lower (joinWith 32 (words U.space v)))
      (i := 0) (Nat.lt_succ_self _) (Nat.zero_le _)
    rw [List.drop_zero] at h3
    refine ⟨_, ?_, _, _, _, hosts, ips, (C54_words _ _ _).1 rfl, rfl, h3, h1, h2, rfl⟩
    simp only [receivedLine, e1, e2, List.map_append, List.map_map]
    rfl
  obtain ⟨toks', h1, h2⟩ := hex
  constructor
  · intro h
    rw [h1] at h
    cases h
    exact h2
  · intro h
    obtain ⟨ws, t, cs, hosts, ips, g1, rfl, g3, g4, g5, rfl⟩ := h
    obtain ⟨ws', t', cs', hosts', ips', g1', rfl, g3', g4', g5', rfl⟩ := h2
    rw [← (C54_words _ _ _).2 g1] at g3 g4 g5
    rw [← (C54_words _ _ _).2 g1'] at g3' g4' g5'
    rw [h1, allWords_unique (lang_complaints hU) g3 g3', hostParts_unique hU g4 g4',
      ipParts_unique hU g5 g5']

/-- **C88.** The headers are mined one after the other, until one of them is not a str
(one with characters that are not ASCII), which raises AttributeError. -/
theorem C88_headers (U : StrMore) (hU : PlainClasses U) (lines : List Txt) :
    ∃ tokss : List (List Tok), List.Forall₂ (ReceivedTokens U) lines tokss ∧
      receivedTokens U (lines.map HVal.str) = .yield tokss.flatten ∧
      ∀ x rest, receivedTokens U (lines.map HVal.str ++ .header x :: rest) =
        ⟨tokss.flatten, some .attributeError⟩ := by
  induction lines with
  | nil => exact ⟨[], .nil, rfl, fun x rest => rfl⟩
  | cons v lines ih =>
    obtain ⟨tokss, h1, h2, h3⟩ := ih
    have hv : receivedLine U (.str v) = .yield (receivedLine U (.str v)).toks := rfl
    refine ⟨(receivedLine U (.str v)).toks :: tokss, .cons ((C88_received U hU v _).1 hv) h1, ?_, ?_⟩
    · have : receivedTokens U ((v :: lines).map HVal.str) =
          (receivedLine U (.str v)).andThen (receivedTokens U (lines.map HVal.str)) := rfl
      rw [this, h2]
      rfl
    · intro x rest
      have : receivedTokens U ((v :: lines).map HVal.str ++ .header x :: rest) =
          (receivedLine U (.str v)).andThen
            (receivedTokens U (lines.map HVal.str ++ .header x :: rest)) := rfl
      rw [this, h3]
      rfl

theorem plain_ascii : PlainClasses asciiMore where
  space c h := by
    have hb : Blank c := isSpace_iff.1 h
    unfold Blank at hb
    refine ⟨fun h => by unfold Letter at h; omega, fun h => by omega, ?_⟩
    simp only [txt]
    simp
    omega
  digit := by decide

example : PlainClasses asciiMore := plain_ascii

example : receivedLine asciiMore (.str (txt "from Mail.Example.org\n (may be forged) [10.1.2.3]")) =
    .yield ([txt "(may be forged)", txt "org", txt "example.org", txt "mail.example.org", txt "10",
      txt "10.1", txt "10.1.2", txt "10.1.2.3"].map (fun t => .str (txt "received:" ++ t))) := by
  decide

/-- A number in brackets is taken for an address. -/
example : receivedLine asciiMore (.str (txt "with id [1234]")) =
    .yield ([txt "1234", txt "1234", txt "1234", txt "1234"].map
      (fun t => .str (txt "received:" ++ t))) := by
  decide

end Sb.Props
