import Verif.Props.Desk
import Verif.Props.Sections

/-
C107: what is counted for a plain word.
C108: can a text have the tokens of headers?
-/

set_option linter.unusedSectionVars false
namespace Sb.Props
open Sb Sb.Mail Sb.Tokenize Sb.Strip Py Py.Re Py.Text Spec

/-! ### The words of the statements -/

/-- What is left of a text: in lower case, and without URLs, styles, comments and
noframes. -/
def LeftOf (t t' : List Nat) : Prop :=
  ∃ a b c toks, WithoutUrls (lower t) a toks ∧ Without StyleOpen StyleClose a b ∧
    Without CommentOpen CommentClose b c ∧ Without NoframesOpen NoframesClose c t'

/-- The text has this word, with white space or nothing before it and after it. -/
def WordOf (t w : List Nat) : Prop :=
  ∃ pre post, t = pre ++ w ++ post ∧ w ≠ [] ∧ (∀ c ∈ w, ¬ Blank c) ∧
    (∀ c, pre.getLast? = some c → Blank c) ∧ (∀ c, post.head? = some c → Blank c)

/-- A part of the message is a text with this word. -/
def Shows (U : StrMore) (e : Envelope) (w : List Nat) : Prop :=
  ∃ p ty b t', PartOf p e.root ∧ TypeIs U.toStr p ty ∧ txt "text/" <+: ty ∧
    Mime.payloadOf p = .bytes b ∧ LeftOf b t' ∧ WordOf t' w

/-- The message can be tokenized. -/
def Tokenizes (U : StrMore) (o : Tokenize.Opts) (e : Envelope) : Prop :=
  ∃ v, Visits U e v ∧ (e.tokens U o v).stop = none

/-- A word of 3 to 12 bytes without a colon. -/
def PlainWord (w : List Nat) : Prop := 3 ≤ w.length ∧ w.length ≤ 12 ∧ 58 ∉ w

/-! ### Words -/

theorem mem_words_iff {t w : List Nat} : w ∈ words Re.isSpace t ↔ WordOf t w := by
  have blank : ∀ {c : Nat}, Re.isSpace c = false ↔ ¬ Blank c := by
    intro c; rw [← isSpace_iff]; simp
  constructor
  · intro h
    obtain ⟨h1, h2⟩ := mem_words h
    have hw := (C54_words Re.isSpace t _).1 rfl
    revert h
    generalize words Re.isSpace t = ws at hw
    induction hw with
    | none _ => intro h; cases h
    | @word s v t ws hs hv hc ht _ ih =>
      intro h
      rcases List.mem_cons.1 h with rfl | h
      · refine ⟨s, t, rfl, h1, fun c hc' => blank.1 (h2 c hc'), ?_, ?_⟩
        · intro c hc'
          exact isSpace_iff.1 (hs c (List.mem_of_getLast? hc'))
        · intro c hc'
          rcases ht with rfl | ⟨d, r, rfl, hd⟩
          · cases hc'
          · simp at hc'; subst hc'; exact isSpace_iff.1 hd
      · obtain ⟨pre, post, e1, e2, e3, e4, e5⟩ := ih h
        refine ⟨s ++ v ++ pre, post, by rw [e1]; simp [List.append_assoc], e2, e3, ?_, e5⟩
        intro c hc'
        cases hp : pre.getLast? with
        | some d =>
          rw [List.getLast?_append, hp] at hc'
          simp at hc'
          subst hc'
          exact e4 _ hp
        | none =>
          rw [List.getLast?_eq_none_iff] at hp
          subst hp
          exfalso
          rcases ht with rfl | ⟨d, r, rfl, hd⟩
          · simp at e1; exact e2 e1.1
          · cases w with
            | nil => exact e2 rfl
            | cons x w =>
              simp at e1
              have := e3 x (by simp)
              rw [← e1.1] at this
              exact this (isSpace_iff.1 hd)
  · rintro ⟨pre, post, rfl, h1, h2, h3, h4⟩
    have key : ∀ (n : Nat) (pre : List Nat), pre.length ≤ n → (∀ c, pre.getLast? = some c → Blank c) →
        w ∈ words Re.isSpace (pre ++ w ++ post) := by
      intro n
      induction n with
      | zero =>
        intro pre hl _
        have : pre = [] := List.length_eq_zero_iff.1 (by omega)
        subst this
        rw [List.nil_append, words_cons h1 (fun c hc => blank.2 (h2 c hc))]
        · simp
        · cases post with
          | nil => exact .inl rfl
          | cons d r => exact .inr ⟨d, r, rfl, isSpace_iff.2 (h4 d rfl)⟩
      | succ n ih =>
        intro pre hl hb
        have hw := (C54_words Re.isSpace pre _).1 rfl
        generalize words Re.isSpace pre = ws at hw
        cases hw with
        | none hs =>
          rw [List.append_assoc, words_skip hs]
          exact ih [] (by simp) (by simp)
        | @word s v t ws hs hv hc ht hr =>
          have htne : t ≠ [] := by
            rintro rfl
            rw [List.append_nil] at hb
            obtain ⟨x, hx⟩ : ∃ x, v.getLast? = some x := by
              cases hx : v.getLast? with
              | none => rw [List.getLast?_eq_none_iff] at hx; exact absurd hx hv
              | some x => exact ⟨x, rfl⟩
            have := hb x (by rw [List.getLast?_append, hx]; rfl)
            exact blank.1 (hc x (List.mem_of_getLast? hx)) this
          rw [show s ++ v ++ t ++ w ++ post = s ++ (v ++ (t ++ w ++ post)) by simp [List.append_assoc],
            words_skip hs, words_cons hv hc]
          · refine List.mem_cons_of_mem _ (ih t ?_ ?_)
            · have : 0 < v.length := List.length_pos_iff.2 hv
              simp only [List.length_append] at hl
              omega
            · intro c hc'
              refine hb c ?_
              rw [List.getLast?_append, hc']; rfl
          · rcases ht with rfl | ⟨d, r, rfl, hd⟩
            · exact absurd rfl htne
            · exact .inr ⟨d, r ++ w ++ post, by simp, hd⟩
    exact key _ pre (Nat.le_refl _) h3

/-- **C55, in the words of C80 and C84.** Exactly when a text can be tokenized, and what the
tokens are: the virus clues, the URLs, and the words that are left. -/
theorem C55_text_partial (t a b c t' : List Nat) (urlToks : List Tok)
    (h1 : WithoutUrls (lower t) a urlToks) (h2 : Without StyleOpen StyleClose a b)
    (h3 : Without CommentOpen CommentClose b c) (h4 : Without NoframesOpen NoframesClose c t') :
    ∃ clues ws, Clues (lower t) 0 clues ∧ InWords Re.isSpace t' ws ∧
      ((bodyBytes t).stop = none ↔
        ¬ HasEntity t ∧ ¬ HasBegin (lower t) ∧ ¬ HasBreak t' ∧ ¬ HasTag t' ∧
          ∀ w ∈ ws, ¬ Dotted w ∧ ¬ HighBit w) ∧
      ((bodyBytes t).stop = none → (bodyBytes t).toks =
        clues.map (fun l => .str (txt "virus:" ++ bytesRepr l)) ++ urlToks ++ ws.flatMap wordTokens) ∧
      ((bodyBytes t).stop ≠ none → (bodyBytes t).stop = some .typeError) := by
  obtain ⟨clues, hc, hv⟩ := C80_virus_tokens (lower t)
  have hs : Stripped (lower t) t' urlToks :=
    ⟨a, b, c, (C84_urls _ _ _).2 h1, (C84_sections _ _ _).2.1.2 ⟨rfl, h2⟩,
      (C84_sections _ _ _).1.2 ⟨rfl, h3⟩, (C84_sections _ _ _).2.2.2 ⟨rfl, h4⟩⟩
  have := C55_body_partial t t' urlToks hs
  rw [hv] at this
  exact ⟨clues, _, hc, (C54_words Re.isSpace t' _).1 rfl, this⟩

/-- Every text has what `C55_text_partial` asks for. -/
theorem C55_left (t : List Nat) : ∃ a b c t' urlToks, WithoutUrls (lower t) a urlToks ∧
    Without StyleOpen StyleClose a b ∧ Without CommentOpen CommentClose b c ∧
    Without NoframesOpen NoframesClose c t' := by
  obtain ⟨t', toks, a, b, c, h1, h2, h3, h4⟩ := C55_stripped t
  exact ⟨a, b, c, t', toks, (C84_urls _ _ _).1 h1, ((C84_sections _ _ _).2.1.1 h2).2,
    ((C84_sections _ _ _).1.1 h3).2, ((C84_sections _ _ _).2.2.1 h4).2⟩

theorem stripped_iff {t t' : List Nat} : LeftOf t t' ↔ ∃ toks, Stripped (lower t) t' toks := by
  constructor
  · rintro ⟨a, b, c, toks, h1, h2, h3, h4⟩
    exact ⟨toks, a, b, c, (C84_urls _ _ _).2 h1, (C84_sections _ _ _).2.1.2 ⟨rfl, h2⟩,
      (C84_sections _ _ _).1.2 ⟨rfl, h3⟩, (C84_sections _ _ _).2.2.2 ⟨rfl, h4⟩⟩
  · rintro ⟨toks, a, b, c, h1, h2, h3, h4⟩
    exact ⟨a, b, c, toks, (C84_urls _ _ _).1 h1, ((C84_sections _ _ _).2.1.1 h2).2,
      ((C84_sections _ _ _).1.1 h3).2, ((C84_sections _ _ _).2.2.1 h4).2⟩

/-! ### The tokens of headers -/

/-- The beginnings of the tokens of headers, other than those for address headers that
are not there. -/
def headerBeginnings : List Txt :=
  (["content-type:", "content-type/type:", "charset:", "content-disposition:", "filename:", "subject:",
    "subjectcharset:", "x-mailer:", "message-id:", "header:", "noheader:"].map txt) ++
  addressHeaders.flatMap (fun f =>
    [":name:", ":charset:", ":addr:", ":no real name:2**", ":2**"].map (fun s => f ++ txt s))

/-- The beginnings of the tokens of texts, other than words. -/
def textBeginnings : List Txt := ["skip:", "url:", "proto:", "virus:", "control:"].map txt

/-- The token begins with one of these. -/
def BeginsAs (ps : List Txt) : Tok → Prop
  | .str t => ∃ p ∈ ps, p <+: t
  | .bytes b => ∃ p ∈ ps, p <+: b

/-- What a token of the headers is like. -/
def HeaderLike (h : HeaderView) (k : Tok) : Prop :=
  BeginsAs headerBeginnings k ∨
    ∃ f ∈ addressHeaders, h.addresses f = none ∧ k = .str (f ++ txt ":none")

/-- All tokens of a generator are like that. -/
def AllLike (h : HeaderView) (g : Gen) : Prop := ∀ k ∈ g.toks, HeaderLike h k

variable {h : HeaderView}

theorem like_yield {ts : List Tok} (hk : ∀ k ∈ ts, HeaderLike h k) : AllLike h (.yield ts) := hk

theorem like_nil : AllLike h (.yield []) := by intro k hk; cases hk

theorem like_raise (e : Err) : AllLike h (.raise e) := by intro k hk; cases hk

theorem like_andThen {a b : Gen} (ha : AllLike h a) (hb : AllLike h b) : AllLike h (a.andThen b) := by
  unfold Gen.andThen
  intro k hk
  cases hs : a.stop with
  | none =>
    rw [hs] at hk
    rcases List.mem_append.1 hk with hk | hk
    · exact ha k hk
    · exact hb k hk
  | some e => rw [hs] at hk; exact ha k hk

theorem like_each {α : Type} {f : α → Gen} {xs : List α} (hf : ∀ x ∈ xs, AllLike h (f x)) :
    AllLike h (.each f xs) := by
  induction xs with
  | nil => exact like_nil
  | cons x xs ih =>
    exact like_andThen (hf x (by simp)) (ih fun y hy => hf y (List.mem_cons_of_mem _ hy))

theorem like_of {s : Txt} (hs : s ∈ headerBeginnings) (t : Txt) : HeaderLike h (.str (s ++ t)) :=
  .inl ⟨s, hs, List.prefix_append _ _⟩

theorem like_self {s : Txt} (hs : ∃ p ∈ headerBeginnings, p <+: s) : HeaderLike h (.str s) := .inl hs

theorem like_one {s : Txt} (hs : s ∈ headerBeginnings) (t : Txt) : AllLike h (.yield [.str (s ++ t)]) := by
  intro k hk
  rw [show (Gen.yield [.str (s ++ t)]).toks = [.str (s ++ t)] from rfl, List.mem_singleton] at hk
  subst hk
  exact like_of hs t

theorem like_crackContent (U : Str) (p : PartView) : AllLike h (crackContent U p) := by
  unfold crackContent
  refine like_andThen (like_one (by decide) _) (like_andThen ?_ (like_andThen (like_yield ?_)
    (like_andThen ?_ ?_)))
  · unfold typeTokens
    split
    · exact like_nil
    · exact like_one (by decide) _
    · exact like_raise _
  · unfold charsetTokens
    split
    · intro k hk; rw [List.mem_singleton] at hk; subst hk
      exact like_self ⟨txt "charset:", by decide, by decide⟩
    · intro k hk
      obtain ⟨c, -, hc⟩ := List.mem_filterMap.1 hk
      cases c with
      | none => cases hc
      | some x => simp at hc; subst hc; exact like_of (by decide) _
  · unfold dispositionTokens
    split
    · exact like_nil
    · exact like_one (by decide) _
    · exact like_raise _
  · have hb : HeaderLike h (.str (txt "filename:<bogus>")) :=
      like_self ⟨txt "filename:", by decide, by decide⟩
    unfold filenameTokens
    split
    · exact like_nil
    · refine like_yield ?_
      intro k hk
      simp only [List.mem_cons, List.not_mem_nil, or_false] at hk
      rcases hk with rfl | rfl
      · exact like_of (by decide) _
      · exact hb
    · refine like_yield ?_
      intro k hk; rw [List.mem_singleton] at hk; subst hk
      exact hb
    · exact like_raise _

theorem wordStr_str {w : Txt} {k : Tok} (h : k ∈ (wordStr w).toks) : ∃ t, k = .str t := by
  unfold wordStr at h
  split at h
  · simp [Gen.yield] at h; exact ⟨_, h⟩
  · split at h
    · split at h
      · cases h
      · simp [Gen.andThen, Gen.yield, Gen.raise, skipToken] at h; exact ⟨_, h⟩
    · cases h

theorem like_subjectText (U : Str) (x : Txt) : AllLike h (subjectText U x) := by
  unfold subjectText
  refine like_andThen (like_each ?_) (like_yield ?_)
  · intro w _ k hk
    obtain ⟨j, hj, rfl⟩ := List.mem_map.1 hk
    obtain ⟨t, rfl⟩ := wordStr_str hj
    exact like_of (by decide) _
  · intro k hk
    obtain ⟨w, -, rfl⟩ := List.mem_map.1 hk
    exact like_of (by decide) _

theorem like_subject (U : Str) : AllLike h (subjectTokens U h) := by
  unfold subjectTokens
  refine like_each fun c _ => like_andThen ?_ ?_
  · unfold subjectCharset
    split
    · exact like_nil
    · exact like_one (by decide) _
  · unfold subjectChunk
    split
    · exact like_subjectText U _
    · exact like_raise _
    · exact like_raise _

theorem like_field (U : Str) {field : Txt} (hf : field ∈ addressHeaders) :
    ∀ k ∈ fieldTokens U h field, HeaderLike h k := by
  have hm : ∀ f ∈ addressHeaders, ∀ s ∈ [":name:", ":charset:", ":addr:", ":no real name:2**"],
      f ++ txt s ∈ headerBeginnings := by decide
  have hm := hm field hf
  unfold fieldTokens
  intro k hk
  cases ha : h.addresses field with
  | none =>
    rw [ha] at hk
    rw [List.mem_singleton] at hk; subst hk
    exact .inr ⟨field, hf, ha, rfl⟩
  | some as =>
    rw [ha] at hk
    simp only [List.mem_append, List.mem_flatMap] at hk
    rcases hk with ⟨a, -, hk⟩ | hk
    · unfold addrTokens at hk
      rcases List.mem_append.1 hk with hk | hk
      · split at hk
        · cases hk
        · obtain ⟨c, -, hk⟩ := List.mem_flatMap.1 hk
          unfold nameTokens at hk
          rcases List.mem_cons.1 hk with rfl | hk
          · exact like_of (hm _ (by simp)) _
          · split at hk
            · cases hk
            · rw [List.mem_singleton] at hk; subst hk
              exact like_of (hm _ (by simp)) _
      · split at hk
        · rw [List.mem_singleton] at hk; subst hk
          rw [show txt ":addr:none" = txt ":addr:" ++ txt "none" from rfl, ← List.append_assoc]
          exact like_of (hm _ (by simp)) _
        · obtain ⟨w, -, rfl⟩ := List.mem_map.1 hk
          exact like_of (hm _ (by simp)) _
    · split at hk
      · cases hk
      · rw [List.mem_singleton] at hk; subst hk
        exact like_of (hm _ (by simp)) _

theorem like_count (U : Str) {field : Txt} (hf : field ∈ addressHeaders) (lines : List HVal) :
    AllLike h (countTokens U field lines) := by
  have hm : ∀ f ∈ addressHeaders, f ++ txt ":2**" ∈ headerBeginnings := by decide
  unfold countTokens
  split
  · exact like_raise _
  · split
    · exact like_nil
    · exact like_one (hm field hf) _

theorem like_mailer (U : Str) (v : Option HVal) : AllLike h (mailerTokens U v) := by
  unfold mailerTokens
  split
  · exact like_raise _
  all_goals exact like_one (by decide) _

theorem like_messageId (U : Str) (v : Option HVal) : AllLike h (messageIdTokens U v) := by
  have one : ∀ x, HeaderLike h (messageIdToken U x) := by
    intro x
    unfold messageIdToken
    split
    · rw [show txt "message-id:@" = txt "message-id:" ++ txt "@" from rfl, List.append_assoc]
      exact like_of (by decide) _
    · exact like_self ⟨txt "message-id:", by decide, by decide⟩
  unfold messageIdTokens
  split
  · refine like_yield ?_
    intro k hk; rw [List.mem_singleton] at hk; subst hk; exact one _
  · refine like_yield ?_
    intro k hk; rw [List.mem_singleton] at hk; subst hk; exact one _
  · exact like_raise _

theorem like_headerTokens (low : Txt → Txt) (ca ra : Bool) (names : List Txt) :
    ∀ k ∈ headerTokens low ca ra names, HeaderLike h k := by
  intro k hk
  unfold headerTokens at hk
  rcases List.mem_append.1 hk with hk | hk
  · obtain ⟨e, -, rfl⟩ := List.mem_map.1 hk
    rw [List.append_assoc]
    exact like_of (by decide) _
  · split at hk
    · obtain ⟨e, -, rfl⟩ := List.mem_map.1 hk
      exact like_of (by decide) _
    · cases hk

theorem like_headers (U : Str) (ca ra : Bool) (parts : List PartView) (h : HeaderView) :
    AllLike h (tokenizeHeaders U ca ra parts h) := by
  unfold tokenizeHeaders
  refine like_andThen (like_each fun p _ => like_crackContent U p) (like_andThen (like_subject U)
    (like_andThen (like_yield ?_) (like_andThen (like_count U (by decide) _) (like_andThen (like_count U (by decide) _)
    (like_andThen (like_mailer U _) (like_andThen (like_messageId U _) (like_yield ?_)))))))
  · intro k hk
    obtain ⟨f, hf, hk⟩ := List.mem_flatMap.1 hk
    exact like_field U hf k hk
  · exact like_headerTokens _ _ _ _

/-! ### Colons -/

/-- The token has a colon. -/
def HasColon : Tok → Prop
  | .str t => 58 ∈ t
  | .bytes b => 58 ∈ b

theorem begins_colon {ps : List Txt} (hp : ∀ p ∈ ps, 58 ∈ p) {k : Tok} (hk : BeginsAs ps k) : HasColon k := by
  cases k with
  | str t => obtain ⟨p, h1, h2⟩ := hk; exact h2.subset (hp p h1)
  | bytes b => obtain ⟨p, h1, h2⟩ := hk; exact h2.subset (hp p h1)

theorem like_colon {k : Tok} (hk : HeaderLike h k) : HasColon k := by
  rcases hk with hk | ⟨f, -, -, rfl⟩
  · exact begins_colon (by decide) hk
  · exact List.mem_append_right _ (by decide)

theorem encodes_mem {s : Txt} {r : List Nat} (h : Encodes s r) {c : Nat} (hc : c ∈ s) (ha : c < 128) : c ∈ r := by
  induction h with
  | nil => cases hc
  | @cons d b s r hu _ ih =>
    rcases List.mem_cons.1 hc with rfl | hc
    · refine List.mem_append_left _ ?_
      cases hu with
      | one _ => simp
      | two h1 h2 h3 => omega
      | three h1 h2 h3 h4 => omega
      | four h1 h2 h3 h4 => omega
    · exact List.mem_append_right _ (ih hc)

theorem encodes_prefix {p s : Txt} {r : List Nat} (h : Encodes s r) (hp : p <+: s) (ha : ∀ c ∈ p, c < 128) :
    p <+: r := by
  induction h generalizing p with
  | nil => rw [List.prefix_nil] at hp; subst hp; exact List.nil_prefix
  | @cons d b s r hu _ ih =>
    cases p with
    | nil => exact List.nil_prefix
    | cons x p =>
      rw [List.cons_prefix_cons] at hp
      obtain ⟨rfl, hp⟩ := hp
      have hx := ha x (by simp)
      have : b = [x] := by
        cases hu with
        | one _ => rfl
        | two h1 h2 h3 => omega
        | three h1 h2 h3 h4 => omega
        | four h1 h2 h3 h4 => omega
      subst this
      rw [List.singleton_append, List.cons_prefix_cons]
      exact ⟨rfl, ih hp fun c hc => ha c (List.mem_cons_of_mem _ hc)⟩

theorem encodes_ascii {s : Txt} {r : List Nat} (h : Encodes s r) (ha : ∀ c ∈ s, c < 128) : r = s := by
  induction h with
  | nil => rfl
  | @cons d b s r hu _ ih =>
    have hd := ha d (by simp)
    rw [ih fun c hc => ha c (List.mem_cons_of_mem _ hc)]
    cases hu with
    | one _ => rfl
    | two h1 h2 h3 => omega
    | three h1 h2 h3 h4 => omega
    | four h1 h2 h3 h4 => omega

theorem ascii_encodes {s : Txt} (ha : ∀ c ∈ s, c < 128) : Encodes s s := by
  induction s with
  | nil => exact .nil
  | cons c s ih =>
    exact .cons (b := [c]) (.one (ha c (by simp))) (ih fun d hd => ha d (List.mem_cons_of_mem _ hd))

theorem none_ascii : ∀ f ∈ addressHeaders, ∀ c ∈ f ++ txt ":none", c < 128 := by decide

theorem colon_asBytes {j : Tok} {w : List Nat} (hj : HasColon j) (h : AsBytes j (.bytes w)) : 58 ∈ w := by
  cases h with
  | bytes => exact hj
  | str h => exact encodes_mem h hj (by decide)

theorem begins_asBytes {ps : List Txt} (ha : ∀ p ∈ ps, ∀ c ∈ p, c < 128) {j : Tok} {w : List Nat}
    (hj : BeginsAs ps j) (h : AsBytes j (.bytes w)) : ∃ p ∈ ps, p <+: w := by
  cases h with
  | bytes => exact hj
  | str h =>
    obtain ⟨p, h1, h2⟩ := hj
    exact ⟨p, h1, encodes_prefix h h2 (ha p h1)⟩

/-! ### The text -/

theorem urls_begin {t out : List Nat} {toks : List Tok} (h : WithoutUrls t out toks) :
    ∀ k ∈ toks, BeginsAs textBeginnings k := by
  induction h with
  | plain _ => intro k hk; cases hk
  | @cut t pre p guts post out ws toks _ _ _ _ _ _ _ _ ih =>
    intro k hk
    rcases List.mem_append.1 hk with hk | hk
    · rcases List.mem_cons.1 hk with rfl | hk
      · exact ⟨_, by decide, List.prefix_append (txt "proto:") _⟩
      · obtain ⟨x, -, rfl⟩ := List.mem_map.1 hk
        exact ⟨_, by decide, List.prefix_append (txt "url:") _⟩
    · exact ih k hk

/-- The tokens of a text. -/
theorem body_token {b : List Nat} (hs : (bodyBytes b).stop = none) (j : Tok) :
    (j ∈ (bodyBytes b).toks → BeginsAs textBeginnings j ∨
      ∃ w t', j = .bytes w ∧ 3 ≤ w.length ∧ w.length ≤ 12 ∧ LeftOf b t' ∧ WordOf t' w) ∧
    ∀ w t', 3 ≤ w.length → w.length ≤ 12 → LeftOf b t' → WordOf t' w → .bytes w ∈ (bodyBytes b).toks := by
  obtain ⟨t', toks, ht⟩ := C55_stripped b
  have hl : LeftOf b t' := stripped_iff.2 ⟨toks, ht⟩
  have huniq : ∀ t'', LeftOf b t'' → t'' = t' := by
    intro t'' h
    obtain ⟨toks', a, b1, c, h1, h2, h3, h4⟩ := stripped_iff.1 h
    obtain ⟨a', b', c', g1, g2, g3, g4⟩ := ht
    rw [h1] at g1; cases g1
    rw [h2] at g2; cases g2
    rw [h3] at g3; cases g3
    rw [h4] at g4; cases g4
    rfl
  have hcol : ∀ k ∈ toks, BeginsAs textBeginnings k := by
    obtain ⟨a, b1, c, h1, -⟩ := ht
    exact urls_begin ((C84_urls _ _ _).1 h1)
  rw [(C55_body_partial b t' toks ht).2.1 hs]
  constructor
  · intro hj
    rw [List.mem_append, List.mem_append] at hj
    rcases hj with (hj | hj) | hj
    · left
      obtain ⟨m, -, rfl⟩ := List.mem_map.1 hj
      exact ⟨_, by decide, List.prefix_append (txt "virus:") _⟩
    · exact .inl (hcol j hj)
    · obtain ⟨v, hv, hj⟩ := List.mem_flatMap.1 hj
      unfold wordTokens at hj
      split at hj
      · cases hj
      · split at hj
        · rw [List.mem_singleton] at hj
          exact .inr ⟨v, t', hj, by omega, by omega, hl, mem_words_iff.1 hv⟩
        · rw [List.mem_singleton] at hj
          subst hj
          left
          unfold summary
          simp only [List.append_assoc]
          exact ⟨_, by decide, List.prefix_append (txt "skip:") _⟩
  · intro w t'' w1 w2 h1 h2
    rw [huniq t'' h1] at h2
    refine List.mem_append_right _ (List.mem_flatMap.2 ⟨w, mem_words_iff.2 h2, ?_⟩)
    unfold wordTokens
    rw [if_neg (by omega), if_pos w2]
    simp

theorem part_token {q : Payload} (hs : (textPart q).stop = none) (j : Tok) :
    (j ∈ (textPart q).toks → BeginsAs textBeginnings j ∨
      ∃ w b t', j = .bytes w ∧ 3 ≤ w.length ∧ w.length ≤ 12 ∧ q = .bytes b ∧ LeftOf b t' ∧ WordOf t' w) ∧
    ∀ w b t', 3 ≤ w.length → w.length ≤ 12 → q = .bytes b → LeftOf b t' → WordOf t' w →
      .bytes w ∈ (textPart q).toks := by
  have c1 : BeginsAs textBeginnings (.str (txt "control: payload is None")) :=
    ⟨txt "control:", by decide, by decide⟩
  have c2 : BeginsAs textBeginnings (.str (txt "control: couldn't decode")) :=
    ⟨txt "control:", by decide, by decide⟩
  cases q with
  | bytes b =>
    rw [show textPart (.bytes b) = bodyBytes b from rfl] at hs ⊢
    obtain ⟨h1, h2⟩ := body_token hs j
    constructor
    · intro hj
      rcases h1 hj with h | ⟨w, t', rfl, w1, w2, h3, h4⟩
      · exact .inl h
      · exact .inr ⟨w, b, t', rfl, w1, w2, rfl, h3, h4⟩
    · rintro w b' t' w1 w2 hb h3 h4
      cases hb
      exact h2 w t' w1 w2 h3 h4
  | none =>
    refine ⟨?_, by rintro w b t' - - hb; cases hb⟩
    intro hj
    simp only [textPart, Gen.yield, List.mem_singleton] at hj
    subst hj
    exact .inl c1
  | undecodable r =>
    refine ⟨?_, by rintro w b t' - - hb; cases hb⟩
    intro hj
    cases r with
    | none =>
      simp only [textPart, Gen.yield, List.mem_cons, List.not_mem_nil, or_false] at hj
      rcases hj with rfl | rfl
      · exact .inl c2
      · exact .inl c1
    | some r => simp [textPart, Gen.andThen, Gen.yield, Gen.raise] at hs

theorem tokens_default (U : StrMore) (e : Envelope) (v : Visit) :
    e.tokens U .default v =
      Mime.tokenizeMessage U.toStr (headerView e.lib e.headers) e.root v.texts := by
  unfold Envelope.tokens Mime.callMessage Mime.tokenizeMessage
  exact C90_defaults U _ _ _ _ _ _ _ _

/-- The tokens of a message: from its headers, or from one of its texts. -/
theorem mem_tokens {U : StrMore} {e : Envelope} (ht : Tokenizes U .default e) (w : List Nat) :
    (Has U .default e (.bytes w) ↔
      (∃ j ∈ (tokenizeHeaders U.toStr false false ((Mime.walk e.root).map (Mime.viewOf U.toStr))
        (headerView e.lib e.headers)).toks, AsBytes j (.bytes w)) ∨
      ∃ p t, PartOf p e.root ∧ TypeIs U.toStr p t ∧ txt "text/" <+: t ∧
        ∃ j ∈ (textPart (Mime.payloadOf p)).toks, AsBytes j (.bytes w)) ∧
    ∀ p t, PartOf p e.root → TypeIs U.toStr p t → txt "text/" <+: t →
      (textPart (Mime.payloadOf p)).stop = none := by
  obtain ⟨v, hv, hs⟩ := ht
  have h1 : Has U .default e (.bytes w) ↔ .bytes w ∈ (e.tokens U .default v).toks := by
    constructor
    · rintro ⟨v', h3, h4, h5⟩
      exact ((tokens_order h3 hv h4).2 _).2 h5
    · intro h; exact ⟨v, hv, hs, h⟩
  rw [h1]
  rw [tokens_default] at hs ⊢
  rw [C99_tokens _ _ _ _ hv.1 hs]
  refine ⟨Iff.rfl, ?_⟩
  intro p t h1 h2 h3
  have h4 : p ∈ Mime.textparts U.toStr e.root := (C99_parts U.toStr e.root p).1.2 ⟨h1, t, h2, h3⟩
  unfold Mime.tokenizeMessage tokenize tokenizeBody at hs
  have := (andThen_stop_none.1 ((convert_stop _).1 hs).1).2
  rw [each_stop_none] at this
  exact this _ (List.mem_map_of_mem (hv.1.mem_iff.2 h4))

/-- A word of a text is a token, whatever the headers. -/
theorem shows_has {U : StrMore} {e : Envelope} (ht : Tokenizes U .default e) {w : List Nat} (w1 : 3 ≤ w.length)
    (w2 : w.length ≤ 12) (hw : Shows U e w) : Has U .default e (.bytes w) := by
  obtain ⟨h1, h2⟩ := mem_tokens ht w
  obtain ⟨p, t, b, t', g1, g2, g3, g4, g5, g6⟩ := hw
  exact h1.2 (.inr ⟨p, t, g1, g2, g3, .bytes w,
    (part_token (h2 p t g1 g2 g3) (.bytes w)).2 w b t' w1 w2 g4 g5 g6, .bytes w⟩)

/-- What a token is. -/
theorem has_cases {U : StrMore} {e : Envelope} {w : List Nat} (hh : Has U .default e (.bytes w)) :
    (∃ j, HeaderLike (headerView e.lib e.headers) j ∧ AsBytes j (.bytes w)) ∨
    (∃ p ∈ textBeginnings, p <+: w) ∨ (3 ≤ w.length ∧ w.length ≤ 12 ∧ Shows U e w) := by
  have ht : Tokenizes U .default e := by
    obtain ⟨v, h1, h2, -⟩ := hh
    exact ⟨v, h1, h2⟩
  obtain ⟨h1, h2⟩ := mem_tokens ht w
  rcases h1.1 hh with ⟨j, hj, ha⟩ | ⟨p, t, g1, g2, g3, j, hj, ha⟩
  · exact .inl ⟨j, like_headers _ _ _ _ _ j hj, ha⟩
  · rcases (part_token (h2 p t g1 g2 g3) j).1 hj with hb | ⟨v, b, t', rfl, w1, w2, g4, g5, g6⟩
    · exact .inr (.inl (begins_asBytes (by decide) hb ha))
    · cases ha
      exact .inr (.inr ⟨w1, w2, p, t, b, t', g1, g2, g3, g4, g5, g6⟩)

/-! ### C107 -/

/-- **C107.** A message that can be tokenized has a plain word among its tokens exactly if
one of its texts has this word. -/
theorem C107_words (U : StrMore) (e : Envelope) (w : List Nat) (hw : PlainWord w)
    (ht : Tokenizes U .default e) : Has U .default e (.bytes w) ↔ Shows U e w := by
  constructor
  · intro hh
    rcases has_cases hh with ⟨j, hj, ha⟩ | ⟨p, hp, hpw⟩ | ⟨-, -, h⟩
    · exact absurd (colon_asBytes (like_colon hj) ha) hw.2.2
    · have : ∀ p ∈ textBeginnings, 58 ∈ p := by decide
      exact absurd (hpw.subset (this p hp)) hw.2.2
    · exact h
  · exact shows_has ht hw.1 hw.2.1

variable {K : Type} [Field K] [LinearOrder K]

open Classical in
/-- **C107.** After any session, what is kept for a plain word is the number of messages
learned as spam and as ham whose texts have the word, among those that can be
tokenized. -/
theorem C107_counts (U : StrMore) (hU : LowersAscii U.toStr) (F : FloatOps K) (steps : List Step)
    (L : Multiset (Envelope × Bool)) (h : Filed U 0 steps L) (w : List Nat) (hw : PlainWord w) :
    let c := desk F (memory Tok) U .default (Clf.new false Dict.empty) steps
    let count := fun spam => L.countP (fun p => p.2 = spam ∧ Tokenizes U .default p.1 ∧ Shows U p.1 w)
    c.store.get? (.bytes w) =
      if count true = 0 ∧ count false = 0 then none else some ⟨count true, count false⟩ := by
  intro c count
  have hc := (C102_counts_partial U hU .default rfl F steps L h).2.2 (.bytes w)
  have hk : ∀ b : Bool, L.countP (fun p => p.2 = b ∧ Has U .default p.1 (.bytes w)) = count b := by
    intro b
    refine Multiset.countP_congr rfl fun p _ => ?_
    refine propext (and_congr_right fun _ => ?_)
    constructor
    · rintro ⟨v, h1, h2, h3⟩
      exact ⟨⟨v, h1, h2⟩, (C107_words U p.1 w hw ⟨v, h1, h2⟩).1 ⟨v, h1, h2, h3⟩⟩
    · rintro ⟨h1, h2⟩
      exact (C107_words U p.1 w hw h1).2 h2
  rw [← hk true, ← hk false]
  exact hc

/-- **C107.** A text without `<` and without URLs is left as it is: it has the words that
are written in it, in upper or lower case. -/
theorem C107_plain_text (b w : List Nat) (hb : 60 ∉ b) (hu : NoWord UrlStart (lower b)) :
    (∃ t', LeftOf b t' ∧ WordOf t' w) ↔ ∃ x, WordOf b x ∧ lower x = w := by
  have h60 : 60 ∉ lower b := by
    intro h
    obtain ⟨c, hc, he⟩ := List.mem_map.1 h
    unfold lowerCh at he
    split at he
    · omega
    · subst he; exact hb hc
  have no : ∀ L : List Nat → Prop, (∀ v, L v → 60 ∈ v) → NoWord L (lower b) := by
    intro L hL pre v post he hv
    exact h60 (by rw [he]; exact List.mem_append_left _ (List.mem_append_right _ (hL v hv)))
  have h1 : NoWord StyleOpen (lower b) := no _ (by rintro v ⟨ws, body, -, -, -, rfl⟩; simp [txt])
  have h2 : NoWord CommentOpen (lower b) := no _ (by
    rintro v (rfl | ⟨ws, body, -, -, rfl⟩)
    · decide
    · simp [txt])
  have h3 : NoWord NoframesOpen (lower b) := no _ (by rintro v ⟨ws, ws', -, -, rfl⟩; simp [txt])
  have hl : LeftOf b (lower b) := ⟨_, _, _, _, .plain hu, .plain h1, .plain h2, .plain h3⟩
  have bl : ∀ c, Blank (lowerCh c) ↔ Blank c := by
    intro c
    unfold Blank lowerCh
    split <;> omega
  have key : WordOf (lower b) w ↔ ∃ x, WordOf b x ∧ lower x = w := by
    constructor
    · rintro ⟨pre, post, he, g1, g2, g3, g4⟩
      unfold lower at he
      rw [List.map_eq_append_iff] at he
      obtain ⟨l1, post', rfl, he, rfl⟩ := he
      rw [List.map_eq_append_iff] at he
      obtain ⟨pre', x, rfl, rfl, rfl⟩ := he
      refine ⟨x, ⟨pre', post', rfl, ?_, ?_, ?_, ?_⟩, rfl⟩
      · rintro rfl; exact g1 rfl
      · intro c hc
        rw [← bl]; exact g2 _ (List.mem_map_of_mem hc)
      · intro c hc
        rw [← bl]; exact g3 _ (by rw [List.getLast?_map, hc]; rfl)
      · intro c hc
        rw [← bl]; exact g4 _ (by rw [List.head?_map, hc]; rfl)
    · rintro ⟨x, ⟨pre, post, rfl, g1, g2, g3, g4⟩, rfl⟩
      refine ⟨lower pre, lower post, by simp [lower], ?_, ?_, ?_, ?_⟩
      · intro h; unfold lower at h; rw [List.map_eq_nil_iff] at h; exact g1 h
      · intro c hc
        obtain ⟨d, hd, rfl⟩ := List.mem_map.1 hc
        rw [bl]; exact g2 d hd
      · intro c hc
        unfold lower at hc
        rw [List.getLast?_map] at hc
        obtain ⟨d, hd, rfl⟩ := Option.map_eq_some_iff.1 hc
        rw [bl]; exact g3 d hd
      · intro c hc
        unfold lower at hc
        rw [List.head?_map] at hc
        obtain ⟨d, hd, rfl⟩ := Option.map_eq_some_iff.1 hc
        rw [bl]; exact g4 d hd
  rw [← key]
  constructor
  · rintro ⟨t', g1, g2⟩
    obtain ⟨toks', a, b1, c, k1, k2, k3, k4⟩ := stripped_iff.1 g1
    obtain ⟨toks, a', b', c', m1, m2, m3, m4⟩ := stripped_iff.1 hl
    rw [k1] at m1; cases m1
    rw [k2] at m2; cases m2
    rw [k3] at m3; cases m3
    rw [k4] at m4; cases m4
    exact g2
  · intro h; exact ⟨_, hl, h⟩

/-! ### C108 -/

/-- There is no such header. -/
def Absent (h : Headers) (f : Txt) : Prop := ∀ n v, (n, v) ∈ h → lower n = lower f → v = .none

/-- The claim: the token for a missing address header means that it is missing. -/
def C108Claim : Prop :=
  ∀ (U : StrMore) (e : Envelope), Tokenizes U .default e → ∀ f ∈ addressHeaders,
    Has U .default e (.bytes (f ++ txt ":none")) → Absent e.headers f

theorem absent_iff {E : Lib} {h : Headers} {f : Txt} : (headerView E h).addresses f = none ↔ Absent h f := by
  have hg : getAll h f = [] ↔ Absent h f := by
    unfold getAll Absent
    rw [List.filterMap_eq_nil_iff]
    constructor
    · intro hn n v hm hl
      have := hn (n, v) (List.mem_filter.2 ⟨hm, by simp [sameName, hl]⟩)
      cases v with
      | none => rfl
      | str t => simp only [fetch] at this; split at this <;> cases this
      | header t => cases this
    · rintro hn ⟨n, v⟩ hm
      obtain ⟨h1, h2⟩ := List.mem_filter.1 hm
      rw [hn n v h1 (by simpa [sameName] using h2)]
      rfl
  rw [← hg]
  show (if getAll h f = [] then none else some _) = none ↔ _
  by_cases h0 : getAll h f = [] <;> simp [h0]

/-- **C108.** Exactly when a message has the token for a missing address header: the
header is missing, or the token is a word of the text. -/
theorem C108_absent_partial (U : StrMore) (e : Envelope) (ht : Tokenizes U .default e) (f : Txt)
    (hf : f ∈ addressHeaders) :
    Has U .default e (.bytes (f ++ txt ":none")) ↔
      Absent e.headers f ∨ (f ≠ txt "reply-to" ∧ Shows U e (f ++ txt ":none")) := by
  have hlen : ∀ f ∈ addressHeaders, 3 ≤ (f ++ txt ":none").length ∧
      ((f ++ txt ":none").length ≤ 12 ↔ f ≠ txt "reply-to") := by decide
  constructor
  · intro hh
    rcases has_cases hh with ⟨j, hj, ha⟩ | ⟨p, hp, hpw⟩ | ⟨-, h1, h2⟩
    · left
      rcases hj with hj | ⟨g, hg, hn, rfl⟩
      · exfalso
        obtain ⟨p, hp, hpw⟩ := begins_asBytes (by decide) hj ha
        have : ∀ f ∈ addressHeaders, ∀ p ∈ headerBeginnings, ¬ p <+: f ++ txt ":none" := by decide
        exact this f hf p hp hpw
      · have hgf : g = f := by
          cases ha with
          | str h =>
            have h1 := encodes_ascii h (none_ascii g hg)
            exact (List.append_cancel_right h1).symm
        subst hgf
        exact absent_iff.1 hn
    · exfalso
      have : ∀ f ∈ addressHeaders, ∀ p ∈ textBeginnings, ¬ p <+: f ++ txt ":none" := by decide
      exact this f hf p hp hpw
    · exact .inr ⟨(hlen f hf).2.1 h1, h2⟩
  · rintro (h | ⟨h1, h2⟩)
    · obtain ⟨h1, -⟩ := mem_tokens ht (f ++ txt ":none")
      refine h1.2 (.inl ⟨.str (f ++ txt ":none"), ?_, ?_⟩)
      · obtain ⟨v, hv, hs⟩ := ht
        rw [tokens_default] at hs
        unfold Mime.tokenizeMessage tokenize at hs
        have hst := (andThen_stop_none.1 ((convert_stop _).1 hs).1).1
        unfold tokenizeHeaders at hst ⊢
        simp only [andThen_stop_none] at hst
        obtain ⟨s1, s2, s3, -⟩ := hst
        rw [andThen_toks s1, andThen_toks s2, andThen_toks s3]
        refine List.mem_append_right _ (List.mem_append_right _ (List.mem_append_left _ ?_))
        refine List.mem_flatMap.2 ⟨f, hf, ?_⟩
        unfold fieldTokens
        rw [absent_iff.2 h]
        simp
      · exact .str (ascii_encodes (none_ascii f hf))
    · exact shows_has ht (hlen f hf).1 ((hlen f hf).2.2 h1) h2

/-- **C108.** A token of more than 12 bytes that does not begin like the special tokens of
texts comes from the headers, so that no text can feign it. -/
theorem C108_long_partial (U : StrMore) (e : Envelope) (w : List Nat) (hl : 12 < w.length)
    (hb : ∀ p ∈ textBeginnings, ¬ p <+: w) (hh : Has U .default e (.bytes w)) :
    (∃ p ∈ headerBeginnings, p <+: w) ∨ ∃ f ∈ addressHeaders, Absent e.headers f ∧ w = f ++ txt ":none" := by
  rcases has_cases hh with ⟨j, hj, ha⟩ | ⟨p, hp, hpw⟩ | ⟨-, h1, -⟩
  · rcases hj with hj | ⟨g, hg, hn, rfl⟩
    · exact .inl (begins_asBytes (by decide) hj ha)
    · refine .inr ⟨g, hg, absent_iff.1 hn, ?_⟩
      cases ha with
      | str h => exact encodes_ascii h (none_ascii g hg)
  · exact absurd hpw (hb p hp)
  · omega

/-- A message with a From header whose text says otherwise. -/
def feigned : Envelope :=
  ⟨plainLib, [(txt "Content-Type", .str (txt "multipart/mixed")), (txt "From", .str (txt "a@b"))],
    some [textual "Hello from:none <!-- x -->Friends"]⟩

theorem feigned_visits : Visits asciiMore feigned ⟨[], [textual "Hello from:none <!-- x -->Friends"]⟩ := by
  have h1 : Mime.textparts asciiMore.toStr feigned.root = [textual "Hello from:none <!-- x -->Friends"] := by rfl
  have h2 : Mime.octetparts asciiMore.toStr feigned.root = [] := by rfl
  unfold Visits
  rw [h1, h2]
  exact ⟨.refl _, .refl _⟩

theorem feigned_tokens :
    feigned.tokens asciiMore .default ⟨[], [textual "Hello from:none <!-- x -->Friends"]⟩ =
      .yield (["content-type:multipart/mixed", "content-type:text/plain", "to:none", "cc:none", "sender:none",
        "reply-to:none", "x-mailer:none", "message-id:invalid", "header:From:1", "hello", "from:none",
        "friends"].map (fun s => .bytes (txt s))) := by decide

theorem feigned_tokenizes : Tokenizes asciiMore .default feigned :=
  ⟨_, feigned_visits, by rw [feigned_tokens]; rfl⟩

/-- **C108 is false**: a word of the text can feign that the message has no sender. -/
theorem C108_claim_false : ¬ C108Claim := by
  intro h
  have := h asciiMore feigned feigned_tokenizes (txt "from") (by decide)
    ⟨_, feigned_visits, by rw [feigned_tokens]; rfl, by rw [feigned_tokens]; decide⟩
    (txt "From") (.str (txt "a@b")) (by simp [feigned]) (by decide)
  cases this

/-! ### Examples -/

example : PlainWord (txt "friends") := by unfold PlainWord; decide

/-- The word is found although it is in upper case and next to a comment. -/
example : Shows asciiMore feigned (txt "friends") :=
  (C107_words _ _ _ (by unfold PlainWord; decide) feigned_tokenizes).1
    ⟨_, feigned_visits, by rw [feigned_tokens]; rfl, by rw [feigned_tokens]; decide⟩

/-- The word "from" is not. -/
example : ¬ Shows asciiMore feigned (txt "from") := by
  intro h
  obtain ⟨v, h1, h2, h3⟩ := (C107_words _ _ _ (by unfold PlainWord; decide) feigned_tokenizes).2 h
  have := ((tokens_order feigned_visits h1 (by rw [feigned_tokens]; rfl)).2 _).1 h3
  rw [feigned_tokens] at this
  revert this
  decide

example : 60 ∉ txt "Hello dear Friends" ∧ NoWord UrlStart (lower (txt "Hello dear Friends")) := by
  refine ⟨by decide, ?_⟩
  rintro pre w post he ⟨p, c, -, -, rfl⟩
  have : 47 ∈ lower (txt "Hello dear Friends") := by rw [he]; simp [txt]
  revert this
  decide

example : WordOf (txt "Hello dear Friends") (txt "dear") :=
  ⟨txt "Hello ", txt " Friends", by decide, by decide, by unfold Blank; decide, by unfold Blank; decide,
    by unfold Blank; decide⟩

/-- A token of 13 bytes that no text can feign. -/
example : 12 < (txt "reply-to:none").length ∧ (∀ p ∈ textBeginnings, ¬ p <+: txt "reply-to:none") ∧
    Has asciiMore .default feigned (.bytes (txt "reply-to:none")) :=
  ⟨by decide, by decide, _, feigned_visits, by rw [feigned_tokens]; rfl, by rw [feigned_tokens]; decide⟩

end Sb.Props
