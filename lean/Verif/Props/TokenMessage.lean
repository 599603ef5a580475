import Verif.Props.TokenBody

/-
C75: every message can be tokenized (refuted; exact conditions).
C76: file names of attachments.
C77: tokens are bytes.
C78: the order of the text parts does not matter.
-/

set_option linter.unusedSectionVars false

namespace Sb.Props
open Py Py.Re Py.Text Sb.Mail Sb.Strip Sb.Tokenize

/-! ### C77 -/

/-- A character that UTF-8 cannot encode. -/
def Surrogate (c : Nat) : Prop := 0xD800 ≤ c ∧ c ≤ 0xDFFF
instance (c : Nat) : Decidable (Surrogate c) := by unfold Surrogate; infer_instance

/-- The UTF-8 encoding, after the table of RFC 3629: leading bits, then six bits a byte. -/
inductive Utf8 : Nat → List Nat → Prop
  | one {a : Nat} : a < 128 → Utf8 a [a]
  | two {a b : Nat} : a < 32 → b < 64 → 128 ≤ 64 * a + b → Utf8 (64 * a + b) [192 + a, 128 + b]
  | three {a b c : Nat} : a < 16 → b < 64 → c < 64 → 2048 ≤ 4096 * a + 64 * b + c →
      ¬ Surrogate (4096 * a + 64 * b + c) →
      Utf8 (4096 * a + 64 * b + c) [224 + a, 128 + b, 128 + c]
  | four {a b c d : Nat} : b < 64 → c < 64 → d < 64 →
      65536 ≤ 262144 * a + 4096 * b + 64 * c + d →
      Utf8 (262144 * a + 4096 * b + 64 * c + d) [240 + a, 128 + b, 128 + c, 128 + d]

/-- The encoding of a text is that of its characters. -/
inductive Encodes : Txt → List Nat → Prop
  | nil : Encodes [] []
  | cons {c : Nat} {b : List Nat} {s : Txt} {r : List Nat} : Utf8 c b → Encodes s r →
      Encodes (c :: s) (b ++ r)

theorem utf8Ch_ok {c : Nat} {b : List Nat} : utf8Ch c = .ok b ↔ Utf8 c b := by
  unfold utf8Ch isSurrogate
  constructor
  · intro h
    split at h
    · injection h with h; subst h; exact .one (by omega)
    · split at h
      · injection h with h; subst h
        have := Utf8.two (a := c / 64) (b := c % 64) (by omega) (by omega) (by omega)
        rwa [show 64 * (c / 64) + c % 64 = c by omega] at this
      · split at h
        · cases h
        · rename_i h1 h2 h3
          simp only [Bool.and_eq_true, decide_eq_true_eq] at h3
          split at h
          · injection h with h; subst h
            have e : 4096 * (c / 4096) + 64 * (c / 64 % 64) + c % 64 = c := by omega
            have := Utf8.three (a := c / 4096) (b := c / 64 % 64) (c := c % 64) (by omega) (by omega)
              (by omega) (by omega) (by rw [e]; exact h3)
            rwa [e] at this
          · injection h with h; subst h
            have e : 262144 * (c / 262144) + 4096 * (c / 4096 % 64) + 64 * (c / 64 % 64) + c % 64 = c := by
              omega
            have := Utf8.four (a := c / 262144) (b := c / 4096 % 64) (c := c / 64 % 64) (d := c % 64)
              (by omega) (by omega) (by omega) (by omega)
            rwa [e] at this
  · intro h
    cases h with
    | one h => rw [if_pos h]
    | two h1 h2 h3 =>
      rw [if_neg (by omega), if_pos (by omega)]
      congr 2
      · omega
      · congr 1; omega
    | three h1 h2 h3 h4 h5 =>
      unfold Surrogate at h5
      rw [if_neg (by omega), if_neg (by omega), if_neg (by simpa using h5), if_pos (by omega)]
      congr 2
      · omega
      · congr 1
        · omega
        · congr 1; omega
    | four h1 h2 h3 h4 =>
      rw [if_neg (by omega), if_neg (by omega), if_neg (by simp; omega), if_neg (by omega)]
      congr 2
      · omega
      · congr 1
        · omega
        · congr 1
          · omega
          · congr 1; omega

theorem utf8Ch_error {c : Nat} {e : Err} : utf8Ch c = .error e ↔ Surrogate c ∧ e = .valueError := by
  unfold utf8Ch isSurrogate Surrogate
  constructor
  · intro h
    split at h
    · cases h
    · split at h
      · cases h
      · split at h
        · rename_i h3
          injection h with h
          exact ⟨by simpa using h3, h.symm⟩
        · split at h <;> cases h
  · rintro ⟨h, rfl⟩
    rw [if_neg (by omega), if_neg (by omega), if_pos (by simpa using h)]

theorem utf8_ok {t : Txt} {b : List Nat} : utf8 t = .ok b ↔ Encodes t b := by
  induction t generalizing b with
  | nil =>
    constructor
    · intro h; injection h with h; subst h; exact .nil
    · intro h; cases h; rfl
  | cons c s ih =>
    rw [utf8]
    constructor
    · intro h
      cases hc : utf8Ch c with
      | error e => rw [hc] at h; cases h
      | ok x =>
        rw [hc] at h
        simp only at h
        cases hs : utf8 s with
        | error e => rw [hs] at h; cases h
        | ok r =>
          rw [hs] at h
          injection h with h
          subst h
          exact .cons (utf8Ch_ok.1 hc) (ih.1 hs)
    · intro h
      cases h with
      | cons h1 h2 => rw [utf8Ch_ok.2 h1]; simp only [ih.2 h2]

theorem utf8_error {t : Txt} : (∃ e, utf8 t = .error e) ↔ ∃ c ∈ t, Surrogate c := by
  induction t with
  | nil => simp [utf8]
  | cons c s ih =>
    rw [utf8]
    cases hc : utf8Ch c with
    | error e =>
      have := (utf8Ch_error.1 hc).1
      simp [this]
    | ok x =>
      have hns : ¬ Surrogate c := fun h => by
        rw [utf8Ch_error.2 ⟨h, rfl⟩] at hc; cases hc
      simp only [List.mem_cons, exists_eq_or_imp, hns, false_or, ← ih]
      cases hs : utf8 s <;> simp

theorem utf8_error_value {t : Txt} {e : Err} (h : utf8 t = .error e) : e = .valueError := by
  induction t with
  | nil => cases h
  | cons c s ih =>
    rw [utf8] at h
    cases hc : utf8Ch c with
    | error e' => rw [hc] at h; injection h with h; subst h; exact (utf8Ch_error.1 hc).2
    | ok x =>
      rw [hc] at h
      simp only at h
      cases hs : utf8 s with
      | error e' => rw [hs] at h; injection h with h; subst h; exact ih hs
      | ok r => rw [hs] at h; cases h

/-- no encoding of a character begins with the encoding of another one -/
theorem utf8_prefix {c d : Nat} {b b' r r' : List Nat} (h : Utf8 c b) (h' : Utf8 d b')
    (hc : c < 0x110000) (hd : d < 0x110000) (he : b ++ r = b' ++ r') : c = d ∧ r = r' := by
  cases h <;> cases h' <;> simp only [List.cons_append, List.nil_append, List.cons.injEq] at he
  all_goals first
    | exact ⟨by omega, he.2⟩
    | exact ⟨by omega, he.2.2⟩
    | exact ⟨by omega, he.2.2.2⟩
    | exact ⟨by omega, he.2.2.2.2⟩
    | omega

theorem encodes_injective {s t : Txt} {b : List Nat} (hs : Encodes s b) (ht : Encodes t b)
    (cs : ∀ c ∈ s, c < 0x110000) (ct : ∀ c ∈ t, c < 0x110000) : s = t := by
  have hne : ∀ {c : Nat} {x : List Nat}, Utf8 c x → x ≠ [] := by
    intro c x h; cases h <;> simp
  induction hs generalizing t with
  | nil =>
    generalize hb : ([] : List Nat) = b at ht
    cases ht with
    | nil => rfl
    | cons h1 h2 =>
      have := List.append_eq_nil_iff.1 hb.symm
      exact absurd this.1 (hne h1)
  | @cons c b1 s r h1 h2 ih =>
    generalize hb : b1 ++ r = b at ht
    cases ht with
    | nil => exact absurd (List.append_eq_nil_iff.1 hb).1 (hne h1)
    | cons h3 h4 =>
      obtain ⟨rfl, rfl⟩ := utf8_prefix h1 h3 (cs _ (by simp)) (ct _ (by simp)) hb
      rw [ih h4 (fun c hc => cs c (List.mem_cons_of_mem _ hc)) (fun c hc => ct c (List.mem_cons_of_mem _ hc))]

/-- The bytes of a token. -/
inductive AsBytes : Tok → Tok → Prop
  | bytes (b : List Nat) : AsBytes (.bytes b) (.bytes b)
  | str {t : Txt} {b : List Nat} : Encodes t b → AsBytes (.str t) (.bytes b)

/-- A token that cannot be encoded. -/
def Unencodable (k : Tok) : Prop := ∃ t c, k = .str t ∧ c ∈ t ∧ Surrogate c

theorem tokBytes_ok {k : Tok} {b : List Nat} : tokBytes k = .ok b ↔ AsBytes k (.bytes b) := by
  cases k with
  | bytes x =>
    constructor
    · intro h; injection h with h; subst h; exact .bytes _
    · intro h; cases h; rfl
  | str t =>
    constructor
    · intro h; exact .str (utf8_ok.1 h)
    · intro h; cases h with | str h => exact utf8_ok.2 h

theorem tokBytes_error {k : Tok} : (∃ e, tokBytes k = .error e) ↔ Unencodable k := by
  cases k with
  | bytes x => simp [tokBytes, Unencodable]
  | str t =>
    rw [show tokBytes (.str t) = utf8 t from rfl, utf8_error]
    constructor
    · rintro ⟨c, h1, h2⟩; exact ⟨t, c, rfl, h1, h2⟩
    · rintro ⟨t', c, h, h1, h2⟩; injection h with h; subst h; exact ⟨c, h1, h2⟩

theorem tokBytes_cases (k : Tok) :
    (∃ b, tokBytes k = .ok b) ∨ (Unencodable k ∧ tokBytes k = .error .valueError) := by
  cases h : tokBytes k with
  | ok b => exact .inl ⟨b, rfl⟩
  | error e =>
    refine .inr ⟨tokBytes_error.1 ⟨e, h⟩, ?_⟩
    cases k with
    | bytes x => cases h
    | str t => rw [utf8_error_value h]

theorem convertToks_ok {stop : Option Err} {ks : List Tok} (h : ∀ k ∈ ks, ¬ Unencodable k) :
    (convertToks stop ks).stop = stop ∧ List.Forall₂ AsBytes ks (convertToks stop ks).toks := by
  induction ks with
  | nil => exact ⟨rfl, .nil⟩
  | cons k ks ih =>
    rcases tokBytes_cases k with ⟨b, hb⟩ | ⟨hu, _⟩
    · obtain ⟨h1, h2⟩ := ih (fun x hx => h x (List.mem_cons_of_mem _ hx))
      simp only [convertToks, hb]
      exact ⟨h1, .cons (tokBytes_ok.1 hb) h2⟩
    · exact absurd hu (h k (by simp))

theorem convertToks_error {stop : Option Err} {pre post : List Tok} {k : Tok}
    (h : ∀ x ∈ pre, ¬ Unencodable x) (hk : Unencodable k) :
    (convertToks stop (pre ++ k :: post)).stop = some .valueError ∧
      List.Forall₂ AsBytes pre (convertToks stop (pre ++ k :: post)).toks := by
  induction pre with
  | nil =>
    rcases tokBytes_cases k with ⟨b, hb⟩ | ⟨_, hb⟩
    · obtain ⟨e, he⟩ := tokBytes_error.2 hk
      rw [hb] at he; cases he
    · simp only [List.nil_append, convertToks, hb]
      exact ⟨rfl, .nil⟩
  | cons x pre ih =>
    rcases tokBytes_cases x with ⟨b, hb⟩ | ⟨hu, _⟩
    · obtain ⟨h1, h2⟩ := ih (fun y hy => h y (List.mem_cons_of_mem _ hy))
      simp only [List.cons_append, convertToks, hb]
      exact ⟨h1, .cons (tokBytes_ok.1 hb) h2⟩
    · exact absurd hu (h x (by simp))

/-- **C77.** What the tokenizer yields is bytes: the bytes tokens as they are, the str
tokens in UTF-8, in order, up to the first one that has a surrogate, for which
UnicodeEncodeError (a ValueError) is raised; an exception of the tokenizer itself passes
through. -/
theorem C77_tokens_are_bytes (g : Gen) :
    ((∀ k ∈ g.toks, ¬ Unencodable k) →
      (convertToBytes g).stop = g.stop ∧ List.Forall₂ AsBytes g.toks (convertToBytes g).toks) ∧
    (∀ pre k post, g.toks = pre ++ k :: post → (∀ x ∈ pre, ¬ Unencodable x) → Unencodable k →
      (convertToBytes g).stop = some .valueError ∧
        List.Forall₂ AsBytes pre (convertToBytes g).toks) := by
  refine ⟨convertToks_ok, ?_⟩
  intro pre k post he h hk
  unfold convertToBytes
  rw [he]
  exact convertToks_error h hk

/-- **C77.** Different str tokens stay different. -/
theorem C77_injective (s t : Txt) (b : Tok) (cs : ∀ c ∈ s, c < 0x110000) (ct : ∀ c ∈ t, c < 0x110000)
    (hs : AsBytes (.str s) b) (ht : AsBytes (.str t) b) : s = t := by
  cases hs with
  | str hs => cases ht with | str ht => exact encodes_injective hs ht cs ct

example : convertToBytes ⟨[.str (txt "é€"), .bytes [7], .str [0x1F600]], none⟩ =
    ⟨[.bytes [0xC3, 0xA9, 0xE2, 0x82, 0xAC], .bytes [7], .bytes [0xF0, 0x9F, 0x98, 0x80]], none⟩ := by decide
example : convertToBytes ⟨[.str (txt "ab"), .str [0xDC80], .str [97]], some .typeError⟩ =
    ⟨[.bytes (txt "ab")], some .valueError⟩ := by decide

/-! ### C76 -/

/-- **C76, as documented.** The pieces of a file name are tokens: for a name with a dot,
the part before it and the part after it. -/
def C76Claim : Prop := ∀ (U : Str) (p : PartView) (a b : Txt),
  p.filename = .ok (some (a ++ txt "." ++ b)) →
    .str (txt "filename:fname piece:" ++ a) ∈ (crackContent U p).toks ∧
    .str (txt "filename:fname piece:" ++ b) ∈ (crackContent U p).toks

/-- **C76.** The exact tokens for a file name: the whole name, and a mark that says that
the name is bogus; the name is never taken to pieces. -/
theorem C76_filename_partial (U : Str) (p : PartView) (f : Txt) (hf : p.filename = .ok (some f)) :
    (crackContent U p).stop = none →
    ∃ pre, (crackContent U p).toks =
        pre ++ [.str (txt "filename:fname:" ++ f), .str (txt "filename:<bogus>")] ∧
      ∀ k ∈ pre, ∃ x y, k = .str (x ++ txt ":" ++ y) ∧ x ∈ [txt "content-type", txt "content-type/type",
        txt "charset", txt "content-disposition"] := by
  intro h
  unfold crackContent at h ⊢
  simp only [andThen_stop_none] at h
  obtain ⟨_, h2, _, h4, _⟩ := h
  rw [andThen_toks rfl, andThen_toks h2, andThen_toks rfl, andThen_toks h4, hf]
  refine ⟨(Gen.yield [.str (txt "content-type:" ++ p.contentType)]).toks ++
    (typeTokens U p.typeParam).toks ++ (Gen.yield (charsetTokens U p.charsets)).toks ++
    (dispositionTokens U p.disposition).toks, ?_, ?_⟩
  · simp only [List.append_assoc]
    rfl
  · intro k hk
    simp only [List.mem_append] at hk
    rcases hk with ((hk | hk) | hk) | hk
    · simp [Gen.yield] at hk
      exact ⟨txt "content-type", p.contentType, hk, by simp⟩
    · cases hp : p.typeParam with
      | none => rw [hp] at hk; simp [typeTokens, Gen.yield] at hk
      | some q =>
        cases q with
        | triple => rw [hp] at hk; simp [typeTokens, Gen.raise] at hk
        | str x =>
          rw [hp] at hk
          simp [typeTokens, Gen.yield] at hk
          exact ⟨txt "content-type/type", U.lower x, hk, by simp⟩
    · simp only [Gen.yield] at hk
      cases hp : p.charsets with
      | none =>
        rw [hp] at hk
        simp [charsetTokens] at hk
        exact ⟨txt "charset", txt "invalid_unicode", hk, by simp⟩
      | some cs =>
        rw [hp] at hk
        simp only [charsetTokens, List.mem_filterMap, Option.map_eq_some_iff] at hk
        obtain ⟨c, _, x, _, rfl⟩ := hk
        exact ⟨txt "charset", U.lower x, rfl, by simp⟩
    · cases hp : p.disposition with
      | none => rw [hp] at hk; simp [dispositionTokens, Gen.yield] at hk
      | some q =>
        cases q with
        | header x => rw [hp] at hk; simp [dispositionTokens, Gen.raise] at hk
        | str x =>
          rw [hp] at hk
          simp [dispositionTokens, Gen.yield] at hk
          exact ⟨txt "content-disposition", U.lower x, hk, by simp⟩

/-- str methods for ASCII, for the examples -/
def asciiStr : Str := ⟨lower, isSpace, isWord, fun n => n.log2⟩

def attachment : PartView :=
  ⟨txt "application/zip", none, some [none], some (.str (txt "attachment")), .ok (some (txt "a.zip"))⟩

example : crackContent asciiStr attachment =
    ⟨[.str (txt "content-type:application/zip"), .str (txt "content-disposition:attachment"),
      .str (txt "filename:fname:a.zip"), .str (txt "filename:<bogus>")], none⟩ := by decide

/-- **C76 is false.** -/
theorem C76_claim_false : ¬ C76Claim := by
  intro h
  have := (h asciiStr attachment (txt "a") (txt "zip") rfl).1
  revert this
  decide

/-! ### C75 -/

/-- A part of the message whose MIME headers can be tokenized. -/
def PartFine (p : PartView) : Prop :=
  p.typeParam ≠ some .triple ∧ (∀ x, p.disposition ≠ some (.header x)) ∧
    ∀ e, p.filename = .error e → e = .typeError

/-- A piece of the subject that can be tokenized: a str without long words (runs of word
characters, of $, % and dots, and of characters from 128 to 255). -/
def PieceFine (U : Str) (c : Chunk) : Prop :=
  ∃ x, c = .str x ∧ ∀ w ∈ words (fun c => !(U.word c || decide (128 ≤ c ∧ c ≤ 255) ||
    (txt "$.%").contains c)) (x.map (fun c => if c = 13 then 32 else c)), w.length ≤ 12

/-- The subject can be tokenized. -/
def SubjectFine (U : Str) (h : HeaderView) : Prop :=
  match h.subjectDecoded, h.subject with
  | some cs, _ => ∀ c ∈ cs, PieceFine U c.1
  | none, .str x => PieceFine U (.str x)
  | none, .header _ => False

/-- A header value that is a str. -/
def IsStr (v : HVal) : Prop := ∃ x, v = .str x

theorem crackContent_stop (U : Str) (p : PartView) :
    (crackContent U p).stop = none ↔ PartFine p := by
  unfold crackContent PartFine
  simp only [andThen_stop_none]
  have h1 : (typeTokens U p.typeParam).stop = none ↔ p.typeParam ≠ some .triple := by
    cases p.typeParam with
    | none => simp [typeTokens, Gen.yield]
    | some q => cases q <;> simp [typeTokens, Gen.yield, Gen.raise]
  have h2 : (dispositionTokens U p.disposition).stop = none ↔ ∀ x, p.disposition ≠ some (.header x) := by
    cases p.disposition with
    | none => simp [dispositionTokens, Gen.yield]
    | some q => cases q <;> simp [dispositionTokens, Gen.yield, Gen.raise]
  have h3 : (filenameTokens p.filename).stop = none ↔ ∀ e, p.filename = .error e → e = .typeError := by
    cases p.filename with
    | ok o => cases o <;> simp [filenameTokens, Gen.yield]
    | error e => cases e <;> simp [filenameTokens, Gen.yield, Gen.raise]
  rw [h1, h2, h3]
  simp [Gen.yield]

theorem wordStr_stop {w : Txt} : (wordStr w).stop = none ↔ w.length ≤ 12 := by
  unfold wordStr maxWord
  split
  · rename_i h; simp [Gen.yield, h.2]
  · split
    · have : ¬ w.length ≤ 12 := by omega
      split <;> simp [Gen.raise, Gen.yield, Gen.andThen, this]
    · simp [Gen.yield]; omega

theorem subjectCh_eq (U : Str) : subjectCh U = fun c => (U.word c || decide (128 ≤ c ∧ c ≤ 255) ||
    (txt "$.%").contains c) := by
  funext c
  unfold subjectCh
  rw [Bool.eq_iff_iff]
  simp only [Bool.or_eq_true, Bool.and_eq_true, decide_eq_true_eq, beq_iff_eq,
    show (txt "$.%") = [36, 46, 37] from rfl, List.contains_iff_mem, List.mem_cons, List.not_mem_nil,
    or_false, or_assoc]

theorem subjectChunk_stop (U : Str) (c : Chunk) : (subjectChunk U c).stop = none ↔ PieceFine U c := by
  cases c with
  | bytes b => simp [subjectChunk, PieceFine, Gen.raise]
  | header => simp [subjectChunk, PieceFine, Gen.raise]
  | str x =>
    have : (subjectChunk U (.str x)).stop = none ↔
        ∀ w ∈ words (fun c => !subjectCh U c) (noCr x), w.length ≤ 12 := by
      simp only [subjectChunk, subjectText, andThen_stop_none, each_stop_none]
      constructor
      · rintro ⟨h, _⟩ w hw
        exact wordStr_stop.1 (h w hw)
      · intro h
        exact ⟨fun w hw => wordStr_stop.2 (h w hw), rfl⟩
    rw [this, subjectCh_eq]
    constructor
    · intro h; exact ⟨x, rfl, h⟩
    · rintro ⟨x', hx, h⟩; injection hx with hx; subst hx; exact h

theorem subjectTokens_stop (U : Str) (h : HeaderView) :
    (subjectTokens U h).stop = none ↔ SubjectFine U h := by
  unfold subjectTokens SubjectFine subjectChunks
  rw [each_stop_none]
  have hc : ∀ c : Option Txt, (subjectCharset c).stop = none := by intro c; cases c <;> rfl
  simp only [andThen_stop_none, subjectChunk_stop, hc, true_and]
  cases h.subjectDecoded with
  | some cs => simp
  | none =>
    cases h.subject with
    | str x => simp
    | header x => simp [PieceFine]

theorem countAddrs_ok {lines : List HVal} : (∃ n, countAddrs lines = .ok n) ↔ ∀ v ∈ lines, IsStr v := by
  induction lines with
  | nil => simp [countAddrs]
  | cons v lines ih =>
    cases v with
    | header x => simp [countAddrs, IsStr]
    | str x =>
      simp only [countAddrs, List.forall_mem_cons, ← ih]
      cases hc : countAddrs lines with
      | error e => simp
      | ok n => simp [IsStr]

theorem countTokens_stop (U : Str) (field : Txt) (lines : List HVal) :
    (countTokens U field lines).stop = none ↔ ∀ v ∈ lines, IsStr v := by
  rw [← countAddrs_ok]
  unfold countTokens
  cases hc : countAddrs lines with
  | error e => simp [Gen.raise]
  | ok n => simp only; split <;> simp [Gen.yield]

theorem tokenizeHeaders_stop (U : Str) (countAll recordAbsence : Bool) (parts : List PartView)
    (h : HeaderView) :
    (tokenizeHeaders U countAll recordAbsence parts h).stop = none ↔
      (∀ p ∈ parts, PartFine p) ∧ SubjectFine U h ∧ (∀ v ∈ h.toLines ++ h.ccLines, IsStr v) ∧
        (∀ v, h.mailer = some v → IsStr v) ∧ (∀ v, h.msgid = some v → IsStr v) := by
  unfold tokenizeHeaders
  simp only [andThen_stop_none, each_stop_none, crackContent_stop, subjectTokens_stop, countTokens_stop]
  have hm : (mailerTokens U h.mailer).stop = none ↔ ∀ v, h.mailer = some v → IsStr v := by
    cases h.mailer with
    | none => simp [mailerTokens, Gen.yield]
    | some v => cases v <;> simp [mailerTokens, Gen.yield, Gen.raise, IsStr]
  have hi : (messageIdTokens U h.msgid).stop = none ↔ ∀ v, h.msgid = some v → IsStr v := by
    cases h.msgid with
    | none => simp [messageIdTokens, Gen.yield]
    | some v => cases v <;> simp [messageIdTokens, Gen.yield, Gen.raise, IsStr]
  rw [hm, hi]
  simp only [Gen.yield, true_and, and_true, List.forall_mem_append]
  tauto

/-- **C75, as documented.** Every message can be tokenized. -/
def C75Claim : Prop := ∀ U parts h textParts, (tokenize U parts h textParts).stop = none

/-- A text part that can be tokenized (for bytes see C55): one without a payload, or one
that can be decoded. -/
def TextFine : Payload → Prop
  | .bytes b => (bodyBytes b).stop = none
  | .none => True
  | .undecodable raw => raw = Option.none

theorem textPart_stop (p : Payload) : (textPart p).stop = none ↔ TextFine p := by
  cases p with
  | bytes b => rfl
  | none => simp [textPart, TextFine, Gen.yield]
  | undecodable raw => cases raw <;> simp [textPart, TextFine, Gen.yield, Gen.raise, Gen.andThen]

theorem convert_stop (g : Gen) : (convertToBytes g).stop = none ↔
    g.stop = none ∧ ∀ k ∈ g.toks, ¬ Unencodable k := by
  constructor
  · intro hg
    by_cases hu : ∀ k ∈ g.toks, ¬ Unencodable k
    · rw [((C77_tokens_are_bytes g).1 hu).1] at hg; exact ⟨hg, hu⟩
    · exfalso
      have key : ∀ ks : List Tok, (¬ ∀ k ∈ ks, ¬ Unencodable k) →
          ∃ pre k post, ks = pre ++ k :: post ∧ (∀ x ∈ pre, ¬ Unencodable x) ∧ Unencodable k := by
        intro ks
        induction ks with
        | nil => intro h; exact absurd (by simp) h
        | cons k ks ih =>
          intro h
          by_cases hk : Unencodable k
          · exact ⟨[], k, ks, rfl, by simp, hk⟩
          · obtain ⟨pre, k', post, rfl, h1, h2⟩ := ih (fun h' => h (by
              intro x hx
              rcases List.mem_cons.1 hx with rfl | hx
              · exact hk
              · exact h' x hx))
            refine ⟨k :: pre, k', post, rfl, ?_, h2⟩
            intro x hx
            rcases List.mem_cons.1 hx with rfl | hx
            · exact hk
            · exact h1 x hx
      obtain ⟨pre, k, post, he, h1, h2⟩ := key _ hu
      rw [((C77_tokens_are_bytes g).2 pre k post he h1 h2).1] at hg
      cases hg
  · rintro ⟨h1, h2⟩
    rw [((C77_tokens_are_bytes g).1 h2).1]; exact h1

/-- **C75.** Exactly when a message can be tokenized: its MIME headers are plain, its
subject needs no decoding and has no long word, the recipients, X-Mailer and Message-Id
are ASCII, its text parts can be tokenized (C55), and there is no surrogate in a token. -/
theorem C75_message_partial (U : Str) (parts : List PartView) (h : HeaderView)
    (textParts : List Payload) :
    (tokenize U parts h textParts).stop = none ↔
      (∀ p ∈ parts, PartFine p) ∧ SubjectFine U h ∧ (∀ v ∈ h.toLines ++ h.ccLines, IsStr v) ∧
      (∀ v, h.mailer = some v → IsStr v) ∧ (∀ v, h.msgid = some v → IsStr v) ∧
      (∀ p ∈ textParts, TextFine p) ∧
      (∀ k ∈ (tokenizeHeaders U false false parts h).toks ++ (tokenizeBody textParts).toks,
        ¬ Unencodable k) := by
  unfold tokenize
  rw [convert_stop, andThen_stop_none, tokenizeHeaders_stop]
  have hb : (tokenizeBody textParts).stop = none ↔ ∀ p ∈ textParts, TextFine p := by
    unfold tokenizeBody
    rw [each_stop_none]
    exact forall₂_congr (fun p _ => textPart_stop p)
  rw [hb]
  constructor
  · rintro ⟨⟨⟨h1, h2, h3, h4, h5⟩, h6⟩, h7⟩
    refine ⟨h1, h2, h3, h4, h5, h6, ?_⟩
    rwa [andThen_toks ((tokenizeHeaders_stop U false false parts h).2 ⟨h1, h2, h3, h4, h5⟩)] at h7
  · rintro ⟨h1, h2, h3, h4, h5, h6, h7⟩
    refine ⟨⟨⟨h1, h2, h3, h4, h5⟩, h6⟩, ?_⟩
    rwa [andThen_toks ((tokenizeHeaders_stop U false false parts h).2 ⟨h1, h2, h3, h4, h5⟩)]

/-- **C75.** Text parts without bytes: tokens that say so; a part that cannot be decoded
stops the tokenizer if it has any contents. -/
theorem C75_undecoded_partial (raw : Txt ⊕ Unit) :
    textPart .none = ⟨[.str (txt "control: payload is None")], none⟩ ∧
    textPart (.undecodable none) =
      ⟨[.str (txt "control: couldn't decode"), .str (txt "control: payload is None")], none⟩ ∧
    textPart (.undecodable (some raw)) =
      ⟨[.str (txt "control: couldn't decode")], some .typeError⟩ := ⟨rfl, rfl, rfl⟩

/-- A message with nothing but a subject. -/
def onlySubject (s : Txt) : HeaderView :=
  ⟨.str s, some [(.str s, none)], fun _ => none, [], [], none, none, [txt "Subject"]⟩

/-- **C75 is false.** A subject with a word of 13 letters is enough. -/
theorem C75_claim_false : ¬ C75Claim := by
  intro h
  have := h asciiStr [] (onlySubject (txt "Congratulations!")) []
  revert this
  decide

/-- Cases: what is left of the message of the last theorem, and one that can be
tokenized. -/
example : tokenize asciiStr [] (onlySubject (txt "Congratulations!")) [] = ⟨[], some .typeError⟩ := by
  decide
example : tokenize asciiStr [] (onlySubject (txt "Re: 79% off")) [.none] =
    ⟨[txt "subject:79%", txt "subject:off", txt "subject:: ", txt "subject:% ", txt "from:none",
      txt "to:none", txt "cc:none", txt "sender:none", txt "reply-to:none", txt "x-mailer:none",
      txt "message-id:invalid", txt "header:Subject:1", txt "control: payload is None"].map Tok.bytes,
      none⟩ := by decide

/-! ### C78 -/

/-- **C78.** Whether a message can be tokenized, and which tokens it has, does not depend
on the order in which the set of text parts is visited. -/
theorem C78_order (U : Str) (parts : List PartView) (h : HeaderView) (xs ys : List Payload)
    (hp : xs.Perm ys) (hx : (tokenize U parts h xs).stop = none) :
    (tokenize U parts h ys).stop = none ∧
      (tokenize U parts h xs).toks.Perm (tokenize U parts h ys).toks := by
  have hbody : ∀ zs : List Payload, (∀ p ∈ zs, TextFine p) →
      tokenizeBody zs = ⟨zs.flatMap (fun p => (textPart p).toks), none⟩ :=
    fun zs hz => each_ok (fun p hp => (textPart_stop p).2 (hz p hp))
  obtain ⟨h1, h2, h3, h4, h5, h6, h7⟩ := (C75_message_partial U parts h xs).1 hx
  have h6' : ∀ p ∈ ys, TextFine p := fun p hpy => h6 p (hp.mem_iff.2 hpy)
  have hperm : (xs.flatMap (fun p => (textPart p).toks)).Perm (ys.flatMap (fun p => (textPart p).toks)) :=
    hp.flatMap_right _
  have hy : (tokenize U parts h ys).stop = none := by
    refine (C75_message_partial U parts h ys).2 ⟨h1, h2, h3, h4, h5, h6', ?_⟩
    intro k hk
    rw [hbody ys h6', List.mem_append] at hk
    rw [hbody xs h6] at h7
    refine h7 k (List.mem_append.2 ?_)
    rcases hk with hk | hk
    · exact .inl hk
    · exact .inr (hperm.mem_iff.2 hk)
  refine ⟨hy, ?_⟩
  have hH := (tokenizeHeaders_stop U false false parts h).2 ⟨h1, h2, h3, h4, h5⟩
  have key : ∀ ks ls : List Tok, ks.Perm ls → (∀ k ∈ ks, ¬ Unencodable k) →
      (convertToks none ks).toks.Perm (convertToks none ls).toks := by
    have hmap : ∀ ks : List Tok, (∀ k ∈ ks, ¬ Unencodable k) → (convertToks none ks).toks =
        ks.map (fun k => match tokBytes k with | .ok b => Tok.bytes b | .error _ => k) := by
      intro ks
      induction ks with
      | nil => intro _; rfl
      | cons k ks ih =>
        intro hk
        rcases tokBytes_cases k with ⟨b, hb⟩ | ⟨hu, _⟩
        · simp only [convertToks, hb, List.map_cons]
          rw [← ih (fun x hx => hk x (List.mem_cons_of_mem _ hx))]
          rfl
        · exact absurd hu (hk k (by simp))
    intro ks ls hkl hk
    rw [hmap ks hk, hmap ls (fun k hk' => hk k (hkl.mem_iff.2 hk'))]
    exact hkl.map _
  unfold tokenize convertToBytes
  have hs : ∀ zs, (∀ p ∈ zs, TextFine p) →
      ((tokenizeHeaders U false false parts h).andThen (tokenizeBody zs)) =
        ⟨(tokenizeHeaders U false false parts h).toks ++ zs.flatMap (fun p => (textPart p).toks), none⟩ := by
    intro zs hz
    rw [hbody zs hz]
    simp [Gen.andThen, hH]
  rw [hs xs h6, hs ys h6']
  refine key _ _ (hperm.append_left _) ?_
  rw [hbody xs h6] at h7
  exact h7

/-- A case with two parts. -/
example : (tokenize asciiStr [] (onlySubject (txt "hi")) [.bytes (txt "one two"), .none]).stop = none ∧
    (tokenize asciiStr [] (onlySubject (txt "hi")) [.bytes (txt "one two"), .none]).toks ≠
      (tokenize asciiStr [] (onlySubject (txt "hi")) [.none, .bytes (txt "one two")]).toks := by decide

end Sb.Props
