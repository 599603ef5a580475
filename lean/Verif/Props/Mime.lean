import Verif.Model.Mime
import Verif.Props.OptionBody

/-
Property C99: which parts of a message are read.
-/

set_option linter.unusedSectionVars false

namespace Sb.Props
open Py Py.Re Py.Text Sb.Mail Sb.Strip Sb.Tokenize

/-- `p` is the message `m` itself, or one of its parts at any depth. -/
inductive PartOf (p : Mime) : Mime → Prop
  | self : PartOf p p
  | inside {c d v q b ms m} : m ∈ ms → PartOf p m → PartOf p (.part c d v q b (some ms))

/-- `t` is what stands before the first semicolon of a header, without the whitespace
around it and in lower case. -/
def Declared (U : Str) (v t : Txt) : Prop := ∃ a s b rest, v = a ++ s ++ b ++ rest ∧
  (∀ c ∈ a ++ b, U.space c = true) ∧ (∀ c, s.head? = some c → U.space c = false) ∧
  (∀ c, s.getLast? = some c → U.space c = false) ∧ 59 ∉ a ++ s ++ b ∧ (rest = [] ∨ ∃ r, rest = 59 :: r) ∧
  t = U.lower s

/-- The type of a part: that of its header, if this has exactly one slash; text/plain if it has
not, or if there is no header, but message/rfc822 for parts of a digest without header. -/
inductive TypeIs (U : Str) : Mime → Txt → Prop
  | default {v q b ms} : TypeIs U (.part none false v q b ms) (txt "text/plain")
  | digest {v q b ms} : TypeIs U (.part none true v q b ms) (txt "message/rfc822")
  | declared {h t d v q b ms} : Declared U h t → t.count 47 = 1 → TypeIs U (.part (some h) d v q b ms) t
  | invalid {h t d v q b ms} : Declared U h t → t.count 47 ≠ 1 →
      TypeIs U (.part (some h) d v q b ms) (txt "text/plain")

theorem dropWhile_space {f : Nat → Bool} {a s : List Nat} (ha : ∀ c ∈ a, f c = true)
    (hs : ∀ c, s.head? = some c → f c = false) : (a ++ s).dropWhile f = s := by
  induction a with
  | nil =>
    cases s with
    | nil => rfl
    | cons c r => simp [hs c rfl]
  | cons c a ih =>
    rw [List.cons_append, List.dropWhile_cons, if_pos (ha c (by simp)), ih (fun x hx => ha x (by simp [hx]))]

theorem trim_eq (U : Str) {a s b : Txt} (h : ∀ c ∈ a ++ b, U.space c = true)
    (h1 : ∀ c, s.head? = some c → U.space c = false) (h2 : ∀ c, s.getLast? = some c → U.space c = false) :
    Mime.trim U (a ++ s ++ b) = s := by
  unfold Mime.trim
  by_cases hs : s = []
  · subst hs
    have : (a ++ [] ++ b).dropWhile U.space = [] := by
      rw [List.dropWhile_eq_nil_iff]
      intro c hc
      exact h c (by simpa using hc)
    rw [this]; rfl
  · have e1 : (a ++ s ++ b).dropWhile U.space = s ++ b := by
      rw [List.append_assoc]
      refine dropWhile_space (fun c hc => h c (by simp [hc])) ?_
      intro c hc
      rw [List.head?_append_of_ne_nil _ hs] at hc
      exact h1 c hc
    rw [e1, List.reverse_append, dropWhile_space (fun c hc => h c (by simp at hc; simp [hc])), List.reverse_reverse]
    intro c hc
    rw [List.head?_reverse] at hc
    exact h2 c hc

theorem before_semicolon {t rest : Txt} (h : 59 ∉ t) (hr : rest = [] ∨ ∃ r, rest = 59 :: r) :
    (t ++ rest).takeWhile (· != 59) = t := by
  induction t with
  | nil => rcases hr with rfl | ⟨r, rfl⟩ <;> simp
  | cons c t ih =>
    simp only [List.mem_cons, not_or] at h
    rw [List.cons_append, List.takeWhile_cons, if_pos (by simpa using fun e => h.1 e.symm), ih h.2]

theorem declared_eq {U : Str} {v t : Txt} (h : Declared U v t) :
    t = U.lower (Mime.trim U (v.takeWhile (· != 59))) := by
  obtain ⟨a, s, b, rest, rfl, h1, h2, h3, h4, h5, rfl⟩ := h
  rw [before_semicolon h4 h5, trim_eq U h1 h2 h3]

theorem declared_exists (U : Str) (v : Txt) : Declared U v (U.lower (Mime.trim U (v.takeWhile (· != 59)))) := by
  set w := v.takeWhile (· != 59) with hw
  have hv : v = w ++ v.dropWhile (· != 59) := by rw [hw, List.takeWhile_append_dropWhile]
  set u := w.dropWhile U.space with hu
  have e1 : w = w.takeWhile U.space ++ u := by rw [hu, List.takeWhile_append_dropWhile]
  have e2 : u = (u.reverse.dropWhile U.space).reverse ++ (u.reverse.takeWhile U.space).reverse := by
    rw [← List.reverse_append, List.takeWhile_append_dropWhile, List.reverse_reverse]
  have hw59 : 59 ∉ w := by
    intro h
    have := List.mem_takeWhile_imp h
    simp at this
  have e3 : w = w.takeWhile U.space ++ Mime.trim U w ++ (u.reverse.takeWhile U.space).reverse := by
    conv_lhs => rw [e1, e2]
    rw [List.append_assoc]
    rfl
  refine ⟨w.takeWhile U.space, Mime.trim U w, (u.reverse.takeWhile U.space).reverse, v.dropWhile (· != 59), ?_, ?_, ?_, ?_,
    ?_, ?_, rfl⟩
  · rw [← e3]; exact hv
  · intro c hc
    rcases List.mem_append.1 hc with hc | hc
    · exact List.mem_takeWhile_imp hc
    · exact List.mem_takeWhile_imp (List.mem_reverse.1 hc)
  · intro c hc
    have hne : Mime.trim U w ≠ [] := by intro h; rw [h] at hc; cases hc
    have : u.head? = some c := by
      rw [e2]
      change (Mime.trim U w ++ _).head? = _
      rw [List.head?_append_of_ne_nil _ hne, hc]
    have h2 := List.head?_dropWhile_not U.space w
    rw [← hu, this] at h2
    simpa using h2
  · intro c hc
    have : (u.reverse.dropWhile U.space).head? = some c := by
      rw [← List.getLast?_reverse]; exact hc
    have h2 := List.head?_dropWhile_not U.space u.reverse
    rw [this] at h2
    simpa using h2
  · rw [← e3]; exact hw59
  · cases h : v.dropWhile (· != 59) with
    | nil => exact .inl rfl
    | cons c r =>
      right
      have h2 := List.head?_dropWhile_not (· != 59) v
      rw [h] at h2
      simp at h2
      exact ⟨r, by rw [h2]⟩

theorem typeIs_iff {U : Str} {m : Mime} {t : Txt} : TypeIs U m t ↔ t = Mime.contentType U m := by
  constructor
  · rintro (_ | _ | ⟨h, hc⟩ | ⟨h, hc⟩)
    · rfl
    · rfl
    · rw [declared_eq h] at hc ⊢
      simp only [Mime.contentType, hc, ne_eq, not_true, if_false]
    · rw [declared_eq h] at hc
      simp only [Mime.contentType, ne_eq, hc, not_false_iff, if_true]
  · rintro rfl
    obtain ⟨c, d, v, q, b, ms⟩ := m
    cases c with
    | none => cases d <;> constructor
    | some h =>
      have hd := declared_exists U h
      simp only [Mime.contentType]
      split
      · next hc => exact .invalid hd hc
      · next hc => exact .declared hd (not_not.1 hc)

/-- **C99.** Every part has exactly one type. -/
theorem C99_one_type (U : Str) (m : Mime) : ∃! t, TypeIs U m t :=
  ⟨_, typeIs_iff.2 rfl, fun _ h => typeIs_iff.1 h⟩

mutual
theorem mem_walk {p : Mime} : ∀ {m : Mime}, p ∈ Mime.walk m ↔ PartOf p m
  | .part c d v q b none => by
    simp only [Mime.walk, List.mem_singleton]
    constructor
    · rintro rfl; exact .self
    · intro h; cases h; rfl
  | .part c d v q b (some ms) => by
    simp only [Mime.walk, List.mem_cons]
    rw [mem_walkAll]
    constructor
    · rintro (rfl | ⟨m, hm, h⟩)
      · exact .self
      · exact .inside hm h
    · intro h
      cases h with
      | self => exact .inl rfl
      | inside hm h => exact .inr ⟨_, hm, h⟩
theorem mem_walkAll {p : Mime} : ∀ {ms : List Mime}, p ∈ Mime.walkAll ms ↔ ∃ m ∈ ms, PartOf p m
  | [] => by simp [Mime.walkAll]
  | m :: r => by
    simp only [Mime.walkAll, List.mem_append, List.mem_cons, exists_eq_or_imp]
    rw [mem_walk, mem_walkAll]
end

theorem maintype_text {U : Str} {m : Mime} {t : Txt} (h : TypeIs U m t) :
    Mime.mainType U m = txt "text" ↔ txt "text/" <+: t := by
  have h1 : t = Mime.contentType U m := typeIs_iff.1 h
  have hc : 47 ∈ t := by
    rcases h with _ | _ | ⟨-, hc⟩ | -
    · decide
    · decide
    · exact List.count_pos_iff.1 (by omega)
    · decide
  unfold Mime.mainType
  rw [← h1]
  clear h1 h
  constructor
  · intro h
    have e := List.takeWhile_append_dropWhile (p := (· != 47)) (l := t)
    rw [h] at e
    rw [← e]
    cases hd : t.dropWhile (· != 47) with
    | nil =>
      rw [List.dropWhile_eq_nil_iff] at hd
      have := hd 47 hc
      simp at this
    | cons x r =>
      have h2 := List.head?_dropWhile_not (· != 47) t
      rw [hd] at h2
      simp at h2
      subst h2
      exact ⟨r, rfl⟩
  · rintro ⟨r, rfl⟩
    rfl

/-- **C99.** The text parts, octet streams and images that are read are exactly the parts
of these types, at any depth; for text that includes all parts with an invalid type. -/
theorem C99_parts (U : Str) (m p : Mime) :
    (p ∈ Mime.textparts U m ↔ PartOf p m ∧ ∃ t, TypeIs U p t ∧ txt "text/" <+: t) ∧
    (p ∈ Mime.octetparts U m ↔ PartOf p m ∧ TypeIs U p (txt "application/octet-stream")) ∧
    (p ∈ Mime.imageparts U m ↔ PartOf p m ∧ ∃ t, TypeIs U p t ∧ txt "image/" <+: t) := by
  refine ⟨?_, ?_, ?_⟩
  · unfold Mime.textparts
    rw [List.mem_filter, mem_walk, beq_iff_eq]
    refine and_congr_right fun _ => ?_
    constructor
    · intro h
      exact ⟨_, typeIs_iff.2 rfl, (maintype_text (typeIs_iff.2 rfl)).1 h⟩
    · rintro ⟨t, ht, hp⟩
      exact (maintype_text ht).2 hp
  · unfold Mime.octetparts
    rw [List.mem_filter, mem_walk, beq_iff_eq, typeIs_iff, eq_comm (a := Mime.contentType U p)]
  · unfold Mime.imageparts
    rw [List.mem_filter, mem_walk]
    refine and_congr_right fun _ => ?_
    rw [List.isPrefixOf_iff_prefix]
    constructor
    · exact fun h => ⟨_, typeIs_iff.2 rfl, h⟩
    · rintro ⟨t, ht, hp⟩
      rw [typeIs_iff] at ht
      exact ht ▸ hp

/-- **C99.** A broken type hides nothing: a part whose Content-Type has not exactly one
slash is read as text. -/
theorem C99_broken_type (U : Str) (m : Mime) (h t : Txt) (d : Bool) (v : PartView) (q : Payload) (b : Blob)
    (ms : Option (List Mime)) (hp : PartOf (.part (some h) d v q b ms) m) (ht : Declared U h t) (hc : t.count 47 ≠ 1) :
    .part (some h) d v q b ms ∈ Mime.textparts U m :=
  (C99_parts U m _).1.2 ⟨hp, _, .invalid ht hc, by decide⟩

theorem mem_forall₂ {l r : List Tok} (h : List.Forall₂ AsBytes l r) (k : Tok) :
    k ∈ r ↔ ∃ j ∈ l, AsBytes j k := by
  constructor
  · intro hk
    induction h with
    | nil => cases hk
    | cons hab _ ih =>
      rcases List.mem_cons.1 hk with rfl | hk
      · exact ⟨_, by simp, hab⟩
      · obtain ⟨j, hj, h⟩ := ih hk
        exact ⟨j, by simp [hj], h⟩
  · rintro ⟨j, hj, hjk⟩
    induction h with
    | nil => cases hj
    | @cons a b l r hab hlr ih =>
      rcases List.mem_cons.1 hj with rfl | hj
      · have : b = k := by
          cases hab with
          | bytes => cases hjk; rfl
          | str e1 =>
            cases hjk with
            | str e2 => rw [Except.ok.inj ((utf8_ok.2 e1).symm.trans (utf8_ok.2 e2))]
        simp [this]
      · exact List.mem_cons_of_mem _ (ih hj)

/-- **C99.** The tokens of a message are the tokens of its headers, and those of the text
of each text part at any depth, in UTF-8. -/
theorem C99_tokens (U : Str) (h : HeaderView) (m : Mime) (texts : List Mime)
    (ht : texts.Perm (Mime.textparts U m)) (hs : (Mime.tokenizeMessage U h m texts).stop = none) (k : Tok) :
    k ∈ (Mime.tokenizeMessage U h m texts).toks ↔
      (∃ j ∈ (tokenizeHeaders U false false ((Mime.walk m).map (Mime.viewOf U)) h).toks, AsBytes j k) ∨
      ∃ p t, PartOf p m ∧ TypeIs U p t ∧ txt "text/" <+: t ∧
        ∃ j ∈ (textPart (Mime.payloadOf p)).toks, AsBytes j k := by
  unfold Mime.tokenizeMessage tokenize at *
  obtain ⟨h1, h2⟩ := (convert_stop _).1 hs
  rw [mem_forall₂ ((C77_tokens_are_bytes _).1 h2).2]
  rw [andThen_stop_none] at h1
  rw [andThen_toks h1.1]
  have h3 := h1.2
  unfold tokenizeBody at h3 ⊢
  rw [each_stop_none] at h3
  rw [each_ok (f := textPart) h3]
  simp only [List.mem_append, List.mem_flatMap, List.mem_map]
  constructor
  · rintro ⟨j, hj | ⟨_, ⟨p, hp, rfl⟩, hj⟩, hk⟩
    · exact .inl ⟨j, hj, hk⟩
    · obtain ⟨h4, t, h5, h6⟩ := (C99_parts U m p).1.1 (ht.mem_iff.1 hp)
      exact .inr ⟨p, t, h4, h5, h6, j, hj, hk⟩
  · rintro (⟨j, hj, hk⟩ | ⟨p, t, h4, h5, h6, j, hj, hk⟩)
    · exact ⟨j, .inl hj, hk⟩
    · exact ⟨j, .inr ⟨_, ⟨p, ht.mem_iff.2 ((C99_parts U m p).1.2 ⟨h4, t, h5, h6⟩), rfl⟩, hj⟩, hk⟩

/-- **C99**, with options: the tokens of the headers, those of each octet stream if
CHECK_OCTETS is set, those of all images together if IMAGE_SIZE is set, and those of the
text of each text part. -/
theorem C99_with_options (U : StrMore) (o : Opts) (h : HeaderView) (x : MoreView) (m : Mime) (octets texts : List Mime)
    (ht : texts.Perm (Mime.textparts U.toStr m)) (ho : octets.Perm (Mime.octetparts U.toStr m))
    (hs : (Mime.callMessage U o h x m octets texts).stop = none) (k : Tok) :
    k ∈ (Mime.callMessage U o h x m octets texts).toks ↔
      (∃ j ∈ (tokenizeHeadersWith U o false false ((Mime.walk m).map (Mime.viewOf U.toStr)) h x).toks, AsBytes j k) ∨
      (o.octets = true ∧ ∃ p, PartOf p m ∧ TypeIs U.toStr p (txt "application/octet-stream") ∧
        ∃ j ∈ octetTokens (Mime.blobOf p), AsBytes j k) ∨
      (o.imageSize = true ∧ ∃ j ∈ imageTokens U.toStr ((Mime.imageparts U.toStr m).map Mime.blobOf), AsBytes j k) ∨
      ∃ p t, PartOf p m ∧ TypeIs U.toStr p t ∧ txt "text/" <+: t ∧
        ∃ j ∈ (textPartWith U o (Mime.payloadOf p)).toks, AsBytes j k := by
  unfold Mime.callMessage callWith at *
  obtain ⟨h1, h2⟩ := (convert_stop _).1 hs
  rw [mem_forall₂ ((C77_tokens_are_bytes _).1 h2).2]
  rw [andThen_stop_none] at h1
  rw [andThen_toks h1.1]
  have h3 := h1.2
  unfold tokenizeBodyWith at h3 ⊢
  have w : ∀ b g, (Gen.when b g).toks = if b then g.toks else [] := by
    intro b g
    cases b <;> rfl
  simp only [andThen_stop_none] at h3
  obtain ⟨i1, i2, i3, i4⟩ := h3
  rw [andThen_toks i1, andThen_toks i2, andThen_toks i3, w, w]
  rw [when_stop] at i3
  have hc : o.crackImages = false := by
    cases hc : o.crackImages with
    | false => rfl
    | true => cases i3 hc
  rw [hc, show (Gen.when false (Gen.raise .importError)).toks = [] from rfl]
  rw [each_stop_none] at i4
  rw [each_ok (f := textPartWith U o) i4]
  simp only [List.mem_append, List.not_mem_nil, false_or, Gen.yield]
  have e1 : (∃ j, j ∈ (if o.octets = true then (octets.map Mime.blobOf).flatMap octetTokens else []) ∧ AsBytes j k) ↔
      (o.octets = true ∧ ∃ p, PartOf p m ∧ TypeIs U.toStr p (txt "application/octet-stream") ∧
        ∃ j ∈ octetTokens (Mime.blobOf p), AsBytes j k) := by
    cases o.octets with
    | false => simp
    | true =>
      simp only [if_true, List.mem_flatMap, List.mem_map, true_and]
      constructor
      · rintro ⟨j, ⟨_, ⟨p, hp, rfl⟩, hj⟩, hk⟩
        obtain ⟨h4, h5⟩ := (C99_parts U.toStr m p).2.1.1 (ho.mem_iff.1 hp)
        exact ⟨p, h4, h5, j, hj, hk⟩
      · rintro ⟨p, h4, h5, j, hj, hk⟩
        exact ⟨j, ⟨_, ⟨p, ho.mem_iff.2 ((C99_parts U.toStr m p).2.1.2 ⟨h4, h5⟩), rfl⟩, hj⟩, hk⟩
  have e2 : (∃ j, j ∈ (if o.imageSize = true then imageTokens U.toStr ((Mime.imageparts U.toStr m).map Mime.blobOf) else []) ∧
      AsBytes j k) ↔ (o.imageSize = true ∧
        ∃ j ∈ imageTokens U.toStr ((Mime.imageparts U.toStr m).map Mime.blobOf), AsBytes j k) := by
    cases o.imageSize <;> simp
  have e3 : (∃ j, j ∈ (texts.map Mime.payloadOf).flatMap (fun x => (textPartWith U o x).toks) ∧ AsBytes j k) ↔
      ∃ p t, PartOf p m ∧ TypeIs U.toStr p t ∧ txt "text/" <+: t ∧
        ∃ j ∈ (textPartWith U o (Mime.payloadOf p)).toks, AsBytes j k := by
    simp only [List.mem_flatMap, List.mem_map]
    constructor
    · rintro ⟨j, ⟨_, ⟨p, hp, rfl⟩, hj⟩, hk⟩
      obtain ⟨h4, t, h5, h6⟩ := (C99_parts U.toStr m p).1.1 (ht.mem_iff.1 hp)
      exact ⟨p, t, h4, h5, h6, j, hj, hk⟩
    · rintro ⟨p, t, h4, h5, h6, j, hj, hk⟩
      exact ⟨j, ⟨_, ⟨p, ht.mem_iff.2 ((C99_parts U.toStr m p).1.2 ⟨h4, t, h5, h6⟩), rfl⟩, hj⟩, hk⟩
  rw [← e1, ← e2, ← e3]
  simp only [or_and_right, exists_or]

theorem partOf_trans {a b c : Mime} (h1 : PartOf a b) (h2 : PartOf b c) : PartOf a c := by
  induction h2 with
  | self => exact h1
  | inside hm _ ih => exact .inside hm ih

/-- **C99.** The same without functions of the model: a text part without parts gives the
tokens of its payload; a part of a text type that has parts, which no text is read of,
gives a token that says so. -/
theorem C99_texts (U : Str) (h : HeaderView) (m : Mime) (texts : List Mime)
    (ht : texts.Perm (Mime.textparts U m)) (hs : (Mime.tokenizeMessage U h m texts).stop = none) (k : Tok) :
    k ∈ (Mime.tokenizeMessage U h m texts).toks ↔
      (∃ j ∈ (tokenizeHeaders U false false ((Mime.walk m).map (Mime.viewOf U)) h).toks, AsBytes j k) ∨
      (∃ c d v q b t, PartOf (.part c d v q b none) m ∧ TypeIs U (.part c d v q b none) t ∧ txt "text/" <+: t ∧
        ∃ j ∈ (textPart q).toks, AsBytes j k) ∨
      (k = .bytes (txt "control: payload is None") ∧ ∃ c d v q b ms t, PartOf (.part c d v q b (some ms)) m ∧
        TypeIs U (.part c d v q b (some ms)) t ∧ txt "text/" <+: t) := by
  rw [C99_tokens U h m texts ht hs k]
  refine or_congr Iff.rfl ?_
  have hk : ∀ j, j ∈ (textPart .none).toks ∧ AsBytes j k ↔
      j = .str (txt "control: payload is None") ∧ k = .bytes (txt "control: payload is None") := by
    intro j
    have e : utf8 (txt "control: payload is None") = .ok (txt "control: payload is None") := by decide
    constructor
    · rintro ⟨hj, ha⟩
      have : j = .str (txt "control: payload is None") := by simpa [textPart, Gen.yield] using hj
      subst this
      refine ⟨rfl, ?_⟩
      cases ha with
      | str e1 => rw [Except.ok.inj ((utf8_ok.2 e1).symm.trans e)]
    · rintro ⟨rfl, rfl⟩
      exact ⟨by simp [textPart, Gen.yield], .str (utf8_ok.1 e)⟩
  constructor
  · rintro ⟨⟨c, d, v, q, b, _ | ms⟩, t, h1, h2, h3, j, hj, ha⟩
    · exact .inl ⟨c, d, v, q, b, t, h1, h2, h3, j, hj, ha⟩
    · exact .inr ⟨((hk j).1 ⟨hj, ha⟩).2, c, d, v, q, b, ms, t, h1, h2, h3⟩
  · rintro (⟨c, d, v, q, b, t, h1, h2, h3, j, hj, ha⟩ | ⟨rfl, c, d, v, q, b, ms, t, h1, h2, h3⟩)
    · exact ⟨_, t, h1, h2, h3, j, hj, ha⟩
    · exact ⟨_, t, h1, h2, h3, _, (hk _).2 ⟨rfl, rfl⟩⟩

/-- **C99**, for octet streams, without functions of the model: one without parts gives the
tokens of its payload; one that has parts gives a token that says there is no payload. -/
theorem C99_octets (U : StrMore) (o : Opts) (h : HeaderView) (x : MoreView) (m : Mime) (octets texts : List Mime)
    (ht : texts.Perm (Mime.textparts U.toStr m)) (ho : octets.Perm (Mime.octetparts U.toStr m))
    (hs : (Mime.callMessage U o h x m octets texts).stop = none) (h8 : o.octets = true) :
    (∀ c d v q b, PartOf (.part c d v q b none) m →
      TypeIs U.toStr (.part c d v q b none) (txt "application/octet-stream") →
      ∀ j ∈ octetTokens b, ∀ k, AsBytes j k → k ∈ (Mime.callMessage U o h x m octets texts).toks) ∧
    (∀ c d v q b ms, PartOf (.part c d v q b (some ms)) m →
      TypeIs U.toStr (.part c d v q b (some ms)) (txt "application/octet-stream") →
      .bytes (txt "control: octet payload is None") ∈ (Mime.callMessage U o h x m octets texts).toks) ∧
    (∀ k ∈ (Mime.callMessage U o h x m octets texts).toks,
      (∃ j ∈ (tokenizeHeadersWith U o false false ((Mime.walk m).map (Mime.viewOf U.toStr)) h x).toks, AsBytes j k) ∨
      (∃ c d v q b, PartOf (.part c d v q b none) m ∧
        TypeIs U.toStr (.part c d v q b none) (txt "application/octet-stream") ∧ ∃ j ∈ octetTokens b, AsBytes j k) ∨
      k = .bytes (txt "control: octet payload is None") ∨
      (o.imageSize = true ∧ ∃ j ∈ imageTokens U.toStr ((Mime.imageparts U.toStr m).map Mime.blobOf), AsBytes j k) ∨
      ∃ p t, PartOf p m ∧ TypeIs U.toStr p t ∧ txt "text/" <+: t ∧
        ∃ j ∈ (textPartWith U o (Mime.payloadOf p)).toks, AsBytes j k) := by
  have e : utf8 (txt "control: octet payload is None") = .ok (txt "control: octet payload is None") := by decide
  have hall := fun k => C99_with_options U o h x m octets texts ht ho hs k
  refine ⟨?_, ?_, ?_⟩
  · intro c d v q b h1 h2 j hj k hk
    exact (hall k).2 (.inr (.inl ⟨h8, _, h1, h2, j, hj, hk⟩))
  · intro c d v q b ms h1 h2
    exact (hall _).2 (.inr (.inl ⟨h8, _, h1, h2, .str (txt "control: octet payload is None"),
      by simp [Mime.blobOf, octetTokens], .str (utf8_ok.1 e)⟩))
  · intro k hk
    rcases (hall k).1 hk with h1 | ⟨-, ⟨c, d, v, q, b, _ | ms⟩, h1, h2, j, hj, ha⟩ | h1 | h1
    · exact .inl h1
    · exact .inr (.inl ⟨c, d, v, q, b, h1, h2, j, hj, ha⟩)
    · refine .inr (.inr (.inl ?_))
      have : j = .str (txt "control: octet payload is None") := by simpa [Mime.blobOf, octetTokens] using hj
      subst this
      cases ha with
      | str e1 => rw [Except.ok.inj ((utf8_ok.2 e1).symm.trans e)]
    · exact .inr (.inr (.inr (.inl h1)))
    · exact .inr (.inr (.inr (.inr h1)))

/-- **C99.** An image that has parts counts as one without payload. -/
theorem C99_images (U : Str) (m : Mime) :
    List.Forall₂ (fun p b => (∃ c d v q, p = .part c d v q b none) ∨
        b = .none ∧ ∃ c d v q b' ms, p = .part c d v q b' (some ms))
      (Mime.imageparts U m) ((Mime.imageparts U m).map Mime.blobOf) := by
  generalize Mime.imageparts U m = l
  induction l with
  | nil => exact .nil
  | cons p l ih =>
    refine .cons ?_ ih
    obtain ⟨c, d, v, q, b, _ | ms⟩ := p
    · exact .inl ⟨c, d, v, q, rfl⟩
    · exact .inr ⟨rfl, c, d, v, q, b, ms, rfl⟩

/-- **C99.** The type of every part at any depth becomes a token. -/
theorem C99_type_tokens (U : Str) (h : HeaderView) (m : Mime) (texts : List Mime)
    (ht : texts.Perm (Mime.textparts U m)) (hs : (Mime.tokenizeMessage U h m texts).stop = none)
    (p : Mime) (t : Txt) (hp : PartOf p m) (hT : TypeIs U p t) (k : Tok)
    (hk : AsBytes (.str (txt "content-type:" ++ t)) k) : k ∈ (Mime.tokenizeMessage U h m texts).toks := by
  refine (C99_tokens U h m texts ht hs k).2 (.inl ⟨_, ?_, hk⟩)
  have h1 : (tokenizeHeaders U false false ((Mime.walk m).map (Mime.viewOf U)) h).stop = none := by
    unfold Mime.tokenizeMessage tokenize at hs
    exact (andThen_stop_none.1 ((convert_stop _).1 hs).1).1
  have hv : Mime.viewOf U p ∈ (Mime.walk m).map (Mime.viewOf U) := List.mem_map_of_mem (mem_walk.2 hp)
  have hc : (Mime.viewOf U p).contentType = t := by
    obtain ⟨c, d, v, q, b, ms⟩ := p
    exact (typeIs_iff.1 hT).symm
  unfold tokenizeHeaders at h1 ⊢
  have h2 := (andThen_stop_none.1 h1).1
  rw [andThen_toks h2, List.mem_append]
  left
  rw [each_stop_none] at h2
  rw [each_ok (f := crackContent U) h2]
  refine List.mem_flatMap.2 ⟨_, hv, ?_⟩
  unfold crackContent
  rw [yield_andThen, hc]
  simp

/-- **C99.** Wrapping a message in another one does not hide its text: the tokens of the
text of a message are tokens of every message that has it as a part. -/
theorem C99_wrapped (U : Str) (h : HeaderView) (m inner : Mime) (texts : List Mime) (hp : PartOf inner m)
    (ht : texts.Perm (Mime.textparts U m)) (hs : (Mime.tokenizeMessage U h m texts).stop = none)
    (p : Mime) (hi : p ∈ Mime.textparts U inner) (j k : Tok) (hj : j ∈ (textPart (Mime.payloadOf p)).toks)
    (hk : AsBytes j k) : k ∈ (Mime.tokenizeMessage U h m texts).toks := by
  obtain ⟨h1, t, h2, h3⟩ := (C99_parts U inner p).1.1 hi
  exact (C99_tokens U h m texts ht hs k).2 (.inr ⟨p, t, partOf_trans h1 hp, h2, h3, j, hj, hk⟩)

/-- **C99.** What is not read: a message that is not of type text and has no parts, such as
a multipart message whose boundary is missing, has the tokens of its headers only,
whatever its text. -/
theorem C99_unparsed (U : Str) (h : HeaderView) (c : Option Txt) (d : Bool) (v : PartView) (q : Payload) (b : Blob)
    (t : Txt) (ht : TypeIs U (.part c d v q b none) t) (hn : ¬ txt "text/" <+: t) (texts : List Mime)
    (hp : texts.Perm (Mime.textparts U (.part c d v q b none))) :
    Mime.tokenizeMessage U h (.part c d v q b none) texts =
      tokenize U [Mime.viewOf U (.part c d v q b none)] h [] := by
  have : Mime.textparts U (.part c d v q b none) = [] := by
    rw [List.eq_nil_iff_forall_not_mem]
    intro p hp
    obtain ⟨h1, t', h2, h3⟩ := (C99_parts U _ p).1.1 hp
    cases h1
    rw [typeIs_iff] at ht h2
    exact hn (by rw [ht, ← h2]; exact h3)
  rw [this, List.perm_nil] at hp
  subst hp
  rfl

/-- ASCII, for the examples. -/
def asciiMime : Str := ⟨lower, fun c => c == 32 || (9 ≤ c && c ≤ 13), fun _ => false, fun _ => 0⟩

/-- a view without parameters -/
def noView : PartView := ⟨[], none, some [], none, .ok none⟩

/-- A text in an attached message in a multipart message. -/
def wrapped : Mime :=
  .part (some (txt "multipart/mixed; boundary=x")) false noView .none .none (some [
    .part (some (txt " Text/HTML ; charset=utf-8")) false noView (.bytes (txt "hello")) .none none,
    .part (some (txt "message/rfc822")) false noView .none .none (some [
      .part (some (txt "nonsense")) false noView (.bytes (txt "pills")) .none none])])

/-- Both texts are read. -/
example : (Mime.textparts asciiMime wrapped).map Mime.payloadOf = [.bytes (txt "hello"), .bytes (txt "pills")] := by
  rfl

example : Declared asciiMime (txt " Text/HTML ; charset=utf-8") (txt "text/html") :=
  ⟨txt " ", txt "Text/HTML", txt " ", txt "; charset=utf-8", by decide, by decide, by decide, by decide, by decide,
    .inr ⟨_, rfl⟩, by decide⟩

/-- It can be tokenized. -/
example : (Mime.tokenizeMessage asciiMime (onlySubject (txt "hi")) wrapped (Mime.textparts asciiMime wrapped)).stop = none := by
  decide

/-- A multipart message without parts. -/
example : TypeIs asciiMime (.part (some (txt "multipart/mixed")) false noView (.bytes (txt "pills")) .none none)
    (txt "multipart/mixed") ∧ ¬ txt "text/" <+: txt "multipart/mixed" :=
  ⟨typeIs_iff.2 (by decide), by decide⟩

/-- An octet stream that has parts, when octet streams are read. -/
example : ∃ o : Opts, o.octets = true ∧ ∃ m : Mime, TypeIs asciiMime m (txt "application/octet-stream") ∧
    (tokenizeBodyWith ⟨asciiMime, fun _ => false, fun _ => 0⟩ o ((Mime.octetparts asciiMime m).map Mime.blobOf) [] []).stop =
      none ∧ ∃ c d v q b ms, m = .part c d v q b (some ms) :=
  ⟨{ Opts.default with octets := true }, rfl,
    .part (some (txt "application/octet-stream")) false noView (.bytes []) (.bytes (txt "x")) (some []),
    typeIs_iff.2 (by decide), by decide, _, _, _, _, _, _, rfl⟩

end Sb.Props
