import Verif.Props.HeadersRead
import Verif.Props.Desk

/-
C119: headers with characters that are not ASCII and were not encoded.
-/

set_option linter.unusedSectionVars false
namespace Sb.Props
open Sb Sb.Mail Sb.Tokenize Sb.Strip Py Py.Text

/-! ### The words of the statements -/

/-- How `message_from_bytes` keeps a byte that is not ASCII. -/
def RawByte (c : Nat) : Prop := 0xDC80 ≤ c ∧ c ≤ 0xDCFF

/-- The value has such a byte. -/
def RawValue (v : Stored) : Prop := ∃ t, v = .str t ∧ ∃ c ∈ t, RawByte c

/-- The first header of this name has such a byte. -/
def FirstRaw (h : Headers) (name : Txt) : Prop :=
  ∃ a n v b, h = a ++ (n, v) :: b ∧ lower n = name ∧ (∀ e ∈ a, lower e.1 ≠ name) ∧ RawValue v

/-- Some header of this name has such a byte. -/
def SomeRaw (h : Headers) (name : Txt) : Prop := ∃ e ∈ h, lower e.1 = name ∧ RawValue e.2

/-! ### What the tokenizer gets -/

theorem raw_fetch {v : Stored} (h : RawValue v) : ∃ t, fetch v = .header t := by
  obtain ⟨t, rfl, c, hc, h1, h2⟩ := h
  refine ⟨t, ?_⟩
  have : t.any isSurrogate = true := List.any_eq_true.2 ⟨c, hc, by simp [isSurrogate]; omega⟩
  simp [fetch, this]

theorem getOne_raw {h : Headers} {name : Txt} (hn : lower name = name) (hr : FirstRaw h name) :
    ∃ t, getOne h name = some (.header t) := by
  obtain ⟨a, n, v, b, rfl, h1, h2, h3⟩ := hr
  obtain ⟨t, ht⟩ := raw_fetch h3
  refine ⟨t, ?_⟩
  have : (a ++ (n, v) :: b).find? (fun e => sameName e.1 name) = some (n, v) := by
    rw [List.find?_append, List.find?_eq_none.2, Option.none_or, List.find?_cons_of_pos]
    · simp [sameName, h1, hn]
    · intro e he
      simpa [sameName, hn] using h2 e he
  simp only [getOne, Headers.get, this, ht, toHVal]

theorem getAll_raw {h : Headers} {name : Txt} (hn : lower name = name) (hr : SomeRaw h name) :
    ∃ t, .header t ∈ getAll h name := by
  obtain ⟨e, he, h1, h2⟩ := hr
  obtain ⟨t, ht⟩ := raw_fetch h2
  refine ⟨t, List.mem_filterMap.2 ⟨e, List.mem_filter.2 ⟨he, by simp [sameName, h1, hn]⟩, by simp [ht, toHVal]⟩⟩

theorem countAddrs_raw {l : List HVal} {t : Txt} (h : .header t ∈ l) : ∃ e, countAddrs l = .error e := by
  induction l with
  | nil => cases h
  | cons x l ih =>
    cases x with
    | header s => exact ⟨_, rfl⟩
    | str s =>
      obtain ⟨e, he⟩ := ih (by simpa using h)
      exact ⟨e, by simp [countAddrs, he]⟩

theorem front_fine {U : StrMore} {o : Tokenize.Opts} {e : Envelope} {v : Visit}
    (h : (e.tokens U o v).stop = none) :
    (front U o (headerView e.lib e.headers) (moreView e.lib e.headers)).stop = none := by
  unfold Envelope.tokens Mime.callMessage callWith tokenizeHeadersWith at h
  simp only [Gen.when, Bool.false_and, Bool.false_eq_true, if_false, rest_front] at h
  have := ((convert_stop _).1 h).1
  simp only [andThen_stop_none] at this
  exact this.1.2.2.1

/-! ### C119 -/

/-- The claim: a byte in a header that is not ASCII does not keep a message from being
tokenized. -/
def C119Claim : Prop :=
  ∀ (U : StrMore) (o : Tokenize.Opts) (E : Lib) (a b : Headers) (parts : Option (List Mime)) (w : Visit)
    (n x : Txt) (v : Stored), RawValue v →
    ((Envelope.mk E (a ++ (n, .str x) :: b) parts).tokens U o w).stop = none →
    ((Envelope.mk E (a ++ (n, v) :: b) parts).tokens U o w).stop = none

/-- **C119.** A message with such a byte in To, Cc, X-Mailer or Message-Id cannot be
tokenized, whatever the options are. -/
theorem C119_raises (U : StrMore) (o : Tokenize.Opts) (e : Envelope) (v : Visit)
    (h : SomeRaw e.headers (txt "to") ∨ SomeRaw e.headers (txt "cc") ∨
      FirstRaw e.headers (txt "x-mailer") ∨ FirstRaw e.headers (txt "message-id")) :
    (e.tokens U o v).stop ≠ none := by
  intro hn
  have hf := front_fine hn
  unfold front at hf
  simp only [andThen_stop_none] at hf
  obtain ⟨-, -, -, -, -, h1, h2, h3, -, -, h4⟩ := hf
  rcases h with h | h | h | h
  · obtain ⟨t, ht⟩ := getAll_raw (by decide) h
    obtain ⟨er, he⟩ := countAddrs_raw ht
    simp [headerView, countTokens, he, Gen.raise] at h1
  · obtain ⟨t, ht⟩ := getAll_raw (by decide) h
    obtain ⟨er, he⟩ := countAddrs_raw ht
    simp [headerView, countTokens, he, Gen.raise] at h2
  · obtain ⟨t, ht⟩ := getOne_raw (by decide) h
    simp [headerView, mailerTokens, ht, Gen.raise] at h3
  · obtain ⟨t, ht⟩ := getOne_raw (by decide) h
    simp [headerView, messageIdTokens, ht, Gen.raise] at h4

/-- **C119.** Training on it raises, but counts a message without words; so does
untraining it, the other way round. -/
theorem C119_training {K : Type} [Field K] [LinearOrder K] (U : StrMore) (o : Tokenize.Opts) (e : Envelope)
    (v : Visit) (it : SetIter Tok) (c : Clf (Dict Tok WordInfo) K) (ub : Bool) (hc : c.useBigrams = some ub)
    (h : SomeRaw e.headers (txt "to") ∨ SomeRaw e.headers (txt "cc") ∨
      FirstRaw e.headers (txt "x-mailer") ∨ FirstRaw e.headers (txt "message-id")) :
    ∃ er, learnGen (memory Tok) it (e.tokens U o v) true c =
        (.error er, { c with nspam := c.nspam + 1, probcache := Dict.empty }) ∧
      learnGen (memory Tok) it (e.tokens U o v) false c =
        (.error er, { c with nham := c.nham + 1, probcache := Dict.empty }) ∧
      (0 < c.nspam → unlearnGen (memory Tok) it (e.tokens U o v) true c =
        (.error er, { c with nspam := c.nspam - 1, probcache := Dict.empty })) ∧
      (0 < c.nham → unlearnGen (memory Tok) it (e.tokens U o v) false c =
        (.error er, { c with nham := c.nham - 1, probcache := Dict.empty })) := by
  cases hs : (e.tokens U o v).stop with
  | none => exact absurd hs (C119_raises U o e v h)
  | some er =>
    refine ⟨er, ?_, ?_, fun h1 => ?_, fun h1 => ?_⟩
    · simp [learnGen, hs, Corpora.learnRaising, Corpora.addMsgRaising, M.get, M.modify, M.raise, bind, M.bind, hc]
    · simp [learnGen, hs, Corpora.learnRaising, Corpora.addMsgRaising, M.get, M.modify, M.raise, bind, M.bind, hc]
    · simp [unlearnGen, hs, Corpora.unlearnRaising, Corpora.removeMsgRaising, M.get, M.modify, M.raise, bind,
        M.bind, hc, not_le.2 h1]
    · simp [unlearnGen, hs, Corpora.unlearnRaising, Corpora.removeMsgRaising, M.get, M.modify, M.raise, bind,
        M.bind, hc, not_le.2 h1]

/-- **C119, where it holds.** In a header that is not read the value makes no difference. -/
theorem C119_unread_partial (U : StrMore) (o : Tokenize.Opts) (E : Lib) (a b : Headers)
    (parts : Option (List Mime)) (w : Visit) (n x : Txt) (v : Stored) (hn : ¬ IsRead o n) :
    (Envelope.mk E (a ++ (n, v) :: b) parts).tokens U o w =
      (Envelope.mk E (a ++ (n, .str x) :: b) parts).tokens U o w := by
  refine C104_only_these U o E _ _ ?_ parts w.octets w.texts
  unfold LooksSame
  simp [List.filterMap_append, List.filterMap_cons, seen, hn]

/-- A message whose X-Mailer has the byte E9. -/
def foreign : Envelope :=
  ⟨plainLib, [(txt "To", .str (txt "me")), (txt "X-Mailer", .str (txt "Caf" ++ [0xDCE9]))], none⟩

theorem foreign_raw : FirstRaw foreign.headers (txt "x-mailer") :=
  ⟨[(txt "To", .str (txt "me"))], txt "X-Mailer", .str (txt "Caf" ++ [0xDCE9]), [], rfl, by decide,
    by decide, _, rfl, 0xDCE9, by decide, by unfold RawByte; omega⟩

theorem C119_claim_false : ¬ C119Claim := by
  intro h
  refine C119_raises asciiMore .default foreign ⟨[], [foreign.root]⟩ (.inr (.inr (.inl foreign_raw))) ?_
  refine h asciiMore .default plainLib [(txt "To", .str (txt "me"))] [] none ⟨[], [foreign.root]⟩ (txt "X-Mailer")
    (txt "Cafe") (.str (txt "Caf" ++ [0xDCE9])) ⟨_, rfl, 0xDCE9, by decide, by unfold RawByte; omega⟩ ?_
  decide

/-- The same byte in a header that is only counted, and in one that is not looked at. -/
example : ¬ IsRead .default (txt "Date") ∧ ¬ IsRead .default (txt "X-Comment") := by decide

end Sb.Props
