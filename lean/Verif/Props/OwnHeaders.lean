import Verif.Model.Letter
import Verif.Props.MessageHeaders
import Verif.Props.OptionBody
import Verif.Props.Mime

/-
Property C101: the headers that SpamBayes writes into a message leave no trace in the
tokens of the message.
-/

set_option linter.unusedSectionVars false
namespace Sb.Props
open Sb.Mail Sb.Tokenize Py Py.Text

/-! ### The words of the statements -/

/-- The headers differ at most in headers of SpamBayes. -/
def SameMail (h h' : Headers) : Prop := h.filter (fun e => ¬ IsSb e) = h'.filter (fun e => ¬ IsSb e)

/-- `str.lower` treats ASCII texts as it should. -/
def LowersAscii (U : Str) : Prop := ∀ t : Txt, (∀ c ∈ t, c < 128) → U.lower t = lower t

/-- The argument asks for a notation of messages of the class. -/
def AsksFor (c : Cls) (n : Notate) : Prop := ∃ l, n = .seq l ∧ .inl c ∈ l

/-- No header of SpamBayes has this name. -/
def NotOwn (n : Txt) : Prop := ∀ k ∈ sbHeaderNames, lower (txt k) ≠ lower n

instance (n : Txt) : Decidable (NotOwn n) :=
  inferInstanceAs (Decidable (∀ k ∈ sbHeaderNames, lower (txt k) ≠ lower n))

/-! ### What is looked at -/

theorem notOwn_filter {n : Txt} (hn : NotOwn n) (h : Headers) :
    (h.filter (fun e => ¬ IsSb e)).filter (fun e => sameName e.1 n) = h.filter (fun e => sameName e.1 n) := by
  rw [List.filter_filter]
  refine List.filter_congr fun e _ => ?_
  by_cases hs : sameName e.1 n = true
  · have : ¬ IsSb e := by
      rintro ⟨k, hk, h1⟩
      exact hn k hk (h1.symm.trans (sameName_iff.1 hs))
    simp [hs, this]
  · simp [hs]

theorem getAll_same {h h' : Headers} (hs : SameMail h h') {n : Txt} (hn : NotOwn n) :
    getAll h' n = getAll h n := by
  unfold getAll
  rw [← notOwn_filter hn h, ← notOwn_filter hn h', hs]

theorem getOne_same {h h' : Headers} (hs : SameMail h h') {n : Txt} (hn : NotOwn n) :
    getOne h' n = getOne h n := by
  have : ∀ x : Headers, x.get n = match (x.filter (fun e => sameName e.1 n)).head? with
      | some e => fetch e.2
      | none => .none := by
    intro x
    unfold Headers.get
    rw [List.head?_filter]
    cases List.find? (fun e => sameName e.1 n) x <;> rfl
  unfold getOne
  rw [this, this, ← notOwn_filter hn h, ← notOwn_filter hn h', hs]

theorem ascii_of_lower {t : Txt} (h : ∀ c ∈ lower t, c < 128) : ∀ c ∈ t, c < 128 := by
  intro c hc
  have := h (lowerCh c) (List.mem_map_of_mem hc)
  unfold lowerCh at this
  split at this <;> omega

theorem own_not_safe {U : Str} (hU : LowersAscii U) {e : Txt × Stored} (h : IsSb e) :
    isSafe U.lower e.1 = false := by
  obtain ⟨n, hn, he⟩ := h
  have ha : ∀ n ∈ sbHeaderNames, ∀ c ∈ lower (txt n), c < 128 := by decide
  have hs : ∀ n ∈ sbHeaderNames, safeHeaders.contains (lower (txt n)) = false := by decide
  unfold isSafe
  rw [hU e.1 (ascii_of_lower (by rw [he]; exact ha n hn)), he]
  exact hs n hn

theorem headerCounts_own {U : Str} (hU : LowersAscii U) (h : Headers) : ∀ d,
    headerCounts U.lower false (h.map Prod.fst) d =
      headerCounts U.lower false ((h.filter (fun e => ¬ IsSb e)).map Prod.fst) d := by
  induction h with
  | nil => intro d; rfl
  | cons e r ih =>
    intro d
    by_cases he : IsSb e
    · rw [List.filter_cons_of_neg (by simpa using he), List.map_cons, headerCounts,
        own_not_safe hU he, ← ih]
      simp
    · rw [List.filter_cons_of_pos (by simpa using he), List.map_cons, List.map_cons, headerCounts,
        headerCounts, ih]

theorem headerTokens_same {U : Str} (hU : LowersAscii U) (ra : Bool) {h h' : Headers}
    (hs : SameMail h h') :
    headerTokens U.lower false ra (h'.map Prod.fst) = headerTokens U.lower false ra (h.map Prod.fst) := by
  unfold headerTokens
  rw [headerCounts_own hU h, headerCounts_own hU h', hs]

theorem habeas_same (U : Str) (g g' : Txt → Option HVal) (reduce : Bool) : ∀ l : List (Txt × Txt),
    (∀ p ∈ l, g' p.1 = g p.1) → ∀ v i, habeasLoop U g' reduce l v i = habeasLoop U g reduce l v i := by
  intro l
  induction l with
  | nil => intro _ v i; rfl
  | cons p r ih =>
    intro h v i
    have hr := ih (fun q hq => h q (by simp [hq]))
    obtain ⟨a, b⟩ := p
    have h1 : g' a = g a := h (a, b) (by simp)
    simp only [habeasLoop, h1, hr]

theorem rest_same {U : StrMore} (hU : LowersAscii U.toStr) (o : Tokenize.Opts) (hc : o.countAll = false)
    (E : Lib) {h h' : Headers} (hs : SameMail h h') :
    tokenizeHeadersRest U o (headerView E h') (moreView E h') =
      tokenizeHeadersRest U o (headerView E h) (moreView E h) := by
  have hab : ∀ p ∈ habeasHeaders, NotOwn p.1 := by decide
  have h1 : habeasTokens U.toStr (moreView E h').get o.reduceHabeas =
      habeasTokens U.toStr (moreView E h).get o.reduceHabeas := by
    unfold habeasTokens
    rw [habeas_same U.toStr (moreView E h).get (moreView E h').get o.reduceHabeas habeasHeaders
      (fun p hp => getOne_same hs (hab p hp))]
  have hsub : getSubject h' = getSubject h := by
    unfold getSubject; rw [getOne_same hs (by decide)]
  have h2 : subjectTokens U.toStr (headerView E h') = subjectTokens U.toStr (headerView E h) := by
    unfold subjectTokens subjectChunks
    simp only [headerView, hsub]
  have hadd : ∀ f ∈ addressHeaders, NotOwn f := by decide
  have h3 : addressHeaders.flatMap (fieldTokens U.toStr (headerView E h')) =
      addressHeaders.flatMap (fieldTokens U.toStr (headerView E h)) := by
    rw [List.flatMap, List.flatMap]
    congr 1
    refine List.map_congr_left fun f hf => ?_
    unfold fieldTokens
    simp only [headerView, getAll_same hs (hadd f hf)]
  have hto := getAll_same hs (n := txt "to") (by decide)
  have hcc := getAll_same hs (n := txt "cc") (by decide)
  have hre := getAll_same hs (n := txt "received") (by decide)
  have hnn := getAll_same hs (n := txt "nntp-posting-host") (by decide)
  have hma := getOne_same hs (n := txt "x-mailer") (by decide)
  have hid := getOne_same hs (n := txt "message-id") (by decide)
  unfold tokenizeHeadersRest
  rw [h1, h2, h3, hc]
  simp only [headerView, moreView, hto, hcc, hre, hnn, hma, hid, headerTokens_same hU _ hs]

theorem root_same (E : Lib) {h h' : Headers} (hs : SameMail h h') (parts : Option (List Mime)) :
    rootPart E h' parts = rootPart E h parts := by
  unfold rootPart
  rw [getOne_same hs (n := txt "content-type") (by decide),
    getOne_same hs (n := txt "content-disposition") (by decide),
    getOne_same hs (n := txt "content-transfer-encoding") (by decide)]

/-! ### What add_sb_headers and remove_sb_headers do -/

/-- An action that only touches headers of SpamBayes. -/
def OnlyOwn (f : M Msg Unit) (c : Option Cls) : Prop :=
  ∀ m : Msg, m.c = c → SameMail m.headers (f m).2.headers ∧ (f m).2.c = c

theorem OnlyOwn.bind {f g : M Msg Unit} {c : Option Cls} (hf : OnlyOwn f c) (hg : OnlyOwn g c) :
    OnlyOwn (do f; g) c := by
  intro m hm
  obtain ⟨h1, h2⟩ := hf m hm
  rw [M.bind_run]
  cases hr : f m with
  | mk r m' =>
    rw [hr] at h1 h2
    cases r with
    | error e => exact ⟨h1, h2⟩
    | ok u =>
      obtain ⟨h3, h4⟩ := hg m' h2
      exact ⟨h1.trans h3, h4⟩

theorem OnlyOwn.pure (c : Option Cls) : OnlyOwn (Pure.pure ()) c := fun _ hm => ⟨rfl, hm⟩

theorem OnlyOwn.header {n : String} (hn : n ∈ sbHeaderNames) (v : Stored) (c : Option Cls) :
    OnlyOwn (addHeader (txt n) v) c := by
  intro m hm
  refine ⟨?_, hm⟩
  show List.filter _ _ = List.filter _ (m.headers ++ [(txt n, v)])
  rw [List.filter_append]
  have : IsSb (txt n, v) := ⟨n, hn, rfl⟩
  rw [List.filter_cons_of_neg (by simpa using this)]
  simp

theorem OnlyOwn.raise (e : Err) (c : Option Cls) : OnlyOwn (M.raise e) c := fun _ hm => ⟨rfl, hm⟩

theorem inNotate_asks {c : Cls} {n : Notate} (h : inNotate (some c) n = .ok true) : AsksFor c n := by
  cases n with
  | none => simp [inNotate] at h
  | str t => by_cases ht : t = [] <;> simp [inNotate, ht] at h
  | seq l =>
    refine ⟨l, rfl, ?_⟩
    simp only [inNotate, Except.ok.injEq, List.any_eq_true] at h
    obtain ⟨x, hx, h⟩ := h
    cases x with
    | inl d => simp at h; rw [h]; exact hx
    | inr t => cases h

theorem addSb_run (F : Fmt) (prob : PyFloat) (clues : List (Word × PyFloat)) (o : Mail.Opts) (m : Msg) :
    addSbHeaders F prob clues o m = (do
      addHeader classificationName (.str (clsOf prob).name)
      addScore F prob o; addLevel F prob o; addEvidence F clues o; addId o
      addNotations o.notateTo o.notateSubject : M Msg Unit) { m with c := some (clsOf prob) } := rfl

/-- Without notations, add_sb_headers changes no header but those of SpamBayes, even if it
raises an exception. -/
theorem C101_add (F : Fmt) (prob : PyFloat) (clues : List (Word × PyFloat)) (o : Mail.Opts) (m : Msg)
    (ht : ¬ AsksFor (clsOf prob) o.notateTo) (hs : ¬ AsksFor (clsOf prob) o.notateSubject) :
    SameMail m.headers (addSbHeaders F prob clues o m).2.headers := by
  rw [addSb_run]
  have main : OnlyOwn (do
      addHeader classificationName (.str (clsOf prob).name)
      addScore F prob o; addLevel F prob o; addEvidence F clues o; addId o
      addNotations o.notateTo o.notateSubject : M Msg Unit) (some (clsOf prob)) := by
    refine .bind (.header (n := "X-Spambayes-Classification") (by decide) _ _)
      (.bind ?_ (.bind ?_ (.bind ?_ (.bind ?_ (.bind ?_ ?_)))))
    · unfold addScore
      split
      · exact .header (n := "X-Spambayes-Spam-Probability") (by decide) _ _
      · exact .pure _
    · unfold addLevel
      split
      · split
        · exact .header (n := "X-Spambayes-Level") (by decide) _ _
        · exact .raise _ _
      · exact .pure _
    · unfold addEvidence
      split
      · split
        · exact .header (n := "X-Spambayes-Evidence") (by decide) _ _
        · exact .raise _ _
      · exact .pure _
    · intro m hm
      unfold addId
      split
      · exact OnlyOwn.header (n := "X-Spambayes-MailId") (by decide) _ _ m hm
      · exact ⟨rfl, hm⟩
    · intro m hm
      unfold addToNotation
      rw [hm]
      split
      · exact ⟨rfl, hm⟩
      · rename_i b hb
        cases b with
        | false => exact ⟨rfl, hm⟩
        | true => exact absurd (inNotate_asks hb) ht
    · intro m hm
      unfold addSubjectNotation
      rw [hm]
      split
      · exact ⟨rfl, hm⟩
      · rename_i b hb
        cases b with
        | false => exact ⟨rfl, hm⟩
        | true => exact absurd (inNotate_asks hb) hs
  exact (main { m with c := some (clsOf prob) } rfl).1

theorem removeNotation_off (name suffix : Txt) (m : Msg) :
    removeNotation false name suffix m = (.ok (), m) := by
  unfold removeNotation
  cases m.headers.get name <;> simp

/-- remove_sb_headers without removal of notations changes no other header either. -/
theorem C101_remove (m : Msg) : SameMail m.headers (removeSbHeaders false false m).2.headers := by
  have : (removeSbHeaders false false m).2.headers = m.headers.filter (fun e => !decide (IsSb e)) := by
    rw [← foldl_del_eq, removeSbHeaders_run, M.bind_run, removeNotation_off]
    simp only [removeNotation_off]
  rw [this]
  unfold SameMail
  rw [List.filter_filter]
  simp

/-! ### C101 -/

/-- **C101.** The tokens of a message do not depend on its SpamBayes headers, unless all
header lines are counted. -/
theorem C101_own_headers_partial (U : StrMore) (hU : LowersAscii U.toStr) (o : Tokenize.Opts)
    (hc : o.countAll = false) (E : Lib) (h h' : Headers) (hs : SameMail h h')
    (parts : Option (List Mime)) (octets texts : List Mime) :
    rootPart E h' parts = rootPart E h parts ∧
    Mime.callMessage U o (headerView E h') (moreView E h') (rootPart E h' parts) octets texts =
      Mime.callMessage U o (headerView E h) (moreView E h) (rootPart E h parts) octets texts := by
  refine ⟨root_same E hs parts, ?_⟩
  rw [root_same E hs parts]
  unfold Mime.callMessage callWith tokenizeHeadersWith
  simp only [Gen.when, Bool.false_and, Bool.false_eq_true, if_false]
  rw [rest_same hU o hc E hs]

/-- The claim for options of the tokenizer and of add_sb_headers: the message to which
the headers were added has the tokens that it had before. -/
def C101Claim (o : Tokenize.Opts) (so : Mail.Opts) : Prop :=
  ∀ (U : StrMore), LowersAscii U.toStr → ∀ (E : Lib) (F : Fmt) (prob : PyFloat)
    (clues : List (Word × PyFloat)) (m : Msg) (parts : Option (List Mime)) (octets texts : List Mime),
    let h' := (addSbHeaders F prob clues so m).2.headers
    Mime.callMessage U o (headerView E h') (moreView E h') (rootPart E h' parts) octets texts =
      Mime.callMessage U o (headerView E m.headers) (moreView E m.headers)
        (rootPart E m.headers parts) octets texts

/-- **C101.** It holds unless notations are asked for or all header lines are counted. -/
theorem C101_tokens_partial (o : Tokenize.Opts) (so : Mail.Opts) (hc : o.countAll = false)
    (ht : ∀ c, ¬ AsksFor c so.notateTo) (hs : ∀ c, ¬ AsksFor c so.notateSubject) : C101Claim o so := by
  intro U hU E F prob clues m parts octets texts
  exact (C101_own_headers_partial U hU o hc E _ _ (C101_add F prob clues so m (ht _) (hs _)) parts
    octets texts).2

/-- **C101.** With the default options of the tokenizer. -/
theorem C101_default (U : StrMore) (hU : LowersAscii U.toStr) (E : Lib) (F : Fmt) (prob : PyFloat)
    (clues : List (Word × PyFloat)) (so : Mail.Opts) (m : Msg)
    (ht : ¬ AsksFor (clsOf prob) so.notateTo) (hs : ¬ AsksFor (clsOf prob) so.notateSubject)
    (parts : Option (List Mime)) (texts : List Mime) :
    let h' := (addSbHeaders F prob clues so m).2.headers
    Mime.tokenizeMessage U.toStr (headerView E h') (rootPart E h' parts) texts =
      Mime.tokenizeMessage U.toStr (headerView E m.headers) (rootPart E m.headers parts) texts := by
  have h := (C101_own_headers_partial U hU .default rfl E _ _ (C101_add F prob clues so m ht hs) parts
    [] texts).2
  unfold Mime.callMessage at h
  rw [C90_defaults, C90_defaults] at h
  exact h

/-! ### Where it fails -/

/-- A library that does nothing clever. -/
def plainLib : Lib where
  decode v := match v with
    | .str t => some [(.str t, none)]
    | .header _ => none
  addresses _ := []
  recipients _ := []
  text v := match v with
    | .str t => t
    | .header t => t
  view _ _ := noView
  payload _ _ := .bytes []
  blob _ _ := .none
  nntp _ := .yield []

def plainFmt : Fmt where
  fixed _ _ := txt "1.00"
  log10 _ := txt "0"
  oneMinus p := p
  timesTen p := p
  encode t := .ok t
  repr _ := txt "x"

theorem one_spam : clsOf (.fin 1) = .spam := by
  norm_num [clsOf, PyFloat.lt, hamCutoff, spamCutoff]

def greeting : Msg := { Msg.new with headers := [(txt "Subject", .str (txt "hello"))] }

/-- **C101 is false** with a notation in the subject. -/
theorem C101_claim_false : ¬ C101Claim .default { notateSubject := .seq [.inl .spam] } := by
  intro h
  have := h asciiMore (fun _ _ => rfl) plainLib plainFmt (.fin 1) [] greeting none [] []
  simp only [addSb_run, one_spam] at this
  revert this
  decide

/-- **C101 is false** with COUNT_ALL_HEADER_LINES. -/
theorem C101_counted_false : ¬ C101Claim { Tokenize.Opts.default with countAll := true } {} := by
  intro h
  have := h asciiMore (fun _ _ => rfl) plainLib plainFmt (.fin 1) [] greeting none [] []
  simp only [addSb_run, one_spam] at this
  revert this
  decide

example : LowersAscii asciiMore.toStr := fun _ _ => rfl
example : ¬ AsksFor .ham (.seq [.inl .spam]) ∧ AsksFor .spam (.seq [.inl .spam]) := by
  refine ⟨?_, _, rfl, by simp⟩
  rintro ⟨l, h1, h2⟩
  cases h1
  simp at h2

example : (addSbHeaders plainFmt (.fin 1) [] {} greeting).2.headers =
    [(txt "Subject", .str (txt "hello")), (txt "X-Spambayes-Classification", .str (txt "spam")),
      (txt "X-Spambayes-MailId", .none)] := by
  rw [addSb_run, one_spam]
  decide

example : (Mime.tokenizeMessage asciiMore.toStr (headerView plainLib greeting.headers)
    (rootPart plainLib greeting.headers none) []).toks.contains (.bytes (txt "subject:hello")) = true := by decide

end Sb.Props
