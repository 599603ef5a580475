import Verif.Props.OwnHeaders

/-
Property C104: which headers have an effect on the tokens of a message, and that their
order has none.
-/

set_option linter.unusedSectionVars false
namespace Sb.Props
open Sb.Mail Sb.Tokenize Sb.Strip Py Py.Text

/-! ### The words of the statements -/

/-- The names of headers of which the first value is read. -/
def readFirst : List Txt :=
  [txt "subject", txt "x-mailer", txt "message-id", txt "content-type", txt "content-disposition",
    txt "content-transfer-encoding"]

/-- The names of headers of which all values are read. -/
def readAll : List Txt := [txt "from", txt "to", txt "cc", txt "sender", txt "reply-to"]

/-- The names of the nine headers of the Habeas mark. -/
def habeasNames : List Txt :=
  [txt "x-habeas-swe-1", txt "x-habeas-swe-2", txt "x-habeas-swe-3", txt "x-habeas-swe-4",
    txt "x-habeas-swe-5", txt "x-habeas-swe-6", txt "x-habeas-swe-7", txt "x-habeas-swe-8",
    txt "x-habeas-swe-9"]

/-- With these options the value of the first header of this name is read. -/
def FirstRead (o : Tokenize.Opts) (n : Txt) : Prop :=
  lower n ∈ readFirst ∨ (o.habeas = true ∧ lower n ∈ habeasNames)

/-- With these options the values of all headers of this name are read. -/
def AllRead (o : Tokenize.Opts) (n : Txt) : Prop :=
  lower n ∈ readAll ∨ (o.received = true ∧ lower n = txt "received") ∨
  (o.nntp = true ∧ lower n = txt "nntp-posting-host")

/-- With these options values of headers of this name are read. -/
def IsRead (o : Tokenize.Opts) (n : Txt) : Prop := FirstRead o n ∨ AllRead o n

instance (o : Tokenize.Opts) (n : Txt) : Decidable (IsRead o n) := by
  unfold IsRead FirstRead AllRead; infer_instance

/-- What is seen of a header: name and value, or only the name, or nothing. -/
def seen (low : Txt → Txt) (o : Tokenize.Opts) (e : Txt × Stored) : Option (Txt × Option Stored) :=
  if IsRead o e.1 then some (e.1, some e.2)
  else if Counted low o.countAll e.1 then some (e.1, none)
  else none

/-- The headers look the same. -/
def LooksSame (low : Txt → Txt) (o : Tokenize.Opts) (h h' : Headers) : Prop :=
  h.filterMap (seen low o) = h'.filterMap (seen low o)

/-- The same headers, those of the same name in the same order. -/
def Reordered (h h' : Headers) : Prop :=
  h.Perm h' ∧ ∀ n, h.filter (fun e => sameName e.1 n) = h'.filter (fun e => sameName e.1 n)

/-! ### What is looked at -/

/-- The values of the headers that are read are the same. -/
def SameRead (o : Tokenize.Opts) (h h' : Headers) : Prop :=
  (∀ n, FirstRead o n → getOne h' n = getOne h n) ∧ (∀ n, AllRead o n → getAll h' n = getAll h n)

theorem getOne_head (x : Headers) (n : Txt) : getOne x n =
    toHVal (match (x.filter (fun e => sameName e.1 n)).head? with
      | some e => fetch e.2
      | none => .none) := by
  unfold getOne Headers.get
  rw [List.head?_filter]
  cases List.find? (fun e => sameName e.1 n) x <;> rfl

theorem sameRead_of {o : Tokenize.Opts} {h h' : Headers}
    (hs : ∀ n, IsRead o n → h'.filter (fun e => sameName e.1 n) = h.filter (fun e => sameName e.1 n)) :
    SameRead o h h' := by
  refine ⟨fun n hn => ?_, fun n hn => ?_⟩
  · rw [getOne_head, getOne_head, hs n (.inl hn)]
  · unfold getAll
    rw [hs n (.inr hn)]

theorem isRead_congr {o : Tokenize.Opts} {a b : Txt} (h : lower a = lower b) (hb : IsRead o b) : IsRead o a := by
  unfold IsRead FirstRead AllRead at hb ⊢
  rw [h]; exact hb

theorem seen_values (low : Txt → Txt) (o : Tokenize.Opts) (h : Headers) :
    (h.filterMap (seen low o)).filterMap (fun x => x.2.map (fun v => (x.1, v))) =
      h.filter (fun e => IsRead o e.1) := by
  induction h with
  | nil => rfl
  | cons e r ih =>
    by_cases h1 : IsRead o e.1
    · rw [List.filterMap_cons_some (show seen low o e = some (e.1, some e.2) by unfold seen; rw [if_pos h1]),
        List.filter_cons_of_pos (by simpa using h1)]
      simp [ih]
    · rw [List.filter_cons_of_neg (by simpa using h1)]
      by_cases h2 : Counted low o.countAll e.1
      · rw [List.filterMap_cons_some (show seen low o e = some (e.1, none) by
          unfold seen; rw [if_neg h1, if_pos h2])]
        simpa using ih
      · rw [List.filterMap_cons_none (show seen low o e = none by
          unfold seen; rw [if_neg h1, if_neg h2])]
        exact ih

theorem seen_names (low : Txt → Txt) (o : Tokenize.Opts) (h : Headers) :
    ((h.filterMap (seen low o)).map Prod.fst).filter (Counted low o.countAll) =
      (h.map Prod.fst).filter (Counted low o.countAll) := by
  induction h with
  | nil => rfl
  | cons e r ih =>
    rw [List.map_cons]
    by_cases h1 : IsRead o e.1
    · rw [List.filterMap_cons_some (show seen low o e = some (e.1, some e.2) by unfold seen; rw [if_pos h1]),
        List.map_cons, List.filter_cons, List.filter_cons, ih]
    · by_cases h2 : Counted low o.countAll e.1
      · rw [List.filterMap_cons_some (show seen low o e = some (e.1, none) by
          unfold seen; rw [if_neg h1, if_pos h2]), List.map_cons, List.filter_cons, List.filter_cons, ih]
      · rw [List.filterMap_cons_none (show seen low o e = none by
          unfold seen; rw [if_neg h1, if_neg h2]), List.filter_cons_of_neg h2, ih]

theorem LooksSame.read {low : Txt → Txt} {o : Tokenize.Opts} {h h' : Headers} (hs : LooksSame low o h h') :
    SameRead o h h' := by
  refine sameRead_of fun n hn => ?_
  have key : ∀ x : Headers, x.filter (fun e => sameName e.1 n) =
      (x.filter (fun e => IsRead o e.1)).filter (fun e => sameName e.1 n) := by
    intro x
    rw [List.filter_filter]
    refine List.filter_congr fun e _ => ?_
    by_cases hm : sameName e.1 n = true
    · simp [hm, isRead_congr (sameName_iff.1 hm) hn]
    · simp [hm]
  rw [key h, key h', ← seen_values low, ← seen_values low, hs]

theorem headerCounts_filter (low : Txt → Txt) (ca : Bool) : ∀ (names : List Txt) d,
    headerCounts low ca names d = headerCounts low ca (names.filter (Counted low ca)) d := by
  intro names
  induction names with
  | nil => intro d; rfl
  | cons x r ih =>
    intro d
    by_cases hx : Counted low ca x = true
    · rw [List.filter_cons_of_pos hx, headerCounts, headerCounts, ih]
    · rw [List.filter_cons_of_neg hx, headerCounts, ← ih]
      rw [counted_eq]
      simp [hx]

theorem LooksSame.names {low : Txt → Txt} {o : Tokenize.Opts} {h h' : Headers} (hs : LooksSame low o h h') (ra : Bool) :
    headerTokens low o.countAll ra (h'.map Prod.fst) = headerTokens low o.countAll ra (h.map Prod.fst) := by
  unfold headerTokens
  rw [headerCounts_filter low _ (h.map Prod.fst), headerCounts_filter low _ (h'.map Prod.fst),
    ← seen_names, ← seen_names, hs]

/-- Everything but the last tokens. -/
def front (U : StrMore) (o : Tokenize.Opts) (h : HeaderView) (x : MoreView) : Gen :=
  (Gen.when o.habeas (habeasTokens U.toStr x.get o.reduceHabeas)).andThen <|
  (subjectTokens U.toStr h).andThen <|
  (Gen.yield (addressHeaders.flatMap (fieldTokens U.toStr h))).andThen <|
  (Gen.when o.prefixes (.yield (prefixTokens U.toStr x.recipients))).andThen <|
  (Gen.when o.suffixes (.yield (suffixTokens U.toStr x.recipients))).andThen <|
  (countTokens U.toStr (txt "to") h.toLines).andThen <|
  (countTokens U.toStr (txt "cc") h.ccLines).andThen <|
  (mailerTokens U.toStr h.mailer).andThen <|
  (Gen.when o.received (receivedTokens U x.received)).andThen <|
  (Gen.when o.nntp x.nntp).andThen <|
  messageIdTokens U.toStr h.msgid

theorem rest_front (U : StrMore) (o : Tokenize.Opts) (h : HeaderView) (x : MoreView) :
    tokenizeHeadersRest U o h x =
      (front U o h x).andThen (.yield (headerTokens U.lower o.countAll o.recordAbsence h.names)) := by
  unfold tokenizeHeadersRest front
  simp only [andThen_assoc]

theorem front_same (U : StrMore) {o : Tokenize.Opts} (E : Lib) {h h' : Headers} (hs : SameRead o h h') :
    front U o (headerView E h') (moreView E h') = front U o (headerView E h) (moreView E h) := by
  have one : ∀ n ∈ readFirst, getOne h' n = getOne h n := by
    intro n hn
    have : ∀ n ∈ readFirst, lower n ∈ readFirst := by decide
    exact hs.1 n (.inl (this n hn))
  have all : ∀ n ∈ readAll, getAll h' n = getAll h n := by
    intro n hn
    have : ∀ n ∈ readAll, lower n ∈ readAll := by decide
    exact hs.2 n (.inl (this n hn))
  have hsub : getSubject h' = getSubject h := by
    unfold getSubject; rw [one _ (by decide)]
  have h2 : subjectTokens U.toStr (headerView E h') = subjectTokens U.toStr (headerView E h) := by
    unfold subjectTokens subjectChunks
    simp only [headerView, hsub]
  have hadd : ∀ f ∈ addressHeaders, f ∈ readAll := by decide
  have h3 : addressHeaders.flatMap (fieldTokens U.toStr (headerView E h')) =
      addressHeaders.flatMap (fieldTokens U.toStr (headerView E h)) := by
    rw [List.flatMap, List.flatMap]
    congr 1
    refine List.map_congr_left fun f hf => ?_
    unfold fieldTokens
    simp only [headerView, all f (hadd f hf)]
  have hto := all (txt "to") (by decide)
  have hcc := all (txt "cc") (by decide)
  have hma := one (txt "x-mailer") (by decide)
  have hid := one (txt "message-id") (by decide)
  have h1 : Gen.when o.habeas (habeasTokens U.toStr (moreView E h').get o.reduceHabeas) =
      Gen.when o.habeas (habeasTokens U.toStr (moreView E h).get o.reduceHabeas) := by
    cases ho : o.habeas with
    | false => rfl
    | true =>
      have hn : ∀ p ∈ habeasHeaders, lower p.1 ∈ habeasNames := by decide
      unfold habeasTokens
      rw [habeas_same U.toStr (moreView E h).get (moreView E h').get o.reduceHabeas habeasHeaders
        (fun p hp => hs.1 _ (.inr ⟨ho, hn p hp⟩))]
  have h4 : Gen.when o.received (receivedTokens U (moreView E h').received) =
      Gen.when o.received (receivedTokens U (moreView E h).received) := by
    cases ho : o.received with
    | false => rfl
    | true =>
      show Gen.when true (receivedTokens U (Tokenize.getAll h' _)) = _
      rw [hs.2 _ (.inr (.inl ⟨ho, by decide⟩))]
      rfl
  have h5 : Gen.when o.nntp (moreView E h').nntp = Gen.when o.nntp (moreView E h).nntp := by
    cases ho : o.nntp with
    | false => rfl
    | true =>
      show Gen.when true (E.nntp (Tokenize.getAll h' _)) = _
      rw [hs.2 _ (.inr (.inr ⟨ho, by decide⟩))]
      rfl
  unfold front
  rw [h1, h2, h3, h4, h5]
  simp only [headerView, moreView, hto, hcc, hma, hid]

theorem SameRead.root {o : Tokenize.Opts} (E : Lib) {h h' : Headers} (hs : SameRead o h h')
    (parts : Option (List Mime)) : rootPart E h' parts = rootPart E h parts := by
  have one : ∀ n ∈ readFirst, getOne h' n = getOne h n := by
    intro n hn
    have : ∀ n ∈ readFirst, lower n ∈ readFirst := by decide
    exact hs.1 n (.inl (this n hn))
  unfold rootPart
  rw [one (txt "content-type") (by decide),
    one (txt "content-disposition") (by decide),
    one (txt "content-transfer-encoding") (by decide)]

/-! ### C104 -/

/-- **C104.** Headers that look the same give the same tokens: values count only for the
headers that are read, all that counts of the safe ones is the name, and the other headers
have no effect. -/
theorem C104_only_these (U : StrMore) (o : Tokenize.Opts) (E : Lib) (h h' : Headers)
    (hs : LooksSame U.lower o h h') (parts : Option (List Mime)) (octets texts : List Mime) :
    Mime.callMessage U o (headerView E h') (moreView E h') (rootPart E h' parts) octets texts =
      Mime.callMessage U o (headerView E h) (moreView E h) (rootPart E h parts) octets texts := by
  rw [hs.read.root E parts]
  unfold Mime.callMessage callWith tokenizeHeadersWith
  simp only [Gen.when, Bool.false_and, Bool.false_eq_true, if_false]
  rw [rest_front, rest_front, front_same U E hs.read]
  have : headerTokens U.lower o.countAll o.recordAbsence (headerView E h').names =
      headerTokens U.lower o.countAll o.recordAbsence (headerView E h).names := hs.names o.recordAbsence
  rw [this]

theorem firsts_perm {l l' : List Txt} (h : l.Perm l') : (firsts l).Perm (firsts l') :=
  (List.perm_ext_iff_of_nodup (firsts_nodup l) (firsts_nodup l')).2 fun x => by
    rw [mem_firsts, mem_firsts, h.mem_iff]

theorem headerTokens_perm (low : Txt → Txt) (ca ra : Bool) {names names' : List Txt} (h : names.Perm names') :
    (headerTokens low ca ra names).Perm (headerTokens low ca ra names') := by
  have he : (headerCounts low ca names Dict.empty).entries.Perm (headerCounts low ca names' Dict.empty).entries := by
    rw [headerEntries_eq, headerEntries_eq]
    have : (fun y => (y, names.count y)) = (fun y => (y, names'.count y)) := by
      funext y; rw [h.count_eq]
    rw [this]
    exact (firsts_perm (h.filter _)).map _
  unfold headerTokens
  refine (he.map _).append ?_
  cases ra with
  | false => exact .refl _
  | true => exact (((he.map Prod.fst).filter _).map _)

theorem convert_perm {ks ls : List Tok} (h : ks.Perm ls) (hk : (convertToks none ks).stop = none) :
    (convertToks none ls).stop = none ∧ (convertToks none ks).toks.Perm (convertToks none ls).toks := by
  have hk' : ∀ k ∈ ks, ¬ Unencodable k := (convert_stop ⟨ks, none⟩).1 hk |>.2
  have hl' : ∀ k ∈ ls, ¬ Unencodable k := fun k hm => hk' k (h.mem_iff.2 hm)
  refine ⟨(convert_stop ⟨ls, none⟩).2 ⟨rfl, hl'⟩, ?_⟩
  have hmap : ∀ ks : List Tok, (∀ k ∈ ks, ¬ Unencodable k) → (convertToks none ks).toks =
      ks.map (fun k => match tokBytes k with | .ok b => Tok.bytes b | .error _ => k) := by
    intro ks
    induction ks with
    | nil => intro _; rfl
    | cons k ks ih =>
      intro hk
      rcases tokBytes_cases k with ⟨b, hb⟩ | ⟨hu, _⟩
      · simp only [convertToks, hb, List.map_cons]
        rw [← ih (fun x hx => hk x (List.mem_cons_of_mem _ hx))]
        rfl
      · exact absurd hu (hk k (by simp))
  rw [hmap ks hk', hmap ls hl']
  exact h.map _

/-- **C104.** The order of headers with different names has no effect on the tokens, each
with its number, nor on whether there are any. -/
theorem C104_order (U : StrMore) (o : Tokenize.Opts) (E : Lib) (h h' : Headers)
    (hs : Reordered h h') (parts : Option (List Mime)) (octets texts : List Mime)
    (hn : (Mime.callMessage U o (headerView E h) (moreView E h) (rootPart E h parts) octets texts).stop = none) :
    (Mime.callMessage U o (headerView E h') (moreView E h') (rootPart E h' parts) octets texts).stop = none ∧
    (Mime.callMessage U o (headerView E h) (moreView E h) (rootPart E h parts) octets texts).toks.Perm
      (Mime.callMessage U o (headerView E h') (moreView E h') (rootPart E h' parts) octets texts).toks := by
  have hr : SameRead o h h' := sameRead_of fun n _ => (hs.2 n).symm
  rw [hr.root E parts]
  unfold Mime.callMessage callWith tokenizeHeadersWith at hn ⊢
  simp only [Gen.when, Bool.false_and, Bool.false_eq_true, if_false] at hn ⊢
  simp only [rest_front] at hn ⊢
  rw [front_same U E hr]
  have hp := headerTokens_perm U.lower o.countAll o.recordAbsence (hs.1.map Prod.fst)
  generalize Gen.each (crackContent U.toStr) _ = a at hn ⊢
  generalize front U o _ _ = b at hn ⊢
  generalize tokenizeBodyWith U o _ _ _ = d at hn ⊢
  have hst := (convert_stop _).1 hn
  simp only [andThen_stop_none] at hst
  obtain ⟨⟨⟨ha, -, hb, -⟩, hd⟩, -⟩ := hst
  have key : ∀ ts : List Tok, (a.andThen ((Gen.yield []).andThen (b.andThen (Gen.yield ts)))).andThen d =
      ⟨a.toks ++ b.toks ++ ts ++ d.toks, none⟩ := by
    intro ts
    obtain ⟨at', as⟩ := a
    obtain ⟨bt, bs⟩ := b
    obtain ⟨dt, ds⟩ := d
    simp only at ha hb hd
    subst ha hb hd
    simp [Gen.andThen, Gen.yield]
  rw [key] at hn ⊢
  rw [key]
  exact convert_perm ((hp.append_left _).append_right _) hn

theorem first_not_all {o : Tokenize.Opts} {n : Txt} (h : FirstRead o n) : ¬ AllRead o n := by
  have h1 : ∀ m ∈ readFirst, m ∉ readAll ∧ m ≠ txt "received" ∧ m ≠ txt "nntp-posting-host" := by decide
  have h2 : ∀ m ∈ habeasNames, m ∉ readAll ∧ m ≠ txt "received" ∧ m ≠ txt "nntp-posting-host" := by decide
  have h3 : lower n ∉ readAll ∧ lower n ≠ txt "received" ∧ lower n ≠ txt "nntp-posting-host" := by
    rcases h with h | ⟨_, h⟩
    · exact h1 _ h
    · exact h2 _ h
  rintro (h | ⟨_, h⟩ | ⟨_, h⟩)
  · exact h3.1 h
  · exact h3.2.1 h
  · exact h3.2.2 h

/-- **C104.** Of those headers of which the first is read, a second one has no effect, wherever
it stands after the first (unless its name is counted). -/
theorem C104_second (U : StrMore) (o : Tokenize.Opts) (E : Lib) (a b c : Headers) (n n' : Txt) (v v' : Stored)
    (hr : FirstRead o n) (hn : lower n' = lower n) (hc : Counted U.lower o.countAll n' = false)
    (parts : Option (List Mime)) (octets texts : List Mime) :
    let h := a ++ (n, v) :: b ++ c
    let h' := a ++ (n, v) :: b ++ (n', v') :: c
    Mime.callMessage U o (headerView E h') (moreView E h') (rootPart E h' parts) octets texts =
      Mime.callMessage U o (headerView E h) (moreView E h) (rootPart E h parts) octets texts := by
  intro h h'
  have hs : SameRead o h h' := by
    refine ⟨fun m hm => ?_, fun m hm => ?_⟩
    · rw [getOne_head, getOne_head]
      by_cases hx : sameName n m = true
      · simp only [h, h', List.filter_append, List.filter_cons_of_pos (p := fun e : Txt × Stored => sameName e.1 m) (a := (n, v)) hx]
        cases List.filter (fun e => sameName e.1 m) a <;> rfl
      · have hx' : ¬ sameName n' m = true := by
          rw [sameName_iff] at hx ⊢
          rw [hn]; exact hx
        simp only [h, h', List.filter_append,
          List.filter_cons_of_neg (p := fun e : Txt × Stored => sameName e.1 m) (a := (n', v')) hx']
    · have hx' : ¬ sameName n' m = true := by
        rw [sameName_iff]
        intro he
        refine first_not_all hr ?_
        unfold AllRead at hm ⊢
        rw [← hn, he]
        exact hm
      unfold getAll
      simp only [h, h', List.filter_append,
        List.filter_cons_of_neg (p := fun e : Txt × Stored => sameName e.1 m) (a := (n', v')) hx']
  rw [hs.root E parts]
  unfold Mime.callMessage callWith tokenizeHeadersWith
  simp only [Gen.when, Bool.false_and, Bool.false_eq_true, if_false]
  rw [rest_front, rest_front, front_same U E hs]
  have : headerTokens U.lower o.countAll o.recordAbsence (headerView E h').names =
      headerTokens U.lower o.countAll o.recordAbsence (headerView E h).names := by
    show headerTokens U.lower o.countAll o.recordAbsence (h'.map Prod.fst) =
      headerTokens U.lower o.countAll o.recordAbsence (h.map Prod.fst)
    unfold headerTokens
    rw [headerCounts_filter _ _ (h.map Prod.fst), headerCounts_filter _ _ (h'.map Prod.fst)]
    simp [h, h', List.filter_cons, hc]
  rw [this]

/-! ### None of them is listed in vain -/

/-- A library that shows all it is given. -/
def openLib : Lib where
  decode v := match v with
    | .str t => some [(.str t, none)]
    | .header _ => none
  addresses l := l.map (fun v => ⟨match v with | .str t => t | .header t => t, none, []⟩)
  recipients _ := []
  text v := match v with
    | .str t => t
    | .header t => t
  view _ d := { noView with disposition := d }
  payload e _ := match e with
    | some (.str t) => .bytes t
    | _ => .none
  blob _ _ := .none
  nntp _ := .yield []

/-- The tokens of a message with headers of one name and one text. -/
def oneName (n : Txt) (vs : List Txt) : List Tok :=
  let h : Headers := vs.map (fun v => (n, .str v))
  (Mime.callMessage asciiMore .default (headerView openLib h) (moreView openLib h) (rootPart openLib h none) []
    (Mime.textparts asciiMore.toStr (rootPart openLib h none))).toks

/-- **C104.** The value of each header that is said to be read can make a difference, even that
of the second one if all are read; of a header that is only counted it makes none, but the
header itself does. -/
theorem C104_all_matter :
    (∀ n ∈ readFirst ++ readAll, ∃ v ∈ [txt "image/gif", txt "<a@b>"], oneName n [txt "other"] ≠ oneName n [v]) ∧
    (∀ n ∈ readAll, oneName n [txt "one", txt "two"] ≠ oneName n [txt "one", txt "three"]) ∧
    oneName (txt "Date") [txt "other"] = oneName (txt "Date") [txt "x"] ∧
    oneName (txt "Date") [txt "x"] ≠ oneName (txt "X-Date") [txt "x"] := by
  decide

example : LooksSame lower .default [(txt "Date", .str (txt "now")), (txt "X-Spam", .none), (txt "To", .str (txt "a"))]
    [(txt "X-Ham", .none), (txt "Date", .str (txt "then")), (txt "To", .str (txt "a"))] := by
  unfold LooksSame; decide

example : Reordered [(txt "Date", .str (txt "now")), (txt "To", .str (txt "a")), (txt "to", .str (txt "b"))]
    [(txt "To", .str (txt "a")), (txt "Date", .str (txt "now")), (txt "to", .str (txt "b"))] := by
  refine ⟨.swap _ _ _, fun n => ?_⟩
  by_cases h : sameName (txt "Date") n = true
  · have h1 : ¬ sameName (txt "To") n = true := by
      rw [sameName_iff] at h ⊢
      rw [← h]; decide
    simp [List.filter_cons, h, h1]
  · simp [List.filter_cons, h]

example : FirstRead .default (txt "X-Mailer") ∧ Counted lower false (txt "X-MAILER") = false :=
  ⟨.inl (by decide), by decide⟩

end Sb.Props
