import Verif.Props.Rewritten
import Verif.Props.Marked
import Verif.Props.HeadersRead

/-
C118, for messages of any text type and with long headers that are not read.
C120: a message that was filtered, delivered and read again.
-/

set_option linter.unusedSectionVars false

namespace Sb.Props
open Py Py.Text Sb.Mail Sb.Tokenize Sb.Strip

/-! ### Texts -/

theorem text_type (sub : Txt) : PrintsAsText (txt "text") sub := by
  refine ⟨by decide, ?_⟩
  have : underscores (txt "text" ++ 95 :: sub) = 116 :: 101 :: 120 :: 116 :: 95 :: underscores sub := rfl
  rw [this]
  simp [txt]

theorem text_doc (sub : Txt) (hs : 47 ∉ sub) (f w : List Txt) (u : Txt) (p e : Option Txt) (b t : Txt) :
    Parsed (fun ct => ¬ NamesStatus ct) (.doc (txt "text/" ++ sub) f w u p e b (.str t)) := by
  refine .leaf (main := txt "text") (sub := sub) (by decide) hs (by decide) ?_
  rintro ⟨main, sub', h, hm, h2⟩
  have h1 : main = txt "text" := (split_unique hm (by decide) h.symm).1
  subst h1
  have h3 := (text_type sub').1
  have h4 := (text_type sub').2
  rcases h2 with h2 | h2
  · rw [h2] at h3; simp at h3
  · rw [h2] at h4; simp at h4

/-! ### What is seen of the headers -/

theorem own_unseen {U : Str} (hU : LowersAscii U) {x : Txt × Stored} (h : IsSb x) :
    seen U.lower .default x = none := by
  have hr : ¬ IsRead .default x.1 := by
    obtain ⟨n, hn, he⟩ := h
    have key : ∀ n ∈ sbHeaderNames, ¬ IsRead .default (txt n) := by decide
    exact fun hx => key n hn (isRead_congr he.symm hx)
  have hc : Counted U.lower false x.1 = false := by
    have h1 := own_not_safe hU h
    unfold isSafe safeHeaders at h1
    unfold Counted
    simpa using h1
  unfold seen
  rw [if_neg hr, if_neg (by rw [show (Tokenize.Opts.default).countAll = false from rfl, hc]; simp)]

/-- Headers that differ in those of SpamBayes look the same. -/
theorem looks_own {U : Str} (hU : LowersAscii U) {h h' : Headers} (hs : SameMail h h') :
    LooksSame U.lower .default h h' := by
  have key : ∀ h : Headers, h.filterMap (seen U.lower .default) =
      (h.filter (fun e => ¬ IsSb e)).filterMap (seen U.lower .default) := by
    intro h
    induction h with
    | nil => rfl
    | cons x r ih =>
      by_cases hx : IsSb x
      · rw [List.filterMap_cons_none (own_unseen hU hx), List.filter_cons_of_neg (by simpa using hx), ih]
      · rw [List.filter_cons_of_pos (by simpa using hx), List.filterMap_cons, List.filterMap_cons, ih]
  unfold LooksSame
  rw [key h, key h', hs]

/-- So do headers that were written and read again, if those that are read are short. -/
theorem looks_reread (low : Txt → Txt) {hs hs' : Headers} (h : SameHeaders hs hs')
    (hr : ∀ x ∈ hs, IsRead .default x.1 → ∃ v, x.2 = .str v ∧ Short x.1 v) :
    LooksSame low .default hs hs' := by
  unfold LooksSame
  induction h with
  | nil => rfl
  | @cons x y xs ys hxy _ ih =>
    have ih := ih (fun z hz => hr z (by simp [hz]))
    have : seen low .default y = seen low .default x := by
      by_cases hx : IsRead .default x.1
      · obtain ⟨v, h1, h2⟩ := hr x (by simp) hx
        have : y = x := Prod.ext hxy.1 (by rw [hxy.2.2 v h1 h2, h1])
        rw [this]
      · unfold seen
        rw [hxy.1, if_neg hx, if_neg hx]
    rw [List.filterMap_cons, List.filterMap_cons, this, ih]

/-- What looks the same has the same tokens. -/
theorem mail_looks (U : Str) (E : Lib) (dec : Decoder) (u u' : Option Txt) (h h' : Headers) (b : Txt)
    (hs : LooksSame U.lower .default h h') :
    mailTokens U E dec ⟨u', h', b⟩ = mailTokens U E dec ⟨u, h, b⟩ := by
  let U' : StrMore := { U with digit := fun _ => false, ilog2 := fun _ => 0 }
  unfold mailTokens
  simp only
  generalize { E with payload := fun cte ct => dec cte ct b } = E'
  have hroot : rootPart E' h' none = rootPart E' h none := hs.read.root E' none
  have := C104_only_these U' .default E' h h' hs none [] (Mime.textparts U (rootPart E' h none))
  unfold Mime.callMessage at this
  rw [C90_defaults, C90_defaults] at this
  rw [hroot]
  rw [hroot] at this
  exact this

/-- The tokens depend on the body through those of its text. -/
theorem mail_body (U : Str) (E : Lib) (dec : Decoder) (h : Headers) (b b' : Txt)
    (hd : ∀ t, t = b ∨ t = b' → dec (getOne h (txt "content-transfer-encoding"))
      (getOne h (txt "content-type")) t = .bytes t)
    (hb : (bodyBytes b).stop = none → bodyBytes b' = bodyBytes b)
    (hok : (mailTokens U E dec ⟨none, h, b⟩).stop = none) :
    mailTokens U E dec ⟨none, h, b'⟩ = mailTokens U E dec ⟨none, h, b⟩ := by
  let c := (getOne h (txt "content-type")).map E.text
  let v := E.view (getOne h (txt "content-type")) (getOne h (txt "content-disposition"))
  let q : Mime := .part c false v .none .none none
  have key : ∀ t, t = b ∨ t = b' → mailTokens U E dec ⟨none, h, t⟩ =
      convertToBytes ((tokenizeHeaders U false false [{ v with contentType := Mime.contentType U q }]
        (headerView E h)).andThen
          (Gen.each textPart (if Mime.mainType U q == txt "text" then [.bytes t] else []))) := by
    intro t ht
    have hc : ∀ p bl, Mime.contentType U (.part c false v p bl none) = Mime.contentType U q := by
      intro p bl
      simp only [q]
      cases c <;> rfl
    unfold mailTokens Mime.tokenizeMessage tokenize tokenizeBody Mime.textparts
    simp only [rootPart, hd t ht, Mime.walk, List.map_cons, List.map_nil, Mime.viewOf, List.filter_cons,
      List.filter_nil, Mime.mainType]
    rw [show Mime.contentType U _ = Mime.contentType U q from hc _ _]
    by_cases hT : (List.takeWhile (fun x => x != 47) (Mime.contentType U q) == txt "text") = true
    · simp only [hT, if_true]; rfl
    · simp only [hT]; rfl
  rw [key b (.inl rfl)] at hok ⊢
  rw [key b' (.inr rfl)]
  split
  · rename_i hT
    rw [if_pos hT] at hok
    have hstop : (bodyBytes b).stop = none := by
      have := ((convert_stop _).1 hok).1
      rw [andThen_stop_none, each_stop_none] at this
      exact this.2 (.bytes b) (by simp)
    have : textPart (.bytes b') = textPart (.bytes b) := hb hstop
    simp only [Gen.each, this]
  · rfl

/-- A header that can be written and read again, and will be the same if it is read. -/
def Keepable (x : Txt × Stored) : Prop :=
  Tidy x ∧ (IsRead .default x.1 → ∃ v, x.2 = .str v ∧ Short x.1 v)

/-- The message is written, perhaps with other headers that look the same. -/
theorem mail_rewritten (P : Printer) (U : Str) (E : Lib) (dec : Decoder) (uf mg : Bool)
    (r : Reading) (hs : Headers) (sub : Txt) (w : List Txt) (u : Txt) (p e : Option Txt) (b : Txt)
    (hsub : 47 ∉ sub)
    (hdec : ∀ t, Ascii t → dec (getOne r.headers (txt "content-transfer-encoding"))
      (getOne r.headers (txt "content-type")) t = .bytes t)
    (hu : uf = true → OneLine u ∧ ∃ x, u = txt "From " ++ x)
    (hh : ∀ x ∈ hs, Keepable x) (hlook : LooksSame U.lower .default r.headers hs)
    (ha : Ascii r.body) (hc : NoLoneCr r.body) (hm : Unbroken r.body)
    (hq : mg = true → ∀ l ∈ lines r.body, ¬ txt "From " <+: l)
    (hok : (mailTokens U E dec r).stop = none) :
    ∃ s, P.asString uf mg hs (fun f => .doc (txt "text/" ++ sub) f w u p e b (.str r.body)) = .ok s ∧
      SameHeaders hs (readMessage s).headers ∧ lines (readMessage s).body = lines r.body ∧
      mailTokens U E dec (readMessage s) = mailTokens U E dec r := by
  have hP := text_doc sub hsub [] w u p e b r.body
  obtain ⟨s, k1, k2, k3, -⟩ := C116_text P uf mg hs (txt "text") sub w u p e b r.body
    (by decide) (text_type sub) hP hu (fun x hx => (hh x hx).1)
  obtain ⟨s', l1, -, -, l4⟩ := C116_reread_partial P uf mg hs (txt "text/" ++ sub) w u p e b
    (.str r.body) hP hu (fun x hx => (hh x hx).1)
  have hss : s' = s := by
    rw [show txt "text/" ++ sub = txt "text" ++ 47 :: sub from rfl, k1] at l1
    exact (Except.ok.inj l1).symm
  subst hss
  have hl : lines (readMessage s').body = lines r.body := by
    refine forall₂_same ?_
    have : ∀ {xs ys : List Txt}, List.Forall₂ (fun x y => y = x ∨ mg = true ∧ y = quoteFrom x) xs ys →
        (∀ l ∈ xs, mg = true → ¬ txt "From " <+: l) → List.Forall₂ (fun x y : Txt => y = x) xs ys := by
      intro xs ys h
      induction h with
      | nil => intro _; exact .nil
      | @cons x y xs ys hxy _ ih =>
        intro hn
        refine .cons ?_ (ih (fun l hl => hn l (by simp [hl])))
        rcases hxy with h | ⟨h, h'⟩
        · exact h
        · rw [h', quoteFrom, if_neg (hn x (by simp) h)]
    exact this k3 (fun l hl h => hq h l hl)
  refine ⟨s', l1, k2, hl, ?_⟩
  have hbody : (readMessage s').body = forceCrlf r.body := by
    rw [← asString_crlf l4, forceCrlf_eq, forceCrlf_eq r.body, hl]
  have hmore : MoreCr r.body (readMessage s').body := by rw [hbody]; exact eol_force hc
  have ha' : Ascii (readMessage s').body := by
    intro c hc'
    by_cases h13 : c = 13
    · omega
    · exact ha c ((eol_mem hmore h13).1 hc')
  have hlook' : LooksSame U.lower .default r.headers (readMessage s').headers :=
    hlook.trans (looks_reread U.lower k2 (fun x hx => (hh x hx).2))
  have e1 := mail_looks U E dec none (readMessage s').unixfrom r.headers (readMessage s').headers
    (readMessage s').body hlook'
  have e2 := mail_looks U E dec none r.unixfrom r.headers r.headers r.body rfl
  have hok' : (mailTokens U E dec ⟨none, r.headers, r.body⟩).stop = none := by rw [← e2]; exact hok
  have e3 := mail_body U E dec r.headers r.body (readMessage s').body (by
    rintro t (rfl | rfl)
    · exact hdec _ ha
    · exact hdec _ ha') (C118_line_ends _ _ hmore hm) hok'
  exact (e1.trans e3).trans e2.symm

/-! ### Messages that were read -/

theorem takeHeaders_rest (ls : List Txt) : ∀ l ∈ (takeHeaders ls).2, l ∈ ls := by
  induction ls with
  | nil => intro l h; cases h
  | cons a r ih =>
    intro l h
    rw [takeHeaders] at h
    split at h
    · exact List.mem_cons_of_mem _ (ih l h)
    · split at h
      · exact List.mem_cons_of_mem _ h
      · exact h

theorem parseFields_back (ls : List Txt) : ∀ first cur, ∀ l ∈ (parseFields first cur ls).back, l ∈ ls := by
  induction ls with
  | nil => intro first cur l h; rw [parseFields] at h; cases h
  | cons a r ih =>
    intro first cur l h
    rw [parseFields] at h
    split at h
    · exact List.mem_cons_of_mem _ (ih _ _ l h)
    · simp only at h
      split at h
      · split at h
        · exact List.mem_cons_of_mem _ (ih _ _ l h)
        · split at h
          · simp at h; simp [h]
          · exact List.mem_cons_of_mem _ (ih _ _ l h)
      · split at h
        · exact List.mem_cons_of_mem _ (ih _ _ l h)
        · exact List.mem_cons_of_mem _ (ih _ _ l h)

theorem body_chars (t : Txt) : ∀ c ∈ (readMessage t).body, c ∈ t := by
  intro c hc
  obtain ⟨l, hl, hc⟩ := List.mem_flatten.1 hc
  rw [← readLines_flatten t]
  refine List.mem_flatten.2 ⟨l, ?_, hc⟩
  rcases List.mem_append.1 hl with hl | hl
  · exact (takeHeaders_prefix (readLines t)).1.subset (parseFields_back _ _ _ l hl)
  · exact takeHeaders_rest _ l hl

/-- ASCII without the characters VT, FF, FS, GS and RS (C116). -/
def Wholesome (t : Txt) : Prop := ∀ c ∈ t, c < 128 ∧ c ≠ 11 ∧ c ≠ 12 ∧ c ≠ 28 ∧ c ≠ 29 ∧ c ≠ 30

theorem wholesome_tidy {t : Txt} (ht : Wholesome t) : ∀ x ∈ (readMessage t).headers, Tidy x := by
  intro x hx
  obtain ⟨h1, v, h2, h3, h4⟩ := readMessage_readable
    (Q := fun c => c < 128 ∧ c ≠ 11 ∧ c ≠ 12 ∧ c ≠ 28 ∧ c ≠ 29 ∧ c ≠ 30)
    (by intro c hc he; unfold Ends at he; omega) t ht x hx
  exact ⟨h1, .inr ⟨v, h2, fun c hc => (h4 c hc).1, h3⟩⟩

/-- The message that was read from this text keeps its tokens when it is written: headers
whose values the tokenizer reads are of one line, and in the body there is no broken
"<script", no CR without LF, and no line that is quoted. -/
structure Durable (mg : Bool) (t : Txt) : Prop where
  chars : Wholesome t
  read : ∀ x ∈ (readMessage t).headers, IsRead .default x.1 → ∃ v, x.2 = .str v ∧ Short x.1 v
  ends : NoLoneCr (readMessage t).body
  whole : Unbroken (readMessage t).body
  unquoted : mg = true → ∀ l ∈ lines (readMessage t).body, ¬ txt "From " <+: l

/-- The body is not encoded: its bytes are those of the text. -/
def Unencoded (dec : Decoder) (h : Headers) : Prop :=
  ∀ t, Ascii t → dec (getOne h (txt "content-transfer-encoding")) (getOne h (txt "content-type")) t = .bytes t

/-- **C118, where it holds.** A message of any text type, with headers of any length that
are not read by the tokenizer. -/
theorem C118_typed_partial (P : Printer) (U : Str) (E : Lib) (dec : Decoder) (uf mg : Bool)
    (t : Txt) (sub : Txt) (w : List Txt) (u : Txt) (p e : Option Txt) (b : Txt)
    (hsub : 47 ∉ sub) (hd : Durable mg t) (hdec : Unencoded dec (readMessage t).headers)
    (hu : uf = true → OneLine u ∧ ∃ x, u = txt "From " ++ x)
    (hok : (mailTokens U E dec (readMessage t)).stop = none) :
    ∃ s, P.asString uf mg (readMessage t).headers
        (fun f => .doc (txt "text/" ++ sub) f w u p e b (.str (readMessage t).body)) = .ok s ∧
      mailTokens U E dec (readMessage s) = mailTokens U E dec (readMessage t) := by
  obtain ⟨s, h1, -, -, h2⟩ := mail_rewritten P U E dec uf mg (readMessage t) _ sub w u p e b hsub hdec hu
    (fun x hx => ⟨wholesome_tidy hd.chars x hx, hd.read x hx⟩) rfl
    (fun c hc => (hd.chars c (body_chars t c hc)).1) hd.ends hd.whole hd.unquoted hok
  exact ⟨s, h1, h2⟩

/-! ### C120 -/

/-- The text that is delivered: the message that was read from `t`, with the headers of
add_sb_headers. -/
def delivered (P : Printer) (F : Fmt) (uf mg : Bool) (prob : PyFloat) (clues : List (Word × PyFloat))
    (o : Mail.Opts) (id : Option Txt) (sub : Txt) (w : List Txt) (u : Txt) (p e : Option Txt) (b : Txt)
    (t : Txt) : Except Err Txt :=
  P.asString uf mg
    (addSbHeaders F prob clues o ⟨(readMessage t).headers, id, none, none⟩).2.headers
    (fun f => .doc (txt "text/" ++ sub) f w u p e b (.str (readMessage t).body))

/-- The claim: whoever trains with a message that was delivered with its classification
trains with the message that came. -/
def C120Claim : Prop :=
  ∀ (P : Printer) (F : Fmt) (U : Str) (E : Lib) (dec : Decoder) (uf mg : Bool) (prob : PyFloat)
    (clues : List (Word × PyFloat)) (id : Option Txt) (sub : Txt) (w : List Txt) (u : Txt)
    (p e : Option Txt) (b t s : Txt),
    RowFmt F → LowersAscii U → Ascii t → Unencoded dec (readMessage t).headers →
    (mailTokens U E dec (readMessage t)).stop = none →
    delivered P F uf mg prob clues {} id sub w u p e b t = .ok s →
    mailTokens U E dec (readMessage s) = mailTokens U E dec (readMessage t)

/-- **C120, where it holds.** The copy can be made, has the tokens of the message that
came, and its classification can be read, whatever the options are but for notations, and even if
add_sb_headers raised an exception after the first header. -/
theorem C120_delivered_partial (P : Printer) (F : Fmt) (hF : RowFmt F) (U : Str) (hU : LowersAscii U)
    (E : Lib) (dec : Decoder) (uf mg : Bool) (prob : PyFloat) (clues : List (Word × PyFloat))
    (o : Mail.Opts) (id : Option Txt) (sub : Txt) (w : List Txt) (u : Txt) (p e : Option Txt) (b t : Txt)
    (hn : ¬ AsksFor (clsOf prob) o.notateTo) (hn' : ¬ AsksFor (clsOf prob) o.notateSubject)
    (hid : ∀ i, id = some i → Ascii i ∧ Continued i)
    (hsub : 47 ∉ sub) (hd : Durable mg t) (hdec : Unencoded dec (readMessage t).headers)
    (hu : uf = true → OneLine u ∧ ∃ x, u = txt "From " ++ x)
    (hok : (mailTokens U E dec (readMessage t)).stop = none) :
    ∃ s, delivered P F uf mg prob clues o id sub w u p e b t = .ok s ∧
      mailTokens U E dec (readMessage s) = mailTokens U E dec (readMessage t) ∧
      lines (readMessage s).body = lines (readMessage t).body ∧
      ((∀ x ∈ (readMessage t).headers, ¬ Named "X-Spambayes-Classification" x) →
        (readMessage s).headers.get (txt "X-Spambayes-Classification") = .str (clsOf prob).name) := by
  let m : Msg := ⟨(readMessage t).headers, id, none, none⟩
  have hsame : SameMail (readMessage t).headers (addSbHeaders F prob clues o m).2.headers :=
    C101_add F prob clues o m hn hn'
  have htidy : TidyMsg (addSbHeaders F prob clues o m).2 :=
    addSbHeaders_tidy F hF prob clues o m ⟨wholesome_tidy hd.chars, hid⟩
  have hkeep : ∀ x ∈ (addSbHeaders F prob clues o m).2.headers, Keepable x := by
    intro x hx
    refine ⟨htidy.1 x hx, fun hr => hd.read x ?_ hr⟩
    have hsb : ¬ IsSb x := by
      rintro ⟨n, hn, he⟩
      have key : ∀ n ∈ sbHeaderNames, ¬ IsRead .default (txt n) := by decide
      exact key n hn (isRead_congr he.symm hr)
    have : x ∈ (addSbHeaders F prob clues o m).2.headers.filter (fun e => ¬ IsSb e) :=
      List.mem_filter.2 ⟨hx, by simpa using hsb⟩
    rw [← hsame] at this
    exact (List.mem_filter.1 this).1
  obtain ⟨s, h1, h2, h3, h4⟩ := mail_rewritten P U E dec uf mg (readMessage t) _ sub w u p e b hsub hdec hu
    hkeep (looks_own hU hsame) (fun c hc => (hd.chars c (body_chars t c hc)).1) hd.ends hd.whole hd.unquoted hok
  refine ⟨s, h1, h4, h3, fun hno => ?_⟩
  have k1 := keeps_rest F prob clues o (n := classificationName) (by decide) (by decide)
    { m with c := some (clsOf prob)
             headers := m.headers ++ [(classificationName, .str (clsOf prob).name)] }
  have k2 := k1 (classificationName, .str (clsOf prob).name) (by
    exact Headers.first_of (post := []) (fun x hx => not_named_iff.2 (hno x hx)) (by simp))
  change Headers.first (addSbHeaders F prob clues o m).2.headers classificationName = _ at k2
  have hs : Short classificationName (clsOf prob).name := by
    refine ⟨fun c hc => (row_name _ c hc).2, ?_, ?_⟩
    · cases clsOf prob <;>
        (intro c r h; have := (List.cons.inj h).1; subst this; decide)
    · cases clsOf prob <;> decide
  rw [Headers.get_eq, show txt "X-Spambayes-Classification" = classificationName from rfl, same_first h2 k2 hs]
  exact fetch_plain (by cases clsOf prob <;> decide)

theorem plainFmt_rows : RowFmt plainFmt :=
  ⟨fun _ => (row_txt (by decide) : OneRow (txt "x")), fun _ _ _ => (row_txt (by decide) : OneRow (txt "x")),
    fun _ _ => (row_txt (by decide) : OneRow (txt "1.00")), fun _ => (row_txt (by decide) : OneRow (txt "0"))⟩

theorem delivered_eq {mg : Bool} {o : Mail.Opts} {t b : Txt} {hs hs' : Headers} {fs : List Txt}
    (h1 : (readMessage t).headers = hs) (h3 : (readMessage t).body = b)
    (h : (addSbHeaders plainFmt (.fin 1) [] o ⟨hs, none, none, none⟩).2.headers = hs')
    (h2 : strict.foldAll hs' = .ok fs) :
    delivered strict plainFmt false mg (.fin 1) [] o none (txt "plain") [] [] none none [] t =
      .ok (forceCrlf (fs.flatten ++ 10 :: written mg b)) := by
  unfold delivered Printer.asString
  rw [h1, h, h2, h3]
  simp only
  rw [asString.eq_def]
  simp only [generate, flatten, bodyOf.eq_def, show handlerOf (txt "text/" ++ txt "plain") = .text by decide]
  rfl

/-- The text of a message that was delivered, whose body is not the same. -/
def vowCopy : Txt :=
  txt "Subject: hi\r\nX-Spambayes-Classification: spam\r\nX-Spambayes-MailId: \r\n\r\n>From now on\r\n"

set_option maxRecDepth 4000 in
theorem vow_delivered :
    delivered strict plainFmt false true (.fin 1) [] {} none (txt "plain") [] [] none none [] vow = .ok vowCopy := by
  rw [delivered_eq (hs' := [(txt "Subject", .str (txt "hi")), (txt "X-Spambayes-Classification", .str (txt "spam")),
      (txt "X-Spambayes-MailId", .none)]) (fs := [txt "Subject: hi\n", txt "X-Spambayes-Classification: spam\n",
        txt "X-Spambayes-MailId: \n"]) vow_read.1 vow_read.2 (by rw [addSb_run, one_spam]; decide) (by decide)]
  decide

set_option maxRecDepth 4000 in
/-- **C120 is false** as it stands, with the default options. -/
theorem C120_claim_false : ¬ C120Claim := by
  intro h
  have h1 := h strict plainFmt asciiStr plainLib plainDecoder false true (.fin 1) [] none (txt "plain") [] []
    none none [] vow vowCopy plainFmt_rows (fun _ _ => rfl) (by unfold Ascii; decide) (fun _ _ => rfl)
    (by rw [vow_tokens]) vow_delivered
  rw [vow_tokens, mail_eq (hs := [(txt "Subject", .str (txt "hi")),
    (txt "X-Spambayes-Classification", .str (txt "spam")), (txt "X-Spambayes-MailId", .str [])])
    (b := txt ">From now on\r\n") (by decide) (by decide)] at h1
  revert h1
  decide

/-- A message with a header of more than 78 characters that is not read, and a type. -/
def travelled : Txt :=
  txt "Received: from a.example.org (HELO a.example.org) (10.0.0.1) by mx.example.org with SMTP; today\nContent-Type: text/html\nSubject: hi\n\nsee you\n"

set_option maxRecDepth 8000 in
theorem travelled_read : (readMessage travelled).headers = [(txt "Received", .str (txt
      "from a.example.org (HELO a.example.org) (10.0.0.1) by mx.example.org with SMTP; today")),
      (txt "Content-Type", .str (txt "text/html")), (txt "Subject", .str (txt "hi"))] ∧
    (readMessage travelled).body = txt "see you\n" := by decide

set_option maxRecDepth 8000 in
example : Durable true travelled ∧ Unencoded plainDecoder (readMessage travelled).headers ∧
    (mailTokens asciiStr plainLib plainDecoder (readMessage travelled)).stop = none := by
  refine ⟨⟨by unfold Wholesome; decide, ?_, ?_, ?_, ?_⟩, fun _ _ => rfl, ?_⟩
  · rw [travelled_read.1]
    have sh : ∀ n v : Txt, (∀ c ∈ v, ¬ Ends c) → v.head? ≠ some 32 → v.head? ≠ some 9 →
        n.length + 2 + v.length ≤ 78 → Short n v := by
      intro n v h1 h2 h3 h4
      refine ⟨h1, fun c r hv => ⟨?_, ?_⟩, h4⟩
      · rintro rfl; rw [hv] at h2; simp at h2
      · rintro rfl; rw [hv] at h3; simp at h3
    intro x hx hr
    simp only [List.mem_cons, List.not_mem_nil, or_false] at hx
    rcases hx with rfl | rfl | rfl
    · exact absurd hr (by decide)
    · exact ⟨_, rfl, sh _ _ (by unfold Ends; decide) (by decide) (by decide) (by decide)⟩
    · exact ⟨_, rfl, sh _ _ (by unfold Ends; decide) (by decide) (by decide) (by decide)⟩
  · rw [travelled_read.2]
    intro i hi
    exact absurd (List.mem_of_getElem? hi) (by decide)
  · rw [travelled_read.2]
    exact unbroken_of (by decide)
  · rw [travelled_read.2]; intro _; decide
  · rw [mail_eq travelled_read.1 travelled_read.2]; decide

end Sb.Props
