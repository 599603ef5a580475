import Verif.Model.Tokenizer
import Verif.Model.Net

/-
The parts of sbclassifier/tokenizer.py and strippers.py that are switched on by options
(module constants, tokenizer.py l.33-191 and strippers.py l.35-45), with the options as
parameters.  Verif/Model/Tokenizer.lean is the case of the defaults; `C90_defaults`
says so.

Not modelled: OCR beyond its import.  `url_fancy_re` is in Verif/Model/Fancy.lean (it is
compiled into the stripper when the module is imported, so that changing the option
later has no effect).
-/

namespace Sb.Tokenize
open Py Py.Re Py.Text Sb.Mail Sb.Strip
open Sb.Net (breakdownHost breakdownIpaddr)

/-- The options, all read when a message is tokenized. -/
structure Opts where
  /-- X_SEARCH_FOR_HABEAS_HEADERS, l.174 -/
  habeas : Bool
  /-- X_REDUCE_HABEAS_HEADERS, l.183 -/
  reduceHabeas : Bool
  /-- SUMMARIZE_EMAIL_PREFIXES, l.161 -/
  prefixes : Bool
  /-- SUMMARIZE_EMAIL_SUFFIXES, l.164 -/
  suffixes : Bool
  /-- MINE_RECEIVED_HEADERS, l.139 -/
  received : Bool
  /-- X_MINE_NNTP_HEADERS, l.144 -/
  nntp : Bool
  /-- COUNT_ALL_HEADER_LINES, l.117 -/
  countAll : Bool
  /-- RECORD_HEADER_ABSENCE, l.123 -/
  recordAbsence : Bool
  /-- CHECK_OCTETS, l.53 -/
  octets : Bool
  /-- IMAGE_SIZE, l.74 -/
  imageSize : Bool
  /-- CRACK_IMAGES, l.80 -/
  crackImages : Bool
  /-- X_SHORT_RUNS, l.63 -/
  shortRuns : Bool
  /-- GENERATE_LONG_SKIPS, l.158 -/
  longSkips : Bool
  /-- REPLACE_NONASCII_CHARS, l.191 -/
  replaceNonAscii : Bool
  /-- X_PICK_APART_URLS, strippers.py l.41 -/
  pickApartUrls : Bool

/-- The values in the source. -/
def Opts.default : Opts where
  habeas := false
  reduceHabeas := false
  prefixes := false
  suffixes := false
  received := false
  nntp := false
  countAll := false
  recordAbsence := false
  octets := false
  imageSize := false
  crackImages := false
  shortRuns := false
  longSkips := true
  replaceNonAscii := false
  pickApartUrls := false

/-- More about str: the digits `\d`; and `int(log2(n))`. -/
structure StrMore extends Str where
  digit : Nat → Bool
  ilog2 : Nat → Nat

/-! ### Headers -/

/-- BASIC_HEADER_SKIP, tokenizer.py l.49, one pattern: `received date x-.*`. -/
def basicSkipRe : Re := .seq (.lit (txt "received date x-")) (.star (.chr (· != 10)))

/-- One header line, tokenizer.py l.1167-1176.  `findall` refuses a Header object.  The
tokens of `tokenize_word` are str. -/
def basicLine (U : Str) (kv : Txt × HVal) : Gen :=
  let k := U.lower kv.1
  if (matchAt basicSkipRe k 0).isSome then .yield []
  else
    match kv.2 with
    | .header _ => .raise .typeError
    | .str v =>
      .each (fun w => (wordStr w).map fun
        | .str t => .str (k ++ 58 :: t)
        | t => t) (words (fun c => !subjectCh U c) v)

/-- tokenizer.py l.1167-1176; `items` is `msg.items()`. -/
def basicTokens (U : Str) (items : List (Txt × HVal)) : Gen := .each (basicLine U) items

/-- The list of tokenizer.py l.1183-1193. -/
def habeasHeaders : List (Txt × Txt) :=
  [(txt "X-Habeas-SWE-1", txt "winter into spring"),
    (txt "X-Habeas-SWE-2", txt "brightly anticipated"),
    (txt "X-Habeas-SWE-3", txt "like Habeas SWE (tm)"),
    (txt "X-Habeas-SWE-4", txt "Copyright 2002 Habeas (tm)"),
    (txt "X-Habeas-SWE-5", txt "Sender Warranted Email (SWE) (tm). The sender of this"),
    (txt "X-Habeas-SWE-6", txt "email in exchange for a license for this Habeas"),
    (txt "X-Habeas-SWE-7", txt "warrant mark warrants that this is a Habeas Compliant"),
    (txt "X-Habeas-SWE-8", txt "Message (HCM) and not spam. Please report use of this"),
    (txt "X-Habeas-SWE-9", txt "mark in spam to <http://www.habeas.com/report/>.")]

/-- `habeas == val`: a Header object compares its `str`. -/
def equalsStr (v : HVal) (val : Txt) : Except Err Bool :=
  match v with
  | .str t => .ok (t == val)
  | .header t => (t.mapM headerChar).map (· == val)

/-- The loop of tokenizer.py l.1196-1208; the result is the tokens, `valid_habeas` and
`invalid_habeas`.  `get` is `msg.get`. -/
def habeasLoop (U : Str) (get : Txt → Option HVal) (reduce : Bool) :
    List (Txt × Txt) → (valid : Nat) → (invalid : Bool) → Gen × Nat × Bool
  | [], valid, invalid => (.yield [], valid, invalid)
  | (opt, val) :: rest, valid, invalid =>
    match get opt with
    | none => habeasLoop U get reduce rest valid invalid
    | some v =>
      match equalsStr v val with
      | .error e => (.raise e, valid, invalid)
      | .ok eq =>
        if reduce then
          habeasLoop U get reduce rest (if eq then valid + 1 else valid) (invalid || !eq)
        else
          let r := habeasLoop U get reduce rest valid invalid
          ((Gen.yield [.str (U.lower opt ++ (if eq then txt ":valid" else txt ":invalid"))]).andThen
            r.1, r.2)

/-- tokenizer.py l.1183-1216 -/
def habeasTokens (U : Str) (get : Txt → Option HVal) (reduce : Bool) : Gen :=
  let r := habeasLoop U get reduce habeasHeaders 0 false
  r.1.andThen
    (if reduce then
      if r.2.2 then .yield [.str (txt "x-habeas-swe:invalid")]
      else if r.2.1 = 9 then .yield [.str (txt "x-habeas-swe:valid")]
      else .yield []
    else .yield [])

/-- `min(l)` of a non-empty list of str -/
def pyMin (x : Txt) (l : List Txt) : Txt := l.foldl (fun a b => if b < a then b else a) x
/-- `max(l)` of a non-empty list of str -/
def pyMax (x : Txt) (l : List Txt) : Txt := l.foldl (fun a b => if a < b then b else a) x

/-- The loop of `os.path.commonprefix`: `for i, c in enumerate(s1): if c != s2[i]: return
s1[:i]`, and `return s1` at its end. -/
def commonLoop : (s1 s2 : Txt) → Txt
  | [], _ => []
  | _ :: _, [] => []
  | a :: s, b :: t => if a = b then a :: commonLoop s t else []

/-- `os.path.commonprefix(l)`, with `s1 = min(l)` and `s2 = max(l)`.  (`s2` is never a
proper prefix of `s1`, so that `s2[i]` does not raise.) -/
def commonprefix : List Txt → Txt
  | [] => []
  | x :: l => commonLoop (pyMin x l) (pyMax x l)

/-- tokenizer.py l.1298-1312 and l.1330-1343: the token for a list of addresses. -/
def affixToken (name : Txt) (limit : Nat) (addrs : List Txt) : List Tok :=
  if 1 < addrs.length then
    let pfx := commonprefix addrs
    if pfx = [] then []
    else
      let score := pfx.length * addrs.length / 10
      if limit < score then [.str (name ++ txt ":big")]
      else [.str (name ++ 58 :: digitsOf score)]
  else []

/-- tokenizer.py l.1292-1312; `addrs` are the addresses of To and Cc. -/
def prefixTokens (U : Str) (addrs : List Txt) : List Tok :=
  affixToken (txt "pfxlen") 3 (addrs.map U.lower)

/-- tokenizer.py l.1319-1343 -/
def suffixTokens (U : Str) (addrs : List Txt) : List Tok :=
  affixToken (txt "sfxlen") 5 (addrs.map (fun a => U.lower a.reverse))

/-- `[a-z]` -/
def isLetter (c : Nat) : Bool := 97 ≤ c && c ≤ 122

/-- `received_complaints_re`, tokenizer.py l.1054: an opening parenthesis, two or more
words of `[a-z]+` with `\s+` between them, a closing one. -/
def complaintsRe (U : Str) : Re :=
  .cat [.lit [40], .plus (.chr isLetter),
    .plus (.seq (.plus (.chr U.space)) (.plus (.chr isLetter))), .lit [41]]

/-- `[a-z0-9._-]` -/
def isHostCh (c : Nat) : Bool := isLetter c || isDigit c || c == 46 || c == 95 || c == 45

/-- `received_host_re`, tokenizer.py l.842: `from ([a-z0-9._-]+[a-z])[)\s]`. -/
def receivedHostRe (U : Str) : Re :=
  .cat [.lit (txt "from "), .grp 1 (.seq (.plus (.chr isHostCh)) (.chr isLetter)),
    .chr (fun c => c == 41 || U.space c)]

/-- `\d{1,3}\.?` -/
def quadRe (U : StrMore) : Re :=
  .seq (.seq (.chr U.digit) (.upTo 2 (.chr U.digit))) (.opt (.lit [46]))

/-- `received_ip_re`, tokenizer.py l.848: `[[(]((\d{1,3}\.?){4})[])]`; the inner group
is not used. -/
def receivedIpRe (U : StrMore) : Re :=
  .cat [.chr (fun c => c == 91 || c == 40),
    .grp 1 (.cat [quadRe U, quadRe U, quadRe U, quadRe U]),
    .chr (fun c => c == 93 || c == 41)]

/-- tokenizer.py l.1378-1381 -/
def breakdownTokens (m : Option Match) (h : Txt) (breakdown : Txt → List Txt) : List Tok :=
  match m with
  | none => []
  | some m => (breakdown (m.group h 1)).map (fun t => .str (txt "received:" ++ t))

/-- One header, tokenizer.py l.1367-1381; a Header object has no method `split`. -/
def receivedLine (U : StrMore) : HVal → Gen
  | .header _ => .raise .attributeError
  | .str v =>
    let h := U.lower (joinWith 32 (words U.space v))
    .yield ((all (complaintsRe U.toStr) h).map (fun m =>
        .str (txt "received:" ++ slice h m.start m.stop)) ++
      breakdownTokens (search (receivedHostRe U.toStr) h 0) h breakdownHost ++
      breakdownTokens (search (receivedIpRe U) h 0) h breakdownIpaddr)

/-- tokenizer.py l.1366-1381 -/
def receivedTokens (U : StrMore) (lines : List HVal) : Gen := .each (receivedLine U) lines

/-- What the options ask the message besides `HeaderView`. -/
structure MoreView where
  /-- items() -/
  items : List (Txt × HVal)
  /-- get -/
  get : Txt → Option HVal
  /-- the addresses of getaddresses(get_all('to', []) + get_all('cc', [])) -/
  recipients : List Txt
  /-- get_all('received', ()) -/
  received : List HVal
  /-- what `mine_nntp` gives; see Verif/Model/Net.lean -/
  nntp : Gen

/-- An option that is on. -/
def Gen.when (b : Bool) (g : Gen) : Gen := if b then g else .yield []

/-- `tokenize_headers`, tokenizer.py l.1135-1423, after the basic header tokens. -/
def tokenizeHeadersRest (U : StrMore) (o : Opts) (h : HeaderView) (x : MoreView) : Gen :=
  (Gen.when o.habeas (habeasTokens U.toStr x.get o.reduceHabeas)).andThen <|
  (subjectTokens U.toStr h).andThen <|
  (Gen.yield (addressHeaders.flatMap (fieldTokens U.toStr h))).andThen <|
  (Gen.when o.prefixes (.yield (prefixTokens U.toStr x.recipients))).andThen <|
  (Gen.when o.suffixes (.yield (suffixTokens U.toStr x.recipients))).andThen <|
  (countTokens U.toStr (txt "to") h.toLines).andThen <|
  (countTokens U.toStr (txt "cc") h.ccLines).andThen <|
  (mailerTokens U.toStr h.mailer).andThen <|
  (Gen.when o.received (receivedTokens U x.received)).andThen <|
  (Gen.when o.nntp x.nntp).andThen <|
  (messageIdTokens U.toStr h.msgid).andThen <|
  .yield (headerTokens U.lower o.countAll o.recordAbsence h.names)

/-- `tokenize_headers`, tokenizer.py l.1135-1423, with the arguments
basic_header_tokenize and basic_header_tokenize_only. -/
def tokenizeHeadersWith (U : StrMore) (o : Opts) (basic basicOnly : Bool) (parts : List PartView)
    (h : HeaderView) (x : MoreView) : Gen :=
  (Gen.each (crackContent U.toStr) parts).andThen <|
  (Gen.when basic (basicTokens U.toStr x.items)).andThen <|
  if basic && basicOnly then .yield [] else tokenizeHeadersRest U o h x

/-! ### The body -/

/-- `tokenize_word` of bytes, tokenizer.py l.863-893, with GENERATE_LONG_SKIPS. -/
def wordBytesWith (longSkips : Bool) (w : List Nat) : Gen :=
  if 3 ≤ w.length ∧ w.length ≤ maxWord then .yield [.bytes w]
  else if 3 ≤ w.length then
    if w.length < 40 ∧ 46 ∈ w then .raise .typeError
    else (Gen.when longSkips (.yield [skipToken w])).andThen
      (if w.any (fun c => 128 ≤ c) then .raise .typeError else .yield [])
  else .yield []

/-- The loop of `tokenize_text`, tokenizer.py l.1429-1450, with `short_count` and
`short_runs`. -/
def textLoop (U : StrMore) (o : Opts) : List (List Nat) → (count : Nat) → (runs : List Nat) → Gen
  | [], _, runs =>
    if runs ≠ [] ∧ o.shortRuns then
      .yield [.str (txt "short:" ++ digitsOf (U.ilog2 (runs.foldl max 0)))]
    else .yield []
  | w :: ws, count, runs =>
    if w.length < 3 then textLoop U o ws (count + 1) runs
    else
      (if w.length ≤ maxWord then Gen.yield [.bytes w] else wordBytesWith o.longSkips w).andThen
        (textLoop U o ws 0 (if count = 0 ∨ count ∈ runs then runs else runs ++ [count]))

/-- `tokenize_text`, tokenizer.py l.1425-1450, of bytes. -/
def tokenizeTextWith (U : StrMore) (o : Opts) (t : List Nat) : Gen :=
  textLoop U o (words isSpace t) 0 []

/-- Removing tags and splitting, tokenizer.py l.1548-1559. -/
def finishBodyWith (U : StrMore) (o : Opts) (t : List Nat) : Gen :=
  match subStr breakingRe t with
  | .error e => .raise e
  | .ok t =>
    match subStr htmlRe t with
    | .error e => .raise e
    | .ok t => tokenizeTextWith U o t

/-- `URLStripper()` with X_PICK_APART_URLS: `proto + "://" + guts` (strippers.py l.245)
adds bytes to a str. -/
def urlsWith (o : Opts) : Stripper :=
  ofRe urlRe .eps (if o.pickApartUrls then fun _ _ => .error .typeError else urlTokenize)

/-- The five crackers in turn, tokenizer.py l.1537-1544. -/
def crackAllWith (U : StrMore) (o : Opts) (t : List Nat) : Gen :=
  crack uuencode t fun t => crack (urlsWith o) t fun t => crack style t fun t =>
  crack comment t fun t => crack noframes t (finishBodyWith U o)

/-- The tokens of a decoded text, tokenizer.py l.1523-1559.  `text.translate(tab)`
(l.1530) of bytes refuses the table, a str. -/
def bodyBytesWith (U : StrMore) (o : Opts) (t : List Nat) : Gen :=
  match subStr numericRe t with
  | .error e => .raise e
  | .ok t =>
    if o.replaceNonAscii then .raise .typeError
    else (Gen.yield (virusTokens (lower t))).andThen (crackAllWith U o (lower t))

/-- One round of the loop over the text parts, tokenizer.py l.1506-1559; see
`textPart`. -/
def textPartWith (U : StrMore) (o : Opts) : Payload → Gen
  | .bytes b => bodyBytesWith U o b
  | .none => .yield [.str (txt "control: payload is None")]
  | .undecodable Option.none =>
    .yield [.str (txt "control: couldn't decode"), .str (txt "control: payload is None")]
  | .undecodable (some _) =>
    (Gen.yield [.str (txt "control: couldn't decode")]).andThen (.raise .typeError)

/-- The undecoded payload of a part that cannot be decoded, a str or a list of parts:
`'%s' % payload[:5]` and its length. -/
structure RawPayload where
  shown : Txt
  len : Nat

/-- What `get_payload(decode=True)` does for other parts: bytes or None, or it raises
and `get_payload(decode=False)` gives something or None. -/
inductive Blob where
  | bytes (b : List Nat)
  | none
  | undecodable (raw : Option RawPayload)

/-- OCTET_PREFIX_SIZE, tokenizer.py l.57. -/
def octetPrefix : Nat := 5

/-- One round of the loop of tokenizer.py l.1462-1473. -/
def octetTokens : Blob → List Tok
  | .bytes b => [.str (txt "octet:" ++ bytesRepr (b.take octetPrefix))]
  | .none => [.str (txt "control: octet payload is None")]
  | .undecodable Option.none =>
    [.str (txt "control: couldn't decode octet"), .str (txt "control: octet payload is None")]
  | .undecodable (some r) =>
    [.str (txt "control: couldn't decode octet"), .str (txt "octet:" ++ r.shown)]

/-- One round of the loop of tokenizer.py l.1482-1491: its tokens. -/
def imageControl : Blob → List Tok
  | .bytes _ => []
  | .none => [.str (txt "control: image payload is None")]
  | .undecodable Option.none =>
    [.str (txt "control: couldn't decode image"), .str (txt "control: image payload is None")]
  | .undecodable (some _) => [.str (txt "control: couldn't decode image")]

/-- `len(text or "")`, tokenizer.py l.1489. -/
def imageLen : Blob → Nat
  | .bytes b => b.length
  | .none => 0
  | .undecodable Option.none => 0
  | .undecodable (some r) => r.len

/-- tokenizer.py l.1477-1494 -/
def imageTokens (U : Str) (images : List Blob) : List Tok :=
  let total := (images.map imageLen).foldl (· + ·) 0
  images.flatMap imageControl ++
    (if total = 0 then [] else [.str (txt "image-size:2**" ++ digitsOf (U.log2 total))])

/-- `tokenize_body`, tokenizer.py l.1452-1559.  With CRACK_IMAGES it imports a module of
SpamBayes (l.1498), which is not there. -/
def tokenizeBodyWith (U : StrMore) (o : Opts) (octets images : List Blob)
    (textParts : List Payload) : Gen :=
  (Gen.when o.octets (.yield (octets.flatMap octetTokens))).andThen <|
  (Gen.when o.imageSize (.yield (imageTokens U.toStr images))).andThen <|
  (Gen.when o.crackImages (.raise .importError)).andThen <|
  .each (textPartWith U o) textParts

/-- `Tokenizer.__call__`, tokenizer.py l.1127-1133, on a message object.  Its arguments
`basic_header_tokenize` and `basic_header_tokenize_only` are not handed on, and the
defaults of `tokenize_headers` (l.1136-1137) were evaluated when the class was made. -/
def callWith (U : StrMore) (o : Opts) (_basic _basicOnly : Bool) (parts : List PartView)
    (h : HeaderView) (x : MoreView) (octets images : List Blob) (textParts : List Payload) : Gen :=
  convertToBytes ((tokenizeHeadersWith U o false false parts h x).andThen
    (tokenizeBodyWith U o octets images textParts))

end Sb.Tokenize
