import Verif.Model.Strippers

/-
Model of class Tokenizer of sbclassifier/tokenizer.py and of the functions it uses,
with the options of l.33-189 at their defaults (so that octets, images, Habeas headers,
address prefixes, Received and NNTP headers and runs of short words are not looked at).
The two options about header lines are parameters.

The email package is not modelled: `PartView` and `HeaderView` hold what its methods
return for the message at hand.
-/

namespace Sb.Tokenize
open Py Py.Re Py.Text Sb.Mail Sb.Strip

/-! ### Generators -/

/-- What iterating a generator gives: the tokens yielded and the exception, if any,
that ended it. -/
structure Gen where
  toks : List Tok
  stop : Option Err
  deriving DecidableEq, Repr

namespace Gen
/-- tokens, and then nothing more -/
def yield (ts : List Tok) : Gen := ⟨ts, none⟩
/-- an exception -/
def raise (e : Err) : Gen := ⟨[], some e⟩
/-- one generator after another -/
def andThen (a b : Gen) : Gen :=
  match a.stop with
  | none => ⟨a.toks ++ b.toks, b.stop⟩
  | some e => ⟨a.toks, some e⟩
/-- a loop over a list -/
def each {α : Type} (f : α → Gen) : List α → Gen
  | [] => yield []
  | x :: xs => (f x).andThen (each f xs)
/-- the same change made to every token -/
def map (f : Tok → Tok) (a : Gen) : Gen := ⟨a.toks.map f, a.stop⟩
end Gen

/-- `bytes(s, 'utf-8')` for one character; a surrogate raises UnicodeEncodeError, a
ValueError. -/
def utf8Ch (c : Nat) : Except Err (List Nat) :=
  if c < 0x80 then .ok [c]
  else if c < 0x800 then .ok [0xC0 + c / 64, 0x80 + c % 64]
  else if isSurrogate c then .error .valueError
  else if c < 0x10000 then .ok [0xE0 + c / 4096, 0x80 + c / 64 % 64, 0x80 + c % 64]
  else .ok [0xF0 + c / 262144, 0x80 + c / 4096 % 64, 0x80 + c / 64 % 64, 0x80 + c % 64]

/-- `bytes(s, 'utf-8')` -/
def utf8 : Txt → Except Err (List Nat)
  | [] => .ok []
  | c :: s =>
    match utf8Ch c with
    | .error e => .error e
    | .ok b =>
      match utf8 s with
      | .error e => .error e
      | .ok r => .ok (b ++ r)

/-- The conversion of one token, tokenizer.py l.783. -/
def tokBytes : Tok → Except Err (List Nat)
  | .bytes b => .ok b
  | .str t => utf8 t

/-- `convert_to_bytes`, tokenizer.py l.776-784, over the tokens of a generator. -/
def convertToks (stop : Option Err) : List Tok → Gen
  | [] => ⟨[], stop⟩
  | t :: ts =>
    match tokBytes t with
    | .error e => .raise e
    | .ok b => (Gen.yield [.bytes b]).andThen (convertToks stop ts)

/-- `convert_to_bytes`, tokenizer.py l.776-784. -/
def convertToBytes (g : Gen) : Gen := convertToks g.stop g.toks

/-! ### Words -/

/-- SKIP_MAX_WORD_SIZE, tokenizer.py l.168. -/
def maxWord : Nat := 12

/-- `"skip:%c %d" % (word[0], n // 10 * 10)`, tokenizer.py l.887; `%c` takes a
character as well as its number. -/
def skipToken (w : List Nat) : Tok :=
  .str (txt "skip:" ++ w.take 1 ++ 32 :: digitsOf (w.length / 10 * 10))

/-- `tokenize_word` of bytes, tokenizer.py l.863-893.  For a long word, `b'.' in word`
is fine, but `word.count('@')` (l.875) and `map(ord, word)` (l.888-890) raise TypeError. -/
def wordBytes (w : List Nat) : Gen :=
  if 3 ≤ w.length ∧ w.length ≤ maxWord then .yield [.bytes w]
  else if 3 ≤ w.length then
    if w.length < 40 ∧ 46 ∈ w then .raise .typeError
    else (Gen.yield [skipToken w]).andThen
      (if w.any (fun c => 128 ≤ c) then .raise .typeError else .yield [])
  else .yield []

/-- `tokenize_word` of a str: `b'.' in word` (l.875) and `has_highbit_char(word)`
(l.888), a search with a bytes pattern, raise TypeError. -/
def wordStr (w : Txt) : Gen :=
  if 3 ≤ w.length ∧ w.length ≤ maxWord then .yield [.str w]
  else if 3 ≤ w.length then
    if w.length < 40 then .raise .typeError
    else (Gen.yield [skipToken w]).andThen (.raise .typeError)
  else .yield []

/-- One round of the loop of `tokenize_text`, tokenizer.py l.1429-1448, for bytes.  The
runs of short words (l.1437-1441) are counted but not used. -/
def textWord (w : List Nat) : Gen :=
  if w.length < 3 then .yield []
  else if w.length ≤ maxWord then .yield [.bytes w]
  else wordBytes w

/-- `tokenize_text` of bytes, tokenizer.py l.1425-1450. -/
def tokenizeText (t : List Nat) : Gen := .each textWord (words isSpace t)

/-- The same round for a str. -/
def textWordStr (w : Txt) : Gen :=
  if w.length < 3 then .yield []
  else if w.length ≤ maxWord then .yield [.str w]
  else wordStr w

/-- `tokenize_text` of a str; `space` is the whitespace of `str.split`. -/
def tokenizeTextStr (space : Nat → Bool) (t : Txt) : Gen := .each textWordStr (words space t)

/-! ### The body -/

/-- `numeric_entity_re`, tokenizer.py l.1090: `&#(\d+);`. -/
def numericRe : Re := .cat [.lit (txt "&#"), .grp 1 (.plus (.chr isDigit)), .lit [59]]

/-- `breaking_entity_re`, tokenizer.py l.1100-1106: `&nbsp; | < (?: p | br ) >`. -/
def breakingRe : Re :=
  .alt (.lit (txt "&nbsp;")) (.cat [.lit [60], .alt (.lit [112]) (.lit (txt "br")), .lit [62]])

/-- `html_re`, tokenizer.py l.817-823: `< (?![\s<>]) [^>]{0,256} >`. -/
def htmlRe : Re :=
  .cat [.lit [60], notAhead (fun c => isSpace c || c == 60 || c == 62), .upTo 256 (.chr (· != 62)),
    .lit [62]]

/-- `['"]?` -/
def quote : Re := .opt (.chr (fun c => c == 39 || c == 34))

/-- `virus_re`, tokenizer.py l.1078-1082. -/
def virusRe : Re :=
  .alt (.cat [.lit [60], .opt (.lit [47]), .star (.chr isSpace),
      .alt (.lit (txt "script")) (.lit (txt "iframe")), boundary])
    (.alt (.cat [boundary, .lit (txt "src="), quote, .lit (txt "cid:")])
      (.cat [boundary, .alt (.lit (txt "height")) (.lit (txt "width")), .lit [61], quote, .lit [48]]))

/-- `pattern.sub(r, text)` where the text is bytes and `r` a str, or a function that
returns one: the pieces are joined at the end, TypeError if there is a match. -/
def subStr (r : Re) (t : List Nat) : Except Err (List Nat) :=
  if (search r t 0).isSome then .error .typeError else .ok t

/-- two hexadecimal digits -/
def hex2 (c : Nat) : Txt := [c / 16, c % 16].map (fun d => if d < 10 then 48 + d else 87 + d)

/-- one byte in `repr(b)` -/
def reprByte (q c : Nat) : Txt :=
  if c = q ∨ c = 92 then [92, c]
  else if c = 9 then txt "\\t"
  else if c = 10 then txt "\\n"
  else if c = 13 then txt "\\r"
  else if c < 32 ∨ 127 ≤ c then txt "\\x" ++ hex2 c
  else [c]

/-- `repr(b)`, which is also `'%s' % b` -/
def bytesRepr (b : List Nat) : Txt :=
  let q := if b.contains 39 && !b.contains 34 then 34 else 39
  98 :: q :: b.flatMap (reprByte q) ++ [q]

/-- tokenizer.py l.1532-1533, with `find_html_virus_clues`, l.1085-1087. -/
def virusTokens (t : List Nat) : List Tok :=
  (all virusRe t).map (fun m => .str (txt "virus:" ++ bytesRepr (slice t m.start m.stop)))

/-- One of the crackers of tokenizer.py l.1537-1544, and what follows.  None of them
runs for ever (C53), so that the last case does not occur. -/
def crack (S : Stripper) (t : List Nat) (next : List Nat → Gen) : Gen :=
  match analyze S t with
  | some (.ok (t', toks)) => (Gen.yield toks).andThen (next t')
  | some (.error e) => .raise e
  | none => .raise .exception

/-- Removing tags and splitting, tokenizer.py l.1548-1559. -/
def finishBody (t : List Nat) : Gen :=
  match subStr breakingRe t with
  | .error e => .raise e
  | .ok t =>
    match subStr htmlRe t with
    | .error e => .raise e
    | .ok t => tokenizeText t

/-- The five crackers in turn, tokenizer.py l.1537-1544. -/
def crackAll (t : List Nat) : Gen :=
  crack uuencode t fun t => crack urls t fun t => crack style t fun t => crack comment t fun t =>
  crack noframes t finishBody

/-- The tokens of a decoded text, tokenizer.py l.1523-1559.  `text.lower()` of bytes
folds ASCII letters. -/
def bodyBytes (t : List Nat) : Gen :=
  match subStr numericRe t with
  | .error e => .raise e
  | .ok t => (Gen.yield (virusTokens (lower t))).andThen (crackAll (lower t))

/-! #### Damaged base64 -/

/-- `[a-zA-Z0-9+/]` -/
def isB64 (c : Nat) : Bool :=
  (97 ≤ c && c ≤ 122) || (65 ≤ c && c ≤ 90) || (48 ≤ c && c ≤ 57) || c == 43 || c == 47
/-- `[ \t]` -/
def isBlank (c : Nat) : Bool := c == 32 || c == 9

/-- `base64_re`, tokenizer.py l.1005-1012: `[ \t]* [a-zA-Z0-9+/]* (=*) [ \t]* \r? \n`. -/
def base64Re : Re :=
  .cat [.star (.chr isBlank), .star (.chr isB64), .grp 1 (.star (.chr (· == 61))),
    .star (.chr isBlank), .opt (.lit [13]), .lit [10]]

/-- The loop of `try_to_repair_damaged_base64`, tokenizer.py l.1016-1025, from position
i on; `none` if it needs more than n rounds. -/
def base64Loop (t : Txt) : (n i : Nat) → Option Nat
  | 0, _ => none
  | n + 1, i =>
    match matchAt base64Re t i with
    | none => some i
    | some m => if m.group t 1 ≠ [] then some m.stop else base64Loop t n m.stop

/-- The rest of `try_to_repair_damaged_base64`, tokenizer.py l.1026-1034; `decode` is
`binascii.a2b_base64`, `none` if it raises.  What it returns is bytes, and cannot be
concatenated with the rest of the text, a str. -/
def repairFrom (decode : Txt → Option (List Nat)) (t : Txt) (i : Nat) : Except Err Txt :=
  if i = 0 then .ok t
  else
    match decode (t.take i) with
    | some _ => .error .typeError
    | none => .ok (t.drop i)

/-- `try_to_repair_damaged_base64`, tokenizer.py l.1015-1034; it needs at most
`|text| + 1` rounds. -/
def repair (decode : Txt → Option (List Nat)) (t : Txt) : Option (Except Err Txt) :=
  (base64Loop t (t.length + 1) 0).map (repairFrom decode t)

/-- What `get_payload(decode=True)` does for a part: it returns bytes or None, or it
raises; then `get_payload(decode=False)` gives a str, a list of parts, or None. -/
inductive Payload where
  | bytes (b : List Nat)
  | none
  | undecodable (raw : Option (Sum Txt Unit))

/-- One round of the loop over the text parts, tokenizer.py l.1506-1559.  A payload
that could not be decoded is never tokenized: a list cannot be repaired
(l.1515), and a str that could be is refused by `numeric_entity_re.sub` (l.1523), a
bytes pattern. -/
def textPart : Payload → Gen
  | .bytes b => bodyBytes b
  | .none => .yield [.str (txt "control: payload is None")]
  | .undecodable Option.none =>
    .yield [.str (txt "control: couldn't decode"), .str (txt "control: payload is None")]
  | .undecodable (some _) =>
    (Gen.yield [.str (txt "control: couldn't decode")]).andThen (.raise .typeError)

/-- `tokenize_body`, tokenizer.py l.1452-1559; the text parts are in a set (l.792-795),
so that their order is arbitrary. -/
def tokenizeBody (textParts : List Payload) : Gen := .each textPart textParts

/-! ### The headers -/

/-- A header value: a str, or (for raw 8-bit values) an object of class Header. -/
inductive HVal where
  | str (t : Txt)
  | header (t : Txt)
  deriving DecidableEq, Repr

/-- A piece of a decoded header; a Header object if decoding it failed. -/
inductive Chunk where
  | str (t : Txt)
  | bytes (b : List Nat)
  | header
  deriving DecidableEq, Repr

/-- A parameter of Content-Type: a str, or a triple (RFC 2231). -/
inductive Param where
  | str (t : Txt)
  | triple
  deriving DecidableEq, Repr

/-- What `crack_content_xyz` asks a part: get_content_type, get_param('type'),
get_charsets (`none`: UnicodeEncodeError), get('content-disposition'), get_filename. -/
structure PartView where
  contentType : Txt
  typeParam : Option Param
  charsets : Option (List (Option Txt))
  disposition : Option HVal
  filename : Except Err (Option Txt)

/-- What str methods do beyond ASCII: `lower`, the whitespace of `split` and `\s`, the
word characters `\w`; and `round(log2(n))`, tokenizer.py l.1049-1050. -/
structure Str where
  lower : Txt → Txt
  space : Nat → Bool
  word : Nat → Bool
  log2 : Nat → Nat

/-- The charset tokens, strippers.py l.117-125. -/
def charsetTokens (U : Str) : Option (List (Option Txt)) → List Tok
  | none => [.str (txt "charset:invalid_unicode")]
  | some cs => cs.filterMap (fun c => c.map (fun x => .str (txt "charset:" ++ U.lower x)))

/-- The filename tokens, strippers.py l.131-141.  `crack_filename` (l.97-107) yields its
first token; then `fname_sep_re.split(fname)`, a bytes pattern on a str, raises the
TypeError that is caught in l.136. -/
def filenameTokens : Except Err (Option Txt) → Gen
  | .ok none => .yield []
  | .ok (some f) =>
    .yield [.str (txt "filename:" ++ (txt "fname:" ++ f)), .str (txt "filename:<bogus>")]
  | .error .typeError => .yield [.str (txt "filename:<bogus>")]
  | .error e => .raise e

/-- strippers.py l.113-115: a triple has no method `lower`. -/
def typeTokens (U : Str) : Option Param → Gen
  | none => .yield []
  | some (.str x) => .yield [.str (txt "content-type/type:" ++ U.lower x)]
  | some .triple => .raise .attributeError

/-- strippers.py l.127-129: a Header object has no method `lower`. -/
def dispositionTokens (U : Str) : Option HVal → Gen
  | none => .yield []
  | some (.str x) => .yield [.str (txt "content-disposition:" ++ U.lower x)]
  | some (.header _) => .raise .attributeError

/-- `crack_content_xyz`, strippers.py l.110-141. -/
def crackContent (U : Str) (p : PartView) : Gen :=
  (Gen.yield [.str (txt "content-type:" ++ p.contentType)]).andThen <|
  (typeTokens U p.typeParam).andThen <|
  (Gen.yield (charsetTokens U p.charsets)).andThen <|
  (dispositionTokens U p.disposition).andThen (filenameTokens p.filename)

/-- `subject_word_re`, tokenizer.py l.859: `[\w\x80-\xff$.%]`. -/
def subjectCh (U : Str) (c : Nat) : Bool :=
  U.word c || (0x80 ≤ c && c ≤ 0xff) || c == 36 || c == 46 || c == 37

/-- `'subject:' + t`, tokenizer.py l.1235. -/
def subjectTok : Tok → Tok
  | .str t => .str (txt "subject:" ++ t)
  | t => t

/-- `x.replace('\r', ' ')`, tokenizer.py l.1232. -/
def noCr (x : Txt) : Txt := x.map (fun c => if c = 13 then 32 else c)

/-- tokenizer.py l.1233-1237 for a str: the maximal runs of subject characters, and
those of other than word characters. -/
def subjectText (U : Str) (x : Txt) : Gen :=
  (Gen.each (fun w => (wordStr w).map subjectTok) (words (fun c => !subjectCh U c) x)).andThen
    (.yield ((words U.word x).map (fun w => .str (txt "subject:" ++ w))))

/-- tokenizer.py l.1228-1229 -/
def subjectCharset : Option Txt → Gen
  | none => .yield []
  | some c => .yield [.str (txt "subjectcharset:" ++ c)]

/-- tokenizer.py l.1232-1237: bytes have a method `replace`, but not for str
arguments; a Header object has none. -/
def subjectChunk (U : Str) : Chunk → Gen
  | .str x => subjectText U (noCr x)
  | .bytes _ => .raise .typeError
  | .header => .raise .attributeError

/-- One address of a header, tokenizer.py l.1256-1273: the real name, decode_header of
it (`none`: one of the exceptions caught), and the address. -/
structure AddrView where
  name : Txt
  decoded : Option (List ((Txt ⊕ List Nat) × Option Txt))
  addr : Txt

/-- What the rest of `tokenize_headers` asks the message. -/
structure HeaderView where
  /-- get('subject', '') -/
  subject : HVal
  /-- decode_header of it; `none`: one of the exceptions caught -/
  subjectDecoded : Option (List (Chunk × Option Txt))
  /-- getaddresses(get_all(field)); `none` if there is no such header -/
  addresses : Txt → Option (List AddrView)
  /-- get_all('to', []) and get_all('cc', []) -/
  toLines : List HVal
  ccLines : List HVal
  /-- get('x-mailer') -/
  mailer : Option HVal
  /-- get('message-id') -/
  msgid : Option HVal
  /-- keys() -/
  names : List Txt

/-- tokenizer.py l.1222-1226: the pieces of the subject. -/
def subjectChunks (h : HeaderView) : List (Chunk × Option Txt) :=
  match h.subjectDecoded with
  | some cs => cs
  | none =>
    match h.subject with
    | .str x => [(.str x, some (txt "invalid"))]
    | .header _ => [(.header, some (txt "invalid"))]

/-- The subject, tokenizer.py l.1222-1237. -/
def subjectTokens (U : Str) (h : HeaderView) : Gen :=
  .each (fun c => (subjectCharset c.2).andThen (subjectChunk U c.1)) (subjectChunks h)

/-- ADDRESS_HEADERS, tokenizer.py l.151. -/
def addressHeaders : List Txt := [txt "from", txt "to", txt "cc", txt "sender", txt "reply-to"]

/-- `name.lower()` as `%s` shows it, tokenizer.py l.1264. -/
def showName (U : Str) : Txt ⊕ List Nat → Txt
  | .inl x => U.lower x
  | .inr b => bytesRepr (Mail.lower b)

/-- tokenizer.py l.1263-1266 -/
def nameTokens (U : Str) (field : Txt) (c : (Txt ⊕ List Nat) × Option Txt) : List Tok :=
  .str (field ++ txt ":name:" ++ showName U c.1) ::
    (match c.2 with
    | none => []
    | some cs => [.str (field ++ txt ":charset:" ++ cs)])

/-- tokenizer.py l.1257-1273, without the count -/
def addrTokens (U : Str) (field : Txt) (a : AddrView) : List Tok :=
  (if a.name = [] then []
    else (a.decoded.getD [(.inl a.name, some (txt "invalid"))]).flatMap (nameTokens U field)) ++
  (if a.addr = [] then [.str (field ++ txt ":addr:none")]
    else (splitOn 64 (U.lower a.addr)).map (fun w => .str (field ++ txt ":addr:" ++ w)))

/-- One address header, tokenizer.py l.1249-1277. -/
def fieldTokens (U : Str) (h : HeaderView) (field : Txt) : List Tok :=
  match h.addresses field with
  | none => [.str (field ++ txt ":none")]
  | some as =>
    let noname := (as.filter (fun a => a.name = [])).length
    as.flatMap (addrTokens U field) ++
      (if noname = 0 then []
        else [.str (field ++ txt ":no real name:2**" ++ digitsOf (U.log2 noname))])

/-- `len(addrs.split(','))` summed up, tokenizer.py l.1349-1351; a Header object has no
method `split`. -/
def countAddrs : List HVal → Except Err Nat
  | [] => .ok 0
  | .header _ :: _ => .error .attributeError
  | .str t :: rest =>
    match countAddrs rest with
    | .error e => .error e
    | .ok n => .ok ((splitOn 44 t).length + n)

/-- tokenizer.py l.1348-1353 -/
def countTokens (U : Str) (field : Txt) (lines : List HVal) : Gen :=
  match countAddrs lines with
  | .error e => .raise e
  | .ok n =>
    if n = 0 then .yield [] else .yield [.str (field ++ txt ":2**" ++ digitsOf (U.log2 n))]

/-- X-Mailer, tokenizer.py l.1359-1362. -/
def mailerTokens (U : Str) : Option HVal → Gen
  | some (.header _) => .raise .attributeError
  | none => .yield [.str (txt "x-mailer:" ++ joinWith 32 (words U.space (U.lower (txt "none"))))]
  | some (.str x) => .yield [.str (txt "x-mailer:" ++ joinWith 32 (words U.space (U.lower x)))]

/-- `message_id_re`, tokenizer.py l.852: `\s*<[^@]+@([^>]+)>\s*`. -/
def messageIdRe (U : Str) : Re :=
  .cat [.star (.chr U.space), .lit [60], .plus (.chr (· != 64)), .lit [64],
    .grp 1 (.plus (.chr (· != 62))), .lit [62], .star (.chr U.space)]

/-- tokenizer.py l.1393-1399 for a str -/
def messageIdToken (U : Str) (x : Txt) : Tok :=
  match matchAt (messageIdRe U) x 0 with
  | some m => .str (txt "message-id:@" ++ m.group x 1)
  | none => .str (txt "message-id:invalid")

/-- Message-Id, tokenizer.py l.1392-1399. -/
def messageIdTokens (U : Str) : Option HVal → Gen
  | none => .yield [messageIdToken U []]
  | some (.str x) => .yield [messageIdToken U x]
  | some (.header _) => .raise .typeError

/-- SAFE_HEADERS, tokenizer.py l.128-134. -/
def safeHeaders : List Txt :=
  [txt "abuse-reports-to", txt "date", txt "errors-to", txt "from", txt "importance",
    txt "in-reply-to", txt "message-id", txt "mime-version", txt "organization", txt "received",
    txt "reply-to", txt "return-path", txt "subject", txt "to", txt "user-agent",
    txt "x-abuse-info", txt "x-complaints-to", txt "x-face"]

/-- `x.lower() in SAFE_HEADERS`; `low` is `str.lower`. -/
def isSafe (low : Txt → Txt) (x : Txt) : Bool := safeHeaders.contains (low x)

/-- The dictionary of counts, tokenizer.py l.1405-1417. -/
def headerCounts (low : Txt → Txt) (countAll : Bool) : List Txt → Dict Txt Nat → Dict Txt Nat
  | [], d => d
  | x :: rest, d =>
    headerCounts low countAll rest
      (if countAll || isSafe low x then d.set x ((d.get? x).getD 0 + 1) else d)

/-- The tokens about header lines, tokenizer.py l.1405-1423.  The arguments are the
options COUNT_ALL_HEADER_LINES and RECORD_HEADER_ABSENCE. -/
def headerTokens (low : Txt → Txt) (countAll recordAbsence : Bool) (names : List Txt) : List Tok :=
  let x2n := headerCounts low countAll names Dict.empty
  x2n.entries.map (fun e => .str (txt "header:" ++ e.1 ++ 58 :: digitsOf e.2)) ++
  (if recordAbsence then
    (x2n.keys.filter (fun k => !isSafe low k)).map (fun k => .str (txt "noheader:" ++ k))
  else [])

/-- `tokenize_headers`, tokenizer.py l.1135-1423; `parts` are the parts in the order of
`walk()`. -/
def tokenizeHeaders (U : Str) (countAll recordAbsence : Bool) (parts : List PartView)
    (h : HeaderView) : Gen :=
  (Gen.each (crackContent U) parts).andThen <|
  (subjectTokens U h).andThen <|
  (Gen.yield (addressHeaders.flatMap (fieldTokens U h))).andThen <|
  (countTokens U (txt "to") h.toLines).andThen <|
  (countTokens U (txt "cc") h.ccLines).andThen <|
  (mailerTokens U h.mailer).andThen <|
  (messageIdTokens U h.msgid).andThen <|
  .yield (headerTokens U.lower countAll recordAbsence h.names)

/-- `Tokenizer.__call__`, tokenizer.py l.1127-1133, on a message object, with the
default options. -/
def tokenize (U : Str) (parts : List PartView) (h : HeaderView) (textParts : List Payload) : Gen :=
  convertToBytes ((tokenizeHeaders U false false parts h).andThen (tokenizeBody textParts))

end Sb.Tokenize
