import Verif.Model.Generator

/-
How headers are written and read again: `policy.fold` of the default policy (compat32)
as `Generator` calls it for `Message.as_string` (sbclassifier/message.py l.269-284), that
is `email.header.Header.encode` with lines of at most 78 characters, and the reading of
headers by `email.feedparser`, which `message_from_string` and `message_from_bytes`
(message.py l.156, l.162) use.  Values that are not ASCII are written as encoded words;
what they look like is a parameter.  So is whether headers are checked before they are
written (`verify_generated_headers`, which newer versions of Python have switched on).
-/

namespace Sb.Mail
open Py

/-- Where `str.splitlines` ends a line. -/
def isLineBreak (c : Nat) : Bool :=
  (10 ≤ c && c ≤ 13) || (28 ≤ c && c ≤ 30) || c == 0x85 || c == 0x2028 || c == 0x2029

/-- `s.splitlines()` -/
def splitLines : Txt → List Txt
  | [] => []
  | 13 :: 10 :: r => [] :: splitLines r
  | c :: r =>
    if isLineBreak c then [] :: splitLines r
    else match splitLines r with
      | [] => [[c]]
      | l :: ls => (c :: l) :: ls

/-- Space and tab. -/
def isBlank (c : Nat) : Bool := c == 32 || c == 9

/-- `_ascii_split`: a line as pairs of blanks and the text after them; only the first
blanks can be empty. -/
def chunks : Txt → List (Txt × Txt)
  | [] => []
  | c :: r =>
    if isBlank c then
      match chunks r with
      | [] => [([c], [])]
      | (f, w) :: t => (c :: f, w) :: t
    else
      match chunks r with
      | [] => [([], [c])]
      | (f, w) :: t => if f = [] then ([], c :: w) :: t else ([], [c]) :: (f, w) :: t

/-- `_ValueFormatter`: the lines that are done, and the current line with the number of
columns before it (the name of the header). -/
structure Folding where
  lines : List Txt
  cur : List (Txt × Txt)
  init : Nat

/-- `str(self._current_line)` -/
def lineText (cur : List (Txt × Txt)) : Txt := cur.flatMap fun p => p.1 ++ p.2

/-- `_ValueFormatter.newline` -/
def Folding.newline (s : Folding) : Folding :=
  let cur := if s.cur.getLast? = some ([32], []) then s.cur.dropLast else s.cur
  let done :=
    if s.init + (lineText cur).length = 0 then s.lines
    else if s.init = 0 ∧ (lineText cur).all isSpace = true ∧ s.lines ≠ [] then
      s.lines.dropLast ++ [s.lines.getLastD [] ++ lineText cur]
    else s.lines ++ [lineText cur]
  ⟨done, [], 0⟩

/-- The condition of the inner loop of `_append_chunk`: the line can be split before its
i-th pair because of ch. -/
def breaksAt (ch : Nat) (cur : List (Txt × Txt)) (i : Nat) : Bool :=
  (isSpace ch && ((cur[i]?.getD ([], [])).1.head? == some ch)) ||
    ((cur[i - 1]?.getD ([], [])).2.getLast? == some ch)

/-- The inner loop of `_append_chunk`: from the end to the second pair. -/
def splitPoint (cur : List (Txt × Txt)) (ch : Nat) : Option Nat :=
  (List.range cur.length).reverse.find? fun i => 1 ≤ i && breaksAt ch cur i

/-- `_ValueFormatter._append_chunk` -/
def Folding.append (max : Nat) (s : Folding) (p : Txt × Txt) : Folding :=
  let cur := s.cur ++ [p]
  if s.init + (lineText cur).length ≤ max then { s with cur := cur }
  else
    match (txt ";, \t").findSome? (splitPoint cur) with
    | some i => ⟨s.lines ++ [lineText (cur.take i)], cur.drop i, 0⟩
    | none =>
      if 0 < s.init then
        let s' := s.newline
        { s' with cur := s'.cur ++ [(if p.1 = [] then [32] else p.1, p.2)] }
      else { s with cur := cur }

/-- `_ValueFormatter.feed` for an ASCII text -/
def Folding.feed (max : Nat) (s : Folding) (line : Txt) : Folding :=
  (chunks line).foldl (Folding.append max) s

/-- The lines made by `Header(value, header_name=name).encode(maxlinelen=max)` from an
ASCII value. -/
def encodedLines (max : Nat) (name value : Txt) : List Txt :=
  let s := Folding.feed max ⟨[], [], name.length + 2⟩ ((splitLines value).headD [])
  let s := (splitLines value).tail.foldl (fun s l => s.newline.feed max l) s
  let s := if 1 < (splitLines value).length then s.newline else s
  (Folding.newline { s with cur := s.cur ++ [([32], [])] }).lines

/-- `_embedded_header.search(value)`, the pattern is `\n[^ \t]+:`. -/
def embedded : Txt → Bool
  | [] => false
  | c :: r => (c == 10 && ((r.takeWhile fun d => !isBlank d).drop 1).contains 58) || embedded r

/-- `NEWLINE_WITHOUT_FWSP.search(text)`, the pattern is `\r\n[^ \t]|\r[^ \n\t]|\n[^ \t]`. -/
def loose : Txt → Bool
  | [] => false
  | 13 :: 10 :: d :: r => !isBlank d || loose (10 :: d :: r)
  | 13 :: d :: r => (d != 10 && !isBlank d) || loose (d :: r)
  | 10 :: d :: r => !isBlank d || loose (d :: r)
  | _ :: r => loose r

/-- What the version of Python decides: whether headers are checked before they are
written, and the text of a header that is not an ASCII str.  `wide`: the policy is
`clone(max_line_length=0)`, as for the parts of multipart/signed. -/
structure Printer where
  verify : Bool
  other : Txt → Stored → Except Err Txt
  wide : Bool := false

/-- The length of lines, `max_line_length` of the policy; `Header.encode` makes 1000000
of 0. -/
def Printer.max (P : Printer) : Nat := if P.wide then 1000000 else 78

/-- The check of `Generator._write_headers`, and the end of the line. -/
def Printer.checked (P : Printer) (name text : Txt) : Except Err Txt :=
  if P.verify && loose (name ++ txt ": " ++ text) then .error .exception
  else .ok (name ++ txt ": " ++ text ++ [10])

/-- `Generator._write_headers` for one header: `policy.fold(name, value)` and the check.
The exceptions are HeaderParseError and HeaderWriteError. -/
def Printer.fold (P : Printer) (name : Txt) : Stored → Except Err Txt
  | .header t => P.other name (.header t)
  | .none => P.checked name []
  | .str v =>
    if v.any (fun c => decide (128 ≤ c)) then P.other name (.str v)
    else
      let text := joinLf (encodedLines P.max name v)
      if embedded text then .error .exception else P.checked name text

/-- `Generator._write_headers` -/
def Printer.foldAll (P : Printer) : Headers → Except Err (List Txt)
  | [] => .ok []
  | (n, v) :: hs =>
    match P.fold n v with
    | .error e => .error e
    | .ok t =>
      match P.foldAll hs with
      | .error e => .error e
      | .ok ts => .ok (t :: ts)

/-- `as_string(unixfrom, mangle_from_)` of a message with these headers; `rest` is the
message but for the headers.  The body is made before the headers are written. -/
def Printer.asString (P : Printer) (unixfrom mangle : Bool) (hs : Headers) (rest : List Txt → Doc) :
    Except Err Txt :=
  match P.foldAll hs with
  | .ok folded => Mail.asString unixfrom mangle (rest folded)
  | .error e =>
    match bodyOf mangle false (rest []) with
    | .ok _ => .error e
    | .error _ => Mail.asString unixfrom mangle (rest [])

/-! ### Reading -/

/-- The lines of a text with their ends, which are CR LF, CR or LF. -/
def readLines : Txt → List Txt
  | [] => []
  | 13 :: 10 :: r => [13, 10] :: readLines r
  | c :: r =>
    if c = 13 ∨ c = 10 then [c] :: readLines r
    else match readLines r with
      | [] => [[c]]
      | l :: ls => (c :: l) :: ls

/-- A character of a header name. -/
def isFieldChar (c : Nat) : Bool := 33 ≤ c && c ≤ 126 && c != 58

/-- The line begins with a space or a tab. -/
def startsBlank (l : Txt) : Bool := (l.head?.map isBlank).getD false

/-- `headerRE.match(line)`, the pattern is `^(From |[\041-\071\073-\176]*:|[\t ])`. -/
def isHeaderLine (l : Txt) : Bool :=
  (txt "From ").isPrefixOf l || (l.dropWhile isFieldChar).head? == some 58 || startsBlank l

/-- The first loop of `_parsegen`: the lines of the headers, and those of the body. -/
def takeHeaders : List Txt → List Txt × List Txt
  | [] => ([], [])
  | l :: r =>
    if isHeaderLine l then (l :: (takeHeaders r).1, (takeHeaders r).2)
    else if l.head? = some 13 ∨ l.head? = some 10 then ([], r)
    else ([], l :: r)

/-- The line end at the end of a text is removed (`NLCRE_eol`). -/
def cutEnd (l : Txt) : Txt :=
  match l.reverse with
  | 10 :: 13 :: r => r.reverse
  | 10 :: r => r.reverse
  | 13 :: r => r.reverse
  | _ => l

/-- `header_source_parse`, for the lines of one header. -/
def sourceParse (ls : List Txt) : Txt × Stored :=
  let first := ls.headD []
  let value := ((first.dropWhile (· != 58)).drop 1).dropWhile isBlank ++ ls.tail.flatten
  (first.takeWhile (· != 58), .str (value.reverse.dropWhile (fun c => c == 13 || c == 10)).reverse)

/-- What the reader makes of the lines of the headers. -/
structure Fields where
  unixfrom : Option Txt
  headers : Headers
  /-- A line that was put back; the body begins with it. -/
  back : List Txt

/-- `_parse_headers`.  `cur` are the lines of the header being read; `first` is true for
the first line of all. -/
def parseFields : (first : Bool) → (cur : List Txt) → List Txt → Fields
  | _, cur, [] => ⟨none, if cur = [] then [] else [sourceParse cur], []⟩
  | first, cur, l :: r =>
    if startsBlank l then parseFields false (if cur = [] then [] else cur ++ [l]) r
    else
      let res : Fields :=
        if (txt "From ").isPrefixOf l then
          if first then { parseFields false [] r with unixfrom := some (cutEnd l) }
          else if r = [] then ⟨none, [], [l]⟩
          else parseFields false [] r
        else if l.head? = some 58 then parseFields false [] r
        else parseFields false [l] r
      { res with headers := (if cur = [] then [] else [sourceParse cur]) ++ res.headers }

/-- What the reader makes of a text: the `From ` line, the headers and the body. -/
structure Reading where
  unixfrom : Option Txt
  headers : Headers
  body : Txt

/-- `message_from_string(text)`, for a message whose body is not parsed any further. -/
def readMessage (t : Txt) : Reading :=
  let f := parseFields true [] (takeHeaders (readLines t)).1
  ⟨f.unixfrom, f.headers, (f.back ++ (takeHeaders (readLines t)).2).flatten⟩

end Sb.Mail
