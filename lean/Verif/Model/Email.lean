import Verif.Py.Basic

/-
The part of the standard library's `email` package that sbclassifier/message.py
relies on: the header list of `email.message.Message` with the default policy
(compat32).  Texts are lists of code points, because a header read from raw bytes
contains lone surrogates.  The payload is not modelled.
-/

namespace Sb.Mail
open Py

/-- A Python str: code points, surrogates included. -/
abbrev Txt := List Nat

/-- A literal. -/
def txt (s : String) : Txt := s.toList.map Char.toNat

/-- Lower case of a character.  Only ASCII letters are folded; no other character
has a lower case that is one of the letters of the header names used here. -/
def lowerCh (c : Nat) : Nat := if 65 ≤ c ∧ c ≤ 90 then c + 32 else c

/-- `s.lower()` for header names. -/
def lower (t : Txt) : Txt := t.map lowerCh

/-- Header names are compared in lower case. -/
def sameName (a b : Txt) : Bool := lower a == lower b

/-- A lone surrogate; `message_from_bytes` makes one of every byte above 127. -/
def isSurrogate (c : Nat) : Bool := 0xD800 ≤ c && c ≤ 0xDFFF

/-- A value in the header list: a str, None, or an `email.header.Header`. -/
inductive Stored where
  | none
  | str (t : Txt)
  | header (t : Txt)
  deriving DecidableEq, Repr

/-- What `message[name]` gives: the stored value, except that a str with
surrogates comes as a `Header` object of charset unknown-8bit; None also means
that there is no such header. -/
def fetch : Stored → Stored
  | .none => .none
  | .str t => if t.any isSurrogate then .header t else .str t
  | .header t => .header t

/-- One character of `str(Header)`, charset unknown-8bit: encoding to ASCII with
surrogateescape, then decoding with replacement; UnicodeEncodeError (a
ValueError) for other non-ASCII characters. -/
def headerChar (c : Nat) : Except Err Nat :=
  if c < 128 then .ok c
  else if 0xDC80 ≤ c ∧ c ≤ 0xDCFF then .ok 0xFFFD
  else .error .valueError

/-- `"%s" % value` and `"{}".format(value)` of a fetched value. -/
def format : Stored → Except Err Txt
  | .none => .ok (txt "None")
  | .str t => .ok t
  | .header t => t.mapM headerChar

/-- `Message._headers` -/
abbrev Headers := List (Txt × Stored)

namespace Headers

/-- `message[name]`: the first header of that name. -/
def get (h : Headers) (name : Txt) : Stored :=
  match h.find? (fun e => sameName e.1 name) with
  | some e => fetch e.2
  | none => .none

/-- `message[name] = value`: appends, whether or not the header exists. -/
def set (h : Headers) (name : Txt) (v : Stored) : Headers := h ++ [(name, v)]

/-- `del message[name]`: all headers of that name; none is no error. -/
def del (h : Headers) (name : Txt) : Headers := h.filter (fun e => !sameName e.1 name)

/-- `message.replace_header(name, value)`: the first header of that name keeps its
place and spelling; `none` is the KeyError. -/
def replace : Headers → Txt → Stored → Option Headers
  | [], _, _ => none
  | e :: r, name, v =>
    if sameName e.1 name then some ((e.1, v) :: r) else (replace r name v).map (e :: ·)

end Headers
end Sb.Mail
