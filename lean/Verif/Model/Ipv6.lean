import Verif.Model.Net

/-
iputils.py l.17-32 for IPv6 addresses, which `ip_address` (tokenizer.py l.1578) and
`getaddrinfo` (dnsutils.py l.52) give as well as IPv4 addresses.  A scope (`%eth0`) is not modelled.
-/

namespace Sb.Net
open Py Py.Text Sb.Mail

/-- An IPv6 address. -/
abbrev Addr6 := BitVec 128

/-- `ip_network('{}/{}'.format(address, n), strict=False)`, iputils.py l.31. -/
def network6 (address : Addr6) (n : Nat) : Addr6 × Nat :=
  ((address >>> (128 - n)) <<< (128 - n), n)

/-- `subnets`, iputils.py l.21-32: the lengths are those of IPv4. -/
def subnets6 (address : Addr6) (_prefixLengths : Option (List Nat)) : List (Addr6 × Nat) :=
  [8, 16, 24, 32].map (network6 address)

/-- a digit of `'%x'` -/
def hexDigit (d : Nat) : Nat := if d < 10 then 48 + d else 87 + d

/-- `'%x' % n`, with at most `f + 1` digits -/
def hexUpTo : Nat → Nat → Txt
  | 0, n => [hexDigit n]
  | f + 1, n => if n < 16 then [hexDigit n] else hexUpTo f (n / 16) ++ [hexDigit (n % 16)]

/-- `'%x' % n` for a number of 16 bits -/
def hexOf (n : Nat) : Txt := hexUpTo 3 n

/-- The k-th group of 16 bits, counted from the left. -/
def hextet (a : Addr6) (k : Nat) : Nat := a.toNat / 2 ^ (112 - 16 * k) % 65536

/-- The variables of the loop of `_compress_hextets` in the ipaddress module. -/
structure Zeros where
  bestStart : Nat
  bestLen : Nat
  start : Option Nat
  len : Nat

/-- One round of this loop. -/
def Zeros.round (z : Zeros) (index : Nat) (hextet : Txt) : Zeros :=
  if hextet = [48] then
    let start := z.start.getD index
    if z.bestLen < z.len + 1 then ⟨start, z.len + 1, some start, z.len + 1⟩
    else ⟨z.bestStart, z.bestLen, some start, z.len + 1⟩
  else ⟨z.bestStart, z.bestLen, none, 0⟩

/-- This loop. -/
def Zeros.loop : Zeros → Nat → List Txt → Zeros
  | z, _, [] => z
  | z, i, h :: hs => (z.round i h).loop (i + 1) hs

/-- `_compress_hextets`: the first longest run of zeros, if it is of two at least, becomes
one empty item, with another one at an end of the address. -/
def compress (hs : List Txt) : List Txt :=
  let z := Zeros.loop ⟨0, 0, none, 0⟩ 0 hs
  if 1 < z.bestLen then
    (if z.bestStart = 0 then [[]] else []) ++ hs.take z.bestStart ++ [[]] ++
      hs.drop (z.bestStart + z.bestLen) ++ (if z.bestStart + z.bestLen = hs.length then [[]] else [])
  else hs

/-- `str(address)` -/
def showAddr6 (a : Addr6) : Txt :=
  joinWith 58 (compress ((List.range 8).map (fun k => hexOf (hextet a k))))

/-- `str(network)` -/
def showNet6 (n : Addr6 × Nat) : Txt := showAddr6 n.1 ++ 47 :: digitsOf n.2

/-- `gen_dotted_quad_clues`, iputils.py l.17-18. -/
def genClues6 (pre : Txt) (address : Addr6) : List Txt :=
  (subnets6 address none).map (fun n => pre ++ 58 :: showNet6 n)

end Sb.Net
