import Verif.Py.Basic
import Verif.Py.Text
import Verif.Model.Email
import Mathlib.Logic.Function.Basic

/-
Model of sbclassifier/iputils.py, sbclassifier/dnsutils.py and the functions of
sbclassifier/tokenizer.py that break host names and addresses down.

Addresses are IPv4 (32 bits); the text of an address is its canonical dotted quad.
IPv6 addresses and malformed address texts are not modelled.
-/

namespace Sb.Net
open Py Py.Text Sb.Mail

/-! ### Host names: tokenizer.py.  46 is '.' -/

/-- `breakdown_host`, tokenizer.py l.1037-1040. -/
def breakdownHost (host : Txt) : List Txt :=
  let parts := splitOn 46 host
  (List.range' 1 parts.length).map (fun i => joinWith 46 (lastN i parts))

/-- `breakdown_ipaddr`, tokenizer.py l.1043-1046. -/
def breakdownIpaddr (ipaddr : Txt) : List Txt :=
  let parts := splitOn 46 ipaddr
  [1, 2, 3, 4].map (fun i => joinWith 46 (parts.take i))

/-- `top_two`, tokenizer.py l.1586-1595. -/
def topTwo (name : Txt) : Txt := joinWith 46 (lastN 2 (splitOn 46 name))

/-! ### Networks: iputils.py -/

/-- An IPv4 address. -/
abbrev Addr := BitVec 32

/-- `ip_network('{}/{}'.format(address, n), strict=False)`, iputils.py l.31: the host
bits (all but the first n) are cleared.  The pair of network address and prefix
length. -/
def network (address : Addr) (n : Nat) : Addr × Nat :=
  ((address >>> (32 - n)) <<< (32 - n), n)

/-- `subnets`, iputils.py l.21-32: the argument `prefix_lengths` is stored in a
variable that the result does not use. -/
def subnets (address : Addr) (_prefixLengths : Option (List Nat)) : List (Addr × Nat) :=
  [8, 16, 24, 32].map (network address)

/-- The k-th octet of an address, counted from the left. -/
def octet (a : Addr) (k : Nat) : Nat := a.toNat / 2 ^ (24 - 8 * k) % 256

/-- `str(address)` -/
def showAddr (a : Addr) : Txt :=
  joinWith 46 [digitsOf (octet a 0), digitsOf (octet a 1), digitsOf (octet a 2), digitsOf (octet a 3)]

/-- `str(network)` -/
def showNet (n : Addr × Nat) : Txt := showAddr n.1 ++ 47 :: digitsOf n.2

/-- `gen_dotted_quad_clues`, iputils.py l.17-18. -/
def genDottedQuadClues (pre : Txt) (address : Addr) : List Txt :=
  (subnets address none).map (fun n => pre ++ 58 :: showNet n)

/-! ### Look-ups: dnsutils.py -/

/-- The exceptions of the socket module that matter here. -/
inductive NetErr where
  | timeout | herror | gaierror | other
  deriving DecidableEq, Repr

/-- DEFAULT_TIMEOUT, dnsutils.py l.7. -/
def defaultTimeout : Nat := 10

/-- The process: the default timeout of the socket module (None: no timeout) and
everything else a look-up may change. -/
structure Process (σ : Type) where
  timeout : Option Nat
  rest : σ

/-- A call into the socket module. -/
abbrev Call (σ α : Type) := Process σ → Except NetErr α × Process σ

/-- `timed`, dnsutils.py l.10-21.  `empty` is the `()` returned after a time-out. -/
def timed {σ α : Type} (empty : α) (f : Call σ α) : Call σ α := fun p =>
  let oldTimeout := p.timeout
  let p := { p with timeout := some defaultTimeout }
  let (r, p) := f p
  let r := match r with
    | .error .timeout => .ok empty
    | r => r
  (r, { p with timeout := oldTimeout })

/-- The body of `reverse_dns_lookup`, dnsutils.py l.42-46. -/
def reverseBody {σ : Type} (gethostbyaddr : Addr → Call σ (Txt × List Txt)) (a : Addr) :
    Call σ (List Txt) := fun p =>
  match gethostbyaddr a p with
  | (.ok x, p) => (.ok [x.1], p)
  | (.error .herror, p) => (.ok [], p)
  | (.error e, p) => (.error e, p)

/-- `reverse_dns_lookup`, dnsutils.py l.40-46. -/
def reverseDnsLookup {σ : Type} (gethostbyaddr : Addr → Call σ (Txt × List Txt)) (a : Addr) :
    Call σ (List Txt) := timed [] (reverseBody gethostbyaddr a)

/-- The body of `dns_lookup`, dnsutils.py l.51-52: the set of addresses, as the list
of the addresses `getaddrinfo` reports. -/
def dnsBody {σ : Type} (getaddrinfo : Txt → Nat → Call σ (List Txt)) (name : Txt) :
    Call σ (List Txt) := getaddrinfo name 80

/-- `dns_lookup`, dnsutils.py l.49-52. -/
def dnsLookup {σ : Type} (getaddrinfo : Txt → Nat → Call σ (List Txt)) (name : Txt) :
    Call σ (List Txt) := timed [] (dnsBody getaddrinfo name)

/-! #### NNTP-Posting-Host: tokenizer.py -/

/-- Failures of the mining functions: an exception of a look-up, or a TypeError. -/
inductive MineErr where
  | net (e : NetErr)
  | typeError
  deriving DecidableEq, Repr

/-- `clues_from_ipaddress`, tokenizer.py l.1598-1606.  The address is an `IPv4Address`
object (l.1578), which `socket.gethostbyaddr` refuses with TypeError (it takes a str
or bytes); `timed` restores the timeout and lets the exception through. -/
def cluesFromIpaddress {σ : Type} (_a : Addr) (p : Process σ) :
    Except MineErr (List Txt) × Process σ := (.error .typeError, p)

/-- `clues_from_domainname`, tokenizer.py l.1609-1621.  `addresses` is the set that
`dns_lookup` returns (or `()` after a time-out): if it is not empty, `addresses[0]`
(l.1619) raises TypeError. -/
def cluesFromDomainname {σ : Type} (getaddrinfo : Txt → Nat → Call σ (List Txt)) (name : Txt)
    (p : Process σ) : Except MineErr (List Txt) × Process σ :=
  let hostClues := [txt "nntp-host-name:" ++ name, txt "nntp-host-domain:" ++ topTwo name]
  match dnsLookup getaddrinfo name p with
  | (.error e, p) => (.error (.net e), p)
  | (.ok [], p) => (.ok hostClues, p)
  | (.ok (_ :: _), p) => (.error .typeError, p)

/-- `mine_nntp`, tokenizer.py l.1573-1583, and the loop over its result, l.1386-1388:
only the first header is looked at, and without header the loop is over None.
`parseAddr` is `ipaddress.ip_address` (`none`: ValueError). -/
def mineNntp {σ : Type} (parseAddr : Txt → Option Addr)
    (getaddrinfo : Txt → Nat → Call σ (List Txt)) (nntpHeaders : List Txt) (p : Process σ) :
    Except MineErr (List Txt) × Process σ :=
  match nntpHeaders with
  | [] => (.error .typeError, p)
  | address :: _ =>
    match parseAddr address with
    | some a => cluesFromIpaddress a p
    | none => cluesFromDomainname getaddrinfo address p

/-! #### Threads -/

/-- How far a `timed` call has come: not begun; l.14 done (the old timeout is in the
local variable); l.15 done (the wrapped function is running); l.20 done. -/
inductive Phase where
  | idle
  | saved (old : Option Nat)
  | running (old : Option Nat)
  | done
  deriving DecidableEq, Repr

/-- All `timed` calls of a process, by number, with the shared default timeout. -/
structure Threads where
  timeout : Option Nat
  phase : Nat → Phase

/-- Call number `k` makes its next access to the default timeout, dnsutils.py l.14,
l.15, l.20.  Each access is one call into C and is atomic. -/
def Threads.step (k : Nat) (s : Threads) : Threads :=
  match s.phase k with
  | .idle => { s with phase := Function.update s.phase k (.saved s.timeout) }
  | .saved old =>
    { timeout := some defaultTimeout, phase := Function.update s.phase k (.running old) }
  | .running old => { timeout := old, phase := Function.update s.phase k .done }
  | .done => s

/-- A schedule: the numbers of the calls in the order in which they proceed. -/
def Threads.run (sched : List Nat) (s : Threads) : Threads := sched.foldl (fun s k => s.step k) s

/-- No call has begun. -/
def Threads.init (timeout : Option Nat) : Threads := { timeout := timeout, phase := fun _ => .idle }

/-! #### memoize -/

/-- A `memoize` object around a function (which may change a state `σ`): the dict
itself, dnsutils.py l.27-37. -/
structure Memo (σ A B : Type) where
  dict : Dict A B
  state : σ

/-- `memoize.__call__` and `__missing__`, dnsutils.py l.31-37.  An unhashable argument
tuple raises before the function is reached; a result is stored only if the function
returns. -/
def Memo.call {σ A B : Type} [DecidableEq A] (hashable : A → Bool) (f : A → M σ B) (args : A) :
    M (Memo σ A B) B := fun m =>
  if hashable args then
    match m.dict.get? args with
    | some b => (.ok b, m)
    | none =>
      match f args m.state with
      | (.ok b, s) => (.ok b, { dict := m.dict.set args b, state := s })
      | (.error e, s) => (.error e, { m with state := s })
  else (.error .typeError, m)

/-- A sequence of calls with their outcomes. -/
def Memo.calls {σ A B : Type} [DecidableEq A] (hashable : A → Bool) (f : A → M σ B) :
    List A → Memo σ A B → List (Except Err B) × Memo σ A B
  | [], m => ([], m)
  | a :: rest, m =>
    let (r, m) := Memo.call hashable f a m
    let (rs, m) := Memo.calls hashable f rest m
    (r :: rs, m)

end Sb.Net
