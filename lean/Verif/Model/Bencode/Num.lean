import Verif.Model.Basic
/-
The parts of `strconv` used by bencode and the tracker API: `ParseInt(s, 10, 64)`, `Atoi`, `ParseUint(s, 10, 64)`,
`Itoa`/`FormatInt`/`FormatUint`.
-/

namespace Drip

/-- decode.go:98-100 `isDigit`. -/
def isDigit (b : UInt8) : Bool := 48 ≤ b && b ≤ 57

/-- The loop of `strconv.ParseUint` in base 10 (no underscores), without the overflow check. -/
def digitsVal : Bytes → Nat → Option Nat
  | [], acc => some acc
  | b :: bs, acc => if isDigit b then digitsVal bs (acc * 10 + (b.toNat - 48)) else none

/-- A non-empty string of digits (what the calls of `strconv` in decode.go:132, 168, 264, 313, 339 accept besides a sign). -/
def parseNat (s : Bytes) : Option Nat :=
  match s with
  | [] => none
  | _ => digitsVal s 0

/-- `strconv.ParseUint(s, 10, 64)`: no sign, value below 2^64. -/
def parseUint (s : Bytes) : Option Nat :=
  match parseNat s with
  | some n => if n < 18446744073709551616 then some n else none
  | none => none

/-- `strconv.ParseInt(s, 10, 64)` and `strconv.Atoi(s)` on a 64-bit platform: one optional `+` or `-`, then digits,
value in the range of int64. -/
def parseInt (s : Bytes) : Option Int :=
  match s with
  | 43 :: ds => -- '+'
    match parseNat ds with
    | some n => if n < 9223372036854775808 then some n else none
    | none => none
  | 45 :: ds => -- '-'
    match parseNat ds with
    | some n => if n ≤ 9223372036854775808 then some (-n) else none
    | none => none
  | ds =>
    match parseNat ds with
    | some n => if n < 9223372036854775808 then some n else none
    | none => none

/-- Decimal digits, most significant first, of a number below `10^fuel`. -/
def natDecAux : Nat → Nat → Bytes
  | 0, _ => []
  | f + 1, n => if n < 10 then [UInt8.ofNat (48 + n)] else natDecAux f (n / 10) ++ [UInt8.ofNat (48 + n % 10)]

/-- `strconv.FormatUint(n, 10)`. -/
def natDec (n : Nat) : Bytes := natDecAux (n + 1) n

/-- `strconv.FormatInt(i, 10)`, `strconv.Itoa(i)`. -/
def intDec : Int → Bytes
  | .ofNat n => natDec n
  | .negSucc n => 45 :: natDec (n + 1)

end Drip
