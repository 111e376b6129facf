import Verif.Model.Bencode.Num
/-
The parts of Go's `net` and `net/netip` used for the textual form of addresses. They are not part of /repo; the
callers are /repo/api/tracker/tracker.go:136-152, 172-187 and the pex package.
-/

namespace Drip.Net

/-- The fields of an IPv4 address: `netip.parseIPv4Fields` (used by /repo/api/tracker/tracker.go:140). `val` and `digits` are
the current field and its number of digits, `pos` the number of fields before it. -/
def parseFields : Bytes → (val digits pos : Nat) → (acc : Bytes) → Option Bytes
  | [], val, digits, pos, acc => if pos < 3 ∨ digits = 0 then none else some (acc ++ [UInt8.ofNat val])
  | c :: cs, val, digits, pos, acc =>
    if isDigit c then
      if digits = 1 ∧ val = 0 then none -- leading zero
      else
        let val' := val * 10 + (c.toNat - 48)
        if val' > 255 then none else parseFields cs val' (digits + 1) pos acc
    else if c = 46 then
      if digits = 0 ∨ pos = 3 then none else parseFields cs 0 0 (pos + 1) (acc ++ [UInt8.ofNat val])
    else none

/-- `netip.parseIPv4` (used by /repo/api/tracker/tracker.go:140): the four bytes. Go rejects an empty last field at the dot
before it, the model at the end of the text. -/
def parseIPv4 (s : Bytes) : Option Bytes := parseFields s 0 0 0 []

/-- `IP.String()` of an IPv4 address (used by /repo/api/tracker/tracker.go:181). -/
def ipv4String (a b c d : UInt8) : Bytes :=
  natDec a.toNat ++ 46 :: natDec b.toNat ++ 46 :: natDec c.toNat ++ 46 :: natDec d.toNat

/-- Which of `.`, `:` and `%` comes first (`netip.ParseAddr`, used by /repo/api/tracker/tracker.go:140). -/
def firstSep : Bytes → Option UInt8
  | [] => none
  | c :: cs => if c = 46 ∨ c = 58 ∨ c = 37 then some c else firstSep cs

/-- The value of a hexadecimal digit (`netip.parseIPv6`, used by /repo/api/tracker/tracker.go:140). -/
def hexVal (c : UInt8) : Option Nat :=
  if 48 ≤ c && c ≤ 57 then some (c.toNat - 48)
  else if 97 ≤ c && c ≤ 102 then some (c.toNat - 87)
  else if 65 ≤ c && c ≤ 70 then some (c.toNat - 55)
  else none

/-- A group of hexadecimal digits (the inner loop of `netip.parseIPv6`, used by /repo/api/tracker/tracker.go:140): the value,
the number of digits and the rest, or `none` if there are more than four digits. -/
def hexGroup : Bytes → (acc off : Nat) → Option (Nat × Nat × Bytes)
  | [], acc, off => some (acc, off, [])
  | c :: cs, acc, off =>
    match hexVal c with
    | some d => if off > 3 then none else hexGroup cs (acc * 16 + d) (off + 1)
    | none => some (acc, off, c :: cs)

/-- The loop of `netip.parseIPv6` (used by /repo/api/tracker/tracker.go:140). `ip` are the bytes so far, `ell` the position of
the `::`; the result is the final `ip`, `ell` and the unused text. The first argument is the number of groups that still
fit. -/
def parse6Loop : Nat → Bytes → (ip : Bytes) → (ell : Option Nat) → Option (Bytes × Option Nat × Bytes)
  | 0, s, ip, ell => some (ip, ell, s)
  | n + 1, s, ip, ell =>
    match hexGroup s 0 0 with
    | none => none
    | some (acc, off, rest) =>
      if off = 0 then none
      else match rest with
      | [] => some (ip ++ [UInt8.ofNat (acc / 256), UInt8.ofNat (acc % 256)], ell, [])
      | c :: rest' =>
        if c = 46 then
          if ell.isNone ∧ ip.length ≠ 12 then none
          else if ip.length + 4 > 16 then none
          else match parseIPv4 s with
            | none => none
            | some v4 => some (ip ++ v4, ell, [])
        else if c ≠ 58 then none
        else
          let ip := ip ++ [UInt8.ofNat (acc / 256), UInt8.ofNat (acc % 256)]
          match rest' with
          | [] => none
          | c' :: rest'' =>
            if c' = 58 then
              if ell.isSome then none
              else if rest'' = [] then some (ip, some ip.length, [])
              else parse6Loop n rest'' ip (some ip.length)
            else parse6Loop n rest' ip ell

/-- The end of `netip.parseIPv6` (used by /repo/api/tracker/tracker.go:140): the zeros for the `::`. -/
def expand : Bytes × Option Nat × Bytes → Option Bytes
  | (ip, ell, rest) =>
    if rest ≠ [] then none
    else if ip.length < 16 then
      match ell with
      | none => none
      | some e => some (ip.take e ++ List.replicate (16 - ip.length) 0 ++ ip.drop e)
    else if ell.isSome then none else some ip

/-- `netip.parseIPv6` (used by /repo/api/tracker/tracker.go:140). `net.ParseIP` refuses addresses with a zone. -/
def parseIPv6 (s : Bytes) : Option Bytes :=
  if 37 ∈ s then none
  else match s with
    | 58 :: 58 :: rest => if rest = [] then some (List.replicate 16 0) else (parse6Loop 8 rest [] (some 0)).bind expand
    | _ => (parse6Loop 8 s [] none).bind expand

/-- `net.ParseIP` (used by /repo/api/tracker/tracker.go:140, /repo/pex/http.go:100, /repo/p2p/server.go:500): 16 bytes; IPv4
addresses are mapped. -/
def parseIP (s : Bytes) : Option Bytes :=
  match firstSep s with
  | some c => if c = 46 then (parseIPv4 s).map ([0, 0, 0, 0, 0, 0, 0, 0, 0, 0, 255, 255] ++ ·) else if c = 58 then parseIPv6 s else none
  | none => none

/-- `IP.To4` of 16 bytes (used by /repo/api/tracker/tracker.go:140). -/
def to4 (ip : Bytes) : Option Bytes :=
  if ip.take 12 = [0, 0, 0, 0, 0, 0, 0, 0, 0, 0, 255, 255] then some (ip.drop 12) else none

/-- `net.ParseIP(s).To4()` (used by /repo/api/tracker/tracker.go:140). -/
def parseTo4 (s : Bytes) : Option Bytes := (parseIP s).bind to4

/-- A hexadecimal digit, lower case (`netip.appendHex`, used by /repo/pex/http.go:109). -/
def hexChar (n : Nat) : UInt8 := if n < 10 then UInt8.ofNat (48 + n) else UInt8.ofNat (87 + n)

/-- `netip.appendHex` (used by /repo/pex/http.go:109): no leading zeros. -/
def hexText (x : Nat) : Bytes :=
  (if x ≥ 4096 then [hexChar (x / 4096)] else []) ++ (if x ≥ 256 then [hexChar (x / 256 % 16)] else []) ++
    (if x ≥ 16 then [hexChar (x / 16 % 16)] else []) ++ [hexChar (x % 16)]

/-- The 16-bit groups of an address (`Addr.v6u16`, used by /repo/pex/http.go:109). -/
def groups : Bytes → List Nat
  | a :: b :: rest => (a.toNat * 256 + b.toNat) :: groups rest
  | _ => []

/-- How many zeros a list begins with (`Addr.appendTo6`, used by /repo/pex/http.go:109). -/
def zeroRun : List Nat → Nat
  | 0 :: gs => zeroRun gs + 1
  | _ => 0

/-- The first longest run of at least two zero groups: start and length, or `(255, 0)` (`Addr.appendTo6`, used by
/repo/pex/http.go:109). -/
def longestRun : List Nat → (i : Nat) → Nat × Nat → Nat × Nat
  | [], _, best => best
  | g :: gs, i, best =>
    let l := zeroRun (g :: gs)
    longestRun gs (i + 1) (if l ≥ 2 ∧ l > best.2 then (i, l) else best)

/-- Groups joined by colons (`Addr.appendTo6`, used by /repo/pex/http.go:109). -/
def joinHex : List Nat → Bytes
  | [] => []
  | [g] => hexText g
  | g :: gs => hexText g ++ 58 :: joinHex gs

/-- `Addr.appendTo6` (used by /repo/pex/http.go:109): RFC 5952. -/
def ipv6String (ip : Bytes) : Bytes :=
  let gs := groups ip
  let (i, l) := longestRun gs 0 (255, 0)
  if l = 0 then joinHex gs
  else joinHex (gs.take i) ++ 58 :: 58 :: joinHex (gs.drop (i + l))

/-- `IP.String()` of 16 bytes (used by /repo/pex/http.go:109, /repo/p2p/server.go:504). -/
def ipString (ip : Bytes) : Bytes :=
  match to4 ip with
  | some [a, b, c, d] => ipv4String a b c d
  | _ => ipv6String ip

/-- `net.ParseIP(s)` and `String()` (/repo/pex/http.go:100-109, /repo/p2p/server.go:499-505). -/
def canonText (s : Bytes) : Option Bytes := (parseIP s).map ipString

end Drip.Net
