import Verif.Model.Basic
import Verif.Model.Bencode.Fields
/-
The parts of Go's `net/url` (version 1.22) that the tracker and magnet packages use. They are not part of /repo; the
callers are /repo/api/tracker/tracker.go:34-105 and /repo/api/magnet/magnet.go:17-37.
-/

namespace Drip.Url

/-- `shouldEscape(c, encodeQueryComponent)` is false for these (used by /repo/api/tracker/tracker.go:58). -/
def unreserved (b : UInt8) : Bool :=
  (97 ≤ b && b ≤ 122) || (65 ≤ b && b ≤ 90) || (48 ≤ b && b ≤ 57) || b = 45 || b = 95 || b = 46 || b = 126

/-- The digit of `"0123456789ABCDEF"` (used by /repo/api/tracker/tracker.go:58). -/
def hexUpper (n : Nat) : UInt8 := if n < 10 then UInt8.ofNat (48 + n) else UInt8.ofNat (55 + n)

/-- `url.QueryEscape` (used by /repo/api/tracker/tracker.go:58). -/
def queryEscape : Bytes → Bytes
  | [] => []
  | b :: bs =>
    if unreserved b then b :: queryEscape bs
    else if b = 32 then 43 :: queryEscape bs
    else 37 :: hexUpper (b.toNat / 16) :: hexUpper (b.toNat % 16) :: queryEscape bs

/-- `unhex`, `ishex` (used by /repo/api/tracker/tracker.go:62). -/
def unhex (b : UInt8) : Option Nat :=
  if 48 ≤ b && b ≤ 57 then some (b.toNat - 48)
  else if 97 ≤ b && b ≤ 102 then some (b.toNat - 87)
  else if 65 ≤ b && b ≤ 70 then some (b.toNat - 55)
  else none

/-- `url.QueryUnescape` (used by /repo/api/tracker/tracker.go:62): `none` is an `EscapeError`. -/
def queryUnescape : Bytes → Option Bytes
  | [] => some []
  | c :: bs =>
    if c = 37 then
      match bs with
      | a :: b :: rest =>
        match unhex a, unhex b with
        | some x, some y => (queryUnescape rest).map (UInt8.ofNat (x * 16 + y) :: ·)
        | _, _ => none
      | _ => none
    else if c = 43 then (queryUnescape bs).map (32 :: ·)
    else (queryUnescape bs).map (c :: ·)

/-- `strings.Cut(s, sep)` for one byte, without the flag (used by /repo/api/tracker/tracker.go:62). -/
def cut (sep : UInt8) : Bytes → Bytes × Bytes
  | [] => ([], [])
  | c :: cs => if c = sep then ([], cs) else (c :: (cut sep cs).1, (cut sep cs).2)

/-- `url.ParseQuery` (used by /repo/api/tracker/tracker.go:62): the accepted pairs in order, and whether there was an
error. The first argument bounds the number of pairs. -/
def parsePairs : Nat → Bytes → List (Bytes × Bytes) × Bool
  | 0, _ => ([], false)
  | _ + 1, [] => ([], false)
  | n + 1, q =>
    let (kv, rest) := cut 38 q
    let (ps, bad) := parsePairs n rest
    if 59 ∈ kv then (ps, true)
    else if kv = [] then (ps, bad)
    else
      let (k, v) := cut 61 kv
      match queryUnescape k, queryUnescape v with
      | some k, some v => ((k, v) :: ps, bad)
      | _, _ => (ps, true)

/-- `url.ParseQuery` (used by /repo/api/tracker/tracker.go:62). -/
def parseQuery (q : Bytes) : List (Bytes × Bytes) × Bool := parsePairs q.length q

/-- `Values.Get` (used by /repo/api/tracker/tracker.go:80): the first value, or the empty string. -/
def get (ps : List (Bytes × Bytes)) (k : Bytes) : Bytes :=
  match ps with
  | [] => []
  | (k', v) :: ps => if k' = k then v else get ps k

/-- `Values[key]` (used by /repo/api/magnet/magnet.go:26-28): all values in order. -/
def getAll (ps : List (Bytes × Bytes)) (k : Bytes) : List Bytes :=
  match ps with
  | [] => []
  | (k', v) :: ps => if k' = k then v :: getAll ps k else getAll ps k

/-- `Values.Encode` (used by /repo/api/tracker/tracker.go:58) without the sorting. -/
def encodePairs : List (Bytes × Bytes) → Bytes
  | [] => []
  | [(k, v)] => queryEscape k ++ 61 :: queryEscape v
  | (k, v) :: ps => queryEscape k ++ 61 :: queryEscape v ++ 38 :: encodePairs ps

/-- `Values.Encode` (used by /repo/api/tracker/tracker.go:58), for a map with one value per key: sorted by key. -/
def encode (ps : List (Bytes × Bytes)) : Bytes := encodePairs (Bencode.sortByKey (·.1) ps)

end Drip.Url
