import Verif.Model.Basic
/-
Model of /repo/bitfield/bitfield.go.
-/

namespace Drip.Bitfield

/-- bitfield/bitfield.go:5-11 `New`: ⌈n/8⌉ zero bytes. (`make` with a negative size panics; `n` is a length in the
callers storage/torrent.go:27 and p2p/server.go:473, so it is a `Nat` here.) -/
def new (n : Nat) : Bytes :=
  let size := n / 8
  let size := if n % 8 ≠ 0 then size + 1 else size
  List.replicate size 0

/-- The byte mask `1 << bj` of bitfield.go:16,22,30: the untyped constant 1 takes the type `byte`, so shifts by 8 or
more give 0. -/
def mask (bj : Nat) : UInt8 := if bj < 8 then 1 <<< (UInt8.ofNat bj) else 0

/-- The byte index and the shift count of bitfield.go:14-15 and 20-21. `Int.tdiv`/`Int.tmod` are Go's `/` and `%`.
The shift count `7 - i%8` is never negative since Go's `%` lies in -7..7. -/
def pos (i : Int) : Int × Nat := (i.tdiv 8, (7 - i.tmod 8).toNat)

/-- bitfield.go:13-17 `Has`. Indexing out of range panics. -/
def has (b : Bytes) (i : Int) : Res Bool :=
  let (bi, bj) := pos i
  if bi < 0 then .panic
  else match b[bi.toNat]? with
    | none => .panic
    | some x => .ok (x &&& mask bj != 0)

/-- bitfield.go:19-23 `Add`. The receiver is a slice, mutated in place: the model returns the new contents. -/
def add (b : Bytes) (i : Int) : Res Bytes :=
  let (bi, bj) := pos i
  if bi < 0 then .panic
  else match b[bi.toNat]? with
    | none => .panic
    | some x => .ok (b.set bi.toNat (x ||| mask bj))

/-- bitfield.go:27-33, the inner loop of `Items` for one byte at index `bi`. -/
def itemsByte (bi : Nat) (m : UInt8) : List Nat :=
  (List.range 8).filterMap fun j => if m &&& mask (7 - j) != 0 then some (bi * 8 + j) else none

/-- bitfield.go:25-36 `Items`, `bi` is the index of the first byte of `b`. -/
def itemsFrom (bi : Nat) : Bytes → List Nat
  | [] => []
  | m :: rest => itemsByte bi m ++ itemsFrom (bi + 1) rest

/-- bitfield.go:25-36 `Items`. -/
def items (b : Bytes) : List Nat := itemsFrom 0 b

/-- bitfield.go:38-47 `Difference`: bytewise `b[i] - (b[i] & a[i])` (byte subtraction), `b[i]` where `a` is shorter. -/
def difference : Bytes → Bytes → Bytes
  | [], _ => []
  | x :: b, [] => x :: difference b []
  | x :: b, y :: a => (x - (x &&& y)) :: difference b a

/-- A sequence of calls of `Add` (bitfield.go:19-23). -/
def addAll (b : Bytes) : List Int → Res Bytes
  | [] => .ok b
  | i :: is => add b i >>= fun b' => addAll b' is

end Drip.Bitfield
