import Verif.Model.Basic
/-
Model of the `io.Reader` side of api/peer/peer.go: a byte stream that arrives in arbitrary pieces.
-/

namespace Drip

/-- A network stream as seen through the `io.Reader` of /repo/api/peer/peer.go:22-36: the chunks that successive `Read` calls would return (a chunk longer
than the caller's buffer is returned in parts) and the error returned after the last of them (`eof` for an orderly
close, `conn` for a broken connection). -/
structure Rd where
  chunks : List Bytes
  final : Err := .eof
  deriving DecidableEq, Repr

namespace Rd

/-- All bytes still to come (from the reader of /repo/api/peer/peer.go:68, 347). -/
def flat (r : Rd) : Bytes := r.chunks.flatten

/-- One `Read` into a buffer of `k > 0` bytes (/repo/api/peer/peer.go:70). `(0, nil)` is possible only for an empty chunk. -/
def read (k : Nat) (r : Rd) : Res (Bytes × Rd) :=
  match r.chunks with
  | [] => .err r.final
  | c :: cs => if c.length ≤ k then .ok (c, { r with chunks := cs })
               else .ok (c.take k, { r with chunks := c.drop k :: cs })

/-- The loop of `io.ReadAtLeast` as called by `io.ReadFull` (/repo/api/peer/peer.go:77, 349, 358) on a buffer of `k` bytes: the bytes read, and the chunks
left. It stops when `k` bytes have been read or the chunks are used up. -/
def fill (k : Nat) : List Bytes → Bytes × List Bytes
  | [] => ([], [])
  | c :: cs =>
    if k = 0 then ([], c :: cs)
    else if c.length ≤ k then
      let (bs, cs') := fill (k - c.length) cs
      (c ++ bs, cs')
    else (c.take k, c.drop k :: cs)

/-- `io.ReadFull(r, buf)` with `len(buf) = k` (/repo/api/peer/peer.go:77, 349, 358): the error is the reader's own if nothing was read, and
`io.ErrUnexpectedEOF` instead of `io.EOF` if something was. -/
def readFull (k : Nat) (r : Rd) : Res (Bytes × Rd) :=
  let (bs, cs) := fill k r.chunks
  if bs.length = k then .ok (bs, { r with chunks := cs })
  else if bs.length > 0 && r.final == .eof then .err .unexpectedEof
  else .err r.final

end Rd

/-- `binary.BigEndian.Uint32` on the first four bytes (callers guarantee four). -/
def be32 : Bytes → Nat
  | a :: b :: c :: d :: _ => ((a.toNat * 256 + b.toNat) * 256 + c.toNat) * 256 + d.toNat
  | _ => 0

/-- `binary.BigEndian.PutUint32(_, uint32(n))`: the conversion keeps the low 32 bits. -/
def put32 (n : Int) : Bytes :=
  let m := (n % 4294967296).toNat
  [UInt8.ofNat (m / 16777216), UInt8.ofNat (m / 65536), UInt8.ofNat (m / 256), UInt8.ofNat m]

end Drip
