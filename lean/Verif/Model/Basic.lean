/-
Common vocabulary of the model: bytes, Go call outcomes, error kinds.
Nothing here models a file of /repo by itself; it fixes how Go's `error`, `panic` and `[]byte` are represented.
-/

namespace Drip

/-- A Go `[]byte` or `string` (for example the data of /repo/storage/storage.go:112), as a list of bytes. Aliasing between slices is not represented. -/
abbrev Bytes := List UInt8

open Lean in
/-- `b!"abc"` is the list of the (UTF-8) bytes of a string literal. -/
macro:max "b!" s:str : term => do
  let l := s.getString.toUTF8.toList.map fun b => Lean.Syntax.mkNumLit (toString b.toNat)
  `(([$(l.toArray),*] : List UInt8))

/-- Kinds of Go `error` values the model distinguishes; each is made at the place it names (for example /repo/storage/storage.go:26-30, /repo/p2p/server.go:56-59, /repo/p2p/peer.go:46). Error texts are not modelled. -/
inductive Err where
  | eof                -- io.EOF
  | unexpectedEof      -- io.ErrUnexpectedEOF (from io.ReadFull)
  | syntax             -- Decoder.newSyntaxError
  | unsorted           -- "dictionary keys not sorted"
  | unsupportedType    -- *UnsupportedTypeError
  | depth              -- "maximum pointer depth exceeded"
  | notPointer         -- "must decode into non-nil pointer"
  | badProtocol        -- "unsupported handshake protocol"
  | badPieces          -- "cannot unmarshal pieces string"
  | badPeers           -- "unknown peers format" / "not multiple of 6"
  | notIPv4            -- `peer "ip" is not an ipv4`
  | badQuery           -- url.ParseQuery / strconv failure
  | misaligned         -- storage: misaligned block
  | blockLength        -- storage: unexpected block length
  | blockExists        -- storage.ErrBlockExists
  | incompletePiece    -- storage.ErrIncompletePiece
  | incompleteRead     -- storage: incomplete read
  | checksum           -- *storage.ChecksumError
  | pieceReset         -- "storage: piece reset"
  | fs                 -- any error returned by the os package
  | choked             -- p2p.ErrChoked
  | tooManyConnections -- p2p.ErrTooManyConnections
  | alreadyConnected   -- p2p.ErrAlreadyConnected
  | handshake          -- p2p: Handshake: ... do not match
  | badIP              -- p2p: bad ip
  | conn               -- error of the network connection
  | canceled           -- context error
  | tracker            -- tracker request failed
  | fuel               -- not a Go error: the model's recursion bound was reached (proved unreachable, see C22)
  deriving DecidableEq, Repr

/-- Outcome of a Go call: a normal return, an `error` return, or a run-time panic (for example /repo/bencode/decode.go:13-17, /repo/api/peer/peer.go:211-218). -/
inductive Res (α : Type) where
  | ok (a : α)
  | err (e : Err)
  | panic
  deriving DecidableEq, Repr

namespace Res

/-- Sequencing, as in `if err != nil { return err }` (for example /repo/api/peer/peer.go:77-79): errors and panics propagate. -/
@[inline] def bind {α β : Type} : Res α → (α → Res β) → Res β
  | ok a, f => f a
  | err e, _ => err e
  | panic, _ => panic

/-- Apply a function to the result, as in the last line of a function that has checked for errors (for example /repo/api/tracker/tracker.go:127-131). -/
def map {α β : Type} (f : α → β) : Res α → Res β
  | ok a => ok (f a)
  | err e => err e
  | panic => panic

/-- Statements one after the other, each of which may return from the function (for example /repo/api/peer/peer.go:347-379). -/
instance : Monad Res where
  pure := ok
  bind := bind

@[simp] theorem bind_ok {α β : Type} (a : α) (f : α → Res β) : (Res.ok a >>= f) = f a := rfl
@[simp] theorem bind_err {α β : Type} (e : Err) (f : α → Res β) : (Res.err e >>= f) = Res.err e := rfl
@[simp] theorem bind_panic {α β : Type} (f : α → Res β) : ((Res.panic : Res α) >>= f) = Res.panic := rfl
@[simp] theorem pure_eq {α : Type} (a : α) : (pure a : Res α) = Res.ok a := rfl
@[simp] theorem map_ok {α β : Type} (f : α → β) (a : α) : Res.map f (.ok a) = .ok (f a) := rfl
@[simp] theorem map_err {α β : Type} (f : α → β) (e : Err) : Res.map f (.err e) = .err e := rfl
@[simp] theorem map_panic {α β : Type} (f : α → β) : Res.map f (.panic) = .panic := rfl

theorem bind_eq_ok {α β : Type} {r : Res α} {f : α → Res β} {b : β} :
    (r >>= f) = Res.ok b ↔ ∃ a, r = Res.ok a ∧ f a = Res.ok b := by
  cases r <;> simp

end Res

end Drip
