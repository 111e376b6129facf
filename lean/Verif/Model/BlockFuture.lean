import Verif.Model.Conc
import Verif.Model.Assoc
/-
The requests for blocks of one peer with any number of goroutines: `requestBlock`, `completeRequest` and the part of `Receive`
that uses them (/repo/p2p/peer.go:109-131, 304-338). The sections between `mu.Lock` and `mu.Unlock` are atomic. `Deliver` is called inside them,
so it is one step (the two steps of `Deliver` are in Verif.Model.Future); calling it twice on one future panics, which is the end of the process.
The flag `RemoteChoked` is changed by other goroutines: reading it (peer.go:100, 305) may give either value.
-/

namespace Drip.BlockFuture

/-- peer.go:42-46 `blockRequest`. -/
structure Block where
  index : Int
  begin_ : Int
  length : Int
deriving DecidableEq

/-- What `requestBlock` returns (peer.go:304): no error, `ErrChoked`, the error of the context, or the error of a write. -/
inductive Result where
  | nil
  | choked
  | ctx
  | write
deriving DecidableEq

/-- A message that is read by `Receive` (peer.go:116-129): a PIECE, with the length of its data, a CHOKE, or another one. -/
inductive Msg where
  | piece (b : Block)
  | choke
  | other
deriving DecidableEq

/-- History: what happened, in order (peer.go:309-315, 105, 116-129). -/
inductive Ev where
  /-- A call passed peer.go:309-315. -/
  | asked (b : Block)
  /-- A REQUEST was written (peer.go:106). -/
  | sent (b : Block)
  /-- `Receive` handled a message. -/
  | got (m : Msg)
deriving DecidableEq

/-- peer.go:36 `inflightRequests`, the futures (`none`: not delivered), whether the process has died, and the history. -/
structure Shared where
  inflight : List (Block × Nat) := []
  futs : List (Option Result) := []
  dead : Bool := false
  log : List Ev := []

/-- A goroutine: one that calls `requestBlock` (peer.go:288-292, 304-330) or the one that receives (peer.go:109-131). `since` is history: the position in the log at which the call was registered. -/
inductive Th where
  /-- Is about to call `requestBlock` (peer.go:304). -/
  | call (b : Block)
  /-- Is between peer.go:307 and 309. -/
  | checked (b : Block)
  /-- Is between peer.go:315 and 321. -/
  | entered (b : Block) (f : Nat) (since : Nat)
  /-- Is waiting in the `select` (peer.go:324). -/
  | waiting (b : Block) (f : Nat) (since : Nat)
  /-- Is about to run the deferred function (peer.go:316-320). -/
  | leaving (b : Block) (r : Result) (since : Nat)
  /-- `requestBlock` has returned. -/
  | returned (b : Block) (r : Result) (since : Nat)
  /-- `requestBlock` has returned `ErrChoked` at once (peer.go:306). -/
  | refused (b : Block)
  /-- The goroutine of the peer (peer.go:165-191), with the messages that will arrive. -/
  | receiver (ms : List Msg)

/-- peer.go:332-338 `completeRequest` (without the log). `Deliver` on a future that is already delivered panics (future.go:14). -/
def complete (r : Result) (s : Shared) (b : Block) : Shared :=
  match mget s.inflight b with
  | some f =>
    match s.futs[f]? with
    | some none => { s with futs := s.futs.set f (some r), inflight := mdel s.inflight b }
    | _ => { s with dead := true }
  | none => s

/-- The steps (peer.go:109-131, 304-330). Nothing happens after the death of the process. -/
inductive Act : Shared → Th → Shared → Th → Prop
  /-- peer.go:305: not choked -/
  | check {s b} : s.dead = false → Act s (.call b) s (.checked b)
  /-- peer.go:306 -/
  | refuse {s b} : s.dead = false → Act s (.call b) s (.refused b)
  /-- peer.go:310: there is an entry -/
  | share {s b f} : s.dead = false → mget s.inflight b = some f → Act s (.checked b) { s with log := s.log ++ [.asked b] } (.entered b f s.log.length)
  /-- peer.go:311-314 -/
  | create {s b} : s.dead = false → mget s.inflight b = none →
      Act s (.checked b) { s with inflight := mput s.inflight b s.futs.length, futs := s.futs ++ [none], log := s.log ++ [.asked b] } (.entered b s.futs.length s.log.length)
  /-- peer.go:321, with 106: the REQUEST is written. -/
  | send {s b f t} : s.dead = false → Act s (.entered b f t) { s with log := s.log ++ [.sent b] } (.waiting b f t)
  /-- peer.go:322, with 101: choked -/
  | sendChoked {s b f t} : s.dead = false → Act s (.entered b f t) s (.leaving b .choked t)
  /-- peer.go:322, with 106: the write failed. -/
  | sendErr {s b f t} : s.dead = false → Act s (.entered b f t) s (.leaving b .write t)
  /-- peer.go:326: the time is up, or another block has failed. -/
  | timeout {s b f t} : s.dead = false → Act s (.waiting b f t) s (.leaving b .ctx t)
  /-- peer.go:328 -/
  | woken {s b f t r} : s.dead = false → s.futs[f]? = some (some r) → Act s (.waiting b f t) s (.leaving b r t)
  /-- peer.go:316-320 -/
  | leave {s b r t} : s.dead = false → Act s (.leaving b r t) { s with inflight := mdel s.inflight b } (.returned b r t)
  /-- peer.go:117-121 -/
  | piece {s b ms} : s.dead = false → Act s (.receiver (.piece b :: ms)) { complete .nil s b with log := s.log ++ [.got (.piece b)] } (.receiver ms)
  /-- peer.go:122-127: the map is visited in any order; the current entry is deleted on the way. -/
  | choke {s : Shared} {ms : List Msg} {bs : List Block} : s.dead = false → bs.Perm (s.inflight.map (·.1)) →
      Act s (.receiver (.choke :: ms)) { bs.foldl (complete .choked) s with log := s.log ++ [.got .choke] } (.receiver ms)
  /-- peer.go:128 -/
  | other {s ms} : s.dead = false → Act s (.receiver (.other :: ms)) { s with log := s.log ++ [.got .other] } (.receiver ms)

end Drip.BlockFuture
