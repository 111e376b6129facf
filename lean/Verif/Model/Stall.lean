import Mathlib.Logic.Relation
import Verif.Model.Basic
/-
The locks of /repo/p2p, the operations at which its goroutines wait, when a write to a connection need not return, and the data that
they share. `Send` (/repo/p2p/peer.go:96-107) sets no deadline for writing, so it waits for as long as the remote side does not read.

A goroutine is the list of the operations of these kinds that it has still to do. Which of them it does depends on data that
are not represented; a function of the code is the set of the lists that it can do. Every list is finite: the loop of `serve`
handles any number of messages. Several accesses to the same variable in a row are one, which writes if one of them does. The calls
of the storage are taken to return (StorageConc.lean). The goroutine of `RequestPieces` is represented by `receiving`, that of
`DialPeers` and `Serve` by the goroutines that they start. The flags of a peer and the counters are atomic (peer.go:22-26, 31, 32,
server.go:37, 38) and not represented.
-/

namespace Drip.Stall

/-- A connection (peer.go:20). -/
abbrev Ref := Nat

/-- The data shared by the goroutines (server.go:40-48, peer.go:27, 34-37). -/
inductive Var where
  /-- `knownPeers` (server.go:41) -/
  | known
  /-- `knownAddrs` and the maps in it (server.go:42) -/
  | addrs
  /-- `knownIDIPs` (server.go:43) -/
  | idips
  /-- `blockedPeers` (server.go:44) -/
  | blocked
  /-- `activePeers` (server.go:45) -/
  | active
  /-- `indexToPeers` and the maps in it (server.go:46) -/
  | index
  /-- `queuedPeers` (server.go:47) -/
  | queued
  /-- `inflight` (server.go:48) -/
  | inflight
  /-- `inflightRequests` of a peer (peer.go:36) -/
  | requests (r : Ref)
  /-- `canceledRequests` of a peer (peer.go:37) -/
  | canceled (r : Ref)
  /-- `Bitfield` of a peer (peer.go:27) -/
  | bits (r : Ref)
  /-- `Bitfield` of the torrent (/repo/storage/torrent.go:15) -/
  | have
  deriving DecidableEq, Repr

/-- What a goroutine of peer.go and server.go waits for, releases or uses (the lines are with each kind). -/
inductive Op where
  /-- `p2p.mu.Lock()` -/
  | lock
  /-- `p2p.mu.Unlock()` -/
  | unlock
  /-- `p.mu.Lock()` (peer.go:97, 118, 123, 240, 261, 309, 317) -/
  | lockPeer (r : Ref)
  /-- `p.mu.Unlock()` -/
  | unlockPeer (r : Ref)
  /-- `p.Conn.Write` (peer.go:106) -/
  | write (r : Ref)
  /-- `p.Conn.Close` (peer.go:54) -/
  | close (r : Ref)
  /-- `p2p.downloadQueue <- peer` (server.go:411, 420, 453) -/
  | queue
  /-- Something outside: a message arrives or a deadline passes, a timer, a tracker, other goroutines of an `errgroup`. -/
  | pause
  /-- A variable is read. -/
  | rd (v : Var)
  /-- A variable is written. -/
  | wr (v : Var)
  deriving DecidableEq, Repr

open Op Var

/-! ### Sets of lists of operations -/

/-- A part of the code (a function of peer.go or server.go, for example peer.go:96-107): the lists of operations it can do. -/
abbrev Code := List Op → Prop

/-- One list: code without branches (for example server.go:326-333). -/
def just (l : List Op) : Code := fun x => x = l

/-- One after the other (for example peer.go:226-230). -/
def seq (A B : Code) : Code := fun x => ∃ a b, A a ∧ B b ∧ x = a ++ b

/-- One or the other: an `if` or a `switch` (for example peer.go:196-221). -/
def alt (A B : Code) : Code := fun x => A x ∨ B x

/-- Perhaps: an `if` without `else` (for example peer.go:138-140). -/
def opt (A : Code) : Code := alt (just []) A

/-- Any number of times: a loop (for example peer.go:177-192). -/
inductive many (A : Code) : Code
  | nil : many A []
  | cons {a b : List Op} : A a → many A b → many A (a ++ b)

infixr:65 " ;; " => seq
infixr:60 " <||> " => alt

/-! ### peer.go -/

/-- peer.go:96-107 `Send`; a REQUEST is not written if the remote side chokes. -/
def send (r : Ref) : Code := just [lockPeer r, write r, unlockPeer r] <||> just [lockPeer r, unlockPeer r]

/-- server.go:445-455 `queuePeer`. -/
def queuePeer : Code := just [] <||> just [rd queued] <||> just [wr queued, queue]

/-- server.go:243-247 `QueuePeer`. -/
def QueuePeer : Code := just [lock] ;; queuePeer ;; just [unlock]

/-- peer.go:225-233 `HandleHave`: `RecordIndex` (server.go:325-334), `QueuePeer`, `Interest`. -/
def handleHave (r : Ref) : Code := just [wr (bits r), lock, wr index, unlock, rd Var.have] ;; opt (QueuePeer ;; opt (send r))

/-- peer.go:195-223 `HandleMessage`: a flag; UNCHOKE; HAVE and BITFIELD; REQUEST (peer.go:235-258); CANCEL (peer.go:260-265);
PIECE (peer.go:267-277), which may complete a piece (/repo/storage/torrent.go:56). -/
def handleMessage (r : Ref) : Code :=
  just [] <||> QueuePeer <||> many (handleHave r) <||> (just [lockPeer r, wr (canceled r), unlockPeer r] ;; opt (send r)) <||>
  just [lockPeer r, wr (canceled r), unlockPeer r] <||> just [wr Var.have]

/-- peer.go:109-131 `Receive`. -/
def receive (r : Ref) : Code := just [pause] ;; opt (just [lockPeer r, wr (requests r), unlockPeer r])

/-- server.go:457-469 `disconnect`; peer.go:48-57 `Close`, which does nothing for the second time. -/
def disconnect (r : Ref) : Code := just [rd (bits r), wr index, wr idips, wr addrs, wr active] ;; opt (just [close r])

/-- server.go:308-313 `Disconnect`. -/
def Disconnect (r : Ref) : Code := just [lock] ;; disconnect r ;; just [unlock]

/-- server.go:282-305: `Connect` after the first check, until the handshake fails, or the connection is refused after it, or it is
registered and sent the BITFIELD. The handshake has a deadline (peer.go:61), so that it
returns. (The registration inserts into `knownAddrs`, `knownIDIPs` and `activePeers`.) -/
def connectRest (r : Ref) : Code :=
  just [pause] <||> just [pause, lock, rd active, unlock] <||>
  (just [pause, lock, rd active, wr addrs, wr idips] ;; (just [rd active, unlock] <||> (just [wr active, rd Var.have] ;; send r ;; just [unlock])))

/-- peer.go:165-193 `serve`: `Connect` and, if that succeeds, the loop and `Disconnect`. If `refused` is set, `Connect` may return from
server.go:273 or 277, without releasing the lock. -/
def serve (refused : Prop) (r : Ref) : Code :=
  (fun x => refused ∧ (x = [lock, rd active] ∨ x = [lock, rd active, rd idips, rd active])) <||>
  (just [lock, rd active, rd idips] ;; opt (just [rd active]) ;; just [unlock] ;; connectRest r ;; opt (many (receive r ;; handleMessage r) ;; opt (receive r) ;; Disconnect r))

/-- peer.go:304-330 `requestBlock`. -/
def requestBlock (r : Ref) : Code :=
  just [] <||> (just [lockPeer r, wr (requests r), unlockPeer r] ;; send r ;; opt (just [pause]) ;; just [lockPeer r, wr (requests r), unlockPeer r])

/-! ### server.go -/

/-- server.go:433-441: HAVE to any of the peers, one after the other. -/
def broadcast : Code := many fun x => ∃ r, send r x

/-- server.go:315-323 `Block`. -/
def block (r : Ref) : Code := just [lock, rd addrs, wr blocked] ;; disconnect r ;; just [unlock]

/-- server.go:401-412: `requestPiece` waits for the requests of the blocks and for the piece (peer.go:295-300), then tells the others (server.go:430-441)
or blocks the peer, puts the peer into the queue, and ends with the deferred `delete` (server.go:402). -/
def download (r : Ref) : Code := just [pause] ;; opt ((just [lock, rd active, unlock] ;; broadcast) <||> block r) ;; just [queue, wr inflight]

/-- server.go:376-424 `requestPieceFromPeer`. -/
def requestPieceFromPeer (r : Ref) : Code :=
  just [lock] ;; (just [wr queued] <||> (just [rd Var.have, rd (bits r)] ;;
    ((just [wr queued] ;; opt (send r)) <||> just [rd index, rd inflight] <||> just [rd index, wr inflight]))) ;; just [unlock]

/-- server.go:124-139 `Stop`: the tracker (a network call while the lock is held), then `disconnect` for each active peer. -/
def stop : Code := just [lock, unlock] <||> (just [lock, pause, rd active] ;; many (fun x => ∃ r, disconnect r x) ;; just [unlock])

/-- server.go:249-268 `AddPeer`. -/
def addPeer : Code :=
  just [lock, unlock] <||> just [lock, rd known, unlock] <||> just [lock, rd known, rd blocked, unlock] <||> just [lock, rd known, rd blocked, wr known, unlock]

/-- What a goroutine does (the `go` statements of server.go:99-106, 158, 181, 197, 216, 401, 415 and peer.go:288). -/
inductive Role where
  /-- server.go:158-166, 181-186: the goroutine of a connection -/
  | peer (r : Ref)
  /-- server.go:197-201 -/
  | select (r : Ref)
  /-- server.go:401-412 -/
  | download (r : Ref)
  /-- peer.go:288-292 -/
  | block (r : Ref)
  /-- server.go:216-222 -/
  | unchoke (r : Ref)
  /-- server.go:415-422 -/
  | timer
  /-- server.go:107-116, 228-241: announce and `AddPeer` -/
  | announce
  /-- server.go:206-210, 224: `UnchokePeers`, without the goroutines it starts -/
  | unchokeAll
  /-- server.go:99-102, or a call by the user -/
  | stop
  deriving DecidableEq, Repr

/-- The operations of each kind of goroutine. That of a connection that is dialled begins with `dialPeer` (server.go:355-374). -/
def code (refused : Prop) : Role → Code
  | .peer r => opt (just [lock, rd blocked, unlock, pause]) ;; (just [] <||> serve refused r)
  | .select r => requestPieceFromPeer r
  | .download r => Stall.download r
  | .block r => requestBlock r
  | .unchoke r => opt (send r)
  | .timer => just [pause] ;; opt (just [queue])
  | .announce => just [pause] ;; many addPeer
  | .unchokeAll => just [lock, rd active, unlock, pause]
  | .stop => Stall.stop

/-! ### Steps -/

/-- A goroutine (server.go:99-106, 158, 181, 197, 216, 401, 415 and peer.go:288): what it is for, and what it has still to do. -/
structure Th where
  role : Role
  prog : List Op
  deriving DecidableEq, Repr

/-- The goroutines, who holds `p2p.mu` (server.go:40) and each `p.mu` (peer.go:34), which connections are not read by the remote side and
which are closed, and whether `RequestPieces` (server.go:191-204) has not yet returned. -/
structure St where
  ths : List Th := []
  mu : Option Nat := none
  pm : Ref → Option Nat := fun _ => none
  stalled : Ref → Bool := fun _ => false
  closed : Ref → Bool := fun _ => false
  receiving : Bool := true

/-- `f` with a new value at `r`: assignment to a field of one `*Peer` (peer.go:20-38). -/
def upd {α : Type} (f : Ref → α) (r : Ref) (a : α) : Ref → α := fun x => if x = r then a else f x

/-- The effect of an operation of goroutine `k` (the lines are in `Op`; for example peer.go:97, server.go:271), when it does not wait. -/
inductive Exec (k : Nat) : Op → St → St → Prop
  | lock {s : St} : s.mu = none → Exec k .lock s { s with mu := some k }
  | unlock {s : St} : s.mu = some k → Exec k .unlock s { s with mu := none }
  | lockPeer {s : St} {r : Ref} : s.pm r = none → Exec k (.lockPeer r) s { s with pm := upd s.pm r (some k) }
  | unlockPeer {s : St} {r : Ref} : s.pm r = some k → Exec k (.unlockPeer r) s { s with pm := upd s.pm r none }
  /-- A write to a closed connection returns with an error. -/
  | write {s : St} {r : Ref} : s.stalled r = false ∨ s.closed r = true → Exec k (.write r) s s
  | close {s : St} {r : Ref} : Exec k (.close r) s { s with closed := upd s.closed r true }
  /-- The channel has no buffer: somebody must receive. -/
  | queue {s : St} : s.receiving = true → Exec k .queue s s
  | pause {s : St} : Exec k .pause s s
  | rd {s : St} {v : Var} : Exec k (.rd v) s s
  | wr {s : St} {v : Var} : Exec k (.wr v) s s

/-- A goroutine does its next operation (see `code`, server.go:99-106, 158-166, 181-186). -/
inductive Run : St → St → Prop
  | mk {s s' : St} {k : Nat} {ro : Role} {op : Op} {rest : List Op} : s.ths[k]? = some ⟨ro, op :: rest⟩ → Exec k op s s' →
      Run s { s' with ths := s.ths.set k ⟨ro, rest⟩ }

/-- What can happen: a goroutine is started, a goroutine does something, a remote side stops reading or reads again, `RequestPieces` returns (server.go:194-195). -/
inductive Step (refused : Prop) : St → St → Prop
  | start {s : St} {ro : Role} {p : List Op} : code refused ro p → Step refused s { s with ths := s.ths ++ [⟨ro, p⟩] }
  | run {s s' : St} : Run s s' → Step refused s s'
  | stall {s : St} (r : Ref) (b : Bool) : Step refused s { s with stalled := upd s.stalled r b }
  | quit {s : St} : Step refused s { s with receiving := false }

/-- The states that can be reached from `New` (server.go:61-83). -/
def Reach (refused : Prop) : St → Prop := Relation.ReflTransGen (Step refused) {}

end Drip.Stall
