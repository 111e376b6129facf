import Verif.Model.Multitracker
/-
The life of a client: `Start`, `Stop`, and the goroutines that `Start` makes (/repo/p2p/server.go:85-246, 484-497, /repo/p2p/multitracker.go:44-58).
What the goroutines do with peers is in P2P.lean; here they matter only because they return, because they announce, and because they use `mu`. The connections
(which also use `mu`) are represented by an owner `other` of the mutex. The answers of trackers are arbitrary; how an answer comes about is in
Multitracker.lean.

The writes of UNCHOKE for which `UnchokePeers` waits (server.go:210-224) are taken to end. `p2p.cancel` and `p2p.tcp` are written without `mu` (server.go:90, 96); the accesses are taken to be
sequentially consistent.

`errgroup.WithContext` gives a context that is cancelled when its parent is (by `p2p.cancel`), and as soon as one of the functions returns an error. All of them only
ever return errors. A `select` with several ready cases chooses any of them.
-/

namespace Drip.Lifecycle
open Tracker

/-- multitracker.go:83 `STARTED`. -/
def STARTED : Bytes := b!"started"
/-- multitracker.go:84 `COMPLETED`. -/
def COMPLETED : Bytes := b!"completed"
/-- multitracker.go:85 `STOPPED`. -/
def STOPPED : Bytes := b!"stopped"
/-- multitracker.go:86 `ANNOUNCE`. -/
def ANNOUNCE : Bytes := b!""

/-- What `Multitracker.get` (multitracker.go:60-73) returns; see `Multi.get`. -/
abbrev Answer := Res (Option Response)

/-- How far the goroutine that called `Start` is (server.go:85-122). -/
inductive Main where
  /-- before server.go:86 -/
  | idle
  /-- before server.go:90 -/
  | loaded
  /-- between server.go:96 and 99 -/
  | listening
  /-- in server.go:107 -/
  | asking
  /-- in the loop of server.go:111-116; `interval` is `res.Interval` -/
  | adding (peers : List Peer) (interval : Int)
  /-- before server.go:118 -/
  | unchoking
  /-- in server.go:121 -/
  | waiting
  | returned
  deriving DecidableEq, Repr

/-- How far `Serve` is (server.go:141-168). -/
inductive Serve where
  | absent
  /-- before server.go:143 -/
  | checking
  /-- in server.go:148 -/
  | accepting
  | returned
  deriving DecidableEq, Repr

/-- `RequestPieces` (server.go:191-204) and `DialPeers` (server.go:170-189). -/
inductive Loop where
  | absent
  | running
  | returned
  deriving DecidableEq, Repr

/-- How far `every` with `UnchokePeers` is (server.go:106, 206-226, 484-497). -/
inductive Unchoker where
  | absent
  /-- in server.go:488 -/
  | waiting
  /-- in server.go:207 -/
  | locking
  | returned
  deriving DecidableEq, Repr

/-- How far `every` with `Announce` is (server.go:117, 228-241, 484-497). -/
inductive Announcer where
  | absent
  /-- before server.go:485 -/
  | starting (interval : Int)
  /-- in server.go:488 -/
  | waiting
  /-- in server.go:229 -/
  | asking
  /-- in the loop of server.go:234-239 -/
  | adding (peers : List Peer)
  | returned
  deriving DecidableEq, Repr

/-- How far a call of `Stop` is (server.go:124-139). -/
inductive StopCall where
  /-- in server.go:125 -/
  | waiting
  /-- before server.go:130 -/
  | locked
  /-- before server.go:131 -/
  | cancelled
  /-- before server.go:133 -/
  | closed
  /-- in server.go:133 -/
  | asking
  /-- before server.go:135 -/
  | told
  /-- has returned in server.go:128 -/
  | refused
  | returned
  deriving DecidableEq, Repr

/-- Who holds `mu` (server.go:40). -/
inductive Owner where
  | stop (k : Nat)
  | other
  deriving DecidableEq, Repr

/-- The state. `hasCancel`: `p2p.cancel` is not nil (server.go:96). `done`: the context is cancelled. `open_`: `tcp` accepts connections (tcp.Close: server.go:131). `watching`: the goroutine of
server.go:99-102 exists and waits. `told` are the events announced to trackers, in the order in which `Multitracker.get` was called (multitracker.go:44-58). -/
structure State where
  alive : Bool := true
  main : Main := .idle
  hasCancel : Bool := false
  done : Bool := false
  open_ : Bool := false
  watching : Bool := false
  serve : Serve := .absent
  request : Loop := .absent
  dial : Loop := .absent
  unchoker : Unchoker := .absent
  announcer : Announcer := .absent
  stops : List StopCall := []
  lock : Option Owner := none
  told : List Bytes := []
  deriving DecidableEq, Repr

/-- `int64` arithmetic (server.go:117). -/
def wrap64 (x : Int) : Int := (x + 2 ^ 63) % 2 ^ 64 - 2 ^ 63

/-- server.go:117: `time.Duration(res.Interval) * time.Second`. -/
def duration (interval : Int) : Int := wrap64 (interval * 1000000000)

/-- What can happen in `Start`, `Stop` and the goroutines they start (server.go:85-241, 484-497). -/
inductive Event where
  /-- server.go:86: `Load` returns, or panics -/
  | load (r : Res Unit)
  /-- server.go:90-96 -/
  | listen (ok : Bool)
  /-- server.go:99-107: the goroutines are started, the tracker is asked -/
  | launch
  /-- server.go:107-111: the answer -/
  | answer (a : Answer)
  /-- server.go:112, one `AddPeer` -/
  | add
  /-- server.go:117 -/
  | spawn
  /-- server.go:118 -/
  | unchoke
  /-- server.go:121 -/
  | wait
  /-- server.go:143-147 -/
  | serveCheck
  /-- server.go:148: a connection -/
  | accepted
  /-- server.go:149-151: an error -/
  | acceptFails
  /-- server.go:194-195 -/
  | requestQuit
  /-- server.go:173-174, 177-178 -/
  | dialQuit
  /-- server.go:491-493, 206 -/
  | unchokeTick
  /-- server.go:207-225: it gets the lock, gives it back, and waits for the messages -/
  | unchoked
  /-- server.go:489-490 -/
  | unchokeQuit
  /-- server.go:485 -/
  | ticker
  /-- server.go:491-493, 229: the tracker is asked -/
  | announceTick
  /-- server.go:229-233 -/
  | announced (a : Answer)
  /-- server.go:235 -/
  | announceAdd
  /-- server.go:489-490 -/
  | announceQuit
  /-- somebody calls `Stop` (server.go:124) -/
  | stop
  /-- server.go:100-101: the watching goroutine calls `Stop` -/
  | watch
  /-- the k-th call of `Stop` continues (server.go:125-138), except for the answer -/
  | stopStep (k : Nat)
  /-- server.go:133-134: the answer -/
  | stopAnswer (k : Nat) (a : Answer)
  /-- a connection takes `mu` -/
  | otherLock
  /-- a connection releases `mu` -/
  | otherUnlock
  deriving DecidableEq, Repr

/-- server.go:125-138: the k-th call of `Stop`. -/
def stopStep (s : State) (k : Nat) : Option State :=
  match s.stops[k]? with
  | some .waiting =>
    if s.lock ≠ none then none
    else if s.hasCancel = false then some { s with stops := s.stops.set k .refused } -- server.go:127-129
    else some { s with stops := s.stops.set k .locked, lock := some (.stop k) }
  | some .locked => some { s with stops := s.stops.set k .cancelled, done := true }
  | some .cancelled => some { s with stops := s.stops.set k .closed, open_ := false }
  | some .closed => some { s with stops := s.stops.set k .asking, told := s.told ++ [STOPPED] }
  | some .told => some { s with stops := s.stops.set k .returned, lock := none }
  | _ => none

/-- One step of one goroutine; `none` if it is not possible (server.go:85-246, 484-497). -/
def step (s : State) : Event → Option State
  | .load r =>
    if s.alive ∧ s.main = .idle then
      match r with
      | .ok _ => some { s with main := .loaded }
      | .err _ => some { s with main := .returned }
      | .panic => some { s with alive := false }
    else none
  | .listen ok =>
    if s.alive ∧ s.main = .loaded then
      if ok then some { s with main := .listening, open_ := true, hasCancel := true } else some { s with main := .returned }
    else none
  | .launch =>
    if s.alive ∧ s.main = .listening then
      some { s with main := .asking, watching := true, serve := .checking, request := .running, dial := .running, unchoker := .waiting, told := s.told ++ [STARTED] }
    else none
  | .answer a =>
    if s.alive ∧ s.main = .asking then
      match a with
      | .panic => some { s with alive := false }
      | .err _ => some { s with main := .returned, done := true }
      | .ok res =>
        match Multi.peerList res, res with
        | .ok ps, some r => some { s with main := .adding ps r.interval }
        | _, _ => some { s with alive := false }
    else none
  | .add =>
    if s.alive ∧ s.lock = none then
      match s.main with
      | .adding (_ :: ps) i => some { s with main := .adding ps i }
      | _ => none
    else none
  | .spawn =>
    if s.alive then
      match s.main with
      | .adding [] i => some { s with main := .unchoking, announcer := .starting i }
      | _ => none
    else none
  | .unchoke => if s.alive ∧ s.main = .unchoking ∧ s.lock = none then some { s with main := .waiting } else none
  | .wait =>
    if s.alive ∧ s.main = .waiting ∧ s.serve = .returned ∧ s.request = .returned ∧ s.dial = .returned ∧ s.unchoker = .returned ∧ s.announcer = .returned then
      some { s with main := .returned, done := true }
    else none
  | .serveCheck =>
    if s.alive ∧ s.serve = .checking then
      if s.done then some { s with serve := .returned } else some { s with serve := .accepting }
    else none
  | .accepted => if s.alive ∧ s.serve = .accepting ∧ s.open_ then some { s with serve := .checking } else none
  | .acceptFails => if s.alive ∧ s.serve = .accepting then some { s with serve := .returned, done := true } else none
  | .requestQuit => if s.alive ∧ s.request = .running ∧ s.done then some { s with request := .returned } else none
  | .dialQuit => if s.alive ∧ s.dial = .running ∧ s.done then some { s with dial := .returned } else none
  | .unchokeTick => if s.alive ∧ s.unchoker = .waiting then some { s with unchoker := .locking } else none
  | .unchoked => if s.alive ∧ s.unchoker = .locking ∧ s.lock = none then some { s with unchoker := .waiting } else none
  | .unchokeQuit => if s.alive ∧ s.unchoker = .waiting ∧ s.done then some { s with unchoker := .returned } else none
  | .ticker =>
    if s.alive then
      match s.announcer with
      | .starting i => if duration i ≤ 0 then some { s with alive := false } else some { s with announcer := .waiting }
      | _ => none
    else none
  | .announceTick => if s.alive ∧ s.announcer = .waiting then some { s with announcer := .asking, told := s.told ++ [ANNOUNCE] } else none
  | .announced a =>
    if s.alive ∧ s.announcer = .asking then
      match a with
      | .panic => some { s with alive := false }
      | .err _ => some { s with announcer := .returned, done := true }
      | .ok res =>
        match Multi.peerList res with
        | .ok ps => some { s with announcer := .adding ps }
        | _ => some { s with alive := false }
    else none
  | .announceAdd =>
    if s.alive then
      match s.announcer with
      | .adding (_ :: ps) => if s.lock = none then some { s with announcer := .adding ps } else none
      | .adding [] => some { s with announcer := .waiting }
      | _ => none
    else none
  | .announceQuit => if s.alive ∧ s.announcer = .waiting ∧ s.done then some { s with announcer := .returned } else none
  | .stop => if s.alive then some { s with stops := s.stops ++ [.waiting] } else none
  | .watch => if s.alive ∧ s.watching ∧ s.done then some { s with watching := false, stops := s.stops ++ [.waiting] } else none
  | .stopStep k => if s.alive then stopStep s k else none
  | .stopAnswer k a =>
    if s.alive ∧ s.stops[k]? = some .asking then
      match a with
      | .panic => some { s with alive := false }
      | _ => some { s with stops := s.stops.set k .told }
    else none
  | .otherLock => if s.alive ∧ s.lock = none then some { s with lock := some .other } else none
  | .otherUnlock => if s.alive ∧ s.lock = some .other then some { s with lock := none } else none

/-- A history: what is not possible does not happen (server.go:85-246). -/
def run (s : State) : List Event → State
  | [] => s
  | e :: es => run ((step s e).getD s) es

/-- server.go:61-83 `New`: nothing has happened yet. -/
def new : State := {}

end Drip.Lifecycle
