import Verif.Model.Assoc
import Verif.Model.RequestPiece
import Verif.Model.PeerWire
import Verif.Model.Tracker
/-
Model of /repo/p2p/peer.go and /repo/p2p/server.go.

The state is the `Server` with all connections ever made. A step (`Event`) is what one goroutine does between two points at which
others can interfere: a critical section of `Server.mu`, a message handled, a handshake. The messages of one connection are handled
one at a time. What is outside is arbitrary: what arrives on a connection and whether a write to it succeeds, the fates of the os calls, the
outcome of `rand.Float64`, the order in which things happen.

Not represented: deadlines and timeouts (they are errors that can happen at any time), `Peer.mu` (its critical sections are single
actions here; the futures of block requests are in BlockFuture.lean), the interleaving of storage calls (StorageConc.lean), the parts
of a message that were written before an error, slog.
-/

namespace Drip.P2P
open PeerWire Metainfo
open Storage (Fate World Op runOp getBlock putBlock resetPiece)

/-- The identity of a `*Peer` (peer.go:20): the number of the connection. -/
abbrev Ref := Nat

/-- How far the goroutine of a connection is: peer.go:165-193 `serve` and server.go:270-306 `Connect`. -/
inductive Phase where
  /-- before `Connect` -/
  | fresh
  /-- between server.go:280 and 282 -/
  | checked
  /-- between server.go:284 and 285 -/
  | shaken
  /-- in the loop of `serve`, with the message that `Receive` returned, if it has not been handled yet -/
  | serving (pending : Option Message)
  /-- before the deferred `Disconnect` -/
  | leaving
  /-- `serve` has returned -/
  | ended
  /-- blocked for ever -/
  | hung
  deriving DecidableEq, Repr

/-- peer.go:20-38 `Peer`. `Conn` is represented by the address of the remote side (`ip`: 16 bytes). `phase` is the state of its goroutine. History variables:
`announced` (the id given by the tracker, zero if there was none), `shook` (the handshake received), `registered` (it has been in `activePeers`),
`received` and `sent` (messages). -/
structure Conn where
  id : Bytes
  ip : Bytes
  port : Nat
  remoteChoked : Bool := true
  remoteInterested : Bool := false
  closed : Bool := false
  choked : Bool := true
  interested : Bool := false
  bitfield : Bytes
  canceled : List Req := []
  downloaded : Int := 0
  uploaded : Int := 0
  phase : Phase := .fresh
  announced : Bytes
  shook : Option Handshake := none
  registered : Bool := false
  received : List Message := []
  sent : List Message := []
  deriving DecidableEq, Repr

/-- How far the goroutine of server.go:401-412 is. -/
inductive Stage where
  /-- before peer.go:282 -/
  | fresh
  /-- the blocks are being requested -/
  | running
  /-- before server.go:411 -/
  | over
  /-- before the deferred `delete` (server.go:402) -/
  | handed
  deriving DecidableEq, Repr

/-- A goroutine of server.go:401-412. -/
structure Job where
  peer : Ref
  index : Nat
  stage : Stage := .fresh
  deriving DecidableEq, Repr

/-- The constants: the torrent and SHA-1 (`Storage.Cfg`), and server.go:27 `PeerID`. -/
structure Cfg where
  store : Storage.Cfg
  peerID : Bytes

/-- server.go:25-49 `Server`, and the goroutines. `locked`: `mu` is held. `alive`: the process is. `cancelled`: the context is. -/
structure State where
  storage : World
  peers : List Conn := []
  newPeerQueue : List Tracker.Peer := []
  /-- the address that `DialPeers` has taken from the queue while it waits for a slot (server.go:175-180) -/
  held : Option Tracker.Peer := none
  uploaded : Int := 0
  downloaded : Int := 0
  knownPeers : List (Bytes × Tracker.Peer) := []
  knownAddrs : List (Bytes × List Bytes) := []
  knownIDIPs : List (Bytes × Bytes) := []
  blockedPeers : List Bytes := []
  activePeers : List (Bytes × Ref) := []
  indexToPeers : List (Int × List Ref) := []
  queuedPeers : List Ref := []
  inflight : List (Int × Ref) := []
  /-- goroutines of server.go:181-186 before (`false`) and after (`true`) the check of line 361 -/
  dialers : List (Tracker.Peer × Bool) := []
  /-- goroutines of server.go:197 that have not yet called `requestPieceFromPeer` -/
  toRequest : List Ref := []
  /-- goroutines of server.go:401 -/
  jobs : List Job := []
  /-- goroutines of server.go:415 -/
  waiting : List Ref := []
  locked : Bool := false
  cancelled : Bool := false
  /-- `RequestPieces` has not returned (server.go:191-204) -/
  requesting : Bool := true
  stopped : Bool := false
  alive : Bool := true
  deriving DecidableEq, Repr

/-- How a goroutine's action (a function of peer.go or server.go, for example peer.go:195) ends: return, error, run-time panic, death of the process in a system call, or never. -/
inductive Outcome (α : Type) where
  | ok (a : α)
  | err (e : Err)
  | panic
  | crash
  | stuck
  deriving DecidableEq, Repr

/-- A piece of code of peer.go or server.go (for example peer.go:225-233). -/
def Act (α : Type) := State → Outcome α × State

namespace Act
/-- `return a, nil` (for example peer.go:257). -/
def pure {α : Type} (a : α) : Act α := fun s => (.ok a, s)
/-- `if err != nil { return err }` (for example peer.go:248-250), then what follows. -/
def bind {α β : Type} (p : Act α) (k : α → Act β) : Act β := fun s =>
  match p s with
  | (.ok a, s) => k a s
  | (.err e, s) => (.err e, s)
  | (.panic, s) => (.panic, s)
  | (.crash, s) => (.crash, s)
  | (.stuck, s) => (.stuck, s)
/-- Statements one after the other (for example server.go:457-469). -/
instance : Monad Act where
  pure := Act.pure
  bind := Act.bind
/-- `return err` (for example peer.go:237). -/
def fail {α : Type} (e : Err) : Act α := fun s => (.err e, s)
/-- A run-time panic (for example the index of peer.go:226). -/
def panic {α : Type} : Act α := fun s => (.panic, s)
/-- Waiting for ever (for example in server.go:271 or 453). -/
def stuck {α : Type} : Act α := fun s => (.stuck, s)
/-- A look at the fields of `Server` (server.go:25-49). -/
def get : Act State := fun s => (.ok s, s)
/-- Assignments to the fields of `Server` (server.go:25-49). -/
def modify (f : State → State) : Act Unit := fun s => (.ok (), f s)
/-- Lift a computation without effects (for example server.go:252). -/
def lift {α : Type} : Res α → Act α
  | .ok a => pure a
  | .err e => fail e
  | .panic => panic
/-- A call of the storage package (peer.go:247, 268, 282). -/
def store {α : Type} (fates : List Fate) (p : Op α) : Act α := fun s =>
  match runOp p s.storage fates with
  | (.ok a, w) => (.ok a, { s with storage := w })
  | (.err e, w) => (.err e, { s with storage := w })
  | (.panic, w) => (.panic, { s with storage := w })
  | (.crash, w) => (.crash, { s with storage := w })
/-- `p2p.mu.Lock()` (for example server.go:271): whoever holds it outside a critical section holds it for ever. -/
def lock : Act Unit := fun s => if s.locked then (.stuck, s) else (.ok (), { s with locked := true })
/-- `p2p.mu.Unlock()` (server.go:280, 432). -/
def unlock : Act Unit := modify fun s => { s with locked := false }
/-- `p2p.mu.Lock(); defer p2p.mu.Unlock()` around `p` (for example server.go:244-245). -/
def locked {α : Type} (p : Act α) : Act α := bind lock fun _ => fun s =>
  match p s with
  | (.ok a, s) => (.ok a, { s with locked := false })
  | (.err e, s) => (.err e, { s with locked := false })
  | r => r
/-- `if err := p; err != nil { … }` without returning (server.go:403-410). -/
def attempt (p : Act Unit) : Act Unit := fun s =>
  match p s with
  | (.err _, s) => (.ok (), s)
  | r => r
end Act

/-- The object behind a `*Peer` (peer.go:20-38). -/
def getConn (r : Ref) : Act Conn := fun s =>
  match s.peers[r]? with
  | some c => (.ok c, s)
  | none => (.panic, s)

/-- Assign to fields of `*Peer` (peer.go:20-38). -/
def setConn (r : Ref) (f : Conn → Conn) : Act Unit := Act.modify fun s => { s with peers := s.peers.modify r f }

/-- `net.TCPAddr.String()`, i.e. `net.JoinHostPort` (used by peer.go:92-94 `Addr`). -/
def tcpAddr (ip : Bytes) (port : Nat) : Bytes :=
  let host := Net.ipString ip
  if host.contains 58 then b!"[" ++ host ++ b!"]:" ++ intDec port else host ++ b!":" ++ intDec port

/-- peer.go:92-94 `Addr`. -/
def Conn.addr (c : Conn) : Bytes := tcpAddr c.ip c.port

/-- peer.go:87-90 `IDIP`. -/
def Conn.idip (c : Conn) : Bytes := c.id ++ b!"[" ++ Net.ipString c.ip ++ b!"]"

/-- server.go:499-505 `remoteAddr`. -/
def remoteAddr (tp : Tracker.Peer) : Res Bytes :=
  match Net.parseIP tp.ip with
  | none => .err .badIP
  | some ip => .ok (Net.ipString ip ++ b!":" ++ intDec tp.port)

/-- `p2p.Storage.Torrent.Bitfield` (server.go:301, 383; peer.go:228), read without the storage's locks. -/
def torrentBitfield : Act Bytes := fun s =>
  match s.storage.mem with
  | some m => (.ok m.bitfield, s)
  | none => (.crash, s)

/-! ### peer.go -/

/-- peer.go:96-107 `Send`; `ok`: the write succeeds. A write to a closed connection fails. -/
def send (ok : Bool) (r : Ref) (m : Message) : Act Unit := do
  let c ← getConn r
  if m.typ = REQUEST ∧ c.remoteChoked then Act.fail .choked
  else if ok ∧ !c.closed then setConn r fun c => { c with sent := c.sent ++ [m] }
  else Act.fail .conn

/-- peer.go:137-142 `Choke`. -/
def choke (ok : Bool) (r : Ref) : Act Unit := do
  let c ← getConn r
  if c.choked = false then do
    setConn r fun c => { c with choked := true }
    send ok r PeerWire.choke
  else pure ()

/-- peer.go:144-149 `Unchoke`. -/
def unchoke (ok : Bool) (r : Ref) : Act Unit := do
  let c ← getConn r
  if c.choked = true then do
    setConn r fun c => { c with choked := false }
    send ok r PeerWire.unchoke
  else pure ()

/-- peer.go:151-156 `Interest`. -/
def interest (ok : Bool) (r : Ref) : Act Unit := do
  let c ← getConn r
  if c.interested = false then do
    setConn r fun c => { c with interested := true }
    send ok r PeerWire.interested
  else pure ()

/-- peer.go:158-163 `NotInterest`. -/
def notInterest (ok : Bool) (r : Ref) : Act Unit := do
  let c ← getConn r
  if c.interested = true then do
    setConn r fun c => { c with interested := false }
    send ok r PeerWire.notInterested
  else pure ()

/-- server.go:445-455 `queuePeer` (the caller holds `mu`). The channel is unbuffered: the send completes when `RequestPieces` receives, which it
does until it returns, after the context is cancelled. -/
def queuePeer (r : Ref) : Act Unit := do
  let c ← getConn r
  if c.closed ∨ c.remoteChoked then pure ()
  else do
    let s ← Act.get
    if r ∈ s.queuedPeers then pure ()
    else do
      Act.modify fun s => { s with queuedPeers := sadd s.queuedPeers r }
      if s.requesting = false then Act.stuck
      else Act.modify fun s => { s with toRequest := s.toRequest ++ [r] }

/-- server.go:243-247 `QueuePeer`. -/
def QueuePeer (r : Ref) : Act Unit := Act.locked (queuePeer r)

/-- server.go:325-334 `RecordIndex`. -/
def recordIndex (i : Int) (r : Ref) : Act Unit := Act.locked <| Act.modify fun s =>
  { s with indexToPeers := mput s.indexToPeers i (sadd ((mget s.indexToPeers i).getD []) r) }

/-- peer.go:225-233 `HandleHave`. -/
def handleHave (ok : Bool) (r : Ref) (i : Int) : Act Unit := do
  let c ← getConn r
  let bf ← Act.lift (Bitfield.add c.bitfield i)
  setConn r fun c => { c with bitfield := bf }
  recordIndex i r
  let have_ ← torrentBitfield
  if (← Act.lift (Bitfield.has have_ i)) = false then do
    QueuePeer r
    interest ok r
  else pure ()

/-- peer.go:210-214: the items of a bitfield one after the other. -/
def handleItems (ok : Bool) (r : Ref) : List Nat → Act Unit
  | [] => pure ()
  | i :: is => do
    handleHave ok r i
    handleItems ok r is

/-- peer.go:235-258 `HandleRequest`. -/
def handleRequest (fates : List Fate) (ok : Bool) (cfg : Cfg) (r : Ref) (index begin_ length : Int) : Act Unit := do
  let c ← getConn r
  if c.choked then Act.fail .choked
  else if ⟨index, begin_, length⟩ ∈ c.canceled then setConn r fun c => { c with canceled := sdel c.canceled ⟨index, begin_, length⟩ }
  else do
    let data ← Act.store fates (getBlock cfg.store index begin_ length)
    send ok r (pieceMsg index begin_ data)
    setConn r fun c => { c with uploaded := c.uploaded + data.length }
    Act.modify fun s => { s with uploaded := s.uploaded + data.length }

/-- peer.go:260-265 `HandleCancel`. -/
def handleCancel (r : Ref) (index begin_ length : Int) : Act Unit :=
  setConn r fun c => { c with canceled := sadd c.canceled ⟨index, begin_, length⟩ }

/-- peer.go:267-277 `HandlePiece`. -/
def handlePiece (fates : List Fate) (cfg : Cfg) (r : Ref) (index begin_ : Int) (data : Bytes) : Act Unit := fun s =>
  match Act.store fates (putBlock cfg.store index begin_ data) s with
  | (.ok (), s) => Act.bind (setConn r fun c => { c with downloaded := c.downloaded + data.length })
      (fun _ => Act.modify fun s => { s with downloaded := s.downloaded + data.length }) s
  | (.err e, s) => if e = .blockExists then (.ok (), s) else (.err e, s)
  | (.panic, s) => (.panic, s)
  | (.crash, s) => (.crash, s)
  | (.stuck, s) => (.stuck, s)

/-- peer.go:195-223 `HandleMessage`. -/
def handleMessage (fates : List Fate) (ok : Bool) (cfg : Cfg) (r : Ref) (m : Message) : Act Unit :=
  if m.typ = CHOKE then setConn r fun c => { c with remoteChoked := true }
  else if m.typ = UNCHOKE then do
    setConn r fun c => { c with remoteChoked := false }
    QueuePeer r
  else if m.typ = INTERESTED then setConn r fun c => { c with remoteInterested := true }
  else if m.typ = NOT_INTERESTED then setConn r fun c => { c with remoteInterested := false }
  else if m.typ = HAVE then do handleHave ok r (← Act.lift m.getIndex)
  else if m.typ = BITFIELD then do handleItems ok r (Bitfield.items (← Act.lift m.getBitfield))
  else if m.typ = REQUEST then do
    handleRequest fates ok cfg r (← Act.lift m.getIndex) (← Act.lift m.getBegin) (← Act.lift m.getLength)
  else if m.typ = CANCEL then do
    handleCancel r (← Act.lift m.getIndex) (← Act.lift m.getBegin) (← Act.lift m.getLength)
  else if m.typ = PIECE then do
    handlePiece fates cfg r (← Act.lift m.getIndex) (← Act.lift m.getBegin) (← Act.lift m.getPiece)
  else pure ()

/-- A `[20]byte` that is zero. -/
def zeroID : Bytes := List.replicate 20 0

/-- peer.go:59-85 `Handshake`: `ok`: the write succeeds; `rd`: what the remote side sends. -/
def handshake (ok : Bool) (cfg : Cfg) (r : Ref) (rd : Rd) : Act Unit := do
  let c ← getConn r
  if !ok || c.closed then Act.fail .conn
  else do
    let (phs, _) ← Act.lift (Handshake.decode rd)
    setConn r fun c => { c with shook := some phs }
    if phs.infoHash ≠ cfg.store.info.sha1 then Act.fail .handshake
    else if c.id ≠ zeroID ∧ c.id ≠ phs.peerID then Act.fail .handshake
    else do
      setConn r fun c => { c with id := phs.peerID }
      if phs.peerID = cfg.peerID then Act.fail .handshake
      else pure ()

/-! ### server.go -/

/-- server.go:249-268 `AddPeer`. -/
def addPeer (tp : Tracker.Peer) : Act Unit := Act.locked do
  let addr ← Act.lift (remoteAddr tp)
  let s ← Act.get
  if (mget s.knownPeers addr).isSome then pure ()
  else if addr ∈ s.blockedPeers then pure ()
  else if s.newPeerQueue.length < 50 then
    Act.modify fun s => { s with newPeerQueue := s.newPeerQueue ++ [tp], knownPeers := mput s.knownPeers addr tp }
  else pure ()

/-- server.go:271-280: the first part of `Connect`. -/
def connectCheck (r : Ref) : Act Unit := do
  Act.lock
  let s ← Act.get
  let c ← getConn r
  if s.activePeers.length ≥ 50 then Act.fail .tooManyConnections
  else
    match mget s.knownIDIPs c.addr with
    | some idip => if (mget s.activePeers idip).isSome then Act.fail .alreadyConnected else Act.unlock
    | none => Act.unlock

/-- server.go:285-305: the second part of `Connect`. -/
def connectRegister (ok : Bool) (r : Ref) : Act Unit := Act.locked do
  let s ← Act.get
  let c ← getConn r
  if s.activePeers.length ≥ 50 then Act.fail .tooManyConnections
  else do
    Act.modify fun s => { s with
      knownAddrs := mput s.knownAddrs c.idip (sadd ((mget s.knownAddrs c.idip).getD []) c.addr)
      knownIDIPs := mput s.knownIDIPs c.addr c.idip }
    if (mget s.activePeers c.idip).isSome then Act.fail .alreadyConnected
    else do
      Act.modify fun s => { s with activePeers := mput s.activePeers c.idip r }
      setConn r fun c => { c with registered := true }
      let bf ← torrentBitfield
      send ok r (bitfieldMsg bf)

/-- server.go:461-465: forget the addresses of an idip. -/
def forgetAddrs (idip : Bytes) (known : List (Bytes × Bytes)) : List Bytes → List (Bytes × Bytes)
  | [] => known
  | a :: as => forgetAddrs idip (if mget known a = some idip then mdel known a else known) as

/-- server.go:458-460: `delete(p2p.indexToPeers[i], peer)` for the items of the bitfield. -/
def forgetIndexes (r : Ref) (m : List (Int × List Ref)) : List Nat → List (Int × List Ref)
  | [] => m
  | i :: is =>
    forgetIndexes r (match mget m (i : Int) with
      | some ps => mput m (i : Int) (sdel ps r)
      | none => m) is

/-- server.go:457-469 `disconnect` (the caller holds `mu`), peer.go:48-57 `Close` (`cancel` is never nil: server.go:163, 371). -/
def disconnect (r : Ref) : Act Unit := do
  let c ← getConn r
  Act.modify fun s => { s with
    indexToPeers := forgetIndexes r s.indexToPeers (Bitfield.items c.bitfield)
    knownIDIPs := forgetAddrs c.idip s.knownIDIPs ((mget s.knownAddrs c.idip).getD [])
    knownAddrs := mdel s.knownAddrs c.idip
    activePeers := mdel s.activePeers c.idip }
  setConn r fun c => { c with closed := true }

/-- server.go:308-313 `Disconnect`. -/
def Disconnect (r : Ref) : Act Unit := Act.locked (disconnect r)

/-- server.go:315-323 `Block`. -/
def block (r : Ref) : Act Unit := Act.locked do
  let c ← getConn r
  Act.modify fun s => { s with blockedPeers := ((mget s.knownAddrs c.idip).getD []).foldl sadd s.blockedPeers }
  disconnect r

/-- server.go:135-137: disconnect some peers, one after the other. -/
def disconnectAll : List Ref → Act Unit
  | [] => pure ()
  | r :: rs => do
    disconnect r
    disconnectAll rs

/-- server.go:124-139 `Stop` (`Tracker.Stop`, which talks to the network, is not represented). -/
def stop : Act Unit := Act.locked do
  Act.modify fun s => { s with cancelled := true }
  let s ← Act.get
  disconnectAll (s.activePeers.map (·.2))
  Act.modify fun s => { s with stopped := true }

/-- server.go:390-395: the comparison given to `sort.Slice`, on the *positions* `i` and `j`; `coin` is the outcome of `rand.Float64() < 0.5`. -/
def lessPos (avail : Nat → Nat) (coin : Bool) (i j : Nat) : Bool :=
  if avail i = avail j then coin else decide (avail i < avail j)

/-- `sort.Slice` on at most 12 elements (server.go:390): the inner loop of the insertion sort, moving the element at position `j` down. -/
def insertDown (avail : Nat → Nat) : Nat → List Bool → List Nat → List Nat × List Bool
  | 0, coins, l => (l, coins)
  | j + 1, coins, l =>
    if lessPos avail (coins.headD false) (j + 1) j then
      match l[j]?, l[j + 1]? with
      | some a, some b => insertDown avail j coins.tail ((l.set j b).set (j + 1) a)
      | _, _ => (l, coins.tail)
    else (l, coins.tail)

/-- `sort.Slice` on at most 12 elements: the outer loop, from position `i` on, `n` times. -/
def insertionSort (avail : Nat → Nat) : Nat → Nat → List Bool → List Nat → List Nat
  | 0, _, _, l => l
  | n + 1, i, coins, l =>
    let (l, coins) := insertDown avail i coins l
    insertionSort avail n (i + 1) coins l

/-- Some order of the elements of `l`, the one that `f` says: the order in which a map is gone through (server.go:433) or the result of a sort (server.go:390). -/
def arrange (f : List Nat → List Nat) (l : List Nat) : List Nat := if (f l).isPerm l then f l else l

/-- `sort.Slice` (server.go:390): insertion sort up to 12 elements; otherwise any order (`pdq`: the algorithm is not modelled). -/
def sortPieces (avail : Nat → Nat) (coins : List Bool) (pdq : List Nat → List Nat) (l : List Nat) : List Nat :=
  if l.length ≤ 12 then insertionSort avail (l.length - 1) 1 coins l else arrange pdq l

/-- server.go:396-399: the first piece that nobody is downloading. -/
def firstFree (inflight : List (Int × Ref)) : List Nat → Option Nat
  | [] => none
  | i :: is => if (mget inflight (i : Int)).isSome then firstFree inflight is else some i

/-- The number of peers that have a piece (server.go:391-394). -/
def available (m : List (Int × List Ref)) (i : Nat) : Nat := ((mget m (i : Int)).getD []).length

/-- server.go:376-424 `requestPieceFromPeer`. -/
def requestPieceFromPeer (ok : Bool) (coins : List Bool) (pdq : List Nat → List Nat) (r : Ref) : Act Unit := Act.locked do
  let c ← getConn r
  if c.closed ∨ c.remoteChoked then Act.modify fun s => { s with queuedPeers := sdel s.queuedPeers r }
  else do
    let bf ← torrentBitfield
    let pieces := Bitfield.items (Bitfield.difference c.bitfield bf)
    if pieces = [] then do
      Act.modify fun s => { s with queuedPeers := sdel s.queuedPeers r }
      notInterest ok r
    else do
      let s ← Act.get
      match firstFree s.inflight (sortPieces (available s.indexToPeers) coins pdq pieces) with
      | some i => Act.modify fun s => { s with inflight := mput s.inflight (i : Int) r, jobs := s.jobs ++ [{ peer := r, index := i }] }
      | none => Act.modify fun s => { s with waiting := s.waiting ++ [r] }

/-- peer.go:284-302, server.go:403-410: how the download of a piece ended. -/
inductive Result where
  | complete
  | checksum
  | failed
  deriving DecidableEq, Repr

/-- What `piece.Wait()` (peer.go:298) can return. `failed` is any other error, also of a block request. -/
def canReturn (s : State) (i : Nat) (res : Result) : Bool :=
  match res with
  | .failed => true
  | _ =>
    match s.storage.mem.bind fun m => m.pieces[i]?.bind fun p => m.futs[p.fut]? with
    | some (some e) => decide (e = match res with | .complete => none | _ => some .checksum)
    | _ => false

/-- server.go:433-441: send HAVE to peers, one after the other, until a write fails. -/
def sendHave (oks : Ref → Bool) (i : Nat) : List Ref → Act Unit
  | [] => pure ()
  | r :: rs => do
    let c ← getConn r
    if c.closed then sendHave oks i rs
    else do
      send (oks r) r (have_ i)
      sendHave oks i rs

/-- server.go:403-410 after `p.requestPiece` has returned. `order` puts the active peers in the order of the map iteration. -/
def finish (oks : Ref → Bool) (order : List Ref → List Ref) (r : Ref) (i : Nat) : Result → Act Unit
  | .complete => Act.attempt do
      Act.lock
      Act.unlock
      let s ← Act.get
      sendHave oks i (arrange order (s.activePeers.map (·.2)))
  | .checksum => Act.attempt (block r)
  | .failed => pure ()

/-- What is arbitrary in a step: the os (peer.go:247, 268, 282), whether a write succeeds (peer.go:67, 106), `rand` and `sort.Slice` (server.go:390-395), the order of a map (server.go:433). -/
structure Luck where
  fates : List Fate := []
  ok : Ref → Bool := fun _ => true
  coins : List Bool := []
  pdq : List Nat → List Nat := id
  order : List Ref → List Ref := id

/-- What can happen in the goroutines of peer.go:165-338 and server.go:99-241, 376-424. -/
inductive Event where
  /-- server.go:148-165: a connection comes in; `ip`: 16 bytes (the text of an IPv4 address, which is all that the code uses, does not depend on whether
  Go has it as 4 or as 16 bytes) -/
  | accept (ip : Bytes) (port : Nat)
  /-- server.go:175 -/
  | takeAddr
  /-- server.go:179-181 -/
  | spawn
  /-- server.go:356-365 for the k-th goroutine -/
  | dialCheck (k : Nat)
  /-- server.go:366-372; `connected`: `net.Dial` succeeds -/
  | dial (k : Nat) (connected : Bool)
  /-- server.go:271-280 -/
  | check (r : Ref)
  /-- server.go:282 -/
  | handshake (r : Ref) (rd : Rd)
  /-- server.go:285-305 -/
  | register (r : Ref)
  /-- peer.go:183-187: the next bytes on the connection -/
  | receive (r : Ref) (rd : Rd)
  /-- peer.go:188-191 -/
  | handle (r : Ref)
  /-- `Receive` fails (also by a deadline) or the context is cancelled (peer.go:178-187) -/
  | fails (r : Ref)
  /-- peer.go:172-176 -/
  | leave (r : Ref)
  /-- server.go:216-222 for one peer (any peer that has been active: it may have been disconnected since lines 208-214) -/
  | unchoke (r : Ref)
  /-- server.go:111-116, 234-239 -/
  | addPeer (tp : Tracker.Peer)
  /-- server.go:198 for the k-th goroutine -/
  | select (k : Nat)
  /-- peer.go:282 for the k-th goroutine -/
  | begin (k : Nat)
  /-- peer.go:321: a block is requested -/
  | request (k : Nat) (q : Req)
  /-- server.go:403-410 -/
  | finish (k : Nat) (res : Result)
  /-- server.go:411 -/
  | hand (k : Nat)
  /-- server.go:402 -/
  | clear (k : Nat)
  /-- server.go:415-421; `timer`: after 5 seconds, otherwise because the context is cancelled -/
  | again (k : Nat) (timer : Bool)
  /-- the context is cancelled (server.go:97, 98) -/
  | cancel
  /-- server.go:194-195 -/
  | quit
  /-- server.go:101 -/
  | stop
  deriving DecidableEq, Repr

/-- The slots of `peerSemaphore` in use (server.go:68, 153-159, 179-182). -/
def slots (s : State) : Nat := (s.peers.filter fun c => decide (c.phase ≠ .ended)).length + s.dialers.length

/-- server.go:471-482 `newPeer`. -/
def newConn (cfg : Cfg) (id ip : Bytes) (port : Nat) : Conn :=
  { id, ip, port, bitfield := Bitfield.new cfg.store.info.pieces.length, announced := id }

/-- `copy(p.ID[:], peer.ID)` (server.go:351). -/
def copyID (id : Bytes) : Bytes := id.take 20 ++ List.replicate (20 - id.length) 0

/-- Can `net.Dial("tcp", fmt.Sprintf("%s:%d", IP, Port))` (server.go:346) succeed: not for IPv6 addresses ("too many colons in address") nor for
ports out of range. `remoteAddr` has checked that `IP` is an address. -/
def dialable (tp : Tracker.Peer) : Option (Bytes × Nat) :=
  if tp.ip.contains 58 ∨ tp.port < 0 ∨ tp.port > 65535 then none else (Net.parseIP tp.ip).map fun ip => (ip, tp.port.toNat)

/-- Put the goroutine of a connection (peer.go:165-193) where the outcome of its action leads it. -/
def next (r : Ref) (ok err : Phase) (x : Outcome Unit × State) : Outcome Unit × State :=
  (x.1, { x.2 with peers := x.2.peers.modify r fun c => { c with phase := match x.1 with | .ok _ => ok | .err _ => err | _ => .hung } })

/-- The connection exists and is in the given phase of peer.go:165-193. -/
def at_ (s : State) (r : Ref) (ph : Phase) : Bool := (s.peers[r]?.map Conn.phase) == some ph

/-- One step of a goroutine (the lines are with the events); a step that is not possible changes nothing (`none`). See peer.go:165-338 and server.go:99-241, 376-424. -/
def act (cfg : Cfg) (l : Luck) (s : State) : Event → Option (Outcome Unit × State)
  | .accept ip port =>
    if s.stopped ∨ slots s ≥ 50 then none
    else some (.ok (), { s with peers := s.peers ++ [newConn cfg zeroID ip port] })
  | .takeAddr =>
    match s.held, s.newPeerQueue with
    | none, tp :: q => some (.ok (), { s with newPeerQueue := q, held := some tp })
    | _, _ => none
  | .spawn =>
    match s.held with
    | some tp => if slots s ≥ 50 then none else some (.ok (), { s with held := none, dialers := s.dialers ++ [(tp, false)] })
    | none => none
  | .dialCheck k =>
    match s.dialers[k]? with
    | some (tp, false) =>
      match remoteAddr tp with
      | .ok addr =>
        if s.locked then some (.stuck, s)
        else if addr ∈ s.blockedPeers then some (.ok (), { s with dialers := s.dialers.eraseIdx k })
        else some (.ok (), { s with dialers := s.dialers.set k (tp, true) })
      | _ => some (.err .badIP, { s with dialers := s.dialers.eraseIdx k })
    | _ => none
  | .dial k connected =>
    match s.dialers[k]? with
    | some (tp, true) =>
      match dialable tp, connected with
      | some (ip, port), true => some (.ok (), { s with dialers := s.dialers.eraseIdx k, peers := s.peers ++ [newConn cfg (copyID tp.id) ip port] })
      | _, _ => some (.err .conn, { s with dialers := s.dialers.eraseIdx k })
    | _ => none
  | .check r => if at_ s r .fresh then some (next r .checked .ended (connectCheck r s)) else none
  | .handshake r rd => if at_ s r .checked then some (next r .shaken .ended (handshake (l.ok r) cfg r rd s)) else none
  | .register r => if at_ s r .shaken then some (next r (.serving none) .ended (connectRegister (l.ok r) r s)) else none
  | .receive r rd =>
    match s.peers[r]? with
    | some c => if c.phase = .serving none ∧ c.closed = false then
        match Message.decode rd with
        | .ok (m, _) => some (.ok (), { s with peers := s.peers.modify r fun c => { c with phase := .serving (some m), received := c.received ++ [m] } })
        | .err e => some (next r .leaving .leaving (.err e, s))
        | .panic => some (.panic, s)
        else none
    | none => none
  | .handle r =>
    match s.peers[r]?.map Conn.phase with
    | some (.serving (some m)) => some (next r (.serving none) .leaving (handleMessage l.fates (l.ok r) cfg r m s))
    | _ => none
  | .fails r => if at_ s r (.serving none) then some (next r .leaving .leaving (.ok (), s)) else none
  | .leave r => if at_ s r .leaving then some (next r .ended .ended (Disconnect r s)) else none
  | .unchoke r =>
    if (s.peers[r]?.map Conn.registered) = some true then some (unchoke (l.ok r) r s) else none
  | .addPeer tp => some (addPeer tp s)
  | .select k =>
    match s.toRequest[k]? with
    | some r =>
      match requestPieceFromPeer (l.ok r) l.coins l.pdq r s with
      | (.stuck, _) => some (.stuck, s)
      | (o, s) => some (o, { s with toRequest := s.toRequest.eraseIdx k })
    | none => none
  | .begin k =>
    match s.jobs[k]? with
    | some ⟨r, i, .fresh⟩ =>
      match Act.store l.fates (resetPiece i) s with
      | (o, s) => some (o, { s with jobs := s.jobs.set k ⟨r, i, .running⟩ })
    | _ => none
  | .request k q =>
    match s.jobs[k]? with
    | some ⟨r, i, .running⟩ => if q ∈ requestBlocks cfg.store.info i then some (send (l.ok r) r (request q.index q.begin_ q.length) s) else none
    | _ => none
  | .finish k res =>
    match s.jobs[k]? with
    | some ⟨r, i, .running⟩ =>
      if canReturn s i res then
        match finish l.ok l.order r i res s with
        | (.stuck, _) => some (.stuck, s)
        | (o, s) => some (o, { s with jobs := s.jobs.set k ⟨r, i, .over⟩ })
      else none
    | _ => none
  | .hand k =>
    match s.jobs[k]? with
    | some ⟨r, i, .over⟩ => if s.requesting = false then some (.stuck, s)
        else some (.ok (), { s with toRequest := s.toRequest ++ [r], jobs := s.jobs.set k ⟨r, i, .handed⟩ })
    | _ => none
  | .clear k =>
    match s.jobs[k]? with
    | some ⟨_, i, .handed⟩ => some (.ok (), { s with inflight := mdel s.inflight (i : Int), jobs := s.jobs.eraseIdx k })
    | _ => none
  | .again k timer =>
    match s.waiting[k]?, timer with
    | some r, true => if s.requesting = false then some (.stuck, { s with waiting := s.waiting.eraseIdx k })
        else some (.ok (), { s with waiting := s.waiting.eraseIdx k, toRequest := s.toRequest ++ [r] })
    | some _, false => if s.cancelled then some (.ok (), { s with waiting := s.waiting.eraseIdx k }) else none
    | none, _ => none
  | .cancel => some (.ok (), { s with cancelled := true })
  | .quit => if s.cancelled then some (.ok (), { s with requesting := false }) else none
  | .stop => if s.cancelled then some (stop s) else none

/-- A step of the process that runs server.go:85-122: nothing happens when it is dead, and a panic or crash kills it. -/
def step (cfg : Cfg) (s : State) (e : Event × Luck) : State :=
  if s.alive = false then s
  else
    match act cfg e.2 s e.1 with
    | none => s
    | some (.panic, s) | some (.crash, s) => { s with alive := false }
    | some (_, s) => s

/-- A history of the process that runs server.go:85-122. -/
def run (cfg : Cfg) (s : State) : List (Event × Luck) → State
  | [] => s
  | e :: es => run cfg (step cfg s e) es

/-- server.go:61-83 `New`, on a storage in any state (85-89: `Load` has been called). -/
def init (w : World) : State := { storage := w }

end Drip.P2P
