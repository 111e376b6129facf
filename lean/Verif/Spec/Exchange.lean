import Verif.Spec.Fair
import Verif.Props.PeerWire
import Verif.Props.P2PSafe
/-
Downloading from other clients of the same kind: what they send is not assumed, it is what the model of the client sends.
-/

namespace Drip.Spec
open P2P
open Storage (Fate World TorrentResult)

/-- A client that has the torrent: its id, what had happened to its storage when it was started, what happened until it had the whole torrent, what happened then before the moment 0, what
happens at every moment (`none`: nothing), and the number of its connection with the client that downloads. -/
structure Seeder where
  peerID : Bytes
  disk : List (Storage.Event × List Fate)
  past : List (Event × Luck)
  before : List (Event × Luck)
  ev : Nat → Option (Event × Luck)
  conn : Nat

/-- The client when it has the whole torrent. -/
def Seeder.ready (S : Seeder) (store : Storage.Cfg) : State := run ⟨store, S.peerID⟩ (init (Storage.run store S.disk World.empty)) S.past

/-- What has happened since then, before the moment `n`. -/
def Seeder.history (S : Seeder) : Nat → List (Event × Luck)
  | 0 => S.before
  | n + 1 => S.history n ++ (S.ev n).toList

/-- The state at the moment `n`. -/
def Seeder.at (S : Seeder) (store : Storage.Cfg) (n : Nat) : State := run ⟨store, S.peerID⟩ (S.ready store) (S.history n)

/-- The stream begins with message number `k` that was sent on connection `r`. -/
def Carries (s : State) (r k : Nat) (rd : Rd) : Prop := ∃ c w, s.peers[r]? = some c ∧ c.sent[k]? = some (PeerWire.ofWire w) ∧ Says rd w

/-- The client has the whole torrent, from the start or because it has downloaded it. -/
structure Seeder.Has (S : Seeder) (store : Storage.Cfg) : Prop where
  whole : (Storage.run store S.disk World.empty).mem ≠ none ∧ ∃ m, (S.ready store).storage.mem = some m ∧ TorrentResult m none
  /-- it has survived that, and the downloads are over -/
  idle : (S.ready store).alive = true ∧ ∀ j ∈ (S.ready store).jobs, j.stage = .handed
  /-- what was read until then will not kill it -/
  past : ∀ e ∈ S.past, Decent ⟨store, S.peerID⟩ e

/-- The client `S` has the whole torrent and works, and so does its connection with connection number `r` of the client whose states are `σ`: messages arrive in the order in which they
were sent. What happens on its other connections is arbitrary, as long as it does not kill the process. -/
structure Seeder.Works (S : Seeder) (store : Storage.Cfg) (σ : Nat → State) (r : Nat) : Prop extends S.Has store where
  /-- the connection was made when it had the torrent -/
  later : (S.ready store).peers.length ≤ S.conn
  /-- nothing has killed it before the moment 0, or will kill it because of what was read before -/
  decent : ∀ e ∈ S.before, Decent ⟨store, S.peerID⟩ e
  /-- nor does anything that happens later, what it reads on this connection excepted -/
  decent' : ∀ n e, S.ev n = some e → (∀ rd, e.1 ≠ .receive S.conn rd) → Decent ⟨store, S.peerID⟩ e
  /-- nor is it killed from outside -/
  powered : ∀ n e, S.ev n = some e → ∀ k, Fate.crash k ∉ e.2.fates
  /-- it is not shut down, and does not hang -/
  up : ∀ n, (S.at store n).cancelled = false ∧ (S.at store n).requesting = true ∧ (S.at store n).locked = false
  /-- its writes to the connection succeed -/
  writes : ∀ n, ∀ e ∈ S.history n, e.2.ok S.conn = true
  /-- it can read its files when it answers -/
  reads : ∀ n l, S.ev n = some (.handle S.conn, l) → ∀ f ∈ l.fates, f = .ok
  /-- the connection does not fail -/
  holds : ∀ n l, S.ev n ≠ some (.fails S.conn, l)
  /-- what it reads is what was written -/
  hears : ∀ n rd l, S.ev n = some (.receive S.conn rd, l) → ∃ d, (S.at store n).peers[S.conn]? = some d ∧ Carries (σ n) r d.received.length rd

/-- What may happen to the client that downloads: its goroutines go on, in any order; writes may fail, calls of the os do not; what it reads was written by the other side;
downloads of pieces do not time out; addresses become known. -/
def Allowed (cfg : Cfg) (S : Nat → Seeder) (n : Nat) (s : State) (e : Event × Luck) : Prop :=
  (∀ f ∈ e.2.fates, f = .ok) ∧
  match e.1 with
  | .receive r rd => ∃ c, s.peers[r]? = some c ∧ Carries ((S r).at cfg.store n) (S r).conn c.received.length rd
  | .handle _ | .select _ | .begin _ | .request _ _ | .hand _ | .clear _ | .again _ _ | .unchoke _ => True
  | .addPeer _ | .takeAddr | .spawn | .dialCheck _ => True
  | .finish _ res => res ≠ .failed
  | _ => False

/-- Connection number `s.peers.length` is made, with `S`, which has an address and an id of its own, already has the connection, and has sent its bitfield and one more message. -/
def Meets (cfg : Cfg) (S : Seeder) (n : Nat) (s s' : State) : Prop :=
  (∃ d p, (S.at cfg.store n).peers[S.conn]? = some d ∧ d.phase = .serving p ∧ d.closed = false ∧ d.received = []) ∧
  ∃ (ip : Bytes) (port : Nat) (e : Event) (hs bf un : Rd) (l : Luck), Arrives s ip port S.peerID e ∧ s.peers.length < 50 ∧ S.peerID.length = 20 ∧ S.peerID ≠ cfg.peerID ∧
    (∀ c ∈ s.peers, c.id ≠ S.peerID ∧ c.addr ≠ tcpAddr ip port) ∧ Shakes hs cfg.store.info.sha1 S.peerID ∧ Carries (S.at cfg.store n) S.conn 0 bf ∧ Carries (S.at cfg.store n) S.conn 1 un ∧
    l.ok s.peers.length = true ∧ (∀ f ∈ l.fates, f = .ok) ∧
    s' = run cfg s ([e, .check s.peers.length, .handshake s.peers.length hs, .register s.peers.length,
      .receive s.peers.length bf, .handle s.peers.length, .receive s.peers.length un, .handle s.peers.length].map fun e => (e, l))

/-- A client that has nothing at first, and whose connection number `r` is with `S r`. -/
structure Exchange (cfg : Cfg) (S : Nat → Seeder) (σ : Nat → State) (ev : Nat → Option (Event × Luck)) : Prop where
  start : σ 0 = init (Storage.run cfg.store [(.start, []), (.load, [])] ⟨⟨none, none⟩, none⟩)
  next : ∀ n, match ev n with
    | some e => Allowed cfg S n (σ n) e ∧ σ (n + 1) = step cfg (σ n) e
    | none => Meets cfg (S (σ n).peers.length) n (σ n) (σ (n + 1))
  /-- everybody who joins works -/
  seeders : ∀ n, ev n = none → (S (σ n).peers.length).Works cfg.store σ (σ n).peers.length

/-- Nothing is neglected for ever. -/
structure FairExchange (cfg : Cfg) (X : List Bytes) (S : Nat → Seeder) (σ : Nat → State) (ev : Nat → Option (Event × Luck)) : Prop extends Diligent X σ ev where
  /-- what a seeder has written is read -/
  brings : ∀ r : Nat, Weakly (fun n => ∃ c d, (σ n).peers[r]? = some c ∧ c.phase = .serving none ∧ ((S r).at cfg.store n).peers[(S r).conn]? = some d ∧ c.received.length < d.sent.length)
    fun n => ∃ rd, Happens ev n (.receive r rd)
  /-- what was written to a seeder is read by it -/
  listens : ∀ r : Nat, Weakly (fun n => ∃ c d, (σ n).peers[r]? = some c ∧ ((S r).at cfg.store n).peers[(S r).conn]? = some d ∧ d.phase = .serving none ∧ d.received.length < c.sent.length)
    fun n => ∃ rd, Happens (S r).ev n (.receive (S r).conn rd)
  /-- and handled -/
  gives : ∀ r : Nat, Weakly (fun n => ∃ d msg, ((S r).at cfg.store n).peers[(S r).conn]? = some d ∧ d.phase = .serving (some msg)) fun n => Happens (S r).ev n (.handle (S r).conn)

end Drip.Spec
