import Verif.Model.P2P
import Verif.Spec.PeerWire
import Verif.Spec.Address
/-
Downloading from seeders: peers that have the whole torrent, never choke us again after they have unchoked us, and answer what they are asked.
-/

namespace Drip.Spec
open P2P

/-- The stream begins with the message, in whatever portions, and anything may follow. -/
def Says (rd : Rd) (w : Wire) : Prop := w.Fits ∧ ∃ rest, rd.flat = w.bytes ++ rest

/-- The stream begins with the handshake of `id` for the torrent `hash`, in whatever portions that are not empty. -/
def Shakes (rd : Rd) (hash id : Bytes) : Prop :=
  (∀ c ∈ rd.chunks, c ≠ []) ∧ ∃ rest, rd.flat = 19 :: b!"BitTorrent protocol" ++ List.replicate 8 0 ++ hash ++ id ++ rest

/-- A bitfield in which exactly the first `n` bits are set, the high bit of the first byte being the first. -/
def AllBits (n : Nat) (b : Bytes) : Prop := b.length = (n + 7) / 8 ∧ ∀ i, (b.getD (i / 8) 0).toNat.testBit (7 - i % 8) = decide (i < n)

/-- The block of the content `X` (a list of pieces) that was asked for. -/
def reply (X : List Bytes) (index begin length : Nat) : Wire := .piece index begin (((X.getD index []).drop begin).take length)

/-- What may happen during the download: the goroutines of the client go on, in any order; writes may fail, calls of the os do not; what
arrives is the answer to a request; downloads of pieces do not time out; addresses become known. -/
def Honest (X : List Bytes) (s : State) (e : Event × Luck) : Prop :=
  (∀ f ∈ e.2.fates, f = .ok) ∧
  match e.1 with
  | .receive r rd => ∃ c i b l, s.peers[r]? = some c ∧ PeerWire.request (i : Nat) (b : Nat) (l : Nat) ∈ c.sent ∧ Says rd (reply X i b l)
  | .handle _ | .select _ | .begin _ | .request _ _ | .hand _ | .clear _ | .again _ _ | .unchoke _ => True
  | .addPeer _ | .takeAddr | .spawn | .dialCheck _ => True
  | .finish _ res => res ≠ .failed
  | _ => False

/-- The first event of a connection with somebody at `ip`, `port` whose id is `id`: it comes in, or an IPv4 address that somebody gave us is dialled (and the
id that was given with it, if any, is the right one). -/
def Arrives (s : State) (ip : Bytes) (port : Nat) (id : Bytes) (e : Event) : Prop :=
  (e = .accept ip port ∧ slots s < 50) ∨
  ∃ k tp, e = .dial k true ∧ s.dialers[k]? = some (tp, true) ∧ (∃ a b c d, tp.ip = dotted a b c d ∧ ip = mapped a b c d) ∧ tp.port = port ∧ port < 65536 ∧
    ((tp.id ++ List.replicate 20 0).take 20 = List.replicate 20 0 ∨ (tp.id ++ List.replicate 20 0).take 20 = id)

/-- A seeder joins: it has an id and an address of its own, sends a bitfield and unchokes us. -/
def Joins (cfg : Cfg) (X : List Bytes) (s s' : State) : Prop :=
  ∃ (ip id b : Bytes) (port : Nat) (e : Event) (hs bf un : Rd) (l : Luck), Arrives s ip port id e ∧ s.peers.length < 50 ∧ id.length = 20 ∧ id ≠ cfg.peerID ∧
    (∀ c ∈ s.peers, c.id ≠ id ∧ c.addr ≠ tcpAddr ip port) ∧ Shakes hs cfg.store.info.sha1 id ∧ Says bf (.bitfield b) ∧ AllBits X.length b ∧ Says un .unchoke ∧
    l.ok s.peers.length = true ∧ (∀ f ∈ l.fates, f = .ok) ∧
    s' = run cfg s ([e, .check s.peers.length, .handshake s.peers.length hs, .register s.peers.length,
      .receive s.peers.length bf, .handle s.peers.length, .receive s.peers.length un, .handle s.peers.length].map fun e => (e, l))

/-- The states that are reached when all connections are with seeders of the torrent with content `X`. -/
inductive Seeded (cfg : Cfg) (X : List Bytes) : State → Prop
  /-- nothing has been downloaded -/
  | start : Seeded cfg X (init (Storage.run cfg.store [(.start, []), (.load, [])] ⟨⟨none, none⟩, none⟩))
  /-- a seeder joins -/
  | join {s s' : State} : Seeded cfg X s → Joins cfg X s s' → Seeded cfg X s'
  /-- the download goes on -/
  | step {s : State} {e : Event × Luck} : Seeded cfg X s → Honest X s e → Seeded cfg X (P2P.step cfg s e)

/-- A history in which the download goes on. -/
def HonestRun (cfg : Cfg) (X : List Bytes) : State → List (Event × Luck) → Prop
  | _, [] => True
  | s, e :: es => Honest X s e ∧ HonestRun cfg X (step cfg s e) es

end Drip.Spec
