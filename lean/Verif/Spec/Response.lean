import Verif.Spec.Address
import Verif.Spec.TorrentFile
import Verif.Model.Tracker
/-
The layout of a tracker response (BEP 3, with the compact peer lists of BEP 23), independently of struct tags and of the
codec.
-/

namespace Drip.Spec
open Bencode

/-- A Go slice; nil if it is empty. -/
def nilIfEmpty {α : Type} (l : List α) : Option (List α) := if l.length = 0 then none else some l

/-- A list of peers: six bytes each in a string, or dictionaries. -/
def IsPeers (t : CTree) (p : Tracker.Peers) : Prop :=
  t.Valid true (2 ^ 63) ∧
  ((∃ l, ∃ eps : List Endpoint, t = .str l (eps.flatMap Endpoint.six) ∧ (∀ e ∈ eps, e.port < 65536) ∧
      p = ⟨true, nilIfEmpty (eps.map fun e => ⟨[], e.ip, e.port⟩)⟩) ∨
    ∃ ts qs, t = .list ts ∧ List.Forall₂ (fun t (q : Tracker.Peer) => PeerDict t.abs q.id q.ip q.port) ts qs ∧ p = ⟨false, nilIfEmpty qs⟩)

/-- The keys of a tracker response. -/
def responseKeys : List Bytes :=
  [b!"failure reason", b!"interval", b!"peers", b!"warning reason", b!"min interval", b!"tracker id", b!"complete", b!"incomplete"]

/-- A tracker response, and what is read from it. -/
structure IsResponse (es : List (Bytes × Bytes × CTree)) (r : Tracker.Response) : Prop where
  keys : KeysFrom [] es
  others : OthersOk responseKeys es
  failureReason : Entry es b!"failure reason" (.str []) IsStr (.str r.failureReason)
  interval : Entry es b!"interval" (.int 0) IsInt (.int r.interval)
  peers : ((∀ e ∈ es, e.2.1 ≠ b!"peers") ∧ r.peers = none) ∨ ∃ l t p, (l, b!"peers", t) ∈ es ∧ IsPeers t p ∧ r.peers = some p
  warningReason : Entry es b!"warning reason" (.str []) IsStr (.str r.warningReason)
  minInterval : Entry es b!"min interval" (.int 0) IsInt (.int r.minInterval)
  trackerID : Entry es b!"tracker id" (.str []) IsStr (.str r.trackerID)
  complete : Entry es b!"complete" (.int 0) IsInt (.int r.complete)
  incomplete : Entry es b!"incomplete" (.int 0) IsInt (.int r.incomplete)

/-! ### Writing -/

/-- An entry of a list of peers. -/
def peerTree (q : Tracker.Peer) : BVal := .dict [(b!"ip", .str q.ip), (b!"peer id", .str q.id), (b!"port", .int q.port)]

/-- How peers are written. In the compact form each must have an IPv4 address; of its port the lower 16 bits are written. -/
def PeersTree (p : Tracker.Peers) (b : BVal) : Prop :=
  (p.compact = true ∧ ∃ s, CompactForm ((p.list.getD []).map fun q => (q.ip, q.port)) s ∧ b = .str s) ∨
  (p.compact = false ∧ ∃ qs, p.list = some qs ∧ b = .list (qs.map peerTree))

/-- The entry of the peers, if any. -/
def PeersEntry : Option Tracker.Peers → List (Bytes × BVal) → Prop
  | none, bs => bs = []
  | some p, bs => ∃ b, PeersTree p b ∧ bs = [(b!"peers", b)]

/-- A tracker response: the interval is always there, everything else only if it says something. -/
def responseTree (r : Tracker.Response) (peers : List (Bytes × BVal)) : BVal :=
  .dict (optInt b!"complete" r.complete ++ optStr b!"failure reason" r.failureReason ++ optInt b!"incomplete" r.incomplete ++
    [(b!"interval", .int r.interval)] ++ optInt b!"min interval" r.minInterval ++ peers ++ optStr b!"tracker id" r.trackerID ++
    optStr b!"warning reason" r.warningReason)

end Drip.Spec
