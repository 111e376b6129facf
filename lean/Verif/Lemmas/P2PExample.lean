import Verif.Model.P2P
import Verif.Lemmas.StorageLoad
import Verif.Model.KernelRfl
/-
A small torrent and histories with it, for the examples and counterexamples of Props/P2P*.lean.
-/

namespace Drip.P2P.Ex
open PeerWire Metainfo
open Storage (Fate World Mem)

/-- Two pieces of 4 and 2 bytes. The "hash" is the identity. -/
def store : Storage.Cfg :=
  { info := { sha1 := List.replicate 20 7, pieceLength := 4, pieces := [[1, 2, 3, 4], [5, 6]], name := [120], length := 6 }, sha1 := id }

/-- Our id is 1, 1, … -/
def cfg : Cfg := ⟨store, List.replicate 20 1⟩

/-- Another id. -/
def id' (n : UInt8) : Bytes := List.replicate 20 n

/-- A storage without any piece, with the second one, with both. -/
def nothing : World := Storage.run store [(.start, [])] World.empty
def second : World := Storage.run store [(.start, []), (.put 1 0 [5, 6], [])] World.empty
def everything : World := Storage.run store [(.start, []), (.put 1 0 [5, 6], []), (.put 0 0 [1, 2, 3, 4], [])] World.empty

/-- The handshake of somebody with the right torrent. -/
def shake (id : Bytes) : Rd := ⟨[Handshake.encode ⟨store.info.sha1, id⟩], .eof⟩

/-- A message on the wire. -/
def says (m : Message) : Rd := ⟨[m.encode], .eof⟩

/-- All writes and os calls succeed. -/
def fine (es : List Event) : List (Event × Luck) := es.map fun e => (e, {})

/-- The address 10.0.0.`n`. -/
def ip (n : UInt8) : Bytes := [0, 0, 0, 0, 0, 0, 0, 0, 0, 0, 255, 255, 10, 0, 0, n]

/-- Connection `r` comes in from 10.0.0.`n` and gets connected as `id`. -/
def joins (r : Ref) (n : UInt8) (id : Bytes) : List Event := [.accept (ip n) 5000, .check r, .handshake r (shake id), .register r]

/-- A message is received and handled. -/
def gets (r : Ref) (m : Message) : List Event := [.receive r (says m), .handle r]

end Drip.P2P.Ex
