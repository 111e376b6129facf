import Verif.Spec.Bencode
import Verif.Spec.Query
/-
The tracker protocol, independently of the model of the Go package.
-/

namespace Drip.Spec

/-- `int64`. -/
def FitsInt64 (n : Int) : Prop := -2 ^ 63 ≤ n ∧ n < 2 ^ 63

/-- The parameters of an announce (BEP 3 and BEP 23): names and values. -/
def announceParams (infoHash peerID ip : Bytes) (port uploaded downloaded left : Int) (event : Bytes) (compact : Bool) :
    List (Bytes × Bytes) := [
  (b!"info_hash", infoHash), (b!"peer_id", peerID), (b!"ip", ip), (b!"port", decInt port), (b!"uploaded", decInt uploaded),
  (b!"downloaded", decInt downloaded), (b!"left", decInt left), (b!"event", event), (b!"compact", if compact then b!"1" else b!"0")]

/-- Dotted decimal notation. -/
def dotted (a b c d : UInt8) : Bytes := decNat a.toNat ++ 46 :: decNat b.toNat ++ 46 :: decNat c.toNat ++ 46 :: decNat d.toNat

/-- An IPv4 address and a port. -/
structure Endpoint where
  (a b c d : UInt8)
  port : Nat

/-- BEP 23: four bytes of address, two bytes of port, in network byte order. -/
def Endpoint.six (e : Endpoint) : Bytes := [e.a, e.b, e.c, e.d, UInt8.ofNat (e.port / 256), UInt8.ofNat (e.port % 256)]

/-- The text of the address. -/
def Endpoint.ip (e : Endpoint) : Bytes := dotted e.a e.b e.c e.d

/-- BEP 3: an entry of a list of peers is a dictionary with a peer id, an address and a port; other keys are allowed. -/
def PeerDict (v : BVal) (id ip : Bytes) (port : Int) : Prop :=
  ∃ es, v = .dict es ∧ (b!"peer id", .str id) ∈ es ∧ (b!"ip", .str ip) ∈ es ∧ (b!"port", .int port) ∈ es

end Drip.Spec
