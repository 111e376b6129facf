import Verif.Model.Basic
/-
BEP 3 peer wire format, written from the protocol description, independently of the model of api/peer/peer.go.
-/

namespace Drip.Spec

/-- The messages of the peer wire protocol. -/
inductive Wire where
  | keepalive | choke | unchoke | interested | notInterested
  | have_ (index : Nat)
  | bitfield (b : Bytes)
  | request (index begin length : Nat)
  | piece (index begin : Nat) (block : Bytes)
  | cancel (index begin length : Nat)
  deriving DecidableEq, Repr

/-- A 32-bit big-endian integer. -/
def u32 (n : Nat) : Bytes :=
  [UInt8.ofNat (n / 2 ^ 24), UInt8.ofNat (n / 2 ^ 16), UInt8.ofNat (n / 2 ^ 8), UInt8.ofNat n]

/-- Message id and payload; `none` for keepalive. -/
def Wire.content : Wire → Option (UInt8 × Bytes)
  | .keepalive => none
  | .choke => some (0, [])
  | .unchoke => some (1, [])
  | .interested => some (2, [])
  | .notInterested => some (3, [])
  | .have_ i => some (4, u32 i)
  | .bitfield b => some (5, b)
  | .request i b l => some (6, u32 i ++ u32 b ++ u32 l)
  | .piece i b d => some (7, u32 i ++ u32 b ++ d)
  | .cancel i b l => some (8, u32 i ++ u32 b ++ u32 l)

/-- `<length prefix><id><payload>`. -/
def Wire.bytes (w : Wire) : Bytes :=
  match w.content with
  | none => u32 0
  | some (id, payload) => u32 (1 + payload.length) ++ id :: payload

/-- Every field fits its 32-bit slot, and so does the length prefix. -/
def Wire.Fits : Wire → Prop
  | .have_ i => i < 2 ^ 32
  | .bitfield b => 1 + b.length < 2 ^ 32
  | .request i b l => i < 2 ^ 32 ∧ b < 2 ^ 32 ∧ l < 2 ^ 32
  | .piece i b d => i < 2 ^ 32 ∧ b < 2 ^ 32 ∧ 9 + d.length < 2 ^ 32
  | .cancel i b l => i < 2 ^ 32 ∧ b < 2 ^ 32 ∧ l < 2 ^ 32
  | _ => True

/-- The number announced by the first four bytes of a stream. -/
def announced : Bytes → Nat
  | a :: b :: c :: d :: _ => a.toNat * 2 ^ 24 + b.toNat * 2 ^ 16 + c.toNat * 2 ^ 8 + d.toNat
  | _ => 0

/-- Bytes required after the id byte, by id. -/
def minBody (id : UInt8) : Nat :=
  if id = 4 then 4 else if id = 6 then 12 else if id = 7 then 8 else if id = 8 then 12 else 0

end Drip.Spec
