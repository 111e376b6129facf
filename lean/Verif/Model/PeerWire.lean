import Verif.Model.Reader
/-
Model of /repo/api/peer/peer.go: the handshake and the messages of the peer wire protocol.
-/

namespace Drip.PeerWire

/-- peer.go:39 `HandshakeProtocol`. -/
def protocol : Bytes := b!"BitTorrent protocol"

/-- peer.go:40 `HandshakeLength`. -/
def handshakeLength : Nat := 1 + protocol.length + 8 + 20 + 20

/-- peer.go:43-46 `Handshake`. The arrays are `[20]byte`; lists here, with the length as a side condition (`WF`). -/
structure Handshake where
  infoHash : Bytes
  peerID : Bytes
  deriving DecidableEq, Repr

/-- `[20]byte` fields have 20 bytes. -/
def Handshake.WF (h : Handshake) : Prop := h.infoHash.length = 20 ∧ h.peerID.length = 20

/-- peer.go:48-58 `Handshake.Encode`: the bytes given to the single `w.Write`. -/
def Handshake.encode (h : Handshake) : Bytes :=
  [UInt8.ofNat protocol.length] ++ protocol ++ List.replicate 8 0 ++ h.infoHash ++ h.peerID

/-- peer.go:80-87, the part of `Handshake.Decode` after all 68 bytes of `data` have been read. -/
def Handshake.parse (data : Bytes) : Res Handshake :=
  let protocolLen := (data.headD 0).toNat
  if (data.drop 1).take protocolLen ≠ protocol then .err .badProtocol
  else
    let curr := 1 + protocolLen + 8
    .ok { infoHash := (data.drop curr).take 20, peerID := (data.drop (curr + 20)).take 20 }

/-- peer.go:68-88 `Handshake.Decode` (via `ReadHandshake`, peer.go:14-20). The first byte is read by a bare `r.Read`:
when that returns `(0, nil)` the buffer byte is still 0. -/
def Handshake.decode (r : Rd) : Res (Handshake × Rd) :=
  r.read 1 >>= fun (d0, r) =>
  if (d0.headD 0).toNat ≠ protocol.length then .err .badProtocol
  else
    r.readFull (handshakeLength - 1) >>= fun (rest, r) =>
    Handshake.parse (d0 ++ rest) >>= fun h => .ok (h, r)

/-- peer.go:131-138 `Message`. `typ` is the `MessageType` (an `int`, -1 for KEEPALIVE). -/
structure Message where
  typ : Int
  bitfield : Bytes := []
  index : Int := 0
  begin : Int := 0
  length : Int := 0
  piece : Bytes := []
  deriving DecidableEq, Repr

/-! peer.go:96-108: the message types. -/
/-- peer.go:98. -/
def KEEPALIVE : Int := -1
/-- peer.go:99. -/
def CHOKE : Int := 0
/-- peer.go:100. -/
def UNCHOKE : Int := 1
/-- peer.go:101. -/
def INTERESTED : Int := 2
/-- peer.go:102. -/
def NOT_INTERESTED : Int := 3
/-- peer.go:103. -/
def HAVE : Int := 4
/-- peer.go:104. -/
def BITFIELD : Int := 5
/-- peer.go:105. -/
def REQUEST : Int := 6
/-- peer.go:106. -/
def PIECE : Int := 7
/-- peer.go:107. -/
def CANCEL : Int := 8

/-! peer.go:140-209: the constructors. -/
/-- peer.go:140-144 `Keepalive`. -/
def keepalive : Message := { typ := KEEPALIVE }
/-- peer.go:146-150 `Choke`. -/
def choke : Message := { typ := CHOKE }
/-- peer.go:152-156 `Unchoke`. -/
def unchoke : Message := { typ := UNCHOKE }
/-- peer.go:158-162 `Interested`. -/
def interested : Message := { typ := INTERESTED }
/-- peer.go:164-168 `NotInterested`. -/
def notInterested : Message := { typ := NOT_INTERESTED }
/-- peer.go:170-175 `Have`. -/
def have_ (index : Int) : Message := { typ := HAVE, index }
/-- peer.go:177-182 `Bitfield`. -/
def bitfieldMsg (b : Bytes) : Message := { typ := BITFIELD, bitfield := b }
/-- peer.go:184-191 `Request`. -/
def request (index begin length : Int) : Message := { typ := REQUEST, index, begin, length }
/-- peer.go:193-200 `Piece`. -/
def pieceMsg (index begin : Int) (piece : Bytes) : Message := { typ := PIECE, index, begin, piece }
/-- peer.go:202-209 `Cancel`. -/
def cancel (index begin length : Int) : Message := { typ := CANCEL, index, begin, length }

/-- peer.go:211-218 `Message.Bitfield()`. -/
def Message.getBitfield (m : Message) : Res Bytes := if m.typ = BITFIELD then .ok m.bitfield else .panic
/-- peer.go:220-227 `Message.Index()`. -/
def Message.getIndex (m : Message) : Res Int :=
  if m.typ = HAVE ∨ m.typ = REQUEST ∨ m.typ = CANCEL ∨ m.typ = PIECE then .ok m.index else .panic
/-- peer.go:229-236 `Message.Begin()`. -/
def Message.getBegin (m : Message) : Res Int :=
  if m.typ = REQUEST ∨ m.typ = CANCEL ∨ m.typ = PIECE then .ok m.begin else .panic
/-- peer.go:238-245 `Message.Length()`. -/
def Message.getLength (m : Message) : Res Int :=
  if m.typ = REQUEST ∨ m.typ = CANCEL then .ok m.length else .panic
/-- peer.go:247-254 `Message.Piece()`. -/
def Message.getPiece (m : Message) : Res Bytes := if m.typ = PIECE then .ok m.piece else .panic

/-- `byte(m.Type)`, peer.go:295 etc. -/
def typeByte (t : Int) : UInt8 := UInt8.ofNat (t % 256).toNat

/-- peer.go:287-336 `Message.Encode`: the bytes given to the two `w.Write` calls (fixedData, then variableData), for a
writer that accepts everything. An unknown type writes nothing. -/
def Message.encode (m : Message) : Bytes :=
  if m.typ = KEEPALIVE then [0, 0, 0, 0]
  else if m.typ = CHOKE ∨ m.typ = UNCHOKE ∨ m.typ = INTERESTED ∨ m.typ = NOT_INTERESTED then
    put32 1 ++ [typeByte m.typ]
  else if m.typ = BITFIELD then
    (put32 (1 + m.bitfield.length) ++ [typeByte m.typ]) ++ m.bitfield
  else if m.typ = HAVE then
    put32 (1 + 4) ++ [typeByte m.typ] ++ put32 m.index
  else if m.typ = REQUEST ∨ m.typ = CANCEL then
    put32 (1 + 12) ++ [typeByte m.typ] ++ put32 m.index ++ put32 m.begin ++ put32 m.length
  else if m.typ = PIECE then
    (put32 (1 + 8 + m.piece.length) ++ [typeByte m.typ] ++ put32 m.index ++ put32 m.begin) ++ m.piece
  else []

/-- `payload[lo:hi]`: slicing beyond the capacity panics; the payload's capacity is its length (peer.go:357,362). -/
def slice (p : Bytes) (lo hi : Nat) : Res Bytes :=
  if lo ≤ hi ∧ hi ≤ p.length then .ok ((p.drop lo).take (hi - lo)) else .panic

/-- peer.go:361-377, the part of `Message.Decode` after the payload has been read. `payload` is not empty there
(length 0 returns earlier), so `payload[0]` does not panic. -/
def decodePayload (payload : Bytes) : Res Message :=
  let t : Int := (payload.headD 0).toNat
  let payload := payload.drop 1
  if t = CHOKE ∨ t = UNCHOKE ∨ t = INTERESTED ∨ t = NOT_INTERESTED then .ok { typ := t }
  else if t = BITFIELD then .ok { typ := t, bitfield := payload }
  else if t = HAVE then
    slice payload 0 4 >>= fun i => .ok { typ := t, index := be32 i }
  else if t = REQUEST ∨ t = CANCEL then
    slice payload 0 4 >>= fun i =>
    slice payload 4 8 >>= fun b =>
    slice payload 8 12 >>= fun l =>
    .ok { typ := t, index := be32 i, begin := be32 b, length := be32 l }
  else if t = PIECE then
    slice payload 0 4 >>= fun i =>
    slice payload 4 8 >>= fun b =>
    slice payload 8 payload.length >>= fun d =>
    .ok { typ := t, index := be32 i, begin := be32 b, piece := d }
  else .ok { typ := t }

/-- peer.go:347-379 `Message.Decode` into a zero `Message` (as `ReadMessage`, peer.go:22-28, does). -/
def Message.decode (r : Rd) : Res (Message × Rd) :=
  r.readFull 4 >>= fun (lengthBytes, r) =>
  let length := be32 lengthBytes
  if length = 0 then .ok ({ typ := KEEPALIVE }, r)
  else
    r.readFull length >>= fun (payload, r) =>
    decodePayload payload >>= fun m => .ok (m, r)

/-- Repeated `ReadMessage` until it fails: the messages read and the outcome that stopped it (as the loop of
p2p/peer.go:177-192 does, without handling the messages). `fuel` bounds the number of reads. -/
def readAll : Nat → Rd → List Message × Res Unit
  | 0, _ => ([], .ok ())
  | n + 1, r =>
    match Message.decode r with
    | .ok (m, r') => let (ms, e) := readAll n r'; (m :: ms, e)
    | .err e => ([], .err e)
    | .panic => ([], .panic)

end Drip.PeerWire
