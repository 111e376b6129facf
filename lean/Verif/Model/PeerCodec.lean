import Verif.Model.PeerWire
/-
Model of the rest of /repo/api/peer/peer.go: encoding to a writer that may fail, decoding into a value that has been used before, and the methods on byte slices.
-/

namespace Drip.PeerWire

/-- An `io.Writer` (peer.go:48, 287): what has been written to it, and what the next calls of `Write` do: how many bytes they take (`none`: all) and whether they return without an
error. When the list is used up everything is taken. -/
structure Wr where
  out : Bytes := []
  script : List (Option Nat × Bool) := []
  deriving DecidableEq, Repr

/-- One `Write` (peer.go:56, 321, 328): the number it returns and whether `err` is nil. -/
def Wr.write (d : Bytes) (w : Wr) : Nat × Bool × Wr :=
  match w.script with
  | [] => (d.length, true, { w with out := w.out ++ d })
  | (n, ok) :: s => (min (n.getD d.length) d.length, ok, { out := w.out ++ d.take (n.getD d.length), script := s })

/-- peer.go:48-58 `Handshake.Encode`. The number of bytes written is not looked at. -/
def Handshake.encodeTo (h : Handshake) (w : Wr) : Res Unit × Wr :=
  match w.write h.encode with
  | (_, ok, w) => (if ok then .ok () else .err .conn, w)

/-- peer.go:288-320: `fixedData` and `variableData`. -/
def Message.parts (m : Message) : Bytes × Bytes :=
  if m.typ = KEEPALIVE then ([0, 0, 0, 0], [])
  else if m.typ = CHOKE ∨ m.typ = UNCHOKE ∨ m.typ = INTERESTED ∨ m.typ = NOT_INTERESTED then (put32 1 ++ [typeByte m.typ], [])
  else if m.typ = BITFIELD then (put32 (1 + m.bitfield.length) ++ [typeByte m.typ], m.bitfield)
  else if m.typ = HAVE then (put32 (1 + 4) ++ [typeByte m.typ] ++ put32 m.index, [])
  else if m.typ = REQUEST ∨ m.typ = CANCEL then
    (put32 (1 + 12) ++ [typeByte m.typ] ++ put32 m.index ++ put32 m.begin ++ put32 m.length, [])
  else if m.typ = PIECE then (put32 (1 + 8 + m.piece.length) ++ [typeByte m.typ] ++ put32 m.index ++ put32 m.begin, m.piece)
  else ([], [])

/-- peer.go:287-336 `Message.Encode`: two calls of `Write`, also when there is nothing more to write; a short write without an error panics. -/
def Message.encodeTo (m : Message) (w : Wr) : Res Unit × Wr :=
  match w.write m.parts.1 with
  | (n, ok, w) =>
    if !ok then (.err .conn, w)
    else if n < m.parts.1.length then (.panic, w)
    else
      match w.write m.parts.2 with
      | (n, ok, w) =>
        if !ok then (.err .conn, w)
        else if n < m.parts.2.length then (.panic, w)
        else (.ok (), w)

/-- peer.go:60-66 `Handshake.MarshalBinary` (a `bytes.Buffer` takes everything). -/
def Handshake.marshal (h : Handshake) : Res Bytes :=
  match h.encodeTo {} with
  | (.ok (), w) => .ok w.out
  | (.err e, _) => .err e
  | (.panic, _) => .panic

/-- peer.go:338-345 `Message.MarshalBinary` (a `bytes.Buffer` takes everything). -/
def Message.marshal (m : Message) : Res Bytes :=
  match m.encodeTo {} with
  | (.ok (), w) => .ok w.out
  | (.err e, _) => .err e
  | (.panic, _) => .panic

/-- `bytes.NewReader` (peer.go:91, 382). -/
def bytesReader (data : Bytes) : Rd := if data = [] then { chunks := [] } else { chunks := [data] }

/-- peer.go:68-88 `Handshake.Decode` into `old`: the outcome (with what is left of the stream) and the value afterwards. -/
def Handshake.decodeInto (old : Handshake) (r : Rd) : Res Rd × Handshake :=
  match r.read 1 with
  | .err e => (.err e, old)
  | .panic => (.panic, old)
  | .ok (d0, r) =>
    if (d0.headD 0).toNat ≠ protocol.length then (.err .badProtocol, old)
    else match r.readFull (handshakeLength - 1) with
      | .err e => (.err e, old)
      | .panic => (.panic, old)
      | .ok (rest, r) =>
        let data := d0 ++ rest
        let protocolLen := (data.headD 0).toNat
        if (data.drop 1).take protocolLen ≠ protocol then (.err .badProtocol, old)
        else
          let curr := 1 + protocolLen + 8
          (.ok r, { old with infoHash := (data.drop curr).take 20, peerID := (data.drop (curr + 20)).take 20 })

/-- peer.go:361-377: the payload (not empty) into a message. -/
def Message.fill (old : Message) (payload : Bytes) : Res Unit × Message :=
  let m := { old with typ := ((payload.headD 0).toNat : Int) }
  let payload := payload.drop 1
  if m.typ = CHOKE ∨ m.typ = UNCHOKE ∨ m.typ = INTERESTED ∨ m.typ = NOT_INTERESTED then (.ok (), m)
  else if m.typ = BITFIELD then (.ok (), { m with bitfield := payload })
  else if m.typ = HAVE then
    match slice payload 0 4 with
    | .ok i => (.ok (), { m with index := be32 i })
    | _ => (.panic, m)
  else if m.typ = REQUEST ∨ m.typ = CANCEL then
    match slice payload 0 4 with
    | .ok i =>
      let m := { m with index := (be32 i : Int) }
      match slice payload 4 8 with
      | .ok b =>
        let m := { m with begin := (be32 b : Int) }
        match slice payload 8 12 with
        | .ok l => (.ok (), { m with length := be32 l })
        | _ => (.panic, m)
      | _ => (.panic, m)
    | _ => (.panic, m)
  else if m.typ = PIECE then
    match slice payload 0 4 with
    | .ok i =>
      let m := { m with index := (be32 i : Int) }
      match slice payload 4 8 with
      | .ok b =>
        let m := { m with begin := (be32 b : Int) }
        match slice payload 8 payload.length with
        | .ok d => (.ok (), { m with piece := d })
        | _ => (.panic, m)
      | _ => (.panic, m)
    | _ => (.panic, m)
  else (.ok (), m)

/-- peer.go:347-379 `Message.Decode` into `old`. -/
def Message.decodeInto (old : Message) (r : Rd) : Res Rd × Message :=
  match r.readFull 4 with
  | .err e => (.err e, old)
  | .panic => (.panic, old)
  | .ok (lengthBytes, r) =>
    if be32 lengthBytes = 0 then (.ok r, { old with typ := KEEPALIVE })
    else match r.readFull (be32 lengthBytes) with
      | .err e => (.err e, old)
      | .panic => (.panic, old)
      | .ok (payload, r) =>
        match old.fill payload with
        | (.ok (), m) => (.ok r, m)
        | (.err e, m) => (.err e, m)
        | (.panic, m) => (.panic, m)

/-- peer.go:90-92 `Handshake.UnmarshalBinary`. -/
def Handshake.unmarshal (old : Handshake) (data : Bytes) : Res Rd × Handshake := old.decodeInto (bytesReader data)

/-- peer.go:381-383 `Message.UnmarshalBinary`. -/
def Message.unmarshal (old : Message) (data : Bytes) : Res Rd × Message := old.decodeInto (bytesReader data)

/-- peer.go:348, 357: the sizes of the buffers that `Message.Decode` allocates. -/
def Message.buffers (r : Rd) : List Nat :=
  match r.readFull 4 with
  | .ok (lengthBytes, _) => if be32 lengthBytes = 0 then [4] else [4, be32 lengthBytes]
  | _ => [4]

end Drip.PeerWire
