import Verif.Model.Url
import Verif.Model.Net
import Verif.Model.Bencode.Decode
import Verif.Model.Bencode.Encode
/-
Model of /repo/api/tracker/tracker.go. The two `[20]byte` arrays are byte strings; `int` and `int64` are integers.
-/

namespace Drip.Tracker
open Bencode

/-- tracker.go:14-25 `Request`. -/
structure Request where
  infoHash : Bytes
  peerID : Bytes
  ip : Bytes
  port : Int
  uploaded : Int
  downloaded : Int
  left : Int
  event : Bytes
  compact : Bool
  deriving DecidableEq, Repr

/-- The zero `Request` (tracker.go:14-25). -/
def Request.zero : Request := ⟨List.replicate 20 0, List.replicate 20 0, [], 0, 0, 0, 0, [], false⟩

/-- tracker.go:36-53: the entries of the map. -/
def Request.params (r : Request) : List (Bytes × Bytes) := [
  (b!"info_hash", r.infoHash),
  (b!"peer_id", r.peerID),
  (b!"ip", r.ip),
  (b!"port", intDec r.port),
  (b!"uploaded", intDec r.uploaded),
  (b!"downloaded", intDec r.downloaded),
  (b!"left", intDec r.left),
  (b!"event", r.event),
  (b!"compact", if r.compact then b!"1" else b!"0"),
  (b!"no_peer_id", []),
  (b!"numwant", []),
  (b!"key", []),
  (b!"trackerid", [])]

/-- tracker.go:34-59 `Encode`. The iteration order of the map does not matter because `url.Values.Encode` sorts. -/
def Request.encode (r : Request) : Bytes := Url.encode (r.params.filter fun p => p.2 ≠ [])

/-- tracker.go:86: `copy((*dest)[:], v)` into an array of 20 bytes. -/
def copy20 (dest v : Bytes) : Bytes := v.take 20 ++ dest.drop v.length

/-- tracker.go:80-103, the body of the loop for one key: skipped if the value is empty. -/
def param (ps : List (Bytes × Bytes)) (k : Bytes) (f : Bytes → Request → Res Request) (r : Request) : Res Request :=
  if Url.get ps k = [] then .ok r else f (Url.get ps k) r

/-- tracker.go:89-99: an integer parameter. -/
def intParam (f : Int → Request → Request) (v : Bytes) (r : Request) : Res Request :=
  match parseInt v with
  | some i => .ok (f i r)
  | none => .err .badQuery

/-- tracker.go:61-105 `Decode`. -/
def Request.decode (r : Request) (rawQuery : Bytes) : Res Request := do
  let q := Url.parseQuery rawQuery
  if q.2 then .err .badQuery
  else
    let r ← param q.1 b!"info_hash" (fun v r => .ok { r with infoHash := copy20 r.infoHash v }) r
    let r ← param q.1 b!"peer_id" (fun v r => .ok { r with peerID := copy20 r.peerID v }) r
    let r ← param q.1 b!"ip" (fun v r => .ok { r with ip := v }) r
    let r ← param q.1 b!"port" (intParam fun i r => { r with port := i }) r
    let r ← param q.1 b!"uploaded" (intParam fun i r => { r with uploaded := i }) r
    let r ← param q.1 b!"downloaded" (intParam fun i r => { r with downloaded := i }) r
    let r ← param q.1 b!"left" (intParam fun i r => { r with left := i }) r
    let r ← param q.1 b!"event" (fun v r => .ok { r with event := v }) r
    param q.1 b!"compact" (fun v r => .ok { r with compact := v == b!"1" }) r

/-- tracker.go:203-207 `Peer`. -/
structure Peer where
  id : Bytes
  ip : Bytes
  port : Int
  deriving DecidableEq, Repr

/-- tracker.go:120-123 `Peers`; `list = none` is the nil slice. The elements are non-nil pointers. -/
structure Peers where
  compact : Bool
  list : Option (List Peer)
  deriving DecidableEq, Repr

/-- `Peer` as `bencode` sees it (tracker.go:203-207). -/
def peerTy : Ty := .struct 20 [
  (⟨b!"ID", b!"peer id", false, true⟩, .str),
  (⟨b!"IP", b!"ip", false, true⟩, .str),
  (⟨b!"Port", b!"port", false, true⟩, .int 64)]

/-- A `*Peer` (tracker.go:203-207). -/
def Peer.val (p : Peer) : Val := .ptr (.struct [.str p.id, .str p.ip, .int p.port])

/-- A `[]*Peer` (tracker.go:122). -/
def listVal : Option (List Peer) → Val
  | none => .nilSlice
  | some ps => .slice (ps.map Peer.val)

/-- tracker.go:148, `uint16(p.Port)` in big-endian order: two's complement truncation. -/
def port16 (port : Int) : Bytes :=
  let n := (port % 65536).toNat
  [UInt8.ofNat (n / 256), UInt8.ofNat (n % 256)]

/-- tracker.go:136-152 `compactPeers`. -/
def compactPeers : List Peer → Res Bytes
  | [] => .ok []
  | p :: ps =>
    match Net.parseTo4 p.ip with
    | none => .err .notIPv4
    | some ip => (compactPeers ps).map fun rest => ip ++ port16 p.port ++ rest

/-- tracker.go:125-134 `Peers.MarshalBencoding`. -/
def peersMarshal (p : Peers) : Res Bytes :=
  if p.compact then do
    let b ← compactPeers (p.list.getD [])
    marshal noEnv .bytes (.bytes b)
  else marshal noEnv (.slice (.ptr peerTy)) (listVal p.list)

/-- tracker.go:177-185, the loop of `parseCompactPeers`. -/
def parseSixes : Bytes → List Peer
  | a :: b :: c :: d :: e :: f :: rest => ⟨[], Net.ipv4String a b c d, e.toNat * 256 + f.toNat⟩ :: parseSixes rest
  | _ => []

/-- `var peers []*Peer` and `append`: nil if nothing is appended (tracker.go:176, 190). -/
def appended : List Peer → Option (List Peer)
  | [] => none
  | p :: ps => some (p :: ps)

/-- tracker.go:172-187 `parseCompactPeers`. -/
def parseCompactPeers (s : Bytes) : Res (Option (List Peer)) :=
  if s.length % 6 ≠ 0 then .err .badPeers else .ok (appended (parseSixes s))

/-- `m[key].(string)` of a `map[string]any` (tracker.go:194-195): a missing key gives a nil interface. -/
def strEntry (es : List (Bytes × Val)) (k : Bytes) : Res Bytes :=
  match es.lookup k with
  | some (.iface .str (.str s)) => .ok s
  | _ => .panic

/-- `m[key].(int)` (tracker.go:196). -/
def intEntry (es : List (Bytes × Val)) (k : Bytes) : Res Int :=
  match es.lookup k with
  | some (.iface (.int 64) (.int i)) => .ok i
  | _ => .panic

/-- tracker.go:192-197, the body of the loop of `parsePeers`. -/
def parsePeer : Val → Res Peer
  | .iface (.map .any) (.map es) => do
    let id ← strEntry es b!"peer id"
    let ip ← strEntry es b!"ip"
    let port ← intEntry es b!"port"
    .ok ⟨id, ip, port⟩
  | _ => .panic

/-- tracker.go:189-201 `parsePeers`. -/
def parsePeers : List Val → Res (List Peer)
  | [] => .ok []
  | v :: vs => do
    let p ← parsePeer v
    let ps ← parsePeers vs
    .ok (p :: ps)

/-- tracker.go:154-170 `Peers.UnmarshalBencoding`. -/
def peersUnmarshal (data : Bytes) (p : Peers) : Res Peers := do
  let v ← unmarshal noEnv .any .nilIface data
  match v with
  | .iface .str (.str s) => do
    let l ← parseCompactPeers s
    .ok ⟨true, l⟩
  | .iface (.slice .any) (.slice vs) => do
    let ps ← parsePeers vs
    .ok ⟨p.compact, appended ps⟩
  | _ => .err .badPeers

/-- A `bool` field (tracker.go:121). `bencode` does not support the kind, so the model of Go values has none; the zero value
is `.unsupported`. -/
def boolVal (b : Bool) : Val := if b then .uint 1 else .unsupported

/-- `Peers` as a Go value (tracker.go:120-123). -/
def Peers.val (p : Peers) : Val := .struct [boolVal p.compact, listVal p.list]

/-- The peer of a `*Peer` (tracker.go:203-207). -/
def peerOf : Val → Option Peer
  | .ptr (.struct [.str id, .str ip, .int port]) => some ⟨id, ip, port⟩
  | _ => none

/-- The peers of a `[]*Peer` (tracker.go:122); `none` if there is a nil pointer. -/
def peersOf : List Val → Option (List Peer)
  | [] => some []
  | v :: vs => match peerOf v, peersOf vs with
    | some p, some ps => some (p :: ps)
    | _, _ => none

/-- The inverse of `Peers.val` (tracker.go:120-123). -/
def ofVal : Val → Option Peers
  | .struct [b, l] =>
    let c := match b with
      | .uint 1 => true
      | _ => false
    match l with
    | .nilSlice => some ⟨c, none⟩
    | .slice vs => (peersOf vs).map fun ps => ⟨c, some ps⟩
    | _ => none
  | _ => none

/-- The name of the type `Peers` in the environment (tracker.go:120-123). -/
def peersId : Nat := 21

/-- The type `Peers` (tracker.go:120-123). -/
def peersTy : Ty := .custom peersId (.struct 22 [(⟨b!"Compact", [], false, true⟩, .unsupported), (⟨b!"List", [], false, true⟩, .slice (.ptr peerTy))])

/-- The methods of `Peers` (tracker.go:125-134, 154-170). Marshalling a list with a nil pointer panics in the compact form
(tracker.go:140); the model has no other. -/
def trackerEnv : Env := fun id =>
  if id = peersId then
    { unmarshal := some fun data v => (peersUnmarshal data ((ofVal v).getD ⟨false, none⟩)).map Peers.val
      marshal := some fun v => match ofVal v with
        | some p => peersMarshal p
        | none => .panic }
  else ⟨none, none⟩

/-- tracker.go:107-118 `Response`. -/
structure Response where
  failureReason : Bytes := []
  interval : Int := 0
  peers : Option Peers := none
  warningReason : Bytes := []
  minInterval : Int := 0
  trackerID : Bytes := []
  complete : Int := 0
  incomplete : Int := 0
  deriving DecidableEq, Repr

/-- The fields of `Response` (tracker.go:107-118). -/
def responseFields : List (Hdr × Ty) := [
  (⟨b!"FailureReason", b!"failure reason,omitempty", false, true⟩, .str),
  (⟨b!"Interval", b!"interval", false, true⟩, .int 64),
  (⟨b!"Peers", b!"peers", false, true⟩, .ptr peersTy),
  (⟨b!"WarningReason", b!"warning reason,omitempty", false, true⟩, .str),
  (⟨b!"MinInterval", b!"min interval,omitempty", false, true⟩, .int 64),
  (⟨b!"TrackerID", b!"tracker id,omitempty", false, true⟩, .str),
  (⟨b!"Complete", b!"complete,omitempty", false, true⟩, .int 64),
  (⟨b!"Incomplete", b!"incomplete,omitempty", false, true⟩, .int 64)]

/-- The type `Response` (tracker.go:107-118). -/
def responseTy : Ty := .struct 23 responseFields

/-- A `*Peers` (tracker.go:111). -/
def peersPtr : Option Peers → Val
  | none => .nilPtr
  | some p => .ptr p.val

/-- A `Response` as a Go value (tracker.go:107-118). -/
def Response.val (r : Response) : Val := .struct [.str r.failureReason, .int r.interval, peersPtr r.peers, .str r.warningReason,
  .int r.minInterval, .str r.trackerID, .int r.complete, .int r.incomplete]

/-- The inverse of `Response.val` (tracker.go:107-118). -/
def Response.ofVal : Val → Option Response
  | .struct [.str a, .int b, p, .str c, .int d, .str e, .int f, .int g] =>
    match p with
    | .nilPtr => some ⟨a, b, none, c, d, e, f, g⟩
    | .ptr v => (Tracker.ofVal v).map fun p => ⟨a, b, some p, c, d, e, f, g⟩
    | _ => none
  | _ => none

/-- `bencode.Marshal(res)` of a `*Response` (/repo/pex/http.go:139). -/
def Response.marshal (r : Response) : Res Bytes := Bencode.marshal trackerEnv (.ptr responseTy) (.ptr r.val)

/-- `bencode.Unmarshal(data, &Response{})` (/repo/p2p/multitracker.go:129-130). -/
def unmarshalResponse (data : Bytes) : Res Response := do
  let v ← unmarshal trackerEnv responseTy (zero responseTy) data
  match Response.ofVal v with
  | some r => .ok r
  | none => .panic

end Drip.Tracker
