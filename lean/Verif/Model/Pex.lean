import Verif.Model.Tracker
import Verif.Model.Metainfo
/-
Model of /repo/pex/http.go. Maps are lists of entries with different keys; the order in which `range` goes through a map is a
function `iter` that may be anything that permutes. Times are nanoseconds; the clock stands still while a request is handled.
The mutex of a torrent is held from line 110 to the end, so requests for a torrent are handled one after the other.
-/

namespace Drip.Pex
open Tracker

/-- http.go:29-33 `Peer`. -/
structure Peer where
  tp : Tracker.Peer
  updatedAt : Int
  lastEvent : Bytes
  deriving DecidableEq, Repr

/-- http.go:26: the map from addresses to peers. -/
abbrev Table := List (Bytes × Peer)

/-- http.go:18-20 `HTTP`: the tables by info hash. -/
abbrev HTTP := List (Bytes × Table)

/-- `time.Minute` (http.go:54, 127). -/
def minute : Int := 60000000000

/-- `p.LastEvent == "stopped" || time.Since(p.UpdatedAt) > time.Minute` (http.go:54, 127). -/
def gone (now : Int) (p : Peer) : Bool := p.lastEvent == b!"stopped" || decide (now - p.updatedAt > minute)

/-- Assignment to an element of a map (http.go:40, 121). -/
def assign {α : Type} (m : List (Bytes × α)) (k : Bytes) (v : α) : List (Bytes × α) :=
  if m.any (·.1 == k) then m.map fun e => if e.1 = k then (k, v) else e else m ++ [(k, v)]

/-- http.go:35-44 `NewHTTP`. -/
def newHTTP (infos : List Metainfo.Info) : HTTP := infos.foldl (fun t i => assign t i.sha1 []) []

/-- http.go:50-59: one round of the periodic cleanup. -/
def cleanup (now : Int) (t : HTTP) : HTTP := t.map fun e => (e.1, e.2.filter fun p => !gone now p.2)

/-- The index of the last occurrence of a byte (`net.SplitHostPort`, used by http.go:92). -/
def lastIndex (c : UInt8) (s : Bytes) : Option Nat := (s.reverse.findIdx? (· == c)).map fun i => s.length - 1 - i

/-- `net.SplitHostPort` (used by http.go:92), the host only. -/
def splitHost (s : Bytes) : Option Bytes :=
  match lastIndex 58 s with
  | none => none
  | some i =>
    if s.head? = some 91 then
      match s.findIdx? (· == 93) with
      | none => none
      | some e =>
        if e + 1 ≠ i then none
        else if 91 ∈ s.drop 1 then none
        else if 93 ∈ s.drop (e + 1) then none
        else some ((s.take e).drop 1)
    else if 58 ∈ s.take i then none
    else if 91 ∈ s then none
    else if 93 ∈ s then none
    else some (s.take i)

/-- The answer to a request (http.go:65-146): status and body. -/
structure Reply where
  status : Nat
  body : Bytes
  deriving DecidableEq, Repr

/-- http.go:67-79 `fail`. -/
def fail (reason : Bytes) : Reply :=
  match Response.marshal { interval := 0, failureReason := reason } with
  | .ok data => ⟨400, data⟩
  | _ => ⟨500, []⟩

/-- `fmt.Sprintf("%s:%d", ip, port)` (http.go:109, 130). -/
def addrText (ip : Bytes) (port : Int) : Bytes := ip ++ 58 :: intDec port

/-- http.go:112-124: the table after the announce. -/
def update (now : Int) (r : Request) (ip addr : Bytes) (table : Table) : Table :=
  let peer := match table.lookup addr with
    | some p => p
    | none => { tp := ⟨r.peerID, ip, r.port⟩, updatedAt := 0, lastEvent := [] }
  assign table addr { peer with updatedAt := now, lastEvent := r.event }

/-- http.go:125-134: the peers that are listed, in the order of the iteration. -/
def listing (now : Int) (addr : Bytes) : Table → List Tracker.Peer
  | [] => []
  | (_, p) :: ps =>
    if gone now p then listing now addr ps
    else if addrText p.tp.ip p.tp.port ≠ addr then p.tp :: listing now addr ps
    else listing now addr ps

/-- http.go:65-146 `ServeHTTP`. `errText` is the text of the error of `Decode`, which is not modelled. -/
def serve (iter : Table → Table) (errText : Bytes → Bytes) (now : Int) (remoteAddr rawQuery : Bytes) (t : HTTP) : Reply × HTTP :=
  match Request.zero.decode rawQuery with
  | .err _ | .panic => (fail (errText rawQuery), t)
  | .ok r =>
    match t.lookup r.infoHash with
    | none => (fail b!"unknown info hash", t)
    | some table =>
      match if r.ip = [] then splitHost remoteAddr else some r.ip with
      | none => (⟨400, []⟩, t)
      | some ip =>
        match Net.parseIP ip with
        | none => (fail b!"bad ip", t)
        | some netIP =>
          if r.port = 0 then (fail b!"bad port", t)
          else
            let addr := addrText (Net.ipString netIP) r.port
            let table := update now r ip addr table
            let t := assign t r.infoHash table
            let peers : Peers := ⟨r.compact, appended (listing now addr (iter table))⟩
            match Response.marshal { interval := 30, peers := some peers } with
            | .ok data => (⟨200, data⟩, t)
            | _ => (⟨500, []⟩, t)

end Drip.Pex
