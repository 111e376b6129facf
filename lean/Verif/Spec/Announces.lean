import Verif.Spec.Query
import Verif.Spec.Numeral
import Verif.Spec.Address
import Verif.Spec.Swarm
import Verif.Spec.Response
/-
Announces, independently of the tracker's code: which query is which request, and which request is an announce.
-/

namespace Drip.Spec

/-- The value of a parameter: the first one, or nothing if there is none. -/
def FirstValue (ps : List (Bytes × Bytes)) (k v : Bytes) : Prop :=
  (∃ l r, ps = l ++ (k, v) :: r ∧ ∀ p ∈ l, p.1 ≠ k) ∨ (v = [] ∧ ∀ p ∈ ps, p.1 ≠ k)

/-- The number of a parameter: decimal, within 64 bits; 0 if it has no value. -/
def NumberOf (v : Bytes) (n : Int) : Prop := (v = [] ∧ n = 0) ∨ (v ≠ [] ∧ SNumeral v n ∧ -2 ^ 63 ≤ n ∧ n < 2 ^ 63)

/-- The 20 bytes of a parameter: longer values are cut, shorter ones are padded. -/
def twenty (v : Bytes) : Bytes := (v ++ List.replicate 20 0).take 20

/-- The request of a query. -/
def IsRequest (query : Bytes) (r : Tracker.Request) : Prop :=
  ∃ (ps : List (Bytes × Bytes)) (v : Bytes → Bytes), QPairs ps query ∧ (∀ k, FirstValue ps k (v k)) ∧
    r.infoHash = twenty (v b!"info_hash") ∧ r.peerID = twenty (v b!"peer_id") ∧ r.ip = v b!"ip" ∧ NumberOf (v b!"port") r.port ∧
    NumberOf (v b!"uploaded") r.uploaded ∧ NumberOf (v b!"downloaded") r.downloaded ∧ NumberOf (v b!"left") r.left ∧
    r.event = v b!"event" ∧ (r.compact = true ↔ v b!"compact" = b!"1")

/-- None of `:`, `[` and `]`. -/
def Plain (s : Bytes) : Prop := 58 ∉ s ∧ 91 ∉ s ∧ 93 ∉ s

/-- The host of the address of a connection: `host:port`, or `[host]:port` for a host with colons. -/
def HostOf (addr host : Bytes) : Prop :=
  (Plain host ∧ ∃ port, Plain port ∧ addr = host ++ 58 :: port) ∨
    (91 ∉ host ∧ 93 ∉ host ∧ ∃ port, Plain port ∧ addr = 91 :: host ++ 93 :: 58 :: port)

/-- The request `query` that comes from `remote` announces `a` to a tracker of the torrents `known`; `compact` is the form of the answer. -/
def Announces (known : List Bytes) (remote query : Bytes) (a : Announce) (compact : Bool) : Prop :=
  ∃ r, IsRequest query r ∧ a.hash = r.infoHash ∧ a.hash ∈ known ∧ a.id = r.peerID ∧ (if r.ip = [] then HostOf remote a.text else a.text = r.ip) ∧
    IsAddress a.text a.ip ∧ a.port = r.port ∧ a.port ≠ 0 ∧ a.event = r.event ∧ compact = r.compact

/-- What happens to a tracker. -/
inductive Event where
  | request (remote query : Bytes)
  | cleanup

/-- The announces of a history; both newest first. -/
inductive PastOf (known : List Bytes) : List (Int × Event) → Past → Prop
  | nil : PastOf known [] []
  | cleanup {t : Int} {h : List (Int × Event)} {p : Past} : PastOf known h p → PastOf known ((t, .cleanup) :: h) ((t, none) :: p)
  | announce {t : Int} {remote query : Bytes} {a : Announce} {c : Bool} {h : List (Int × Event)} {p : Past} : Announces known remote query a c →
      PastOf known h p → PastOf known ((t, .request remote query) :: h) ((t, some a) :: p)
  | other {t : Int} {remote query : Bytes} {h : List (Int × Event)} {p : Past} : (∀ a c, ¬ Announces known remote query a c) →
      PastOf known h p → PastOf known ((t, .request remote query) :: h) ((t, none) :: p)

/-- Where a listed peer is. -/
def ListedAt (q : Tracker.Peer) (e : Place) : Prop := IsAddress q.ip e.1 ∧ q.port = e.2

/-- The text is the recommended one of its address. -/
def Canonical (text : Bytes) : Prop := ∃ ip, Recommended ip text

/-- A successful answer to an announce: the interval, and the peers in the form that was asked for. An empty list is written as nothing at all
(a defect of the code, see C115). -/
def IsAnswer (compact : Bool) (ps : List Tracker.Peer) (body : Bytes) : Prop :=
  if compact then ∃ s, CompactForm (ps.map fun q => (q.ip, q.port)) s ∧ body = benc (.dict [(b!"interval", .int 30), (b!"peers", .str s)])
  else if ps = [] then body = b!"d8:intervali30e5:peerse"
  else body = benc (.dict [(b!"interval", .int 30), (b!"peers", .list (ps.map peerTree))])

/-- The answer to an announce. If the compact form is asked for and there is none, it is status 500 and nothing else. -/
def Answered (compact : Bool) (ps : List Tracker.Peer) (status : Nat) (body : Bytes) : Prop :=
  (status = 200 ∧ IsAnswer compact ps body) ∨
    (status = 500 ∧ body = [] ∧ compact = true ∧ ¬ ∃ s, CompactForm (ps.map fun q => (q.ip, q.port)) s)

end Drip.Spec
