import Verif.Model.Tracker
import Verif.Model.Metainfo
/-
Model of /repo/p2p/multitracker.go. A `*Tracker` is its URL: the server is the same for all of them. The network is a state
and a function that answers requests, so that answers may depend on everything that happened before.
-/

namespace Drip.Multi
open Tracker

/-- `cpy[i], cpy[j] = cpy[j], cpy[i]` (multitracker.go:33). -/
def swap {α : Type} (l : List α) (i j : Nat) : List α :=
  match l[i]?, l[j]? with
  | some a, some b => (l.set i b).set j a
  | _, _ => l

/-- multitracker.go:32-34, `rand.Shuffle` (math/rand/rand.go of Go 1.22): for `i` from `n-1` down to 1, swap `i` with a random
`j ≤ i`; `rnd i` are the random numbers. -/
def shuffle {α : Type} (rnd : Nat → Nat) : Nat → List α → List α
  | 0, l => l
  | i + 1, l => shuffle rnd i (swap l (i + 1) (rnd (i + 1) % (i + 2)))

/-- The memory: the arrays behind the slices of URLs (multitracker.go:22-42). A slice that starts at the beginning of an array
and ends at its end is the number of the array. -/
abbrev Heap := List (List Bytes)

/-- multitracker.go:30-40, one round of the loop: the list is cloned to a new array, the clone is shuffled in place and the tier is
made from the clone. -/
def newTier (rnd : Nat → Nat) (heap : Heap) (list : Nat) : Heap × List Bytes :=
  let cpy := heap.length
  let heap := heap ++ [(heap[list]?).getD []]
  let heap := heap.set cpy (shuffle rnd (((heap[cpy]?).getD []).length - 1) ((heap[cpy]?).getD []))
  (heap, (heap[cpy]?).getD [])

/-- multitracker.go:30-40, the loop; `rnd k` are the random numbers of the `k`-th shuffle. -/
def newTiers (rnd : Nat → Nat → Nat) : Nat → Heap → List Nat → Heap × List (List Bytes)
  | _, heap, [] => (heap, [])
  | k, heap, list :: lists =>
    let r := newTier (rnd k) heap list
    let rs := newTiers rnd (k + 1) r.1 lists
    (rs.1, r.2 :: rs.2)

/-- multitracker.go:22-42 `NewMultitracker`, for a metainfo with the given announce list (of arrays in the heap) and announce URL. -/
def newMultitracker (rnd : Nat → Nat → Nat) (heap : Heap) (announceList : List Nat) (announce : Bytes) : Heap × List (List Bytes) :=
  if announceList.length > 0 then newTiers rnd 0 heap announceList
  else newTiers rnd 0 (heap ++ [[announce]]) [heap.length]

/-- Go's `copy(l[i:i+len(src)], src)` where `src` may overlap `l` (multitracker.go:65). -/
def copyAt {α : Type} (l : List α) (i : Nat) (src : List α) : List α := l.take i ++ src ++ l.drop (i + src.length)

/-- multitracker.go:65-66: the tracker at position `j` goes to the front. -/
def toFront (tier : List Bytes) (j : Nat) (tracker : Bytes) : List Bytes := (copyAt tier 1 (tier.take j)).set 0 tracker

variable {σ : Type}

/-- The loop over one tier (multitracker.go:62-70): `rest` begins at position `j`. `none` means that the loop ended without a
success; `last` is the current value of the results. A panic of `tracker.get` stops everything. -/
def tierLoop (ask : σ → Bytes → Res Response × σ) (tier : List Bytes) :
    Nat → List Bytes → Res (Option Response) → σ → Option (List Bytes) × Res (Option Response) × σ
  | _, [], last, s => (none, last, s)
  | j, t :: rest, last, s =>
    match ask s t with
    | (.ok r, s) => (some (toFront tier j t), .ok (some r), s)
    | (.err e, s) => tierLoop ask tier (j + 1) rest (.err e) s
    | (.panic, s) => (some tier, .panic, s)

/-- multitracker.go:60-73 `Multitracker.get`: the tiers afterwards, the results, the network. `.ok none` is `(nil, nil)`. -/
def tiersLoop (ask : σ → Bytes → Res Response × σ) : List (List Bytes) → Res (Option Response) → σ → List (List Bytes) × Res (Option Response) × σ
  | [], last, s => ([], last, s)
  | tier :: tiers, last, s =>
    match tierLoop ask tier 0 tier last s with
    | (some tier, res, s) => (tier :: tiers, res, s)
    | (none, last, s) =>
      let r := tiersLoop ask tiers last s
      (tier :: r.1, r.2)

/-- multitracker.go:60-73 `Multitracker.get`. -/
def get (ask : σ → Bytes → Res Response × σ) (tiers : List (List Bytes)) (s : σ) : List (List Bytes) × Res (Option Response) × σ :=
  tiersLoop ask tiers (.ok none) s

/-- What `Tracker.get` reads from the server (multitracker.go:106-115). -/
structure View where
  info : Metainfo.Info
  peerID : Bytes
  port : Int
  uploaded : Int
  downloaded : Int
  storageDownloaded : Int

/-- multitracker.go:106-115: the request. -/
def View.request (v : View) (event : Bytes) : Request where
  infoHash := v.info.sha1
  peerID := v.peerID
  ip := []
  port := v.port
  uploaded := v.uploaded
  downloaded := v.downloaded
  left := v.info.length - v.storageDownloaded
  event := event
  compact := true

/-- multitracker.go:105-137 `Tracker.get`. `fetch s url query` is what `url.Parse`, `http.Get` and `io.ReadAll` make of the URL
with its query replaced: `none` is an error. The status of the answer is not looked at. -/
def trackerGet (fetch : σ → Bytes → Bytes → Option Bytes × σ) (v : View) (event : Bytes) (s : σ) (url : Bytes) : Res Response × σ :=
  match fetch s url (v.request event).encode with
  | (none, s) => (.err .conn, s)
  | (some data, s) =>
    (do
      let res ← unmarshalResponse data
      if res.failureReason ≠ [] then .err .tracker else .ok res, s)

/-- `res.Peers.List` (server.go:111, 233-234): two pointers are dereferenced. -/
def peerList : Option Response → Res (List Peer)
  | none => .panic
  | some r =>
    match r.peers with
    | none => .panic
    | some p => .ok (p.list.getD [])

end Drip.Multi
