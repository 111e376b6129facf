import Verif.Model.Basic
/-
Go maps as association lists, for /repo/p2p/server.go:41-48 and /repo/p2p/peer.go:36-37. The order of the entries has no meaning.
-/

namespace Drip

/-- `m[k]` (e.g. server.go:275). -/
def mget {κ α : Type} [DecidableEq κ] (m : List (κ × α)) (k : κ) : Option α :=
  match m with
  | [] => none
  | e :: m => if e.1 = k then some e.2 else mget m k

/-- `delete(m, k)` (e.g. server.go:466). -/
def mdel {κ α : Type} [DecidableEq κ] (m : List (κ × α)) (k : κ) : List (κ × α) := m.filter fun e => decide (e.1 ≠ k)

/-- `m[k] = v` (e.g. server.go:264). -/
def mput {κ α : Type} [DecidableEq κ] (m : List (κ × α)) (k : κ) (v : α) : List (κ × α) := (k, v) :: mdel m k

/-- `m[k] = struct{}{}` for a `map[K]struct{}` (e.g. server.go:295). -/
def sadd {κ : Type} [DecidableEq κ] (s : List κ) (k : κ) : List κ := if k ∈ s then s else k :: s

/-- `delete(m, k)` for a `map[K]struct{}` (e.g. server.go:380). -/
def sdel {κ : Type} [DecidableEq κ] (s : List κ) (k : κ) : List κ := s.filter fun x => decide (x ≠ k)

end Drip
