import Verif.Model.Multitracker
import Verif.Model.Conc
/-
Several goroutines in `Multitracker.get` (/repo/p2p/multitracker.go:60-73) at the same time, on one tier: `Server.Announce` is called
periodically (/repo/p2p/server.go:117, 229) and `Server.Stop` (server.go:133) from another goroutine; there is no lock.
The call of `copy` is a single step in `GetStep`; in `WordStep` it also is a number of loads and stores of single words, in any order that memmove may choose.
-/

namespace Drip.Multi

/-- Where a goroutine is (multitracker.go:62-67). -/
inductive Pc where
  /-- before reading `tier[j]` -/
  | at (j : Nat)
  /-- asking the tracker read from `tier[j]` -/
  | asks (j : Nat) (tracker : Bytes)
  /-- it answered: before line 65 -/
  | won (j : Nat) (tracker : Bytes)
  /-- before line 66 -/
  | copied (tracker : Bytes)
  /-- within `copy`: the positions still to be loaded, and the words that are loaded and not stored yet (used by `WordStep` only) -/
  | moving (unread : List Nat) (loaded : List (Nat × Bytes)) (tracker : Bytes)
  /-- returned, with the answer of a tracker or with an error -/
  | done (tracker : Option Bytes)
  deriving DecidableEq, Repr

/-- The steps of a goroutine (multitracker.go:62-67). The length of the tier does not change. -/
inductive GetStep : List Bytes → Pc → List Bytes → Pc → Prop
  | read {tier : List Bytes} {j : Nat} {t : Bytes} : tier[j]? = some t → GetStep tier (.at j) tier (.asks j t)
  | fails {tier : List Bytes} {j : Nat} {t : Bytes} : GetStep tier (.asks j t) tier (.at (j + 1))
  | answers {tier : List Bytes} {j : Nat} {t : Bytes} : GetStep tier (.asks j t) tier (.won j t)
  | copy {tier : List Bytes} {j : Nat} {t : Bytes} : GetStep tier (.won j t) (copyAt tier 1 (tier.take j)) (.copied t)
  | set {tier : List Bytes} {t : Bytes} : GetStep tier (.copied t) (tier.set 0 t) (.done (some t))
  | stop {tier : List Bytes} {j : Nat} : tier.length ≤ j → GetStep tier (.at j) tier (.done none)

/-- The steps of a goroutine when `copy` (multitracker.go:65) is not atomic: word `k - 1` is loaded, and stored as word `k`, in any order. This allows more than memmove does, which sees to it that
no word is overwritten before it is loaded. (A word is read and written as a whole, by the Go memory model.) -/
inductive WordStep : List Bytes → Pc → List Bytes → Pc → Prop
  | whole {tier tier' : List Bytes} {l l' : Pc} : GetStep tier l tier' l' → WordStep tier l tier' l'
  | begin {tier : List Bytes} {j : Nat} {t : Bytes} : WordStep tier (.won j t) tier (.moving ((List.range j).map (· + 1)) [] t)
  | load {tier : List Bytes} {us : List Nat} {ls : List (Nat × Bytes)} {t v : Bytes} {k : Nat} : k ∈ us → tier[k - 1]? = some v →
      WordStep tier (.moving us ls t) tier (.moving (us.erase k) ((k, v) :: ls) t)
  | store {tier : List Bytes} {us : List Nat} {ls : List (Nat × Bytes)} {t v : Bytes} {k : Nat} : (k, v) ∈ ls →
      WordStep tier (.moving us ls t) (tier.set k v) (.moving us (ls.erase (k, v)) t)
  | moved {tier : List Bytes} {t : Bytes} : WordStep tier (.moving [] [] t) tier (.copied t)

end Drip.Multi
