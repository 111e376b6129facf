import Mathlib.Logic.Relation
/-
Interleavings of goroutines. A system has a shared state and a list of goroutines, each with a local state (its program
counter and its local variables). A step is an atomic action of one goroutine; a goroutine without an enabled action is
blocked. The list holds every goroutine that is ever started: one that has not been started is one that has not moved.

The Go memory model makes programs without data races sequentially consistent; the models say where they rely on it.
This is not code of /repo: it is the meaning of the `go` statements and of the blocking operations in
/repo/future/future.go, /repo/storage/storage.go and /repo/p2p.
-/

namespace Drip.Conc

/-- `local s l s' l'`: a goroutine in local state `l` can change the shared state from `s` to `s'`, going to `l'`
(the actions of the goroutines of /repo/future/future.go:12-20 and the other users). -/
inductive Step {S L : Type} (act : S → L → S → L → Prop) : S × List L → S × List L → Prop
  | mk {s s' : S} {l l' : L} {ls : List L} (i : Nat) : ls[i]? = some l → act s l s' l' → Step act (s, ls) (s', ls.set i l')

/-- The states reachable by any interleaving (of the goroutines of /repo/future/future.go:12-20 and the other users). -/
def Reach {S L : Type} (act : S → L → S → L → Prop) : S × List L → S × List L → Prop := Relation.ReflTransGen (Step act)

end Drip.Conc
