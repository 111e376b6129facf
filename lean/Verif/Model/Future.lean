import Verif.Model.Conc
/-
Model of /repo/future/future.go with any number of goroutines. The channel is never sent to, so receiving from it is
possible exactly when it is closed. The accesses to the value are atomic and sequentially consistent: with one call of
`Deliver` there is no data race, as `close` happens before the receive returns.
-/

namespace Drip.Future

/-- future.go:3-6 `Future`: the value, and whether `Done` is closed. -/
structure Fut (α : Type) where
  value : α
  closed : Bool

/-- The goroutines that use a future (future.go:12-20). -/
inductive Th (α : Type) where
  /-- Is about to call `Deliver(v)` (future.go:12). -/
  | deliver (v : α)
  /-- Is between future.go:13 and 14. -/
  | delivering (v : α)
  /-- `Deliver` has returned. -/
  | delivered
  /-- `close` has panicked (future.go:14). -/
  | panicked
  /-- Is about to receive in `Wait` (future.go:18). -/
  | wait
  /-- Is between future.go:18 and 19. -/
  | woken
  /-- `Wait` has returned this value. -/
  | got (x : α)

/-- future.go:8-10 `New`; `z` is the zero value of the type. -/
def new {α : Type} (z : α) : Fut α := ⟨z, false⟩

/-- The atomic actions of `Deliver` and `Wait` (future.go:12-20). -/
inductive Act {α : Type} : Fut α → Th α → Fut α → Th α → Prop
  /-- future.go:13 -/
  | write {x c v} : Act ⟨x, c⟩ (.deliver v) ⟨v, c⟩ (.delivering v)
  /-- future.go:14 -/
  | close {x v} : Act ⟨x, false⟩ (.delivering v) ⟨x, true⟩ .delivered
  /-- future.go:14: closing a closed channel panics. -/
  | closeClosed {x v} : Act ⟨x, true⟩ (.delivering v) ⟨x, true⟩ .panicked
  /-- future.go:18: blocks until the channel is closed. -/
  | receive {x} : Act ⟨x, true⟩ .wait ⟨x, true⟩ .woken
  /-- future.go:19 -/
  | read {x c} : Act ⟨x, c⟩ .woken ⟨x, c⟩ (.got x)

end Drip.Future
