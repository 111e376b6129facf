import Verif.Model.Conc
/-
Several goroutines that call `Choke` and `Unchoke`, or `Interest` and `NotInterest`, on one peer (/repo/p2p/peer.go:137-163).
`Interest` is called by the goroutine of the peer (peer.go:230, no lock), `NotInterest` by the goroutine of `RequestPieces`
(/repo/p2p/server.go:388). The flag is an `atomic.Bool`, the connection writes one message at a time (peer.go:100-106). Writes succeed.
-/

namespace Drip.FlagConc

/-- peer.go:26-27: the flag (`true`: unchoked, or interested) and the messages written about it (`true`: UNCHOKE, or INTERESTED). -/
structure Shared where
  flag : Bool
  sent : List Bool

/-- A goroutine (peer.go:137-163): the calls it has still to make (`true`: `Unchoke`, or `Interest`), and the message it is about to send. -/
structure Th where
  calls : List Bool
  sending : Option Bool

/-- The steps (peer.go:137-163). -/
inductive Act : Shared → Th → Shared → Th → Prop
  /-- The `CompareAndSwap` succeeds (peer.go:138, 145, 152, 159). -/
  | swap {f : Bool} {l cs : List Bool} {up : Bool} : f ≠ up → Act ⟨f, l⟩ ⟨up :: cs, none⟩ ⟨up, l⟩ ⟨cs, some up⟩
  /-- The `CompareAndSwap` fails: nothing is sent. -/
  | same {f : Bool} {l cs : List Bool} {up : Bool} : f = up → Act ⟨f, l⟩ ⟨up :: cs, none⟩ ⟨f, l⟩ ⟨cs, none⟩
  /-- `Send` (peer.go:139, 146, 153, 160). -/
  | send {f : Bool} {l cs : List Bool} {up : Bool} : Act ⟨f, l⟩ ⟨cs, some up⟩ ⟨f, l ++ [up]⟩ ⟨cs, none⟩

end Drip.FlagConc
