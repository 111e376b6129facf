import Verif.Model.BlockFuture
/-
What a call of `requestBlock` should return, in terms of the messages that arrived after it was registered.
-/

namespace Drip.Spec
open Drip.BlockFuture

/-- The first message that decides a request for `b`: a PIECE with that index, begin and length, or a CHOKE. -/
def answer (b : Block) : List Ev → Option Result
  | [] => none
  | .got (.piece b') :: es => if b' = b then some .nil else answer b es
  | .got .choke :: _ => some .choked
  | _ :: es => answer b es

end Drip.Spec
