import Verif.Model.Storage
/-
The blocks /repo/p2p/peer.go:279-302 `requestPiece` asks for.
-/

namespace Drip.P2P
open Metainfo

/-- peer.go:40-44 `blockRequest`. -/
structure Req where
  index : Int
  begin_ : Int
  length : Int
  deriving DecidableEq, Repr

/-- peer.go:285-294, the loop from `begin_` on: the requests handed to the goroutines, in order. `fuel` bounds the number of
iterations (C52 shows that it is enough). -/
def requestLoop (index pieceLength : Int) : Nat → Int → List Req
  | 0, _ => []
  | fuel + 1, begin_ =>
    if begin_ < pieceLength then
      ⟨index, begin_, min Storage.blockLength (pieceLength - begin_)⟩ :: requestLoop index pieceLength fuel (begin_ + Storage.blockLength)
    else []

/-- peer.go:279-302 `requestPiece`: all the blocks it asks for. -/
def requestBlocks (info : Info) (index : Int) : List Req :=
  requestLoop index (info.getPieceLength index) (info.getPieceLength index).toNat 0

end Drip.P2P
