import Verif.Model.Metainfo
/-
What the store promises, in terms of the torrent's content.
-/

namespace Drip.Spec
open Metainfo

/-- The SHA-1 of `d` is the hash of piece `i`. -/
def Verified (sha1 : Bytes → Bytes) (info : Info) (i : Nat) (d : Bytes) : Prop := info.pieces[i]? = some (sha1 d)

/-- `ds` are verified contents of all the pieces, of the right lengths. -/
def Contents (sha1 : Bytes → Bytes) (info : Info) (ds : List Bytes) : Prop :=
  ds.length = info.pieces.length ∧
    ∀ (i : Nat) (d : Bytes), ds[i]? = some d → Verified sha1 info i d ∧ (d.length : Int) = info.getPieceLength i

/-- Where file number `k` starts in the content. -/
def fileStart (files : List File) (k : Nat) : Nat := ((files.take k).map fun f => f.length.toNat).sum

/-- The bytes of `c` from `off` on, `len` of them. -/
def slice (c : Bytes) (off len : Nat) : Bytes := (c.drop off).take len

/-- No file after number `k` has the same path. -/
def LastWithPath (files : List File) (k : Nat) : Prop :=
  ∀ (j : Nat) (f g : File), k < j → files[k]? = some f → files[j]? = some g → g.path ≠ f.path

end Drip.Spec
