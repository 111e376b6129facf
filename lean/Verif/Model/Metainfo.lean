import Verif.Model.Basic
/-
Model of the parts of /repo/api/metainfo/metainfo.go that do not concern bencoding.
Go's `int`/`int64` are unbounded integers here: overflow (lengths of 2^63 bytes and more) is not represented.
-/

namespace Drip.Metainfo

/-- metainfo.go:113-117 `File`. -/
structure File where
  length : Int
  path : List Bytes
  md5sum : Bytes := []
  deriving DecidableEq, Repr

/-- metainfo.go:40-53 `Info`. The elements of `Files` are non-nil pointers. -/
structure Info where
  sha1 : Bytes := []
  pieceLength : Int
  pieces : List Bytes
  name : Bytes
  length : Int := 0
  files : List File := []
  deriving DecidableEq, Repr

/-- metainfo.go:57-61: the sum of the file lengths. -/
def sumLengths : List File → Int
  | [] => 0
  | f :: fs => f.length + sumLengths fs

/-- metainfo.go:55-64 `GetLength`. -/
def Info.getLength (i : Info) : Int := if i.files ≠ [] then sumLengths i.files else i.length

/-- metainfo.go:66-71 `GetPieceLength`. -/
def Info.getPieceLength (i : Info) (index : Int) : Int :=
  if index = (i.pieces.length : Int) - 1 then i.getLength - index * i.pieceLength else i.pieceLength

end Drip.Metainfo
