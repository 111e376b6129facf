import Verif.Model.Metainfo
import Verif.Model.Bencode.Decode
import Verif.Model.Bencode.Encode
/-
Model of the bencoding of /repo/api/metainfo/metainfo.go: the Go types as `bencode` sees them, and their methods.
`sha1` stands for `crypto/sha1.Sum`.
-/

namespace Drip.Metainfo
open Bencode

/-- The id of `Pieces` (metainfo.go:85). -/
def piecesId : Nat := 1
/-- The id of `Time` (metainfo.go:23-25). -/
def timeId : Nat := 2
/-- The id of `Info` (metainfo.go:40). -/
def infoId : Nat := 3

/-- `[20]byte`. -/
def hashTy : Ty := .array 20 (.uint 8)

/-- metainfo.go:85 `Pieces`. -/
def piecesTy : Ty := .custom piecesId (.slice hashTy)

/-- metainfo.go:23-25 `Time`. A time is represented by its Unix second; its struct is never inspected because it is only
used through a pointer with methods. -/
def timeTy : Ty := .custom timeId (.int 64)

/-- metainfo.go:113-117 `File`. -/
def fileTy : Ty := .struct 10 [
  (⟨b!"Length", b!"length", false, true⟩, .int 64),
  (⟨b!"MD5Sum", b!"md5sum,omitempty", false, true⟩, .str),
  (⟨b!"Path", b!"path", false, true⟩, .slice .str)]

/-- The fields of metainfo.go:40-53 `Info`. -/
def infoFields : List (Hdr × Ty) := [
  (⟨b!"SHA1", b!"-", false, true⟩, hashTy),
  (⟨b!"PieceLength", b!"piece length", false, true⟩, .int 64),
  (⟨b!"Pieces", b!"pieces", false, true⟩, piecesTy),
  (⟨b!"Private", b!"private,omitempty", false, true⟩, .int 64),
  (⟨b!"Name", b!"name", false, true⟩, .str),
  (⟨b!"Length", b!"length,omitempty", false, true⟩, .int 64),
  (⟨b!"MD5Sum", b!"md5sum,omitempty", false, true⟩, .str),
  (⟨b!"Files", b!"files,omitempty", false, true⟩, .slice (.ptr fileTy))]

/-- metainfo.go:73 `info`: the same fields without the methods. -/
def infoStruct : Ty := .struct 11 infoFields

/-- metainfo.go:40 `Info`. -/
def infoTy : Ty := .custom infoId infoStruct

/-- The fields of metainfo.go:12-21 `Metainfo`. -/
def metaFields : List (Hdr × Ty) := [
  (⟨b!"Info", b!"info", false, true⟩, .ptr infoTy),
  (⟨b!"Announce", b!"announce", false, true⟩, .str),
  (⟨b!"AnnounceList", b!"announce-list,omitempty", false, true⟩, .slice (.slice .str)),
  (⟨b!"CreationDate", b!"creation date,omitempty", false, true⟩, .ptr timeTy),
  (⟨b!"Comment", b!"comment,omitempty", false, true⟩, .str),
  (⟨b!"CreatedBy", b!"created by,omitempty", false, true⟩, .str),
  (⟨b!"Encoding", b!"encoding,omitempty", false, true⟩, .str)]

/-- metainfo.go:12 `Metainfo`. -/
def metaTy : Ty := .struct 12 metaFields

/-- A `[20]byte` value. -/
def hashVal (b : Bytes) : Val := .array (b.map fun x => .uint x.toNat)

/-- The bytes of a `[20]byte` value. -/
def hashBytes : Val → Bytes
  | .array es => es.map fun
    | .uint n => UInt8.ofNat n
    | _ => 0
  | _ => []

/-- A `Pieces` value (metainfo.go:85); `nil` if there are none. -/
def piecesVal : List Bytes → Val
  | [] => .nilSlice
  | h :: hs => .slice ((h :: hs).map hashVal)

/-- metainfo.go:87-93 `Pieces.MarshalBencoding`. -/
def piecesMarshal : Val → Res Bytes
  | .slice hs => marshal noEnv .str (.str (hs.flatMap hashBytes))
  | _ => marshal noEnv .str (.str [])

/-- metainfo.go:103-108: consecutive slices of 20 bytes (`fuel` bounds their number). -/
def chunks20 : Nat → Bytes → List Bytes
  | 0, _ => []
  | _ + 1, [] => []
  | n + 1, b :: bs => (b :: bs).take 20 :: chunks20 n ((b :: bs).drop 20)

/-- metainfo.go:95-111 `Pieces.UnmarshalBencoding`. -/
def piecesUnmarshal (data : Bytes) (_ : Val) : Res Val := do
  let c ← unmarshal noEnv .bytes .nilBytes data
  match c with
  | .bytes concat =>
    if concat.length % 20 ≠ 0 then .err .badPieces
    else .ok (piecesVal (chunks20 concat.length concat))
  | _ => .panic -- not reached: decoding into `[]byte` leaves a non-nil slice

/-- metainfo.go:27-29 `Time.MarshalBencoding`. -/
def timeMarshal (v : Val) : Res Bytes := marshal noEnv (.int 64) v

/-- metainfo.go:31-38 `Time.UnmarshalBencoding`. -/
def timeUnmarshal (data : Bytes) (_ : Val) : Res Val := unmarshal noEnv (.int 64) (.int 0) data

/-- The methods that decoding an `info` can meet (metainfo.go:27-38, 87-111). -/
def innerEnv : Env := fun id =>
  if id = piecesId then ⟨some piecesUnmarshal, some piecesMarshal⟩
  else if id = timeId then ⟨some timeUnmarshal, some timeMarshal⟩
  else ⟨none, none⟩

/-- metainfo.go:80-81: `*i = Info(*cpy); i.SHA1 = sha1.Sum(data)`. -/
def setSha1 (h : Bytes) : Val → Res Val
  | .struct (_ :: fs) => .ok (.struct (hashVal h :: fs))
  | _ => .panic -- not reached: a struct decodes to a struct

/-- metainfo.go:75-83 `Info.UnmarshalBencoding`. -/
def infoUnmarshal (sha1 : Bytes → Bytes) (data : Bytes) (_ : Val) : Res Val := do
  let v ← unmarshal innerEnv infoStruct (zero infoStruct) data
  setSha1 (sha1 data) v

/-- All methods (metainfo.go:27-38, 75-83, 87-111). `Info` has no `MarshalBencoding`. -/
def metaEnv (sha1 : Bytes → Bytes) : Env := fun id =>
  if id = infoId then ⟨some (infoUnmarshal sha1), none⟩ else innerEnv id

/-- `bencode.Unmarshal(bs, &m)` (bencode/decode.go:13-17) into a fresh `Metainfo` (metainfo.go:12-21). -/
def unmarshalMetainfo (sha1 : Bytes → Bytes) (bs : Bytes) : Res Val := unmarshal (metaEnv sha1) metaTy (zero metaTy) bs

end Drip.Metainfo
