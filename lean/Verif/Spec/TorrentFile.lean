import Verif.Spec.Bencode
import Verif.Model.Bencode.Types
import Mathlib.Data.List.Forall2
/-
The layout of a torrent file (BEP 3, with `announce-list` of BEP 12), independently of struct tags and of the codec.
Values are Go values in the order of the fields of `Metainfo`, `Info` and `File`.
-/

namespace Drip.Spec
open Bencode

/-! ### Reading -/

/-- A string. -/
def IsStr (t : CTree) (v : Val) : Prop := ∃ l b, t = .str l b ∧ LenText l b ∧ v = .str b

/-- An integer of 64 bits. -/
def IsInt (t : CTree) (v : Val) : Prop :=
  ∃ s n, t = .int s n ∧ SNumeral s n ∧ ¬ LeadingZero s ∧ -2 ^ 63 ≤ n ∧ n < 2 ^ 63 ∧ v = .int n

/-- A list. -/
def IsList (R : CTree → Val → Prop) (t : CTree) (v : Val) : Prop := ∃ ts vs, t = .list ts ∧ List.Forall₂ R ts vs ∧ v = .slice vs

/-- A Unix time. -/
def IsDate (t : CTree) (v : Val) : Prop := ∃ n, IsInt t n ∧ v = .ptr n

/-- Hashes of 20 bytes in a row; nil if there are none. -/
def IsPieces (t : CTree) (v : Val) : Prop :=
  ∃ l b hs, t = .str l b ∧ LenText l b ∧ (∃ c r, l = c :: r ∧ Digit c) ∧ (∀ h ∈ hs, h.length = 20) ∧ hs.flatten = b ∧
    v = if hs = [] then .nilSlice else .slice (hs.map fun h => .array (h.map fun x => .uint x.toNat))

/-- What an optional entry of a dictionary gives: the value at its key, or `absent`. -/
def Entry (es : List (Bytes × Bytes × CTree)) (k : Bytes) (absent : Val) (R : CTree → Val → Prop) (v : Val) : Prop :=
  ((∀ e ∈ es, e.2.1 ≠ k) ∧ v = absent) ∨ ∃ l t, (l, k, t) ∈ es ∧ R t v

/-- The keys increase from `last` on. -/
def KeysFrom : Bytes → List (Bytes × Bytes × CTree) → Prop
  | _, [] => True
  | last, (l, k, _) :: es => LenText l k ∧ BLt last k ∧ KeysFrom k es

/-- Under other keys there may be anything that is well-formed. -/
def OthersOk (keys : List Bytes) (es : List (Bytes × Bytes × CTree)) : Prop := ∀ l k t, (l, k, t) ∈ es → k ∉ keys → t.Valid true (2 ^ 63)

/-- The keys of an info dictionary. -/
def infoKeys : List Bytes := [b!"piece length", b!"pieces", b!"private", b!"name", b!"length", b!"md5sum", b!"files"]

/-- An info dictionary without files in it, and what is read from it. -/
def IsInfo (sha1 : Bytes → Bytes) (t : CTree) (v : Val) : Prop :=
  ∃ es pl ps pr nm ln md fl, t = .dict es ∧ t.Valid true (2 ^ 63) ∧
    Entry es b!"piece length" (.int 0) IsInt pl ∧
    Entry es b!"pieces" .nilSlice IsPieces ps ∧
    Entry es b!"private" (.int 0) IsInt pr ∧
    Entry es b!"name" (.str []) IsStr nm ∧
    Entry es b!"length" (.int 0) IsInt ln ∧
    Entry es b!"md5sum" (.str []) IsStr md ∧
    Entry es b!"files" .nilSlice (IsList fun _ _ => False) fl ∧
    v = .ptr (.struct [.array ((sha1 t.print).map fun x => .uint x.toNat), pl, ps, pr, nm, ln, md, fl])

/-- The keys of a torrent file. -/
def metaKeys : List Bytes := [b!"info", b!"announce", b!"announce-list", b!"creation date", b!"comment", b!"created by", b!"encoding"]

/-- A torrent file without a list of files, and what is read from it. -/
def IsTorrent (sha1 : Bytes → Bytes) (es : List (Bytes × Bytes × CTree)) (v : Val) : Prop :=
  ∃ info ann al cd cm cb en, KeysFrom [] es ∧ OthersOk metaKeys es ∧
    Entry es b!"info" .nilPtr (IsInfo sha1) info ∧
    Entry es b!"announce" (.str []) IsStr ann ∧
    Entry es b!"announce-list" .nilSlice (IsList (IsList IsStr)) al ∧
    Entry es b!"creation date" .nilPtr IsDate cd ∧
    Entry es b!"comment" (.str []) IsStr cm ∧
    Entry es b!"created by" (.str []) IsStr cb ∧
    Entry es b!"encoding" (.str []) IsStr en ∧
    v = .struct [info, ann, al, cd, cm, cb, en]

/-! ### Writing -/

/-- A file of a torrent. -/
structure FileOf where
  length : Int
  md5sum : Bytes
  path : List Bytes

/-- What a torrent file says. -/
structure Torrent where
  pieceLength : Int
  pieces : List Bytes
  priv : Int
  name : Bytes
  length : Int
  md5sum : Bytes
  files : List FileOf
  announce : Bytes
  announceList : List (List Bytes)
  created : Option Int
  comment : Bytes
  createdBy : Bytes
  encoding : Bytes

/-- A string that is left out if it is empty. -/
def optStr (k b : Bytes) : List (Bytes × BVal) := if b = [] then [] else [(k, .str b)]

/-- An integer that is left out if it is 0. -/
def optInt (k : Bytes) (n : Int) : List (Bytes × BVal) := if n = 0 then [] else [(k, .int n)]

/-- A list that is left out if it is empty. -/
def optList (k : Bytes) (l : List BVal) : List (Bytes × BVal) := if l = [] then [] else [(k, .list l)]

/-- An optional time. -/
def optDate (k : Bytes) : Option Int → List (Bytes × BVal)
  | none => []
  | some t => [(k, .int t)]

/-- A file as a dictionary. -/
def FileOf.tree (f : FileOf) : BVal :=
  .dict ([(b!"length", .int f.length)] ++ optStr b!"md5sum" f.md5sum ++ optList b!"path" (f.path.map .str))

/-- The info dictionary. Without pieces their entry is left out. -/
def Torrent.infoTree (m : Torrent) : BVal :=
  .dict (optList b!"files" (m.files.map FileOf.tree) ++ optInt b!"length" m.length ++ optStr b!"md5sum" m.md5sum ++ [(b!"name", .str m.name)] ++
    [(b!"piece length", .int m.pieceLength)] ++ (if m.pieces = [] then [] else [(b!"pieces", .str m.pieces.flatten)]) ++ optInt b!"private" m.priv)

/-- The whole torrent file. -/
def Torrent.tree (m : Torrent) : BVal :=
  .dict ([(b!"announce", .str m.announce)] ++ optList b!"announce-list" (m.announceList.map fun t => .list (t.map .str)) ++ optStr b!"comment" m.comment ++
    optStr b!"created by" m.createdBy ++ optDate b!"creation date" m.created ++ optStr b!"encoding" m.encoding ++
    [(b!"info", m.infoTree)])

/-- A Go slice; nil if it is empty. -/
def sliceVal (vs : List Val) : Val := if vs = [] then .nilSlice else .slice vs

/-- The Go value of an optional time. -/
def dateVal : Option Int → Val
  | none => .nilPtr
  | some t => .ptr (.int t)

/-- The Go value of a file. -/
def FileOf.val (f : FileOf) : Val := .struct [.int f.length, .str f.md5sum, sliceVal (f.path.map .str)]

/-- The Go value of the info, with any contents of `SHA1`. -/
def Torrent.infoVal (m : Torrent) (sha : Bytes) : Val :=
  .struct [.array (sha.map fun x => .uint x.toNat), .int m.pieceLength, sliceVal (m.pieces.map fun h => .array (h.map fun x => .uint x.toNat)), .int m.priv,
    .str m.name, .int m.length, .str m.md5sum, sliceVal (m.files.map fun f => .ptr f.val)]

/-- The Go value of the torrent file. -/
def Torrent.val (m : Torrent) (sha : Bytes) : Val :=
  .struct [.ptr (m.infoVal sha), .str m.announce, sliceVal (m.announceList.map fun t => .slice (t.map .str)),
    dateVal m.created, .str m.comment, .str m.createdBy, .str m.encoding]

end Drip.Spec
