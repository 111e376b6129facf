import Verif.Model.Storage
/-
What /repo/storage/storage.go:96-110 `GetBlock` takes from the system: files and memory. Storage.lean has only what is returned, and takes opening and reading a file for one call of the os;
here they are two, and it is written down which files are open and how large the buffers are.

The disk does not change meanwhile (the torrent is locked for reading, and the files are only touched by this program). The small things (the strings of paths, `os.File`) are not counted.
-/

namespace Drip.ReadCost
open Storage (Out FS Mem Cfg readAt lookup lookupPath pieceName)
open Metainfo (File)

/-- A call of the os: `os.Open` (storage.go:161, 194, 214) or `ReadAt` (storage.go:168, 198, 220). -/
inductive Call where
  | opening
  | reading
  deriving DecidableEq, Repr

/-- Which calls are going to fail (all succeed when nothing is said), what was called and whether it went well (a history variable), how many files are open (storage.go:161, 194, 214), and the
sizes of the buffers that were allocated (storage.go:166, 180, 219). -/
structure OS where
  fates : List Bool := []
  log : List (Call × Bool) := []
  opened : Nat := 0
  buffers : List Nat := []
  deriving DecidableEq, Repr

/-- A call (storage.go:161, 168, 194, 198, 214, 220). -/
def OS.call (os : OS) (c : Call) : Bool × OS :=
  let ok := os.fates.headD true
  (ok, { os with fates := os.fates.tail, log := os.log ++ [(c, ok)] })

/-- A file was opened (storage.go:161, 194, 214). -/
def OS.open_ (os : OS) : OS := { os with opened := os.opened + 1 }

/-- `f.Close()` (storage.go:165, 203, 218). -/
def OS.close (os : OS) : OS := { os with opened := os.opened - 1 }

/-- `make([]byte, n)` (storage.go:166, 180, 219). -/
def OS.alloc (os : OS) (n : Nat) : OS := { os with buffers := os.buffers ++ [n] }

/-- storage.go:161-175 and 214-224: open a file with this content (`none`: there is none), allocate a buffer, fill it, close the file on every way out (165, 218, also in a panic). -/
def readFile (c : Option Bytes) (off length : Int) (os : OS) : Out Bytes × OS :=
  match os.call .opening with
  | (false, os) => (.err .fs, os)
  | (true, os) =>
    match c with
    | none => (.err .fs, os)
    | some c =>
      let os := os.open_
      if length < 0 then (.panic, os.close)
      else
        let os := os.alloc length.toNat
        match os.call .reading with
        | (false, os) => (.err .fs, os.close)
        | (true, os) =>
          match readAt c off length.toNat with
          | .ok (r, eof) => (if eof then .err .eof else .ok r, os.close)
          | .err e => (.err e, os.close)
          | .panic => (.panic, os.close)

/-- storage.go:160-161: the content of the target if it is a file. -/
def targetFile (fs : FS) : Option Bytes :=
  match fs.target with
  | some (.file c) => some c
  | _ => none

/-- storage.go:193-194: the content of a file of the target directory. -/
def targetPath (fs : FS) (path : List Bytes) : Option Bytes :=
  match fs.target with
  | some (.dir files) => lookupPath path files
  | _ => none

/-- storage.go:184-206, the loop over the files; `acc` is `data[:curr]`. The file is closed in line 203 only. -/
def multiLoop (fs : FS) (start end_ : Int) (len : Nat) (total : Int) (acc : Bytes) : List File → OS → Out Bytes × OS
  | [], os => (.ok acc, os)
  | f :: rest, os =>
    if end_ ≤ total then (.ok acc, os)
    else if start ≤ total + f.length then
      let off := if total < start then start - total else 0
      match os.call .opening with
      | (false, os) => (.err .fs, os)
      | (true, os) =>
        match targetPath fs f.path with
        | none => (.err .fs, os)
        | some c =>
          match os.open_.call .reading with
          | (false, os) => (.err .fs, os)
          | (true, os) =>
            match readAt c off (len - acc.length) with
            | .ok (r, _) => multiLoop fs start end_ len (total + f.length) (acc ++ r) rest os.close
            | .err e => (.err e, os)
            | .panic => (.panic, os)
    else multiLoop fs start end_ len (total + f.length) acc rest os

/-- storage.go:178-211 `getBlockFromMultiFile`. -/
def readMulti (cfg : Cfg) (fs : FS) (index begin_ length : Int) (os : OS) : Out Bytes × OS :=
  if length < 0 then (.panic, os)
  else
    let start := index * cfg.info.pieceLength + begin_
    match multiLoop fs start (start + length) length.toNat 0 [] cfg.info.files (os.alloc length.toNat) with
    | (.ok r, os) => (if r.length < length.toNat then .err .incompleteRead else .ok r, os)
    | (o, os) => (o, os)

/-- storage.go:96-110 `GetBlock`. -/
def getBlock (cfg : Cfg) (fs : FS) (m : Mem) (index begin_ length : Int) (os : OS) : Out Bytes × OS :=
  if m.coalesced then
    if cfg.info.files ≠ [] then readMulti cfg fs index begin_ length os
    else readFile (targetFile fs) (index * cfg.info.pieceLength + begin_) length os
  else if index < 0 then (.panic, os)
  else
    match m.pieces[index.toNat]? with
    | none => (.panic, os)
    | some p =>
      if !p.coalesced then (.err .incompletePiece, os)
      else readFile (fs.work.bind (lookup (pieceName index.toNat))) begin_ length os

/-- Calls one after the other (peer.go:247), with the os as it is. -/
def getBlocks (cfg : Cfg) (fs : FS) (m : Mem) : List (Int × Int × Int) → OS → OS
  | [], os => os
  | (index, begin_, length) :: rs, os => getBlocks cfg fs m rs (getBlock cfg fs m index begin_ length os).2

end Drip.ReadCost
