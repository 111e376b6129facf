import Verif.Model.Metainfo
import Verif.Model.Bitfield
import Verif.Model.Bencode.Num
/-
Model of /repo/storage/{storage,torrent,lazy_file_reader}.go and /repo/future/future.go, one call at a time (see
StorageConc.lean for goroutines).

File system: only the places the code reads back are represented: `TargetDir/Name` and the files of `WorkDir/<hash>/`.
Files under `WorkDir/temp` are never read back, so a temporary file is just the bytes written to it so far. Every call
of the os package consumes a `Fate`: it works, it returns an error, or the process dies there. A rename is atomic.
Nothing else writes to these directories.
-/

namespace Drip.Storage
open Metainfo

/-- storage.go:17 `BLOCK_LENGTH`. -/
def blockLength : Int := 16384

/-- What is at `TargetDir/Name` (storage.go:41, 314, 354): a file, or a directory given by the path (as a list of names) and content of its files. -/
inductive Target where
  | file (content : Bytes)
  | dir (files : List (List Bytes × Bytes))
  deriving DecidableEq, Repr

/-- The disk (storage.go:20-21). `work = none`: the directory `WorkDir/<hash>` does not exist; otherwise names and contents of its files. -/
structure FS where
  target : Option Target := none
  work : Option (List (Bytes × Bytes)) := none
  deriving DecidableEq, Repr

/-- What happens to one call of the os package (for example storage.go:249). `removed` only matters for `os.RemoveAll` (storage.go:317, 357): the names it deleted before
failing or before the process died. -/
inductive Fate where
  | ok
  | fail (removed : List Bytes)
  | crash (removed : List Bytes)
  deriving DecidableEq, Repr

/-- torrent.go:65-76 `Piece`, the mutable part. `blocks = none` is a nil slice; `fut` is the identity of the future in
`err`. -/
structure Piece where
  coalesced : Bool := false
  completeBlocks : Int := 0
  blocks : Option (List (Option Bytes)) := none
  fut : Nat
  deriving DecidableEq, Repr

/-- torrent.go:13-22 `Torrent` and storage.go:19-24 `Storage`, the mutable part. `futs` are all futures ever made
(future.go:3-6): `none` while not delivered, then the delivered error (`some none` is nil). -/
structure Mem where
  bitfield : Bytes
  coalesced : Bool := false
  completePieces : Int := 0
  pieces : List Piece
  err : Nat
  futs : List (Option (Option Err))
  downloaded : Int := 0
  deriving DecidableEq, Repr

/-- What does not change: the torrent, SHA-1, and the size `os.Stat` reports for a directory. -/
structure Cfg where
  info : Info
  sha1 : Bytes → Bytes
  dirSize : Int := 4096

/-- The disk and a `Storage` (storage.go:19-24). -/
structure Sys where
  fs : FS
  mem : Mem
  deriving DecidableEq, Repr

/-- Outcome of an operation (a method of `Storage`, for example storage.go:112): normal return, error return, run-time panic, or death of the process. -/
inductive Out (α : Type) where
  | ok (a : α)
  | err (e : Err)
  | panic
  | crash
  deriving DecidableEq, Repr

/-- A piece of code of storage.go or torrent.go (for example storage.go:243-281): what it does to the state and how many fates it uses. -/
def Op (α : Type) := Sys → List Fate → Out α × Sys × List Fate

namespace Op
/-- `return a, nil` (for example storage.go:139). -/
def pure {α : Type} (a : α) : Op α := fun s f => (.ok a, s, f)
/-- `if err != nil { return err }` (for example storage.go:126-128), then what follows. -/
def bind {α β : Type} (p : Op α) (k : α → Op β) : Op β := fun s f =>
  match p s f with
  | (.ok a, s, f) => k a s f
  | (.err e, s, f) => (.err e, s, f)
  | (.panic, s, f) => (.panic, s, f)
  | (.crash, s, f) => (.crash, s, f)
/-- Statements one after the other (for example storage.go:112-140). -/
instance : Monad Op where
  pure := Op.pure
  bind := Op.bind
/-- `return err` (for example storage.go:107). -/
def fail {α : Type} (e : Err) : Op α := fun s f => (.err e, s, f)
/-- A run-time panic (for example the index of storage.go:85). -/
def panic {α : Type} : Op α := fun s f => (.panic, s, f)
/-- Lift a computation without effects (for example storage.go:114). -/
def lift {α : Type} : Res α → Op α
  | .ok a => pure a
  | .err e => fail e
  | .panic => panic
/-- A look at the fields of `Storage`, `Torrent` and `Piece` (storage.go:19-24, torrent.go:13-22, 65-76). -/
def getMem : Op Mem := fun s f => (.ok s.mem, s, f)
/-- Assignments to these fields (storage.go:19-24, torrent.go:13-22, 65-76). -/
def setMem (m : Mem) : Op Unit := fun s f => (.ok (), { s with mem := m }, f)
/-- A call of the os package (for example storage.go:273-276) with result `r` and effect `eff`; `none` is an error without effect. A call that fails or
during which the process dies has the effect `part`. -/
def call {α : Type} (eff : FS → Option (α × FS)) (part : List Bytes → FS → FS := fun _ fs => fs) : Op α := fun s f =>
  match f with
  | [] | .ok :: _ =>
    match eff s.fs with
    | some (a, fs) => (.ok a, { s with fs := fs }, f.tail)
    | none => (.err .fs, s, f.tail)
  | .fail r :: _ => (.err .fs, { s with fs := part r s.fs }, f.tail)
  | .crash r :: _ => (.crash, { s with fs := part r s.fs }, f.tail)
/-- A call without effect on what is represented: temporary files (storage.go:249-267, 296-301, 326-329, 342-351). -/
def callTemp : Op Unit := call fun fs => some ((), fs)
end Op

/-! ### Disk -/

/-- The file with the given name (storage.go:214, 307, 336). -/
def lookup (name : Bytes) : List (Bytes × Bytes) → Option Bytes
  | [] => none
  | (n, c) :: l => if n = name then some c else lookup name l

/-- Create or replace a file (storage.go:276). -/
def store (name content : Bytes) : List (Bytes × Bytes) → List (Bytes × Bytes)
  | [] => [(name, content)]
  | (n, c) :: l => if n = name then (name, content) :: l else (n, c) :: store name content l

/-- Same for the files of a target directory (storage.go:345-349). -/
def storePath (path : List Bytes) (content : Bytes) : List (List Bytes × Bytes) → List (List Bytes × Bytes)
  | [] => [(path, content)]
  | (n, c) :: l => if n = path then (path, content) :: l else (n, c) :: storePath path content l

/-- The file with the given path in a target directory (storage.go:193-194). -/
def lookupPath (path : List Bytes) : List (List Bytes × Bytes) → Option Bytes
  | [] => none
  | (n, c) :: l => if n = path then some c else lookupPath path l

/-- `os.MkdirAll(WorkDir/<hash>)` (storage.go:273). -/
def mkWork : Op Unit := Op.call fun fs => some ((), { fs with work := some (fs.work.getD []) })

/-- `os.Rename(temp, WorkDir/<hash>/<name>)` (storage.go:276). -/
def renamePiece (name content : Bytes) : Op Unit := Op.call fun fs =>
  match fs.work with
  | none => none
  | some l => some ((), { fs with work := some (store name content l) })

/-- Opening and reading a whole file of `WorkDir/<hash>` (lazy_file_reader.go). -/
def readWork (name : Bytes) : Op Bytes := Op.call fun fs => (fs.work.bind (lookup name)).map fun c => (c, fs)

/-- `os.RemoveAll(WorkDir/<hash>)` (storage.go:317, 357). -/
def removeWork : Op Unit :=
  Op.call (fun fs => some ((), { fs with work := none }))
    (fun removed fs => { fs with work := fs.work.map fun l => l.filter fun x => !removed.contains x.1 })

/-- The name makes `TargetDir/Name` (storage.go:41, 314, 354) an existing directory of its own. -/
def trivialName (name : Bytes) : Bool := name == b!"" || name == b!"." || name == b!".."

/-- `os.CreateTemp(dir, Name)` and `os.MkdirTemp(dir, Name)` (storage.go:299, 329) fail if the name contains a slash. -/
def createTemp (name : Bytes) : Op Unit := Op.call fun fs => if name.contains 47 then none else some ((), fs)

/-- `os.Rename(temp, TargetDir/Name)` for a file (storage.go:314). -/
def renameFile (cfg : Cfg) (content : Bytes) : Op Unit := Op.call fun fs =>
  if trivialName cfg.info.name then none else
  match fs.target with
  | some (.dir _) => none
  | _ => some ((), { fs with target := some (.file content) })

/-- `os.Rename(temp, TargetDir/Name)` for a directory (storage.go:354): only an empty directory can be replaced. -/
def renameDir (cfg : Cfg) (files : List (List Bytes × Bytes)) : Op Unit := Op.call fun fs =>
  if trivialName cfg.info.name then none else
  match fs.target with
  | none | some (.dir []) => some ((), { fs with target := some (.dir files) })
  | _ => none

/-! ### Futures and bookkeeping -/

/-- future.go:12-15 `Deliver`: closing a closed channel panics. -/
def deliver (id : Nat) (v : Option Err) : Op Unit := do
  let m ← Op.getMem
  match m.futs[id]? with
  | some none => Op.setMem { m with futs := m.futs.set id (some v) }
  | _ => Op.panic

/-- `torrent.pieces[index]` (storage.go:70, 85, 89, 103, 123): an index out of range panics. -/
def getPiece (index : Int) : Op (Nat × Piece) := do
  let m ← Op.getMem
  if index < 0 then Op.panic else
  match m.pieces[index.toNat]? with
  | some p => pure (index.toNat, p)
  | none => Op.panic

/-- Assignment to the fields of a `*Piece` (torrent.go:65-76). -/
def setPiece (i : Nat) (p : Piece) : Op Unit := do
  let m ← Op.getMem
  Op.setMem { m with pieces := m.pieces.set i p }

/-- torrent.go:52-58 `completePiece`. -/
def completePiece (i : Nat) : Op Unit := do
  let (_, p) ← getPiece i
  setPiece i { p with coalesced := true }
  deliver p.fut none
  setPiece i { p with coalesced := true, blocks := none }
  let m ← Op.getMem
  let bf ← Op.lift (Bitfield.add m.bitfield i)
  Op.setMem { m with bitfield := bf, completePieces := m.completePieces + 1 }

/-- torrent.go:60-63 `complete`. -/
def complete : Op Unit := do
  let m ← Op.getMem
  Op.setMem { m with coalesced := true }
  deliver m.err none

/-- torrent.go:79-83: the number of blocks of a piece. -/
def numBlocks (info : Info) (index : Int) : Int :=
  let n := (info.getPieceLength index).tdiv blockLength
  if (info.getPieceLength index).tmod blockLength ≠ 0 then n + 1 else n

/-- torrent.go:93-95 `Piece.FileName`. -/
def pieceName (i : Nat) : Bytes := natDec i ++ b!".piece"

/-- torrent.go:104-109 `reset`. -/
def resetP (i : Nat) (p : Piece) : Op Unit := do
  deliver p.fut (some .pieceReset)
  let m ← Op.getMem
  Op.setMem { m with futs := m.futs ++ [none] }
  setPiece i { p with fut := m.futs.length, blocks := none, completeBlocks := 0 }

/-- torrent.go:115-117: the slice of blocks, allocated when the first one arrives. `make` with a negative length panics. -/
def allocBlocks (info : Info) (i : Nat) (p : Piece) : Op (List (Option Bytes)) :=
  match p.blocks with
  | some bs => pure bs
  | none => if numBlocks info i < 0 then Op.panic else pure (List.replicate (numBlocks info i).toNat none)

/-- torrent.go:118-128: an index out of range panics. -/
def storeBlock (i : Nat) (p : Piece) (blocks : List (Option Bytes)) (k : Int) (data : Bytes) : Op Unit :=
  if k < 0 then Op.panic
  else match blocks[k.toNat]? with
    | none => Op.panic
    | some (some _) => Op.fail .blockExists
    | some none => setPiece i { p with blocks := some (blocks.set k.toNat (some data)), completeBlocks := p.completeBlocks + 1 }

/-- torrent.go:111-129 `putBlock`. -/
def putBlockP (info : Info) (i : Nat) (p : Piece) (begin_ : Int) (data : Bytes) : Op Unit :=
  if p.coalesced then Op.fail .blockExists
  else do
    let blocks ← allocBlocks info i p
    setPiece i { p with blocks := some blocks }
    storeBlock i p blocks (begin_.tdiv blockLength) data

/-! ### Storage -/

/-- storage.go:227-241 `checkBlockSize`. -/
def checkBlockSize (info : Info) (index begin_ length : Int) : Res Unit :=
  if begin_.tmod blockLength ≠ 0 then .err .misaligned
  else
    let pl := info.getPieceLength index
    let lastBlock := blockLength * pl.tdiv blockLength
    let expected := if begin_ = lastBlock then pl - begin_ else blockLength
    if expected ≠ length then .err .blockLength else .ok ()

/-- The data of all blocks in order; `none` if one is missing (a nil dereference in storage.go:259-261). -/
def joinBlocks : List (Option Bytes) → Option Bytes
  | [] => some []
  | none :: _ => none
  | some b :: bs => (joinBlocks bs).map fun r => b ++ r

/-- storage.go:243-281 `coalesceBlocks` (on success the deferred removal of the renamed file does nothing). -/
def coalesceBlocks (cfg : Cfg) (i : Nat) : Op Unit := do
  let (_, p) ← getPiece i
  if p.completeBlocks ≠ ((p.blocks.getD []).length : Int) then pure () else do
  Op.callTemp -- MkdirAll(temp)
  Op.callTemp -- CreateTemp
  match joinBlocks (p.blocks.getD []) with
  | none => Op.panic
  | some data => do
    Op.callTemp -- io.Copy
    if some (cfg.sha1 data) ≠ cfg.info.pieces[i]? then Op.fail .checksum else do
    mkWork
    renamePiece (pieceName i) data
    completePiece i

/-- storage.go:305-313: the contents of the files of the pieces `is`, each read and written to the temporary file. -/
def readPieces : List Nat → Op Bytes
  | [] => pure []
  | i :: is => do
    let c ← readWork (pieceName i)
    Op.callTemp
    let r ← readPieces is
    pure (c ++ r)

/-- storage.go:294-322 `coalescePiecesForSingleFile`. -/
def coalesceSingle (cfg : Cfg) : Op Unit := do
  Op.callTemp -- MkdirAll(temp)
  createTemp cfg.info.name
  let content ← readPieces (List.range cfg.info.pieces.length)
  renameFile cfg content
  removeWork
  complete

/-- `io.CopyN(f, r, n)` (storage.go:349) from the piece files `is` (none of them read so far), `buf` being what was read
but not used: the bytes copied, what is left. Running out of data is an error. -/
def copyN (n : Nat) (buf : Bytes) : List Nat → Op (Bytes × Bytes × List Nat)
  | [] => if n ≤ buf.length then pure (buf.take n, buf.drop n, []) else Op.fail .eof
  | i :: is =>
    if n ≤ buf.length then pure (buf.take n, buf.drop n, i :: is)
    else do
      let c ← readWork (pieceName i)
      copyN n (buf ++ c) is

/-- storage.go:340-353: the files one after the other. Paths are lists of names, compared as such: `filepath.Join`'s
cleaning of `.`/`..`/empty names (see Paths.lean) and conflicts between a file and a directory of the same name are not
represented here. A negative length copies nothing (`io.LimitReader`). -/
def writeFiles (buf : Bytes) (is : List Nat) (acc : List (List Bytes × Bytes)) : List File → Op (List (List Bytes × Bytes))
  | [] => pure acc
  | f :: fs =>
    if f.path = [] then Op.fail .fs -- MkdirAll("")
    else do
      Op.callTemp -- MkdirAll
      Op.callTemp -- Create
      let (c, buf, is) ← copyN f.length.toNat buf is
      Op.callTemp -- write
      writeFiles buf is (storePath f.path c acc) fs

/-- storage.go:324-362 `coalescePiecesForMultiFile`. -/
def coalesceMulti (cfg : Cfg) : Op Unit := do
  Op.callTemp -- MkdirAll(temp)
  createTemp cfg.info.name
  let files ← writeFiles [] (List.range cfg.info.pieces.length) [] cfg.info.files
  renameDir cfg files
  removeWork
  complete

/-- storage.go:283-292 `coalescePieces`. -/
def coalescePieces (cfg : Cfg) : Op Unit := do
  let m ← Op.getMem
  if m.completePieces ≠ (m.pieces.length : Int) then pure ()
  else if cfg.info.files ≠ [] then coalesceMulti cfg
  else coalesceSingle cfg

/-- `if err := p; err != nil { handler(err); return err }` (storage.go:131-135). -/
def onErr {α : Type} (p : Op α) (handler : Err → Op Unit) : Op α := fun s f =>
  match p s f with
  | (.err e, s, f) =>
    match handler e s f with
    | (.ok (), s, f) => (.err e, s, f)
    | (.err e', s, f) => (.err e', s, f)
    | (.panic, s, f) => (.panic, s, f)
    | (.crash, s, f) => (.crash, s, f)
  | r => r

/-- storage.go:112-140 `PutBlock`. -/
def putBlock (cfg : Cfg) (index begin_ : Int) (data : Bytes) : Op Unit := do
  Op.lift (checkBlockSize cfg.info index begin_ data.length)
  let m ← Op.getMem
  if m.coalesced then Op.fail .blockExists else do
  let (i, p) ← getPiece index
  putBlockP cfg.info i p begin_ data
  onErr (coalesceBlocks cfg i) fun e => do
    let m ← Op.getMem
    Op.setMem { m with downloaded := m.downloaded + cfg.info.getPieceLength i }
    deliver p.fut (some e)
  coalescePieces cfg

/-- storage.go:88-94 `ResetPiece`. -/
def resetPiece (index : Int) : Op Unit := do
  let (i, p) ← getPiece index
  resetP i p

/-- `f.ReadAt(data, off)` with `len(data) = len` on a file with content `c` (storage.go:168, 198, 220): the bytes read; EOF if fewer than asked. -/
def readAt (c : Bytes) (off : Int) (len : Nat) : Res (Bytes × Bool) :=
  if off < 0 then .err .fs
  else
    let r := (c.drop off.toNat).take len
    .ok (r, decide (r.length < len))

/-- `make([]byte, n)` (storage.go:166, 180, 219) panics for a negative n (and for sizes beyond the address space, not represented). -/
def makeLen (n : Int) : Op Nat := if n < 0 then Op.panic else pure n.toNat

/-- `os.Open(TargetDir/Name)` and reading it at an offset (storage.go:160-175). -/
def openTargetFile : Op Bytes := Op.call fun fs =>
  match fs.target with
  | some (.file c) => some (c, fs)
  | _ => none

/-- storage.go:159-176 `getBlockFromSingleFile`. -/
def getSingle (cfg : Cfg) (index begin_ length : Int) : Op Bytes := do
  let c ← openTargetFile
  let n ← makeLen length
  let (r, eof) ← Op.lift (readAt c (index * cfg.info.pieceLength + begin_) n)
  if eof then Op.fail .eof else pure r

/-- `os.Open` of a file of the target directory and reading it (storage.go:193-198). -/
def openTargetPath (path : List Bytes) : Op Bytes := Op.call fun fs =>
  match fs.target with
  | some (.dir files) => (lookupPath path files).map fun c => (c, fs)
  | _ => none

/-- storage.go:184-206, the loop over the files; `acc` is `data[:curr]`. -/
def getMultiLoop (start end_ : Int) (len : Nat) (total : Int) (acc : Bytes) : List File → Op Bytes
  | [] => pure acc
  | f :: fs =>
    if end_ ≤ total then pure acc
    else if start ≤ total + f.length then do
      let off := if total < start then start - total else 0
      let c ← openTargetPath f.path
      let (r, _) ← Op.lift (readAt c off (len - acc.length))
      getMultiLoop start end_ len (total + f.length) (acc ++ r) fs
    else getMultiLoop start end_ len (total + f.length) acc fs

/-- storage.go:178-211 `getBlockFromMultiFile`. -/
def getMulti (cfg : Cfg) (index begin_ length : Int) : Op Bytes := do
  let n ← makeLen length
  let start := index * cfg.info.pieceLength + begin_
  let r ← getMultiLoop start (start + length) n 0 [] cfg.info.files
  if r.length < n then Op.fail .incompleteRead else pure r

/-- storage.go:213-225 `getBlockFromPiece`. -/
def getFromPiece (i : Nat) (begin_ length : Int) : Op Bytes := do
  let c ← readWork (pieceName i)
  let n ← makeLen length
  let (r, eof) ← Op.lift (readAt c begin_ n)
  if eof then Op.fail .eof else pure r

/-- storage.go:96-110 `GetBlock`. -/
def getBlock (cfg : Cfg) (index begin_ length : Int) : Op Bytes := do
  let m ← Op.getMem
  if m.coalesced then
    if cfg.info.files ≠ [] then getMulti cfg index begin_ length else getSingle cfg index begin_ length
  else do
    let (i, p) ← getPiece index
    if !p.coalesced then Op.fail .incompletePiece
    else getFromPiece i begin_ length

/-- Spaces that `fmt.Sscanf` (storage.go:61) skips in front of `%d` (ASCII only; a newline is an error). -/
def skipSpaces : Bytes → Bytes
  | [] => []
  | b :: bs => if b = 32 ∨ b = 9 ∨ b = 11 ∨ b = 12 ∨ b = 13 then skipSpaces bs else b :: bs

/-- The digits at the start (`%d` of storage.go:61). -/
def spanDigits : Bytes → Bytes × Bytes
  | [] => ([], [])
  | b :: bs => if isDigit b then let (d, r) := spanDigits bs; (b :: d, r) else ([], b :: bs)

/-- An optional sign (`%d` of storage.go:61). -/
def splitSign : Bytes → Bytes × Bytes
  | [] => ([], [])
  | b :: r => if b = 43 ∨ b = 45 then ([b], r) else ([], b :: r)

/-- `fmt.Sscanf(name, "%d.piece", &i)` (storage.go:61): optional sign, digits, then the text `.piece`; anything may
follow. -/
def sscanfPiece (name : Bytes) : Option Int :=
  let s := skipSpaces name
  let x := splitSign s
  let y := spanDigits x.2
  match parseInt (x.1 ++ y.1) with
  | none => none
  | some i => if b!".piece".isPrefixOf y.2 then some i else none

/-- `os.Stat(TargetDir/Name)` (storage.go:41): the size if it exists. -/
def statTarget (cfg : Cfg) : Op (Option Int) := Op.call fun fs =>
  if trivialName cfg.info.name then some (some cfg.dirSize, fs) else
  match fs.target with
  | some (.file c) => some (some (c.length : Int), fs)
  | some (.dir _) => some (some cfg.dirSize, fs)
  | none => some (none, fs)

/-- storage.go:47-49: all pieces. -/
def completeAll : List Nat → Op Unit
  | [] => pure ()
  | i :: is => do completePiece i; completeAll is

/-- storage.go:59-71: the directory entries. -/
def loadEntries : List (Bytes × Bytes) → Op Unit
  | [] => pure ()
  | (name, content) :: es =>
    match sscanfPiece name with
    | none => loadEntries es
    | some i => do
      Op.callTemp -- Stat
      let m ← Op.getMem
      Op.setMem { m with downloaded := m.downloaded + content.length }
      let (i, _) ← getPiece i
      completePiece i
      loadEntries es

/-- `os.ReadDir(WorkDir/<hash>)` (storage.go:54). -/
def readDir : Op (Option (List (Bytes × Bytes))) := Op.call fun fs => some (fs.work, fs)

/-- storage.go:40-78 `Load`. -/
def load (cfg : Cfg) : Op Unit := do
  match ← statTarget cfg with
  | some size => do
    completeAll (List.range cfg.info.pieces.length)
    complete
    let m ← Op.getMem
    Op.setMem { m with downloaded := m.downloaded + size }
  | none => do
    match ← readDir with
    | none => pure ()
    | some es => do
      loadEntries es
      coalescePieces cfg

/-- storage.go:32-38 `New`, torrent.go:24-35 `newTorrent`: the futures of the pieces are 0, 1, …; then the torrent's. -/
def newMem (info : Info) : Mem :=
  { bitfield := Bitfield.new info.pieces.length
    pieces := (List.range info.pieces.length).map fun i => { fut := i }
    err := info.pieces.length
    futs := List.replicate (info.pieces.length + 1) none }

/-! ### Histories -/

/-- What can happen to a storage: `New` in a new process (storage.go:32-38, whatever the old one was doing), or a call (storage.go:40, 88, 96, 112). -/
inductive Event where
  | start
  | load
  | put (index begin_ : Int) (data : Bytes)
  | get (index begin_ length : Int)
  | reset (index : Int)
  deriving DecidableEq, Repr

/-- The disk and, if a process is alive, its memory (storage.go:19-24). -/
structure World where
  fs : FS
  mem : Option Mem
  deriving DecidableEq, Repr

/-- Run a call (storage.go:40, 88, 96, 112) in a process; the process is gone after a panic or crash. -/
def runOp {α : Type} (p : Op α) (w : World) (fates : List Fate) : Out α × World :=
  match w.mem with
  | none => (.crash, w)
  | some m =>
    match p ⟨w.fs, m⟩ fates with
    | (.ok a, s, _) => (.ok a, ⟨s.fs, some s.mem⟩)
    | (.err e, s, _) => (.err e, ⟨s.fs, some s.mem⟩)
    | (.panic, s, _) => (.panic, ⟨s.fs, none⟩)
    | (.crash, s, _) => (.crash, ⟨s.fs, none⟩)

/-- One event of a history, with the fates of the os calls it makes (storage.go:32-140). -/
def step (cfg : Cfg) (w : World) (e : Event) (fates : List Fate) : World :=
  match e with
  | .start => ⟨w.fs, some (newMem cfg.info)⟩
  | .load => (runOp (load cfg) w fates).2
  | .put i b d => (runOp (putBlock cfg i b d) w fates).2
  | .get i b l => (runOp (getBlock cfg i b l) w fates).2
  | .reset i => (runOp (resetPiece i) w fates).2

/-- A history (of calls of storage.go:32-140) from empty directories. -/
def run (cfg : Cfg) : List (Event × List Fate) → World → World
  | [], w => w
  | (e, f) :: es, w => run cfg es (step cfg w e f)

end Drip.Storage
