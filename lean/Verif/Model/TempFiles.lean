import Verif.Model.Storage
/-
The files under `WorkDir/temp` that /repo/storage/storage.go:243-362 creates: how many there are, and how many files are open to be written. Storage.lean leaves them out, because they are
never read back; here is the same code once more, with them.

A file that is being created when the process dies does not exist (if it did, it would be one more). A file of a torrent of several files is part of its temporary directory, which counts as one.
The closing of files does not fail. Files that are open to be read are in LazyReader.lean and ReadCost.lean.
-/

namespace Drip.TempFiles
open Storage Metainfo

/-- The temporary files and directories that exist (storage.go:249, 299, 329), whether the one of the running call does, the files that are open to be written (storage.go:249, 299, 345), and
which removals of a temporary file (storage.go:253, 303, 333) are going to fail (none when nothing is said). History variables: how many removals have failed, and how often the
process has died when its temporary file existed. -/
structure Tmp where
  count : Nat := 0
  own : Bool := false
  opened : Nat := 0
  removals : List Bool := []
  failed : Nat := 0
  died : Nat := 0
  deriving DecidableEq, Repr

/-- A piece of code of storage.go (for example storage.go:243-281), with the temporary files. -/
def T (α : Type) := Sys → List Fate → Tmp → (Out α × Sys × List Fate) × Tmp

namespace T
/-- Code that has nothing to do with temporary files (for example storage.go:244-246). -/
def of {α : Type} (p : Op α) : T α := fun s f t => (p s f, t)
/-- `if err != nil { return err }` (for example storage.go:126-128), then what follows. -/
def bind {α β : Type} (p : T α) (k : α → T β) : T β := fun s f t =>
  match p s f t with
  | ((.ok a, s, f), t) => k a s f t
  | ((.err e, s, f), t) => ((.err e, s, f), t)
  | ((.panic, s, f), t) => ((.panic, s, f), t)
  | ((.crash, s, f), t) => ((.crash, s, f), t)
/-- Statements one after the other (for example storage.go:112-140). -/
instance : Monad T where
  pure a := of (pure a)
  bind := T.bind
/-- What a call did to the temporary files (for example storage.go:276, 345, 352). -/
def note (g : Tmp → Tmp) : T Unit := fun s f t => ((.ok (), s, f), g t)
end T

/-- The deferred `os.Remove` or `os.RemoveAll` (storage.go:253, 303, 333): if the file has been renamed there is nothing to remove. -/
def Tmp.cleanup (t : Tmp) : Tmp :=
  if t.own then
    if t.removals.headD true then { t with count := t.count - 1, own := false, removals := t.removals.tail }
    else { t with own := false, removals := t.removals.tail, failed := t.failed + 1 }
  else t

/-- A temporary file (`fd = 1`: an open file, storage.go:249-254, 299-304) or directory (`fd = 0`: storage.go:329-333) is created, used, closed and removed, on every way out but the death of the process. -/
def withTemp {α : Type} (fd : Nat) (create : Op Unit) (body : T α) : T α := fun s f t =>
  match create s f with
  | (.ok (), s, f) =>
    match body s f { t with count := t.count + 1, own := true, opened := t.opened + fd } with
    | ((.crash, s, f), t) => ((.crash, s, f), if t.own then { t with own := false, died := t.died + 1 } else t)
    | (r, t) => (r, { t.cleanup with opened := t.opened - fd })
  | (.err e, s, f) => ((.err e, s, f), t)
  | (.panic, s, f) => ((.panic, s, f), t)
  | (.crash, s, f) => ((.crash, s, f), t)

/-- The temporary file has got another name (storage.go:276, 314, 354). -/
def moved : T Unit := T.note fun t => { t with count := t.count - 1, own := false }

/-- storage.go:243-281 `coalesceBlocks`. -/
def coalesceBlocks (cfg : Cfg) (i : Nat) : T Unit := do
  let (_, p) ← T.of (getPiece i)
  if p.completeBlocks ≠ ((p.blocks.getD []).length : Int) then pure () else do
  T.of Op.callTemp -- MkdirAll(temp)
  withTemp 1 Op.callTemp do -- CreateTemp
    match joinBlocks (p.blocks.getD []) with
    | none => T.of Op.panic
    | some data => do
      T.of Op.callTemp -- io.Copy
      if some (cfg.sha1 data) ≠ cfg.info.pieces[i]? then T.of (Op.fail .checksum) else do
      T.of mkWork
      T.of (renamePiece (pieceName i) data)
      moved
      T.of (completePiece i)

/-- storage.go:294-322 `coalescePiecesForSingleFile`. -/
def coalesceSingle (cfg : Cfg) : T Unit := do
  T.of Op.callTemp -- MkdirAll(temp)
  withTemp 1 (createTemp cfg.info.name) do
    let content ← T.of (readPieces (List.range cfg.info.pieces.length))
    T.of (renameFile cfg content)
    moved
    T.of removeWork
    T.of complete

/-- storage.go:340-353: the files one after the other; a file is closed in line 352 only. -/
def writeFiles (buf : Bytes) (is : List Nat) (acc : List (List Bytes × Bytes)) : List File → T (List (List Bytes × Bytes))
  | [] => pure acc
  | f :: fs =>
    if f.path = [] then T.of (Op.fail .fs) -- MkdirAll("")
    else do
      T.of Op.callTemp -- MkdirAll
      T.of Op.callTemp -- Create
      T.note fun t => { t with opened := t.opened + 1 }
      let (c, buf, is) ← T.of (copyN f.length.toNat buf is)
      T.of Op.callTemp -- write
      T.note fun t => { t with opened := t.opened - 1 }
      writeFiles buf is (storePath f.path c acc) fs

/-- storage.go:324-362 `coalescePiecesForMultiFile`. -/
def coalesceMulti (cfg : Cfg) : T Unit := do
  T.of Op.callTemp -- MkdirAll(temp)
  withTemp 0 (createTemp cfg.info.name) do
    let files ← writeFiles [] (List.range cfg.info.pieces.length) [] cfg.info.files
    T.of (renameDir cfg files)
    moved
    T.of removeWork
    T.of complete

/-- storage.go:283-292 `coalescePieces`. -/
def coalescePieces (cfg : Cfg) : T Unit := do
  let m ← T.of Op.getMem
  if m.completePieces ≠ (m.pieces.length : Int) then pure ()
  else if cfg.info.files ≠ [] then coalesceMulti cfg
  else coalesceSingle cfg

/-- `if err := p; err != nil { handler(err); return err }` (storage.go:131-135). -/
def onErr {α : Type} (p : T α) (handler : Err → Op Unit) : T α := fun s f t =>
  match p s f t with
  | ((.err e, s, f), t) =>
    match handler e s f with
    | (.ok (), s, f) => ((.err e, s, f), t)
    | (.err e', s, f) => ((.err e', s, f), t)
    | (.panic, s, f) => ((.panic, s, f), t)
    | (.crash, s, f) => ((.crash, s, f), t)
  | r => r

/-- storage.go:112-140 `PutBlock`. -/
def putBlock (cfg : Cfg) (index begin_ : Int) (data : Bytes) : T Unit := do
  T.of (Op.lift (checkBlockSize cfg.info index begin_ data.length))
  let m ← T.of Op.getMem
  if m.coalesced then T.of (Op.fail .blockExists) else do
  let (i, p) ← T.of (getPiece index)
  T.of (putBlockP cfg.info i p begin_ data)
  onErr (coalesceBlocks cfg i) fun e => do
    let m ← Op.getMem
    Op.setMem { m with downloaded := m.downloaded + cfg.info.getPieceLength i }
    deliver p.fut (some e)
  coalescePieces cfg

/-- storage.go:40-78 `Load`. -/
def load (cfg : Cfg) : T Unit := do
  match ← T.of (statTarget cfg) with
  | some size => do
    T.of (completeAll (List.range cfg.info.pieces.length))
    T.of complete
    let m ← T.of Op.getMem
    T.of (Op.setMem { m with downloaded := m.downloaded + size })
  | none => do
    match ← T.of readDir with
    | none => pure ()
    | some es => do
      T.of (loadEntries es)
      coalescePieces cfg

/-- Run a call (storage.go:40, 112) in a process, with these removals; the process is gone after a panic or crash, and its open files with it. -/
def runOp {α : Type} (p : T α) (w : World) (fates : List Fate) (removals : List Bool) (t : Tmp) : Out α × World × Tmp :=
  match w.mem with
  | none => (.crash, w, t)
  | some m =>
    match p ⟨w.fs, m⟩ fates { t with removals } with
    | ((.ok a, s, _), t) => (.ok a, ⟨s.fs, some s.mem⟩, t)
    | ((.err e, s, _), t) => (.err e, ⟨s.fs, some s.mem⟩, t)
    | ((.panic, s, _), t) => (.panic, ⟨s.fs, none⟩, { t with opened := 0 })
    | ((.crash, s, _), t) => (.crash, ⟨s.fs, none⟩, { t with opened := 0 })

/-- One event of a history, with the fates of the os calls it makes (storage.go:32-140), and of the removals of temporary files. -/
def step (cfg : Cfg) (x : World × Tmp) (e : Event) (fates : List Fate) (removals : List Bool) : World × Tmp :=
  match e with
  | .start => (Storage.step cfg x.1 .start fates, { x.2 with opened := 0 })
  | .load => (runOp (load cfg) x.1 fates removals x.2).2
  | .put i b d => (runOp (putBlock cfg i b d) x.1 fates removals x.2).2
  | e =>
    let w := Storage.step cfg x.1 e fates
    (w, if w.mem = none then { x.2 with opened := 0 } else x.2)

/-- A history (of calls of storage.go:32-140). -/
def run (cfg : Cfg) : List (Event × List Fate × List Bool) → World × Tmp → World × Tmp
  | [], x => x
  | (e, f, r) :: es, x => run cfg es (step cfg x e f r)

end Drip.TempFiles
