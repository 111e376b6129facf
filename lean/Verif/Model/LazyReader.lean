import Verif.Model.Basic
/-
How the files of the pieces are copied to the target: /repo/storage/lazy_file_reader.go and its use in /repo/storage/storage.go:294-362, with `io.MultiReader`, `io.Copy` and `io.CopyN`.
Storage.lean has only what is copied in the end (`readPieces`, `copyN`); here are the single reads, which may return fewer bytes than asked for, and the open files.

The files do not change meanwhile (the torrent is locked). A piece's path (storage.go:307, 336) is represented by its number.
-/

namespace Drip.LazyReader

/-- What the os does with a call: at most `n + 1` bytes for a read, or an error. -/
inductive Fate where
  | ok (n : Nat)
  | fail
  deriving DecidableEq, Repr

/-- The files of the pieces (storage.go:305-309), how many are open, how many have ever been open at the same time (a history variable), and what the os is going to do. -/
structure OS where
  disk : Nat → Option Bytes
  fates : List Fate
  opened : Nat := 0
  peak : Nat := 0

/-- The next call of the os; when nothing is said, it succeeds with 4096 bytes (lazy_file_reader.go:18, 23, 47). -/
def OS.call (os : OS) : Fate × OS :=
  match os.fates with
  | [] => (.ok 4095, os)
  | f :: fs => (f, { os with fates := fs })

/-- A file is opened (lazy_file_reader.go:23). -/
def OS.open_ (os : OS) : OS := { os with opened := os.opened + 1, peak := max os.peak (os.opened + 1) }

/-- lazy_file_reader.go:9-14 `lazyFileReader`; `f` is the offset of the open file. -/
structure LFR where
  path : Nat
  f : Option Nat := none
  closed : Bool := false
  read : Nat := 0
  size : Nat := 0
  deriving DecidableEq, Repr

/-- lazy_file_reader.go:16-29 `checkOpen`. -/
def checkOpen (l : LFR) (os : OS) : Bool × LFR × OS :=
  match l.f with
  | some _ => (true, l, os)
  | none =>
    match os.call with
    | (.fail, os) => (false, l, os)
    | (.ok _, os) =>
      match os.disk l.path with
      | none => (false, l, os)
      | some c =>
        match os.call with
        | (.fail, os) => (false, { l with size := c.length }, os)
        | (.ok _, os) => (true, { l with size := c.length, f := some 0 }, os.open_)

/-- lazy_file_reader.go:31-35 `checkClose`; closing a nil file or a closed file is an error that is not looked at. -/
def checkClose (l : LFR) (os : OS) : LFR × OS :=
  if l.read = l.size ∧ l.f ≠ none ∧ l.closed = false then ({ l with closed := true }, { os with opened := os.opened - 1 }) else (l, os)

/-- The error of a read (lazy_file_reader.go:37-50). -/
inductive End where
  | nil
  | eof
  | err
  deriving DecidableEq, Repr

/-- `os.File.Read` at an offset into `k` bytes (lazy_file_reader.go:47): at least one byte unless it is the end. -/
def readAt (c : Bytes) (off k : Nat) (os : OS) : Bytes × End × OS :=
  match os.call with
  | (.fail, os) => ([], .err, os)
  | (.ok n, os) =>
    if k = 0 then ([], .nil, os)
    else if c.length ≤ off then ([], .eof, os)
    else (((c.drop off).take k).take (n + 1), .nil, os)

/-- lazy_file_reader.go:37-50 `Read`. -/
def LFR.Read (l : LFR) (k : Nat) (os : OS) : Bytes × End × LFR × OS :=
  match checkOpen l os with
  | (false, l, os) => ([], .err, l, os)
  | (true, l, os) =>
    match l.f, os.disk l.path with
    | some off, some c =>
      if l.closed then ([], .err, l, os)
      else
        match readAt c off k os with
        | (bs, e, os) =>
          let l := { l with f := some (off + bs.length), read := l.read + bs.length }
          if e = .eof then
            let (l, os) := checkClose l os
            (bs, e, l, os)
          else (bs, e, l, os)
    | _, _ => ([], .err, l, os)

/-- `multiReader.Read` (io/multi.go) on the readers of the pieces (storage.go:339). -/
def mrRead (k : Nat) : List LFR → OS → Bytes × End × List LFR × OS
  | [], os => ([], .eof, [], os)
  | l :: ls, os =>
    match l.Read k os with
    | (bs, .eof, _, os) => if bs ≠ [] then (bs, if ls ≠ [] then .nil else .eof, ls, os) else mrRead k ls os
    | (bs, e, l, os) => (bs, e, l :: ls, os)

/-- The loop of `io.CopyN` (storage.go:349): `io.Copy` from a `LimitedReader` with `n` bytes left, through a buffer of `buf` bytes; `acc` is what has been written. At most `fuel` rounds. -/
def copyLoop : Nat → Nat → Nat → Bytes → List LFR → OS → Bytes × End × List LFR × OS
  | 0, _, _, acc, rs, os => (acc, .err, rs, os)
  | fuel + 1, buf, n, acc, rs, os =>
    if n = 0 then (acc, .nil, rs, os)
    else
      match mrRead (min buf n) rs os with
      | (bs, e, rs, os) =>
        match if bs ≠ [] then os.call else (Fate.ok 0, os) with
        | (.fail, os) => (acc, .err, rs, os)
        | (.ok _, os) =>
          match e with
          | .eof => (acc ++ bs, .nil, rs, os)
          | .err => (acc ++ bs, .err, rs, os)
          | .nil => copyLoop fuel buf (n - bs.length) (acc ++ bs) rs os

/-- `io.CopyN(f, r, n)` (storage.go:349). Every round reads at least a byte, so there are at most `n + 1`. -/
def copyN (n : Int) (rs : List LFR) (os : OS) : Option Bytes × List LFR × OS :=
  match copyLoop (n.toNat + 1) (if 32768 > n then (if n < 1 then 1 else n.toNat) else 32768) n.toNat [] rs os with
  | (w, e, rs, os) =>
    if (w.length : Int) = n then (some w, rs, os)
    else if e = .nil ∧ ¬(w.length : Int) < n then (some w, rs, os)
    else (none, rs, os)

/-- storage.go:340-353: the contents of the files with these lengths; `none` after an error. -/
def copyFiles : List Int → List LFR → OS → Option (List Bytes) × OS
  | [], _, os => (some [], os)
  | n :: ns, rs, os =>
    match os.call with
    | (.fail, os) => (none, os)
    | (.ok _, os) =>
      match os.call with
      | (.fail, os) => (none, os)
      | (.ok _, os) =>
        match copyN n rs os with
        | (none, _, os) => (none, os)
        | (some w, rs, os) =>
          match copyFiles ns rs os with
          | (none, os) => (none, os)
          | (some ws, os) => (some (w :: ws), os)

/-- storage.go:334-339: the readers of the pieces. -/
def readers (pieces : Nat) : List LFR := (List.range pieces).map fun i => { path := i }

/-- storage.go:334-353 (`coalescePiecesForMultiFile`). -/
def multi (pieces : Nat) (lengths : List Int) (os : OS) : Option (List Bytes) × OS := copyFiles lengths (readers pieces) os

/-- `os.File.WriteTo` (lazy_file_reader.go:58): portions of any size until the end. At most `fuel` rounds. -/
def writeLoop : Nat → Bytes → Nat → Bytes → OS → Bytes × Bool × Nat × OS
  | 0, _, off, acc, os => (acc, false, off, os)
  | fuel + 1, c, off, acc, os =>
    match readAt c off (c.length + 1) os with
    | (_, .err, os) => (acc, false, off, os)
    | (_, .eof, os) => (acc, true, off, os)
    | (bs, .nil, os) =>
      match os.call with
      | (.fail, os) => (acc, false, off, os)
      | (.ok _, os) => writeLoop fuel c (off + bs.length) (acc ++ bs) os

/-- lazy_file_reader.go:52-61 `WriteTo`: what was written, whether all went well. -/
def LFR.WriteTo (l : LFR) (os : OS) : Bytes × Bool × LFR × OS :=
  match checkOpen l os with
  | (false, l, os) =>
    let (l, os) := checkClose l os
    ([], false, l, os)
  | (true, l, os) =>
    match l.f, os.disk l.path with
    | some off, some c =>
      match writeLoop (c.length + 1) c off [] os with
      | (w, ok, off, os) =>
        let (l, os) := checkClose { l with f := some off, read := l.read + w.length } os
        (w, ok, l, os)
    | _, _ => ([], false, l, os)

/-- `multiReader.WriteTo` (io/multi.go), called by `io.Copy` (storage.go:311). -/
def copyAll : List LFR → OS → Option Bytes × OS
  | [], os => (some [], os)
  | l :: ls, os =>
    match l.WriteTo os with
    | (_, false, _, os) => (none, os)
    | (w, true, _, os) =>
      match copyAll ls os with
      | (none, os) => (none, os)
      | (some ws, os) => (some (w ++ ws), os)

/-- storage.go:305-313 (`coalescePiecesForSingleFile`). -/
def single (pieces : Nat) (os : OS) : Option Bytes × OS := copyAll (readers pieces) os

end Drip.LazyReader
