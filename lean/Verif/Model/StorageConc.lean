import Verif.Model.Storage
import Mathlib.Logic.Relation
/-
`PutBlock`, `GetBlock` and `ResetPiece` called by any number of goroutines (/repo/storage/storage.go:88-140).

The list of goroutines determines who holds which mutex, so there are no separate mutexes: a goroutine can take a mutex if nobody holds it in a
way that excludes it. Between taking and releasing mutexes the code of /repo runs as one step, as in Verif.Model.Storage: whatever it
reads or writes is protected by the mutexes it holds (the fields of a piece by the mutex of the piece; the other fields, the flag `coalesced` of
a piece and the files by the mutex of the torrent; `coalesced` of a piece is written under both). `downloaded` is atomic.

Go's `RWMutex` makes a reader wait if a writer is already waiting. Whether a writer that has called `Lock` counts as waiting is a matter of timing. With
`strict = false` readers never wait for waiting writers, with `strict = true` they always do. Everything that can happen in Go can happen with `strict = false`.
Everything that cannot wait with `strict = true` cannot wait in Go.

A panic, or the death of the process during a call of the os package, ends everything.
-/

namespace Drip.StorageConc
open Drip.Storage

/-- Where a call of `PutBlock` is (storage.go:112-140). `n` is the position of the call in the history. -/
inductive PutPc where
  /-- At storage.go:114. -/
  | start
  /-- At storage.go:117, wants to read the torrent. -/
  | checked
  /-- At storage.go:118, holds the torrent for reading. -/
  | reading
  /-- At storage.go:123, wants the piece. -/
  | passed
  /-- At storage.go:126, holds the piece. -/
  | locked
  /-- At storage.go:129, holds the piece and wants the torrent. -/
  | stored
  /-- At storage.go:131, holds both. -/
  | both
  /-- Returns; holds both (the deferred calls run in reverse order: storage.go:130, then 125). -/
  | closing (r : Out Unit) (n : Nat)
  /-- Returns; holds the piece. -/
  | unlocking (r : Out Unit) (n : Nat)
  /-- Has returned. -/
  | done (r : Out Unit) (n : Nat)

/-- Where a call of `GetBlock` is (storage.go:96-110). -/
inductive GetPc where
  /-- At storage.go:98, wants to read the torrent. -/
  | start
  /-- At storage.go:100, holds the torrent for reading. -/
  | reading
  /-- At storage.go:104, holds the torrent and wants to read the piece. -/
  | wanting
  /-- At storage.go:106, holds both. -/
  | both
  /-- Returns; holds both. -/
  | closing (r : Out Bytes) (n : Nat)
  /-- Returns; holds the torrent. -/
  | leaving (r : Out Bytes) (n : Nat)
  /-- Has returned. -/
  | done (r : Out Bytes) (n : Nat)

/-- Where a call of `ResetPiece` is (storage.go:88-94). -/
inductive ResetPc where
  /-- At storage.go:89-90, wants the piece. -/
  | start
  /-- At storage.go:92, holds the piece. -/
  | locked
  /-- Returns; holds the piece. -/
  | unlocking (r : Out Unit) (n : Nat)
  /-- Has returned. -/
  | done (r : Out Unit) (n : Nat)

/-- A goroutine that makes one call (storage.go:88-140). -/
inductive Th where
  | put (i b : Int) (d : Bytes) (pc : PutPc)
  | get (i b l : Int) (pc : GetPc)
  | reset (i : Int) (pc : ResetPc)

/-- Holds `Torrent.mu` for reading (storage.go:98-99, 117-122). -/
def Th.readsT : Th → Bool
  | .put _ _ _ .reading => true
  | .get _ _ _ .reading => true
  | .get _ _ _ .wanting => true
  | .get _ _ _ .both => true
  | .get _ _ _ (.closing _ _) => true
  | .get _ _ _ (.leaving _ _) => true
  | _ => false

/-- Holds `Torrent.mu` for writing (storage.go:129-130). -/
def Th.writesT : Th → Bool
  | .put _ _ _ .both => true
  | .put _ _ _ (.closing _ _) => true
  | _ => false

/-- Calls `Torrent.mu.Lock` (storage.go:129). -/
def Th.waitsT : Th → Bool
  | .put _ _ _ .stored => true
  | _ => false

/-- Holds `mu` of piece `j` for writing (storage.go:90-91, 124-125). -/
def Th.writesP (j : Int) : Th → Bool
  | .put i _ _ .locked => i == j
  | .put i _ _ .stored => i == j
  | .put i _ _ .both => i == j
  | .put i _ _ (.closing _ _) => i == j
  | .put i _ _ (.unlocking _ _) => i == j
  | .reset i .locked => i == j
  | .reset i (.unlocking _ _) => i == j
  | _ => false

/-- Holds `mu` of piece `j` for reading (storage.go:104-105). -/
def Th.readsP (j : Int) : Th → Bool
  | .get i _ _ .both => i == j
  | .get i _ _ (.closing _ _) => i == j
  | _ => false

/-- Calls `mu.Lock` of piece `j` (storage.go:90, 124). -/
def Th.waitsP (j : Int) : Th → Bool
  | .put i _ _ .passed => i == j
  | .reset i .start => i == j
  | _ => false

/-- `Torrent.mu.RLock` can return (storage.go:98, 117). -/
def canReadT (strict : Bool) (ls : List Th) : Prop := (∀ t ∈ ls, t.writesT = false) ∧ (strict = true → ∀ t ∈ ls, t.waitsT = false)

/-- `Torrent.mu.Lock` can return (storage.go:129). -/
def canWriteT (ls : List Th) : Prop := ∀ t ∈ ls, t.writesT = false ∧ t.readsT = false

/-- `mu.RLock` of piece `j` can return (storage.go:104). -/
def canReadP (strict : Bool) (ls : List Th) (j : Int) : Prop := (∀ t ∈ ls, t.writesP j = false) ∧ (strict = true → ∀ t ∈ ls, t.waitsP j = false)

/-- `mu.Lock` of piece `j` can return (storage.go:90, 124). -/
def canWriteP (ls : List Th) (j : Int) : Prop := ∀ t ∈ ls, t.writesP j = false ∧ t.readsP j = false

/-- The disk and the memory, whether the process has died, and (history) the calls in the order in which they took effect, from the start (storage.go:19-24). -/
structure Shared where
  sys : Sys
  dead : Bool := false
  hist : List (Event × List Fate)

/-- The process is gone (a panic, for example in storage.go:123, or its death in a call of the os package). -/
def Out.fatal {α : Type} : Out α → Bool
  | .panic => true
  | .crash => true
  | _ => false

/-- A call takes effect (storage.go:88-140). -/
def Shared.after {α : Type} (s : Shared) (o : Out α) (t : Sys) (e : Event) (fates : List Fate) : Shared := ⟨t, Out.fatal o, s.hist ++ [(e, fates)]⟩

/-- storage.go:131-139, the part of `PutBlock` under both mutexes; `fut` is `piece.err`. -/
def finishPut (cfg : Cfg) (i fut : Nat) : Op Unit := do
  onErr (coalesceBlocks cfg i) fun e => do
    let m ← Op.getMem
    Op.setMem { m with downloaded := m.downloaded + cfg.info.getPieceLength i }
    deliver fut (some e)
  coalescePieces cfg

/-- storage.go:106-109, the part of `GetBlock` under both mutexes. -/
def getFrom (i : Nat) (p : Piece) (b l : Int) : Op Bytes := if !p.coalesced then Op.fail .incompletePiece else getFromPiece i b l

/-- storage.go:152-157 `getBlockFromTorrent`. -/
def getWhole (cfg : Cfg) (i b l : Int) : Op Bytes := if cfg.info.files ≠ [] then getMulti cfg i b l else getSingle cfg i b l

/-- The steps of a goroutine among `ls` (storage.go:88-140). -/
inductive Act (cfg : Cfg) (strict : Bool) (ls : List Th) : Shared → Th → Shared → Th → Prop
  /-- storage.go:114 -/
  | check {s : Shared} {i b : Int} {d : Bytes} : checkBlockSize cfg.info i b d.length = .ok () → Act cfg strict ls s (.put i b d .start) s (.put i b d .checked)
  /-- storage.go:115 -/
  | checkErr {s : Shared} {i b : Int} {d : Bytes} {e : Err} : checkBlockSize cfg.info i b d.length = .err e →
      Act cfg strict ls s (.put i b d .start) (s.after (α := Unit) (.err e) s.sys (.put i b d) []) (.put i b d (.done (.err e) s.hist.length))
  /-- storage.go:117 -/
  | putRead {s : Shared} {i b : Int} {d : Bytes} : canReadT strict ls → Act cfg strict ls s (.put i b d .checked) s (.put i b d .reading)
  /-- storage.go:119-120 -/
  | seen {s : Shared} {i b : Int} {d : Bytes} : s.sys.mem.coalesced = true →
      Act cfg strict ls s (.put i b d .reading) (s.after (α := Unit) (.err .blockExists) s.sys (.put i b d) []) (.put i b d (.done (.err .blockExists) s.hist.length))
  /-- storage.go:122 -/
  | pass {s : Shared} {i b : Int} {d : Bytes} : s.sys.mem.coalesced = false → Act cfg strict ls s (.put i b d .reading) s (.put i b d .passed)
  /-- storage.go:123: an index out of range panics. -/
  | putNone {s : Shared} {i b : Int} {d : Bytes} : ¬ (0 ≤ i ∧ i < s.sys.mem.pieces.length) →
      Act cfg strict ls s (.put i b d .passed) (s.after (α := Unit) .panic s.sys (.put i b d) []) (.put i b d (.done .panic s.hist.length))
  /-- storage.go:124 -/
  | putLock {s : Shared} {i b : Int} {d : Bytes} : 0 ≤ i ∧ i < s.sys.mem.pieces.length → canWriteP ls i → Act cfg strict ls s (.put i b d .passed) s (.put i b d .locked)
  /-- storage.go:126: the block is stored. -/
  | store {s : Shared} {i b : Int} {d : Bytes} {p : Piece} {t : Sys} {f : List Fate} : s.sys.mem.pieces[i.toNat]? = some p →
      putBlockP cfg.info i.toNat p b d s.sys [] = (.ok (), t, f) → Act cfg strict ls s (.put i b d .locked) { s with sys := t } (.put i b d .stored)
  /-- storage.go:127, or a panic: the block is not stored. -/
  | noStore {s : Shared} {i b : Int} {d : Bytes} {p : Piece} {o : Out Unit} {t : Sys} {f : List Fate} : s.sys.mem.pieces[i.toNat]? = some p →
      putBlockP cfg.info i.toNat p b d s.sys [] = (o, t, f) → o ≠ .ok () →
      Act cfg strict ls s (.put i b d .locked) (s.after o t (.put i b d) []) (.put i b d (.unlocking o s.hist.length))
  /-- storage.go:129 -/
  | putLockT {s : Shared} {i b : Int} {d : Bytes} : canWriteT ls → Act cfg strict ls s (.put i b d .stored) s (.put i b d .both)
  /-- storage.go:131-139 -/
  | finish {s : Shared} {i b : Int} {d : Bytes} {p : Piece} {o : Out Unit} {t : Sys} {fates f : List Fate} : s.sys.mem.pieces[i.toNat]? = some p →
      finishPut cfg i.toNat p.fut s.sys fates = (o, t, f) →
      Act cfg strict ls s (.put i b d .both) (s.after o t (.put i b d) fates) (.put i b d (.closing o s.hist.length))
  /-- storage.go:130 -/
  | putUnlockT {s : Shared} {i b : Int} {d : Bytes} {r : Out Unit} {n : Nat} : Act cfg strict ls s (.put i b d (.closing r n)) s (.put i b d (.unlocking r n))
  /-- storage.go:125 -/
  | putUnlock {s : Shared} {i b : Int} {d : Bytes} {r : Out Unit} {n : Nat} : Act cfg strict ls s (.put i b d (.unlocking r n)) s (.put i b d (.done r n))
  /-- storage.go:98 -/
  | getRead {s : Shared} {i b l : Int} : canReadT strict ls → Act cfg strict ls s (.get i b l .start) s (.get i b l .reading)
  /-- storage.go:101 -/
  | whole {s : Shared} {i b l : Int} {o : Out Bytes} {t : Sys} {fates f : List Fate} : s.sys.mem.coalesced = true → getWhole cfg i b l s.sys fates = (o, t, f) →
      Act cfg strict ls s (.get i b l .reading) (s.after o t (.get i b l) fates) (.get i b l (.leaving o s.hist.length))
  /-- storage.go:103: an index out of range panics. -/
  | getNone {s : Shared} {i b l : Int} : s.sys.mem.coalesced = false → ¬ (0 ≤ i ∧ i < s.sys.mem.pieces.length) →
      Act cfg strict ls s (.get i b l .reading) (s.after (α := Bytes) .panic s.sys (.get i b l) []) (.get i b l (.leaving .panic s.hist.length))
  /-- storage.go:103 -/
  | want {s : Shared} {i b l : Int} : s.sys.mem.coalesced = false → 0 ≤ i ∧ i < s.sys.mem.pieces.length → Act cfg strict ls s (.get i b l .reading) s (.get i b l .wanting)
  /-- storage.go:104 -/
  | getLock {s : Shared} {i b l : Int} : canReadP strict ls i → Act cfg strict ls s (.get i b l .wanting) s (.get i b l .both)
  /-- storage.go:106-109 -/
  | read {s : Shared} {i b l : Int} {p : Piece} {o : Out Bytes} {t : Sys} {fates f : List Fate} : s.sys.mem.pieces[i.toNat]? = some p →
      getFrom i.toNat p b l s.sys fates = (o, t, f) →
      Act cfg strict ls s (.get i b l .both) (s.after o t (.get i b l) fates) (.get i b l (.closing o s.hist.length))
  /-- storage.go:105 -/
  | getUnlock {s : Shared} {i b l : Int} {r : Out Bytes} {n : Nat} : Act cfg strict ls s (.get i b l (.closing r n)) s (.get i b l (.leaving r n))
  /-- storage.go:99 -/
  | getUnlockT {s : Shared} {i b l : Int} {r : Out Bytes} {n : Nat} : Act cfg strict ls s (.get i b l (.leaving r n)) s (.get i b l (.done r n))
  /-- storage.go:89: an index out of range panics. -/
  | resetNone {s : Shared} {i : Int} : ¬ (0 ≤ i ∧ i < s.sys.mem.pieces.length) →
      Act cfg strict ls s (.reset i .start) (s.after (α := Unit) .panic s.sys (.reset i) []) (.reset i (.done .panic s.hist.length))
  /-- storage.go:90 -/
  | resetLock {s : Shared} {i : Int} : 0 ≤ i ∧ i < s.sys.mem.pieces.length → canWriteP ls i → Act cfg strict ls s (.reset i .start) s (.reset i .locked)
  /-- storage.go:92 -/
  | reset {s : Shared} {i : Int} {p : Piece} {o : Out Unit} {t : Sys} {f : List Fate} : s.sys.mem.pieces[i.toNat]? = some p → resetP i.toNat p s.sys [] = (o, t, f) →
      Act cfg strict ls s (.reset i .locked) (s.after o t (.reset i) []) (.reset i (.unlocking o s.hist.length))
  /-- storage.go:91 -/
  | resetUnlock {s : Shared} {i : Int} {r : Out Unit} {n : Nat} : Act cfg strict ls s (.reset i (.unlocking r n)) s (.reset i (.done r n))

/-- A step of one of the goroutines, while the process is alive (storage.go:88-140). -/
inductive Step (cfg : Cfg) (strict : Bool) : Shared × List Th → Shared × List Th → Prop
  | mk {s s' : Shared} {l l' : Th} {ls : List Th} (k : Nat) : s.dead = false → ls[k]? = some l → Act cfg strict ls s l s' l' → Step cfg strict (s, ls) (s', ls.set k l')

/-- Any number of steps (storage.go:88-140). -/
def Reach (cfg : Cfg) (strict : Bool) : Shared × List Th → Shared × List Th → Prop := Relation.ReflTransGen (Step cfg strict)

/-- Has not started (storage.go:88, 96, 112). -/
def Th.fresh : Th → Bool
  | .put _ _ _ .start => true
  | .get _ _ _ .start => true
  | .reset _ .start => true
  | _ => false

/-- Has returned (storage.go:88-140). -/
def Th.finished : Th → Bool
  | .put _ _ _ (.done _ _) => true
  | .get _ _ _ (.done _ _) => true
  | .reset _ (.done _ _) => true
  | _ => false

end Drip.StorageConc
