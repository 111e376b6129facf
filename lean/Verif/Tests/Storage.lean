import Verif.Model.Storage
import Verif.Model.KernelRfl
/-
The tests of /repo/storage, evaluated in the model: the tables of storage_test.go:17-44 and torrent_test.go, and the
integration tests storage_test.go:56-339 on a smaller scale: pieces of 4, 4, 4 and 3 bytes, each a single block, fixed
data, and the identity as SHA-1. (C39, C41 and C44 say the same for all data, sizes and orders of blocks; C49 replaces
the test of concurrent access, storage_test.go:341-432.)
-/

namespace Drip.Tests.Storage
open Drip Drip.Storage Drip.Metainfo

/-! ### storage_test.go:17-44 checkBlockSize -/

abbrev B : Int := blockLength
def bInfo : Info := { length := 4 * (8 * B + B / 2) - 1000, pieceLength := 8 * B + B / 2, pieces := [[], [], [], []], name := [] }

example : checkBlockSize bInfo 0 0 B = .ok () := by kernel_rfl
example : checkBlockSize bInfo 0 1024 B = .err .misaligned := by kernel_rfl
example : checkBlockSize bInfo 0 B (B / 2) = .err .blockLength := by kernel_rfl
example : checkBlockSize bInfo 0 (8 * B) (B / 2) = .ok () := by kernel_rfl
example : checkBlockSize bInfo 3 (8 * B) (B / 2 - 1000) = .ok () := by kernel_rfl

/-! ### torrent_test.go: length and number of blocks of a piece -/

def pInfo (length pieceLength : Int) : Info := { length, pieceLength, pieces := [[1], [2], [3], [4]], name := [] }
def piece (i : Info) (index : Int) : Int × Int := (i.getPieceLength index, numBlocks i index)

example : piece (pInfo (4 * 8 * B) (8 * B)) 0 = (8 * B, 8) := by kernel_rfl
example : piece (pInfo (4 * 8 * B) (8 * B)) 3 = (8 * B, 8) := by kernel_rfl
example : piece (pInfo (4 * 8 * B - 1000) (8 * B)) 0 = (8 * B, 8) := by kernel_rfl
example : piece (pInfo (4 * 8 * B - 1000) (8 * B)) 3 = (8 * B - 1000, 8) := by kernel_rfl
example : piece (pInfo (4 * 8 * B - B) (8 * B)) 0 = (8 * B, 8) := by kernel_rfl
example : piece (pInfo (4 * 3 * B / 2) (3 * B / 2)) 0 = (3 * B / 2, 2) := by kernel_rfl
example : piece (pInfo (4 * 3 * B / 2) (3 * B / 2)) 3 = (3 * B / 2, 2) := by kernel_rfl

/-! ### storage_test.go:56-187 TestIntegrationReloadingPartialTorrents -/

def single : Cfg :=
  { info := { pieceLength := 4, pieces := [[1, 2, 3, 4], [5, 6, 7, 8], [9, 10, 11, 12], [13, 14, 15]],
              name := b!"output_file.txt", length := 15 }
    sha1 := id }

def empty : World := ⟨{}, none⟩
/-- Lines 82-86: `New` and `Load` in empty directories. -/
def s0 : World := run single [(.start, []), (.load, [])] empty
/-- Line 106: a whole piece. -/
def s1 : World := step single s0 (.put 0 0 [1, 2, 3, 4]) []
/-- Lines 124-128: `newTorrent` and `Load`. -/
def s2 : World := run single [(.start, []), (.load, [])] s1
/-- Lines 137-144: the other pieces, without making the whole (`coalesceBlocks` but not `coalescePieces`): as on line 138
the blocks are put directly into the pieces. -/
def putOnly (i : Nat) (data : Bytes) : Op Unit := do
  let (_, p) ← getPiece i
  putBlockP single.info i p 0 data
  coalesceBlocks single i
def s3 : World :=
  (runOp (putOnly 3 [13, 14, 15]) (runOp (putOnly 2 [9, 10, 11, 12]) (runOp (putOnly 1 [5, 6, 7, 8]) s2 []).2 []).2 []).2
/-- Lines 152-156. -/
def s4 : World := run single [(.start, []), (.load, [])] s3
/-- Lines 173-177. -/
def s5 : World := run single [(.start, []), (.load, [])] s4

/-- The bits of the completed pieces and whether the torrent is whole. -/
def state (w : World) : Option (List Bool × Bool) := w.mem.map fun m => (m.pieces.map (·.coalesced), m.coalesced)

example : (runOp (load single) (step single empty .start []) []).1 = .ok () := by kernel_rfl
example : (runOp (getBlock single 0 0 4) s0 []).1 = .err .incompletePiece := by kernel_rfl
example : (runOp (putBlock single 0 1024 [1, 2]) s0 []).1 = .err .misaligned := by kernel_rfl
example : (runOp (putBlock single 0 0 [1, 2]) s0 []).1 = .err .blockLength := by kernel_rfl
example : (runOp (putBlock single 0 0 [1, 2, 3, 4]) s0 []).1 = .ok () := by kernel_rfl
example : state s1 = some ([true, false, false, false], false) := by kernel_rfl
example : s1.fs = ⟨none, some [(b!"0.piece", [1, 2, 3, 4])]⟩ := by kernel_rfl
example : (runOp (getBlock single 0 0 4) s1 []).1 = .ok [1, 2, 3, 4] := by kernel_rfl
example : state s2 = some ([true, false, false, false], false) := by kernel_rfl
example : state s3 = some ([true, true, true, true], false) := by kernel_rfl
example : state s4 = some ([true, true, true, true], true) := by kernel_rfl
example : s4.fs = ⟨some (.file [1, 2, 3, 4, 5, 6, 7, 8, 9, 10, 11, 12, 13, 14, 15]), none⟩ := by kernel_rfl
example : state s5 = some ([true, true, true, true], true) := by kernel_rfl

/-! ### storage_test.go:189-260 TestIntegrationSingleFileTorrent -/

def puts : List (Event × List Fate) :=
  [(.start, []), (.load, []), (.put 0 0 [1, 2, 3, 4], []), (.put 1 0 [5, 6, 7, 8], []), (.put 2 0 [9, 10, 11, 12], []),
    (.put 3 0 [13, 14, 15], [])]
def s6 : World := run single puts empty

example : state s6 = some ([true, true, true, true], true) := by kernel_rfl
example : s6.fs = ⟨some (.file [1, 2, 3, 4, 5, 6, 7, 8, 9, 10, 11, 12, 13, 14, 15]), none⟩ := by kernel_rfl
example : [0, 1, 2].map (fun i => (runOp (getBlock single i 0 4) s6 []).1) =
    [.ok [1, 2, 3, 4], .ok [5, 6, 7, 8], .ok [9, 10, 11, 12]] := by kernel_rfl
example : (runOp (getBlock single 3 1 2) s6 []).1 = .ok [14, 15] := by kernel_rfl
/-- Lines 257-259: other lengths. -/
example : (runOp (getBlock single 0 0 8) s6 []).1 = .ok [1, 2, 3, 4, 5, 6, 7, 8] := by kernel_rfl
example : (runOp (getBlock single 0 0 6) s6 []).1 = .ok [1, 2, 3, 4, 5, 6] := by kernel_rfl

/-! ### storage_test.go:262-339 TestIntegrationMultiFileTorrent -/

def multi : Cfg :=
  { info := { pieceLength := 4, pieces := [[1, 2, 3, 4], [5, 6, 7, 8], [9, 10, 11, 12], [13, 14, 15]],
              name := b!"output_dir",
              files := [⟨3, [b!"a.txt"], []⟩, ⟨4, [b!"b", b!"b.txt"], []⟩, ⟨8, [b!"b", b!"c", b!"c.txt"], []⟩] }
    sha1 := id }
def s7 : World := run multi puts empty

example : state s7 = some ([true, true, true, true], true) := by kernel_rfl
example : s7.fs = ⟨some (.dir [([b!"a.txt"], [1, 2, 3]), ([b!"b", b!"b.txt"], [4, 5, 6, 7]),
    ([b!"b", b!"c", b!"c.txt"], [8, 9, 10, 11, 12, 13, 14, 15])]), none⟩ := by kernel_rfl
example : [0, 1, 2].map (fun i => (runOp (getBlock multi i 0 4) s7 []).1) =
    [.ok [1, 2, 3, 4], .ok [5, 6, 7, 8], .ok [9, 10, 11, 12]] := by kernel_rfl
example : (runOp (getBlock multi 3 1 2) s7 []).1 = .ok [14, 15] := by kernel_rfl

end Drip.Tests.Storage
