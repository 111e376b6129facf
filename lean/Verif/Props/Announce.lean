import Verif.Props.Multitracker
import Verif.Props.Storage
/-
What an announce says is left to download: C79.
-/

namespace Drip.Multi
open Spec Tracker Storage Metainfo

/-- The number of bytes of the pieces that are not reported as complete. -/
def missing (info : Info) (m : Mem) : Int :=
  ((List.range info.pieces.length).map fun i : Nat => if Reported m i then 0 else info.getPieceLength i).sum

theorem sum_split {f : Nat → Int} {p : Nat → Prop} [DecidablePred p] (l : List Nat) :
    (l.map f).sum - (l.map fun i => if p i then f i else 0).sum = (l.map fun i => if p i then 0 else f i).sum := by
  induction l with
  | nil => rfl
  | cons a l ih => simp only [List.map_cons, List.sum_cons]; split <;> omega

/-- **C79** is false of the code. For a multi-file torrent the number is minus what is on the disk: here two bytes of six are
there. -/
theorem C79_left_refuted :
    (reload Storage.Ex.multi [(.start, []), (.put 1 0 [5, 6], [])] []).2.mem.map
      (fun m => ((View.mk Storage.Ex.multi.info [] 1 0 0 m.downloaded).request []).left) = some (-2) := by kernel_rfl

/-- For a single-file torrent it stays the same when a piece arrives. -/
theorem C79_left_stays_refuted :
    (run Storage.Ex.single Storage.Ex.both World.empty).mem.map
      (fun m => (m.bitfield, ((View.mk Storage.Ex.single.info [] 1 0 0 m.downloaded).request []).left)) = some ([192], 6) := by kernel_rfl

/-- **C79** (partial: for single-file torrents, right after Load). An announce reports the number of bytes of the pieces that
are missing. -/
theorem C79_left_partial {cfg : Cfg} (hu : Usable cfg) (es : List (Storage.Event × List Fate)) (fates : List Fate) {w : World} {m : Mem}
    (h : reload cfg es fates = (.ok (), w)) (hm : w.mem = some m) (hp : cfg.info.pieces ≠ []) (hs : cfg.info.files = [])
    (hpos : 0 < cfg.info.pieceLength) (h0 : 0 ≤ cfg.info.length)
    (hceil : (cfg.info.pieces.length : Int) = (cfg.info.length + cfg.info.pieceLength - 1) / cfg.info.pieceLength)
    (peerID event : Bytes) (port up down : Int) :
    ((View.mk cfg.info peerID port up down m.downloaded).request event).left = missing cfg.info m := by
  have h1 := C47_loaded_partial hu es fates h hm hp (.inr hs)
  have hl := (C30_total cfg.info).1 hs
  have h2 := (C30_tiling cfg.info hpos (by omega) (by rw [hl]; exact hceil)).2
  show cfg.info.length - m.downloaded = _
  rw [h1, ← hl, ← h2]
  exact sum_split _

example : (reload Storage.Ex.single [(.start, []), (.put 1 0 [5, 6], [])] []).1 = .ok () ∧
    (reload Storage.Ex.single [(.start, []), (.put 1 0 [5, 6], [])] []).2.mem.map
      (fun m => ((View.mk Storage.Ex.single.info [] 1 0 0 m.downloaded).request []).left) = some 4 := ⟨by kernel_rfl, by kernel_rfl⟩

end Drip.Multi
