import Verif.Model.RequestPiece
import Verif.Props.Storage
import Verif.Model.KernelRfl
/-
C52: the blocks asked for by /repo/p2p/peer.go `requestPiece`.
-/

namespace Drip.P2P
open Metainfo Storage

/-- The blocks lie one after the other, from `start` to `stop`. -/
inductive Tiles (index : Int) : Int → Int → List Req → Prop
  | done (x : Int) : Tiles index x x []
  | next (start stop length : Int) (rs : List Req) : 0 < length → length ≤ 16384 → Tiles index (start + length) stop rs →
      Tiles index start stop (⟨index, start, length⟩ :: rs)

theorem tiles_loop (index pl : Int) : ∀ (n : Nat) (b : Int), b ≤ pl → pl - b ≤ 16384 * n → Tiles index b pl (requestLoop index pl n b) := by
  intro n
  induction n with
  | zero =>
    intro b h1 h2
    have : b = pl := by omega
    subst this; exact .done _
  | succ n ih =>
    intro b h1 h2
    unfold requestLoop
    split
    · rename_i h
      refine .next _ _ _ _ (by simp [blockLength]; omega) (by simp [blockLength]; omega) ?_
      by_cases hl : pl - b ≤ 16384
      · have e : b + min blockLength (pl - b) = pl := by simp only [blockLength]; omega
        rw [e]
        have : requestLoop index pl n (b + blockLength) = [] := by
          cases n with
          | zero => rfl
          | succ n => unfold requestLoop; rw [if_neg (by simp only [blockLength]; omega)]
        rw [this]; exact .done _
      · have e : min blockLength (pl - b) = blockLength := by simp only [blockLength]; omega
        rw [e]
        exact ih _ (by simp only [blockLength]; omega) (by simp only [blockLength]; omega)
    · have : b = pl := by omega
      subst this; exact .done _

theorem mem_loop (index pl : Int) : ∀ (n : Nat) (b : Int), pl - b ≤ 16384 * n → ∀ r : Req,
    r ∈ requestLoop index pl n b ↔ r.index = index ∧ b ≤ r.begin_ ∧ r.begin_ < pl ∧ (r.begin_ - b) % 16384 = 0 ∧ r.length = min 16384 (pl - r.begin_) := by
  intro n
  induction n with
  | zero =>
    intro b h r
    simp only [requestLoop, List.not_mem_nil, false_iff]
    omega
  | succ n ih =>
    intro b h r
    unfold requestLoop
    split
    · rename_i hb
      rw [List.mem_cons, ih _ (by simp only [blockLength]; omega)]
      constructor
      · rintro (rfl | ⟨h1, h2, h3, h4, h5⟩)
        · exact ⟨rfl, by simp, hb, by simp, by simp [blockLength]⟩
        · simp only [blockLength] at h2 h4
          exact ⟨h1, by omega, h3, by omega, h5⟩
      · rintro ⟨h1, h2, h3, h4, h5⟩
        by_cases hbr : r.begin_ = b
        · left; cases r; simp only at *; subst h1; subst hbr; subst h5; simp [blockLength]
        · right
          simp only [blockLength]
          exact ⟨h1, by omega, h3, by omega, h5⟩
    · simp only [List.not_mem_nil, false_iff]
      omega

/-- C52. The blocks asked for lie one after the other, the first at the beginning of the piece, the last reaching its end; none is longer than 16 KiB. -/
theorem C52_tiles (info : Info) (index : Int) (h : 0 ≤ info.getPieceLength index) :
    Tiles index 0 (info.getPieceLength index) (requestBlocks info index) :=
  tiles_loop _ _ _ _ h (by omega)

theorem acceptable (info : Info) (index begin_ length : Int) :
    ⟨index, begin_, length⟩ ∈ requestBlocks info index ↔
      checkBlockSize info index begin_ length = .ok () ∧ 0 ≤ begin_ ∧ 0 < length ∧ begin_ + length ≤ info.getPieceLength index := by
  unfold requestBlocks
  rw [mem_loop _ _ _ _ (by omega)]
  unfold checkBlockSize
  generalize info.getPieceLength index = pl
  simp only [true_and, Int.sub_zero]
  by_cases hpl : 0 ≤ pl
  · have e1 : blockLength * pl.tdiv blockLength = 16384 * (pl / 16384) := by rw [← Int.tdiv_eq_ediv_of_nonneg hpl]; rfl
    by_cases hb : 0 ≤ begin_
    · have e2 : begin_.tmod blockLength = begin_ % 16384 := Int.tmod_eq_emod_of_nonneg hb
      have e3 : blockLength = 16384 := rfl
      rw [e1, e2]
      constructor
      · rintro ⟨_, h2, h3, h4⟩
        rw [if_neg (by omega)]
        refine ⟨?_, hb, by omega, by omega⟩
        rw [if_neg]
        split <;> omega
      · rintro ⟨h1, _, h3, h4⟩
        split at h1
        · cases h1
        · rename_i h5
          refine ⟨hb, by omega, by omega, ?_⟩
          split at h1
          · split at h1
            · cases h1
            · omega
          · split at h1
            · cases h1
            · omega
    · constructor
      · intro h; omega
      · intro h; omega
  · constructor
    · intro h; omega
    · intro h; omega

/-- C52. The blocks asked for are exactly those of the expected size inside the piece (PutBlock refuses all blocks of other sizes: C43). -/
theorem C52_acceptable (info : Info) (index begin_ length : Int) :
    ⟨index, begin_, length⟩ ∈ requestBlocks info index ↔
      WellSized info index begin_ length ∧ 0 ≤ begin_ ∧ 0 < length ∧ begin_ + length ≤ info.getPieceLength index := by
  rw [wellSized_iff]; exact acceptable info index begin_ length

/-- A piece of 40000 bytes: two whole blocks and a short one. -/
example : requestBlocks { pieceLength := 40000, pieces := [[], []], name := [], length := 80000 } 1 = [⟨1, 0, 16384⟩, ⟨1, 16384, 16384⟩, ⟨1, 32768, 7232⟩] := by
  kernel_rfl
/-- The last piece of another torrent, a multiple of 16384. -/
example : requestBlocks { pieceLength := 65536, pieces := [[], []], name := [], length := 98304 } 1 = [⟨1, 0, 16384⟩, ⟨1, 16384, 16384⟩] := by kernel_rfl

end Drip.P2P
