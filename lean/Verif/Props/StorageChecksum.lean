import Verif.Lemmas.StorageRight
import Verif.Props.Storage
/-
Theorems about /repo/storage: why a piece fails its checksum (C119).
-/

namespace Drip.Storage
open Metainfo Spec

variable {cfg : Cfg}

/-! ### C119

"A piece fails its checksum only if wrong data was put into it: since the process was started or the piece was last reset, some block of it was put whose data is not what the content has at
its place. Failing disks, restarts, duplicates, the order of the blocks and other pieces do not matter." -/

/-- Among the blocks that were put, one of piece `i` is not what the content `x` of this piece has at its place. -/
def WrongPut (i : Nat) (x : Bytes) (es : List (Event × List Fate)) : Prop :=
  ∃ (b : Int) (d : Bytes) (f : List Fate), (.put i b d, f) ∈ es ∧ d ≠ (x.drop b.toNat).take d.length

theorem rightPuts {i : Nat} {x : Bytes} {es : List (Event × List Fate)} (h : ¬ WrongPut i x es) : ∀ e ∈ es, RightPut i x e.1 := by
  rintro ⟨e, f⟩ he j b d hj hi
  dsimp only at hj
  subst hj; subst hi
  exact Classical.byContradiction fun hn => h ⟨b, d, f, he, hn⟩

/-- C119 for those who wait for the piece. `x` is the content of the piece: it has the right length and checksum. -/
theorem C119_result (hu : Usable cfg) {i : Nat} {x : Bytes} (hv : Verified cfg.sha1 cfg.info i x) (hxl : (x.length : Int) = cfg.info.getPieceLength i) (es0 es : List (Event × List Fate))
    {e : Event} (he : e = .start ∨ e = .reset i) (f : List Fate) {m : Mem} (hm : (run cfg (es0 ++ (e, f) :: es) World.empty).mem = some m) (hr : PieceResult m i (some .checksum)) : WrongPut i x es := by
  refine Classical.byContradiction fun hn => ?_
  obtain ⟨p, hp, hf⟩ := hr
  exact (since_clean hu hv hxl es0 es he f (rightPuts hn) hm p hp).2 hf

/-- C119 for the one who puts the last block. -/
theorem C119_put (hu : Usable cfg) {i : Nat} {x : Bytes} (hv : Verified cfg.sha1 cfg.info i x) (hxl : (x.length : Int) = cfg.info.getPieceLength i) (es0 es : List (Event × List Fate))
    {e : Event} (he : e = .start ∨ e = .reset i) (f : List Fate) (b : Int) (d : Bytes) (fates : List Fate)
    (hr : (runOp (putBlock cfg i b d) (run cfg (es0 ++ (e, f) :: es) World.empty) fates).1 = .err .checksum) : WrongPut i x (es ++ [(.put i b d, fates)]) := by
  refine Classical.byContradiction fun hn => ?_
  have hr1 := rightPuts hn
  cases hm : (run cfg (es0 ++ (e, f) :: es) World.empty).mem with
  | none => unfold runOp at hr; rw [hm] at hr; cases hr
  | some m =>
    have hc := since_clean hu hv hxl es0 es he f (fun e h => hr1 e (List.mem_append_left _ h)) hm
    have hw := run_inv hu (es0 ++ (e, f) :: es) (cfg := cfg) empty_inv
    have := tidy_putBlock (A := fun _ => True) (s := ⟨(run cfg (es0 ++ (e, f) :: es) World.empty).fs, m⟩) ⟨hw.1, hw.2 m hm⟩ hc hv hxl (j := i) (begin_ := b) (data := d)
      (hr1 _ (List.mem_append_right _ (List.mem_singleton.2 rfl)) i b d rfl)
    rcases runOp_of_wp hm this fates (fun _ _ => trivial) with ⟨_, s, e, _⟩ | ⟨e', s, e, _, h⟩ | ⟨s, e, _⟩ | ⟨s, e, _⟩
    · rw [e] at hr; cases hr
    · rw [e] at hr; injection hr with hr; exact h rfl hr
    · rw [e] at hr; cases hr
    · rw [e] at hr; cases hr

/-- A piece of two blocks: a wrong first block, then a right second one; the checksum fails with the second. After a reset in between it would not. -/
example : (runOp (putBlock Ex.long 0 16384 [0]) (run Ex.long [(.start, []), (.put 0 0 (List.replicate 16384 7), [])] World.empty) []).1 = .err .checksum ∧
    (runOp (putBlock Ex.long 0 16384 [0]) (run Ex.long [(.start, []), (.put 0 0 (List.replicate 16384 7), []), (.reset 0, []), (.put 0 0 (List.replicate 16384 0), [])] World.empty) []).1 = .ok () := ⟨by kernel_rfl, by kernel_rfl⟩

end Drip.Storage
