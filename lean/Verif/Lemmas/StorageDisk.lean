import Verif.Lemmas.StorageGrow
/-
The disk never loses a piece: what was there before an operation is there afterwards, whatever happens.
-/

namespace Drip.Storage
open Metainfo Spec

variable {A : Fate → Prop} {cfg : Cfg}

/-- Nothing is lost between two states of the disk. -/
def Kept (fs fs' : FS) : Prop := ∀ i, HasData fs i → HasData fs' i

theorem Kept.refl (fs : FS) : Kept fs fs := fun _ => id
theorem Kept.trans {a b c : FS} (h : Kept a b) (h' : Kept b c) : Kept a c := fun i hi => h' i (h i hi)
theorem Kept.target {a b : FS} (h : b.target ≠ none) : Kept a b := fun _ _ => .inl h

def kpost (fs : FS) {α : Type} : Post α := ⟨fun _ s => Kept fs s.fs, fun _ s => Kept fs s.fs, fun s => Kept fs s.fs, fun s => Kept fs s.fs⟩

/-- An operation that loses nothing on the disk. -/
def Keep (A : Fate → Prop) {α : Type} (p : Op α) : Prop := ∀ (s : Sys) (fs : FS), Kept fs s.fs → wp A p (kpost fs) s

theorem Keep.pure {α : Type} (a : α) : Keep A (Pure.pure a : Op α) := fun _ _ h => wp_pure h
theorem Keep.fail {α : Type} (e : Err) : Keep A (Op.fail e : Op α) := fun _ _ h => wp_fail h
theorem Keep.panic {α : Type} : Keep A (Op.panic : Op α) := fun _ _ h => wp_panic h
theorem Keep.bind {α β : Type} {p : Op α} {k : α → Op β} (h : Keep A p) (hk : ∀ a, Keep A (k a)) : Keep A (p >>= k) :=
  fun s fs hf => wp_seq (h s fs hf) (fun a s' h' => hk a s' fs h') (fun _ _ h => h) (fun _ h => h) (fun _ h => h)
theorem Keep.lift {α : Type} (r : Res α) : Keep A (Op.lift r) := by
  cases r with
  | ok a => exact Keep.pure a
  | err e => exact Keep.fail e
  | panic => exact Keep.panic
theorem Keep.getMem : Keep A Op.getMem := fun _ _ h => wp_getMem h
theorem Keep.setMem (m : Mem) : Keep A (Op.setMem m) := fun _ _ h => wp_setMem h
theorem Keep.getPiece (i : Int) : Keep A (getPiece i) := fun _ _ h => wp_getPiece (fun _ _ _ _ => h) (fun _ => h)
theorem Keep.deliver (id : Nat) (v : Option Err) : Keep A (deliver id v) := fun _ _ h => wp_deliver (fun _ => h) (fun _ => h)
theorem Keep.setPiece (i : Nat) (q : Piece) : Keep A (setPiece i q) := fun _ _ h => wp_setPiece h
theorem Keep.ite {α : Type} {c : Prop} [Decidable c] {p q : Op α} (hp : Keep A p) (hq : Keep A q) : Keep A (if c then p else q) := by
  split
  · exact hp
  · exact hq
theorem Keep.onErr {α : Type} {p : Op α} {hd : Err → Op Unit} (hp : Keep A p) (hh : ∀ e, Keep A (hd e)) : Keep A (Storage.onErr p hd) := by
  intro s fs hf
  refine wp_onErr (wp_mono (hp s fs hf) (fun _ _ h => h) ?_ (fun _ h => h) (fun _ h => h))
  intro e s' h'
  exact wp_mono (hh e s' fs h') (fun _ _ h => h) (fun _ _ h => h) (fun _ h => h) (fun _ h => h)

/-- A call that changes nothing when it fails, and loses nothing when it works. -/
theorem Keep.call {α : Type} {eff : FS → Option (α × FS)} (h : ∀ fs a fs', eff fs = some (a, fs') → Kept fs fs') : Keep A (Op.call eff) :=
  fun s _ hf => wp_call (fun a fs' he => hf.trans (h s.fs a fs' he)) (fun _ => hf) (fun _ _ => hf) (fun _ _ => hf)

theorem Keep.callTemp : Keep A Op.callTemp := Keep.call fun fs a fs' he => by
  simp only [Option.some.injEq, Prod.mk.injEq] at he; rw [← he.2]; exact Kept.refl _

theorem keep_readWork (name : Bytes) : Keep A (readWork name) := Keep.call fun fs a fs' he => by
  simp only [Option.map_eq_some_iff, Prod.mk.injEq] at he
  obtain ⟨_, _, _, rfl⟩ := he; exact Kept.refl _

theorem keep_mkWork : Keep A mkWork := Keep.call fun fs a fs' he => by
  simp only [Option.some.injEq, Prod.mk.injEq, true_and] at he
  subst he
  rintro i (h | ⟨l, d, h1, h2⟩)
  · exact .inl h
  · exact .inr ⟨l, d, by simp [h1], h2⟩

theorem keep_renamePiece (name content : Bytes) : Keep A (renamePiece name content) := Keep.call fun fs a fs' he => by
  cases hw : fs.work with
  | none => simp [hw] at he
  | some l =>
    simp only [hw, Option.some.injEq, Prod.mk.injEq, true_and] at he
    subst he
    rintro i (h | ⟨l', d, h1, h2⟩)
    · exact .inl h
    · rw [hw] at h1; cases h1
      by_cases hn : pieceName i = name
      · exact .inr ⟨_, content, rfl, by rw [lookup_store, if_pos hn]⟩
      · exact .inr ⟨_, d, rfl, by rw [lookup_store, if_neg hn]; exact h2⟩

theorem keep_createTemp (name : Bytes) : Keep A (createTemp name) := Keep.call fun fs a fs' he => by
  split at he
  · cases he
  · simp only [Option.some.injEq, Prod.mk.injEq] at he; rw [← he.2]; exact Kept.refl _

theorem keep_readPieces (is : List Nat) : Keep A (readPieces is) := by
  induction is with
  | nil => exact Keep.pure _
  | cons i is ih => exact Keep.bind (keep_readWork _) fun _ => Keep.bind Keep.callTemp fun _ => Keep.bind ih fun _ => Keep.pure _
theorem keep_copyN (n : Nat) (is : List Nat) : ∀ buf, Keep A (copyN n buf is) := by
  induction is with
  | nil => intro buf; exact Keep.ite (Keep.pure _) (Keep.fail _)
  | cons i is ih => intro buf; exact Keep.ite (Keep.pure _) (Keep.bind (keep_readWork _) fun _ => ih _)
theorem keep_writeFiles (files : List File) : ∀ buf is acc, Keep A (writeFiles buf is acc files) := by
  induction files with
  | nil => intro buf is acc; exact Keep.pure _
  | cons f fs ih =>
    intro buf is acc
    exact Keep.ite (Keep.fail _) (Keep.bind Keep.callTemp fun _ => Keep.bind Keep.callTemp fun _ => Keep.bind (keep_copyN _ _ _) fun _ =>
      Keep.bind Keep.callTemp fun _ => ih _ _ _)
theorem keep_complete : Keep A complete := Keep.bind Keep.getMem fun _ => Keep.bind (Keep.setMem _) fun _ => Keep.deliver _ _

/-- Once the target exists the work directory may go. -/
theorem keep_finish {fs : FS} {s : Sys} (ht : s.fs.target ≠ none) : wp A (removeWork >>= fun _ => complete) (kpost fs) s := by
  refine wp_bind (wp_call ?_ (by simp) ?_ ?_)
  · intro a fs' he
    simp only [Option.some.injEq, Prod.mk.injEq, true_and] at he
    exact keep_complete _ fs (Kept.target (by rw [← he]; exact ht))
  · intro r _; exact Kept.target ht
  · intro r _; exact Kept.target ht

theorem keep_coalescePieces : Keep A (coalescePieces cfg) := by
  unfold coalescePieces
  refine Keep.bind Keep.getMem fun m => Keep.ite (Keep.pure _) (Keep.ite ?_ ?_)
  · unfold coalesceMulti
    refine Keep.bind Keep.callTemp fun _ => Keep.bind (keep_createTemp _) fun _ => Keep.bind (keep_writeFiles _ _ _ _) fun l => ?_
    intro s fs hf
    refine wp_bind (wp_call ?_ (fun _ => hf) (fun _ _ => hf) (fun _ _ => hf))
    intro a fs' he
    refine keep_finish ?_
    split at he
    · cases he
    · split at he
      · simp only [Option.some.injEq, Prod.mk.injEq, true_and] at he; rw [← he]; simp
      · simp only [Option.some.injEq, Prod.mk.injEq, true_and] at he; rw [← he]; simp
      · cases he
  · unfold coalesceSingle
    refine Keep.bind Keep.callTemp fun _ => Keep.bind (keep_createTemp _) fun _ => Keep.bind (keep_readPieces _) fun l => ?_
    intro s fs hf
    refine wp_bind (wp_call ?_ (fun _ => hf) (fun _ _ => hf) (fun _ _ => hf))
    intro a fs' he
    refine keep_finish ?_
    split at he
    · cases he
    · split at he
      · cases he
      · simp only [Option.some.injEq, Prod.mk.injEq, true_and] at he; rw [← he]; simp

theorem keep_completePiece (i : Nat) : Keep A (completePiece i) :=
  Keep.bind (Keep.getPiece _) fun _ => Keep.bind (Keep.setPiece _ _) fun _ => Keep.bind (Keep.deliver _ _) fun _ => Keep.bind (Keep.setPiece _ _) fun _ =>
    Keep.bind Keep.getMem fun _ => Keep.bind (Keep.lift _) fun _ => Keep.setMem _
theorem keep_coalesceBlocks (i : Nat) : Keep A (coalesceBlocks cfg i) := by
  unfold coalesceBlocks
  refine Keep.bind (Keep.getPiece _) fun x => Keep.ite (Keep.pure _) (Keep.bind Keep.callTemp fun _ => Keep.bind Keep.callTemp fun _ => ?_)
  cases joinBlocks (x.2.blocks.getD []) with
  | none => exact Keep.panic
  | some d => exact Keep.bind Keep.callTemp fun _ => Keep.ite (Keep.fail _) (Keep.bind keep_mkWork fun _ => Keep.bind (keep_renamePiece _ _) fun _ => keep_completePiece _)
theorem keep_putBlockP (i : Nat) (p : Piece) (begin_ : Int) (data : Bytes) : Keep A (putBlockP cfg.info i p begin_ data) := by
  unfold putBlockP
  refine Keep.ite (Keep.fail _) (Keep.bind ?_ fun bs => Keep.bind (Keep.setPiece _ _) fun _ => ?_)
  · unfold allocBlocks
    cases p.blocks with
    | some bs => exact Keep.pure _
    | none => exact Keep.ite Keep.panic (Keep.pure _)
  · unfold storeBlock
    refine Keep.ite Keep.panic ?_
    cases bs[(begin_.tdiv blockLength).toNat]? with
    | none => exact Keep.panic
    | some o => cases o with
      | none => exact Keep.setPiece _ _
      | some b => exact Keep.fail _
theorem keep_putBlock (index begin_ : Int) (data : Bytes) : Keep A (putBlock cfg index begin_ data) := by
  unfold putBlock
  exact Keep.bind (Keep.lift _) fun _ => Keep.bind Keep.getMem fun _ => Keep.ite (Keep.fail _) (Keep.bind (Keep.getPiece _) fun _ => Keep.bind (keep_putBlockP _ _ _ _) fun _ =>
    Keep.bind (Keep.onErr (keep_coalesceBlocks _) fun _ => Keep.bind Keep.getMem fun _ => Keep.bind (Keep.setMem _) fun _ => Keep.deliver _ _) fun _ => keep_coalescePieces)
theorem keep_resetPiece (i : Int) : Keep A (resetPiece i) :=
  Keep.bind (Keep.getPiece _) fun _ => Keep.bind (Keep.deliver _ _) fun _ => Keep.bind Keep.getMem fun _ => Keep.bind (Keep.setMem _) fun _ => Keep.setPiece _ _
theorem keep_completeAll (is : List Nat) : Keep A (completeAll is) := by
  induction is with
  | nil => exact Keep.pure _
  | cons i is ih => exact Keep.bind (keep_completePiece i) fun _ => ih
theorem keep_loadEntries (es : List (Bytes × Bytes)) : Keep A (loadEntries es) := by
  induction es with
  | nil => exact Keep.pure _
  | cons x es ih =>
    obtain ⟨name, content⟩ := x
    unfold loadEntries
    cases sscanfPiece name with
    | none => exact ih
    | some i =>
      exact Keep.bind Keep.callTemp fun _ => Keep.bind Keep.getMem fun _ => Keep.bind (Keep.setMem _) fun _ =>
        Keep.bind (Keep.getPiece _) fun _ => Keep.bind (keep_completePiece _) fun _ => ih
theorem keep_load : Keep A (load cfg) := by
  unfold load
  refine Keep.bind (Keep.call fun fs a fs' he => ?_) fun o => ?_
  · have : fs' = fs := by
      split at he
      · simp at he; exact he.2.symm
      · split at he <;> · simp at he; exact he.2.symm
    rw [this]; exact Kept.refl _
  · cases o with
    | some size => exact Keep.bind (keep_completeAll _) fun _ => Keep.bind keep_complete fun _ => Keep.bind Keep.getMem fun _ => Keep.setMem _
    | none =>
      refine Keep.bind (Keep.call fun fs a fs' he => ?_) fun o => ?_
      · simp only [Option.some.injEq, Prod.mk.injEq] at he; rw [← he.2]; exact Kept.refl _
      · cases o with
        | none => exact Keep.pure _
        | some es => exact Keep.bind (keep_loadEntries es) fun _ => keep_coalescePieces

theorem runOp_kept {α : Type} {p : Op α} (hp : Keep (fun _ => True) p) (w : World) (f : List Fate) : Kept w.fs (runOp p w f).2.fs := by
  unfold runOp
  cases hm : w.mem with
  | none => exact Kept.refl _
  | some m =>
    have := wp_any (hp ⟨w.fs, m⟩ w.fs (Kept.refl _)) f
    dsimp only
    rcases hr : p ⟨w.fs, m⟩ f with ⟨o, s, f'⟩
    rw [hr] at this
    cases o <;> exact this

theorem step_kept (w : World) (e : Event) (f : List Fate) : Kept w.fs (step cfg w e f).fs := by
  cases e with
  | start => exact Kept.refl _
  | load => exact runOp_kept keep_load w f
  | put i b d => exact runOp_kept (keep_putBlock i b d) w f
  | get i b l =>
    refine runOp_kept ?_ w f
    intro s fs h
    refine wp_mono (wp_getBlock_any i b l) ?_ ?_ ?_ ?_
    · rintro _ s' ⟨_, rfl⟩; exact h
    · rintro _ s' rfl; exact h
    · rintro s' ⟨rfl, _⟩; exact h
    · rintro s' rfl; exact h
  | reset i => exact runOp_kept (keep_resetPiece i) w f

theorem run_kept (es : List (Event × List Fate)) : ∀ w : World, Kept w.fs (run cfg es w).fs := by
  induction es with
  | nil => intro w; exact Kept.refl _
  | cons e es ih => intro w; exact (step_kept w e.1 e.2).trans (ih _)

end Drip.Storage
