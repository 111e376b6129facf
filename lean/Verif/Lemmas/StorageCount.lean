import Verif.Lemmas.StorageDownload
/-
What the calls do to the counter behind `Downloaded` (torrent.go:19).
-/

namespace Drip.Storage
open Metainfo Spec

variable {A : Fate → Prop} {cfg : Cfg}

/-- The counter stays the same, and there is no checksum error. -/
def Same (A : Fate → Prop) {α : Type} (p : Op α) : Prop :=
  ∀ s : Sys, wp A p ⟨fun _ s' => s'.mem.downloaded = s.mem.downloaded, fun e s' => e ≠ .checksum ∧ s'.mem.downloaded = s.mem.downloaded, fun _ => True, fun _ => True⟩ s

theorem same_pure {α : Type} (a : α) : Same A (pure a : Op α) := fun _ => wp_pure rfl
theorem same_fail {α : Type} {e : Err} (h : e ≠ .checksum) : Same A (Op.fail e : Op α) := fun _ => wp_fail ⟨h, rfl⟩
theorem same_panic {α : Type} : Same A (Op.panic : Op α) := fun _ => wp_panic trivial
theorem same_call {α : Type} (eff : FS → Option (α × FS)) (part : List Bytes → FS → FS) : Same A (Op.call eff part) :=
  fun _ => wp_call (fun _ _ _ => rfl) (fun _ => ⟨by simp, rfl⟩) (fun _ _ => ⟨by simp, rfl⟩) (fun _ _ => trivial)
theorem same_callTemp : Same A Op.callTemp := same_call _ _
theorem same_bind {α β : Type} {p : Op α} {k : α → Op β} (hp : Same A p) (hk : ∀ a, Same A (k a)) : Same A (p >>= k) := by
  intro s
  refine wp_seq (hp s) ?_ (fun _ _ h => h) (fun _ h => h) (fun _ h => h)
  intro a s' h
  have h : s'.mem.downloaded = s.mem.downloaded := h
  exact wp_mono (hk a s') (fun _ _ g => Eq.trans g h) (fun _ _ g => ⟨g.1, Eq.trans g.2 h⟩) (fun _ g => g) (fun _ g => g)
theorem same_getMem {α : Type} {k : Mem → Op α} (hk : ∀ m, Same A (k m)) : Same A (Op.getMem >>= k) := same_bind (fun _ => wp_getMem rfl) hk
theorem same_upMem {up : Mem → Mem} (h : ∀ m, (up m).downloaded = m.downloaded) : Same A (Op.getMem >>= fun m => Op.setMem (up m)) :=
  fun s => wp_bind (wp_getMem (wp_setMem (h s.mem)))
theorem same_deliver (id : Nat) (v : Option Err) : Same A (deliver id v) := fun _ => wp_deliver (fun _ => rfl) (fun _ => trivial)
theorem same_getPiece (i : Int) : Same A (getPiece i) := fun _ => wp_getPiece (fun _ _ _ _ => rfl) (fun _ => trivial)
theorem same_setPiece (i : Nat) (p : Piece) : Same A (setPiece i p) := fun _ => wp_setPiece rfl
theorem same_ite {α : Type} {c : Prop} [Decidable c] {p q : Op α} (hp : Same A p) (hq : Same A q) : Same A (if c then p else q) := by
  split
  · exact hp
  · exact hq
theorem same_lift {α : Type} {r : Res α} (h : r ≠ .err .checksum) : Same A (Op.lift r) := by
  intro s
  refine wp_lift ?_
  cases r with
  | ok a => rfl
  | err e => exact ⟨fun e' => h (by rw [e']), rfl⟩
  | panic => trivial

theorem same_complete : Same A complete := by
  intro s
  exact wp_bind (wp_getMem (wp_bind (wp_setMem (wp_deliver (fun _ => rfl) (fun _ => trivial)))))

theorem same_readPieces : ∀ is : List Nat, Same A (readPieces is)
  | [] => same_pure _
  | _ :: is => same_bind (same_call _ _) fun _ => same_bind same_callTemp fun _ => same_bind (same_readPieces is) fun _ => same_pure _

theorem same_coalesceSingle : Same A (coalesceSingle cfg) :=
  same_bind same_callTemp fun _ => same_bind (same_call _ _) fun _ => same_bind (same_readPieces _) fun _ => same_bind (same_call _ _) fun _ => same_bind (same_call _ _) fun _ => same_complete

theorem same_copyN (n : Nat) : ∀ (is : List Nat) (buf : Bytes), Same A (copyN n buf is)
  | [], buf => by unfold copyN; exact same_ite (same_pure _) (same_fail (by simp))
  | i :: is, buf => by unfold copyN; exact same_ite (same_pure _) (same_bind (same_call _ _) fun _ => same_copyN n is _)

theorem same_writeFiles : ∀ (fs : List File) (buf : Bytes) (is : List Nat) (acc : List (List Bytes × Bytes)), Same A (writeFiles buf is acc fs)
  | [], _, _, _ => same_pure _
  | f :: fs, buf, is, acc => by
    unfold writeFiles
    exact same_ite (same_fail (by simp)) (same_bind same_callTemp fun _ => same_bind same_callTemp fun _ => same_bind (same_copyN _ _ _) fun _ => same_bind same_callTemp fun _ =>
      same_writeFiles fs _ _ _)

theorem same_coalesceMulti : Same A (coalesceMulti cfg) :=
  same_bind same_callTemp fun _ => same_bind (same_call _ _) fun _ => same_bind (same_writeFiles _ _ _ _) fun _ => same_bind (same_call _ _) fun _ => same_bind (same_call _ _) fun _ => same_complete

theorem same_coalescePieces : Same A (coalescePieces cfg) := by
  unfold coalescePieces
  exact same_getMem fun _ => same_ite (same_pure _) (same_ite same_coalesceMulti same_coalesceSingle)

theorem same_makeLen (n : Int) : Same A (makeLen n) := by unfold makeLen; exact same_ite same_panic (same_pure _)

theorem readAt_err (c : Bytes) (off : Int) (n : Nat) : readAt c off n ≠ .err .checksum := by
  unfold readAt
  split <;> simp

theorem same_getSingle (i b l : Int) : Same A (getSingle cfg i b l) :=
  same_bind (same_call _ _) fun _ => same_bind (same_makeLen _) fun _ => same_bind (same_lift (readAt_err _ _ _)) fun _ => same_ite (same_fail (by simp)) (same_pure _)

theorem same_getMultiLoop (start end_ : Int) (len : Nat) : ∀ (fs : List File) (total : Int) (acc : Bytes), Same A (getMultiLoop start end_ len total acc fs)
  | [], _, _ => same_pure _
  | f :: fs, total, acc => by
    unfold getMultiLoop
    exact same_ite (same_pure _) (same_ite (same_bind (same_call _ _) fun _ => same_bind (same_lift (readAt_err _ _ _)) fun _ => same_getMultiLoop start end_ len fs _ _)
      (same_getMultiLoop start end_ len fs _ _))

theorem same_getMulti (i b l : Int) : Same A (getMulti cfg i b l) :=
  same_bind (same_makeLen _) fun _ => same_bind (same_getMultiLoop _ _ _ _ _ _) fun _ => same_ite (same_fail (by simp)) (same_pure _)

theorem same_getFromPiece (i : Nat) (b l : Int) : Same A (getFromPiece i b l) :=
  same_bind (same_call _ _) fun _ => same_bind (same_makeLen _) fun _ => same_bind (same_lift (readAt_err _ _ _)) fun _ => same_ite (same_fail (by simp)) (same_pure _)

theorem same_getBlock (i b l : Int) : Same A (getBlock cfg i b l) := by
  unfold getBlock
  exact same_getMem fun _ => same_ite (same_ite (same_getMulti _ _ _) (same_getSingle _ _ _)) (same_bind (same_getPiece _) fun _ => same_ite (same_fail (by simp)) (same_getFromPiece _ _ _))

theorem same_resetPiece (i : Int) : Same A (resetPiece i) := by
  unfold resetPiece
  refine same_bind (same_getPiece _) fun x => ?_
  obtain ⟨i, p⟩ := x
  show Same A (resetP i p)
  unfold resetP
  refine same_bind (same_deliver _ _) fun _ => ?_
  intro s
  exact wp_bind (wp_getMem (wp_bind (wp_setMem (wp_setPiece rfl))))

theorem same_putBlockP (info : Info) (i : Nat) (p : Piece) (b : Int) (d : Bytes) : Same A (putBlockP info i p b d) := by
  unfold putBlockP
  refine same_ite (same_fail (by simp)) (same_bind ?_ fun _ => same_bind (same_setPiece _ _) fun _ => ?_)
  · unfold allocBlocks
    split
    · exact same_pure _
    · exact same_ite same_panic (same_pure _)
  · unfold storeBlock
    refine same_ite same_panic ?_
    split
    · exact same_panic
    · exact same_fail (by simp)
    · exact same_setPiece _ _

/-- The counter stays the same, and every error is one of the operating system. -/
def SameF (A : Fate → Prop) {α : Type} (p : Op α) : Prop :=
  ∀ s : Sys, wp A p ⟨fun _ s' => s'.mem.downloaded = s.mem.downloaded, fun e s' => e = .fs ∧ s'.mem.downloaded = s.mem.downloaded, fun _ => True, fun _ => True⟩ s

theorem samef_call {α : Type} (eff : FS → Option (α × FS)) (part : List Bytes → FS → FS) : SameF A (Op.call eff part) :=
  fun _ => wp_call (fun _ _ _ => rfl) (fun _ => ⟨rfl, rfl⟩) (fun _ _ => ⟨rfl, rfl⟩) (fun _ _ => trivial)
theorem samef_callTemp : SameF A Op.callTemp := samef_call _ _
theorem samef_bind {α β : Type} {p : Op α} {k : α → Op β} (hp : SameF A p) (hk : ∀ a, SameF A (k a)) : SameF A (p >>= k) := by
  intro s
  refine wp_seq (hp s) ?_ (fun _ _ h => h) (fun _ h => h) (fun _ h => h)
  intro a s' h
  have h : s'.mem.downloaded = s.mem.downloaded := h
  exact wp_mono (hk a s') (fun _ _ g => Eq.trans g h) (fun _ _ g => ⟨g.1, Eq.trans g.2 h⟩) (fun _ g => g) (fun _ g => g)
theorem samef_deliver (id : Nat) (v : Option Err) : SameF A (deliver id v) := fun _ => wp_deliver (fun _ => rfl) (fun _ => trivial)
theorem samef_getPiece (i : Int) : SameF A (getPiece i) := fun _ => wp_getPiece (fun _ _ _ _ => rfl) (fun _ => trivial)
theorem samef_setPiece (i : Nat) (p : Piece) : SameF A (setPiece i p) := fun _ => wp_setPiece rfl

theorem samef_completePiece (i : Nat) : SameF A (completePiece i) := by
  unfold completePiece
  refine samef_bind (samef_getPiece _) fun x => samef_bind (samef_setPiece _ _) fun _ => samef_bind (samef_deliver _ _) fun _ => samef_bind (samef_setPiece _ _) fun _ => ?_
  intro s
  refine wp_bind (wp_getMem (wp_bind (wp_lift ?_)))
  cases h : Bitfield.add s.mem.bitfield i with
  | ok b => exact wp_setMem rfl
  | err e =>
    unfold Bitfield.add at h
    dsimp only at h
    repeat' split at h
    all_goals cases h
  | panic => trivial

/-- `PutBlock`: nothing is added when it succeeds; the length of the piece is added when its result is a checksum error, and when the
operating system failed while a piece was being completed. -/
theorem wp_putBlock_count (index begin_ : Int) (data : Bytes) (s : Sys) :
    wp A (putBlock cfg index begin_ data) ⟨fun _ s' => s'.mem.downloaded = s.mem.downloaded,
      fun e s' => (e ≠ .checksum ∧ s'.mem.downloaded = s.mem.downloaded) ∨ ((e = .checksum ∨ e = .fs) ∧ s'.mem.downloaded = s.mem.downloaded + cfg.info.getPieceLength index), fun _ => True, fun _ => True⟩ s := by
  unfold putBlock
  have hck : checkBlockSize cfg.info index begin_ data.length ≠ .err .checksum := by
    unfold checkBlockSize
    split
    · simp
    · dsimp only
      repeat' split
      all_goals simp
  refine wp_seq (same_lift hck s) ?_ (fun _ _ h => .inl h) (fun _ h => h) (fun _ h => h)
  intro _ s1 h1
  have h1 : s1.mem.downloaded = s.mem.downloaded := h1
  rw [← h1]
  refine wp_bind (wp_getMem ?_)
  show wp A (if s1.mem.coalesced = true then _ else _) _ _
  split
  · exact wp_fail (.inl ⟨by simp, rfl⟩)
  refine wp_bind (wp_getPiece ?_ (fun _ => trivial))
  rintro i p rfl _
  show wp A _ _ _
  refine wp_seq (same_putBlockP cfg.info i p begin_ data s1) ?_ (fun _ _ h => .inl h) (fun _ h => h) (fun _ h => h)
  intro _ s2 h2
  have h2 : s2.mem.downloaded = s1.mem.downloaded := h2
  rw [← h2]
  have hcb : wp A (coalesceBlocks cfg i) ⟨fun _ s' => s'.mem.downloaded = s2.mem.downloaded, fun e s' => (e = .checksum ∨ e = .fs) ∧ s'.mem.downloaded = s2.mem.downloaded, fun _ => True, fun _ => True⟩ s2 := by
    have hw : ∀ {α : Type} {p : Op α} {s : Sys}, SameF A p → s.mem.downloaded = s2.mem.downloaded →
        wp A p ⟨fun _ s' => s'.mem.downloaded = s2.mem.downloaded, fun e s' => (e = .checksum ∨ e = .fs) ∧ s'.mem.downloaded = s2.mem.downloaded, fun _ => True, fun _ => True⟩ s :=
      fun h e => wp_mono (h _) (fun _ _ g => Eq.trans g e) (fun _ _ g => ⟨.inr g.1, Eq.trans g.2 e⟩) (fun _ g => g) (fun _ g => g)
    unfold coalesceBlocks
    refine wp_seq (hw (samef_getPiece _) rfl) ?_ (fun _ _ h => h) (fun _ h => h) (fun _ h => h)
    rintro ⟨j, q⟩ s3 h3
    show wp A (if q.completeBlocks ≠ ((q.blocks.getD []).length : Int) then pure () else _) _ _
    split
    · exact wp_pure h3
    refine wp_seq (hw samef_callTemp h3) ?_ (fun _ _ h => h) (fun _ h => h) (fun _ h => h)
    intro _ s4 h4
    refine wp_seq (hw samef_callTemp h4) ?_ (fun _ _ h => h) (fun _ h => h) (fun _ h => h)
    intro _ s5 h5
    cases joinBlocks (q.blocks.getD []) with
    | none => exact wp_panic trivial
    | some x =>
      refine wp_seq (hw samef_callTemp h5) ?_ (fun _ _ h => h) (fun _ h => h) (fun _ h => h)
      intro _ s6 h6
      split
      · exact wp_fail ⟨.inl rfl, h6⟩
      · exact hw (samef_bind (samef_call _ _) fun _ => samef_bind (samef_call _ _) fun _ => samef_completePiece i) h6
  refine wp_bind (wp_onErr (wp_mono hcb ?_ ?_ (fun _ h => h) (fun _ h => h)))
  · intro _ s3 h3
    have h3 : s3.mem.downloaded = s2.mem.downloaded := h3
    rw [← h3]
    exact wp_mono (same_coalescePieces s3) (fun _ _ h => h) (fun _ _ h => .inl h) (fun _ h => h) (fun _ h => h)
  · intro e s3 h3
    have h3 : (e = .checksum ∨ e = .fs) ∧ s3.mem.downloaded = s2.mem.downloaded := h3
    rw [← h3.2]
    exact wp_bind (wp_getMem (wp_bind (wp_setMem (wp_deliver (fun _ => .inr ⟨h3.1, rfl⟩) (fun _ => trivial)))))

end Drip.Storage
