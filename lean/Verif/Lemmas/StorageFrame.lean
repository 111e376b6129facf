import Verif.Model.Storage
/-
Operations on one piece do not depend on the other pieces.
-/

namespace Drip.Storage
open Metainfo

/-- Other pieces: `g k` says what piece `k` looks like. -/
def over (g : Nat → Piece → Piece) (s : Sys) : Sys := { s with mem := { s.mem with pieces := s.mem.pieces.mapIdx g } }

/-- `p` does the same whatever the pieces changed by `g` look like. -/
def Fr {α : Type} (g : Nat → Piece → Piece) (p : Op α) : Prop := ∀ s f, p (over g s) f = ((p s f).1, over g (p s f).2.1, (p s f).2.2)

variable {α β : Type} {g : Nat → Piece → Piece}

theorem fr_pure (a : α) : Fr g (pure a : Op α) := fun _ _ => rfl
theorem fr_fail (e : Err) : Fr g (Op.fail e : Op α) := fun _ _ => rfl
theorem fr_panic : Fr g (Op.panic : Op α) := fun _ _ => rfl

theorem fr_lift (r : Res α) : Fr g (Op.lift r) := by
  cases r with
  | ok a => exact fr_pure a
  | err e => exact fr_fail e
  | panic => exact fr_panic

theorem fr_bind {p : Op α} {k : α → Op β} (hp : Fr g p) (hk : ∀ a, Fr g (k a)) : Fr g (p >>= k) := by
  intro s f
  show Op.bind p k (over g s) f = _
  have e : (p >>= k) s f = Op.bind p k s f := rfl
  rw [e]
  unfold Op.bind
  rw [hp s f]
  rcases h : p s f with ⟨o, s', f'⟩
  cases o with
  | ok a => exact hk a s' f'
  | err e => rfl
  | panic => rfl
  | crash => rfl

/-- Reading the memory. -/
theorem fr_get {k : Mem → Op β} (hk : ∀ s f, k (over g s).mem (over g s) f = ((k s.mem s f).1, over g (k s.mem s f).2.1, (k s.mem s f).2.2)) : Fr g (Op.getMem >>= k) := by
  intro s f
  exact hk s f

theorem fr_call (eff : FS → Option (α × FS)) (part : List Bytes → FS → FS) : Fr g (Op.call eff part) := by
  intro s f
  unfold Op.call
  have hfs : (over g s).fs = s.fs := rfl
  rw [hfs]
  cases f with
  | nil =>
    simp only
    cases h : eff s.fs with
    | none => rfl
    | some x => rfl
  | cons x f =>
    cases x with
    | ok =>
      simp only
      cases h : eff s.fs with
      | none => rfl
      | some x => rfl
    | fail r => rfl
    | crash r => rfl

theorem fr_callTemp : Fr g Op.callTemp := fr_call _ _

theorem fr_deliver (id : Nat) (v : Option Err) : Fr g (deliver id v) := by
  refine fr_get fun s f => ?_
  have : (over g s).mem.futs = s.mem.futs := rfl
  rw [this]
  generalize s.mem.futs[id]? = x
  cases x with
  | none => rfl
  | some y => cases y <;> rfl

theorem fr_getPiece {j : Nat} (hg : ∀ p, g j p = p) {k : Nat × Piece → Op β} (hk : ∀ p, Fr g (k (j, p))) : Fr g (getPiece (j : Int) >>= k) := by
  intro s f
  have hget : (over g s).mem.pieces[(j : Int).toNat]? = s.mem.pieces[(j : Int).toNat]? := by
    show (s.mem.pieces.mapIdx g)[_]? = _
    rw [List.getElem?_mapIdx, Int.toNat_natCast]
    cases s.mem.pieces[j]? with
    | none => rfl
    | some p => simp [hg]
  have h1 : ∀ s : Sys, getPiece (j : Int) s f = match s.mem.pieces[(j : Int).toNat]? with
      | some p => (.ok ((j : Int).toNat, p), s, f)
      | none => (.panic, s, f) := by
    intro s
    have hj : ¬ (j : Int) < 0 := by omega
    show (if (j : Int) < 0 then (Op.panic : Op (Nat × Piece)) else (match s.mem.pieces[(j : Int).toNat]? with
      | some p => pure ((j : Int).toNat, p)
      | none => Op.panic)) s f = _
    rw [if_neg hj]
    generalize s.mem.pieces[(j : Int).toNat]? = x
    cases x <;> rfl
  show Op.bind _ k (over g s) f = _
  have e : (getPiece (j : Int) >>= k) s f = Op.bind (getPiece (j : Int)) k s f := rfl
  rw [e]
  unfold Op.bind
  rw [h1, h1, hget]
  cases h : s.mem.pieces[(j : Int).toNat]? with
  | none => rfl
  | some p =>
    have := hk p s f
    exact this

theorem fr_setPiece {j : Nat} (hg : ∀ p, g j p = p) (p : Piece) : Fr g (setPiece j p) := by
  have key : ∀ ps : List Piece, (ps.mapIdx g).set j p = (ps.set j p).mapIdx g := by
    intro ps
    apply List.ext_getElem?
    intro k
    rw [List.getElem?_set, List.getElem?_mapIdx, List.getElem?_mapIdx, List.getElem?_set, List.length_mapIdx]
    by_cases hjk : j = k
    · subst hjk
      simp only [if_true]
      split
      · simp [hg]
      · rfl
    · simp [hjk]
  refine fr_get fun s f => ?_
  show (Out.ok (), ({ s with mem := { s.mem with pieces := (s.mem.pieces.mapIdx g).set j p } } : Sys), f) =
    (Out.ok (), ({ s with mem := { s.mem with pieces := (s.mem.pieces.set j p).mapIdx g } } : Sys), f)
  rw [key]

/-- A change of the memory that leaves the pieces alone. -/
theorem fr_setMem {up : Mem → Mem} (hup : ∀ m ps, up { m with pieces := ps } = { up m with pieces := ps }) (hps : ∀ m, (up m).pieces = m.pieces) :
    Fr g (Op.getMem >>= fun m => Op.setMem (up m)) := by
  refine fr_get fun s f => ?_
  show (Out.ok (), _, f) = (Out.ok (), _, f)
  congr 2
  show ({ s with mem := up { s.mem with pieces := s.mem.pieces.mapIdx g } } : Sys) = { s with mem := { up s.mem with pieces := (up s.mem).pieces.mapIdx g } }
  rw [hup, hps]

theorem fr_completePiece {j : Nat} (hg : ∀ p, g j p = p) : Fr g (completePiece j) := by
  unfold completePiece
  refine fr_getPiece hg fun p => fr_bind (fr_setPiece hg _) fun _ => fr_bind (fr_deliver _ _) fun _ => fr_bind (fr_setPiece hg _) fun _ => ?_
  refine fr_get fun s f => ?_
  have : (over g s).mem.bitfield = s.mem.bitfield := rfl
  rw [this]
  cases Bitfield.add s.mem.bitfield (j : Int) with
  | ok bf => rfl
  | err e => rfl
  | panic => rfl

theorem fr_complete : Fr g complete := by
  unfold complete
  refine fr_get fun s f => ?_
  exact fr_deliver s.mem.err none { s with mem := { s.mem with coalesced := true } } f

theorem fr_ite {c : Prop} [Decidable c] {p q : Op α} (hp : c → Fr g p) (hq : ¬ c → Fr g q) : Fr g (if c then p else q) := by
  split
  · exact hp ‹_›
  · exact hq ‹_›

theorem fr_coalesceBlocks {cfg : Cfg} {j : Nat} (hg : ∀ p, g j p = p) : Fr g (coalesceBlocks cfg j) := by
  unfold coalesceBlocks
  refine fr_getPiece hg fun p => fr_ite (fun _ => fr_pure _) fun _ => fr_bind fr_callTemp fun _ => fr_bind fr_callTemp fun _ => ?_
  split
  · exact fr_panic
  · exact fr_bind fr_callTemp fun _ => fr_ite (fun _ => fr_fail _) fun _ => fr_bind (fr_call _ _) fun _ => fr_bind (fr_call _ _) fun _ => fr_completePiece hg

theorem fr_readPieces : ∀ is : List Nat, Fr g (readPieces is)
  | [] => fr_pure _
  | i :: is => fr_bind (fr_call _ _) fun _ => fr_bind fr_callTemp fun _ => fr_bind (fr_readPieces is) fun _ => fr_pure _

theorem fr_coalesceSingle {cfg : Cfg} : Fr g (coalesceSingle cfg) :=
  fr_bind fr_callTemp fun _ => fr_bind (fr_call _ _) fun _ => fr_bind (fr_readPieces _) fun _ => fr_bind (fr_call _ _) fun _ => fr_bind (fr_call _ _) fun _ => fr_complete

theorem fr_copyN (n : Nat) : ∀ (is : List Nat) (buf : Bytes), Fr g (copyN n buf is)
  | [], buf => by unfold copyN; exact fr_ite (fun _ => fr_pure _) fun _ => fr_fail _
  | i :: is, buf => by
    unfold copyN
    exact fr_ite (fun _ => fr_pure _) fun _ => fr_bind (fr_call _ _) fun c => fr_copyN n is (buf ++ c)

theorem fr_writeFiles : ∀ (fs : List File) (buf : Bytes) (is : List Nat) (acc : List (List Bytes × Bytes)), Fr g (writeFiles buf is acc fs)
  | [], _, _, _ => fr_pure _
  | f :: fs, buf, is, acc => by
    unfold writeFiles
    exact fr_ite (fun _ => fr_fail _) fun _ => fr_bind fr_callTemp fun _ => fr_bind fr_callTemp fun _ => fr_bind (fr_copyN _ _ _) fun _ => fr_bind fr_callTemp fun _ => fr_writeFiles fs _ _ _

theorem fr_coalesceMulti {cfg : Cfg} : Fr g (coalesceMulti cfg) :=
  fr_bind fr_callTemp fun _ => fr_bind (fr_call _ _) fun _ => fr_bind (fr_writeFiles _ _ _ _) fun _ => fr_bind (fr_call _ _) fun _ => fr_bind (fr_call _ _) fun _ => fr_complete

theorem fr_coalescePieces {cfg : Cfg} : Fr g (coalescePieces cfg) := by
  unfold coalescePieces
  refine fr_get fun s f => ?_
  have h1 : (over g s).mem.completePieces = s.mem.completePieces := rfl
  have h2 : (over g s).mem.pieces.length = s.mem.pieces.length := List.length_mapIdx
  rw [h1, h2]
  exact fr_ite (g := g) (fun _ => fr_pure ()) (fun _ => fr_ite (fun _ => fr_coalesceMulti) fun _ => fr_coalesceSingle) s f

theorem fr_onErr {p : Op α} {h : Err → Op Unit} (hp : Fr g p) (hh : ∀ e, Fr g (h e)) : Fr g (onErr p h) := by
  intro s f
  unfold onErr
  rw [hp s f]
  rcases hr : p s f with ⟨o, s', f'⟩
  cases o with
  | ok a => rfl
  | panic => rfl
  | crash => rfl
  | err e =>
    simp only
    rw [hh e s' f']
    rcases h e s' f' with ⟨o', s'', f''⟩
    cases o' <;> rfl

/-- The second half of `PutBlock`. -/
theorem fr_finish {cfg : Cfg} {j fut : Nat} (hg : ∀ p, g j p = p) : Fr g (do
    onErr (coalesceBlocks cfg j) fun e => do
      let m ← Op.getMem
      Op.setMem { m with downloaded := m.downloaded + cfg.info.getPieceLength j }
      deliver fut (some e)
    coalescePieces cfg) := by
  refine fr_bind (fr_onErr (fr_coalesceBlocks hg) fun e => ?_) fun _ => fr_coalescePieces
  refine fr_get fun s f => ?_
  exact fr_deliver fut (some e) { s with mem := { s.mem with downloaded := s.mem.downloaded + cfg.info.getPieceLength j } } f

theorem fr_resetP {j : Nat} (hg : ∀ p, g j p = p) (p : Piece) : Fr g (resetP j p) := by
  unfold resetP
  refine fr_bind (fr_deliver _ _) fun _ => fr_get fun s f => ?_
  exact fr_setPiece hg { p with fut := s.mem.futs.length, blocks := none, completeBlocks := 0 } { s with mem := { s.mem with futs := s.mem.futs ++ [none] } } f

theorem fr_resetPiece {j : Nat} (hg : ∀ p, g j p = p) : Fr g (resetPiece (j : Int)) := fr_getPiece hg fun p => fr_resetP hg p

theorem fr_makeLen (n : Int) : Fr g (makeLen n) := by
  unfold makeLen
  exact fr_ite (fun _ => fr_panic) fun _ => fr_pure _

theorem fr_getSingle {cfg : Cfg} (i b l : Int) : Fr g (getSingle cfg i b l) :=
  fr_bind (fr_call _ _) fun _ => fr_bind (fr_makeLen _) fun _ => fr_bind (fr_lift _) fun _ => fr_ite (fun _ => fr_fail _) fun _ => fr_pure _

theorem fr_getMultiLoop (start end_ : Int) (len : Nat) : ∀ (fs : List File) (total : Int) (acc : Bytes), Fr g (getMultiLoop start end_ len total acc fs)
  | [], _, _ => fr_pure _
  | f :: fs, total, acc => by
    unfold getMultiLoop
    refine fr_ite (fun _ => fr_pure _) fun _ => fr_ite (fun _ => ?_) fun _ => fr_getMultiLoop start end_ len fs _ _
    exact fr_bind (fr_call _ _) fun _ => fr_bind (fr_lift _) fun _ => fr_getMultiLoop start end_ len fs _ _

theorem fr_getMulti {cfg : Cfg} (i b l : Int) : Fr g (getMulti cfg i b l) :=
  fr_bind (fr_makeLen _) fun _ => fr_bind (fr_getMultiLoop _ _ _ _ _ _) fun _ => fr_ite (fun _ => fr_fail _) fun _ => fr_pure _

theorem fr_getFromPiece (i : Nat) (b l : Int) : Fr g (getFromPiece i b l) :=
  fr_bind (fr_call _ _) fun _ => fr_bind (fr_makeLen _) fun _ => fr_bind (fr_lift _) fun _ => fr_ite (fun _ => fr_fail _) fun _ => fr_pure _

end Drip.Storage
