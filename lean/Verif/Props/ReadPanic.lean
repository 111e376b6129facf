import Verif.Props.Storage
/-
C128: exactly when GetBlock panics.
-/

namespace Drip.Storage
open Metainfo

variable {cfg : Cfg}

/-- C128 in full: whatever is asked for, GetBlock does not panic. -/
def ReadsSafely (cfg : Cfg) : Prop := ∀ (es : List (Event × List Fate)) (index begin_ length : Int) (fates : List Fate), (run cfg es World.empty).mem ≠ none →
  (runOp (getBlock cfg index begin_ length) (run cfg es World.empty) fates).1 ≠ .panic

theorem torrentResult_iff {s : Sys} (hs : SInv cfg s) : TorrentResult s.mem none ↔ s.mem.coalesced = true := by
  have he : s.mem.futs[s.mem.err]? = some (if s.mem.coalesced then some none else none) := hs.2.errFut
  unfold TorrentResult
  rw [he]
  cases s.mem.coalesced <;> simp

/-- A piece that does not exist, before the torrent is complete. -/
theorem C128_index_refuted : ¬ ReadsSafely Ex.single := fun h => h [(.start, [])] 2 0 1 [] (by
  obtain ⟨m, h1, _⟩ := Ex.of_is (o := (run Ex.single [(.start, [])] World.empty).mem) (b := [0]) (t := none) (by kernel_rfl)
  rw [h1]; simp) (by kernel_rfl)

/-- A negative length. -/
theorem C128_length_refuted : ¬ ReadsSafely Ex.multi := fun h => h Ex.both 0 0 (-1) [] (by
  obtain ⟨m, h1, _⟩ := Ex.of_is (o := (run Ex.multi Ex.both World.empty).mem) (b := [192]) (t := some none) (by kernel_rfl)
  rw [h1]; simp) (by kernel_rfl)

/-- C128, exactly, for lengths that are not negative: GetBlock panics if and only if the torrent is not complete and it has no such piece. Missing: that it returns an error then. -/
theorem C128_exactly_partial (hu : Usable cfg) (es : List (Event × List Fate)) {m : Mem} (hm : (run cfg es World.empty).mem = some m) (index begin_ : Int) {length : Int} (hl : 0 ≤ length) (fates : List Fate) :
    (runOp (getBlock cfg index begin_ length) (run cfg es World.empty) fates).1 = .panic ↔ ¬TorrentResult m none ∧ (index < 0 ∨ cfg.info.pieces.length ≤ index) := by
  have hs := reach hu es hm
  have hlen : m.pieces.length = cfg.info.pieces.length := hs.2.len
  rw [torrentResult_iff hs]
  constructor
  · intro hp
    rcases runOp_of_wp hm (wp_getBlock_any (A := fun _ => True) (s := ⟨(run cfg es World.empty).fs, m⟩) index begin_ length) fates (fun _ _ => trivial) with ⟨_, _, h1, _⟩ | ⟨_, _, h1, _⟩ | ⟨_, _, _, h2⟩ | ⟨_, h1, _⟩
    · rw [h1] at hp; cases hp
    · rw [h1] at hp; cases hp
    · rcases h2 with h2 | ⟨h2, h3⟩
      · omega
      · refine ⟨by rw [show m.coalesced = false from h2]; simp, ?_⟩
        rcases h3 with h3 | h3
        · exact .inl h3
        · exact .inr (by rw [← hlen]; exact h3)
    · rw [h1] at hp; cases hp
  · rintro ⟨hc, hi⟩
    have hw : wp (fun _ => True) (getBlock cfg index begin_ length) ⟨fun _ _ => False, fun _ _ => False, fun _ => True, fun _ => False⟩ ⟨(run cfg es World.empty).fs, m⟩ := by
      unfold getBlock
      refine wp_bind (wp_getMem ?_)
      show wp _ (if m.coalesced = true then _ else _) _ _
      rw [if_neg hc]
      refine wp_bind (wp_getPiece ?_ fun _ => trivial)
      rintro i p rfl hp
      have := (List.getElem?_eq_some_iff.mp hp).1
      have : i < m.pieces.length := this
      omega
    rcases runOp_of_wp hm hw fates (fun _ _ => trivial) with ⟨_, _, _, h⟩ | ⟨_, _, _, h⟩ | ⟨_, h, _⟩ | ⟨_, _, h⟩
    · exact h.elim
    · exact h.elim
    · rw [h]
    · exact h.elim

/-- C128 for negative lengths: GetBlock does not panic if the piece exists and is not complete. Missing: that it returns an error for the others too. -/
theorem C128_negative_partial (hu : Usable cfg) (es : List (Event × List Fate)) {m : Mem} (hm : (run cfg es World.empty).mem = some m) {i : Nat} (hi : i < cfg.info.pieces.length) (hr : ¬Reported m i)
    (begin_ length : Int) (fates : List Fate) : (runOp (getBlock cfg i begin_ length) (run cfg es World.empty) fates).1 = .err .incompletePiece := by
  have hs := reach hu es hm
  have hlen : m.pieces.length = cfg.info.pieces.length := hs.2.len
  have hw : wp (fun _ => True) (getBlock cfg i begin_ length) ⟨fun _ _ => False, fun e _ => e = .incompletePiece, fun _ => False, fun _ => False⟩ ⟨(run cfg es World.empty).fs, m⟩ := by
    have hnc : ¬Complete m i := fun h => hr ((reported_iff hs).mpr h)
    unfold getBlock
    refine wp_bind (wp_getMem ?_)
    show wp _ (if m.coalesced = true then _ else _) _ _
    rw [if_neg fun hc => hnc ⟨m.pieces[i]'(by omega), List.getElem?_eq_getElem _, (hs.2.all hc).2 _ (List.getElem_mem _)⟩]
    refine wp_bind (wp_getPiece ?_ fun h => ?_)
    · intro j p hj hp
      have hj : i = j := by omega
      subst hj
      show wp _ (if (!p.coalesced) = true then _ else _) _ _
      have : p.coalesced = false := by
        cases hp' : p.coalesced with
        | false => rfl
        | true => exact absurd ⟨p, hp, hp'⟩ hnc
      rw [if_pos (by rw [this]; rfl)]
      exact wp_fail rfl
    · rcases h with h | h
      · omega
      · have : (m.pieces.length : Int) ≤ i := h
        omega
  rcases runOp_of_wp hm hw fates (fun _ _ => trivial) with ⟨_, _, _, h⟩ | ⟨_, _, h, h'⟩ | ⟨_, _, h⟩ | ⟨_, _, h⟩
  · exact h.elim
  · rw [h]; exact congrArg _ h'
  · exact h.elim
  · exact h.elim

/-- Reading a file for a negative length: what happens after it has been opened. -/
theorem open_negative {o : Op Bytes} {s : Sys} {fates : List Fate} (off off' : Int) {length : Int} (hl : length < 0) (ho : off' = 0) :
    ((do let c ← o; let n ← makeLen length; let (r, eof) ← Op.lift (readAt c off n); if eof then Op.fail .eof else pure r : Op Bytes) s fates).1 = .panic ↔
      (o s fates).1 = .panic ∨ ((do let c ← o; let n ← makeLen 0; let (r, eof) ← Op.lift (readAt c off' n); if eof then Op.fail .eof else pure r : Op Bytes) s fates).1 = .ok [] := by
  subst ho
  show (Op.bind o _ s fates).1 = _ ↔ _ ∨ (Op.bind o _ s fates).1 = _
  unfold Op.bind
  rcases o s fates with ⟨x, s', f'⟩
  cases x with
  | ok c =>
    have h1 : ((makeLen length >>= fun n => Op.lift (readAt c off n) >>= fun x => if x.2 then Op.fail .eof else pure x.1 : Op Bytes) s' f').1 = .panic := by
      unfold makeLen; rw [if_pos hl]; rfl
    have h2 : ((makeLen 0 >>= fun n => Op.lift (readAt c 0 n) >>= fun x => if x.2 then Op.fail .eof else pure x.1 : Op Bytes) s' f').1 = .ok [] := by
      unfold makeLen readAt
      simp
      rfl
    exact ⟨fun _ => .inr h2, fun _ => h1⟩
  | err e => simp
  | panic => simp
  | crash => simp

theorem getPiece_apply (index : Int) (s : Sys) (f : List Fate) : getPiece index s f =
    if index < 0 then (.panic, s, f) else match s.mem.pieces[index.toNat]? with | some p => (.ok (index.toNat, p), s, f) | none => (.panic, s, f) := by
  show (if index < 0 then Op.panic else match s.mem.pieces[index.toNat]? with | some p => pure (index.toNat, p) | none => Op.panic : Op (Nat × Piece)) s f = _
  split
  · rfl
  · cases s.mem.pieces[index.toNat]? <;> rfl

/-- C128, exactly, for negative lengths: GetBlock panics if and only if the torrent is not complete and has no such piece, or it is complete and has several files, or the file with the data can
be opened (a read of no bytes from its start succeeds). Missing: that it returns an error then. -/
theorem C128_negative_exactly_partial (hu : Usable cfg) (es : List (Event × List Fate)) {m : Mem} (hm : (run cfg es World.empty).mem = some m) (index begin_ : Int) {length : Int} (hl : length < 0)
    (fates : List Fate) :
    (runOp (getBlock cfg index begin_ length) (run cfg es World.empty) fates).1 = .panic ↔
      (¬TorrentResult m none ∧ (index < 0 ∨ cfg.info.pieces.length ≤ index)) ∨ (TorrentResult m none ∧ cfg.info.files ≠ []) ∨
      (¬TorrentResult m none ∧ (runOp (getBlock cfg index 0 0) (run cfg es World.empty) fates).1 = .ok []) ∨
      (TorrentResult m none ∧ cfg.info.files = [] ∧ (runOp (getBlock cfg 0 0 0) (run cfg es World.empty) fates).1 = .ok []) := by
  have hs := reach hu es hm
  have hlen : m.pieces.length = cfg.info.pieces.length := hs.2.len
  rw [torrentResult_iff hs]
  show _ ↔ (¬ m.coalesced = true ∧ _) ∨ (m.coalesced = true ∧ _) ∨ (¬ m.coalesced = true ∧ _) ∨ (m.coalesced = true ∧ _)
  have hrun : ∀ p : Op Bytes, (runOp p (run cfg es World.empty) fates).1 = (p ⟨(run cfg es World.empty).fs, m⟩ fates).1 := by
    intro p
    unfold runOp
    rw [hm]
    dsimp only
    rcases p ⟨(run cfg es World.empty).fs, m⟩ fates with ⟨o, s, f⟩
    cases o <;> rfl
  rw [hrun, hrun, hrun]
  generalize (run cfg es World.empty).fs = fs
  have hget : ∀ i b l, getBlock cfg i b l ⟨fs, m⟩ fates = (if m.coalesced then if cfg.info.files ≠ [] then getMulti cfg i b l else getSingle cfg i b l else do
      let (i, p) ← getPiece i
      if !p.coalesced then Op.fail .incompletePiece else getFromPiece i b l : Op Bytes) ⟨fs, m⟩ fates := fun i b l => rfl
  have nopanic : ∀ (eff : FS → Option (Bytes × FS)), ((Op.call eff : Op Bytes) ⟨fs, m⟩ fates).1 ≠ .panic := by
    intro eff
    unfold Op.call
    cases fates with
    | nil => simp only; cases eff fs with | none => simp | some x => simp
    | cons x f =>
      cases x with
      | ok => simp only; cases eff fs with | none => simp | some x => simp
      | fail => simp
      | crash => simp
  rw [hget, hget, hget]
  by_cases hc : m.coalesced = true
  · rw [if_pos hc, if_pos hc, if_pos hc]
    by_cases hf : cfg.info.files ≠ []
    · rw [if_pos hf]
      have : (getMulti cfg index begin_ length ⟨fs, m⟩ fates).1 = .panic := by
        unfold getMulti makeLen
        rw [if_pos hl]
        rfl
      exact ⟨fun _ => .inr (.inl ⟨hc, hf⟩), fun _ => this⟩
    · rw [if_neg hf, if_neg hf, if_neg hf]
      have := open_negative (o := openTargetFile) (s := ⟨fs, m⟩) (fates := fates) (index * cfg.info.pieceLength + begin_) (0 * cfg.info.pieceLength + 0) hl (by omega)
      unfold getSingle
      rw [this]
      constructor
      · rintro (h | h)
        · exact absurd h (nopanic _)
        · exact .inr (.inr (.inr ⟨hc, Classical.not_not.1 hf, h⟩))
      · rintro (⟨h, _⟩ | ⟨_, h⟩ | ⟨h, _⟩ | ⟨_, _, h⟩)
        · exact absurd hc h
        · exact absurd h hf
        · exact absurd hc h
        · exact .inr h
  · rw [if_neg hc, if_neg hc]
    by_cases hi : index < 0
    · have : ((do let (i, p) ← getPiece index; if !p.coalesced then Op.fail .incompletePiece else getFromPiece i begin_ length : Op Bytes) ⟨fs, m⟩ fates).1 = .panic := by
        show (Op.bind (getPiece index) _ ⟨fs, m⟩ fates).1 = _
        unfold Op.bind
        rw [getPiece_apply, if_pos hi]
      exact ⟨fun _ => .inl ⟨hc, .inl hi⟩, fun _ => this⟩
    · cases hp : m.pieces[index.toNat]? with
      | none =>
        have hle := List.getElem?_eq_none_iff.1 hp
        have : ((do let (i, p) ← getPiece index; if !p.coalesced then Op.fail .incompletePiece else getFromPiece i begin_ length : Op Bytes) ⟨fs, m⟩ fates).1 = .panic := by
          show (Op.bind (getPiece index) _ ⟨fs, m⟩ fates).1 = _
          unfold Op.bind
          rw [getPiece_apply, if_neg hi, hp]
        exact ⟨fun _ => .inl ⟨hc, .inr (by omega)⟩, fun _ => this⟩
      | some p =>
        have hlt := (List.getElem?_eq_some_iff.1 hp).1
        have heq : ∀ b l, ((do let (i, p) ← getPiece index; if !p.coalesced then Op.fail .incompletePiece else getFromPiece i b l : Op Bytes) ⟨fs, m⟩ fates) =
            (if !p.coalesced then Op.fail .incompletePiece else getFromPiece index.toNat b l : Op Bytes) ⟨fs, m⟩ fates := by
          intro b l
          show Op.bind (getPiece index) _ ⟨fs, m⟩ fates = _
          unfold Op.bind
          rw [getPiece_apply, if_neg hi, hp]
        rw [heq, heq]
        have hrange : ¬ (index < 0 ∨ (cfg.info.pieces.length : Int) ≤ index) := by omega
        cases hpc : p.coalesced with
        | false =>
          simp only [Bool.not_false, if_true]
          constructor
          · intro h; cases h
          · rintro (⟨_, h⟩ | ⟨h, _⟩ | ⟨_, h⟩ | ⟨h, _⟩)
            · exact absurd h hrange
            · exact absurd h hc
            · cases h
            · exact absurd h hc
        | true =>
          simp only [Bool.not_true, Bool.false_eq_true, if_false]
          have := open_negative (o := readWork (pieceName index.toNat)) (s := ⟨fs, m⟩) (fates := fates) begin_ 0 hl rfl
          unfold getFromPiece
          rw [this]
          constructor
          · rintro (h | h)
            · exact absurd h (nopanic _)
            · exact .inr (.inr (.inl ⟨hc, h⟩))
          · rintro (⟨_, h⟩ | ⟨h, _⟩ | ⟨_, h⟩ | ⟨h, _⟩)
            · exact absurd h hrange
            · exact absurd h hc
            · exact .inr h
            · exact absurd h hc

/-- The same request, before and after the torrent is complete. -/
example : (runOp (getBlock Ex.single 2 0 1) (run Ex.single [(.start, [])] World.empty) []).1 = .panic ∧
    (runOp (getBlock Ex.multi 2 0 1) (run Ex.multi Ex.both World.empty) []).1 = .err .incompleteRead := ⟨by kernel_rfl, by kernel_rfl⟩

/-- A negative length for a piece that is missing, and for one that is there. -/
example : (runOp (getBlock Ex.single 0 0 (-1)) (run Ex.single [(.start, []), (.put 1 0 [5, 6], [])] World.empty) []).1 = .err .incompletePiece ∧
    (runOp (getBlock Ex.single 1 0 (-1)) (run Ex.single [(.start, []), (.put 1 0 [5, 6], [])] World.empty) []).1 = .panic := ⟨by kernel_rfl, by kernel_rfl⟩

end Drip.Storage
