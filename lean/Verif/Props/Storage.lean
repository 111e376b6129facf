import Verif.Lemmas.StorageDisk
import Verif.Lemmas.StorageStart
import Verif.Model.KernelRfl
/-
Properties C38–C47, C53, C75 of /repo/storage, one call at a time.

A history is a list of events (a new process calling `New`, calls of Load, PutBlock, GetBlock, ResetPiece), each with the
fates of the os calls it makes: success, failure, or the process dying right there. Histories start with empty
directories. What can be observed: `Bitfield.has` on the bitfield, the results of the calls, the value delivered to the
future behind `Piece.Wait`/`Torrent.Wait`, and the disk.
-/

namespace Drip.Storage
open Metainfo Spec

variable {cfg : Cfg}

/-! ### Observations -/

/-- The bitfield says that piece `i` is there. -/
def Reported (m : Mem) (i : Nat) : Prop := Bitfield.has m.bitfield i = .ok true

instance (m : Mem) (i : Nat) : Decidable (Reported m i) := inferInstanceAs (Decidable (_ = _))

/-- `Piece.Wait` of piece `i` has returned, or will return without blocking, this error (`none` is nil). -/
def PieceResult (m : Mem) (i : Nat) (e : Option Err) : Prop := ∃ p, m.pieces[i]? = some p ∧ m.futs[p.fut]? = some (some e)

/-- `Torrent.Wait` returns this error. -/
def TorrentResult (m : Mem) (e : Option Err) : Prop := m.futs[m.err]? = some (some e)

/-- `d` is on disk for piece `i`, and its SHA-1 and length are those of the piece: in the piece's own file, or as part of the
finished target. -/
def OnDisk (cfg : Cfg) (fs : FS) (i : Nat) (d : Bytes) : Prop :=
  Verified cfg.sha1 cfg.info i d ∧ (d.length : Int) = cfg.info.getPieceLength i ∧
  ((∃ l, fs.work = some l ∧ lookup (pieceName i) l = some d) ∨
    ∃ t ds, fs.target = some t ∧ Holds cfg.info ds.flatten t ∧ Contents cfg.sha1 cfg.info ds ∧ ds[i]? = some d)

/-- The block of piece `index` at `begin_` is one of the blocks of 16 KiB (the last may be shorter) that make up the piece. -/
def IsBlock (info : Info) (index begin_ len : Int) : Prop :=
  0 ≤ index ∧ index < info.pieces.length ∧ 0 ≤ begin_ ∧ begin_ < info.getPieceLength index ∧ begin_ % 16384 = 0 ∧
  len = min 16384 (info.getPieceLength index - begin_)

/-! ### Links between the invariant and observations -/

theorem reported_iff {s : Sys} (h : SInv cfg s) {i : Nat} : Reported s.mem i ↔ Complete s.mem i := by
  have hb : Bitfield.bit s.mem.bitfield i = true ↔ Complete s.mem i := h.2.bf i
  unfold Reported
  by_cases hi : i < 8 * s.mem.bitfield.length
  · rw [Bitfield.has_nat _ _ hi, ← hb]; simp
  · constructor
    · intro hr
      have := (Bitfield.pos_nat i)
      simp only [Bitfield.has, this] at hr
      rw [if_neg (by omega), Int.toNat_natCast, List.getElem?_eq_none (by omega)] at hr
      cases hr
    · rintro ⟨p, hp, hc⟩
      exfalso
      have h1 := (List.getElem?_eq_some_iff.mp hp).1
      have h2 := h.2.len
      have h3 := h.2.bfLen
      have h4 := (Bitfield.new_length cfg.info.pieces.length).2
      omega

theorem onDisk_iff {fs : FS} (h : FSInv cfg fs) {i : Nat} (hi : i < cfg.info.pieces.length) : (∃ d, OnDisk cfg fs i d) ↔ HasData fs i := by
  constructor
  · rintro ⟨d, _, _, ⟨l, h1, h2⟩ | ⟨t, ds, h1, _⟩⟩
    · exact .inr ⟨l, d, h1, h2⟩
    · exact .inl (by rw [h1]; simp)
  · rintro (h1 | ⟨l, d, h1, h2⟩)
    · obtain ⟨t, ht⟩ := Option.ne_none_iff_exists'.mp h1
      obtain ⟨ds, g1, g2, _⟩ := (h.target t ht).holds
      have hd := List.getElem?_eq_getElem (l := ds) (i := i) (by rw [g1.1]; exact hi)
      obtain ⟨e1, e2⟩ := g1.2 i _ hd
      exact ⟨_, e1, e2, .inr ⟨t, ds, ht, g2, g1, hd⟩⟩
    · obtain ⟨e1, e2⟩ := lookup_verified h h1 h2
      exact ⟨d, e1, e2, .inl ⟨l, h1, h2⟩⟩

theorem pieceResult_nil_iff {s : Sys} (h : SInv cfg s) {i : Nat} : PieceResult s.mem i none ↔ Complete s.mem i := by
  constructor
  · rintro ⟨p, hp, hf⟩
    refine ⟨p, hp, ?_⟩
    cases hc : p.coalesced with
    | true => rfl
    | false => exact absurd hf ((h.2.piece i p hp).open_ hc)
  · rintro ⟨p, hp, hc⟩
    exact ⟨p, hp, ((h.2.piece i p hp).done hc).1⟩

theorem complete_hasData {s : Sys} (h : SInv cfg s) {i : Nat} (hc : Complete s.mem i) : i < cfg.info.pieces.length ∧ HasData s.fs i := by
  obtain ⟨p, hp, hc⟩ := hc
  have := (List.getElem?_eq_some_iff.mp hp).1
  rw [h.2.len] at this
  exact ⟨this, ((h.2.piece i p hp).done hc).2.2⟩

theorem reach (hu : Usable cfg) (es : List (Event × List Fate)) {m : Mem} (hm : (run cfg es World.empty).mem = some m) :
    SInv cfg ⟨(run cfg es World.empty).fs, m⟩ :=
  ⟨(run_inv hu es empty_inv).1, (run_inv hu es empty_inv).2 m hm⟩

/-- The lengths of the pieces add up to the length of the torrent. -/
theorem contents_length {sha1 : Bytes → Bytes} {info : Info} {ds : List Bytes} (h : Contents sha1 info ds) (hn : info.pieces ≠ []) :
    (ds.flatten.length : Int) = info.getLength := by
  have hn0 : 0 < info.pieces.length := List.length_pos_iff.mpr hn
  have hk : ∀ k, k + 1 ≤ ds.length → (((ds.take k).flatten.length : Nat) : Int) = k * info.pieceLength := by
    intro k
    induction k with
    | zero => intro _; simp
    | succ k ih =>
      intro hk
      have hlt : k < ds.length := by omega
      rw [List.take_add_one, List.getElem?_eq_getElem hlt]
      have h1 := (h.2 k _ (List.getElem?_eq_getElem hlt)).2
      rw [Info.getPieceLength, if_neg (by have := h.1; omega)] at h1
      simp only [Option.toList_some, List.flatten_append, List.length_append, List.flatten_cons, List.flatten_nil, List.append_nil]
      have := ih (by omega)
      push_cast
      rw [this, h1, Int.add_mul, Int.one_mul]
  have hlt : ds.length - 1 < ds.length := by have := h.1; omega
  have h2 := hk (ds.length - 1) (by omega)
  have h3 := (h.2 (ds.length - 1) _ (List.getElem?_eq_getElem hlt)).2
  have hlast : (((ds.length - 1 : Nat) : Int)) = (info.pieces.length : Int) - 1 := by have := h.1; omega
  rw [Info.getPieceLength, if_pos hlast] at h3
  have h4 : ds = ds.take (ds.length - 1) ++ [ds[ds.length - 1]] := by
    conv => lhs; rw [← List.take_append_drop (ds.length - 1) ds]
    rw [List.drop_eq_getElem_cons hlt, List.drop_eq_nil_of_le (by omega)]
  rw [h4]
  simp only [List.flatten_append, List.length_append, List.flatten_cons, List.flatten_nil, List.append_nil]
  push_cast
  rw [h2, h3]
  omega

theorem fileStart_all (files : List File) (h : ∀ f ∈ files, 0 ≤ f.length) : (fileStart files files.length : Int) = sumLengths files := by
  induction files with
  | nil => rfl
  | cons f fs ih =>
    have h1 := ih (fun g hg => h g (by simp [hg]))
    have h2 := h f (by simp)
    simp only [fileStart, List.take_length, List.map_cons, List.sum_cons, sumLengths] at h1 ⊢
    omega

/-- A range inside a piece lies inside the torrent. -/
theorem range_fits {sha1 : Bytes → Bytes} {info : Info} {ds : List Bytes} (h : Contents sha1 info ds) (hpl : 0 ≤ info.pieceLength) {i : Nat}
    (hi : i < info.pieces.length) {e : Int} (he : e ≤ info.getPieceLength i) : i * info.pieceLength + e ≤ info.getLength := by
  unfold Info.getPieceLength at he
  split at he
  · omega
  · have hlt : info.pieces.length - 1 < ds.length := by rw [h.1]; omega
    have h3 := (h.2 (info.pieces.length - 1) _ (List.getElem?_eq_getElem hlt)).2
    have hlast : (((info.pieces.length - 1 : Nat) : Int)) = (info.pieces.length : Int) - 1 := by omega
    rw [Info.getPieceLength, if_pos hlast, hlast] at h3
    have : ((i : Int) + 1) * info.pieceLength ≤ ((info.pieces.length : Int) - 1) * info.pieceLength := Int.mul_le_mul_of_nonneg_right (by omega) hpl
    have h5 : ((i : Int) + 1) * info.pieceLength = i * info.pieceLength + info.pieceLength := by rw [Int.add_mul, Int.one_mul]
    omega

theorem finished_holds (info : Info) (X : Bytes) : Holds info X (finished info X) := by
  unfold finished
  by_cases h : info.files = []
  · rw [if_pos h]; exact ⟨h, rfl⟩
  · rw [if_neg h]; exact ⟨h, place_tree _ _⟩

/-! ### A concrete torrent -/

namespace Ex
/-- Two pieces of 4 and 2 bytes. The "hash" is the identity. -/
def single : Cfg := { info := { pieceLength := 4, pieces := [[1, 2, 3, 4], [5, 6]], name := [120], length := 6 }, sha1 := id }

/-- The same content in three files. -/
def multi : Cfg :=
  { info := { pieceLength := 4, pieces := [[1, 2, 3, 4], [5, 6]], name := [120], files := [⟨1, [[97]], []⟩, ⟨0, [[98]], []⟩, ⟨5, [[99]], []⟩] }
    sha1 := id }

theorem usable : Usable single := ⟨rfl, by decide⟩
theorem usable_multi : Usable multi := ⟨rfl, by decide⟩

/-- Both pieces arrive. -/
def both : List (Event × List Fate) := [(.start, []), (.put 1 0 [5, 6], []), (.put 0 0 [1, 2, 3, 4], [])]
end Ex

/-- For the examples: what holds of the memory of a concrete history, by evaluation. -/
theorem mem_of_any {o : Option Mem} {p : Mem → Bool} (h : o.any p = true) : ∃ m, o = some m ∧ p m = true := by
  cases o with
  | none => cases h
  | some m => exact ⟨m, rfl, h⟩

/-- The bitfield is `b` and the torrent's future has the value `t`. -/
def Ex.is (b : Bytes) (t : Option (Option Err)) (m : Mem) : Bool := m.bitfield == b && m.futs[m.err]? == some t

theorem Ex.of_is {o : Option Mem} {b : Bytes} {t : Option (Option Err)} (h : o.any (Ex.is b t) = true) : ∃ m, o = some m ∧ m.bitfield = b ∧ m.futs[m.err]? = some t := by
  obtain ⟨m, h1, h2⟩ := mem_of_any h
  simp only [Ex.is, Bool.and_eq_true, beq_iff_eq] at h2
  exact ⟨m, h1, h2⟩

/-! ### C38 -/

/-- C38. After every history, a piece that is reported complete has data with the right hash on disk. -/
theorem C38_verified (hu : Usable cfg) (es : List (Event × List Fate)) {m : Mem} (hm : (run cfg es World.empty).mem = some m) (i : Nat)
    (h : Reported m i ∨ PieceResult m i none ∨ TorrentResult m none ∧ i < cfg.info.pieces.length) : ∃ d, OnDisk cfg (run cfg es World.empty).fs i d := by
  have hs := reach hu es hm
  have hc : Complete m i := by
    rcases h with h | h | ⟨h, hi⟩
    · exact (reported_iff hs).mp h
    · exact (pieceResult_nil_iff hs).mp h
    · have he : m.futs[m.err]? = some (if m.coalesced then some none else none) := hs.2.errFut
      unfold TorrentResult at h
      rw [he] at h
      have hc : m.coalesced = true := by
        cases hc : m.coalesced with
        | true => rfl
        | false => rw [hc] at h; simp at h
      have hl : m.pieces.length = cfg.info.pieces.length := hs.2.len
      have hi' : i < m.pieces.length := by rw [hl]; exact hi
      exact ⟨_, List.getElem?_eq_getElem hi', (hs.2.all hc).2 _ (List.getElem_mem hi')⟩
  obtain ⟨h1, h2⟩ := complete_hasData hs hc
  exact (onDisk_iff hs.1 h1).mpr h2

/-- Wrong data for piece 0, then right data for piece 1. -/
def Ex.wrong : List (Event × List Fate) := [(.start, []), (.put 0 0 [1, 2, 3, 9], []), (.put 1 0 [5, 6], [])]

/-- Only piece 1 is reported. -/
example : ∃ m, (run Ex.single Ex.wrong World.empty).mem = some m ∧ Reported m 1 ∧ ¬ Reported m 0 ∧
    (run Ex.single Ex.wrong World.empty).fs = ⟨none, some [(b!"1.piece", [5, 6])]⟩ := by
  obtain ⟨m, h1, h2, h3⟩ := Ex.of_is (o := (run Ex.single Ex.wrong World.empty).mem) (b := [64]) (t := none) (by kernel_rfl)
  refine ⟨m, h1, ?_, ?_, by kernel_rfl⟩
  · unfold Reported; rw [h2]; rfl
  · unfold Reported; rw [h2]
    intro h
    have : (Res.ok false : Res Bool) = .ok true := h
    cases this

/-! ### C39 -/

/-- C39. Whenever GetBlock succeeds, the bytes are the requested part of verified data on disk. -/
theorem C39_right_bytes (hu : Usable cfg) (es : List (Event × List Fate)) {m : Mem} (hm : (run cfg es World.empty).mem = some m)
    (index begin_ length : Int) (fates : List Fate)
    (hd : cfg.info.files ≠ [] → (cfg.info.files.map (·.path)).Nodup ∧ (∀ f ∈ cfg.info.files, 0 ≤ f.length) ∧ 0 ≤ index * cfg.info.pieceLength + begin_)
    {r : Bytes} {w : World} (h : runOp (getBlock cfg index begin_ length) (run cfg es World.empty) fates = (.ok r, w)) :
    w = run cfg es World.empty ∧ (r.length : Int) = length ∧
    ((0 ≤ begin_ ∧ ∃ (i : Nat) (d : Bytes), index = i ∧ OnDisk cfg w.fs i d ∧ r = slice d begin_.toNat length.toNat) ∨
      (TorrentResult m none ∧ 0 ≤ index * cfg.info.pieceLength + begin_ ∧ ∃ t ds, w.fs.target = some t ∧ Holds cfg.info ds.flatten t ∧ Contents cfg.sha1 cfg.info ds ∧
        r = slice ds.flatten (index * cfg.info.pieceLength + begin_).toNat length.toNat)) := by
  have hs := reach hu es hm
  have hw := wp_any (wp_getBlock (A := fun _ => True) hs index begin_ length hd) fates
  generalize run cfg es World.empty = w0 at *
  unfold runOp at h
  rw [hm] at h
  dsimp only at h
  rcases hr : getBlock cfg index begin_ length ⟨w0.fs, m⟩ fates with ⟨o, s', f'⟩
  rw [hr] at hw h
  cases o with
  | ok r' =>
    simp only [Prod.mk.injEq, Out.ok.injEq] at h
    obtain ⟨rfl, rfl⟩ := h
    obtain ⟨⟨h1, h2, h3, h4⟩, hs'⟩ := hw
    have hs' : s' = ⟨w0.fs, m⟩ := hs'
    subst hs'
    refine ⟨by cases w0; simp_all, by omega, ?_⟩
    cases hc : m.coalesced with
    | false =>
      obtain ⟨hb, i, d, g1, g2, g3, g4, g5⟩ := h3 hc
      exact .inl ⟨hb, i, d, g1, ⟨g3, g4, .inl g2⟩, g5⟩
    | true =>
      obtain ⟨ho, t, ds, g1, g2, g3, g4⟩ := h4 hc
      refine .inr ⟨?_, ho, t, ds, g1, g2, g3, g4⟩
      have he : m.futs[m.err]? = some (if m.coalesced then some none else none) := hs.2.errFut
      rw [hc] at he
      exact he
  | err e => simp at h
  | panic => simp at h
  | crash => simp at h

/-! ### C76 -/

/-- C76 (partial: except between a failed removal of the work directory and the next restart). Blocks of reported pieces can be
read: GetBlock fails only if the os does, and does not panic. What it returns is the subject of C39. -/
theorem C76_available_partial (hu : Usable cfg) (es : List (Event × List Fate)) {m : Mem} (hm : (run cfg es World.empty).mem = some m)
    (hd : cfg.info.files ≠ [] → (cfg.info.files.map (·.path)).Nodup ∧ (∀ f ∈ cfg.info.files, 0 ≤ f.length))
    (hdone : (run cfg es World.empty).fs.target ≠ none → TorrentResult m none)
    (hpl : 0 ≤ cfg.info.pieceLength) (i : Nat) (hi : Reported m i) {begin_ length : Int} (hb : 0 ≤ begin_) (hl : 0 ≤ length)
    (hfit : begin_ + length ≤ cfg.info.getPieceLength i) (fates : List Fate) (hf : ∀ f ∈ fates, f = .ok) :
    ∃ r, runOp (getBlock cfg i begin_ length) (run cfg es World.empty) fates = (.ok r, run cfg es World.empty) := by
  have hs := reach hu es hm
  have hc := (reported_iff hs).mp hi
  obtain ⟨hin, hdata⟩ := complete_hasData hs hc
  generalize run cfg es World.empty = w0 at *
  suffices hwp : wp AllOk (getBlock cfg i begin_ length) ⟨fun _ s' => s' = ⟨w0.fs, m⟩, fun _ _ => False, fun _ => False, fun _ => True⟩ ⟨w0.fs, m⟩ by
    rcases runOp_of_wp hm (wp_and hwp (nc_getBlock i begin_ length _ allOk_noCrash ⟨w0.fs, m⟩)) fates hf with ⟨r, s', h1, h2, _⟩ | ⟨_, _, _, h, _⟩ | ⟨_, _, h, _⟩ | ⟨_, _, _, h⟩
    · have h2 : s' = ⟨w0.fs, m⟩ := h2
      refine ⟨r, ?_⟩
      rw [h1, h2]
      cases w0
      simp_all
    · exact h.elim
    · exact h.elim
    · exact h.elim
  unfold getBlock
  refine wp_bind (wp_getMem ?_)
  show wp AllOk (if m.coalesced = true then _ else _) _ _
  by_cases hco : m.coalesced = true
  · rw [if_pos hco]
    obtain ⟨t, ht⟩ := Option.ne_none_iff_exists'.mp (hs.2.all hco).1
    have ht : w0.fs.target = some t := ht
    obtain ⟨ds, hcon, hh, hfs⟩ := (hs.1.target t ht).holds
    have hlen := contents_length hcon (by intro e; rw [e] at hin; simp at hin)
    have hrange := range_fits hcon hpl hin hfit
    have hoff : 0 ≤ i * cfg.info.pieceLength := Int.mul_nonneg (by omega) hpl
    by_cases hfe : cfg.info.files ≠ []
    · rw [if_pos hfe]
      cases t with
      | file c => exact absurd hh.1 hfe
      | dir l =>
        have hnd : DistinctPaths cfg.info := (hd hfe).1
        refine wp_mono (wp_getMulti (s := ⟨w0.fs, m⟩) ht ds.flatten i begin_ length (by omega) (hfs hfe) (fun k f hk => hh.2.lookup k f hk (hnd.last k)) (hd hfe).2) ?_ ?_ ?_ ?_
        · rintro _ s' ⟨_, rfl⟩; rfl
        · rintro _ s' ⟨_, h | h⟩
          · exact noFail h
          · rw [fileStart_all _ (hd hfe).2] at h
            rw [Info.getLength, if_pos hfe] at hrange
            show False
            omega
        · rintro s' ⟨_, h⟩; show False; omega
        · intro _ _; trivial
    · rw [if_neg hfe]
      cases t with
      | dir l => exact absurd hh.1 hfe
      | file c =>
        obtain ⟨_, rfl⟩ := hh
        refine wp_mono (wp_getSingle_works (s := ⟨w0.fs, m⟩) ht (by omega) hl (by omega)) ?_ (fun _ _ h => noFail h) (fun _ h => h) (fun _ h => h)
        rintro _ s' ⟨_, rfl⟩; rfl
  · rw [if_neg hco]
    obtain ⟨p, hp, hpc⟩ := hc
    refine wp_bind (wp_getPiece ?_ ?_)
    · intro j q hj hq
      have : i = j := by omega
      subst this
      have hq : m.pieces[i]? = some q := hq
      rw [hp] at hq; cases hq
      show wp AllOk (if (!p.coalesced) = true then _ else _) _ _
      rw [hpc, if_neg (by simp)]
      rcases hdata with ht | ⟨l, d, h1, h2⟩
      · have he : m.futs[m.err]? = some (if m.coalesced then some none else none) := hs.2.errFut
        have hd := hdone ht
        unfold TorrentResult at hd
        rw [he, if_neg hco] at hd
        cases hd
      · have hlen := (lookup_verified hs.1 h1 h2).2
        refine wp_mono (wp_getFromPiece_works (s := ⟨w0.fs, m⟩) ⟨l, h1, h2⟩ hb hl (by omega)) ?_ (fun _ _ h => noFail h) (fun _ h => h) (fun _ h => h)
        rintro _ s' ⟨_, rfl⟩; rfl
    · intro hor
      have := (List.getElem?_eq_some_iff.mp hp).1
      have hor : (i : Int) < 0 ∨ (m.pieces.length : Int) ≤ i := hor
      show False
      omega

/-- Both pieces are there; removing the work directory after the target file is in place fails halfway. -/
def Ex.halfway : List (Event × List Fate) :=
  [(.start, []), (.put 1 0 [5, 6], []), (.put 0 0 [1, 2, 3, 4], List.replicate 12 .ok ++ [.fail [pieceName 0]])]

/-- C76 is false in general: after a failed removal of the work directory a piece that is reported cannot be read. -/
theorem C76_available_refuted : ∃ m, (run Ex.single Ex.halfway World.empty).mem = some m ∧ Reported m 0 ∧
    (runOp (getBlock Ex.single 0 0 4) (run Ex.single Ex.halfway World.empty) []).1 = .err .fs := by
  obtain ⟨m, h1, h2, h3⟩ := Ex.of_is (o := (run Ex.single Ex.halfway World.empty).mem) (b := [192]) (t := none) (by kernel_rfl)
  refine ⟨m, h1, ?_, by kernel_rfl⟩
  unfold Reported; rw [h2]; rfl

/-- The hypotheses of `C76_available_partial` with one piece there, and with all. -/
example : runOp (getBlock Ex.single 1 1 1) (run Ex.single [(.start, []), (.put 1 0 [5, 6], [])] World.empty) [] =
    (.ok [6], run Ex.single [(.start, []), (.put 1 0 [5, 6], [])] World.empty) := by kernel_rfl
example : (runOp (getBlock Ex.multi 0 0 4) (run Ex.multi Ex.both World.empty) []).1 = .ok [1, 2, 3, 4] := by kernel_rfl
example : ∃ m, (run Ex.multi Ex.both World.empty).mem = some m ∧ TorrentResult m none ∧ Reported m 0 := by
  obtain ⟨m, h1, h2, h3⟩ := Ex.of_is (o := (run Ex.multi Ex.both World.empty).mem) (b := [192]) (t := some none) (by kernel_rfl)
  refine ⟨m, h1, h3, ?_⟩
  unfold Reported; rw [h2]; rfl

/-! ### C40 -/

/-- The history `es`, then a new process that calls Load. -/
def reload (cfg : Cfg) (es : List (Event × List Fate)) (fates : List Fate) : Out Unit × World :=
  runOp (load cfg) (step cfg (run cfg es World.empty) .start []) fates

theorem reload_spec (hu : Usable cfg) (es : List (Event × List Fate)) (fates : List Fate) :
    (∃ s, reload cfg es fates = (.ok (), ⟨s.fs, some s.mem⟩) ∧ SInv cfg s ∧ (∀ i, i < cfg.info.pieces.length → (Complete s.mem i ↔ HasData (run cfg es World.empty).fs i)) ∧
        s.mem.downloaded = diskSize cfg (run cfg es World.empty).fs) ∨
    (∃ e s, reload cfg es fates = (.err e, ⟨s.fs, some s.mem⟩) ∧ SInv cfg s) ∨ ∃ fs, reload cfg es fates = (.crash, ⟨fs, none⟩) ∧ FSInv cfg fs := by
  have hs : SInv cfg ⟨(run cfg es World.empty).fs, newMem cfg.info⟩ := ⟨(run_inv hu es empty_inv).1, newMem_inv _⟩
  rcases runOp_of_wp (w := step cfg (run cfg es World.empty) .start []) rfl (wp_load (A := fun _ => True) hu hs) fates (fun _ _ => trivial) with
    ⟨_, s, h1, h2, h3, h4⟩ | ⟨e, s, h1, h2⟩ | ⟨s, _, _, h2⟩ | ⟨s, h1, h2⟩
  · refine .inl ⟨s, h1, h2, ?_, by rw [h4]; exact Int.zero_add _⟩
    intro i hi
    rw [h3 i hi]
    constructor
    · rintro (⟨p, hp, hc⟩ | h)
      · obtain ⟨_, rfl⟩ := newMem_get hp; cases hc
      · exact h
    · exact .inr
  · exact .inr (.inl ⟨e, s, h1, h2⟩)
  · exact absurd (newMem_fresh cfg.info) h2
  · exact .inr (.inr ⟨s.fs, h1, h2⟩)

/-- C40 (nothing false). After every history, in a process that just started, Load does not panic whatever the os does, and afterwards
every piece reported has verified data on disk. -/
theorem C40_load_sound (hu : Usable cfg) (es : List (Event × List Fate)) (fates : List Fate) :
    (reload cfg es fates).1 ≠ .panic ∧ ∀ m, (reload cfg es fates).2.mem = some m → ∀ i, Reported m i → ∃ d, OnDisk cfg (reload cfg es fates).2.fs i d := by
  have key : ∀ s, SInv cfg s → ∀ i, Reported s.mem i → ∃ d, OnDisk cfg s.fs i d := by
    intro s hs i hi
    obtain ⟨h1, h2⟩ := complete_hasData hs ((reported_iff hs).mp hi)
    exact (onDisk_iff hs.1 h1).mpr h2
  rcases reload_spec hu es fates with ⟨s, h, hs, _⟩ | ⟨e, s, h, hs⟩ | ⟨fs, h, _⟩ <;> rw [h]
  · exact ⟨by simp, fun m hm => by cases hm; exact key s hs⟩
  · exact ⟨by simp, fun m hm => by cases hm; exact key s hs⟩
  · exact ⟨by simp, fun m hm => by cases hm⟩

/-- C40 (nothing lost). If Load succeeds it reports every piece that has verified data on disk, in particular every piece
that was reported at any earlier time, in whatever process. -/
theorem C40_nothing_lost (hu : Usable cfg) (es : List (Event × List Fate)) (fates : List Fate) {w : World} {m : Mem}
    (h : reload cfg es fates = (.ok (), w)) (hm : w.mem = some m) :
    (∀ i, i < cfg.info.pieces.length → ((∃ d, OnDisk cfg (run cfg es World.empty).fs i d) ↔ Reported m i)) ∧
    ∀ es1 es2 m1 i, es = es1 ++ es2 → (run cfg es1 World.empty).mem = some m1 → Reported m1 i → Reported m i := by
  have hfs := (run_inv hu es empty_inv).1
  rcases reload_spec hu es fates with ⟨s, h', hs, hc, _⟩ | ⟨e, s, h', _⟩ | ⟨fs, h', _⟩ <;> rw [h'] at h
  · cases h
    cases hm
    have key : ∀ i, i < cfg.info.pieces.length → ((∃ d, OnDisk cfg (run cfg es World.empty).fs i d) ↔ Reported s.mem i) := by
      intro i hi
      rw [onDisk_iff hfs hi, reported_iff hs, hc i hi]
    refine ⟨key, ?_⟩
    intro es1 es2 m1 i he hm1 hr
    have hs1 := reach hu es1 hm1
    obtain ⟨g1, g2⟩ := complete_hasData hs1 ((reported_iff hs1).mp hr)
    rw [reported_iff hs, hc i g1, he]
    have happ : ∀ (a b : List (Event × List Fate)) (w : World), run cfg (a ++ b) w = run cfg b (run cfg a w) := by
      intro a
      induction a with
      | nil => intro b w; rfl
      | cons x a ih => intro b w; exact ih b _
    rw [happ]
    exact run_kept es2 _ i g2
  · cases h
  · cases h

/-- C40 (the disk). After every history, the target, if it exists, is made of verified contents of all pieces, and every file in the work
directory is the file of a piece and holds verified data. -/
theorem C40_disk (hu : Usable cfg) (es : List (Event × List Fate)) :
    (∀ t, (run cfg es World.empty).fs.target = some t → ∃ ds, Contents cfg.sha1 cfg.info ds ∧ Holds cfg.info ds.flatten t) ∧
    ∀ l, (run cfg es World.empty).fs.work = some l → ∀ x ∈ l, ∃ i, x.1 = pieceName i ∧ Verified cfg.sha1 cfg.info i x.2 := by
  have hfs := (run_inv hu es empty_inv).1
  refine ⟨fun t ht => ?_, fun l hl x hx => ?_⟩
  · obtain ⟨ds, h1, h2, _⟩ := (hfs.target t ht).holds
    exact ⟨ds, h1, h2⟩
  · obtain ⟨i, h1, h2, _⟩ := hfs.work l hl x hx
    exact ⟨i, h1, h2⟩

/-- The process dies while the second piece is being renamed into place; the new process finds the first piece. -/
def Ex.dies : List (Event × List Fate) := [(.start, []), (.put 1 0 [5, 6], []), (.put 0 0 [1, 2, 3, 4], List.replicate 4 .ok ++ [.crash []])]

example : (run Ex.single Ex.dies World.empty).mem = none ∧ (reload Ex.single Ex.dies []).1 = .ok () ∧
    ∃ m, (reload Ex.single Ex.dies []).2.mem = some m ∧ Reported m 1 := by
  refine ⟨by kernel_rfl, by kernel_rfl, ?_⟩
  obtain ⟨m, h1, h2, h3⟩ := Ex.of_is (o := (reload Ex.single Ex.dies []).2.mem) (b := [64]) (t := none) (by kernel_rfl)
  refine ⟨m, h1, ?_⟩
  unfold Reported; rw [h2]; rfl

/-- The process dies after the target is in place, while the work directory is being removed; the new process finds everything. -/
def Ex.diesLate : List (Event × List Fate) :=
  [(.start, []), (.put 1 0 [5, 6], []), (.put 0 0 [1, 2, 3, 4], List.replicate 12 .ok ++ [.crash [pieceName 0]])]

example : (run Ex.single Ex.diesLate World.empty).fs = ⟨some (.file [1, 2, 3, 4, 5, 6]), some [(pieceName 1, [5, 6])]⟩ ∧
    ((reload Ex.single Ex.diesLate []).2.mem.map (·.bitfield)) = some [192] := ⟨by kernel_rfl, by kernel_rfl⟩

/-! ### C41 -/

/-- C41. `X` is the content of the torrent, piece by piece: the pieces have the right hashes and lengths and are not empty, there is at
least one, the name is a file name, and the files (if any) have names and fit into the content. Put all blocks of all
pieces, in any order, any number of times each, in a fresh process, the os never failing. Then every call returns nil or ErrBlockExists,
and at the end the torrent is complete and the target holds exactly the content. -/
theorem C41_completes {X : List Bytes} (hO : Original cfg X) (ds : List Delivery) (hd : ∀ d ∈ ds, d.Of X ∧ ∀ f ∈ d.fates, f = .ok)
    (hall : ∀ (i k : Nat) (x : Bytes), X[i]? = some x → k * 16384 < x.length → ∃ d ∈ ds, d.piece = i ∧ d.block = k) :
    ∃ m t, run cfg ((.start, []) :: ds.map (Delivery.event X)) World.empty = ⟨⟨some t, none⟩, some m⟩ ∧ Holds cfg.info X.flatten t ∧
      TorrentResult m none ∧ ∀ i, i < cfg.info.pieces.length → Reported m i ∧ PieceResult m i none := by
  have h0 : SInv cfg ⟨⟨none, none⟩, newMem cfg.info⟩ := ⟨(empty_inv (cfg := cfg)).1, newMem_inv _⟩
  obtain ⟨fs, m, h1, h2, h3, h4, _⟩ := run_exact hO ds h0 (newMem_exact hO) hd
  have hc : m.coalesced = true := held_all hO h2 h3 (fun i k x hx hk => by
    obtain ⟨d, hd, rfl, rfl⟩ := hall i k x hx hk
    exact h4 d hd)
  have ht : fs.target = some (finished cfg.info X.flatten) := by
    have ht : fs.target = if m.coalesced then some (finished cfg.info X.flatten) else none := h3.target
    rw [hc] at ht; exact ht
  have hw : fs.work = none := h3.gone hc
  refine ⟨m, finished cfg.info X.flatten, ?_, finished_holds _ _, ?_, ?_⟩
  · show run cfg (ds.map (Delivery.event X)) ⟨⟨none, none⟩, some (newMem cfg.info)⟩ = _
    rw [h1]
    cases fs
    simp_all
  · have he : m.futs[m.err]? = some (if m.coalesced then some none else none) := h2.2.errFut
    rw [hc] at he; exact he
  · intro i hi
    have hl : m.pieces.length = cfg.info.pieces.length := h2.2.len
    have hi' : i < m.pieces.length := by rw [hl]; exact hi
    have : Complete m i := ⟨_, List.getElem?_eq_getElem hi', (h2.2.all hc).2 _ (List.getElem_mem hi')⟩
    exact ⟨(reported_iff h2).mpr this, (pieceResult_nil_iff h2).mpr this⟩

/-- C41. The results of the calls: after any such deliveries (not necessarily of all blocks) one more returns nil or ErrBlockExists. -/
theorem C41_results {X : List Bytes} (hO : Original cfg X) (ds : List Delivery) (hd : ∀ d ∈ ds, d.Of X ∧ ∀ f ∈ d.fates, f = .ok)
    {i k : Nat} {x : Bytes} (hx : X[i]? = some x) (hk : k * 16384 < x.length) (fates : List Fate) (hf : ∀ f ∈ fates, f = .ok) :
    (runOp (putBlock cfg i (k * 16384 : Nat) (slice x (k * 16384) 16384)) (run cfg ((.start, []) :: ds.map (Delivery.event X)) World.empty) fates).1 = .ok () ∨
    (runOp (putBlock cfg i (k * 16384 : Nat) (slice x (k * 16384) 16384)) (run cfg ((.start, []) :: ds.map (Delivery.event X)) World.empty) fates).1 = .err .blockExists := by
  have h0 : SInv cfg ⟨⟨none, none⟩, newMem cfg.info⟩ := ⟨(empty_inv (cfg := cfg)).1, newMem_inv _⟩
  obtain ⟨fs, m, h1, h2, h3, h4, _⟩ := run_exact hO ds h0 (newMem_exact hO) hd
  have h1 : run cfg ((.start, []) :: ds.map (Delivery.event X)) World.empty = ⟨fs, some m⟩ := h1
  rw [h1]
  rcases runOp_of_wp (w := ⟨fs, some m⟩) rfl (wp_and (wp_put_exact hO h2 h3 hx hk) (nc_putBlock (cfg := cfg) i (k * 16384 : Nat) (blockOf x k) _ allOk_noCrash ⟨fs, m⟩)) fates hf with
    ⟨_, _, h, _⟩ | ⟨_, _, h, h', _⟩ | ⟨_, _, h, _⟩ | ⟨_, _, _, h⟩
  · left; exact congrArg Prod.fst h
  · right; rw [← h'.1]; exact congrArg Prod.fst h
  · exact h.elim
  · exact h.elim

/-- The hypotheses are met: two pieces and files; the blocks arrive in reverse order, one of them twice. -/
theorem Ex.original : Original Ex.single [[1, 2, 3, 4], [5, 6]] := by
  refine ⟨⟨rfl, ?_⟩, by decide, by decide, by decide, by decide, by decide⟩
  intro i d hd
  match i, hd with
  | 0, hd => cases hd; exact ⟨rfl, by decide⟩
  | 1, hd => cases hd; exact ⟨rfl, by decide⟩

theorem Ex.original_multi : Original Ex.multi [[1, 2, 3, 4], [5, 6]] := by
  refine ⟨⟨rfl, ?_⟩, by decide, by decide, by decide, by decide, by decide⟩
  intro i d hd
  match i, hd with
  | 0, hd => cases hd; exact ⟨rfl, by decide⟩
  | 1, hd => cases hd; exact ⟨rfl, by decide⟩

example : (run Ex.single ((.start, []) :: [⟨1, 0, []⟩, ⟨1, 0, []⟩, ⟨0, 0, []⟩].map (Delivery.event [[1, 2, 3, 4], [5, 6]])) World.empty).fs =
    ⟨some (.file [1, 2, 3, 4, 5, 6]), none⟩ := by kernel_rfl
example : (run Ex.multi ((.start, []) :: [⟨1, 0, []⟩, ⟨1, 0, []⟩, ⟨0, 0, []⟩].map (Delivery.event [[1, 2, 3, 4], [5, 6]])) World.empty).fs =
    ⟨some (.dir [([[97]], [1]), ([[98]], []), ([[99]], [2, 3, 4, 5, 6])]), none⟩ := by kernel_rfl

/-! ### C42 -/

theorem isBlock_grid {info : Info} {index begin_ len : Int} (h : IsBlock info index begin_ len) :
    OnGrid info index begin_ ∧ checkBlockSize info index begin_ len = .ok () := by
  obtain ⟨h1, h2, h3, h4, h5, h6⟩ := h
  refine ⟨⟨h1, h2, h3, h4⟩, ?_⟩
  have := check_grid info index (begin_ / 16384).toNat len (by omega) (by omega)
  rw [← this]
  congr 1
  omega

theorem held_piece {s : Sys} (h : SInv cfg s) {i k : Nat} (hi : i < cfg.info.pieces.length) (hh : Held s.mem i k) : ∃ p, s.mem.pieces[i]? = some p ∧ p.held k := by
  rcases hh with hc | hh
  · have hi' : i < s.mem.pieces.length := by rw [h.2.len]; exact hi
    exact ⟨_, List.getElem?_eq_getElem hi', .inl ((h.2.all hc).2 _ (List.getElem_mem hi'))⟩
  · exact hh

/-- A call that returns an error and changes nothing. -/
theorem unchanged_run {α : Type} {p : Op α} {w : World} {m : Mem} (hm : w.mem = some m) {e : Err}
    (h : wp (fun _ => True) p ⟨fun _ _ => False, fun e' s' => e' = e ∧ s' = ⟨w.fs, m⟩, fun _ => False, fun _ => False⟩ ⟨w.fs, m⟩) (f : List Fate) : runOp p w f = (.err e, w) := by
  rcases runOp_of_wp hm h f (fun _ _ => trivial) with ⟨_, s, _, h2⟩ | ⟨_, s, h1, h2, h3⟩ | ⟨s, _, h2⟩ | ⟨s, _, h2⟩
  · exact h2.elim
  · rw [h1, h2, h3]; cases w; simp_all
  · exact h2.elim
  · exact h2.elim

theorem dup_run {w : World} {m : Mem} (hm : w.mem = some m) (hs : SInv cfg ⟨w.fs, m⟩) {i : Nat} {begin_ : Int} {data : Bytes} (hg : OnGrid cfg.info i begin_)
    (hck : checkBlockSize cfg.info i begin_ data.length = .ok ()) (hh : Held m i (begin_.toNat / 16384)) (f : List Fate) :
    runOp (putBlock cfg i begin_ data) w f = (.err .blockExists, w) :=
  unchanged_run hm (wp_put_dup (A := fun _ => True) hs hg hck hh) f

/-- C42. A block of a piece that has been accepted once, by a call that returned nil, is refused with ErrBlockExists
whatever happened since (unless the piece was reset or the process restarted), and nothing changes; so are the
blocks of reported pieces and of complete torrents. -/
theorem C42_accepted (hu : Usable cfg) (es es' : List (Event × List Fate)) (i : Nat) (begin_ : Int) (data data' : Bytes) (fates fates' : List Fate) {w : World}
    (hb : IsBlock cfg.info i begin_ data'.length) (h : runOp (putBlock cfg i begin_ data) (run cfg es World.empty) fates = (.ok (), w))
    (hes : ∀ x ∈ es', x.1 ≠ .start ∧ x.1 ≠ .reset i) (hlive : (run cfg es' w).mem ≠ none) :
    runOp (putBlock cfg i begin_ data') (run cfg es' w) fates' = (.err .blockExists, run cfg es' w) := by
  obtain ⟨hg, hck⟩ := isBlock_grid hb
  have hin : i < cfg.info.pieces.length := by have := hg.2.1; omega
  have hw0 := run_inv hu es (empty_inv (cfg := cfg))
  have hwi : WInv cfg w := by
    have := step_inv hu hw0 (.put i begin_ data) fates
    rw [step, h] at this; exact this
  obtain ⟨m0, hm0⟩ : ∃ m0, (run cfg es World.empty).mem = some m0 := by
    cases hm : (run cfg es World.empty).mem with
    | some m => exact ⟨m, rfl⟩
    | none => rw [runOp, hm] at h; cases h
  obtain ⟨m1, hm1, hh1⟩ : ∃ m1, w.mem = some m1 ∧ Held m1 i (begin_.toNat / 16384) := by
    rcases runOp_of_wp hm0 (wp_put_held (A := fun _ => True) (data := data) ⟨hw0.1, hw0.2 m0 hm0⟩ hg) fates (fun _ _ => trivial) with ⟨_, s, h1, _, h2⟩ | ⟨_, s, h1, _⟩ | ⟨s, h1, _⟩ | ⟨s, h1, _⟩ <;> rw [h1] at h
    · cases h; exact ⟨_, rfl, h2⟩
    · cases h
    · cases h
    · cases h
  have hwi' := run_inv hu es' hwi
  obtain ⟨m2, hm2⟩ := Option.ne_none_iff_exists'.mp hlive
  obtain ⟨p, hp, hph⟩ := held_piece (s := ⟨w.fs, m1⟩) ⟨hwi.1, hwi.2 m1 hm1⟩ hin hh1
  obtain ⟨q, hq, _, hqh⟩ := run_grows (X := fun n => n ≠ i) es' (fun x hx => by
    obtain ⟨h1, h2⟩ := hes x hx
    cases hxe : x.1 with
    | start => exact absurd hxe h1
    | reset j => intro n hn e; rw [hxe, hn, e] at h2; exact h2 rfl
    | load => trivial
    | put _ _ _ => trivial
    | get _ _ _ => trivial) hm1 hm2 i p hp
  exact dup_run hm2 ⟨hwi'.1, hwi'.2 m2 hm2⟩ hg hck (.inr ⟨q, hq, hqh (by simp) _ hph⟩) _

/-- C42 for reported pieces. -/
theorem C42_reported (hu : Usable cfg) (es : List (Event × List Fate)) {m : Mem} (hm : (run cfg es World.empty).mem = some m) (i : Nat) (begin_ : Int) (data : Bytes)
    (hb : IsBlock cfg.info i begin_ data.length) (h : Reported m i) (fates : List Fate) :
    runOp (putBlock cfg i begin_ data) (run cfg es World.empty) fates = (.err .blockExists, run cfg es World.empty) := by
  obtain ⟨hg, hck⟩ := isBlock_grid hb
  have hs := reach hu es hm
  obtain ⟨p, hp, hc⟩ := (reported_iff hs).mp h
  exact dup_run hm hs hg hck (.inr ⟨p, hp, .inl hc⟩) _

example : (runOp (putBlock Ex.single 1 0 [7, 8]) (run Ex.single [(.get 0 0 4, []), (.reset 0, [])] (run Ex.single [(.start, []), (.put 1 0 [5, 6], [])] World.empty)) []).1 =
    .err .blockExists := by kernel_rfl

/-! ### C43 -/

/-- C43 is false: a piece of 16384 bytes, and an empty block at its end. -/
theorem C43_no_panic_refuted : ∃ (cfg : Cfg) (es : List (Event × List Fate)) (index begin_ : Int) (data : Bytes), 0 ≤ index ∧ index < cfg.info.pieces.length ∧
    (runOp (putBlock cfg index begin_ data) (run cfg es World.empty) []).1 = .panic :=
  ⟨{ info := { pieceLength := 16384, pieces := [[]], name := [120], length := 16384 }, sha1 := id }, [(.start, [])], 0, 16384, [], by decide, by decide, by kernel_rfl⟩

/-- C43 is false: a full block after the end of the piece. -/
theorem C43_after_end_refuted : (runOp (putBlock Ex.single 0 16384 (List.replicate 16384 0)) (run Ex.single [(.start, [])] World.empty) []).1 = .panic := by
  kernel_rfl

/-- C43 is false: a negative offset, and an index that is not a piece. -/
theorem C43_index_refuted : (runOp (putBlock Ex.single 0 (-16384) (List.replicate 16384 0)) (run Ex.single [(.start, [])] World.empty) []).1 = .panic ∧
    (runOp (putBlock Ex.single 2 16384 (List.replicate 16384 0)) (run Ex.single [(.start, [])] World.empty) []).1 = .panic ∧
    (runOp (putBlock Ex.single (-1) 16384 (List.replicate 16384 0)) (run Ex.single [(.start, [])] World.empty) []).1 = .panic := 
  ⟨by kernel_rfl, by kernel_rfl, by kernel_rfl⟩

/-- C43 (partial: the index and the offset must lie inside the torrent and the piece). PutBlock does not panic; if what it is given is not a block of the piece it
returns an error and nothing changes. -/
theorem C43_no_panic_partial (hu : Usable cfg) (es : List (Event × List Fate)) {m : Mem} (hm : (run cfg es World.empty).mem = some m) (index begin_ : Int) (data : Bytes)
    (hi : 0 ≤ index ∧ index < cfg.info.pieces.length) (hb : 0 ≤ begin_ ∧ begin_ < cfg.info.getPieceLength index) (fates : List Fate) :
    (runOp (putBlock cfg index begin_ data) (run cfg es World.empty) fates).1 ≠ .panic ∧
    (¬ IsBlock cfg.info index begin_ data.length → ∃ e, runOp (putBlock cfg index begin_ data) (run cfg es World.empty) fates = (.err e, run cfg es World.empty)) := by
  have hs := reach hu es hm
  have hg : OnGrid cfg.info index begin_ := ⟨hi.1, hi.2, hb.1, hb.2⟩
  refine ⟨?_, ?_⟩
  · rcases runOp_of_wp hm (wp_putBlock (A := fun _ => True) hs index begin_ data) fates (fun _ _ => trivial) with ⟨_, s, h1, _⟩ | ⟨_, s, h1, _⟩ | ⟨s, _, _, h2⟩ | ⟨s, h1, _⟩
    · rw [h1]; simp
    · rw [h1]; simp
    · exact absurd hg h2
    · rw [h1]; simp
  · intro hn
    have hck : ∃ e, checkBlockSize cfg.info index begin_ data.length = .err e := by
      rw [checkBlockSize_eq]
      by_cases h1 : begin_.tmod 16384 ≠ 0
      · exact ⟨_, if_pos h1⟩
      · rw [if_neg h1]
        refine ⟨.blockLength, if_pos fun h2 => hn ⟨hi.1, hi.2, hb.1, hb.2, ?_, ?_⟩⟩
        · rw [Int.tmod_eq_emod_of_nonneg hb.1] at h1; omega
        · rw [← h2, Int.tdiv_eq_ediv_of_nonneg (by omega)]
          rw [Int.tmod_eq_emod_of_nonneg hb.1] at h1
          split <;> omega
    obtain ⟨e, hck⟩ := hck
    refine ⟨e, ?_⟩
    have hw : wp (fun _ => True) (putBlock cfg index begin_ data) ⟨fun _ _ => False, fun e' s' => e' = e ∧ s' = ⟨(run cfg es World.empty).fs, m⟩, fun _ => False, fun _ => False⟩ ⟨(run cfg es World.empty).fs, m⟩ := by
      unfold putBlock
      refine wp_bind (wp_lift ?_)
      rw [hck]
      exact ⟨rfl, rfl⟩
    exact unchanged_run hm hw fates

/-- An offset off the grid and a block that is too short are errors. -/
example : (runOp (putBlock Ex.single 0 1 [2]) (run Ex.single [(.start, [])] World.empty) []).1 = .err .misaligned ∧
    (runOp (putBlock Ex.single 0 0 [2]) (run Ex.single [(.start, [])] World.empty) []).1 = .err .blockLength := ⟨by kernel_rfl, by kernel_rfl⟩

/-- The number of bytes that is expected at an offset, whatever the offset: the rest of the piece behind its last multiple of 16 KiB, 16 KiB everywhere else. -/
def WellSized (info : Info) (index begin_ len : Int) : Prop :=
  begin_ % 16384 = 0 ∧ len = if begin_ = 16384 * (info.getPieceLength index).tdiv 16384 then info.getPieceLength index - begin_ else 16384

theorem wellSized_iff {info : Info} {index begin_ len : Int} : WellSized info index begin_ len ↔ checkBlockSize info index begin_ len = .ok () := by
  have hmod : begin_.tmod 16384 = 0 ↔ begin_ % 16384 = 0 := by
    rw [← Int.dvd_iff_tmod_eq_zero, ← Int.dvd_iff_emod_eq_zero]
  rw [checkBlockSize_eq]
  unfold WellSized
  by_cases h1 : begin_.tmod 16384 ≠ 0
  · rw [if_pos h1]
    exact ⟨fun h => absurd (hmod.2 h.1) h1, fun h => by cases h⟩
  · rw [if_neg h1]
    simp only [ne_eq, Classical.not_not] at h1
    by_cases h2 : (if begin_ = 16384 * (info.getPieceLength index).tdiv 16384 then info.getPieceLength index - begin_ else 16384) ≠ len
    · rw [if_pos h2]
      exact ⟨fun h => absurd h.2.symm h2, fun h => by cases h⟩
    · rw [if_neg h2]
      simp only [ne_eq, Classical.not_not] at h2
      exact ⟨fun _ => rfl, fun _ => ⟨hmod.1 h1, h2.symm⟩⟩

theorem numBlocks_le {info : Info} {i : Nat} {begin_ : Int} {len : Nat} (hck : checkBlockSize info i begin_ len = .ok ()) (hb : 0 ≤ begin_) (h : info.getPieceLength i ≤ begin_) :
    numBlocks info i ≤ begin_.tdiv 16384 := by
  obtain ⟨h1, h2, h3⟩ := check_ok hck hb
  rw [h2]
  unfold gridLen at h3
  unfold numBlocks blockLength
  simp only
  generalize info.getPieceLength i = pl at *
  by_cases hp : 0 ≤ pl
  · rw [Int.tdiv_eq_ediv_of_nonneg hp, Int.tmod_eq_emod_of_nonneg hp]
    split <;> omega
  · have e1 := Int.mul_tdiv_add_tmod pl 16384
    have e2 : pl.tmod 16384 ≤ 0 := by
      have := Int.tmod_eq_emod_of_nonneg (a := -pl) (b := 16384) (by omega)
      rw [Int.neg_tmod] at this
      have := Int.emod_nonneg (-pl) (b := 16384) (by omega)
      omega
    have e3 : -16384 < pl.tmod 16384 := by
      have := Int.tmod_eq_emod_of_nonneg (a := -pl) (b := 16384) (by omega)
      rw [Int.neg_tmod] at this
      have := Int.emod_lt_of_pos (-pl) (b := 16384) (by omega)
      omega
    generalize pl.tmod 16384 = r at *
    generalize pl.tdiv 16384 = q at *
    split
    · by_cases hq : q = 0
      · subst hq
        split at h3
        · omega
        · omega
      · omega
    · omega

/-- C43, exactly: PutBlock panics on data of the expected size if and only if the torrent is not complete, the index or the offset lies outside, and the piece (if it is one) is not complete.
Missing: that it returns an error then. -/
theorem C43_exactly_partial (hu : Usable cfg) (es : List (Event × List Fate)) {m : Mem} (hm : (run cfg es World.empty).mem = some m) (index begin_ : Int) (data : Bytes) (fates : List Fate) :
    (runOp (putBlock cfg index begin_ data) (run cfg es World.empty) fates).1 = .panic ↔
      ¬TorrentResult m none ∧ WellSized cfg.info index begin_ data.length ∧
      (index < 0 ∨ cfg.info.pieces.length ≤ index ∨ (¬Reported m index.toNat ∧ (begin_ < 0 ∨ cfg.info.getPieceLength index ≤ begin_))) := by
  have hs := reach hu es hm
  have hco : TorrentResult m none ↔ m.coalesced = true := by
    have he : m.futs[m.err]? = some (if m.coalesced then some none else none) := hs.2.errFut
    unfold TorrentResult
    rw [he]
    cases m.coalesced <;> simp
  have hlen : m.pieces.length = cfg.info.pieces.length := hs.2.len
  rw [hco, wellSized_iff]
  constructor
  · intro hp
    have hgrid : ¬OnGrid cfg.info index begin_ := by
      rcases runOp_of_wp hm (wp_putBlock (A := fun _ => True) hs index begin_ data) fates (fun _ _ => trivial) with ⟨_, s, h1, _⟩ | ⟨_, s, h1, _⟩ | ⟨s, _, _, h2⟩ | ⟨s, h1, _⟩
      · rw [h1] at hp; cases hp
      · rw [h1] at hp; cases hp
      · exact h2
      · rw [h1] at hp; cases hp
    have hno : ∀ e, ¬wp (fun _ => True) (putBlock cfg index begin_ data) ⟨fun _ _ => False, fun e' _ => e' = e, fun _ => False, fun _ => False⟩ ⟨(run cfg es World.empty).fs, m⟩ := by
      intro e hw
      rcases runOp_of_wp hm hw fates (fun _ _ => trivial) with ⟨_, s, h1, h⟩ | ⟨_, s, h1, _⟩ | ⟨s, _, h⟩ | ⟨s, h1, h⟩
      · exact h
      · rw [h1] at hp; cases hp
      · exact h
      · exact h
    have hck : checkBlockSize cfg.info index begin_ data.length = .ok () := by
      cases hck : checkBlockSize cfg.info index begin_ data.length with
      | ok u => rfl
      | panic => exact absurd hck checkBlockSize_noPanic
      | err e =>
        refine absurd ?_ (hno e)
        unfold putBlock
        refine wp_bind (wp_lift ?_)
        rw [hck]
        exact rfl
    have hnc : ¬m.coalesced = true := by
      intro hc
      refine absurd ?_ (hno .blockExists)
      unfold putBlock
      refine wp_bind (wp_lift ?_)
      rw [hck]
      refine wp_bind (wp_getMem ?_)
      show wp _ (if m.coalesced = true then _ else _) _ _
      rw [if_pos hc]
      exact wp_fail rfl
    refine ⟨hnc, hck, ?_⟩
    by_cases h1 : index < 0
    · exact .inl h1
    by_cases h2 : (cfg.info.pieces.length : Int) ≤ index
    · exact .inr (.inl h2)
    refine .inr (.inr ⟨fun hr => ?_, ?_⟩)
    · obtain ⟨p, hpp, hpc⟩ := (reported_iff hs).1 hr
      refine absurd ?_ (hno .blockExists)
      unfold putBlock
      refine wp_bind (wp_lift ?_)
      rw [hck]
      refine wp_bind (wp_getMem ?_)
      show wp _ (if m.coalesced = true then _ else _) _ _
      rw [if_neg hnc]
      refine wp_bind (wp_getPiece ?_ ?_)
      · rintro i q rfl hq
        have hq : m.pieces[i]? = some q := hq
        have hpp : m.pieces[i]? = some p := hpp
        rw [hq] at hpp
        injection hpp with hpp
        subst hpp
        show wp _ (Op.bind (putBlockP cfg.info i q begin_ data) _) _ _
        unfold putBlockP
        rw [if_pos hpc]
        exact wp_bind (wp_fail rfl)
      · intro h
        have h : index < 0 ∨ (m.pieces.length : Int) ≤ index := h
        omega
    · refine Classical.byContradiction fun h => hgrid ⟨by omega, by omega, by omega, by omega⟩
  · rintro ⟨hnc, hck, hout⟩
    have hw : wp (fun _ => True) (putBlock cfg index begin_ data) ⟨fun _ _ => False, fun _ _ => False, fun _ => True, fun _ => False⟩ ⟨(run cfg es World.empty).fs, m⟩ := by
      unfold putBlock
      refine wp_bind (wp_lift ?_)
      rw [hck]
      refine wp_bind (wp_getMem ?_)
      show wp _ (if m.coalesced = true then _ else _) _ _
      rw [if_neg hnc]
      refine wp_bind (wp_getPiece ?_ ?_)
      · rintro i p rfl hp
        have hp : m.pieces[i]? = some p := hp
        have hi := (List.getElem?_eq_some_iff.mp hp).1
        obtain ⟨hnr, hb⟩ : ¬Reported m i ∧ (begin_ < 0 ∨ cfg.info.getPieceLength i ≤ begin_) := by
          rcases hout with h | h | h
          · omega
          · omega
          · exact h
        have hc : ¬p.coalesced = true := fun h => hnr ((reported_iff hs).2 ⟨p, hp, h⟩)
        have hP := hs.2.piece i p hp
        show wp _ (Op.bind (putBlockP cfg.info i p begin_ data) _) _ _
        refine wp_bind ?_
        unfold putBlockP
        rw [if_neg hc]
        refine wp_seq (Q1 := ⟨fun bs s' => s' = ⟨(run cfg es World.empty).fs, m⟩ ∧ ∀ k : Int, 0 ≤ k → numBlocks cfg.info i ≤ k → bs[k.toNat]? = none, fun _ _ => False, fun _ => True, fun _ => False⟩) ?_ ?_
          (fun _ _ h => h.elim) (fun _ h => h) (fun _ h => h.elim)
        · unfold allocBlocks
          cases hb : p.blocks with
          | some bs =>
            refine wp_pure ⟨rfl, fun k h0 hk => ?_⟩
            have := (hP.blocks (by simpa using hc) bs hb).1
            rw [List.getElem?_eq_none_iff]
            omega
          | none =>
            dsimp only
            split
            · exact wp_panic trivial
            · refine wp_pure ⟨rfl, fun k h0 hk => ?_⟩
              rw [List.getElem?_eq_none_iff, List.length_replicate]
              omega
        · rintro bs s0 ⟨rfl, hn⟩
          refine wp_bind (wp_setPiece ?_)
          show wp _ (storeBlock i p bs (begin_.tdiv 16384) data) _ _
          unfold storeBlock
          by_cases hk : begin_.tdiv 16384 < 0
          · rw [if_pos hk]
            exact wp_panic trivial
          · rw [if_neg hk]
            have hb0 : 0 ≤ begin_ := Classical.byContradiction fun hb => hk (check_neg hck (by omega))
            rw [hn _ (by omega) (numBlocks_le hck hb0 (by omega))]
            exact wp_panic trivial
      · intro _; trivial
    rcases runOp_of_wp hm hw fates (fun _ _ => trivial) with ⟨_, s, _, h⟩ | ⟨_, s, _, h⟩ | ⟨s, h, _⟩ | ⟨s, _, h⟩
    · exact h.elim
    · exact h.elim
    · rw [h]
    · exact h.elim

/-- A block behind the end of a piece panics before the piece is complete, and is refused afterwards. -/
example : (runOp (putBlock Ex.single 1 16384 (List.replicate 16384 0)) (run Ex.single [(.start, [])] World.empty) []).1 = .panic ∧
    (runOp (putBlock Ex.single 1 16384 (List.replicate 16384 0)) (run Ex.single [(.start, []), (.put 1 0 [5, 6], [])] World.empty) []).1 = .err .blockExists := ⟨by kernel_rfl, by kernel_rfl⟩

/-! ### C44 -/

theorem exists_last (files : List File) {p : List Bytes} (h : p ∈ files.map (·.path)) : ∃ (k : Nat) (f : File), files[k]? = some f ∧ f.path = p ∧ LastWithPath files k := by
  induction files with
  | nil => cases h
  | cons g fs ih =>
    by_cases hp : p ∈ fs.map (·.path)
    · obtain ⟨k, f, h1, h2, h3⟩ := ih hp
      refine ⟨k + 1, f, h1, h2, fun j a b hj ha hb => ?_⟩
      obtain ⟨j, rfl⟩ : ∃ j', j = j' + 1 := ⟨j - 1, by omega⟩
      exact h3 j a b (by omega) ha hb
    · have : g.path = p := by
        rw [List.map_cons] at h
        exact ((List.mem_cons.1 h).resolve_right hp).symm
      refine ⟨0, g, rfl, this, fun j a b hj ha hb e => ?_⟩
      obtain ⟨j, rfl⟩ : ∃ j', j = j' + 1 := ⟨j - 1, by omega⟩
      cases ha
      exact hp (List.mem_map.2 ⟨b, List.mem_of_getElem? hb, by rw [e, this]⟩)

/-- C44 (layout). Whenever the target of a multi-file torrent exists it is a directory with exactly the files of the torrent, and each (the last of those with
the same path) holds the bytes of the content, verified piece by piece, that follow those of the preceding files. -/
theorem C44_layout (hu : Usable cfg) (es : List (Event × List Fate)) (hm : cfg.info.files ≠ []) {t : Target} (ht : (run cfg es World.empty).fs.target = some t) :
    ∃ l ds, t = .dir l ∧ Contents cfg.sha1 cfg.info ds ∧ fileStart cfg.info.files cfg.info.files.length ≤ ds.flatten.length ∧
      (l.map Prod.fst).Nodup ∧ (∀ p, p ∈ l.map Prod.fst ↔ p ∈ cfg.info.files.map (·.path)) ∧
      ∀ (k : Nat) (f : File), cfg.info.files[k]? = some f → LastWithPath cfg.info.files k →
        (f.path, slice ds.flatten (fileStart cfg.info.files k) f.length.toNat) ∈ l := by
  have h := (run_inv hu es (empty_inv (cfg := cfg))).1.target t ht
  cases t with
  | file c => exact absurd h.1 hm
  | dir l =>
    obtain ⟨_, _, ds, h1, h2, h3⟩ := h
    refine ⟨l, ds, rfl, h1, h2, h3.once, fun p => ⟨fun hp => ?_, fun hp => ?_⟩, h3.each⟩
    · obtain ⟨x, hx, rfl⟩ := List.mem_map.1 hp
      obtain ⟨f, hf, he⟩ := h3.only x hx
      exact List.mem_map.2 ⟨f, hf, he⟩
    · obtain ⟨k, f, hk, rfl, hl⟩ := exists_last _ hp
      exact List.mem_map.2 ⟨_, h3.each k f hk hl, rfl⟩

/-- C44 (reading). Once a multi-file torrent with distinct paths is complete, GetBlock with a range inside the content returns the same
bytes as reading the concatenated content, over any number of files, if the os does not fail. -/
theorem C44_read (hu : Usable cfg) (es : List (Event × List Fate)) {m : Mem} (hm : (run cfg es World.empty).mem = some m) (hdone : TorrentResult m none)
    (hf : cfg.info.files ≠ []) (hd : (cfg.info.files.map (·.path)).Nodup) (hnn : ∀ f ∈ cfg.info.files, 0 ≤ f.length) (index begin_ length : Int)
    (hl : 0 ≤ length) (h0 : 0 ≤ index * cfg.info.pieceLength + begin_)
    (h1 : index * cfg.info.pieceLength + begin_ + length ≤ fileStart cfg.info.files cfg.info.files.length) (fates : List Fate) (hok : ∀ f ∈ fates, f = .ok) :
    ∃ l ds, (run cfg es World.empty).fs.target = some (.dir l) ∧ Contents cfg.sha1 cfg.info ds ∧ Holds cfg.info ds.flatten (.dir l) ∧
      runOp (getBlock cfg index begin_ length) (run cfg es World.empty) fates =
        (.ok (slice ds.flatten (index * cfg.info.pieceLength + begin_).toNat length.toNat), run cfg es World.empty) := by
  have hs := reach hu es hm
  have hco : m.coalesced = true := by
    have he : m.futs[m.err]? = some (if m.coalesced then some none else none) := hs.2.errFut
    unfold TorrentResult at hdone
    rw [hdone] at he
    cases hc : m.coalesced with
    | true => rfl
    | false => rw [hc] at he; cases he
  obtain ⟨t, ht⟩ := Option.ne_none_iff_exists'.mp (hs.2.all hco).1
  obtain ⟨ds, hcon, hh, hfs⟩ := (hs.1.target t ht).holds
  have ht : (run cfg es World.empty).fs.target = some t := ht
  cases t with
  | file c => exact absurd hh.1 hf
  | dir l =>
    refine ⟨l, ds, ht, hcon, hh, ?_⟩
    generalize run cfg es World.empty = w0 at *
    have hnd : DistinctPaths cfg.info := hd
    have hwp : wp AllOk (getBlock cfg index begin_ length) ⟨fun r s' => r = slice ds.flatten (index * cfg.info.pieceLength + begin_).toNat length.toNat ∧ s' = ⟨w0.fs, m⟩,
        fun _ _ => False, fun _ => False, fun _ => True⟩ ⟨w0.fs, m⟩ := by
      unfold getBlock
      refine wp_bind (wp_getMem ?_)
      show wp AllOk (if m.coalesced = true then _ else _) _ _
      rw [if_pos hco, if_pos hf]
      refine wp_mono (wp_getMulti (s := ⟨w0.fs, m⟩) ht ds.flatten index begin_ length h0 (hfs hf) (fun k f hk => hh.2.lookup k f hk (hnd.last k)) hnn) ?_ ?_ ?_ ?_
      · rintro _ s' ⟨⟨_, _, h⟩, rfl⟩; exact ⟨h, rfl⟩
      · rintro _ s' ⟨_, h | h⟩
        · exact noFail h
        · show False; omega
      · rintro s' ⟨_, h⟩; show False; omega
      · intro _ _; trivial
    rcases runOp_of_wp hm (wp_and hwp (nc_getBlock index begin_ length _ allOk_noCrash ⟨w0.fs, m⟩)) fates hok with ⟨r, s', h1, ⟨h2, h3⟩, _⟩ | ⟨_, _, _, h, _⟩ | ⟨_, _, h, _⟩ | ⟨_, _, _, h⟩
    · rw [h1, h2, h3]
      cases w0
      simp_all
    · exact h.elim
    · exact h.elim
    · exact h.elim

/-- A range over all files, one of them empty, and both pieces. -/
example : (runOp (getBlock Ex.multi 0 1 5) (run Ex.multi Ex.both World.empty) []).1 = .ok [2, 3, 4, 5, 6] := by kernel_rfl
example : Ex.multi.info.files ≠ [] ∧ (Ex.multi.info.files.map (·.path)).Nodup ∧ (∀ f ∈ Ex.multi.info.files, 0 ≤ f.length) ∧
    (∃ f ∈ Ex.multi.info.files, f.length = 0) := by decide

/-! ### C45 -/

/-- C45. The bitfield has exactly the pieces that completed, and no bit beyond the last piece; the counter is their number; a complete torrent has all. -/
theorem C45_consistent (hu : Usable cfg) (es : List (Event × List Fate)) {m : Mem} (hm : (run cfg es World.empty).mem = some m) :
    (∀ i, Reported m i ↔ PieceResult m i none) ∧ (∀ i, Reported m i → i < cfg.info.pieces.length) ∧
    m.completePieces = ((List.range cfg.info.pieces.length).countP fun i => decide (Reported m i) : Nat) ∧
    (TorrentResult m none → ∀ i, i < cfg.info.pieces.length → Reported m i) := by
  have hs := reach hu es hm
  have hr : ∀ i, Reported m i ↔ Complete m i := fun i => reported_iff hs
  have hlen : m.pieces.length = cfg.info.pieces.length := hs.2.len
  refine ⟨fun i => (hr i).trans (pieceResult_nil_iff hs).symm, ?_, ?_, ?_⟩
  · intro i hi
    obtain ⟨p, hp, _⟩ := (hr i).mp hi
    have := (List.getElem?_eq_some_iff.mp hp).1
    omega
  · have hc : m.completePieces = (m.pieces.countP (·.coalesced) : Nat) := hs.2.count
    rw [hc, ← hlen]
    congr 1
    have hmap : m.pieces = (List.range m.pieces.length).map fun i => m.pieces[i]?.getD { fut := 0 } := by
      apply List.ext_getElem?
      intro i
      by_cases hi : i < m.pieces.length
      · simp [hi]
      · simp [List.getElem?_eq_none (show m.pieces.length ≤ i by omega), hi]
    conv => lhs; rw [hmap, List.countP_map]
    apply List.countP_congr
    intro i hi
    rw [List.mem_range] at hi
    simp only [Function.comp, decide_eq_true_eq, hr i, Complete, List.getElem?_eq_getElem hi, Option.getD_some, Option.some.injEq]
    exact ⟨fun h => ⟨_, rfl, h⟩, fun ⟨_, h1, h2⟩ => h1 ▸ h2⟩
  · intro ht i hi
    have he : m.futs[m.err]? = some (if m.coalesced then some none else none) := hs.2.errFut
    unfold TorrentResult at ht
    rw [ht] at he
    cases hc : m.coalesced with
    | false => rw [hc] at he; cases he
    | true =>
      have hi' : i < m.pieces.length := by omega
      exact (hr i).mpr ⟨_, List.getElem?_eq_getElem hi', (hs.2.all hc).2 _ (List.getElem_mem hi')⟩

/-- C45 (monotone). As long as the process lives, a reported piece stays reported. -/
theorem C45_monotone (hu : Usable cfg) (es es' : List (Event × List Fate)) {m m' : Mem} (hm : (run cfg es World.empty).mem = some m)
    (hm' : (run cfg es' (run cfg es World.empty)).mem = some m') (hes : ∀ x ∈ es', x.1 ≠ .start) (i : Nat) (h : Reported m i) : Reported m' i := by
  have hs := reach hu es hm
  have hw' := run_inv hu es' (run_inv hu es (empty_inv (cfg := cfg)))
  obtain ⟨p, hp, hc⟩ := (reported_iff hs).mp h
  obtain ⟨q, hq, hqc, _⟩ := run_grows (X := fun _ => True) es' (fun x hx => by
    cases hxe : x.1 with
    | start => exact absurd hxe (hes x hx)
    | reset j => intro _ _; trivial
    | load => trivial
    | put _ _ _ => trivial
    | get _ _ _ => trivial) hm hm' i p hp
  exact (reported_iff (s := ⟨_, m'⟩) ⟨hw'.1, hw'.2 m' hm'⟩).mpr ⟨q, hq, hqc hc⟩

/-- Two pieces; the counter and the bitfield after a wrong block in piece 0 and a right one in piece 1. -/
example : (run Ex.single Ex.wrong World.empty).mem.map (fun m => (m.bitfield, m.completePieces)) = some ([64], 1) := by kernel_rfl

/-! ### C46 -/

/-- C46 is false: resetting a piece that failed its checksum panics. -/
theorem C46_redownload_refuted : (runOp (putBlock Ex.single 0 0 [1, 2, 3, 9]) (run Ex.single [(.start, [])] World.empty) []).1 = .err .checksum ∧
    (runOp (resetPiece 0) (run Ex.single [(.start, []), (.put 0 0 [1, 2, 3, 9], [])] World.empty) []).1 = .panic := ⟨by kernel_rfl, by kernel_rfl⟩

/-- What happens instead, always: after a checksum failure ResetPiece panics and every block of the piece is refused. -/
theorem C46_stuck (hu : Usable cfg) (es : List (Event × List Fate)) (i : Nat) (begin_ : Int) (data : Bytes) (fates : List Fate) {w : World}
    (h : runOp (putBlock cfg i begin_ data) (run cfg es World.empty) fates = (.err .checksum, w)) :
    (∀ f, (runOp (resetPiece i) w f).1 = .panic) ∧
    ∀ b d f, IsBlock cfg.info i b (List.length d) → runOp (putBlock cfg i b d) w f = (.err .blockExists, w) := by
  have hw0 := run_inv hu es (empty_inv (cfg := cfg))
  have hwi : WInv cfg w := by
    have := step_inv hu hw0 (.put i begin_ data) fates
    rw [step, h] at this; exact this
  obtain ⟨m0, hm0⟩ : ∃ m0, (run cfg es World.empty).mem = some m0 := by
    cases hm : (run cfg es World.empty).mem with
    | some m => exact ⟨m, rfl⟩
    | none => rw [runOp, hm] at h; cases h
  obtain ⟨m1, hm1, hst⟩ : ∃ m1, w.mem = some m1 ∧ Stuck m1 i := by
    rcases runOp_of_wp hm0 (wp_put_checksum (A := fun _ => True) (i := i) (begin_ := begin_) (data := data) ⟨hw0.1, hw0.2 m0 hm0⟩) fates (fun _ _ => trivial) with
      ⟨_, s, h1, _⟩ | ⟨_, s, h1, h2⟩ | ⟨s, h1, _⟩ | ⟨s, h1, _⟩ <;> rw [h1] at h
    · cases h
    · cases h; exact ⟨_, rfl, h2 rfl⟩
    · cases h
    · cases h
  refine ⟨fun f => ?_, fun b d f hb => ?_⟩
  · rcases runOp_of_wp hm1 (wp_reset_stuck (A := fun _ => True) (s := ⟨w.fs, m1⟩) hst) f (fun _ _ => trivial) with ⟨_, s, _, h2⟩ | ⟨_, s, _, h2⟩ | ⟨s, h1, _⟩ | ⟨s, _, h2⟩
    · exact h2.elim
    · exact h2.elim
    · rw [h1]
    · exact h2.elim
  · obtain ⟨hg, hck⟩ := isBlock_grid hb
    have hs : SInv cfg ⟨w.fs, m1⟩ := ⟨hwi.1, hwi.2 m1 hm1⟩
    exact dup_run hm1 hs hg hck (held_stuck hs hst hg) f

/-- All blocks of `x`, put as the blocks of piece `i` in the order `ks` (each at least once), complete it. -/
theorem put_all {i : Nat} {x : Bytes} (hv : Verified cfg.sha1 cfg.info i x) (hxl : (x.length : Int) = cfg.info.getPieceLength i) (hx0 : x ≠ []) {w : World} {m : Mem}
    (hm : w.mem = some m) (hs : SInv cfg ⟨w.fs, m⟩) (hE : PExact m i x) (ks : List (Nat × List Fate)) (hks : ∀ k ∈ ks, k.1 * 16384 < x.length ∧ ∀ f ∈ k.2, f = .ok)
    (hall : ∀ k, k * 16384 < x.length → ∃ f, (k, f) ∈ ks) : ∃ m', (run cfg (pieceEvents i x ks) w).mem = some m' ∧ Reported m' i := by
  obtain ⟨fs', m', h1, h2, h3, h4, _⟩ := run_piece hv hxl ks hs hE hks
  have hw : w = ⟨w.fs, some m⟩ := by cases w; simp_all
  rw [hw, h1]
  refine ⟨m', rfl, (reported_iff h2).mpr (piece_all hxl hx0 h2 h3 fun k hk => ?_)⟩
  obtain ⟨f, hf⟩ := hall k hk
  exact h4 _ hf

/-- C46 (partial: a piece for which no error has been delivered yet). ResetPiece and then the correct blocks complete it. -/
theorem C46_reset_partial (hu : Usable cfg) (es : List (Event × List Fate)) {m : Mem} (hm : (run cfg es World.empty).mem = some m) {i : Nat} {x : Bytes}
    (hv : Verified cfg.sha1 cfg.info i x) (hxl : (x.length : Int) = cfg.info.getPieceLength i) (hx0 : x ≠ []) (hopen : ∀ e, ¬ PieceResult m i e) (fates : List Fate)
    (ks : List (Nat × List Fate)) (hks : ∀ k ∈ ks, k.1 * 16384 < x.length ∧ ∀ f ∈ k.2, f = .ok) (hall : ∀ k, k * 16384 < x.length → ∃ f, (k, f) ∈ ks) :
    ∃ m', (run cfg ((.reset i, fates) :: pieceEvents i x ks) (run cfg es World.empty)).mem = some m' ∧ Reported m' i := by
  have hs := reach hu es hm
  have hw0 := run_inv hu es (empty_inv (cfg := cfg))
  have hi : i < m.pieces.length := by
    have h1 : m.pieces.length = cfg.info.pieces.length := hs.2.len
    have := verified_lt hv
    omega
  have hp := List.getElem?_eq_getElem hi
  have hinv := hs.2.piece i _ hp
  have hnot : ∀ e, m.futs[(m.pieces[i]).fut]? ≠ some (some e) := fun e h => hopen e ⟨_, hp, h⟩
  have hc : (m.pieces[i]).coalesced = false := by
    cases hc : (m.pieces[i]).coalesced with
    | false => rfl
    | true => exact absurd (hinv.done hc).1 (hnot none)
  have hf : m.futs[(m.pieces[i]).fut]? = some none := by
    have := hinv.futLt
    cases h : m.futs[(m.pieces[i]).fut]? with
    | none =>
      have := List.getElem?_eq_none_iff.mp h
      have := hinv.futLt
      have h3 : (m.pieces[i]).fut < m.futs.length := this
      omega
    | some o =>
      cases o with
      | none => rfl
      | some e => exact absurd h (hnot e)
  have hw1 := step_inv hu hw0 (.reset i) fates
  show ∃ m', (run cfg (pieceEvents i x ks) (step cfg (run cfg es World.empty) (.reset i) fates)).mem = some m' ∧ Reported m' i
  rcases runOp_of_wp hm (wp_reset_open (A := fun _ => True) (s := ⟨(run cfg es World.empty).fs, m⟩) hp hc hf x) fates (fun _ _ => trivial) with
    ⟨_, s, h1, h2⟩ | ⟨_, s, _, h2⟩ | ⟨s, _, h2⟩ | ⟨s, _, h2⟩
  · have hst : step cfg (run cfg es World.empty) (.reset i) fates = ⟨s.fs, some s.mem⟩ := by rw [step, h1]
    rw [hst] at hw1 ⊢
    exact put_all hv hxl hx0 rfl ⟨hw1.1, hw1.2 _ rfl⟩ h2.1 ks hks hall
  · exact h2.elim
  · exact h2.elim
  · exact h2.elim

/-- The first half of a piece is wrong (nothing is checked yet); after ResetPiece the right blocks complete it. -/
def Ex.long : Cfg := { info := { pieceLength := 32768, pieces := [[0]], name := [120], length := 16385 }, sha1 := fun d => if d.all (· = 0) then [0] else [1] }
example : ((run Ex.long [(.start, []), (.put 0 0 (List.replicate 16384 1), []), (.reset 0, []), (.put 0 16384 [0], []), (.put 0 0 (List.replicate 16384 0), [])] World.empty).mem.map
    (·.bitfield)) = some [128] := by kernel_rfl

/-- C46 (partial: by a restart). After every history, in a new process that called Load successfully, the correct blocks of a
piece complete it. -/
theorem C46_restart_partial (hu : Usable cfg) (es : List (Event × List Fate)) (fates : List Fate) {w : World} (h : reload cfg es fates = (.ok (), w)) {i : Nat} {x : Bytes}
    (hv : Verified cfg.sha1 cfg.info i x) (hxl : (x.length : Int) = cfg.info.getPieceLength i) (hx0 : x ≠ [])
    (ks : List (Nat × List Fate)) (hks : ∀ k ∈ ks, k.1 * 16384 < x.length ∧ ∀ f ∈ k.2, f = .ok) (hall : ∀ k, k * 16384 < x.length → ∃ f, (k, f) ∈ ks) :
    ∃ m', (run cfg (pieceEvents i x ks) w).mem = some m' ∧ Reported m' i := by
  have hw1 : WInv cfg (step cfg (run cfg es World.empty) .start []) := step_inv hu (run_inv hu es (empty_inv (cfg := cfg))) .start []
  have hw : WInv cfg w := by
    have : WInv cfg (reload cfg es fates).2 := step_inv hu hw1 .load fates
    rw [h] at this; exact this
  rcases runOp_of_wp (w := step cfg (run cfg es World.empty) .start []) (m := newMem cfg.info) rfl
      (wp_load_any (A := fun _ => True) (S := fun _ => True) (cfg := cfg) (newMem_linv _) (fun _ _ _ => trivial) (fun _ _ _ _ _ _ => trivial)) fates (fun _ _ => trivial) with
    ⟨_, s, h1, h2⟩ | ⟨_, s, h1, _⟩ | ⟨s, h1, _⟩ | ⟨s, h1, _⟩ <;> rw [reload, h1] at h
  · simp only [Prod.mk.injEq, true_and] at h
    subst h
    have hs : SInv cfg s := ⟨hw.1, hw.2 _ rfl⟩
    refine put_all hv hxl hx0 rfl hs ?_ ks hks hall
    have hi : i < s.mem.pieces.length := by
      have h1 : s.mem.pieces.length = cfg.info.pieces.length := hs.2.len
      have := verified_lt hv
      omega
    have hp := List.getElem?_eq_getElem hi
    refine ⟨_, hp, ?_⟩
    cases hc : (s.mem.pieces[i]).coalesced with
    | true => exact .inl rfl
    | false =>
      have hb : (s.mem.pieces[i]).blocks = none := h2.1 _ (List.getElem_mem hi)
      refine .inr ⟨rfl, ((hs.2.piece i _ hp).noBlocks hc hb).2, fun bs hbs => ?_⟩
      rw [hb] at hbs; cases hbs
  · cases h
  · cases h
  · cases h

/-- A piece that failed its checksum can be completed by the next process. -/
example : (reload Ex.single [(.start, []), (.put 0 0 [1, 2, 3, 9], [])] []).1 = .ok () ∧
    ((run Ex.single [(.put 0 0 [1, 2, 3, 4], [])] (reload Ex.single [(.start, []), (.put 0 0 [1, 2, 3, 9], [])] []).2).mem.map (·.bitfield)) = some [128] :=
  ⟨by kernel_rfl, by kernel_rfl⟩

/-! ### C47 -/

/-- C47 is false: completing a piece does not change Downloaded, and failing one adds its length. -/
theorem C47_downloaded_refuted :
    (run Ex.single Ex.both World.empty).mem.map (fun m => (m.bitfield, m.downloaded)) = some ([192], 0) ∧
    (run Ex.single [(.start, []), (.put 0 0 [1, 2, 3, 9], [])] World.empty).mem.map (fun m => (m.bitfield, m.downloaded)) = some ([0], 4) := ⟨by kernel_rfl, by kernel_rfl⟩

/-- C47 is false even right after Load: for a complete multi-file torrent it is the size of a directory. -/
theorem C47_loaded_refuted : (reload Ex.multi Ex.both []).2.mem.map (fun m => (m.bitfield, m.downloaded)) = some ([192], 4096) := by kernel_rfl

/-- C47 (partial: immediately after Load, except for a complete multi-file torrent). Downloaded is the total length of the pieces reported. -/
theorem C47_loaded_partial (hu : Usable cfg) (es : List (Event × List Fate)) (fates : List Fate) {w : World} {m : Mem} (h : reload cfg es fates = (.ok (), w))
    (hm : w.mem = some m) (hp : cfg.info.pieces ≠ []) (hd : (run cfg es World.empty).fs.target = none ∨ cfg.info.files = []) :
    m.downloaded = ((List.range cfg.info.pieces.length).map fun (i : Nat) => if Reported m i then cfg.info.getPieceLength i else 0).sum := by
  have hfs := (run_inv hu es (empty_inv (cfg := cfg))).1
  rcases reload_spec hu es fates with ⟨s, h', hs, hc, hdl⟩ | ⟨e, s, h', _⟩ | ⟨fs, h', _⟩ <;> rw [h'] at h
  · cases h
    cases hm
    rw [hdl]
    have hr : ∀ i, i < cfg.info.pieces.length → (Reported s.mem i ↔ HasData (run cfg es World.empty).fs i) := fun i hi => (reported_iff hs).trans (hc i hi)
    generalize (run cfg es World.empty).fs = fs at *
    cases ht : fs.target with
    | none =>
      have hsz : diskSize cfg fs = sizes (fs.work.getD []) := by rw [diskSize, ht]
      rw [hsz]
      have h2 : ∀ i, i < cfg.info.pieces.length → (Reported s.mem i ↔ pieceName i ∈ (fs.work.getD []).map Prod.fst) := by
        intro i hi
        rw [hr i hi]
        constructor
        · rintro (h | ⟨l, d, h1, h2⟩)
          · exact absurd ht h
          · rw [h1]; exact List.mem_map.mpr ⟨_, lookup_mem h2, rfl⟩
        · intro h
          cases hw : fs.work with
          | none => rw [hw] at h; simp at h
          | some l =>
            rw [hw] at h
            obtain ⟨x, hx, hxn⟩ := List.mem_map.mp h
            exact .inr ⟨l, x.2, hw, mem_lookup (hfs.nodup l hw) (by rw [← hxn]; exact hx)⟩
      rw [sizes_eq (info := cfg.info)]
      · congr 1
        apply List.map_congr_left
        intro i hi
        have := h2 i (List.mem_range.mp hi)
        by_cases hx : Reported s.mem i
        · rw [if_pos hx, if_pos (this.mp hx)]
        · rw [if_neg hx, if_neg (fun h => hx (this.mpr h))]
      · cases hw : fs.work with
        | none => simp
        | some l => exact hfs.nodup l hw
      · intro x hx
        cases hw : fs.work with
        | none => rw [hw] at hx; simp at hx
        | some l =>
          rw [hw] at hx
          obtain ⟨i, h1, h2, h3⟩ := hfs.work l hw x hx
          exact ⟨i, h1, verified_lt h2, h3⟩
    | some t =>
      have hfe : cfg.info.files = [] := by
        rcases hd with hd | hd
        · rw [hd] at ht; cases ht
        · exact hd
      have hok := hfs.target t ht
      cases t with
      | dir l => exact absurd hfe hok.2.1
      | file c =>
        obtain ⟨_, ds, hcon, rfl⟩ := hok
        rw [diskSize, ht]
        show (ds.flatten.length : Int) = _
        have hall : ∀ i, i < cfg.info.pieces.length → Reported s.mem i := fun i hi => (hr i hi).mpr (.inl (by rw [ht]; simp))
        have hmap : ((List.range cfg.info.pieces.length).map fun (i : Nat) => if Reported s.mem i then cfg.info.getPieceLength i else 0) = ds.map fun d => (d.length : Int) := by
          apply List.ext_getElem?
          intro i
          have hl := hcon.1
          by_cases hi : i < cfg.info.pieces.length
          · have hi' : i < ds.length := by omega
            rw [List.getElem?_map, List.getElem?_map, List.getElem?_range hi, List.getElem?_eq_getElem hi']
            have := (hcon.2 i _ (List.getElem?_eq_getElem hi')).2
            simp only [Option.map_some, if_pos (hall i hi), this]
          · rw [List.getElem?_eq_none (by simp; omega), List.getElem?_eq_none (by simp; omega)]
        rw [hmap]
        clear hmap hall hcon hr hc hs hdl ht hfs
        induction ds with
        | nil => rfl
        | cons d ds ih => simp only [List.flatten_cons, List.length_append, List.map_cons, List.sum_cons, ← ih]; omega
  · cases h
  · cases h

/-- One of two pieces, and the finished file, found by Load. -/
example : (reload Ex.single Ex.dies []).2.mem.map (·.downloaded) = some 2 ∧ (reload Ex.single Ex.both []).2.mem.map (·.downloaded) = some 6 := ⟨by kernel_rfl, by kernel_rfl⟩

/-! ### C53 -/

/-- A new process that calls Load when this is on disk. -/
def loadFrom (cfg : Cfg) (fs : FS) (fates : List Fate) : Out Unit × World := runOp (load cfg) (step cfg ⟨fs, none⟩ .start []) fates

/-- C53 is false: contents are not verified, neither of piece files nor of the target. -/
theorem C53_contents_refuted : (loadFrom Ex.single ⟨none, some [(pieceName 0, [9])]⟩ []).2.mem.map (·.bitfield) = some [128] ∧
    (loadFrom Ex.single ⟨some (.file [9]), none⟩ []).2.mem.map (·.bitfield) = some [192] := ⟨by kernel_rfl, by kernel_rfl⟩

/-- C53 is false: the files `1.piece.bak` and `+1.piece` count as piece 1. -/
theorem C53_names_refuted : (loadFrom Ex.single ⟨none, some [(pieceName 1 ++ b!".bak", [9])]⟩ []).2.mem.map (·.bitfield) = some [64] ∧
    (loadFrom Ex.single ⟨none, some [(b!"+" ++ pieceName 1, [9])]⟩ []).2.mem.map (·.bitfield) = some [64] := ⟨by kernel_rfl, by kernel_rfl⟩

/-- C53 is false: the process dies on the files `2.piece` (there are two pieces) and `-1.piece`, and on two names of the same piece. -/
theorem C53_panic_refuted : (loadFrom Ex.single ⟨none, some [(pieceName 2, [9])]⟩ []).1 = .panic ∧ (loadFrom Ex.single ⟨none, some [(b!"-1.piece", [9])]⟩ []).1 = .panic ∧
    (loadFrom Ex.single ⟨none, some [(pieceName 1, [5, 6]), (pieceName 1 ++ b!"~", [5, 6])]⟩ []).1 = .panic := ⟨by kernel_rfl, by kernel_rfl, by kernel_rfl⟩

/-- C53 (partial: other names are ignored). Whatever is on disk, a piece is reported by Load only if the target exists or there is a file whose name begins
with a number, that of the piece, and `.piece`. -/
theorem C53_names_partial (h1 : cfg.info.name ≠ b!"") (h2 : cfg.info.name ≠ b!".") (h3 : cfg.info.name ≠ b!"..") (fs : FS) (fates : List Fate) {m : Mem} (hm : (loadFrom cfg fs fates).2.mem = some m) (i : Nat) (h : Reported m i) :
    fs.target ≠ none ∨ ∃ l x, fs.work = some l ∧ x ∈ l ∧ LooksLike x.1 i := by
  have hn : trivialName cfg.info.name = false := by simp [trivialName, h1, h2, h3]
  let S : Nat → Prop := fun i => fs.target ≠ none ∨ ∃ l x, fs.work = some l ∧ x ∈ l ∧ LooksLike x.1 i
  have hwp := wp_load_any (A := fun _ => True) (S := S) (cfg := cfg) (s := ⟨fs, newMem cfg.info⟩) (newMem_linv _) (fun h _ _ => by
      rcases h with h | h
      · exact .inl h
      · rw [hn] at h; cases h) (fun l hl x hx i hi => .inr ⟨l, x, hl, hx, sscanf_looksLike hi⟩)
  have key : ∀ m, LInv S m → Reported m i → S i := by
    intro m hL hr
    refine hL.2 i ?_
    unfold Reported at hr
    by_cases hi : i < 8 * m.bitfield.length
    · rw [Bitfield.has_nat _ _ hi] at hr; simpa using hr
    · simp only [Bitfield.has, Bitfield.pos_nat i] at hr
      rw [if_neg (by omega), Int.toNat_natCast, List.getElem?_eq_none (by omega)] at hr
      cases hr
  rcases runOp_of_wp (w := step cfg ⟨fs, none⟩ .start []) (m := newMem cfg.info) rfl hwp fates (fun _ _ => trivial) with ⟨_, s, h1, h2⟩ | ⟨_, s, h1, h2⟩ | ⟨s, h1, _⟩ | ⟨s, h1, _⟩ <;>
    rw [loadFrom, h1] at hm <;> cases hm
  · exact key _ h2 h
  · exact key _ h2 h

/-- Names that do not begin like that. -/
example : (loadFrom Ex.single ⟨none, some [(b!"x0.piece", [9]), (b!"0.part", [9]), (pieceName 1, [5, 6])]⟩ []).2.mem.map (·.bitfield) = some [64] := by kernel_rfl

/-! ### C75 -/

/-- C75 is false: with the name `.` everything is reported although there is nothing. -/
theorem C75_name_refuted : (loadFrom { Ex.single with info := { Ex.single.info with name := [46] } } ⟨none, none⟩ []).2.mem.map (·.bitfield) = some [192] := by kernel_rfl

/-- C75 (partial: except for the names `""`, `.` and `..`; as long as only drip writes to the directories). A piece reported by Load has verified
data on disk. -/
theorem C75_name_partial (hu : Usable cfg) (es : List (Event × List Fate)) (fates : List Fate) {m : Mem} (hm : (reload cfg es fates).2.mem = some m) (i : Nat)
    (h : Reported m i) : ∃ d, OnDisk cfg (reload cfg es fates).2.fs i d := (C40_load_sound hu es fates).2 m hm i h

/-- The process died after the second piece was stored; Load reports this piece, and its data is there. -/
example : (reload Ex.single Ex.dies []).2.mem.map (fun m => decide (Reported m 1)) = some true := by kernel_rfl

end Drip.Storage
