import Verif.Props.Storage
/-
C76, exactly: which blocks of reported pieces can be read.
-/

namespace Drip.Storage
open Bencode Metainfo

variable {cfg : Cfg}

theorem lookup_some_iff {n : Bytes} {l : List (Bytes × Bytes)} : (∃ d, lookup n l = some d) ↔ n ∈ l.map (·.1) := by
  induction l with
  | nil => simp [lookup]
  | cons x l ih =>
    obtain ⟨k, v⟩ := x
    unfold lookup
    split
    · rename_i h
      simp_all
    · rename_i h
      rw [ih]
      simp only [List.map_cons, List.mem_cons]
      exact ⟨.inr, fun h' => h'.resolve_left (fun e => h (by simp [e]))⟩

/-- The file of piece `i` is in the work directory. -/
def InWork (fs : FS) (i : Nat) : Prop := ∃ l, fs.work = some l ∧ pieceName i ∈ l.map (·.1)

theorem inWork_iff {fs : FS} {i : Nat} : InWork fs i ↔ ∃ d, W fs i d := by
  constructor
  · rintro ⟨l, h1, h2⟩
    obtain ⟨d, hd⟩ := lookup_some_iff.mpr h2
    exact ⟨d, l, h1, hd⟩
  · rintro ⟨d, l, h1, h2⟩
    exact ⟨l, h1, lookup_some_iff.mp ⟨d, h2⟩⟩

theorem wp_getFromPiece_gone {s : Sys} {i : Nat} (hw : ¬ ∃ d, W s.fs i d) {begin_ length : Int} :
    wp A (getFromPiece i begin_ length) ⟨fun _ _ => False, fun _ s' => s' = s, fun _ => False, fun _ => True⟩ s := by
  unfold getFromPiece
  exact wp_rob wp_readWork (fun c hc => absurd ⟨c, hc⟩ hw) (fun _ _ => rfl) trivial

/-- **C76**, exactly. After every history, a block of a piece that is reported can be read (if the os does nothing wrong) if and only if the torrent has completed in this process or the file of the piece is still in the
work directory. Otherwise GetBlock returns an error, changes nothing, and the target is there already: a restart makes the piece available again (C40). -/
theorem C76_exactly_partial (hu : Usable cfg) (es : List (Event × List Fate)) {m : Mem} (hm : (run cfg es World.empty).mem = some m)
    (hd : cfg.info.files ≠ [] → (cfg.info.files.map (·.path)).Nodup ∧ (∀ f ∈ cfg.info.files, 0 ≤ f.length))
    (hpl : 0 ≤ cfg.info.pieceLength) (i : Nat) (hi : Reported m i) {begin_ length : Int} (hb : 0 ≤ begin_) (hl : 0 ≤ length)
    (hfit : begin_ + length ≤ cfg.info.getPieceLength i) (fates : List Fate) (hf : ∀ f ∈ fates, f = .ok) :
    let world := run cfg es World.empty
    let out := runOp (getBlock cfg i begin_ length) world fates
    (TorrentResult m none ∨ InWork world.fs i → ∃ r, out = (.ok r, world)) ∧
    (¬ (TorrentResult m none ∨ InWork world.fs i) → (∃ e, out = (.err e, world)) ∧ ∃ t, world.fs.target = some t) := by
  have hs := reach hu es hm
  have hc := (reported_iff hs).mp hi
  obtain ⟨hin, hdata⟩ := complete_hasData hs hc
  have herr : m.futs[m.err]? = some (if m.coalesced then some none else none) := hs.2.errFut
  have hres : TorrentResult m none ↔ m.coalesced = true := by
    unfold TorrentResult
    rw [herr]
    cases m.coalesced <;> simp
  intro world out
  by_cases hco : m.coalesced = true
  · have hr := hres.mpr hco
    refine ⟨fun _ => ?_, fun hn => absurd (.inl hr) hn⟩
    exact C76_available_partial hu es hm hd (fun _ => hr) hpl i hi hb hl hfit fates hf
  · have hnr : ¬ TorrentResult m none := fun h => hco (hres.mp h)
    have hhead : ∀ Q : Post Bytes, wp AllOk (getFromPiece i begin_ length) Q ⟨world.fs, m⟩ → wp AllOk (getBlock cfg i begin_ length) Q ⟨world.fs, m⟩ := by
      intro Q hQ
      unfold getBlock
      refine wp_bind (wp_getMem ?_)
      show wp AllOk (if m.coalesced = true then _ else _) _ _
      rw [if_neg hco]
      obtain ⟨p, hp, hpc⟩ := hc
      refine wp_bind (wp_getPiece ?_ ?_)
      · intro j q hj hq
        have : i = j := by omega
        subst this
        have hq : m.pieces[i]? = some q := hq
        rw [hp] at hq; cases hq
        show wp AllOk (if (!p.coalesced) = true then _ else _) _ _
        rw [hpc, if_neg (by simp)]
        exact hQ
      · intro hor
        have hlt : i < m.pieces.length := (List.getElem?_eq_some_iff.mp hp).1
        have hor : (i : Int) < 0 ∨ (m.pieces.length : Int) ≤ i := hor
        exfalso
        omega
    have hsame : (⟨world.fs, some m⟩ : World) = world := by
      rw [← show world.mem = some m from hm]
    constructor
    · intro h
      obtain ⟨d, hw⟩ := inWork_iff.mp (h.resolve_left hnr)
      have hlen := (hw.verified hs.1).2
      have hwp := hhead _ (wp_getFromPiece_works (A := AllOk) (s := ⟨world.fs, m⟩) hw hb hl (by omega))
      rcases runOp_of_wp hm (wp_and hwp (nc_getBlock i begin_ length _ allOk_noCrash ⟨world.fs, m⟩)) fates hf with ⟨r, s', h1, h2, _⟩ | ⟨_, _, _, h, _⟩ | ⟨_, _, h, _⟩ | ⟨_, _, _, h⟩
      · have h2 : s' = ⟨world.fs, m⟩ := h2.2
        refine ⟨r, ?_⟩
        show runOp _ _ _ = _
        rw [h1, h2, ← hsame]
      · exact (noFail h).elim
      · exact h.elim
      · exact h.elim
    · intro h
      have hw : ¬ ∃ d, W world.fs i d := fun hw => h (.inr (inWork_iff.mpr hw))
      refine ⟨?_, ?_⟩
      · have hwp := hhead _ (wp_getFromPiece_gone (A := AllOk) (s := ⟨world.fs, m⟩) hw (begin_ := begin_) (length := length))
        rcases runOp_of_wp hm (wp_and hwp (nc_getBlock i begin_ length _ allOk_noCrash ⟨world.fs, m⟩)) fates hf with ⟨_, _, _, h, _⟩ | ⟨e, s', h1, h2, _⟩ | ⟨_, _, h, _⟩ | ⟨_, _, _, h⟩
        · exact h.elim
        · have h2 : s' = ⟨world.fs, m⟩ := h2
          refine ⟨e, ?_⟩
          show runOp _ _ _ = _
          rw [h1, h2, ← hsame]
        · exact h.elim
        · exact h.elim
      · rcases hdata with ht | hw'
        · exact Option.ne_none_iff_exists'.mp ht
        · obtain ⟨l, d, h1, h2⟩ := hw'
          exact absurd ⟨d, l, h1, h2⟩ hw

/-- Piece 0 is gone from the work directory and piece 1 is not: the removal of the directory failed halfway. -/
example : ∃ m, (run Ex.single Ex.halfway World.empty).mem = some m ∧ Reported m 0 ∧ Reported m 1 ∧ ¬ TorrentResult m none ∧ ¬ InWork (run Ex.single Ex.halfway World.empty).fs 0 ∧
    InWork (run Ex.single Ex.halfway World.empty).fs 1 ∧ (runOp (getBlock Ex.single 0 0 4) (run Ex.single Ex.halfway World.empty) []).1 = .err .fs ∧
    (runOp (getBlock Ex.single 1 0 2) (run Ex.single Ex.halfway World.empty) []).1 = .ok [5, 6] := by
  obtain ⟨m, h1, h2, h3⟩ := Ex.of_is (o := (run Ex.single Ex.halfway World.empty).mem) (b := [192]) (t := none) (by kernel_rfl)
  have hwork : (run Ex.single Ex.halfway World.empty).fs.work.map (fun l => l.map (·.1)) = some [pieceName 1] := by kernel_rfl
  cases hw : (run Ex.single Ex.halfway World.empty).fs.work with
  | none => rw [hw] at hwork; cases hwork
  | some l =>
    rw [hw] at hwork
    have hwork : l.map (·.1) = [pieceName 1] := Option.some.inj hwork
    refine ⟨m, h1, ?_, ?_, ?_, ?_, ⟨l, hw, by rw [hwork]; exact List.mem_singleton_self _⟩, by kernel_rfl, by kernel_rfl⟩
    · unfold Reported; rw [h2]; rfl
    · unfold Reported; rw [h2]; rfl
    · intro h
      unfold TorrentResult at h
      rw [h3] at h
      cases h
    · rintro ⟨l', k1, k2⟩
      rw [hw] at k1
      cases k1
      rw [hwork] at k2
      revert k2
      decide

end Drip.Storage
