import Verif.Lemmas.StorageResume
import Verif.Lemmas.StorageCount
/-
C127: a download that earlier processes began. C38 for readers.
-/

namespace Drip.Storage
open Metainfo Spec

variable {cfg : Cfg}

theorem step_going {X : List Bytes} (hO : Original cfg X) {fs : FS} {m : Mem} (h : SInv cfg ⟨fs, m⟩) (hE : Going X ⟨fs, m⟩) (d : Delivery) (hd : d.Of X)
    (hf : ∀ x ∈ d.fates, x = .ok) : ∃ fs' m', step cfg ⟨fs, some m⟩ (d.event X).1 (d.event X).2 = ⟨fs', some m'⟩ ∧ SInv cfg ⟨fs', m'⟩ ∧ Going X ⟨fs', m'⟩ ∧
      Held m' d.piece d.block ∧ ∀ i k, Held m i k → Held m' i k := by
  obtain ⟨x, hx, hk⟩ := hd
  have h1 := wp_and (wp_and (wp_put_going hO h hE hx hk) (nc_putBlock (cfg := cfg) d.piece (d.block * 16384 : Nat) (blockOf x d.block) _ allOk_noCrash ⟨fs, m⟩))
    (mono_putBlock (A := AllOk) (X := fun _ => False) (cfg := cfg) d.piece (d.block * 16384 : Nat) (blockOf x d.block) ⟨fs, m⟩ m (Grows.refl m))
  have h2 := (h1 d.fates hf).1
  simp only [Delivery.event, hx, Option.getD_some, step, runOp]
  rcases hr : putBlock cfg d.piece (d.block * 16384 : Nat) (blockOf x d.block) ⟨fs, m⟩ d.fates with ⟨o, s', f'⟩
  rw [hr] at h2
  cases o with
  | ok u =>
    obtain ⟨⟨⟨g1, g2, g3, g4⟩, _⟩, g5⟩ := h2
    exact ⟨s'.fs, s'.mem, rfl, g1, g2, g3, fun i k hk => held_mono g5 (fun e => by have g4 : m.coalesced = false := g4; rw [g4] at e; cases e) hk⟩
  | err e =>
    obtain ⟨⟨⟨_, g1, g2⟩, _⟩, _⟩ := h2
    have g1 : s' = ⟨fs, m⟩ := g1
    rw [g1]
    exact ⟨fs, m, rfl, h, hE, g2, fun _ _ => id⟩
  | panic => exact h2.1.1.elim
  | crash => exact h2.1.2.elim

theorem run_going {X : List Bytes} (hO : Original cfg X) (ds : List Delivery) : ∀ {fs : FS} {m : Mem}, SInv cfg ⟨fs, m⟩ → Going X ⟨fs, m⟩ →
    (∀ d ∈ ds, d.Of X ∧ ∀ x ∈ d.fates, x = .ok) → ∃ fs' m', run cfg (ds.map (Delivery.event X)) ⟨fs, some m⟩ = ⟨fs', some m'⟩ ∧ SInv cfg ⟨fs', m'⟩ ∧
      Going X ⟨fs', m'⟩ ∧ (∀ d ∈ ds, Held m' d.piece d.block) ∧ ∀ i k, Held m i k → Held m' i k := by
  induction ds with
  | nil => intro fs m h hE _; exact ⟨fs, m, rfl, h, hE, by simp, fun _ _ => id⟩
  | cons d ds ih =>
    intro fs m h hE hd
    obtain ⟨fs1, m1, h1, h2, h3, h4, h5⟩ := step_going hO h hE d (hd d (by simp)).1 (hd d (by simp)).2
    obtain ⟨fs2, m2, g1, g2, g3, g4, g5⟩ := ih h2 h3 (fun e he => hd e (by simp [he]))
    refine ⟨fs2, m2, ?_, g2, g3, ?_, fun i k hk => g5 i k (h5 i k hk)⟩
    · rw [List.map_cons, run.eq_def]
      show run cfg _ (step cfg ⟨fs, some m⟩ (d.event X).1 (d.event X).2) = _
      rw [h1]; exact g1
    · intro e he
      rcases List.mem_cons.mp he with rfl | he
      · exact g5 _ _ h4
      · exact g4 e he

/-- If all blocks are held, the torrent is complete. -/
theorem held_going {X : List Bytes} (hO : Original cfg X) {s : Sys} (h : SInv cfg s) (hE : Going X s)
    (hall : ∀ (i k : Nat) (x : Bytes), X[i]? = some x → k * 16384 < x.length → Held s.mem i k) : s.mem.coalesced = true := by
  cases hc : s.mem.coalesced with
  | true => rfl
  | false =>
    exfalso
    obtain ⟨p, hp, hpc⟩ := hE.unfinished hc
    obtain ⟨i, hi⟩ := List.getElem?_of_mem hp
    have hin : i < X.length := by
      have := (List.getElem?_eq_some_iff.mp hi).1
      rw [h.2.len] at this; rw [hO.contents.1]; exact this
    have hx := List.getElem?_eq_getElem hin
    generalize X[i] = x at hx
    have hxl := (hO.contents.2 i x hx).2
    have hpx : PExact s.mem i x := ⟨p, hi, .inr ⟨hpc, hE.open_ i p hi hpc, fun bs hbs => ⟨fun k b hb => hE.blocks i k p bs b x hi hbs hb hx, hE.partial_ i p bs hi hpc hbs⟩⟩⟩
    obtain ⟨q, hq, hqc⟩ := piece_all hxl (hO.nonempty x (List.mem_of_getElem? hx)) h hpx (fun k hk => hall i k x hx hk)
    rw [hi] at hq; cases hq
    rw [hpc] at hqc; cases hqc

/-- **C127** (the start). After every history a new process can load what is there: Load returns nil if the os does not fail. -/
theorem C127_loads (hu : Usable cfg) {X : List Bytes} (hO : Original cfg X) (es : List (Event × List Fate)) (fates : List Fate) (hf : ∀ f ∈ fates, f = .ok) :
    (reload cfg es fates).1 = .ok () ∧ (reload cfg es fates).2.mem ≠ none := by
  have hinit : SInv cfg ⟨(run cfg es World.empty).fs, newMem cfg.info⟩ := ⟨(run_inv hu es empty_inv).1, newMem_inv _⟩
  have hl := wp_and (wp_and (wp_load_done (A := AllOk) hu hinit) (nc_load AllOk allOk_noCrash _)) (wp_load (A := AllOk) hu hinit)
  rcases runOp_of_wp (w := step cfg (run cfg es World.empty) .start []) (m := newMem cfg.info) rfl hl fates hf with
    ⟨_, s, h1, h2⟩ | ⟨_, s, h1, h2⟩ | ⟨s, h1, h2⟩ | ⟨s, h1, h2⟩
  · rw [reload, h1]; exact ⟨rfl, by simp⟩
  · exfalso
    rcases h2.1.1 with h3 | ⟨s1, h3, h4, h5, h6⟩
    · exact noFail h3
    · have hW := W_of_coalesced h3 h4 h5
      rcases h6 with h6 | h6 | h6 | ⟨j, hj, h6⟩ | ⟨f, hf, h6⟩ | h6
      · rw [hO.name.1] at h6; cases h6
      · rw [hO.name.2] at h6; cases h6
      · exact h6 h4
      · exact h6 ⟨_, hW j hj⟩
      · exact hO.paths f hf h6
      · rw [flat_length hO h3 hW] at h6
        have := hO.fit
        omega
  · exact absurd (newMem_fresh cfg.info) h2.2.2
  · exact h2.1.2.elim

/-- **C127** (the download). After every history — whatever blocks were put, right or wrong, whatever failed, wherever processes died — let a new process call Load, and let Load
succeed. Then the right blocks of the pieces that Load did not report, in any order, any number of times, together with any others, complete the
torrent, if the os does not fail meanwhile; and the target is made of verified contents of all pieces. -/
theorem C127_resumes (hu : Usable cfg) {X : List Bytes} (hO : Original cfg X) (es : List (Event × List Fate)) (fates : List Fate) {w : World} {m0 : Mem}
    (h : reload cfg es fates = (.ok (), w)) (hm0 : w.mem = some m0) (ds : List Delivery) (hd : ∀ d ∈ ds, d.Of X ∧ ∀ f ∈ d.fates, f = .ok)
    (hall : ∀ (i k : Nat) (x : Bytes), X[i]? = some x → k * 16384 < x.length → Reported m0 i ∨ ∃ d ∈ ds, d.piece = i ∧ d.block = k) :
    ∃ m t, (run cfg (ds.map (Delivery.event X)) w).mem = some m ∧ (run cfg (ds.map (Delivery.event X)) w).fs.target = some t ∧ TorrentResult m none ∧
      (∀ i, i < cfg.info.pieces.length → Reported m i ∧ PieceResult m i none) ∧ ∃ Y, Contents cfg.sha1 cfg.info Y ∧ Holds cfg.info Y.flatten t := by
  have hinit : SInv cfg ⟨(run cfg es World.empty).fs, newMem cfg.info⟩ := ⟨(run_inv hu es empty_inv).1, newMem_inv _⟩
  have hw1 : WInv cfg (step cfg (run cfg es World.empty) .start []) := step_inv hu (run_inv hu es (empty_inv (cfg := cfg))) .start []
  have hw : WInv cfg w := by
    have : WInv cfg (reload cfg es fates).2 := step_inv hu hw1 .load fates
    rw [h] at this; exact this
  rcases runOp_of_wp (w := step cfg (run cfg es World.empty) .start []) (m := newMem cfg.info) rfl
      (wp_and (wp_load_done (A := fun _ => True) hu hinit)
        (wp_load_any (A := fun _ => True) (S := fun _ => True) (cfg := cfg) (newMem_linv _) (fun _ _ _ => trivial) (fun _ _ _ _ _ _ => trivial))) fates (fun _ _ => trivial) with
    ⟨_, s, h1, h2⟩ | ⟨_, s, h1, _⟩ | ⟨s, h1, _⟩ | ⟨s, h1, _⟩ <;> rw [reload, h1] at h
  · simp only [Prod.mk.injEq, true_and] at h
    subst h
    cases hm0
    have hs : SInv cfg ⟨s.fs, s.mem⟩ := ⟨hw.1, hw.2 _ rfl⟩
    have hb : ∀ (i : Nat) (p : Piece), s.mem.pieces[i]? = some p → p.blocks = none := fun i p hp => h2.2.1 p (List.mem_of_getElem? hp)
    have hg : Going X ⟨s.fs, s.mem⟩ := by
      refine ⟨?_, ?_, ?_, ?_, ?_⟩
      · intro hc
        rcases h2.1 with h3 | h3
        · rw [hc] at h3; cases h3
        · exact h3.1
      · intro i k p bs b x hp hbs
        rw [hb i p hp] at hbs; cases hbs
      · intro i p hp hc
        exact ((hs.2.piece i p hp).noBlocks hc (hb i p hp)).2
      · intro hc
        rcases h2.1 with h3 | ⟨_, h3 | h3⟩
        · rw [hc] at h3; cases h3
        · have h3 : s = ⟨(run cfg es World.empty).fs, newMem cfg.info⟩ := h3
          have : 0 < cfg.info.pieces.length := by rw [← hO.contents.1]; exact List.length_pos_iff.mpr hO.some_
          refine ⟨{ fut := 0 }, List.mem_of_getElem? (i := 0) ?_, rfl⟩
          show s.mem.pieces[0]? = _
          rw [h3]
          simp [newMem, this]
        · exact h3
      · intro i p bs hp _ hbs
        rw [hb i p hp] at hbs; cases hbs
    obtain ⟨fs', m, g1, g2, g3, g4, g5⟩ := run_going hO ds hs hg hd
    have hc : m.coalesced = true := held_going hO g2 g3 (fun i k x hx hk => by
      rcases hall i k x hx hk with hr | ⟨d, hd, rfl, rfl⟩
      · obtain ⟨p, hp, hpc⟩ := (reported_iff hs).mp hr
        exact g5 i k (.inr ⟨p, hp, .inl hpc⟩)
      · exact g4 d hd)
    rw [g1]
    obtain ⟨t, ht⟩ : ∃ t, fs'.target = some t := by
      cases ht : fs'.target with
      | none => exact absurd ht (g2.2.all hc).1
      | some t => exact ⟨t, rfl⟩
    refine ⟨m, t, rfl, ht, ?_, ?_, ?_⟩
    · have he : m.futs[m.err]? = some (if m.coalesced then some none else none) := g2.2.errFut
      rw [hc] at he; exact he
    · intro i hi
      have hl : m.pieces.length = cfg.info.pieces.length := g2.2.len
      have hi' : i < m.pieces.length := by rw [hl]; exact hi
      have : Complete m i := ⟨_, List.getElem?_eq_getElem hi', (g2.2.all hc).2 _ (List.getElem_mem hi')⟩
      exact ⟨(reported_iff g2).mpr this, (pieceResult_nil_iff g2).mpr this⟩
    · obtain ⟨Y, h1, h2, _⟩ := (g2.1.target t ht).holds
      exact ⟨Y, h1, h2⟩
  · cases h
  · cases h
  · cases h

/-- One process dies while a piece is renamed, after a wrong block of the other had been refused; the next finishes. -/
example : (reload Ex.single [(.start, []), (.put 1 0 [5, 9], []), (.put 0 0 [1, 2, 3, 4], List.replicate 4 .ok ++ [.crash []])] []).1 = .ok () ∧
    (run Ex.single ([⟨1, 0, []⟩, ⟨0, 0, []⟩].map (Delivery.event [[1, 2, 3, 4], [5, 6]]))
      (reload Ex.single [(.start, []), (.put 1 0 [5, 9], []), (.put 0 0 [1, 2, 3, 4], List.replicate 4 .ok ++ [.crash []])] []).2).fs =
      ⟨some (.file [1, 2, 3, 4, 5, 6]), none⟩ := ⟨by kernel_rfl, by kernel_rfl⟩

/-- C38 (reading). Data of a piece is only given out when verified data for the piece is on disk. -/
theorem C38_readable (hu : Usable cfg) (es : List (Event × List Fate)) {m : Mem} (hm : (run cfg es World.empty).mem = some m) (i : Nat) (hi : i < cfg.info.pieces.length)
    (begin_ length : Int) (fates : List Fate) {r : Bytes} {w : World} (h : runOp (getBlock cfg i begin_ length) (run cfg es World.empty) fates = (.ok r, w)) :
    ∃ d, OnDisk cfg (run cfg es World.empty).fs i d := by
  have hs := reach hu es hm
  by_cases hc : m.coalesced = true
  · have hi' : i < m.pieces.length := by have : m.pieces.length = cfg.info.pieces.length := hs.2.len; omega
    have : Complete m i := ⟨_, List.getElem?_eq_getElem hi', (hs.2.all hc).2 _ (List.getElem_mem hi')⟩
    exact C38_verified hu es hm i (.inl ((reported_iff hs).mpr this))
  · have hw : wp (fun _ => True) (getBlock cfg i begin_ length) ⟨fun _ _ => Complete m i, fun _ _ => True, fun _ => True, fun _ => True⟩ ⟨(run cfg es World.empty).fs, m⟩ := by
      unfold getBlock
      refine wp_bind (wp_getMem ?_)
      show wp _ (if m.coalesced = true then _ else _) _ _
      rw [if_neg hc]
      refine wp_bind (wp_getPiece ?_ (fun _ => trivial))
      intro j p hj hp
      have : i = j := by omega
      subst this
      show wp _ (if (!p.coalesced) = true then _ else _) _ _
      cases hpc : p.coalesced with
      | false => exact wp_fail trivial
      | true => exact wp_mono (same_getFromPiece i begin_ length _) (fun _ _ _ => ⟨p, hp, hpc⟩) (fun _ _ _ => trivial) (fun _ _ => trivial) (fun _ _ => trivial)
    rcases runOp_of_wp hm hw fates (fun _ _ => trivial) with ⟨_, s, h1, h2⟩ | ⟨_, s, h1, _⟩ | ⟨s, h1, _⟩ | ⟨s, h1, _⟩ <;> rw [h1] at h <;> cases h
    exact C38_verified hu es hm i (.inl ((reported_iff hs).mpr h2))

example : (runOp (getBlock Ex.single 1 0 2) (run Ex.single [(.start, []), (.put 1 0 [5, 6], [])] World.empty) []).1 = .ok [5, 6] := by kernel_rfl

end Drip.Storage
