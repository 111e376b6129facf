import Verif.Lemmas.StoragePiece
import Verif.Lemmas.StorageFrame
/-
Calls of the storage while only true blocks arrive (`Exact`): putting a block and resetting an unfinished piece.
-/

namespace Drip.Storage
open Metainfo Spec

variable {cfg : Cfg}

theorem fr_putBlock {g : Nat → Piece → Piece} {j : Nat} (hg : ∀ p, g j p = p) (b : Int) (d : Bytes) : Fr g (putBlock cfg (j : Int) b d) := by
  unfold putBlock
  refine fr_bind (fr_lift _) fun _ => fr_get fun s f => ?_
  have h : (over g s).mem.coalesced = s.mem.coalesced := rfl
  rw [h]
  refine fr_ite (g := g) (fun _ => fr_fail _) (fun _ => fr_getPiece hg fun p => fr_bind ?_ fun _ => fr_finish hg) s f
  unfold putBlockP
  refine fr_ite (fun _ => fr_fail _) fun _ => fr_bind ?_ fun bs => fr_bind (fr_setPiece hg _) fun _ => ?_
  · unfold allocBlocks
    split
    · exact fr_pure _
    · exact fr_ite (fun _ => fr_panic) fun _ => fr_pure _
  · unfold storeBlock
    refine fr_ite (fun _ => fr_panic) fun _ => ?_
    split
    · exact fr_panic
    · exact fr_fail _
    · exact fr_setPiece hg _

/-- What commutes with changing another piece leaves it alone. -/
theorem fr_same {α : Type} {p : Op α} {j j' : Nat} (hne : j' ≠ j) (h : ∀ g : Nat → Piece → Piece, (∀ q, g j q = q) → Fr g p) {s : Sys} {q : Piece}
    (hq : s.mem.pieces[j']? = some q) (f : List Fate) (q' : Piece) (hq' : (p s f).2.1.mem.pieces[j']? = some q') : q' = q := by
  have h1 := h (fun k r => if k = j' then q else r) (fun r => by rw [if_neg (Ne.symm hne)]) s f
  have h2 : over (fun k r => if k = j' then q else r) s = s := by
    unfold over
    have : s.mem.pieces.mapIdx (fun k r => if k = j' then q else r) = s.mem.pieces := by
      apply List.ext_getElem?
      intro k
      rw [List.getElem?_mapIdx]
      by_cases hk : k = j'
      · subst hk; rw [hq]; simp
      · cases hs : s.mem.pieces[k]? with
        | none => rfl
        | some r => simp [hk]
    rw [this]
  rw [h2] at h1
  have h3 : (p s f).2.1.mem.pieces = (over (fun k r => if k = j' then q else r) (p s f).2.1).mem.pieces := by
    have := congrArg (fun x : Out α × Sys × List Fate => x.2.1.mem.pieces) h1
    exact this
  rw [h3] at hq'
  have h4 : ((p s f).2.1.mem.pieces.mapIdx (fun k r => if k = j' then q else r))[j']? = some q' := hq'
  rw [List.getElem?_mapIdx] at h4
  cases hs : (p s f).2.1.mem.pieces[j']? with
  | none => rw [hs] at h4; cases h4
  | some r => rw [hs] at h4; simp at h4; exact h4.symm

/-- The piece is complete. -/
def Done (m : Mem) (i : Nat) : Prop := ∃ p, m.pieces[i]? = some p ∧ p.coalesced = true

/-- Putting a true block. -/
theorem put_exact {X : List Bytes} (hO : Original cfg X) {fs : FS} {m : Mem} (h : SInv cfg ⟨fs, m⟩) (hE : Exact cfg X ⟨fs, m⟩) {i k : Nat} {x : Bytes}
    (hx : X[i]? = some x) (hk : k * 16384 < x.length) {f : List Fate} (hf : ∀ y ∈ f, y = .ok) :
    ∃ o fs' m', runOp (putBlock cfg i (k * 16384 : Nat) (blockOf x k)) ⟨fs, some m⟩ f = (o, ⟨fs', some m'⟩) ∧ (o = .ok () ∨ o = .err .blockExists) ∧
      SInv cfg ⟨fs', m'⟩ ∧ Exact cfg X ⟨fs', m'⟩ ∧ Held m' i k ∧ (∀ j l, Held m j l → Held m' j l) ∧ (∀ j, Done m j → Done m' j) ∧
      ∀ j, j ≠ i → Done m' j → Done m j := by
  have h1 := wp_and (wp_and (wp_put_exact hO h hE hx hk) (nc_putBlock (cfg := cfg) i (k * 16384 : Nat) (blockOf x k) _ allOk_noCrash ⟨fs, m⟩))
    (mono_putBlock (A := AllOk) (X := fun _ => False) (cfg := cfg) i (k * 16384 : Nat) (blockOf x k) ⟨fs, m⟩ m (Grows.refl m))
  have h2 := (h1 f hf).1
  have hsame := fun (j : Nat) (hne : j ≠ i) (q : Piece) (hq : m.pieces[j]? = some q) => fr_same (s := ⟨fs, m⟩) hne
    (fun g hg => fr_putBlock (cfg := cfg) hg (k * 16384 : Nat) (blockOf x k)) hq f
  simp only [runOp]
  rcases hr : putBlock cfg i (k * 16384 : Nat) (blockOf x k) ⟨fs, m⟩ f with ⟨o, s', f'⟩
  rw [hr] at h2 hsame
  cases o with
  | ok u =>
    obtain ⟨⟨⟨g1, g2, g3, g4⟩, _⟩, g5⟩ := h2
    refine ⟨.ok (), s'.fs, s'.mem, rfl, .inl rfl, g1, g2, g3, fun i k hk => held_mono g5 (fun e => by have g4 : m.coalesced = false := g4; rw [g4] at e; cases e) hk, ?_, ?_⟩
    · rintro j ⟨p, hp, hc⟩
      obtain ⟨q, hq, hqc, _⟩ := g5 j p hp
      exact ⟨q, hq, hqc hc⟩
    · rintro j hne ⟨p, hp, hc⟩
      have hl : s'.mem.pieces.length = cfg.info.pieces.length := g1.2.len
      have hl' : m.pieces.length = cfg.info.pieces.length := h.2.len
      have hj := (List.getElem?_eq_some_iff.mp hp).1
      have hj' : j < m.pieces.length := by omega
      have := hsame j hne _ (List.getElem?_eq_getElem hj') p hp
      exact ⟨_, List.getElem?_eq_getElem hj', by rw [← this]; exact hc⟩
  | err e =>
    obtain ⟨⟨⟨g0, g1, g2⟩, _⟩, _⟩ := h2
    have g1 : s' = ⟨fs, m⟩ := g1
    rw [g1]
    exact ⟨.err e, fs, m, rfl, .inr (by rw [g0]), h, hE, g2, fun _ _ => id, fun _ => id, fun _ _ => id⟩
  | panic => exact h2.1.1.elim
  | crash => exact h2.1.2.elim

/-- Resetting a piece that is not complete. -/
theorem reset_exact {X : List Bytes} {fs : FS} {m : Mem} (h : SInv cfg ⟨fs, m⟩) (hE : Exact cfg X ⟨fs, m⟩) {i : Nat} (hi : i < cfg.info.pieces.length) (hn : ¬ Done m i)
    {f : List Fate} (hf : ∀ y ∈ f, y = .ok) :
    ∃ m', runOp (resetPiece i) ⟨fs, some m⟩ f = (.ok (), ⟨fs, some m'⟩) ∧ SInv cfg ⟨fs, m'⟩ ∧ Exact cfg X ⟨fs, m'⟩ ∧ (∀ j, Done m' j ↔ Done m j) ∧
      ∀ j k, j ≠ i → Held m j k → Held m' j k := by
  have hil : i < m.pieces.length := by have := h.2.len; simp only at this; omega
  have hp : m.pieces[i]? = some m.pieces[i] := List.getElem?_eq_getElem hil
  generalize m.pieces[i] = p at hp
  have hc : p.coalesced = false := by
    cases hc : p.coalesced with
    | false => rfl
    | true => exact absurd ⟨p, hp, hc⟩ hn
  have hfut : m.futs[p.fut]? = some none := hE.open_ i p hp hc
  have hw : wp AllOk (resetPiece i) ⟨fun _ s' => s'.fs = fs ∧ s'.mem = { m with futs := m.futs.set p.fut (some (some .pieceReset)) ++ [none], pieces := m.pieces.set i { p with fut := m.futs.length, blocks := none, completeBlocks := 0 } },
      fun _ _ => False, fun _ => False, fun _ => False⟩ ⟨fs, m⟩ := by
    refine wp_bind (wp_getPiece ?_ ?_)
    · intro j q hj hq
      have : i = j := by omega
      subst this
      have hq : m.pieces[i]? = some q := hq
      rw [hp] at hq; cases hq
      show wp AllOk _ _ _
      unfold resetP
      refine wp_bind (wp_deliver ?_ ?_)
      · intro _
        refine wp_bind (wp_getMem (wp_bind (wp_setMem (wp_setPiece ?_))))
        exact ⟨rfl, by simp⟩
      · intro h; exact absurd hfut h
    · intro hor
      simp only at hor
      show False
      omega
  have h1 := ((wp_and hw (wp_resetPiece (A := AllOk) h i)) f hf).1
  simp only [runOp]
  rcases hr : resetPiece i ⟨fs, m⟩ f with ⟨o, s', f'⟩
  rw [hr] at h1
  cases o with
  | err e => exact h1.1.elim
  | panic => exact h1.1.elim
  | crash => exact h1.1.elim
  | ok u =>
    obtain ⟨⟨g1, g2⟩, g3, _⟩ := h1
    obtain ⟨fs', m'⟩ := s'
    simp only at g1 g2
    subst g1
    have g3 : SInv cfg ⟨fs', m'⟩ := g3
    have hpc : ∀ j q, m'.pieces[j]? = some q → j ≠ i → m.pieces[j]? = some q := by
      intro j q hq hne
      rw [g2] at hq
      simpa [List.getElem?_set, Ne.symm hne] using hq
    have hpi : m'.pieces[i]? = some { p with fut := m.futs.length, blocks := none, completeBlocks := 0 } := by rw [g2]; simp [hil]
    refine ⟨m', rfl, g3, ?_, ?_, ?_⟩
    · refine ⟨by have := hE.target; rw [g2]; exact this, by have := hE.gone; rw [g2]; exact this, ?_, hE.files, ?_, ?_, ?_⟩
      · intro j k q bs b x hq hb hk hx
        by_cases hj : j = i
        · subst hj
          have hq : m'.pieces[j]? = some q := hq
          rw [hpi] at hq; cases hq; cases hb
        · exact hE.blocks j k q bs b x (hpc j q hq hj) hb hk hx
      · intro j q hq hqc
        by_cases hj : j = i
        · subst hj
          have hq : m'.pieces[j]? = some q := hq
          rw [hpi] at hq; cases hq
          rw [g2]; simp
        · have hq' := hpc j q hq hj
          have := hE.open_ j q hq' hqc
          have hlt : q.fut < m.futs.length := (h.2.piece j q hq').futLt
          have hne : p.fut ≠ q.fut := fun e => hj (h.2.inj i j p q hp hq' e).symm
          rw [g2]
          show (m.futs.set p.fut (some (some .pieceReset)) ++ [none])[q.fut]? = _
          rw [List.getElem?_append_left (by simpa using hlt), List.getElem?_set, if_neg hne]
          exact this
      · intro _
        exact ⟨_, List.mem_of_getElem? hpi, hc⟩
      · intro j q bs hq hqc hb
        by_cases hj : j = i
        · subst hj
          have hq : m'.pieces[j]? = some q := hq
          rw [hpi] at hq; cases hq; cases hb
        · exact hE.partial_ j q bs (hpc j q hq hj) hqc hb
    · intro j
      by_cases hj : j = i
      · subst hj
        constructor
        · rintro ⟨q, hq, hqc⟩
          rw [hpi] at hq; cases hq
          rw [hc] at hqc; cases hqc
        · intro hd; exact absurd hd hn
      · have : m'.pieces[j]? = m.pieces[j]? := by rw [g2]; simp [List.getElem?_set, Ne.symm hj]
        unfold Done; rw [this]
    · intro j k hj hh
      have : m'.pieces[j]? = m.pieces[j]? := by rw [g2]; simp [List.getElem?_set, Ne.symm hj]
      unfold Held at hh ⊢
      rw [this]
      exact hh.imp (fun e => by rw [g2]; exact e) id

end Drip.Storage
