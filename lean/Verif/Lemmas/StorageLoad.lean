import Verif.Lemmas.StorageRead
/-
Load, New, and histories.
-/

namespace Drip.Storage
open Metainfo Spec

variable {A : Fate → Prop} {cfg : Cfg}

/-- Piece `i` is complete in memory. -/
def Complete (m : Mem) (i : Nat) : Prop := ∃ p, m.pieces[i]? = some p ∧ p.coalesced = true

/-- The future of piece `i` is undelivered. -/
def Open (m : Mem) (i : Nat) : Prop := ∃ p, m.pieces[i]? = some p ∧ m.futs[p.fut]? = some none

/-- Claims about `Load`'s loops: the disk does not change; a panic implies `pan`. -/
def quiet (cfg : Cfg) {α : Type} (s : Sys) (ok : α → Sys → Prop) (pan : Prop) : Post α :=
  ⟨fun a s' => SInv cfg s' ∧ s'.fs = s.fs ∧ ok a s', fun _ s' => SInv cfg s' ∧ s'.fs = s.fs, fun s' => s'.fs = s.fs ∧ pan, fun s' => s'.fs = s.fs⟩

theorem wp_completePiece_any {s : Sys} (h : SInv cfg s) {i : Nat} (hi : i < cfg.info.pieces.length) (hd : HasData s.fs i) :
    wp A (completePiece i) (quiet cfg s (fun _ s' => s'.mem.coalesced = s.mem.coalesced ∧ s'.mem.downloaded = s.mem.downloaded ∧
      (∀ j, Complete s'.mem j ↔ Complete s.mem j ∨ j = i) ∧ ∀ j, j ≠ i → Open s.mem j → Open s'.mem j) (¬ Open s.mem i)) s := by
  have hi' : i < s.mem.pieces.length := by rw [h.2.len]; exact hi
  have hp := List.getElem?_eq_getElem hi'
  generalize s.mem.pieces[i] = p at hp
  by_cases hf : s.mem.futs[p.fut]? = some none
  · refine wp_mono (wp_completePiece h hp hf hd) ?_ (fun _ _ h => h.elim) (fun _ h => h.elim) (fun _ h => h.elim)
    · rintro _ s' ⟨h1, h2, h3, h4, h5, h6, h7, h8⟩
      refine ⟨h1, h2, h3, h4, ?_, ?_⟩
      · intro j
        unfold Complete
        rw [h6, List.getElem?_set]
        by_cases hj : i = j
        · subst hj; simp [hi']
        · have : ¬ j = i := fun e => hj e.symm
          simp [hj, this]
      · rintro j hj ⟨q, hq, hqf⟩
        refine ⟨q, ?_, ?_⟩
        · rw [h6, List.getElem?_set, if_neg (fun e => hj e.symm)]; exact hq
        · have hne : q.fut ≠ p.fut := fun e => hj (h.2.inj _ _ _ _ hq hp e)
          rw [h7, List.getElem?_set, if_neg (fun e => hne e.symm)]; exact hqf
  · unfold completePiece
    refine wp_bind (wp_getPiece ?_ (fun hor => by omega))
    intro j q hj hq
    have : i = j := by omega
    subst this
    rw [hp] at hq; cases hq
    refine wp_bind (wp_setPiece (wp_bind (wp_deliver (fun h => absurd h hf) (fun _ => ⟨rfl, ?_⟩))))
    rintro ⟨q, hq, hqf⟩
    rw [hp] at hq; cases hq
    exact hf hqf

theorem MemInv.downloaded {fs : FS} {m : Mem} (h : MemInv cfg fs m) (d : Int) : MemInv cfg fs { m with downloaded := d } :=
  { len := h.len, piece := h.piece, inj := h.inj, errNe := h.errNe, errFut := h.errFut, count := h.count, bfLen := h.bfLen, bf := h.bf, all := h.all }

theorem wp_completeAll (is : List Nat) : ∀ {s : Sys}, SInv cfg s → (∀ i ∈ is, i < cfg.info.pieces.length ∧ HasData s.fs i) → is.Nodup →
    wp A (completeAll is) (quiet cfg s (fun _ s' => s'.mem.coalesced = s.mem.coalesced ∧ s'.mem.downloaded = s.mem.downloaded ∧
      ∀ j, Complete s'.mem j ↔ Complete s.mem j ∨ j ∈ is) (¬ ∀ i ∈ is, Open s.mem i)) s := by
  induction is with
  | nil => intro s h _ _; exact wp_pure ⟨h, rfl, rfl, rfl, by simp⟩
  | cons i is ih =>
    intro s h hd hn
    unfold completeAll
    have ⟨hi, hdi⟩ := hd i (by simp)
    refine wp_seq (wp_completePiece_any h hi hdi) ?_ (fun _ _ h => h) ?_ (fun _ h => h)
    · rintro _ s1 ⟨h1, h2, h3, h4, h5, h6⟩
      have hd1 : ∀ j ∈ is, j < cfg.info.pieces.length ∧ HasData s1.fs j := by
        intro j hj; rw [h2]; exact hd j (by simp [hj])
      refine wp_mono (ih h1 hd1 (List.nodup_cons.mp hn).2) ?_ ?_ ?_ ?_
      · rintro _ s2 ⟨g1, g2, g3, g4, g5⟩
        refine ⟨g1, g2.trans h2, g3.trans h3, g4.trans h4, ?_⟩
        intro j; rw [g5, h5]; simp [or_assoc]
      · rintro e s2 ⟨g1, g2⟩; exact ⟨g1, g2.trans h2⟩
      · rintro s2 ⟨g1, g2⟩
        refine ⟨g1.trans h2, fun hall => g2 fun j hj => h6 j ?_ (hall j (by simp [hj]))⟩
        rintro rfl
        exact (List.nodup_cons.mp hn).1 hj
      · intro s2 g; exact g.trans h2
    · rintro s1 ⟨h1, h2⟩; exact ⟨h1, fun hall => h2 (hall i (by simp))⟩

/-- Sizes of the piece files. -/
def sizes (es : List (Bytes × Bytes)) : Int := (es.map fun x => (x.2.length : Int)).sum

theorem wp_loadEntries (hlen : cfg.info.pieces.length ≤ 2 ^ 63) (es : List (Bytes × Bytes)) : ∀ {s : Sys}, SInv cfg s →
    (∀ x ∈ es, ∃ i : Nat, x.1 = pieceName i ∧ i < cfg.info.pieces.length ∧ HasData s.fs i) → (es.map Prod.fst).Nodup →
    wp A (loadEntries es) (quiet cfg s (fun _ s' => s'.mem.coalesced = s.mem.coalesced ∧ s'.mem.downloaded = s.mem.downloaded + sizes es ∧
      ∀ j, Complete s'.mem j ↔ Complete s.mem j ∨ pieceName j ∈ es.map Prod.fst) (¬ ∀ i, pieceName i ∈ es.map Prod.fst → Open s.mem i)) s := by
  induction es with
  | nil => intro s h _ _; exact wp_pure ⟨h, rfl, rfl, by simp [sizes], by simp⟩
  | cons x es ih =>
    intro s h hd hn
    obtain ⟨name, content⟩ := x
    obtain ⟨i, hx, hi, hdi⟩ := hd _ (List.mem_cons_self ..)
    simp only at hx
    subst hx
    unfold loadEntries
    rw [sscanf_pieceName i (by omega)]
    dsimp only
    refine wp_ro wp_temp_ro (fun _ _ => ?_) (fun _ => ⟨h, rfl⟩) rfl
    refine wp_bind (wp_getMem (wp_bind (wp_setMem ?_)))
    have hs1 : SInv cfg { s with mem := { s.mem with downloaded := s.mem.downloaded + content.length } } := ⟨h.1, h.2.downloaded _⟩
    refine wp_bind (wp_getPiece ?_ ?_)
    · intro j q hj hq
      have : i = j := by omega
      subst this
      show wp A _ _ _
      refine wp_seq (wp_completePiece_any hs1 hi hdi) ?_ (fun _ _ h => h) ?_ (fun _ h => h)
      · rintro _ s2 ⟨h1, h2, h3, h4, h5, h6⟩
        have hd1 : ∀ x ∈ es, ∃ i : Nat, x.1 = pieceName i ∧ i < cfg.info.pieces.length ∧ HasData s2.fs i := by
          intro x hx; rw [h2]; exact hd x (by simp [hx])
        have hni : pieceName i ∉ es.map Prod.fst := (List.nodup_cons.mp hn).1
        refine wp_mono (ih h1 hd1 (List.nodup_cons.mp hn).2) ?_ ?_ ?_ ?_
        · rintro _ s3 ⟨g1, g2, g3, g4, g5⟩
          refine ⟨g1, g2.trans h2, g3.trans h3, ?_, ?_⟩
          · rw [g4, h4]; simp [sizes]; omega
          · intro j
            rw [g5, h5, List.map_cons, List.mem_cons]
            constructor
            · rintro ((h | rfl) | h)
              · exact .inl h
              · exact .inr (.inl rfl)
              · exact .inr (.inr h)
            · rintro (h | h | h)
              · exact .inl (.inl h)
              · exact .inl (.inr (pieceName_inj h))
              · exact .inr h
        · rintro e s3 ⟨g1, g2⟩; exact ⟨g1, g2.trans h2⟩
        · rintro s3 ⟨g1, g2⟩
          refine ⟨g1.trans h2, fun hall => g2 fun j hjm => h6 j ?_ (hall j (by simp only [List.map_cons, List.mem_cons]; exact .inr hjm))⟩
          rintro rfl
          exact hni hjm
        · intro s3 g; exact g.trans h2
      · rintro s2 ⟨h1, h2⟩; exact ⟨h1, fun hall => h2 (hall i (by simp))⟩
    · intro hor
      have := h.2.len
      simp only at hor
      omega

/-- The names and sizes for which the model of the disk makes sense: `TargetDir/Name` is not the target directory itself or
its parent, the number of pieces is an `int`. -/
structure Usable (cfg : Cfg) : Prop where
  name : trivialName cfg.info.name = false
  len : cfg.info.pieces.length ≤ 2 ^ 63

/-- Nothing has been delivered yet. -/
def Fresh (m : Mem) : Prop := m.coalesced = false ∧ ∀ i, i < m.pieces.length → Open m i

/-- The size of what is on the disk. -/
def diskSize (cfg : Cfg) (fs : FS) : Int :=
  match fs.target with
  | some (.file c) => c.length
  | some (.dir _) => cfg.dirSize
  | none => sizes (fs.work.getD [])

theorem wp_complete_any {s : Sys} (h : SInv cfg s) (ht : s.fs.target ≠ none) (hall : ∀ p ∈ s.mem.pieces, p.coalesced = true) :
    wp A complete (quiet cfg s (fun _ s' => s'.mem = completed s.mem) (s.mem.coalesced = true)) s := by
  cases hc : s.mem.coalesced with
  | false => exact wp_mono (wp_complete h hc ht hall) (fun _ _ h => h) (fun _ _ h => h.elim) (fun _ h => h.elim) (fun _ h => h.elim)
  | true =>
    unfold complete
    refine wp_bind (wp_getMem (wp_bind (wp_setMem (wp_deliver ?_ ?_))))
    · intro hf
      have := h.2.errFut
      simp only at hf
      rw [hc, hf] at this
      cases this
    · intro _; exact ⟨rfl, rfl⟩

theorem wp_load (hu : Usable cfg) {s : Sys} (h : SInv cfg s) :
    wp A (load cfg) (after cfg (fun _ s' => SInv cfg s' ∧ (∀ i, i < cfg.info.pieces.length → (Complete s'.mem i ↔ Complete s.mem i ∨ HasData s.fs i)) ∧
      s'.mem.downloaded = s.mem.downloaded + diskSize cfg s.fs) (¬ Fresh s.mem)) s := by
  unfold load
  refine wp_ro (ok := fun o => (o = none ∧ s.fs.target = none) ∨ ∃ t, s.fs.target = some t ∧ o = some (diskSize cfg s.fs)) ?_ ?_ (fun _ => h) h.1
  · refine wp_call ?_ (fun _ => rfl) (fun r _ => rfl) (fun r _ => rfl)
    intro a fs he
    simp only [hu.name, Bool.false_eq_true, if_false] at he
    cases ht : s.fs.target with
    | none => simp [ht] at he; obtain ⟨rfl, rfl⟩ := he; exact ⟨.inl ⟨rfl, rfl⟩, rfl⟩
    | some t =>
      cases t <;> simp [ht] at he <;> obtain ⟨rfl, rfl⟩ := he <;> exact ⟨.inr ⟨_, rfl, by simp [diskSize, ht]⟩, rfl⟩
  · intro o ho
    cases o with
    | some size =>
      rcases ho with ⟨e, _⟩ | ⟨t, ht, e⟩
      · cases e
      · cases e
        have htn : s.fs.target ≠ none := by rw [ht]; simp
        dsimp only
        have hpre : ∀ i ∈ List.range cfg.info.pieces.length, i < cfg.info.pieces.length ∧ HasData s.fs i :=
          fun i hi => ⟨List.mem_range.mp hi, .inl htn⟩
        refine wp_seq (wp_completeAll _ h hpre List.nodup_range) ?_ (fun _ _ h => h.1) ?_ ?_
        · rintro _ s1 ⟨h1, h2, h3, h4, h5⟩
          have hall : ∀ p ∈ s1.mem.pieces, p.coalesced = true := by
            intro p hp
            obtain ⟨i, hi⟩ := List.getElem?_of_mem hp
            have hil := (List.getElem?_eq_some_iff.mp hi).1
            rw [h1.2.len] at hil
            obtain ⟨q, hq, hqc⟩ := (h5 i).mpr (.inr (List.mem_range.mpr hil))
            rw [hi] at hq; cases hq; exact hqc
          refine wp_seq (wp_complete_any h1 (by rw [h2]; exact htn) hall) ?_ (fun _ _ h => h.1) ?_ ?_
          · rintro _ s2 ⟨g1, g2, g3⟩
            refine wp_bind (wp_getMem (wp_setMem ?_))
            refine ⟨⟨g1.1, g1.2.downloaded _⟩, ?_, ?_⟩
            · intro i hi
              show Complete _ i ↔ _
              have : Complete s1.mem i ↔ Complete s.mem i ∨ HasData s.fs i := by
                rw [h5, List.mem_range]; simp [hi, HasData, htn]
              rw [← this]
              unfold Complete
              simp only [g3, completed]
            · simp only [g3, completed, h4]
          · rintro s2 ⟨g1, g2⟩
            refine ⟨by rw [g1]; exact h1.1, ?_⟩
            rintro ⟨hf, _⟩
            rw [h3, hf] at g2; cases g2
          · intro s2 g
            have g : s2.fs = s1.fs := g
            show FSInv cfg s2.fs
            rw [g]; exact h1.1
        · rintro s1 ⟨h1, h2⟩
          refine ⟨by rw [h1]; exact h.1, fun hf => h2 fun i hi => hf.2 i ?_⟩
          rw [h.2.len]; exact List.mem_range.mp hi
        · intro s1 h1
          have h1 : s1.fs = s.fs := h1
          show FSInv cfg s1.fs
          rw [h1]; exact h.1
    | none =>
      rcases ho with ⟨_, htn⟩ | ⟨t, ht, e⟩
      · dsimp only
        have hco : s.mem.coalesced = false := by
          cases hc : s.mem.coalesced with
          | false => rfl
          | true => exact absurd htn (h.2.all hc).1
        refine wp_ro (ok := fun o => o = s.fs.work) ?_ ?_ (fun _ => h) h.1
        · refine wp_call ?_ (fun _ => rfl) (fun r _ => rfl) (fun r _ => rfl)
          intro a fs he
          simp only [Option.some.injEq, Prod.mk.injEq] at he
          obtain ⟨rfl, rfl⟩ := he
          exact ⟨rfl, rfl⟩
        · rintro o ho
          cases o with
          | none =>
            refine wp_pure ⟨h, ?_, ?_⟩
            · intro i _; simp [HasData, htn, ← ho]
            · simp [diskSize, htn, ← ho, sizes]
          | some es =>
            dsimp only
            have hw := h.1.work es ho.symm
            have hpre : ∀ x ∈ es, ∃ i : Nat, x.1 = pieceName i ∧ i < cfg.info.pieces.length ∧ HasData s.fs i := by
              intro x hx
              obtain ⟨i, h1, h2, _⟩ := hw x hx
              refine ⟨i, h1, verified_lt h2, .inr ⟨es, x.2, ho.symm, ?_⟩⟩
              rw [← h1]
              exact mem_lookup (h.1.nodup es ho.symm) hx
            have hhas : ∀ i, HasData s.fs i ↔ pieceName i ∈ es.map Prod.fst := by
              intro i
              constructor
              · rintro (h1 | ⟨l, d, h1, h2⟩)
                · exact absurd htn h1
                · rw [← ho] at h1; cases h1
                  exact List.mem_map.mpr ⟨_, lookup_mem h2, rfl⟩
              · intro hm
                obtain ⟨x, hx, hxe⟩ := List.mem_map.mp hm
                obtain ⟨j, h1, _, h3⟩ := hpre x hx
                have := pieceName_inj (hxe.symm.trans h1)
                rw [this]; exact h3
            refine wp_seq (wp_loadEntries hu.len es h hpre (h.1.nodup es ho.symm)) ?_ (fun _ _ h => h.1) ?_ ?_
            · rintro _ s1 ⟨h1, h2, h3, h4, h5⟩
              refine wp_mono (wp_coalescePieces h1 (h3.trans hco)) ?_ (fun _ _ h => h.2.1) (fun _ h => h.elim) (fun _ h => h)
              rintro _ s2 ⟨g1, g2⟩
              have hmem : (∀ i, Complete s2.mem i ↔ Complete s1.mem i) ∧ s2.mem.downloaded = s1.mem.downloaded := by
                rcases g2 with ⟨rfl, _⟩ | ⟨_, _, g2, _⟩
                · exact ⟨fun _ => Iff.rfl, rfl⟩
                · rw [g2]; exact ⟨fun _ => Iff.rfl, rfl⟩
              refine ⟨g1, ?_, ?_⟩
              · intro i _; rw [hmem.1, h5, hhas]
              · rw [hmem.2, h4]; simp [diskSize, htn, ← ho]
            · rintro s1 ⟨h1, h2⟩
              refine ⟨by rw [h1]; exact h.1, fun hf => h2 fun i hi => hf.2 i ?_⟩
              obtain ⟨x, hx, hxe⟩ := List.mem_map.mp hi
              obtain ⟨j, g1, g2, _⟩ := hpre x hx
              have := pieceName_inj (hxe.symm.trans g1)
              rw [h.2.len, this]; exact g2
            · intro s1 h1
              have h1 : s1.fs = s.fs := h1
              show FSInv cfg s1.fs
              rw [h1]; exact h.1
      · cases e

/-! ### New -/

theorem newMem_inv (fs : FS) : MemInv cfg fs (newMem cfg.info) := by
  have hget : ∀ (i : Nat) (p : Piece), (newMem cfg.info).pieces[i]? = some p → i < cfg.info.pieces.length ∧ p = { fut := i } := by
    intro i p hp
    have hi := (List.getElem?_eq_some_iff.mp hp).1
    simp only [newMem, List.length_map, List.length_range] at hi
    simp [newMem, hi] at hp
    exact ⟨hi, hp.symm⟩
  constructor
  · simp [newMem]
  · intro i p hp
    obtain ⟨hi, rfl⟩ := hget i p hp
    refine ⟨by simp [newMem]; omega, by simp, ?_, ?_, by simp⟩
    · intro _
      simp only [newMem]
      rw [List.getElem?_replicate, if_pos (by omega)]; simp
    · intro _ _
      simp only [newMem]
      rw [List.getElem?_replicate, if_pos (by omega)]; simp
  · intro i j p q hp hq e
    obtain ⟨_, rfl⟩ := hget i p hp
    obtain ⟨_, rfl⟩ := hget j q hq
    exact e
  · intro i p hp
    obtain ⟨hi, rfl⟩ := hget i p hp
    simp only [newMem]; omega
  · simp [newMem, List.getElem?_replicate]
  · have : (newMem cfg.info).pieces.countP (·.coalesced) = 0 := by
      rw [List.countP_eq_zero]
      intro p hp
      obtain ⟨i, hi⟩ := List.getElem?_of_mem hp
      obtain ⟨_, rfl⟩ := hget i p hi
      simp
    rw [this]; rfl
  · rfl
  · intro i
    constructor
    · intro hb; simp [newMem, Bitfield.bit_new] at hb
    · rintro ⟨p, hp, hc⟩
      obtain ⟨_, rfl⟩ := hget i p hp
      simp at hc
  · intro h; simp [newMem] at h

theorem newMem_fresh (info : Info) : Fresh (newMem info) := by
  refine ⟨rfl, fun i hi => ⟨{ fut := i }, ?_, ?_⟩⟩
  · simp only [newMem, List.length_map, List.length_range] at hi; simp [newMem, hi]
  · simp only [newMem, List.length_map, List.length_range] at hi ⊢
    rw [List.getElem?_replicate, if_pos (by omega)]

/-! ### Histories -/

/-- The disk is fine and so is the memory, if there is one. -/
def WInv (cfg : Cfg) (w : World) : Prop := FSInv cfg w.fs ∧ ∀ m, w.mem = some m → MemInv cfg w.fs m

theorem wp_any {α : Type} {p : Op α} {Q : Post α} {s : Sys} (h : wp (fun _ => True) p Q s) (f : List Fate) : Q.holds (p s f).1 (p s f).2.1 :=
  (h f (fun _ _ => trivial)).1

theorem runOp_inv {α : Type} {p : Op α} {w : World} (hw : WInv cfg w) (f : List Fate)
    (h : ∀ m, w.mem = some m → wp (fun _ => True) p ⟨fun _ s => SInv cfg s, fun _ s => SInv cfg s, fun s => FSInv cfg s.fs, fun s => FSInv cfg s.fs⟩ ⟨w.fs, m⟩) : WInv cfg (runOp p w f).2 := by
  unfold runOp
  cases hm : w.mem with
  | none => exact hw
  | some m =>
    have := wp_any (h m hm) f
    dsimp only
    rcases hr : p ⟨w.fs, m⟩ f with ⟨o, s, f'⟩
    rw [hr] at this
    cases o with
    | ok a => have h2 : SInv cfg s := this; exact ⟨h2.1, fun m hm => by cases hm; exact h2.2⟩
    | err e => have h2 : SInv cfg s := this; exact ⟨h2.1, fun m hm => by cases hm; exact h2.2⟩
    | panic => exact ⟨this, by simp⟩
    | crash => exact ⟨this, by simp⟩

theorem step_inv (hu : Usable cfg) {w : World} (hw : WInv cfg w) (e : Event) (f : List Fate) : WInv cfg (step cfg w e f) := by
  have hs : ∀ m, w.mem = some m → SInv cfg ⟨w.fs, m⟩ := fun m hm => ⟨hw.1, hw.2 m hm⟩
  cases e with
  | start => exact ⟨hw.1, fun m hm => by cases hm; exact newMem_inv _⟩
  | load => exact runOp_inv hw f (fun m hm => wp_mono (wp_load hu (hs m hm)) (fun _ _ h => h.1) (fun _ _ h => h) (fun _ h => h.1) (fun _ h => h))
  | put i b d =>
    exact runOp_inv hw f (fun m hm => wp_mono (wp_putBlock (hs m hm) i b d) (fun _ _ h => h) (fun _ _ h => h) (fun _ h => h.1) (fun _ h => h))
  | get i b l =>
    refine runOp_inv hw f (fun m hm => wp_mono (wp_getBlock_any i b l) ?_ ?_ ?_ ?_)
    · rintro _ s' ⟨_, rfl⟩; exact hs m hm
    · rintro _ s' rfl; exact hs m hm
    · rintro s' ⟨rfl, _⟩; exact hw.1
    · rintro s' rfl; exact hw.1
  | reset i =>
    exact runOp_inv hw f (fun m hm => wp_mono (wp_resetPiece (hs m hm) i) (fun _ _ h => h.1) (fun _ _ h => h) (fun _ h => h.1) (fun _ h => h))

/-- Empty directories, no process. -/
def World.empty : World := ⟨⟨none, none⟩, none⟩

theorem run_inv (hu : Usable cfg) (es : List (Event × List Fate)) : ∀ {w : World}, WInv cfg w → WInv cfg (run cfg es w) := by
  induction es with
  | nil => intro w h; exact h
  | cons e es ih => intro w h; exact ih (step_inv hu h e.1 e.2)

theorem empty_inv : WInv cfg World.empty := ⟨⟨by simp [World.empty], by simp [World.empty], by simp [World.empty]⟩, by simp [World.empty]⟩

end Drip.Storage
