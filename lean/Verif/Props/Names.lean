import Verif.Lemmas.StorageNames
import Verif.Lemmas.StorageResume
import Verif.Props.Storage
/-
Theorems about /repo/storage: what `Load` makes of any contents of the directories (C53).
-/

namespace Drip.Storage

variable {cfg : Cfg}

/-- The files that look like pieces are numbered like pieces, and no two have the same number. -/
def Orderly (cfg : Cfg) (files : List (Bytes × Bytes)) : Prop :=
  (∀ x ∈ files, ∀ i, Numbered x.1 i → 0 ≤ i ∧ i < cfg.info.pieces.length) ∧ files.Pairwise fun x y => ∀ i, Numbered x.1 i → ¬Numbered y.1 i

theorem orderly_iff (files : List (Bytes × Bytes)) : Good cfg [] files ↔ Orderly cfg files := by
  unfold Good Orderly
  simp only [sscanf_iff, List.not_mem_nil, not_false_eq_true, and_true, ne_eq]

theorem reported_bit {m : Mem} {i : Nat} : Reported m i ↔ Bitfield.bit m.bitfield i = true := by
  unfold Reported
  by_cases hi : i < 8 * m.bitfield.length
  · rw [Bitfield.has_nat _ _ hi]; simp
  · constructor
    · intro hr
      simp only [Bitfield.has, Bitfield.pos_nat i] at hr
      rw [if_neg (by omega), Int.toNat_natCast, List.getElem?_eq_none (by omega)] at hr
      cases hr
    · intro hb
      unfold Bitfield.bit at hb
      rw [List.getElem?_eq_none (by omega)] at hb
      cases hb

/-- C53 (partial: exactly what happens when there is no target and no call to the os fails). Load panics exactly when a file that looks like a piece has no number of a piece or two have
the same; otherwise the pieces reported are those with a file that looks like them, whatever it contains. -/
theorem C53_exactly_partial (h1 : cfg.info.name ≠ b!"") (h2 : cfg.info.name ≠ b!".") (h3 : cfg.info.name ≠ b!"..") (fs : FS) (ht : fs.target = none) (fates : List Fate) (hf : ∀ x ∈ fates, x = .ok) :
    ((loadFrom cfg fs fates).1 = .panic ↔ ¬Orderly cfg (fs.work.getD [])) ∧
    (Orderly cfg (fs.work.getD []) → ∃ m, (loadFrom cfg fs fates).2.mem = some m ∧ ∀ i : Nat, Reported m i ↔ ∃ x ∈ fs.work.getD [], Numbered x.1 i) := by
  have hn : trivialName cfg.info.name = false := by simp [trivialName, h1, h2, h3]
  have hnc := nc_load (cfg := cfg) AllOk allOk_noCrash ⟨fs, newMem cfg.info⟩
  rw [← orderly_iff]
  rcases runOp_of_wp (w := step cfg ⟨fs, none⟩ .start []) (m := newMem cfg.info) rfl (wp_and (wp_load_names hn (fs := fs)) hnc) fates hf with
    ⟨_, s, e, g, _⟩ | ⟨_, s, e, g, _⟩ | ⟨s, e, g, _⟩ | ⟨s, e, _, g⟩ <;> unfold loadFrom <;> rw [e]
  · refine ⟨⟨fun h => (by cases h), fun h => absurd (g.1 ht) h⟩, fun _ => ⟨s.mem, rfl, fun i => ?_⟩⟩
    rw [reported_bit, g.2 i]
    simp only [sscanf_iff]
    exact ⟨fun h => h.elim (fun h => absurd ht h.1) (·.2), fun h => .inr ⟨ht, h⟩⟩
  · refine ⟨⟨fun h => (by cases h), fun h => absurd g.2.1 h⟩, fun _ => ⟨s.mem, rfl, fun i => ?_⟩⟩
    rw [reported_bit, g.2.2 i]
    simp only [sscanf_iff]
  · exact ⟨⟨fun _ => g.2, fun _ => rfl⟩, fun h => absurd h g.2⟩
  · exact g.elim

/-- C53 (partial: exactly what happens when there is a target and no call to the os fails). Load succeeds and every piece is reported, whatever the target contains and whatever else is there. -/
theorem C53_target_partial (h1 : cfg.info.name ≠ b!"") (h2 : cfg.info.name ≠ b!".") (h3 : cfg.info.name ≠ b!"..") (fs : FS) (ht : fs.target ≠ none) (fates : List Fate) (hf : ∀ x ∈ fates, x = .ok) :
    (loadFrom cfg fs fates).1 = .ok () ∧ ∃ m, (loadFrom cfg fs fates).2.mem = some m ∧ ∀ i : Nat, Reported m i ↔ i < cfg.info.pieces.length := by
  have hn : trivialName cfg.info.name = false := by simp [trivialName, h1, h2, h3]
  have hnc := nc_load (cfg := cfg) AllOk allOk_noCrash ⟨fs, newMem cfg.info⟩
  rcases runOp_of_wp (w := step cfg ⟨fs, none⟩ .start []) (m := newMem cfg.info) rfl (wp_and (wp_load_names hn (fs := fs)) hnc) fates hf with
    ⟨_, s, e, g, _⟩ | ⟨_, s, e, g, _⟩ | ⟨s, e, g, _⟩ | ⟨s, e, _, g⟩ <;> unfold loadFrom <;> rw [e]
  · refine ⟨rfl, s.mem, rfl, fun i => ?_⟩
    rw [reported_bit, g.2 i]
    exact ⟨fun h => h.elim (·.2) (fun h => absurd h.1 ht), fun h => .inl ⟨ht, h⟩⟩
  · exact absurd g.1 ht
  · exact absurd g.1 ht
  · exact g.elim

/-- A directory that is orderly: one file that looks like piece 1, two that do not look like pieces, one whose number does not fit in 64 bits. -/
def Ex.litter : List (Bytes × Bytes) := [(b!"+01.piece.bak", [9]), (b!"x0.piece", [9]), (b!"0.part", [9]), (b!"99999999999999999999.piece", [9])]

/-- It is orderly, and piece 1 is reported. -/
example : Orderly Ex.single Ex.litter ∧ (loadFrom Ex.single ⟨none, some Ex.litter⟩ []).2.mem.map (fun m => decide (Reported m 1)) = some true := by
  refine ⟨?_, by kernel_rfl⟩
  rw [← orderly_iff]
  have h1 : sscanfPiece b!"+01.piece.bak" = some 1 := by kernel_rfl
  have h2 : sscanfPiece b!"x0.piece" = none := by kernel_rfl
  have h3 : sscanfPiece b!"0.part" = none := by kernel_rfl
  have h4 : sscanfPiece b!"99999999999999999999.piece" = none := by kernel_rfl
  simp only [Good, Ex.litter, List.pairwise_cons, List.forall_mem_cons, h1, h2, h3, h4, Option.some.injEq, forall_eq', List.not_mem_nil]
  simp [Ex.single]

/-- Two names of piece 1, not orderly. -/
example : ¬Orderly Ex.single [(b!"1.piece", [5, 6]), (b!"1.piece~", [5, 6])] := by
  intro h
  rw [← orderly_iff] at h
  have := (List.pairwise_cons.mp h.2).1 _ (List.mem_singleton.mpr rfl) 1
  exact this (by kernel_rfl) (by kernel_rfl)

/-- A target that is an empty file. -/
example : (⟨some (.file []), none⟩ : FS).target ≠ none ∧ (loadFrom Ex.single ⟨some (.file []), none⟩ []).2.mem.map (·.bitfield) = some [192] := ⟨by simp, by kernel_rfl⟩

/-! ### C75, exactly -/

theorem load_trivial (hn : cfg.info.name = b!"" ∨ cfg.info.name = b!"." ∨ cfg.info.name = b!"..") (fs : FS) (fates : List Fate) (hf : ∀ x ∈ fates, x = .ok) :
    (loadFrom cfg fs fates).1 = .ok () ∧ ∃ m, (loadFrom cfg fs fates).2.mem = some m ∧ ∀ i : Nat, Reported m i ↔ i < cfg.info.pieces.length := by
  have hn : trivialName cfg.info.name = true := by simp [trivialName, hn, or_assoc]
  have hnc := nc_load (cfg := cfg) AllOk allOk_noCrash ⟨fs, newMem cfg.info⟩
  rcases runOp_of_wp (w := step cfg ⟨fs, none⟩ .start []) (m := newMem cfg.info) rfl (wp_and (wp_load_trivial hn (fs := fs)) hnc) fates hf with
    ⟨_, s, e, g, _⟩ | ⟨_, s, e, g, _⟩ | ⟨s, e, g, _⟩ | ⟨s, e, _, g⟩ <;> unfold loadFrom <;> rw [e]
  · exact ⟨rfl, s.mem, rfl, fun i => by rw [reported_bit]; exact g i⟩
  · exact g.elim
  · exact g.elim
  · exact g.elim

/-- C75 for the names `""`, `.` and `..`: whatever is on the disk, a Load in which no call to the os fails reports every piece. -/
theorem C75_always_refuted (hn : cfg.info.name = b!"" ∨ cfg.info.name = b!"." ∨ cfg.info.name = b!"..") (fs : FS) (fates : List Fate) (hf : ∀ x ∈ fates, x = .ok) :
    ∃ m, (loadFrom cfg fs fates).2.mem = some m ∧ ∀ i : Nat, i < cfg.info.pieces.length → Reported m i := by
  obtain ⟨_, m, h1, h2⟩ := load_trivial hn fs fates hf
  exact ⟨m, h1, fun i hi => (h2 i).mpr hi⟩

/-- C75, exactly: Load reports a piece although the directories are empty if and only if the name is one of these (and there are pieces). -/
theorem C75_exactly_partial (hne : cfg.info.pieces ≠ []) (fates : List Fate) (hf : ∀ x ∈ fates, x = .ok) :
    (∃ m i, (loadFrom cfg ⟨none, none⟩ fates).2.mem = some m ∧ Reported m i) ↔ cfg.info.name = b!"" ∨ cfg.info.name = b!"." ∨ cfg.info.name = b!".." := by
  constructor
  · rintro ⟨m, i, h1, h2⟩
    refine Classical.byContradiction fun hno => ?_
    simp only [not_or] at hno
    obtain ⟨m', e1, e2⟩ := (C53_exactly_partial hno.1 hno.2.1 hno.2.2 ⟨none, none⟩ rfl fates hf).2 (by rw [← orderly_iff]; exact ⟨by simp, List.Pairwise.nil⟩)
    rw [h1] at e1
    injection e1 with e1
    subst e1
    obtain ⟨x, hx, _⟩ := (e2 i).mp h2
    cases hx
  · intro hn
    obtain ⟨m, h1, h2⟩ := C75_always_refuted hn ⟨none, none⟩ fates hf
    exact ⟨m, 0, h1, h2 0 (List.length_pos_iff.mpr hne)⟩

/-- The name `..` and the name `...`. -/
example : (loadFrom { Ex.single with info := { Ex.single.info with name := b!".." } } ⟨none, none⟩ []).2.mem.map (·.bitfield) = some [192] ∧
    (loadFrom { Ex.single with info := { Ex.single.info with name := b!"..." } } ⟨none, none⟩ []).2.mem.map (·.bitfield) = some [0] := ⟨by kernel_rfl, by kernel_rfl⟩

end Drip.Storage
