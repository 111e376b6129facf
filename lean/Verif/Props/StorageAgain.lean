import Verif.Props.Storage
/-
Theorems about /repo/storage: `Load` in a process that has used the storage already (C106).
-/

namespace Drip.Storage

variable {cfg : Cfg}

/-! ### C106

"A client that has stopped can be started again in the same process: `Load` (which `Start` calls first) can be called again." -/

/-- C106 does not hold: after one piece was downloaded, `Load` panics. -/
theorem C106_downloaded_refuted :
    (∃ m, (run Ex.single [(.start, []), (.load, []), (.put 1 0 [5, 6], [])] World.empty).mem = some m ∧ Reported m 1) ∧
    (runOp (load Ex.single) (run Ex.single [(.start, []), (.load, []), (.put 1 0 [5, 6], [])] World.empty) []).1 = .panic := by
  refine ⟨?_, by kernel_rfl⟩
  obtain ⟨m, h1, h2, h3⟩ := Ex.of_is (o := (run Ex.single [(.start, []), (.load, []), (.put 1 0 [5, 6], [])] World.empty).mem) (b := [64]) (t := none) (by kernel_rfl)
  refine ⟨m, h1, ?_⟩
  unfold Reported; rw [h2]; rfl

/-- C106 does not hold: `Load` panics when it is called a second time and the first call found something. -/
theorem C106_twice_refuted :
    (reload Ex.single [(.start, []), (.put 1 0 [5, 6], [])] []).1 = .ok () ∧
    (runOp (load Ex.single) (reload Ex.single [(.start, []), (.put 1 0 [5, 6], [])] []).2 []).1 = .panic := ⟨by kernel_rfl, by kernel_rfl⟩

/-- C106, what is true: after every history after which neither the torrent nor a piece has a result yet, `Load` does not panic, and if it succeeds it reports the pieces that were reported before
and those with verified data on disk. Missing: storages with results. -/
theorem C106_partial (hu : Usable cfg) (es : List (Event × List Fate)) (fates : List Fate) {m : Mem} (hm : (run cfg es World.empty).mem = some m)
    (hp : ∀ i e, ¬PieceResult m i e) (ht : ∀ e, ¬TorrentResult m e) :
    (runOp (load cfg) (run cfg es World.empty) fates).1 ≠ .panic ∧
    ((runOp (load cfg) (run cfg es World.empty) fates).1 = .ok () → ∃ m', (runOp (load cfg) (run cfg es World.empty) fates).2.mem = some m' ∧
      ∀ i, i < cfg.info.pieces.length → (Reported m' i ↔ ∃ d, OnDisk cfg (run cfg es World.empty).fs i d)) := by
  have hs := reach hu es hm
  have hfresh : Fresh m := by
    constructor
    · cases hc : m.coalesced with
      | false => rfl
      | true => exact absurd (by have := hs.2.errFut; unfold TorrentResult; simpa only [hc, if_true] using this) (ht none)
    · intro i hi
      obtain ⟨p, hpi⟩ := List.getElem?_eq_some_iff.2 ⟨hi, rfl⟩ |> fun h => (⟨_, h⟩ : ∃ p, m.pieces[i]? = some p)
      have hlt := (hs.2.piece i p hpi).futLt
      refine ⟨p, hpi, ?_⟩
      cases hf : m.futs[p.fut]? with
      | none => rw [List.getElem?_eq_none_iff] at hf; exact absurd hlt (by simpa using hf)
      | some o =>
        cases o with
        | none => rfl
        | some e => exact absurd ⟨p, hpi, hf⟩ (hp i e)
  have hno : ∀ i, ¬Complete m i := fun i hc => hp i none ((pieceResult_nil_iff hs).2 hc)
  rcases runOp_of_wp (w := run cfg es World.empty) hm (wp_load (A := fun _ => True) hu hs) fates (fun _ _ => trivial) with
    ⟨_, s, h1, h2, h3, h4⟩ | ⟨e, s, h1, h2⟩ | ⟨s, _, _, h2⟩ | ⟨s, h1, h2⟩
  · rw [h1]
    refine ⟨by simp, fun _ => ⟨s.mem, rfl, fun i hi => ?_⟩⟩
    rw [reported_iff h2, h3 i hi, onDisk_iff hs.1 hi]
    exact ⟨fun h => h.resolve_left (hno i), .inr⟩
  · rw [h1]; exact ⟨by simp, by simp⟩
  · exact absurd hfresh h2
  · rw [h1]; exact ⟨by simp, by simp⟩

/-- The hypotheses hold when nothing is complete: some blocks of a piece have been received. -/
example : ∃ m, (run Ex.long [(.start, []), (.load, []), (.put 0 0 (List.replicate 16384 0), [])] World.empty).mem = some m ∧ (∀ i e, ¬PieceResult m i e) ∧
    ∀ e, ¬TorrentResult m e := by
  have h : (run Ex.long [(.start, []), (.load, []), (.put 0 0 (List.replicate 16384 0), [])] World.empty).mem.map (·.futs) = some [none, none] := by kernel_rfl
  obtain ⟨m, hm, hf⟩ := Option.map_eq_some_iff.1 h
  have hno : ∀ (k : Nat) (e : Option Err), m.futs[k]? ≠ some (some e) := by
    intro k e hk
    have := List.mem_of_getElem? hk
    rw [hf] at this
    simp at this
  exact ⟨m, hm, fun i e ⟨p, _, hp⟩ => hno _ _ hp, fun e he => hno _ _ he⟩

/-! ### When exactly it panics -/

theorem wp_completePiece_open {A : Fate → Prop} {s : Sys} (h : SInv cfg s) {i : Nat} (hi : i < cfg.info.pieces.length) (hd : HasData s.fs i) :
    wp A (completePiece i) ⟨fun _ s' => SInv cfg s' ∧ s'.fs = s.fs ∧ s'.mem.coalesced = s.mem.coalesced ∧ Open s.mem i ∧ ∀ j, j ≠ i → (Open s'.mem j ↔ Open s.mem j),
      fun _ _ => False, fun _ => ¬Open s.mem i, fun _ => False⟩ s := by
  have hi' : i < s.mem.pieces.length := by rw [h.2.len]; exact hi
  have hp := List.getElem?_eq_getElem hi'
  generalize s.mem.pieces[i] = p at hp
  by_cases hf : s.mem.futs[p.fut]? = some none
  · refine wp_mono (wp_completePiece h hp hf hd) ?_ (fun _ _ h => h.elim) (fun _ h => h.elim) (fun _ h => h.elim)
    rintro _ s' ⟨h1, h2, h3, h4, h5, h6, h7, h8⟩
    refine ⟨h1, h2, h3, ⟨p, hp, hf⟩, fun j hj => ?_⟩
    unfold Open
    rw [h6, h7]
    simp only [List.getElem?_set_ne (fun e => hj e.symm : i ≠ j)]
    constructor
    · rintro ⟨q, hq, hqf⟩
      have hne : q.fut ≠ p.fut := fun e => hj (h.2.inj _ _ _ _ hq hp e)
      exact ⟨q, hq, by rwa [List.getElem?_set_ne (fun e => hne e.symm)] at hqf⟩
    · rintro ⟨q, hq, hqf⟩
      have hne : q.fut ≠ p.fut := fun e => hj (h.2.inj _ _ _ _ hq hp e)
      exact ⟨q, hq, by rwa [List.getElem?_set_ne (fun e => hne e.symm)]⟩
  · unfold completePiece
    refine wp_bind (wp_getPiece ?_ (fun hor => by omega))
    intro j q hj hq
    have : i = j := by omega
    subst this
    rw [hp] at hq; cases hq
    refine wp_bind (wp_setPiece (wp_bind (wp_deliver (fun h => absurd h hf) (fun _ => ?_))))
    rintro ⟨q, hq, hqf⟩
    rw [hp] at hq; cases hq
    exact hf hqf

theorem wp_completeAll_open {A : Fate → Prop} (is : List Nat) : ∀ {s : Sys}, SInv cfg s → (∀ i ∈ is, i < cfg.info.pieces.length ∧ HasData s.fs i) → is.Nodup →
    wp A (completeAll is) ⟨fun _ s' => SInv cfg s' ∧ s'.mem.coalesced = s.mem.coalesced ∧ ∀ i ∈ is, Open s.mem i, fun _ _ => False, fun _ => ¬ ∀ i ∈ is, Open s.mem i, fun _ => False⟩ s := by
  induction is with
  | nil => intro s h _ _; exact wp_pure ⟨h, rfl, by simp⟩
  | cons i is ih =>
    intro s h hd hn
    unfold completeAll
    have ⟨hi, hdi⟩ := hd i (by simp)
    have hne : ∀ j ∈ is, j ≠ i := by rintro j hj rfl; exact (List.nodup_cons.mp hn).1 hj
    refine wp_seq (wp_completePiece_open h hi hdi) ?_ (fun _ _ h => h) ?_ (fun _ h => h)
    · rintro _ s1 ⟨h1, h2, h3, h4, h5⟩
      have hd1 : ∀ j ∈ is, j < cfg.info.pieces.length ∧ HasData s1.fs j := by
        intro j hj; rw [h2]; exact hd j (by simp [hj])
      refine wp_mono (ih h1 hd1 (List.nodup_cons.mp hn).2) ?_ (fun _ _ h => h) ?_ (fun _ h => h)
      · rintro _ s2 ⟨g1, g2, g3⟩
        refine ⟨g1, g2.trans h3, fun j hj => ?_⟩
        rcases List.mem_cons.1 hj with rfl | hj
        · exact h4
        · exact (h5 j (hne j hj)).1 (g3 j hj)
      · intro s2 g hall
        exact g fun j hj => (h5 j (hne j hj)).2 (hall j (by simp [hj]))
    · intro s1 h1 hall; exact h1 (hall i (by simp))

theorem wp_loadEntries_open {A : Fate → Prop} (hlen : cfg.info.pieces.length ≤ 2 ^ 63) (es : List (Bytes × Bytes)) : ∀ {s : Sys}, SInv cfg s →
    (∀ x ∈ es, ∃ i : Nat, x.1 = pieceName i ∧ i < cfg.info.pieces.length ∧ HasData s.fs i) → (es.map Prod.fst).Nodup →
    wp A (loadEntries es) ⟨fun _ s' => SInv cfg s' ∧ s'.mem.coalesced = s.mem.coalesced ∧ ∀ i, pieceName i ∈ es.map Prod.fst → Open s.mem i, fun _ _ => ∃ r, A (.fail r),
      fun _ => ¬ ∀ i, pieceName i ∈ es.map Prod.fst → Open s.mem i, fun _ => ∃ r, A (.crash r)⟩ s := by
  induction es with
  | nil => intro s h _ _; exact wp_pure ⟨h, rfl, by simp⟩
  | cons x es ih =>
    intro s h hd hn
    obtain ⟨name, content⟩ := x
    obtain ⟨i, hx, hi, hdi⟩ := hd _ (List.mem_cons_self ..)
    simp only at hx
    subst hx
    unfold loadEntries
    rw [sscanf_pieceName i (by omega)]
    dsimp only
    refine wp_bind (wp_callTemp ?_ (fun r hr => ⟨r, hr⟩) (fun r hr => ⟨r, hr⟩))
    refine wp_bind (wp_getMem (wp_bind (wp_setMem ?_)))
    have hs1 : SInv cfg { s with mem := { s.mem with downloaded := s.mem.downloaded + content.length } } := ⟨h.1, h.2.downloaded _⟩
    have hni : ∀ j, pieceName j ∈ es.map Prod.fst → j ≠ i := by rintro j hj rfl; exact (List.nodup_cons.mp hn).1 hj
    refine wp_bind (wp_getPiece ?_ ?_)
    · intro j q hj hq
      have : i = j := by omega
      subst this
      show wp A _ _ _
      refine wp_seq (wp_completePiece_open hs1 hi hdi) ?_ (fun _ _ h => h.elim) ?_ (fun _ h => h.elim)
      · rintro _ s2 ⟨h1, h2, h3, h4, h5⟩
        have hd1 : ∀ x ∈ es, ∃ i : Nat, x.1 = pieceName i ∧ i < cfg.info.pieces.length ∧ HasData s2.fs i := by
          intro x hx; rw [h2]; exact hd x (by simp [hx])
        refine wp_mono (ih h1 hd1 (List.nodup_cons.mp hn).2) ?_ (fun _ _ h => h) ?_ (fun _ h => h)
        · rintro _ s3 ⟨g1, g2, g3⟩
          refine ⟨g1, g2.trans h3, fun j hj => ?_⟩
          rw [List.map_cons, List.mem_cons] at hj
          rcases hj with hj | hj
          · rw [pieceName_inj hj]; exact h4
          · exact (h5 j (hni j hj)).1 (g3 j hj)
        · intro s3 g hall
          exact g fun j hj => (h5 j (hni j hj)).2 (hall j (by rw [List.map_cons]; exact List.mem_cons_of_mem _ hj))
      · intro s2 h1 hall
        exact h1 (hall i (by simp))
    · intro hor
      have := h.2.len
      simp only at hor
      omega

/-- Neither the torrent nor any piece that has data on the disk has a result. -/
def Clear (cfg : Cfg) (s : Sys) : Prop := s.mem.coalesced = false ∧ ∀ i, i < cfg.info.pieces.length → HasData s.fs i → Open s.mem i

theorem wp_load_clear {A : Fate → Prop} (hu : Usable cfg) {s : Sys} (h : SInv cfg s) :
    wp A (load cfg) ⟨fun _ _ => Clear cfg s, fun _ _ => (∃ r, A (.fail r)) ∨ Clear cfg s, fun _ => ¬Clear cfg s, fun _ => (∃ r, A (.crash r)) ∨ Clear cfg s⟩ s := by
  unfold load
  refine wp_seq (Q1 := ⟨fun o s' => s' = s ∧ (o = none ↔ s.fs.target = none), fun _ _ => ∃ r, A (.fail r), fun _ => False, fun _ => ∃ r, A (.crash r)⟩) ?_ ?_ (fun _ _ h => .inl h) (fun _ h => h.elim)
    (fun _ h => .inl h)
  · refine wp_call ?_ ?_ (fun r hr => ⟨r, hr⟩) (fun r hr => ⟨r, hr⟩)
    · intro a fs he
      simp only [hu.name, Bool.false_eq_true, if_false] at he
      cases ht : s.fs.target with
      | none => simp [ht] at he; obtain ⟨rfl, rfl⟩ := he; exact ⟨rfl, by simp⟩
      | some t => cases t <;> simp [ht] at he <;> obtain ⟨rfl, rfl⟩ := he <;> exact ⟨rfl, by simp⟩
    · intro he
      simp only [hu.name, Bool.false_eq_true, if_false] at he
      cases ht : s.fs.target with
      | none => simp [ht] at he
      | some t => cases t <;> simp [ht] at he
  · rintro o s' ⟨hs', ho⟩
    subst s'
    cases o with
    | some size =>
      have htn : s.fs.target ≠ none := fun e => by have := ho.2 e; cases this
      dsimp only
      have hpre : ∀ i ∈ List.range cfg.info.pieces.length, i < cfg.info.pieces.length ∧ HasData s.fs i :=
        fun i hi => ⟨List.mem_range.mp hi, .inl htn⟩
      refine wp_seq (wp_completeAll_open _ h hpre List.nodup_range) ?_ (fun _ _ h => h.elim) ?_ (fun _ h => h.elim)
      · rintro _ s1 ⟨h1, h2, h3⟩
        unfold complete
        refine wp_bind (wp_bind (wp_getMem (wp_bind (wp_setMem (wp_deliver ?_ ?_)))))
        · intro hf
          have hf : s1.mem.futs[s1.mem.err]? = some none := hf
          rw [h1.2.errFut] at hf
          refine wp_bind (wp_getMem (wp_setMem ⟨?_, fun i hi _ => h3 i (List.mem_range.mpr hi)⟩))
          rw [← h2]
          cases hc : s1.mem.coalesced with
          | false => rfl
          | true => rw [hc] at hf; cases hf
        · intro hf hcl
          have hf : s1.mem.futs[s1.mem.err]? ≠ some none := hf
          rw [h1.2.errFut, h2, hcl.1] at hf
          exact hf rfl
      · intro s1 h1 hcl
        exact h1 fun i hi => hcl.2 i (List.mem_range.mp hi) (.inl htn)
    | none =>
      have htn := ho.1 rfl
      have hco : s.mem.coalesced = false := by
        cases hc : s.mem.coalesced with
        | false => rfl
        | true => exact absurd htn (h.2.all hc).1
      dsimp only
      refine wp_seq (Q1 := ⟨fun o s' => s' = s ∧ o = s.fs.work, fun _ _ => ∃ r, A (.fail r), fun _ => False, fun _ => ∃ r, A (.crash r)⟩) ?_ ?_ (fun _ _ h => .inl h) (fun _ h => h.elim)
        (fun _ h => .inl h)
      · refine wp_call ?_ (by simp) (fun r hr => ⟨r, hr⟩) (fun r hr => ⟨r, hr⟩)
        intro a fs he
        simp only [Option.some.injEq, Prod.mk.injEq] at he
        obtain ⟨rfl, rfl⟩ := he
        exact ⟨rfl, rfl⟩
      · rintro o s' ⟨hs', ho⟩
        subst s'
        cases o with
        | none =>
          refine wp_pure ⟨hco, fun i _ hd => ?_⟩
          rcases hd with hd | ⟨l, d, hd, _⟩
          · exact absurd htn hd
          · rw [← ho] at hd; cases hd
        | some es =>
          dsimp only
          have hw := h.1.work es ho.symm
          have hpre : ∀ x ∈ es, ∃ i : Nat, x.1 = pieceName i ∧ i < cfg.info.pieces.length ∧ HasData s.fs i := by
            intro x hx
            obtain ⟨i, h1, h2, _⟩ := hw x hx
            refine ⟨i, h1, verified_lt h2, .inr ⟨es, x.2, ho.symm, ?_⟩⟩
            rw [← h1]
            exact mem_lookup (h.1.nodup es ho.symm) hx
          have hhas : ∀ i, HasData s.fs i ↔ pieceName i ∈ es.map Prod.fst := by
            intro i
            constructor
            · rintro (h1 | ⟨l, d, h1, h2⟩)
              · exact absurd htn h1
              · rw [← ho] at h1; cases h1
                exact List.mem_map.mpr ⟨_, lookup_mem h2, rfl⟩
            · intro hm
              obtain ⟨x, hx, hxe⟩ := List.mem_map.mp hm
              obtain ⟨j, h1, _, h3⟩ := hpre x hx
              have := pieceName_inj (hxe.symm.trans h1)
              rw [this]; exact h3
          refine wp_seq (wp_loadEntries_open hu.len es h hpre (h.1.nodup es ho.symm)) ?_ (fun _ _ h => .inl h) ?_ (fun _ h => .inl h)
          · rintro _ s1 ⟨h1, h2, h3⟩
            have hcl : Clear cfg s := ⟨hco, fun i _ hd => h3 i ((hhas i).1 hd)⟩
            exact wp_mono (wp_coalescePieces h1 (h2.trans hco)) (fun _ _ _ => hcl) (fun _ _ _ => .inr hcl) (fun _ h => h.elim) (fun _ _ => .inr hcl)
          · intro s1 h1 hcl
            refine h1 fun i hi => hcl.2 i ?_ ((hhas i).2 hi)
            obtain ⟨x, hx, hxe⟩ := List.mem_map.mp hi
            obtain ⟨j, g1, g2, _⟩ := hpre x hx
            have := pieceName_inj (hxe.symm.trans g1)
            rw [this]; exact g2

/-- C106, exactly: after any history `Load` can only panic if the torrent, or a piece that is on the disk, has a result, and then it does, if the operating system does not fail. Missing: that it does
not panic then. -/
theorem C106_exactly_partial (hu : Usable cfg) (es : List (Event × List Fate)) (fates : List Fate) {m : Mem} (hm : (run cfg es World.empty).mem = some m) :
    ((runOp (load cfg) (run cfg es World.empty) fates).1 = .panic →
      (∃ e, TorrentResult m e) ∨ ∃ i e d, PieceResult m i e ∧ OnDisk cfg (run cfg es World.empty).fs i d) ∧
    ((∀ f ∈ fates, f = .ok) → ((∃ e, TorrentResult m e) ∨ ∃ i e d, PieceResult m i e ∧ OnDisk cfg (run cfg es World.empty).fs i d) →
      (runOp (load cfg) (run cfg es World.empty) fates).1 = .panic) := by
  have hs := reach hu es hm
  have hclear : Clear cfg ⟨(run cfg es World.empty).fs, m⟩ ↔ ¬((∃ e, TorrentResult m e) ∨ ∃ i e d, PieceResult m i e ∧ OnDisk cfg (run cfg es World.empty).fs i d) := by
    have herr : m.futs[m.err]? = some (if m.coalesced then some none else none) := hs.2.errFut
    constructor
    · rintro ⟨h1, h2⟩ (⟨e, h⟩ | ⟨i, e, d, ⟨p, hp, hf⟩, hd⟩)
      · unfold TorrentResult at h
        have h1 : m.coalesced = false := h1
        rw [herr, h1] at h
        cases h
      · have hi : i < cfg.info.pieces.length := verified_lt hd.1
        obtain ⟨q, hq, hqf⟩ := h2 i hi ((onDisk_iff hs.1 hi).1 ⟨d, hd⟩)
        have hq : m.pieces[i]? = some q := hq
        have hqf : m.futs[q.fut]? = some none := hqf
        rw [hp] at hq
        injection hq with hq
        rw [← hq, hf] at hqf
        cases hqf
    · intro h
      refine ⟨?_, fun i hi hd => ?_⟩
      · show m.coalesced = false
        cases hc : m.coalesced with
        | false => rfl
        | true => exact absurd (.inl ⟨none, by unfold TorrentResult; rw [herr, hc]; rfl⟩) h
      · have hl : m.pieces.length = cfg.info.pieces.length := hs.2.len
        have hp := List.getElem?_eq_getElem (show i < m.pieces.length by omega)
        generalize m.pieces[i]'(by omega) = p at hp
        refine ⟨p, hp, ?_⟩
        have hlt : p.fut < m.futs.length := (hs.2.piece i p hp).futLt
        show m.futs[p.fut]? = some none
        cases hf : m.futs[p.fut]? with
        | none => rw [List.getElem?_eq_none_iff] at hf; omega
        | some o =>
          cases o with
          | none => rfl
          | some e =>
            obtain ⟨d, hd⟩ := (onDisk_iff hs.1 hi).2 hd
            exact absurd (.inr ⟨i, e, d, ⟨p, hp, hf⟩, hd⟩) h
  refine ⟨fun hp => ?_, fun hf hr => ?_⟩
  · rcases runOp_of_wp hm (wp_load_clear (A := fun _ => True) hu hs) fates (fun _ _ => trivial) with ⟨_, s, h1, _⟩ | ⟨_, s, h1, _⟩ | ⟨s, _, h⟩ | ⟨s, h1, _⟩
    · rw [h1] at hp; cases hp
    · rw [h1] at hp; cases hp
    · exact Classical.byContradiction fun h' => h (hclear.2 h')
    · rw [h1] at hp; cases hp
  · have hn : ¬Clear cfg ⟨(run cfg es World.empty).fs, m⟩ := fun h => hclear.1 h hr
    rcases runOp_of_wp hm (wp_load_clear (A := AllOk) hu hs) fates hf with ⟨_, s, _, h⟩ | ⟨_, s, _, h⟩ | ⟨s, h1, _⟩ | ⟨s, _, h⟩
    · exact absurd h hn
    · rcases h with h | h
      · exact absurd h noFail
      · exact absurd h hn
    · rw [h1]
    · rcases h with ⟨r, h⟩ | h
      · exact absurd h (allOk_noCrash r)
      · exact absurd h hn

/-- A piece that has failed its checksum has a result, but is not on the disk: `Load` does not panic. -/
example : (runOp (load Ex.single) (run Ex.single [(.start, []), (.load, []), (.put 1 0 [7, 7], [])] World.empty) []).1 = .ok () ∧
    ((run Ex.single [(.start, []), (.load, []), (.put 1 0 [7, 7], [])] World.empty).mem.map fun m => m.futs) = some [none, some (some .checksum), none] := ⟨by kernel_rfl, by kernel_rfl⟩

end Drip.Storage
