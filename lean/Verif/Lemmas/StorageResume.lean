import Verif.Props.Storage
/-
Finishing a download that earlier processes began, whatever they did (C41).
-/

namespace Drip.Storage
open Metainfo Spec

variable {cfg : Cfg} {A : Fate → Prop}

/-- What holds while the blocks of `X` are put in a process that found any verified data on the disk. -/
structure Going (X : List Bytes) (s : Sys) : Prop where
  target : s.mem.coalesced = false → s.fs.target = none
  blocks : ∀ (i k : Nat) (p : Piece) (bs : List (Option Bytes)) (b x : Bytes), s.mem.pieces[i]? = some p → p.blocks = some bs → bs[k]? = some (some b) →
    X[i]? = some x → b = blockOf x k
  open_ : ∀ (i : Nat) (p : Piece), s.mem.pieces[i]? = some p → p.coalesced = false → s.mem.futs[p.fut]? = some none
  unfinished : s.mem.coalesced = false → ∃ p ∈ s.mem.pieces, p.coalesced = false
  partial_ : ∀ (i : Nat) (p : Piece) (bs : List (Option Bytes)), s.mem.pieces[i]? = some p → p.coalesced = false → p.blocks = some bs → present bs ≠ bs.length

theorem flat_length {X : List Bytes} (hO : Original cfg X) {s : Sys} (h : SInv cfg s) (hW : ∀ i, i < cfg.info.pieces.length → W s.fs i (dataOf s.fs i)) :
    (flat s.fs (List.range cfg.info.pieces.length)).length = X.flatten.length := by
  unfold flat
  rw [List.length_flatten, List.length_flatten]
  congr 1
  refine List.ext_getElem? fun i => ?_
  by_cases hi : i < cfg.info.pieces.length
  · have hx := List.getElem?_eq_getElem (show i < X.length by rw [hO.contents.1]; exact hi)
    generalize X[i]'(by rw [hO.contents.1]; exact hi) = x at hx
    have hxl := (hO.contents.2 i x hx).2
    obtain ⟨l, hl, hd⟩ := hW i hi
    have := (lookup_verified h.1 hl hd).2
    simp only [List.getElem?_map, hx, List.getElem?_range, hi, Option.map_some]
    congr 1
    omega
  · rw [List.getElem?_eq_none (by simp; omega), List.getElem?_eq_none (by simp; have := hO.contents.1; omega)]

theorem wp_put_going {X : List Bytes} (hO : Original cfg X) {s : Sys} (h : SInv cfg s) (hE : Going X s) {i k : Nat} {x : Bytes}
    (hx : X[i]? = some x) (hk : k * 16384 < x.length) :
    wp AllOk (putBlock cfg i (k * 16384 : Nat) (blockOf x k)) ⟨fun _ s' => SInv cfg s' ∧ Going X s' ∧ Held s'.mem i k ∧ s.mem.coalesced = false,
      fun e s' => e = .blockExists ∧ s' = s ∧ Held s.mem i k, fun _ => False, fun _ => True⟩ s := by
  have hxl := (hO.contents.2 i x hx).2
  have hin : i < cfg.info.pieces.length := by
    have := (List.getElem?_eq_some_iff.mp hx).1
    rw [hO.contents.1] at this; exact this
  have hck : checkBlockSize cfg.info i (k * 16384 : Nat) (blockOf x k).length = .ok () := by
    rw [show ((k * 16384 : Nat) : Int) = (k : Int) * 16384 by omega]
    exact check_grid cfg.info i k (blockOf x k).length (by omega) (by rw [blockOf_length]; omega)
  have hgrid : OnGrid cfg.info i (k * 16384 : Nat) := ⟨by omega, by omega, by omega, by omega⟩
  have hkk : ((k * 16384 : Nat) : Int).toNat / 16384 = k := by omega
  unfold putBlock
  refine wp_bind (wp_lift ?_)
  rw [hck]
  show wp AllOk _ _ s
  refine wp_bind (wp_getMem ?_)
  show wp AllOk (if s.mem.coalesced = true then _ else _) _ s
  by_cases hco : s.mem.coalesced = true
  · rw [if_pos hco]; exact wp_fail ⟨rfl, rfl, .inl hco⟩
  · rw [if_neg hco]
    have hco : s.mem.coalesced = false := by simpa using hco
    have htn : s.fs.target = none := hE.target hco
    refine wp_bind (wp_getPiece ?_ ?_)
    · intro j p hj hp
      have : i = j := by omega
      subst this
      show wp AllOk _ _ s
      dsimp only
      refine wp_seq (wp_putBlockP h hp hck) ?_ ?_ (fun _ h => h.2 hgrid) ?_
      · rintro _ s1 ⟨hs1, hpc, hxb, hfut, hs1e⟩
        rw [hkk] at hxb hs1e
        have hi : i < s.mem.pieces.length := (List.getElem?_eq_some_iff.mp hp).1
        generalize hbs : (blocksOf cfg.info i p).set k (some (blockOf x k)) = bs at hs1e
        generalize hq : ({ p with blocks := some bs, completeBlocks := p.completeBlocks + 1 } : Piece) = q at hs1e
        have hp1 : s1.mem.pieces[i]? = some q := by rw [hs1e]; simp [hi]
        have hqc : q.coalesced = false := by rw [← hq]; exact hpc
        have hqb : q.blocks = some bs := by rw [← hq]
        have hqf : q.fut = p.fut := by rw [← hq]
        have hco1 : s1.mem.coalesced = false := by rw [hs1e]; exact hco
        have hfs1 : s1.fs = s.fs := by rw [hs1e]
        have hfut1 : s1.mem.futs[q.fut]? = some none := by rw [hs1e, hqf]; exact hfut
        have hklt : k < (blocksOf cfg.info i p).length := (List.getElem?_eq_some_iff.mp hxb).1
        have hne : bs ≠ [] := by
          intro e
          have h2 := congrArg List.length (hbs.trans e)
          simp at h2
          rw [h2] at hklt; simp at hklt
        have hbk : ∀ (k' : Nat) (b : Bytes), bs[k']? = some (some b) → b = blockOf x k' := by
          intro k' b hb
          rw [← hbs, List.getElem?_set] at hb
          by_cases hkk' : k = k'
          · subst hkk'; simp [hklt] at hb; exact hb.symm
          · rw [if_neg hkk'] at hb
            cases hpb : p.blocks with
            | none =>
              rw [blocksOf, hpb, Option.getD_none] at hb
              have := (List.mem_replicate.mp (List.mem_of_getElem? hb)).2
              cases this
            | some bs0 =>
              rw [blocksOf, hpb, Option.getD_some] at hb
              exact hE.blocks i k' p bs0 b x hp hpb hb hx
        have hheld : bs[k]? = some (some (blockOf x k)) := by rw [← hbs]; simp [hklt]
        have hjoin : ∀ d, joinBlocks bs = some d → d = x := by
          intro d hd
          have hbl := ((hs1.2.piece i q hp1).blocks hqc bs hqb).1
          have := join_exact x bs 0 d (fun k' b hb => by rw [Nat.zero_add]; exact hbk k' b hb) hd
          rw [this]
          have hnb := (numBlocks_pos (info := cfg.info) (i := i) (by omega)).1
          unfold slice
          rw [Nat.zero_mul, List.drop_zero, List.take_of_length_le (by omega)]
        -- the other pieces
        have hget : ∀ (j : Nat) (r : Piece), s1.mem.pieces[j]? = some r → (j = i ∧ r = q) ∨ (j ≠ i ∧ s.mem.pieces[j]? = some r) := by
          intro j r hr
          rw [hs1e] at hr
          simp only [List.getElem?_set] at hr
          by_cases hj : i = j
          · rw [if_pos hj, if_pos hi] at hr; simp at hr; exact .inl ⟨hj.symm, hr.symm⟩
          · rw [if_neg hj] at hr; exact .inr ⟨fun e => hj e.symm, hr⟩
        refine wp_seq (Q1 := ⟨fun _ s' => SInv cfg s' ∧ s'.mem.coalesced = false ∧ s'.fs.target = none ∧
            (∀ (i k : Nat) (p : Piece) (bs : List (Option Bytes)) (b x : Bytes), s'.mem.pieces[i]? = some p → p.blocks = some bs → bs[k]? = some (some b) →
              X[i]? = some x → b = blockOf x k) ∧
            (∀ (i : Nat) (p : Piece), s'.mem.pieces[i]? = some p → p.coalesced = false → s'.mem.futs[p.fut]? = some none) ∧
            (∀ (i : Nat) (p : Piece) (bs : List (Option Bytes)), s'.mem.pieces[i]? = some p → p.coalesced = false → p.blocks = some bs → present bs ≠ bs.length) ∧
            (∃ p, s'.mem.pieces[i]? = some p ∧ p.held k),
          fun _ _ => False, fun _ => False, fun _ => True⟩) ?_ ?_ (fun _ _ h => h.elim) (fun _ h => h) (fun _ h => h)
        · refine wp_onErr (wp_mono (wp_coalesceBlocks hs1 hp1 hqc hqb hne hfut1) ?_ ?_ (fun _ h => h) (fun _ _ => trivial))
          · rintro _ s2 ⟨h1, h2, h3⟩
            refine ⟨h1, h2.trans hco1, ?_⟩
            rcases h3 with ⟨rfl, hpart⟩ | ⟨hfull, d, hd, hv, hfs, hpcs, hfts⟩
            · refine ⟨by rw [hfs1]; exact htn, ?_, ?_, ?_, q, hp1, .inr ⟨bs, _, hqb, hheld⟩⟩
              · intro j k' r bs' b x' hr hb hkb hx'
                rcases hget j r hr with ⟨rfl, rfl⟩ | ⟨hj, hr'⟩
                · rw [hqb] at hb; cases hb
                  rw [hx] at hx'; cases hx'
                  exact hbk k' b hkb
                · exact hE.blocks j k' r bs' b x' hr' hb hkb hx'
              · intro j r hr hc
                rcases hget j r hr with ⟨rfl, rfl⟩ | ⟨hj, hr'⟩
                · exact hfut1
                · rw [hs1e]; exact hE.open_ j r hr' hc
              · intro j r bs' hr hc hb
                rcases hget j r hr with ⟨rfl, rfl⟩ | ⟨hj, hr'⟩
                · rw [hqb] at hb; cases hb; exact hpart
                · exact hE.partial_ j r bs' hr' hc hb
            · have hget2 : ∀ (j : Nat) (r : Piece), s2.mem.pieces[j]? = some r → (j = i ∧ r.coalesced = true ∧ r.blocks = none) ∨ (j ≠ i ∧ s.mem.pieces[j]? = some r) := by
                intro j r hr
                rw [hpcs, hs1e] at hr
                simp only [List.getElem?_set, List.length_set] at hr
                by_cases hj : i = j
                · rw [if_pos hj, if_pos hi] at hr; simp at hr; exact .inl ⟨hj.symm, by rw [← hr], by rw [← hr]⟩
                · rw [if_neg hj, if_neg hj] at hr; exact .inr ⟨fun e => hj e.symm, hr⟩
              refine ⟨by rw [hfs, hfs1]; exact htn, ?_, ?_, ?_, { q with coalesced := true, blocks := none }, by
                have : i < s1.mem.pieces.length := by rw [hs1e]; simpa using hi
                rw [hpcs]; simp [this], .inl rfl⟩
              · intro j k' r bs' b x' hr hb hkb hx'
                rcases hget2 j r hr with ⟨_, _, hn⟩ | ⟨hj, hr'⟩
                · rw [hn] at hb; cases hb
                · exact hE.blocks j k' r bs' b x' hr' hb hkb hx'
              · intro j r hr hc
                rcases hget2 j r hr with ⟨_, hn, _⟩ | ⟨hj, hr'⟩
                · rw [hn] at hc; cases hc
                · have hne' : p.fut ≠ r.fut := fun e => hj (h.2.inj i j p r hp hr' e).symm
                  rw [hfts, hqf, List.getElem?_set_ne hne', hs1e]
                  exact hE.open_ j r hr' hc
              · intro j r bs' hr hc hb
                rcases hget2 j r hr with ⟨_, hn, _⟩ | ⟨hj, hr'⟩
                · rw [hn] at hc; cases hc
                · exact hE.partial_ j r bs' hr' hc hb
          · rintro e s2 ⟨hs2, hm2, hfull, herr⟩
            exfalso
            rcases herr with herr | ⟨_, _, d, hd, hnv⟩
            · exact noFail herr
            · rw [hjoin d hd] at hnv
              exact hnv (hO.contents.2 i x hx).1
        · rintro _ s2 ⟨h2, hc2, ht2, hb2, ho2, hp2, hh2⟩
          refine wp_mono (wp_coalescePieces h2 hc2) ?_ ?_ (fun _ h => h) (fun _ _ => trivial)
          · rintro _ s3 ⟨h3, h4⟩
            refine ⟨h3, ?_⟩
            rcases h4 with ⟨hs3, hun⟩ | ⟨hall, _, hm, hfs⟩
            · rw [hs3]
              exact ⟨⟨fun _ => ht2, hb2, ho2, fun _ => hun, hp2⟩, .inr hh2, hco⟩
            · have hmc : s3.mem.coalesced = true := by rw [hm]; rfl
              have hmp : s3.mem.pieces = s2.mem.pieces := by rw [hm]; rfl
              refine ⟨⟨(fun e => by rw [hmc] at e; cases e), by rw [hmp]; exact hb2, ?_, ?_, ?_⟩, .inl hmc, hco⟩
              · intro j r hr hc
                rw [hmp] at hr
                rw [hall r (List.mem_of_getElem? hr)] at hc; cases hc
              · intro e; rw [hmc] at e; cases e
              · intro j r bs' hr hc
                rw [hmp] at hr
                rw [hall r (List.mem_of_getElem? hr)] at hc; cases hc
          · rintro e s3 ⟨hall, _, _, herr⟩
            exfalso
            rcases herr with herr | herr
            · exact noFail herr
            · have hW := W_of_coalesced h2 ht2 hall
              rcases herr with h1 | h1 | h1 | ⟨j, hj, h1⟩ | ⟨f, hf, h1⟩ | h1
              · rw [hO.name.1] at h1; cases h1
              · rw [hO.name.2] at h1; cases h1
              · exact h1 ht2
              · exact h1 ⟨_, hW j hj⟩
              · exact hO.paths f hf h1
              · rw [flat_length hO h2 hW] at h1
                have := hO.fit
                omega
      · rintro e s' ⟨_, rfl, rfl, hb⟩
        refine ⟨rfl, rfl, .inr ⟨p, hp, ?_⟩⟩
        by_cases hc : p.coalesced = true
        · exact .inl hc
        · obtain ⟨b, hb⟩ := hb (by simpa using hc)
          rw [hkk] at hb
          cases hpb : p.blocks with
          | none =>
            rw [blocksOf, hpb, Option.getD_none] at hb
            have := (List.mem_replicate.mp (List.mem_of_getElem? hb)).2
            cases this
          | some bs => rw [blocksOf, hpb, Option.getD_some] at hb; exact .inr ⟨bs, b, hpb, hb⟩
      · intro _ _; trivial
    · intro hor
      rw [h.2.len] at hor
      show False
      omega

/-- Errors are due to failures of the os. -/
def Fails (A : Fate → Prop) {α : Type} (p : Op α) : Prop := ∀ s : Sys, wp A p ⟨fun _ _ => True, fun _ _ => ∃ r, A (.fail r), fun _ => True, fun _ => True⟩ s

theorem Fails.pure {α : Type} (a : α) : Fails A (Pure.pure a : Op α) := fun _ => wp_pure trivial
theorem Fails.bind {α β : Type} {p : Op α} {k : α → Op β} (hp : Fails A p) (hk : ∀ a, Fails A (k a)) : Fails A (p >>= k) :=
  fun s => wp_seq (hp s) (fun a s' _ => hk a s') (fun _ _ h => h) (fun _ h => h) (fun _ h => h)
theorem Fails.callTemp : Fails A Op.callTemp := fun _ => wp_call (fun _ _ _ => trivial) (fun h => by cases h) (fun r hr => ⟨r, hr⟩) (fun _ _ => trivial)
theorem Fails.getPiece (i : Int) : Fails A (getPiece i) := fun _ => wp_getPiece (fun _ _ _ _ => trivial) (fun _ => trivial)

theorem fails_completePiece (i : Nat) : Fails A (completePiece i) := by
  unfold completePiece
  refine Fails.bind (Fails.getPiece _) fun x => Fails.bind (fun _ => wp_setPiece trivial) fun _ => Fails.bind (fun _ => wp_deliver (fun _ => trivial) (fun _ => trivial)) fun _ =>
    Fails.bind (fun _ => wp_setPiece trivial) fun _ => ?_
  intro s
  refine wp_bind (wp_getMem (wp_bind (wp_lift ?_)))
  cases h : Bitfield.add s.mem.bitfield i with
  | ok b => exact wp_setMem trivial
  | err e =>
    unfold Bitfield.add at h
    dsimp only at h
    repeat' split at h
    all_goals cases h
  | panic => trivial

theorem fails_completeAll : ∀ is : List Nat, Fails A (completeAll is)
  | [] => Fails.pure _
  | i :: is => Fails.bind (fails_completePiece i) fun _ => fails_completeAll is

theorem fails_complete : Fails A complete := fun _ => wp_bind (wp_getMem (wp_bind (wp_setMem (wp_deliver (fun _ => trivial) (fun _ => trivial)))))

theorem fails_loadEntries : ∀ es : List (Bytes × Bytes), Fails A (loadEntries es)
  | [] => Fails.pure _
  | (name, content) :: es => by
    unfold loadEntries
    cases sscanfPiece name with
    | none => exact fails_loadEntries es
    | some i =>
      exact Fails.bind Fails.callTemp fun _ s => wp_bind (wp_getMem (wp_bind (wp_setMem
        (Fails.bind (Fails.getPiece i) (fun x => Fails.bind (fails_completePiece x.1) fun _ => fails_loadEntries es) _))))

/-- `Load` that succeeds has completed the torrent, or there is no target yet and a piece is missing (or nothing has been done). When it
fails, the os has failed, or all pieces are there and cannot be put together. -/
theorem wp_load_done (hu : Usable cfg) {s : Sys} (h : SInv cfg s) :
    wp A (load cfg) ⟨fun _ s' => s'.mem.coalesced = true ∨ (s'.fs.target = none ∧ (s' = s ∨ ∃ p ∈ s'.mem.pieces, p.coalesced = false)),
      fun _ _ => (∃ r, A (.fail r)) ∨ ∃ s1 : Sys, SInv cfg s1 ∧ s1.fs.target = none ∧ (∀ p ∈ s1.mem.pieces, p.coalesced = true) ∧ Blocked cfg s1.fs, fun _ => True, fun _ => True⟩ s := by
  unfold load
  refine wp_rof (ok := fun o => (o = none ∧ s.fs.target = none) ∨ ∃ t, s.fs.target = some t ∧ o = some (diskSize cfg s.fs)) ?_ ?_ (fun h _ => .inl h) trivial
  · refine wp_call ?_ (fun he => by (repeat' split at he) <;> cases he) (fun r hr => ⟨rfl, r, hr⟩) (fun r _ => rfl)
    intro a fs he
    simp only [hu.name, Bool.false_eq_true, if_false] at he
    cases ht : s.fs.target with
    | none => rw [ht] at he; cases he; exact ⟨.inl ⟨rfl, rfl⟩, rfl⟩
    | some t =>
      cases t <;> rw [ht] at he <;> cases he <;> exact ⟨.inr ⟨_, rfl, by simp [diskSize, ht]⟩, rfl⟩
  · intro o ho
    cases o with
    | some size =>
      rcases ho with ⟨e, _⟩ | ⟨t, ht, e⟩
      · cases e
      · cases e
        have htn : s.fs.target ≠ none := by rw [ht]; simp
        dsimp only
        have hpre : ∀ i ∈ List.range cfg.info.pieces.length, i < cfg.info.pieces.length ∧ HasData s.fs i :=
          fun i hi => ⟨List.mem_range.mp hi, .inl htn⟩
        refine wp_seq (wp_and (wp_completeAll _ h hpre List.nodup_range) (fails_completeAll _ s)) ?_ (fun _ _ h => .inl h.2) (fun _ _ => trivial) (fun _ _ => trivial)
        rintro _ s1 ⟨⟨h1, h2, h3, h4, h5⟩, _⟩
        have hall : ∀ p ∈ s1.mem.pieces, p.coalesced = true := by
          intro p hp
          obtain ⟨i, hi⟩ := List.getElem?_of_mem hp
          have hil := (List.getElem?_eq_some_iff.mp hi).1
          rw [h1.2.len] at hil
          obtain ⟨q, hq, hqc⟩ := (h5 i).mpr (.inr (List.mem_range.mpr hil))
          rw [hi] at hq; cases hq; exact hqc
        refine wp_seq (wp_and (wp_complete_any h1 (by rw [h2]; exact htn) hall) (fails_complete s1)) ?_ (fun _ _ h => .inl h.2) (fun _ _ => trivial) (fun _ _ => trivial)
        rintro _ s2 ⟨⟨g1, g2, g3⟩, _⟩
        exact wp_bind (wp_getMem (wp_setMem (.inl (by rw [g3]; rfl))))
    | none =>
      rcases ho with ⟨_, htn⟩ | ⟨t, ht, e⟩
      · dsimp only
        have hco : s.mem.coalesced = false := by
          cases hc : s.mem.coalesced with
          | false => rfl
          | true => exact absurd htn (h.2.all hc).1
        refine wp_rof (ok := fun o => o = s.fs.work) ?_ ?_ (fun h _ => .inl h) trivial
        · refine wp_call ?_ (fun he => by cases he) (fun r hr => ⟨rfl, r, hr⟩) (fun r _ => rfl)
          intro a fs he
          simp only [Option.some.injEq, Prod.mk.injEq] at he
          obtain ⟨rfl, rfl⟩ := he
          exact ⟨rfl, rfl⟩
        · rintro o ho
          cases o with
          | none => exact wp_pure (.inr ⟨htn, .inl rfl⟩)
          | some es =>
            dsimp only
            have hw := h.1.work es ho.symm
            have hpre : ∀ x ∈ es, ∃ i : Nat, x.1 = pieceName i ∧ i < cfg.info.pieces.length ∧ HasData s.fs i := by
              intro x hx
              obtain ⟨i, h1, h2, _⟩ := hw x hx
              refine ⟨i, h1, verified_lt h2, .inr ⟨es, x.2, ho.symm, ?_⟩⟩
              rw [← h1]
              exact mem_lookup (h.1.nodup es ho.symm) hx
            refine wp_seq (wp_and (wp_loadEntries hu.len es h hpre (h.1.nodup es ho.symm)) (fails_loadEntries es s)) ?_ (fun _ _ h => .inl h.2) (fun _ _ => trivial) (fun _ _ => trivial)
            rintro _ s1 ⟨⟨h1, h2, h3, h4, h5⟩, _⟩
            refine wp_mono (wp_coalescePieces h1 (h3.trans hco)) ?_ (fun _ _ g => ?_) (fun _ _ => trivial) (fun _ _ => trivial)
            · rintro _ s2 ⟨g1, g2⟩
              rcases g2 with ⟨rfl, hun⟩ | ⟨_, _, g2, _⟩
              · exact .inr ⟨by rw [h2]; exact htn, .inr hun⟩
              · exact .inl (by rw [g2]; rfl)
            · rcases g.2.2.2 with g' | g'
              · exact .inl g'
              · exact .inr ⟨s1, h1, by rw [h2]; exact htn, g.1, g'⟩
      · cases e

theorem nc_completeAll : ∀ is : List Nat, NC (completeAll is)
  | [] => NC.pure _
  | i :: is => NC.bind (nc_completePiece i) fun _ => nc_completeAll is

theorem nc_loadEntries : ∀ es : List (Bytes × Bytes), NC (loadEntries es)
  | [] => NC.pure _
  | (name, content) :: es => by
    unfold loadEntries
    cases sscanfPiece name with
    | none => exact nc_loadEntries es
    | some i =>
      refine NC.bind NC.call fun _ => NC.bind NC.getMem fun _ => NC.bind (NC.setMem _) fun _ => NC.bind (NC.getPiece i) fun x => ?_
      exact NC.bind (nc_completePiece x.1) fun _ => nc_loadEntries es

theorem nc_load : NC (load cfg) := by
  unfold load
  refine NC.bind NC.call fun o => ?_
  cases o with
  | some size => exact NC.bind (nc_completeAll _) fun _ => NC.bind nc_complete fun _ => NC.bind NC.getMem fun _ => NC.setMem _
  | none =>
    refine NC.bind NC.call fun o => ?_
    cases o with
    | none => exact NC.pure _
    | some es => exact NC.bind (nc_loadEntries es) fun _ => nc_coalescePieces

end Drip.Storage
