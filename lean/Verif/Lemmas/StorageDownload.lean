import Verif.Lemmas.StorageGrow
/-
A download in which every block is right and the os never fails.
-/

namespace Drip.Storage
open Metainfo Spec

variable {cfg : Cfg}

/-- Both of two claims about the same code. -/
theorem wp_and {A : Fate → Prop} {α : Type} {p : Op α} {Q R : Post α} {s : Sys} (h1 : wp A p Q s) (h2 : wp A p R s) :
    wp A p ⟨fun a s => Q.ok a s ∧ R.ok a s, fun e s => Q.err e s ∧ R.err e s, fun s => Q.panic s ∧ R.panic s, fun s => Q.crash s ∧ R.crash s⟩ s := by
  intro f hf
  obtain ⟨g1, g2⟩ := h1 f hf
  obtain ⟨g3, _⟩ := h2 f hf
  refine ⟨?_, g2⟩
  revert g1 g3
  cases (p s f).1 <;> exact fun a b => ⟨a, b⟩

/-- No failures. -/
def AllOk (x : Fate) : Prop := x = .ok

theorem noFail : ¬ ∃ r, AllOk (.fail r) := by
  rintro ⟨r, h⟩; cases h


/-! ### No failures, no crash -/

def nc {α : Type} : Post α := ⟨fun _ _ => True, fun _ _ => True, fun _ => True, fun _ => False⟩

/-- An operation during which the process does not die unless it is killed. -/
def NC {α : Type} (p : Op α) : Prop := ∀ A : Fate → Prop, (∀ r, ¬ A (.crash r)) → ∀ s, wp A p nc s

theorem allOk_noCrash : ∀ r, ¬ AllOk (.crash r) := fun r h => by cases h

theorem NC.pure {α : Type} (a : α) : NC (Pure.pure a : Op α) := fun _ hA _ => wp_pure trivial
theorem NC.fail {α : Type} (e : Err) : NC (Op.fail e : Op α) := fun _ hA _ => wp_fail trivial
theorem NC.panic {α : Type} : NC (Op.panic : Op α) := fun _ hA _ => wp_panic trivial
theorem NC.bind {α β : Type} {p : Op α} {k : α → Op β} (h : NC p) (hk : ∀ a, NC (k a)) : NC (p >>= k) :=
  fun A hA s => wp_seq (h A hA s) (fun a s' _ => hk a A hA s') (fun _ _ h => h) (fun _ h => h) (fun _ h => h)
theorem NC.lift {α : Type} (r : Res α) : NC (Op.lift r) := by
  cases r with
  | ok a => exact NC.pure a
  | err e => exact NC.fail e
  | panic => exact NC.panic
theorem NC.call {α : Type} {eff : FS → Option (α × FS)} {part : List Bytes → FS → FS} : NC (Op.call eff part) :=
  fun _ hA _ => wp_call (fun _ _ _ => trivial) (fun _ => trivial) (fun _ _ => trivial) (fun r h => absurd h (hA r))
theorem NC.getMem : NC Op.getMem := fun _ hA _ => wp_getMem trivial
theorem NC.setMem (m : Mem) : NC (Op.setMem m) := fun _ hA _ => wp_setMem trivial
theorem NC.getPiece (i : Int) : NC (getPiece i) := fun _ hA _ => wp_getPiece (fun _ _ _ _ => trivial) (fun _ => trivial)
theorem NC.deliver (id : Nat) (v : Option Err) : NC (deliver id v) := fun _ hA _ => wp_deliver (fun _ => trivial) (fun _ => trivial)
theorem NC.setPiece (i : Nat) (q : Piece) : NC (setPiece i q) := fun _ hA _ => wp_setPiece trivial
theorem NC.ite {α : Type} {c : Prop} [Decidable c] {p q : Op α} (hp : NC p) (hq : NC q) : NC (if c then p else q) := by
  split
  · exact hp
  · exact hq
theorem NC.onErr {α : Type} {p : Op α} {hd : Err → Op Unit} (hp : NC p) (hh : ∀ e, NC (hd e)) : NC (Storage.onErr p hd) := by
  intro A hA s
  refine wp_onErr (wp_mono (hp A hA s) (fun _ _ h => h) ?_ (fun _ h => h) (fun _ h => h))
  intro e s' _
  exact wp_mono (hh e A hA s') (fun _ _ h => h) (fun _ _ h => h) (fun _ h => h) (fun _ h => h)

theorem nc_completePiece (i : Nat) : NC (completePiece i) :=
  NC.bind (NC.getPiece _) fun _ => NC.bind (NC.setPiece _ _) fun _ => NC.bind (NC.deliver _ _) fun _ => NC.bind (NC.setPiece _ _) fun _ =>
    NC.bind NC.getMem fun _ => NC.bind (NC.lift _) fun _ => NC.setMem _
theorem nc_complete : NC complete := NC.bind NC.getMem fun _ => NC.bind (NC.setMem _) fun _ => NC.deliver _ _
theorem nc_readPieces (is : List Nat) : NC (readPieces is) := by
  induction is with
  | nil => exact NC.pure _
  | cons i is ih => exact NC.bind NC.call fun _ => NC.bind NC.call fun _ => NC.bind ih fun _ => NC.pure _
theorem nc_copyN (n : Nat) (is : List Nat) : ∀ buf, NC (copyN n buf is) := by
  induction is with
  | nil => intro buf; exact NC.ite (NC.pure _) (NC.fail _)
  | cons i is ih => intro buf; exact NC.ite (NC.pure _) (NC.bind NC.call fun _ => ih _)
theorem nc_writeFiles (files : List File) : ∀ buf is acc, NC (writeFiles buf is acc files) := by
  induction files with
  | nil => intro buf is acc; exact NC.pure _
  | cons f fs ih =>
    intro buf is acc
    exact NC.ite (NC.fail _) (NC.bind NC.call fun _ => NC.bind NC.call fun _ => NC.bind (nc_copyN _ _ _) fun _ => NC.bind NC.call fun _ => ih _ _ _)
theorem nc_coalescePieces : NC (coalescePieces cfg) := by
  unfold coalescePieces
  refine NC.bind NC.getMem fun m => NC.ite (NC.pure _) (NC.ite ?_ ?_)
  · exact NC.bind NC.call fun _ => NC.bind NC.call fun _ => NC.bind (nc_writeFiles _ _ _ _) fun _ => NC.bind NC.call fun _ =>
      NC.bind NC.call fun _ => nc_complete
  · exact NC.bind NC.call fun _ => NC.bind NC.call fun _ => NC.bind (nc_readPieces _) fun _ => NC.bind NC.call fun _ =>
      NC.bind NC.call fun _ => nc_complete
theorem nc_coalesceBlocks (i : Nat) : NC (coalesceBlocks cfg i) := by
  unfold coalesceBlocks
  refine NC.bind (NC.getPiece _) fun x => NC.ite (NC.pure _) (NC.bind NC.call fun _ => NC.bind NC.call fun _ => ?_)
  cases joinBlocks (x.2.blocks.getD []) with
  | none => exact NC.panic
  | some d => exact NC.bind NC.call fun _ => NC.ite (NC.fail _) (NC.bind NC.call fun _ => NC.bind NC.call fun _ => nc_completePiece _)
theorem nc_putBlockP (i : Nat) (p : Piece) (begin_ : Int) (data : Bytes) : NC (putBlockP cfg.info i p begin_ data) := by
  unfold putBlockP
  refine NC.ite (NC.fail _) (NC.bind ?_ fun bs => NC.bind (NC.setPiece _ _) fun _ => ?_)
  · unfold allocBlocks
    cases p.blocks with
    | some bs => exact NC.pure _
    | none => exact NC.ite NC.panic (NC.pure _)
  · unfold storeBlock
    refine NC.ite NC.panic ?_
    cases bs[(begin_.tdiv blockLength).toNat]? with
    | none => exact NC.panic
    | some o => cases o with
      | none => exact NC.setPiece _ _
      | some b => exact NC.fail _
theorem nc_putBlock (index begin_ : Int) (data : Bytes) : NC (putBlock cfg index begin_ data) := by
  unfold putBlock
  exact NC.bind (NC.lift _) fun _ => NC.bind NC.getMem fun _ => NC.ite (NC.fail _) (NC.bind (NC.getPiece _) fun _ => NC.bind (nc_putBlockP _ _ _ _) fun _ =>
    NC.bind (NC.onErr (nc_coalesceBlocks _) fun _ => NC.bind NC.getMem fun _ => NC.bind (NC.setMem _) fun _ => NC.deliver _ _) fun _ => nc_coalescePieces)

/-- `X` is the content of the torrent, piece by piece, and the torrent is one that can be stored. -/
structure Original (cfg : Cfg) (X : List Bytes) : Prop where
  contents : Contents cfg.sha1 cfg.info X
  nonempty : ∀ x ∈ X, x ≠ []
  some_ : X ≠ []
  name : trivialName cfg.info.name = false ∧ cfg.info.name.contains 47 = false
  paths : ∀ f ∈ cfg.info.files, f.path ≠ []
  fit : fileStart cfg.info.files cfg.info.files.length ≤ X.flatten.length

/-- The block number `k` of a piece. -/
def blockOf (x : Bytes) (k : Nat) : Bytes := slice x (k * 16384) 16384

/-- What holds during such a download. -/
structure Exact (cfg : Cfg) (X : List Bytes) (s : Sys) : Prop where
  target : s.fs.target = if s.mem.coalesced then some (finished cfg.info X.flatten) else none
  gone : s.mem.coalesced = true → s.fs.work = none
  blocks : ∀ (i k : Nat) (p : Piece) (bs : List (Option Bytes)) (b x : Bytes), s.mem.pieces[i]? = some p → p.blocks = some bs → bs[k]? = some (some b) →
    X[i]? = some x → b = blockOf x k
  files : ∀ (i : Nat) (d : Bytes), W s.fs i d → X[i]? = some d
  open_ : ∀ (i : Nat) (p : Piece), s.mem.pieces[i]? = some p → p.coalesced = false → s.mem.futs[p.fut]? = some none
  unfinished : s.mem.coalesced = false → ∃ p ∈ s.mem.pieces, p.coalesced = false
  partial_ : ∀ (i : Nat) (p : Piece) (bs : List (Option Bytes)), s.mem.pieces[i]? = some p → p.coalesced = false → p.blocks = some bs → present bs ≠ bs.length

theorem join_exact (x : Bytes) (bs : List (Option Bytes)) : ∀ (k0 : Nat) (d : Bytes),
    (∀ (k : Nat) (b : Bytes), bs[k]? = some (some b) → b = blockOf x (k0 + k)) → joinBlocks bs = some d → d = slice x (k0 * 16384) (bs.length * 16384) := by
  induction bs with
  | nil => intro k0 d _ h; simp [joinBlocks] at h; simp [slice, ← h]
  | cons o bs ih =>
    intro k0 d hb h
    cases o with
    | none => simp [joinBlocks] at h
    | some b =>
      simp only [joinBlocks, Option.map_eq_some_iff] at h
      obtain ⟨r, hr, rfl⟩ := h
      have h0 := hb 0 b (by simp)
      have h1 := ih (k0 + 1) r (fun k b' hk => by have := hb (k + 1) b' (by simpa using hk); rw [this]; congr 1; omega) hr
      rw [h0, h1]
      simp only [blockOf, slice, Nat.add_zero, List.length_cons]
      rw [show (bs.length + 1) * 16384 = 16384 + bs.length * 16384 by omega, List.take_add, List.drop_drop]
      rw [show k0 * 16384 + 16384 = (k0 + 1) * 16384 by omega]

theorem blockOf_length (x : Bytes) (k : Nat) : (blockOf x k).length = min 16384 (x.length - k * 16384) := by
  simp [blockOf, slice]

theorem check_grid (info : Info) (i : Int) (k : Nat) (len : Int) (hk : (k : Int) * 16384 < info.getPieceLength i)
    (hl : len = min 16384 (info.getPieceLength i - k * 16384)) : checkBlockSize info i (k * 16384) len = .ok () := by
  rw [checkBlockSize_eq]
  have hpl : 0 ≤ info.getPieceLength i := by omega
  have h1 : ¬ ((k : Int) * 16384).tmod 16384 ≠ 0 := by
    rw [Int.tmod_eq_emod_of_nonneg (by omega)]; omega
  rw [if_neg h1, Int.tdiv_eq_ediv_of_nonneg hpl, if_neg]
  simp only [ne_eq, Classical.not_not]
  split <;> omega

theorem numBlocks_pos {info : Info} {i : Int} (h : 0 ≤ info.getPieceLength i) :
    info.getPieceLength i ≤ numBlocks info i * 16384 ∧ ∀ k : Nat, (k : Int) < numBlocks info i ↔ (k : Int) * 16384 < info.getPieceLength i := by
  unfold numBlocks blockLength
  simp only [Int.tdiv_eq_ediv_of_nonneg h, Int.tmod_eq_emod_of_nonneg h]
  split
  · exact ⟨by omega, fun k => by omega⟩
  · exact ⟨by omega, fun k => by omega⟩

/-- `flat` of all pieces. -/
theorem flat_exact {X : List Bytes} {fs : FS} (hX : X.length = cfg.info.pieces.length)
    (hW : ∀ i, i < cfg.info.pieces.length → W fs i (dataOf fs i)) (hf : ∀ (i : Nat) (d : Bytes), W fs i d → X[i]? = some d) :
    flat fs (List.range cfg.info.pieces.length) = X.flatten := by
  unfold flat
  congr 1
  refine List.ext_getElem? fun i => ?_
  by_cases hi : i < cfg.info.pieces.length
  · rw [hf i _ (hW i hi)]
    simp [hi]
  · rw [List.getElem?_eq_none (by simp; omega), List.getElem?_eq_none (by omega)]

/-- The block is held in memory, or the piece or the torrent is complete. -/
def Held (m : Mem) (i k : Nat) : Prop := m.coalesced = true ∨ ∃ p, m.pieces[i]? = some p ∧ p.held k

theorem wp_put_exact {X : List Bytes} (hO : Original cfg X) {s : Sys} (h : SInv cfg s) (hE : Exact cfg X s) {i k : Nat} {x : Bytes}
    (hx : X[i]? = some x) (hk : k * 16384 < x.length) :
    wp AllOk (putBlock cfg i (k * 16384 : Nat) (blockOf x k)) ⟨fun _ s' => SInv cfg s' ∧ Exact cfg X s' ∧ Held s'.mem i k ∧ s.mem.coalesced = false,
      fun e s' => e = .blockExists ∧ s' = s ∧ Held s.mem i k, fun _ => False, fun _ => True⟩ s := by
  have hxl := (hO.contents.2 i x hx).2
  have hin : i < cfg.info.pieces.length := by
    have := (List.getElem?_eq_some_iff.mp hx).1
    rw [hO.contents.1] at this; exact this
  have hck : checkBlockSize cfg.info i (k * 16384 : Nat) (blockOf x k).length = .ok () := by
    rw [show ((k * 16384 : Nat) : Int) = (k : Int) * 16384 by omega]
    exact check_grid cfg.info i k (blockOf x k).length (by omega) (by rw [blockOf_length]; omega)
  have hgrid : OnGrid cfg.info i (k * 16384 : Nat) := ⟨by omega, by omega, by omega, by omega⟩
  have hkk : ((k * 16384 : Nat) : Int).toNat / 16384 = k := by omega
  unfold putBlock
  refine wp_bind (wp_lift ?_)
  rw [hck]
  show wp AllOk _ _ s
  refine wp_bind (wp_getMem ?_)
  show wp AllOk (if s.mem.coalesced = true then _ else _) _ s
  by_cases hco : s.mem.coalesced = true
  · rw [if_pos hco]; exact wp_fail ⟨rfl, rfl, .inl hco⟩
  · rw [if_neg hco]
    have hco : s.mem.coalesced = false := by simpa using hco
    have htn : s.fs.target = none := by rw [hE.target, hco]; rfl
    refine wp_bind (wp_getPiece ?_ ?_)
    · intro j p hj hp
      have : i = j := by omega
      subst this
      show wp AllOk _ _ s
      dsimp only
      refine wp_seq (wp_putBlockP h hp hck) ?_ ?_ (fun _ h => h.2 hgrid) ?_
      · rintro _ s1 ⟨hs1, hpc, hxb, hfut, hs1e⟩
        rw [hkk] at hxb hs1e
        have hi : i < s.mem.pieces.length := (List.getElem?_eq_some_iff.mp hp).1
        generalize hbs : (blocksOf cfg.info i p).set k (some (blockOf x k)) = bs at hs1e
        generalize hq : ({ p with blocks := some bs, completeBlocks := p.completeBlocks + 1 } : Piece) = q at hs1e
        have hp1 : s1.mem.pieces[i]? = some q := by rw [hs1e]; simp [hi]
        have hqc : q.coalesced = false := by rw [← hq]; exact hpc
        have hqb : q.blocks = some bs := by rw [← hq]
        have hqf : q.fut = p.fut := by rw [← hq]
        have hco1 : s1.mem.coalesced = false := by rw [hs1e]; exact hco
        have hfs1 : s1.fs = s.fs := by rw [hs1e]
        have hfut1 : s1.mem.futs[q.fut]? = some none := by rw [hs1e, hqf]; exact hfut
        have hklt : k < (blocksOf cfg.info i p).length := (List.getElem?_eq_some_iff.mp hxb).1
        have hne : bs ≠ [] := by
          intro e
          have h2 := congrArg List.length (hbs.trans e)
          simp at h2
          rw [h2] at hklt; simp at hklt
        have hbk : ∀ (k' : Nat) (b : Bytes), bs[k']? = some (some b) → b = blockOf x k' := by
          intro k' b hb
          rw [← hbs, List.getElem?_set] at hb
          by_cases hkk' : k = k'
          · subst hkk'; simp [hklt] at hb; exact hb.symm
          · rw [if_neg hkk'] at hb
            cases hpb : p.blocks with
            | none =>
              rw [blocksOf, hpb, Option.getD_none] at hb
              have := (List.mem_replicate.mp (List.mem_of_getElem? hb)).2
              cases this
            | some bs0 =>
              rw [blocksOf, hpb, Option.getD_some] at hb
              exact hE.blocks i k' p bs0 b x hp hpb hb hx
        have hheld : bs[k]? = some (some (blockOf x k)) := by rw [← hbs]; simp [hklt]
        have hjoin : ∀ d, joinBlocks bs = some d → d = x := by
          intro d hd
          have hbl := ((hs1.2.piece i q hp1).blocks hqc bs hqb).1
          have := join_exact x bs 0 d (fun k' b hb => by rw [Nat.zero_add]; exact hbk k' b hb) hd
          rw [this]
          have hnb := (numBlocks_pos (info := cfg.info) (i := i) (by omega)).1
          unfold slice
          rw [Nat.zero_mul, List.drop_zero, List.take_of_length_le (by omega)]
        -- the other pieces
        have hget : ∀ (j : Nat) (r : Piece), s1.mem.pieces[j]? = some r → (j = i ∧ r = q) ∨ (j ≠ i ∧ s.mem.pieces[j]? = some r) := by
          intro j r hr
          rw [hs1e] at hr
          simp only [List.getElem?_set] at hr
          by_cases hj : i = j
          · rw [if_pos hj, if_pos hi] at hr; simp at hr; exact .inl ⟨hj.symm, hr.symm⟩
          · rw [if_neg hj] at hr; exact .inr ⟨fun e => hj e.symm, hr⟩
        refine wp_seq (Q1 := ⟨fun _ s' => SInv cfg s' ∧ s'.mem.coalesced = false ∧ s'.fs.target = none ∧
            (∀ (i k : Nat) (p : Piece) (bs : List (Option Bytes)) (b x : Bytes), s'.mem.pieces[i]? = some p → p.blocks = some bs → bs[k]? = some (some b) →
              X[i]? = some x → b = blockOf x k) ∧
            (∀ (i : Nat) (d : Bytes), W s'.fs i d → X[i]? = some d) ∧
            (∀ (i : Nat) (p : Piece), s'.mem.pieces[i]? = some p → p.coalesced = false → s'.mem.futs[p.fut]? = some none) ∧
            (∀ (i : Nat) (p : Piece) (bs : List (Option Bytes)), s'.mem.pieces[i]? = some p → p.coalesced = false → p.blocks = some bs → present bs ≠ bs.length) ∧
            (∃ p, s'.mem.pieces[i]? = some p ∧ p.held k),
          fun _ _ => False, fun _ => False, fun _ => True⟩) ?_ ?_ (fun _ _ h => h.elim) (fun _ h => h) (fun _ h => h)
        · refine wp_onErr (wp_mono (wp_coalesceBlocks hs1 hp1 hqc hqb hne hfut1) ?_ ?_ (fun _ h => h) (fun _ _ => trivial))
          · rintro _ s2 ⟨h1, h2, h3⟩
            refine ⟨h1, h2.trans hco1, ?_⟩
            rcases h3 with ⟨rfl, hpart⟩ | ⟨hfull, d, hd, hv, hfs, hpcs, hfts⟩
            · refine ⟨by rw [hfs1]; exact htn, ?_, by rw [hfs1]; exact hE.files, ?_, ?_, q, hp1, .inr ⟨bs, _, hqb, hheld⟩⟩
              · intro j k' r bs' b x' hr hb hkb hx'
                rcases hget j r hr with ⟨rfl, rfl⟩ | ⟨hj, hr'⟩
                · rw [hqb] at hb; cases hb
                  rw [hx] at hx'; cases hx'
                  exact hbk k' b hkb
                · exact hE.blocks j k' r bs' b x' hr' hb hkb hx'
              · intro j r hr hc
                rcases hget j r hr with ⟨rfl, rfl⟩ | ⟨hj, hr'⟩
                · exact hfut1
                · rw [hs1e]; exact hE.open_ j r hr' hc
              · intro j r bs' hr hc hb
                rcases hget j r hr with ⟨rfl, rfl⟩ | ⟨hj, hr'⟩
                · rw [hqb] at hb; cases hb; exact hpart
                · exact hE.partial_ j r bs' hr' hc hb
            · have hget2 : ∀ (j : Nat) (r : Piece), s2.mem.pieces[j]? = some r → (j = i ∧ r.coalesced = true ∧ r.blocks = none) ∨ (j ≠ i ∧ s.mem.pieces[j]? = some r) := by
                intro j r hr
                rw [hpcs, hs1e] at hr
                simp only [List.getElem?_set, List.length_set] at hr
                by_cases hj : i = j
                · rw [if_pos hj, if_pos hi] at hr; simp at hr; exact .inl ⟨hj.symm, by rw [← hr], by rw [← hr]⟩
                · rw [if_neg hj, if_neg hj] at hr; exact .inr ⟨fun e => hj e.symm, hr⟩
              refine ⟨by rw [hfs, hfs1]; exact htn, ?_, ?_, ?_, ?_, { q with coalesced := true, blocks := none }, by
                have : i < s1.mem.pieces.length := by rw [hs1e]; simpa using hi
                rw [hpcs]; simp [this], .inl rfl⟩
              · intro j k' r bs' b x' hr hb hkb hx'
                rcases hget2 j r hr with ⟨_, _, hn⟩ | ⟨hj, hr'⟩
                · rw [hn] at hb; cases hb
                · exact hE.blocks j k' r bs' b x' hr' hb hkb hx'
              · rintro j c ⟨l, hl, hc⟩
                rw [hfs, hfs1] at hl
                cases hl
                rw [lookup_store] at hc
                by_cases hj : pieceName j = pieceName i
                · rw [if_pos hj] at hc; cases hc
                  rw [pieceName_inj hj, hjoin d hd]; exact hx
                · rw [if_neg hj] at hc
                  cases hw : s.fs.work with
                  | none => rw [hw] at hc; cases hc
                  | some l => rw [hw] at hc; exact hE.files j c ⟨l, hw, hc⟩
              · intro j r hr hc
                rcases hget2 j r hr with ⟨_, hn, _⟩ | ⟨hj, hr'⟩
                · rw [hn] at hc; cases hc
                · have hne' : p.fut ≠ r.fut := fun e => hj (h.2.inj i j p r hp hr' e).symm
                  rw [hfts, hqf, List.getElem?_set_ne hne', hs1e]
                  exact hE.open_ j r hr' hc
              · intro j r bs' hr hc hb
                rcases hget2 j r hr with ⟨_, hn, _⟩ | ⟨hj, hr'⟩
                · rw [hn] at hc; cases hc
                · exact hE.partial_ j r bs' hr' hc hb
          · rintro e s2 ⟨hs2, hm2, hfull, herr⟩
            exfalso
            rcases herr with herr | ⟨_, _, d, hd, hnv⟩
            · exact noFail herr
            · rw [hjoin d hd] at hnv
              exact hnv (hO.contents.2 i x hx).1
        · rintro _ s2 ⟨h2, hc2, ht2, hb2, hf2, ho2, hp2, hh2⟩
          refine wp_mono (wp_coalescePieces h2 hc2) ?_ ?_ (fun _ h => h) (fun _ _ => trivial)
          · rintro _ s3 ⟨h3, h4⟩
            refine ⟨h3, ?_⟩
            rcases h4 with ⟨hs3, hun⟩ | ⟨hall, _, hm, hfs⟩
            · rw [hs3]
              exact ⟨⟨by rw [hc2]; exact ht2, (fun e => by rw [hc2] at e; cases e), hb2, hf2, ho2, fun _ => hun, hp2⟩, .inr hh2, hco⟩
            · have hflat := flat_exact (cfg := cfg) hO.contents.1 (W_of_coalesced h2 ht2 hall) hf2
              rw [hflat] at hfs
              have hmc : s3.mem.coalesced = true := by rw [hm]; rfl
              have hmp : s3.mem.pieces = s2.mem.pieces := by rw [hm]; rfl
              refine ⟨⟨by rw [hfs, hmc]; rfl, (fun _ => by rw [hfs]), by rw [hmp]; exact hb2, ?_, ?_, ?_, ?_⟩, .inl hmc, hco⟩
              · rintro j d ⟨l, hl, _⟩
                rw [hfs] at hl; cases hl
              · intro j r hr hc
                rw [hmp] at hr
                rw [hall r (List.mem_of_getElem? hr)] at hc; cases hc
              · intro e; rw [hmc] at e; cases e
              · intro j r bs' hr hc
                rw [hmp] at hr
                rw [hall r (List.mem_of_getElem? hr)] at hc; cases hc
          · rintro e s3 ⟨hall, _, _, herr⟩
            exfalso
            rcases herr with herr | herr
            · exact noFail herr
            · have hW := W_of_coalesced h2 ht2 hall
              rcases herr with h1 | h1 | h1 | ⟨j, hj, h1⟩ | ⟨f, hf, h1⟩ | h1
              · rw [hO.name.1] at h1; cases h1
              · rw [hO.name.2] at h1; cases h1
              · exact h1 ht2
              · exact h1 ⟨_, hW j hj⟩
              · exact hO.paths f hf h1
              · rw [flat_exact (cfg := cfg) hO.contents.1 hW hf2] at h1
                have := hO.fit
                omega
      · rintro e s' ⟨_, rfl, rfl, hb⟩
        refine ⟨rfl, rfl, .inr ⟨p, hp, ?_⟩⟩
        by_cases hc : p.coalesced = true
        · exact .inl hc
        · obtain ⟨b, hb⟩ := hb (by simpa using hc)
          rw [hkk] at hb
          cases hpb : p.blocks with
          | none =>
            rw [blocksOf, hpb, Option.getD_none] at hb
            have := (List.mem_replicate.mp (List.mem_of_getElem? hb)).2
            cases this
          | some bs => rw [blocksOf, hpb, Option.getD_some] at hb; exact .inr ⟨bs, b, hpb, hb⟩
      · intro _ _; trivial
    · intro hor
      rw [h.2.len] at hor
      show False
      omega

/-! ### The whole download -/

theorem newMem_get {info : Info} {i : Nat} {p : Piece} (hp : (newMem info).pieces[i]? = some p) : i < info.pieces.length ∧ p = { fut := i } := by
  have hi := (List.getElem?_eq_some_iff.mp hp).1
  simp only [newMem, List.length_map, List.length_range] at hi
  simp [newMem, hi] at hp
  exact ⟨hi, hp.symm⟩

theorem newMem_exact {X : List Bytes} (hO : Original cfg X) : Exact cfg X ⟨⟨none, none⟩, newMem cfg.info⟩ := by
  refine ⟨rfl, (fun _ => rfl), ?_, ?_, ?_, ?_, ?_⟩
  · intro i k p bs b x hp hb
    obtain ⟨_, rfl⟩ := newMem_get hp
    cases hb
  · rintro i d ⟨l, hl, _⟩; cases hl
  · intro i p hp _
    obtain ⟨hi, rfl⟩ := newMem_get hp
    simp only [newMem]
    rw [List.getElem?_replicate, if_pos (by omega)]
  · intro _
    have : 0 < cfg.info.pieces.length := by rw [← hO.contents.1]; exact List.length_pos_iff.mpr hO.some_
    refine ⟨{ fut := 0 }, List.mem_of_getElem? (i := 0) ?_, rfl⟩
    simp [newMem, this]
  · intro i p bs hp _ hb
    obtain ⟨_, rfl⟩ := newMem_get hp
    cases hb

/-- A block of the content with the fates of the os calls made when it is put. -/
structure Delivery where
  piece : Nat
  block : Nat
  fates : List Fate

/-- The event of a delivery of a block of `X`. -/
def Delivery.event (X : List Bytes) (d : Delivery) : Event × List Fate :=
  (.put d.piece (d.block * 16384 : Nat) (blockOf ((X[d.piece]?).getD []) d.block), d.fates)

/-- The block is one of the content. -/
def Delivery.Of (X : List Bytes) (d : Delivery) : Prop := ∃ x, X[d.piece]? = some x ∧ d.block * 16384 < x.length

theorem held_mono {m m' : Mem} (h : Grows (fun _ => False) m m') (hc : m.coalesced = true → m'.coalesced = true) {i k : Nat} (hk : Held m i k) : Held m' i k := by
  rcases hk with hk | ⟨p, h1, h2⟩
  · exact .inl (hc hk)
  · obtain ⟨q, g1, _, g3⟩ := h i p h1
    exact .inr ⟨q, g1, g3 id k h2⟩

theorem step_exact {X : List Bytes} (hO : Original cfg X) {fs : FS} {m : Mem} (h : SInv cfg ⟨fs, m⟩) (hE : Exact cfg X ⟨fs, m⟩) (d : Delivery) (hd : d.Of X)
    (hf : ∀ x ∈ d.fates, x = .ok) : ∃ fs' m', step cfg ⟨fs, some m⟩ (d.event X).1 (d.event X).2 = ⟨fs', some m'⟩ ∧ SInv cfg ⟨fs', m'⟩ ∧ Exact cfg X ⟨fs', m'⟩ ∧
      Held m' d.piece d.block ∧ ∀ i k, Held m i k → Held m' i k := by
  obtain ⟨x, hx, hk⟩ := hd
  have h1 := wp_and (wp_and (wp_put_exact hO h hE hx hk) (nc_putBlock (cfg := cfg) d.piece (d.block * 16384 : Nat) (blockOf x d.block) _ allOk_noCrash ⟨fs, m⟩))
    (mono_putBlock (A := AllOk) (X := fun _ => False) (cfg := cfg) d.piece (d.block * 16384 : Nat) (blockOf x d.block) ⟨fs, m⟩ m (Grows.refl m))
  have h2 := (h1 d.fates hf).1
  simp only [Delivery.event, hx, Option.getD_some, step, runOp]
  rcases hr : putBlock cfg d.piece (d.block * 16384 : Nat) (blockOf x d.block) ⟨fs, m⟩ d.fates with ⟨o, s', f'⟩
  rw [hr] at h2
  cases o with
  | ok u =>
    obtain ⟨⟨⟨g1, g2, g3, g4⟩, _⟩, g5⟩ := h2
    exact ⟨s'.fs, s'.mem, rfl, g1, g2, g3, fun i k hk => held_mono g5 (fun e => by have g4 : m.coalesced = false := g4; rw [g4] at e; cases e) hk⟩
  | err e =>
    obtain ⟨⟨⟨_, g1, g2⟩, _⟩, _⟩ := h2
    have g1 : s' = ⟨fs, m⟩ := g1
    rw [g1]
    exact ⟨fs, m, rfl, h, hE, g2, fun _ _ => id⟩
  | panic => exact h2.1.1.elim
  | crash => exact h2.1.2.elim

theorem run_exact {X : List Bytes} (hO : Original cfg X) (ds : List Delivery) : ∀ {fs : FS} {m : Mem}, SInv cfg ⟨fs, m⟩ → Exact cfg X ⟨fs, m⟩ →
    (∀ d ∈ ds, d.Of X ∧ ∀ x ∈ d.fates, x = .ok) → ∃ fs' m', run cfg (ds.map (Delivery.event X)) ⟨fs, some m⟩ = ⟨fs', some m'⟩ ∧ SInv cfg ⟨fs', m'⟩ ∧
      Exact cfg X ⟨fs', m'⟩ ∧ (∀ d ∈ ds, Held m' d.piece d.block) ∧ ∀ i k, Held m i k → Held m' i k := by
  induction ds with
  | nil => intro fs m h hE _; exact ⟨fs, m, rfl, h, hE, by simp, fun _ _ => id⟩
  | cons d ds ih =>
    intro fs m h hE hd
    obtain ⟨fs1, m1, h1, h2, h3, h4, h5⟩ := step_exact hO h hE d (hd d (by simp)).1 (hd d (by simp)).2
    obtain ⟨fs2, m2, g1, g2, g3, g4, g5⟩ := ih h2 h3 (fun e he => hd e (by simp [he]))
    refine ⟨fs2, m2, ?_, g2, g3, ?_, fun i k hk => g5 i k (h5 i k hk)⟩
    · rw [List.map_cons, run.eq_def]
      show run cfg _ (step cfg ⟨fs, some m⟩ (d.event X).1 (d.event X).2) = _
      rw [h1]; exact g1
    · intro e he
      rcases List.mem_cons.mp he with rfl | he
      · exact g5 _ _ h4
      · exact g4 e he

/-- If all blocks are held, the torrent is complete. -/
theorem held_all {X : List Bytes} (hO : Original cfg X) {s : Sys} (h : SInv cfg s) (hE : Exact cfg X s)
    (hall : ∀ (i k : Nat) (x : Bytes), X[i]? = some x → k * 16384 < x.length → Held s.mem i k) : s.mem.coalesced = true := by
  cases hc : s.mem.coalesced with
  | true => rfl
  | false =>
    exfalso
    obtain ⟨p, hp, hpc⟩ := hE.unfinished hc
    obtain ⟨i, hi⟩ := List.getElem?_of_mem hp
    have hin : i < X.length := by
      have := (List.getElem?_eq_some_iff.mp hi).1
      rw [h.2.len] at this; rw [hO.contents.1]; exact this
    have hx := List.getElem?_eq_getElem hin
    generalize X[i] = x at hx
    have hxl := (hO.contents.2 i x hx).2
    have hx0 : 0 < x.length := List.length_pos_iff.mpr (hO.nonempty x (List.mem_of_getElem? hx))
    have hheld : ∀ k, k * 16384 < x.length → ∃ bs b, p.blocks = some bs ∧ bs[k]? = some (some b) := by
      intro k hk
      rcases hall i k x hx hk with e | ⟨q, hq, hh⟩
      · rw [hc] at e; cases e
      · rw [hi] at hq; cases hq
        rcases hh with e | hh
        · rw [hpc] at e; cases e
        · exact hh
    obtain ⟨bs, _, hbs, _⟩ := hheld 0 (by omega)
    refine hE.partial_ i p bs hi hpc hbs ?_
    have hlen := ((h.2.piece i p hi).blocks hpc bs hbs).1
    have hnb := (numBlocks_pos (info := cfg.info) (i := i) (by omega)).2
    unfold present
    rw [List.countP_eq_length]
    intro o ho
    obtain ⟨k, hk⟩ := List.getElem?_of_mem ho
    have hkl := (List.getElem?_eq_some_iff.mp hk).1
    obtain ⟨bs', b, e1, e2⟩ := hheld k (by have := (hnb k).mp (by omega); omega)
    rw [hbs] at e1; cases e1
    rw [hk] at e2; cases e2
    rfl

end Drip.Storage
