import Verif.Lemmas.StorageDownload
/-
One piece on its own: blocks held, the checksum failing, downloading it again.
-/

namespace Drip.Storage
open Metainfo Spec

variable {A : Fate → Prop} {cfg : Cfg}

theorem blocksOf_some {info : Info} {i : Nat} {p : Piece} {k : Nat} {b : Bytes} (h : (blocksOf info i p)[k]? = some (some b)) :
    ∃ bs, p.blocks = some bs ∧ bs[k]? = some (some b) := by
  cases hpb : p.blocks with
  | none =>
    rw [blocksOf, hpb, Option.getD_none] at h
    have := (List.mem_replicate.mp (List.mem_of_getElem? h)).2
    cases this
  | some bs => exact ⟨bs, rfl, by rw [blocksOf, hpb, Option.getD_some] at h; exact h⟩

/-- A block that is held, of the right size, is refused and nothing changes. -/
theorem wp_put_dup {s : Sys} (h : SInv cfg s) {i : Nat} {begin_ : Int} {data : Bytes} (hg : OnGrid cfg.info i begin_)
    (hck : checkBlockSize cfg.info i begin_ data.length = .ok ()) (hh : Held s.mem i (begin_.toNat / 16384)) :
    wp A (putBlock cfg i begin_ data) ⟨fun _ _ => False, fun e s' => e = .blockExists ∧ s' = s, fun _ => False, fun _ => False⟩ s := by
  unfold putBlock
  refine wp_bind (wp_lift ?_)
  rw [hck]
  show wp A _ _ s
  refine wp_bind (wp_getMem ?_)
  show wp A (if s.mem.coalesced = true then _ else _) _ s
  by_cases hco : s.mem.coalesced = true
  · rw [if_pos hco]; exact wp_fail ⟨rfl, rfl⟩
  · rw [if_neg hco]
    refine wp_bind (wp_getPiece ?_ ?_)
    · intro j p hj hp
      have : i = j := by omega
      subst this
      show wp A _ _ s
      dsimp only
      have hh : p.held (begin_.toNat / 16384) := by
        rcases hh with e | ⟨q, hq, hh⟩
        · exact absurd e hco
        · rw [hp] at hq; cases hq; exact hh
      refine wp_seq (Q1 := ⟨fun _ _ => False, fun e s' => e = .blockExists ∧ s' = s, fun _ => False, fun _ => False⟩) ?_ (fun _ _ h => h.elim) (fun _ _ h => h) (fun _ h => h) (fun _ h => h)
      unfold putBlockP
      by_cases hc : p.coalesced = true
      · rw [if_pos hc]; exact wp_fail ⟨rfl, rfl⟩
      · rw [if_neg hc]
        have hc : p.coalesced = false := by simpa using hc
        rcases hh with e | ⟨bs, b, hb, hk⟩
        · rw [hc] at e; cases e
        · unfold allocBlocks
          rw [hb]
          refine wp_bind (wp_pure ?_)
          refine wp_bind (wp_setPiece ?_)
          have hi := (List.getElem?_eq_some_iff.mp hp).1
          have hk0 : 0 ≤ begin_ := hg.2.2.1
          have hdiv : begin_.tdiv blockLength = ((begin_.toNat / 16384 : Nat) : Int) := by
            rw [Int.tdiv_eq_ediv_of_nonneg hk0]; unfold blockLength; omega
          show wp A (storeBlock i p bs (begin_.tdiv blockLength) data) _ _
          unfold storeBlock
          rw [hdiv, if_neg (by omega), Int.toNat_natCast, hk]
          refine wp_fail ⟨rfl, ?_⟩
          have : ({ p with blocks := some bs } : Piece) = p := by rw [← hb]
          rw [this]
          have : s.mem.pieces.set i p = s.mem.pieces := by
            refine List.ext_getElem? fun j => ?_
            rw [List.getElem?_set]
            by_cases hj : i = j
            · subst hj; rw [if_pos rfl, if_pos hi, hp]
            · simp [hj]
          rw [this]
    · intro hor
      rw [h.2.len] at hor
      have := hg.1
      have := hg.2.1
      show False
      omega

/-- A block that was accepted is held. -/
theorem wp_put_held {s : Sys} (h : SInv cfg s) {i : Nat} {begin_ : Int} {data : Bytes} (hg : OnGrid cfg.info i begin_) :
    wp A (putBlock cfg i begin_ data) ⟨fun _ s' => checkBlockSize cfg.info i begin_ data.length = .ok () ∧ Held s'.mem i (begin_.toNat / 16384),
      fun _ _ => True, fun _ => True, fun _ => True⟩ s := by
  unfold putBlock
  refine wp_bind (wp_lift ?_)
  cases hck : checkBlockSize cfg.info i begin_ data.length with
  | err e => trivial
  | panic => trivial
  | ok u =>
    show wp A _ _ s
    refine wp_bind (wp_getMem ?_)
    show wp A (if s.mem.coalesced = true then _ else _) _ s
    by_cases hco : s.mem.coalesced = true
    · rw [if_pos hco]; exact wp_fail trivial
    · rw [if_neg hco]
      refine wp_bind (wp_getPiece ?_ (fun _ => trivial))
      intro j p hj hp
      have : i = j := by omega
      subst this
      show wp A _ _ s
      dsimp only
      refine wp_seq (wp_putBlockP h hp hck) ?_ (fun _ _ _ => trivial) (fun _ _ => trivial) (fun _ _ => trivial)
      rintro _ s1 ⟨_, hpc, hxb, _, hs1⟩
      have hi := (List.getElem?_eq_some_iff.mp hp).1
      have hk := (List.getElem?_eq_some_iff.mp hxb).1
      have hh : Held s1.mem i (begin_.toNat / 16384) := by
        refine .inr ⟨_, by rw [hs1]; simp [hi]; rfl, .inr ⟨_, data, rfl, ?_⟩⟩
        simp [hk]
      have hm : Mono A (fun _ => False) (onErr (coalesceBlocks cfg i) (fun e => do
          let m ← Op.getMem
          Op.setMem { m with downloaded := m.downloaded + cfg.info.getPieceLength i }
          deliver p.fut (some e)) >>= fun _ => coalescePieces cfg) := by
        refine Mono.bind (Mono.onErr (mono_coalesceBlocks i) fun e => ?_) (fun _ => mono_coalescePieces)
        intro s2 m2 h2
        refine wp_bind (wp_getMem (wp_bind (wp_setMem ?_)))
        exact Mono.deliver _ _ _ _ (h2.of_pieces rfl)
      refine wp_mono (hm s1 s1.mem (Grows.refl _)) ?_ (fun _ _ _ => trivial) (fun _ _ => trivial) (fun _ _ => trivial)
      intro _ s2 hg2
      refine ⟨rfl, ?_⟩
      rcases hh with e | ⟨q, hq, hh⟩
      · rw [hs1] at e; exact absurd e hco
      · obtain ⟨q', h1, _, h3⟩ := hg2 i q hq
        exact .inr ⟨q', h1, h3 id _ hh⟩

/-- Claims that only say that an error is not a checksum failure. -/
def nck {α : Type} : Post α := ⟨fun _ _ => True, fun e _ => e ≠ .checksum, fun _ => True, fun _ => True⟩

/-- An operation that does not report a checksum failure. -/
def NCk (A : Fate → Prop) {α : Type} (p : Op α) : Prop := ∀ s, wp A p nck s

theorem NCk.pure {α : Type} (a : α) : NCk A (Pure.pure a : Op α) := fun _ => wp_pure trivial
theorem NCk.fail {α : Type} {e : Err} (h : e ≠ .checksum) : NCk A (Op.fail e : Op α) := fun _ => wp_fail h
theorem NCk.bind {α β : Type} {p : Op α} {k : α → Op β} (h : NCk A p) (hk : ∀ a, NCk A (k a)) : NCk A (p >>= k) :=
  fun s => wp_seq (h s) (fun a s' _ => hk a s') (fun _ _ h => h) (fun _ h => h) (fun _ h => h)
theorem NCk.call {α : Type} {eff : FS → Option (α × FS)} {part : List Bytes → FS → FS} : NCk A (Op.call eff part) :=
  fun _ => wp_call (fun _ _ _ => trivial) (fun _ => by intro e; cases e) (fun _ _ => by intro e; cases e) (fun _ _ => trivial)
theorem NCk.ite {α : Type} {c : Prop} [Decidable c] {p q : Op α} (hp : NCk A p) (hq : NCk A q) : NCk A (if c then p else q) := by
  split
  · exact hp
  · exact hq
theorem nck_complete : NCk A complete := fun _ => wp_bind (wp_getMem (wp_bind (wp_setMem (wp_deliver (fun _ => trivial) (fun _ => trivial)))))
theorem nck_readPieces (is : List Nat) : NCk A (readPieces is) := by
  induction is with
  | nil => exact NCk.pure _
  | cons i is ih => exact NCk.bind NCk.call fun _ => NCk.bind NCk.call fun _ => NCk.bind ih fun _ => NCk.pure _
theorem nck_copyN (n : Nat) (is : List Nat) : ∀ buf, NCk A (copyN n buf is) := by
  induction is with
  | nil => intro buf; exact NCk.ite (NCk.pure _) (NCk.fail (by intro e; cases e))
  | cons i is ih => intro buf; exact NCk.ite (NCk.pure _) (NCk.bind NCk.call fun _ => ih _)
theorem nck_writeFiles (files : List File) : ∀ buf is acc, NCk A (writeFiles buf is acc files) := by
  induction files with
  | nil => intro buf is acc; exact NCk.pure _
  | cons f fs ih =>
    intro buf is acc
    exact NCk.ite (NCk.fail (by intro e; cases e)) (NCk.bind NCk.call fun _ => NCk.bind NCk.call fun _ => NCk.bind (nck_copyN _ _ _) fun _ => NCk.bind NCk.call fun _ => ih _ _ _)
theorem nck_coalescePieces : NCk A (coalescePieces cfg) := by
  unfold coalescePieces
  refine NCk.bind (fun _ => wp_getMem trivial) fun m => NCk.ite (NCk.pure _) (NCk.ite ?_ ?_)
  · exact NCk.bind NCk.call fun _ => NCk.bind NCk.call fun _ => NCk.bind (nck_writeFiles _ _ _ _) fun _ => NCk.bind NCk.call fun _ =>
      NCk.bind NCk.call fun _ => nck_complete
  · exact NCk.bind NCk.call fun _ => NCk.bind NCk.call fun _ => NCk.bind (nck_readPieces _) fun _ => NCk.bind NCk.call fun _ =>
      NCk.bind NCk.call fun _ => nck_complete

/-- All the blocks of piece `i` are held and its future has been delivered an error. -/
def Stuck (m : Mem) (i : Nat) : Prop := ∃ p bs e, m.pieces[i]? = some p ∧ p.coalesced = false ∧ p.blocks = some bs ∧ (∀ x ∈ bs, x ≠ none) ∧
  m.futs[p.fut]? = some (some (some e))

/-- When the data of a piece turns out wrong, the piece is stuck. -/
theorem wp_put_checksum {s : Sys} (h : SInv cfg s) {i : Nat} {begin_ : Int} {data : Bytes} :
    wp A (putBlock cfg i begin_ data) ⟨fun _ _ => True, fun e s' => e = .checksum → Stuck s'.mem i, fun _ => True, fun _ => True⟩ s := by
  unfold putBlock
  refine wp_bind (wp_lift ?_)
  cases hck : checkBlockSize cfg.info i begin_ data.length with
  | err e =>
    intro he
    rw [he, checkBlockSize_eq] at hck
    by_cases h1 : begin_.tmod 16384 ≠ 0
    · rw [if_pos h1] at hck; cases hck
    · rw [if_neg h1] at hck
      split at hck <;> simp only [ne_eq, ite_not] at hck <;> split at hck <;> cases hck
  | panic => trivial
  | ok u =>
    show wp A _ _ s
    refine wp_bind (wp_getMem ?_)
    show wp A (if s.mem.coalesced = true then _ else _) _ s
    by_cases hco : s.mem.coalesced = true
    · rw [if_pos hco]; exact wp_fail (fun e => by cases e)
    · rw [if_neg hco]
      have hco : s.mem.coalesced = false := by simpa using hco
      refine wp_bind (wp_getPiece ?_ (fun _ => trivial))
      intro j p hj hp
      have : i = j := by omega
      subst this
      show wp A _ _ s
      dsimp only
      refine wp_seq (wp_putBlockP h hp hck) ?_ (fun e _ h hc => by have := h.2.1; rw [hc] at this; cases this) (fun _ _ => trivial) (fun _ _ => trivial)
      rintro _ s1 ⟨hs1, hpc, hxb, hfut, hs1e⟩
      have hi := (List.getElem?_eq_some_iff.mp hp).1
      have hk := (List.getElem?_eq_some_iff.mp hxb).1
      generalize hbs : (blocksOf cfg.info i p).set (begin_.toNat / 16384) (some data) = bs at hs1e
      generalize hq : ({ p with blocks := some bs, completeBlocks := p.completeBlocks + 1 } : Piece) = q at hs1e
      have hp1 : s1.mem.pieces[i]? = some q := by rw [hs1e]; simp [hi]
      have hqc : q.coalesced = false := by rw [← hq]; exact hpc
      have hqb : q.blocks = some bs := by rw [← hq]
      have hqf : q.fut = p.fut := by rw [← hq]
      have hfut1 : s1.mem.futs[q.fut]? = some none := by rw [hs1e, hqf]; exact hfut
      have hne : bs ≠ [] := by
        intro e
        have h2 := congrArg List.length (hbs.trans e)
        simp at h2
        rw [h2] at hk; simp at hk
      refine wp_seq (Q1 := ⟨fun _ s2 => SInv cfg s2 ∧ s2.mem.coalesced = false, fun e s2 => e = .checksum → Stuck s2.mem i, fun _ => True, fun _ => True⟩) ?_ ?_ (fun _ _ h => h) (fun _ _ => trivial) (fun _ _ => trivial)
      · refine wp_onErr (wp_mono (wp_coalesceBlocks hs1 hp1 hqc hqb hne hfut1) ?_ ?_ (fun _ _ => trivial) (fun _ _ => trivial))
        · rintro _ s2 ⟨h1, h2, _⟩
          exact ⟨h1, h2.trans (by rw [hs1e]; exact hco)⟩
        · rintro e s2 ⟨_, hm2, hfull, _⟩
          refine wp_bind (wp_getMem (wp_bind (wp_setMem ?_)))
          refine wp_deliver ?_ (fun _ => trivial)
          intro hd hec
          refine ⟨q, bs, e, by rw [hm2]; exact hp1, hqc, hqb, present_full hfull, ?_⟩
          have hlt := (List.getElem?_eq_some_iff.mp hd).1
          rw [hqf]
          simp only [List.getElem?_set_self hlt]
      · rintro _ s2 ⟨h2, hc2⟩
        exact wp_mono (nck_coalescePieces s2) (fun _ _ _ => trivial) (fun _ _ h he => absurd he h) (fun _ _ => trivial) (fun _ _ => trivial)

theorem stuck_of_failed {s : Sys} (h : SInv cfg s) {i : Nat} {p : Piece} {e : Err} (hp : s.mem.pieces[i]? = some p)
    (hf : s.mem.futs[p.fut]? = some (some (some e))) : Stuck s.mem i := by
  have hP := h.2.piece i p hp
  have hc : p.coalesced = false := by
    cases hc : p.coalesced with
    | false => rfl
    | true => have := (hP.done hc).1; rw [hf] at this; cases this
  cases hb : p.blocks with
  | none => have := (hP.noBlocks hc hb).2; rw [hf] at this; cases this
  | some bs => exact ⟨p, bs, e, hp, hc, hb, (hP.blocks hc bs hb).2.2.2 (by rw [hf]; simp), hf⟩

/-- Resetting a stuck piece panics. -/
theorem wp_reset_stuck {s : Sys} {i : Nat} (hs : Stuck s.mem i) :
    wp A (resetPiece i) ⟨fun _ _ => False, fun _ _ => False, fun _ => True, fun _ => False⟩ s := by
  obtain ⟨p, bs, e, hp, _, _, _, hf⟩ := hs
  refine wp_bind (wp_getPiece ?_ (fun _ => trivial))
  intro j q hj hq
  have : i = j := by omega
  subst this
  rw [hp] at hq; cases hq
  show wp A _ _ s
  unfold resetP
  refine wp_bind (wp_deliver ?_ (fun _ => trivial))
  intro hd
  rw [hf] at hd; cases hd

/-- Every block of a stuck piece is held. -/
theorem held_stuck {s : Sys} (h : SInv cfg s) {i : Nat} (hs : Stuck s.mem i) {begin_ : Int} (hg : OnGrid cfg.info i begin_) :
    Held s.mem i (begin_.toNat / 16384) := by
  obtain ⟨p, bs, e, hp, hc, hb, hall, hf⟩ := hs
  refine .inr ⟨p, hp, .inr ⟨bs, ?_⟩⟩
  have hlen := ((h.2.piece i p hp).blocks hc bs hb).1
  have h3 := hg.2.2.1
  have h4 := hg.2.2.2
  have hnb := (numBlocks_pos (info := cfg.info) (i := i) (by omega)).2 (begin_.toNat / 16384)
  have hk : begin_.toNat / 16384 < bs.length := by
    have := hnb.mpr (by omega)
    omega
  have hx := List.getElem?_eq_getElem hk
  generalize bs[begin_.toNat / 16384] = o at hx
  cases o with
  | none => exact absurd rfl (hall none (List.mem_of_getElem? hx))
  | some b => exact ⟨b, hb, hx⟩

/-! ### Downloading one piece -/

/-- Piece `i` is complete, or on its way with blocks of `x` only. -/
def PExact (m : Mem) (i : Nat) (x : Bytes) : Prop := ∃ p, m.pieces[i]? = some p ∧ (p.coalesced = true ∨ (p.coalesced = false ∧ m.futs[p.fut]? = some none ∧
  ∀ bs, p.blocks = some bs → (∀ (k : Nat) (b : Bytes), bs[k]? = some (some b) → b = blockOf x k) ∧ present bs ≠ bs.length))

theorem pexact_done {m m' : Mem} {i : Nat} {x : Bytes} (h : Grows (fun _ => False) m m') {p : Piece} (hp : m.pieces[i]? = some p) (hc : p.coalesced = true) :
    PExact m' i x ∧ ∀ k, Held m' i k := by
  obtain ⟨q, h1, h2, _⟩ := h i p hp
  exact ⟨⟨q, h1, .inl (h2 hc)⟩, fun k => .inr ⟨q, h1, .inl (h2 hc)⟩⟩

/-- Putting a right block, whatever the other pieces are like. -/
theorem wp_put_piece {s : Sys} (h : SInv cfg s) {i k : Nat} {x : Bytes} (hE : PExact s.mem i x) (hv : Verified cfg.sha1 cfg.info i x)
    (hxl : (x.length : Int) = cfg.info.getPieceLength i) (hk : k * 16384 < x.length) :
    wp AllOk (putBlock cfg i (k * 16384 : Nat) (blockOf x k)) ⟨fun _ s' => SInv cfg s' ∧ PExact s'.mem i x ∧ Held s'.mem i k,
      fun _ s' => SInv cfg s' ∧ PExact s'.mem i x ∧ Held s'.mem i k, fun _ => False, fun _ => True⟩ s := by
  have hin : i < cfg.info.pieces.length := verified_lt hv
  have hck : checkBlockSize cfg.info i (k * 16384 : Nat) (blockOf x k).length = .ok () := by
    rw [show ((k * 16384 : Nat) : Int) = (k : Int) * 16384 by omega]
    exact check_grid cfg.info i k (blockOf x k).length (by omega) (by rw [blockOf_length]; omega)
  have hgrid : OnGrid cfg.info i (k * 16384 : Nat) := ⟨by omega, by omega, by omega, by omega⟩
  have hkk : ((k * 16384 : Nat) : Int).toNat / 16384 = k := by omega
  unfold putBlock
  refine wp_bind (wp_lift ?_)
  rw [hck]
  show wp AllOk _ _ s
  refine wp_bind (wp_getMem ?_)
  show wp AllOk (if s.mem.coalesced = true then _ else _) _ s
  by_cases hco : s.mem.coalesced = true
  · rw [if_pos hco]
    exact wp_fail ⟨h, hE, .inl hco⟩
  · rw [if_neg hco]
    have hco : s.mem.coalesced = false := by simpa using hco
    refine wp_bind (wp_getPiece ?_ ?_)
    · intro j p hj hp
      have : i = j := by omega
      subst this
      show wp AllOk _ _ s
      dsimp only
      refine wp_seq (wp_putBlockP h hp hck) ?_ ?_ (fun _ h => h.2 hgrid) (fun _ _ => trivial)
      · rintro _ s1 ⟨hs1, hpc, hxb, hfut, hs1e⟩
        rw [hkk] at hxb hs1e
        have hi : i < s.mem.pieces.length := (List.getElem?_eq_some_iff.mp hp).1
        generalize hbs : (blocksOf cfg.info i p).set k (some (blockOf x k)) = bs at hs1e
        generalize hq : ({ p with blocks := some bs, completeBlocks := p.completeBlocks + 1 } : Piece) = q at hs1e
        have hp1 : s1.mem.pieces[i]? = some q := by rw [hs1e]; simp [hi]
        have hqc : q.coalesced = false := by rw [← hq]; exact hpc
        have hqb : q.blocks = some bs := by rw [← hq]
        have hqf : q.fut = p.fut := by rw [← hq]
        have hco1 : s1.mem.coalesced = false := by rw [hs1e]; exact hco
        have hfut1 : s1.mem.futs[q.fut]? = some none := by rw [hs1e, hqf]; exact hfut
        have hklt : k < (blocksOf cfg.info i p).length := (List.getElem?_eq_some_iff.mp hxb).1
        have hne : bs ≠ [] := by
          intro e
          have h2 := congrArg List.length (hbs.trans e)
          simp at h2
          rw [h2] at hklt; simp at hklt
        have hbk : ∀ (k' : Nat) (b : Bytes), bs[k']? = some (some b) → b = blockOf x k' := by
          intro k' b hb
          rw [← hbs, List.getElem?_set] at hb
          by_cases hkk' : k = k'
          · subst hkk'; simp [hklt] at hb; exact hb.symm
          · rw [if_neg hkk'] at hb
            obtain ⟨bs0, h1, h2⟩ := blocksOf_some hb
            obtain ⟨p', hp', hor⟩ := hE
            rw [hp] at hp'; cases hp'
            rcases hor with e | ⟨_, _, hor⟩
            · rw [hpc] at e; cases e
            · exact (hor bs0 h1).1 k' b h2
        have hheld : bs[k]? = some (some (blockOf x k)) := by rw [← hbs]; simp [hklt]
        have hjoin : ∀ d, joinBlocks bs = some d → d = x := by
          intro d hd
          have hbl := ((hs1.2.piece i q hp1).blocks hqc bs hqb).1
          have := join_exact x bs 0 d (fun k' b hb => by rw [Nat.zero_add]; exact hbk k' b hb) hd
          rw [this]
          have hnb := (numBlocks_pos (info := cfg.info) (i := i) (by omega)).1
          unfold slice
          rw [Nat.zero_mul, List.drop_zero, List.take_of_length_le (by omega)]
        refine wp_seq (Q1 := ⟨fun _ s' => SInv cfg s' ∧ s'.mem.coalesced = false ∧ PExact s'.mem i x ∧ Held s'.mem i k,
          fun _ _ => False, fun _ => False, fun _ => True⟩) ?_ ?_ (fun _ _ h => h.elim) (fun _ h => h) (fun _ h => h)
        · refine wp_onErr (wp_mono (wp_coalesceBlocks hs1 hp1 hqc hqb hne hfut1) ?_ ?_ (fun _ h => h) (fun _ _ => trivial))
          · rintro _ s2 ⟨h1, h2, h3⟩
            refine ⟨h1, h2.trans hco1, ?_⟩
            rcases h3 with ⟨rfl, hpart⟩ | ⟨hfull, d, hd, _, hfs, hpcs, hfts⟩
            · refine ⟨⟨q, hp1, .inr ⟨hqc, hfut1, ?_⟩⟩, .inr ⟨q, hp1, .inr ⟨bs, _, hqb, hheld⟩⟩⟩
              intro bs' hb; rw [hqb] at hb; cases hb
              exact ⟨hbk, hpart⟩
            · have hi1 : i < s1.mem.pieces.length := (List.getElem?_eq_some_iff.mp hp1).1
              have : s2.mem.pieces[i]? = some { q with coalesced := true, blocks := none } := by rw [hpcs]; simp [hi1]
              exact ⟨⟨_, this, .inl rfl⟩, .inr ⟨_, this, .inl rfl⟩⟩
          · rintro e s2 ⟨hs2, hm2, hfull, herr⟩
            exfalso
            rcases herr with herr | ⟨_, _, d, hd, hnv⟩
            · exact noFail herr
            · rw [hjoin d hd] at hnv; exact hnv hv
        · rintro _ s2 ⟨h2, hc2, hE2, hh2⟩
          refine wp_mono (wp_coalescePieces h2 hc2) ?_ ?_ (fun _ h => h) (fun _ _ => trivial)
          · rintro _ s3 ⟨h3, h4⟩
            refine ⟨h3, ?_⟩
            rcases h4 with ⟨hs3, _⟩ | ⟨hall, _, hm, _⟩
            · rw [hs3]; exact ⟨hE2, hh2⟩
            · obtain ⟨p', hp', hor⟩ := hE2
              have hmp : s3.mem.pieces = s2.mem.pieces := by rw [hm]; rfl
              exact ⟨⟨p', by rw [hmp]; exact hp', .inl (hall p' (List.mem_of_getElem? hp'))⟩, .inl (by rw [hm]; rfl)⟩
          · rintro e s3 ⟨hall, h3, hm, _⟩
            exact ⟨h3, by rw [hm]; exact hE2, by rw [hm]; exact hh2⟩
      · rintro e s' ⟨_, rfl, rfl, hb⟩
        refine ⟨h, hE, .inr ⟨p, hp, ?_⟩⟩
        by_cases hc : p.coalesced = true
        · exact .inl hc
        · obtain ⟨b, hb⟩ := hb (by simpa using hc)
          rw [hkk] at hb
          obtain ⟨bs, h1, h2⟩ := blocksOf_some hb
          exact .inr ⟨bs, b, h1, h2⟩
    · intro hor
      rw [h.2.len] at hor
      show False
      omega

/-- A history in which the blocks `ks` of piece `i` with content `x` are put. -/
def pieceEvents (i : Nat) (x : Bytes) (ks : List (Nat × List Fate)) : List (Event × List Fate) :=
  ks.map fun k => (.put i (k.1 * 16384 : Nat) (blockOf x k.1), k.2)

theorem wp_put_coalesced {s : Sys} (h : SInv cfg s) (hc : s.mem.coalesced = true) (i : Int) (b : Int) (d : Bytes) :
    wp A (putBlock cfg i b d) ⟨fun _ _ => False, fun _ s' => s' = s, fun _ => False, fun _ => False⟩ s := by
  unfold putBlock
  refine wp_bind (wp_lift ?_)
  cases hck : checkBlockSize cfg.info i b d.length with
  | err e => rfl
  | panic => exact absurd hck checkBlockSize_noPanic
  | ok u =>
    show wp A _ _ s
    refine wp_bind (wp_getMem ?_)
    show wp A (if s.mem.coalesced = true then _ else _) _ s
    rw [if_pos hc]
    exact wp_fail rfl

theorem run_piece {i : Nat} {x : Bytes} (hv : Verified cfg.sha1 cfg.info i x) (hxl : (x.length : Int) = cfg.info.getPieceLength i)
    (ks : List (Nat × List Fate)) : ∀ {fs : FS} {m : Mem}, SInv cfg ⟨fs, m⟩ → PExact m i x → (∀ k ∈ ks, k.1 * 16384 < x.length ∧ ∀ f ∈ k.2, f = .ok) →
    ∃ fs' m', run cfg (pieceEvents i x ks) ⟨fs, some m⟩ = ⟨fs', some m'⟩ ∧ SInv cfg ⟨fs', m'⟩ ∧ PExact m' i x ∧ (∀ k ∈ ks, Held m' i k.1) ∧
      ∀ k, Held m i k → Held m' i k := by
  induction ks with
  | nil => intro fs m h hE _; exact ⟨fs, m, rfl, h, hE, by simp, fun _ => id⟩
  | cons k ks ih =>
    intro fs m h hE hk
    have h1 := wp_and (wp_and (wp_put_piece h hE hv hxl (hk k (by simp)).1) (nc_putBlock (cfg := cfg) i (k.1 * 16384 : Nat) (blockOf x k.1) _ allOk_noCrash ⟨fs, m⟩))
      (mono_putBlock (A := AllOk) (X := fun _ => False) (cfg := cfg) i (k.1 * 16384 : Nat) (blockOf x k.1) ⟨fs, m⟩ m (Grows.refl m))
    have h2 := (h1 k.2 (hk k (by simp)).2).1
    have hstep : ∃ fs1 m1, step cfg ⟨fs, some m⟩ (.put i (k.1 * 16384 : Nat) (blockOf x k.1)) k.2 = ⟨fs1, some m1⟩ ∧ SInv cfg ⟨fs1, m1⟩ ∧ PExact m1 i x ∧ Held m1 i k.1 ∧
        ∀ k, Held m i k → Held m1 i k := by
      simp only [step, runOp]
      by_cases hc : m.coalesced = true
      · have h3 := (wp_put_coalesced (A := AllOk) h hc i (k.1 * 16384 : Nat) (blockOf x k.1) k.2 (hk k (by simp)).2).1
        rcases hr : putBlock cfg i (k.1 * 16384 : Nat) (blockOf x k.1) ⟨fs, m⟩ k.2 with ⟨o, s', f'⟩
        rw [hr] at h3
        cases o with
        | ok u => exact h3.elim
        | err e =>
          have h3 : s' = ⟨fs, m⟩ := h3
          rw [h3]
          exact ⟨fs, m, rfl, h, hE, .inl hc, fun _ => id⟩
        | panic => exact h3.elim
        | crash => exact h3.elim
      · rcases hr : putBlock cfg i (k.1 * 16384 : Nat) (blockOf x k.1) ⟨fs, m⟩ k.2 with ⟨o, s', f'⟩
        rw [hr] at h2
        cases o with
        | ok u => exact ⟨s'.fs, s'.mem, rfl, h2.1.1.1, h2.1.1.2.1, h2.1.1.2.2, fun k hk => held_mono h2.2 (fun e => absurd e hc) hk⟩
        | err e => exact ⟨s'.fs, s'.mem, rfl, h2.1.1.1, h2.1.1.2.1, h2.1.1.2.2, fun k hk => held_mono h2.2 (fun e => absurd e hc) hk⟩
        | panic => exact h2.1.1.elim
        | crash => exact h2.1.2.elim
    obtain ⟨fs1, m1, e1, e2, e3, e4, e5⟩ := hstep
    obtain ⟨fs2, m2, g1, g2, g3, g4, g5⟩ := ih e2 e3 (fun e he => hk e (by simp [he]))
    refine ⟨fs2, m2, ?_, g2, g3, ?_, fun k hk => g5 k (e5 k hk)⟩
    · show run cfg (pieceEvents i x ks) (step cfg ⟨fs, some m⟩ _ _) = _
      rw [e1]; exact g1
    · intro e he
      rcases List.mem_cons.mp he with rfl | he
      · exact g5 _ e4
      · exact g4 e he

/-- If all blocks of the piece are held, it is complete. -/
theorem piece_all {i : Nat} {x : Bytes} (hxl : (x.length : Int) = cfg.info.getPieceLength i) (hx0 : x ≠ []) {s : Sys} (h : SInv cfg s) (hE : PExact s.mem i x)
    (hall : ∀ k, k * 16384 < x.length → Held s.mem i k) : Complete s.mem i := by
  obtain ⟨p, hi, hor⟩ := hE
  refine ⟨p, hi, ?_⟩
  rcases hor with hc | ⟨hpc, _, hbl⟩
  · exact hc
  · by_cases hco : s.mem.coalesced = true
    · exact (h.2.all hco).2 p (List.mem_of_getElem? hi)
    · exfalso
      have hx0 : 0 < x.length := List.length_pos_iff.mpr hx0
      have hheld : ∀ k, k * 16384 < x.length → ∃ bs b, p.blocks = some bs ∧ bs[k]? = some (some b) := by
        intro k hk
        rcases hall k hk with e | ⟨q, hq, hh⟩
        · exact absurd e hco
        · rw [hi] at hq; cases hq
          rcases hh with e | hh
          · rw [hpc] at e; cases e
          · exact hh
      obtain ⟨bs, _, hbs, _⟩ := hheld 0 (by omega)
      refine (hbl bs hbs).2 ?_
      have hlen := ((h.2.piece i p hi).blocks hpc bs hbs).1
      have hnb := (numBlocks_pos (info := cfg.info) (i := i) (by omega)).2
      unfold present
      rw [List.countP_eq_length]
      intro o ho
      obtain ⟨k, hk⟩ := List.getElem?_of_mem ho
      have hkl := (List.getElem?_eq_some_iff.mp hk).1
      obtain ⟨bs', b, e1, e2⟩ := hheld k (by have := (hnb k).mp (by omega); omega)
      rw [hbs] at e1; cases e1
      rw [hk] at e2; cases e2
      rfl

/-- Resetting a piece whose future has not been delivered. -/
theorem wp_reset_open {s : Sys} {i : Nat} {p : Piece} (hp : s.mem.pieces[i]? = some p) (hc : p.coalesced = false) (hf : s.mem.futs[p.fut]? = some none) (x : Bytes) :
    wp A (resetPiece i) ⟨fun _ s' => PExact s'.mem i x ∧ s'.fs = s.fs, fun _ _ => False, fun _ => False, fun _ => False⟩ s := by
  refine wp_bind (wp_getPiece ?_ ?_)
  · intro j q hj hq
    have : i = j := by omega
    subst this
    rw [hp] at hq; cases hq
    show wp A _ _ s
    unfold resetP
    have hi := (List.getElem?_eq_some_iff.mp hp).1
    refine wp_bind (wp_deliver ?_ ?_)
    · intro _
      refine wp_bind (wp_getMem (wp_bind (wp_setMem (wp_setPiece ?_))))
      refine ⟨⟨{ p with fut := (s.mem.futs.set p.fut (some (some .pieceReset))).length, blocks := none, completeBlocks := 0 }, by simp [hi], .inr ⟨hc, ?_, ?_⟩⟩, rfl⟩
      · simp
      · intro bs hb; cases hb
    · intro h; exact absurd hf h
  · intro hor
    have hi := (List.getElem?_eq_some_iff.mp hp).1
    show False
    omega

theorem nc_getMultiLoop (start end_ : Int) (len : Nat) (files : List File) : ∀ total acc, NC (getMultiLoop start end_ len total acc files) := by
  induction files with
  | nil => intro _ _; exact NC.pure _
  | cons f fs ih =>
    intro total acc
    unfold getMultiLoop
    exact NC.ite (NC.pure _) (NC.ite (NC.bind NC.call fun _ => NC.bind (NC.lift _) fun _ => ih _ _) (ih _ _))

theorem nc_getBlock (index begin_ length : Int) : NC (getBlock cfg index begin_ length) := by
  unfold getBlock
  have hml : NC (makeLen length) := NC.ite NC.panic (NC.pure _)
  refine NC.bind NC.getMem fun m => NC.ite (NC.ite ?_ ?_) (NC.bind (NC.getPiece _) fun _ => NC.ite (NC.fail _) ?_)
  · exact NC.bind hml fun _ => NC.bind (nc_getMultiLoop _ _ _ _ _ _) fun _ => NC.ite (NC.fail _) (NC.pure _)
  · exact NC.bind NC.call fun _ => NC.bind hml fun _ => NC.bind (NC.lift _) fun _ => NC.ite (NC.fail _) (NC.pure _)
  · exact NC.bind NC.call fun _ => NC.bind hml fun _ => NC.bind (NC.lift _) fun _ => NC.ite (NC.fail _) (NC.pure _)

theorem nc_resetPiece (i : Int) : NC (resetPiece i) :=
  NC.bind (NC.getPiece _) fun _ => NC.bind (NC.deliver _ _) fun _ => NC.bind NC.getMem fun _ => NC.bind (NC.setMem _) fun _ => NC.setPiece _ _

/-- The outcome of a call in terms of the claims about it. -/
theorem runOp_of_wp {α : Type} {p : Op α} {Q : Post α} {w : World} {m : Mem} (hm : w.mem = some m) (h : wp A p Q ⟨w.fs, m⟩) (f : List Fate) (hf : ∀ x ∈ f, A x) :
    (∃ a s, runOp p w f = (.ok a, ⟨s.fs, some s.mem⟩) ∧ Q.ok a s) ∨ (∃ e s, runOp p w f = (.err e, ⟨s.fs, some s.mem⟩) ∧ Q.err e s) ∨
    (∃ s, runOp p w f = (.panic, ⟨s.fs, none⟩) ∧ Q.panic s) ∨ (∃ s, runOp p w f = (.crash, ⟨s.fs, none⟩) ∧ Q.crash s) := by
  have := (h f hf).1
  unfold runOp
  rw [hm]
  dsimp only
  rcases hr : p ⟨w.fs, m⟩ f with ⟨o, s, f'⟩
  rw [hr] at this
  cases o with
  | ok a => exact .inl ⟨a, s, rfl, this⟩
  | err e => exact .inr (.inl ⟨e, s, rfl, this⟩)
  | panic => exact .inr (.inr (.inl ⟨s, rfl, this⟩))
  | crash => exact .inr (.inr (.inr ⟨s, rfl, this⟩))

end Drip.Storage
