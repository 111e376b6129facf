import Verif.Lemmas.StoragePiece
/-
As long as only right blocks of a piece are put, the piece holds only right blocks and its future does not report a checksum failure.
-/

namespace Drip.Storage
open Metainfo Spec

variable {A : Fate → Prop} {cfg : Cfg} {i : Nat} {x : Bytes}

/-- Piece `i` holds only blocks of `x`, and its download has not failed its checksum. -/
def Clean (i : Nat) (x : Bytes) (m : Mem) : Prop := ∀ p, m.pieces[i]? = some p →
  (∀ bs, p.blocks = some bs → ∀ (k : Nat) (b : Bytes), bs[k]? = some (some b) → b = blockOf x k) ∧ m.futs[p.fut]? ≠ some (some (some .checksum))

theorem Clean.keep {m m' : Mem} (h : Clean i x m) (e1 : m'.pieces = m.pieces) (e2 : m'.futs = m.futs) : Clean i x m' := by
  intro p hp; rw [e1] at hp; rw [e2]; exact h p hp

theorem Clean.deliver {m m' : Mem} (h : Clean i x m) {id : Nat} {v : Option Err} (hv : v ≠ some .checksum) (e1 : m'.pieces = m.pieces) (e2 : m'.futs = m.futs.set id (some v)) : Clean i x m' := by
  intro p hp
  rw [e1] at hp
  refine ⟨(h p hp).1, ?_⟩
  rw [e2, List.getElem?_set]
  split
  · split
    · intro e; injection e with e; injection e with e; exact hv e
    · intro e; cases e
  · exact (h p hp).2

theorem Clean.set {m m' : Mem} (h : Clean i x m) {j : Nat} {q : Piece} (e1 : m'.pieces = m.pieces.set j q) (e2 : m'.futs = m.futs)
    (hq : j = i → (∀ bs, q.blocks = some bs → ∀ (k : Nat) (b : Bytes), bs[k]? = some (some b) → b = blockOf x k) ∧ m.futs[q.fut]? ≠ some (some (some .checksum))) : Clean i x m' := by
  intro p hp
  rw [e1, List.getElem?_set] at hp
  rw [e2]
  by_cases hj : j = i
  · rw [if_pos hj] at hp
    split at hp
    · injection hp with hp; subst hp; exact hq hj
    · cases hp
  · rw [if_neg hj] at hp; exact h p hp

def cpost (i : Nat) (x : Bytes) {α : Type} : Post α := ⟨fun _ s => Clean i x s.mem, fun _ s => Clean i x s.mem, fun _ => True, fun _ => True⟩

/-- An operation that spoils nothing. -/
def Tidy (A : Fate → Prop) (i : Nat) (x : Bytes) {α : Type} (p : Op α) : Prop := ∀ s : Sys, Clean i x s.mem → wp A p (cpost i x) s

theorem Tidy.pure {α : Type} (a : α) : Tidy A i x (Pure.pure a : Op α) := fun _ h => wp_pure h
theorem Tidy.fail {α : Type} (e : Err) : Tidy A i x (Op.fail e : Op α) := fun _ h => wp_fail h
theorem Tidy.panic {α : Type} : Tidy A i x (Op.panic : Op α) := fun _ _ => wp_panic trivial
theorem Tidy.bind {α β : Type} {p : Op α} {k : α → Op β} (h : Tidy A i x p) (hk : ∀ a, Tidy A i x (k a)) : Tidy A i x (p >>= k) :=
  fun s hm => wp_seq (h s hm) (fun a s' h' => hk a s' h') (fun _ _ h => h) (fun _ h => h) (fun _ h => h)
theorem Tidy.lift {α : Type} (r : Res α) : Tidy A i x (Op.lift r) := by
  cases r with
  | ok a => exact Tidy.pure a
  | err e => exact Tidy.fail e
  | panic => exact Tidy.panic
theorem Tidy.call {α : Type} {eff : FS → Option (α × FS)} {part : List Bytes → FS → FS} : Tidy A i x (Op.call eff part) :=
  fun _ h => wp_call (fun _ _ _ => h) (fun _ => h) (fun _ _ => h) (fun _ _ => trivial)
theorem Tidy.getMem : Tidy A i x Op.getMem := fun _ h => wp_getMem h
theorem Tidy.getPiece (j : Int) : Tidy A i x (getPiece j) := fun _ h => wp_getPiece (fun _ _ _ _ => h) (fun _ => trivial)
theorem Tidy.deliver (id : Nat) (v : Option Err) (hv : v ≠ some .checksum) : Tidy A i x (deliver id v) :=
  fun _ h => wp_deliver (fun _ => h.deliver hv rfl rfl) (fun _ => trivial)
theorem Tidy.ite {α : Type} {c : Prop} [Decidable c] {p q : Op α} (hp : Tidy A i x p) (hq : Tidy A i x q) : Tidy A i x (if c then p else q) := by
  split
  · exact hp
  · exact hq

theorem tidy_completePiece (j : Nat) : Tidy A i x (completePiece j) := by
  intro s h
  unfold completePiece
  refine wp_bind (wp_getPiece (fun j' p hj hp => ?_) (fun _ => trivial))
  have : j = j' := by omega
  subst this
  show wp A _ _ s
  have hq : j = i → s.mem.futs[p.fut]? ≠ some (some (some .checksum)) := fun e => by subst e; exact (h p hp).2
  refine wp_bind (wp_setPiece ?_)
  refine wp_bind (wp_deliver (fun _ => ?_) (fun _ => trivial))
  refine wp_bind (wp_setPiece ?_)
  have key : Clean i x { s.mem with pieces := (s.mem.pieces.set j { p with coalesced := true }).set j { p with coalesced := true, blocks := none }, futs := s.mem.futs.set p.fut (some none) } := by
    rw [List.set_set]
    refine Clean.deliver (m := { s.mem with pieces := s.mem.pieces.set j { p with coalesced := true, blocks := none } }) (v := none) (id := p.fut) ?_ (by intro e; cases e) rfl rfl
    exact Clean.set h rfl rfl fun e => ⟨fun bs hb => (by cases hb), hq e⟩
  refine wp_bind (wp_getMem (wp_bind (wp_lift ?_)))
  generalize Bitfield.add _ _ = r
  cases r with
  | ok bf => exact wp_setMem (key.keep rfl rfl)
  | err e => exact key
  | panic => trivial

theorem tidy_complete : Tidy A i x complete := by
  intro s h
  unfold complete
  refine wp_bind (wp_getMem (wp_bind (wp_setMem ?_)))
  exact Tidy.deliver _ _ (by simp) _ (h.keep rfl rfl)

theorem tidy_readPieces (is : List Nat) : Tidy A i x (readPieces is) := by
  induction is with
  | nil => exact Tidy.pure _
  | cons i is ih => exact Tidy.bind Tidy.call fun _ => Tidy.bind Tidy.call fun _ => Tidy.bind ih fun _ => Tidy.pure _

theorem tidy_copyN (n : Nat) (is : List Nat) : ∀ buf, Tidy A i x (copyN n buf is) := by
  induction is with
  | nil => intro buf; exact Tidy.ite (Tidy.pure _) (Tidy.fail _)
  | cons i is ih => intro buf; exact Tidy.ite (Tidy.pure _) (Tidy.bind Tidy.call fun _ => ih _)

theorem tidy_writeFiles (files : List File) : ∀ buf is acc, Tidy A i x (writeFiles buf is acc files) := by
  induction files with
  | nil => intro buf is acc; exact Tidy.pure _
  | cons f fs ih =>
    intro buf is acc
    exact Tidy.ite (Tidy.fail _) (Tidy.bind Tidy.call fun _ => Tidy.bind Tidy.call fun _ => Tidy.bind (tidy_copyN _ _ _) fun _ =>
      Tidy.bind Tidy.call fun _ => ih _ _ _)

theorem tidy_coalescePieces : Tidy A i x (coalescePieces cfg) := by
  unfold coalescePieces
  refine Tidy.bind Tidy.getMem fun m => Tidy.ite (Tidy.pure _) (Tidy.ite ?_ ?_)
  · exact Tidy.bind Tidy.call fun _ => Tidy.bind Tidy.call fun _ => Tidy.bind (tidy_writeFiles _ _ _ _) fun _ => Tidy.bind Tidy.call fun _ =>
      Tidy.bind Tidy.call fun _ => tidy_complete
  · exact Tidy.bind Tidy.call fun _ => Tidy.bind Tidy.call fun _ => Tidy.bind (tidy_readPieces _) fun _ => Tidy.bind Tidy.call fun _ =>
      Tidy.bind Tidy.call fun _ => tidy_complete

theorem tidy_coalesceBlocks (j : Nat) : Tidy A i x (coalesceBlocks cfg j) := by
  unfold coalesceBlocks
  refine Tidy.bind (Tidy.getPiece _) fun y => Tidy.ite (Tidy.pure _) (Tidy.bind Tidy.call fun _ => Tidy.bind Tidy.call fun _ => ?_)
  cases joinBlocks (y.2.blocks.getD []) with
  | none => exact Tidy.panic
  | some d =>
    exact Tidy.bind Tidy.call fun _ => Tidy.ite (Tidy.fail _) (Tidy.bind Tidy.call fun _ => Tidy.bind Tidy.call fun _ => tidy_completePiece _)

/-- The checksum fails only for the blocks held. -/
theorem wp_coalesceBlocks_sum {s : Sys} {j : Nat} {p : Piece} (hp : s.mem.pieces[j]? = some p) :
    wp A (coalesceBlocks cfg j) ⟨fun _ _ => True, fun e _ => e = .checksum → ∃ d, joinBlocks (p.blocks.getD []) = some d ∧ ¬ Verified cfg.sha1 cfg.info j d, fun _ => True, fun _ => True⟩ s := by
  have weak : ∀ {q : Op Unit} (s' : Sys), NCk A q → wp A q ⟨fun _ _ => True, fun e _ => e = .checksum → ∃ d, joinBlocks (p.blocks.getD []) = some d ∧ ¬ Verified cfg.sha1 cfg.info j d, fun _ => True, fun _ => True⟩ s' :=
    fun s' h => wp_mono (h s') (fun _ _ h => h) (fun _ _ h e => absurd e h) (fun _ h => h) (fun _ h => h)
  have seq : ∀ {q : Op Unit} {k : Unit → Op Unit} (s' : Sys), NCk A q → (∀ s', wp A (k ()) ⟨fun _ _ => True, fun e _ => e = .checksum → ∃ d, joinBlocks (p.blocks.getD []) = some d ∧ ¬ Verified cfg.sha1 cfg.info j d, fun _ => True, fun _ => True⟩ s') →
      wp A (q >>= k) ⟨fun _ _ => True, fun e _ => e = .checksum → ∃ d, joinBlocks (p.blocks.getD []) = some d ∧ ¬ Verified cfg.sha1 cfg.info j d, fun _ => True, fun _ => True⟩ s' :=
    fun s' h hk => wp_seq (h s') (fun _ s' _ => hk s') (fun _ _ h e => absurd e h) (fun _ h => h) (fun _ h => h)
  unfold coalesceBlocks
  refine wp_bind (wp_getPiece (fun j' q hj hq => ?_) (fun _ => trivial))
  have : j = j' := by omega
  subst this
  rw [hp] at hq; cases hq
  show wp A _ _ s
  dsimp only
  split
  · exact wp_pure trivial
  refine seq s NCk.call fun s => seq s NCk.call fun s => ?_
  cases hb : joinBlocks (p.blocks.getD []) with
  | none => exact wp_panic trivial
  | some d =>
    rw [hb] at seq weak
    refine seq s NCk.call fun s => ?_
    by_cases hv : cfg.info.pieces[j]? = some (cfg.sha1 d)
    · rw [if_neg (by simp [hv])]
      refine seq s NCk.call fun s => seq s NCk.call fun s => weak s ?_
      intro s
      unfold completePiece
      refine wp_bind (wp_getPiece (fun _ _ _ _ => wp_bind (wp_setPiece (wp_bind (wp_deliver (fun _ => wp_bind (wp_setPiece (wp_bind (wp_getMem (wp_bind (wp_lift ?_)))))) (fun _ => trivial))))) (fun _ => trivial))
      generalize hr : Bitfield.add _ _ = r
      cases r with
      | ok bf => exact wp_setMem trivial
      | panic => trivial
      | err e =>
        unfold Bitfield.add at hr
        dsimp only at hr
        split at hr
        · cases hr
        · split at hr <;> cases hr
    · rw [if_pos (fun e => hv e.symm)]
      exact wp_fail fun _ => ⟨d, rfl, hv⟩

theorem tidy_resetPiece (j : Int) : Tidy A i x (resetPiece j) := by
  intro s h
  unfold resetPiece
  refine wp_bind (wp_getPiece (fun j' p hj hp => ?_) (fun _ => trivial))
  show wp A _ _ s
  unfold resetP
  refine wp_bind (wp_deliver (fun _ => ?_) (fun _ => trivial))
  refine wp_bind (wp_getMem (wp_bind (wp_setMem (wp_setPiece ?_))))
  intro q hq
  simp only [List.getElem?_set, List.length_set] at hq
  by_cases hji : j' = i
  · rw [if_pos hji] at hq
    split at hq
    · injection hq with hq; subst hq
      refine ⟨fun bs hb => (by cases hb), ?_⟩
      simp
    · cases hq
  · rw [if_neg hji] at hq
    refine ⟨(h q hq).1, ?_⟩
    show (s.mem.futs.set p.fut (some (some .pieceReset)) ++ [none])[q.fut]? ≠ _
    rw [List.getElem?_append]
    split
    · rw [List.getElem?_set]
      split
      · split
        · intro e; injection e with e; injection e with e; cases e
        · intro e; cases e
      · exact (h q hq).2
    · rw [List.getElem?_singleton]
      split
      · intro e; cases e
      · intro e; cases e

theorem tidy_completeAll (is : List Nat) : Tidy A i x (completeAll is) := by
  induction is with
  | nil => exact Tidy.pure _
  | cons j is ih => exact Tidy.bind (tidy_completePiece j) fun _ => ih

theorem tidy_loadEntries (es : List (Bytes × Bytes)) : Tidy A i x (loadEntries es) := by
  induction es with
  | nil => exact Tidy.pure _
  | cons y es ih =>
    obtain ⟨name, content⟩ := y
    unfold loadEntries
    cases sscanfPiece name with
    | none => exact ih
    | some j =>
      refine Tidy.bind Tidy.call fun _ => ?_
      intro s h
      exact wp_bind (wp_getMem (wp_bind (wp_setMem (Tidy.bind (Tidy.getPiece _) (fun _ => Tidy.bind (tidy_completePiece _) fun _ => ih) _ (h.keep rfl rfl)))))

theorem tidy_load : Tidy A i x (load cfg) := by
  unfold load
  refine Tidy.bind Tidy.call fun o => ?_
  cases o with
  | some size =>
    refine Tidy.bind (tidy_completeAll _) fun _ => Tidy.bind tidy_complete fun _ => ?_
    intro s h
    exact wp_bind (wp_getMem (wp_setMem (h.keep rfl rfl)))
  | none =>
    refine Tidy.bind Tidy.call fun o => ?_
    cases o with
    | none => exact Tidy.pure _
    | some es => exact Tidy.bind (tidy_loadEntries es) fun _ => tidy_coalescePieces

theorem tidy_getMultiLoop (start end_ : Int) (len : Nat) (files : List File) : ∀ total acc, Tidy A i x (getMultiLoop start end_ len total acc files) := by
  induction files with
  | nil => intro _ _; exact Tidy.pure _
  | cons f fs ih =>
    intro total acc
    unfold getMultiLoop
    exact Tidy.ite (Tidy.pure _) (Tidy.ite (Tidy.bind Tidy.call fun _ => Tidy.bind (Tidy.lift _) fun _ => ih _ _) (ih _ _))

theorem tidy_getBlock (index begin_ length : Int) : Tidy A i x (getBlock cfg index begin_ length) := by
  unfold getBlock
  have hml : Tidy A i x (makeLen length) := Tidy.ite Tidy.panic (Tidy.pure _)
  refine Tidy.bind Tidy.getMem fun m => Tidy.ite (Tidy.ite ?_ ?_) (Tidy.bind (Tidy.getPiece _) fun _ => Tidy.ite (Tidy.fail _) ?_)
  · exact Tidy.bind hml fun _ => Tidy.bind (tidy_getMultiLoop _ _ _ _ _ _) fun _ => Tidy.ite (Tidy.fail _) (Tidy.pure _)
  · exact Tidy.bind Tidy.call fun _ => Tidy.bind hml fun _ => Tidy.bind (Tidy.lift _) fun _ => Tidy.ite (Tidy.fail _) (Tidy.pure _)
  · exact Tidy.bind Tidy.call fun _ => Tidy.bind hml fun _ => Tidy.bind (Tidy.lift _) fun _ => Tidy.ite (Tidy.fail _) (Tidy.pure _)

/-- A block that is part of the content is one of its blocks. -/
theorem right_block (hxl : (x.length : Int) = cfg.info.getPieceLength i) {begin_ : Int} {data : Bytes} (hck : checkBlockSize cfg.info i begin_ data.length = .ok ())
    (hd : data = (x.drop begin_.toNat).take data.length) : data = blockOf x (begin_.toNat / 16384) := by
  rw [checkBlockSize_eq, ← hxl] at hck
  by_cases h1 : begin_.tmod 16384 ≠ 0
  · rw [if_pos h1] at hck; cases hck
  rw [if_neg h1] at hck
  have hm : begin_.toNat / 16384 * 16384 = begin_.toNat := by
    have h1 : begin_.tmod 16384 = 0 := by simpa using h1
    by_cases h0 : 0 ≤ begin_
    · rw [Int.tmod_eq_emod_of_nonneg h0] at h1; omega
    · omega
  unfold blockOf slice
  rw [hm]
  split at hck
  · rename_i he
    rw [Int.tdiv_eq_ediv_of_nonneg (by omega)] at he
    split at hck
    · cases hck
    · rename_i hl
      have hl : (x.length : Int) - begin_ = data.length := by simpa using hl
      rw [List.take_of_length_le (by rw [List.length_drop]; omega)] at hd ⊢
      exact hd
  · split at hck
    · cases hck
    · rename_i hl
      have hl : (16384 : Int) = data.length := by simpa using hl
      rw [show (16384 : Nat) = data.length by omega]
      exact hd

/-- Putting a block: of another piece, or a right one. -/
theorem tidy_putBlock {s : Sys} (h : SInv cfg s) (hE : Clean i x s.mem) (hv : Verified cfg.sha1 cfg.info i x) (hxl : (x.length : Int) = cfg.info.getPieceLength i)
    {j begin_ : Int} {data : Bytes} (hd : j = i → data = (x.drop begin_.toNat).take data.length) :
    wp A (putBlock cfg j begin_ data) ⟨fun _ s => Clean i x s.mem, fun e s => Clean i x s.mem ∧ (j = i → e ≠ .checksum), fun _ => True, fun _ => True⟩ s := by
  unfold putBlock
  refine wp_bind (wp_lift ?_)
  cases hck : checkBlockSize cfg.info j begin_ data.length with
  | err e =>
    refine ⟨hE, fun _ he => ?_⟩
    rw [he, checkBlockSize_eq] at hck
    by_cases h1 : begin_.tmod 16384 ≠ 0
    · rw [if_pos h1] at hck; cases hck
    · rw [if_neg h1] at hck
      split at hck <;> simp only [ne_eq, ite_not] at hck <;> split at hck <;> cases hck
  | panic => trivial
  | ok u =>
    show wp A _ _ s
    refine wp_bind (wp_getMem ?_)
    show wp A (if s.mem.coalesced = true then _ else _) _ s
    by_cases hco : s.mem.coalesced = true
    · rw [if_pos hco]; exact wp_fail ⟨hE, fun _ e => by cases e⟩
    · rw [if_neg hco]
      refine wp_bind (wp_getPiece ?_ (fun _ => trivial))
      intro n p hj hp
      subst hj
      show wp A _ _ s
      dsimp only
      refine wp_seq (wp_putBlockP h hp hck) ?_ (fun e s' h => ⟨by rw [h.2.2.1]; exact hE, fun _ he => by have := h.2.1; rw [he] at this; cases this⟩) (fun _ _ => trivial) (fun _ _ => trivial)
      rintro _ s1 ⟨hs1, hpc, hxb, hfut, hs1e⟩
      have hi := (List.getElem?_eq_some_iff.mp hp).1
      have hk := (List.getElem?_eq_some_iff.mp hxb).1
      generalize hbs : (blocksOf cfg.info n p).set (begin_.toNat / 16384) (some data) = bs at hs1e
      generalize hq : ({ p with blocks := some bs, completeBlocks := p.completeBlocks + 1 } : Piece) = q at hs1e
      have hp1 : s1.mem.pieces[n]? = some q := by rw [hs1e]; simp [hi]
      have hqc : q.coalesced = false := by rw [← hq]; exact hpc
      have hqb : q.blocks = some bs := by rw [← hq]
      have hqf : q.fut = p.fut := by rw [← hq]
      have hfut1 : s1.mem.futs[q.fut]? = some none := by rw [hs1e, hqf]; exact hfut
      have hbl := ((hs1.2.piece n q hp1).blocks hqc bs hqb)
      have hbk : n = i → ∀ (k' : Nat) (b : Bytes), bs[k']? = some (some b) → b = blockOf x k' := by
        intro hn k' b hb
        subst hn
        have hd := hd rfl
        rw [← hbs, List.getElem?_set] at hb
        by_cases hkk' : begin_.toNat / 16384 = k'
        · rw [if_pos hkk', if_pos hk] at hb
          injection hb with hb; injection hb with hb; subst hb
          subst hkk'
          exact right_block hxl hck hd
        · rw [if_neg hkk'] at hb
          obtain ⟨bs0, h1, h2⟩ := blocksOf_some hb
          exact (hE p hp).1 bs0 h1 k' b h2
      have hE1 : Clean i x s1.mem := by
        rw [hs1e]
        exact hE.set rfl rfl fun hn => ⟨fun bs' hb => by rw [hqb] at hb; injection hb with hb; subst hb; exact hbk hn, by
          rw [hqf, hfut]; intro e; cases e⟩
      refine wp_seq (Q1 := ⟨fun _ s2 => Clean i x s2.mem, fun e s2 => Clean i x s2.mem ∧ ((n : Int) = i → e ≠ .checksum), fun _ => True, fun _ => True⟩) ?_ ?_ (fun _ _ h => h) (fun _ _ => trivial) (fun _ _ => trivial)
      · refine wp_onErr (wp_mono (wp_and (tidy_coalesceBlocks n s1 hE1) (wp_and (wp_coalesceBlocks_sum hp1) (wp_coalesceBlocks hs1 hp1 hqc hqb ?_ hfut1))) (fun _ _ h => h.1) ?_ (fun _ _ => trivial) (fun _ _ => trivial))
        · intro e
          have h2 := congrArg List.length (hbs.trans e)
          simp at h2
          rw [h2] at hk; simp at hk
        rintro e s2 ⟨h1, h2, h3, h4, _⟩
        refine wp_bind (wp_getMem (wp_bind (wp_setMem ?_)))
        refine wp_deliver (fun _ => ?_) (fun _ => trivial)
        have hce : n = i → e ≠ .checksum := by
          intro hn he
          obtain ⟨d, hj, hnv⟩ := h2 he
          rw [hqb, Option.getD_some] at hj
          refine hnv ?_
          subst hn
          have := join_exact x bs 0 d (fun k' b hb => by rw [Nat.zero_add]; exact hbk rfl k' b hb) hj
          have hnb := (numBlocks_pos (info := cfg.info) (i := n) (by omega)).1
          have e : d = x := by
            rw [this]
            unfold slice
            rw [Nat.zero_mul, List.drop_zero, List.take_of_length_le (by omega)]
          rw [e]; exact hv
        refine ⟨?_, fun hn => hce (by omega)⟩
        by_cases hn : n = i
        · exact h1.deliver (v := some e) (id := p.fut) (fun he => hce hn (by injection he)) rfl rfl
        · intro r hr
          have hr : s2.mem.pieces[i]? = some r := hr
          refine ⟨(h1 r hr).1, ?_⟩
          have hr1 : s1.mem.pieces[i]? = some r := by rw [← h4]; exact hr
          have hne : p.fut ≠ r.fut := fun e => hn (hs1.2.inj n i q r hp1 hr1 (by rw [hqf]; exact e))
          show (s2.mem.futs.set p.fut (some (some e)))[r.fut]? ≠ _
          rw [List.getElem?_set_ne hne]
          exact (h1 r hr).2
      · intro _ s2 h2
        exact wp_mono (wp_and (tidy_coalescePieces s2 h2) (nck_coalescePieces s2)) (fun _ _ h => h.1) (fun _ _ h => ⟨h.1, fun _ => h.2⟩) (fun _ _ => trivial) (fun _ _ => trivial)

/-! ### Histories -/

/-- The event puts no wrong data of piece `i` with content `x`. -/
def RightPut (i : Nat) (x : Bytes) (e : Event) : Prop := ∀ (j b : Int) (d : Bytes), e = .put j b d → j = i → d = (x.drop b.toNat).take d.length

theorem clean_new : Clean i x (newMem cfg.info) := by
  intro p hp
  obtain ⟨h1, rfl⟩ := newMem_get hp
  refine ⟨fun bs hb => (by cases hb), ?_⟩
  show (List.replicate (cfg.info.pieces.length + 1) none)[i]? ≠ _
  rw [List.getElem?_replicate]
  split
  · intro e; cases e
  · intro e; cases e

theorem runOp_clean {α : Type} {p : Op α} {w : World} (f : List Fate) (h : ∀ m, w.mem = some m → wp (fun _ => True) p (cpost i x) ⟨w.fs, m⟩) :
    ∀ m, (runOp p w f).2.mem = some m → Clean i x m := by
  cases hm : w.mem with
  | none => intro m hm'; unfold runOp at hm'; rw [hm] at hm'; dsimp only at hm'; rw [hm] at hm'; cases hm'
  | some m0 =>
    intro m hm'
    rcases runOp_of_wp hm (h m0 hm) f (fun _ _ => trivial) with ⟨a, s, e, h⟩ | ⟨a, s, e, h⟩ | ⟨s, e, h⟩ | ⟨s, e, h⟩
    all_goals rw [e] at hm'
    · injection hm' with hm'; subst hm'; exact h
    · injection hm' with hm'; subst hm'; exact h
    · cases hm'
    · cases hm'

theorem step_clean {w : World} (hw : WInv cfg w) (hE : ∀ m, w.mem = some m → Clean i x m) (hv : Verified cfg.sha1 cfg.info i x) (hxl : (x.length : Int) = cfg.info.getPieceLength i)
    {e : Event} (he : RightPut i x e) (f : List Fate) : ∀ m, (step cfg w e f).mem = some m → Clean i x m := by
  cases e with
  | start => intro m hm; cases hm; exact clean_new
  | load => exact runOp_clean f fun m hm => tidy_load _ (hE m hm)
  | get j b l => exact runOp_clean f fun m hm => tidy_getBlock _ _ _ _ (hE m hm)
  | reset j => exact runOp_clean f fun m hm => tidy_resetPiece _ _ (hE m hm)
  | put j b d =>
    exact runOp_clean f fun m hm => wp_mono (tidy_putBlock ⟨hw.1, hw.2 m hm⟩ (hE m hm) hv hxl (he j b d rfl)) (fun _ _ h => h) (fun _ _ h => h.1) (fun _ h => h) (fun _ h => h)

theorem run_clean (hu : Usable cfg) (hv : Verified cfg.sha1 cfg.info i x) (hxl : (x.length : Int) = cfg.info.getPieceLength i) (es : List (Event × List Fate)) :
    ∀ {w : World}, WInv cfg w → (∀ m, w.mem = some m → Clean i x m) → (∀ e ∈ es, RightPut i x e.1) → ∀ m, (run cfg es w).mem = some m → Clean i x m := by
  induction es with
  | nil => intro w _ h _; exact h
  | cons e es ih =>
    intro w hw h hes
    exact ih (step_inv hu hw e.1 e.2) (step_clean hw h hv hxl (hes e (List.mem_cons_self ..)) e.2) fun e' h' => hes e' (List.mem_cons_of_mem _ h')

theorem run_append (es es' : List (Event × List Fate)) : ∀ w, run cfg (es ++ es') w = run cfg es' (run cfg es w) := by
  induction es with
  | nil => intro w; rfl
  | cons e es ih => intro w; exact ih _

/-- After a reset of the piece. -/
theorem reset_clean {w : World} (f : List Fate) : ∀ m, (step cfg w (.reset i) f).mem = some m → Clean i x m := by
  have key : ∀ s : Sys, wp (fun _ => True) (resetPiece i) (cpost i x) s := by
    intro s
    unfold resetPiece
    refine wp_bind (wp_getPiece (fun j' p hj hp => ?_) (fun _ => trivial))
    have : i = j' := by omega
    subst this
    show wp _ _ _ s
    unfold resetP
    refine wp_bind (wp_deliver (fun _ => ?_) (fun _ => trivial))
    refine wp_bind (wp_getMem (wp_bind (wp_setMem (wp_setPiece ?_))))
    intro q hq
    have hi := (List.getElem?_eq_some_iff.mp hp).1
    simp only [List.getElem?_set_self hi] at hq
    injection hq with hq; subst hq
    refine ⟨fun bs hb => (by cases hb), ?_⟩
    simp
  exact runOp_clean f fun m hm => key _

/-- After a start or a reset of the piece, when only right blocks of it have been put since then. -/
theorem since_clean (hu : Usable cfg) (hv : Verified cfg.sha1 cfg.info i x) (hxl : (x.length : Int) = cfg.info.getPieceLength i) (es0 es : List (Event × List Fate)) {e : Event} (he : e = .start ∨ e = .reset i)
    (f : List Fate) (hes : ∀ e ∈ es, RightPut i x e.1) {m : Mem} (hm : (run cfg (es0 ++ (e, f) :: es) World.empty).mem = some m) : Clean i x m := by
  rw [run_append] at hm
  refine run_clean hu hv hxl es (step_inv hu (run_inv hu es0 empty_inv) e f) (fun m hm => ?_) hes m hm
  rcases he with rfl | rfl
  · cases hm; exact clean_new
  · exact reset_clean f m hm

end Drip.Storage
