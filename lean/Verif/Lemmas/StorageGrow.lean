import Verif.Lemmas.StorageLoad
/-
What is complete stays complete, and blocks that are held stay held, as long as the process lives and the piece is not reset.
-/

namespace Drip.Storage
open Metainfo Spec

variable {A : Fate → Prop} {cfg : Cfg}

/-- Block `k` of the piece is held. -/
def Piece.held (p : Piece) (k : Nat) : Prop := p.coalesced = true ∨ ∃ bs b, p.blocks = some bs ∧ bs[k]? = some (some b)

/-- Nothing is lost between two moments, except that blocks of the pieces `X` may be. -/
def Grows (X : Nat → Prop) (m m' : Mem) : Prop := ∀ (i : Nat) (p : Piece), m.pieces[i]? = some p →
  ∃ q, m'.pieces[i]? = some q ∧ (p.coalesced = true → q.coalesced = true) ∧ (¬ X i → ∀ k, p.held k → q.held k)

variable {X : Nat → Prop}

theorem Grows.refl (m : Mem) : Grows X m m := fun _ p hp => ⟨p, hp, id, fun _ _ => id⟩

theorem Grows.of_pieces {m m' m'' : Mem} (h : Grows X m m') (e : m''.pieces = m'.pieces) : Grows X m m'' := by
  intro i p hp; rw [e]; exact h i p hp

theorem Grows.set {m m' m'' : Mem} {i : Nat} {q : Piece} (h : Grows X m m') (e : m''.pieces = m'.pieces.set i q)
    (hq : ∀ p, m'.pieces[i]? = some p → (p.coalesced = true → q.coalesced = true) ∧ (¬ X i → ∀ k, p.held k → q.held k)) : Grows X m m'' := by
  intro j p hp
  obtain ⟨r, hr, h1, h2⟩ := h j p hp
  rw [e, List.getElem?_set]
  by_cases hj : i = j
  · subst hj
    have hi := (List.getElem?_eq_some_iff.mp hr).1
    obtain ⟨g1, g2⟩ := hq r hr
    exact ⟨q, by simp [hi], fun hc => g1 (h1 hc), fun hX k hk => g2 hX k (h2 hX k hk)⟩
  · exact ⟨r, by simp [hj, hr], h1, h2⟩

def gpost (X : Nat → Prop) (m : Mem) {α : Type} : Post α := ⟨fun _ s => Grows X m s.mem, fun _ s => Grows X m s.mem, fun _ => True, fun _ => True⟩

/-- An operation that loses nothing. -/
def Mono (A : Fate → Prop) (X : Nat → Prop) {α : Type} (p : Op α) : Prop := ∀ (s : Sys) (m : Mem), Grows X m s.mem → wp A p (gpost X m) s

theorem Mono.pure {α : Type} (a : α) : Mono A X (Pure.pure a : Op α) := fun _ _ h => wp_pure h
theorem Mono.fail {α : Type} (e : Err) : Mono A X (Op.fail e : Op α) := fun _ _ h => wp_fail h
theorem Mono.panic {α : Type} : Mono A X (Op.panic : Op α) := fun _ _ _ => wp_panic trivial
theorem Mono.bind {α β : Type} {p : Op α} {k : α → Op β} (h : Mono A X p) (hk : ∀ a, Mono A X (k a)) : Mono A X (p >>= k) := by
  intro s m hm
  exact wp_seq (h s m hm) (fun a s' h' => hk a s' m h') (fun _ _ h => h) (fun _ h => h) (fun _ h => h)
theorem Mono.lift {α : Type} (r : Res α) : Mono A X (Op.lift r) := by
  cases r with
  | ok a => exact Mono.pure a
  | err e => exact Mono.fail e
  | panic => exact Mono.panic
theorem Mono.call {α : Type} {eff : FS → Option (α × FS)} {part : List Bytes → FS → FS} : Mono A X (Op.call eff part) :=
  fun _ _ h => wp_call (fun _ _ _ => h) (fun _ => h) (fun _ _ => h) (fun _ _ => trivial)
theorem Mono.callTemp : Mono A X Op.callTemp := Mono.call
theorem Mono.getMem : Mono A X Op.getMem := fun _ _ h => wp_getMem h
theorem Mono.getPiece (i : Int) : Mono A X (getPiece i) := fun _ _ h => wp_getPiece (fun _ _ _ _ => h) (fun _ => trivial)
theorem Mono.deliver (id : Nat) (v : Option Err) : Mono A X (deliver id v) :=
  fun _ _ h => wp_deliver (fun _ => h.of_pieces rfl) (fun _ => trivial)
theorem Mono.setDone (i : Nat) (q : Piece) (hq : q.coalesced = true) : Mono A X (setPiece i q) :=
  fun _ _ h => wp_setPiece (h.set rfl fun _ _ => ⟨fun _ => hq, fun _ _ _ => .inl hq⟩)
theorem Mono.ite {α : Type} {c : Prop} [Decidable c] {p q : Op α} (hp : Mono A X p) (hq : Mono A X q) : Mono A X (if c then p else q) := by
  split
  · exact hp
  · exact hq

theorem Mono.onErr {α : Type} {p : Op α} {hd : Err → Op Unit} (hp : Mono A X p) (hh : ∀ e, Mono A X (hd e)) : Mono A X (Storage.onErr p hd) := by
  intro s m hm
  refine wp_onErr (wp_mono (hp s m hm) (fun _ _ h => h) ?_ (fun _ h => h) (fun _ h => h))
  intro e s' h'
  exact wp_mono (hh e s' m h') (fun _ _ h => h) (fun _ _ h => h) (fun _ h => h) (fun _ h => h)

theorem mono_completePiece (i : Nat) : Mono A X (completePiece i) := by
  unfold completePiece
  refine Mono.bind (Mono.getPiece _) fun x => Mono.bind (Mono.setDone _ _ rfl) fun _ => Mono.bind (Mono.deliver _ _) fun _ =>
    Mono.bind (Mono.setDone _ _ rfl) fun _ => ?_
  intro s m h
  refine wp_bind (wp_getMem (wp_bind ?_))
  refine wp_lift ?_
  cases hb : Bitfield.add s.mem.bitfield i with
  | ok bf => exact wp_setMem (h.of_pieces rfl)
  | err e => exact h
  | panic => trivial

theorem mono_complete : Mono A X complete := by
  intro s m h
  unfold complete
  refine wp_bind (wp_getMem (wp_bind (wp_setMem ?_)))
  exact Mono.deliver _ _ _ _ (h.of_pieces rfl)

theorem mono_readPieces (is : List Nat) : Mono A X (readPieces is) := by
  induction is with
  | nil => exact Mono.pure _
  | cons i is ih => exact Mono.bind Mono.call fun _ => Mono.bind Mono.callTemp fun _ => Mono.bind ih fun _ => Mono.pure _

theorem mono_copyN (n : Nat) (is : List Nat) : ∀ buf, Mono A X (copyN n buf is) := by
  induction is with
  | nil => intro buf; exact Mono.ite (Mono.pure _) (Mono.fail _)
  | cons i is ih => intro buf; exact Mono.ite (Mono.pure _) (Mono.bind Mono.call fun _ => ih _)

theorem mono_writeFiles (files : List File) : ∀ buf is acc, Mono A X (writeFiles buf is acc files) := by
  induction files with
  | nil => intro buf is acc; exact Mono.pure _
  | cons f fs ih =>
    intro buf is acc
    exact Mono.ite (Mono.fail _) (Mono.bind Mono.callTemp fun _ => Mono.bind Mono.callTemp fun _ => Mono.bind (mono_copyN _ _ _) fun _ =>
      Mono.bind Mono.callTemp fun _ => ih _ _ _)

theorem mono_coalescePieces : Mono A X (coalescePieces cfg) := by
  unfold coalescePieces
  refine Mono.bind Mono.getMem fun m => Mono.ite (Mono.pure _) (Mono.ite ?_ ?_)
  · exact Mono.bind Mono.callTemp fun _ => Mono.bind Mono.call fun _ => Mono.bind (mono_writeFiles _ _ _ _) fun _ => Mono.bind Mono.call fun _ =>
      Mono.bind Mono.call fun _ => mono_complete
  · exact Mono.bind Mono.callTemp fun _ => Mono.bind Mono.call fun _ => Mono.bind (mono_readPieces _) fun _ => Mono.bind Mono.call fun _ =>
      Mono.bind Mono.call fun _ => mono_complete

theorem mono_coalesceBlocks (i : Nat) : Mono A X (coalesceBlocks cfg i) := by
  unfold coalesceBlocks
  refine Mono.bind (Mono.getPiece _) fun x => Mono.ite (Mono.pure _) (Mono.bind Mono.callTemp fun _ => Mono.bind Mono.callTemp fun _ => ?_)
  cases joinBlocks (x.2.blocks.getD []) with
  | none => exact Mono.panic
  | some d =>
    exact Mono.bind Mono.callTemp fun _ => Mono.ite (Mono.fail _) (Mono.bind Mono.call fun _ => Mono.bind Mono.call fun _ => mono_completePiece _)

theorem blocksOf_held {info : Info} {i : Nat} {p : Piece} {k : Nat} (hc : p.coalesced = false) (h : p.held k) :
    ∃ b, (blocksOf info i p)[k]? = some (some b) := by
  rcases h with h | ⟨bs, b, h1, h2⟩
  · rw [hc] at h; cases h
  · exact ⟨b, by simp [blocksOf, h1, h2]⟩

theorem mono_putBlockP {s : Sys} {m : Mem} (h : Grows X m s.mem) {i : Nat} {p : Piece} (hp : s.mem.pieces[i]? = some p) (begin_ : Int) (data : Bytes) :
    wp A (putBlockP cfg.info i p begin_ data) (gpost X m) s := by
  unfold putBlockP
  by_cases hc : p.coalesced = true
  · rw [if_pos hc]; exact wp_fail h
  · rw [if_neg hc]
    have hc : p.coalesced = false := by simpa using hc
    refine wp_seq (Q1 := ⟨fun bs s' => s' = s ∧ bs = blocksOf cfg.info i p, fun _ _ => False, fun _ => True, fun _ => True⟩) ?_ ?_
      (fun _ _ h => h.elim) (fun _ h => h) (fun _ h => h)
    · unfold allocBlocks
      cases hb : p.blocks with
      | some bs => exact wp_pure ⟨rfl, by simp [blocksOf, hb]⟩
      | none =>
        dsimp only
        split
        · exact wp_panic trivial
        · exact wp_pure ⟨rfl, by simp [blocksOf, hb]⟩
    · rintro bs s0 ⟨hs0, rfl⟩
      rw [hs0]
      clear hs0 s0
      refine wp_bind (wp_setPiece ?_)
      have hi := (List.getElem?_eq_some_iff.mp hp).1
      have h1 : Grows X m { s.mem with pieces := s.mem.pieces.set i { p with blocks := some (blocksOf cfg.info i p) } } := by
        refine h.set rfl ?_
        intro p' hp'
        rw [hp] at hp'; cases hp'
        refine ⟨id, fun _ k hk => ?_⟩
        obtain ⟨b, hb⟩ := blocksOf_held (info := cfg.info) (i := i) hc hk
        exact .inr ⟨_, b, rfl, hb⟩
      show wp A (storeBlock i p (blocksOf cfg.info i p) (begin_.tdiv blockLength) data) (gpost X m) _
      unfold storeBlock
      split
      · exact wp_panic trivial
      · cases hx : (blocksOf cfg.info i p)[(begin_.tdiv blockLength).toNat]? with
        | none => exact wp_panic trivial
        | some o =>
          cases o with
          | some b => exact wp_fail h1
          | none =>
            refine wp_setPiece (h1.set rfl ?_)
            intro p' hp'
            simp [hi] at hp'
            subst hp'
            refine ⟨id, fun _ k hk => ?_⟩
            rcases hk with hk | ⟨bs, b, e, hb⟩
            · exact .inl hk
            · simp only [Option.some.injEq] at e
              subst e
              refine .inr ⟨_, b, rfl, ?_⟩
              rw [List.getElem?_set]
              by_cases hk : (begin_.tdiv blockLength).toNat = k
              · subst hk; rw [hx] at hb; cases hb
              · rw [if_neg hk]; exact hb

theorem mono_putBlock (index begin_ : Int) (data : Bytes) : Mono A X (putBlock cfg index begin_ data) := by
  unfold putBlock
  refine Mono.bind (Mono.lift _) fun _ => Mono.bind Mono.getMem fun m0 => Mono.ite (Mono.fail _) ?_
  intro s m h
  refine wp_bind (wp_getPiece ?_ (fun _ => trivial))
  intro i p hi hp
  show wp A _ _ s
  refine wp_seq (mono_putBlockP h hp begin_ data) ?_ (fun _ _ h => h) (fun _ h => h) (fun _ h => h)
  intro _ s1 h1
  refine Mono.bind (Mono.onErr (mono_coalesceBlocks i) fun e => ?_) (fun _ => mono_coalescePieces) s1 m h1
  intro s2 m2 h2
  refine wp_bind (wp_getMem (wp_bind (wp_setMem ?_)))
  exact Mono.deliver _ _ _ _ (h2.of_pieces rfl)

theorem mono_resetPiece (i : Nat) : Mono A (fun j => j = i) (resetPiece i) := by
  intro s m h
  unfold resetPiece
  refine wp_bind (wp_getPiece ?_ (fun _ => trivial))
  intro j p hj hp
  have : i = j := by omega
  subst this
  show wp A _ _ s
  unfold resetP
  refine wp_bind (wp_deliver (fun _ => ?_) (fun _ => trivial))
  refine wp_bind (wp_getMem (wp_bind (wp_setMem (wp_setPiece ?_))))
  refine h.set (i := i) (q := { p with fut := s.mem.futs.length, blocks := none, completeBlocks := 0 }) (by simp) ?_
  intro p' hp'
  rw [hp] at hp'; cases hp'
  exact ⟨id, fun hX => absurd rfl hX⟩

theorem mono_resetPiece_bad (i : Int) (hi : i < 0) : Mono A X (resetPiece i) := by
  intro s m h
  unfold resetPiece
  exact wp_bind (wp_getPiece (fun j _ hj _ => absurd hi (by omega)) (fun _ => trivial))

theorem mono_completeAll (is : List Nat) : Mono A X (completeAll is) := by
  induction is with
  | nil => exact Mono.pure _
  | cons i is ih => exact Mono.bind (mono_completePiece i) fun _ => ih

theorem mono_addDownloaded {β : Type} (n : Int) {k : Op β} (hk : Mono A X k) :
    Mono A X (do let m ← Op.getMem; Op.setMem { m with downloaded := m.downloaded + n }; k) := by
  intro s m h
  exact wp_bind (wp_getMem (wp_bind (wp_setMem (hk _ m (h.of_pieces rfl)))))

theorem mono_loadEntries (es : List (Bytes × Bytes)) : Mono A X (loadEntries es) := by
  induction es with
  | nil => exact Mono.pure _
  | cons x es ih =>
    obtain ⟨name, content⟩ := x
    unfold loadEntries
    cases sscanfPiece name with
    | none => exact ih
    | some i =>
      exact Mono.bind Mono.callTemp fun _ => mono_addDownloaded _ (Mono.bind (Mono.getPiece _) fun _ => Mono.bind (mono_completePiece _) fun _ => ih)

theorem mono_load : Mono A X (load cfg) := by
  unfold load
  refine Mono.bind Mono.call fun o => ?_
  cases o with
  | some size =>
    refine Mono.bind (mono_completeAll _) fun _ => Mono.bind mono_complete fun _ => ?_
    intro s m h
    exact wp_bind (wp_getMem (wp_setMem (h.of_pieces rfl)))
  | none =>
    refine Mono.bind Mono.call fun o => ?_
    cases o with
    | none => exact Mono.pure _
    | some es => exact Mono.bind (mono_loadEntries es) fun _ => mono_coalescePieces

theorem runOp_grows {α : Type} {p : Op α} (hp : Mono (fun _ => True) X p) {w : World} {m m' : Mem} (hw : w.mem = some m) (f : List Fate)
    (hw' : (runOp p w f).2.mem = some m') : Grows X m m' := by
  unfold runOp at hw'
  rw [hw] at hw'
  have := wp_any (hp ⟨w.fs, m⟩ m (Grows.refl m)) f
  dsimp only at hw'
  rcases hr : p ⟨w.fs, m⟩ f with ⟨o, s, f'⟩
  rw [hr] at this hw'
  cases o with
  | ok a => cases hw'; exact this
  | err e => cases hw'; exact this
  | panic => cases hw'
  | crash => cases hw'

/-- The events that keep everything about the pieces outside `X`. -/
def Keeps (X : Nat → Prop) : Event → Prop
  | .start => False
  | .reset i => ∀ n : Nat, i = n → X n
  | _ => True

theorem step_grows {w : World} {e : Event} {f : List Fate} {m m' : Mem} (he : Keeps X e) (hw : w.mem = some m) (hw' : (step cfg w e f).mem = some m') :
    Grows X m m' := by
  cases e with
  | start => exact he.elim
  | load => exact runOp_grows mono_load hw f hw'
  | put i b d => exact runOp_grows (mono_putBlock i b d) hw f hw'
  | get i b l =>
    refine runOp_grows ?_ hw f hw'
    intro s m h
    refine wp_mono (wp_getBlock_any i b l) ?_ ?_ (fun _ _ => trivial) (fun _ _ => trivial)
    · rintro _ s' ⟨_, rfl⟩; exact h
    · rintro _ s' rfl; exact h
  | reset i =>
    by_cases hi : i < 0
    · exact runOp_grows (mono_resetPiece_bad i hi) hw f hw'
    · have h1 : i = (i.toNat : Int) := by omega
      have hX : X i.toNat := he _ h1
      have hw'' : (runOp (resetPiece (i.toNat : Int)) w f).2.mem = some m' := by rw [← h1]; exact hw'
      intro j p hp
      obtain ⟨q, g1, g2, g3⟩ := runOp_grows (mono_resetPiece i.toNat) hw f hw'' j p hp
      refine ⟨q, g1, g2, fun hXj => g3 fun e => hXj ?_⟩
      rw [e]; exact hX

theorem Grows.trans {m m' m'' : Mem} (h : Grows X m m') (h' : Grows X m' m'') : Grows X m m'' := by
  intro i p hp
  obtain ⟨q, h1, h2, h3⟩ := h i p hp
  obtain ⟨r, g1, g2, g3⟩ := h' i q h1
  exact ⟨r, g1, fun hc => g2 (h2 hc), fun hX k hk => g3 hX k (h3 hX k hk)⟩

theorem step_dead {w : World} {e : Event} {f : List Fate} (he : Keeps X e) (hw : w.mem = none) : (step cfg w e f).mem = none := by
  cases e with
  | start => exact he.elim
  | load => simp [step, runOp, hw]
  | put i b d => simp [step, runOp, hw]
  | get i b l => simp [step, runOp, hw]
  | reset i => simp [step, runOp, hw]

theorem run_dead (es : List (Event × List Fate)) : ∀ {w : World}, (∀ x ∈ es, Keeps X x.1) → w.mem = none → (run cfg es w).mem = none := by
  induction es with
  | nil => intro w _ h; exact h
  | cons x es ih => intro w h hw; exact ih (fun y hy => h y (by simp [hy])) (step_dead (h x (by simp)) hw)

theorem run_grows (es : List (Event × List Fate)) : ∀ {w : World} {m m' : Mem}, (∀ x ∈ es, Keeps X x.1) → w.mem = some m → (run cfg es w).mem = some m' →
    Grows X m m' := by
  induction es with
  | nil => intro w m m' _ h1 h2; rw [run, h1] at h2; cases h2; exact Grows.refl _
  | cons x es ih =>
    intro w m m' h hw hw'
    cases h1 : (step cfg w x.1 x.2).mem with
    | none => have h2 := run_dead (cfg := cfg) es (fun y hy => h y (by simp [hy])) h1; rw [run, h2] at hw'; cases hw'
    | some m1 => exact (step_grows (h x (by simp)) hw h1).trans (ih (fun y hy => h y (by simp [hy])) h1 hw')

end Drip.Storage
