import Verif.Lemmas.P2PFairInv
import Mathlib.Data.List.Perm.Subperm
/-
Under fair scheduling a download from seeders is completed.
-/

namespace Drip.P2P
open PeerWire Metainfo Spec
open Storage (Fate World Mem FS Op runOp putBlock resetPiece SInv Exact Original Done blockOf Held)

variable {cfg : Cfg} {X : List Bytes} {σ : Nat → State} {ev : Nat → Option (Event × Luck)} {F : Nat → FS} {M : Nat → Mem}

/-- What remains possible until it is done is done. -/
theorem leads {P Q R : Nat → Prop} (hw : Weakly P Q) {n : Nat} (hr : R n) (hp : ∀ k, n ≤ k → R k → P k) (hs : ∀ k, n ≤ k → R k → ¬ Q k → R (k + 1)) : ∃ k, n ≤ k ∧ R k ∧ Q k := by
  refine Classical.byContradiction fun hn => ?_
  have hall : ∀ k, n ≤ k → R k := by
    intro k hk
    induction hk with
    | refl => exact hr
    | @step k hk ih => exact hs k hk ih fun hq => hn ⟨k, hk, ih, hq⟩
  obtain ⟨k, hk, hq⟩ := hw n fun k hk => hp k hk (hall k hk)
  exact hn ⟨k, hk, hall k hk, hq⟩

/-- What eventually holds for ever, of each of finitely many, eventually holds of all. -/
theorem all_below {P : Nat → Nat → Prop} {n : Nat} (hmono : ∀ b k, n ≤ k → P b k → P b (k + 1)) (h : ∀ b, ∃ k, n ≤ k ∧ P b k) (N : Nat) : ∃ k, n ≤ k ∧ ∀ b, b < N → P b k := by
  have hm : ∀ {b k k'}, n ≤ k → k ≤ k' → P b k → P b k' := by
    intro b k k' hk hkk hp
    induction hkk with
    | refl => exact hp
    | @step k' hk' ih => exact hmono b k' (Nat.le_trans hk hk') ih
  induction N with
  | zero => exact ⟨n, Nat.le_refl _, fun b hb => by omega⟩
  | succ N ih =>
    obtain ⟨k, hk, h1⟩ := ih
    obtain ⟨k', hk', h2⟩ := h N
    refine ⟨max k k', by omega, fun b hb => ?_⟩
    by_cases e : b = N
    · subst e; exact hm hk' (by omega) h2
    · exact hm hk (by omega) (h1 b (by omega))

theorem Trace.done (T : Trace cfg X σ ev F M) {n k i : Nat} (hk : n ≤ k) (h : Done (M n) i) : Done (M k) i := by
  induction hk with
  | refl => exact h
  | @step k _ ih => exact (T.stays k).1 i ih

/-- The block was asked for, at the moment `k`, of the peer `r`. -/
def SentAt (σ : Nat → State) (r i b l k : Nat) : Prop := ∃ c, (σ k).peers[r]? = some c ∧ Requested c i b l
/-- It has arrived. -/
def CameAt (X : List Bytes) (σ : Nat → State) (r i b l k : Nat) : Prop := ∃ c, (σ k).peers[r]? = some c ∧ Arrived X c i b l

theorem Trace.sent_mono (T : Trace cfg X σ ev F M) {r i b l k : Nat} (h : SentAt σ r i b l k) : SentAt σ r i b l (k + 1) := by
  obtain ⟨c, h1, h2⟩ := h
  obtain ⟨c', g1, g2, _⟩ := (T.moves k).conns r c h1
  exact ⟨c', g1, (g2 _ _ _).mpr (.inl h2)⟩

theorem Trace.sent_le (T : Trace cfg X σ ev F M) {r i b l k k' : Nat} (hk : k ≤ k') (h : SentAt σ r i b l k) : SentAt σ r i b l k' := by
  induction hk with
  | refl => exact h
  | @step k _ ih => exact T.sent_mono ih

theorem Trace.came_mono (T : Trace cfg X σ ev F M) {r i b l k : Nat} (h : CameAt X σ r i b l k) : CameAt X σ r i b l (k + 1) := by
  obtain ⟨c, h1, h2⟩ := h
  obtain ⟨c', g1, _, g3⟩ := (T.moves k).conns r c h1
  refine ⟨c', g1, ?_⟩
  unfold Arrived at h2 ⊢
  rcases g3 with g3 | ⟨_, _, _, _, _, _, _, g3, _⟩
  · rw [g3.1]; exact h2
  · rw [g3]; exact List.mem_append_left _ h2

theorem Trace.came_le (T : Trace cfg X σ ev F M) {r i b l k k' : Nat} (hk : k ≤ k') (h : CameAt X σ r i b l k) : CameAt X σ r i b l k' := by
  induction hk with
  | refl => exact h
  | @step k _ ih => exact T.came_mono ih

theorem Trace.conn (T : Trace cfg X σ ev F M) {r i k : Nat} {st : Stage} (h : ⟨r, i, st⟩ ∈ (σ k).jobs) : ∃ c, (σ k).peers[r]? = some c := by
  have := ((T.seeding k).jobs _ h).1
  exact ⟨_, List.getElem?_eq_getElem this⟩

theorem block_isBlock {i b l : Nat} (h : Block X i b l) : ∃ k x, IsBlock X i k x ∧ b = k * 16384 ∧ l = (blockOf x k).length ∧
    pieceMsg (i : Nat) (b : Nat) (((X.getD i []).drop b).take l) = pieceMsg i (k * 16384 : Nat) (blockOf x k) := by
  obtain ⟨x, h1, h2, h3, h4⟩ := h
  have hb : b = b / 16384 * 16384 := by omega
  refine ⟨b / 16384, x, ⟨h1, by omega⟩, hb, ?_, ?_⟩
  · rw [Storage.blockOf_length, ← hb]; exact h4
  · have := answer_eq (X := X) (i := i) (k := b / 16384) h1
    unfold reply at this
    injection this with _ _ this
    rw [← this, Storage.blockOf_length, ← hb, ← h4]

theorem isBlock_block {i k : Nat} {x : Bytes} (h : IsBlock X i k x) : Block X i (k * 16384) (min 16384 (x.length - k * 16384)) := ⟨x, h.1, by omega, h.2, rfl⟩

/-- The situation in which nothing new is ever completed. -/
structure Idle (cfg : Cfg) (X : List Bytes) (σ : Nat → State) (ev : Nat → Option (Event × Luck)) (F : Nat → FS) (M : Nat → Mem) (n : Nat) : Prop where
  orig : Original cfg.store X
  trace : Trace cfg X σ ev F M
  fair : Fair X σ ev
  const : ∀ k i, n ≤ k → i < X.length → Done (M k) i → Done (M n) i

section
variable {n : Nat} (I : Idle cfg X σ ev F M n)
include I

theorem Idle.running {k0 r i : Nat} (hk0 : n ≤ k0) (hj : ⟨r, i, .running⟩ ∈ (σ k0).jobs) (hd : ¬ Done (M n) i) : ∀ k, k0 ≤ k → ⟨r, i, .running⟩ ∈ (σ k).jobs := by
  intro k hk
  induction hk with
  | refl => exact hj
  | @step k hk ih =>
    rcases (I.trace.moves k).jobs _ ih with h1 | ⟨_, _, _, h1 | h1 | h1 | h1⟩
    · exact h1
    · cases h1.2
    · have hi := ((I.trace.seeding k).jobs _ ih).2.1
      exact absurd (I.const k i (Nat.le_trans hk0 hk) hi (return_done (I.trace.seeding k) (by decide) h1.2.2).2) hd
    · cases h1.2
    · cases h1.2

/-- A block that is new is requested as long as there is one. -/
theorem Idle.request {k0 r i : Nat} (hk0 : n ≤ k0) (hj : ⟨r, i, .running⟩ ∈ (σ k0).jobs) (hd : ¬ Done (M n) i) {k1 : Nat} (hk1 : k0 ≤ k1)
    (hun : ∀ k, k1 ≤ k → ∃ b l, Block X i b l ∧ ¬ SentAt σ r i b l k) : ∃ k b l, k1 ≤ k ∧ Block X i b l ∧ ¬ SentAt σ r i b l k ∧ SentAt σ r i b l (k + 1) := by
  have hrun := I.running hk0 hj hd
  refine Classical.byContradiction fun hno => ?_
  have hsame : ∀ b l, Block X i b l → ∀ k, k1 ≤ k → SentAt σ r i b l k → SentAt σ r i b l k1 := by
    intro b l hb k hk
    induction hk with
    | refl => exact id
    | @step k hk ih => exact fun h => ih (Classical.byContradiction fun hn => hno ⟨k, b, l, hk, hb, hn, h⟩)
  obtain ⟨x, hx⟩ : ∃ x, X[i]? = some x := ⟨_, List.getElem?_eq_getElem ((I.trace.seeding k0).jobs _ hj).2.1⟩
  obtain ⟨k2, hk2, hall⟩ := all_below (n := k1) (P := fun b k => ∀ l, Block X i b l → SentAt σ r i b l k1 → CameAt X σ r i b l k)
    (fun b k _ h l hb hs => I.trace.came_mono (h l hb hs)) (by
      intro b
      by_cases hb : ∃ l, Block X i b l ∧ SentAt σ r i b l k1
      · obtain ⟨l, hb, c, hc, hs⟩ := hb
        obtain ⟨k, hk, c', h1, h2⟩ := I.fair.answers k1 r c i b l hc hs
        refine ⟨k, hk, fun l' hb' _ => ?_⟩
        obtain ⟨x1, e1, _, _, e2⟩ := hb
        obtain ⟨x2, e3, _, _, e4⟩ := hb'
        rw [e1] at e3; cases e3
        rw [e4, ← e2]
        exact ⟨c', h1, h2⟩
      · exact ⟨k1, Nat.le_refl _, fun l hb' hs => absurd ⟨l, hb', hs⟩ hb⟩) x.length
  obtain ⟨k, hk, c, kk, b, l, luck, hc, hb, hns, hkk, he, hok⟩ := I.fair.requests r i k2 (by
    intro k hk
    have hjk := hrun k (by omega)
    obtain ⟨c, hc⟩ := I.trace.conn hjk
    refine ⟨hjk, c, hc, ?_, ?_⟩
    · obtain ⟨b, l, hb, hn⟩ := hun k (by omega)
      exact ⟨b, l, hb, fun h => hn ⟨c, hc, h⟩⟩
    · intro b l hb hs
      have hs1 := hsame b l hb k (by omega) ⟨c, hc, hs⟩
      have hbx : b < x.length := by
        obtain ⟨x', e, _, h, _⟩ := hb
        rw [hx] at e; cases e; exact h
      obtain ⟨c', h1, h2⟩ := I.trace.came_le hk (hall b hbx l hb hs1)
      rw [hc] at h1; cases h1
      exact h2)
  refine hno ⟨k, b, l, by omega, hb, ?_, ?_⟩
  · rintro ⟨c', h1, h2⟩
    rw [hc] at h1; cases h1
    exact hns h2
  · obtain ⟨c', h1, h2, _⟩ := (I.trace.moves k).conns r c hc
    refine ⟨c', h1, (h2 _ _ _).mpr (.inr ⟨kk, i, luck, he, hkk, ?_, hok⟩)⟩
    obtain ⟨bk, x', hbk, e1, e2, _⟩ := block_isBlock hb
    have := block_request I.orig hbk
    rw [e2, e1]
    exact this

/-- All blocks are requested. -/
theorem Idle.requests {k0 r i : Nat} (hk0 : n ≤ k0) (hj : ⟨r, i, .running⟩ ∈ (σ k0).jobs) (hd : ¬ Done (M n) i) : ∃ k, k0 ≤ k ∧ ∀ b l, Block X i b l → SentAt σ r i b l k := by
  refine Classical.byContradiction fun hno => ?_
  have hun : ∀ k, k0 ≤ k → ∃ b l, Block X i b l ∧ ¬ SentAt σ r i b l k := fun k hk => Classical.byContradiction fun h =>
    hno ⟨k, hk, fun b l hb => Classical.byContradiction fun hs => h ⟨b, l, hb, hs⟩⟩
  obtain ⟨x, hx⟩ : ∃ x, X[i]? = some x := ⟨_, List.getElem?_eq_getElem ((I.trace.seeding k0).jobs _ hj).2.1⟩
  have key : ∀ j, ∃ (k : Nat) (L : List Nat), k0 ≤ k ∧ L.Nodup ∧ L.length = j ∧ ∀ b ∈ L, ∃ l, Block X i b l ∧ SentAt σ r i b l k := by
    intro j
    induction j with
    | zero => exact ⟨k0, [], Nat.le_refl _, List.nodup_nil, rfl, fun b hb => by cases hb⟩
    | succ j ih =>
      obtain ⟨k, L, hk, h1, h2, h3⟩ := ih
      obtain ⟨k', b, l, hk', hb, hn, hy⟩ := I.request hk0 hj hd hk (fun k'' hk'' => hun k'' (by omega))
      have hle : ∀ {b l}, SentAt σ r i b l k → SentAt σ r i b l k' := fun h => I.trace.sent_le hk' h
      refine ⟨k' + 1, b :: L, by omega, List.nodup_cons.mpr ⟨fun hm => ?_, h1⟩, by simp [h2], ?_⟩
      · obtain ⟨l', hb', hs'⟩ := h3 b hm
        obtain ⟨x1, e1, _, _, e2⟩ := hb
        obtain ⟨x2, e3, _, _, e4⟩ := hb'
        rw [e1] at e3; cases e3
        rw [e4, ← e2] at hs'
        exact hn (hle hs')
      · intro b' hm
        rcases List.mem_cons.mp hm with rfl | hm
        · exact ⟨l, hb, hy⟩
        · obtain ⟨l', hb', hs'⟩ := h3 b' hm
          exact ⟨l', hb', I.trace.sent_mono (hle hs')⟩
  obtain ⟨k, L, _, h1, h2, h3⟩ := key (x.length + 1)
  have hsub : L ⊆ List.range x.length := by
    intro b hb
    obtain ⟨l, ⟨x', e, _, h, _⟩, _⟩ := h3 b hb
    rw [hx] at e; cases e
    exact List.mem_range.mpr h
  have := (h1.subperm hsub).length_le
  simp at this
  omega

/-- No piece that is never completed is being downloaded. -/
theorem Idle.no_running {k0 r i : Nat} (hk0 : n ≤ k0) (hj : ⟨r, i, .running⟩ ∈ (σ k0).jobs) (hd : ¬ Done (M n) i) : False := by
  have hrun := I.running hk0 hj hd
  have hi := ((I.trace.seeding k0).jobs _ hj).2.1
  obtain ⟨x, hx⟩ : ∃ x, X[i]? = some x := ⟨_, List.getElem?_eq_getElem hi⟩
  obtain ⟨k1, hk1, hall⟩ := I.requests hk0 hj hd
  obtain ⟨k2, hk2, hheld⟩ := all_below (n := k1) (P := fun b k => b * 16384 < x.length → Held (M k) i b)
    (fun b k hk h hb => (I.trace.stays k).2 i b (.inr ⟨r, hrun k (by omega)⟩) (h hb)) (by
      intro b
      by_cases hb : b * 16384 < x.length
      · have hB := isBlock_block (X := X) (i := i) (k := b) ⟨hx, hb⟩
        obtain ⟨c, hc, hs⟩ := hall _ _ hB
        obtain ⟨k, hk, c', h1, h2⟩ := I.fair.answers k1 r c i _ _ hc hs
        obtain ⟨b', x', hib, e1, _, e3⟩ := block_isBlock hB
        have e1 : b' = b := by omega
        subst e1
        have e2 : x' = x := by have := hib.1; rw [hx] at this; cases this; rfl
        subst e2
        unfold Arrived at h2
        rw [e3] at h2
        obtain ⟨_, hp | hp⟩ := I.trace.got k r c' i b' x' h1 hib h2
        · obtain ⟨k3, hk3, ⟨c3, g1, g2⟩, l, hev⟩ := leads (R := fun k => ∃ c, (σ k).peers[r]? = some c ∧ c.phase = .serving (some (pieceMsg i (b' * 16384 : Nat) (blockOf x' b'))))
            (I.fair.handles r) ⟨c', h1, hp⟩ (fun k _ ⟨c, hc, hp⟩ => ⟨c, _, hc, hp⟩) (by
              rintro k4 _ ⟨c4, f1, f2⟩ hno
              obtain ⟨c5, f3, _, f4⟩ := (I.trace.moves k4).conns r c4 f1
              refine ⟨c5, f3, ?_⟩
              rcases f4 with ⟨_, f4 | ⟨l, f4⟩⟩ | ⟨_, _, _, _, _, f4, _⟩
              · exact f4.trans f2
              · exact absurd ⟨l, f4⟩ hno
              · rw [f2] at f4; cases f4)
          refine ⟨k3 + 1, by omega, fun _ => ?_⟩
          obtain ⟨hst, hho⟩ := I.trace.next k3 _ hev
          obtain ⟨fs', m', q1, _, _, _, _, q6, _⟩ := handle_put I.orig (I.trace.seeding k3) (I.trace.unlocked k3) g1 hib (.inr ⟨r, hrun k3 (by omega)⟩) g2 l hho.1
          rw [← hst] at q1
          obtain ⟨_, e⟩ := q1.same (I.trace.seeding (k3 + 1)) rfl
          rw [e]; exact q6
        · exact ⟨k, hk, fun _ => hp⟩
      · exact ⟨k1, Nat.le_refl _, fun h => absurd h hb⟩) (x.length + 1)
  have := held_done I.orig (I.trace.seeding k2) hx (fun b hb => hheld b (by omega) hb)
  exact hd (I.const k2 i (by omega) hi this)

/-- Nothing is begun any more. -/
theorem Idle.no_fresh {k0 r i : Nat} (hk0 : n ≤ k0) (hj : ⟨r, i, .fresh⟩ ∈ (σ k0).jobs) : False := by
  obtain ⟨k, hk, h1, kk, h2, l, h3⟩ := leads (I.fair.begins r i) (R := fun k => ⟨r, i, .fresh⟩ ∈ (σ k).jobs) hj (fun _ _ => id) (by
    intro k _ hjk hno
    rcases (I.trace.moves k).jobs _ hjk with h1 | ⟨kk, l, hkk, h1 | h1 | h1 | h1⟩
    · exact h1
    · exact absurd ⟨kk, hkk, l, h1.1⟩ hno
    · cases h1.2.1
    · cases h1.2
    · cases h1.2)
  refine I.no_running (k0 := k + 1) (by omega) ((I.trace.moves k).begun kk l r i h3 h2) fun hd => ?_
  exact ((I.trace.seeding k).jobs _ h1).2.2.2.1 rfl (I.trace.done (by omega) hd)

/-- No goroutine is to request a piece. -/
theorem Idle.no_request {k0 r i0 : Nat} (hk0 : n ≤ k0) (hi0 : i0 < X.length) (hn0 : ¬ Done (M n) i0) (hr : r ∈ (σ k0).toRequest) : False := by
  obtain ⟨k, hk, h1, kk, h2, l, h3⟩ := leads (I.fair.selects r) (R := fun k => r ∈ (σ k).toRequest) hr (fun _ _ => id) (by
    intro k _ hrk hno
    rcases (I.trace.moves k).toRequest _ hrk with h1 | ⟨kk, l, h1, h2⟩
    · exact h1
    · exact absurd ⟨kk, h1, l, h2⟩ hno)
  have hnk : ¬ Done (M k) i0 := fun hd => hn0 (I.const k i0 (by omega) hi0 hd)
  obtain ⟨i, hi⟩ := select_new I.orig.contents.1 (I.trace.seeding k) (I.trace.unlocked k) h2 l hi0 hnk (by
    rintro ⟨r', i', st⟩ hj e
    have e : i' = i0 := e
    subst e
    cases st with
    | fresh => exact I.no_fresh (k0 := k) (by omega) hj
    | running => exact I.no_running (k0 := k) (by omega) hj hn0
    | over => exact hnk (((I.trace.seeding k).jobs _ hj).2.2.2.2 (.inl rfl))
    | handed => exact hnk (((I.trace.seeding k).jobs _ hj).2.2.2.2 (.inr rfl)))
  rw [← (I.trace.next k _ h3).1] at hi
  exact I.no_fresh (k0 := k + 1) (by omega) hi

theorem Idle.no_over {k0 r i i0 : Nat} (hk0 : n ≤ k0) (hi0 : i0 < X.length) (hn0 : ¬ Done (M n) i0) (hj : ⟨r, i, .over⟩ ∈ (σ k0).jobs) : False := by
  obtain ⟨k, hk, h1, kk, h2, l, h3⟩ := leads (I.fair.hands r i) (R := fun k => ⟨r, i, .over⟩ ∈ (σ k).jobs) hj (fun _ _ => id) (by
    intro k _ hjk hno
    rcases (I.trace.moves k).jobs _ hjk with h1 | ⟨kk, l, hkk, h1 | h1 | h1 | h1⟩
    · exact h1
    · cases h1.2
    · cases h1.2.1
    · exact absurd ⟨kk, hkk, l, h1.1⟩ hno
    · cases h1.2)
  exact I.no_request (k0 := k + 1) (by omega) hi0 hn0 ((I.trace.moves k).handed kk l r i h3 h2)

/-- If there is a seeder, everything has been completed. -/
theorem Idle.complete (hp : (σ n).peers ≠ []) : ∀ i, i < X.length → Done (M n) i := by
  intro i0 hi0
  refine Classical.byContradiction fun hn0 => ?_
  rcases (I.trace.seeding n).busy 0 (List.length_pos_iff.mpr hp) with hb | hb | ⟨⟨r, i, st⟩, hj, hjr, hjs⟩ | hb
  · exact I.no_request (Nat.le_refl n) hi0 hn0 hb
  · obtain ⟨k, hk, h1, kk, h2, l, h3⟩ := leads (I.fair.tries 0) (R := fun k => 0 ∈ (σ k).waiting) hb (fun _ _ => id) (by
      intro k _ hrk hno
      rcases (I.trace.moves k).waiting _ hrk with h1 | ⟨kk, l, h1, h2⟩
      · exact h1
      · exact absurd ⟨kk, h1, l, h2⟩ hno)
    exact I.no_request (k0 := k + 1) (by omega) hi0 hn0 ((I.trace.moves k).tried kk l 0 h3 h2)
  · cases st with
    | fresh => exact I.no_fresh (Nat.le_refl n) hj
    | over => exact I.no_over (Nat.le_refl n) hi0 hn0 hj
    | handed => exact hjs rfl
    | running =>
      by_cases hd : Done (M n) i
      · have hret : ∀ k, n ≤ k → canReturn (σ k) i .complete = true := fun k hk => done_return (I.trace.seeding k) (I.trace.done hk hd)
        obtain ⟨k, hk, h1, kk, h2, l, h3⟩ := leads (I.fair.ends r i) (R := fun k => ⟨r, i, .running⟩ ∈ (σ k).jobs) hj (fun k hk h => ⟨h, hret k hk⟩) (by
          intro k _ hjk hno
          rcases (I.trace.moves k).jobs _ hjk with h1 | ⟨kk, l, hkk, h1 | h1 | h1 | h1⟩
          · exact h1
          · cases h1.2
          · exact absurd ⟨kk, hkk, l, h1.1⟩ hno
          · cases h1.2
          · cases h1.2)
        exact I.no_over (k0 := k + 1) (by omega) hi0 hn0 ((I.trace.moves k).ended kk l r i h3 h2 (hret k hk))
      · exact I.no_running (Nat.le_refl n) hj hd
  · exact hn0 (hb i0 hi0)

end

/-- From some moment on nothing new is completed. -/
theorem Trace.idle (T : Trace cfg X σ ev F M) (hO : Original cfg.store X) (hf : Fair X σ ev) (n0 : Nat) : ∃ n, n0 ≤ n ∧ Idle cfg X σ ev F M n := by
  obtain ⟨n, hn, h⟩ := all_below (n := n0) (P := fun i n => Done (M n) i ∨ ∀ k, ¬ Done (M k) i) (fun i k _ h => h.imp ((T.stays k).1 i) id) (by
    intro i
    by_cases hd : ∃ k, Done (M k) i
    · obtain ⟨k, hd⟩ := hd
      exact ⟨max n0 k, by omega, .inl (T.done (by omega) hd)⟩
    · exact ⟨n0, Nat.le_refl _, .inr fun k hk => hd ⟨k, hk⟩⟩) X.length
  exact ⟨n, hn, hO, T, hf, fun k i _ hi hd => (h i hi).elim id fun hno => absurd hd (hno k)⟩

end Drip.P2P
