import Verif.Lemmas.P2PFair
/-
Blocks that have arrived are stored, or will be next. Infinite downloads.
-/

namespace Drip.P2P
open PeerWire Metainfo Spec
open Storage (Fate World Mem FS Op runOp putBlock resetPiece SInv Exact Original Done blockOf Held)

variable {cfg : Cfg} {X : List Bytes} {s s' : State} {fs fs' : FS} {m m' : Mem}

/-- Blocks that have arrived are about to be stored or have been. -/
def Got (X : List Bytes) (s : State) (m : Mem) : Prop :=
  ∀ (r : Nat) (c : Conn) (i k : Nat) (x : Bytes), s.peers[r]? = some c → IsBlock X i k x → pieceMsg i (k * 16384 : Nat) (blockOf x k) ∈ c.received →
    Started s.jobs m i ∧ (c.phase = .serving (some (pieceMsg i (k * 16384 : Nat) (blockOf x k))) ∨ Held m i k)

theorem started_stays {e : Option (Event × Luck)} (h : Seeding cfg X s fs m) (hm : Moves cfg s e s') (hd : ∀ i, Done m i → Done m' i) {i : Nat} (hs : Started s.jobs m i) : Started s'.jobs m' i := by
  rcases hs with hs | ⟨r, hr⟩
  · exact .inl (hd i hs)
  · rcases hm.jobs _ hr with h1 | ⟨k, l, hk, h1 | h1 | h1 | h1⟩
    · exact .inr ⟨r, h1⟩
    · cases h1.2
    · exact .inl (hd i (return_done h (by decide) h1.2.2).2)
    · cases h1.2
    · cases h1.2

theorem pieceMsg_inj {i i' : Nat} {b b' : Int} {d d' : Bytes} (h : pieceMsg (i : Nat) b d = pieceMsg (i' : Nat) b' d') : i = i' ∧ b = b' := by
  injection h with _ _ h1 h2
  exact ⟨by omega, h2⟩

/-- What must be known of a step besides. -/
theorem got_of {e : Option (Event × Luck)} (h : Seeding cfg X s fs m) (hg : Got X s m) (hm : Moves cfg s e s') (hs : Stays s m m') (h' : Seeding cfg X s' fs' m')
    (hh : ∀ r l c i k x, e = some (.handle r, l) → s.peers[r]? = some c → IsBlock X i k x → Started s.jobs m i → c.phase = .serving (some (pieceMsg i (k * 16384 : Nat) (blockOf x k))) → Held m' i k) :
    Got X s' m' := by
  intro r c' i k x hc' hb hr
  by_cases hlt : r < s.peers.length
  · obtain ⟨c, hc⟩ : ∃ c, s.peers[r]? = some c := ⟨_, List.getElem?_eq_getElem hlt⟩
    obtain ⟨c1, h1, _, h3⟩ := hm.conns r c hc
    rw [h1] at hc'; cases hc'
    rcases h3 with ⟨h3, h4⟩ | ⟨rd, l, msg, r', e1, h4, h5, h6, h7⟩
    · rw [h3] at hr
      obtain ⟨g1, g2⟩ := hg r c i k x hc hb hr
      refine ⟨started_stays h hm hs.1 g1, ?_⟩
      rcases g2 with g2 | g2
      · rcases h4 with h4 | ⟨l, h4⟩
        · exact .inl (h4.trans g2)
        · exact .inr (hh r l c i k x h4 hc hb g1 g2)
      · exact .inr (hs.2 i k g1 g2)
    · rw [h6] at hr
      rcases List.mem_append.mp hr with hr | hr
      · obtain ⟨g1, g2⟩ := hg r c i k x hc hb hr
        refine ⟨started_stays h hm hs.1 g1, ?_⟩
        rcases g2 with g2 | g2
        · rw [h4] at g2; cases g2
        · exact .inr (hs.2 i k g1 g2)
      · have hr := List.mem_singleton.mp hr
        subst hr
        refine ⟨?_, .inl h7⟩
        rcases (h'.conns r c' h1).phase with hp | ⟨i', k', x', _, hst, hp⟩
        · rw [h7] at hp; cases hp
        · rw [h7] at hp
          injection hp with hp
          injection hp with hp
          obtain ⟨rfl, _⟩ := pieceMsg_inj hp
          exact hst
  · exact absurd rfl (hm.new r c' (by omega) hc' _ hr)

/-- An honest step. -/
theorem honest_all (hO : Original cfg.store X) (h : Seeding cfg X s fs m) (hl : s.locked = false) (hg : Got X s m) {e : Event × Luck} (he : Honest X s e) :
    Moves cfg s (some e) (step cfg s e) ∧ ∃ fs' m', Seeding cfg X (step cfg s e) fs' m' ∧ (step cfg s e).locked = false ∧ Stays s m m' ∧ Got X (step cfg s e) m' := by
  obtain ⟨hm, fs', m', h1, h2, h3⟩ := honest_moves hO h hl he
  refine ⟨hm, fs', m', h1, h2, h3, got_of h hg hm h3 h1 ?_⟩
  intro r l c i k x e1 hc hb hst hp
  cases e1
  obtain ⟨fs2, m2, g1, _, _, _, _, g6, _⟩ := handle_put hO h hl hc hb hst hp l he.1
  obtain ⟨_, rfl⟩ := h1.same g1 rfl
  exact g6

/-- Somebody joins. -/
theorem join_all (hO : Original cfg.store X) (h20 : cfg.store.info.sha1.length = 20) (h : Seeding cfg X s fs m) (hl : s.locked = false) (hg : Got X s m) (hj : Joins cfg X s s') :
    Moves cfg s none s' ∧ Seeding cfg X s' fs m ∧ s'.locked = false ∧ Got X s' m := by
  obtain ⟨h1, h2, h3, h4, h5, c, h6, h7⟩ := join_seeding hO h20 h hl hj
  have hm : Moves cfg s none s' := {
    jobs := fun j hj => .inl (by rw [h3]; exact hj)
    toRequest := fun r hr => .inl (by rw [h5]; simp [hr])
    waiting := fun r hr => .inl (by rw [h4]; exact hr)
    conns := fun r d hd => by
      refine ⟨d, ?_, fun i b n => ⟨.inl, fun hh => hh.elim id (by rintro ⟨_, _, _, e1, _⟩; cases e1)⟩, .inl ⟨rfl, .inl rfl⟩⟩
      rw [h6, List.getElem?_append_left (List.getElem?_eq_some_iff.mp hd).1]
      exact hd
    new := fun r d hr hd => by
      rw [h6, List.getElem?_append_right hr] at hd
      have hd := List.mem_of_getElem? hd
      rw [List.mem_singleton.mp hd]
      exact h7
    begun := fun k l r i e1 => by cases e1
    ended := fun k l r i e1 => by cases e1
    handed := fun k l r i e1 => by cases e1
    tried := fun k l r e1 => by cases e1 }
  exact ⟨hm, h1, h2, got_of h hg hm (.refl s m) h1 (fun r l c i k x e1 => by cases e1)⟩

theorem seeded_all (hO : Original cfg.store X) (h20 : cfg.store.info.sha1.length = 20) (h : Seeded cfg X s) : ∃ fs m, Seeding cfg X s fs m ∧ s.locked = false ∧ Got X s m := by
  induction h with
  | start => exact ⟨_, _, start_seeding hO, rfl, fun r c i k x hc => by cases hc⟩
  | join _ hj ih =>
    obtain ⟨fs, m, ih, hl, hg⟩ := ih
    obtain ⟨_, h1, h2, h3⟩ := join_all hO h20 ih hl hg hj
    exact ⟨fs, m, h1, h2, h3⟩
  | step _ he ih =>
    obtain ⟨fs, m, ih, hl, hg⟩ := ih
    obtain ⟨_, fs', m', h1, h2, _, h3⟩ := honest_all hO ih hl hg he
    exact ⟨fs', m', h1, h2, h3⟩

/-- An infinite download, with what is known of it. -/
structure Trace (cfg : Cfg) (X : List Bytes) (σ : Nat → State) (ev : Nat → Option (Event × Luck)) (F : Nat → FS) (M : Nat → Mem) : Prop where
  seeding : ∀ n, Seeding cfg X (σ n) (F n) (M n)
  unlocked : ∀ n, (σ n).locked = false
  got : ∀ n, Got X (σ n) (M n)
  moves : ∀ n, Moves cfg (σ n) (ev n) (σ (n + 1))
  stays : ∀ n, Stays (σ n) (M n) (M (n + 1))
  next : ∀ n e, ev n = some e → σ (n + 1) = step cfg (σ n) e ∧ Honest X (σ n) e

theorem trace {σ : Nat → State} {ev : Nat → Option (Event × Luck)} (hO : Original cfg.store X) (h20 : cfg.store.info.sha1.length = 20) (h : Execution cfg X σ ev) : ∃ F M, Trace cfg X σ ev F M := by
  have hs : ∀ n, Seeded cfg X (σ n) := by
    intro n
    induction n with
    | zero => exact h.start
    | succ n ih =>
      have := h.next n
      cases he : ev n with
      | none => rw [he] at this; exact .join ih this
      | some e => rw [he] at this; rw [this.2]; exact .step ih this.1
  have ha : ∀ n, ∃ fm : FS × Mem, Seeding cfg X (σ n) fm.1 fm.2 ∧ (σ n).locked = false ∧ Got X (σ n) fm.2 := fun n => by
    obtain ⟨fs, m, h1⟩ := seeded_all hO h20 (hs n)
    exact ⟨(fs, m), h1⟩
  obtain ⟨G, hG⟩ := Classical.axiomOfChoice ha
  have key : ∀ n, Moves cfg (σ n) (ev n) (σ (n + 1)) ∧ Stays (σ n) (G n).2 (G (n + 1)).2 := by
    intro n
    obtain ⟨h1, h2, h3⟩ := hG n
    obtain ⟨h1', _, _⟩ := hG (n + 1)
    have := h.next n
    cases he : ev n with
    | none =>
      rw [he] at this
      obtain ⟨g1, g2, _⟩ := join_all hO h20 h1 h2 h3 this
      obtain ⟨_, e⟩ := g2.same h1' rfl
      exact ⟨g1, by rw [e]; exact .refl _ _⟩
    | some e =>
      rw [he] at this
      obtain ⟨g1, fs', m', g2, _, g3, _⟩ := honest_all hO h1 h2 h3 this.1
      rw [← this.2] at g1 g2
      obtain ⟨_, e⟩ := g2.same h1' rfl
      exact ⟨g1, by rw [e]; exact g3⟩
  refine ⟨fun n => (G n).1, fun n => (G n).2, fun n => (hG n).1, fun n => (hG n).2.1, fun n => (hG n).2.2, fun n => (key n).1, fun n => (key n).2, fun n e he => ?_⟩
  have := h.next n
  rw [he] at this
  exact ⟨this.2, this.1⟩

end Drip.P2P
