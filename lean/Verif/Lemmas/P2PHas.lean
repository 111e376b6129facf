import Verif.Lemmas.P2PConn
/-
What a peer is known to have is what it has announced.
-/

namespace Drip.P2P
open PeerWire Metainfo
open Storage (Fate World Op runOp getBlock putBlock resetPiece)

variable {cfg : Cfg} {may : May} {r : Ref}

/-- How the pieces that a peer is known to have can change. -/
structure Grows (may : May) (x : Ref) (c c' : Conn) : Prop where
  keeps : ∀ i, Bitfield.bit c.bitfield i = true → Bitfield.bit c'.bitfield i = true
  gains : ∀ i, Bitfield.bit c'.bitfield i = true → Bitfield.bit c.bitfield i = true ∨ may.pieces x i
  received : ∃ ms, c'.received = c.received ++ ms

theorem Grows.same {x : Ref} {c c' : Conn} (h1 : c'.bitfield = c.bitfield) (h2 : c'.received = c.received) : Grows may x c c' :=
  ⟨fun i h => by rw [h1]; exact h, fun i h => .inl (by rw [← h1]; exact h), ⟨[], by rw [h2, List.append_nil]⟩⟩

theorem Grows.trans {x : Ref} {a b c : Conn} (h1 : Grows may x a b) (h2 : Grows may x b c) : Grows may x a c := by
  obtain ⟨m1, e1⟩ := h1.received
  obtain ⟨m2, e2⟩ := h2.received
  exact ⟨fun i h => h2.keeps i (h1.keeps i h), fun i h => (h2.gains i h).elim (h1.gains i) .inr, ⟨m1 ++ m2, by rw [e2, e1, List.append_assoc]⟩⟩

theorem Change.grows {s : State} {c c' : Conn} (h : Change cfg may s r c c') : Grows may r c c' := by
  cases h with
  | pieces bf h1 h2 h3 => exact ⟨h2, h3, ⟨[], (List.append_nil _).symm⟩⟩
  | receive m rd rd' h1 => exact ⟨fun _ h => h, fun _ h => .inl h, ⟨[m], rfl⟩⟩
  | _ => exact .same rfl rfl

theorem Small.grows {s s' : State} (h : Small cfg may s s') {x : Ref} {c : Conn} (hc : s.peers[x]? = some c) : ∃ c', s'.peers[x]? = some c' ∧ Grows may x c c' := by
  cases h with
  | new id ip port _ => exact ⟨c, by rw [List.getElem?_append_left (List.getElem?_eq_some_iff.1 hc).1]; exact hc, .same rfl rfl⟩
  | upd y a b h1 h2 =>
    rcases set_get (c' := b) h1 hc with ⟨e1, e, h⟩ | ⟨_, h⟩
    · subst e e1; exact ⟨b, h, h2.grows⟩
    · exact ⟨c, h, .same rfl rfl⟩
  | upload y a q d f h0 h1 h2 =>
    rcases set_get (c' := a.gave q d) h1 hc with ⟨e1, e, h⟩ | ⟨_, h⟩
    · subst e e1; exact ⟨_, h, .same rfl rfl⟩
    · exact ⟨c, h, .same rfl rfl⟩
  | join y a ms ph hp h1 h2 h3 h4 h5 =>
    rcases set_get (c' := a.join ms ph) h1 hc with ⟨e1, e, h⟩ | ⟨_, h⟩
    · subst e e1; exact ⟨_, h, .same rfl rfl⟩
    · exact ⟨c, h, .same rfl rfl⟩
  | _ => exact ⟨c, hc, .same rfl rfl⟩

theorem Smalls.grows {s s' : State} (h : Smalls cfg may s s') {x : Ref} {c : Conn} (hc : s.peers[x]? = some c) : ∃ c', s'.peers[x]? = some c' ∧ Grows may x c c' := by
  induction h with
  | refl => exact ⟨c, hc, .same rfl rfl⟩
  | tail _ h ih =>
    obtain ⟨d, hd, hf⟩ := ih
    obtain ⟨e, he, hf'⟩ := h.grows hd
    exact ⟨e, he, hf.trans hf'⟩

theorem bit_zeros (n i : Nat) : Bitfield.bit (Bitfield.new n) i = false := Bitfield.bit_new n i

/-- A connection that was not there before has no pieces. -/
theorem Smalls.noPieces {s s' : State} (h : Smalls cfg may s s') {x : Ref} (hn : s.peers[x]? = none) {c : Conn} (hc : s'.peers[x]? = some c)
    (hp : ∀ i, ¬ may.pieces x i) : ∀ i, Bitfield.bit c.bitfield i = false := by
  suffices ∀ c : Conn, s'.peers[x]? = some c → ∀ i, Bitfield.bit c.bitfield i = false from this c hc
  clear hc c
  induction h with
  | refl => intro c hc; rw [hn] at hc; cases hc
  | @tail b _ _ h ih =>
    intro c hc i
    cases hb : b.peers[x]? with
    | some d =>
      obtain ⟨d', h1, h2⟩ := h.grows hb
      rw [hc] at h1; injection h1 with h1; subst h1
      cases hbit : Bitfield.bit c.bitfield i with
      | false => rfl
      | true =>
        rcases h2.gains i hbit with h | h
        · rw [ih d hb i] at h; cases h
        · exact absurd h (hp i)
    | none =>
      cases h with
      | new id ip port _ =>
        rw [List.getElem?_append] at hc
        split at hc
        · rw [hb] at hc; cases hc
        · rw [List.getElem?_singleton] at hc
          split at hc
          · injection hc with hc; subst hc; exact bit_zeros _ _
          · cases hc
      | upd y a b h1 h2 => rcases set_cases hc with ⟨e, _⟩ | ⟨_, h⟩; · subst e; rw [hb] at h1; cases h1
                           · rw [hb] at h; cases h
      | upload y a q d f h0 h1 h2 => rcases set_cases hc with ⟨e, _⟩ | ⟨_, h⟩; · subst e; rw [hb] at h1; cases h1
                                     · rw [hb] at h; cases h
      | join y a ms ph hp h1 => rcases set_cases hc with ⟨e, _⟩ | ⟨_, h⟩; · subst e; rw [hb] at h1; cases h1
                                · rw [hb] at h; cases h
      | _ => rw [hb] at hc; cases hc

/-! ### A message that has been handled -/

/-- Nothing is excluded. -/
def May.top : May where
  send _ _ := True
  upload _ _ := True
  remote _ := True
  phase _ := True
  handle _ := True
  cancels _ := True
  queue _ := True
  drop _ := True
  block _ := True
  addrs := True
  jobs := True
  stop := True
  fresh _ _ _ := True
  shake _ _ := True
  pieces _ _ := True
  put _ _ _ := True

/-- The pieces that peers are known to have stay. -/
def Keeps (s s' : State) : Prop := ∀ (x : Ref) (c : Conn), s.peers[x]? = some c → ∃ c', s'.peers[x]? = some c' ∧ ∀ j, Bitfield.bit c.bitfield j = true → Bitfield.bit c'.bitfield j = true

theorem keeps_pre : Pre Keeps :=
  ⟨fun _ _ c hc => ⟨c, hc, fun _ h => h⟩, fun h1 h2 x c hc =>
    let ⟨d, hd, k1⟩ := h1 x c hc
    let ⟨e, he, k2⟩ := h2 x d hd
    ⟨e, he, fun j hj => k2 j (k1 j hj)⟩⟩

theorem Smalls.keeps {s s' : State} (h : Smalls cfg may s s') : Keeps s s' := fun _ _ hc =>
  let ⟨d, hd, k⟩ := h.grows hc
  ⟨d, hd, k.keeps⟩

theorem handleHave_bit (cfg : Cfg) (ok : Bool) (i : Nat) {s : State} {c : Conn} (hc : s.peers[r]? = some c) (h : (handleHave ok r i s).1 = .ok ()) :
    ∃ c', (handleHave ok r i s).2.peers[r]? = some c' ∧ (∀ j, Bitfield.bit c.bitfield j = true → Bitfield.bit c'.bitfield j = true) ∧ Bitfield.bit c'.bitfield i = true := by
  revert h
  unfold handleHave
  rw [bind_apply, getConn_some hc]
  simp only []
  rw [bind_apply]
  cases hb : Bitfield.add c.bitfield i with
  | panic => intro h; cases h
  | err e => intro h; cases h
  | ok bf =>
    intro _
    obtain ⟨_, h2, h3, _⟩ := add_spec hb
    rw [show (Act.lift (Res.ok bf) s) = (Outcome.ok bf, s) from rfl]
    simp only []
    rw [bind_apply, setConn_apply]
    simp only []
    generalize hs' : ({ s with peers := s.peers.modify r fun c => { c with bitfield := bf } } : State) = s'
    have hc' : s'.peers[r]? = some { c with bitfield := bf } := by
      rw [← hs']; exact modify_self hc _
    have hsm : Pres Keeps (recordIndex i r >>= fun _ => torrentBitfield >>= fun have_ => Act.lift (Bitfield.has have_ i) >>= fun b =>
        if b = false then (QueuePeer r >>= fun _ => interest ok r) else pure ()) := by
      refine Pres.bind keeps_pre (Pres.locked keeps_pre (fun s b => keeps_pre.refl s) fun s => keeps_pre.refl s) fun _ => ?_
      refine Pres.bind keeps_pre (Pres.torrentBitfield keeps_pre) fun _ => ?_
      refine Pres.bind keeps_pre (Pres.lift keeps_pre _) fun _ => ?_
      refine Pres.ite ?_ (Pres.pure keeps_pre _)
      exact Pres.bind keeps_pre (fun s => (pres_QueuePeer (cfg := cfg) (may := May.top) trivial s).keeps) fun _ s => (pres_interest (cfg := cfg) (may := May.top) ok trivial s).keeps
    obtain ⟨c2, h4, h5⟩ := hsm s' r _ hc'
    exact ⟨c2, h4, fun j hj => h5 j (h2 j hj), h5 i h3⟩

theorem handleItems_bits (cfg : Cfg) (ok : Bool) : ∀ (is : List Nat) {s : State} {c : Conn}, s.peers[r]? = some c → (handleItems ok r is s).1 = .ok () →
    ∃ c', (handleItems ok r is s).2.peers[r]? = some c' ∧ (∀ j, Bitfield.bit c.bitfield j = true → Bitfield.bit c'.bitfield j = true) ∧ ∀ i ∈ is, Bitfield.bit c'.bitfield i = true
  | [], s, c, hc, _ => ⟨c, hc, fun _ h => h, fun i hi => by cases hi⟩
  | i :: is, s, c, hc, h => by
    revert h
    unfold handleItems
    rw [bind_apply]
    have h1 := handleHave_bit cfg ok i hc
    generalize handleHave ok r i s = x at h1
    obtain ⟨o, s'⟩ := x
    cases o with
    | ok a =>
      obtain ⟨c1, h2, h3, h4⟩ := h1 rfl
      intro h
      obtain ⟨c2, h5, h6, h7⟩ := handleItems_bits cfg ok is h2 h
      refine ⟨c2, h5, fun j hj => h6 j (h3 j hj), fun j hj => ?_⟩
      rcases List.mem_cons.1 hj with rfl | hj
      · exact h6 _ h4
      · exact h7 j hj
    | _ => intro h; cases h

theorem mem_items {b : Bytes} {i : Nat} : i ∈ Bitfield.items b ↔ Bitfield.bit b i = true := by
  have := Bitfield.mem_itemsFrom 0 b i
  simpa [Bitfield.items] using this

theorem handleMessage_bit (fates : List Fate) (ok : Bool) (m : Message) {s : State} {c : Conn} (hc : s.peers[r]? = some c)
    (h : (handleMessage fates ok cfg r m s).1 = .ok ()) {i : Nat} (ha : Announces m i) :
    ∃ c', (handleMessage fates ok cfg r m s).2.peers[r]? = some c' ∧ Bitfield.bit c'.bitfield i = true := by
  revert h
  unfold handleMessage
  rcases ha with ⟨ht, hi⟩ | ⟨ht, hb⟩
  · rw [ht, if_neg (by decide), if_neg (by decide), if_neg (by decide), if_neg (by decide), if_pos rfl]
    unfold Message.getIndex
    rw [if_pos (by simp [ht]), bind_apply]
    intro h
    obtain ⟨c', h1, _, h2⟩ := handleHave_bit cfg ok i hc (by rw [← hi]; exact h)
    exact ⟨c', by rw [← hi] at h1; exact h1, h2⟩
  · rw [ht, if_neg (by decide), if_neg (by decide), if_neg (by decide), if_neg (by decide), if_neg (by decide), if_pos rfl]
    unfold Message.getBitfield
    rw [if_pos (by simp [ht]), bind_apply]
    intro h
    obtain ⟨c', h1, _, h2⟩ := handleItems_bits cfg ok _ hc h
    exact ⟨c', h1, h2 i (mem_items.2 hb)⟩

/-! ### Over a history -/

/-- What a peer is known to have, in terms of its messages. -/
structure HasInv (c : Conn) : Prop where
  told : ∀ i, Bitfield.bit c.bitfield i = true → ∃ m ∈ c.received, Announces m i
  known : (∃ p, c.phase = .serving p) → ∀ m ∈ handled c, ∀ i, Announces m i → Bitfield.bit c.bitfield i = true

theorem HasInv.step {s : State} (hi : Inv cfg s) (hh : ∀ (x : Ref) (c : Conn), s.peers[x]? = some c → HistInv c) (hb : ∀ (x : Ref) (c : Conn), s.peers[x]? = some c → HasInv c)
    (e : Event × Luck) : ∀ (x : Ref) (c : Conn), (P2P.step cfg s e).peers[x]? = some c → HasInv c := by
  intro x c' hc'
  cases hal : s.alive with
  | false => rw [alive_step e hal] at hc'; exact hb x c' hc'
  | true =>
  have hsm := step_small (cfg := cfg) e hi.pendOK
  have hg := mayOf_good hi e.1
  cases hc : s.peers[x]? with
  | none =>
    have h0 := hsm.noPieces hc hc' (by rintro i ⟨_, c, _, h, _⟩; rw [hc] at h; cases h)
    refine ⟨fun i h => (by rw [h0 i] at h; cases h), ?_⟩
    rintro ⟨p, hp⟩
    rw [(fresh_step hi hal e hc hc').1] at hp; cases hp
  | some c =>
    have ih := hb x c hc
    obtain ⟨c1, h1, hf⟩ := hsm.grows hc
    rw [hc'] at h1; injection h1 with h1; subst h1
    obtain ⟨c2, h2, hfr⟩ := hsm.frame hg hc
    rw [hc'] at h2; injection h2 with h2; subst h2
    obtain ⟨ms, hrec⟩ := hf.received
    refine ⟨fun i hbit => ?_, ?_⟩
    · rcases hf.gains i hbit with h | ⟨he, d, m, hd, hp, ha⟩
      · obtain ⟨m, hm, ha⟩ := ih.told i h
        exact ⟨m, by rw [hrec]; exact List.mem_append_left _ hm, ha⟩
      · rw [hc] at hd; injection hd with hd; subst hd
        have hl := (hh x c hc).pending m hp
        exact ⟨m, by rw [hrec]; exact List.mem_append_left _ (List.mem_of_getLast? hl), ha⟩
    · intro hs m hm i ha
      by_cases hx : ∃ m, e.1 = .handle x ∧ c.phase = .serving (some m)
      · obtain ⟨m', hx, hp⟩ := hx
        obtain ⟨e, l⟩ := e
        simp only at hx; subst hx
        obtain ⟨c2, o, ho, h2, h3, h4, h5⟩ := handle_conn hi hal hc hp l
        rw [hc'] at h5; injection h5 with h5
        have hhand : handled c' = handled c ++ [m'] := by
          rw [handled_all (c := c') (fun m' hm => by rw [h5] at hm; cases o <;> cases hm)]
          have : c'.received = c.received := by rw [h5]; exact h4
          rw [this]
          unfold handled
          rw [hp]
          have hl := (hh x c hc).pending m' hp
          obtain ⟨l', e⟩ := List.getLast?_eq_some_iff.1 hl
          rw [e]; simp
        rw [hhand] at hm
        rcases List.mem_append.1 hm with hm | hm
        · exact hf.keeps i (ih.known ⟨_, hp⟩ m hm i ha)
        · rw [List.mem_singleton] at hm; subst hm
          have ho' : o = .ok () := by
            obtain ⟨p, hs⟩ := hs
            rw [h5] at hs
            cases o <;> first | rfl | cases hs
          obtain ⟨c3, h6, h7⟩ := handleMessage_bit (cfg := cfg) l.fates (l.ok x) m hc (ho ▸ ho') ha
          rw [h2] at h6; injection h6 with h6; subst h6
          rw [h5]; exact h7
      · have hhd := handled_step hi hal e hc hc' hx
        rw [hhd] at hm
        by_cases hsv : ∃ p, c.phase = .serving p
        · exact hf.keeps i (ih.known hsv m hm i ha)
        · exfalso
          have hng : ¬ Gone c := fun h => by
            obtain ⟨p, hp⟩ := hs
            rcases hfr.gone h with h | h | h <;> (rw [hp] at h; cases h)
          have hci := hi.conn x c hc
          have hreg : c.registered = false := by
            cases hreg : c.registered with
            | false => rfl
            | true =>
              obtain ⟨_, n1, n2, n3⟩ := hci.reg hreg
              exfalso
              cases hph : c.phase with
              | fresh => exact n1 hph
              | checked => exact n2 hph
              | shaken => exact n3 hph
              | serving p => exact hsv ⟨p, hph⟩
              | leaving => exact hng (.inl hph)
              | ended => exact hng (.inr (.inl hph))
              | hung => exact hng (.inr (.inr hph))
          rw [handled_all (fun m hm => hsv ⟨_, hm⟩), (hci.quiet hreg).2] at hm
          cases hm

theorem has_run (w : World) (es : List (Event × Luck)) (x : Ref) (c : Conn) (h : (run cfg (init w) es).peers[x]? = some c) : HasInv c :=
  (run_rec (cfg := cfg) (P := fun _ s => (Inv cfg s ∧ ∀ (x : Ref) (c : Conn), s.peers[x]? = some c → HistInv c) ∧ ∀ (x : Ref) (c : Conn), s.peers[x]? = some c → HasInv c)
    (init w) ⟨⟨.init w, fun _ _ h => by cases h⟩, fun _ _ h => by cases h⟩ (fun _ e ih => ⟨⟨ih.1.1.step e, HistInv.step ih.1.1 ih.1.2 e⟩, HasInv.step ih.1.1 ih.1.2 ih.2 e⟩) es).2 x c h

end Drip.P2P
