import Verif.Props.P2PConnect
import Verif.Props.P2PDeadly
import Verif.Lemmas.P2PQueue
import Verif.Lemmas.P2PExchange
/-
Theorems about /repo/p2p: exactly when the lock of the server is lost for good, before or after `RequestPieces` has returned, and with it `Stop` (C68, C72).
-/

namespace Drip.P2P
open PeerWire Metainfo
open Storage (Fate World Op runOp getBlock putBlock resetPiece)

variable {cfg : Cfg} {r : Ref}

/-- There is room for the index, and we lack the piece. -/
def Lacking (s : State) (c : Conn) (i : Nat) : Prop := i < 8 * c.bitfield.length ∧ ∃ m, s.storage.mem = some m ∧ i < 8 * m.bitfield.length ∧ Bitfield.bit m.bitfield i = false

/-- The message is a reason to download from its sender: it lets us, or it has let us and has a piece that we lack. -/
def Inviting (s : State) (c : Conn) (m : Message) : Prop := m.typ = UNCHOKE ∨ (c.remoteChoked = false ∧ ∃ i, Announces m i ∧ Lacking s c i)

/-- `RequestPieces` has returned, the connection is open, its peer is not yet among those to download from, and the message is a reason to add it. -/
structure Waits (s : State) (x : Ref) (c : Conn) (m : Message) : Prop where
  over : s.requesting = false
  opened : c.closed = false
  unqueued : x ∉ s.queuedPeers
  inviting : Inviting s c m

/-- What stays the same for the connection while the items of a message are handled. -/
structure Like (r : Ref) (s : State) (c : Conn) (s' : State) : Prop where
  locked : s'.locked = s.locked
  requesting : s'.requesting = s.requesting
  storage : s'.storage = s.storage
  queued : s'.queuedPeers = s.queuedPeers
  conn : ∃ c', s'.peers[r]? = some c' ∧ c'.closed = c.closed ∧ c'.remoteChoked = c.remoteChoked ∧ c'.bitfield.length = c.bitfield.length

theorem interest_like {s : State} {c : Conn} (hc : s.peers[r]? = some c) (ok : Bool) :
    ((interest ok r s).1 = .ok () ∨ ∃ e, (interest ok r s).1 = .err e) ∧ Like r s c (interest ok r s).2 := by
  unfold interest
  rw [bind_apply, getConn_some hc]
  simp only []
  by_cases hi : c.interested = false
  · rw [if_pos hi, bind_apply, setConn_apply]
    simp only []
    have h1 := modify_self hc (fun c => { c with interested := true })
    unfold send
    rw [bind_apply, getConn_some h1]
    simp only []
    split
    · exact ⟨.inr ⟨_, rfl⟩, rfl, rfl, rfl, rfl, _, h1, rfl, rfl, rfl⟩
    · split
      · rw [setConn_apply]
        exact ⟨.inl rfl, rfl, rfl, rfl, rfl, _, modify_self h1 _, rfl, rfl, rfl⟩
      · exact ⟨.inr ⟨_, rfl⟩, rfl, rfl, rfl, rfl, _, h1, rfl, rfl, rfl⟩
  · rw [if_neg hi]
    exact ⟨.inl rfl, rfl, rfl, rfl, rfl, c, hc, rfl, rfl, rfl⟩

theorem has_result (b : Bytes) (i : Nat) : Bitfield.has b i = .panic ∨ (i < 8 * b.length ∧ Bitfield.has b i = .ok (Bitfield.bit b i)) := by
  by_cases h : i < 8 * b.length
  · exact .inr ⟨h, Bitfield.has_nat b i h⟩
  · left
    unfold Bitfield.has
    rw [Bitfield.pos_nat]
    have : b[i / 8]? = none := List.getElem?_eq_none (by omega)
    simp only [Int.toNat_natCast, this]
    exact if_neg (by omega)

/-- `QueuePeer` only waits for peers that are connected and let us download. -/
theorem queue_open {s : State} {c : Conn} (hl : s.locked = false) (hc : s.peers[r]? = some c) (h : (QueuePeer r s).1 = .stuck) : c.closed = false ∧ c.remoteChoked = false := by
  have : ¬ (c.closed = true ∨ c.remoteChoked = true) := fun hx => by
    unfold QueuePeer at h
    have hc' : ({ s with locked := true } : State).peers[r]? = some c := hc
    have : queuePeer r { s with locked := true } = (.ok (), { s with locked := true }) := by
      unfold queuePeer
      rw [bind_of_ok (getConn_of hc'), if_pos hx]
      rfl
    rw [locked_of_ok hl this] at h
    cases h
  cases h1 : c.closed <;> cases h2 : c.remoteChoked <;> simp_all

theorem Like.trans {s s' s'' : State} {c c' : Conn} (h : Like r s c s') (hc' : s'.peers[r]? = some c') (h' : Like r s' c' s'') : Like r s c s'' := by
  obtain ⟨d, hd, a1, a2, a3⟩ := h.conn
  rw [hc'] at hd; injection hd with hd; subst hd
  obtain ⟨d, hd, b1, b2, b3⟩ := h'.conn
  exact ⟨h'.locked.trans h.locked, h'.requesting.trans h.requesting, h'.storage.trans h.storage, h'.queued.trans h.queued, d, hd, b1.trans a1, b2.trans a2, b3.trans a3⟩

theorem Like.lacking {s s' : State} {c c' : Conn} (h : Like r s c s') (hc' : s'.peers[r]? = some c') (i : Nat) : Lacking s' c' i ↔ Lacking s c i := by
  obtain ⟨d, hd, _, _, a3⟩ := h.conn
  rw [hc'] at hd; injection hd with hd; subst hd
  unfold Lacking
  rw [a3, h.storage]

/-- What one announced piece does after `RequestPieces` has returned, when it is no reason to download. -/
def Passes (r : Ref) (s : State) (c : Conn) (x : Outcome Unit × State) : Prop :=
  (x.1 = .panic ∨ x.1 = .ok () ∨ ∃ e, x.1 = .err e) ∧ (x.1 = .panic ∨ Like r s c x.2) ∧ x.2.requesting = s.requesting

/-- One piece that a peer says it has, after `RequestPieces` has returned. -/
theorem have_step {s : State} {c : Conn} {m : Storage.Mem} (hl : s.locked = false) (hq : s.requesting = false) (hc : s.peers[r]? = some c) (hm : s.storage.mem = some m) (ok : Bool) (i : Nat) :
    (c.closed = false ∧ r ∉ s.queuedPeers ∧ c.remoteChoked = false ∧ Lacking s c i → (handleHave ok r i s).1 = .stuck ∧ (handleHave ok r i s).2.locked = true) ∧
    (¬ (c.closed = false ∧ r ∉ s.queuedPeers ∧ c.remoteChoked = false ∧ Lacking s c i) → Passes r s c (handleHave ok r i s)) := by
  by_cases hi : i < 8 * c.bitfield.length
  case neg =>
    refine ⟨fun h => absurd h.2.2.2.1 hi, fun _ => ?_⟩
    have h1 := have_panic ok hc (i := i) (by omega)
    have h2 := (show (handleHave ok r i s).2.requesting = s.requesting from by
      unfold handleHave
      rw [bind_of_ok (getConn_of hc)]
      have : Bitfield.add c.bitfield i = .panic := by
        unfold Bitfield.add
        rw [Bitfield.pos_nat]
        have : c.bitfield[i / 8]? = none := List.getElem?_eq_none (by omega)
        simp only [Int.toNat_natCast, this]
        exact if_neg (by omega)
      rw [bind_apply, this]
      rfl)
    exact ⟨.inl h1, .inl h1, h2⟩
  obtain ⟨b, hadd, hlen, _⟩ := Bitfield.add_nat c.bitfield i hi
  have h1 := modify_self hc (fun c => { c with bitfield := b })
  have hrec : ∃ s1 : State, s1.locked = false ∧ Like r s c s1 ∧ s1.peers[r]? = some { c with bitfield := b } ∧
      handleHave ok r i s = (do if (← Act.lift (Bitfield.has m.bitfield i)) = false then do { QueuePeer r; interest ok r } else pure () : Act Unit) s1 := by
    refine ⟨{ s with peers := s.peers.modify r fun c => { c with bitfield := b }, indexToPeers := mput s.indexToPeers i (sadd ((mget s.indexToPeers i).getD []) r), locked := false },
      rfl, ⟨hl.symm, rfl, rfl, rfl, _, h1, rfl, rfl, hlen⟩, h1, ?_⟩
    unfold handleHave
    rw [bind_of_ok (getConn_of hc), bind_of_ok (s' := s) (a := b) (by rw [hadd]; rfl),
      bind_of_ok (show setConn r (fun c => { c with bitfield := b }) s = (.ok (), { s with peers := s.peers.modify r fun c => { c with bitfield := b } }) from rfl),
      bind_of_ok (show recordIndex i r { s with peers := s.peers.modify r fun c => { c with bitfield := b } } = _ from locked_of_ok hl rfl)]
    rw [bind_of_ok (a := m.bitfield) (by unfold torrentBitfield; simp only [hm]; rfl)]
  obtain ⟨s1, hl1, hlike, hc1, he⟩ := hrec
  rw [he]
  have hq1 : s1.requesting = false := hlike.requesting.trans hq
  rcases has_result m.bitfield i with hh | ⟨him, hh⟩
  · rw [bind_apply, hh]
    refine ⟨fun h => ?_, fun _ => ⟨.inl rfl, .inl rfl, hlike.requesting⟩⟩
    obtain ⟨_, _, _, _, m', hm', h8, _⟩ := h
    rw [hm] at hm'; injection hm' with hm'; subst hm'
    rw [Bitfield.has_nat _ _ h8] at hh; cases hh
  · rw [bind_of_ok (s' := s1) (a := Bitfield.bit m.bitfield i) (by rw [hh]; rfl)]
    cases hb : Bitfield.bit m.bitfield i with
    | true =>
      refine ⟨fun h => ?_, fun _ => ⟨.inr (.inl rfl), .inr hlike, hlike.requesting⟩⟩
      obtain ⟨_, _, _, _, m', hm', _, h8⟩ := h
      rw [hm] at hm'; injection hm' with hm'; subst hm'
      rw [hb] at h8; cases h8
    | false =>
      rw [if_pos rfl]
      have hlack : Lacking s c i := ⟨hi, m, hm, him, hb⟩
      rcases QueuePeer_cases hc1 with ⟨h, _⟩ | ⟨_, h, hx⟩ | ⟨_, h, _, hx⟩ | ⟨_, _, h, _⟩
      · rw [hl1] at h; cases h
      · refine ⟨fun hw => ?_, fun _ => ?_⟩
        · rcases h with h | h | h
          · exact absurd (hw.1.symm.trans h) (by simp)
          · exact absurd (hw.2.2.1.symm.trans h) (by simp)
          · rw [hlike.queued] at h; exact absurd h hw.2.1
        · rw [bind_of_ok hx]
          obtain ⟨h2, h3⟩ := interest_like hc1 ok
          exact ⟨.inr h2, .inr (hlike.trans hc1 h3), h3.requesting.trans hlike.requesting⟩
      · rw [bind_apply, hx]
        obtain ⟨o1, o2⟩ := queue_open hl1 hc1 (by rw [hx])
        exact ⟨fun _ => ⟨rfl, rfl⟩, fun hn => absurd ⟨o1, (by rw [← hlike.queued]; exact h), o2, hlack⟩ hn⟩
      · rw [hq1] at h; cases h

/-- Several pieces in ascending order, after `RequestPieces` has returned. -/
theorem items_step (ok : Bool) : ∀ (is : List Nat), is.Pairwise (· < ·) → ∀ {s : State} {c : Conn} {m : Storage.Mem}, s.locked = false → s.requesting = false → s.peers[r]? = some c → s.storage.mem = some m →
    (c.closed = false ∧ r ∉ s.queuedPeers ∧ c.remoteChoked = false ∧ (∃ i ∈ is, Lacking s c i) → (handleItems ok r is s).1 = .stuck ∧ (handleItems ok r is s).2.locked = true) ∧
    (¬ (c.closed = false ∧ r ∉ s.queuedPeers ∧ c.remoteChoked = false ∧ ∃ i ∈ is, Lacking s c i) → Passes r s c (handleItems ok r is s))
  | [], _, s, c, m, hl, hq, hc, hm => by
    refine ⟨fun h => ?_, fun _ => ?_⟩
    · obtain ⟨_, _, _, i, hi, _⟩ := h; cases hi
    · exact ⟨.inr (.inl rfl), .inr ⟨rfl, rfl, rfl, rfl, c, hc, rfl, rfl, rfl⟩, rfl⟩
  | i :: is, hp, s, c, m, hl, hq, hc, hm => by
    obtain ⟨hp1, hp2⟩ := List.pairwise_cons.1 hp
    have hs := have_step hl hq hc hm ok i
    unfold handleItems
    constructor
    · rintro ⟨h1, h2, h3, j, hj, hlack⟩
      by_cases hli : Lacking s c i
      · have := hs.1 ⟨h1, h2, h3, hli⟩
        rw [bind_apply]
        generalize handleHave ok r (i : Int) s = x at this
        obtain ⟨o, s'⟩ := x
        obtain ⟨rfl, hx⟩ := this
        exact ⟨rfl, hx⟩
      · rcases List.mem_cons.1 hj with rfl | hj
        · exact absurd hlack hli
        have hlt := hp1 j hj
        obtain ⟨k1, m', hm', k2, k3⟩ := id hlack
        rw [hm] at hm'; injection hm' with hm'; subst hm'
        have hb : Bitfield.bit m.bitfield i = true := by
          cases hb : Bitfield.bit m.bitfield i with
          | true => rfl
          | false => exact absurd ⟨by omega, m, hm, by omega, hb⟩ hli
        obtain ⟨b', ix, e1, e2⟩ := have_whole hl hc hm (i := i) (by omega) (by omega) hb ok
        rw [bind_of_ok e1]
        have hc' : (s.peers.set r { c with bitfield := b' })[r]? = some { c with bitfield := b' } := List.getElem?_set_self (List.getElem?_eq_some_iff.1 hc).1
        exact (items_step ok is hp2 (s := { s with peers := s.peers.set r { c with bitfield := b' }, indexToPeers := ix }) hl hq hc' hm).1
          ⟨h1, h2, h3, j, hj, by show j < 8 * b'.length; rw [e2]; exact k1, m, hm, k2, k3⟩
    · intro hn
      have hpass := hs.2 fun h => hn ⟨h.1, h.2.1, h.2.2.1, i, List.mem_cons_self .., h.2.2.2⟩
      rw [bind_apply]
      generalize handleHave ok r (i : Int) s = x at hpass
      obtain ⟨o, s'⟩ := x
      obtain ⟨q1, q2, q3⟩ := hpass
      cases o with
      | panic => exact ⟨.inl rfl, .inl rfl, q3⟩
      | err e => exact ⟨.inr (.inr ⟨e, rfl⟩), q2.imp (fun h => by cases h) id, q3⟩
      | crash => rcases q1 with h | h | ⟨_, h⟩ <;> cases h
      | stuck => rcases q1 with h | h | ⟨_, h⟩ <;> cases h
      | ok a =>
        have hlike : Like r s c s' := by rcases q2 with h | h; cases h; exact h
        obtain ⟨c', hc', d1, d2, d3⟩ := hlike.conn
        have := (items_step ok is hp2 (s := s') (hlike.locked.trans hl) (hlike.requesting.trans hq) hc' ((congrArg (·.mem) hlike.storage).trans hm)).2 fun h => by
          obtain ⟨h1, h2, h3, j, hj, h4⟩ := h
          exact hn ⟨d1.symm.trans h1, hlike.queued ▸ h2, d2.symm.trans h3, j, List.mem_cons_of_mem _ hj, (hlike.lacking hc' j).1 h4⟩
        obtain ⟨p1, p2, p3⟩ := this
        exact ⟨p1, p2.imp id fun h => hlike.trans hc' h, p3.trans q3⟩

/-- A piece that a peer says it has, when `Load` has not been called. -/
theorem have_none {s : State} {c : Conn} (hl : s.locked = false) (hc : s.peers[r]? = some c) (hm : s.storage.mem = none) (ok : Bool) (i : Nat) :
    ((handleHave ok r i s).1 = .panic ∨ (handleHave ok r i s).1 = .crash) ∧ (handleHave ok r i s).2.requesting = s.requesting := by
  unfold handleHave
  rw [bind_of_ok (getConn_of hc)]
  by_cases hi : i < 8 * c.bitfield.length
  · obtain ⟨b, hadd, _, _⟩ := Bitfield.add_nat c.bitfield i hi
    rw [bind_of_ok (s' := s) (a := b) (by rw [hadd]; rfl),
      bind_of_ok (show setConn r (fun c => { c with bitfield := b }) s = (.ok (), { s with peers := s.peers.modify r fun c => { c with bitfield := b } }) from rfl),
      bind_of_ok (show recordIndex i r { s with peers := s.peers.modify r fun c => { c with bitfield := b } } = _ from locked_of_ok hl rfl)]
    rw [bind_apply]
    unfold torrentBitfield
    simp only [hm]
    exact ⟨.inr trivial, trivial⟩
  · have : Bitfield.add c.bitfield i = .panic := by
      unfold Bitfield.add
      rw [Bitfield.pos_nat]
      have : c.bitfield[i / 8]? = none := List.getElem?_eq_none (by omega)
      simp only [Int.toNat_natCast, this]
      exact if_neg (by omega)
    rw [bind_apply, this]
    exact ⟨.inl rfl, rfl⟩

/-- Exactly when handling a message loses the lock, after `RequestPieces` has returned. -/
theorem message_step {s : State} {c : Conn} (hl : s.locked = false) (hq : s.requesting = false) (hc : s.peers[r]? = some c) (fates : List Fate) (ok : Bool) {m : Message} (h0 : 0 ≤ m.index) :
    (Waits s r c m → (handleMessage fates ok cfg r m s).1 = .stuck ∧ (handleMessage fates ok cfg r m s).2.locked = true) ∧
    (¬ Waits s r c m → Returns false (handleMessage fates ok cfg r m s)) := by
  have hpass : ∀ {x : Outcome Unit × State} {c : Conn}, Passes r s c x → Returns false x := fun {x c} h => by
    obtain ⟨h1, h2, h3⟩ := h
    refine ⟨h3.trans hq, ?_⟩
    by_cases hp : x.1 = .panic
    · exact .inr (.inl hp)
    · refine .inl ⟨(h2.resolve_left hp).locked.trans hl, fun h => ?_⟩
      rw [h] at h1
      rcases h1 with h | h | ⟨_, h⟩ <;> cases h
  by_cases t1 : m.typ = UNCHOKE
  · have he : handleMessage fates ok cfg r m s = QueuePeer r { s with peers := s.peers.modify r fun c => { c with remoteChoked := false } } := by
      cases m; simp only at t1; subst t1; rfl
    have hc1 := modify_self hc (fun c => { c with remoteChoked := false })
    rw [he]
    generalize hs1 : ({ s with peers := s.peers.modify r fun c => { c with remoteChoked := false } } : State) = s1 at *
    have e1 : s1.locked = false := by subst hs1; exact hl
    have e2 : s1.requesting = false := by subst hs1; exact hq
    have e3 : s1.queuedPeers = s.queuedPeers := by subst hs1; rfl
    have hc2 : s1.peers[r]? = some { c with remoteChoked := false } := by subst hs1; exact hc1
    rcases QueuePeer_cases hc2 with ⟨h, _⟩ | ⟨_, h, hx⟩ | ⟨_, h, _, hx⟩ | ⟨_, _, h, _⟩
    · rw [e1] at h; cases h
    · rw [hx]
      refine ⟨fun hw => ?_, fun _ => ⟨e2, .inl ⟨e1, by simp⟩⟩⟩
      rcases h with h | h | h
      · exact absurd (hw.opened.symm.trans h) (by simp)
      · cases h
      · exact absurd (e3 ▸ h) hw.unqueued
    · have ho := queue_open e1 hc2 (by rw [hx])
      rw [hx]
      exact ⟨fun _ => ⟨rfl, rfl⟩, fun hn => absurd ⟨hq, ho.1, e3 ▸ h, .inl t1⟩ hn⟩
    · rw [e2] at h; cases h
  by_cases t2 : m.typ = HAVE ∨ m.typ = BITFIELD
  · cases hm : s.storage.mem with
    | none =>
      refine ⟨fun h => ?_, fun _ => ?_⟩
      · rcases h.inviting with h | ⟨_, i, _, _, _, h, _⟩
        · exact absurd h t1
        · rw [hm] at h; cases h
      · have hdead : ∀ i : Nat, Returns false (handleHave ok r i s) := fun i =>
          ⟨(have_none hl hc hm ok i).2.trans hq, .inr (have_none hl hc hm ok i).1⟩
        rcases t2 with t | t
        · rw [handles_have fates ok t, show m.index = ((m.index.toNat : Nat) : Int) by omega]
          exact hdead _
        · rw [handles_bitfield fates ok t]
          cases Bitfield.items m.bitfield with
          | nil => exact ⟨hq, .inl ⟨hl, by simp [handleItems]⟩⟩
          | cons i is =>
            unfold handleItems
            rw [bind_apply]
            obtain ⟨h1, h2⟩ := have_none hl hc hm ok i
            generalize handleHave ok r (i : Int) s = x at h1 h2
            obtain ⟨o, s'⟩ := x
            simp only at h1 h2
            rcases h1 with rfl | rfl
            · exact ⟨h2.trans hq, .inr (.inl rfl)⟩
            · exact ⟨h2.trans hq, .inr (.inr rfl)⟩
    | some mem =>
      have hw : Waits s r c m ↔ c.closed = false ∧ r ∉ s.queuedPeers ∧ c.remoteChoked = false ∧ ∃ i, Announces m i ∧ Lacking s c i :=
        ⟨fun h => ⟨h.opened, h.unqueued, (h.inviting.resolve_left t1).1, (h.inviting.resolve_left t1).2⟩, fun h => ⟨hq, h.1, h.2.1, .inr h.2.2⟩⟩
      rw [hw]
      rcases t2 with t | t
      · rw [handles_have fates ok t]
        have hi : m.index = ((m.index.toNat : Nat) : Int) := by omega
        have := have_step hl hq hc hm ok m.index.toNat
        rw [← hi] at this
        refine ⟨fun ⟨h1, h2, h3, i, h4, h5⟩ => this.1 ⟨h1, h2, h3, ?_⟩, fun hn => hpass (this.2 fun ⟨h1, h2, h3, h4⟩ => hn ⟨h1, h2, h3, _, .inl ⟨t, hi⟩, h4⟩)⟩
        rcases h4 with ⟨_, h4⟩ | ⟨h4, _⟩
        · rwa [show m.index.toNat = i by omega]
        · exact absurd (h4.symm.trans t) (by decide)
      · rw [handles_bitfield fates ok t]
        have := items_step (r := r) ok (Bitfield.items m.bitfield) (Bitfield.itemsFrom_sorted _ _) hl hq hc hm
        refine ⟨fun ⟨h1, h2, h3, i, h4, h5⟩ => this.1 ⟨h1, h2, h3, i, ?_, h5⟩, fun hn => hpass (this.2 fun ⟨h1, h2, h3, i, h4, h5⟩ => hn ⟨h1, h2, h3, i, .inr ⟨t, mem_items.1 h4⟩, h5⟩)⟩
        rcases h4 with ⟨h4, _⟩ | ⟨_, h4⟩
        · exact absurd (h4.symm.trans t) (by decide)
        · exact mem_items.2 h4
  · refine ⟨fun h => ?_, fun _ => ?_⟩
    · rcases h.inviting with h | ⟨_, i, h, _⟩
      · exact absurd h t1
      · rcases h with ⟨h, _⟩ | ⟨h, _⟩
        · exact absurd (.inl h) t2
        · exact absurd (.inr h) t2
    · suffices Bal false (handleMessage fates ok cfg r m) from this s hq hl
      have t3 : ¬ m.typ = HAVE := fun h => t2 (.inl h)
      have t4 : ¬ m.typ = BITFIELD := fun h => t2 (.inr h)
      unfold handleMessage
      rw [if_neg t1, if_neg t3, if_neg t4]
      refine Bal.ite (Kp.setConn _).bal (Bal.ite (Kp.setConn _).bal (Bal.ite (Kp.setConn _).bal (Bal.ite ?_ (Bal.ite ?_ (Bal.ite ?_ (Kp.pure _).bal)))))
      · exact Kp.bal (Kp.bind (Kp.lift _) fun _ => Kp.bind (Kp.lift _) fun _ => Kp.bind (Kp.lift _) fun _ => Kp.handleRequest _ _ _ _ _)
      · exact Kp.bal (Kp.bind (Kp.lift _) fun _ => Kp.bind (Kp.lift _) fun _ => Kp.bind (Kp.lift _) fun _ => Kp.setConn _)
      · exact Kp.bal (Kp.bind (Kp.lift _) fun _ => Kp.bind (Kp.lift _) fun _ => Kp.bind (Kp.lift _) fun _ => Kp.handlePiece _ _ _ _)

/-! ### C68, C72, exactly -/

/-- At some time a connection was refused before the handshake (`Refused`: 50 active peers, or one with the same address), or, after `RequestPieces` had returned, a message was handled that is a reason to download
from its sender (`Waits`). -/
def Lost (cfg : Cfg) (w : World) (es : List (Event × Luck)) : Prop :=
  ∃ es1 es2 x l c, (run cfg (init w) es1).peers[x]? = some c ∧
    ((es = es1 ++ (.check x, l) :: es2 ∧ c.phase = .fresh ∧ Refused (run cfg (init w) es1) c) ∨
     (es = es1 ++ (.handle x, l) :: es2 ∧ ∃ m, c.phase = .serving (some m) ∧ Waits (run cfg (init w) es1) x c m))

theorem free_run (w : World) (es : List (Event × Luck)) (hn : ¬ Lost cfg w es) (ha : (run cfg (init w) es).alive = true) : ∃ go, Free go (run cfg (init w) es) := by
  suffices ∀ es2 es1, es = es1 ++ es2 → (∃ go, Free go (run cfg (init w) es1)) → ∃ go, Free go (run cfg (init w) es) from
    this es [] rfl ⟨true, rfl, rfl, fun _ _ h => by cases h⟩
  intro es2
  induction es2 with
  | nil => intro es1 he h; rw [he, List.append_nil]; exact h
  | cons e es2 ih =>
    intro es1 he ⟨go, hf⟩
    refine ih (es1 ++ [e]) (by rw [he]; simp) ?_
    rw [run_append]
    show ∃ go, Free go (step cfg (run cfg (init w) es1) e)
    have hi := inv_run (cfg := cfg) w es1
    have hal : (step cfg (run cfg (init w) es1) e).alive = true := by
      rw [he, run_append] at ha
      exact alive_before es2 ha
    obtain ⟨e, l⟩ := e
    rcases step_alive (cfg := cfg) (run cfg (init w) es1) (e, l) with hs | ⟨_, o, s', hact, hs⟩
    · rw [hs]; exact ⟨go, hf⟩
    rcases hs with ⟨_, hs⟩ | ⟨ho, hs⟩
    · rw [hs] at hal; cases hal
    rw [hs]
    by_cases hq : e = .quit
    · subst hq
      simp only [act] at hact
      split at hact
      · cases hact; exact ⟨false, hf.locked, rfl, hf.hung⟩
      · cases hact
    · have := hf.act hi hact hq (fun x c m hx hc hp => ?_) fun x c hx hc hp hr => hn ⟨es1, es2, x, l, c, hc, .inl ⟨by rw [he, ← hx], hp, hr⟩⟩
      · rcases this with (h | h) | h
        · exact absurd h ho.1
        · exact absurd h ho.2
        · exact ⟨go, h⟩
      · cases go with
        | true => exact Bal.handleMessage (r := x) _ _ m _ hf.requesting hf.locked
        | false =>
          exact (message_step (cfg := cfg) hf.locked hf.requesting hc _ _ (hi.pendOK x c m hc hp).1).2 fun hw =>
            hn ⟨es1, es2, x, l, c, hc, .inr ⟨by rw [he, ← hx], m, hp, hw⟩⟩

theorem waits_locks {s : State} (hi : Inv cfg s) (hal : s.alive = true) {x : Ref} {c : Conn} {m : Message} (hc : s.peers[x]? = some c) (hp : c.phase = .serving (some m)) (hw : Waits s x c m) (l : Luck) :
    (step cfg s (.handle x, l)).locked = true := by
  cases hl : s.locked with
  | true => exact ((frozen_run (cfg := cfg) s [(.handle x, l)]).keep hl).1
  | false =>
    obtain ⟨h1, h2⟩ := (message_step (cfg := cfg) hl hw.over hc l.fates (l.ok x) (hi.pendOK x c m hc hp).1).1 hw
    unfold step
    rw [if_neg (by rw [hal]; simp)]
    have ha : act cfg l s (.handle x) = some (next x (.serving none) .leaving (handleMessage l.fates (l.ok x) cfg x m s)) := by
      simp only [act]
      rw [hc, Option.map_some, hp]
    simp only [ha]
    unfold next
    generalize handleMessage l.fates (l.ok x) cfg x m s = y at h1 h2
    obtain ⟨o, s'⟩ := y
    simp only at h1 h2
    subst h1
    exact h2

/-- C68, exactly, also after `RequestPieces` has returned: in a history of a process that has not died the lock of the server is held – for good – if and only if at some time a connection was refused before the handshake,
or a message was handled after the return of `RequestPieces` that is a reason to download from its sender. -/
theorem C68_always_partial (w : World) (es : List (Event × Luck)) (ha : (run cfg (init w) es).alive = true) : (run cfg (init w) es).locked = true ↔ Lost cfg w es := by
  constructor
  · intro hl
    refine Classical.byContradiction fun hn => ?_
    obtain ⟨_, h⟩ := free_run w es hn ha
    exact absurd (h.locked.symm.trans hl) (by simp)
  · rintro ⟨es1, es2, x, l, c, hc, ⟨rfl, hp, hr⟩ | ⟨rfl, m, hp, hw⟩⟩
    · rw [run_append] at ha ⊢
      exact ((frozen_run (cfg := cfg) _ es2).keep (refused_locks (alive_before _ ha) hc hp hr l)).1
    · rw [run_append] at ha ⊢
      exact ((frozen_run (cfg := cfg) _ es2).keep (waits_locks (inv_run w es1) (alive_before _ ha) hc hp hw l)).1

/-- C72, exactly: when the context is cancelled and `Stop` has not returned yet, it never does if the lock was lost in one of the two ways, whatever happens; otherwise it returns at once and has emptied the table. -/
theorem C72_exactly_partial (w : World) (es : List (Event × Luck)) (ha : (run cfg (init w) es).alive = true) (hc : (run cfg (init w) es).cancelled = true)
    (hs : (run cfg (init w) es).stopped = false) :
    (Lost cfg w es → ∀ es', (run cfg (init w) (es ++ es')).stopped = false) ∧
    (¬ Lost cfg w es → ∀ l, (step cfg (run cfg (init w) es) (.stop, l)).stopped = true ∧ (step cfg (run cfg (init w) es) (.stop, l)).activePeers = []) := by
  constructor
  · intro h es'
    rw [run_append]
    obtain ⟨_, _, _, _, h5⟩ := (frozen_run (cfg := cfg) _ es').keep ((C68_always_partial w es ha).2 h)
    exact h5.trans hs
  · intro h l
    have hl : (run cfg (init w) es).locked = false := by
      cases hl : (run cfg (init w) es).locked with
      | false => rfl
      | true => exact absurd ((C68_always_partial w es ha).1 hl) h
    have := C72_partial w es l ha hc hl
    exact ⟨this.2.1, this.2.2.2.1⟩

/-- After the end of the context a peer lets us download: nobody receives what `QueuePeer` sends. -/
example : let es := Ex.fine (Ex.joins 0 1 (Ex.id' 2) ++ [.cancel, .quit] ++ Ex.gets 0 PeerWire.unchoke)
    (run Ex.cfg (init Ex.nothing) es).alive = true ∧ (run Ex.cfg (init Ex.nothing) es).cancelled = true ∧ (run Ex.cfg (init Ex.nothing) es).stopped = false ∧ Lost Ex.cfg Ex.nothing es :=
  ⟨by kernel_rfl, by kernel_rfl, by kernel_rfl, (C68_always_partial _ _ (by kernel_rfl)).1 (by kernel_rfl)⟩
/-- After the end of the context a peer that chokes us says that it has a piece that we lack, and another one that it is interested: nothing is lost, and `Stop` returns. -/
example : let es := Ex.fine (Ex.joins 0 1 (Ex.id' 2) ++ [.cancel, .quit] ++ Ex.gets 0 (have_ 1) ++ Ex.gets 0 PeerWire.interested)
    (run Ex.cfg (init Ex.nothing) es).alive = true ∧ (run Ex.cfg (init Ex.nothing) es).cancelled = true ∧ (run Ex.cfg (init Ex.nothing) es).stopped = false ∧ ¬ Lost Ex.cfg Ex.nothing es ∧
    (run Ex.cfg (init Ex.nothing) es).peers.map (fun c => c.received.map (·.typ)) = [[HAVE, INTERESTED]] :=
  ⟨by kernel_rfl, by kernel_rfl, by kernel_rfl, (fun h => Bool.eq_false_iff.1 (by kernel_rfl) ((C68_always_partial _ _ (by kernel_rfl)).2 h)), by kernel_rfl⟩

end Drip.P2P
