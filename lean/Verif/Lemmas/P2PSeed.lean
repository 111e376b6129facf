import Verif.Spec.Seeding
import Verif.Lemmas.StorageSeed
import Verif.Lemmas.P2PHas
import Verif.Props.PeerWire
import Verif.Props.RequestPiece
/-
A download in which all connections are with seeders.
-/

namespace Drip.P2P
open PeerWire Metainfo Spec
open Storage (Fate World Mem FS Op runOp putBlock resetPiece SInv Exact Original Done blockOf)

variable {cfg : Cfg} {X : List Bytes}

/-- The piece is complete or being downloaded. -/
def Started (jobs : List Job) (m : Mem) (i : Nat) : Prop := Done m i ∨ ∃ r, ⟨r, i, .running⟩ ∈ jobs

/-- Block `k` of piece `i` exists. -/
def IsBlock (X : List Bytes) (i k : Nat) (x : Bytes) : Prop := X[i]? = some x ∧ k * 16384 < x.length

/-- A connection with a seeder. -/
structure Ready (X : List Bytes) (jobs : List Job) (m : Mem) (c : Conn) : Prop where
  phase : c.phase = .serving none ∨ ∃ i k x, IsBlock X i k x ∧ Started jobs m i ∧ c.phase = .serving (some (pieceMsg i (k * 16384 : Nat) (blockOf x k)))
  open_ : c.closed = false
  unchoked : c.remoteChoked = false
  has : ∀ i, Bitfield.bit c.bitfield i = decide (i < X.length)
  sent : ∀ i b l, request i b l ∈ c.sent → ∃ (j k : Nat) (x : Bytes), IsBlock X j k x ∧ Started jobs m j ∧ i = j ∧ b = (k * 16384 : Nat) ∧ l = (blockOf x k).length

/-- What holds during such a download. -/
structure Seeding (cfg : Cfg) (X : List Bytes) (s : State) (fs : FS) (m : Mem) : Prop where
  alive : s.alive = true
  requesting : s.requesting = true
  calm : s.cancelled = false
  stopped : s.stopped = false
  storage : s.storage = ⟨fs, some m⟩
  inv : SInv cfg.store ⟨fs, m⟩
  exact_ : Exact cfg.store X ⟨fs, m⟩
  conns : ∀ (r : Nat) (c : Conn), s.peers[r]? = some c → Ready X s.jobs m c
  toRequest : ∀ r ∈ s.toRequest, r < s.peers.length
  waiting : ∀ r ∈ s.waiting, r < s.peers.length
  queued : ∀ r ∈ s.queuedPeers, r < s.peers.length
  active : ∀ e ∈ s.activePeers, e.2 < s.peers.length ∧ ∃ c ∈ s.peers, c.idip = e.1
  activeLen : s.activePeers.length ≤ s.peers.length
  idips : ∀ e ∈ s.knownIDIPs, ∃ c ∈ s.peers, c.addr = e.1
  ids : ∀ c ∈ s.peers, c.id.length = 20
  jobs : ∀ j ∈ s.jobs, j.peer < s.peers.length ∧ j.index < X.length ∧ (mget s.inflight (j.index : Int)).isSome = true ∧ (j.stage = .fresh → ¬ Done m j.index) ∧
    (j.stage = .over ∨ j.stage = .handed → Done m j.index)
  inflight : ∀ i : Int, (mget s.inflight i).isSome = true → ∃ j ∈ s.jobs, (j.index : Int) = i
  distinct : (s.jobs.map (·.index)).Nodup
  busy : ∀ r, r < s.peers.length → r ∈ s.toRequest ∨ r ∈ s.waiting ∨ (∃ j ∈ s.jobs, j.peer = r ∧ j.stage ≠ .handed) ∨ ∀ i, i < X.length → Done m i

theorem Seeding.locked {s : State} {fs : FS} {m : Mem} (h : Seeding cfg X s fs m) (b : Bool) : Seeding cfg X { s with locked := b } fs m := { h with }

/-- The connections change. -/
theorem Seeding.conns_of {s : State} {fs : FS} {m : Mem} (h : Seeding cfg X s fs m) {ps : List Conn} (hl : ps.length = s.peers.length)
    (hp : ∀ (r : Nat) (c' : Conn), ps[r]? = some c' → ∃ c, s.peers[r]? = some c ∧ c'.id = c.id ∧ c'.ip = c.ip ∧ c'.port = c.port ∧ Ready X s.jobs m c') :
    Seeding cfg X { s with peers := ps } fs m := by
  have hex : ∀ c ∈ s.peers, ∃ c' ∈ ps, c'.id = c.id ∧ c'.ip = c.ip ∧ c'.port = c.port := by
    intro c hc
    obtain ⟨r, hr⟩ := List.getElem?_of_mem hc
    have hlt := (List.getElem?_eq_some_iff.mp hr).1
    have hlt' : r < ps.length := by omega
    obtain ⟨c0, h0, h1, h2, h3, _⟩ := hp r _ (List.getElem?_eq_getElem hlt')
    rw [hr] at h0; cases h0
    exact ⟨_, List.getElem_mem hlt', h1, h2, h3⟩
  refine { h with conns := ?_, toRequest := ?_, waiting := ?_, queued := ?_, active := ?_, activeLen := ?_, idips := ?_, ids := ?_, jobs := ?_, busy := ?_ }
  · intro r c' hc'
    obtain ⟨_, _, _, _, _, h4⟩ := hp r c' hc'
    exact h4
  · simpa only [hl] using h.toRequest
  · simpa only [hl] using h.waiting
  · simpa only [hl] using h.queued
  · intro e he
    obtain ⟨h1, c, hc, h2⟩ := h.active e he
    obtain ⟨c', hc', i1, i2, _⟩ := hex c hc
    exact ⟨by simpa only [hl] using h1, c', hc', by rw [← h2]; simp only [Conn.idip, i1, i2]⟩
  · simpa only [hl] using h.activeLen
  · intro e he
    obtain ⟨c, hc, h2⟩ := h.idips e he
    obtain ⟨c', hc', i1, i2, i3⟩ := hex c hc
    exact ⟨c', hc', by rw [← h2]; simp only [Conn.addr, i2, i3]⟩
  · intro c' hc'
    obtain ⟨r, hr⟩ := List.getElem?_of_mem hc'
    obtain ⟨c, hc, h1, _⟩ := hp r c' hr
    rw [h1]; exact h.ids c (List.mem_of_getElem? hc)
  · simpa only [hl] using h.jobs
  · simpa only [hl] using h.busy

theorem Seeding.modify {s : State} {fs : FS} {m : Mem} (h : Seeding cfg X s fs m) (r : Nat) (f : Conn → Conn) (hid : ∀ c, (f c).id = c.id ∧ (f c).ip = c.ip ∧ (f c).port = c.port)
    (hf : ∀ c, s.peers[r]? = some c → Ready X s.jobs m (f c)) : Seeding cfg X { s with peers := s.peers.modify r f } fs m := by
  refine h.conns_of (by simp) ?_
  intro r' c' hc'
  rw [List.getElem?_modify] at hc'
  cases hr : s.peers[r']? with
  | none => rw [hr] at hc'; cases hc'
  | some c =>
    rw [hr] at hc'
    by_cases hrr : r = r'
    · subst hrr
      simp at hc'
      subst hc'
      exact ⟨c, rfl, (hid c).1, (hid c).2.1, (hid c).2.2, hf c hr⟩
    · simp [hrr] at hc'
      subst hc'
      exact ⟨c, rfl, rfl, rfl, rfl, h.conns r' c hr⟩

/-- Only the connections change, and not their number. -/
def OnlyConns (s s' : State) : Prop := ∃ ps, s' = { s with peers := ps } ∧ ps.length = s.peers.length

theorem OnlyConns.refl (s : State) : OnlyConns s s := ⟨s.peers, rfl, rfl⟩
theorem OnlyConns.trans {a b c : State} (h : OnlyConns a b) (h' : OnlyConns b c) : OnlyConns a c := by
  obtain ⟨ps, rfl, h1⟩ := h
  obtain ⟨qs, rfl, h2⟩ := h'
  exact ⟨qs, rfl, by simpa [h1] using h2⟩
theorem OnlyConns.modify (s : State) (r : Nat) (f : Conn → Conn) : OnlyConns s { s with peers := s.peers.modify r f } := ⟨_, rfl, by simp⟩

/-- It returns, with or without an error, and only connections have changed. -/
def Sound (cfg : Cfg) (X : List Bytes) (fs : FS) (m : Mem) (s : State) (x : Outcome Unit × State) : Prop :=
  (x.1 = .ok () ∨ ∃ e, x.1 = .err e) ∧ Seeding cfg X x.2 fs m ∧ OnlyConns s x.2

theorem Sound.setConn {s : State} {fs : FS} {m : Mem} (h : Seeding cfg X s fs m) (r : Nat) (f : Conn → Conn) (hid : ∀ c, (f c).id = c.id ∧ (f c).ip = c.ip ∧ (f c).port = c.port)
    (hf : ∀ c, s.peers[r]? = some c → Ready X s.jobs m (f c)) : Sound cfg X fs m s (setConn r f s) :=
  ⟨.inl rfl, h.modify r f hid hf, .modify s r f⟩

theorem Sound.bind {s : State} {fs : FS} {m : Mem} {p : Act Unit} {k : Unit → Act Unit} (h : Sound cfg X fs m s (p s))
    (hk : ∀ s', Seeding cfg X s' fs m → OnlyConns s s' → Sound cfg X fs m s' (k () s')) : Sound cfg X fs m s ((p >>= k) s) := by
  rw [bind_apply]
  generalize p s = x at h
  obtain ⟨o, s'⟩ := x
  obtain ⟨h1, h2, h3⟩ := h
  rcases h1 with h1 | ⟨e, h1⟩
  · have h1 : o = .ok () := h1
    subst h1
    obtain ⟨g1, g2, g3⟩ := hk s' h2 h3
    exact ⟨g1, g2, h3.trans g3⟩
  · have h1 : o = .err e := h1
    subst h1
    exact ⟨.inr ⟨e, rfl⟩, h2, h3⟩

theorem Seeding.conn {s : State} {fs : FS} {m : Mem} (h : Seeding cfg X s fs m) {r : Nat} (hr : r < s.peers.length) : ∃ c, s.peers[r]? = some c ∧ Ready X s.jobs m c :=
  ⟨_, List.getElem?_eq_getElem hr, h.conns r _ (List.getElem?_eq_getElem hr)⟩

theorem send_fine {s : State} {fs : FS} {m : Mem} (h : Seeding cfg X s fs m) (ok : Bool) {r : Nat} (hr : r < s.peers.length) (msg : Message)
    (hm : ∀ i b l, msg = request i b l → ∃ (j k : Nat) (x : Bytes), IsBlock X j k x ∧ Started s.jobs m j ∧ i = j ∧ b = (k * 16384 : Nat) ∧ l = (blockOf x k).length) :
    Sound cfg X fs m s (send ok r msg s) := by
  obtain ⟨c, hc, hC⟩ := h.conn hr
  unfold send
  rw [bind_apply, getConn_some hc]
  simp only
  split
  · exact ⟨.inr ⟨_, rfl⟩, h, .refl s⟩
  · split
    · refine Sound.setConn h r _ (fun c => ⟨rfl, rfl, rfl⟩) ?_
      intro c' hc'
      rw [hc] at hc'; cases hc'
      refine { hC with sent := ?_ }
      intro i b l hmem
      rcases List.mem_append.mp hmem with hmem | hmem
      · exact hC.sent i b l hmem
      · exact hm i b l (List.mem_singleton.mp hmem).symm
    · exact ⟨.inr ⟨_, rfl⟩, h, .refl s⟩

/-- Sending something that is not a request. -/
theorem notRequest {msg : Message} (h : msg.typ ≠ REQUEST) (P : Int → Int → Int → Prop) : ∀ i b l, msg = request i b l → P i b l := by
  intro i b l e
  subst e
  exact absurd rfl h

theorem notInterest_fine {s : State} {fs : FS} {m : Mem} (h : Seeding cfg X s fs m) (ok : Bool) {r : Nat} (hr : r < s.peers.length) :
    Sound cfg X fs m s (notInterest ok r s) := by
  obtain ⟨c, hc, hC⟩ := h.conn hr
  unfold notInterest
  rw [bind_apply, getConn_some hc]
  simp only
  split
  · refine Sound.bind (Sound.setConn h r _ (fun c => ⟨rfl, rfl, rfl⟩) ?_) ?_
    · intro c' hc'
      rw [hc] at hc'; cases hc'
      exact { hC with }
    · rintro s' hs' ⟨ps, rfl, hl⟩
      exact send_fine hs' ok (by simpa [hl] using hr) _ (notRequest (by decide) _)
  · exact ⟨.inl rfl, h, .refl s⟩

theorem unchoke_fine {s : State} {fs : FS} {m : Mem} (h : Seeding cfg X s fs m) (ok : Bool) {r : Nat} (hr : r < s.peers.length) :
    Sound cfg X fs m s (P2P.unchoke ok r s) := by
  obtain ⟨c, hc, hC⟩ := h.conn hr
  unfold P2P.unchoke
  rw [bind_apply, getConn_some hc]
  simp only
  split
  · refine Sound.bind (Sound.setConn h r _ (fun c => ⟨rfl, rfl, rfl⟩) ?_) ?_
    · intro c' hc'
      rw [hc] at hc'; cases hc'
      exact { hC with }
    · rintro s' hs' ⟨ps, rfl, hl⟩
      exact send_fine hs' ok (by simpa [hl] using hr) _ (notRequest (by decide) _)
  · exact ⟨.inl rfl, h, .refl s⟩

theorem sendHave_fine (oks : Ref → Bool) (i : Nat) (rs : List Ref) : ∀ {s : State} {fs : FS} {m : Mem}, Seeding cfg X s fs m → (∀ r ∈ rs, r < s.peers.length) →
    Sound cfg X fs m s (sendHave oks i rs s) := by
  induction rs with
  | nil => intro s fs m h _; exact ⟨.inl rfl, h, .refl s⟩
  | cons r rs ih =>
    intro s fs m h hr
    obtain ⟨c, hc, hC⟩ := h.conn (hr r (by simp))
    unfold sendHave
    rw [bind_apply, getConn_some hc]
    simp only
    rw [if_neg (by rw [hC.open_]; decide)]
    refine Sound.bind (send_fine h _ (hr r (by simp)) _ (notRequest (show HAVE ≠ REQUEST by decide) _)) ?_
    rintro s' hs' ⟨ps, rfl, hl⟩
    exact ih hs' (fun r' hr' => by simpa [hl] using hr r' (by simp [hr']))

/-- The claim about a step. -/
def Goes (cfg : Cfg) (X : List Bytes) (s s' : State) (m : Mem) : Prop :=
  ∃ fs' m', Seeding cfg X s' fs' m' ∧ s'.locked = false ∧ s'.peers.length = s.peers.length ∧ ∀ i, Done m i → Done m' i

theorem step_of {s s' : State} {e : Event} {l : Luck} {o : Outcome Unit} (ha : s.alive = true) (h : act cfg l s e = some (o, s')) (ho : o = .ok () ∨ (∃ e, o = .err e) ∨ o = .stuck) :
    step cfg s (e, l) = s' := by
  unfold step
  rw [if_neg (by rw [ha]; decide)]
  simp only
  rw [h]
  rcases ho with rfl | ⟨e, rfl⟩ | rfl <;> rfl

theorem step_none {s : State} {e : Event} {l : Luck} (h : act cfg l s e = none) : step cfg s (e, l) = s := by
  unfold step
  split
  · rfl
  · simp only; rw [h]

theorem Goes.refl {s : State} {fs : FS} {m : Mem} (h : Seeding cfg X s fs m) (hl : s.locked = false) : Goes cfg X s s m := ⟨fs, m, h, hl, rfl, fun _ => id⟩

theorem Goes.of_fine {s s' : State} {fs : FS} {m : Mem} {o : Outcome Unit} (h : Sound cfg X fs m s (o, s')) (hl : s.locked = false) : Goes cfg X s s' m := by
  obtain ⟨_, h2, ps, h3, h4⟩ := h
  have h3 : s' = { s with peers := ps } := h3
  exact ⟨fs, m, h2, by rw [h3]; exact hl, by rw [h3]; exact h4, fun _ => id⟩

/-- What a seeder is asked for: the pieces that are not complete. -/
theorem missing {s : State} {fs : FS} {m : Mem} (h : Seeding cfg X s fs m) (hX : X.length = cfg.store.info.pieces.length) {c : Conn} (hC : Ready X s.jobs m c) (i : Nat) :
    i ∈ Bitfield.items (Bitfield.difference c.bitfield m.bitfield) ↔ i < X.length ∧ ¬ Done m i := by
  rw [mem_items, Bitfield.bit_difference, hC.has]
  have hbf : Bitfield.bit m.bitfield i = true ↔ Done m i := h.inv.2.bf i
  rw [← hbf]
  cases Bitfield.bit m.bitfield i <;> simp

/-- Pieces to be asked for are found, or there are none left. -/
theorem select_apply {s : State} {fs : FS} {m : Mem} (h : Seeding cfg X s fs m) (hl : s.locked = false) {r : Nat} {c : Conn} (hc : s.peers[r]? = some c)
    (ok : Bool) (coins : List Bool) (pdq : List Nat → List Nat) :
    requestPieceFromPeer ok coins pdq r s =
      if Bitfield.items (Bitfield.difference c.bitfield m.bitfield) = [] then
        Act.locked (do Act.modify fun s => { s with queuedPeers := sdel s.queuedPeers r }; notInterest ok r) s
      else match firstFree s.inflight (sortPieces (available s.indexToPeers) coins pdq (Bitfield.items (Bitfield.difference c.bitfield m.bitfield))) with
        | some i => (.ok (), { s with inflight := mput s.inflight (i : Int) r, jobs := s.jobs ++ [{ peer := r, index := i }] })
        | none => (.ok (), { s with waiting := s.waiting ++ [r] }) := by
  have hC := h.conns r c hc
  have hcl : ¬ (c.closed = true ∨ c.remoteChoked = true) := by rw [hC.open_, hC.unchoked]; simp
  have hst : s.storage.mem = some m := by rw [h.storage]
  unfold requestPieceFromPeer Act.locked
  show Act.bind Act.lock _ s = _
  unfold Act.bind Act.lock
  rw [if_neg (by rw [hl]; decide)]
  simp only
  rw [bind_apply, getConn_some (s := { s with locked := true }) hc]
  simp only
  rw [if_neg hcl, bind_apply]
  have htb : torrentBitfield { s with locked := true } = (.ok m.bitfield, { s with locked := true }) := by
    unfold torrentBitfield; simp only [hst]
  rw [htb]
  simp only
  by_cases hp : Bitfield.items (Bitfield.difference c.bitfield m.bitfield) = []
  · rw [if_pos hp, if_pos hp]
  · rw [if_neg hp, if_neg hp, bind_apply]
    simp only [get_apply]
    cases firstFree s.inflight (sortPieces (available s.indexToPeers) coins pdq (Bitfield.items (Bitfield.difference c.bitfield m.bitfield))) with
    | none => simp only [modify_apply, hl]
    | some i => simp only [modify_apply, hl]

end Drip.P2P
