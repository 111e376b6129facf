import Verif.Props.P2PSafe
import Verif.Props.Names
import Verif.Props.ReadPanic
/-
C74: exactly which messages kill the process.
-/

namespace Drip.P2P
open PeerWire Metainfo
open Storage (Fate World Usable PieceResult TorrentResult Reported WellSized Op runOp getBlock putBlock SInv)

variable {cfg : Cfg} {r : Ref}

/-- The number of pieces for which a bitfield of whole bytes has room. -/
def room (n : Nat) : Nat := 8 * ((n + 7) / 8)

theorem room_new (n : Nat) : 8 * (Bitfield.new n).length = room n := by
  have h := Bitfield.new_length n
  unfold room
  rw [show (Bitfield.new n).length = (n + 7) / 8 by
    unfold Bitfield.new
    simp only [List.length_replicate]
    split <;> omega]

theorem add_panic {b : Bytes} {i : Nat} (h : 8 * b.length ≤ i) : Bitfield.add b i = .panic := by
  unfold Bitfield.add
  rw [Bitfield.pos_nat]
  have h1 : ¬ (((i / 8 : Nat) : Int) < 0) := by omega
  simp only [h1, if_false, Int.toNat_natCast]
  rw [List.getElem?_eq_none (by omega)]

theorem handle_act {s : State} {c : Conn} {m : Message} (l : Luck) (hc : s.peers[r]? = some c) (hp : c.phase = .serving (some m)) :
    act cfg l s (.handle r) = some (next r (.serving none) .leaving (handleMessage l.fates (l.ok r) cfg r m s)) := by
  simp only [act]; rw [hc]; simp only [Option.map_some]; rw [hp]

/-- After a panic the process is dead. -/
theorem dead_of_panic {s : State} {c : Conn} {m : Message} (l : Luck) (hal : s.alive = true) (hc : s.peers[r]? = some c) (hp : c.phase = .serving (some m))
    (h : (handleMessage l.fates (l.ok r) cfg r m s).1 = .panic) : (step cfg s (.handle r, l)).alive = false := by
  unfold step
  rw [if_neg (by rw [hal]; simp)]
  simp only [handle_act l hc hp]
  unfold next
  generalize handleMessage l.fates (l.ok r) cfg r m s = x at h
  obtain ⟨o, s'⟩ := x
  simp only at h
  subst h
  rfl

/-- After any other outcome, and in a safe state, it is not. -/
theorem alive_of_fine {s : State} {c : Conn} {m : Message} (l : Luck) (hal : s.alive = true) (hc : s.peers[r]? = some c) (hp : c.phase = .serving (some m))
    (h : Fine (fun _ => True) (handleMessage l.fates (l.ok r) cfg r m s).1) (h' : (handleMessage l.fates (l.ok r) cfg r m s).2.alive = true) : (step cfg s (.handle r, l)).alive = true := by
  unfold step
  rw [if_neg (by rw [hal]; simp)]
  simp only [handle_act l hc hp]
  unfold next
  generalize handleMessage l.fates (l.ok r) cfg r m s = x at h h'
  obtain ⟨o, s'⟩ := x
  cases o with
  | panic => exact h.elim
  | crash => exact h.elim
  | _ => exact h'

/-! ### HAVE and BITFIELD -/

theorem Sf.have_room {N : Nat} (hr : r < N) (ok : Bool) {i : Nat} (hi : i < room cfg.store.info.pieces.length) : Sf cfg False N (P2P.handleHave ok r i) fun _ => True := by
  rw [← room_new] at hi
  unfold P2P.handleHave
  refine Sf.bind (Sf.getConn hr) fun c hc => ?_
  have hl := hc.len
  obtain ⟨b', hb, hb1, hb2⟩ := Bitfield.add_nat c.bitfield i (by omega)
  refine Sf.bind (Q := fun b => b = b') (Sf.lift (fun a h => by rw [hb] at h; injection h with h; exact h.symm) (by rw [hb]; simp)) fun bf hbf => ?_
  subst hbf
  refine Sf.bind (Sf.setConn' fun c' h => ⟨hb1.trans hl, fun hB => hB.elim, h.pend⟩) fun _ _ => Sf.bind (Sf.recordIndex _) fun _ _ => Sf.bind Sf.torrentBitfield fun h' hh => ?_
  refine Sf.bind (Q := fun _ => True) (Sf.lift (fun _ _ => trivial) ?_) fun b _ => Sf.ite (fun _ => Sf.bind (Sf.QueuePeer hr) fun _ _ => Sf.interest hr ok) fun _ => Sf.unit
  rw [Bitfield.has_nat h' i (by omega)]; simp

theorem Sf.items_room {N : Nat} (hr : r < N) (ok : Bool) : ∀ is : List Nat, (∀ i ∈ is, i < room cfg.store.info.pieces.length) → Sf cfg False N (P2P.handleItems ok r is) fun _ => True
  | [], _ => Sf.unit
  | i :: is, h => by
    unfold P2P.handleItems
    exact Sf.bind (Sf.have_room hr ok (h i (by simp))) fun _ _ => Sf.items_room hr ok is fun j hj => h j (by simp [hj])

theorem have_panic {s : State} {c : Conn} (ok : Bool) (hc : s.peers[r]? = some c) {i : Nat} (hi : 8 * c.bitfield.length ≤ i) : (handleHave ok r i s).1 = .panic := by
  have : handleHave ok r i s = (.panic, s) := by
    unfold handleHave
    show Act.bind (getConn r) _ s = _
    unfold Act.bind getConn
    simp only [hc]
    show Act.bind (Act.lift (Bitfield.add c.bitfield i)) _ s = _
    rw [add_panic hi]
    rfl
  rw [this]

/-- The server can go on with the messages of this connection. -/
def Able (cfg : Cfg) (r : Ref) (s : State) : Prop :=
  s.locked = false ∧ s.requesting = true ∧ (∃ c, s.peers[r]? = some c ∧ c.closed = false ∧ 8 * c.bitfield.length = room cfg.store.info.pieces.length) ∧
    ∃ m, s.storage.mem = some m ∧ 8 * m.bitfield.length = room cfg.store.info.pieces.length

theorem Able.conn {s : State} {c : Conn} (h : Able cfg r s) (hc : s.peers[r]? = some c) (f : Conn → Conn) (h1 : (f c).closed = c.closed) (h2 : (f c).bitfield.length = c.bitfield.length) :
    Able cfg r { s with peers := s.peers.modify r f } := by
  obtain ⟨a1, a2, ⟨d, e1, e2, e3⟩, a4⟩ := h
  rw [hc] at e1; cases e1
  exact ⟨a1, a2, ⟨f c, by simp [List.getElem?_modify, hc], by rw [h1]; exact e2, by rw [h2]; exact e3⟩, a4⟩

theorem bind_of_ok {α β : Type} {p : Act α} {k : α → Act β} {s s' : State} {a : α} (h : p s = (.ok a, s')) : (p >>= k) s = k a s' := by
  show Act.bind p k s = _
  unfold Act.bind
  rw [h]

theorem locked_of_ok {α : Type} {p : Act α} {s s' : State} {a : α} (hl : s.locked = false) (h : p { s with locked := true } = (.ok a, s')) :
    Act.locked p s = (.ok a, { s' with locked := false }) := by
  rw [locked_apply, hl, h]
  rfl

theorem getConn_of {s : State} {c : Conn} (hc : s.peers[r]? = some c) : getConn r s = (.ok c, s) := by
  unfold getConn
  simp only [hc]

theorem able_interest {s : State} (h : Able cfg r s) : ∃ s', interest true r s = (.ok (), s') ∧ Able cfg r s' := by
  obtain ⟨a1, a2, ⟨c, e1, e2, e3⟩, a4⟩ := id h
  unfold interest
  rw [bind_of_ok (getConn_of e1)]
  by_cases hi : c.interested = false
  · rw [if_pos hi]
    have e1' : ({ s with peers := s.peers.modify r fun c => { c with interested := true } } : State).peers[r]? = some { c with interested := true } := by
      simp [List.getElem?_modify, e1]
    refine ⟨_, ?_, (h.conn e1 (fun c => { c with interested := true }) rfl rfl).conn e1' (fun c => { c with sent := c.sent ++ [PeerWire.interested] }) rfl rfl⟩
    rw [bind_of_ok (show setConn r _ s = (.ok (), _) from rfl)]
    unfold send
    rw [bind_of_ok (getConn_of e1')]
    simp only [e2]
    rfl
  · rw [if_neg hi]
    exact ⟨s, rfl, h⟩

theorem able_queue {s : State} (h : Able cfg r s) : ∃ s', QueuePeer r s = (.ok (), s') ∧ Able cfg r s' := by
  obtain ⟨a1, a2, ⟨c, e1, e2, e3⟩, a4⟩ := id h
  have : ∃ s', queuePeer r { s with locked := true } = (.ok (), s') ∧ Able cfg r { s' with locked := false } := by
    unfold queuePeer
    rw [bind_of_ok (getConn_of (s := { s with locked := true }) e1)]
    by_cases hch : c.closed = true ∨ c.remoteChoked = true
    · rw [if_pos hch]
      exact ⟨_, rfl, ⟨rfl, a2, ⟨c, e1, e2, e3⟩, a4⟩⟩
    · rw [if_neg hch, bind_of_ok (show Act.get ({ s with locked := true } : State) = (.ok { s with locked := true }, { s with locked := true }) from rfl)]
      by_cases hq : r ∈ ({ s with locked := true } : State).queuedPeers
      · rw [if_pos hq]
        exact ⟨_, rfl, ⟨rfl, a2, ⟨c, e1, e2, e3⟩, a4⟩⟩
      · rw [if_neg hq, bind_of_ok (show Act.modify _ ({ s with locked := true } : State) = (.ok (), _) from rfl), if_neg (by show ¬ s.requesting = false; rw [a2]; simp)]
        exact ⟨_, rfl, ⟨rfl, a2, ⟨c, e1, e2, e3⟩, a4⟩⟩
  obtain ⟨s', h1, h2⟩ := this
  exact ⟨_, locked_of_ok a1 h1, h2⟩

theorem able_have {s : State} (h : Able cfg r s) {i : Nat} (hi : i < room cfg.store.info.pieces.length) : ∃ s', handleHave true r i s = (.ok (), s') ∧ Able cfg r s' := by
  obtain ⟨a1, a2, ⟨c, e1, e2, e3⟩, a4⟩ := id h
  obtain ⟨b', hb, hb1, hb2⟩ := Bitfield.add_nat c.bitfield i (by omega)
  unfold handleHave
  rw [bind_of_ok (getConn_of e1), bind_of_ok (s' := s) (a := b') (by rw [hb]; rfl)]
  have h1 : Able cfg r { s with peers := s.peers.modify r fun c => { c with bitfield := b' } } := h.conn e1 (fun c => { c with bitfield := b' }) rfl hb1
  rw [bind_of_ok (show setConn r (fun c => { c with bitfield := b' }) s = (.ok (), { s with peers := s.peers.modify r fun c => { c with bitfield := b' } }) from rfl)]
  generalize ({ s with peers := s.peers.modify r fun c => { c with bitfield := b' } } : State) = s1 at h1
  obtain ⟨a1, a2, a3, ⟨m, m1, m2⟩⟩ := id h1
  rw [bind_of_ok (show recordIndex i r s1 = _ from locked_of_ok a1 rfl)]
  generalize hs2 : ({ { s1 with locked := true, indexToPeers := mput s1.indexToPeers i (sadd ((mget s1.indexToPeers i).getD []) r) } with locked := false } : State) = s2
  have h2 : Able cfg r s2 := by subst hs2; exact ⟨rfl, a2, a3, m, m1, m2⟩
  have m1' : s2.storage.mem = some m := by subst hs2; exact m1
  rw [bind_of_ok (show torrentBitfield s2 = (.ok m.bitfield, s2) by unfold torrentBitfield; simp only [m1'])]
  rw [bind_of_ok (s' := s2) (a := Bitfield.bit m.bitfield i) (by rw [Bitfield.has_nat m.bitfield i (by omega)]; rfl)]
  by_cases hbit : Bitfield.bit m.bitfield i = false
  · rw [if_pos hbit]
    obtain ⟨s3, q1, q2⟩ := able_queue h2
    obtain ⟨s4, q3, q4⟩ := able_interest q2
    exact ⟨s4, by rw [bind_of_ok q1]; exact q3, q4⟩
  · rw [if_neg hbit]
    exact ⟨s2, rfl, h2⟩

theorem items_panic : ∀ (is : List Nat) {s : State}, Able cfg r s → (∃ i ∈ is, room cfg.store.info.pieces.length ≤ i) → (handleItems true r is s).1 = .panic
  | [], _, _, h => by obtain ⟨i, hi, _⟩ := h; cases hi
  | i :: is, s, ha, h => by
    unfold handleItems
    show (Act.bind (handleHave true r i) _ s).1 = .panic
    by_cases hi : i < room cfg.store.info.pieces.length
    · obtain ⟨s', h1, h2⟩ := able_have ha hi
      unfold Act.bind
      rw [h1]
      refine items_panic is h2 ?_
      obtain ⟨j, hj, hl⟩ := h
      rcases List.mem_cons.mp hj with rfl | hj
      · omega
      · exact ⟨j, hj, hl⟩
    · obtain ⟨_, _, ⟨c, e1, e2, e3⟩, _⟩ := ha
      have := have_panic true e1 (i := i) (by omega)
      unfold Act.bind
      generalize handleHave true r (i : Int) s = x at this
      obtain ⟨o, s'⟩ := x
      simp only at this
      subst this
      rfl

/-! ### REQUEST and PIECE -/

/-- The action ends in a safe state, without a panic, from this state. -/
def At (cfg : Cfg) (N : Nat) {α : Type} (p : Act α) (s : State) : Prop := Fine (fun _ => True) (p s).1 ∧ Safe cfg False (p s).2 ∧ N ≤ (p s).2.peers.length

theorem At.bind {N : Nat} {α β : Type} {p : Act α} {k : α → Act β} {s : State} (hp : At cfg N p s) (hk : ∀ a, Sf cfg False N (k a) fun _ => True) : At cfg N (p >>= k) s := by
  unfold At at hp ⊢
  rw [bind_apply]
  generalize p s = x at hp
  obtain ⟨o, s'⟩ := x
  obtain ⟨h1, h2, h3⟩ := hp
  cases o with
  | ok a => exact hk a s' h2 h3
  | err e => exact ⟨trivial, h2, h3⟩
  | panic => exact h1.elim
  | crash => exact h1.elim
  | stuck => exact ⟨trivial, h2, h3⟩

theorem At.store {N : Nat} {α : Type} {fates : List Fate} {p : Op α} {s : State} (hf : ∀ r, Fate.crash r ∉ fates) (hnc : Storage.NC p)
    (hw : ∀ s, SInv cfg.store s → Storage.wp (fun x => ∀ r, x ≠ .crash r) p ⟨fun _ s' => SInv cfg.store s', fun _ s' => SInv cfg.store s', fun _ => True, fun _ => True⟩ s)
    (hs : Safe cfg False s) (hn : N ≤ s.peers.length) (hp : (runOp p s.storage fates).1 ≠ .panic) : At cfg N (Act.store fates p) s := by
  obtain ⟨m, hm, hi⟩ := hs.mem
  have hA : ∀ x ∈ fates, ∀ r, x ≠ Fate.crash r := fun x hx r h => hf r (h ▸ hx)
  unfold At Act.store
  rcases Storage.runOp_of_wp hm (Storage.wp_and (hw _ hi) (hnc _ (fun r h => h r rfl) _)) fates hA with ⟨a, s', h1, h2, _⟩ | ⟨e, s', h1, h2, _⟩ | ⟨s', h1, h2, _⟩ | ⟨s', h1, _, h2⟩
  · rw [h1]
    exact ⟨trivial, ⟨⟨_, rfl, h2⟩, hs.conn, hs.jobs, hs.active, hs.alive⟩, hn⟩
  · rw [h1]
    exact ⟨trivial, ⟨⟨_, rfl, h2⟩, hs.conn, hs.jobs, hs.active, hs.alive⟩, hn⟩
  · rw [h1] at hp; exact absurd rfl hp
  · exact h2.elim

theorem store_panic {α : Type} {fates : List Fate} {p : Op α} {s : State} (h : (runOp p s.storage fates).1 = .panic) : (Act.store fates p s).1 = .panic := by
  unfold Act.store
  generalize runOp p s.storage fates = x at h
  obtain ⟨o, w⟩ := x
  simp only at h
  subst h
  rfl

theorem bind_panic {α β : Type} {p : Act α} {k : α → Act β} {s : State} (h : (p s).1 = .panic) : ((p >>= k) s).1 = .panic := by
  rw [bind_apply]
  generalize p s = x at h
  obtain ⟨o, w⟩ := x
  simp only at h
  subst h
  rfl

theorem At.request {N : Nat} {fates : List Fate} {s : State} {c : Conn} (hf : ∀ r, Fate.crash r ∉ fates) (hr : r < N) (ok : Bool) (hs : Safe cfg False s) (hn : N ≤ s.peers.length) (hc : s.peers[r]? = some c)
    {i b n : Int} (h : c.choked = false → ⟨i, b, n⟩ ∉ c.canceled → (runOp (getBlock cfg.store i b n) s.storage fates).1 ≠ .panic) : At cfg N (handleRequest fates ok cfg r i b n) s := by
  unfold At handleRequest
  rw [bind_of_ok (getConn_of hc)]
  by_cases h1 : c.choked = true
  · rw [if_pos h1]; exact ⟨trivial, hs, hn⟩
  · rw [if_neg h1]
    by_cases h2 : ⟨i, b, n⟩ ∈ c.canceled
    · rw [if_pos h2]; exact (Sf.setConn : Sf cfg False N (setConn r fun c => { c with canceled := sdel c.canceled ⟨i, b, n⟩ }) _) s hs hn
    · rw [if_neg h2]
      refine At.bind (At.store hf (Storage.nc_getBlock i b n) (fun s hi => ?_) hs hn (h (by simpa using h1) h2)) fun _ => Sf.bind (Sf.send hr ok _) fun _ _ => Sf.bind Sf.setConn fun _ _ => Sf.frame
      refine Storage.wp_mono (Storage.wp_getBlock_any i b n) ?_ ?_ (fun _ _ => trivial) (fun _ _ => trivial)
      · rintro a s' ⟨_, rfl⟩; exact hi
      · rintro a s' rfl; exact hi

theorem request_panic {fates : List Fate} {s : State} {c : Conn} (ok : Bool) (hc : s.peers[r]? = some c) {i b n : Int} (h1 : c.choked = false) (h2 : ⟨i, b, n⟩ ∉ c.canceled)
    (h : (runOp (getBlock cfg.store i b n) s.storage fates).1 = .panic) : (handleRequest fates ok cfg r i b n s).1 = .panic := by
  unfold handleRequest
  rw [bind_of_ok (getConn_of hc), if_neg (by rw [h1]; simp), if_neg h2]
  exact bind_panic (store_panic h)

theorem At.piece {N : Nat} {fates : List Fate} {s : State} (hf : ∀ r, Fate.crash r ∉ fates) (hs : Safe cfg False s) (hn : N ≤ s.peers.length)
    {i b : Int} {d : Bytes} (h : (runOp (putBlock cfg.store i b d) s.storage fates).1 ≠ .panic) : At cfg N (handlePiece fates cfg r i b d) s := by
  have := At.store (N := N) hf (Storage.nc_putBlock i b d) (fun s hi => Storage.wp_mono (Storage.wp_putBlock hi i b d) (fun _ _ h => h) (fun _ _ h => h) (fun _ _ => trivial) fun _ _ => trivial) hs hn h
  unfold At at this ⊢
  unfold handlePiece
  generalize Act.store fates (Storage.putBlock cfg.store i b d) s = x at this
  obtain ⟨o, s'⟩ := x
  obtain ⟨h1, h2, h3⟩ := this
  cases o with
  | ok a =>
    have : Sf cfg False N (Act.bind (P2P.setConn r fun c => { c with downloaded := c.downloaded + d.length }) fun _ =>
        Act.modify fun s => { s with downloaded := s.downloaded + d.length }) fun _ => True := Sf.bind Sf.setConn fun _ _ => Sf.frame
    exact this s' h2 h3
  | err e =>
    simp only []
    split <;> exact ⟨trivial, h2, h3⟩
  | panic => exact h1.elim
  | crash => exact h1.elim
  | stuck => exact ⟨trivial, h2, h3⟩

theorem piece_panic {fates : List Fate} {s : State} {i b : Int} {d : Bytes} (h : (runOp (putBlock cfg.store i b d) s.storage fates).1 = .panic) : (handlePiece fates cfg r i b d s).1 = .panic := by
  have := store_panic h
  unfold handlePiece
  generalize Act.store fates (Storage.putBlock cfg.store i b d) s = x at this
  obtain ⟨o, s'⟩ := x
  simp only at this
  subst this
  rfl

theorem handles_have (fates : List Fate) (ok : Bool) {m : Message} (ht : m.typ = HAVE) : handleMessage fates ok cfg r m = handleHave ok r m.index := by
  cases m; simp only at ht; subst ht; rfl

theorem handles_bitfield (fates : List Fate) (ok : Bool) {m : Message} (ht : m.typ = BITFIELD) : handleMessage fates ok cfg r m = handleItems ok r (Bitfield.items m.bitfield) := by
  cases m; simp only at ht; subst ht; rfl

theorem handles_request (fates : List Fate) (ok : Bool) {m : Message} (ht : m.typ = REQUEST) : handleMessage fates ok cfg r m = handleRequest fates ok cfg r m.index m.begin m.length := by
  cases m; simp only at ht; subst ht; rfl

theorem handles_piece (fates : List Fate) (ok : Bool) {m : Message} (ht : m.typ = PIECE) : handleMessage fates ok cfg r m = handlePiece fates cfg r m.index m.begin m.piece := by
  cases m; simp only at ht; subst ht; rfl

/-! ### C74, exactly -/

/-- The messages that kill a client with the storage `mem` on the connection `c`: a HAVE or a BITFIELD with a piece for which the bitfield has no room; a REQUEST that is not dropped (the peer is not choked and
has not cancelled it) for a piece that does not exist, while the torrent is not complete; and, while it is not complete, a PIECE of the expected size for a piece that does not exist, or behind the end of one that is missing. -/
def Deadly (info : Info) (mem : Storage.Mem) (c : Conn) (m : Message) : Prop :=
  (m.typ = HAVE ∧ room info.pieces.length ≤ m.index) ∨
  (m.typ = BITFIELD ∧ ∃ i, room info.pieces.length ≤ i ∧ Bitfield.bit m.bitfield i = true) ∨
  (m.typ = REQUEST ∧ c.choked = false ∧ ⟨m.index, m.begin, m.length⟩ ∉ c.canceled ∧ ¬TorrentResult mem none ∧ info.pieces.length ≤ m.index) ∨
  (m.typ = PIECE ∧ ¬TorrentResult mem none ∧ WellSized info m.index m.begin m.piece.length ∧
    (info.pieces.length ≤ m.index ∨ (¬Reported mem m.index.toNat ∧ info.getPieceLength m.index ≤ m.begin)))

/-- C74, exactly: a message kills the process if and only if it is one of these. (A BITFIELD is handled piece by piece; if the write of INTERESTED fails, or the client is shutting down, it may not come to the
piece in question.) Missing: that no message does. -/
theorem C74_exactly_partial (hu : Usable cfg.store) (es0 : List (Storage.Event × List Fate)) (es : List (Event × Luck)) (l : Luck) {c : Conn} {m : Message} {mem : Storage.Mem}
    (hal : (run cfg (init (Storage.run cfg.store es0 World.empty)) es).alive = true)
    (hmem : (run cfg (init (Storage.run cfg.store es0 World.empty)) es).storage.mem = some mem)
    (hc : (run cfg (init (Storage.run cfg.store es0 World.empty)) es).peers[r]? = some c) (hp : c.phase = .serving (some m)) (hf : ∀ x, Fate.crash x ∉ l.fates) :
    ((step cfg (run cfg (init (Storage.run cfg.store es0 World.empty)) es) (.handle r, l)).alive = false → Deadly cfg.store.info mem c m) ∧
    (Deadly cfg.store.info mem c m → (m.typ = BITFIELD → l.ok r = true ∧ c.closed = false ∧ (run cfg (init (Storage.run cfg.store es0 World.empty)) es).locked = false ∧
        (run cfg (init (Storage.run cfg.store es0 World.empty)) es).requesting = true) →
      (step cfg (run cfg (init (Storage.run cfg.store es0 World.empty)) es) (.handle r, l)).alive = false) := by
  have hi := inv_run (cfg := cfg) (Storage.run cfg.store es0 World.empty) es
  obtain ⟨es', he⟩ := storage_run (cfg := cfg) es0 es
  generalize run cfg (init (Storage.run cfg.store es0 World.empty)) es = s at *
  have hme : (Storage.run cfg.store es' World.empty).mem = some mem := by rw [← he]; exact hmem
  have hS : Storage.SInv cfg.store ⟨s.storage.fs, mem⟩ := by rw [he]; exact Storage.reach hu es' hme
  have hs : Safe cfg False s := ⟨⟨mem, hmem, hS⟩, fun x c hx => ⟨(hi.conn x c hx).length, fun h => h.elim, fun h => h.elim⟩, fun h => h.elim, fun p hp => (by
    obtain ⟨c, hc, _⟩ := hi.entry p.1 p.2 hp
    exact lt_of_get hc), hal⟩
  have hr : r < s.peers.length := lt_of_get hc
  obtain ⟨hi0, hb0, hl0⟩ := (hi.conn r c hc).pend m hp
  have hwid : 8 * c.bitfield.length = room cfg.store.info.pieces.length := by rw [(hi.conn r c hc).length, room_new]
  obtain ⟨k, hk⟩ := Int.eq_ofNat_of_zero_le hi0
  have hget := Storage.C128_exactly_partial hu es' hme m.index m.begin hl0 l.fates
  have hput := Storage.C43_exactly_partial hu es' hme m.index m.begin m.piece l.fates
  rw [← he] at hget hput
  refine ⟨fun hd => Classical.byContradiction fun hD => ?_, fun hD hB => dead_of_panic l hal hc hp ?_⟩
  · have hat : At cfg s.peers.length (handleMessage l.fates (l.ok r) cfg r m) s := by
      by_cases h1 : m.typ = HAVE
      · have hlt : k < room cfg.store.info.pieces.length := by
          have : ¬ ((room cfg.store.info.pieces.length : Int) ≤ m.index) := fun h => hD (.inl ⟨h1, h⟩)
          omega
        have : handleMessage l.fates (l.ok r) cfg r m = handleHave (l.ok r) r k := (by rw [← hk]; exact handles_have _ _ h1)
        unfold At
        rw [this]
        exact Sf.have_room hr (l.ok r) hlt s hs (Nat.le_refl _)
      by_cases h2 : m.typ = BITFIELD
      · have : handleMessage l.fates (l.ok r) cfg r m = handleItems (l.ok r) r (Bitfield.items m.bitfield) := handles_bitfield _ _ h2
        unfold At
        rw [this]
        refine Sf.items_room hr (l.ok r) _ (fun i hit => ?_) s hs (Nat.le_refl _)
        exact Nat.lt_of_not_le fun hge => hD (.inr (.inl ⟨h2, i, hge, mem_items.1 hit⟩))
      by_cases h3 : m.typ = REQUEST
      · have : handleMessage l.fates (l.ok r) cfg r m = handleRequest l.fates (l.ok r) cfg r m.index m.begin m.length := handles_request _ _ h3
        unfold At
        rw [this]
        refine At.request hf hr (l.ok r) hs (Nat.le_refl _) hc fun hch hca hpan => hD (.inr (.inr (.inl ⟨h3, hch, hca, ?_⟩)))
        obtain ⟨a1, a2⟩ := hget.1 hpan
        exact ⟨a1, a2.resolve_left (by omega)⟩
      by_cases h4 : m.typ = PIECE
      · have : handleMessage l.fates (l.ok r) cfg r m = handlePiece l.fates cfg r m.index m.begin m.piece := handles_piece _ _ h4
        unfold At
        rw [this]
        refine At.piece hf hs (Nat.le_refl _) fun hpan => hD (.inr (.inr (.inr ⟨h4, ?_⟩)))
        obtain ⟨a1, a2, a3⟩ := hput.1 hpan
        refine ⟨a1, a2, ?_⟩
        rcases a3 with a3 | a3 | ⟨a3, a4 | a4⟩
        · omega
        · exact .inl a3
        · omega
        · exact .inr ⟨a3, a4⟩
      · exact Sf.handleMessage (B := False) hf hr (l.ok r) ⟨fun h => absurd h h1, fun h => absurd h h2, fun h => absurd h h3, fun h => absurd h h4⟩ ⟨hi0, hb0, hl0⟩ s hs (Nat.le_refl _)
    have := alive_of_fine l hal hc hp hat.1 hat.2.1.alive
    rw [this] at hd
    cases hd
  · rcases hD with ⟨ht, h⟩ | ⟨ht, i, h1, h2⟩ | ⟨ht, h1, h2, h3, h4⟩ | ⟨ht, h1, h2, h3⟩
    · have : handleMessage l.fates (l.ok r) cfg r m = handleHave (l.ok r) r k := (by rw [← hk]; exact handles_have _ _ ht)
      rw [this]
      exact have_panic (l.ok r) hc (by omega)
    · obtain ⟨b1, b2, b3, b4⟩ := hB ht
      have : handleMessage l.fates (l.ok r) cfg r m = handleItems (l.ok r) r (Bitfield.items m.bitfield) := handles_bitfield _ _ ht
      rw [this, b1]
      exact items_panic _ ⟨b3, b4, ⟨c, hc, b2, hwid⟩, mem, hmem, by rw [show mem.bitfield.length = _ from hS.2.bfLen, room_new]⟩ ⟨i, mem_items.2 h2, h1⟩
    · have : handleMessage l.fates (l.ok r) cfg r m = handleRequest l.fates (l.ok r) cfg r m.index m.begin m.length := handles_request _ _ ht
      rw [this]
      exact request_panic (l.ok r) hc h1 h2 (hget.2 ⟨h3, .inr h4⟩)
    · have : handleMessage l.fates (l.ok r) cfg r m = handlePiece l.fates cfg r m.index m.begin m.piece := handles_piece _ _ ht
      rw [this]
      refine piece_panic (hput.2 ⟨h1, h2, ?_⟩)
      rcases h3 with h3 | ⟨h3, h4⟩
      · exact .inr (.inl h3)
      · exact .inr (.inr ⟨h3, .inr h4⟩)

/-- Two pieces, so a byte of bitfield: the last piece for which there is room, and the first for which there is none. -/
example : room 2 = 8 ∧ (step Ex.cfg (run Ex.cfg (init Ex.nothing) (Ex.told (have_ 7))) (.handle 0, {})).alive = true ∧
    (step Ex.cfg (run Ex.cfg (init Ex.nothing) (Ex.told (have_ 8))) (.handle 0, {})).alive = false := ⟨rfl, by kernel_rfl, by kernel_rfl⟩

/-- A bitfield with bits 7 and 8, when it can be handled to the end, and when the write of INTERESTED after bit 7 fails. -/
example : (run Ex.cfg (init Ex.nothing) (Ex.told (bitfieldMsg [1, 128]))).locked = false ∧ (run Ex.cfg (init Ex.nothing) (Ex.told (bitfieldMsg [1, 128]))).requesting = true ∧
    (step Ex.cfg (run Ex.cfg (init Ex.nothing) (Ex.told (bitfieldMsg [1, 128]))) (.handle 0, {})).alive = false ∧
    (step Ex.cfg (run Ex.cfg (init Ex.nothing) (Ex.told (bitfieldMsg [1, 128]))) (.handle 0, { ok := fun _ => false })).alive = true :=
  ⟨by kernel_rfl, by kernel_rfl, by kernel_rfl, by kernel_rfl⟩

/-- A request for a piece that does not exist: it kills the process unless the peer is choked or has cancelled it. -/
example : (step Ex.cfg (run Ex.cfg (init Ex.nothing) (Ex.told (request 2 0 1))) (.handle 0, {})).alive = false ∧
    (step Ex.cfg (run Ex.cfg (init Ex.nothing) (Ex.fine (Ex.joins 0 1 (Ex.id' 2) ++ [.receive 0 (Ex.says (request 2 0 1))]))) (.handle 0, {})).alive = true ∧
    (step Ex.cfg (run Ex.cfg (init Ex.nothing) (Ex.fine (Ex.joins 0 1 (Ex.id' 2) ++ [.unchoke 0] ++ Ex.gets 0 (cancel 2 0 1) ++ [.receive 0 (Ex.says (request 2 0 1))]))) (.handle 0, {})).alive = true :=
  ⟨by kernel_rfl, by kernel_rfl, by kernel_rfl⟩

/-- A block behind the end of piece 1, of the size that is expected there: it kills the process unless the piece is there. -/
example : WellSized Ex.store.info 1 16384 16384 ∧ (Ex.store.info.getPieceLength 1 ≤ 16384) ∧
    (step Ex.cfg (run Ex.cfg (init Ex.nothing) (Ex.told (pieceMsg 1 16384 (List.replicate 16384 0)))) (.handle 0, {})).alive = false ∧
    (step Ex.cfg (run Ex.cfg (init Ex.nothing) (Ex.fine (Ex.joins 0 1 (Ex.id' 2) ++ Ex.gets 0 (pieceMsg 1 0 [5, 6]) ++ [.receive 0 (Ex.says (pieceMsg 1 16384 (List.replicate 16384 0)))]))) (.handle 0, {})).alive = true :=
  ⟨⟨by decide, by decide⟩, by decide, by kernel_rfl, by kernel_rfl⟩

end Drip.P2P
