import Verif.Lemmas.P2PJobs
import Verif.Lemmas.StoragePiece
/-
Which actions cannot kill the process.
-/

namespace Drip.P2P
open PeerWire Metainfo
open Storage (Fate World Op runOp getBlock putBlock resetPiece SInv)

variable {cfg : Cfg} {r : Ref} {N : Nat} {B : Prop}

/-- What the message is about is in the torrent: the pieces it names exist and the block it carries starts inside its piece. -/
structure InRange (info : Info) (m : Message) : Prop where
  have_ : m.typ = HAVE → m.index < info.pieces.length
  bitfield : m.typ = BITFIELD → ∀ i, Bitfield.bit m.bitfield i = true → i < info.pieces.length
  request : m.typ = REQUEST → m.index < info.pieces.length
  piece : m.typ = PIECE → m.index < info.pieces.length ∧ m.begin < info.getPieceLength m.index

/-- `B`: everything that has arrived is in range. -/
structure ConnSafe (cfg : Cfg) (B : Prop) (c : Conn) : Prop where
  len : c.bitfield.length = (Bitfield.new cfg.store.info.pieces.length).length
  bits : B → ∀ i, Bitfield.bit c.bitfield i = true → i < cfg.store.info.pieces.length
  pend : B → ∀ m, c.phase = .serving (some m) → InRange cfg.store.info m

/-- States in which nothing is out of range. -/
structure Safe (cfg : Cfg) (B : Prop) (s : State) : Prop where
  mem : ∃ m, s.storage.mem = some m ∧ SInv cfg.store ⟨s.storage.fs, m⟩
  conn : ∀ (x : Ref) (c : Conn), s.peers[x]? = some c → ConnSafe cfg B c
  jobs : B → ∀ j ∈ s.jobs, j.index < cfg.store.info.pieces.length
  active : ∀ p ∈ s.activePeers, p.2 < s.peers.length
  alive : s.alive = true

theorem Safe.same {s s' : State} (h : Safe cfg B s) (h1 : s'.storage = s.storage) (h2 : s'.peers = s.peers) (h3 : s'.jobs = s.jobs)
    (h4 : ∀ p ∈ s'.activePeers, p ∈ s.activePeers) (h5 : s'.alive = s.alive := by rfl) : Safe cfg B s' where
  mem := by rw [h1]; exact h.mem
  conn := by rw [h2]; exact h.conn
  jobs := by rw [h3]; exact h.jobs
  active p hp := by rw [h2]; exact h.active p (h4 p hp)
  alive := h5.trans h.alive

/-- The outcome is neither a panic nor a crash. -/
def Fine {α : Type} (Q : α → Prop) : Outcome α → Prop
  | .ok a => Q a
  | .panic => False
  | .crash => False
  | _ => True

/-- From a safe state with at least `N` connections the action ends in one, without a panic. -/
def Sf (cfg : Cfg) (B : Prop) (N : Nat) {α : Type} (p : Act α) (Q : α → Prop) : Prop := ∀ s, Safe cfg B s → N ≤ s.peers.length →
  Fine Q (p s).1 ∧ Safe cfg B (p s).2 ∧ N ≤ (p s).2.peers.length

theorem Sf.pure {α : Type} {Q : α → Prop} {a : α} (h : Q a) : Sf cfg B N (pure a : Act α) Q := fun _ hs hn => ⟨h, hs, hn⟩
theorem Sf.unit : Sf cfg B N (Pure.pure () : Act Unit) fun _ => True := fun _ hs hn => ⟨trivial, hs, hn⟩
theorem Sf.fail {α : Type} {Q : α → Prop} (e : Err) : Sf cfg B N (Act.fail e : Act α) Q := fun _ hs hn => ⟨trivial, hs, hn⟩
theorem Sf.stuck {α : Type} {Q : α → Prop} : Sf cfg B N (Act.stuck : Act α) Q := fun _ hs hn => ⟨trivial, hs, hn⟩
theorem Sf.get : Sf cfg B N Act.get fun s => Safe cfg B s ∧ N ≤ s.peers.length := fun _ hs hn => ⟨⟨hs, hn⟩, hs, hn⟩
theorem Sf.modify {f : State → State} (h : ∀ s, Safe cfg B s → N ≤ s.peers.length → Safe cfg B (f s) ∧ N ≤ (f s).peers.length) : Sf cfg B N (Act.modify f) fun _ => True :=
  fun s hs hn => ⟨trivial, h s hs hn⟩
theorem Sf.frame {f : State → State} (h1 : ∀ s, (f s).storage = s.storage := by intro _; rfl) (h2 : ∀ s, (f s).peers = s.peers := by intro _; rfl)
    (h3 : ∀ s, (f s).jobs = s.jobs := by intro _; rfl) (h4 : ∀ s, (f s).activePeers = s.activePeers := by intro _; rfl)
    (h5 : ∀ s, (f s).alive = s.alive := by intro _; rfl) : Sf cfg B N (Act.modify f) fun _ => True :=
  Sf.modify fun s hs hn => ⟨hs.same (h1 s) (h2 s) (h3 s) (fun p hp => by rw [h4] at hp; exact hp) (h5 s), by rw [h2]; exact hn⟩

theorem Sf.bind {α β : Type} {p : Act α} {k : α → Act β} {Q : α → Prop} {R : β → Prop} (hp : Sf cfg B N p Q) (hk : ∀ a, Q a → Sf cfg B N (k a) R) : Sf cfg B N (p >>= k) R := by
  intro s hs hn
  rw [bind_apply]
  have := hp s hs hn
  generalize p s = x at this
  obtain ⟨o, s'⟩ := x
  obtain ⟨h1, h2, h3⟩ := this
  cases o with
  | ok a => exact hk a h1 s' h2 h3
  | err e => exact ⟨trivial, h2, h3⟩
  | panic => exact h1.elim
  | crash => exact h1.elim
  | stuck => exact ⟨trivial, h2, h3⟩

theorem Sf.mono {α : Type} {p : Act α} {Q R : α → Prop} (hp : Sf cfg B N p Q) (h : ∀ a, Q a → R a) : Sf cfg B N p R := by
  intro s hs hn
  obtain ⟨h1, h2⟩ := hp s hs hn
  refine ⟨?_, h2⟩
  revert h1
  cases (p s).1 <;> simp only [Fine] <;> first | exact h _ | exact fun h => h

theorem Sf.ite {α : Type} {c : Prop} [Decidable c] {p q : Act α} {Q : α → Prop} (hp : c → Sf cfg B N p Q) (hq : ¬ c → Sf cfg B N q Q) : Sf cfg B N (if c then p else q) Q := by
  split
  · exact hp ‹_›
  · exact hq ‹_›

theorem Sf.lift {α : Type} {x : Res α} {Q : α → Prop} (h : ∀ a, x = .ok a → Q a) (hn : x ≠ .panic) : Sf cfg B N (Act.lift x) Q := by
  cases x with
  | ok a => exact Sf.pure (h a rfl)
  | err e => exact Sf.fail e
  | panic => exact absurd rfl hn

theorem Safe.lock {s : State} (h : Safe cfg B s) (b : Bool) : Safe cfg B { s with locked := b } := h.same rfl rfl rfl fun _ h => h

theorem Sf.locked {α : Type} {p : Act α} {Q : α → Prop} (h : Sf cfg B N p Q) : Sf cfg B N (Act.locked p) Q := by
  intro s hs hn
  rw [locked_apply]
  split
  · exact ⟨trivial, hs, hn⟩
  · have := h { s with locked := true } (hs.lock true) hn
    generalize p { s with locked := true } = x at this
    obtain ⟨o, s'⟩ := x
    obtain ⟨h1, h2, h3⟩ := this
    cases o with
    | ok a => exact ⟨h1, h2.lock false, h3⟩
    | err e => exact ⟨trivial, h2.lock false, h3⟩
    | panic => exact h1.elim
    | crash => exact h1.elim
    | stuck => exact ⟨trivial, h2, h3⟩

theorem Sf.lock : Sf cfg B N Act.lock fun _ => True := fun s hs hn => by
  unfold Act.lock
  split
  · exact ⟨trivial, hs, hn⟩
  · exact ⟨trivial, hs.lock true, hn⟩

theorem Sf.attempt {p : Act Unit} (h : Sf cfg B N p fun _ => True) : Sf cfg B N (Act.attempt p) fun _ => True := by
  intro s hs hn
  unfold Act.attempt
  have := h s hs hn
  generalize p s = x at this
  obtain ⟨o, s'⟩ := x
  cases o with
  | err e => exact ⟨trivial, this.2⟩
  | _ => exact this

theorem Sf.getConn (hr : r < N) : Sf cfg B N (getConn r) (ConnSafe cfg B) := fun s hs hn => by
  rw [getConn_apply]
  rw [List.getElem?_eq_getElem (Nat.lt_of_lt_of_le hr hn : r < s.peers.length)]
  exact ⟨hs.conn r _ (List.getElem?_eq_getElem _), hs, hn⟩

theorem Safe.set {s : State} (h : Safe cfg B s) (f : Conn → Conn) (hf : ∀ c, ConnSafe cfg B c → ConnSafe cfg B (f c)) : Safe cfg B { s with peers := s.peers.modify r f } where
  mem := h.mem
  conn x c hc := by
    show ConnSafe cfg B c
    simp only [List.getElem?_modify] at hc
    cases hx : s.peers[x]? with
    | none => rw [hx] at hc; cases hc
    | some d =>
      rw [hx] at hc
      simp only [Option.map_eq_map, Option.map_some] at hc
      injection hc with hc
      rw [← hc]
      split
      · exact hf d (h.conn x d hx)
      · exact h.conn x d hx
  jobs := h.jobs
  active p hp := by simp only [List.length_modify]; exact h.active p hp
  alive := h.alive

theorem Sf.setConn' {f : Conn → Conn} (hf : ∀ c, ConnSafe cfg B c → ConnSafe cfg B (f c)) : Sf cfg B N (setConn r f) fun _ => True :=
  Sf.modify fun s hs hn => ⟨hs.set f hf, by simp only [List.length_modify]; exact hn⟩

theorem Sf.setConn {f : Conn → Conn} (h1 : ∀ c, (f c).bitfield = c.bitfield := by intro _; rfl) (h2 : ∀ c, (f c).phase = c.phase := by intro _; rfl) :
    Sf cfg B N (setConn r f) fun _ => True :=
  Sf.setConn' fun c h => ⟨by rw [h1]; exact h.len, by rw [h1]; exact h.bits, by rw [h2]; exact h.pend⟩

theorem Sf.torrentBitfield : Sf cfg B N torrentBitfield fun b => b.length = (Bitfield.new cfg.store.info.pieces.length).length := fun s hs hn => by
  unfold P2P.torrentBitfield
  obtain ⟨m, hm, hi⟩ := hs.mem
  rw [hm]
  exact ⟨hi.2.bfLen, hs, hn⟩

/-- A call of the storage. -/
theorem Sf.store {α : Type} {fates : List Fate} {p : Op α} (hf : ∀ r, Fate.crash r ∉ fates) (hnc : Storage.NC p)
    {pan : Storage.Sys → Prop} (hw : ∀ s, SInv cfg.store s → Storage.wp (fun x => ∀ r, x ≠ .crash r) p ⟨fun _ s' => SInv cfg.store s', fun _ s' => SInv cfg.store s', fun _ => pan s, fun _ => True⟩ s)
    {s : State} (hs : Safe cfg B s) (hn : N ≤ s.peers.length) (hp : ∀ m, s.storage.mem = some m → SInv cfg.store ⟨s.storage.fs, m⟩ → ¬ pan ⟨s.storage.fs, m⟩) :
    Fine (fun _ => True) (Act.store fates p s).1 ∧ Safe cfg B (Act.store fates p s).2 ∧ N ≤ (Act.store fates p s).2.peers.length := by
  obtain ⟨m, hm, hi⟩ := hs.mem
  have hA : ∀ x ∈ fates, ∀ r, x ≠ Fate.crash r := fun x hx r h => hf r (h ▸ hx)
  unfold Act.store
  rcases Storage.runOp_of_wp hm (Storage.wp_and (hw _ hi) (hnc _ (fun r h => h r rfl) _)) fates hA with ⟨a, s', h1, h2, _⟩ | ⟨e, s', h1, h2, _⟩ | ⟨s', h1, h2, _⟩ | ⟨s', h1, _, h2⟩
  · rw [h1]
    exact ⟨trivial, ⟨⟨_, rfl, h2⟩, hs.conn, hs.jobs, hs.active, hs.alive⟩, hn⟩
  · rw [h1]
    exact ⟨trivial, ⟨⟨_, rfl, h2⟩, hs.conn, hs.jobs, hs.active, hs.alive⟩, hn⟩
  · exact absurd h2 (hp m hm hi)
  · exact h2.elim

theorem Sf.send (hr : r < N) (ok : Bool) (m : Message) : Sf cfg B N (send ok r m) fun _ => True := by
  unfold P2P.send
  exact Sf.bind (Sf.getConn hr) fun _ _ => Sf.ite (fun _ => Sf.fail _) fun _ => Sf.ite (fun _ => Sf.setConn) fun _ => Sf.fail _

theorem Sf.interest (hr : r < N) (ok : Bool) : Sf cfg B N (interest ok r) fun _ => True := by
  unfold P2P.interest
  exact Sf.bind (Sf.getConn hr) fun _ _ => Sf.ite (fun _ => Sf.bind Sf.setConn fun _ _ => Sf.send hr ok _) fun _ => Sf.unit

theorem Sf.notInterest (hr : r < N) (ok : Bool) : Sf cfg B N (notInterest ok r) fun _ => True := by
  unfold P2P.notInterest
  exact Sf.bind (Sf.getConn hr) fun _ _ => Sf.ite (fun _ => Sf.bind Sf.setConn fun _ _ => Sf.send hr ok _) fun _ => Sf.unit

theorem Sf.unchoke (hr : r < N) (ok : Bool) : Sf cfg B N (unchoke ok r) fun _ => True := by
  unfold P2P.unchoke
  exact Sf.bind (Sf.getConn hr) fun _ _ => Sf.ite (fun _ => Sf.bind Sf.setConn fun _ _ => Sf.send hr ok _) fun _ => Sf.unit

theorem Sf.queuePeer (hr : r < N) : Sf cfg B N (queuePeer r) fun _ => True := by
  unfold P2P.queuePeer
  refine Sf.bind (Sf.getConn hr) fun _ _ => Sf.ite (fun _ => Sf.unit) fun _ => Sf.bind Sf.get fun _ _ => Sf.ite (fun _ => Sf.unit) fun _ => Sf.bind Sf.frame fun _ _ => ?_
  exact Sf.ite (fun _ => Sf.stuck) fun _ => Sf.frame

theorem Sf.QueuePeer (hr : r < N) : Sf cfg B N (QueuePeer r) fun _ => True := (Sf.queuePeer hr).locked

theorem Sf.recordIndex (i : Int) : Sf cfg B N (recordIndex i r) fun _ => True := by
  unfold P2P.recordIndex
  exact Sf.locked Sf.frame

theorem Sf.handleHave (hr : r < N) (ok : Bool) {i : Nat} (hi : i < cfg.store.info.pieces.length) : Sf cfg B N (handleHave ok r i) fun _ => True := by
  have hn := Bitfield.new_length cfg.store.info.pieces.length
  unfold P2P.handleHave
  refine Sf.bind (Sf.getConn hr) fun c hc => ?_
  have hl := hc.len
  obtain ⟨b', hb, hb1, hb2⟩ := Bitfield.add_nat c.bitfield i (by omega)
  refine Sf.bind (Q := fun b => b = b') (Sf.lift (fun a h => by rw [hb] at h; injection h with h; exact h.symm) (by rw [hb]; simp)) fun bf hbf => ?_
  subst hbf
  refine Sf.bind (Sf.setConn' fun c' h => ⟨hb1.trans hl, fun hB j hj => ?_, h.pend⟩) fun _ _ => Sf.bind (Sf.recordIndex _) fun _ _ => Sf.bind Sf.torrentBitfield fun h' hh => ?_
  · have hj : Bitfield.bit bf j = true := hj
    rw [hb2] at hj
    rcases (Bool.or_eq_true _ _).mp hj with h | h
    · exact hc.bits hB j h
    · rw [of_decide_eq_true h]; exact hi
  · refine Sf.bind (Q := fun _ => True) (Sf.lift (fun _ _ => trivial) ?_) fun b _ => Sf.ite (fun _ => Sf.bind (Sf.QueuePeer hr) fun _ _ => Sf.interest hr ok) fun _ => Sf.unit
    rw [Bitfield.has_nat h' i (by omega)]; simp

theorem Sf.handleItems (hr : r < N) (ok : Bool) : ∀ is : List Nat, (∀ i ∈ is, i < cfg.store.info.pieces.length) → Sf cfg B N (handleItems ok r is) fun _ => True
  | [], _ => Sf.unit
  | i :: is, h => by
    unfold P2P.handleItems
    exact Sf.bind (Sf.handleHave hr ok (h i (by simp))) fun _ _ => Sf.handleItems hr ok is fun j hj => h j (by simp [hj])

theorem Sf.getBlock {fates : List Fate} (hf : ∀ r, Fate.crash r ∉ fates) {i b n : Int} (hi : 0 ≤ i ∧ i < cfg.store.info.pieces.length) (hl : 0 ≤ n) :
    Sf cfg B N (Act.store fates (getBlock cfg.store i b n)) fun _ => True := by
  intro s hs hn
  refine Sf.store hf (Storage.nc_getBlock i b n) (pan := fun s => n < 0 ∨ (s.mem.coalesced = false ∧ (i < 0 ∨ (s.mem.pieces.length : Int) ≤ i))) (fun s hi => ?_) hs hn ?_
  · refine Storage.wp_mono (Storage.wp_getBlock_any i b n) ?_ ?_ ?_ ?_
    · rintro a s' ⟨_, rfl⟩; exact hi
    · rintro a s' rfl; exact hi
    · rintro s' ⟨_, h⟩; exact h
    · intro _ _; trivial
  · rintro m hm hS (h | ⟨_, h | h⟩)
    · omega
    · omega
    · have : m.pieces.length = _ := hS.2.len
      rw [this] at h; omega

theorem Sf.putBlock {fates : List Fate} (hf : ∀ r, Fate.crash r ∉ fates) {i b : Int} {d : Bytes} (h : Storage.OnGrid cfg.store.info i b) :
    Sf cfg B N (Act.store fates (putBlock cfg.store i b d)) fun _ => True := by
  intro s hs hn
  refine Sf.store hf (Storage.nc_putBlock i b d) (pan := fun s => ¬ Storage.OnGrid cfg.store.info i b) (fun s hi => ?_) hs hn fun _ _ _ hp => hp h
  refine Storage.wp_mono (Storage.wp_putBlock hi i b d) (fun _ _ h => h) (fun _ _ h => h) (fun _ h => h.2) fun _ _ => trivial

theorem Sf.handleRequest {fates : List Fate} (hf : ∀ r, Fate.crash r ∉ fates) (hr : r < N) (ok : Bool) {i b n : Int} (hi : 0 ≤ i ∧ i < cfg.store.info.pieces.length) (hl : 0 ≤ n) :
    Sf cfg B N (handleRequest fates ok cfg r i b n) fun _ => True := by
  unfold P2P.handleRequest
  refine Sf.bind (Sf.getConn hr) fun _ _ => Sf.ite (fun _ => Sf.fail _) fun _ => Sf.ite (fun _ => Sf.setConn) fun _ => Sf.bind (Sf.getBlock hf hi hl) fun _ _ =>
    Sf.bind (Sf.send hr ok _) fun _ _ => ?_
  exact Sf.bind Sf.setConn fun _ _ => Sf.frame

theorem Sf.handlePiece {fates : List Fate} (hf : ∀ r, Fate.crash r ∉ fates) {i b : Int} {d : Bytes} (h : Storage.OnGrid cfg.store.info i b) :
    Sf cfg B N (handlePiece fates cfg r i b d) fun _ => True := by
  intro s hs hn
  unfold P2P.handlePiece
  have := Sf.putBlock (N := N) (d := d) hf h s hs hn
  generalize Act.store fates (Storage.putBlock cfg.store i b d) s = x at this
  obtain ⟨o, s'⟩ := x
  obtain ⟨h1, h2, h3⟩ := this
  cases o with
  | ok a =>
    have : Sf cfg B N (Act.bind (P2P.setConn r fun c => { c with downloaded := c.downloaded + d.length }) fun _ =>
        Act.modify fun s => { s with downloaded := s.downloaded + d.length }) fun _ => True := Sf.bind Sf.setConn fun _ _ => Sf.frame
    exact this s' h2 h3
  | err e =>
    simp only []
    split <;> exact ⟨trivial, h2, h3⟩
  | panic => exact h1.elim
  | crash => exact h1.elim
  | stuck => exact ⟨trivial, h2, h3⟩

theorem Sf.handleMessage {fates : List Fate} (hf : ∀ r, Fate.crash r ∉ fates) (hr : r < N) (ok : Bool) {m : Message} (hm : InRange cfg.store.info m)
    (h0 : 0 ≤ m.index ∧ 0 ≤ m.begin ∧ 0 ≤ m.length) : Sf cfg B N (handleMessage fates ok cfg r m) fun _ => True := by
  obtain ⟨hi, hb, hl⟩ := h0
  unfold P2P.handleMessage
  refine Sf.ite (fun _ => Sf.setConn) fun _ => Sf.ite (fun _ => Sf.bind Sf.setConn fun _ _ => Sf.QueuePeer hr) fun _ => Sf.ite (fun _ => Sf.setConn) fun _ =>
    Sf.ite (fun _ => Sf.setConn) fun _ => Sf.ite (fun ht => ?_) fun _ => Sf.ite (fun ht => ?_) fun _ => Sf.ite (fun ht => ?_) fun _ => Sf.ite (fun ht => ?_) fun _ => Sf.ite (fun ht => ?_) fun _ => Sf.unit
  · unfold Message.getIndex
    rw [if_pos (.inl ht)]
    refine Sf.bind (Q := fun i => i = m.index) (Sf.lift (fun a h => by injection h with h; exact h.symm) (by simp)) fun i hi' => ?_
    subst hi'
    have h1 := hm.have_ ht
    obtain ⟨n, hn⟩ := Int.eq_ofNat_of_zero_le hi
    rw [hn] at h1 ⊢
    exact Sf.handleHave hr ok (by omega)
  · unfold Message.getBitfield
    rw [if_pos ht]
    refine Sf.bind (Q := fun i => i = m.bitfield) (Sf.lift (fun a h => by injection h with h; exact h.symm) (by simp)) fun i hi' => ?_
    subst hi'
    exact Sf.handleItems hr ok _ fun j hj => hm.bitfield ht j (mem_items.1 hj)
  · unfold Message.getIndex Message.getBegin Message.getLength
    rw [if_pos (.inr (.inl ht)), if_pos (.inl ht), if_pos (.inl ht)]
    refine Sf.bind (Q := fun i => i = m.index) (Sf.lift (fun a h => by injection h with h; exact h.symm) (by simp)) fun i h1 => ?_
    refine Sf.bind (Q := fun i => i = m.begin) (Sf.lift (fun a h => by injection h with h; exact h.symm) (by simp)) fun b h2 => ?_
    refine Sf.bind (Q := fun i => i = m.length) (Sf.lift (fun a h => by injection h with h; exact h.symm) (by simp)) fun n h3 => ?_
    subst h1 h2 h3
    exact Sf.handleRequest hf hr ok ⟨hi, hm.request ht⟩ hl
  · unfold Message.getIndex Message.getBegin Message.getLength
    rw [if_pos (.inr (.inr (.inl ht))), if_pos (.inr (.inl ht)), if_pos (.inr ht)]
    exact Sf.bind (Sf.lift (Q := fun _ => True) (fun _ _ => trivial) (by simp)) fun _ _ => Sf.bind (Sf.lift (Q := fun _ => True) (fun _ _ => trivial) (by simp)) fun _ _ =>
      Sf.bind (Sf.lift (Q := fun _ => True) (fun _ _ => trivial) (by simp)) fun _ _ => Sf.setConn
  · unfold Message.getIndex Message.getBegin Message.getPiece
    rw [if_pos (.inr (.inr (.inr ht))), if_pos (.inr (.inr ht)), if_pos ht]
    refine Sf.bind (Q := fun i => i = m.index) (Sf.lift (fun a h => by injection h with h; exact h.symm) (by simp)) fun i h1 => ?_
    refine Sf.bind (Q := fun i => i = m.begin) (Sf.lift (fun a h => by injection h with h; exact h.symm) (by simp)) fun b h2 => ?_
    refine Sf.bind (Q := fun i => i = m.piece) (Sf.lift (fun a h => by injection h with h; exact h.symm) (by simp)) fun n h3 => ?_
    subst h1 h2 h3
    exact Sf.handlePiece hf ⟨hi, (hm.piece ht).1, hb, (hm.piece ht).2⟩

theorem handshake_decode_noPanic (rd : Rd) : Handshake.decode rd ≠ .panic := by
  unfold Handshake.decode Rd.read
  cases rd.chunks with
  | nil => simp
  | cons c cs =>
    have key : ∀ (x : Bytes × Rd), ((if (x.1.headD 0).toNat ≠ protocol.length then Res.err .badProtocol
        else x.2.readFull (handshakeLength - 1) >>= fun (rest, r) => Handshake.parse (x.1 ++ rest) >>= fun h => .ok (h, r)) : Res (Handshake × Rd)) ≠ .panic := by
      intro x
      split
      · simp
      · unfold Rd.readFull
        simp only []
        split
        · simp only [Res.bind_ok]
          unfold Handshake.parse
          simp only []
          split <;> simp
        · split <;> simp
    by_cases hc : c.length ≤ 1
    · simp only [if_pos hc, Res.bind_ok]
      exact key (c, _)
    · simp only [if_neg hc, Res.bind_ok]
      exact key (c.take 1, _)

theorem Sf.handshake (hr : r < N) (ok : Bool) (rd : Rd) : Sf cfg B N (handshake ok cfg r rd) fun _ => True := by
  unfold P2P.handshake
  refine Sf.bind (Sf.getConn hr) fun c _ => Sf.ite (fun _ => Sf.fail _) fun _ => Sf.bind (Sf.lift (Q := fun _ => True) (fun _ _ => trivial) (handshake_decode_noPanic rd)) fun x _ => ?_
  obtain ⟨phs, rd'⟩ := x
  refine Sf.bind Sf.setConn fun _ _ => Sf.ite (fun _ => Sf.fail _) fun _ => Sf.ite (fun _ => Sf.fail _) fun _ => Sf.bind Sf.setConn fun _ _ => Sf.ite (fun _ => Sf.fail _) fun _ => Sf.unit

theorem remoteAddr_noPanic (tp : Tracker.Peer) : remoteAddr tp ≠ .panic := by
  unfold remoteAddr; split <;> simp

theorem Sf.addPeer (tp : Tracker.Peer) : Sf cfg B N (addPeer tp) fun _ => True := by
  unfold P2P.addPeer
  refine Sf.locked (Sf.bind (Sf.lift (Q := fun _ => True) (fun _ _ => trivial) (remoteAddr_noPanic tp)) fun _ _ => Sf.bind Sf.get fun _ _ =>
    Sf.ite (fun _ => Sf.unit) fun _ => Sf.ite (fun _ => Sf.unit) fun _ => Sf.ite (fun _ => Sf.frame) fun _ => Sf.unit)

theorem Sf.connectCheck (hr : r < N) : Sf cfg B N (connectCheck r) fun _ => True := by
  unfold P2P.connectCheck
  refine Sf.bind Sf.lock fun _ _ => Sf.bind Sf.get fun s _ => Sf.bind (Sf.getConn hr) fun c _ => Sf.ite (fun _ => Sf.fail _) fun _ => ?_
  have hu : Sf cfg B N Act.unlock fun _ => True := Sf.frame
  cases mget s.knownIDIPs c.addr with
  | none => exact hu
  | some x => exact Sf.ite (fun _ => Sf.fail _) fun _ => hu

theorem Sf.connectRegister (hr : r < N) (ok : Bool) : Sf cfg B N (connectRegister ok r) fun _ => True := by
  unfold P2P.connectRegister
  refine Sf.locked (Sf.bind Sf.get fun s _ => Sf.bind (Sf.getConn hr) fun c _ => Sf.ite (fun _ => Sf.fail _) fun _ => Sf.bind Sf.frame fun _ _ => Sf.ite (fun _ => Sf.fail _) fun _ => ?_)
  refine Sf.bind (Sf.modify fun s hs hn => ⟨⟨hs.mem, hs.conn, hs.jobs, fun p hp => ?_, hs.alive⟩, hn⟩) fun _ _ => ?_
  · rcases mem_mput.1 hp with h | h
    · rw [h]; exact Nat.lt_of_lt_of_le hr hn
    · exact hs.active p h.1
  · exact Sf.bind Sf.setConn fun _ _ => Sf.bind Sf.torrentBitfield fun _ _ => Sf.send hr ok _

theorem Sf.disconnect (hr : r < N) : Sf cfg B N (disconnect r) fun _ => True := by
  unfold P2P.disconnect
  refine Sf.bind (Sf.getConn hr) fun c _ => Sf.bind (Sf.modify fun s hs hn => ⟨hs.same rfl rfl rfl fun p hp => (mem_mdel.1 hp).1, hn⟩) fun _ _ => Sf.setConn

theorem Sf.block (hr : r < N) : Sf cfg B N (block r) fun _ => True := by
  unfold P2P.block
  exact Sf.locked (Sf.bind (Sf.getConn hr) fun c _ => Sf.bind Sf.frame fun _ _ => Sf.disconnect hr)

theorem Sf.disconnectAll : ∀ rs : List Ref, (∀ r ∈ rs, r < N) → Sf cfg B N (disconnectAll rs) fun _ => True
  | [], _ => Sf.unit
  | r :: rs, h => by
    unfold P2P.disconnectAll
    exact Sf.bind (Sf.disconnect (h r (by simp))) fun _ _ => Sf.disconnectAll rs fun x hx => h x (by simp [hx])

theorem Sf.sendHave (oks : Ref → Bool) (i : Nat) : ∀ rs : List Ref, (∀ r ∈ rs, r < N) → Sf cfg B N (sendHave oks i rs) fun _ => True
  | [], _ => Sf.unit
  | r :: rs, h => by
    have ih := Sf.sendHave oks i rs fun x hx => h x (by simp [hx])
    unfold P2P.sendHave
    exact Sf.bind (Sf.getConn (h r (by simp))) fun _ _ => Sf.ite (fun _ => ih) fun _ => Sf.bind (Sf.send (h r (by simp)) _ _) fun _ _ => ih

/-- Use that the number of connections is at least what it is. -/
theorem Sf.more {α : Type} {p : Act α} {Q : α → Prop} (h : ∀ M, N ≤ M → ∀ s, Safe cfg B s → M = s.peers.length → Fine Q (p s).1 ∧ Safe cfg B (p s).2 ∧ M ≤ (p s).2.peers.length) : Sf cfg B N p Q :=
  fun s hs hn => by
    obtain ⟨h1, h2, h3⟩ := h _ hn s hs rfl
    exact ⟨h1, h2, Nat.le_trans hn h3⟩

theorem Sf.stop : Sf cfg B N stop fun _ => True := by
  refine Sf.more fun M _ s hs hM => ?_
  have : ∀ s' : State, Safe cfg B s' → s'.peers.length = M → ∀ r ∈ s'.activePeers.map (·.2), r < M := by
    intro s' hs' hl r hr
    obtain ⟨p, hp, rfl⟩ := List.mem_map.1 hr
    rw [← hl]; exact hs'.active p hp
  have hs1 : Safe cfg B { s with locked := true, cancelled := true } := hs.same rfl rfl rfl fun _ h => h
  have key : Sf cfg B M (P2P.disconnectAll (s.activePeers.map (·.2)) >>= fun _ => Act.modify fun s => { s with stopped := true }) fun _ => True :=
    Sf.bind (Sf.disconnectAll _ (this s hs hM.symm)) fun _ _ => Sf.frame
  have k2 := key { s with locked := true, cancelled := true } hs1 (by rw [hM]; exact Nat.le_refl _)
  unfold P2P.stop
  rw [locked_apply]
  split
  · exact ⟨trivial, hs, by rw [hM]; exact Nat.le_refl _⟩
  · rw [bind_apply, modify_apply]
    simp only []
    rw [bind_apply, get_apply]
    simp only []
    generalize (P2P.disconnectAll (s.activePeers.map (·.2)) >>= fun _ => Act.modify fun s => { s with stopped := true }) { s with locked := true, cancelled := true } = x at k2
    obtain ⟨o, s'⟩ := x
    obtain ⟨h1, h2, h3⟩ := k2
    cases o with
    | ok a => exact ⟨trivial, h2.lock false, h3⟩
    | err e => exact ⟨trivial, h2.lock false, h3⟩
    | panic => exact h1.elim
    | crash => exact h1.elim
    | stuck => exact ⟨trivial, h2, h3⟩

theorem Sf.finish (hr : r < N) (oks : Ref → Bool) (order : List Ref → List Ref) (i : Nat) (res : Result) : Sf cfg B N (finish oks order r i res) fun _ => True := by
  unfold P2P.finish
  cases res with
  | failed => exact Sf.unit
  | checksum => exact (Sf.block hr).attempt
  | complete =>
    refine Sf.attempt (Sf.bind Sf.lock fun _ _ => Sf.bind (Sf.frame : Sf cfg B N Act.unlock _) fun _ _ => Sf.more fun M _ s hs hM => ?_)
    rw [bind_apply, get_apply]
    simp only []
    refine Sf.sendHave (N := M) oks i _ (fun x hx => ?_) s hs (by rw [hM]; exact Nat.le_refl _)
    obtain ⟨p, hp, rfl⟩ := List.mem_map.1 ((arrange_perm _ _).mem_iff.1 hx)
    rw [hM]; exact hs.active p hp

theorem Sf.requestPieceFromPeer (hr : r < N) (ok : Bool) (coins : List Bool) (pdq : List Nat → List Nat) : Sf cfg B N (requestPieceFromPeer ok coins pdq r) fun _ => True := by
  unfold P2P.requestPieceFromPeer
  refine Sf.locked (Sf.bind (Sf.getConn hr) fun c hc => Sf.ite (fun _ => Sf.frame) fun _ => Sf.bind Sf.torrentBitfield fun bf _ => Sf.ite (fun _ => ?_) fun _ => Sf.bind Sf.get fun s _ => ?_)
  · exact Sf.bind Sf.frame fun _ _ => Sf.notInterest hr ok
  · cases hf : firstFree s.inflight (sortPieces (available s.indexToPeers) coins pdq (Bitfield.items (Bitfield.difference c.bitfield bf))) with
    | none => exact Sf.frame
    | some i =>
      refine Sf.modify fun s hs hn => ⟨⟨hs.mem, hs.conn, fun hB j hj => ?_, hs.active, hs.alive⟩, hn⟩
      rcases List.mem_append.1 hj with h | h
      · exact hs.jobs hB j h
      · rw [List.mem_singleton.1 h]
        have := mem_items.1 ((sortPieces_perm _ _ _ _).mem_iff.1 (firstFree_some hf).1)
        rw [Bitfield.bit_difference] at this
        exact hc.bits hB i ((Bool.and_eq_true _ _).mp this).1

/-! ### Steps -/

/-- What arrives and what the machine does: bytes that decode to messages about the torrent (or not at all), and a process that is not
killed. -/
def Decent (cfg : Cfg) (e : Event × Luck) : Prop :=
  (∀ r, Fate.crash r ∉ e.2.fates) ∧ ∀ x rd, e.1 = .receive x rd → Message.decode rd ≠ .panic ∧ ∀ m rd', Message.decode rd = .ok (m, rd') → InRange cfg.store.info m

/-- The download that the step begins is of a piece for which nothing has been decided. -/
def Timely (s : State) (e : Event) : Prop := ∀ k x i m, e = .begin k → s.jobs[k]? = some ⟨x, i, .fresh⟩ → s.storage.mem = some m →
  ∀ p, m.pieces[i]? = some p → m.futs[p.fut]? = some none

abbrev Good' (cfg : Cfg) (B : Prop) (x : Outcome Unit × State) : Prop := Fine (fun _ => True) x.1 ∧ Safe cfg B x.2

theorem Sf.good {p : Act Unit} {s : State} (h : Sf cfg B s.peers.length p fun _ => True) (hs : Safe cfg B s) : Good' cfg B (p s) :=
  let x := h s hs (Nat.le_refl _); ⟨x.1, x.2.1⟩

theorem Safe.next {x : Outcome Unit × State} (h : Good' cfg B x) {ok err : Phase} (h1 : B → ∀ m, ok = .serving (some m) → InRange cfg.store.info m) (h2 : ∀ m, err ≠ .serving (some m)) :
    Good' cfg B (P2P.next r ok err x) := by
  refine ⟨h.1, h.2.set _ fun c hc => ⟨hc.len, hc.bits, fun hB m hm => ?_⟩⟩
  have hm : (match x.1 with | .ok _ => ok | .err _ => err | _ => .hung) = Phase.serving (some m) := hm
  revert hm
  cases x.1 with
  | ok a => exact h1 hB m
  | err e => exact fun h => absurd h (h2 m)
  | panic => intro h; cases h
  | crash => intro h; cases h
  | stuck => intro h; cases h

theorem connSafe_new (id ip : Bytes) (port : Nat) : ConnSafe cfg B (newConn cfg id ip port) where
  len := rfl
  bits _ i h := by
    have h : Bitfield.bit (Bitfield.new _) i = true := h
    rw [Bitfield.bit_new] at h; cases h
  pend _ m h := by cases h

theorem Safe.add {s : State} (h : Safe cfg B s) (id ip : Bytes) (port : Nat) {s' : State} (h1 : s'.storage = s.storage) (h2 : s'.peers = s.peers ++ [newConn cfg id ip port])
    (h3 : s'.jobs = s.jobs) (h4 : s'.activePeers = s.activePeers) (h5 : s'.alive = s.alive := by rfl) : Safe cfg B s' where
  mem := by rw [h1]; exact h.mem
  conn x c hc := by
    rw [h2] at hc
    rw [List.getElem?_append] at hc
    split at hc
    · exact h.conn x c hc
    · rw [List.getElem?_singleton] at hc
      split at hc
      · injection hc with hc; subst hc; exact connSafe_new id ip port
      · cases hc
  jobs := by rw [h3]; exact h.jobs
  active p hp := by rw [h4] at hp; rw [h2, List.length_append]; exact Nat.lt_of_lt_of_le (h.active p hp) (Nat.le_add_right _ _)
  alive := h5.trans h.alive

theorem lt_of_get {α : Type} {l : List α} {i : Nat} {a : α} (h : l[i]? = some a) : i < l.length := (List.getElem?_eq_some_iff.1 h).1

theorem Safe.act {s s' : State} {o : Outcome Unit} {e : Event} {l : Luck} (hi : Inv cfg s) (hs : Safe cfg True s) (hd : Decent cfg (e, l)) (ht : Timely s e)
    (h : act cfg l s e = some (o, s')) : Good' cfg True (o, s') := by
  have ref : ∀ r : Ref, r ∈ s.toRequest ∨ r ∈ s.waiting ∨ (∃ j ∈ s.jobs, j.peer = r) → r < s.peers.length := fun r hr => by
    obtain ⟨c, hc, _⟩ := hi.refs r hr; exact lt_of_get hc
  have atlt : ∀ {r : Ref} {ph : Phase}, at_ s r ph = true → r < s.peers.length := fun h => by
    obtain ⟨c, hc, _⟩ := at_iff.1 h; exact lt_of_get hc
  have keep : ∀ {t : State}, t.storage = s.storage → t.peers = s.peers → t.jobs = s.jobs → t.activePeers = s.activePeers → t.alive = s.alive → Safe cfg True t :=
    fun h1 h2 h3 h4 h5 => hs.same h1 h2 h3 (fun p hp => by rw [h4] at hp; exact hp) h5
  have stage : ∀ {k : Nat} {x : Ref} {i : Nat} {st st' : Stage} {t : State}, s.jobs[k]? = some ⟨x, i, st⟩ → Safe cfg True t → t.jobs = s.jobs → Safe cfg True { t with jobs := t.jobs.set k ⟨x, i, st'⟩ } := by
    intro k x i st st' t hk ht hj
    refine ⟨ht.mem, ht.conn, fun _ j hjm => ?_, ht.active, ht.alive⟩
    rcases List.mem_or_eq_of_mem_set hjm with h | h
    · exact ht.jobs trivial j h
    · rw [h]; exact hs.jobs trivial ⟨x, i, st⟩ (List.mem_of_getElem? hk)
  cases e with
  | accept ip port =>
    simp only [P2P.act] at h
    split at h
    · cases h
    · cases h; exact ⟨trivial, hs.add _ ip port rfl rfl rfl rfl⟩
  | takeAddr =>
    simp only [P2P.act] at h
    split at h <;> cases h
    exact ⟨trivial, keep rfl rfl rfl rfl rfl⟩
  | spawn =>
    simp only [P2P.act] at h
    split at h
    · split at h
      · cases h
      · cases h; exact ⟨trivial, keep rfl rfl rfl rfl rfl⟩
    · cases h
  | dialCheck k =>
    simp only [P2P.act] at h
    split at h
    · split at h
      · split at h
        · cases h; exact ⟨trivial, hs⟩
        · split at h <;> (cases h; exact ⟨trivial, keep rfl rfl rfl rfl rfl⟩)
      · cases h; exact ⟨trivial, keep rfl rfl rfl rfl rfl⟩
    · cases h
  | dial k b =>
    simp only [P2P.act] at h
    split at h
    · split at h
      · cases h; exact ⟨trivial, hs.add _ _ _ rfl rfl rfl rfl⟩
      · cases h; exact ⟨trivial, keep rfl rfl rfl rfl rfl⟩
    · cases h
  | check r =>
    simp only [P2P.act] at h
    split at h
    · injection h with h; rw [← h]
      exact Safe.next ((Sf.connectCheck (atlt ‹_›)).good hs) (fun _ m h => by cases h) fun m h => by cases h
    · cases h
  | handshake r rd =>
    simp only [P2P.act] at h
    split at h
    · injection h with h; rw [← h]
      exact Safe.next ((Sf.handshake (atlt ‹_›) _ rd).good hs) (fun _ m h => by cases h) fun m h => by cases h
    · cases h
  | register r =>
    simp only [P2P.act] at h
    split at h
    · injection h with h; rw [← h]
      exact Safe.next ((Sf.connectRegister (atlt ‹_›) _).good hs) (fun _ m h => by cases h) fun m h => by cases h
    · cases h
  | receive r rd =>
    obtain ⟨hp, hm⟩ := hd.2 r rd rfl
    simp only [P2P.act] at h
    split at h
    · rename_i c hc
      split at h
      · split at h
        · rename_i m rd' hdec
          injection h with h; rw [← h]
          refine ⟨trivial, hs.set _ fun c hc => ⟨hc.len, hc.bits, fun _ m' hm' => ?_⟩⟩
          cases hm'
          exact hm m rd' hdec
        · injection h with h; rw [← h]
          exact Safe.next (by exact ⟨trivial, hs⟩) (fun _ m h => by cases h) fun m h => by cases h
        · exact absurd ‹_› hp
      · cases h
    · cases h
  | handle r =>
    simp only [P2P.act] at h
    split at h
    · rename_i m hph
      cases hc : s.peers[r]? with
      | none => rw [hc] at hph; cases hph
      | some c =>
        rw [hc] at hph
        simp only [Option.map_some] at hph
        injection hph with hph
        injection h with h; rw [← h]
        exact Safe.next ((Sf.handleMessage hd.1 (lt_of_get hc) _ ((hs.conn r c hc).pend trivial m hph) ((hi.conn r c hc).pend m hph)).good hs) (fun _ m h => by cases h) fun m h => by cases h
    · cases h
  | fails r =>
    simp only [P2P.act] at h
    split at h
    · injection h with h; rw [← h]
      exact Safe.next (by exact ⟨trivial, hs⟩) (fun _ m h => by cases h) fun m h => by cases h
    · cases h
  | leave r =>
    simp only [P2P.act] at h
    split at h
    · injection h with h; rw [← h]
      exact Safe.next ((Sf.disconnect (atlt ‹_›)).locked.good hs) (fun _ m h => by cases h) fun m h => by cases h
    · cases h
  | unchoke r =>
    simp only [P2P.act] at h
    split at h
    · rename_i hr
      injection h with h; rw [← h]
      cases hc : s.peers[r]? with
      | none => rw [hc] at hr; cases hr
      | some c => exact (Sf.unchoke (lt_of_get hc) _).good hs
    · cases h
  | addPeer tp =>
    injection h with h; rw [← h]; exact (Sf.addPeer tp).good hs
  | select k =>
    simp only [P2P.act] at h
    split at h
    · rename_i r hk
      have := (Sf.requestPieceFromPeer (ref r (.inl (List.mem_of_getElem? hk))) (l.ok r) l.coins l.pdq).good hs
      generalize requestPieceFromPeer (l.ok r) l.coins l.pdq r s = x at h this
      obtain ⟨o1, s1⟩ := x
      cases o1 with
      | stuck => cases h; exact ⟨trivial, hs⟩
      | panic => exact this.1.elim
      | crash => exact this.1.elim
      | _ => cases h; exact ⟨this.1, this.2.same rfl rfl rfl fun _ h => h⟩
    · cases h
  | begin k =>
    simp only [P2P.act] at h
    split at h
    · rename_i r i hk
      have hlt := hs.jobs trivial _ (List.mem_of_getElem? hk)
      have := Sf.store (N := 0) hd.1 (Storage.nc_resetPiece (i : Int)) (pan := fun s => ¬ ∃ (j : Nat) (p : Storage.Piece), (i : Int) = j ∧ s.mem.pieces[j]? = some p ∧ s.mem.futs[p.fut]? = some none)
        (fun s hS => Storage.wp_mono (Storage.wp_resetPiece hS i) (fun _ _ h => h.1) (fun _ _ h => h) (fun _ h => h.2) fun _ _ => trivial) hs (Nat.zero_le _) (fun m hm hS hp => hp (by
          have hlen : m.pieces.length = _ := hS.2.len
          have : i < m.pieces.length := by rw [hlen]; exact hlt
          exact ⟨i, m.pieces[i], rfl, List.getElem?_eq_getElem this, ht k r i m rfl hk hm _ (List.getElem?_eq_getElem this)⟩))
      have hj : (Act.store l.fates (resetPiece (i : Int)) s).2.jobs = s.jobs := by
        unfold Act.store; split <;> rfl
      generalize Act.store l.fates (resetPiece (i : Int)) s = x at h this hj
      obtain ⟨o1, s1⟩ := x
      cases h
      exact ⟨this.1, stage hk this.2.1 hj⟩
    · cases h
  | request k q =>
    simp only [P2P.act] at h
    split at h
    · rename_i r i hk
      split at h
      · injection h with h; rw [← h]
        exact (Sf.send (ref r (.inr (.inr ⟨_, List.mem_of_getElem? hk, rfl⟩))) _ _).good hs
      · cases h
    · cases h
  | finish k res =>
    simp only [P2P.act] at h
    split at h
    · rename_i r i hk
      split at h
      · have := (Sf.finish (ref r (.inr (.inr ⟨_, List.mem_of_getElem? hk, rfl⟩))) l.ok l.order i res).good hs
        generalize finish l.ok l.order r i res s = x at h this
        obtain ⟨o1, s1⟩ := x
        have hst : Safe cfg True { s1 with jobs := s1.jobs.set k ⟨r, i, .over⟩ } := by
          refine ⟨this.2.mem, this.2.conn, fun _ j hjm => ?_, this.2.active, this.2.alive⟩
          rcases List.mem_or_eq_of_mem_set hjm with h | h
          · exact this.2.jobs trivial j h
          · rw [h]; exact hs.jobs trivial ⟨r, i, .running⟩ (List.mem_of_getElem? hk)
        cases o1 with
        | stuck => cases h; exact ⟨trivial, hs⟩
        | panic => exact this.1.elim
        | crash => exact this.1.elim
        | _ => cases h; exact ⟨this.1, hst⟩
      · cases h
    · cases h
  | hand k =>
    simp only [P2P.act] at h
    split at h
    · rename_i r i hk
      split at h
      · cases h; exact ⟨trivial, hs⟩
      · cases h
        exact ⟨trivial, Safe.same (stage hk hs rfl) rfl rfl rfl fun _ h => h⟩
    · cases h
  | clear k =>
    simp only [P2P.act] at h
    split at h
    · cases h
      exact ⟨trivial, hs.mem, hs.conn, fun _ j hj => hs.jobs trivial j (List.mem_of_mem_eraseIdx hj), hs.active, hs.alive⟩
    · cases h
  | again k timer =>
    simp only [P2P.act] at h
    split at h
    · split at h <;> (cases h; exact ⟨trivial, keep rfl rfl rfl rfl rfl⟩)
    · split at h
      · cases h; exact ⟨trivial, keep rfl rfl rfl rfl rfl⟩
      · cases h
    · cases h
  | cancel => cases h; exact ⟨trivial, keep rfl rfl rfl rfl rfl⟩
  | quit =>
    simp only [P2P.act] at h
    split at h
    · cases h; exact ⟨trivial, keep rfl rfl rfl rfl rfl⟩
    · cases h
  | stop =>
    simp only [P2P.act] at h
    split at h
    · injection h with h; rw [← h]; exact Sf.stop.good hs
    · cases h

theorem Safe.step {s : State} (hi : Inv cfg s) (hs : Safe cfg True s) {e : Event × Luck} (hd : Decent cfg e) (ht : Timely s e.1) : Safe cfg True (P2P.step cfg s e) := by
  rcases step_alive (cfg := cfg) s e with h | ⟨_, o, s', ha, h⟩
  · rw [h]; exact hs
  · have := Safe.act hi hs hd ht ha
    rcases h with ⟨ho | ho, _⟩ | ⟨_, h⟩
    · rw [ho] at this; exact this.1.elim
    · rw [ho] at this; exact this.1.elim
    · rw [h]; exact this.2

/-- A history without surprises from the network and the machine. -/
structure Calm (cfg : Cfg) (w : World) (es : List (Event × Luck)) : Prop where
  decent : ∀ e ∈ es, Decent cfg e
  timely : ∀ (a : List (Event × Luck)) (e : Event × Luck) (b : List (Event × Luck)), es = a ++ e :: b → Timely (run cfg (init w) a) e.1

theorem safe_run {w : World} {m : Storage.Mem} (hm : w.mem = some m) (hS : SInv cfg.store ⟨w.fs, m⟩) (es : List (Event × Luck)) (h : Calm cfg w es) : Safe cfg True (run cfg (init w) es) := by
  refine run_rec (cfg := cfg) (P := fun es s => Calm cfg w es → Safe cfg True s) (init w) (fun _ => ?_) (fun es e ih h => ?_) es h
  · exact ⟨⟨m, hm, hS⟩, (fun _ _ h => by cases h), (fun _ _ h => by cases h), (fun _ h => by cases h), rfl⟩
  · refine (ih ⟨fun x hx => h.decent x (by simp [hx]), fun a x b hx => h.timely a x (b ++ [e]) (by rw [hx]; simp)⟩).step (inv_run w es) (h.decent e (by simp)) (h.timely es e [] rfl)

/-- To begin a download of a piece of which something has been decided kills the process. -/
theorem begin_dies {s : State} {k : Nat} {x : Ref} {i : Nat} {m : Storage.Mem} {p : Storage.Piece} {v : Option Err} (hk : s.jobs[k]? = some ⟨x, i, .fresh⟩) (hm : s.storage.mem = some m)
    (hp : m.pieces[i]? = some p) (hv : m.futs[p.fut]? = some (some v)) (l : Luck) : (P2P.step cfg s (.begin k, l)).alive = false := by
  have hr : Storage.runOp (Storage.resetPiece (i : Int)) s.storage l.fates = (.panic, { s.storage with mem := none }) := by
    unfold Storage.runOp
    rw [hm]
    simp only [Storage.resetPiece, Storage.getPiece, Storage.resetP, Storage.deliver, Storage.Op.getMem, bind, Storage.Op.bind]
    rw [if_neg (by omega)]
    simp only [Int.toNat_natCast, hp, pure, Storage.Op.pure, hv, Storage.Op.panic]
  cases ha : s.alive with
  | false => rw [alive_step _ ha, ha]
  | true =>
    unfold P2P.step
    rw [if_neg (by rw [ha]; simp)]
    simp only [act, hk]
    unfold Act.store
    rw [hr]

/-- As long as the process lives. -/
theorem Safe.survives {s : State} (hi : Inv cfg s) (hs : Safe cfg True s) {e : Event × Luck} (hd : Decent cfg e) (hal : (P2P.step cfg s e).alive = true) : Safe cfg True (P2P.step cfg s e) := by
  by_cases ht : Timely s e.1
  · exact hs.step hi hd ht
  · exfalso
    refine ht fun k x i m he hk hm p hp => ?_
    obtain ⟨e, l⟩ := e
    have he : e = .begin k := he
    subst he
    obtain ⟨m', hm', hS⟩ := hs.mem
    rw [hm] at hm'; cases hm'
    have hP := hS.2.piece i p hp
    cases hf : m.futs[p.fut]? with
    | none => have : p.fut < m.futs.length := hP.futLt; rw [List.getElem?_eq_none_iff] at hf; omega
    | some o =>
      cases o with
      | none => rfl
      | some v => rw [begin_dies hk hm hp hf l] at hal; cases hal

theorem safe_survives {w : World} {m : Storage.Mem} (hm : w.mem = some m) (hS : SInv cfg.store ⟨w.fs, m⟩) (es : List (Event × Luck)) (hd : ∀ e ∈ es, Decent cfg e)
    (hal : (run cfg (init w) es).alive = true) : Safe cfg True (run cfg (init w) es) := by
  refine run_rec (cfg := cfg) (P := fun es s => (∀ e ∈ es, Decent cfg e) → s.alive = true → Safe cfg True s) (init w) (fun _ _ => ?_) (fun es e ih h hal => ?_) es hd hal
  · exact ⟨⟨m, hm, hS⟩, (fun _ _ h => by cases h), (fun _ _ h => by cases h), (fun _ h => by cases h), rfl⟩
  · have ha : (run cfg (init w) es).alive = true := by
      cases h : (run cfg (init w) es).alive with
      | true => rfl
      | false => rw [alive_step _ h, h] at hal; cases hal
    exact (ih (fun x hx => h x (by simp [hx])) ha).survives (inv_run w es) (h e (by simp)) hal

/-! ### While the process lives, the storage has its memory -/

/-- The action leaves the memory of the storage, or kills the process. -/
def Ml {α : Type} (p : Act α) : Prop := ∀ s, s.storage.mem ≠ none → ((p s).1 = .panic ∨ (p s).1 = .crash) ∨ (p s).2.storage.mem ≠ none

theorem Ml.pure {α : Type} (a : α) : Ml (pure a : Act α) := fun _ h => .inr h
theorem Ml.fail {α : Type} (e : Err) : Ml (Act.fail e : Act α) := fun _ h => .inr h
theorem Ml.stuck {α : Type} : Ml (Act.stuck : Act α) := fun _ h => .inr h
theorem Ml.get : Ml Act.get := fun _ h => .inr h
theorem Ml.modify {f : State → State} (h1 : ∀ s, (f s).storage = s.storage := by intro _; rfl) : Ml (Act.modify f) := fun s h => .inr (by
  show (f s).storage.mem ≠ none
  rw [h1]; exact h)
theorem Ml.setConn (f : Conn → Conn) : Ml (setConn r f) := fun _ h => .inr h
theorem Ml.getConn (r : Ref) : Ml (getConn r) := fun s h => by
  rw [getConn_apply]; cases s.peers[r]? <;> exact .inr h
theorem Ml.torrentBitfield : Ml torrentBitfield := fun s h => by
  unfold P2P.torrentBitfield; split <;> exact .inr h
theorem Ml.lift {α : Type} (x : Res α) : Ml (Act.lift x) := fun s h => by
  cases x <;> exact .inr h
theorem Ml.store {α : Type} (fates : List Fate) (p : Op α) : Ml (Act.store fates p) := fun s h => by
  unfold Act.store runOp
  cases hm : s.storage.mem with
  | none => exact absurd hm h
  | some m =>
    dsimp only
    rcases p ⟨s.storage.fs, m⟩ fates with ⟨o, s', f'⟩
    cases o with
    | ok a => exact .inr (by simp)
    | err e => exact .inr (by simp)
    | panic => exact .inl (.inl rfl)
    | crash => exact .inl (.inr rfl)
theorem Ml.bind {α β : Type} {p : Act α} {k : α → Act β} (hp : Ml p) (hk : ∀ a, Ml (k a)) : Ml (p >>= k) := by
  intro s h
  rw [bind_apply]
  have := hp s h
  generalize p s = x at this
  obtain ⟨o, s'⟩ := x
  cases o with
  | ok a =>
    rcases this with (h | h) | h
    · cases h
    · cases h
    · exact hk a s' h
  | err e =>
    rcases this with (h | h) | h
    · cases h
    · cases h
    · exact .inr h
  | panic => exact .inl (.inl rfl)
  | crash => exact .inl (.inr rfl)
  | stuck =>
    rcases this with (h | h) | h
    · cases h
    · cases h
    · exact .inr h
theorem Ml.ite {α : Type} {c : Prop} [Decidable c] {p q : Act α} (hp : Ml p) (hq : Ml q) : Ml (if c then p else q) := by
  split <;> assumption
theorem Ml.locked {α : Type} {p : Act α} (h : Ml p) : Ml (Act.locked p) := by
  intro s hs
  rw [locked_apply]
  split
  · exact .inr hs
  · have := h { s with locked := true } hs
    generalize p { s with locked := true } = x at this
    obtain ⟨o, s'⟩ := x
    cases o with
    | ok a => rcases this with (h | h) | h <;> first | cases h | exact .inr h
    | err a => rcases this with (h | h) | h <;> first | cases h | exact .inr h
    | panic => exact .inl (.inl rfl)
    | crash => exact .inl (.inr rfl)
    | stuck => rcases this with (h | h) | h <;> first | cases h | exact .inr h
theorem Ml.attempt {p : Act Unit} (h : Ml p) : Ml (Act.attempt p) := by
  intro s hs
  unfold Act.attempt
  have := h s hs
  generalize p s = x at this
  obtain ⟨o, s'⟩ := x
  cases o with
  | err e => rcases this with (h | h) | h <;> first | cases h | exact .inr h
  | _ => exact this
theorem Ml.lock : Ml Act.lock := fun s h => by
  unfold Act.lock
  split <;> exact .inr h

theorem Ml.send (ok : Bool) (m : Message) : Ml (send ok r m) := by
  unfold P2P.send
  exact Ml.bind (Ml.getConn r) fun _ => Ml.ite (Ml.fail _) (Ml.ite (Ml.setConn _) (Ml.fail _))
theorem Ml.interest (ok : Bool) : Ml (interest ok r) := by
  unfold P2P.interest
  exact Ml.bind (Ml.getConn r) fun _ => Ml.ite (Ml.bind (Ml.setConn _) fun _ => Ml.send ok _) (Ml.pure _)
theorem Ml.notInterest (ok : Bool) : Ml (notInterest ok r) := by
  unfold P2P.notInterest
  exact Ml.bind (Ml.getConn r) fun _ => Ml.ite (Ml.bind (Ml.setConn _) fun _ => Ml.send ok _) (Ml.pure _)
theorem Ml.unchoke (ok : Bool) : Ml (unchoke ok r) := by
  unfold P2P.unchoke
  exact Ml.bind (Ml.getConn r) fun _ => Ml.ite (Ml.bind (Ml.setConn _) fun _ => Ml.send ok _) (Ml.pure _)
theorem Ml.queuePeer : Ml (queuePeer r) := by
  unfold P2P.queuePeer
  refine Ml.bind (Ml.getConn r) fun _ => Ml.ite (Ml.pure _) (Ml.bind Ml.get fun _ => Ml.ite (Ml.pure _) (Ml.bind Ml.modify fun _ => ?_))
  exact Ml.ite Ml.stuck Ml.modify
theorem Ml.handleHave (ok : Bool) (i : Int) : Ml (handleHave ok r i) := by
  unfold P2P.handleHave P2P.recordIndex P2P.QueuePeer
  refine Ml.bind (Ml.getConn r) fun _ => Ml.bind (Ml.lift _) fun _ => Ml.bind (Ml.setConn _) fun _ => Ml.bind (Ml.locked Ml.modify) fun _ => ?_
  exact Ml.bind Ml.torrentBitfield fun _ => Ml.bind (Ml.lift _) fun _ => Ml.ite (Ml.bind Ml.queuePeer.locked fun _ => Ml.interest ok) (Ml.pure _)
theorem Ml.handleItems (ok : Bool) : ∀ is : List Nat, Ml (handleItems ok r is)
  | [] => Ml.pure _
  | i :: is => Ml.bind (Ml.handleHave ok i) fun _ => Ml.handleItems ok is
theorem Ml.handleRequest (fates : List Fate) (ok : Bool) (i b n : Int) : Ml (handleRequest fates ok cfg r i b n) := by
  unfold P2P.handleRequest
  refine Ml.bind (Ml.getConn r) fun _ => Ml.ite (Ml.fail _) (Ml.ite (Ml.setConn _) (Ml.bind (Ml.store _ _) fun _ => Ml.bind (Ml.send ok _) fun _ => ?_))
  exact Ml.bind (Ml.setConn _) fun _ => Ml.modify
theorem Ml.handlePiece (fates : List Fate) (i b : Int) (d : Bytes) : Ml (handlePiece fates cfg r i b d) := by
  intro s h
  unfold P2P.handlePiece
  have := Ml.store fates (putBlock cfg.store i b d) s h
  generalize Act.store fates (putBlock cfg.store i b d) s = x at this
  obtain ⟨o, s'⟩ := x
  cases o with
  | ok a => rcases this with (h | h) | h <;> first | cases h | exact .inr h
  | err e =>
    rcases this with (h | h) | h
    · cases h
    · cases h
    · simp only []
      split <;> exact .inr h
  | panic => exact .inl (.inl rfl)
  | crash => exact .inl (.inr rfl)
  | stuck => rcases this with (h | h) | h <;> first | cases h | exact .inr h
theorem Ml.handleMessage (fates : List Fate) (ok : Bool) (m : Message) : Ml (handleMessage fates ok cfg r m) := by
  unfold P2P.handleMessage P2P.QueuePeer
  refine Ml.ite (Ml.setConn _) (Ml.ite (Ml.bind (Ml.setConn _) fun _ => Ml.queuePeer.locked) (Ml.ite (Ml.setConn _) (Ml.ite (Ml.setConn _) (Ml.ite ?_ (Ml.ite ?_ (Ml.ite ?_ (Ml.ite ?_ (Ml.ite ?_ (Ml.pure _)))))))))
  · exact Ml.bind (Ml.lift _) fun _ => Ml.handleHave ok _
  · exact Ml.bind (Ml.lift _) fun _ => Ml.handleItems ok _
  · exact Ml.bind (Ml.lift _) fun _ => Ml.bind (Ml.lift _) fun _ => Ml.bind (Ml.lift _) fun _ => Ml.handleRequest _ _ _ _ _
  · exact Ml.bind (Ml.lift _) fun _ => Ml.bind (Ml.lift _) fun _ => Ml.bind (Ml.lift _) fun _ => Ml.setConn _
  · exact Ml.bind (Ml.lift _) fun _ => Ml.bind (Ml.lift _) fun _ => Ml.bind (Ml.lift _) fun _ => Ml.handlePiece _ _ _ _
theorem Ml.handshake (ok : Bool) (rd : Rd) : Ml (handshake ok cfg r rd) := by
  unfold P2P.handshake
  refine Ml.bind (Ml.getConn r) fun _ => Ml.ite (Ml.fail _) (Ml.bind (Ml.lift _) fun x => ?_)
  obtain ⟨phs, rd'⟩ := x
  exact Ml.bind (Ml.setConn _) fun _ => Ml.ite (Ml.fail _) (Ml.ite (Ml.fail _) (Ml.bind (Ml.setConn _) fun _ => Ml.ite (Ml.fail _) (Ml.pure _)))
theorem Ml.addPeer (tp : Tracker.Peer) : Ml (addPeer tp) := by
  unfold P2P.addPeer
  exact Ml.locked (Ml.bind (Ml.lift _) fun _ => Ml.bind Ml.get fun _ => Ml.ite (Ml.pure _) (Ml.ite (Ml.pure _) (Ml.ite Ml.modify (Ml.pure _))))
theorem Ml.connectCheck : Ml (connectCheck r) := by
  unfold P2P.connectCheck
  refine Ml.bind Ml.lock fun _ => Ml.bind Ml.get fun s => Ml.bind (Ml.getConn r) fun c => Ml.ite (Ml.fail _) ?_
  cases mget s.knownIDIPs c.addr with
  | none => exact (Ml.modify : Ml Act.unlock)
  | some x => exact Ml.ite (Ml.fail _) (Ml.modify : Ml Act.unlock)
theorem Ml.connectRegister (ok : Bool) : Ml (connectRegister ok r) := by
  unfold P2P.connectRegister
  refine Ml.locked (Ml.bind Ml.get fun s => Ml.bind (Ml.getConn r) fun c => Ml.ite (Ml.fail _) (Ml.bind Ml.modify fun _ => Ml.ite (Ml.fail _) (Ml.bind Ml.modify fun _ => ?_)))
  exact Ml.bind (Ml.setConn _) fun _ => Ml.bind Ml.torrentBitfield fun _ => Ml.send ok _
theorem Ml.disconnect : Ml (disconnect r) := by
  unfold P2P.disconnect
  exact Ml.bind (Ml.getConn r) fun _ => Ml.bind Ml.modify fun _ => Ml.setConn _
theorem Ml.block : Ml (block r) := by
  unfold P2P.block
  exact Ml.locked (Ml.bind (Ml.getConn r) fun _ => Ml.bind Ml.modify fun _ => Ml.disconnect)
theorem Ml.disconnectAll : ∀ rs : List Ref, Ml (disconnectAll rs)
  | [] => Ml.pure _
  | _ :: rs => Ml.bind Ml.disconnect fun _ => Ml.disconnectAll rs
theorem Ml.stop : Ml stop := by
  unfold P2P.stop
  exact Ml.locked (Ml.bind Ml.modify fun _ => Ml.bind Ml.get fun _ => Ml.bind (Ml.disconnectAll _) fun _ => Ml.modify)
theorem Ml.requestPieceFromPeer (ok : Bool) (coins : List Bool) (pdq : List Nat → List Nat) : Ml (requestPieceFromPeer ok coins pdq r) := by
  unfold P2P.requestPieceFromPeer
  refine Ml.locked (Ml.bind (Ml.getConn r) fun _ => Ml.ite Ml.modify (Ml.bind Ml.torrentBitfield fun _ => Ml.ite ?_ (Ml.bind Ml.get fun s => ?_)))
  · exact Ml.bind Ml.modify fun _ => Ml.notInterest ok
  · generalize firstFree _ _ = x
    cases x <;> exact Ml.modify
theorem Ml.sendHave (oks : Ref → Bool) (i : Nat) : ∀ rs : List Ref, Ml (sendHave oks i rs)
  | [] => Ml.pure _
  | r :: rs => Ml.bind (Ml.getConn r) fun _ => Ml.ite (Ml.sendHave oks i rs) (Ml.bind (Ml.send _ _) fun _ => Ml.sendHave oks i rs)
theorem Ml.finish (oks : Ref → Bool) (order : List Ref → List Ref) (i : Nat) (res : Result) : Ml (finish oks order r i res) := by
  unfold P2P.finish
  cases res with
  | failed => exact Ml.pure _
  | checksum => exact Ml.block.attempt
  | complete => exact Ml.attempt (Ml.bind Ml.lock fun _ => Ml.bind (Ml.modify : Ml Act.unlock) fun _ => Ml.bind Ml.get fun s => Ml.sendHave oks i _)

theorem mem_act {s s' : State} {o : Outcome Unit} {e : Event} {l : Luck} (hs : s.storage.mem ≠ none) (h : act cfg l s e = some (o, s')) : (o = .panic ∨ o = .crash) ∨ s'.storage.mem ≠ none := by
  have nx : ∀ {r : Ref} {ok err : Phase} {p : Act Unit}, Ml p → some (P2P.next r ok err (p s)) = some (o, s') → (o = .panic ∨ o = .crash) ∨ s'.storage.mem ≠ none := by
    intro r ok err p hp h
    injection h with h
    unfold P2P.next at h
    injection h with h1 h2
    rw [← h1, ← h2]
    exact hp s hs
  have one : ∀ {p : Act Unit}, Ml p → some (p s) = some (o, s') → (o = .panic ∨ o = .crash) ∨ s'.storage.mem ≠ none := by
    intro p hp h
    have := hp s hs
    injection h with h
    rw [h] at this; exact this
  cases e with
  | check r =>
    simp only [P2P.act] at h
    split at h
    · exact nx Ml.connectCheck h
    · cases h
  | handshake r rd =>
    simp only [P2P.act] at h
    split at h
    · exact nx (Ml.handshake _ rd) h
    · cases h
  | register r =>
    simp only [P2P.act] at h
    split at h
    · exact nx (Ml.connectRegister _) h
    · cases h
  | receive r rd =>
    simp only [P2P.act] at h
    split at h
    · split at h
      · split at h
        · cases h; exact .inr hs
        · cases h; exact .inr hs
        · cases h; exact .inl (.inl rfl)
      · cases h
    · cases h
  | handle r =>
    simp only [P2P.act] at h
    split at h
    · exact nx (Ml.handleMessage _ _ _) h
    · cases h
  | fails r =>
    simp only [P2P.act] at h
    split at h
    · exact nx (p := Pure.pure ()) (Ml.pure _) h
    · cases h
  | leave r =>
    simp only [P2P.act] at h
    split at h
    · exact nx (Ml.disconnect.locked : Ml (Disconnect r)) h
    · cases h
  | unchoke r =>
    simp only [P2P.act] at h
    split at h
    · exact one (Ml.unchoke _) h
    · cases h
  | addPeer tp => exact one (Ml.addPeer tp) h
  | select k =>
    simp only [P2P.act] at h
    split at h
    · rename_i r _
      have := Ml.requestPieceFromPeer (r := r) (l.ok r) l.coins l.pdq s hs
      generalize requestPieceFromPeer (l.ok r) l.coins l.pdq r s = x at h this
      obtain ⟨o1, s1⟩ := x
      cases o1 with
      | stuck => cases h; exact .inr hs
      | _ => cases h; exact this
    · cases h
  | begin k =>
    simp only [P2P.act] at h
    split at h
    · rename_i r i _
      have := Ml.store l.fates (resetPiece (i : Int)) s hs
      generalize Act.store l.fates (resetPiece (i : Int)) s = x at h this
      obtain ⟨o1, s1⟩ := x
      cases h; exact this
    · cases h
  | request k q =>
    simp only [P2P.act] at h
    split at h
    · split at h
      · exact one (Ml.send _ _) h
      · cases h
    · cases h
  | finish k res =>
    simp only [P2P.act] at h
    split at h
    · rename_i r i _
      split at h
      · have := Ml.finish (r := r) l.ok l.order i res s hs
        generalize finish l.ok l.order r i res s = x at h this
        obtain ⟨o1, s1⟩ := x
        cases o1 with
        | stuck => cases h; exact .inr hs
        | _ => cases h; exact this
      · cases h
    · cases h
  | stop =>
    simp only [P2P.act] at h
    split at h
    · exact one Ml.stop h
    · cases h
  | _ =>
    simp only [P2P.act] at h
    repeat' split at h
    all_goals (cases h <;> exact .inr hs)

theorem mem_run {w : World} (hw : w.mem ≠ none) (es : List (Event × Luck)) (h : (run cfg (init w) es).alive = true) : (run cfg (init w) es).storage.mem ≠ none := by
  refine run_rec (cfg := cfg) (P := fun _ s => s.alive = true → s.storage.mem ≠ none) (init w) (fun _ => hw) (fun es e ih hal => ?_) es h
  rcases step_alive (cfg := cfg) (run cfg (init w) es) e with h | ⟨ha, o, s', hact, h⟩
  · rw [h] at hal ⊢; exact ih hal
  · rcases h with ⟨_, h⟩ | ⟨⟨h1, h2⟩, h⟩
    · rw [h] at hal; cases hal
    · rw [h]
      rcases mem_act (ih ha) hact with (h | h) | h
      · exact absurd h h1
      · exact absurd h h2
      · exact h

end Drip.P2P
