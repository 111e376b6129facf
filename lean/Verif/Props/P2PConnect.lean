import Verif.Lemmas.P2PConn
import Verif.Lemmas.P2PLock
import Verif.Lemmas.P2PExample
import Verif.Lemmas.P2PDial
/-
Theorems about /repo/p2p: connecting and disconnecting (C66–C68, C72, C73, C84).
-/

namespace Drip.P2P
open PeerWire Metainfo
open Storage (Fate World Op runOp getBlock putBlock resetPiece)

variable {cfg : Cfg}

/-! ### C66 -/

/-- A handshake for this torrent, not by ourselves, has been received on connection `r`; the connection came in, or was made to an address from a tracker, in which
case the id is the announced one if there is one (copied into 20 bytes). -/
structure Matching (cfg : Cfg) (es : List (Event × Luck)) (r : Ref) (c : Conn) (hs : Handshake) : Prop where
  received : ∃ rd rd' l, (.handshake r rd, l) ∈ es ∧ Handshake.decode rd = .ok (hs, rd')
  torrent : hs.infoHash = cfg.store.info.sha1
  other : hs.peerID ≠ cfg.peerID
  announced : (∃ l, (.accept c.ip c.port, l) ∈ es) ∨
    ∃ tp l, (.addPeer tp, l) ∈ es ∧ Spec.IsAddress tp.ip c.ip ∧ tp.port = (c.port : Int) ∧
      ((tp.id ++ List.replicate 20 0).take 20 ≠ List.replicate 20 0 → hs.peerID = (tp.id ++ List.replicate 20 0).take 20)

theorem matching_run (w : World) (es : List (Event × Luck)) {r : Ref} {c : Conn} (hc : (run cfg (init w) es).peers[r]? = some c) (hr : c.registered = true) :
    ∃ hs, Matching cfg es r c hs ∧ c.id = hs.peerID := by
  have hi := (inv_run (cfg := cfg) w es).conn r c hc
  have ho := origin_run w es r c hc
  obtain ⟨⟨hs, h1, h2, h3, h4⟩, _⟩ := hi.reg hr
  refine ⟨hs, ⟨ho.shook hs h1, h2, h3 ▸ h4, ?_⟩, h3⟩
  rcases ho.from_ with ⟨_, h⟩ | ⟨tp, l, h, hd, ha⟩
  · exact .inl h
  · refine .inr ⟨tp, l, h, (Net.parseIP_iff _ _).1 (dialable_eq hd).1, (dialable_eq hd).2, fun hz => ?_⟩
    rw [← copyID_eq, ← ha] at hz ⊢
    exact h3.symm.trans (hi.ident hz)

/-- C66. In every history, every active peer has sent a matching handshake on its connection, and is registered under the id in it and its address (16 bytes,
written as RFC 5952 recommends). -/
theorem C66_active (w : World) (es : List (Event × Luck)) {k : Bytes} {r : Ref} (h : (k, r) ∈ (run cfg (init w) es).activePeers) :
    ∃ c hs, (run cfg (init w) es).peers[r]? = some c ∧ Matching cfg es r c hs ∧
      (c.ip.length = 16 → ∃ t, Spec.Recommended c.ip t ∧ k = hs.peerID ++ b!"[" ++ t ++ b!"]") := by
  obtain ⟨c, hc, rfl, hr⟩ := (inv_run (cfg := cfg) w es).entry k r h
  obtain ⟨hs, hm, e⟩ := matching_run w es hc hr
  exact ⟨c, hs, hc, hm, fun h16 => ⟨_, (Net.recommended_iff h16 _).2 rfl, by rw [← e]; rfl⟩⟩

/-- C66. In every history, no message is sent or received on a connection before a matching handshake was received on it. -/
theorem C66_messages (w : World) (es : List (Event × Luck)) {r : Ref} {c : Conn} (hc : (run cfg (init w) es).peers[r]? = some c) (hm : c.sent ≠ [] ∨ c.received ≠ []) :
    ∃ hs, Matching cfg es r c hs := by
  cases hr : c.registered with
  | true =>
    obtain ⟨hs, hm, _⟩ := matching_run w es hc hr
    exact ⟨hs, hm⟩
  | false =>
    obtain ⟨h1, h2⟩ := ((inv_run (cfg := cfg) w es).conn r c hc).quiet hr
    rcases hm with h | h
    · exact absurd h1 h
    · exact absurd h2 h

/-- An address from a tracker, with an id. -/
def Ex.tp (id : Bytes) : Tracker.Peer := { id, ip := b!"10.0.0.1", port := 5000 }

/-- We connect to it, and `shook` answers. -/
def Ex.dials (r : Ref) (id : Bytes) (shook : Rd) : List Event :=
  [.addPeer (Ex.tp id), .takeAddr, .spawn, .dialCheck 0, .dial 0 true, .check r, .handshake r shook, .register r]

/-- Two peers are connected: one came in, one was announced with its id. -/
example : (run Ex.cfg (init Ex.nothing) (Ex.fine (Ex.joins 0 2 (Ex.id' 3) ++ Ex.dials 1 (Ex.id' 2) (Ex.shake (Ex.id' 2))))).activePeers =
    [(Ex.id' 2 ++ b!"[10.0.0.1]", 1), (Ex.id' 3 ++ b!"[10.0.0.2]", 0)] := by kernel_rfl
/-- Not connected: another id than announced, our own id, another torrent. -/
example : (run Ex.cfg (init Ex.nothing) (Ex.fine (Ex.dials 0 (Ex.id' 2) (Ex.shake (Ex.id' 3))))).activePeers = [] ∧
    (run Ex.cfg (init Ex.nothing) (Ex.fine (Ex.joins 0 1 (Ex.id' 1)))).activePeers = [] ∧
    (run Ex.cfg (init Ex.nothing) (Ex.fine (Ex.dials 0 [] ⟨[Handshake.encode ⟨List.replicate 20 8, Ex.id' 2⟩], .eof⟩))).activePeers = [] := ⟨by kernel_rfl, by kernel_rfl, by kernel_rfl⟩

/-! ### C67 -/

/-- C67. In every history there are at most 50 active peers, never two for the same id and ip, and each is entered under its own id and ip. -/
theorem C67_active (w : World) (es : List (Event × Luck)) :
    (run cfg (init w) es).activePeers.length ≤ 50 ∧ ((run cfg (init w) es).activePeers.map (·.1)).Nodup ∧
    (∀ k r, (k, r) ∈ (run cfg (init w) es).activePeers → ∃ c, (run cfg (init w) es).peers[r]? = some c ∧
      (c.ip.length = 16 → ∃ t, Spec.Recommended c.ip t ∧ k = c.id ++ b!"[" ++ t ++ b!"]")) ∧
    ∀ k k' r r' c c', (k, r) ∈ (run cfg (init w) es).activePeers → (k', r') ∈ (run cfg (init w) es).activePeers → (run cfg (init w) es).peers[r]? = some c →
      (run cfg (init w) es).peers[r']? = some c' → c.id = c'.id → c.ip = c'.ip → r = r' := by
  have hi := inv_run (cfg := cfg) w es
  refine ⟨hi.len, hi.keys, fun k r h => ?_, fun k k' r r' c c' h h' hc hc' hid hip => ?_⟩
  · obtain ⟨c, hc, he, _⟩ := hi.entry k r h
    exact ⟨c, hc, fun h16 => ⟨_, (Net.recommended_iff h16 _).2 rfl, he.symm⟩⟩
  · obtain ⟨_, h1, h2, _⟩ := hi.entry k r h
    obtain ⟨_, h3, h4, _⟩ := hi.entry k' r' h'
    rw [hc] at h1; injection h1 with h1; subst h1
    rw [hc'] at h3; injection h3 with h3; subst h3
    have e : k = k' := by rw [← h2, ← h4]; unfold Conn.idip; rw [hid, hip]
    subst e
    have := hi.keys.get h
    rw [hi.keys.get h'] at this
    injection this with this
    exact this.symm

/-- C67. In every history at most 50 connections have a goroutine (from before the handshake until after `Disconnect`); in particular at most 50 are being served. -/
theorem C67_goroutines (w : World) (es : List (Event × Luck)) :
    ((run cfg (init w) es).peers.filter fun c => decide (c.phase ≠ .ended)).length ≤ 50 := by
  have := slots_run (cfg := cfg) w es
  unfold slots at this
  omega

/-- C67. In every history in which no peer is blocked and the server is not stopped – connects and disconnects in any number and order, messages and downloads – every connection
that is being served is active, so that no two of them have the same id and ip. -/
theorem C67_served (w : World) (es : List (Event × Luck)) (hq : Quiet es) {r r' : Ref} {c c' : Conn} (hc : (run cfg (init w) es).peers[r]? = some c)
    (hc' : (run cfg (init w) es).peers[r']? = some c') (hs : Served c) (hs' : Served c') (hid : c.id = c'.id) (hip : c.ip = c'.ip) : r = r' := by
  have h := served_run (cfg := cfg) w es hq
  have h1 := h r c hc hs
  have h2 := h r' c' hc' hs'
  have e : c.idip = c'.idip := by unfold Conn.idip; rw [hid, hip]
  rw [e] at h1
  have hk := (inv_run (cfg := cfg) w es).keys
  have := hk.get h1
  rw [hk.get h2] at this
  injection this with this
  exact this.symm

/-- Somebody connects twice with the same id: the second time it is refused after the handshake. With another id it is not. -/
example : (run Ex.cfg (init Ex.nothing) (Ex.fine (Ex.joins 0 1 (Ex.id' 2) ++
      [.accept (Ex.ip 1) 5001, .check 1, .handshake 1 (Ex.shake (Ex.id' 2)), .register 1, .accept (Ex.ip 1) 5002, .check 2, .handshake 2 (Ex.shake (Ex.id' 3)), .register 2]))).peers.map Conn.phase =
    [.serving none, .ended, .serving none] := by kernel_rfl

/-! ### C84

"A client never has two live connections to the same id and ip." False when peers are blocked: `Block` takes the peer out of the table at once, while its goroutine still runs, and when
that ends, its `Disconnect` takes whoever has the same id and ip out of the table. -/

/-- A peer sends a piece with the wrong hash, gets blocked, and connects again from another port. -/
def Ex.returns : List Event :=
  Ex.joins 0 1 (Ex.id' 2) ++ Ex.gets 0 (bitfieldMsg [192]) ++ Ex.gets 0 PeerWire.unchoke ++ [.select 0, .begin 0, .request 0 ⟨0, 0, 4⟩] ++ Ex.gets 0 (pieceMsg 0 0 [9, 9, 9, 9]) ++
    [.finish 0 .checksum, .accept (Ex.ip 1) 5001, .check 1, .handshake 1 (Ex.shake (Ex.id' 2)), .register 1]

/-- C84 does not hold: after the goroutine of the blocked connection has ended, a third connection with the same id and ip is served next to the second. -/
theorem C84_refuted : (run Ex.cfg (init Ex.nothing) (Ex.fine (Ex.returns ++
      [.leave 0, .accept (Ex.ip 1) 5002, .check 2, .handshake 2 (Ex.shake (Ex.id' 2)), .register 2]))).peers.map (fun c => (c.idip, c.phase)) =
    [(Ex.id' 2 ++ b!"[10.0.0.1]", .ended), (Ex.id' 2 ++ b!"[10.0.0.1]", .serving none), (Ex.id' 2 ++ b!"[10.0.0.1]", .serving none)] := by kernel_rfl

/-- C84, what is true: it holds in histories without blocking. Missing: histories with `Block` (and connections served on while the server stops). -/
theorem C84_partial (w : World) (es : List (Event × Luck)) (hq : Quiet es) {r r' : Ref} {c c' : Conn} (hc : (run cfg (init w) es).peers[r]? = some c)
    (hc' : (run cfg (init w) es).peers[r']? = some c') (hs : Served c) (hs' : Served c') (hne : r ≠ r') : c.id ≠ c'.id ∨ c.ip ≠ c'.ip := by
  by_cases hid : c.id = c'.id
  · exact .inr fun hip => hne (C67_served w es hq hc hc' hs hs' hid hip)
  · exact .inl hid

/-! ### C68

"After `Connect` returns an error the lock is free and the peer is not registered." False in both parts. -/

/-- We are connected to a peer at the address that the tracker said, and it connects to us from the same address and port (with `SO_REUSEPORT`). -/
def Ex.both : List Event := Ex.dials 0 [] (Ex.shake (Ex.id' 2)) ++ [.accept (Ex.ip 1) 5000, .check 1]

/-- C68 does not hold: `Connect` has returned `ErrAlreadyConnected` (the goroutine of the second connection is gone), but the lock is never free again, whatever happens, and therefore
nobody is ever connected, disconnected or added again. -/
theorem C68_refuted (es : List (Event × Luck)) :
    (run Ex.cfg (init Ex.nothing) (Ex.fine Ex.both)).peers.map Conn.phase = [.serving none, .ended] ∧ (run Ex.cfg (init Ex.nothing) (Ex.fine Ex.both)).alive = true ∧
    (run Ex.cfg (init Ex.nothing) (Ex.fine Ex.both ++ es)).locked = true ∧
    (run Ex.cfg (init Ex.nothing) (Ex.fine Ex.both ++ es)).activePeers = [(Ex.id' 2 ++ b!"[10.0.0.1]", 0)] ∧
    (run Ex.cfg (init Ex.nothing) (Ex.fine Ex.both ++ es)).knownPeers = [(b!"10.0.0.1:5000", Ex.tp [])] := by
  have h : (run Ex.cfg (init Ex.nothing) (Ex.fine Ex.both)).locked = true := by kernel_rfl
  obtain ⟨h1, h2, h3, _⟩ := (frozen_run (cfg := Ex.cfg) _ es).keep h
  rw [run_append]
  refine ⟨by kernel_rfl, by kernel_rfl, h1, h2.trans ?_, h3.trans ?_⟩ <;> kernel_rfl

/-- C68 does not hold: the BITFIELD cannot be written, `Connect` returns the error, and the peer stays in the table of active peers. -/
theorem C68_registered_refuted : (run Ex.cfg (init Ex.nothing) (Ex.fine [.accept (Ex.ip 1) 5000, .check 0, .handshake 0 (Ex.shake (Ex.id' 2))] ++ [(.register 0, { ok := fun _ => false })])).activePeers =
      [(Ex.id' 2 ++ b!"[10.0.0.1]", 0)] ∧
    (run Ex.cfg (init Ex.nothing) (Ex.fine [.accept (Ex.ip 1) 5000, .check 0, .handshake 0 (Ex.shake (Ex.id' 2))] ++ [(.register 0, { ok := fun _ => false })])).peers.map Conn.phase = [.ended] :=
  ⟨by kernel_rfl, by kernel_rfl⟩

/-- C68, what is true of the lock: as long as no connection is refused before the handshake (`Refused`: 50 active peers, or one with the same address) and `RequestPieces` runs, the lock is
free after every step and no goroutine waits for ever – also when connections are refused in or after the handshake. Missing: `Refused`. -/
theorem C68_lock_partial (w : World) (es : List (Event × Luck)) (hs : Smooth cfg (init w) es) (ha : (run cfg (init w) es).alive = true) :
    (run cfg (init w) es).locked = false ∧ ∀ c ∈ (run cfg (init w) es).peers, c.phase ≠ .hung := by
  have := Free.run (cfg := cfg) (.init w) (fun _ => ⟨rfl, rfl, fun _ _ h => by cases h⟩) es hs ha
  refine ⟨this.locked, fun c hc => ?_⟩
  obtain ⟨r, hr, e⟩ := List.getElem_of_mem hc
  exact this.hung r c (List.getElem?_eq_some_iff.2 ⟨hr, e⟩)

/-- `Smooth`, as a program. -/
def Ex.smooth (cfg : Cfg) (s : State) : List (Event × Luck) → Bool
  | [] => true
  | e :: es => decide (e.1 ≠ .quit) && (match e.1 with
      | .check x => match s.peers[x]? with
        | some c => decide (s.activePeers.length < 50) && (match mget s.knownIDIPs c.addr with | some idip => !(mget s.activePeers idip).isSome | none => true)
        | none => true
      | _ => true) && Ex.smooth cfg (step cfg s e) es

theorem Ex.smooth_iff (s : State) (es : List (Event × Luck)) (h : Ex.smooth cfg s es = true) : Smooth cfg s es := by
  induction es generalizing s with
  | nil => trivial
  | cons e es ih =>
    unfold Ex.smooth at h
    rw [Bool.and_eq_true, Bool.and_eq_true] at h
    obtain ⟨⟨h1, h2⟩, h3⟩ := h
    refine ⟨of_decide_eq_true h1, fun x c hx hc _ hr => ?_, ih _ h3⟩
    rw [hx] at h2
    simp only [hc] at h2
    rw [Bool.and_eq_true] at h2
    rcases hr with hr | ⟨idip, y, hk, hy⟩
    · have := of_decide_eq_true h2.1; omega
    · rw [hk] at h2
      have := mget_isSome.2 ⟨y, hy⟩
      simp [this] at h2

/-- Somebody connects twice, is refused the second time after the handshake; a third one is not who they were announced to be. -/
example : Smooth Ex.cfg (init Ex.nothing) (Ex.fine (Ex.joins 0 2 (Ex.id' 2) ++ [.accept (Ex.ip 2) 5001, .check 1, .handshake 1 (Ex.shake (Ex.id' 2)), .register 1] ++
    Ex.dials 2 (Ex.id' 3) (Ex.shake (Ex.id' 4)))) := Ex.smooth_iff _ _ (by kernel_rfl)

/-- A dead process does nothing. -/
theorem alive_before {s : State} (es : List (Event × Luck)) (h : (run cfg s es).alive = true) : s.alive = true := by
  induction es generalizing s with
  | nil => exact h
  | cons e es ih =>
    have := ih (s := step cfg s e) h
    rcases step_alive (cfg := cfg) s e with hs | ⟨ha, _⟩
    · rw [hs] at this; exact this
    · exact ha

theorem refused_locks {s : State} (hal : s.alive = true) {x : Ref} {c : Conn} (hc : s.peers[x]? = some c) (hp : c.phase = .fresh) (hr : Refused s c) (l : Luck) :
    (step cfg s (.check x, l)).locked = true := by
  cases hl : s.locked with
  | true => exact ((frozen_run (cfg := cfg) s [(.check x, l)]).keep hl).1
  | false =>
    obtain ⟨⟨e, h1⟩, h2⟩ := (connectCheck_apply hl hc).1 hr
    unfold step
    rw [if_neg (by rw [hal]; simp)]
    have ha : act cfg l s (.check x) = some (next x .checked .ended (connectCheck x s)) := by
      simp only [act]
      rw [if_pos (show at_ s x .fresh = true by unfold at_; rw [hc, Option.map_some, hp]; simp)]
    simp only [ha]
    unfold next
    generalize connectCheck x s = y at h1 h2
    obtain ⟨o, s'⟩ := y
    simp only at h1 h2
    subst h1 h2
    rfl

/-- C68, exactly, for histories in which `RequestPieces` runs: the lock is held for good if and only if a connection has been refused before the handshake. Missing: that it never is. -/
theorem C68_exactly_partial (w : World) (es : List (Event × Luck)) (hq : ∀ e ∈ es, e.1 ≠ .quit) (ha : (run cfg (init w) es).alive = true) :
    (run cfg (init w) es).locked = true ↔ ∃ es1 es2 x l c, es = es1 ++ (.check x, l) :: es2 ∧ (run cfg (init w) es1).peers[x]? = some c ∧ c.phase = .fresh ∧
      (50 ≤ (run cfg (init w) es1).activePeers.length ∨
        ∃ idip y, mget (run cfg (init w) es1).knownIDIPs c.addr = some idip ∧ (idip, y) ∈ (run cfg (init w) es1).activePeers) := by
  constructor
  · intro hl
    refine Classical.byContradiction fun hno => ?_
    have hs : ∀ es1 es2 : List (Event × Luck), es = es1 ++ es2 → Smooth cfg (run cfg (init w) es1) es2 := by
      intro es1 es2
      induction es2 generalizing es1 with
      | nil => intro _; trivial
      | cons e es2 ih =>
        intro he
        refine ⟨hq e (by rw [he]; simp), fun x c hx hc hp hr => hno ⟨es1, es2, x, e.2, c, ?_, hc, hp, hr⟩, ?_⟩
        · rw [he, ← hx]
        · have := ih (es1 ++ [e]) (by rw [he]; simp)
          rw [run_append] at this
          exact this
    have := (C68_lock_partial w es (hs [] es rfl) ha).1
    rw [hl] at this
    cases this
  · rintro ⟨es1, es2, x, l, c, rfl, hc, hp, hr⟩
    rw [run_append] at ha ⊢
    exact ((frozen_run (cfg := cfg) _ es2).keep (refused_locks (alive_before _ ha) hc hp hr l)).1

/-- The witness of `C68_refuted`: the address of the second connection is the one at which the first peer was dialled. -/
example : (run Ex.cfg (init Ex.nothing) (Ex.fine Ex.both)).locked = true ∧ Ex.fine Ex.both = Ex.fine (Ex.dials 0 [] (Ex.shake (Ex.id' 2)) ++ [.accept (Ex.ip 1) 5000]) ++ Ex.fine [.check 1] ∧
    (run Ex.cfg (init Ex.nothing) (Ex.fine (Ex.dials 0 [] (Ex.shake (Ex.id' 2)) ++ [.accept (Ex.ip 1) 5000]))).peers[1]?.map (fun c => (c.phase, c.addr)) = some (.fresh, b!"10.0.0.1:5000") ∧
    mget (run Ex.cfg (init Ex.nothing) (Ex.fine (Ex.dials 0 [] (Ex.shake (Ex.id' 2)) ++ [.accept (Ex.ip 1) 5000]))).knownIDIPs b!"10.0.0.1:5000" = some (Ex.id' 2 ++ b!"[10.0.0.1]") :=
  ⟨by kernel_rfl, rfl, by kernel_rfl, by kernel_rfl⟩

/-- What the handshake leaves. -/
theorem handshake_table (ok : Bool) (r : Ref) (rd : Rd) (s : State) : (handshake ok cfg r rd s).2.activePeers = s.activePeers := by
  have hR : Pre fun s s' : State => s'.activePeers = s.activePeers := ⟨fun _ => rfl, fun h1 h2 => h2.trans h1⟩
  have hset : ∀ f : Conn → Conn, Pres (fun s s' : State => s'.activePeers = s.activePeers) (setConn r f) := fun f s => rfl
  have : Pres (fun s s' : State => s'.activePeers = s.activePeers) (handshake ok cfg r rd) := by
    unfold handshake
    refine Pres.bind hR (Pres.getConn hR r) fun _ => Pres.ite (Pres.fail hR _) (Pres.bind hR (Pres.lift hR _) fun x => ?_)
    obtain ⟨phs, rd'⟩ := x
    exact Pres.bind hR (hset _) fun _ => Pres.ite (Pres.fail hR _) (Pres.ite (Pres.fail hR _) (Pres.bind hR (hset _) fun _ =>
      Pres.ite (Pres.fail hR _) (Pres.pure hR _)))
  exact this s

/-- What the second part of `Connect` leaves when it fails and the BITFIELD could be written. -/
theorem connectRegister_table {r : Ref} {s : State} {c : Conn} (hc : s.peers[r]? = some c) (hcl : c.closed = false) {e : Err} (h : (connectRegister true r s).1 = .err e) :
    (connectRegister true r s).2.activePeers = s.activePeers := by
  unfold connectRegister at h ⊢
  rw [locked_apply] at h ⊢
  by_cases hl : s.locked = true
  · rw [if_pos hl]
  · rw [if_neg hl] at h ⊢
    have hc' : ({ s with locked := true } : State).peers[r]? = some c := hc
    simp only [bind_apply, get_apply, getConn_some hc'] at h ⊢
    by_cases h50 : s.activePeers.length ≥ 50
    · simp only [h50, if_true]; rfl
    · simp only [h50, if_false, bind_apply, modify_apply] at h ⊢
      by_cases hact : (mget s.activePeers c.idip).isSome = true
      · simp only [hact, if_true]; rfl
      · exfalso
        simp only [hact, Bool.false_eq_true, if_false, bind_apply, modify_apply, setConn_apply] at h
        unfold torrentBitfield at h
        simp only at h
        cases hm : s.storage.mem with
        | none => rw [hm] at h; cases h
        | some m =>
          rw [hm] at h
          simp only at h
          unfold send at h
          simp only [bind_apply] at h
          rw [getConn_some (modify_self hc _)] at h
          simp only [] at h
          have hn : ¬ ((bitfieldMsg m.bitfield).typ = REQUEST ∧ c.remoteChoked = true) := by
            rintro ⟨h, _⟩; exact absurd h (by show BITFIELD ≠ REQUEST; decide)
          simp only [hn, if_false, hcl, Bool.not_false, and_self, if_true, setConn_apply] at h
          cases h

/-- C68, what is true of the table: a connection that `Connect` refuses – by the handshake, or after it unless the BITFIELD cannot be written – is not in the table of active peers, and nobody else is
removed from it or added to it. -/
theorem C68_refused_partial (w : World) (es : List (Event × Luck)) (e : Event) (l : Luck) {r : Ref} {c c' : Conn} (he : (∃ rd, e = .handshake r rd) ∨ (e = .register r ∧ l.ok r = true))
    (hc : (run cfg (init w) es).peers[r]? = some c) (hp : c.phase ≠ .ended) (hcl : c.closed = false)
    (hc' : (step cfg (run cfg (init w) es) (e, l)).peers[r]? = some c') (hp' : c'.phase = .ended) :
    (step cfg (run cfg (init w) es) (e, l)).activePeers = (run cfg (init w) es).activePeers ∧ ∀ k, (k, r) ∉ (step cfg (run cfg (init w) es) (e, l)).activePeers := by
  have hi := inv_run (cfg := cfg) w es
  generalize run cfg (init w) es = s at *
  have hreg : (c.phase = .checked ∨ c.phase = .shaken) → ∀ k, (k, r) ∉ s.activePeers := by
    intro hph k hk
    obtain ⟨d, hd, _, hr⟩ := hi.entry k r hk
    rw [hc] at hd; injection hd with hd; subst hd
    obtain ⟨_, _, h1, h2⟩ := (hi.conn r c hc).reg hr
    rcases hph with h | h
    · exact h1 h
    · exact h2 h
  suffices (step cfg s (e, l)).activePeers = s.activePeers ∧ (c.phase = .checked ∨ c.phase = .shaken) by
    refine ⟨this.1, fun k => ?_⟩
    rw [this.1]; exact hreg this.2 k
  rcases step_alive (cfg := cfg) s (e, l) with hs | ⟨_, o, s', ha, hs⟩
  · rw [hs, hc] at hc'; injection hc' with hc'; subst hc'; exact absurd hp' hp
  have hs : (step cfg s (e, l)).activePeers = s'.activePeers ∧ (step cfg s (e, l)).peers = s'.peers := by
    rcases hs with ⟨_, hs⟩ | ⟨_, hs⟩ <;> rw [hs] <;> exact ⟨rfl, rfl⟩
  rw [hs.2] at hc'
  rw [hs.1]
  rcases he with ⟨rd, rfl⟩ | ⟨rfl, hok⟩
  · simp only [act] at ha
    split at ha
    · rename_i ht
      obtain ⟨d, hd, hph⟩ := at_iff.1 ht
      rw [hc] at hd; injection hd with hd; subst hd
      injection ha with ha
      have := congrArg (fun x => x.2.activePeers) ha
      exact ⟨this.symm.trans (handshake_table ..), .inl hph⟩
    · cases ha
  · simp only [act] at ha
    split at ha
    · rename_i ht
      obtain ⟨d, hd, hph⟩ := at_iff.1 ht
      rw [hc] at hd; injection hd with hd; subst hd
      injection ha with ha
      refine ⟨?_, .inr hph⟩
      have h1 := congrArg (fun x => x.2.activePeers) ha
      have h2 := congrArg (fun x => x.2.peers[r]?) ha
      simp only [next] at h1 h2
      rw [hc'] at h2
      rw [hok] at h1 h2
      have h3 := fun e => connectRegister_table (e := e) hc hcl
      generalize connectRegister true r s = x at h1 h2 h3
      obtain ⟨o1, s1⟩ := x
      have hx : ∃ d, s1.peers[r]? = some d := by
        cases hx : s1.peers[r]? with
        | some d => exact ⟨d, rfl⟩
        | none => simp only [modify_none hx, hx] at h2; cases h2
      obtain ⟨d, hd⟩ := hx
      simp only [modify_self hd] at h2
      injection h2 with h2
      rw [← h2] at hp'
      cases o1 with
      | err e => rw [← h1]; exact h3 e rfl
      | _ => cases hp'
    · cases ha

/-- A history where a connection is refused after the handshake satisfies the hypotheses. -/
example : (run Ex.cfg (init Ex.nothing) (Ex.fine (Ex.joins 0 1 (Ex.id' 2) ++ [.accept (Ex.ip 1) 5001, .check 1, .handshake 1 (Ex.shake (Ex.id' 2))]))).peers[1]?.map (fun c => (c.phase, c.closed)) = some (.shaken, false) ∧
    (run Ex.cfg (init Ex.nothing) (Ex.fine (Ex.joins 0 1 (Ex.id' 2) ++ [.accept (Ex.ip 1) 5001, .check 1, .handshake 1 (Ex.shake (Ex.id' 2)), .register 1]))).peers[1]?.map (fun c => c.phase) = some .ended ∧
    (run Ex.cfg (init Ex.nothing) (Ex.fine (Ex.joins 0 1 (Ex.id' 2) ++ [.accept (Ex.ip 1) 5001, .check 1, .handshake 1 (Ex.shake (Ex.id' 2)), .register 1]))).locked = false :=
  ⟨by kernel_rfl, by kernel_rfl, by kernel_rfl⟩

/-! ### C72

"After the context is cancelled, `Stop` eventually acquires the lock and returns." False. -/

/-- C72 does not hold: after the context is cancelled, `RequestPieces` has returned when UNCHOKE is handled; `QueuePeer` waits for it, holding the lock, and `Stop` waits for the lock for ever. -/
theorem C72_refuted (es : List (Event × Luck)) :
    (run Ex.cfg (init Ex.nothing) (Ex.fine (Ex.joins 0 1 (Ex.id' 2) ++ [.cancel, .quit] ++ Ex.gets 0 PeerWire.unchoke))).alive = true ∧
    (run Ex.cfg (init Ex.nothing) (Ex.fine (Ex.joins 0 1 (Ex.id' 2) ++ [.cancel, .quit] ++ Ex.gets 0 PeerWire.unchoke) ++ es)).stopped = false ∧
    (run Ex.cfg (init Ex.nothing) (Ex.fine (Ex.joins 0 1 (Ex.id' 2) ++ [.cancel, .quit] ++ Ex.gets 0 PeerWire.unchoke) ++ es)).activePeers = [(Ex.id' 2 ++ b!"[10.0.0.1]", 0)] := by
  have h : (run Ex.cfg (init Ex.nothing) (Ex.fine (Ex.joins 0 1 (Ex.id' 2) ++ [.cancel, .quit] ++ Ex.gets 0 PeerWire.unchoke))).locked = true := by kernel_rfl
  obtain ⟨_, h2, _, _, h5⟩ := (frozen_run (cfg := Ex.cfg) _ es).keep h
  rw [run_append]
  refine ⟨by kernel_rfl, h5.trans ?_, h2.trans ?_⟩ <;> kernel_rfl

theorem disconnectAll_apply : ∀ (rs : List Ref) (s : State), (∀ r ∈ rs, ∃ c : Conn, s.peers[r]? = some c) →
    ∃ s', disconnectAll rs s = (.ok (), s') ∧ s'.locked = s.locked ∧ (∀ e, e ∈ s'.activePeers ↔ e ∈ s.activePeers ∧ ∀ (r : Ref) (c : Conn), r ∈ rs → s.peers[r]? = some c → c.idip ≠ e.1) ∧
      ∀ (x : Ref) (c : Conn), s.peers[x]? = some c → s'.peers[x]? = some { c with closed := c.closed || decide (x ∈ rs) }
  | [], s, _ => ⟨s, rfl, rfl, by simp, fun x c hc => by simpa using hc⟩
  | r :: rs, s, h => by
    obtain ⟨c, hc⟩ := h r (List.mem_cons_self ..)
    have hlt := (List.getElem?_eq_some_iff.1 hc).1
    have hg : ∀ (x : Ref) (d : Conn), s.peers[x]? = some d → (s.peers.set r { c with closed := true })[x]? = some { d with closed := d.closed || decide (x = r) } := by
      intro x d hd
      by_cases hx : x = r
      · subst hx
        rw [hc] at hd; injection hd with hd; subst hd
        rw [List.getElem?_set_self hlt]; simp
      · rw [List.getElem?_set_ne (fun h => hx h.symm), hd]; simp [hx]
    unfold disconnectAll
    rw [bind_apply, disconnect_apply hc]
    simp only []
    obtain ⟨s', h1, h2, h3, h4⟩ := disconnectAll_apply rs { s with
      indexToPeers := forgetIndexes r s.indexToPeers (Bitfield.items c.bitfield)
      knownIDIPs := forgetAddrs c.idip s.knownIDIPs ((mget s.knownAddrs c.idip).getD [])
      knownAddrs := mdel s.knownAddrs c.idip
      activePeers := mdel s.activePeers c.idip
      peers := s.peers.set r { c with closed := true } } fun x hx => by
        obtain ⟨d, hd⟩ := h x (List.mem_cons_of_mem _ hx)
        exact ⟨_, hg x d hd⟩
    refine ⟨s', h1, h2, fun e => ?_, fun x d hd => ?_⟩
    · rw [h3 e, mem_mdel]
      constructor
      · rintro ⟨⟨ha, hb⟩, hx⟩
        refine ⟨ha, fun y d hy hd => ?_⟩
        rcases List.mem_cons.1 hy with rfl | hy
        · rw [hc] at hd; injection hd with hd; subst hd; exact fun h => hb h.symm
        · exact hx y { d with closed := d.closed || decide (y = r) } hy (hg y d hd)
      · rintro ⟨ha, hx⟩
        refine ⟨⟨ha, fun h => hx r c (List.mem_cons_self ..) hc h.symm⟩, fun y d hy hd => ?_⟩
        obtain ⟨d0, hd0⟩ := h y (List.mem_cons_of_mem _ hy)
        have := hg y d0 hd0
        simp only at hd
        rw [hd] at this; injection this with this; subst this
        exact hx y d0 (List.mem_cons_of_mem _ hy) hd0
    · rw [h4 x _ (hg x d hd)]
      simp only [List.mem_cons, Option.some.injEq]
      congr 1
      by_cases h1 : x = r <;> by_cases h2 : x ∈ rs <;> simp [h1, h2]

/-- C72, what is true: in every history, if the context is cancelled and the lock is free, `Stop` returns, leaves the lock free, has closed every active connection and emptied the table. Missing: that
the lock gets free (see `C72_stops_partial` for when it does). -/
theorem C72_partial (w : World) (es : List (Event × Luck)) (l : Luck) (ha : (run cfg (init w) es).alive = true) (hc : (run cfg (init w) es).cancelled = true)
    (hl : (run cfg (init w) es).locked = false) :
    let s := run cfg (init w) es
    let s' := step cfg s (.stop, l)
    s'.alive = true ∧ s'.stopped = true ∧ s'.locked = false ∧ s'.activePeers = [] ∧
    ∀ (x : Ref) (c : Conn), s.peers[x]? = some c → s'.peers[x]? = some { c with closed := c.closed || decide (x ∈ s.activePeers.map (·.2)) } := by
  have hi := inv_run (cfg := cfg) w es
  generalize run cfg (init w) es = s at *
  simp only
  have hx := disconnectAll_apply (s.activePeers.map (·.2)) { s with locked := true, cancelled := true } fun r hr => by
    obtain ⟨⟨k, r'⟩, he, rfl⟩ := List.mem_map.1 hr
    obtain ⟨c, hc, _⟩ := hi.entry k r' he
    exact ⟨c, hc⟩
  obtain ⟨s1, h1, h2, h3, h4⟩ := hx
  have hal : s1.alive = s.alive := by
    have hR : Pre fun s s' : State => s'.alive = s.alive := ⟨fun _ => rfl, fun h1 h2 => h2.trans h1⟩
    have : ∀ rs, Pres (fun s s' : State => s'.alive = s.alive) (disconnectAll rs) := by
      intro rs
      induction rs with
      | nil => exact Pres.pure hR _
      | cons r rs ih =>
        unfold disconnectAll disconnect
        exact Pres.bind hR (Pres.bind hR (Pres.getConn hR r) fun _ => Pres.bind hR (fun s => rfl) fun _ => fun s => rfl) fun _ => ih
    have := this (s.activePeers.map (·.2)) { s with locked := true, cancelled := true }
    rw [h1] at this; exact this
  have he : act cfg l s .stop = some (.ok (), { s1 with stopped := true, locked := false }) := by
    simp only [act, hc, if_true]
    unfold stop
    rw [locked_apply, if_neg (by rw [hl]; simp)]
    simp only [bind_apply, modify_apply, get_apply, h1]
  have hs : step cfg s (.stop, l) = { s1 with stopped := true, locked := false } := by
    unfold step
    rw [if_neg (by rw [ha]; simp), he]
  rw [hs]
  refine ⟨hal.trans ha, rfl, rfl, ?_, fun x c hc => ?_⟩
  · refine List.eq_nil_iff_forall_not_mem.2 fun e h => ?_
    obtain ⟨hm, hn⟩ := (h3 e).1 h
    obtain ⟨c, hc, hk, _⟩ := hi.entry e.1 e.2 hm
    exact hn e.2 c (List.mem_map.2 ⟨e, hm, rfl⟩) hc hk
  · rw [show ({ s1 with stopped := true, locked := false } : State).peers = s1.peers from rfl, h4 x c hc]

/-- C72, when the lock gets free: in every history where the context is cancelled while `RequestPieces` still runs and no connection was refused before the handshake, `Stop` returns at once.
Missing: messages that are handled between the return of `RequestPieces` and `Stop`. -/
theorem C72_stops_partial (w : World) (es : List (Event × Luck)) (l : Luck) (hs : Smooth cfg (init w) es) (ha : (run cfg (init w) es).alive = true) (hc : (run cfg (init w) es).cancelled = true) :
    (step cfg (run cfg (init w) es) (.stop, l)).stopped = true ∧ (step cfg (run cfg (init w) es) (.stop, l)).activePeers = [] := by
  have := C72_partial w es l ha hc (C68_lock_partial w es hs ha).1
  exact ⟨this.2.1, this.2.2.2.1⟩

example : Smooth Ex.cfg (init Ex.nothing) (Ex.fine (Ex.joins 0 1 (Ex.id' 2) ++ Ex.joins 1 2 (Ex.id' 3) ++ [.accept (Ex.ip 3) 1, .cancel])) := Ex.smooth_iff _ _ (by kernel_rfl)
/-- Two connections are active, one not yet, when the context is cancelled and `Stop` runs. -/
example : (run Ex.cfg (init Ex.nothing) (Ex.fine (Ex.joins 0 1 (Ex.id' 2) ++ Ex.joins 1 2 (Ex.id' 3) ++ [.accept (Ex.ip 3) 1, .cancel, .stop]))).peers.map Conn.closed = [true, true, false] ∧
    (run Ex.cfg (init Ex.nothing) (Ex.fine (Ex.joins 0 1 (Ex.id' 2) ++ Ex.joins 1 2 (Ex.id' 3) ++ [.accept (Ex.ip 3) 1, .cancel, .stop]))).stopped = true := ⟨by kernel_rfl, by kernel_rfl⟩

/-! ### C73

"`Disconnect(peer)` removes that connection and no other." False: the table is indexed by id and ip. -/

/-- C73 does not hold: `Disconnect` of the blocked connection 0 takes connection 1 out of the table. -/
theorem C73_refuted : (run Ex.cfg (init Ex.nothing) (Ex.fine Ex.returns)).activePeers = [(Ex.id' 2 ++ b!"[10.0.0.1]", 1)] ∧
    (run Ex.cfg (init Ex.nothing) (Ex.fine (Ex.returns ++ [.leave 0]))).activePeers = [] ∧
    (run Ex.cfg (init Ex.nothing) (Ex.fine (Ex.returns ++ [.leave 0]))).peers.map (fun c => (c.phase, c.closed)) = [(.ended, true), (.serving none, false)] :=
  ⟨by kernel_rfl, by kernel_rfl, by kernel_rfl⟩

/-- C73, what is true: in every history, if the connection is in the table and the lock is free, then `Disconnect` takes out exactly this entry, takes it out of every set of piece holders, leaves the
other holders in, closes this connection and changes nothing of the others. Missing: connections that are no longer in the table. -/
theorem C73_partial (w : World) (es : List (Event × Luck)) {r : Ref} {k : Bytes} (hl : (run cfg (init w) es).locked = false) (hk : (k, r) ∈ (run cfg (init w) es).activePeers) :
    let s := run cfg (init w) es
    let s' := (Disconnect r s).2
    (Disconnect r s).1 = .ok () ∧
    (∀ e, e ∈ s'.activePeers ↔ e ∈ s.activePeers ∧ e.2 ≠ r) ∧
    (∀ i x, x ∈ (mget s'.indexToPeers i).getD [] ↔ x ∈ (mget s.indexToPeers i).getD [] ∧ x ≠ r) ∧
    (∀ (x : Ref) (c : Conn), s.peers[x]? = some c → s'.peers[x]? = some (if x = r then { c with closed := true } else c)) ∧ s'.locked = false := by
  have hi := inv_run (cfg := cfg) w es
  generalize run cfg (init w) es = s at *
  simp only
  obtain ⟨c, hc, hid, _⟩ := hi.entry k r hk
  rw [Disconnect_apply hl hc]
  refine ⟨rfl, fun e => ?_, fun i x => ?_, fun x d hd => ?_, hl⟩
  · rw [mem_mdel]
    refine and_congr_right fun he => ?_
    obtain ⟨d, hd, hid', _⟩ := hi.entry e.1 e.2 he
    constructor
    · intro h1 h2
      rw [h2, hc] at hd; injection hd with hd; subst hd
      exact h1 hid'.symm
    · intro h1 h2
      have h3 := hi.keys.get hk
      have h4 : mget s.activePeers e.1 = some e.2 := hi.keys.get he
      rw [h2, hid, h3] at h4; injection h4 with h4
      exact h1 h4.symm
  · have hm := mget_forgetIndexes r (Bitfield.items c.bitfield) s.indexToPeers i
    simp only
    rw [hm]
    cases hg : mget s.indexToPeers i with
    | none => simp
    | some ps =>
      simp only [Option.map_some, Option.getD_some]
      split
      · exact mem_sdel
      · rename_i hn
        refine ⟨fun h => ⟨h, fun hx => hn ?_⟩, fun h => h.1⟩
        subst hx
        obtain ⟨n, d, rfl, hd, hb⟩ := hi.holders i ps x hg h
        rw [hc] at hd; injection hd with hd; subst hd
        exact ⟨n, (Bitfield.mem_itemsFrom 0 _ n).2 ⟨by omega, by simpa using hb⟩, rfl⟩
  · by_cases hx : x = r
    · subst hx
      rw [hc] at hd; injection hd with hd; subst hd
      rw [if_pos rfl]
      exact List.getElem?_set_self (List.getElem?_eq_some_iff.1 hc).1
    · rw [if_neg hx]
      exact (List.getElem?_set_ne (fun h => hx h.symm)).trans hd

/-- Two peers have the first piece; one leaves. -/
example : (mget (run Ex.cfg (init Ex.nothing) (Ex.fine (Ex.joins 0 1 (Ex.id' 2) ++ Ex.joins 1 2 (Ex.id' 3) ++ Ex.gets 0 (have_ 0) ++ Ex.gets 1 (have_ 0)))).indexToPeers 0).getD [] = [1, 0] ∧
    (mget (run Ex.cfg (init Ex.nothing) (Ex.fine (Ex.joins 0 1 (Ex.id' 2) ++ Ex.joins 1 2 (Ex.id' 3) ++ Ex.gets 0 (have_ 0) ++ Ex.gets 1 (have_ 0) ++ [.fails 0, .leave 0]))).indexToPeers 0).getD [] = [1] ∧
    (run Ex.cfg (init Ex.nothing) (Ex.fine (Ex.joins 0 1 (Ex.id' 2) ++ Ex.joins 1 2 (Ex.id' 3) ++ Ex.gets 0 (have_ 0) ++ Ex.gets 1 (have_ 0) ++ [.fails 0, .leave 0]))).activePeers.map (·.2) = [1] :=
  ⟨by kernel_rfl, by kernel_rfl, by kernel_rfl⟩

end Drip.P2P
