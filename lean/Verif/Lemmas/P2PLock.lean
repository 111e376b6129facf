import Verif.Lemmas.P2PConn
/-
`Server.mu`: who returns it, and what happens when nobody does.
-/

namespace Drip.P2P
open PeerWire Metainfo
open Storage (Fate World Op runOp getBlock putBlock resetPiece)

variable {cfg : Cfg} {r : Ref} {go : Bool}

/-- While `RequestPieces` runs (`go`), or after it has returned, the action does not block and neither takes nor returns the lock. -/
def Kp {α : Type} (go : Bool) (p : Act α) : Prop := ∀ s, s.requesting = go → (p s).2.requesting = go ∧ (p s).2.locked = s.locked ∧ (p s).1 ≠ .stuck

/-- While `RequestPieces` runs (`go`), or after it has returned, when the lock is free, the action does not block and returns the lock, or kills the process. -/
def Bal {α : Type} (go : Bool) (p : Act α) : Prop := ∀ s, s.requesting = go → s.locked = false →
  (p s).2.requesting = go ∧ ((p s).2.locked = false ∧ (p s).1 ≠ .stuck ∨ (p s).1 = .panic ∨ (p s).1 = .crash)

theorem Kp.pure {α : Type} (a : α) : Kp go (pure a : Act α) := fun s h => ⟨h, rfl, by simp⟩
theorem Kp.fail {α : Type} (e : Err) : Kp go (Act.fail e : Act α) := fun s h => ⟨h, rfl, by simp⟩
theorem Kp.panic {α : Type} : Kp go (Act.panic : Act α) := fun s h => ⟨h, rfl, by simp [Act.panic]⟩
theorem Kp.get : Kp go Act.get := fun s h => ⟨h, rfl, by simp⟩
theorem Kp.modify (f : State → State) (h1 : ∀ s, (f s).requesting = s.requesting) (h2 : ∀ s, (f s).locked = s.locked) : Kp go (Act.modify f) :=
  fun s h => ⟨(h1 s).trans h, h2 s, by simp⟩
theorem Kp.setConn (f : Conn → Conn) : Kp go (setConn r f) := fun s h => ⟨h, rfl, by simp⟩
theorem Kp.getConn (r : Ref) : Kp go (getConn r) := fun s h => by
  rw [getConn_apply]; cases s.peers[r]? <;> exact ⟨h, rfl, by simp⟩
theorem Kp.torrentBitfield : Kp go torrentBitfield := fun s h => by
  unfold P2P.torrentBitfield; split <;> exact ⟨h, rfl, by simp⟩
theorem Kp.lift {α : Type} (x : Res α) : Kp go (Act.lift x) := fun s h => by
  cases x <;> exact ⟨h, rfl, by simp [Act.lift, Act.pure, Act.panic]⟩
theorem Kp.store {α : Type} (fates : List Fate) (p : Op α) : Kp go (Act.store fates p) := fun s h => by
  unfold Act.store; split <;> exact ⟨h, rfl, by simp⟩
theorem Kp.bind {α β : Type} {p : Act α} {k : α → Act β} (hp : Kp go p) (hk : ∀ a, Kp go (k a)) : Kp go (p >>= k) := by
  intro s h
  rw [bind_apply]
  have := hp s h
  generalize p s = x at this
  obtain ⟨o, s'⟩ := x
  obtain ⟨h1, h2, h3⟩ := this
  cases o with
  | ok a =>
    obtain ⟨h4, h5, h6⟩ := hk a s' h1
    exact ⟨h4, h5.trans h2, h6⟩
  | err e => exact ⟨h1, h2, by simp⟩
  | panic => exact ⟨h1, h2, by simp⟩
  | crash => exact ⟨h1, h2, by simp⟩
  | stuck => exact absurd rfl h3
theorem Kp.ite {α : Type} {c : Prop} [Decidable c] {p q : Act α} (hp : Kp go p) (hq : Kp go q) : Kp go (if c then p else q) := by
  split <;> assumption

theorem Kp.bal {α : Type} {p : Act α} (h : Kp go p) : Bal go p := fun s h1 h2 => by
  obtain ⟨a, b, c⟩ := h s h1
  exact ⟨a, .inl ⟨b.trans h2, c⟩⟩

theorem Kp.locked {α : Type} {p : Act α} (h : Kp go p) : Bal go (Act.locked p) := by
  intro s h1 h2
  rw [locked_apply, if_neg (by rw [h2]; simp)]
  have := h { s with locked := true } h1
  generalize p { s with locked := true } = x at this
  obtain ⟨o, s'⟩ := x
  obtain ⟨h1, h2, h3⟩ := this
  cases o with
  | ok a => exact ⟨h1, .inl ⟨rfl, by simp⟩⟩
  | err e => exact ⟨h1, .inl ⟨rfl, by simp⟩⟩
  | panic => exact ⟨h1, .inr (.inl rfl)⟩
  | crash => exact ⟨h1, .inr (.inr rfl)⟩
  | stuck => exact absurd rfl h3

theorem Bal.bind {α β : Type} {p : Act α} {k : α → Act β} (hp : Bal go p) (hk : ∀ a, Bal go (k a)) : Bal go (p >>= k) := by
  intro s h h'
  rw [bind_apply]
  have := hp s h h'
  generalize p s = x at this
  obtain ⟨o, s'⟩ := x
  obtain ⟨h1, h2⟩ := this
  cases o with
  | ok a =>
    rcases h2 with ⟨h2, _⟩ | h2 | h2
    · exact hk a s' h1 h2
    · cases h2
    · cases h2
  | err e =>
    rcases h2 with ⟨h2, _⟩ | h2 | h2
    · exact ⟨h1, .inl ⟨h2, by simp⟩⟩
    · cases h2
    · cases h2
  | panic => exact ⟨h1, .inr (.inl rfl)⟩
  | crash => exact ⟨h1, .inr (.inr rfl)⟩
  | stuck =>
    rcases h2 with ⟨_, h2⟩ | h2 | h2
    · exact absurd rfl h2
    · cases h2
    · cases h2
theorem Bal.ite {α : Type} {c : Prop} [Decidable c] {p q : Act α} (hp : Bal go p) (hq : Bal go q) : Bal go (if c then p else q) := by
  split <;> assumption
theorem Bal.attempt {p : Act Unit} (h : Bal go p) : Bal go (Act.attempt p) := by
  intro s h1 h2
  unfold Act.attempt
  have := h s h1 h2
  generalize p s = x at this
  obtain ⟨o, s'⟩ := x
  obtain ⟨h3, h4⟩ := this
  cases o with
  | err e =>
    rcases h4 with ⟨h4, _⟩ | h4 | h4
    · exact ⟨h3, .inl ⟨h4, by simp⟩⟩
    · cases h4
    · cases h4
  | _ => exact ⟨h3, h4⟩

theorem Kp.send (ok : Bool) (m : Message) : Kp go (send ok r m) :=
  Kp.bind (Kp.getConn r) fun _ => Kp.ite (Kp.fail _) (Kp.ite (Kp.setConn _) (Kp.fail _))

theorem Kp.interest (ok : Bool) : Kp go (interest ok r) :=
  Kp.bind (Kp.getConn r) fun _ => Kp.ite (Kp.bind (Kp.setConn _) fun _ => Kp.send ok _) (Kp.pure _)

theorem Kp.notInterest (ok : Bool) : Kp go (notInterest ok r) :=
  Kp.bind (Kp.getConn r) fun _ => Kp.ite (Kp.bind (Kp.setConn _) fun _ => Kp.send ok _) (Kp.pure _)

theorem Kp.unchoke (ok : Bool) : Kp go (unchoke ok r) :=
  Kp.bind (Kp.getConn r) fun _ => Kp.ite (Kp.bind (Kp.setConn _) fun _ => Kp.send ok _) (Kp.pure _)

theorem Kp.queuePeer : Kp true (queuePeer r) := by
  intro s h
  unfold P2P.queuePeer
  rw [bind_apply, getConn_apply]
  cases hc : s.peers[r]? with
  | none => exact ⟨h, rfl, by simp⟩
  | some c =>
    simp only []
    split
    · exact ⟨h, rfl, by simp⟩
    · rw [bind_apply, get_apply]
      simp only []
      split
      · exact ⟨h, rfl, by simp⟩
      · rw [bind_apply, modify_apply]
        simp only []
        rw [if_neg (by rw [h]; simp), modify_apply]
        exact ⟨h, rfl, by simp⟩

theorem Bal.QueuePeer : Bal true (QueuePeer r) := Kp.queuePeer.locked

theorem Bal.recordIndex (i : Int) : Bal go (recordIndex i r) := by
  unfold P2P.recordIndex
  exact Kp.locked (Kp.modify _ (fun _ => rfl) fun _ => rfl)

theorem Bal.handleHave (ok : Bool) (i : Int) : Bal true (handleHave ok r i) :=
  Bal.bind (Kp.getConn r).bal fun _ => Bal.bind (Kp.lift _).bal fun _ => Bal.bind (Kp.setConn _).bal fun _ => Bal.bind (Bal.recordIndex i) fun _ =>
    Bal.bind Kp.torrentBitfield.bal fun _ => Bal.bind (Kp.lift _).bal fun _ => Bal.ite (Bal.bind Bal.QueuePeer fun _ => (Kp.interest ok).bal) (Kp.pure _).bal

theorem Bal.handleItems (ok : Bool) : ∀ is : List Nat, Bal true (handleItems ok r is)
  | [] => (Kp.pure _).bal
  | i :: is => Bal.bind (Bal.handleHave ok i) fun _ => Bal.handleItems ok is

theorem Kp.handleRequest (fates : List Fate) (ok : Bool) (i b n : Int) : Kp go (handleRequest fates ok cfg r i b n) :=
  Kp.bind (Kp.getConn r) fun _ => Kp.ite (Kp.fail _) (Kp.ite (Kp.setConn _) (Kp.bind (Kp.store _ _) fun _ => Kp.bind (Kp.send ok _) fun _ => Kp.bind (Kp.setConn _) fun _ =>
    Kp.modify _ (fun _ => rfl) fun _ => rfl))

theorem Kp.handlePiece (fates : List Fate) (i b : Int) (d : Bytes) : Kp go (handlePiece fates cfg r i b d) := by
  intro s h
  unfold P2P.handlePiece
  have := Kp.store fates (putBlock cfg.store i b d) s h
  generalize Act.store fates (putBlock cfg.store i b d) s = x at this
  obtain ⟨o, s'⟩ := x
  obtain ⟨h1, h2, h3⟩ := this
  cases o with
  | ok a => exact ⟨h1, h2, by simp [Act.bind]⟩
  | err e =>
    simp only []
    split <;> exact ⟨h1, h2, by simp⟩
  | panic => exact ⟨h1, h2, by simp⟩
  | crash => exact ⟨h1, h2, by simp⟩
  | stuck => exact absurd rfl h3

theorem Bal.handleMessage (fates : List Fate) (ok : Bool) (m : Message) : Bal true (handleMessage fates ok cfg r m) := by
  unfold P2P.handleMessage
  refine Bal.ite (Kp.setConn _).bal (Bal.ite (Bal.bind (Kp.setConn _).bal fun _ => Bal.QueuePeer) (Bal.ite (Kp.setConn _).bal (Bal.ite (Kp.setConn _).bal (Bal.ite ?_ (Bal.ite ?_
    (Bal.ite ?_ (Bal.ite ?_ (Bal.ite ?_ (Kp.pure _).bal))))))))
  · exact Bal.bind (Kp.lift _).bal fun _ => Bal.handleHave ok _
  · exact Bal.bind (Kp.lift _).bal fun _ => Bal.handleItems ok _
  · exact Kp.bal (Kp.bind (Kp.lift _) fun _ => Kp.bind (Kp.lift _) fun _ => Kp.bind (Kp.lift _) fun _ => Kp.handleRequest _ _ _ _ _)
  · exact Kp.bal (Kp.bind (Kp.lift _) fun _ => Kp.bind (Kp.lift _) fun _ => Kp.bind (Kp.lift _) fun _ => Kp.setConn _)
  · exact Kp.bal (Kp.bind (Kp.lift _) fun _ => Kp.bind (Kp.lift _) fun _ => Kp.bind (Kp.lift _) fun _ => Kp.handlePiece _ _ _ _)

theorem Kp.handshake (ok : Bool) (rd : Rd) : Kp go (handshake ok cfg r rd) := by
  refine Kp.bind (Kp.getConn r) fun _ => Kp.ite (Kp.fail _) (Kp.bind (Kp.lift _) fun x => ?_)
  obtain ⟨phs, rd'⟩ := x
  exact Kp.bind (Kp.setConn _) fun _ => Kp.ite (Kp.fail _) (Kp.ite (Kp.fail _) (Kp.bind (Kp.setConn _) fun _ => Kp.ite (Kp.fail _) (Kp.pure _)))

theorem Bal.addPeer (tp : Tracker.Peer) : Bal go (addPeer tp) := by
  unfold P2P.addPeer
  exact Kp.locked (Kp.bind (Kp.lift _) fun _ => Kp.bind Kp.get fun _ => Kp.ite (Kp.pure _) (Kp.ite (Kp.pure _) (Kp.ite (Kp.modify _ (fun _ => rfl) fun _ => rfl) (Kp.pure _))))

theorem Bal.connectRegister (ok : Bool) : Bal go (connectRegister ok r) := by
  unfold P2P.connectRegister
  exact Kp.locked (Kp.bind Kp.get fun _ => Kp.bind (Kp.getConn r) fun _ => Kp.ite (Kp.fail _) (Kp.bind (Kp.modify _ (fun _ => rfl) fun _ => rfl) fun _ => Kp.ite (Kp.fail _)
    (Kp.bind (Kp.modify _ (fun _ => rfl) fun _ => rfl) fun _ => Kp.bind (Kp.setConn _) fun _ => Kp.bind Kp.torrentBitfield fun _ => Kp.send ok _)))

theorem Kp.disconnect : Kp go (disconnect r) :=
  Kp.bind (Kp.getConn r) fun _ => Kp.bind (Kp.modify _ (fun _ => rfl) fun _ => rfl) fun _ => Kp.setConn _

theorem Bal.Disconnect : Bal go (Disconnect r) := Kp.disconnect.locked

theorem Bal.block : Bal go (block r) := by
  unfold P2P.block
  exact Kp.locked (Kp.bind (Kp.getConn r) fun _ => Kp.bind (Kp.modify _ (fun _ => rfl) fun _ => rfl) fun _ => Kp.disconnect)

theorem Kp.disconnectAll : ∀ rs : List Ref, Kp go (disconnectAll rs)
  | [] => Kp.pure _
  | _ :: rs => Kp.bind Kp.disconnect fun _ => Kp.disconnectAll rs

theorem Bal.stop : Bal go stop := by
  unfold P2P.stop
  exact Kp.locked (Kp.bind (Kp.modify _ (fun _ => rfl) fun _ => rfl) fun _ => Kp.bind Kp.get fun _ => Kp.bind (Kp.disconnectAll _) fun _ => Kp.modify _ (fun _ => rfl) fun _ => rfl)

theorem Bal.requestPieceFromPeer (ok : Bool) (coins : List Bool) (pdq : List Nat → List Nat) : Bal go (requestPieceFromPeer ok coins pdq r) := by
  unfold P2P.requestPieceFromPeer
  refine Kp.locked (Kp.bind (Kp.getConn r) fun _ => Kp.ite (Kp.modify _ (fun _ => rfl) fun _ => rfl) (Kp.bind Kp.torrentBitfield fun _ => Kp.ite ?_ (Kp.bind Kp.get fun s => ?_)))
  · exact Kp.bind (Kp.modify _ (fun _ => rfl) fun _ => rfl) fun _ => Kp.notInterest ok
  · generalize firstFree _ _ = x
    cases x <;> exact Kp.modify _ (fun _ => rfl) fun _ => rfl

theorem Kp.sendHave (oks : Ref → Bool) (i : Nat) : ∀ rs : List Ref, Kp go (sendHave oks i rs)
  | [] => Kp.pure _
  | r :: rs => Kp.bind (Kp.getConn r) fun _ => Kp.ite (Kp.sendHave oks i rs) (Kp.bind (Kp.send _ _) fun _ => Kp.sendHave oks i rs)

theorem Bal.finish (oks : Ref → Bool) (order : List Ref → List Ref) (i : Nat) (res : Result) : Bal go (finish oks order r i res) := by
  unfold P2P.finish
  cases res with
  | failed => exact (Kp.pure _).bal
  | checksum => exact Bal.block.attempt
  | complete =>
    refine Bal.attempt fun s h1 h2 => ?_
    rw [bind_apply]
    unfold Act.lock
    rw [h2]
    simp only [Bool.false_eq_true, if_false]
    rw [bind_apply]
    unfold Act.unlock
    simp only [modify_apply]
    exact (Kp.bind Kp.get fun s => Kp.sendHave oks i _).bal { s with locked := false } h1 rfl

/-- Why `Connect` refuses a connection before the handshake. -/
def Refused (s : State) (c : Conn) : Prop := s.activePeers.length ≥ 50 ∨ ∃ idip x, mget s.knownIDIPs c.addr = some idip ∧ (idip, x) ∈ s.activePeers

theorem connectCheck_apply {s : State} {c : Conn} (hl : s.locked = false) (hc : s.peers[r]? = some c) :
    (Refused s c → (∃ e, (connectCheck r s).1 = .err e) ∧ (connectCheck r s).2 = { s with locked := true }) ∧
    (¬ Refused s c → connectCheck r s = (.ok (), s)) := by
  have hself : ({ s with locked := false } : State) = s := by rw [← hl]
  have hc' : ({ s with locked := true } : State).peers[r]? = some c := hc
  have e0 : connectCheck r s = (do
      if s.activePeers.length ≥ 50 then Act.fail .tooManyConnections
      else
        match mget s.knownIDIPs c.addr with
        | some idip => if (mget s.activePeers idip).isSome then Act.fail .alreadyConnected else Act.unlock
        | none => Act.unlock : Act Unit) { s with locked := true } := by
    unfold connectCheck
    rw [bind_apply]
    unfold Act.lock
    rw [hl]
    simp only [Bool.false_eq_true, if_false]
    rw [bind_apply, get_apply]
    simp only []
    rw [bind_apply, getConn_some hc']
    rfl
  rw [e0]
  unfold Refused
  by_cases h : s.activePeers.length ≥ 50
  · rw [if_pos h]
    exact ⟨fun _ => ⟨⟨_, rfl⟩, rfl⟩, fun hn => absurd (.inl h) hn⟩
  · rw [if_neg h]
    cases hk : mget s.knownIDIPs c.addr with
    | none =>
      refine ⟨fun hr => ?_, fun _ => ?_⟩
      · rcases hr with hr | ⟨_, _, hr, _⟩
        · exact absurd hr h
        · cases hr
      · show (Outcome.ok (), ({ s with locked := false } : State)) = _; rw [hself]
    | some idip =>
      simp only []
      by_cases ha : (mget s.activePeers idip).isSome = true
      · rw [if_pos ha]
        refine ⟨fun _ => ⟨⟨_, rfl⟩, rfl⟩, fun hn => ?_⟩
        obtain ⟨x, hx⟩ := mget_isSome.1 ha
        exact absurd (.inr ⟨idip, x, rfl, hx⟩) hn
      · rw [if_neg ha]
        refine ⟨fun hr => ?_, fun _ => ?_⟩
        · rcases hr with hr | ⟨i, x, hr, hx⟩
          · exact absurd hr h
          · injection hr with hr; subst hr
            exact absurd (mget_isSome.2 ⟨x, hx⟩) ha
        · show (Outcome.ok (), ({ s with locked := false } : State)) = _; rw [hself]

/-! ### Histories in which the lock is always returned -/

/-- The lock is free, `RequestPieces` runs (`go`) or has returned, and the goroutine of no connection is blocked. -/
structure Free (go : Bool) (s : State) : Prop where
  locked : s.locked = false
  requesting : s.requesting = go
  hung : ∀ (x : Ref) (c : Conn), s.peers[x]? = some c → c.phase ≠ .hung

/-- A connection whose goroutine does not move does not become blocked. -/
theorem Small.noPhase {may : May} {s s' : State} (h : Small cfg may s s') {x : Ref} (hp : ¬ may.phase x) (hs : ∀ c : Conn, s.peers[x]? = some c → c.phase ≠ .hung) :
    ∀ c : Conn, s'.peers[x]? = some c → c.phase ≠ .hung := by
  intro c hc
  cases h with
  | new id ip port _ =>
    rcases List.getElem?_append .. ▸ hc with hc
    split at hc
    · exact hs c hc
    · rw [List.getElem?_singleton] at hc
      split at hc
      · injection hc with hc; subst hc; intro h; cases h
      · cases hc
  | upd y a b h1 h2 =>
    rcases set_cases hc with ⟨rfl, rfl⟩ | ⟨_, hc⟩
    · cases h2 with
      | phase ph h3 => exact absurd h3 hp
      | receive m rd rd' h3 => exact absurd h3 hp
      | _ => exact hs a h1
    · exact hs c hc
  | upload y a q d f h0 h1 h2 =>
    rcases set_cases hc with ⟨rfl, rfl⟩ | ⟨_, hc⟩
    · exact hs a h1
    · exact hs c hc
  | join y a ms ph h0 h1 =>
    rcases set_cases hc with ⟨rfl, rfl⟩ | ⟨_, hc⟩
    · exact absurd h0 hp
    · exact hs c hc
  | _ => exact hs c hc

theorem Smalls.noPhase {may : May} {s s' : State} (h : Smalls cfg may s s') {x : Ref} (hp : ¬ may.phase x) (hs : ∀ c : Conn, s.peers[x]? = some c → c.phase ≠ .hung) :
    ∀ c : Conn, s'.peers[x]? = some c → c.phase ≠ .hung := by
  induction h with
  | refl => exact hs
  | tail _ h ih => exact h.noPhase hp ih

/-- What is needed of an action. -/
abbrev Returns (go : Bool) (x : Outcome Unit × State) : Prop := x.2.requesting = go ∧ (x.2.locked = false ∧ x.1 ≠ .stuck ∨ x.1 = .panic ∨ x.1 = .crash)

/-- An action of the goroutine of a connection. -/
theorem Free.mine {may : May} {s s' : State} {o : Outcome Unit} (hf : Free go s) (hsm : Smalls cfg may s s') (hph : ∀ y, may.phase y → y = r) {ok err : Phase} (hok : ok ≠ .hung) (herr : err ≠ .hung)
    {x : Outcome Unit × State} (hx : Returns go x) (h : some (P2P.next r ok err x) = some (o, s')) : (o = .panic ∨ o = .crash) ∨ Free go s' := by
  injection h with h
  unfold P2P.next at h
  injection h with ho hs
  obtain ⟨h1, h2⟩ := hx
  rw [ho] at h2
  rcases h2 with ⟨h2, h3⟩ | h2
  · by_cases hp : o = .panic ∨ o = .crash
    · exact .inl hp
    refine .inr ⟨by rw [← hs]; exact h2, by rw [← hs]; exact h1, fun y d hd => ?_⟩
    by_cases hy : y = r
    · subst hy
      rw [← hs] at hd
      simp only at hd
      cases hx : x.2.peers[y]? with
      | none => rw [modify_none hx, hx] at hd; cases hd
      | some d0 =>
        rw [modify_self hx] at hd
        injection hd with hd; subst hd
        intro he
        rw [ho] at he
        cases o with
        | ok a => exact hok he
        | err e => exact herr he
        | panic => exact hp (.inl rfl)
        | crash => exact hp (.inr rfl)
        | stuck => exact h3 rfl
    · exact hsm.noPhase (fun h => hy (hph y h)) (fun c => hf.hung y c) d hd
  · exact .inl h2

/-- An action of another goroutine. -/
theorem Free.other {may : May} {s s' : State} {o : Outcome Unit} (hf : Free go s) (hsm : Smalls cfg may s s') (hn : ∀ y, ¬ may.phase y) (hx : Returns go (o, s')) :
    (o = .panic ∨ o = .crash) ∨ Free go s' := by
  obtain ⟨h1, h2⟩ := hx
  rcases h2 with ⟨h2, h3⟩ | h2
  · exact .inr ⟨h2, h1, fun y => hsm.noPhase (hn y) (hf.hung y)⟩
  · exact .inl h2

/-- Only one goroutine moves. -/
theorem phase_only {s : State} {e : Event} {y : Ref} (h : (mayOf cfg s e).phase y) :
    e = .check y ∨ (∃ rd, e = .handshake y rd) ∨ e = .register y ∨ (∃ rd, e = .receive y rd) ∨ e = .handle y ∨ e = .fails y ∨ e = .leave y := h

theorem Free.act {s s' : State} {o : Outcome Unit} {e : Event} {l : Luck} (hi : Inv cfg s) (hf : Free go s) (h : act cfg l s e = some (o, s')) (hq : e ≠ .quit)
    (hm : ∀ x c m, e = .handle x → s.peers[x]? = some c → c.phase = .serving (some m) → Returns go (handleMessage l.fates (l.ok x) cfg x m s))
    (hr : ∀ x c, e = .check x → s.peers[x]? = some c → c.phase = .fresh → ¬ Refused s c) : (o = .panic ∨ o = .crash) ∨ Free go s' := by
  have hsm := act_small l hi.pendOK h
  have keep : ∀ {t : State}, t.locked = s.locked → t.requesting = s.requesting → ∀ o : Outcome Unit, o ≠ .stuck → Returns go (o, t) := fun h1 h2 o ho =>
    ⟨h2.trans hf.requesting, .inl ⟨h1.trans hf.locked, ho⟩⟩
  cases e with
  | accept ip port =>
    refine hf.other hsm (fun y hy => by rcases phase_only hy with h | ⟨_, h⟩ | h | ⟨_, h⟩ | h | h | h <;> cases h) ?_
    simp only [P2P.act] at h
    split at h
    · cases h
    · cases h; exact keep rfl rfl _ (by simp)
  | takeAddr =>
    refine hf.other hsm (fun y hy => by rcases phase_only hy with h | ⟨_, h⟩ | h | ⟨_, h⟩ | h | h | h <;> cases h) ?_
    simp only [P2P.act] at h
    split at h <;> cases h
    exact keep rfl rfl _ (by simp)
  | spawn =>
    refine hf.other hsm (fun y hy => by rcases phase_only hy with h | ⟨_, h⟩ | h | ⟨_, h⟩ | h | h | h <;> cases h) ?_
    simp only [P2P.act] at h
    split at h
    · split at h
      · cases h
      · cases h; exact keep rfl rfl _ (by simp)
    · cases h
  | dialCheck k =>
    refine hf.other hsm (fun y hy => by rcases phase_only hy with h | ⟨_, h⟩ | h | ⟨_, h⟩ | h | h | h <;> cases h) ?_
    simp only [P2P.act] at h
    split at h
    · split at h
      · split at h
        · rename_i hl; rw [hf.locked] at hl; cases hl
        · split at h <;> (cases h; exact keep rfl rfl _ (by simp))
      · cases h; exact keep rfl rfl _ (by simp)
    · cases h
  | dial k b =>
    refine hf.other hsm (fun y hy => by rcases phase_only hy with h | ⟨_, h⟩ | h | ⟨_, h⟩ | h | h | h <;> cases h) ?_
    simp only [P2P.act] at h
    split at h
    · split at h <;> (cases h; exact keep rfl rfl _ (by simp))
    · cases h
  | check r =>
    simp only [P2P.act] at h
    split at h
    · rename_i ht
      obtain ⟨c, hc, hph⟩ := at_iff.1 ht
      have := (connectCheck_apply (r := r) hf.locked hc).2 (hr r c rfl hc hph)
      rw [this] at h
      refine hf.mine (r := r) hsm (fun y hy => by rcases phase_only hy with h | ⟨_, h⟩ | h | ⟨_, h⟩ | h | h | h <;> cases h; rfl) ?_ ?_ (keep rfl rfl _ ?_) h <;> simp
    · cases h
  | handshake r rd =>
    simp only [P2P.act] at h
    split at h
    · exact hf.mine (r := r) hsm (fun y hy => by rcases phase_only hy with h | ⟨_, h⟩ | h | ⟨_, h⟩ | h | h | h <;> cases h; rfl) (by simp) (by simp)
        ((Kp.handshake (l.ok r) rd).bal s hf.requesting hf.locked) h
    · cases h
  | register r =>
    simp only [P2P.act] at h
    split at h
    · exact hf.mine (r := r) hsm (fun y hy => by rcases phase_only hy with h | ⟨_, h⟩ | h | ⟨_, h⟩ | h | h | h <;> cases h; rfl) (by simp) (by simp)
        (Bal.connectRegister (r := r) (l.ok r) s hf.requesting hf.locked) h
    · cases h
  | receive r rd =>
    simp only [P2P.act] at h
    split at h
    · rename_i c hc
      split at h
      · split at h
        · rename_i m rd' hd
          injection h with h
          have : some (P2P.next r (.serving (some m)) .leaving (.ok (), { s with peers := s.peers.modify r fun c => { c with received := c.received ++ [m] } })) = some (o, s') := by
            rw [← h]
            unfold P2P.next
            simp only [modify_some hc, modify_some (List.getElem?_set_self (List.getElem?_eq_some_iff.1 hc).1), List.set_set]
          refine hf.mine (r := r) (ok := .serving (some m)) (err := .leaving) hsm (fun y hy => by rcases phase_only hy with h | ⟨_, h⟩ | h | ⟨_, h⟩ | h | h | h <;> cases h; rfl) (by simp) (by simp)
            ?_ this
          exact ⟨hf.requesting, .inl ⟨hf.locked, by simp⟩⟩
        · exact hf.mine (r := r) hsm (fun y hy => by rcases phase_only hy with h | ⟨_, h⟩ | h | ⟨_, h⟩ | h | h | h <;> cases h; rfl) (by simp) (by simp) (keep rfl rfl _ (by simp)) h
        · cases h; exact .inl (.inl rfl)
      · cases h
    · cases h
  | handle r =>
    simp only [P2P.act] at h
    split at h
    · rename_i m hp
      obtain ⟨c, hc, hp⟩ := Option.map_eq_some_iff.1 hp
      exact hf.mine (r := r) hsm (fun y hy => by rcases phase_only hy with h | ⟨_, h⟩ | h | ⟨_, h⟩ | h | h | h <;> cases h; rfl) (by simp) (by simp) (hm r c m rfl hc hp) h
    · cases h
  | fails r =>
    simp only [P2P.act] at h
    split at h
    · exact hf.mine (r := r) hsm (fun y hy => by rcases phase_only hy with h | ⟨_, h⟩ | h | ⟨_, h⟩ | h | h | h <;> cases h; rfl) (by simp) (by simp) (keep rfl rfl _ (by simp)) h
    · cases h
  | leave r =>
    simp only [P2P.act] at h
    split at h
    · exact hf.mine (r := r) hsm (fun y hy => by rcases phase_only hy with h | ⟨_, h⟩ | h | ⟨_, h⟩ | h | h | h <;> cases h; rfl) (by simp) (by simp)
        (Bal.Disconnect (r := r) s hf.requesting hf.locked) h
    · cases h
  | unchoke r =>
    refine hf.other hsm (fun y hy => by rcases phase_only hy with h | ⟨_, h⟩ | h | ⟨_, h⟩ | h | h | h <;> cases h) ?_
    simp only [P2P.act] at h
    split at h
    · injection h with h
      rw [← h]; exact (Kp.unchoke (r := r) (l.ok r)).bal s hf.requesting hf.locked
    · cases h
  | addPeer tp =>
    refine hf.other hsm (fun y hy => by rcases phase_only hy with h | ⟨_, h⟩ | h | ⟨_, h⟩ | h | h | h <;> cases h) ?_
    injection h with h
    rw [← h]; exact Bal.addPeer tp s hf.requesting hf.locked
  | select k =>
    refine hf.other hsm (fun y hy => by rcases phase_only hy with h | ⟨_, h⟩ | h | ⟨_, h⟩ | h | h | h <;> cases h) ?_
    simp only [P2P.act] at h
    split at h
    · rename_i r _
      have := Bal.requestPieceFromPeer (r := r) (l.ok r) l.coins l.pdq s hf.requesting hf.locked
      generalize requestPieceFromPeer (l.ok r) l.coins l.pdq r s = x at h this
      obtain ⟨o1, s1⟩ := x
      cases o1 with
      | stuck => rcases this.2 with ⟨_, h⟩ | h | h <;> first | exact absurd rfl h | cases h
      | _ => cases h; exact this
    · cases h
  | begin k =>
    refine hf.other hsm (fun y hy => by rcases phase_only hy with h | ⟨_, h⟩ | h | ⟨_, h⟩ | h | h | h <;> cases h) ?_
    simp only [P2P.act] at h
    split at h
    · rename_i r i _
      have := (Kp.store l.fates (resetPiece (i : Int))).bal s hf.requesting hf.locked
      generalize Act.store l.fates (resetPiece (i : Int)) s = x at h this
      obtain ⟨o1, s1⟩ := x
      cases h; exact this
    · cases h
  | request k q =>
    refine hf.other hsm (fun y hy => by rcases phase_only hy with h | ⟨_, h⟩ | h | ⟨_, h⟩ | h | h | h <;> cases h) ?_
    simp only [P2P.act] at h
    split at h
    · rename_i r i _
      split at h
      · injection h with h
        rw [← h]; exact (Kp.send (r := r) (l.ok r) _).bal s hf.requesting hf.locked
      · cases h
    · cases h
  | finish k res =>
    refine hf.other hsm (fun y hy => by rcases phase_only hy with h | ⟨_, h⟩ | h | ⟨_, h⟩ | h | h | h <;> cases h) ?_
    simp only [P2P.act] at h
    split at h
    · rename_i r i _
      split at h
      · have := Bal.finish (r := r) l.ok l.order i res s hf.requesting hf.locked
        generalize finish l.ok l.order r i res s = x at h this
        obtain ⟨o1, s1⟩ := x
        cases o1 with
        | stuck => rcases this.2 with ⟨_, h⟩ | h | h <;> first | exact absurd rfl h | cases h
        | _ => cases h; exact this
      · cases h
    · cases h
  | hand k =>
    simp only [P2P.act] at h
    split at h
    · split at h <;> (cases h; exact .inr ⟨hf.locked, hf.requesting, hf.hung⟩)
    · cases h
  | clear k =>
    refine hf.other hsm (fun y hy => by rcases phase_only hy with h | ⟨_, h⟩ | h | ⟨_, h⟩ | h | h | h <;> cases h) ?_
    simp only [P2P.act] at h
    split at h
    · cases h; exact keep rfl rfl _ (by simp)
    · cases h
  | again k timer =>
    simp only [P2P.act] at h
    split at h
    · split at h <;> (cases h; exact .inr ⟨hf.locked, hf.requesting, hf.hung⟩)
    · split at h
      · cases h; exact .inr ⟨hf.locked, hf.requesting, hf.hung⟩
      · cases h
    · cases h
  | cancel =>
    refine hf.other hsm (fun y hy => by rcases phase_only hy with h | ⟨_, h⟩ | h | ⟨_, h⟩ | h | h | h <;> cases h) ?_
    cases h; exact keep rfl rfl _ (by simp)
  | quit => exact absurd rfl hq
  | stop =>
    refine hf.other hsm (fun y hy => by rcases phase_only hy with h | ⟨_, h⟩ | h | ⟨_, h⟩ | h | h | h <;> cases h) ?_
    simp only [P2P.act] at h
    split at h
    · injection h with h
      rw [← h]; exact Bal.stop s hf.requesting hf.locked
    · cases h

/-- Histories in which no connection is refused before the handshake and `RequestPieces` does not return. -/
def Smooth (cfg : Cfg) (s : State) : List (Event × Luck) → Prop
  | [] => True
  | e :: es => e.1 ≠ .quit ∧ (∀ x c, e.1 = .check x → s.peers[x]? = some c → c.phase = .fresh → ¬ Refused s c) ∧ Smooth cfg (step cfg s e) es

theorem Free.run {s : State} (hi : Inv cfg s) (hf : s.alive = true → Free true s) (es : List (Event × Luck)) (h : Smooth cfg s es) : (run cfg s es).alive = true → Free true (run cfg s es) := by
  induction es generalizing s with
  | nil => exact hf
  | cons e es ih =>
    obtain ⟨h1, h2, h3⟩ := h
    refine ih (hi.step e) ?_ h3
    rcases step_alive (cfg := cfg) s e with hs | ⟨ha, o, s', hact, hs⟩
    · rw [hs]; exact hf
    · intro hal
      have hfree := (hf ha).act hi hact h1 (fun x _ m _ _ _ => Bal.handleMessage (r := x) _ _ m s (hf ha).requesting (hf ha).locked) h2
      rcases hs with ⟨ho, hs⟩ | ⟨ho, hs⟩
      · rw [hs] at hal; cases hal
      · rw [hs]
        rcases hfree with h | h
        · rcases h with h | h
          · exact absurd h ho.1
          · exact absurd h ho.2
        · exact h

/-! ### When the lock is not returned -/

/-- What stays when the lock is held. -/
structure Frozen (s s' : State) : Prop where
  keep : s.locked = true → s'.locked = true ∧ s'.activePeers = s.activePeers ∧ s'.knownPeers = s.knownPeers ∧ s'.blockedPeers = s.blockedPeers ∧
    s'.stopped = s.stopped

theorem Frozen.same {s s' : State} (h1 : s'.locked = s.locked) (h2 : s'.activePeers = s.activePeers) (h3 : s'.knownPeers = s.knownPeers) (h4 : s'.blockedPeers = s.blockedPeers)
    (h5 : s'.stopped = s.stopped) : Frozen s s' := ⟨fun h => ⟨h1.trans h, h2, h3, h4, h5⟩⟩

theorem Frozen.pre : Pre Frozen where
  refl _ := .same rfl rfl rfl rfl rfl
  trans h1 h2 := ⟨fun h => by
    obtain ⟨a, b, c, d, e⟩ := h1.keep h
    obtain ⟨a', b', c', d', e'⟩ := h2.keep a
    exact ⟨a', b'.trans b, c'.trans c, d'.trans d, e'.trans e⟩⟩

theorem frozen_locked {α : Type} (p : Act α) : Pres Frozen (Act.locked p) := fun s => ⟨fun h => by
  rw [locked_apply, if_pos h]; exact ⟨h, rfl, rfl, rfl, rfl⟩⟩
theorem frozen_setConn (f : Conn → Conn) : Pres Frozen (setConn r f) := fun s => .same rfl rfl rfl rfl rfl
theorem frozen_store {α : Type} (fates : List Fate) (p : Op α) : Pres Frozen (Act.store fates p) := fun s => by
  unfold Act.store; split <;> exact .same rfl rfl rfl rfl rfl
theorem frozen_send (ok : Bool) (m : Message) : Pres Frozen (send ok r m) := by
  unfold send
  exact Pres.bind Frozen.pre (Pres.getConn Frozen.pre r) fun _ => Pres.ite (Pres.fail Frozen.pre _) (Pres.ite (frozen_setConn _) (Pres.fail Frozen.pre _))
theorem frozen_interest (ok : Bool) : Pres Frozen (interest ok r) := by
  unfold interest
  exact Pres.bind Frozen.pre (Pres.getConn Frozen.pre r) fun _ => Pres.ite (Pres.bind Frozen.pre (frozen_setConn _) fun _ => frozen_send ok _) (Pres.pure Frozen.pre _)
theorem frozen_unchoke (ok : Bool) : Pres Frozen (unchoke ok r) := by
  unfold unchoke
  exact Pres.bind Frozen.pre (Pres.getConn Frozen.pre r) fun _ => Pres.ite (Pres.bind Frozen.pre (frozen_setConn _) fun _ => frozen_send ok _) (Pres.pure Frozen.pre _)
theorem frozen_handleHave (ok : Bool) (i : Int) : Pres Frozen (handleHave ok r i) := by
  unfold handleHave
  exact Pres.bind Frozen.pre (Pres.getConn Frozen.pre r) fun _ => Pres.bind Frozen.pre (Pres.lift Frozen.pre _) fun _ => Pres.bind Frozen.pre (frozen_setConn _) fun _ =>
    Pres.bind Frozen.pre (frozen_locked _) fun _ => Pres.bind Frozen.pre (Pres.torrentBitfield Frozen.pre) fun _ => Pres.bind Frozen.pre (Pres.lift Frozen.pre _) fun _ =>
      Pres.ite (Pres.bind Frozen.pre (frozen_locked _) fun _ => frozen_interest ok) (Pres.pure Frozen.pre _)
theorem frozen_handleItems (ok : Bool) : ∀ is : List Nat, Pres Frozen (handleItems ok r is)
  | [] => Pres.pure Frozen.pre _
  | i :: is => Pres.bind Frozen.pre (frozen_handleHave ok i) fun _ => frozen_handleItems ok is
theorem frozen_handleMessage (fates : List Fate) (ok : Bool) (m : Message) : Pres Frozen (handleMessage fates ok cfg r m) := by
  have hl : ∀ {α : Type} (x : Res α), Pres Frozen (Act.lift x) := fun x => Pres.lift Frozen.pre x
  unfold handleMessage
  refine Pres.ite (frozen_setConn _) (Pres.ite (Pres.bind Frozen.pre (frozen_setConn _) fun _ => frozen_locked _) (Pres.ite (frozen_setConn _) (Pres.ite (frozen_setConn _) (Pres.ite ?_ (Pres.ite ?_
    (Pres.ite ?_ (Pres.ite ?_ (Pres.ite ?_ (Pres.pure Frozen.pre _)))))))))
  · exact Pres.bind Frozen.pre (hl _) fun _ => frozen_handleHave ok _
  · exact Pres.bind Frozen.pre (hl _) fun _ => frozen_handleItems ok _
  · refine Pres.bind Frozen.pre (hl _) fun _ => Pres.bind Frozen.pre (hl _) fun _ => Pres.bind Frozen.pre (hl _) fun _ => ?_
    unfold handleRequest
    exact Pres.bind Frozen.pre (Pres.getConn Frozen.pre r) fun _ => Pres.ite (Pres.fail Frozen.pre _) (Pres.ite (frozen_setConn _) (Pres.bind Frozen.pre (frozen_store _ _) fun _ =>
      Pres.bind Frozen.pre (frozen_send ok _) fun _ => Pres.bind Frozen.pre (frozen_setConn _) fun _ => fun s => .same rfl rfl rfl rfl rfl))
  · exact Pres.bind Frozen.pre (hl _) fun _ => Pres.bind Frozen.pre (hl _) fun _ => Pres.bind Frozen.pre (hl _) fun _ => frozen_setConn _
  · refine Pres.bind Frozen.pre (hl _) fun _ => Pres.bind Frozen.pre (hl _) fun _ => Pres.bind Frozen.pre (hl _) fun d s => ?_
    unfold handlePiece
    have := fun a b => frozen_store fates (putBlock cfg.store a b d) s
    split <;> rename_i he <;> have := (congrArg (fun x => Frozen s x.2) he).mp (this _ _)
    · exact Frozen.pre.trans this (Pres.bind Frozen.pre (frozen_setConn _) (fun _ s => .same rfl rfl rfl rfl rfl) _)
    · split <;> exact this
    all_goals exact this
theorem frozen_handshake (ok : Bool) (rd : Rd) : Pres Frozen (handshake ok cfg r rd) := by
  unfold handshake
  refine Pres.bind Frozen.pre (Pres.getConn Frozen.pre r) fun _ => Pres.ite (Pres.fail Frozen.pre _) (Pres.bind Frozen.pre (Pres.lift Frozen.pre _) fun x => ?_)
  obtain ⟨phs, rd'⟩ := x
  exact Pres.bind Frozen.pre (frozen_setConn _) fun _ => Pres.ite (Pres.fail Frozen.pre _) (Pres.ite (Pres.fail Frozen.pre _) (Pres.bind Frozen.pre (frozen_setConn _) fun _ =>
    Pres.ite (Pres.fail Frozen.pre _) (Pres.pure Frozen.pre _)))
theorem frozen_next {ok err : Phase} {x : Outcome Unit × State} {s : State} (h : Frozen s x.2) : Frozen s (next r ok err x).2 := ⟨h.keep⟩

theorem frozen_act {s s' : State} {o : Outcome Unit} {e : Event} {l : Luck} (h : act cfg l s e = some (o, s')) : Frozen s s' := by
  have mine : ∀ {r ok err x}, Frozen s x.2 → some (next r ok err x) = some (o, s') → s.locked = true → _ := fun {r ok err x} h1 h2 => by
    injection h2 with h2
    have := frozen_next (r := r) (ok := ok) (err := err) h1
    rw [h2] at this; exact this.keep
  refine ⟨fun hl => ?_⟩
  have keep : Frozen s s := Frozen.pre.refl s
  cases e with
  | accept ip port =>
    simp only [act] at h
    split at h
    · cases h
    · cases h; exact ⟨hl, rfl, rfl, rfl, rfl⟩
  | takeAddr =>
    simp only [act] at h
    split at h <;> cases h
    exact ⟨hl, rfl, rfl, rfl, rfl⟩
  | spawn =>
    simp only [act] at h
    split at h
    · split at h
      · cases h
      · cases h; exact ⟨hl, rfl, rfl, rfl, rfl⟩
    · cases h
  | dialCheck k =>
    simp only [act] at h
    split at h
    · split at h
      · rw [if_pos hl] at h
        cases h; exact ⟨hl, rfl, rfl, rfl, rfl⟩
      · cases h; exact ⟨hl, rfl, rfl, rfl, rfl⟩
    · cases h
  | dial k b =>
    simp only [act] at h
    split at h
    · split at h <;> (cases h; exact ⟨hl, rfl, rfl, rfl, rfl⟩)
    · cases h
  | check r =>
    simp only [act] at h
    split at h
    · have : (connectCheck r s) = (.stuck, s) := by
        unfold connectCheck
        rw [bind_apply]
        unfold Act.lock
        rw [if_pos hl]
      rw [this] at h
      exact mine keep h hl
    · cases h
  | handshake r rd =>
    simp only [act] at h
    split at h
    · exact mine (frozen_handshake _ _ s) h hl
    · cases h
  | register r =>
    simp only [act] at h
    split at h
    · exact mine (frozen_locked _ s) h hl
    · cases h
  | receive r rd =>
    simp only [act] at h
    split at h
    · split at h
      · split at h
        · cases h; exact ⟨hl, rfl, rfl, rfl, rfl⟩
        · exact mine keep h hl
        · cases h; exact ⟨hl, rfl, rfl, rfl, rfl⟩
      · cases h
    · cases h
  | handle r =>
    simp only [act] at h
    split at h
    · exact mine (frozen_handleMessage _ _ _ s) h hl
    · cases h
  | fails r =>
    simp only [act] at h
    split at h
    · exact mine keep h hl
    · cases h
  | leave r =>
    simp only [act] at h
    split at h
    · exact mine (frozen_locked _ s) h hl
    · cases h
  | unchoke r =>
    simp only [act] at h
    split at h
    · injection h with h
      have := frozen_unchoke (r := r) (l.ok r) s |>.keep hl
      rw [h] at this; exact this
    · cases h
  | addPeer tp =>
    injection h with h
    have : Frozen s (addPeer tp s).2 := frozen_locked _ s
    rw [h] at this; exact this.keep hl
  | select k =>
    simp only [act] at h
    split at h
    · rename_i r _
      have : requestPieceFromPeer (l.ok r) l.coins l.pdq r s = (.stuck, s) := by unfold requestPieceFromPeer; rw [locked_apply, if_pos hl]
      rw [this] at h
      cases h; exact ⟨hl, rfl, rfl, rfl, rfl⟩
    · cases h
  | begin k =>
    simp only [act] at h
    split at h
    · rename_i r i _
      have := frozen_store l.fates (resetPiece (i : Int)) s |>.keep hl
      generalize Act.store l.fates (resetPiece (i : Int)) s = x at h this
      obtain ⟨o1, s1⟩ := x
      cases h; exact this
    · cases h
  | request k q =>
    simp only [act] at h
    split at h
    · split at h
      · injection h with h
        have := fun r m => (frozen_send (r := r) (l.ok r) m s).keep hl
        rw [← show (send _ _ _ s).2 = s' from congrArg Prod.snd h]; exact this _ _
      · cases h
    · cases h
  | finish k res =>
    simp only [act] at h
    split at h
    · rename_i r i _
      split at h
      · have : Frozen s (finish l.ok l.order r i res s).2 := by
          unfold finish
          cases res with
          | failed => exact keep
          | checksum => exact Pres.attempt Frozen.pre (frozen_locked _) s
          | complete =>
            refine Pres.attempt Frozen.pre (fun s => ⟨fun hl => ?_⟩) s
            rw [bind_apply]
            unfold Act.lock
            rw [if_pos hl]
            exact ⟨hl, rfl, rfl, rfl, rfl⟩
        have := this.keep hl
        generalize finish l.ok l.order r i res s = x at h this
        obtain ⟨o1, s1⟩ := x
        cases o1 with
        | stuck => cases h; exact ⟨hl, rfl, rfl, rfl, rfl⟩
        | _ => cases h; exact this
      · cases h
    · cases h
  | hand k =>
    simp only [act] at h
    split at h
    · split at h <;> (cases h; exact ⟨hl, rfl, rfl, rfl, rfl⟩)
    · cases h
  | clear k =>
    simp only [act] at h
    split at h
    · cases h; exact ⟨hl, rfl, rfl, rfl, rfl⟩
    · cases h
  | again k timer =>
    simp only [act] at h
    split at h
    · split at h <;> (cases h; exact ⟨hl, rfl, rfl, rfl, rfl⟩)
    · split at h
      · cases h; exact ⟨hl, rfl, rfl, rfl, rfl⟩
      · cases h
    · cases h
  | cancel => cases h; exact ⟨hl, rfl, rfl, rfl, rfl⟩
  | quit =>
    simp only [act] at h
    split at h
    · cases h; exact ⟨hl, rfl, rfl, rfl, rfl⟩
    · cases h
  | stop =>
    simp only [act] at h
    split at h
    · injection h with h
      have : Frozen s (stop s).2 := frozen_locked _ s
      rw [h] at this; exact this.keep hl
    · cases h

theorem frozen_run (s : State) (es : List (Event × Luck)) : Frozen s (run cfg s es) := by
  induction es generalizing s with
  | nil => exact Frozen.pre.refl s
  | cons e es ih =>
    refine Frozen.pre.trans ?_ (ih _)
    rcases step_alive (cfg := cfg) s e with hs | ⟨_, o, s', hact, hs⟩
    · rw [hs]; exact Frozen.pre.refl s
    · have := frozen_act hact
      rcases hs with ⟨_, hs⟩ | ⟨_, hs⟩ <;> rw [hs] <;> exact ⟨this.keep⟩

end Drip.P2P
