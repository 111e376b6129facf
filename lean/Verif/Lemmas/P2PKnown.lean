import Verif.Lemmas.P2PLock
import Verif.Lemmas.P2PAddrs
/-
The addresses that are recorded are those of peers that are connected.
-/

namespace Drip.P2P
open PeerWire Metainfo
open Storage (Fate World Op runOp getBlock putBlock resetPiece)

variable {cfg : Cfg} {r : Ref}

/-- An address that is recorded belongs to an identity that is active, and is recorded there. -/
def Known (s : State) : Prop := ∀ a k, mget s.knownIDIPs a = some k → a ∈ (mget s.knownAddrs k).getD [] ∧ (mget s.activePeers k).isSome = true

structure Kn (s s' : State) : Prop where
  keep : Known s → Known s'
  old : ∀ a k, mget s'.knownIDIPs a = some k → mget s.knownIDIPs a = some k

theorem Kn.pre : Pre Kn where
  refl _ := ⟨id, fun _ _ => id⟩
  trans h1 h2 := ⟨fun h => h2.keep (h1.keep h), fun a k h => h1.old a k (h2.old a k h)⟩

theorem Kn.same {s s' : State} (h1 : s'.knownIDIPs = s.knownIDIPs) (h2 : s'.knownAddrs = s.knownAddrs) (h3 : s'.activePeers = s.activePeers) : Kn s s' :=
  ⟨fun h a k hk => by rw [h2, h3]; exact h a k (by rw [← h1]; exact hk), fun a k hk => by rw [← h1]; exact hk⟩

theorem kn_locked {α : Type} {p : Act α} (hp : Pres Kn p) : Pres Kn (Act.locked p) := Pres.locked Kn.pre (fun _ _ => .same rfl rfl rfl) hp
theorem kn_setConn (f : Conn → Conn) : Pres Kn (setConn r f) := fun _ => .same rfl rfl rfl
theorem kn_store {α : Type} (fates : List Fate) (p : Op α) : Pres Kn (Act.store fates p) := fun s => by
  unfold Act.store; split <;> exact .same rfl rfl rfl
theorem kn_send (ok : Bool) (m : Message) : Pres Kn (send ok r m) := by
  unfold send
  exact Pres.bind Kn.pre (Pres.getConn Kn.pre r) fun _ => Pres.ite (Pres.fail Kn.pre _) (Pres.ite (kn_setConn _) (Pres.fail Kn.pre _))
theorem kn_interest (ok : Bool) : Pres Kn (interest ok r) := by
  unfold interest
  exact Pres.bind Kn.pre (Pres.getConn Kn.pre r) fun _ => Pres.ite (Pres.bind Kn.pre (kn_setConn _) fun _ => kn_send ok _) (Pres.pure Kn.pre _)
theorem kn_notInterest (ok : Bool) : Pres Kn (notInterest ok r) := by
  unfold notInterest
  exact Pres.bind Kn.pre (Pres.getConn Kn.pre r) fun _ => Pres.ite (Pres.bind Kn.pre (kn_setConn _) fun _ => kn_send ok _) (Pres.pure Kn.pre _)
theorem kn_unchoke (ok : Bool) : Pres Kn (unchoke ok r) := by
  unfold unchoke
  exact Pres.bind Kn.pre (Pres.getConn Kn.pre r) fun _ => Pres.ite (Pres.bind Kn.pre (kn_setConn _) fun _ => kn_send ok _) (Pres.pure Kn.pre _)
theorem kn_queuePeer : Pres Kn (QueuePeer r) := by
  unfold QueuePeer queuePeer
  exact kn_locked (Pres.bind Kn.pre (Pres.getConn Kn.pre r) fun _ => Pres.ite (Pres.pure Kn.pre _) (Pres.bind Kn.pre (Pres.get Kn.pre) fun _ => Pres.ite (Pres.pure Kn.pre _)
    (Pres.bind Kn.pre (fun _ => .same rfl rfl rfl) fun _ => Pres.ite (Pres.stuck Kn.pre) (fun _ => .same rfl rfl rfl))))
theorem kn_handleHave (ok : Bool) (i : Int) : Pres Kn (handleHave ok r i) := by
  unfold handleHave
  exact Pres.bind Kn.pre (Pres.getConn Kn.pre r) fun _ => Pres.bind Kn.pre (Pres.lift Kn.pre _) fun _ => Pres.bind Kn.pre (kn_setConn _) fun _ =>
    Pres.bind Kn.pre (kn_locked fun _ => .same rfl rfl rfl) fun _ => Pres.bind Kn.pre (Pres.torrentBitfield Kn.pre) fun _ => Pres.bind Kn.pre (Pres.lift Kn.pre _) fun _ =>
      Pres.ite (Pres.bind Kn.pre kn_queuePeer fun _ => kn_interest ok) (Pres.pure Kn.pre _)
theorem kn_handleItems (ok : Bool) : ∀ is : List Nat, Pres Kn (handleItems ok r is)
  | [] => Pres.pure Kn.pre _
  | i :: is => Pres.bind Kn.pre (kn_handleHave ok i) fun _ => kn_handleItems ok is
theorem kn_handleMessage (fates : List Fate) (ok : Bool) (m : Message) : Pres Kn (handleMessage fates ok cfg r m) := by
  have hl : ∀ {α : Type} (x : Res α), Pres Kn (Act.lift x) := fun x => Pres.lift Kn.pre x
  unfold handleMessage
  refine Pres.ite (kn_setConn _) (Pres.ite (Pres.bind Kn.pre (kn_setConn _) fun _ => kn_queuePeer) (Pres.ite (kn_setConn _) (Pres.ite (kn_setConn _) (Pres.ite ?_ (Pres.ite ?_
    (Pres.ite ?_ (Pres.ite ?_ (Pres.ite ?_ (Pres.pure Kn.pre _)))))))))
  · exact Pres.bind Kn.pre (hl _) fun _ => kn_handleHave ok _
  · exact Pres.bind Kn.pre (hl _) fun _ => kn_handleItems ok _
  · refine Pres.bind Kn.pre (hl _) fun _ => Pres.bind Kn.pre (hl _) fun _ => Pres.bind Kn.pre (hl _) fun _ => ?_
    unfold handleRequest
    exact Pres.bind Kn.pre (Pres.getConn Kn.pre r) fun _ => Pres.ite (Pres.fail Kn.pre _) (Pres.ite (kn_setConn _) (Pres.bind Kn.pre (kn_store _ _) fun _ =>
      Pres.bind Kn.pre (kn_send ok _) fun _ => Pres.bind Kn.pre (kn_setConn _) fun _ => fun s => .same rfl rfl rfl))
  · exact Pres.bind Kn.pre (hl _) fun _ => Pres.bind Kn.pre (hl _) fun _ => Pres.bind Kn.pre (hl _) fun _ => kn_setConn _
  · refine Pres.bind Kn.pre (hl _) fun _ => Pres.bind Kn.pre (hl _) fun _ => Pres.bind Kn.pre (hl _) fun d s => ?_
    unfold handlePiece
    have := fun a b => kn_store fates (putBlock cfg.store a b d) s
    split <;> rename_i he <;> have := (congrArg (fun x => Kn s x.2) he).mp (this _ _)
    · exact Kn.pre.trans this (Pres.bind Kn.pre (kn_setConn _) (fun _ s => .same rfl rfl rfl) _)
    · split <;> exact this
    all_goals exact this
theorem kn_handshake (ok : Bool) (rd : Rd) : Pres Kn (handshake ok cfg r rd) := by
  unfold handshake
  refine Pres.bind Kn.pre (Pres.getConn Kn.pre r) fun _ => Pres.ite (Pres.fail Kn.pre _) (Pres.bind Kn.pre (Pres.lift Kn.pre _) fun x => ?_)
  obtain ⟨phs, rd'⟩ := x
  exact Pres.bind Kn.pre (kn_setConn _) fun _ => Pres.ite (Pres.fail Kn.pre _) (Pres.ite (Pres.fail Kn.pre _) (Pres.bind Kn.pre (kn_setConn _) fun _ =>
    Pres.ite (Pres.fail Kn.pre _) (Pres.pure Kn.pre _)))
theorem kn_sendHave (oks : Ref → Bool) (i : Nat) : ∀ rs, Pres Kn (sendHave oks i rs)
  | [] => Pres.pure Kn.pre _
  | _ :: rs => Pres.bind Kn.pre (Pres.getConn Kn.pre _) fun _ => Pres.ite (kn_sendHave oks i rs) (Pres.bind Kn.pre (kn_send _ _) fun _ => kn_sendHave oks i rs)

theorem mget_forgetAddrs (k : Bytes) (as : List Bytes) (m : List (Bytes × Bytes)) (a : Bytes) :
    mget (forgetAddrs k m as) a = if a ∈ as ∧ mget m a = some k then none else mget m a := by
  induction as generalizing m with
  | nil => simp [forgetAddrs]
  | cons b as ih =>
    rw [forgetAddrs, ih]
    by_cases hb : mget m b = some k
    · rw [if_pos hb, mget_mdel]
      by_cases e : a = b
      · subst e
        simp [hb]
      · simp [e]
    · rw [if_neg hb]
      by_cases e : a = b
      · subst e; simp [hb]
      · simp [e]

theorem kn_disconnect : Pres Kn (disconnect r) := by
  unfold disconnect
  refine Pres.bind Kn.pre (Pres.getConn Kn.pre r) fun c => Pres.bind Kn.pre (fun s => ⟨fun h a k hk => ?_, fun a k hk => ?_⟩) fun _ => kn_setConn _
  · rw [modify_apply] at hk ⊢
    simp only at hk ⊢
    rw [mget_forgetAddrs] at hk
    split at hk
    · cases hk
    · rename_i hn
      obtain ⟨h1, h2⟩ := h a k hk
      have hne : k ≠ c.idip := fun e => hn ⟨by rw [← e]; exact h1, by rw [← e]; exact hk⟩
      rw [mget_mdel, mget_mdel, if_neg hne, if_neg hne]
      exact ⟨h1, h2⟩
  · rw [modify_apply] at hk
    simp only at hk
    rw [mget_forgetAddrs] at hk
    split at hk
    · cases hk
    · exact hk

theorem kn_block : Pres Kn (block r) := by
  unfold block
  exact kn_locked (Pres.bind Kn.pre (Pres.getConn Kn.pre r) fun _ => Pres.bind Kn.pre (fun _ => .same rfl rfl rfl) fun _ => kn_disconnect)

theorem kn_disconnectAll : ∀ rs, Pres Kn (disconnectAll rs)
  | [] => Pres.pure Kn.pre _
  | _ :: rs => Pres.bind Kn.pre kn_disconnect fun _ => kn_disconnectAll rs

theorem kn_stop : Pres Kn stop := by
  unfold stop
  exact kn_locked (Pres.bind Kn.pre (fun _ => .same rfl rfl rfl) fun _ => Pres.bind Kn.pre (Pres.get Kn.pre) fun _ => Pres.bind Kn.pre (kn_disconnectAll _) fun _ =>
    fun _ => .same rfl rfl rfl)

theorem kn_connectCheck : Pres Kn (connectCheck r) := by
  unfold connectCheck
  refine Pres.bind Kn.pre (fun s => ?_) fun _ => Pres.bind Kn.pre (Pres.get Kn.pre) fun s => Pres.bind Kn.pre (Pres.getConn Kn.pre r) fun c => Pres.ite (Pres.fail Kn.pre _) ?_
  · unfold Act.lock; split <;> exact .same rfl rfl rfl
  · split
    · exact Pres.ite (Pres.fail Kn.pre _) fun _ => .same rfl rfl rfl
    · exact fun _ => .same rfl rfl rfl

theorem kn_addPeer (tp : Tracker.Peer) : Pres Kn (addPeer tp) := by
  unfold addPeer
  exact kn_locked (Pres.bind Kn.pre (Pres.lift Kn.pre _) fun _ => Pres.bind Kn.pre (Pres.get Kn.pre) fun _ => Pres.ite (Pres.pure Kn.pre _) (Pres.ite (Pres.pure Kn.pre _)
    (Pres.ite (fun _ => .same rfl rfl rfl) (Pres.pure Kn.pre _))))

theorem kn_requestPieceFromPeer (ok : Bool) (coins : List Bool) (pdq : List Nat → List Nat) : Pres Kn (requestPieceFromPeer ok coins pdq r) := by
  unfold requestPieceFromPeer
  refine kn_locked (Pres.bind Kn.pre (Pres.getConn Kn.pre r) fun _ => Pres.ite (fun _ => .same rfl rfl rfl) (Pres.bind Kn.pre (Pres.torrentBitfield Kn.pre) fun _ =>
    Pres.ite (Pres.bind Kn.pre (fun _ => .same rfl rfl rfl) fun _ => kn_notInterest ok) (Pres.bind Kn.pre (Pres.get Kn.pre) fun _ => ?_)))
  split <;> exact fun _ => .same rfl rfl rfl

theorem kn_finish (oks : Ref → Bool) (order : List Ref → List Ref) (i : Nat) (res : Result) : Pres Kn (finish oks order r i res) := by
  unfold finish
  cases res with
  | failed => exact Pres.pure Kn.pre _
  | checksum => exact Pres.attempt Kn.pre kn_block
  | complete =>
    refine Pres.attempt Kn.pre (Pres.bind Kn.pre (fun s => ?_) fun _ => Pres.bind Kn.pre (fun _ => .same rfl rfl rfl) fun _ => Pres.bind Kn.pre (Pres.get Kn.pre) fun _ => kn_sendHave _ _ _)
    unfold Act.lock; split <;> exact .same rfl rfl rfl

theorem kn_next {ok err : Phase} {x : Outcome Unit × State} {s : State} (h : Kn s x.2) : Kn s (next r ok err x).2 :=
  Kn.pre.trans h (.same rfl rfl rfl)

/-- Every event but the registration of a connection. -/
theorem kn_act {s s' : State} {o : Outcome Unit} {e : Event} {l : Luck} (hne : ∀ r, e ≠ .register r) (h : act cfg l s e = some (o, s')) : Kn s s' := by
  have keep : Kn s s := Kn.pre.refl s
  have mine : ∀ {r ok err x}, Kn s x.2 → some (next r ok err x) = some (o, s') → Kn s s' := fun {r ok err x} h1 h2 => by
    injection h2 with h2
    have := kn_next (r := r) (ok := ok) (err := err) h1
    rw [h2] at this; exact this
  cases e with
  | register r => exact absurd rfl (hne r)
  | check r =>
    simp only [act] at h
    split at h
    · exact mine (kn_connectCheck s) h
    · cases h
  | handshake r rd =>
    simp only [act] at h
    split at h
    · exact mine (kn_handshake _ _ s) h
    · cases h
  | receive r rd =>
    simp only [act] at h
    split at h
    · split at h
      · split at h
        · cases h; exact .same rfl rfl rfl
        · exact mine keep h
        · cases h; exact keep
      · cases h
    · cases h
  | handle r =>
    simp only [act] at h
    split at h
    · exact mine (kn_handleMessage _ _ _ s) h
    · cases h
  | fails r =>
    simp only [act] at h
    split at h
    · exact mine keep h
    · cases h
  | leave r =>
    simp only [act] at h
    split at h
    · exact mine (kn_locked kn_disconnect s) h
    · cases h
  | unchoke r =>
    simp only [act] at h
    split at h
    · injection h with h
      have := kn_unchoke (r := r) (l.ok r) s
      rw [h] at this; exact this
    · cases h
  | addPeer tp =>
    injection h with h
    have := kn_addPeer tp s
    rw [h] at this; exact this
  | select k =>
    simp only [act] at h
    split at h
    · rename_i r _
      have := kn_requestPieceFromPeer (r := r) (l.ok r) l.coins l.pdq s
      generalize requestPieceFromPeer (l.ok r) l.coins l.pdq r s = x at h this
      obtain ⟨o1, s1⟩ := x
      cases o1 with
      | stuck => cases h; exact keep
      | _ => cases h; exact Kn.pre.trans this (.same rfl rfl rfl)
    · cases h
  | begin k =>
    simp only [act] at h
    split at h
    · rename_i r i _
      have := kn_store l.fates (resetPiece (i : Int)) s
      generalize Act.store l.fates (resetPiece (i : Int)) s = x at h this
      obtain ⟨o1, s1⟩ := x
      cases h; exact Kn.pre.trans this (.same rfl rfl rfl)
    · cases h
  | request k q =>
    simp only [act] at h
    split at h
    · split at h
      · injection h with h
        have := fun r m => kn_send (r := r) (l.ok r) m s
        rw [← show (send _ _ _ s).2 = s' from congrArg Prod.snd h]; exact this _ _
      · cases h
    · cases h
  | finish k res =>
    simp only [act] at h
    split at h
    · rename_i r i _
      split at h
      · have := kn_finish (r := r) l.ok l.order i res s
        generalize finish l.ok l.order r i res s = x at h this
        obtain ⟨o1, s1⟩ := x
        cases o1 with
        | stuck => cases h; exact keep
        | _ => cases h; exact Kn.pre.trans this (.same rfl rfl rfl)
      · cases h
    · cases h
  | stop =>
    simp only [act] at h
    split at h
    · injection h with h
      have := kn_stop s
      rw [h] at this; exact this
    · cases h
  | _ =>
    simp only [act] at h
    repeat' split at h
    all_goals first | (cases h; done) | (cases h; exact .same rfl rfl rfl)

/-- The maps are the same. -/
structure SameMaps (s s' : State) : Prop where
  idips : s'.knownIDIPs = s.knownIDIPs
  addrs : s'.knownAddrs = s.knownAddrs
  active : s'.activePeers = s.activePeers

theorem SameMaps.pre : Pre SameMaps where
  refl _ := ⟨rfl, rfl, rfl⟩
  trans h1 h2 := ⟨h2.idips.trans h1.idips, h2.addrs.trans h1.addrs, h2.active.trans h1.active⟩

theorem sameMaps_send (ok : Bool) (m : Message) : Pres SameMaps (send ok r m) := by
  unfold send
  exact Pres.bind SameMaps.pre (Pres.getConn SameMaps.pre r) fun _ => Pres.ite (Pres.fail SameMaps.pre _) (Pres.ite (fun _ => ⟨rfl, rfl, rfl⟩) (Pres.fail SameMaps.pre _))

/-- The registration of a connection: nothing changes, or the address is recorded for the identity, which is active then. -/
structure Recorded (c : Conn) (s s' : State) : Prop where
  idips : s'.knownIDIPs = mput s.knownIDIPs c.addr c.idip
  addrs : s'.knownAddrs = mput s.knownAddrs c.idip (sadd ((mget s.knownAddrs c.idip).getD []) c.addr)
  active : ∀ k, (mget s'.activePeers k).isSome = true ↔ k = c.idip ∨ (mget s.activePeers k).isSome = true

theorem locked_maps {α : Type} {p : Act α} {s : State} {Q : State → Prop} (hQ : ∀ s s', SameMaps s s' → Q s → Q s') (h0 : Q s) (h : Q (p { s with locked := true }).2) : Q (Act.locked p s).2 := by
  rw [locked_apply]
  split
  · exact h0
  · generalize p { s with locked := true } = x at h
    obtain ⟨o, s'⟩ := x
    cases o <;> first | exact h | exact hQ s' _ ⟨rfl, rfl, rfl⟩ h

theorem register_maps {s : State} {c : Conn} (hc : s.peers[r]? = some c) (ok : Bool) : SameMaps s (connectRegister ok r s).2 ∨ Recorded c s (connectRegister ok r s).2 := by
  unfold connectRegister
  refine locked_maps (Q := fun s' => SameMaps s s' ∨ Recorded c s s') (fun s1 s2 h => ?_) (.inl (SameMaps.pre.refl s)) ?_
  · rintro (h1 | h1)
    · exact .inl (SameMaps.pre.trans h1 h)
    · exact .inr ⟨h.idips.trans h1.idips, h.addrs.trans h1.addrs, fun k => by rw [h.active]; exact h1.active k⟩
  · rw [bind_apply, get_apply]
    simp only
    rw [bind_apply, getConn_some (s := { s with locked := true }) hc]
    simp only
    split
    · exact .inl ⟨rfl, rfl, rfl⟩
    · rw [bind_apply, modify_apply]
      simp only
      split
      · rename_i hs
        refine .inr ⟨rfl, rfl, fun k => ⟨fun h => .inr h, ?_⟩⟩
        rintro (rfl | h)
        · exact hs
        · exact h
      · right
        rw [bind_apply, modify_apply]
        simp only
        have := Pres.bind SameMaps.pre (p := setConn r fun c => { c with registered := true }) (k := fun _ => torrentBitfield >>= fun bf => send ok r (bitfieldMsg bf)) (fun _ => ⟨rfl, rfl, rfl⟩)
          (fun _ => Pres.bind SameMaps.pre (Pres.torrentBitfield SameMaps.pre) fun _ => sameMaps_send ok _)
          { s with locked := true, knownAddrs := mput s.knownAddrs c.idip (sadd ((mget s.knownAddrs c.idip).getD []) c.addr), knownIDIPs := mput s.knownIDIPs c.addr c.idip, activePeers := mput s.activePeers c.idip r }
        refine ⟨this.idips, this.addrs, fun k => ?_⟩
        have h3 := this.active
        simp only at h3
        rw [show (mget _ k) = mget (mput s.activePeers c.idip r) k from congrArg (mget · k) h3, mget_mput]
        by_cases e : k = c.idip
        · simp [e]
        · simp [e]

/-- The identity of a connection is settled. -/
def Settled (c : Conn) : Prop := c.phase ≠ .fresh ∧ c.phase ≠ .checked

theorem Change.settled {may : May} {s : State} {c c' : Conn} (h : Change cfg may s r c c') (hc : Settled c) : Settled c' ∧ c'.addr = c.addr ∧ c'.idip = c.idip := by
  obtain ⟨h1, h2⟩ := hc
  cases h with
  | phase ph _ _ hp =>
    refine ⟨⟨?_, ?_⟩, rfl, rfl⟩
    · rintro rfl; exact hp
    · rintro rfl; exact h1 hp
  | ident hs hch => exact absurd hch h2
  | receive m rd rd' => exact ⟨⟨by simp, by simp⟩, rfl, rfl⟩
  | _ => exact ⟨⟨h1, h2⟩, rfl, rfl⟩

/-- Somebody has connected from an address with an identity. -/
def Seen (s : State) (a k : Bytes) : Prop := ∃ (y : Ref) (c : Conn), s.peers[y]? = some c ∧ Settled c ∧ c.addr = a ∧ c.idip = k

theorem Seen.small {may : May} {s s' : State} {a k : Bytes} (h : Seen s a k) (hs : Small cfg may s s') : Seen s' a k := by
  obtain ⟨y, c, hc, h1, h2, h3⟩ := h
  have hset : ∀ (x : Ref) (p q : Conn), s.peers[x]? = some p → (Settled p → Settled q ∧ q.addr = p.addr ∧ q.idip = p.idip) → ∃ (y : Ref) (c : Conn), (s.peers.set x q)[y]? = some c ∧ Settled c ∧ c.addr = a ∧ c.idip = k := by
    intro x p q hp hq
    rcases set_get (c' := q) hp hc with ⟨e1, e, h⟩ | ⟨_, h⟩
    · subst e
      obtain ⟨a1, a2, a3⟩ := hq h1
      exact ⟨_, q, h, a1, a2.trans h2, a3.trans h3⟩
    · exact ⟨y, c, h, h1, h2, h3⟩
  cases hs with
  | new id ip port _ => exact ⟨y, c, by rw [List.getElem?_append_left (List.getElem?_eq_some_iff.1 hc).1]; exact hc, h1, h2, h3⟩
  | upd x p q hp hq => exact hset x p q hp hq.settled
  | upload x p q d f h0 hp => exact hset x p (p.gave q d) hp fun h => ⟨h, rfl, rfl⟩
  | join x p ms ph hp hx h2 h3 h4 h5 h6 =>
    refine hset x p (p.join ms ph) hx fun _ => ⟨?_, rfl, rfl⟩
    unfold Settled Conn.join
    rcases h5 with ⟨_, rfl | rfl⟩ | ⟨_, rfl, _⟩ <;> exact ⟨by simp, by simp⟩
  | _ => exact ⟨y, c, hc, h1, h2, h3⟩

theorem Seen.smalls {may : May} {s s' : State} {a k : Bytes} (h : Seen s a k) (hs : Smalls cfg may s s') : Seen s' a k := by
  induction hs with
  | refl => exact h
  | tail _ h ih => exact ih.small h

/-- What is recorded. -/
structure KnownInv (s : State) : Prop where
  known : Known s
  seen : ∀ a k, mget s.knownIDIPs a = some k → Seen s a k

theorem KnownInv.step {s : State} (h : KnownInv s) (hi : Inv cfg s) (e : Event × Luck) : KnownInv (P2P.step cfg s e) := by
  have hseen : ∀ {a k}, Seen s a k → Seen (P2P.step cfg s e) a k := fun h => h.smalls (step_small (cfg := cfg) e hi.pendOK)
  rcases step_alive (cfg := cfg) s e with hs | ⟨_, o, s', hact, hs⟩
  · rw [hs]; exact h
  have hm : SameMaps s' (P2P.step cfg s e) := by
    rcases hs with ⟨_, hs⟩ | ⟨_, hs⟩ <;> rw [hs] <;> exact ⟨rfl, rfl, rfl⟩
  by_cases hr : ∃ r, e.1 = .register r
  · obtain ⟨r, hr⟩ := hr
    rw [hr] at hact
    simp only [act] at hact
    split at hact
    · rename_i hat
      obtain ⟨c, hc, hph⟩ : ∃ c, s.peers[r]? = some c ∧ c.phase = .shaken := by
        unfold at_ at hat
        cases hc : s.peers[r]? with
        | none => simp [hc] at hat
        | some c => exact ⟨c, rfl, by simpa [hc] using hat⟩
      injection hact with hact
      have hm : SameMaps (connectRegister (e.2.ok r) r s).2 (P2P.step cfg s e) := by
        have h1 : (next r (.serving none) .ended (connectRegister (e.2.ok r) r s)).2 = s' := congrArg Prod.snd hact
        exact SameMaps.pre.trans (by rw [← h1]; exact ⟨rfl, rfl, rfl⟩) hm
      rcases register_maps hc (e.2.ok r) with h1 | h1
      · have h2 := SameMaps.pre.trans h1 hm
        refine ⟨fun a k hk => ?_, fun a k hk => ?_⟩
        · rw [h2.idips] at hk; rw [h2.addrs, h2.active]; exact h.known a k hk
        · rw [h2.idips] at hk; exact hseen (h.seen a k hk)
      · refine ⟨fun a k hk => ?_, fun a k hk => ?_⟩
        · rw [hm.idips, h1.idips, mget_mput] at hk
          rw [hm.addrs, h1.addrs, hm.active, h1.active, mget_mput]
          split at hk
          · rename_i ha
            injection hk with hk; subst hk ha
            refine ⟨?_, .inl rfl⟩
            rw [if_pos rfl, Option.getD_some]
            exact mem_sadd.2 (.inl rfl)
          · obtain ⟨h2, h3⟩ := h.known a k hk
            refine ⟨?_, .inr h3⟩
            split
            · rename_i e; subst e
              rw [Option.getD_some]
              exact mem_sadd.2 (.inr h2)
            · exact h2
        · rw [hm.idips, h1.idips, mget_mput] at hk
          split at hk
          · rename_i ha
            injection hk with hk; subst hk ha
            exact hseen ⟨r, c, hc, by unfold Settled; rw [hph]; exact ⟨by simp, by simp⟩, rfl, rfl⟩
          · exact hseen (h.seen a k hk)
    · cases hact
  · have hk := kn_act (fun r hr' => hr ⟨r, hr'⟩) hact
    refine ⟨fun a k h1 => ?_, fun a k h1 => ?_⟩
    · rw [hm.idips] at h1; rw [hm.addrs, hm.active]; exact hk.keep h.known a k h1
    · rw [hm.idips] at h1; exact hseen (h.seen a k (hk.old a k h1))

theorem known_run (w : World) (es : List (Event × Luck)) : KnownInv (run cfg (init w) es) :=
  (run_rec (cfg := cfg) (P := fun _ s => Inv cfg s ∧ KnownInv s) (init w) ⟨.init w, { known := fun a k h => (by cases h), seen := fun a k h => (by cases h) }⟩
    (fun _ e ih => ⟨ih.1.step e, ih.2.step ih.1 e⟩) es).2

end Drip.P2P
