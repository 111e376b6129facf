import Verif.Lemmas.P2PJobs
import Verif.Lemmas.P2PStore
/-
Who is asked for pieces: the goroutines that work for a peer, and which peers have one.
-/

namespace Drip.P2P
open PeerWire Metainfo
open Storage (Fate World Op runOp getBlock putBlock resetPiece)

variable {cfg : Cfg} {r : Ref}

/-! ### What most steps do not change -/

/-- What is known about the peer, and what was counted, is the same. -/
structure Same (c c' : Conn) : Prop where
  bitfield : c'.bitfield = c.bitfield
  interested : c'.interested = c.interested
  remoteChoked : c'.remoteChoked = c.remoteChoked
  remoteInterested : c'.remoteInterested = c.remoteInterested
  downloaded : c'.downloaded = c.downloaded
  closed : c.closed = true → c'.closed = true

theorem Same.refl (c : Conn) : Same c c := ⟨rfl, rfl, rfl, rfl, rfl, id⟩
theorem Same.trans {a b c : Conn} (h1 : Same a b) (h2 : Same b c) : Same a c :=
  ⟨h2.1.trans h1.1, h2.2.trans h1.2, h2.3.trans h1.3, h2.4.trans h1.4, h2.5.trans h1.5, fun h => h2.6 (h1.6 h)⟩

/-- The queues, the counters and the peers are the same. -/
structure Kq (cfg : Cfg) (s s' : State) : Prop where
  queued : s'.queuedPeers = s.queuedPeers
  toRequest : s'.toRequest = s.toRequest
  waiting : s'.waiting = s.waiting
  jobs : s'.jobs = s.jobs
  downloaded : s'.downloaded = s.downloaded
  alive : s'.alive = s.alive
  requesting : s'.requesting = s.requesting
  cancelled : s.cancelled = true → s'.cancelled = true
  peers : ∀ (x : Ref) (c : Conn), s.peers[x]? = some c → ∃ c', s'.peers[x]? = some c' ∧ Same c c'
  fresh : ∀ (x : Ref) (c' : Conn), s'.peers[x]? = some c' → s.peers[x]? = none → ∃ id ip port, Same (newConn cfg id ip port) c'

theorem Kq.pre : Pre (Kq cfg) := ⟨fun _ => ⟨rfl, rfl, rfl, rfl, rfl, rfl, rfl, id, fun _ c hc => ⟨c, hc, .refl c⟩, fun _ _ h1 h2 => by rw [h2] at h1; cases h1⟩, fun {a b c} h1 h2 =>
  ⟨h2.1.trans h1.1, h2.2.trans h1.2, h2.3.trans h1.3, h2.4.trans h1.4, h2.5.trans h1.5, h2.6.trans h1.6, h2.7.trans h1.7, fun h => h2.8 (h1.8 h), fun x d hd =>
    let ⟨d1, k1, e1⟩ := h1.9 x d hd
    let ⟨d2, k2, e2⟩ := h2.9 x d1 k1
    ⟨d2, k2, e1.trans e2⟩, fun x d hd hn => by
      cases hb : b.peers[x]? with
      | none => exact h2.10 x d hd hb
      | some d1 =>
        obtain ⟨id, ip, port, e1⟩ := h1.10 x d1 hb hn
        obtain ⟨d2, k2, e2⟩ := h2.9 x d1 hb
        rw [hd] at k2; injection k2 with k2; subst k2
        exact ⟨id, ip, port, e1.trans e2⟩⟩⟩

/-- The queues and the counters are the same; the peers are. -/
theorem Kq.same {s s' : State} (h : s'.peers = s.peers) (h1 : s'.queuedPeers = s.queuedPeers := by rfl) (h2 : s'.toRequest = s.toRequest := by rfl) (h3 : s'.waiting = s.waiting := by rfl)
    (h4 : s'.jobs = s.jobs := by rfl) (h5 : s'.downloaded = s.downloaded := by rfl) (h6 : s'.alive = s.alive := by rfl) (h7 : s'.requesting = s.requesting := by rfl)
    (h8 : s.cancelled = true → s'.cancelled = true := by first | exact id | exact fun _ => rfl) : Kq cfg s s' :=
  ⟨h1, h2, h3, h4, h5, h6, h7, h8, fun x c hc => ⟨c, h ▸ hc, .refl c⟩, fun x c h1 h2 => by rw [h, h2] at h1; cases h1⟩

theorem Kq.set {s : State} {c c' : Conn} (hc : s.peers[r]? = some c) (h : Same c c') : Kq cfg s { s with peers := s.peers.set r c' } :=
  ⟨rfl, rfl, rfl, rfl, rfl, rfl, rfl, id, fun x d hd => by
    rcases set_get (c' := c') hc hd with ⟨_, e, h1⟩ | ⟨_, h1⟩
    · subst e; exact ⟨c', h1, h⟩
    · exact ⟨d, h1, .refl d⟩, fun x d h1 h2 => by
    rcases set_cases h1 with ⟨rfl, _⟩ | ⟨_, h1⟩
    · rw [hc] at h2; cases h2
    · rw [h2] at h1; cases h1⟩

theorem kp_setConn (f : Conn → Conn) (h : ∀ c, Same c (f c) := by exact fun _ => ⟨rfl, rfl, rfl, rfl, rfl, id⟩) : Pres (Kq cfg) (setConn r f) := fun s => by
  rw [setConn_apply]
  cases hc : s.peers[r]? with
  | none => simp only [modify_none hc]; exact Kq.pre.refl s
  | some c => simp only [modify_some hc]; exact Kq.set hc (h c)

theorem kp_locked {α : Type} {p : Act α} (hp : Pres (Kq cfg) p) : Pres (Kq cfg) (Act.locked p) := Pres.locked Kq.pre (fun _ _ => Kq.same rfl) hp
theorem kp_modify (f : State → State) (h : ∀ s, Kq cfg s (f s) := by exact fun s => Kq.same rfl) : Pres (Kq cfg) (Act.modify f) := fun s => h s
theorem kp_send (ok : Bool) (m : Message) : Pres (Kq cfg) (send ok r m) := by
  unfold send
  exact Pres.bind Kq.pre (Pres.getConn Kq.pre r) fun _ => Pres.ite (Pres.fail Kq.pre _) (Pres.ite (kp_setConn _) (Pres.fail Kq.pre _))
theorem kp_unchoke (ok : Bool) : Pres (Kq cfg) (unchoke ok r) := by
  unfold unchoke
  exact Pres.bind Kq.pre (Pres.getConn Kq.pre r) fun _ => Pres.ite (Pres.bind Kq.pre (kp_setConn _) fun _ => kp_send ok _) (Pres.pure Kq.pre _)
theorem kp_store {α : Type} (fates : List Fate) (p : Op α) : Pres (Kq cfg) (Act.store fates p) := fun s => by
  rw [store_state]; exact Kq.same rfl
theorem kp_disconnect : Pres (Kq cfg) (disconnect r) :=
  Pres.bind Kq.pre (Pres.getConn Kq.pre r) fun _ => Pres.bind Kq.pre (kp_modify _) fun _ => kp_setConn _ fun _ => ⟨rfl, rfl, rfl, rfl, rfl, fun _ => rfl⟩
theorem kp_disconnectAll : ∀ rs : List Ref, Pres (Kq cfg) (disconnectAll rs)
  | [] => Pres.pure Kq.pre _
  | _ :: rs => Pres.bind Kq.pre kp_disconnect fun _ => kp_disconnectAll rs
theorem kp_sendHave (oks : Ref → Bool) (i : Nat) : ∀ rs : List Ref, Pres (Kq cfg) (sendHave oks i rs)
  | [] => Pres.pure Kq.pre _
  | r :: rs => Pres.bind Kq.pre (Pres.getConn Kq.pre r) fun _ => Pres.ite (kp_sendHave oks i rs) (Pres.bind Kq.pre (kp_send _ _) fun _ => kp_sendHave oks i rs)
theorem kp_finish (oks : Ref → Bool) (order : List Ref → List Ref) (i : Nat) (res : Result) : Pres (Kq cfg) (finish oks order r i res) := by
  unfold finish
  cases res with
  | failed => exact Pres.pure Kq.pre _
  | checksum => exact Pres.attempt Kq.pre (kp_locked (Pres.bind Kq.pre (Pres.getConn Kq.pre r) fun _ => Pres.bind Kq.pre (kp_modify _) fun _ => kp_disconnect))
  | complete =>
    refine Pres.attempt Kq.pre (Pres.bind Kq.pre (fun s => ?_) fun _ => Pres.bind Kq.pre (kp_modify _) fun _ => Pres.bind Kq.pre (Pres.get Kq.pre) fun _ => kp_sendHave _ _ _)
    unfold Act.lock; split <;> exact Kq.same rfl
theorem kp_next {ok err : Phase} {x : Outcome Unit × State} {s : State} (h : Kq cfg s x.2) : Kq cfg s (next r ok err x).2 := by
  refine Kq.pre.trans h ?_
  exact kp_setConn (r := r) (fun c => { c with phase := match x.1 with | .ok _ => ok | .err _ => err | _ => .hung }) (fun _ => ⟨rfl, rfl, rfl, rfl, rfl, id⟩) x.2
theorem Kq.new {s : State} {id ip : Bytes} {port : Nat} : Kq cfg s { s with peers := s.peers ++ [newConn cfg id ip port] } :=
  ⟨rfl, rfl, rfl, rfl, rfl, rfl, rfl, fun h => h, fun x c hc => ⟨c, by rw [List.getElem?_append_left (List.getElem?_eq_some_iff.1 hc).1]; exact hc, .refl c⟩, fun x c hc hn => by
    rcases getElem?_snoc hc with h | ⟨_, h⟩
    · rw [hn] at h; cases h
    · exact ⟨id, ip, port, h ▸ .refl _⟩⟩
theorem kp_connectRegister (ok : Bool) : Pres (Kq cfg) (connectRegister ok r) := by
  unfold connectRegister
  refine kp_locked (Pres.bind Kq.pre (Pres.get Kq.pre) fun _ => Pres.bind Kq.pre (Pres.getConn Kq.pre r) fun _ => Pres.ite (Pres.fail Kq.pre _) ?_)
  refine Pres.bind Kq.pre (kp_modify _) fun _ => Pres.ite (Pres.fail Kq.pre _) ?_
  refine Pres.bind Kq.pre (kp_modify _) fun _ => ?_
  refine Pres.bind Kq.pre (kp_setConn _) fun _ => ?_
  exact Pres.bind Kq.pre (Pres.torrentBitfield Kq.pre) fun bf => kp_send _ _

/-- The events that change the queues, what is known about a peer, or the counters. -/
def Touches : Event → Bool
  | .handle _ | .select _ | .begin _ | .finish _ _ | .hand _ | .clear _ | .again _ _ | .quit => true
  | _ => false

set_option maxHeartbeats 1000000 in
theorem kp_act {s s' : State} {o : Outcome Unit} {e : Event} {l : Luck} (ht : Touches e = false) (h : act cfg l s e = some (o, s')) : Kq cfg s s' := by
  have mine : ∀ {r ok err x}, Kq cfg s x.2 → some (next r ok err x) = some (o, s') → Kq cfg s s' := fun {r ok err x} h1 h2 => by
    injection h2 with h2
    have := kp_next (r := r) (ok := ok) (err := err) h1
    rw [h2] at this; exact this
  have keep : Kq cfg s s := Kq.pre.refl s
  cases e with
  | accept ip port =>
    simp only [act] at h
    split at h
    · cases h
    · cases h; exact Kq.new
  | takeAddr =>
    simp only [act] at h
    split at h <;> cases h
    exact Kq.same rfl
  | spawn =>
    simp only [act] at h
    split at h
    · split at h
      · cases h
      · cases h; exact Kq.same rfl
    · cases h
  | dialCheck k =>
    simp only [act] at h
    split at h
    · split at h
      · split at h
        · cases h; exact keep
        · split at h <;> (cases h; exact Kq.same rfl)
      · cases h; exact Kq.same rfl
    · cases h
  | dial k b =>
    simp only [act] at h
    split at h
    · split at h
      · cases h; exact Kq.pre.trans Kq.new (Kq.same rfl)
      · cases h; exact Kq.same rfl
    · cases h
  | check r =>
    simp only [act] at h
    split at h
    · refine mine ?_ h
      unfold connectCheck
      refine Pres.bind Kq.pre (fun s => ?_) (fun _ => Pres.bind Kq.pre (Pres.get Kq.pre) fun s => Pres.bind Kq.pre (Pres.getConn Kq.pre r) fun c => Pres.ite (Pres.fail Kq.pre _) ?_) s
      · unfold Act.lock; split <;> exact Kq.same rfl
      · cases mget s.knownIDIPs c.addr with
        | none => exact kp_modify _
        | some idip => exact Pres.ite (Pres.fail Kq.pre _) (kp_modify _)
    · cases h
  | handshake r rd =>
    simp only [act] at h
    split at h
    · refine mine ?_ h
      unfold handshake
      refine Pres.bind Kq.pre (Pres.getConn Kq.pre r) (fun _ => Pres.ite (Pres.fail Kq.pre _) (Pres.bind Kq.pre (Pres.lift Kq.pre _) fun x => ?_)) s
      obtain ⟨phs, rd'⟩ := x
      exact Pres.bind Kq.pre (kp_setConn _ fun _ => ⟨rfl, rfl, rfl, rfl, rfl, id⟩) fun _ => Pres.ite (Pres.fail Kq.pre _) (Pres.ite (Pres.fail Kq.pre _)
        (Pres.bind Kq.pre (kp_setConn _ fun _ => ⟨rfl, rfl, rfl, rfl, rfl, id⟩) fun _ => Pres.ite (Pres.fail Kq.pre _) (Pres.pure Kq.pre _)))
    · cases h
  | register r =>
    simp only [act] at h
    split at h
    · refine mine ?_ h
      exact kp_connectRegister _ s
    · cases h
  | receive r rd =>
    simp only [act] at h
    split at h
    · split at h
      · split at h
        · rename_i m _ _
          injection h with h; injection h with _ h
          rw [← h]
          exact kp_setConn (r := r) (fun c => { c with phase := .serving (some m), received := c.received ++ [m] }) (fun _ => ⟨rfl, rfl, rfl, rfl, rfl, id⟩) s
        · exact mine keep h
        · cases h; exact keep
      · cases h
    · cases h
  | handle r => cases ht
  | fails r =>
    simp only [act] at h
    split at h
    · exact mine keep h
    · cases h
  | leave r =>
    simp only [act] at h
    split at h
    · exact mine (kp_locked kp_disconnect s) h
    · cases h
  | unchoke r =>
    simp only [act] at h
    split at h
    · injection h with h
      have : Kq cfg s (unchoke (l.ok r) r s).2 := kp_unchoke (r := r) _ s
      rw [h] at this; exact this
    · cases h
  | addPeer tp =>
    injection h with h
    have : Kq cfg s (addPeer tp s).2 := kp_locked (Pres.bind Kq.pre (Pres.lift Kq.pre _) fun _ => Pres.bind Kq.pre (Pres.get Kq.pre) fun _ => Pres.ite (Pres.pure Kq.pre _) (Pres.ite (Pres.pure Kq.pre _)
      (Pres.ite (kp_modify _) (Pres.pure Kq.pre _)))) s
    rw [h] at this; exact this
  | select k => cases ht
  | begin k => cases ht
  | request k q =>
    simp only [act] at h
    split at h
    · rename_i r i _
      split at h
      · injection h with h
        have : Kq cfg s (send (l.ok r) r (request q.index q.begin_ q.length) s).2 := kp_send _ _ s
        rw [h] at this; exact this
      · cases h
    · cases h
  | finish k res => cases ht
  | hand k => cases ht
  | clear k => cases ht
  | again k t => cases ht
  | cancel => cases h; exact Kq.same rfl
  | quit => cases ht
  | stop =>
    simp only [act] at h
    split at h
    · injection h with h
      have : Kq cfg s (stop s).2 := kp_locked (Pres.bind Kq.pre (kp_modify _) fun _ => Pres.bind Kq.pre (Pres.get Kq.pre) fun _ => Pres.bind Kq.pre (kp_disconnectAll _) fun _ =>
        kp_modify _) s
      rw [h] at this; exact this
    · cases h

/-! ### The goroutines that work for a peer -/

/-- The goroutines that work for a peer: choosing a piece, downloading one, waiting to try again (not those that have passed the peer on and only have to clear `inflight`). -/
def load (s : State) (x : Ref) : Nat := s.toRequest.count x + s.waiting.count x + s.jobs.countP fun j => decide (j.peer = x ∧ j.stage ≠ .handed)

/-- There is at most one goroutine for a peer, and there is one for every peer in `queuedPeers`, unless the context is cancelled. -/
structure Pipe (s : State) : Prop where
  one : ∀ x, load s x ≤ 1
  queued : ∀ x, 0 < load s x → x ∈ s.queuedPeers
  busy : s.alive = true → s.cancelled = false → ∀ x ∈ s.queuedPeers, load s x = 1
  req : s.requesting = false → s.cancelled = true

/-- Preserves that. -/
def Pi (s s' : State) : Prop := Pipe s → Pipe s'

theorem Pi.pre : Pre Pi := ⟨fun _ h => h, fun h1 h2 h => h2 (h1 h)⟩

theorem Pi.same {s s' : State} (h1 : s'.queuedPeers = s.queuedPeers) (h2 : s'.toRequest = s.toRequest) (h3 : s'.waiting = s.waiting) (h4 : s'.jobs = s.jobs) (h6 : s'.alive = true → s.alive = true)
    (h7 : s'.requesting = s.requesting) (h8 : s.cancelled = true → s'.cancelled = true) : Pi s s' := fun h => by
  have hl : ∀ x, load s' x = load s x := fun x => by unfold load; rw [h2, h3, h4]
  refine ⟨fun x => by rw [hl]; exact h.one x, fun x hx => by rw [h1]; rw [hl] at hx; exact h.queued x hx, fun ha hc x hx => ?_, fun hr => h8 (h.req (h7 ▸ hr))⟩
  rw [hl]
  refine h.busy (h6 ha) ?_ x (h1 ▸ hx)
  cases hcc : s.cancelled with
  | false => rfl
  | true => rw [h8 hcc] at hc; cases hc

theorem Kq.pi {s s' : State} (h : Kq cfg s s') : Pi s s' := Pi.same h.queued h.toRequest h.waiting h.jobs (by rw [h.alive]; exact id) h.requesting h.cancelled

theorem pi_setConn (f : Conn → Conn) : Pres Pi (setConn r f) := fun s => Pi.same rfl rfl rfl rfl id rfl id

/-- What `QueuePeer` does. -/
theorem QueuePeer_cases {s : State} {c : Conn} (hc : s.peers[r]? = some c) :
    (s.locked = true ∧ QueuePeer r s = (.stuck, s)) ∨
    (s.locked = false ∧ (c.closed = true ∨ c.remoteChoked = true ∨ r ∈ s.queuedPeers) ∧ QueuePeer r s = (.ok (), s)) ∨
    (s.locked = false ∧ r ∉ s.queuedPeers ∧ s.requesting = false ∧ QueuePeer r s = (.stuck, { s with locked := true, queuedPeers := sadd s.queuedPeers r })) ∨
    (s.locked = false ∧ r ∉ s.queuedPeers ∧ s.requesting = true ∧ QueuePeer r s = (.ok (), { s with queuedPeers := sadd s.queuedPeers r, toRequest := s.toRequest ++ [r] })) := by
  unfold QueuePeer
  rw [locked_apply]
  cases hl : s.locked with
  | true => left; exact ⟨rfl, rfl⟩
  | false =>
    right
    rw [if_neg (by simp)]
    have hself : ({ s with locked := false } : State) = s := by rw [← hl]
    have hc' : ({ s with locked := true } : State).peers[r]? = some c := hc
    unfold queuePeer
    rw [bind_apply, getConn_some hc']
    simp only []
    by_cases h1 : c.closed = true ∨ c.remoteChoked = true
    · left
      rw [if_pos h1]
      refine ⟨trivial, ?_, ?_⟩
      · rcases h1 with h1 | h1
        · exact .inl h1
        · exact .inr (.inl h1)
      · exact congrArg (Prod.mk _) hself
    · rw [if_neg h1, bind_apply, get_apply]
      simp only []
      by_cases h2 : r ∈ s.queuedPeers
      · left
        rw [if_pos h2]
        exact ⟨trivial, .inr (.inr h2), congrArg (Prod.mk _) hself⟩
      · right
        rw [if_neg h2, bind_apply, modify_apply]
        simp only []
        cases h3 : s.requesting with
        | false => left; exact ⟨trivial, h2, rfl, rfl⟩
        | true =>
          right
          refine ⟨trivial, h2, rfl, ?_⟩
          rw [if_neg (by simp), modify_apply]

theorem pi_QueuePeer : Pres Pi (QueuePeer r) := fun s hs => by
  cases hc : s.peers[r]? with
  | none =>
    have : (QueuePeer r s).2 = s ∨ (QueuePeer r s).2 = { s with locked := true } := by
      unfold QueuePeer
      rw [locked_apply]
      split
      · exact .inl rfl
      · right
        unfold queuePeer
        rw [bind_apply, getConn_apply]
        simp only [hc]
    rcases this with h | h <;> rw [h]
    · exact hs
    · exact Pi.same (s := s) rfl rfl rfl rfl id rfl id hs
  | some c =>
    rcases QueuePeer_cases hc with ⟨_, h⟩ | ⟨_, _, h⟩ | ⟨_, hn, hr, h⟩ | ⟨_, hn, hr, h⟩ <;> rw [h]
    · exact hs
    · exact hs
    · refine ⟨hs.one, fun x hx => mem_sadd.2 (.inr (hs.queued x hx)), fun _ hcc => ?_, hs.req⟩
      rw [show s.cancelled = true from hs.req hr] at hcc; cases hcc
    · have h0 : load s r = 0 := by
        cases h0 : load s r with
        | zero => rfl
        | succ n => exact absurd (hs.queued r (by omega)) hn
      have hl : ∀ x, load { s with queuedPeers := sadd s.queuedPeers r, toRequest := s.toRequest ++ [r] } x = load s x + if x = r then 1 else 0 := fun x => by
        unfold load
        simp only [List.count_append, List.count_singleton]
        by_cases hx : x = r
        · subst hx; simp; omega
        · rw [if_neg hx, if_neg (by simpa using fun e => hx e.symm)]; omega
      refine ⟨fun x => ?_, fun x hx => ?_, fun ha hcc x hx => ?_, hs.req⟩
      · rw [hl]
        by_cases hx : x = r
        · rw [if_pos hx, hx]; omega
        · rw [if_neg hx]; have := hs.one x; omega
      · rw [hl] at hx
        by_cases hxr : x = r
        · exact mem_sadd.2 (.inl hxr)
        · rw [if_neg hxr] at hx; exact mem_sadd.2 (.inr (hs.queued x (by omega)))
      · rw [hl]
        by_cases hxr : x = r
        · rw [if_pos hxr, hxr]; omega
        · rw [if_neg hxr]
          rcases mem_sadd.1 hx with h | h
          · exact absurd h hxr
          · rw [hs.busy ha hcc x h]
theorem pi_modify (f : State → State) (h : ∀ s, Pi s (f s) := by exact fun s => Pi.same rfl rfl rfl rfl id rfl id) : Pres Pi (Act.modify f) := fun s => h s
theorem pi_locked {α : Type} {p : Act α} (hp : Pres Pi p) : Pres Pi (Act.locked p) := Pres.locked Pi.pre (fun _ _ => Pi.same rfl rfl rfl rfl id rfl id) hp
theorem pi_of {α : Type} {p : Act α} (h : Pres (Kq cfg) p) : Pres Pi p := fun s => (h s).pi
theorem pi_send (ok : Bool) (m : Message) : Pres Pi (send ok r m) := by
  unfold send
  exact Pres.bind Pi.pre (Pres.getConn Pi.pre r) fun _ => Pres.ite (Pres.fail Pi.pre _) (Pres.ite (pi_setConn _) (Pres.fail Pi.pre _))
theorem pi_interest (ok : Bool) : Pres Pi (interest ok r) := by
  unfold interest
  exact Pres.bind Pi.pre (Pres.getConn Pi.pre r) fun _ => Pres.ite (Pres.bind Pi.pre (pi_setConn _) fun _ => pi_send ok _) (Pres.pure Pi.pre _)
theorem pi_notInterest (ok : Bool) : Pres Pi (notInterest ok r) := by
  unfold notInterest
  exact Pres.bind Pi.pre (Pres.getConn Pi.pre r) fun _ => Pres.ite (Pres.bind Pi.pre (pi_setConn _) fun _ => pi_send ok _) (Pres.pure Pi.pre _)
theorem pi_handleHave (ok : Bool) (i : Int) : Pres Pi (handleHave ok r i) :=
  Pres.bind Pi.pre (Pres.getConn Pi.pre r) fun _ => Pres.bind Pi.pre (Pres.lift Pi.pre _) fun _ => Pres.bind Pi.pre (pi_setConn _) fun _ =>
    Pres.bind Pi.pre (pi_locked (pi_modify _)) fun _ => Pres.bind Pi.pre (Pres.torrentBitfield Pi.pre) fun _ => Pres.bind Pi.pre (Pres.lift Pi.pre _) fun _ =>
      Pres.ite (Pres.bind Pi.pre pi_QueuePeer fun _ => pi_interest ok) (Pres.pure Pi.pre _)
theorem pi_handleItems (ok : Bool) : ∀ is : List Nat, Pres Pi (handleItems ok r is)
  | [] => Pres.pure Pi.pre _
  | i :: is => Pres.bind Pi.pre (pi_handleHave ok i) fun _ => pi_handleItems ok is
theorem pi_store {α : Type} (fates : List Fate) (p : Op α) : Pres Pi (Act.store fates p) := fun s => by
  rw [store_state]; exact Pi.same rfl rfl rfl rfl id rfl id

/-- What HandlePiece keeps. -/
theorem handlePiece_pres {R : State → State → Prop} (hR : Pre R) (fates : List Fate) (i b : Int) (d : Bytes) (h1 : Pres R (Act.store fates (putBlock cfg.store i b d)))
    (h2 : Pres R (setConn r fun c => { c with downloaded := c.downloaded + d.length })) (h3 : Pres R (Act.modify fun s => { s with downloaded := s.downloaded + d.length })) :
    Pres R (handlePiece fates cfg r i b d) := fun s => by
  unfold handlePiece
  have := h1 s
  split <;> rename_i he <;> have := (congrArg (fun x => R s x.2) he).mp this
  · exact hR.trans this (Pres.bind hR h2 (fun _ => h3) _)
  · split <;> exact this
  all_goals exact this

theorem pi_handleMessage (fates : List Fate) (ok : Bool) (m : Message) : Pres Pi (handleMessage fates ok cfg r m) := by
  have hl : ∀ {α : Type} (x : Res α), Pres Pi (Act.lift x) := fun x => Pres.lift Pi.pre x
  unfold handleMessage
  refine Pres.ite (pi_setConn _) (Pres.ite (Pres.bind Pi.pre (pi_setConn _) fun _ => pi_QueuePeer) (Pres.ite (pi_setConn _)
    (Pres.ite (pi_setConn _) (Pres.ite ?_ (Pres.ite ?_ (Pres.ite ?_ (Pres.ite ?_ (Pres.ite ?_ (Pres.pure Pi.pre _)))))))))
  · exact Pres.bind Pi.pre (hl _) fun _ => pi_handleHave ok _
  · exact Pres.bind Pi.pre (hl _) fun _ => pi_handleItems ok _
  · refine Pres.bind Pi.pre (hl _) fun _ => Pres.bind Pi.pre (hl _) fun _ => Pres.bind Pi.pre (hl _) fun _ => ?_
    unfold handleRequest
    exact Pres.bind Pi.pre (Pres.getConn Pi.pre r) fun _ => Pres.ite (Pres.fail Pi.pre _) (Pres.ite (pi_setConn _) (Pres.bind Pi.pre (pi_store _ _) fun _ =>
      Pres.bind Pi.pre (pi_send _ _) fun _ => Pres.bind Pi.pre (pi_setConn _) fun _ => pi_modify _))
  · exact Pres.bind Pi.pre (hl _) fun _ => Pres.bind Pi.pre (hl _) fun _ => Pres.bind Pi.pre (hl _) fun _ => pi_setConn _
  · exact Pres.bind Pi.pre (hl _) fun _ => Pres.bind Pi.pre (hl _) fun _ => Pres.bind Pi.pre (hl _) fun d =>
      handlePiece_pres Pi.pre _ _ _ _ (pi_store _ _) (pi_setConn _) (pi_modify _)

theorem count_eraseIdx {l : List Ref} {k : Nat} {x : Ref} (h : l[k]? = some x) (y : Ref) : (l.eraseIdx k).count y + (if y = x then 1 else 0) = l.count y := by
  obtain ⟨hk, e⟩ := List.getElem?_eq_some_iff.1 h
  rw [List.eraseIdx_eq_take_drop_succ, List.count_append]
  conv => rhs; rw [← List.take_append_drop k l, List.drop_eq_getElem_cons hk, e, List.count_append, List.count_cons]
  by_cases hy : y = x
  · subst hy; simp; omega
  · rw [if_neg hy, if_neg (by simpa using fun e => hy e.symm)]; omega

theorem countP_set {l : List Job} {k : Nat} {j j' : Job} (h : l[k]? = some j) (p : Job → Bool) :
    (l.set k j').countP p + (if p j then 1 else 0) = l.countP p + (if p j' then 1 else 0) := by
  obtain ⟨hk, e⟩ := List.getElem?_eq_some_iff.1 h
  rw [List.set_eq_take_append_cons_drop, if_pos hk]
  conv => rhs; rw [← List.take_append_drop k l, List.drop_eq_getElem_cons hk, e]
  simp only [List.countP_append, List.countP_cons]
  omega

theorem countP_eraseIdx {l : List Job} {k : Nat} {j : Job} (h : l[k]? = some j) (p : Job → Bool) :
    (l.eraseIdx k).countP p + (if p j then 1 else 0) = l.countP p := by
  obtain ⟨hk, e⟩ := List.getElem?_eq_some_iff.1 h
  rw [List.eraseIdx_eq_take_drop_succ]
  conv => rhs; rw [← List.take_append_drop k l, List.drop_eq_getElem_cons hk, e]
  simp only [List.countP_append, List.countP_cons]
  omega

/-- What `requestPieceFromPeer` does to the queues. -/
theorem requestPiece_queue (ok : Bool) (coins : List Bool) (pdq : List Nat → List Nat) (r : Ref) (s : State) :
    let y := requestPieceFromPeer ok coins pdq r s
    y.2.toRequest = s.toRequest ∧ y.2.alive = s.alive ∧ y.2.requesting = s.requesting ∧ y.2.cancelled = s.cancelled ∧
    (y.1 = .stuck ∨ ((y.1 = .panic ∨ y.1 = .crash) ∧ y.2.queuedPeers = s.queuedPeers ∧ y.2.waiting = s.waiting ∧ y.2.jobs = s.jobs) ∨
      (y.2.queuedPeers = sdel s.queuedPeers r ∧ y.2.waiting = s.waiting ∧ y.2.jobs = s.jobs) ∨
      (y.2.queuedPeers = s.queuedPeers ∧ y.2.waiting = s.waiting ∧ ∃ i, y.2.jobs = s.jobs ++ [⟨r, i, .fresh⟩]) ∨
      (y.2.queuedPeers = s.queuedPeers ∧ y.2.waiting = s.waiting ++ [r] ∧ y.2.jobs = s.jobs)) := by
  intro y
  cases hl : s.locked with
  | true =>
    have : requestPieceFromPeer ok coins pdq r s = (.stuck, s) := by unfold requestPieceFromPeer; rw [locked_apply, if_pos hl]
    simp only [y, this]; exact ⟨trivial, trivial, trivial, trivial, .inl trivial⟩
  | false =>
    cases hc : s.peers[r]? with
    | none =>
      have : requestPieceFromPeer ok coins pdq r s = (.panic, { s with locked := true }) := by
        unfold requestPieceFromPeer
        rw [locked_apply, if_neg (by rw [hl]; simp), bind_apply, getConn_apply]
        simp only [hc]
      simp only [y, this]
      exact ⟨trivial, trivial, trivial, trivial, .inr (.inl ⟨.inl trivial, trivial, trivial, trivial⟩)⟩
    | some c =>
      cases hm : s.storage.mem with
      | none =>
        have : requestPieceFromPeer ok coins pdq r s = (.ok (), { s with queuedPeers := sdel s.queuedPeers r, locked := false }) ∨
            requestPieceFromPeer ok coins pdq r s = (.crash, { s with locked := true }) := by
          unfold requestPieceFromPeer
          rw [locked_apply, if_neg (by rw [hl]; simp), bind_apply, getConn_apply]
          simp only [hc]
          by_cases h1 : c.closed = true ∨ c.remoteChoked = true
          · rw [if_pos h1]; exact .inl rfl
          · rw [if_neg h1, bind_apply]
            unfold torrentBitfield
            simp only [hm]
            exact .inr trivial
        rcases this with h | h
        · simp only [y, h]
          exact ⟨trivial, trivial, trivial, trivial, .inr (.inr (.inl ⟨trivial, trivial, trivial⟩))⟩
        · simp only [y, h]
          exact ⟨trivial, trivial, trivial, trivial, .inr (.inl ⟨.inr trivial, trivial, trivial, trivial⟩)⟩
      | some m =>
        rcases requestPiece_cases (r := r) ok coins pdq hl hc hm with ⟨_, h⟩ | ⟨_, ⟨_, _, c', h, _⟩ | ⟨i, h1, h⟩ | ⟨_, _, h⟩⟩
        · simp only [y, h]
          exact ⟨trivial, trivial, trivial, trivial, .inr (.inr (.inl ⟨trivial, trivial, trivial⟩))⟩
        · simp only [y, h]
          exact ⟨trivial, trivial, trivial, trivial, .inr (.inr (.inl ⟨trivial, trivial, trivial⟩))⟩
        · simp only [y, h]
          exact ⟨trivial, trivial, trivial, trivial, .inr (.inr (.inr (.inl ⟨trivial, trivial, i, rfl⟩)))⟩
        · simp only [y, h]
          exact ⟨trivial, trivial, trivial, trivial, .inr (.inr (.inr (.inr ⟨trivial, trivial, trivial⟩)))⟩

/-- A goroutine for `x` stops, and maybe another one starts. -/
theorem Pipe.move {s s' : State} {x : Ref} (h : Pipe s) (n : Nat) (hn : n ≤ 1) (hl : ∀ y, load s' y + (if y = x then 1 else 0) = load s y + (if y = x then n else 0)) (h1 : n = 1 → s'.queuedPeers = s.queuedPeers)
    (h0 : n = 0 → (∀ y, y ≠ x → (y ∈ s'.queuedPeers ↔ y ∈ s.queuedPeers)) ∧ (s'.alive = true → s'.cancelled = false → x ∉ s'.queuedPeers)) (h3 : s'.alive = true → s.alive = true) (h4 : s'.requesting = s.requesting)
    (h5 : s'.cancelled = s.cancelled) : Pipe s' := by
  have hx := hl x
  rw [if_pos rfl, if_pos rfl] at hx
  have hy : ∀ y, y ≠ x → load s' y = load s y := fun y hy => by have := hl y; rw [if_neg hy, if_neg hy] at this; omega
  have hx1 := h.one x
  refine ⟨fun y => ?_, fun y hpos => ?_, fun ha hc y hq => ?_, by rw [h4, h5]; exact h.req⟩
  · by_cases e : y = x
    · subst e; omega
    · rw [hy y e]; exact h.one y
  · by_cases e : y = x
    · subst e
      rw [h1 (by omega)]; exact h.queued y (by omega)
    · rw [hy y e] at hpos
      have := h.queued y hpos
      rcases Nat.le_one_iff_eq_zero_or_eq_one.1 hn with rfl | rfl
      · exact ((h0 rfl).1 y e).2 this
      · rw [h1 rfl]; exact this
  · by_cases e : y = x
    · subst e
      rcases Nat.le_one_iff_eq_zero_or_eq_one.1 hn with rfl | rfl
      · exact absurd hq ((h0 rfl).2 ha hc)
      · rw [h1 rfl] at hq
        have := h.busy (h3 ha) (h5 ▸ hc) y hq
        omega
    · rw [hy y e]
      refine h.busy (h3 ha) (h5 ▸ hc) y ?_
      rcases Nat.le_one_iff_eq_zero_or_eq_one.1 hn with rfl | rfl
      · exact ((h0 rfl).1 y e).1 hq
      · rw [← h1 rfl]; exact hq

theorem act_pipe {s s' : State} {o : Outcome Unit} {e : Event} {l : Luck} (hs : Pipe s) (h : act cfg l s e = some (o, s')) :
    Pipe { s' with alive := if o = .panic ∨ o = .crash then false else s'.alive } := by
  -- the process dies or not
  have live : Pipe s' → Pipe { s' with alive := if o = .panic ∨ o = .crash then false else s'.alive } := Pi.same rfl rfl rfl rfl (by
    show (if o = .panic ∨ o = .crash then false else s'.alive) = true → _
    split
    · intro h; cases h
    · exact id) rfl id
  cases ht : Touches e with
  | false => exact live ((kp_act ht h).pi hs)
  | true =>
  cases e with
  | handle x =>
    simp only [act] at h
    split at h
    · rename_i m _
      injection h with h
      have := pi_handleMessage (cfg := cfg) (r := x) l.fates (l.ok x) m s hs
      generalize handleMessage l.fates (l.ok x) cfg x m s = y at h this
      refine live ?_
      rw [show s' = (next x (.serving none) .leaving y).2 by rw [h]]
      exact Pi.same (s := y.2) rfl rfl rfl rfl id rfl id this
    · cases h
  | select k =>
    simp only [act] at h
    cases hk : s.toRequest[k]? with
    | none => rw [hk] at h; cases h
    | some x =>
      rw [hk] at h
      simp only [] at h
      obtain ⟨h1, h2, h3, h4, h5⟩ := requestPiece_queue (l.ok x) l.coins l.pdq x s
      generalize requestPieceFromPeer (l.ok x) l.coins l.pdq x s = y at *
      obtain ⟨o', t⟩ := y
      simp only at h1 h2 h3 h4 h5
      by_cases hst : o' = .stuck
      · subst hst
        cases h; exact live hs
      · have he : o = o' ∧ s' = { t with toRequest := t.toRequest.eraseIdx k } := by
          cases o' <;> cases h <;> first | exact ⟨rfl, rfl⟩ | exact absurd rfl hst
        obtain ⟨rfl, rfl⟩ := he
        have hq : ∀ y, y ≠ x → (y ∈ sdel s.queuedPeers x ↔ y ∈ s.queuedPeers) := fun y hy => by rw [mem_sdel]; exact ⟨fun h => h.1, fun h => ⟨h, hy⟩⟩
        have hcnt := count_eraseIdx hk
        rcases h5 with h5 | ⟨hd, h5, h6, h7⟩ | ⟨h5, h6, h7⟩ | ⟨h5, h6, i, h7⟩ | ⟨h5, h6, h7⟩
        · exact absurd h5 hst
        · refine hs.move (x := x) 0 (by omega) (fun y => ?_) (fun h => by cases h) (fun _ => ⟨fun y _ => by show y ∈ t.queuedPeers ↔ _; rw [h5], fun h => ?_⟩) (fun h => ?_) h3 h4
          · show (t.toRequest.eraseIdx k).count y + t.waiting.count y + t.jobs.countP _ + _ = _
            rw [h1, h6, h7]; unfold load; have := hcnt y; simp only [ite_self]; omega
          · exfalso
            have h : (if o = .panic ∨ o = .crash then false else t.alive) = true := h
            rw [if_pos hd] at h; cases h
          · have h : (if o = .panic ∨ o = .crash then false else t.alive) = true := h
            rw [if_pos hd] at h; cases h
        · refine live (hs.move (x := x) 0 (by omega) (fun y => ?_) (fun h => by cases h) (fun _ => ⟨fun y hy => ?_, fun _ _ => ?_⟩) (fun h => h2 ▸ h) h3 h4)
          · show (t.toRequest.eraseIdx k).count y + t.waiting.count y + t.jobs.countP _ + _ = _
            rw [h1, h6, h7]; unfold load; have := hcnt y; simp only [ite_self]; omega
          · show y ∈ t.queuedPeers ↔ _
            rw [h5]; exact hq y hy
          · show x ∉ t.queuedPeers
            rw [h5, mem_sdel]; exact fun h => h.2 rfl
        · refine live (hs.move (x := x) 1 (by omega) (fun y => ?_) (fun _ => h5) (fun h => by cases h) (fun h => h2 ▸ h) h3 h4)
          show (t.toRequest.eraseIdx k).count y + t.waiting.count y + t.jobs.countP _ + _ = _
          rw [h1, h6, h7, List.countP_append, List.countP_singleton]; unfold load; have := hcnt y
          by_cases e : y = x
          · subst e; simp at this ⊢; omega
          · simp [e, show ¬ x = y from fun h => e h.symm] at this ⊢; omega
        · refine live (hs.move (x := x) 1 (by omega) (fun y => ?_) (fun _ => h5) (fun h => by cases h) (fun h => h2 ▸ h) h3 h4)
          show (t.toRequest.eraseIdx k).count y + t.waiting.count y + t.jobs.countP _ + _ = _
          rw [h1, h6, h7, List.count_append, List.count_singleton]; unfold load; have := hcnt y
          by_cases e : y = x
          · subst e; simp at this ⊢; omega
          · simp [e, show ¬ x = y from fun h => e h.symm] at this ⊢; omega
  | begin k =>
    simp only [act] at h
    cases hk : s.jobs[k]? with
    | none => rw [hk] at h; cases h
    | some j =>
      obtain ⟨x, i, st⟩ := j
      rw [hk] at h
      cases st with
      | fresh =>
        simp only [] at h
        have h2 := store_state l.fates (resetPiece i) s
        generalize Act.store l.fates (resetPiece i) s = y at h h2
        cases h
        refine live (hs.move (x := x) 1 (by omega) (fun y' => ?_) (fun _ => by rw [h2]) (fun h => by cases h) (by rw [h2]; exact id) (by rw [h2]) (by rw [h2]))
        rw [h2]
        unfold load
        have := countP_set (j' := ⟨x, i, .running⟩) hk fun j => decide (j.peer = y' ∧ j.stage ≠ .handed)
        simp at this ⊢; omega
      | _ => cases h
  | finish k res =>
    simp only [act] at h
    cases hk : s.jobs[k]? with
    | none => rw [hk] at h; cases h
    | some j =>
      obtain ⟨x, i, st⟩ := j
      rw [hk] at h
      cases st with
      | running =>
        simp only [] at h
        split at h
        · have hf := kp_finish (cfg := cfg) (r := x) l.ok l.order i res s
          generalize finish l.ok l.order x i res s = y at h hf
          obtain ⟨o', t⟩ := y
          simp only at hf
          have hs2 : s' = s ∨ s' = { t with jobs := t.jobs.set k ⟨x, i, .over⟩ } := by
            cases o' <;> cases h <;> first | exact .inl rfl | exact .inr rfl
          refine live ?_
          rcases hs2 with rfl | rfl
          · exact hs
          · have ht := hf.pi hs
            refine ht.move (x := x) 1 (by omega) (fun y' => ?_) (fun _ => rfl) (fun h => by cases h) id rfl rfl
            unfold load
            have := countP_set (j' := ⟨x, i, .over⟩) (hf.jobs ▸ hk : t.jobs[k]? = _) fun j => decide (j.peer = y' ∧ j.stage ≠ .handed)
            simp at this ⊢; omega
        · cases h
      | _ => cases h
  | hand k =>
    simp only [act] at h
    cases hk : s.jobs[k]? with
    | none => rw [hk] at h; cases h
    | some j =>
      obtain ⟨x, i, st⟩ := j
      rw [hk] at h
      cases st with
      | over =>
        simp only [] at h
        split at h
        · cases h; exact live hs
        · cases h
          refine live (hs.move (x := x) 1 (by omega) (fun y' => ?_) (fun _ => rfl) (fun h => by cases h) id rfl rfl)
          unfold load
          have := countP_set (j' := ⟨x, i, .handed⟩) hk fun j => decide (j.peer = y' ∧ j.stage ≠ .handed)
          by_cases e : y' = x
          · subst e; simp at this ⊢; omega
          · simp [e, show ¬ x = y' from fun h => e h.symm] at this ⊢; omega
      | _ => cases h
  | clear k =>
    simp only [act] at h
    cases hk : s.jobs[k]? with
    | none => rw [hk] at h; cases h
    | some j =>
      obtain ⟨x, i, st⟩ := j
      rw [hk] at h
      cases st with
      | handed =>
        cases h
        refine live (hs.move (x := x) 1 (by omega) (fun y' => ?_) (fun _ => rfl) (fun h => by cases h) id rfl rfl)
        unfold load
        have := countP_eraseIdx hk fun j => decide (j.peer = y' ∧ j.stage ≠ .handed)
        simp at this ⊢; omega
      | _ => cases h
  | again k timer =>
    simp only [act] at h
    cases hk : s.waiting[k]? with
    | none => rw [hk] at h; cases h
    | some x =>
      rw [hk] at h
      have hcnt := count_eraseIdx hk
      cases timer with
      | true =>
        simp only [] at h
        split at h
        · rename_i hr
          cases h
          refine live (hs.move (x := x) 0 (by omega) (fun y' => ?_) (fun h => by cases h) (fun _ => ⟨fun _ _ => Iff.rfl, fun _ hc => ?_⟩) id rfl rfl)
          · unfold load; have := hcnt y'; simp only [ite_self]; omega
          · rw [show s.cancelled = true from hs.req hr] at hc; cases hc
        · cases h
          refine live (hs.move (x := x) 1 (by omega) (fun y' => ?_) (fun _ => rfl) (fun h => by cases h) id rfl rfl)
          unfold load
          have := hcnt y'
          simp only [List.count_append, List.count_singleton]
          by_cases e : y' = x
          · subst e; simp at this ⊢; omega
          · simp [e, show ¬ x = y' from fun h => e h.symm] at this ⊢; omega
      | false =>
        simp only [] at h
        split at h
        · rename_i hr
          cases h
          refine live (hs.move (x := x) 0 (by omega) (fun y' => ?_) (fun h => by cases h) (fun _ => ⟨fun _ _ => Iff.rfl, fun _ hc => ?_⟩) id rfl rfl)
          · unfold load; have := hcnt y'; simp only [ite_self]; omega
          · rw [show s.cancelled = true from hr] at hc; cases hc
        · cases h
  | quit =>
    simp only [act] at h
    split at h
    · rename_i hc
      cases h
      exact live ⟨hs.one, hs.queued, fun _ h => (by rw [show s.cancelled = true from hc] at h; cases h), fun _ => hc⟩
    · cases h
  | _ => cases ht

theorem pipe_run (w : World) (es : List (Event × Luck)) : Pipe (run cfg (init w) es) := by
  refine run_rec (cfg := cfg) (P := fun _ s => Pipe s) (init w) ⟨fun x => Nat.zero_le _, (fun x h => by cases h), fun _ _ x h => (by cases h), (fun h => by cases h)⟩ (fun es e ih => ?_) es
  rcases step_alive (cfg := cfg) (run cfg (init w) es) e with h | ⟨_, o, s', hact, h⟩
  · rw [h]; exact ih
  · have := act_pipe ih hact
    rcases h with ⟨h1, h⟩ | ⟨h1, h⟩ <;> rw [h]
    · rw [if_pos h1] at this; exact this
    · rw [if_neg (by rintro (h | h); exact h1.1 h; exact h1.2 h)] at this; exact this

/-! ### Peers that have something we need -/

theorem reported_bit {m : Storage.Mem} {i : Nat} : Storage.Reported m i ↔ Bitfield.bit m.bitfield i = true := by
  unfold Storage.Reported
  rcases Nat.lt_or_ge i (8 * m.bitfield.length) with h | h
  · rw [Bitfield.has_nat _ _ h]
    constructor
    · intro h; injection h
    · intro h; rw [h]
  · constructor
    · intro h'
      unfold Bitfield.has at h'
      rw [Bitfield.pos_nat] at h'
      simp only [] at h'
      rw [if_neg (by omega), Int.toNat_natCast, List.getElem?_eq_none (by omega)] at h'
      cases h'
    · intro h'
      unfold Bitfield.bit at h'
      rw [List.getElem?_eq_none (by omega)] at h'
      cases h'

/-- Pieces that we have stay. -/
theorem Smalls.have_mono {may : May} {s s' : State} (hu : Storage.Usable cfg.store) (hf : FilesOK cfg.store.info) (hs : StoreInv cfg s) (hi : Inv cfg s) (hg : Good may s) (hb : Backed may s) (h : Smalls cfg may s s') :
    ∀ m', s'.storage.mem = some m' → ∃ m, s.storage.mem = some m ∧ ∀ i, Bitfield.bit m.bitfield i = true → Bitfield.bit m'.bitfield i = true := by
  suffices h' : (StoreInv cfg s' ∧ Inv cfg s' ∧ Good may s' ∧ Backed may s') ∧ ∀ m', s'.storage.mem = some m' → ∃ m, s.storage.mem = some m ∧ ∀ i, Bitfield.bit m.bitfield i = true → Bitfield.bit m'.bitfield i = true from h'.2
  induction h with
  | refl => exact ⟨⟨hs, hi, hg, hb⟩, fun m' h => ⟨m', h, fun _ h => h⟩⟩
  | tail _ h1 ih =>
    obtain ⟨⟨h2, h3, h4, h5⟩, h6⟩ := ih
    refine ⟨⟨h2.small hu hf h3 h4 h5 h1, h3.small h4 h1, h4.small h1, h5.small hu h2 h1⟩, ?_⟩
    have grow : ∀ {b : State} (e : Storage.Event) (f : List Fate), StoreInv cfg b → (∀ m', b.storage.mem = some m' → ∃ m, s.storage.mem = some m ∧ ∀ i, Bitfield.bit m.bitfield i = true → Bitfield.bit m'.bitfield i = true) →
        e ≠ .start → b.storage.mem ≠ none → ∀ m', (Storage.step cfg.store b.storage e f).mem = some m' → ∃ m, s.storage.mem = some m ∧ ∀ i, Bitfield.bit m.bitfield i = true → Bitfield.bit m'.bitfield i = true := by
      intro b e f h2 h6 he hm m' hm'
      cases hbm : b.storage.mem with
      | none => exact absurd hbm hm
      | some mb =>
        obtain ⟨m, k1, k2⟩ := h6 mb hbm
        exact ⟨m, k1, fun i hbit => reported_bit.1 (reported_mono hu h2.hist e f he hm hm' fun mem hmem => by rw [hbm] at hmem; cases hmem; exact reported_bit.2 (k2 i hbit))⟩
    cases h1 with
    | storage e f k1 k2 => exact grow e f h2 h6 k1 k2
    | upload x c q d f k0 k1 k2 k3 k4 k5 => exact grow (.get q.index q.begin q.length) f h2 h6 (by simp) k5
    | _ => exact h6

theorem step_have_mono (hu : Storage.Usable cfg.store) (hf : FilesOK cfg.store.info) {s : State} (hs : StoreInv cfg s) (hi : Inv cfg s) (e : Event × Luck) :
    ∀ m', (step cfg s e).storage.mem = some m' → ∃ m, s.storage.mem = some m ∧ ∀ i, Bitfield.bit m.bitfield i = true → Bitfield.bit m'.bitfield i = true :=
  Smalls.have_mono hu hf hs hi (mayOf_good hi e.1) (mayOf_backed hu hs hi e.1) (step_small e hi.pendOK)

/-- If the peer has a piece that is not in `bf` then we are interested, and it is in `queuedPeers` unless it chokes us. -/
def Own (bf : Bytes) (s : State) (x : Ref) : Prop := ∀ c, s.peers[x]? = some c → c.closed = false → ∀ i, Bitfield.bit c.bitfield i = true → Bitfield.bit bf i = false →
  c.interested = true ∧ (c.remoteChoked = false → x ∈ s.queuedPeers)

theorem interest_ok (ok : Bool) {s : State} {c : Conn} (hc : s.peers[r]? = some c) (h : (interest ok r s).1 = .ok ()) :
    ∃ c', (interest ok r s).2 = { s with peers := s.peers.set r c' } ∧ c'.interested = true ∧ c'.bitfield = c.bitfield ∧ c'.remoteChoked = c.remoteChoked ∧ c'.closed = c.closed := by
  revert h
  unfold interest
  rw [bind_apply, getConn_some hc]
  simp only []
  cases hi : c.interested with
  | true =>
    intro _
    rw [if_neg (by simp)]
    exact ⟨c, by show s = _; rw [set_same hc], hi, rfl, rfl, rfl⟩
  | false =>
    rw [if_pos rfl, bind_apply, setConn_apply]
    simp only []
    unfold send
    rw [bind_apply, getConn_some (modify_self hc _)]
    simp only []
    rw [if_neg (by simp [PeerWire.interested]; intro h; exact absurd h (by decide))]
    split
    · intro _
      rw [setConn_apply, modify_some (modify_self hc _), modify_some hc, List.set_set]
      exact ⟨_, rfl, rfl, rfl, rfl, rfl⟩
    · intro h; cases h

/-- What HandleHave did when it succeeded. -/
theorem handleHave_own (ok : Bool) (i : Nat) {s : State} {c : Conn} {m : Storage.Mem} (hc : s.peers[r]? = some c) (hm : s.storage.mem = some m) (h : (handleHave ok r i s).1 = .ok ()) (hs : Own m.bitfield s r) :
    Own m.bitfield (handleHave ok r i s).2 r ∧ (handleHave ok r i s).2.storage = s.storage ∧ ∃ c', (handleHave ok r i s).2.peers[r]? = some c' := by
  revert h
  unfold handleHave
  rw [bind_apply, getConn_some hc]
  simp only []
  rw [bind_apply]
  cases hb : Bitfield.add c.bitfield i with
  | panic => intro h; cases h
  | err e => intro h; cases h
  | ok bf =>
    obtain ⟨_, _, _, hbits⟩ := add_spec hb
    rw [show (Act.lift (Res.ok bf) s) = (Outcome.ok bf, s) from rfl]
    simp only []
    rw [bind_apply, setConn_apply, modify_some hc]
    simp only []
    rw [bind_apply]
    unfold recordIndex
    rw [locked_apply]
    cases hl : s.locked with
    | true =>
      rw [if_pos rfl]
      intro h; cases h
    | false =>
      rw [if_neg (by simp)]
      simp only [modify_apply]
      generalize hs1 : ({ s with peers := s.peers.set r { c with bitfield := bf }, locked := false, indexToPeers := mput s.indexToPeers (i : Int) (sadd ((mget s.indexToPeers (i : Int)).getD []) r) } : State) = s1
      have hc1 : s1.peers[r]? = some { c with bitfield := bf } := by
        rw [← hs1]; exact List.getElem?_set_self (List.getElem?_eq_some_iff.1 hc).1
      have hm1 : s1.storage = s.storage := by rw [← hs1]
      have hq1 : s1.queuedPeers = s.queuedPeers := by rw [← hs1]
      rw [bind_apply]
      unfold torrentBitfield
      rw [hm1, hm]
      simp only []
      rw [bind_apply]
      cases hh : Bitfield.has m.bitfield (i : Int) with
      | panic => intro h; cases h
      | err e => intro h; cases h
      | ok b =>
        have hbit : b = true → Bitfield.bit m.bitfield i = true := fun hbt => reported_bit.1 (by unfold Storage.Reported; rw [hh, hbt])
        rw [show (Act.lift (Res.ok b) s1) = (Outcome.ok b, s1) from rfl]
        simp only []
        cases b with
        | true =>
          rw [if_neg (by simp)]
          intro _
          refine ⟨fun c' hc' hcl j hj hn => ?_, hm1, _, hc1⟩
          have hc' : s1.peers[r]? = some c' := hc'
          rw [hc1] at hc'; injection hc' with hc'; subst hc'
          rcases hbits j hj with h | h
          · rw [show (pure () : Act Unit) s1 = (.ok (), s1) from rfl, hq1]
            exact hs c hc hcl j h hn
          · rw [h, hbit rfl] at hn; cases hn
        | false =>
          rw [if_pos rfl, bind_apply]
          have fin : ∀ s2 : State, s2.peers[r]? = some { c with bitfield := bf } → s2.storage = s.storage → (c.closed = true ∨ c.remoteChoked = true ∨ r ∈ s2.queuedPeers) → (interest ok r s2).1 = .ok () →
              Own m.bitfield (interest ok r s2).2 r ∧ (interest ok r s2).2.storage = s.storage ∧ ∃ c', (interest ok r s2).2.peers[r]? = some c' := by
            intro s2 h2 h2s h3 h4
            obtain ⟨c', e1, e2, e3, e4, e5⟩ := interest_ok ok h2 h4
            have hc' : (interest ok r s2).2.peers[r]? = some c' := by rw [e1]; exact List.getElem?_set_self (List.getElem?_eq_some_iff.1 h2).1
            refine ⟨fun d hd hcl j hj hn => ?_, by rw [e1]; exact h2s, c', hc'⟩
            rw [hc'] at hd; injection hd with hd; subst hd
            refine ⟨e2, fun hrc => ?_⟩
            rw [e1]
            rw [e4] at hrc
            rw [e5] at hcl
            rcases h3 with h3 | h3 | h3
            · rw [show c.closed = false from hcl] at h3; cases h3
            · rw [show c.remoteChoked = false from hrc] at h3; cases h3
            · exact h3
          rcases QueuePeer_cases hc1 with ⟨_, h⟩ | ⟨_, h1, h⟩ | ⟨_, hn, hr, h⟩ | ⟨_, hn, hr, h⟩ <;> rw [h]
          · intro h; cases h
          · exact fin s1 hc1 hm1 h1
          · intro h; cases h
          · exact fin _ hc1 hm1 (.inr (.inr (mem_sadd.2 (.inl rfl))))

theorem handleItems_own (ok : Bool) {m : Storage.Mem} : ∀ (is : List Nat) {s : State} {c : Conn}, s.peers[r]? = some c → s.storage.mem = some m → (handleItems ok r is s).1 = .ok () → Own m.bitfield s r →
    Own m.bitfield (handleItems ok r is s).2 r
  | [], _, _, _, _, _, hs => hs
  | i :: is, s, c, hc, hm, h, hs => by
    revert h
    unfold handleItems
    rw [bind_apply]
    have h1 := handleHave_own (m := m) ok i hc hm
    generalize handleHave ok r i s = x at h1
    obtain ⟨o, s'⟩ := x
    cases o with
    | ok a =>
      obtain ⟨h2, h3, c', h4⟩ := h1 rfl hs
      intro h
      exact handleItems_own ok is h4 (by rw [h3]; exact hm) h h2
    | _ => intro h; cases h

theorem Own.set {bf : Bytes} {s : State} {c : Conn} (hs : Own bf s r) (hc : s.peers[r]? = some c) (f : Conn → Conn) (h1 : (f c).closed = false → c.closed = false) (h2 : (f c).bitfield = c.bitfield)
    (h3 : (f c).interested = c.interested) (h4 : (f c).remoteChoked = false → c.remoteChoked = false) : Own bf { s with peers := s.peers.modify r f } r := fun d hd hcl i hi hn => by
  have hd : (s.peers.modify r f)[r]? = some d := hd
  rw [modify_self hc] at hd; injection hd with hd; subst hd
  obtain ⟨k1, k2⟩ := hs c hc (h1 hcl) i (h2 ▸ hi) hn
  exact ⟨h3.trans k1, fun h => k2 (h4 h)⟩

theorem Kq.own {bf : Bytes} {s s' : State} (h : Kq cfg s s') {x : Ref} (hs : Own bf s x) : Own bf s' x := fun c' hc' hcl i hi hn => by
  cases hc : s.peers[x]? with
  | none =>
    obtain ⟨id, ip, port, h1⟩ := h.fresh x c' hc' hc
    rw [h1.bitfield] at hi
    rw [show Bitfield.bit (newConn cfg id ip port).bitfield i = false from bit_zeros _ _] at hi; cases hi
  | some c =>
    obtain ⟨d, h1, h2⟩ := h.peers x c hc
    rw [hc'] at h1; injection h1 with h1; subst h1
    rw [h2.interested, h2.remoteChoked, h.queued]
    refine hs c hc ?_ i (h2.bitfield ▸ hi) hn
    cases hcc : c.closed with
    | false => rfl
    | true => rw [h2.closed hcc] at hcl; cases hcl

/-- Preserves that for all. -/
def Ow (bf : Bytes) (s s' : State) : Prop := ∀ x, Own bf s x → Own bf s' x

theorem Ow.pre {bf : Bytes} : Pre (Ow bf) := ⟨fun _ _ h => h, fun h1 h2 x h => h2 x (h1 x h)⟩
theorem ow_setConn {bf : Bytes} (f : Conn → Conn) (h : ∀ c, ((f c).closed = false → c.closed = false) ∧ (f c).bitfield = c.bitfield ∧ (f c).interested = c.interested ∧ ((f c).remoteChoked = false → c.remoteChoked = false) := by
    exact fun _ => ⟨id, rfl, rfl, id⟩) : Pres (Ow bf) (setConn r f) := fun s x hs => by
  rw [setConn_apply]
  cases hc : s.peers[r]? with
  | none => simp only [modify_none hc]; exact hs
  | some c =>
    by_cases hx : x = r
    · subst hx; exact Own.set hs hc f (h c).1 (h c).2.1 (h c).2.2.1 (h c).2.2.2
    · intro d hd
      have hd : (s.peers.modify r f)[x]? = some d := hd
      rw [modify_some hc, List.getElem?_set_ne (fun e => hx e.symm)] at hd
      exact hs d hd
theorem ow_send {bf : Bytes} (ok : Bool) (m : Message) : Pres (Ow bf) (send ok r m) := by
  unfold send
  exact Pres.bind Ow.pre (Pres.getConn Ow.pre r) fun _ => Pres.ite (Pres.fail Ow.pre _) (Pres.ite (ow_setConn _) (Pres.fail Ow.pre _))
theorem ow_same {bf : Bytes} {s s' : State} (h1 : s'.peers = s.peers) (h2 : s'.queuedPeers = s.queuedPeers) : Ow bf s s' := fun x hs c hc => by rw [h2]; exact hs c (h1 ▸ hc)

/-- Handling a message from the peer, when it succeeds, keeps that. -/
theorem handleMessage_own (fates : List Fate) (ok : Bool) (msg : Message) (hi : 0 ≤ msg.index) {s : State} {c : Conn} {m : Storage.Mem} (hc : s.peers[r]? = some c) (hm : s.storage.mem = some m)
    (h : (handleMessage fates ok cfg r msg s).1 = .ok ()) (hs : Own m.bitfield s r) : Own m.bitfield (handleMessage fates ok cfg r msg s).2 r := by
  have hl : ∀ {α : Type} (x : Res α), Pres (Ow m.bitfield) (Act.lift x) := fun x => Pres.lift Ow.pre x
  revert h
  unfold handleMessage
  by_cases h1 : msg.typ = CHOKE
  · rw [if_pos h1]
    intro _
    refine ow_setConn (r := r) (fun c => { c with remoteChoked := true }) (fun _ => ⟨id, rfl, rfl, (fun h => by cases h)⟩) s r hs
  rw [if_neg h1]
  by_cases h2 : msg.typ = UNCHOKE
  · rw [if_pos h2, bind_apply, setConn_apply]
    simp only []
    generalize hs1 : ({ s with peers := s.peers.modify r fun c => { c with remoteChoked := false } } : State) = s1
    have hc1 : s1.peers[r]? = some { c with remoteChoked := false } := by rw [← hs1]; exact modify_self hc _
    have key : ∀ s2 : State, s2.peers = s1.peers → (c.closed = true ∨ r ∈ s2.queuedPeers) → Own m.bitfield s2 r := by
      intro s2 h3 h4 d hd hcl i hi hn
      rw [h3, hc1] at hd; injection hd with hd; subst hd
      refine ⟨(hs c hc hcl i hi hn).1, fun _ => ?_⟩
      rcases h4 with h4 | h4
      · rw [show c.closed = false from hcl] at h4; cases h4
      · exact h4
    rcases QueuePeer_cases hc1 with ⟨_, h⟩ | ⟨_, h1, h⟩ | ⟨_, hn, hr, h⟩ | ⟨_, hn, hr, h⟩ <;> rw [h]
    · intro h; cases h
    · intro _
      refine key s1 rfl ?_
      rcases h1 with h1 | h1 | h1
      · exact .inl h1
      · cases h1
      · exact .inr h1
    · intro h; cases h
    · intro _
      exact key _ rfl (.inr (mem_sadd.2 (.inl rfl)))
  rw [if_neg h2]
  by_cases h3 : msg.typ = INTERESTED
  · rw [if_pos h3]
    intro _
    exact ow_setConn (r := r) (fun c => { c with remoteInterested := true }) (fun _ => ⟨id, rfl, rfl, id⟩) s r hs
  rw [if_neg h3]
  by_cases h4 : msg.typ = NOT_INTERESTED
  · rw [if_pos h4]
    intro _
    exact ow_setConn (r := r) (fun c => { c with remoteInterested := false }) (fun _ => ⟨id, rfl, rfl, id⟩) s r hs
  rw [if_neg h4]
  by_cases h5 : msg.typ = HAVE
  · rw [if_pos h5, bind_apply]
    unfold Message.getIndex
    rw [if_pos (by simp [h5])]
    intro h
    obtain ⟨n, hn⟩ : ∃ n : Nat, msg.index = n := ⟨msg.index.toNat, by omega⟩
    rw [hn] at h ⊢
    exact (handleHave_own ok n hc hm h hs).1
  rw [if_neg h5]
  by_cases h6 : msg.typ = BITFIELD
  · rw [if_pos h6, bind_apply]
    unfold Message.getBitfield
    rw [if_pos (by simp [h6])]
    intro h
    exact handleItems_own ok _ hc hm h hs
  rw [if_neg h6]
  intro _
  by_cases h7 : msg.typ = REQUEST
  · rw [if_pos h7]
    refine Pres.bind (R := Ow m.bitfield) Ow.pre (hl _) (fun _ => Pres.bind Ow.pre (hl _) fun _ => Pres.bind Ow.pre (hl _) fun _ => ?_) s r hs
    unfold handleRequest
    exact Pres.bind Ow.pre (Pres.getConn Ow.pre r) fun _ => Pres.ite (Pres.fail Ow.pre _) (Pres.ite (ow_setConn _) (Pres.bind Ow.pre (fun s => by rw [store_state]; exact ow_same rfl rfl) fun _ =>
      Pres.bind Ow.pre (ow_send _ _) fun _ => Pres.bind Ow.pre (ow_setConn _) fun _ => fun s => ow_same rfl rfl))
  rw [if_neg h7]
  by_cases h8 : msg.typ = CANCEL
  · rw [if_pos h8]
    exact Pres.bind (R := Ow m.bitfield) Ow.pre (hl _) (fun _ => Pres.bind Ow.pre (hl _) fun _ => Pres.bind Ow.pre (hl _) fun _ => ow_setConn _) s r hs
  rw [if_neg h8]
  by_cases h9 : msg.typ = PIECE
  · rw [if_pos h9]
    exact Pres.bind (R := Ow m.bitfield) Ow.pre (hl _) (fun _ => Pres.bind Ow.pre (hl _) fun _ => Pres.bind Ow.pre (hl _) fun d =>
      handlePiece_pres Ow.pre _ _ _ _ (fun s => by rw [store_state]; exact ow_same rfl rfl) (ow_setConn _) (fun s => ow_same rfl rfl)) s r hs
  rw [if_neg h9]
  exact hs

/-- What handling a message from one peer does to the others. -/
def Ko (r : Ref) (s s' : State) : Prop := (∀ x ∈ s.queuedPeers, x ∈ s'.queuedPeers) ∧ ∀ x, x ≠ r → s'.peers[x]? = s.peers[x]?

theorem modify_other (l : List Conn) (f : Conn → Conn) {x r : Ref} (h : x ≠ r) : (l.modify r f)[x]? = l[x]? := by
  rw [List.getElem?_modify]
  simp only [if_neg (fun e => h e.symm : ¬ r = x)]
  cases l[x]? <;> rfl

theorem Ko.pre : Pre (Ko r) := ⟨fun _ => ⟨fun _ h => h, fun _ _ => rfl⟩, fun h1 h2 => ⟨fun x h => h2.1 x (h1.1 x h), fun x h => (h2.2 x h).trans (h1.2 x h)⟩⟩
theorem ko_setConn (f : Conn → Conn) : Pres (Ko r) (setConn r f) := fun s => by
  rw [setConn_apply]
  exact ⟨fun _ h => h, fun x hx => modify_other _ _ hx⟩
theorem ko_same {s s' : State} (h1 : s'.peers = s.peers) (h2 : s'.queuedPeers = s.queuedPeers) : Ko r s s' := ⟨fun x h => by rw [h2]; exact h, fun _ _ => by rw [h1]⟩
theorem ko_store {α : Type} (fates : List Fate) (p : Op α) : Pres (Ko r) (Act.store fates p) := fun s => by rw [store_state]; exact ko_same rfl rfl
theorem ko_locked {α : Type} {p : Act α} (hp : Pres (Ko r) p) : Pres (Ko r) (Act.locked p) := Pres.locked Ko.pre (fun _ _ => ko_same rfl rfl) hp
theorem ko_QueuePeer : Pres (Ko r) (QueuePeer r) := by
  refine ko_locked ?_
  unfold queuePeer
  refine Pres.bind Ko.pre (Pres.getConn Ko.pre r) fun _ => Pres.ite (Pres.pure Ko.pre _) (Pres.bind Ko.pre (Pres.get Ko.pre) fun _ => Pres.ite (Pres.pure Ko.pre _) ?_)
  refine Pres.bind Ko.pre (fun s => ⟨fun x h => mem_sadd.2 (.inr h), fun _ _ => rfl⟩) fun _ => ?_
  refine Pres.ite (fun s => ko_same rfl rfl) (fun s => ko_same rfl rfl)
theorem ko_send (ok : Bool) (m : Message) : Pres (Ko r) (send ok r m) := by
  unfold send
  exact Pres.bind Ko.pre (Pres.getConn Ko.pre r) fun _ => Pres.ite (Pres.fail Ko.pre _) (Pres.ite (ko_setConn _) (Pres.fail Ko.pre _))
theorem ko_handleHave (ok : Bool) (i : Int) : Pres (Ko r) (handleHave ok r i) :=
  Pres.bind Ko.pre (Pres.getConn Ko.pre r) fun _ => Pres.bind Ko.pre (Pres.lift Ko.pre _) fun _ => Pres.bind Ko.pre (ko_setConn _) fun _ =>
    Pres.bind Ko.pre (ko_locked (fun s => ko_same rfl rfl)) fun _ => Pres.bind Ko.pre (Pres.torrentBitfield Ko.pre) fun _ => Pres.bind Ko.pre (Pres.lift Ko.pre _) fun _ =>
      Pres.ite (Pres.bind Ko.pre ko_QueuePeer fun _ => Pres.bind Ko.pre (Pres.getConn Ko.pre r) fun _ => Pres.ite (Pres.bind Ko.pre (ko_setConn _) fun _ => ko_send ok _) (Pres.pure Ko.pre _)) (Pres.pure Ko.pre _)
theorem ko_handleItems (ok : Bool) : ∀ is : List Nat, Pres (Ko r) (handleItems ok r is)
  | [] => Pres.pure Ko.pre _
  | i :: is => Pres.bind Ko.pre (ko_handleHave ok i) fun _ => ko_handleItems ok is
theorem ko_handleMessage (fates : List Fate) (ok : Bool) (m : Message) : Pres (Ko r) (handleMessage fates ok cfg r m) := by
  have hl : ∀ {α : Type} (x : Res α), Pres (Ko r) (Act.lift x) := fun x => Pres.lift Ko.pre x
  unfold handleMessage
  refine Pres.ite (ko_setConn _) (Pres.ite (Pres.bind Ko.pre (ko_setConn _) fun _ => ko_QueuePeer) (Pres.ite (ko_setConn _)
    (Pres.ite (ko_setConn _) (Pres.ite ?_ (Pres.ite ?_ (Pres.ite ?_ (Pres.ite ?_ (Pres.ite ?_ (Pres.pure Ko.pre _)))))))))
  · exact Pres.bind Ko.pre (hl _) fun _ => ko_handleHave ok _
  · exact Pres.bind Ko.pre (hl _) fun _ => ko_handleItems ok _
  · refine Pres.bind Ko.pre (hl _) fun _ => Pres.bind Ko.pre (hl _) fun _ => Pres.bind Ko.pre (hl _) fun _ => ?_
    unfold handleRequest
    exact Pres.bind Ko.pre (Pres.getConn Ko.pre r) fun _ => Pres.ite (Pres.fail Ko.pre _) (Pres.ite (ko_setConn _) (Pres.bind Ko.pre (ko_store _ _) fun _ =>
      Pres.bind Ko.pre (ko_send _ _) fun _ => Pres.bind Ko.pre (ko_setConn _) fun _ => fun s => ko_same rfl rfl))
  · exact Pres.bind Ko.pre (hl _) fun _ => Pres.bind Ko.pre (hl _) fun _ => Pres.bind Ko.pre (hl _) fun _ => ko_setConn _
  · exact Pres.bind Ko.pre (hl _) fun _ => Pres.bind Ko.pre (hl _) fun _ => Pres.bind Ko.pre (hl _) fun d =>
      handlePiece_pres Ko.pre _ _ _ _ (ko_store _ _) (ko_setConn _) (fun s => ko_same rfl rfl)

theorem Own.ko {bf : Bytes} {s s' : State} (h : Ko r s s') {x : Ref} (hx : x ≠ r) (hs : Own bf s x) : Own bf s' x := fun c hc hcl i hi hn => by
  rw [h.2 x hx] at hc
  obtain ⟨h1, h2⟩ := hs c hc hcl i hi hn
  exact ⟨h1, fun hr => h.1 x (h2 hr)⟩

theorem Own.mono {bf bf' : Bytes} {s : State} {x : Ref} (h : ∀ i, Bitfield.bit bf i = true → Bitfield.bit bf' i = true) (hs : Own bf s x) : Own bf' s x := fun c hc hcl i hi hn =>
  hs c hc hcl i hi (by
    cases hb : Bitfield.bit bf i with
    | false => rfl
    | true => rw [h i hb] at hn; cases hn)

/-- The clause for the connections that have not failed. -/
def Care (s : State) : Prop := ∀ m, s.storage.mem = some m → ∀ x c, s.peers[x]? = some c → ¬ Gone c → Own m.bitfield s x

/-- The clause after a step, in terms of the storage before it. -/
theorem act_care {s s' : State} {l : Luck} {e : Event} {o : Outcome Unit} {m : Storage.Mem} (hi : Inv cfg s) (ha : s.alive = true) (hs : Care s) (hm : s.storage.mem = some m) (h : act cfg l s e = some (o, s')) :
    ∀ x c', s'.peers[x]? = some c' → ¬ Gone c' → (∀ c, s.peers[x]? = some c → ¬ Gone c) → Own m.bitfield s' x := by
  intro x c' hc' hng hback
  have same : ∀ {t : State}, t.peers = s.peers → t.queuedPeers = s.queuedPeers → s' = t → Own m.bitfield s' x := by
    intro t h1 h2 h3
    subst h3
    exact ow_same h1 h2 x (hs m hm x c' (h1 ▸ hc') hng)
  have hown : ∀ c, s.peers[x]? = some c → Own m.bitfield s x := fun c hc => hs m hm x c hc (hback c hc)
  have hown' : Own m.bitfield s x := fun c hc => hown c hc c hc
  by_cases ht : Touches e = false
  · exact (kp_act ht h).own hown'
  cases e with
  | handle r =>
    simp only [act] at h
    cases hc : s.peers[r]? with
    | none => rw [hc] at h; cases h
    | some c =>
      simp only [hc, Option.map_some] at h
      cases hp : c.phase with
      | serving p =>
        cases p with
        | none => simp only [hp] at h; cases h
        | some msg =>
          simp only [hp] at h
          injection h with h
          have hko := ko_handleMessage (cfg := cfg) (r := r) l.fates (l.ok r) msg s
          have hko2 : Ko r (handleMessage l.fates (l.ok r) cfg r msg s).2 s' := by
            have hs2 := congrArg Prod.snd h
            simp only [P2P.next] at hs2
            rw [← hs2]
            exact ⟨fun _ h => h, fun y hy => modify_other _ _ hy⟩
          by_cases hx : x = r
          · subst hx
            obtain ⟨c1, o1, h1, h2, _, _, _⟩ := handle_conn (cfg := cfg) hi ha hc hp l
            have hs2 := congrArg Prod.snd h
            have h4 := next_peers (r := x) (.serving none) .leaving (handleMessage l.fates (l.ok x) cfg x msg s) h2
            rw [h] at h4
            simp only at h4
            rw [hc'] at h4
            injection h4 with h4
            have hok : (handleMessage l.fates (l.ok x) cfg x msg s).1 = .ok () := by
              cases hoo : (handleMessage l.fates (l.ok x) cfg x msg s).1 with
              | ok a => rfl
              | err e => exact absurd (.inl (by rw [h4, hoo])) hng
              | _ => exact absurd (.inr (.inr (by rw [h4, hoo]))) hng
            have hown2 := handleMessage_own (cfg := cfg) l.fates (l.ok x) msg (hi.pendOK x c msg hc hp).1 hc hm hok hown'
            simp only [P2P.next] at hs2
            rw [← hs2]
            exact hown2.set h2 _ id rfl rfl id
          · exact (hown'.ko hko hx).ko hko2 hx
      | _ => simp only [hp] at h; cases h
  | select k =>
    simp only [act] at h
    cases hk : s.toRequest[k]? with
    | none => rw [hk] at h; cases h
    | some r =>
      rw [hk] at h
      simp only [] at h
      have key : ∀ y, y = requestPieceFromPeer (l.ok r) l.coins l.pdq r s → (y.1 = .stuck ∧ s' = s) ∨ s' = { y.2 with toRequest := y.2.toRequest.eraseIdx k } := by
        intro y hy
        rw [← hy] at h
        obtain ⟨o', t⟩ := y
        cases o' <;> cases h <;> first | exact .inl ⟨rfl, rfl⟩ | exact .inr rfl
      rcases key _ rfl with ⟨_, h⟩ | h
      · rw [h]; exact hown'
      cases hl : s.locked with
      | true =>
        have hst : requestPieceFromPeer (l.ok r) l.coins l.pdq r s = (.stuck, s) := by
          unfold requestPieceFromPeer
          rw [locked_apply, if_pos hl]
        rw [hst] at h
        rw [h]; exact ow_same (s := s) rfl rfl x hown'
      | false =>
        cases hc : s.peers[r]? with
        | none =>
          have hst : (requestPieceFromPeer (l.ok r) l.coins l.pdq r s).2.peers = s.peers ∧ (requestPieceFromPeer (l.ok r) l.coins l.pdq r s).2.queuedPeers = s.queuedPeers := by
            unfold requestPieceFromPeer
            rw [locked_apply, if_neg (by rw [hl]; simp), bind_apply, getConn_apply]
            simp only [hc]
            exact ⟨trivial, trivial⟩
          rw [h]
          exact ow_same hst.1 hst.2 x hown'
        | some c =>
          have hne : ∀ t : State, Ko r s t → x ≠ r → Own m.bitfield t x := fun t hk hx => hown'.ko hk hx
          rcases requestPiece_cases (r := r) (l.ok r) l.coins l.pdq hl hc hm with ⟨h1, h2⟩ | ⟨h1, ⟨h3, _, d, h2, _, h4⟩ | ⟨i, _, h2⟩ | ⟨_, _, h2⟩⟩
          · rw [h2] at h
            rw [h]
            intro e he hcl i hb hn
            have he : s.peers[x]? = some e := he
            obtain ⟨k1, k2⟩ := hown' e he hcl i hb hn
            refine ⟨k1, fun hr => mem_sdel.2 ⟨k2 hr, fun hx => ?_⟩⟩
            subst hx
            rw [hc] at he; injection he with he; subst he
            rcases h1 with h1 | h1
            · rw [hcl] at h1; cases h1
            · rw [hr] at h1; cases h1
          · rw [h2] at h
            rw [h]
            intro e he hcl i hb hn
            have he : (s.peers.set r d)[x]? = some e := he
            by_cases hx : x = r
            · subst hx
              rw [List.getElem?_set_self (List.getElem?_eq_some_iff.1 hc).1] at he
              injection he with he; subst he
              rw [h4] at hb
              have : i ∈ wanted c m.bitfield := mem_wanted.2 ⟨hb, hn⟩
              rw [h3] at this; cases this
            · rw [List.getElem?_set_ne (fun e => hx e.symm)] at he
              obtain ⟨k1, k2⟩ := hown' e he hcl i hb hn
              exact ⟨k1, fun hr => mem_sdel.2 ⟨k2 hr, hx⟩⟩
          · rw [h2] at h
            rw [h]; exact ow_same (s := s) rfl rfl x hown'
          · rw [h2] at h
            rw [h]; exact ow_same (s := s) rfl rfl x hown'
  | begin k =>
    simp only [act] at h
    split at h
    · rename_i r i heq
      have h2 := store_state l.fates (resetPiece i) s
      generalize Act.store l.fates (resetPiece i) s = y at h h2
      cases h
      rw [h2]
      exact ow_same (s := s) rfl rfl x hown'
    · cases h
  | finish k res =>
    simp only [act] at h
    split at h
    · rename_i r i heq
      split at h
      · have hf := kp_finish (cfg := cfg) (r := r) l.ok l.order i res s
        generalize finish l.ok l.order r i res s = y at h hf
        obtain ⟨o', t⟩ := y
        simp only at hf
        have hs2 : s' = s ∨ s' = { t with jobs := t.jobs.set k ⟨r, i, .over⟩ } := by
          cases o' <;> cases h <;> first | exact .inl rfl | exact .inr rfl
        rcases hs2 with h | h <;> rw [h]
        · exact hown'
        · exact ow_same (s := t) rfl rfl x (hf.own hown')
      · cases h
    · cases h
  | hand k =>
    simp only [act] at h
    split at h
    · split at h <;> cases h <;> exact ow_same (s := s) rfl rfl x hown'
    · cases h
  | clear k =>
    simp only [act] at h
    split at h
    · cases h; exact ow_same (s := s) rfl rfl x hown'
    · cases h
  | again k timer =>
    simp only [act] at h
    split at h
    · split at h <;> cases h <;> exact ow_same (s := s) rfl rfl x hown'
    · split at h
      · cases h; exact ow_same (s := s) rfl rfl x hown'
      · cases h
    · cases h
  | quit =>
    simp only [act] at h
    split at h
    · cases h; exact ow_same (s := s) rfl rfl x hown'
    · cases h
  | _ => exact absurd rfl ht

theorem care_run (hu : Storage.Usable cfg.store) (hf : FilesOK cfg.store.info) (es0 : List (Storage.Event × List Fate)) (es : List (Event × Luck)) :
    Care (run cfg (init (Storage.run cfg.store es0 World.empty)) es) := by
  refine run_rec (cfg := cfg) (P := fun _ s => Care s) _ (fun m _ x c h => by cases h) (fun es e ih => ?_) es
  have hi := inv_run (cfg := cfg) (Storage.run cfg.store es0 World.empty) es
  have hst := store_run' hu hf es0 es
  have hmono := step_have_mono hu hf hst hi e
  have hsm := step_small (cfg := cfg) e hi.pendOK
  have hg := mayOf_good hi e.1
  generalize run cfg (init (Storage.run cfg.store es0 World.empty)) es = s at *
  intro m' hm' x c' hc' hng
  obtain ⟨m, hm, hbits⟩ := hmono m' hm'
  refine Own.mono hbits ?_
  have hback : ∀ c, s.peers[x]? = some c → ¬ Gone c := fun c hc hgone => by
    obtain ⟨d, hd, hfr⟩ := hsm.frame hg hc
    rw [hc'] at hd; injection hd with hd; subst hd
    exact hng (hfr.gone hgone)
  rcases step_alive (cfg := cfg) s e with h | ⟨hal, o, s', hact, ⟨_, h⟩ | ⟨_, h⟩⟩
  · rw [h] at hc' ⊢
    exact ih m hm x c' hc' hng
  · rw [h] at hc' ⊢
    exact ow_same (s := s') rfl rfl x (act_care hi hal ih hm hact x c' hc' hng hback)
  · rw [h] at hc' ⊢
    exact act_care hi hal ih hm hact x c' hc' hng hback

end Drip.P2P
