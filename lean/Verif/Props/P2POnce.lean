import Verif.Props.P2PFlags
/-
C64: no CHOKE and at most one UNCHOKE is sent on a connection, whatever fails.
-/

namespace Drip.P2P
open PeerWire Metainfo
open Storage (Fate World Op runOp getBlock putBlock resetPiece)

variable {cfg : Cfg} {r : Ref}

/-- The number of UNCHOKE messages that were sent. -/
def unchokes (c : Conn) : Nat := (c.sent.filter fun m => m.typ = UNCHOKE).length

structure Once (c : Conn) : Prop where
  never : ∀ m ∈ c.sent, m.typ ≠ CHOKE
  once : unchokes c ≤ 1
  before : c.choked = true → unchokes c = 0

theorem Once.same {c c' : Conn} (h : Once c) (h1 : c'.sent = c.sent) (h2 : c'.choked = c.choked) : Once c' := by
  have e : unchokes c' = unchokes c := by unfold unchokes; rw [h1]
  exact ⟨by rw [h1]; exact h.never, by rw [e]; exact h.once, by rw [e, h2]; exact h.before⟩

theorem never_snoc {c : Conn} (h : Once c) {m : Message} (h1 : m.typ ≠ CHOKE) : ∀ m' ∈ c.sent ++ [m], m'.typ ≠ CHOKE := by
  intro m' hm
  rcases List.mem_append.mp hm with hm | hm
  · exact h.never m' hm
  · rw [List.mem_singleton.mp hm]; exact h1

theorem Once.other {c : Conn} (h : Once c) {m : Message} (h1 : m.typ ≠ CHOKE) (h2 : m.typ ≠ UNCHOKE) : Once { c with sent := c.sent ++ [m] } := by
  have e : unchokes { c with sent := c.sent ++ [m] } = unchokes c := by unfold unchokes; simp [h2]
  exact ⟨never_snoc h h1, by rw [e]; exact h.once, by rw [e]; exact h.before⟩

theorem Once.unchoke {c : Conn} (h : Once c) (hc : c.choked = true) : Once { c with choked := false, sent := c.sent ++ [PeerWire.unchoke] } := by
  have e : unchokes { c with choked := false, sent := c.sent ++ [PeerWire.unchoke] } = unchokes c + 1 := by
    unfold unchokes; simp [show PeerWire.unchoke.typ = UNCHOKE from rfl]
  exact ⟨never_snoc h (by decide), by rw [e, h.before hc]; exact Nat.le_refl _, fun h => by cases h⟩

theorem Once.quiet {c : Conn} (h : Once c) (_ : c.choked = true) : Once { c with choked := false } := ⟨h.never, h.once, fun h => by cases h⟩

/-! ### Over a history -/

def OnceInv (s : State) : Prop := ∀ (x : Ref) (c : Conn), s.peers[x]? = some c → Once c

/-- Preserves that. -/
def Kf (s s' : State) : Prop := OnceInv s → OnceInv s'

theorem Kf.pre : Pre Kf := ⟨fun _ h => h, fun h1 h2 h => h2 (h1 h)⟩
theorem Kf.same {s s' : State} (h : s'.peers = s.peers) : Kf s s' := fun hs x c hc => hs x c (h ▸ hc)
theorem Kf.set {s : State} {c c' : Conn} (hc : s.peers[r]? = some c) (h : Once c → Once c') : Kf s { s with peers := s.peers.set r c' } :=
  fun hs x d hd => by
    rcases set_cases hd with ⟨rfl, rfl⟩ | ⟨_, hd⟩
    · exact h (hs _ c hc)
    · exact hs x d hd
theorem kf_setConn (f : Conn → Conn) (h : ∀ c, Once c → Once (f c)) : Pres Kf (setConn r f) := fun s => by
  rw [setConn_apply]
  cases hc : s.peers[r]? with
  | none => simp only [modify_none hc]; exact Kf.pre.refl s
  | some c => simp only [modify_some hc]; exact Kf.set hc (h c)
theorem kf_locked {α : Type} {p : Act α} (hp : Pres Kf p) : Pres Kf (Act.locked p) := Pres.locked Kf.pre (fun _ _ => Kf.same rfl) hp
theorem kf_modify (f : State → State) (h : ∀ s, (f s).peers = s.peers := by intro _; rfl) : Pres Kf (Act.modify f) := fun s => Kf.same (h s)
theorem kf_send (ok : Bool) (m : Message) (h1 : m.typ ≠ CHOKE) (h2 : m.typ ≠ UNCHOKE) : Pres Kf (send ok r m) := by
  unfold send
  exact Pres.bind Kf.pre (Pres.getConn Kf.pre r) fun _ => Pres.ite (Pres.fail Kf.pre _) (Pres.ite (kf_setConn _ fun c ha => ha.other h1 h2) (Pres.fail Kf.pre _))
theorem kf_interest (ok : Bool) : Pres Kf (interest ok r) := by
  unfold interest
  exact Pres.bind Kf.pre (Pres.getConn Kf.pre r) fun _ => Pres.ite (Pres.bind Kf.pre (kf_setConn _ fun c ha => ha.same rfl rfl) fun _ => kf_send ok _ (by decide) (by decide)) (Pres.pure Kf.pre _)
theorem kf_notInterest (ok : Bool) : Pres Kf (notInterest ok r) := by
  unfold notInterest
  exact Pres.bind Kf.pre (Pres.getConn Kf.pre r) fun _ => Pres.ite (Pres.bind Kf.pre (kf_setConn _ fun c ha => ha.same rfl rfl) fun _ => kf_send ok _ (by decide) (by decide)) (Pres.pure Kf.pre _)
theorem kf_unchoke (ok : Bool) : Pres Kf (unchoke ok r) := fun s => by
  unfold unchoke
  rw [bind_apply, getConn_apply]
  cases hc : s.peers[r]? with
  | none => exact Kf.pre.refl s
  | some c =>
    simp only []
    by_cases h : c.choked = true
    · rw [if_pos h, toggle_apply hc ok PeerWire.unchoke (by decide) (fun c => { c with choked := false }) rfl]
      split
      · exact Kf.set hc fun ha => ha.unchoke h
      · exact Kf.set hc fun ha => ha.quiet h
    · rw [if_neg h]; exact Kf.pre.refl s
theorem kf_store {α : Type} (fates : List Fate) (p : Op α) : Pres Kf (Act.store fates p) := fun s => by
  rw [store_state]; exact Kf.same rfl
theorem kf_QueuePeer : Pres Kf (QueuePeer r) := by
  refine kf_locked fun s => ?_
  unfold queuePeer
  rw [bind_apply, getConn_apply]
  cases s.peers[r]? with
  | none => exact Kf.pre.refl s
  | some c =>
    simp only []
    split
    · exact Kf.pre.refl s
    · rw [bind_apply, get_apply]
      simp only []
      split
      · exact Kf.pre.refl s
      · rw [bind_apply, modify_apply]
        simp only []
        split <;> exact Kf.same rfl
theorem kf_handleHave (ok : Bool) (i : Int) : Pres Kf (handleHave ok r i) :=
  Pres.bind Kf.pre (Pres.getConn Kf.pre r) fun _ => Pres.bind Kf.pre (Pres.lift Kf.pre _) fun _ => Pres.bind Kf.pre (kf_setConn _ fun c ha => ha.same rfl rfl) fun _ =>
    Pres.bind Kf.pre (kf_locked (kf_modify _)) fun _ => Pres.bind Kf.pre (Pres.torrentBitfield Kf.pre) fun _ => Pres.bind Kf.pre (Pres.lift Kf.pre _) fun _ =>
      Pres.ite (Pres.bind Kf.pre kf_QueuePeer fun _ => kf_interest ok) (Pres.pure Kf.pre _)
theorem kf_handleItems (ok : Bool) : ∀ is : List Nat, Pres Kf (handleItems ok r is)
  | [] => Pres.pure Kf.pre _
  | i :: is => Pres.bind Kf.pre (kf_handleHave ok i) fun _ => kf_handleItems ok is
theorem kf_handleMessage (fates : List Fate) (ok : Bool) (m : Message) : Pres Kf (handleMessage fates ok cfg r m) := by
  have hl : ∀ {α : Type} (x : Res α), Pres Kf (Act.lift x) := fun x => Pres.lift Kf.pre x
  have hs : ∀ f : Conn → Conn, (∀ c, (f c).closed = c.closed ∧ (f c).sent = c.sent ∧ (f c).choked = c.choked ∧ (f c).interested = c.interested) → Pres Kf (setConn r f) := fun f h =>
    kf_setConn f fun c ha => ha.same (h c).2.1 (h c).2.2.1
  unfold handleMessage
  refine Pres.ite (hs _ fun _ => ⟨rfl, rfl, rfl, rfl⟩) (Pres.ite (Pres.bind Kf.pre (hs _ fun _ => ⟨rfl, rfl, rfl, rfl⟩) fun _ => kf_QueuePeer) (Pres.ite (hs _ fun _ => ⟨rfl, rfl, rfl, rfl⟩)
    (Pres.ite (hs _ fun _ => ⟨rfl, rfl, rfl, rfl⟩) (Pres.ite ?_ (Pres.ite ?_ (Pres.ite ?_ (Pres.ite ?_ (Pres.ite ?_ (Pres.pure Kf.pre _)))))))))
  · exact Pres.bind Kf.pre (hl _) fun _ => kf_handleHave ok _
  · exact Pres.bind Kf.pre (hl _) fun _ => kf_handleItems ok _
  · refine Pres.bind Kf.pre (hl _) fun _ => Pres.bind Kf.pre (hl _) fun _ => Pres.bind Kf.pre (hl _) fun _ => ?_
    unfold handleRequest
    exact Pres.bind Kf.pre (Pres.getConn Kf.pre r) fun _ => Pres.ite (Pres.fail Kf.pre _) (Pres.ite (hs _ fun _ => ⟨rfl, rfl, rfl, rfl⟩) (Pres.bind Kf.pre (kf_store _ _) fun _ =>
      Pres.bind Kf.pre (kf_send ok _ (by show PIECE ≠ CHOKE; decide) (by show PIECE ≠ UNCHOKE; decide)) fun _ =>
        Pres.bind Kf.pre (hs _ fun _ => ⟨rfl, rfl, rfl, rfl⟩) fun _ => kf_modify _))
  · exact Pres.bind Kf.pre (hl _) fun _ => Pres.bind Kf.pre (hl _) fun _ => Pres.bind Kf.pre (hl _) fun _ => hs _ fun _ => ⟨rfl, rfl, rfl, rfl⟩
  · refine Pres.bind Kf.pre (hl _) fun _ => Pres.bind Kf.pre (hl _) fun _ => Pres.bind Kf.pre (hl _) fun d s => ?_
    unfold handlePiece
    have := fun a b => kf_store fates (putBlock cfg.store a b d) s
    split <;> rename_i he <;> have := (congrArg (fun x => Kf s x.2) he).mp (this _ _)
    · refine Kf.pre.trans this ?_
      exact Pres.bind Kf.pre (hs (fun c => { c with downloaded := c.downloaded + d.length }) fun _ => ⟨rfl, rfl, rfl, rfl⟩) (fun _ => kf_modify (fun s => { s with downloaded := s.downloaded + d.length }) fun _ => rfl) _
    · split <;> exact this
    all_goals exact this
theorem kf_disconnect : Pres Kf (disconnect r) :=
  Pres.bind Kf.pre (Pres.getConn Kf.pre r) fun _ => Pres.bind Kf.pre (kf_modify _) fun _ => kf_setConn _ fun _ ha => ha.same rfl rfl
theorem kf_disconnectAll : ∀ rs : List Ref, Pres Kf (disconnectAll rs)
  | [] => Pres.pure Kf.pre _
  | _ :: rs => Pres.bind Kf.pre kf_disconnect fun _ => kf_disconnectAll rs
theorem kf_sendHave (oks : Ref → Bool) (i : Nat) : ∀ rs : List Ref, Pres Kf (sendHave oks i rs)
  | [] => Pres.pure Kf.pre _
  | r :: rs => Pres.bind Kf.pre (Pres.getConn Kf.pre r) fun _ => Pres.ite (kf_sendHave oks i rs)
      (Pres.bind Kf.pre (kf_send _ _ (by show HAVE ≠ CHOKE; decide) (by show HAVE ≠ UNCHOKE; decide)) fun _ => kf_sendHave oks i rs)
theorem kf_next {ok err : Phase} {x : Outcome Unit × State} {s : State} (h : Kf s x.2) : Kf s (next r ok err x).2 := by
  refine Kf.pre.trans h ?_
  exact kf_setConn (r := r) (fun c => { c with phase := match x.1 with | .ok _ => ok | .err _ => err | _ => .hung }) (fun c ha => ha.same rfl rfl) x.2
theorem Kf.new {s : State} {id ip : Bytes} {port : Nat} : Kf s { s with peers := s.peers ++ [newConn cfg id ip port] } := fun hs x c hc => by
  simp only [List.getElem?_append] at hc
  split at hc
  · exact hs x c hc
  · rw [List.getElem?_singleton] at hc
    split at hc
    · injection hc with hc; subst hc; exact ⟨(by rintro m ⟨⟩), Nat.zero_le _, fun _ => rfl⟩
    · cases hc

theorem kf_connectRegister (ok : Bool) : Pres Kf (connectRegister ok r) := by
  unfold connectRegister
  refine kf_locked (Pres.bind Kf.pre (Pres.get Kf.pre) fun _ => Pres.bind Kf.pre (Pres.getConn Kf.pre r) fun _ => Pres.ite (Pres.fail Kf.pre _) ?_)
  refine Pres.bind Kf.pre (kf_modify _) fun _ => Pres.ite (Pres.fail Kf.pre _) ?_
  refine Pres.bind Kf.pre (kf_modify _) fun _ => ?_
  refine Pres.bind Kf.pre (kf_setConn _ fun c ha => ha.same rfl rfl) fun _ => ?_
  refine Pres.bind Kf.pre (Pres.torrentBitfield Kf.pre) fun bf => ?_
  exact kf_send _ _ (by show BITFIELD ≠ CHOKE; decide) (by show BITFIELD ≠ UNCHOKE; decide)

set_option maxHeartbeats 1000000 in
theorem kf_act {s s' : State} {o : Outcome Unit} {e : Event} {l : Luck} (h : act cfg l s e = some (o, s')) : Kf s s' := by
  have mine : ∀ {r ok err x}, Kf s x.2 → some (next r ok err x) = some (o, s') → Kf s s' := fun {r ok err x} h1 h2 => by
    injection h2 with h2
    have := kf_next (r := r) (ok := ok) (err := err) h1
    rw [h2] at this; exact this
  have keep : Kf s s := Kf.pre.refl s
  cases e with
  | accept ip port =>
    simp only [act] at h
    split at h
    · cases h
    · cases h; exact Kf.new
  | takeAddr =>
    simp only [act] at h
    split at h <;> cases h
    exact Kf.same rfl
  | spawn =>
    simp only [act] at h
    split at h
    · split at h
      · cases h
      · cases h; exact Kf.same rfl
    · cases h
  | dialCheck k =>
    simp only [act] at h
    split at h
    · split at h
      · split at h
        · cases h; exact keep
        · split at h <;> (cases h; exact Kf.same rfl)
      · cases h; exact Kf.same rfl
    · cases h
  | dial k b =>
    simp only [act] at h
    split at h
    · split at h
      · cases h; exact Kf.pre.trans Kf.new (Kf.same rfl)
      · cases h; exact Kf.same rfl
    · cases h
  | check r =>
    simp only [act] at h
    split at h
    · refine mine ?_ h
      unfold connectCheck
      refine Pres.bind Kf.pre (fun s => ?_) (fun _ => Pres.bind Kf.pre (Pres.get Kf.pre) fun s => Pres.bind Kf.pre (Pres.getConn Kf.pre r) fun c => Pres.ite (Pres.fail Kf.pre _) ?_) s
      · unfold Act.lock; split <;> exact Kf.same rfl
      · cases mget s.knownIDIPs c.addr with
        | none => exact kf_modify _
        | some idip => exact Pres.ite (Pres.fail Kf.pre _) (kf_modify _)
    · cases h
  | handshake r rd =>
    simp only [act] at h
    split at h
    · refine mine ?_ h
      unfold handshake
      refine Pres.bind Kf.pre (Pres.getConn Kf.pre r) (fun _ => Pres.ite (Pres.fail Kf.pre _) (Pres.bind Kf.pre (Pres.lift Kf.pre _) fun x => ?_)) s
      obtain ⟨phs, rd'⟩ := x
      exact Pres.bind Kf.pre (kf_setConn _ fun c ha => ha.same rfl rfl) fun _ => Pres.ite (Pres.fail Kf.pre _) (Pres.ite (Pres.fail Kf.pre _)
        (Pres.bind Kf.pre (kf_setConn _ fun c ha => ha.same rfl rfl) fun _ => Pres.ite (Pres.fail Kf.pre _) (Pres.pure Kf.pre _)))
    · cases h
  | register r =>
    simp only [act] at h
    split at h
    · refine mine ?_ h
      exact kf_connectRegister _ s
    · cases h
  | receive r rd =>
    simp only [act] at h
    split at h
    · split at h
      · split at h
        · rename_i m _ _
          injection h with h; injection h with _ h
          rw [← h]
          exact kf_setConn (r := r) (fun c => { c with phase := .serving (some m), received := c.received ++ [m] }) (fun c ha => ha.same rfl rfl) s
        · exact mine keep h
        · cases h; exact keep
      · cases h
    · cases h
  | handle r =>
    simp only [act] at h
    split at h
    · exact mine (kf_handleMessage _ _ _ s) h
    · cases h
  | fails r =>
    simp only [act] at h
    split at h
    · exact mine keep h
    · cases h
  | leave r =>
    simp only [act] at h
    split at h
    · exact mine (kf_locked kf_disconnect s) h
    · cases h
  | unchoke r =>
    simp only [act] at h
    split at h
    · injection h with h
      have : Kf s (unchoke (l.ok r) r s).2 := kf_unchoke (r := r) _ s
      rw [h] at this; exact this
    · cases h
  | addPeer tp =>
    injection h with h
    have : Kf s (addPeer tp s).2 := kf_locked (Pres.bind Kf.pre (Pres.lift Kf.pre _) fun _ => Pres.bind Kf.pre (Pres.get Kf.pre) fun _ => Pres.ite (Pres.pure Kf.pre _) (Pres.ite (Pres.pure Kf.pre _)
      (Pres.ite (kf_modify _) (Pres.pure Kf.pre _)))) s
    rw [h] at this; exact this
  | select k =>
    simp only [act] at h
    split at h
    · rename_i r _
      have : Kf s (requestPieceFromPeer (l.ok r) l.coins l.pdq r s).2 := by
        unfold requestPieceFromPeer
        refine kf_locked (Pres.bind Kf.pre (Pres.getConn Kf.pre r) fun _ => Pres.ite (kf_modify _) (Pres.bind Kf.pre (Pres.torrentBitfield Kf.pre) fun _ => Pres.ite ?_
          (Pres.bind Kf.pre (Pres.get Kf.pre) fun s => ?_))) s
        · exact Pres.bind Kf.pre (kf_modify _) fun _ => kf_notInterest _
        · generalize firstFree _ _ = x
          cases x <;> exact kf_modify _
      generalize requestPieceFromPeer (l.ok r) l.coins l.pdq r s = x at h this
      obtain ⟨o1, s1⟩ := x
      cases o1 with
      | stuck => cases h; exact keep
      | _ => cases h; exact Kf.pre.trans this (Kf.same rfl)
    · cases h
  | begin k =>
    simp only [act] at h
    split at h
    · rename_i r i _
      have := kf_store l.fates (resetPiece (i : Int)) s
      generalize Act.store l.fates (resetPiece (i : Int)) s = x at h this
      obtain ⟨o1, s1⟩ := x
      cases h; exact Kf.pre.trans this (Kf.same rfl)
    · cases h
  | request k q =>
    simp only [act] at h
    split at h
    · rename_i r i _
      split at h
      · injection h with h
        have : Kf s (send (l.ok r) r (request q.index q.begin_ q.length) s).2 := kf_send _ _ (by show REQUEST ≠ CHOKE; decide) (by show REQUEST ≠ UNCHOKE; decide)
          s
        rw [h] at this; exact this
      · cases h
    · cases h
  | finish k res =>
    simp only [act] at h
    split at h
    · rename_i r i _
      split at h
      · have : Kf s (finish l.ok l.order r i res s).2 := by
          unfold finish
          cases res with
          | failed => exact keep
          | checksum =>
            exact Pres.attempt Kf.pre (kf_locked (Pres.bind Kf.pre (Pres.getConn Kf.pre r) fun _ => Pres.bind Kf.pre (kf_modify _) fun _ => kf_disconnect)) s
          | complete =>
            refine Pres.attempt Kf.pre (Pres.bind Kf.pre (fun s => ?_) fun _ => Pres.bind Kf.pre (kf_modify _) fun _ => Pres.bind Kf.pre (Pres.get Kf.pre) fun _ => kf_sendHave _ _ _) s
            unfold Act.lock; split <;> exact Kf.same rfl
        generalize finish l.ok l.order r i res s = x at h this
        obtain ⟨o1, s1⟩ := x
        cases o1 with
        | stuck => cases h; exact keep
        | _ => cases h; exact Kf.pre.trans this (Kf.same rfl)
      · cases h
    · cases h
  | hand k =>
    simp only [act] at h
    split at h
    · split at h <;> (cases h; exact Kf.same rfl)
    · cases h
  | clear k =>
    simp only [act] at h
    split at h
    · cases h; exact Kf.same rfl
    · cases h
  | again k timer =>
    simp only [act] at h
    split at h
    · split at h <;> (cases h; exact Kf.same rfl)
    · split at h
      · cases h; exact Kf.same rfl
      · cases h
    · cases h
  | cancel => cases h; exact Kf.same rfl
  | quit =>
    simp only [act] at h
    split at h
    · cases h; exact Kf.same rfl
    · cases h
  | stop =>
    simp only [act] at h
    split at h
    · injection h with h
      have : Kf s (stop s).2 := kf_locked (Pres.bind Kf.pre (kf_modify _) fun _ => Pres.bind Kf.pre (Pres.get Kf.pre) fun _ => Pres.bind Kf.pre (kf_disconnectAll _) fun _ =>
        kf_modify _) s
      rw [h] at this; exact this
    · cases h

theorem once_run (w : World) (es : List (Event × Luck)) : OnceInv (run cfg (init w) es) := by
  refine run_rec (cfg := cfg) (P := fun _ s => OnceInv s) (init w) (fun x c h => by cases h) (fun es e hs => ?_) es
  rcases step_alive (cfg := cfg) (run cfg (init w) es) e with h | ⟨_, o, s', hact, h⟩
  · rw [h]; exact hs
  · have := kf_act hact hs
    rcases h with ⟨_, h⟩ | ⟨_, h⟩ <;> rw [h] <;> exact this

/-- **C64**, about choking, whatever fails: in every history of the server, no CHOKE is sent on any connection, at most one UNCHOKE is, and none as long as the flag says that the peer is choked. -/
theorem C64_once_partial (w : World) (es : List (Event × Luck)) (c : Conn) (hc : (run cfg (init w) es).peers[r]? = some c) :
    (∀ m ∈ c.sent, m.typ ≠ CHOKE) ∧ (c.sent.filter fun m => m.typ = UNCHOKE).length ≤ 1 ∧ (c.choked = true → ∀ m ∈ c.sent, m.typ ≠ UNCHOKE) := by
  have h := once_run (cfg := cfg) w es r c hc
  refine ⟨h.never, h.once, fun hk m hm ht => ?_⟩
  have := List.length_eq_zero_iff.mp (h.before hk)
  have hm' : m ∈ c.sent.filter fun m => m.typ = UNCHOKE := List.mem_filter.mpr ⟨hm, by simp [ht]⟩
  rw [this] at hm'
  cases hm'

/-- A write of UNCHOKE that fails, and one that does not; two more. -/
example : (run Ex.cfg (init Ex.nothing) (Ex.fine (Ex.joins 0 1 (Ex.id' 2) ++ Ex.joins 1 2 (Ex.id' 3)) ++ [(.unchoke 0, { ok := fun _ => false })] ++ Ex.fine [.unchoke 1, .unchoke 0, .unchoke 1])).peers.map
    (fun c => (c.choked, c.sent.map (·.typ))) = [(false, [BITFIELD]), (false, [BITFIELD, UNCHOKE])] := by kernel_rfl

end Drip.P2P
