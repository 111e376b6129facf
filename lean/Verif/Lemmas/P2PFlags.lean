import Verif.Lemmas.P2PConn
import Verif.Spec.Alternate
/-
The flags that say whether we choke the peer and whether we are interested, and the messages about them.
-/

namespace Drip.P2P
open PeerWire Metainfo
open Storage (Fate World Op runOp getBlock putBlock resetPiece)

variable {cfg : Cfg} {r : Ref}

/-- The messages sent about choking. -/
def chokes (c : Conn) : List Int := (c.sent.map (·.typ)).filter fun t => t = CHOKE ∨ t = UNCHOKE

/-- The messages sent about interest. -/
def interests (c : Conn) : List Int := (c.sent.map (·.typ)).filter fun t => t = INTERESTED ∨ t = NOT_INTERESTED

/-- The messages alternate and the flags agree with them. -/
structure Agree (c : Conn) : Prop where
  chokes : Spec.Alternates UNCHOKE CHOKE (P2P.chokes c)
  choked : c.choked = true ↔ (P2P.chokes c).length % 2 = 0
  interests : Spec.Alternates INTERESTED NOT_INTERESTED (P2P.interests c)
  interested : c.interested = true ↔ (P2P.interests c).length % 2 = 1

theorem Agree.same {c c' : Conn} (h : Agree c) (h1 : c'.sent = c.sent) (h2 : c'.choked = c.choked) (h3 : c'.interested = c.interested) : Agree c' := by
  have e1 : P2P.chokes c' = P2P.chokes c := by unfold P2P.chokes; rw [h1]
  have e2 : P2P.interests c' = P2P.interests c := by unfold P2P.interests; rw [h1]
  exact ⟨e1 ▸ h.chokes, by rw [h2, e1]; exact h.choked, e2 ▸ h.interests, by rw [h3, e2]; exact h.interested⟩

theorem Agree.other {c : Conn} (h : Agree c) {m : Message} (h1 : m.typ ≠ CHOKE) (h2 : m.typ ≠ UNCHOKE) (h3 : m.typ ≠ INTERESTED) (h4 : m.typ ≠ NOT_INTERESTED) :
    Agree { c with sent := c.sent ++ [m] } := by
  have e1 : P2P.chokes { c with sent := c.sent ++ [m] } = P2P.chokes c := by unfold P2P.chokes; simp [h1, h2]
  have e2 : P2P.interests { c with sent := c.sent ++ [m] } = P2P.interests c := by unfold P2P.interests; simp [h3, h4]
  exact ⟨e1.symm ▸ h.chokes, by rw [e1]; exact h.choked, e2.symm ▸ h.interests, by rw [e2]; exact h.interested⟩

theorem Agree.unchoke {c : Conn} (h : Agree c) (hc : c.choked = true) : Agree { c with choked := false, sent := c.sent ++ [PeerWire.unchoke] } := by
  have e1 : P2P.chokes { c with choked := false, sent := c.sent ++ [PeerWire.unchoke] } = P2P.chokes c ++ [UNCHOKE] := by
    unfold P2P.chokes; simp [show PeerWire.unchoke.typ = UNCHOKE from rfl]
  have e2 : P2P.interests { c with choked := false, sent := c.sent ++ [PeerWire.unchoke] } = P2P.interests c := by
    unfold P2P.interests; simp [show PeerWire.unchoke.typ = UNCHOKE from rfl, show ¬ UNCHOKE = INTERESTED by decide, show ¬ UNCHOKE = NOT_INTERESTED by decide]
  have hp := h.choked.1 hc
  refine ⟨by rw [e1]; exact Spec.Alternates.snoc h.chokes (by rw [if_pos hp]), ?_, e2.symm ▸ h.interests, by rw [e2]; exact h.interested⟩
  rw [e1, List.length_append]; simp; omega

theorem Agree.choke {c : Conn} (h : Agree c) (hc : c.choked = false) : Agree { c with choked := true, sent := c.sent ++ [PeerWire.choke] } := by
  have e1 : P2P.chokes { c with choked := true, sent := c.sent ++ [PeerWire.choke] } = P2P.chokes c ++ [CHOKE] := by
    unfold P2P.chokes; simp [show PeerWire.choke.typ = CHOKE from rfl]
  have e2 : P2P.interests { c with choked := true, sent := c.sent ++ [PeerWire.choke] } = P2P.interests c := by
    unfold P2P.interests; simp [show PeerWire.choke.typ = CHOKE from rfl, show ¬ CHOKE = INTERESTED by decide, show ¬ CHOKE = NOT_INTERESTED by decide]
  have hp : ¬ (P2P.chokes c).length % 2 = 0 := fun hp => by rw [h.choked.2 hp] at hc; cases hc
  refine ⟨by rw [e1]; exact Spec.Alternates.snoc h.chokes (by rw [if_neg hp]), ?_, e2.symm ▸ h.interests, by rw [e2]; exact h.interested⟩
  rw [e1, List.length_append]; simp; omega

theorem Agree.interest {c : Conn} (h : Agree c) (hc : c.interested = false) : Agree { c with interested := true, sent := c.sent ++ [PeerWire.interested] } := by
  have e1 : P2P.chokes { c with interested := true, sent := c.sent ++ [PeerWire.interested] } = P2P.chokes c := by
    unfold P2P.chokes; simp [show PeerWire.interested.typ = INTERESTED from rfl, show ¬ INTERESTED = CHOKE by decide, show ¬ INTERESTED = UNCHOKE by decide]
  have e2 : P2P.interests { c with interested := true, sent := c.sent ++ [PeerWire.interested] } = P2P.interests c ++ [INTERESTED] := by
    unfold P2P.interests; simp [show PeerWire.interested.typ = INTERESTED from rfl]
  have hp : (P2P.interests c).length % 2 = 0 := by
    have : ¬ (P2P.interests c).length % 2 = 1 := fun hp => by rw [h.interested.2 hp] at hc; cases hc
    omega
  refine ⟨e1.symm ▸ h.chokes, by rw [e1]; exact h.choked, by rw [e2]; exact Spec.Alternates.snoc h.interests (by rw [if_pos hp]), ?_⟩
  rw [e2, List.length_append]; simp; omega

theorem Agree.notInterest {c : Conn} (h : Agree c) (hc : c.interested = true) : Agree { c with interested := false, sent := c.sent ++ [PeerWire.notInterested] } := by
  have e1 : P2P.chokes { c with interested := false, sent := c.sent ++ [PeerWire.notInterested] } = P2P.chokes c := by
    unfold P2P.chokes; simp [show PeerWire.notInterested.typ = NOT_INTERESTED from rfl, show ¬ NOT_INTERESTED = CHOKE by decide, show ¬ NOT_INTERESTED = UNCHOKE by decide]
  have e2 : P2P.interests { c with interested := false, sent := c.sent ++ [PeerWire.notInterested] } = P2P.interests c ++ [NOT_INTERESTED] := by
    unfold P2P.interests; simp [show PeerWire.notInterested.typ = NOT_INTERESTED from rfl]
  have hp := h.interested.1 hc
  refine ⟨e1.symm ▸ h.chokes, by rw [e1]; exact h.choked, by rw [e2]; exact Spec.Alternates.snoc h.interests (by rw [if_neg (by omega)]), ?_⟩
  rw [e2, List.length_append]; simp; omega

/-! ### The four calls -/

/-- A call. -/
inductive Call where
  | choke | unchoke | interest | notInterest

/-- peer.go:137-163; `ok`: the write succeeds. -/
def Call.act (ok : Bool) (r : Ref) : Call → Act Unit
  | .choke => P2P.choke ok r
  | .unchoke => P2P.unchoke ok r
  | .interest => P2P.interest ok r
  | .notInterest => P2P.notInterest ok r

theorem toggle_apply {s : State} {c : Conn} (hc : s.peers[r]? = some c) (ok : Bool) (m : Message) (hm : m.typ ≠ REQUEST) (f : Conn → Conn) (hf : (f c).closed = c.closed) :
    (do setConn r f; send ok r m : Act Unit) s =
      if ok = true ∧ c.closed = false then (.ok (), { s with peers := s.peers.set r { f c with sent := (f c).sent ++ [m] } }) else (.err .conn, { s with peers := s.peers.set r (f c) }) := by
  rw [bind_apply, setConn_apply, modify_some hc]
  simp only []
  unfold send
  have h1 : (s.peers.set r (f c))[r]? = some (f c) := List.getElem?_set_self (List.getElem?_eq_some_iff.1 hc).1
  rw [bind_apply, getConn_some (s := { s with peers := s.peers.set r (f c) }) h1]
  simp only []
  rw [if_neg (by simp [hm])]
  by_cases h : ok = true ∧ c.closed = false
  · rw [if_pos h, if_pos (by rw [hf]; simp [h.1, h.2]), setConn_apply, modify_some h1]
    simp only [List.set_set]
  · rw [if_neg h, if_neg (by rw [hf]; simpa using h)]
    rfl

/-- What a call does. -/
theorem Call.cases {s : State} {c : Conn} (hc : s.peers[r]? = some c) (ok : Bool) (k : Call) :
    (∃ c', (ok = true ∧ c.closed = false ∧ k.act ok r s = (.ok (), { s with peers := s.peers.set r c' })) ∧ c'.closed = false ∧ (Agree c → Agree c')) ∨
    (k.act ok r s = (.ok (), s)) ∨
    (∃ c', ¬ (ok = true ∧ c.closed = false) ∧ c'.closed = c.closed ∧ k.act ok r s = (.err .conn, { s with peers := s.peers.set r c' })) := by
  have main : ∀ (p : Act Unit) (cond : Prop) [Decidable cond] (m : Message) (f : Conn → Conn), m.typ ≠ REQUEST → (f c).closed = c.closed →
      p s = (if cond then (do setConn r f; send ok r m : Act Unit) else pure ()) s →
      (Agree c → cond → Agree { f c with sent := (f c).sent ++ [m] }) →
      (∃ c', (ok = true ∧ c.closed = false ∧ p s = (.ok (), { s with peers := s.peers.set r c' })) ∧ c'.closed = false ∧ (Agree c → Agree c')) ∨ (p s = (.ok (), s)) ∨
        (∃ c', ¬ (ok = true ∧ c.closed = false) ∧ c'.closed = c.closed ∧ p s = (.err .conn, { s with peers := s.peers.set r c' })) := by
    intro p cond _ m f hm hf hp ha
    by_cases h : cond
    · rw [if_pos h, toggle_apply hc ok m hm f hf] at hp
      by_cases hk : ok = true ∧ c.closed = false
      · rw [if_pos hk] at hp
        exact .inl ⟨_, ⟨hk.1, hk.2, hp⟩, hf.trans hk.2, fun h' => ha h' h⟩
      · rw [if_neg hk] at hp
        exact .inr (.inr ⟨_, hk, hf, hp⟩)
    · rw [if_neg h] at hp; exact .inr (.inl hp)
  cases k with
  | choke =>
    refine main (P2P.choke ok r) (c.choked = false) PeerWire.choke (fun c => { c with choked := true }) (by decide) rfl ?_ fun h h1 => h.choke h1
    unfold P2P.choke; rw [bind_apply, getConn_some hc]
  | unchoke =>
    refine main (P2P.unchoke ok r) (c.choked = true) PeerWire.unchoke (fun c => { c with choked := false }) (by decide) rfl ?_ fun h h1 => h.unchoke h1
    unfold P2P.unchoke; rw [bind_apply, getConn_some hc]
  | interest =>
    refine main (P2P.interest ok r) (c.interested = false) PeerWire.interested (fun c => { c with interested := true }) (by decide) rfl ?_ fun h h1 => h.interest h1
    unfold P2P.interest; rw [bind_apply, getConn_some hc]
  | notInterest =>
    refine main (P2P.notInterest ok r) (c.interested = true) PeerWire.notInterested (fun c => { c with interested := false }) (by decide) rfl ?_ fun h h1 => h.notInterest h1
    unfold P2P.notInterest; rw [bind_apply, getConn_some hc]

/-! ### Over a history -/

variable {good : Ref → Prop}

/-- On open connections (those that are `good`) the flags agree with the messages. -/
def FlagsInv (good : Ref → Prop) (s : State) : Prop := ∀ (x : Ref) (c : Conn), good x → s.peers[x]? = some c → c.closed = false → Agree c

/-- Preserves that. -/
def Fl (good : Ref → Prop) (s s' : State) : Prop := FlagsInv good s → FlagsInv good s'

theorem Fl.pre : Pre (Fl good) := ⟨fun _ h => h, fun h1 h2 h => h2 (h1 h)⟩
theorem Fl.same {s s' : State} (h : s'.peers = s.peers) : Fl good s s' := fun hs x c hg hc => hs x c hg (h ▸ hc)
theorem Fl.set {s : State} {c c' : Conn} (hc : s.peers[r]? = some c) (h : good r → c'.closed = false → c.closed = false ∧ (Agree c → Agree c')) : Fl good s { s with peers := s.peers.set r c' } :=
  fun hs x d hg hd hcl => by
    rcases set_cases hd with ⟨rfl, rfl⟩ | ⟨_, hd⟩
    · exact (h hg hcl).2 (hs _ c hg hc (h hg hcl).1)
    · exact hs x d hg hd hcl
theorem fl_setConn (f : Conn → Conn) (h : ∀ c, (f c).closed = false → c.closed = false ∧ (Agree c → Agree (f c))) : Pres (Fl good) (setConn r f) := fun s => by
  rw [setConn_apply]
  cases hc : s.peers[r]? with
  | none => simp only [modify_none hc]; exact Fl.pre.refl s
  | some c => simp only [modify_some hc]; exact Fl.set hc fun _ => h c
theorem fl_locked {α : Type} {p : Act α} (hp : Pres (Fl good) p) : Pres (Fl good) (Act.locked p) := Pres.locked Fl.pre (fun _ _ => Fl.same rfl) hp
theorem fl_modify (f : State → State) (h : ∀ s, (f s).peers = s.peers := by intro _; rfl) : Pres (Fl good) (Act.modify f) := fun s => Fl.same (h s)
theorem fl_send (ok : Bool) (m : Message) (h1 : m.typ ≠ CHOKE) (h2 : m.typ ≠ UNCHOKE) (h3 : m.typ ≠ INTERESTED) (h4 : m.typ ≠ NOT_INTERESTED) : Pres (Fl good) (send ok r m) := by
  unfold send
  exact Pres.bind Fl.pre (Pres.getConn Fl.pre r) fun _ => Pres.ite (Pres.fail Fl.pre _) (Pres.ite (fl_setConn _ fun c h => ⟨h, fun ha => ha.other h1 h2 h3 h4⟩) (Pres.fail Fl.pre _))
theorem fl_call (k : Call) (ok : Bool) (hok : good r → ok = true) : Pres (Fl good) (k.act ok r) := fun s => by
  cases hc : s.peers[r]? with
  | none => cases k <;> (simp only [Call.act]; first | unfold choke | unfold unchoke | unfold interest | unfold notInterest) <;> (rw [bind_apply, getConn_apply, hc]; exact Fl.pre.refl s)
  | some c =>
    rcases k.cases hc ok with ⟨c', ⟨_, h1, h⟩, h2, h3⟩ | h | ⟨c', h1, h2, h⟩
    · rw [h]; exact Fl.set hc fun _ _ => ⟨h1, h3⟩
    · rw [h]; exact Fl.pre.refl s
    · rw [h]; exact Fl.set hc fun hg h3 => absurd ⟨hok hg, h2 ▸ h3⟩ h1
theorem fl_store {α : Type} (fates : List Fate) (p : Op α) : Pres (Fl good) (Act.store fates p) := fun s => by
  rw [store_state]; exact Fl.same rfl
theorem fl_QueuePeer : Pres (Fl good) (QueuePeer r) := by
  refine fl_locked fun s => ?_
  unfold queuePeer
  rw [bind_apply, getConn_apply]
  cases s.peers[r]? with
  | none => exact Fl.pre.refl s
  | some c =>
    simp only []
    split
    · exact Fl.pre.refl s
    · rw [bind_apply, get_apply]
      simp only []
      split
      · exact Fl.pre.refl s
      · rw [bind_apply, modify_apply]
        simp only []
        split <;> exact Fl.same rfl
theorem fl_handleHave (ok : Bool) (hok : good r → ok = true) (i : Int) : Pres (Fl good) (handleHave ok r i) :=
  Pres.bind Fl.pre (Pres.getConn Fl.pre r) fun _ => Pres.bind Fl.pre (Pres.lift Fl.pre _) fun _ => Pres.bind Fl.pre (fl_setConn _ fun c h => ⟨h, fun ha => ha.same rfl rfl rfl⟩) fun _ =>
    Pres.bind Fl.pre (fl_locked (fl_modify _)) fun _ => Pres.bind Fl.pre (Pres.torrentBitfield Fl.pre) fun _ => Pres.bind Fl.pre (Pres.lift Fl.pre _) fun _ =>
      Pres.ite (Pres.bind Fl.pre fl_QueuePeer fun _ => fl_call .interest ok hok) (Pres.pure Fl.pre _)
theorem fl_handleItems (ok : Bool) (hok : good r → ok = true) : ∀ is : List Nat, Pres (Fl good) (handleItems ok r is)
  | [] => Pres.pure Fl.pre _
  | i :: is => Pres.bind Fl.pre (fl_handleHave ok hok i) fun _ => fl_handleItems ok hok is
theorem fl_handleMessage (fates : List Fate) (ok : Bool) (hok : good r → ok = true) (m : Message) : Pres (Fl good) (handleMessage fates ok cfg r m) := by
  have hl : ∀ {α : Type} (x : Res α), Pres (Fl good) (Act.lift x) := fun x => Pres.lift Fl.pre x
  have hs : ∀ f : Conn → Conn, (∀ c, (f c).closed = c.closed ∧ (f c).sent = c.sent ∧ (f c).choked = c.choked ∧ (f c).interested = c.interested) → Pres (Fl good) (setConn r f) := fun f h =>
    fl_setConn f fun c hc => ⟨(h c).1 ▸ hc, fun ha => ha.same (h c).2.1 (h c).2.2.1 (h c).2.2.2⟩
  unfold handleMessage
  refine Pres.ite (hs _ fun _ => ⟨rfl, rfl, rfl, rfl⟩) (Pres.ite (Pres.bind Fl.pre (hs _ fun _ => ⟨rfl, rfl, rfl, rfl⟩) fun _ => fl_QueuePeer) (Pres.ite (hs _ fun _ => ⟨rfl, rfl, rfl, rfl⟩)
    (Pres.ite (hs _ fun _ => ⟨rfl, rfl, rfl, rfl⟩) (Pres.ite ?_ (Pres.ite ?_ (Pres.ite ?_ (Pres.ite ?_ (Pres.ite ?_ (Pres.pure Fl.pre _)))))))))
  · exact Pres.bind Fl.pre (hl _) fun _ => fl_handleHave ok hok _
  · exact Pres.bind Fl.pre (hl _) fun _ => fl_handleItems ok hok _
  · refine Pres.bind Fl.pre (hl _) fun _ => Pres.bind Fl.pre (hl _) fun _ => Pres.bind Fl.pre (hl _) fun _ => ?_
    unfold handleRequest
    exact Pres.bind Fl.pre (Pres.getConn Fl.pre r) fun _ => Pres.ite (Pres.fail Fl.pre _) (Pres.ite (hs _ fun _ => ⟨rfl, rfl, rfl, rfl⟩) (Pres.bind Fl.pre (fl_store _ _) fun _ =>
      Pres.bind Fl.pre (fl_send ok _ (by show PIECE ≠ CHOKE; decide) (by show PIECE ≠ UNCHOKE; decide) (by show PIECE ≠ INTERESTED; decide) (by show PIECE ≠ NOT_INTERESTED; decide)) fun _ =>
        Pres.bind Fl.pre (hs _ fun _ => ⟨rfl, rfl, rfl, rfl⟩) fun _ => fl_modify _))
  · exact Pres.bind Fl.pre (hl _) fun _ => Pres.bind Fl.pre (hl _) fun _ => Pres.bind Fl.pre (hl _) fun _ => hs _ fun _ => ⟨rfl, rfl, rfl, rfl⟩
  · refine Pres.bind Fl.pre (hl _) fun _ => Pres.bind Fl.pre (hl _) fun _ => Pres.bind Fl.pre (hl _) fun d s => ?_
    unfold handlePiece
    have := fun a b => fl_store (good := good) fates (putBlock cfg.store a b d) s
    split <;> rename_i he <;> have := (congrArg (fun x => Fl good s x.2) he).mp (this _ _)
    · refine Fl.pre.trans this ?_
      exact Pres.bind Fl.pre (hs (fun c => { c with downloaded := c.downloaded + d.length }) fun _ => ⟨rfl, rfl, rfl, rfl⟩) (fun _ => fl_modify (fun s => { s with downloaded := s.downloaded + d.length }) fun _ => rfl) _
    · split <;> exact this
    all_goals exact this
theorem fl_disconnect : Pres (Fl good) (disconnect r) :=
  Pres.bind Fl.pre (Pres.getConn Fl.pre r) fun _ => Pres.bind Fl.pre (fl_modify _) fun _ => fl_setConn _ fun _ h => by cases h
theorem fl_disconnectAll : ∀ rs : List Ref, Pres (Fl good) (disconnectAll rs)
  | [] => Pres.pure Fl.pre _
  | _ :: rs => Pres.bind Fl.pre fl_disconnect fun _ => fl_disconnectAll rs
theorem fl_sendHave (oks : Ref → Bool) (i : Nat) : ∀ rs : List Ref, Pres (Fl good) (sendHave oks i rs)
  | [] => Pres.pure Fl.pre _
  | r :: rs => Pres.bind Fl.pre (Pres.getConn Fl.pre r) fun _ => Pres.ite (fl_sendHave oks i rs)
      (Pres.bind Fl.pre (fl_send _ _ (by show HAVE ≠ CHOKE; decide) (by show HAVE ≠ UNCHOKE; decide) (by show HAVE ≠ INTERESTED; decide) (by show HAVE ≠ NOT_INTERESTED; decide)) fun _ => fl_sendHave oks i rs)
theorem fl_next {ok err : Phase} {x : Outcome Unit × State} {s : State} (h : Fl good s x.2) : Fl good s (next r ok err x).2 := by
  refine Fl.pre.trans h ?_
  exact fl_setConn (r := r) (fun c => { c with phase := match x.1 with | .ok _ => ok | .err _ => err | _ => .hung }) (fun c hc => ⟨hc, fun ha => ha.same rfl rfl rfl⟩) x.2
theorem Agree.new (id ip : Bytes) (port : Nat) : Agree (newConn cfg id ip port) := ⟨trivial, ⟨fun _ => rfl, fun _ => rfl⟩, trivial, ⟨(fun h => by cases h), (fun h => by cases h)⟩⟩
theorem Fl.new {s : State} {id ip : Bytes} {port : Nat} : Fl good s { s with peers := s.peers ++ [newConn cfg id ip port] } := fun hs x c hg hc hcl => by
  simp only [List.getElem?_append] at hc
  split at hc
  · exact hs x c hg hc hcl
  · rw [List.getElem?_singleton] at hc
    split at hc
    · injection hc with hc; subst hc; exact .new id ip port
    · cases hc

theorem fl_connectRegister (ok : Bool) : Pres (Fl good) (connectRegister ok r) := by
  unfold connectRegister
  refine fl_locked (Pres.bind Fl.pre (Pres.get Fl.pre) fun _ => Pres.bind Fl.pre (Pres.getConn Fl.pre r) fun _ => Pres.ite (Pres.fail Fl.pre _) ?_)
  refine Pres.bind Fl.pre (fl_modify _) fun _ => Pres.ite (Pres.fail Fl.pre _) ?_
  refine Pres.bind Fl.pre (fl_modify _) fun _ => ?_
  refine Pres.bind Fl.pre (fl_setConn _ fun c h => ⟨h, fun ha => ha.same rfl rfl rfl⟩) fun _ => ?_
  refine Pres.bind Fl.pre (Pres.torrentBitfield Fl.pre) fun bf => ?_
  exact fl_send _ _ (by show BITFIELD ≠ CHOKE; decide) (by show BITFIELD ≠ UNCHOKE; decide) (by show BITFIELD ≠ INTERESTED; decide) (by show BITFIELD ≠ NOT_INTERESTED; decide)

set_option maxHeartbeats 1000000 in
theorem fl_act {s s' : State} {o : Outcome Unit} {e : Event} {l : Luck} (hok : ∀ x, good x → l.ok x = true) (h : act cfg l s e = some (o, s')) : Fl good s s' := by
  have mine : ∀ {r ok err x}, Fl good s x.2 → some (next r ok err x) = some (o, s') → Fl good s s' := fun {r ok err x} h1 h2 => by
    injection h2 with h2
    have := fl_next (r := r) (ok := ok) (err := err) h1
    rw [h2] at this; exact this
  have keep : Fl good s s := Fl.pre.refl s
  cases e with
  | accept ip port =>
    simp only [act] at h
    split at h
    · cases h
    · cases h; exact Fl.new
  | takeAddr =>
    simp only [act] at h
    split at h <;> cases h
    exact Fl.same rfl
  | spawn =>
    simp only [act] at h
    split at h
    · split at h
      · cases h
      · cases h; exact Fl.same rfl
    · cases h
  | dialCheck k =>
    simp only [act] at h
    split at h
    · split at h
      · split at h
        · cases h; exact keep
        · split at h <;> (cases h; exact Fl.same rfl)
      · cases h; exact Fl.same rfl
    · cases h
  | dial k b =>
    simp only [act] at h
    split at h
    · split at h
      · cases h; exact Fl.pre.trans Fl.new (Fl.same rfl)
      · cases h; exact Fl.same rfl
    · cases h
  | check r =>
    simp only [act] at h
    split at h
    · refine mine ?_ h
      unfold connectCheck
      refine Pres.bind Fl.pre (fun s => ?_) (fun _ => Pres.bind Fl.pre (Pres.get Fl.pre) fun s => Pres.bind Fl.pre (Pres.getConn Fl.pre r) fun c => Pres.ite (Pres.fail Fl.pre _) ?_) s
      · unfold Act.lock; split <;> exact Fl.same rfl
      · cases mget s.knownIDIPs c.addr with
        | none => exact fl_modify _
        | some idip => exact Pres.ite (Pres.fail Fl.pre _) (fl_modify _)
    · cases h
  | handshake r rd =>
    simp only [act] at h
    split at h
    · refine mine ?_ h
      unfold handshake
      refine Pres.bind Fl.pre (Pres.getConn Fl.pre r) (fun _ => Pres.ite (Pres.fail Fl.pre _) (Pres.bind Fl.pre (Pres.lift Fl.pre _) fun x => ?_)) s
      obtain ⟨phs, rd'⟩ := x
      exact Pres.bind Fl.pre (fl_setConn _ fun c h => ⟨h, fun ha => ha.same rfl rfl rfl⟩) fun _ => Pres.ite (Pres.fail Fl.pre _) (Pres.ite (Pres.fail Fl.pre _)
        (Pres.bind Fl.pre (fl_setConn _ fun c h => ⟨h, fun ha => ha.same rfl rfl rfl⟩) fun _ => Pres.ite (Pres.fail Fl.pre _) (Pres.pure Fl.pre _)))
    · cases h
  | register r =>
    simp only [act] at h
    split at h
    · refine mine ?_ h
      exact fl_connectRegister _ s
    · cases h
  | receive r rd =>
    simp only [act] at h
    split at h
    · split at h
      · split at h
        · rename_i m _ _
          injection h with h; injection h with _ h
          rw [← h]
          exact fl_setConn (r := r) (fun c => { c with phase := .serving (some m), received := c.received ++ [m] }) (fun c hc => ⟨hc, fun ha => ha.same rfl rfl rfl⟩) s
        · exact mine keep h
        · cases h; exact keep
      · cases h
    · cases h
  | handle r =>
    simp only [act] at h
    split at h
    · exact mine (fl_handleMessage _ _ (hok r) _ s) h
    · cases h
  | fails r =>
    simp only [act] at h
    split at h
    · exact mine keep h
    · cases h
  | leave r =>
    simp only [act] at h
    split at h
    · exact mine (fl_locked fl_disconnect s) h
    · cases h
  | unchoke r =>
    simp only [act] at h
    split at h
    · injection h with h
      have : Fl good s (unchoke (l.ok r) r s).2 := fl_call (r := r) .unchoke _ (hok r) s
      rw [h] at this; exact this
    · cases h
  | addPeer tp =>
    injection h with h
    have : Fl good s (addPeer tp s).2 := fl_locked (Pres.bind Fl.pre (Pres.lift Fl.pre _) fun _ => Pres.bind Fl.pre (Pres.get Fl.pre) fun _ => Pres.ite (Pres.pure Fl.pre _) (Pres.ite (Pres.pure Fl.pre _)
      (Pres.ite (fl_modify _) (Pres.pure Fl.pre _)))) s
    rw [h] at this; exact this
  | select k =>
    simp only [act] at h
    split at h
    · rename_i r _
      have : Fl good s (requestPieceFromPeer (l.ok r) l.coins l.pdq r s).2 := by
        unfold requestPieceFromPeer
        refine fl_locked (Pres.bind Fl.pre (Pres.getConn Fl.pre r) fun _ => Pres.ite (fl_modify _) (Pres.bind Fl.pre (Pres.torrentBitfield Fl.pre) fun _ => Pres.ite ?_
          (Pres.bind Fl.pre (Pres.get Fl.pre) fun s => ?_))) s
        · exact Pres.bind Fl.pre (fl_modify _) fun _ => fl_call .notInterest _ (hok r)
        · generalize firstFree _ _ = x
          cases x <;> exact fl_modify _
      generalize requestPieceFromPeer (l.ok r) l.coins l.pdq r s = x at h this
      obtain ⟨o1, s1⟩ := x
      cases o1 with
      | stuck => cases h; exact keep
      | _ => cases h; exact Fl.pre.trans this (Fl.same rfl)
    · cases h
  | begin k =>
    simp only [act] at h
    split at h
    · rename_i r i _
      have := fl_store (good := good) l.fates (resetPiece (i : Int)) s
      generalize Act.store l.fates (resetPiece (i : Int)) s = x at h this
      obtain ⟨o1, s1⟩ := x
      cases h; exact Fl.pre.trans this (Fl.same rfl)
    · cases h
  | request k q =>
    simp only [act] at h
    split at h
    · rename_i r i _
      split at h
      · injection h with h
        have : Fl good s (send (l.ok r) r (request q.index q.begin_ q.length) s).2 := fl_send _ _ (by show REQUEST ≠ CHOKE; decide) (by show REQUEST ≠ UNCHOKE; decide)
          (by show REQUEST ≠ INTERESTED; decide) (by show REQUEST ≠ NOT_INTERESTED; decide) s
        rw [h] at this; exact this
      · cases h
    · cases h
  | finish k res =>
    simp only [act] at h
    split at h
    · rename_i r i _
      split at h
      · have : Fl good s (finish l.ok l.order r i res s).2 := by
          unfold finish
          cases res with
          | failed => exact keep
          | checksum =>
            exact Pres.attempt Fl.pre (fl_locked (Pres.bind Fl.pre (Pres.getConn Fl.pre r) fun _ => Pres.bind Fl.pre (fl_modify _) fun _ => fl_disconnect)) s
          | complete =>
            refine Pres.attempt Fl.pre (Pres.bind Fl.pre (fun s => ?_) fun _ => Pres.bind Fl.pre (fl_modify _) fun _ => Pres.bind Fl.pre (Pres.get Fl.pre) fun _ => fl_sendHave _ _ _) s
            unfold Act.lock; split <;> exact Fl.same rfl
        generalize finish l.ok l.order r i res s = x at h this
        obtain ⟨o1, s1⟩ := x
        cases o1 with
        | stuck => cases h; exact keep
        | _ => cases h; exact Fl.pre.trans this (Fl.same rfl)
      · cases h
    · cases h
  | hand k =>
    simp only [act] at h
    split at h
    · split at h <;> (cases h; exact Fl.same rfl)
    · cases h
  | clear k =>
    simp only [act] at h
    split at h
    · cases h; exact Fl.same rfl
    · cases h
  | again k timer =>
    simp only [act] at h
    split at h
    · split at h <;> (cases h; exact Fl.same rfl)
    · split at h
      · cases h; exact Fl.same rfl
      · cases h
    · cases h
  | cancel => cases h; exact Fl.same rfl
  | quit =>
    simp only [act] at h
    split at h
    · cases h; exact Fl.same rfl
    · cases h
  | stop =>
    simp only [act] at h
    split at h
    · injection h with h
      have : Fl good s (stop s).2 := fl_locked (Pres.bind Fl.pre (fl_modify _) fun _ => Pres.bind Fl.pre (Pres.get Fl.pre) fun _ => Pres.bind Fl.pre (fl_disconnectAll _) fun _ =>
        fl_modify _) s
      rw [h] at this; exact this
    · cases h

theorem flags_from {s : State} (h0 : FlagsInv good s) (es : List (Event × Luck)) (hok : ∀ e ∈ es, ∀ x, good x → e.2.ok x = true) : FlagsInv good (run cfg s es) := by
  refine run_rec (cfg := cfg) (P := fun es s => (∀ e ∈ es, ∀ x, good x → e.2.ok x = true) → FlagsInv good s) s (fun _ => h0) (fun es e ih hq => ?_) es hok
  have hs := ih fun e he => hq e (List.mem_append_left _ he)
  rcases step_alive (cfg := cfg) (run cfg s es) e with h | ⟨_, o, s', hact, h⟩
  · rw [h]; exact hs
  · have := fl_act (hq e (List.mem_append_right _ (List.mem_singleton_self _))) hact hs
    rcases h with ⟨_, h⟩ | ⟨_, h⟩ <;> rw [h] <;> exact this

theorem flags_run (w : World) (es : List (Event × Luck)) (hok : ∀ e ∈ es, ∀ x, good x → e.2.ok x = true) : FlagsInv good (run cfg (init w) es) :=
  flags_from (fun x c _ h => by cases h) es hok

end Drip.P2P
