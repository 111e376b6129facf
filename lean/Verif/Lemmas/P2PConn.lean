import Verif.Lemmas.P2PHist
/-
Where connections come from, how many there are, and which of them are in the set of active peers.
-/

namespace Drip.P2P
open PeerWire Metainfo
open Storage (Fate World Op runOp getBlock putBlock resetPiece)

variable {cfg : Cfg} {may : May} {r : Ref}

theorem run_append (s : State) (es es' : List (Event × Luck)) : run cfg s (es ++ es') = run cfg (run cfg s es) es' := by
  induction es generalizing s with
  | nil => rfl
  | cons e es ih => exact ih _

theorem run_snoc (s : State) (es : List (Event × Luck)) (e : Event × Luck) : run cfg s (es ++ [e]) = step cfg (run cfg s es) e := run_append s es [e]

/-- Induction over histories, from the end. -/
theorem run_rec {P : List (Event × Luck) → State → Prop} (s : State) (h0 : P [] s) (h1 : ∀ es e, P es (run cfg s es) → P (es ++ [e]) (step cfg (run cfg s es) e))
    (es : List (Event × Luck)) : P es (run cfg s es) := by
  have : ∀ n, ∀ es : List (Event × Luck), es.length = n → P es (run cfg s es) := by
    intro n
    induction n with
    | zero => intro es h; rw [List.length_eq_zero_iff.1 h]; exact h0
    | succ n ih =>
      intro es h
      have hne : es ≠ [] := fun e => by rw [e] at h; cases h
      obtain ⟨l, e, rfl⟩ : ∃ l e, es = l ++ [e] := ⟨es.dropLast, es.getLast hne, (List.dropLast_concat_getLast hne).symm⟩
      rw [run_snoc]
      exact h1 l e (ih l (by simpa using h))
  exact this _ es rfl

theorem step_alive (s : State) (e : Event × Luck) : step cfg s e = s ∨ (s.alive = true ∧ ∃ o s', act cfg e.2 s e.1 = some (o, s') ∧
    ((o = .panic ∨ o = .crash) ∧ step cfg s e = { s' with alive := false } ∨ (o ≠ .panic ∧ o ≠ .crash) ∧ step cfg s e = s')) := by
  unfold step
  cases ha : s.alive with
  | false => exact .inl (if_pos rfl)
  | true =>
    rw [if_neg (by simp)]
    cases h : act cfg e.2 s e.1 with
    | none => exact .inl rfl
    | some x =>
      obtain ⟨o, s'⟩ := x
      refine .inr ⟨rfl, o, s', rfl, ?_⟩
      cases o with
      | panic => exact .inl ⟨.inl rfl, rfl⟩
      | crash => exact .inl ⟨.inr rfl, rfl⟩
      | ok a => exact .inr ⟨by simp, rfl⟩
      | err e => exact .inr ⟨by simp, rfl⟩
      | stuck => exact .inr ⟨by simp, rfl⟩

/-! ### Addresses to dial -/

theorem Smalls.addrsFrame {s s' : State} (hn : ¬ may.addrs) (h : Smalls cfg may s s') :
    s'.newPeerQueue = s.newPeerQueue ∧ s'.held = s.held ∧ s'.dialers = s.dialers ∧ s'.knownPeers = s.knownPeers := by
  induction h with
  | refl => exact ⟨rfl, rfl, rfl, rfl⟩
  | tail _ h ih =>
    cases h with
    | addrs q h d k ha => exact absurd ha hn
    | _ => exact ih

/-- A blocked address stays blocked. -/
theorem Smalls.blocked {s s' : State} (h : Smalls cfg may s s') {a : Bytes} (ha : a ∈ s.blockedPeers) : a ∈ s'.blockedPeers := by
  induction h with
  | refl => exact ha
  | tail _ h ih =>
    cases h with
    | block r c h1 h2 =>
      show a ∈ List.foldl sadd _ _
      generalize (mget _ c.idip).getD [] = l
      revert ih
      generalize State.blockedPeers _ = b
      intro ih
      induction l generalizing b with
      | nil => exact ih
      | cons x l ihl => exact ihl _ (mem_sadd.2 (.inr ih))
    | _ => exact ih

/-- Where addresses come from: every one in the queue, in the hands of `DialPeers` or of a goroutine that dials has been given to `AddPeer`. -/
def Waiting (s : State) (tp : Tracker.Peer) : Prop := tp ∈ s.newPeerQueue ∨ s.held = some tp ∨ ∃ b, (tp, b) ∈ s.dialers

theorem addPeer_cases (tp : Tracker.Peer) (s : State) : (addPeer tp s).2 = s ∨
    (s.locked = false ∧ ∃ a, remoteAddr tp = .ok a ∧ mget s.knownPeers a = none ∧ a ∉ s.blockedPeers ∧
      (addPeer tp s).2 = { s with newPeerQueue := s.newPeerQueue ++ [tp], knownPeers := mput s.knownPeers a tp }) := by
  unfold addPeer
  rw [locked_apply]
  cases hl : s.locked with
  | true => left; rfl
  | false =>
    rw [if_neg (by simp), bind_apply]
    have hself : ({ s with locked := false } : State) = s := by rw [← hl]
    cases ha : remoteAddr tp with
    | err e => left; exact hself
    | panic => unfold remoteAddr at ha; split at ha <;> cases ha
    | ok a =>
      simp only [Act.lift]
      rw [show (Act.pure a { s with locked := true }) = (Outcome.ok a, { s with locked := true }) from rfl]
      simp only [bind_apply, get_apply]
      by_cases h1 : (mget s.knownPeers a).isSome = true
      · simp only [h1, if_true]; left; exact hself
      by_cases h2 : a ∈ s.blockedPeers
      · simp only [h1, h2, if_true]; left; exact hself
      by_cases h3 : s.newPeerQueue.length < 50
      · simp only [h1, h2, h3, if_true]
        right
        refine ⟨trivial, a, rfl, by simpa using h1, h2, ?_⟩
        simp [hl]
      · simp only [h1, h2, h3]; left; exact hself

theorem waiting_step {s : State} {e : Event × Luck} {tp : Tracker.Peer} (hi : PendOK s) (h : Waiting (step cfg s e) tp) : Waiting s tp ∨ e.1 = .addPeer tp := by
  rcases step_alive (cfg := cfg) s e with hs | ⟨_, o, s', ha, hs⟩
  · rw [hs] at h; exact .inl h
  have h : Waiting s' tp := by rcases hs with ⟨_, hs⟩ | ⟨_, hs⟩ <;> (rw [hs] at h; exact h)
  clear hs
  by_cases hadd : (mayOf cfg s e.1).addrs
  · obtain ⟨e, l⟩ := e
    simp only at ha hadd ⊢
    rcases hadd with ⟨tp', rfl⟩ | rfl | rfl | ⟨k, rfl⟩ | ⟨k, b, rfl⟩
    · injection ha with ha
      have : s' = (addPeer tp' s).2 := by rw [ha]
      subst this
      rcases addPeer_cases tp' s with h1 | ⟨_, a, _, _, _, h1⟩
      · rw [h1] at h; exact .inl h
      · rw [h1] at h
        rcases h with h | h | h
        · rcases List.mem_append.1 h with h | h
          · exact .inl (.inl h)
          · rw [List.mem_singleton] at h; subst h; exact .inr rfl
        · exact .inl (.inr (.inl h))
        · exact .inl (.inr (.inr h))
    · simp only [act] at ha
      split at ha
      · rename_i h1 h2
        cases ha
        left
        rcases h with h | h | h
        · exact .inl (by rw [h2]; exact List.mem_cons_of_mem _ h)
        · injection h with h; subst h; exact .inl (by rw [h2]; exact List.mem_cons_self ..)
        · exact .inr (.inr h)
      · cases ha
    · simp only [act] at ha
      split at ha
      · rename_i tp' h1
        split at ha
        · cases ha
        · cases ha
          left
          rcases h with h | h | ⟨b, h⟩
          · exact .inl h
          · cases h
          · rcases List.mem_append.1 h with h | h
            · exact .inr (.inr ⟨b, h⟩)
            · rw [List.mem_singleton] at h; injection h with h _; subst h; exact .inr (.inl h1)
      · cases ha
    · have herase : ∀ {x : Tracker.Peer × Bool}, x ∈ s.dialers.eraseIdx k → x ∈ s.dialers := fun h => (List.eraseIdx_sublist ..).mem h
      simp only [act] at ha
      split at ha
      · rename_i tp' h1
        have hset : ∀ {b}, (tp, b) ∈ s.dialers.set k (tp', true) → Waiting s tp := fun {b} h => by
          rcases List.mem_or_eq_of_mem_set h with h | h
          · exact .inr (.inr ⟨b, h⟩)
          · injection h with h _; subst h; exact .inr (.inr ⟨false, List.mem_of_getElem? h1⟩)
        split at ha
        · split at ha
          · cases ha; exact .inl h
          · split at ha
            · cases ha
              rcases h with h | h | ⟨b, h⟩
              · exact .inl (.inl h)
              · exact .inl (.inr (.inl h))
              · exact .inl (.inr (.inr ⟨b, herase h⟩))
            · cases ha
              rcases h with h | h | ⟨b, h⟩
              · exact .inl (.inl h)
              · exact .inl (.inr (.inl h))
              · exact .inl (hset h)
        · cases ha
          rcases h with h | h | ⟨b, h⟩
          · exact .inl (.inl h)
          · exact .inl (.inr (.inl h))
          · exact .inl (.inr (.inr ⟨b, herase h⟩))
      · cases ha
    · have herase : ∀ {x : Tracker.Peer × Bool}, x ∈ s.dialers.eraseIdx k → x ∈ s.dialers := fun h => (List.eraseIdx_sublist ..).mem h
      simp only [act] at ha
      split at ha
      · split at ha
        · cases ha
          rcases h with h | h | ⟨b, h⟩
          · exact .inl (.inl h)
          · exact .inl (.inr (.inl h))
          · exact .inl (.inr (.inr ⟨b, herase h⟩))
        · cases ha
          rcases h with h | h | ⟨b, h⟩
          · exact .inl (.inl h)
          · exact .inl (.inr (.inl h))
          · exact .inl (.inr (.inr ⟨b, herase h⟩))
      · cases ha
  · obtain ⟨h1, h2, h3, _⟩ := (act_small e.2 hi ha).addrsFrame hadd
    left
    unfold Waiting at h ⊢
    rwa [h1, h2, h3] at h

/-! ### Where connections come from -/

/-- Handshake and origin of a connection, in terms of what has happened. -/
structure Origin (es : List (Event × Luck)) (x : Ref) (c : Conn) : Prop where
  shook : ∀ hs, c.shook = some hs → ∃ rd rd' l, (.handshake x rd, l) ∈ es ∧ Handshake.decode rd = .ok (hs, rd')
  from_ : (c.announced = zeroID ∧ ∃ l, (.accept c.ip c.port, l) ∈ es) ∨
    ∃ tp l, (.addPeer tp, l) ∈ es ∧ dialable tp = some (c.ip, c.port) ∧ c.announced = copyID tp.id

theorem Change.origin {s : State} {c c' : Conn} (h : Change cfg may s r c c') :
    c'.ip = c.ip ∧ c'.port = c.port ∧ c'.announced = c.announced ∧ (c'.shook = c.shook ∨ ∃ hs, may.shake r hs ∧ c'.shook = some hs) := by
  cases h with
  | shake hs h1 h2 => exact ⟨rfl, rfl, rfl, .inr ⟨hs, h2, rfl⟩⟩
  | _ => exact ⟨rfl, rfl, rfl, .inl rfl⟩

theorem origin_smalls {es : List (Event × Luck)} {s0 s s' : State} {e : Event × Luck} (hm : may = mayOf cfg s0 e.1) (hw : ∀ tp, Waiting s0 tp → ∃ l, (.addPeer tp, l) ∈ es)
    (h : Smalls cfg may s s') (ih : ∀ (x : Ref) (c : Conn), s.peers[x]? = some c → Origin (es ++ [e]) x c) :
    ∀ (x : Ref) (c : Conn), s'.peers[x]? = some c → Origin (es ++ [e]) x c := by
  induction h with
  | refl => exact ih
  | tail _ h ih =>
    intro x c hc
    cases h with
    | new id ip port hf =>
      rcases List.getElem?_append .. ▸ hc with hc
      split at hc
      · exact ih x c hc
      · rw [List.getElem?_singleton] at hc
        split at hc
        · injection hc with hc; subst hc
          refine ⟨fun hs h => (by cases h), ?_⟩
          rw [hm] at hf
          rcases hf with ⟨he, rfl, _⟩ | ⟨k, tp, he, hd, hdl, rfl⟩
          · exact .inl ⟨rfl, e.2, List.mem_append_right _ (by show (Event.accept ip port, e.2) ∈ _; rw [← he]; exact List.mem_singleton_self _)⟩
          · obtain ⟨l, hl⟩ := hw tp (.inr (.inr ⟨true, List.mem_of_getElem? hd⟩))
            exact .inr ⟨tp, l, List.mem_append_left _ hl, hdl, rfl⟩
        · cases hc
    | upd y a b h1 h2 =>
      rcases set_cases hc with ⟨rfl, rfl⟩ | ⟨_, hc⟩
      · have ia := ih x a h1
        obtain ⟨e1, e2, e3, e4⟩ := h2.origin
        refine ⟨fun hs h => ?_, by rw [e1, e2, e3]; exact ia.from_⟩
        rcases e4 with e4 | ⟨hs', hs1, e4⟩
        · rw [e4] at h; exact ia.shook hs h
        · rw [e4] at h; injection h with h; subst h
          rw [hm] at hs1
          obtain ⟨rd, rd', h3, h4⟩ := hs1
          exact ⟨rd, rd', e.2, List.mem_append_right _ (by rw [← h3]; exact List.mem_singleton_self _), h4⟩
      · exact ih x c hc
    | upload y a q d f h0 h1 h2 =>
      rcases set_cases hc with ⟨rfl, rfl⟩ | ⟨_, hc⟩
      · exact ⟨(ih x a h1).shook, (ih x a h1).from_⟩
      · exact ih x c hc
    | join y a ms ph h0 h1 =>
      rcases set_cases hc with ⟨rfl, rfl⟩ | ⟨_, hc⟩
      · exact ⟨(ih x a h1).shook, (ih x a h1).from_⟩
      · exact ih x c hc
    | _ => exact ih x c hc

theorem waiting_run (w : World) (es : List (Event × Luck)) {tp : Tracker.Peer} (h : Waiting (run cfg (init w) es) tp) : ∃ l, (.addPeer tp, l) ∈ es := by
  refine run_rec (cfg := cfg) (P := fun es s => Inv cfg s ∧ ∀ tp, Waiting s tp → ∃ l, (.addPeer tp, l) ∈ es) (init w) ⟨.init w, fun tp h => ?_⟩ (fun es e ih => ⟨ih.1.step e, fun tp h => ?_⟩) es |>.2 tp h
  · rcases h with h | h | ⟨_, h⟩ <;> cases h
  · rcases waiting_step ih.1.pendOK h with h | h
    · obtain ⟨l, hl⟩ := ih.2 tp h
      exact ⟨l, List.mem_append_left _ hl⟩
    · exact ⟨e.2, List.mem_append_right _ (by rw [← h]; exact List.mem_singleton_self _)⟩

theorem origin_run (w : World) (es : List (Event × Luck)) (x : Ref) (c : Conn) (h : (run cfg (init w) es).peers[x]? = some c) : Origin es x c := by
  refine run_rec (cfg := cfg) (P := fun es s => ∀ (x : Ref) (c : Conn), s.peers[x]? = some c → Origin es x c) (init w) (fun x c h => by cases h) (fun es e ih => ?_) es x c h
  refine origin_smalls rfl (fun tp h => waiting_run w es h) (step_small e (inv_run w es).pendOK) fun x c hc => ?_
  have := ih x c hc
  refine ⟨fun hs h => ?_, ?_⟩
  · obtain ⟨rd, rd', l, h1, h2⟩ := this.shook hs h
    exact ⟨rd, rd', l, List.mem_append_left _ h1, h2⟩
  · rcases this.from_ with ⟨h1, l, h2⟩ | ⟨tp, l, h1, h2⟩
    · exact .inl ⟨h1, l, List.mem_append_left _ h2⟩
    · exact .inr ⟨tp, l, List.mem_append_left _ h1, h2⟩

/-! ### How many connections there are -/

/-- The connections whose goroutine has not returned. -/
def running (cs : List Conn) : Nat := (cs.filter fun c => decide (c.phase ≠ .ended)).length

theorem running_append (cs : List Conn) (c : Conn) : running (cs ++ [c]) ≤ running cs + 1 := by
  unfold running
  rw [List.filter_append, List.length_append]
  have := List.length_filter_le (fun c : Conn => decide (c.phase ≠ .ended)) [c]
  simp only [List.length_singleton] at this
  omega

theorem running_set {cs : List Conn} {r : Nat} {c c' : Conn} (h : cs[r]? = some c) (hp : c.phase = .ended → c'.phase = .ended) : running (cs.set r c') ≤ running cs := by
  induction cs generalizing r with
  | nil => cases h
  | cons d cs ih =>
    cases r with
    | zero =>
      injection h with h; subst h
      unfold running
      simp only [List.set_cons_zero, List.filter_cons]
      by_cases hd : d.phase = .ended
      · simp [hd, hp hd]
      · simp only [hd, ne_eq, not_false_eq_true, decide_true, if_true, List.length_cons]
        split <;> simp
    | succ r =>
      have := ih (r := r) h
      unfold running at this ⊢
      simp only [List.set_cons_succ, List.filter_cons]
      split
      · simp only [List.length_cons]; omega
      · exact this

theorem Change.ended {s : State} {c c' : Conn} (h : Change cfg may s r c c') (hc : c.phase = .ended) : c'.phase = .ended := by
  cases h with
  | phase ph h1 h0 h2 =>
    cases ph with
    | fresh => exact h2.elim
    | checked => rw [show c.phase = .fresh from h2] at hc; cases hc
    | shaken => rw [show c.phase = .checked from h2.1] at hc; cases hc
    | serving p =>
      cases p with
      | none => obtain ⟨p, hp⟩ := h2; rw [hp] at hc; cases hc
      | some m => exact h2.elim
    | leaving => obtain ⟨p, hp⟩ := h2; rw [hp] at hc; cases hc
    | ended => rfl
    | hung => exact absurd hc h2
  | receive m rd rd' h1 h2 => rw [h2] at hc; cases hc
  | _ => exact hc

theorem Smalls.running {s s' : State} (hn : ∀ id ip port, ¬ may.fresh id ip port) (h : Smalls cfg may s s') : running s'.peers ≤ running s.peers := by
  induction h with
  | refl => exact Nat.le_refl _
  | tail _ h ih =>
    refine Nat.le_trans ?_ ih
    cases h with
    | new id ip port hf => exact absurd hf (hn id ip port)
    | upd y a b h1 h2 => exact running_set h1 h2.ended
    | upload y a q d f h0 h1 h2 => exact running_set h1 fun h => h
    | join y a ms ph h0 h1 h2 => exact running_set h1 fun h => by rw [h2] at h; cases h
    | _ => exact Nat.le_refl _

theorem slots_eq (s : State) : slots s = running s.peers + s.dialers.length := rfl

theorem slots_step {s : State} (hi : PendOK s) (h : slots s ≤ 50) (e : Event × Luck) : slots (step cfg s e) ≤ 50 := by
  rcases step_alive (cfg := cfg) s e with hs | ⟨_, o, s', ha, hs⟩
  · rw [hs]; exact h
  have hs : slots (step cfg s e) = slots s' := by rcases hs with ⟨_, hs⟩ | ⟨_, hs⟩ <;> rw [hs] <;> rfl
  rw [hs, slots_eq]
  rw [slots_eq] at h
  obtain ⟨e, l⟩ := e
  simp only at ha
  have hsm := act_small l hi ha
  have herase : ∀ k, (s.dialers.eraseIdx k).length ≤ s.dialers.length := fun k => (List.eraseIdx_sublist ..).length_le
  have hother : (∀ id ip port, ¬ (mayOf cfg s e).fresh id ip port) → ¬ (mayOf cfg s e).addrs → running s'.peers + s'.dialers.length ≤ 50 := fun h1 h2 => by
    have := hsm.running h1
    rw [(hsm.addrsFrame h2).2.2.1]; omega
  cases e with
  | accept ip port =>
    simp only [act] at ha
    split at ha
    · cases ha
    · rename_i hn
      cases ha
      have := running_append s.peers (newConn cfg zeroID ip port)
      rw [slots_eq] at hn
      show running (s.peers ++ [newConn cfg zeroID ip port]) + s.dialers.length ≤ 50
      have : ¬ running s.peers + s.dialers.length ≥ 50 := fun h => hn (.inr h)
      omega
  | takeAddr =>
    simp only [act] at ha
    split at ha <;> cases ha
    exact h
  | spawn =>
    simp only [act] at ha
    split at ha
    · split at ha
      · cases ha
      · rename_i hn
        cases ha
        rw [slots_eq] at hn
        show running s.peers + (s.dialers ++ [_]).length ≤ 50
        rw [List.length_append, List.length_singleton]; omega
    · cases ha
  | dialCheck k =>
    simp only [act] at ha
    have := herase k
    split at ha
    · split at ha
      · split at ha
        · cases ha; exact h
        · split at ha
          · cases ha; show running s.peers + (s.dialers.eraseIdx k).length ≤ 50; omega
          · cases ha; show running s.peers + (s.dialers.set k _).length ≤ 50; rw [List.length_set]; exact h
      · cases ha; show running s.peers + (s.dialers.eraseIdx k).length ≤ 50; omega
    · cases ha
  | dial k b =>
    simp only [act] at ha
    have := herase k
    split at ha
    · rename_i tp htp
      split at ha
      · rename_i ip port _ hd
        cases ha
        have h1 := running_append s.peers (newConn cfg (copyID tp.id) ip port)
        have h2 : (s.dialers.eraseIdx k).length + 1 = s.dialers.length := by
          have := (List.getElem?_eq_some_iff.1 htp).1
          rw [List.length_eraseIdx, if_pos this]; omega
        show running (s.peers ++ [newConn cfg (copyID tp.id) ip port]) + (s.dialers.eraseIdx k).length ≤ 50
        omega
      · cases ha; show running s.peers + (s.dialers.eraseIdx k).length ≤ 50; omega
    · cases ha
  | addPeer tp =>
    injection ha with ha
    have : s' = (addPeer tp s).2 := by rw [ha]
    subst this
    rcases addPeer_cases tp s with h1 | ⟨_, a, _, _, _, h1⟩ <;> (rw [h1]; exact h)
  | _ =>
    refine hother ?_ ?_
    · rintro id ip port (⟨h, _⟩ | ⟨k, tp, h, _⟩) <;> cases h
    · rintro (⟨_, h⟩ | h | h | ⟨_, h⟩ | ⟨_, _, h⟩) <;> cases h

theorem slots_run (w : World) (es : List (Event × Luck)) : slots (run cfg (init w) es) ≤ 50 :=
  (run_rec (cfg := cfg) (P := fun _ s => Inv cfg s ∧ slots s ≤ 50) (init w) ⟨.init w, Nat.zero_le _⟩ (fun _ e ih => ⟨ih.1.step e, slots_step ih.1.pendOK ih.2 e⟩) es).2

/-! ### Which connections are active -/

/-- The connection is being served. -/
def Served (c : Conn) : Prop := (∃ p, c.phase = .serving p) ∨ c.phase = .leaving

/-- Connections that are being served are active. -/
def ServedActive (s : State) : Prop := ∀ (x : Ref) (c : Conn), s.peers[x]? = some c → Served c → (c.idip, x) ∈ s.activePeers

theorem Change.served {s : State} {c c' : Conn} (h : Change cfg may s r c c') (hc : Served c') : Served c ∧ c'.idip = c.idip := by
  unfold Served at hc
  cases h with
  | phase ph h1 h0 h2 =>
    refine ⟨?_, rfl⟩
    rcases hc with ⟨p, hp⟩ | hp
    · simp only at hp; subst hp
      cases p with
      | none => exact .inl h2
      | some m => exact h2.elim
    · simp only at hp; subst hp; exact .inl h2
  | ident hs h1 =>
    simp only [h1] at hc
    rcases hc with ⟨p, hp⟩ | hp <;> cases hp
  | receive m rd rd' h1 h2 => exact ⟨.inl ⟨_, h2⟩, rfl⟩
  | _ => exact ⟨hc, rfl⟩

/-- Without disconnections this stays so. -/
theorem ServedActive.smalls {s s' : State} (hn : ∀ x, ¬ may.drop x) (hs : ServedActive s) (h : Smalls cfg may s s') : ServedActive s' := by
  induction h with
  | refl => exact hs
  | tail _ h ih =>
    intro x c hc hp
    cases h with
    | new id ip port _ =>
      rcases List.getElem?_append .. ▸ hc with hc
      split at hc
      · exact ih x c hc hp
      · rw [List.getElem?_singleton] at hc
        split at hc
        · injection hc with hc; subst hc
          rcases hp with ⟨p, hp⟩ | hp <;> cases hp
        · cases hc
    | upd y a b h1 h2 =>
      rcases set_cases hc with ⟨rfl, rfl⟩ | ⟨_, hc⟩
      · obtain ⟨h3, h4⟩ := h2.served hp
        rw [h4]; exact ih x a h1 h3
      · exact ih x c hc hp
    | upload y a q d f h0 h1 h2 =>
      rcases set_cases hc with ⟨rfl, rfl⟩ | ⟨_, hc⟩
      · exact ih x a h1 hp
      · exact ih x c hc hp
    | join y a ms ph h0 h1 h2 h3 h4 h5 =>
      rcases set_cases hc with ⟨rfl, rfl⟩ | ⟨hne, hc⟩
      · exact mem_mput.2 (.inl rfl)
      · have := ih x c hc hp
        refine mem_mput.2 (.inr ⟨this, fun e => ?_⟩)
        exact mget_eq_none.1 h3 x (e ▸ this)
    | unregister y a hd => exact absurd hd (hn y)
    | _ => exact ih x c hc hp

theorem Disconnect_apply {s : State} {c : Conn} (hl : s.locked = false) (hc : s.peers[r]? = some c) : Disconnect r s = (.ok (), { s with
    indexToPeers := forgetIndexes r s.indexToPeers (Bitfield.items c.bitfield)
    knownIDIPs := forgetAddrs c.idip s.knownIDIPs ((mget s.knownAddrs c.idip).getD [])
    knownAddrs := mdel s.knownAddrs c.idip
    activePeers := mdel s.activePeers c.idip
    peers := s.peers.set r { c with closed := true } }) := by
  unfold Disconnect
  rw [locked_apply, if_neg (by rw [hl]; simp)]
  unfold disconnect
  have hc' : ({ s with locked := true } : State).peers[r]? = some c := hc
  rw [bind_apply, getConn_some hc']
  simp only [bind_apply, modify_apply, setConn_apply, modify_some hc, hl]

/-- … and when a connection leaves. -/
theorem ServedActive.leave {s : State} (hi : Inv cfg s) (hs : ServedActive s) (l : Luck) : ServedActive (step cfg s (.leave r, l)) := by
  rcases step_alive (cfg := cfg) s (.leave r, l) with h | ⟨_, o, s', ha, h⟩
  · rw [h]; exact hs
  suffices ServedActive s' by rcases h with ⟨_, h⟩ | ⟨_, h⟩ <;> rw [h] <;> exact this
  simp only [act] at ha
  split at ha
  · rename_i ht
    obtain ⟨c, hc, hph⟩ := at_iff.1 ht
    injection ha with ha
    have : s' = (next r .ended .ended (Disconnect r s)).2 := by rw [ha]
    subst this
    cases hl : s.locked with
    | true =>
      have : Disconnect r s = (.stuck, s) := by unfold Disconnect; rw [locked_apply, if_pos hl]
      rw [this]
      unfold P2P.next
      simp only [modify_some hc]
      intro x d hd hp
      rcases set_cases hd with ⟨rfl, rfl⟩ | ⟨_, hd⟩
      · rcases hp with ⟨p, hp⟩ | hp <;> cases hp
      · exact hs x d hd hp
    | false =>
      rw [Disconnect_apply hl hc]
      unfold P2P.next
      intro x d hd hp
      simp only [modify_some (List.getElem?_set_self (List.getElem?_eq_some_iff.1 hc).1), List.set_set] at hd
      rcases set_cases hd with ⟨rfl, rfl⟩ | ⟨hne, hd⟩
      · rcases hp with ⟨p, hp⟩ | hp <;> cases hp
      · have h1 := hs x d hd hp
        have h2 := hs r c hc (.inr hph)
        refine mem_mdel.2 ⟨h1, fun e => hne ?_⟩
        have h3 := hi.keys.get h1
        simp only at e
        rw [e, hi.keys.get h2] at h3
        injection h3 with h3; exact h3.symm
  · cases ha

/-- In a history in which nobody is blocked and the server is not stopped. -/
def Quiet (es : List (Event × Luck)) : Prop := ∀ e ∈ es, e.1 ≠ .stop ∧ ∀ k, e.1 ≠ .finish k .checksum

theorem served_run (w : World) (es : List (Event × Luck)) (hq : Quiet es) : ServedActive (run cfg (init w) es) := by
  refine (run_rec (cfg := cfg) (P := fun es s => Quiet es → Inv cfg s ∧ ServedActive s) (init w) (fun _ => ⟨.init w, fun x c h => by cases h⟩) (fun es e ih hq => ?_) es hq).2
  obtain ⟨hi, hs⟩ := ih fun x hx => hq x (List.mem_append_left _ hx)
  refine ⟨hi.step e, ?_⟩
  obtain ⟨h1, h2⟩ := hq e (List.mem_append_right _ (List.mem_singleton_self _))
  by_cases hl : ∃ x, e.1 = .leave x
  · obtain ⟨e, l⟩ := e
    obtain ⟨x, rfl⟩ := hl
    exact hs.leave hi l
  · refine hs.smalls ?_ (step_small e hi.pendOK)
    rintro x (h | ⟨k, i, h, _⟩ | ⟨h, _⟩)
    · exact hl ⟨x, h⟩
    · exact h2 k h
    · exact h1 h

end Drip.P2P
