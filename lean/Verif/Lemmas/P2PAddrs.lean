import Verif.Lemmas.P2PConn
/-
Which addresses are queued, dialled and blocked.
-/

namespace Drip.P2P
open PeerWire Metainfo
open Storage (Fate World Op runOp getBlock putBlock resetPiece)

variable {cfg : Cfg} {may : May} {r : Ref}

/-! ### The addresses of active peers are known -/

/-- The address of every active peer is recorded for its identity. -/
def AddrInv (s : State) : Prop :=
  ∀ (k : Bytes) (x : Ref), (k, x) ∈ s.activePeers → ∃ c : Conn, s.peers[x]? = some c ∧ c.addr ∈ (mget s.knownAddrs k).getD []

theorem Change.addr {s : State} {c c' : Conn} (h : Change cfg may s r c c') : c'.addr = c.addr := by
  cases h <;> rfl

theorem AddrInv.small {s s' : State} (h : AddrInv s) (hs : Small cfg may s s') : AddrInv s' := by
  have hset : ∀ (y : Ref) (a b : Conn) (x : Ref), s.peers[y]? = some a → b.addr = a.addr → ∀ c, s.peers[x]? = some c → ∃ c', (s.peers.set y b)[x]? = some c' ∧ c'.addr = c.addr := by
    intro y a b x hy hb c hc
    rcases set_get (c' := b) hy hc with ⟨e1, e, h⟩ | ⟨_, h⟩
    · subst e; exact ⟨b, h, hb⟩
    · exact ⟨c, h, rfl⟩
  intro k x hk
  cases hs with
  | new id ip port _ =>
    obtain ⟨c, h1, h2⟩ := h k x hk
    exact ⟨c, by rw [List.getElem?_append_left (List.getElem?_eq_some_iff.1 h1).1]; exact h1, h2⟩
  | upd y a b h1 h2 =>
    obtain ⟨c, h3, h4⟩ := h k x hk
    obtain ⟨c', h5, h6⟩ := hset y a b x h1 h2.addr c h3
    exact ⟨c', h5, by rw [h6]; exact h4⟩
  | upload y a q d f h0 h1 h2 =>
    obtain ⟨c, h3, h4⟩ := h k x hk
    obtain ⟨c', h5, h6⟩ := hset y a (a.gave q d) x h1 rfl c h3
    exact ⟨c', h5, by rw [h6]; exact h4⟩
  | join y a ms ph hp h1 h2 h3 h4 h5 h6 =>
    rcases mem_mput.1 hk with e | ⟨hk, _⟩
    · injection e with e1 e2
      subst e1 e2
      exact ⟨a.join ms ph, List.getElem?_set_self (List.getElem?_eq_some_iff.1 h1).1, h6⟩
    · obtain ⟨c, h3, h4⟩ := h k x hk
      obtain ⟨c', h5, h6⟩ := hset y a (a.join ms ph) x h1 rfl c h3
      exact ⟨c', h5, by rw [h6]; exact h4⟩
  | unregister y a h0 h1 => exact h k x (mem_mdel.1 hk).1
  | known a b hab =>
    obtain ⟨c, h1, h2⟩ := h k x hk
    exact ⟨c, h1, hab k x _ hk h2⟩
  | _ => exact h k x hk

theorem AddrInv.smalls {s s' : State} (h : AddrInv s) (hs : Smalls cfg may s s') : AddrInv s' := by
  induction hs with
  | refl => exact h
  | tail _ h ih => exact ih.small h

theorem addr_run (w : World) (es : List (Event × Luck)) : AddrInv (run cfg (init w) es) :=
  (run_rec (cfg := cfg) (P := fun _ s => Inv cfg s ∧ AddrInv s) (init w) ⟨.init w, fun k x h => by cases h⟩
    (fun _ e ih => ⟨ih.1.step e, ih.2.smalls (step_small (cfg := cfg) e ih.1.pendOK)⟩) es).2

/-! ### Addresses that are queued -/

/-- The tracker peers that are put in the dial queue by a step. -/
def queued (s s' : State) : List Tracker.Peer := s'.newPeerQueue.drop s.newPeerQueue.length

/-- The tracker peers that are put in the dial queue in a history, in order. -/
def queuedIn (cfg : Cfg) (s : State) : List (Event × Luck) → List Tracker.Peer
  | [] => []
  | e :: es => queued s (step cfg s e) ++ queuedIn cfg (step cfg s e) es

theorem queued_step {s : State} (hi : Inv cfg s) (e : Event × Luck) :
    (queued s (step cfg s e) = [] ∧ (step cfg s e).knownPeers = s.knownPeers) ∨
    ∃ tp a, e.1 = .addPeer tp ∧ remoteAddr tp = .ok a ∧ mget s.knownPeers a = none ∧ a ∉ s.blockedPeers ∧ queued s (step cfg s e) = [tp] ∧ (step cfg s e).knownPeers = mput s.knownPeers a tp := by
  have hself : queued s s = [] := by unfold queued; exact List.drop_length
  rcases step_alive (cfg := cfg) s e with h | ⟨_, o, s', ha, h⟩
  · rw [h]; exact .inl ⟨hself, rfl⟩
  have hstep : (step cfg s e).newPeerQueue = s'.newPeerQueue ∧ (step cfg s e).knownPeers = s'.knownPeers := by
    rcases h with ⟨_, h⟩ | ⟨_, h⟩ <;> rw [h] <;> exact ⟨rfl, rfl⟩
  have hq : queued s (step cfg s e) = queued s s' := by unfold queued; rw [hstep.1]
  rw [hq, hstep.2]
  by_cases hadd : (mayOf cfg s e.1).addrs
  · obtain ⟨e, l⟩ := e
    simp only at ha hadd ⊢
    rcases hadd with ⟨tp, rfl⟩ | rfl | rfl | ⟨k, rfl⟩ | ⟨k, b, rfl⟩
    · simp only [act] at ha
      injection ha with ha
      rcases addPeer_cases tp s with h1 | ⟨_, a, h2, h3, h4, h1⟩
      · rw [ha] at h1; simp only at h1; subst h1; exact .inl ⟨hself, rfl⟩
      · rw [ha] at h1; simp only at h1; subst h1
        exact .inr ⟨tp, a, rfl, h2, h3, h4, List.drop_left, rfl⟩
    · simp only [act] at ha
      split at ha
      · rename_i tp q hh hqq
        cases ha
        left
        refine ⟨?_, rfl⟩
        unfold queued
        rw [hqq]
        exact List.drop_eq_nil_of_le (by simp)
      · cases ha
    · simp only [act] at ha
      split at ha
      · split at ha
        · cases ha
        · cases ha; exact .inl ⟨List.drop_length, rfl⟩
      · cases ha
    · simp only [act] at ha
      split at ha
      · split at ha
        · split at ha
          · cases ha; exact .inl ⟨List.drop_length, rfl⟩
          · split at ha <;> (cases ha; exact .inl ⟨List.drop_length, rfl⟩)
        · cases ha; exact .inl ⟨List.drop_length, rfl⟩
      · cases ha
    · simp only [act] at ha
      split at ha
      · split at ha <;> (cases ha; exact .inl ⟨List.drop_length, rfl⟩)
      · cases ha
  · obtain ⟨h1, _, _, h4⟩ := (act_small e.2 hi.pendOK ha).addrsFrame hadd
    left
    refine ⟨?_, h4⟩
    unfold queued
    rw [h1]; exact List.drop_length

theorem queuedIn_spec {s : State} (hi : Inv cfg s) (es : List (Event × Luck)) :
    ((queuedIn cfg s es).map remoteAddr).Nodup ∧ ∀ tp ∈ queuedIn cfg s es, ∃ a, remoteAddr tp = .ok a ∧ mget s.knownPeers a = none ∧ a ∉ s.blockedPeers := by
  induction es generalizing s with
  | nil => exact ⟨List.nodup_nil, fun _ h => by cases h⟩
  | cons e es ih =>
    obtain ⟨i1, i2⟩ := ih (hi.step e)
    have hb : ∀ a, a ∈ s.blockedPeers → a ∈ (step cfg s e).blockedPeers := fun a h => (step_small (cfg := cfg) e hi.pendOK).blocked h
    unfold queuedIn
    rcases queued_step hi e with ⟨h1, h2⟩ | ⟨tp, a, _, h3, h4, h5, h6, h7⟩
    · rw [h1, List.nil_append]
      refine ⟨i1, fun tp htp => ?_⟩
      obtain ⟨a, ha, hn, hbl⟩ := i2 tp htp
      refine ⟨a, ha, ?_, fun h => hbl (hb a h)⟩
      cases hg : mget s.knownPeers a with
      | none => rfl
      | some x =>
        rw [h2, hg] at hn; cases hn
    · rw [h6]
      refine ⟨?_, fun tp' htp => ?_⟩
      · rw [List.singleton_append, List.map_cons, List.nodup_cons]
        refine ⟨fun hm => ?_, i1⟩
        obtain ⟨tp', h8, h9⟩ := List.mem_map.1 hm
        obtain ⟨a', ha, hn, _⟩ := i2 tp' h8
        rw [h9, h3] at ha
        injection ha with ha; subst ha
        rw [h7, mget_mput, if_pos rfl] at hn; cases hn
      · rcases List.mem_append.1 htp with h | h
        · rw [List.mem_singleton] at h; subst h; exact ⟨a, h3, h4, h5⟩
        · obtain ⟨a', ha, hn, hbl⟩ := i2 tp' h
          refine ⟨a', ha, ?_, fun h => hbl (hb a' h)⟩
          rw [h7, mget_mput] at hn
          split at hn
          · cases hn
          · exact hn

theorem known_queued {s : State} (hi : Inv cfg s) (es : List (Event × Luck)) (a : Bytes) (ha : (mget (run cfg s es).knownPeers a).isSome = true) :
    (mget s.knownPeers a).isSome = true ∨ ∃ tp ∈ queuedIn cfg s es, remoteAddr tp = .ok a := by
  induction es generalizing s with
  | nil => exact .inl ha
  | cons e es ih =>
    unfold queuedIn
    rcases ih (hi.step e) ha with h | ⟨tp, h1, h2⟩
    · rcases queued_step hi e with ⟨_, h3⟩ | ⟨tp, b, _, h3, _, _, h4, h5⟩
      · rw [h3] at h; exact .inl h
      · rw [h5, mget_mput] at h
        split at h
        · rename_i hab
          subst hab
          exact .inr ⟨tp, List.mem_append_left _ (by rw [h4]; exact List.mem_singleton.2 rfl), h3⟩
        · exact .inl h
    · exact .inr ⟨tp, List.mem_append_right _ h1, h2⟩

/-! ### Dialling -/

/-- The tracker peers to which a connection is opened in a history. -/
def dialledIn (cfg : Cfg) (s : State) : List (Event × Luck) → List Tracker.Peer
  | [] => []
  | e :: es => (match e.1 with
      | .dial k true => if (step cfg s e).peers.length = s.peers.length then [] else (s.dialers[k]?.map Prod.fst).toList
      | _ => []) ++ dialledIn cfg (step cfg s e) es

/-- No goroutine passes the check for a blocked address. -/
theorem checked_step {s : State} (hi : Inv cfg s) (e : Event × Luck) {tp : Tracker.Peer} {a : Bytes} (ha : remoteAddr tp = .ok a) (hb : a ∈ s.blockedPeers)
    (h : (tp, true) ∈ (step cfg s e).dialers) : (tp, true) ∈ s.dialers := by
  rcases step_alive (cfg := cfg) s e with h1 | ⟨_, o, s', hact, h1⟩
  · rw [h1] at h; exact h
  have hd : (step cfg s e).dialers = s'.dialers := by
    rcases h1 with ⟨_, h⟩ | ⟨_, h⟩ <;> rw [h]
  rw [hd] at h
  by_cases hadd : (mayOf cfg s e.1).addrs
  · obtain ⟨e, l⟩ := e
    simp only at hact hadd
    rcases hadd with ⟨tp', rfl⟩ | rfl | rfl | ⟨k, rfl⟩ | ⟨k, b, rfl⟩
    · simp only [act] at hact
      injection hact with hact
      rcases addPeer_cases tp' s with h1 | ⟨_, a, h2, h3, h4, h1⟩ <;> (rw [hact] at h1; simp only at h1; subst h1; exact h)
    · simp only [act] at hact
      split at hact
      · cases hact; exact h
      · cases hact
    · simp only [act] at hact
      split at hact
      · split at hact
        · cases hact
        · cases hact
          rcases List.mem_append.1 h with h | h
          · exact h
          · rw [List.mem_singleton] at h; injection h with _ h; cases h
      · cases hact
    · simp only [act] at hact
      split at hact
      · rename_i tp' hk
        split at hact
        · rename_i addr haddr
          split at hact
          · cases hact; exact h
          · split at hact
            · cases hact; exact (List.eraseIdx_sublist ..).mem h
            · rename_i hnb
              cases hact
              rcases List.mem_or_eq_of_mem_set h with h | h
              · exact h
              · injection h with h
                subst h
                rw [haddr] at ha; injection ha with ha; subst ha
                exact absurd hb hnb
        · cases hact; exact (List.eraseIdx_sublist ..).mem h
      · cases hact
    · simp only [act] at hact
      split at hact
      · split at hact <;> (cases hact; exact (List.eraseIdx_sublist ..).mem h)
      · cases hact
  · obtain ⟨_, _, h3, _⟩ := (act_small e.2 hi.pendOK hact).addrsFrame hadd
    rw [h3] at h; exact h

theorem dialledIn_blocked {s : State} (hi : Inv cfg s) {tp : Tracker.Peer} {a : Bytes} (ha : remoteAddr tp = .ok a) (hb : a ∈ s.blockedPeers) (es : List (Event × Luck))
    (h : tp ∈ dialledIn cfg s es) : (tp, true) ∈ s.dialers := by
  induction es generalizing s with
  | nil => cases h
  | cons e es ih =>
    unfold dialledIn at h
    rcases List.mem_append.1 h with h | h
    · obtain ⟨e, l⟩ := e
      split at h
      · rename_i k he
        simp only at he; subst he
        split at h
        · cases h
        · rename_i hlen
          cases hk : s.dialers[k]? with
          | none => rw [hk] at h; cases h
          | some d =>
            rw [hk] at h
            simp only [Option.map_some, Option.toList_some, List.mem_singleton] at h
            subst h
            obtain ⟨tp, b⟩ := d
            cases b with
            | true => exact List.mem_of_getElem? hk
            | false =>
              exfalso
              apply hlen
              have : step cfg s (.dial k true, l) = s := by
                unfold step
                split
                · rfl
                · simp only [act, hk]
              rw [this]
      · cases h
    · exact checked_step hi e ha hb (ih (hi.step e) ((step_small (cfg := cfg) e hi.pendOK).blocked hb) h)

end Drip.P2P
