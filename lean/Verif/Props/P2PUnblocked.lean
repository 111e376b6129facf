import Verif.Props.P2PDownload
/-
Theorems about /repo/p2p: connections of peers that were never blocked, in histories in which others are (C73, C84).
-/

namespace Drip.P2P
open PeerWire Metainfo
open Storage (Fate World Op runOp getBlock putBlock resetPiece)

variable {cfg : Cfg} {r : Ref}

/-- The server was not stopped, and nobody with this id and ip (as in `id[ip]`) was blocked: whenever a download failed its checksum, it was from somebody else. -/
def Unblocked (cfg : Cfg) (w : World) (key : Bytes) (es : List (Event × Luck)) : Prop :=
  ∀ es1 es2 e l, es = es1 ++ (e, l) :: es2 → e ≠ .stop ∧
    ∀ k x i d, e = .finish k .checksum → (run cfg (init w) es1).jobs[k]? = some ⟨x, i, .running⟩ → (run cfg (init w) es1).peers[x]? = some d → d.idip ≠ key

/-- Connections with this id and ip that are being served are active. -/
def ServedKey (key : Bytes) (s : State) : Prop := ∀ (x : Ref) (c : Conn), s.peers[x]? = some c → Served c → c.idip = key → (key, x) ∈ s.activePeers

/-- Without disconnections this stays so. -/
theorem ServedKey.smalls {may : May} {key : Bytes} {s s' : State} (hn : ∀ x, ¬ may.drop x) (hs : ServedKey key s) (h : Smalls cfg may s s') : ServedKey key s' := by
  induction h with
  | refl => exact hs
  | tail _ h ih =>
    intro x c hc hp hk
    cases h with
    | new id ip port _ =>
      rcases List.getElem?_append .. ▸ hc with hc
      split at hc
      · exact ih x c hc hp hk
      · rw [List.getElem?_singleton] at hc
        split at hc
        · injection hc with hc; subst hc
          rcases hp with ⟨p, hp⟩ | hp <;> cases hp
        · cases hc
    | upd y a b h1 h2 =>
      rcases set_cases hc with ⟨rfl, rfl⟩ | ⟨_, hc⟩
      · obtain ⟨h3, h4⟩ := h2.served hp
        exact ih x a h1 h3 (h4 ▸ hk)
      · exact ih x c hc hp hk
    | upload y a q d f h0 h1 h2 =>
      rcases set_cases hc with ⟨rfl, rfl⟩ | ⟨_, hc⟩
      · exact ih x a h1 hp hk
      · exact ih x c hc hp hk
    | join y a ms ph h0 h1 h2 h3 h4 h5 =>
      rcases set_cases hc with ⟨rfl, rfl⟩ | ⟨hne, hc⟩
      · exact mem_mput.2 (.inl (by rw [← hk]; rfl))
      · have := ih x c hc hp hk
        refine mem_mput.2 (.inr ⟨this, fun e => ?_⟩)
        exact mget_eq_none.1 h3 x (e ▸ this)
    | unregister y a hd => exact absurd hd (hn y)
    | _ => exact ih x c hc hp hk

/-- … and when a connection leaves. -/
theorem ServedKey.leave {key : Bytes} {s : State} (hi : Inv cfg s) (hs : ServedKey key s) (l : Luck) : ServedKey key (step cfg s (.leave r, l)) := by
  rcases step_alive (cfg := cfg) s (.leave r, l) with h | ⟨_, o, s', ha, h⟩
  · rw [h]; exact hs
  suffices ServedKey key s' by rcases h with ⟨_, h⟩ | ⟨_, h⟩ <;> rw [h] <;> exact this
  simp only [act] at ha
  split at ha
  · rename_i ht
    obtain ⟨c, hc, hph⟩ := at_iff.1 ht
    injection ha with ha
    have : s' = (next r .ended .ended (Disconnect r s)).2 := by rw [ha]
    subst this
    cases hl : s.locked with
    | true =>
      have : Disconnect r s = (.stuck, s) := by unfold Disconnect; rw [locked_apply, if_pos hl]
      rw [this]
      unfold P2P.next
      simp only [modify_some hc]
      intro x d hd hp hk
      rcases set_cases hd with ⟨rfl, rfl⟩ | ⟨_, hd⟩
      · rcases hp with ⟨p, hp⟩ | hp <;> cases hp
      · exact hs x d hd hp hk
    | false =>
      rw [Disconnect_apply hl hc]
      unfold P2P.next
      intro x d hd hp hk
      simp only [modify_some (List.getElem?_set_self (List.getElem?_eq_some_iff.1 hc).1), List.set_set] at hd
      rcases set_cases hd with ⟨rfl, rfl⟩ | ⟨hne, hd⟩
      · rcases hp with ⟨p, hp⟩ | hp <;> cases hp
      · have h1 := hs x d hd hp hk
        refine mem_mdel.2 ⟨h1, fun e => hne ?_⟩
        simp only at e
        have h2 := hs r c hc (.inr hph) e.symm
        have h3 := hi.keys.get h1
        rw [hi.keys.get h2] at h3
        injection h3 with h3; exact h3.symm
  · cases ha

theorem block_table {s : State} {c : Conn} (hc : s.peers[r]? = some c) :
    (block r s).2.activePeers = s.activePeers ∧ (block r s).2.peers = s.peers ∨
    (block r s).2.activePeers = mdel s.activePeers c.idip ∧ (block r s).2.peers = s.peers.set r { c with closed := true } := by
  cases hl : s.locked with
  | true =>
    have : block r s = (.stuck, s) := by unfold block; rw [locked_apply, if_pos hl]
    rw [this]; exact .inl ⟨rfl, rfl⟩
  | false =>
    right
    unfold block
    rw [locked_apply, if_neg (by rw [hl]; simp), bind_apply, getConn_some (show ({ s with locked := true } : State).peers[r]? = some c from hc)]
    simp only [bind_apply, modify_apply]
    generalize hx : ({ s with locked := true, blockedPeers := ((mget s.knownAddrs c.idip).getD []).foldl sadd s.blockedPeers } : State) = x
    have hp : x.peers[r]? = some c := by rw [← hx]; exact hc
    rw [disconnect_apply hp, ← hx]
    exact ⟨rfl, rfl⟩

/-- … and when somebody else is blocked. -/
theorem ServedKey.blocks {key : Bytes} {s : State} (hi : Inv cfg s) (hs : ServedKey key s) {k : Nat} (l : Luck)
    (hk : ∀ x i d, s.jobs[k]? = some ⟨x, i, .running⟩ → s.peers[x]? = some d → d.idip ≠ key) : ServedKey key (step cfg s (.finish k .checksum, l)) := by
  rcases step_alive (cfg := cfg) s (.finish k .checksum, l) with h | ⟨_, o, s', ha, h⟩
  · rw [h]; exact hs
  suffices ServedKey key s' by rcases h with ⟨_, h⟩ | ⟨_, h⟩ <;> rw [h] <;> exact this
  simp only [act] at ha
  split at ha
  · rename_i x i hj
    split at ha
    · have hf : ((finish l.ok l.order x i .checksum s).2) = (block x s).2 := by
        show (Act.attempt (block x) s).2 = _
        unfold Act.attempt
        generalize block x s = y
        obtain ⟨o, t⟩ := y
        cases o <;> rfl
      have hs' : s'.activePeers = (block x s).2.activePeers ∧ s'.peers = (block x s).2.peers ∨ s' = s := by
        generalize finish l.ok l.order x i .checksum s = y at ha hf
        obtain ⟨o1, t⟩ := y
        simp only at hf
        cases o1 with
        | stuck => cases ha; exact .inr rfl
        | _ => cases ha; subst hf; exact .inl ⟨rfl, rfl⟩
      rcases hs' with ⟨h1, h2⟩ | rfl
      · intro y c hc hp he
        rw [h1]; rw [h2] at hc
        cases hd : s.peers[x]? with
        | none =>
          have hb : (block x s).2.activePeers = s.activePeers ∧ (block x s).2.peers = s.peers := by
            unfold block
            rw [locked_apply]
            split
            · exact ⟨rfl, rfl⟩
            · rw [bind_apply, getConn_apply, show ({ s with locked := true } : State).peers[x]? = none from hd]
              exact ⟨rfl, rfl⟩
          rw [hb.1]; rw [hb.2] at hc; exact hs y c hc hp he
        | some d =>
        have hne := hk x i d hj hd
        rcases block_table hd with ⟨b1, b2⟩ | ⟨b1, b2⟩
        · rw [b1]; rw [b2] at hc; exact hs y c hc hp he
        · rw [b1]; rw [b2] at hc
          refine mem_mdel.2 ⟨?_, fun e => hne e.symm⟩
          rcases set_cases hc with ⟨rfl, rfl⟩ | ⟨_, hc⟩
          · exact absurd he hne
          · exact hs y c hc hp he
      · exact hs
    · cases ha
  · cases ha

theorem servedKey_run (w : World) (key : Bytes) (es : List (Event × Luck)) (hq : Unblocked cfg w key es) : ServedKey key (run cfg (init w) es) := by
  suffices ∀ es2 es1, es = es1 ++ es2 → ServedKey key (run cfg (init w) es1) → ServedKey key (run cfg (init w) es) from this es [] rfl fun x c h => by cases h
  intro es2
  induction es2 with
  | nil => intro es1 he h; rw [he, List.append_nil]; exact h
  | cons e es2 ih =>
    intro es1 he hs
    refine ih (es1 ++ [e]) (by rw [he]; simp) ?_
    rw [run_append]
    show ServedKey key (step cfg (run cfg (init w) es1) e)
    have hi := inv_run (cfg := cfg) w es1
    obtain ⟨e, l⟩ := e
    obtain ⟨h1, h2⟩ := hq es1 es2 e l he
    by_cases hl : ∃ x, e = .leave x
    · obtain ⟨x, rfl⟩ := hl
      exact hs.leave hi l
    by_cases hf : ∃ k, e = .finish k .checksum
    · obtain ⟨k, rfl⟩ := hf
      exact hs.blocks hi l fun x i d hj hd => h2 k x i d rfl hj hd
    · refine hs.smalls ?_ (step_small (e, l) hi.pendOK)
      rintro x (h | ⟨k, i, h, _⟩ | ⟨h, _⟩)
      · exact hl ⟨x, h⟩
      · exact hf ⟨k, h⟩
      · exact h1 h

/-- C84, whoever else is blocked: two connections that are served have the same id and ip only if somebody with that id and ip was blocked or the server stopped. Missing: what follows when they were blocked. -/
theorem C84_unblocked_partial (w : World) (es : List (Event × Luck)) {r r' : Ref} {c c' : Conn} (hc : (run cfg (init w) es).peers[r]? = some c) (hc' : (run cfg (init w) es).peers[r']? = some c')
    (hs : Served c) (hs' : Served c') (hne : r ≠ r') (hq : Unblocked cfg w c.idip es) : c.id ≠ c'.id ∨ c.ip ≠ c'.ip := by
  by_cases hid : c.id = c'.id
  · refine .inr fun hip => hne ?_
    have e : c'.idip = c.idip := by unfold Conn.idip; rw [hid, hip]
    have hk := (inv_run (cfg := cfg) w es).keys
    have h1 := hk.get (servedKey_run w _ es hq r c hc hs rfl)
    rw [hk.get (servedKey_run w _ es hq r' c' hc' hs' e)] at h1
    injection h1 with h1; exact h1.symm
  · exact .inl hid

/-- C73, whoever else is blocked: `Disconnect` of a connection that is being served takes out of the table exactly the entry of this connection, unless somebody with its id and ip was blocked or the server stopped. -/
theorem C73_unblocked_partial (w : World) (es : List (Event × Luck)) {r : Ref} {c : Conn} (hl : (run cfg (init w) es).locked = false) (hc : (run cfg (init w) es).peers[r]? = some c) (hs : Served c)
    (hq : Unblocked cfg w c.idip es) :
    (c.idip, r) ∈ (run cfg (init w) es).activePeers ∧ (Disconnect r (run cfg (init w) es)).1 = .ok () ∧
    (∀ e, e ∈ (Disconnect r (run cfg (init w) es)).2.activePeers ↔ e ∈ (run cfg (init w) es).activePeers ∧ e.2 ≠ r) ∧
    ∀ (x : Ref) (d : Conn), (run cfg (init w) es).peers[x]? = some d → (Disconnect r (run cfg (init w) es)).2.peers[x]? = some (if x = r then { d with closed := true } else d) := by
  have h := servedKey_run w _ es hq r c hc hs rfl
  have := C73_partial w es hl h
  exact ⟨h, this.1, this.2.1, this.2.2.2.1⟩

/-- `Unblocked`, as a program. -/
def Ex.unblocked (cfg : Cfg) (key : Bytes) (s : State) : List (Event × Luck) → Bool
  | [] => true
  | e :: es => decide (e.1 ≠ .stop) && (match e.1 with
      | .finish k .checksum => match s.jobs[k]? with
        | some j => match s.peers[j.peer]? with
          | some d => decide (d.idip ≠ key)
          | none => true
        | none => true
      | _ => true) && Ex.unblocked cfg key (step cfg s e) es

theorem Ex.unblocked_iff (w : World) (key : Bytes) (es : List (Event × Luck)) (h : Ex.unblocked cfg key (init w) es = true) : Unblocked cfg w key es := by
  intro es1 es2 e l he
  subst he
  have : ∀ (es1 : List (Event × Luck)) (s : State), Ex.unblocked cfg key s (es1 ++ (e, l) :: es2) = true → Ex.unblocked cfg key (run cfg s es1) ((e, l) :: es2) = true := by
    intro es1
    induction es1 with
    | nil => exact fun _ h => h
    | cons a es1 ih =>
      intro s h
      rw [List.cons_append] at h
      unfold Ex.unblocked at h
      rw [Bool.and_eq_true] at h
      exact ih _ h.2
  have := this es1 _ h
  unfold Ex.unblocked at this
  rw [Bool.and_eq_true, Bool.and_eq_true] at this
  obtain ⟨⟨h1, h2⟩, _⟩ := this
  refine ⟨of_decide_eq_true h1, fun k x i d hx hj hd => ?_⟩
  subst hx
  simp only [hj, hd] at h2
  exact of_decide_eq_true h2

/-- One peer is blocked and comes back; another one is connected all the time, and connects a second time. -/
def Ex.company : List Event :=
  Ex.returns ++ [.accept (Ex.ip 4) 6000, .check 2, .handshake 2 (Ex.shake (Ex.id' 5)), .register 2, .leave 0, .accept (Ex.ip 4) 6001, .check 3, .handshake 3 (Ex.shake (Ex.id' 5)), .register 3]

example : Unblocked Ex.cfg Ex.nothing (Ex.id' 5 ++ b!"[10.0.0.4]") (Ex.fine Ex.company) ∧
    (run Ex.cfg (init Ex.nothing) (Ex.fine Ex.company)).peers.map (fun c => (c.idip, c.phase)) =
      [(Ex.id' 2 ++ b!"[10.0.0.1]", .ended), (Ex.id' 2 ++ b!"[10.0.0.1]", .serving none), (Ex.id' 5 ++ b!"[10.0.0.4]", .serving none), (Ex.id' 5 ++ b!"[10.0.0.4]", .ended)] ∧
    (run Ex.cfg (init Ex.nothing) (Ex.fine Ex.company)).locked = false :=
  ⟨Ex.unblocked_iff _ _ _ (by kernel_rfl), by kernel_rfl, by kernel_rfl⟩

end Drip.P2P
