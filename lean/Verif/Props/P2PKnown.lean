import Verif.Lemmas.P2PKnown
import Verif.Lemmas.P2PExample
/-
C110: connections from an address that is in use are refused; the address of a peer that has left is not in use.
-/

namespace Drip.P2P
open PeerWire Metainfo
open Storage (Fate World)

variable {cfg : Cfg}

/-- Somebody who is connected (`x`, an entry of the table of active peers) has been here from the address `a`, with the same id and ip: connection `y`, whose
handshake has been answered. -/
def InUse (s : State) (a : Bytes) : Prop := ∃ (y x : Ref) (c d : Conn), s.peers[y]? = some c ∧ c.addr = a ∧ c.phase ≠ .fresh ∧ c.phase ≠ .checked ∧
  s.peers[x]? = some d ∧ d.registered = true ∧ (d.idip, x) ∈ s.activePeers ∧ d.idip = c.idip

theorem inUse_of_known {w : World} {es : List (Event × Luck)} {a k : Bytes} {x : Ref} (h : mget (run cfg (init w) es).knownIDIPs a = some k) (hx : (k, x) ∈ (run cfg (init w) es).activePeers) :
    InUse (run cfg (init w) es) a := by
  obtain ⟨y, c, hc, ⟨h1, h2⟩, h3, h4⟩ := (known_run (cfg := cfg) w es).seen a k h
  obtain ⟨d, hd, h5, h6⟩ := (inv_run (cfg := cfg) w es).entry k x hx
  exact ⟨y, x, c, d, hc, h3, h1, h2, hd, h6, by rw [h5]; exact hx, by rw [h4, h5]⟩

/-- C110 is false: the connection of the first peer breaks while our BITFIELD is written. It ends, and nobody is connected; but it stays in the table, and
another connection from the address is refused. -/
theorem C110_refuted : (run Ex.cfg (init Ex.nothing) (Ex.fine [.accept (Ex.ip 1) 5000, .check 0, .handshake 0 (Ex.shake (Ex.id' 2))] ++ [(.register 0, { ok := fun _ => false })] ++
      Ex.fine [.accept (Ex.ip 1) 5000, .check 1])).peers.map Conn.phase = [.ended, .ended] := by kernel_rfl

/-- C110, what is true: in every history, a connection is refused before the handshake only if there are 50 active peers or its address is in use by an active
peer. Missing: a peer whose connection broke while the first message was written stays active. -/
theorem C110_refused_partial (w : World) (es : List (Event × Luck)) (l : Luck) {r : Ref} {c c' : Conn} (ha : (run cfg (init w) es).alive = true)
    (hl : (run cfg (init w) es).locked = false) (hc : (run cfg (init w) es).peers[r]? = some c) (hf : c.phase = .fresh)
    (hc' : (step cfg (run cfg (init w) es) (.check r, l)).peers[r]? = some c') (hp : c'.phase ≠ .checked) :
    (run cfg (init w) es).activePeers.length = 50 ∨ InUse (run cfg (init w) es) c.addr := by
  apply Classical.byContradiction
  intro hn
  rw [not_or] at hn
  have hnr : ¬ Refused (run cfg (init w) es) c := by
    rintro (h | ⟨k, x, h1, h2⟩)
    · exact hn.1 (Nat.le_antisymm (inv_run (cfg := cfg) w es).len h)
    · exact hn.2 (inUse_of_known h1 h2)
  apply hp
  have he := (connectCheck_apply hl hc).2 hnr
  generalize run cfg (init w) es = s at *
  unfold step at hc'
  rw [ha] at hc'
  have hat : at_ s r .fresh := by unfold at_; rw [hc]; simp [hf]
  simp only [act, if_pos hat, he, Bool.true_eq_false, if_false] at hc'
  unfold next at hc'
  simp only [modify_self hc] at hc'
  injection hc' with hc'
  rw [← hc']

/-- C110. When a peer has been disconnected, and nobody else who is connected has been here from its address, the address is not in use: it can connect again at once. -/
theorem C110_leaves_partial (w : World) (es : List (Event × Luck)) (l : Luck) {r : Ref} {c : Conn} (ha : (run cfg (init w) es).alive = true) (hl : (run cfg (init w) es).locked = false)
    (hc : (run cfg (init w) es).peers[r]? = some c) (hf : c.phase = .leaving)
    (hother : ∀ (y : Ref) (d : Conn), (run cfg (init w) es).peers[y]? = some d → d.addr = c.addr → d.phase ≠ .fresh → d.phase ≠ .checked → d.idip = c.idip) :
    ¬ InUse (step cfg (run cfg (init w) es) (.leave r, l)) c.addr := by
  rintro ⟨y, x, d, d', h1, h2, h3, h4, h5, h6, h7, h8⟩
  generalize run cfg (init w) es = s at *
  have hat : at_ s r .leaving := by unfold at_; rw [hc]; simp [hf]
  unfold step at h1 h5 h7
  rw [ha] at h1 h5 h7
  simp only [act, if_pos hat, Disconnect_apply hl hc, Bool.true_eq_false, if_false] at h1 h5 h7
  unfold next at h1 h5 h7
  simp only at h1 h5 h7
  have hd : ∃ d0, s.peers[y]? = some d0 ∧ d0.addr = d.addr ∧ d0.idip = d.idip ∧ d0.phase ≠ .fresh ∧ d0.phase ≠ .checked := by
    rw [List.getElem?_modify, List.getElem?_set] at h1
    by_cases e : r = y
    · subst e
      have hlt := (List.getElem?_eq_some_iff.1 hc).1
      simp only [hlt, if_true, Option.map_some] at h1
      injection h1 with h1
      subst h1
      exact ⟨c, hc, rfl, rfl, by rw [hf]; simp, by rw [hf]; simp⟩
    · simp only [e, if_false, Option.map_eq_map, Option.map_id_fun, id_eq] at h1
      exact ⟨d, by simpa using h1, rfl, rfl, h3, h4⟩
  obtain ⟨d0, e1, e2, e3, e4, e5⟩ := hd
  have := hother y d0 e1 (e2.trans h2) e4 e5
  rw [mem_mdel] at h7
  exact h7.2 (by rw [h8, ← e3, this])

/-! A peer connects, leaves, and connects again from the same address. -/
example : (run Ex.cfg (init Ex.nothing) (Ex.fine (Ex.joins 0 1 (Ex.id' 2) ++ [.fails 0, .leave 0] ++ Ex.joins 1 1 (Ex.id' 2)))).peers.map Conn.phase = [.ended, .serving none] := by kernel_rfl
/-- The hypotheses of `C110_leaves_partial`. -/
example : (run Ex.cfg (init Ex.nothing) (Ex.fine (Ex.joins 0 1 (Ex.id' 2) ++ [.fails 0]))).peers.map Conn.phase = [.leaving] ∧
    (run Ex.cfg (init Ex.nothing) (Ex.fine (Ex.joins 0 1 (Ex.id' 2) ++ [.fails 0]))).alive = true ∧ (run Ex.cfg (init Ex.nothing) (Ex.fine (Ex.joins 0 1 (Ex.id' 2) ++ [.fails 0]))).locked = false :=
  ⟨by kernel_rfl, by kernel_rfl, by kernel_rfl⟩
/-- A connection that is refused, from an address that is in use. -/
example : (run Ex.cfg (init Ex.nothing) (Ex.fine (Ex.joins 0 1 (Ex.id' 2) ++ [.accept (Ex.ip 1) 5000, .check 1]))).peers.map Conn.phase = [.serving none, .ended] := by kernel_rfl

/-! A connection that has ended and is still in the table. -/

/-- The connection has ended, and is in the table. -/
def Stale (x : Ref) (k : Bytes) (s : State) : Prop := (∃ c : Conn, s.peers[x]? = some c ∧ c.phase = .ended ∧ c.idip = k) ∧ (k, x) ∈ s.activePeers

theorem Change.idip_ended {s : State} {c c' : Conn} {r : Ref} (h : Change cfg may s r c c') (hc : c.phase = .ended) : c'.idip = c.idip := by
  cases h with
  | ident hs h1 => rw [hc] at h1; cases h1
  | _ => rfl

theorem Small.overStays {s s' : State} {x : Ref} {k : Bytes} (h : Small cfg may s s') (hx : ∃ c : Conn, s.peers[x]? = some c ∧ c.phase = .ended ∧ c.idip = k) :
    ∃ c : Conn, s'.peers[x]? = some c ∧ c.phase = .ended ∧ c.idip = k := by
  obtain ⟨c, hc, hp, hk⟩ := hx
  cases h with
  | new id ip port _ => exact ⟨c, by rw [List.getElem?_append_left (List.getElem?_eq_some_iff.1 hc).1]; exact hc, hp, hk⟩
  | upd y a b h1 h2 =>
    rcases set_get (c' := b) h1 hc with ⟨_, e, h⟩ | ⟨_, h⟩
    · subst e; exact ⟨b, h, h2.ended hp, (h2.idip_ended hp).trans hk⟩
    · exact ⟨c, h, hp, hk⟩
  | upload y a q d f h0 h1 h2 =>
    rcases set_get (c' := a.gave q d) h1 hc with ⟨_, e, h⟩ | ⟨_, h⟩
    · subst e; exact ⟨_, h, hp, hk⟩
    · exact ⟨c, h, hp, hk⟩
  | join y a ms ph h0 h1 h2 =>
    rcases set_get (c' := a.join ms ph) h1 hc with ⟨_, e, h⟩ | ⟨_, h⟩
    · subst e; rw [hp] at h2; cases h2
    · exact ⟨c, h, hp, hk⟩
  | _ => exact ⟨c, hc, hp, hk⟩

theorem Stale.smalls {s s' : State} {x : Ref} {k : Bytes} (hn : ∀ x, ¬ may.drop x) (hs : Stale x k s) (h : Smalls cfg may s s') : Stale x k s' := by
  induction h with
  | refl => exact hs
  | tail _ h ih =>
    refine ⟨h.overStays ih.1, ?_⟩
    have := ih.2
    cases h with
    | join y a ms ph h0 h1 h2 h3 h4 h5 =>
      refine mem_mput.2 (.inr ⟨this, fun e => ?_⟩)
      exact mget_eq_none.1 h3 x (e ▸ this)
    | unregister y a hd => exact absurd hd (hn y)
    | _ => exact this

theorem Stale.leave {s : State} {x r : Ref} {k : Bytes} (hi : Inv cfg s) (ha : ServedActive s) (hs : Stale x k s) (l : Luck) : Stale x k (step cfg s (.leave r, l)) := by
  have hover : ∃ c : Conn, (step cfg s (.leave r, l)).peers[x]? = some c ∧ c.phase = .ended ∧ c.idip = k := by
    have h := step_small (cfg := cfg) (.leave r, l) hi.pendOK
    generalize step cfg s (.leave r, l) = s' at h
    induction h with
    | refl => exact hs.1
    | tail _ h ih => exact h.overStays ih
  refine ⟨hover, ?_⟩
  clear hover
  rcases step_alive (cfg := cfg) s (.leave r, l) with h | ⟨_, o, s', hact, h⟩
  · rw [h]; exact hs.2
  suffices (k, x) ∈ s'.activePeers by rcases h with ⟨_, h⟩ | ⟨_, h⟩ <;> rw [h] <;> exact this
  simp only [act] at hact
  split at hact
  · rename_i ht
    obtain ⟨c, hc, hph⟩ := at_iff.1 ht
    injection hact with hact
    have : s' = (next r .ended .ended (Disconnect r s)).2 := by rw [hact]
    subst this
    cases hl : s.locked with
    | true =>
      have : Disconnect r s = (.stuck, s) := by unfold Disconnect; rw [locked_apply, if_pos hl]
      rw [this]
      exact hs.2
    | false =>
      rw [Disconnect_apply hl hc]
      have h2 := ha r c hc (.inr hph)
      refine mem_mdel.2 ⟨hs.2, fun e => ?_⟩
      have h3 := hi.keys.get hs.2
      simp only at e
      rw [e, hi.keys.get h2] at h3
      injection h3 with h3
      subst h3
      obtain ⟨d, hd, hp, _⟩ := hs.1
      rw [hc] at hd; cases hd
      rw [hph] at hp; cases hp
  · cases hact

/-- C110, what is missing, for ever: as long as the server is not stopped and nobody is blocked, a connection that has ended and is in the table stays there, whatever happens (so its address and one of
the 50 places stay in use). -/
theorem C110_stays_partial (w : World) (es es' : List (Event × Luck)) (hq : Quiet (es ++ es')) {r : Ref} {c : Conn} (hc : (run cfg (init w) es).peers[r]? = some c) (hp : c.phase = .ended)
    (hr : (c.idip, r) ∈ (run cfg (init w) es).activePeers) :
    (c.idip, r) ∈ (run cfg (init w) (es ++ es')).activePeers ∧ ∃ c', (run cfg (init w) (es ++ es')).peers[r]? = some c' ∧ c'.phase = .ended := by
  have : Stale r c.idip (run cfg (init w) (es ++ es')) := by
    rw [run_append]
    refine run_rec (cfg := cfg) (P := fun es' s => Quiet (es ++ es') → Stale r c.idip s) _ (fun _ => ⟨⟨c, hc, hp, rfl⟩, hr⟩) (fun es' e ih hq => ?_) es' hq
    have hq' : Quiet (es ++ es') := fun x hx => hq x (by rw [← List.append_assoc]; exact List.mem_append_left _ hx)
    have ih := ih hq'
    have hs := served_run (cfg := cfg) w (es ++ es') hq'
    have hi := inv_run (cfg := cfg) w (es ++ es')
    rw [run_append] at hs hi
    obtain ⟨h1, h2⟩ := hq e (by simp)
    by_cases hl : ∃ x, e.1 = .leave x
    · obtain ⟨e, l⟩ := e
      obtain ⟨x, rfl⟩ := hl
      exact ih.leave hi hs l
    · refine ih.smalls ?_ (step_small e hi.pendOK)
      rintro x (h | ⟨k, i, h, _⟩ | ⟨h, _⟩)
      · exact hl ⟨x, h⟩
      · exact h2 k h
      · exact h1 h
  obtain ⟨⟨c', h1, h2, _⟩, h3⟩ := this
  exact ⟨h3, c', h1, h2⟩

/-- The connection breaks while the BITFIELD is written: it has ended, and it is in the table. -/
example : let s := run Ex.cfg (init Ex.nothing) (Ex.fine [.accept (Ex.ip 1) 5000, .check 0, .handshake 0 (Ex.shake (Ex.id' 2))] ++ [(.register 0, { ok := fun _ => false })])
    s.peers.map (fun c => (c.phase, decide ((c.idip, 0) ∈ s.activePeers))) = [(.ended, true)] := by kernel_rfl

end Drip.P2P
