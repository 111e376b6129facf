import Verif.Lemmas.P2PHist
import Verif.Lemmas.P2PWhole
import Verif.Lemmas.P2PSeedJoin
import Verif.Lemmas.P2PExample
/-
C134: what the CANCELs of a peer make the client remember.
-/

namespace Drip.P2P
open PeerWire Metainfo Spec
open Storage (Fate World Mem)

variable {cfg : Cfg}

/-- C134 in full: for a peer at most one CANCEL per byte of the torrent is remembered. -/
def C134_statement (cfg : Cfg) : Prop := ∀ (w : World) (es : List (Event × Luck)) (r : Ref) (c : Conn), (run cfg (init w) es).peers[r]? = some c →
  (c.canceled.length : Int) ≤ cfg.store.info.pieces.length * cfg.store.info.pieceLength

/-- A CANCEL is received and handled. -/
theorem cancel_steps {s : State} {r : Ref} {c : Conn} (ha : s.alive = true) (hc : s.peers[r]? = some c) (hp : c.phase = .serving none) (hcl : c.closed = false) {i b n : Nat} {rd : Rd}
    (hrd : Says rd (.cancel i b n)) (l l' : Luck) :
    step cfg (step cfg s (.receive r rd, l)) (.handle r, l') =
      { s with peers := s.peers.set r { c with canceled := sadd c.canceled ⟨i, b, n⟩, received := c.received ++ [PeerWire.cancel i b n], phase := .serving none } } := by
  obtain ⟨r', hd⟩ := says_decode hrd
  have hlt := (List.getElem?_eq_some_iff.1 hc).1
  have h1 : step cfg s (.receive r rd, l) = { s with peers := s.peers.set r { c with phase := .serving (some (PeerWire.cancel i b n)), received := c.received ++ [PeerWire.cancel i b n] } } := by
    refine step_of (o := .ok ()) ha ?_ (.inl rfl)
    simp only [act, hc]
    rw [if_pos ⟨hp, hcl⟩, hd]
    simp only
    rw [modify_some hc]
    rfl
  rw [h1]
  refine step_of (o := .ok ()) ha ?_ (.inl rfl)
  simp only [act, List.getElem?_set_self hlt, Option.map_some]
  have hm : handleMessage l'.fates (l'.ok r) cfg r (PeerWire.cancel i b n) = handleCancel r i b n := by
    have ht : (PeerWire.cancel i b n).typ = CANCEL := rfl
    unfold handleMessage
    rw [if_neg (by rw [ht]; decide), if_neg (by rw [ht]; decide), if_neg (by rw [ht]; decide), if_neg (by rw [ht]; decide), if_neg (by rw [ht]; decide),
      if_neg (by rw [ht]; decide), if_neg (by rw [ht]; decide), if_pos ht]
    unfold Message.getIndex Message.getBegin Message.getLength
    rw [if_pos (.inr (.inr (.inl ht))), if_pos (.inr (.inl ht)), if_pos (.inr ht)]
    rfl
  rw [hm]
  unfold handleCancel next
  rw [setConn_apply]
  dsimp only
  rw [modify_some (List.getElem?_set_self hlt), List.set_set, modify_some (List.getElem?_set_self hlt), List.set_set]

/-- What a peer says that sends `N` different CANCELs. -/
def cancels (r : Ref) : Nat → List (Event × Luck)
  | 0 => []
  | N + 1 => cancels r N ++ [(.receive r (Ex.says (PeerWire.cancel 0 0 N)), {}), (.handle r, {})]

/-- **C134 is false of the code**, for every torrent and every connection that is served: `N` CANCELs, for blocks that need not exist, are all remembered, and the client goes on serving. -/
theorem C134_grows_refuted {s : State} {r : Ref} {c : Conn} (ha : s.alive = true) (hc : s.peers[r]? = some c) (hp : c.phase = .serving none) (hcl : c.closed = false) (h0 : c.canceled = []) :
    ∀ (N : Nat), N ≤ 2 ^ 32 → ∃ c', (run cfg s (cancels r N)).peers[r]? = some c' ∧ c'.canceled.length = N ∧ c'.phase = .serving none ∧ c'.closed = false ∧ c'.sent = c.sent ∧
      (run cfg s (cancels r N)).alive = true := by
  suffices H : ∀ N, N ≤ 2 ^ 32 → ∃ c', (run cfg s (cancels r N)).peers[r]? = some c' ∧ c'.canceled.length = N ∧ (∀ q ∈ c'.canceled, ∃ k : Nat, k < N ∧ q = ⟨0, 0, k⟩) ∧ c'.phase = .serving none ∧
      c'.closed = false ∧ c'.sent = c.sent ∧ (run cfg s (cancels r N)).alive = true from fun N hN => by
    obtain ⟨c', h1, h2, _, h3⟩ := H N hN
    exact ⟨c', h1, h2, h3⟩
  intro N
  induction N with
  | zero => exact fun _ => ⟨c, hc, by rw [h0]; rfl, by rw [h0]; simp, hp, hcl, rfl, ha⟩
  | succ N ih =>
    intro hN
    obtain ⟨c', h1, h2, h3, h4, h5, h6, h7⟩ := ih (by omega)
    rw [cancels, run_append]
    generalize run cfg s (cancels r N) = t at *
    have hs : Says (Ex.says (PeerWire.cancel 0 0 N)) (.cancel 0 0 N) := by
      refine ⟨⟨by omega, by omega, by omega⟩, [], ?_⟩
      show [Message.encode (PeerWire.cancel 0 0 N)].flatten = _
      rw [← C05_layout _ (show Wire.Fits (.cancel 0 0 N) from ⟨by omega, by omega, by omega⟩)]
      simp [ofWire]
    have hst := cancel_steps (cfg := cfg) h7 h1 h4 h5 hs {} {}
    rw [run, run, run, hst]
    have hlt := (List.getElem?_eq_some_iff.1 h1).1
    have hnot : (⟨((0 : Nat) : Int), ((0 : Nat) : Int), (N : Int)⟩ : Req) ∉ c'.canceled := by
      intro hm
      obtain ⟨k, hk, he⟩ := h3 _ hm
      injection he with _ _ he
      omega
    refine ⟨_, List.getElem?_set_self hlt, ?_, ?_, rfl, h5, h6, h7⟩
    · show (sadd _ _).length = _
      unfold sadd
      rw [if_neg hnot, List.length_cons, h2]
    · show ∀ q ∈ sadd _ _, _
      unfold sadd
      rw [if_neg hnot]
      intro q hq
      rcases List.mem_cons.mp hq with rfl | hq
      · exact ⟨N, by omega, rfl⟩
      · obtain ⟨k, hk, he⟩ := h3 q hq
        exact ⟨k, by omega, he⟩

/-- Somebody has joined. -/
def Ex.canceller : State := run Ex.cfg (init Ex.nothing) (Ex.fine (Ex.joins 0 1 (Ex.id' 2)))

theorem Ex.canceller_conn : ∃ c, Ex.canceller.peers[0]? = some c ∧ c.phase = .serving none ∧ c.closed = false ∧ c.canceled = [] := by
  have h : (Ex.canceller.peers[0]?.map fun c => (c.phase, c.closed, c.canceled)) = some (.serving none, false, []) := by kernel_rfl
  cases hc : Ex.canceller.peers[0]? with
  | none => rw [hc] at h; cases h
  | some c =>
    rw [hc] at h
    simp only [Option.map_some, Option.some.injEq, Prod.mk.injEq] at h
    exact ⟨c, rfl, h⟩

/-- A torrent of six bytes, in pieces of four: nine CANCELs. And it could be four thousand million. -/
theorem C134_refuted : ¬ C134_statement Ex.cfg ∧ ∀ N, N ≤ 2 ^ 32 → ∃ es c, (run Ex.cfg (init Ex.nothing) es).peers[0]? = some c ∧ c.canceled.length = N := by
  have H : ∀ N, N ≤ 2 ^ 32 → ∃ es c, (run Ex.cfg (init Ex.nothing) es).peers[0]? = some c ∧ c.canceled.length = N := by
    intro N hN
    obtain ⟨c, h1, h2, h3, h4⟩ := Ex.canceller_conn
    obtain ⟨c', h5, h6, _⟩ := C134_grows_refuted (cfg := Ex.cfg) (s := Ex.canceller) (by kernel_rfl) h1 h2 h3 h4 N hN
    exact ⟨Ex.fine (Ex.joins 0 1 (Ex.id' 2)) ++ cancels 0 N, c', by rw [run_append]; exact h5, h6⟩
  refine ⟨fun h => ?_, H⟩
  obtain ⟨es, c, h1, h2⟩ := H 9 (by decide)
  have := h _ es 0 c h1
  rw [h2] at this
  revert this
  decide

theorem cancels_fold (ms : List Message) : ∀ (o : List Req), o.Nodup →
    (ms.foldl (fun o m => if m.typ = CANCEL then sadd o ⟨m.index, m.begin, m.length⟩ else if m.typ = REQUEST then sdel o ⟨m.index, m.begin, m.length⟩ else o) o).Nodup ∧
    (ms.foldl (fun o m => if m.typ = CANCEL then sadd o ⟨m.index, m.begin, m.length⟩ else if m.typ = REQUEST then sdel o ⟨m.index, m.begin, m.length⟩ else o) o).length ≤
      o.length + (ms.filter fun m => m.typ = CANCEL).length := by
  induction ms with
  | nil => intro o h; exact ⟨h, by simp⟩
  | cons m ms ih =>
    intro o ho
    rw [List.foldl_cons]
    by_cases h1 : m.typ = CANCEL
    · rw [if_pos h1, List.filter_cons_of_pos (by simpa using h1)]
      have hn : (sadd o ⟨m.index, m.begin, m.length⟩).Nodup ∧ (sadd o (⟨m.index, m.begin, m.length⟩ : Req)).length ≤ o.length + 1 := by
        unfold sadd
        split
        · exact ⟨ho, by omega⟩
        · next h => exact ⟨List.nodup_cons.mpr ⟨h, ho⟩, by simp⟩
      obtain ⟨h2, h3⟩ := ih _ hn.1
      exact ⟨h2, by rw [List.length_cons]; omega⟩
    · rw [if_neg h1, List.filter_cons_of_neg (by simpa using h1)]
      by_cases h2 : m.typ = REQUEST
      · rw [if_pos h2]
        have hn : (sdel o ⟨m.index, m.begin, m.length⟩).Nodup ∧ (sdel o (⟨m.index, m.begin, m.length⟩ : Req)).length ≤ o.length := by
          unfold sdel
          exact ⟨ho.filter _, List.length_filter_le _ _⟩
        obtain ⟨h2, h3⟩ := ih _ hn.1
        exact ⟨h2, by omega⟩
      · rw [if_neg h2]; exact ih _ ho

/-- C134. What is true: as long as the connection is served, what is remembered is what `waitingCancels` says of the messages handled, each block once, and not more than the peer has sent CANCELs.
Missing: a bound that does not depend on the peer. -/
theorem C134_partial (w : World) (es : List (Event × Luck)) {r : Ref} {c : Conn} {o : Option Message} (hc : (run cfg (init w) es).peers[r]? = some c) (hp : c.phase = .serving o) :
    c.canceled = waitingCancels (handled c) ∧ c.canceled.Nodup ∧ c.canceled.length ≤ (c.received.filter fun m => m.typ = CANCEL).length := by
  have h := (hist_run w es r c hc).cancels (by rw [hp]; simp) (by rw [hp]; simp) (by rw [hp]; simp)
  obtain ⟨h1, h2⟩ := cancels_fold (handled c) [] List.nodup_nil
  have h3 : ((handled c).filter fun m => m.typ = CANCEL).length ≤ (c.received.filter fun m => m.typ = CANCEL).length := by
    unfold handled
    split
    · exact ((List.dropLast_sublist _).filter _).length_le
    · exact Nat.le_refl _
  refine ⟨h, ?_, ?_⟩
  · rw [h]; exact h1
  · rw [h]
    have : (waitingCancels (handled c)).length ≤ ([] : List Req).length + _ := h2
    simp only [List.length_nil, Nat.zero_add] at this
    omega

/-- Three CANCELs, one of them twice, and a REQUEST. -/
example : (run Ex.cfg (init Ex.everything) (Ex.fine (Ex.joins 0 1 (Ex.id' 2) ++ [.unchoke 0] ++ Ex.gets 0 (PeerWire.cancel 0 0 4) ++ Ex.gets 0 (PeerWire.cancel 7 0 4) ++
    Ex.gets 0 (PeerWire.cancel 7 0 4) ++ Ex.gets 0 (request 0 0 4)))).peers[0]?.map (fun c => (c.phase, c.canceled)) = some (.serving none, [⟨7, 0, 4⟩]) := by kernel_rfl

end Drip.P2P
