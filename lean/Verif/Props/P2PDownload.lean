import Verif.Lemmas.P2PAddrs
import Verif.Lemmas.P2PJobs
import Verif.Lemmas.P2PTable
import Verif.Lemmas.P2PExample
import Verif.Props.P2PConnect
import Verif.Props.Storage
import Verif.Lemmas.Pex
/-
Which peers are dialled and which pieces are downloaded from them: C69, C70 and C71 of /verif/properties.jsonl.
-/

namespace Drip.P2P
open PeerWire Metainfo
open Storage (Fate World Op runOp getBlock putBlock resetPiece)

variable {cfg : Cfg}

/-! ### C69

"Over any history of AddPeer and Block calls each address is put in the dial queue at most once, and a blocked address is never queued nor dialled." The history is any
history of the server; `queuedIn` and `dialledIn` are what it put in the queue and opened connections to. -/

/-- Two entries of a tracker's answers are the same address: the same IP address, however it is written, and the same port. -/
def SameAddr (tp tp' : Tracker.Peer) : Prop := ∃ ip, Spec.IsAddress tp.ip ip ∧ Spec.IsAddress tp'.ip ip ∧ tp.port = tp'.port

theorem remoteAddr_some {tp : Tracker.Peer} {a : Bytes} (h : remoteAddr tp = .ok a) : ∃ ip, Net.parseIP tp.ip = some ip ∧ a = Pex.addrText (Net.ipString ip) tp.port := by
  unfold remoteAddr at h
  cases hp : Net.parseIP tp.ip with
  | none => rw [hp] at h; cases h
  | some ip =>
    rw [hp] at h
    injection h with h
    exact ⟨ip, rfl, by rw [← h, List.append_assoc]; rfl⟩

theorem remoteAddr_inj {tp tp' : Tracker.Peer} {a : Bytes} (h : remoteAddr tp = .ok a) (h' : remoteAddr tp' = .ok a) : SameAddr tp tp' := by
  obtain ⟨ip, h1, h2⟩ := remoteAddr_some h
  obtain ⟨ip', h3, h4⟩ := remoteAddr_some h'
  have := Pex.key_inj (e := (ip, tp.port)) (e' := (ip', tp'.port)) (Net.parseIP_length h1) (Net.parseIP_length h3) (h2.symm.trans h4)
  injection this with e1 e2
  exact ⟨ip, (Net.parseIP_iff _ _).1 h1, (Net.parseIP_iff _ _).1 (by rw [h3, e1]), e2⟩

/-- The address and port are among those blocked: the text of the address that RFC 5952 recommends, a colon, and the port. -/
def Blocks (s : State) (ip : Bytes) (port : Int) : Prop := ∃ t, Spec.Recommended ip t ∧ t ++ b!":" ++ Spec.decInt port ∈ s.blockedPeers

theorem blocks_iff {s : State} {tp : Tracker.Peer} {ip : Bytes} (h : Net.parseIP tp.ip = some ip) :
    Blocks s ip tp.port ↔ ∃ a ∈ s.blockedPeers, remoteAddr tp = .ok a := by
  have hr : remoteAddr tp = .ok (Net.ipString ip ++ b!":" ++ intDec tp.port) := by unfold remoteAddr; rw [h]
  rw [hr]
  constructor
  · rintro ⟨t, h1, h2⟩
    rw [Net.recommended_iff (Net.parseIP_length h)] at h1
    subst h1
    rw [Bencode.decInt_eq] at h2
    exact ⟨_, h2, rfl⟩
  · rintro ⟨a, h1, h2⟩
    injection h2 with h2
    exact ⟨_, (Net.recommended_iff (Net.parseIP_length h) _).2 rfl, by rw [Bencode.decInt_eq, h2]; exact h1⟩

/-- C69: no address is queued twice, and only addresses are queued. -/
theorem C69_once (w : World) (es : List (Event × Luck)) : ((queuedIn cfg (init w) es).Pairwise fun tp tp' => ¬ SameAddr tp tp') ∧
    ∀ tp ∈ queuedIn cfg (init w) es, ∃ ip, Spec.IsAddress tp.ip ip := by
  obtain ⟨h1, h2⟩ := queuedIn_spec (cfg := cfg) (.init w) es
  refine ⟨List.Pairwise.of_map (S := fun a b => a ≠ b) remoteAddr (fun tp tp' h hs => h ?_) h1, fun tp htp => ?_⟩
  · obtain ⟨ip, h2, h3, h4⟩ := hs
    unfold remoteAddr; rw [(Net.parseIP_iff _ _).2 h2, (Net.parseIP_iff _ _).2 h3, h4]
  · obtain ⟨a, h3, _⟩ := h2 tp htp
    obtain ⟨ip, h4, _⟩ := remoteAddr_some h3
    exact ⟨ip, (Net.parseIP_iff _ _).1 h4⟩

/-- C69, the other way round: an address that has not been queued before is queued, if there is room and it is not blocked. -/
theorem C69_queued (w : World) (es : List (Event × Luck)) (l : Luck) (tp : Tracker.Peer) (ip : Bytes) (hip : Spec.IsAddress tp.ip ip) (ha : (run cfg (init w) es).alive = true)
    (hl : (run cfg (init w) es).locked = false) (hn : ∀ tp' ∈ queuedIn cfg (init w) es, ¬ SameAddr tp tp') (hb : ¬ Blocks (run cfg (init w) es) ip tp.port)
    (hq : (run cfg (init w) es).newPeerQueue.length < 50) :
    (step cfg (run cfg (init w) es) (.addPeer tp, l)).newPeerQueue = (run cfg (init w) es).newPeerQueue ++ [tp] := by
  replace hip := (Net.parseIP_iff _ _).2 hip
  rw [blocks_iff hip] at hb
  have hr : remoteAddr tp = .ok (Net.ipString ip ++ b!":" ++ intDec tp.port) := by unfold remoteAddr; rw [hip]
  replace hb : Net.ipString ip ++ b!":" ++ intDec tp.port ∉ (run cfg (init w) es).blockedPeers := fun h => hb ⟨_, h, hr⟩
  have hk : mget (run cfg (init w) es).knownPeers (Net.ipString ip ++ b!":" ++ intDec tp.port) = none := by
    cases h : mget (run cfg (init w) es).knownPeers (Net.ipString ip ++ b!":" ++ intDec tp.port) with
    | none => rfl
    | some x =>
      rcases known_queued (cfg := cfg) (.init w) es _ (by rw [h]; rfl) with h | ⟨tp', h1, h2⟩
      · cases h
      · exact absurd (remoteAddr_inj hr h2) (hn tp' h1)
  generalize run cfg (init w) es = s at *
  unfold step
  rw [if_neg (by rw [ha]; simp)]
  simp only [act, addPeer]
  rw [locked_apply, if_neg (by rw [hl]; simp), bind_apply, hr]
  simp only [Act.lift, Act.pure, bind_apply, get_apply, hk, hb, hq, Option.isSome_none, Bool.false_eq_true, if_false, if_true]
  rfl

/-- A second address, and the first one again, written differently. -/
example : (run Ex.cfg (init Ex.nothing) (Ex.fine [.addPeer ⟨[], b!"::ffff:1.2.3.4", 5000⟩, .addPeer ⟨[], b!"1.2.3.4", 5001⟩, .addPeer ⟨[], b!"1.2.3.4", 5000⟩])).newPeerQueue =
    [⟨[], b!"::ffff:1.2.3.4", 5000⟩, ⟨[], b!"1.2.3.4", 5001⟩] := by kernel_rfl

/-- C69: an address is not queued after it was blocked. -/
theorem C69_not_queued (w : World) (es es' : List (Event × Luck)) (ip : Bytes) (port : Int) (ha : Blocks (run cfg (init w) es) ip port) :
    ∀ tp ∈ queuedIn cfg (run cfg (init w) es) es', ¬ (Spec.IsAddress tp.ip ip ∧ tp.port = port) := by
  rintro tp htp ⟨he, rfl⟩
  obtain ⟨a, h3, he⟩ := (blocks_iff ((Net.parseIP_iff _ _).2 he)).1 ha
  obtain ⟨a', h1, _, h2⟩ := (queuedIn_spec (inv_run w es) es').2 tp htp
  rw [he] at h1; injection h1 with h1; subst h1
  exact h2 h3

/-- C69 (partial: not for connections that `dialPeer` is about to open): a blocked address is dialled only by goroutines that had already checked the address when it was blocked. -/
theorem C69_not_dialled_partial (w : World) (es es' : List (Event × Luck)) (ip : Bytes) (port : Int) (ha : Blocks (run cfg (init w) es) ip port) :
    ∀ tp ∈ dialledIn cfg (run cfg (init w) es) es', Spec.IsAddress tp.ip ip → tp.port = port → (tp, true) ∈ (run cfg (init w) es).dialers := by
  rintro tp htp he rfl
  obtain ⟨a, h3, he⟩ := (blocks_iff ((Net.parseIP_iff _ _).2 he)).1 ha
  exact dialledIn_blocked (inv_run w es) he h3 es' htp

theorem mem_foldl_sadd {a : Bytes} : ∀ (l b : List Bytes), a ∈ l.foldl sadd b ↔ a ∈ l ∨ a ∈ b
  | [], b => by simp
  | x :: l, b => by
    rw [List.foldl_cons, mem_foldl_sadd l, mem_sadd, List.mem_cons]
    constructor
    · rintro (h | h | h)
      · exact .inl (.inr h)
      · exact .inl (.inl h)
      · exact .inr h
    · rintro ((h | h) | h)
      · exact .inr (.inl h)
      · exact .inl h
      · exact .inr (.inr h)

theorem block_apply {r : Ref} {s : State} {c : Conn} (hl : s.locked = false) (hc : s.peers[r]? = some c) :
    (block r s).1 = .ok () ∧ (block r s).2.blockedPeers = ((mget s.knownAddrs c.idip).getD []).foldl sadd s.blockedPeers := by
  unfold block
  rw [locked_apply, if_neg (by rw [hl]; simp), bind_apply, getConn_some (show ({ s with locked := true } : State).peers[r]? = some c from hc)]
  simp only [bind_apply, modify_apply]
  generalize hx : ({ s with locked := true, blockedPeers := ((mget s.knownAddrs c.idip).getD []).foldl sadd s.blockedPeers } : State) = x
  have hp : x.peers[r]? = some c := by rw [← hx]; exact hc
  rw [disconnect_apply hp, ← hx]
  exact ⟨rfl, rfl⟩

theorem canReturn_iff {s : State} {i : Nat} : canReturn s i .checksum = true ↔ ∃ m, s.storage.mem = some m ∧ Storage.PieceResult m i (some .checksum) := by
  unfold canReturn Storage.PieceResult
  constructor
  · intro h
    simp only at h
    cases hm : s.storage.mem with
    | none => rw [hm] at h; cases h
    | some m =>
      rw [hm] at h
      simp only [Option.bind_some] at h
      cases hp : m.pieces[i]? with
      | none => rw [hp] at h; cases h
      | some p =>
        rw [hp] at h
        simp only [Option.bind_some] at h
        split at h
        · rename_i e he
          exact ⟨m, rfl, p, hp, by rw [he, of_decide_eq_true h]⟩
        · cases h
  · rintro ⟨m, h1, p, h2, h3⟩
    simp only [h1, h2, h3, Option.bind_some]
    decide

theorem canReturn_complete {s : State} {m : Storage.Mem} {i : Nat} (h1 : s.storage.mem = some m) (h2 : Storage.PieceResult m i none) : canReturn s i .complete = true := by
  obtain ⟨p, h2, h3⟩ := h2
  unfold canReturn
  simp only [h1, h2, h3, Option.bind_some]
  decide

/-- C69: bad data gets its sender blocked. When the download of a piece from an active peer ends with a wrong checksum, the address of that peer is blocked, and no tracker peer with
this address is queued from then on. (`hip`: the address is IPv4. The process is alive and the lock is free.) -/
theorem C69_bad_data (w : World) (es es' : List (Event × Luck)) (l : Luck) (k i : Nat) (r : Ref) (c : Conn) (ha : (run cfg (init w) es).alive = true) (hl : (run cfg (init w) es).locked = false)
    (hj : (run cfg (init w) es).jobs[k]? = some ⟨r, i, .running⟩) (hact : ∃ key, (key, r) ∈ (run cfg (init w) es).activePeers) (hc : (run cfg (init w) es).peers[r]? = some c)
    (m : Storage.Mem) (hm : (run cfg (init w) es).storage.mem = some m) (hbad : Storage.PieceResult m i (some .checksum)) (q₁ q₂ q₃ q₄ : UInt8)
    (hip : c.ip = Spec.mapped q₁ q₂ q₃ q₄) (tp : Tracker.Peer) (htp : Spec.IsAddress tp.ip c.ip) (hport : tp.port = c.port) :
    Blocks (step cfg (run cfg (init w) es) (.finish k .checksum, l)) c.ip c.port ∧ tp ∉ queuedIn cfg (step cfg (run cfg (init w) es) (.finish k .checksum, l)) es' := by
  have hb : c.addr ∈ (step cfg (run cfg (init w) es) (.finish k .checksum, l)).blockedPeers := by
    replace hbad : canReturn (run cfg (init w) es) i .checksum = true := canReturn_iff.2 ⟨m, hm, hbad⟩
    obtain ⟨key, hact⟩ := hact
    obtain ⟨c', h1, h2, h3⟩ := (inv_run (cfg := cfg) w es).entry key r hact
    rw [hc] at h1; injection h1 with h1; subst h1
    obtain ⟨c', h4, h5⟩ := addr_run (cfg := cfg) w es key r hact
    rw [hc] at h4; injection h4 with h4; subst h4
    generalize run cfg (init w) es = s at *
    obtain ⟨h6, h7⟩ := block_apply (r := r) hl hc
    have hstep : step cfg s (.finish k .checksum, l) = { (block r s).2 with jobs := (block r s).2.jobs.set k ⟨r, i, .over⟩ } := by
      unfold step
      rw [if_neg (by rw [ha]; simp)]
      simp only [act, hj, hbad, if_true, finish, Act.attempt]
      generalize block r s = x at h6
      obtain ⟨o, s'⟩ := x
      simp only at h6
      subst h6
      rfl
    rw [hstep]
    show c.addr ∈ (block r s).2.blockedPeers
    rw [h7, mem_foldl_sadd, h2]
    exact .inl h5
  have hr : remoteAddr tp = .ok c.addr := by
    unfold remoteAddr Conn.addr tcpAddr
    rw [(Net.parseIP_iff _ _).2 htp, hport]
    have : (Net.ipString c.ip).contains 58 = false := by rw [hip, ipString_mapped]; exact dotted_colon ..
    simp only [this, Bool.false_eq_true, if_false]
  have hbl : Blocks (step cfg (run cfg (init w) es) (.finish k .checksum, l)) c.ip c.port := by
    have := (blocks_iff (s := step cfg (run cfg (init w) es) (.finish k .checksum, l)) ((Net.parseIP_iff _ _).2 htp)).2 ⟨_, hb, hr⟩
    rwa [hport] at this
  refine ⟨hbl, fun hm => ?_⟩
  rw [← run_snoc] at hbl hm
  exact C69_not_queued w _ es' _ _ hbl tp hm ⟨htp, hport⟩

/-- A peer at 10.0.0.1:5000 sends a wrong second piece. -/
def Ex.lies : List Event :=
  Ex.joins 0 1 (Ex.id' 2) ++ Ex.gets 0 (bitfieldMsg [64]) ++ Ex.gets 0 PeerWire.unchoke ++ [.select 0, .begin 0, .request 0 ⟨1, 0, 2⟩] ++ Ex.gets 0 (pieceMsg 1 0 [9, 9])

/-- The hypotheses of `C69_bad_data`; the address is blocked, and `AddPeer` does not queue it. -/
example : (run Ex.cfg (init Ex.nothing) (Ex.fine Ex.lies)).jobs = [⟨0, 1, .running⟩] ∧ (run Ex.cfg (init Ex.nothing) (Ex.fine Ex.lies)).locked = false ∧
    (run Ex.cfg (init Ex.nothing) (Ex.fine Ex.lies)).activePeers.map (·.2) = [0] ∧ canReturn (run Ex.cfg (init Ex.nothing) (Ex.fine Ex.lies)) 1 .checksum = true ∧
    (run Ex.cfg (init Ex.nothing) (Ex.fine (Ex.lies ++ [.finish 0 .checksum]))).blockedPeers = [b!"10.0.0.1:5000"] ∧
    (run Ex.cfg (init Ex.nothing) (Ex.fine (Ex.lies ++ [.finish 0 .checksum, .addPeer (Ex.tp [])]))).newPeerQueue = [] ∧
    (run Ex.cfg (init Ex.nothing) (Ex.fine (Ex.lies ++ [.finish 0 .checksum, .addPeer { Ex.tp [] with port := 5001 }]))).newPeerQueue = [{ Ex.tp [] with port := 5001 }] :=
  ⟨by kernel_rfl, by kernel_rfl, by kernel_rfl, by kernel_rfl, by kernel_rfl, by kernel_rfl, by kernel_rfl⟩
/-- An address that is announced twice is queued once. -/
example : queuedIn Ex.cfg (init Ex.nothing) (Ex.fine [.addPeer (Ex.tp []), .takeAddr, .addPeer (Ex.tp (Ex.id' 3)), .addPeer { Ex.tp [] with port := 5001 }]) =
    [Ex.tp [], { Ex.tp [] with port := 5001 }] := by kernel_rfl

/-- C69 does not hold: a blocked address is dialled. `dialPeer` had checked the address before it was blocked. -/
theorem C69_race_refuted :
    (run Ex.cfg (init Ex.nothing) (Ex.fine ([.addPeer (Ex.tp []), .takeAddr, .spawn, .dialCheck 0] ++ Ex.lies ++ [.finish 0 .checksum]))).blockedPeers = [b!"10.0.0.1:5000"] ∧
    (Ex.tp []).ip = b!"10.0.0.1" ∧ (Ex.tp []).port = 5000 ∧
    Ex.tp [] ∈ dialledIn Ex.cfg (run Ex.cfg (init Ex.nothing) (Ex.fine ([.addPeer (Ex.tp []), .takeAddr, .spawn, .dialCheck 0] ++ Ex.lies ++ [.finish 0 .checksum]))) (Ex.fine [.dial 0 true]) := by
  refine ⟨by kernel_rfl, rfl, rfl, ?_⟩
  rw [show dialledIn Ex.cfg (run Ex.cfg (init Ex.nothing) (Ex.fine ([.addPeer (Ex.tp []), .takeAddr, .spawn, .dialCheck 0] ++ Ex.lies ++ [.finish 0 .checksum]))) (Ex.fine [.dial 0 true]) = [Ex.tp []] by kernel_rfl]
  exact List.mem_singleton.2 rfl

/-- The address ::1. -/
def Ex.ip6 : Bytes := [0, 0, 0, 0, 0, 0, 0, 0, 0, 0, 0, 0, 0, 0, 0, 1]

/-- A peer at [::1]:6881 sends a wrong second piece and gets blocked. -/
def Ex.lies6 : List Event :=
  [.accept Ex.ip6 6881, .check 0, .handshake 0 (Ex.shake (Ex.id' 2)), .register 0] ++ Ex.gets 0 (bitfieldMsg [64]) ++ Ex.gets 0 PeerWire.unchoke ++ [.select 0, .begin 0, .request 0 ⟨1, 0, 2⟩] ++
    Ex.gets 0 (pieceMsg 1 0 [9, 9]) ++ [.finish 0 .checksum]

/-- C69 does not hold for IPv6: what is blocked is `[::1]:6881`, but `AddPeer` looks for `::1:6881`, and queues the same address. -/
theorem C69_ipv6_refuted :
    (run Ex.cfg (init Ex.nothing) (Ex.fine Ex.lies6)).blockedPeers = [b!"[::1]:6881"] ∧ (run Ex.cfg (init Ex.nothing) (Ex.fine Ex.lies6)).peers.map (fun c => (c.ip, c.port, c.closed)) = [(Ex.ip6, 6881, true)] ∧
    Spec.IsAddress b!"::1" Ex.ip6 ∧
    queuedIn Ex.cfg (run Ex.cfg (init Ex.nothing) (Ex.fine Ex.lies6)) (Ex.fine [.addPeer { id := [], ip := b!"::1", port := 6881 }]) = [{ id := [], ip := b!"::1", port := 6881 }] :=
  ⟨by kernel_rfl, by kernel_rfl, (Net.parseIP_iff _ _).1 (by kernel_rfl), by kernel_rfl⟩

/-! ### C70

"requestPieceFromPeer starts a download only for a piece that the peer has, that we do not have, and that no other peer is currently downloading; if there is no such piece it starts
nothing; it sends not-interested only when the peer has nothing we need." The goroutines of the downloads are `jobs`. -/

/-- C70, soundness. In every history, when `requestPieceFromPeer` runs for a peer, then no download starts, or one does: from that peer, which is connected and does not choke us; of a piece
that the peer has announced, that we have not, and that is not being downloaded. -/
theorem C70_sound (w : World) (es : List (Event × Luck)) (l : Luck) (k : Nat) {r : Ref} {m : Storage.Mem} (hr : (run cfg (init w) es).toRequest[k]? = some r)
    (hm : (run cfg (init w) es).storage.mem = some m) :
    (step cfg (run cfg (init w) es) (.select k, l)).jobs = (run cfg (init w) es).jobs ∨
    ∃ c i, (step cfg (run cfg (init w) es) (.select k, l)).jobs = (run cfg (init w) es).jobs ++ [⟨r, i, .fresh⟩] ∧ (run cfg (init w) es).peers[r]? = some c ∧ c.closed = false ∧ c.remoteChoked = false ∧
      (∃ a ∈ c.received, Announces a i) ∧ Bitfield.bit m.bitfield i = false ∧ ∀ j ∈ (run cfg (init w) es).jobs, j.index ≠ i := by
  have hi := inv_run (cfg := cfg) w es
  have hj := jobs_run (cfg := cfg) w es
  have hh := has_run (cfg := cfg) w es
  generalize run cfg (init w) es = s at *
  obtain ⟨c, hc, _⟩ := hi.refs r (.inl (List.mem_of_getElem? hr))
  cases ha : s.alive with
  | false => rw [alive_step _ ha]; exact .inl rfl
  | true =>
  cases hl : s.locked with
  | true =>
    left
    have : requestPieceFromPeer (l.ok r) l.coins l.pdq r s = (.stuck, s) := by unfold requestPieceFromPeer; rw [locked_apply, if_pos hl]
    unfold step
    rw [if_neg (by rw [ha]; simp)]
    simp only [act, hr, this]
  | false =>
  have hstep : ∀ x, requestPieceFromPeer (l.ok r) l.coins l.pdq r s = x → x.1 = .ok () ∨ x.1 = .err .conn → (step cfg s (.select k, l)).jobs = x.2.jobs := by
    rintro ⟨o, s'⟩ h ho
    simp only at ho
    unfold step
    rw [if_neg (by rw [ha]; simp)]
    rcases ho with rfl | rfl <;> simp only [act, hr, h]
  rcases requestPiece_cases (r := r) (l.ok r) l.coins l.pdq hl hc hm with ⟨_, h⟩ | ⟨hn, ⟨_, ho, c', h, _⟩ | ⟨i, h1, h⟩ | ⟨_, _, h⟩⟩
  · exact .inl (hstep _ h (.inl rfl))
  · refine .inl ((hstep _ rfl ho).trans ?_)
    rw [h]
  · right
    obtain ⟨h2, h3⟩ := firstFree_some h1
    obtain ⟨h4, h5⟩ := mem_wanted.1 ((sortPieces_perm ..).mem_iff.1 h2)
    refine ⟨c, i, hstep _ h (.inl rfl), hc, ?_, ?_, (hh r c hc).told i h4, h5, fun j hj' he => ?_⟩
    · cases hx : c.closed with
      | false => rfl
      | true => exact absurd (.inl hx) hn
    · cases hx : c.remoteChoked with
      | false => rfl
      | true => exact absurd (.inr hx) hn
    · rw [(hj.inflight i j.peer).2 ⟨j, hj', he, rfl⟩] at h3; cases h3
  · exact .inl (hstep _ h (.inl rfl))

/-- C70: over every history, no piece is downloaded from two peers at a time. -/
theorem C70_exclusive (w : World) (es : List (Event × Luck)) : ((run cfg (init w) es).jobs.map Job.index).Nodup := (jobs_run w es).nodup

/-- C70, completeness: if the peer is being served and does not choke us and has announced (in a message that was handled) a piece that we do not have and that is not being downloaded, then
a download starts. -/
theorem C70_complete (w : World) (es : List (Event × Luck)) (l : Luck) (k : Nat) {r : Ref} {c : Conn} {m : Storage.Mem} (ha : (run cfg (init w) es).alive = true)
    (hl : (run cfg (init w) es).locked = false) (hr : (run cfg (init w) es).toRequest[k]? = some r) (hm : (run cfg (init w) es).storage.mem = some m)
    (hc : (run cfg (init w) es).peers[r]? = some c) (hs : ∃ p, c.phase = .serving p) (hcl : c.closed = false) (hch : c.remoteChoked = false) {i : Nat}
    (hhas : ∃ a ∈ handled c, Announces a i) (hours : Bitfield.bit m.bitfield i = false) (hfree : ∀ j ∈ (run cfg (init w) es).jobs, j.index ≠ i) :
    ∃ n, (step cfg (run cfg (init w) es) (.select k, l)).jobs = (run cfg (init w) es).jobs ++ [⟨r, n, .fresh⟩] := by
  have hj := jobs_run (cfg := cfg) w es
  have hh := has_run (cfg := cfg) w es
  generalize run cfg (init w) es = s at *
  obtain ⟨a, ha1, ha2⟩ := hhas
  have hw : i ∈ wanted c m.bitfield := mem_wanted.2 ⟨(hh r c hc).known hs a ha1 i ha2, hours⟩
  rcases requestPiece_cases (r := r) (l.ok r) l.coins l.pdq hl hc hm with ⟨h0, h⟩ | ⟨hn, ⟨h0, ho, c', h, _⟩ | ⟨n, h1, h⟩ | ⟨h1, _, h⟩⟩
  · rw [hcl, hch] at h0; rcases h0 with h0 | h0 <;> cases h0
  · rw [h0] at hw; cases hw
  · refine ⟨n, ?_⟩
    unfold step
    rw [if_neg (by rw [ha]; simp)]
    simp only [act, hr, h]
  · exfalso
    have := firstFree_none h1 i ((sortPieces_perm ..).mem_iff.2 hw)
    cases hg : mget s.inflight (i : Int) with
    | none => rw [hg] at this; cases this
    | some x =>
      obtain ⟨j, h2, h3, _⟩ := (hj.inflight i x).1 hg
      exact hfree j h2 h3

/-- C70: NOT_INTERESTED is sent only if everything that the peer has announced is ours; and then it is sent, if we were interested and the write succeeds. -/
theorem C70_not_interested (w : World) (es : List (Event × Luck)) (l : Luck) (k : Nat) {r : Ref} {c c' : Conn} {m : Storage.Mem} (ha : (run cfg (init w) es).alive = true)
    (hl : (run cfg (init w) es).locked = false) (hr : (run cfg (init w) es).toRequest[k]? = some r) (hm : (run cfg (init w) es).storage.mem = some m)
    (hc : (run cfg (init w) es).peers[r]? = some c) (hc' : (step cfg (run cfg (init w) es) (.select k, l)).peers[r]? = some c') (hs : ∃ p, c.phase = .serving p) :
    (c'.sent = c.sent ∨ (c'.sent = c.sent ++ [PeerWire.notInterested] ∧ ∀ a ∈ handled c, ∀ i, Announces a i → Bitfield.bit m.bitfield i = true)) ∧
    (c.closed = false → c.remoteChoked = false → c.interested = true → l.ok r = true → (∀ a ∈ c.received, ∀ i, Announces a i → Bitfield.bit m.bitfield i = true) →
      c'.sent = c.sent ++ [PeerWire.notInterested]) := by
  have hh := has_run (cfg := cfg) w es
  generalize run cfg (init w) es = s at *
  have hstep : ∀ x, requestPieceFromPeer (l.ok r) l.coins l.pdq r s = x → x.1 = .ok () ∨ x.1 = .err .conn → (step cfg s (.select k, l)).peers = x.2.peers := by
    rintro ⟨o, s'⟩ h ho
    simp only at ho
    unfold step
    rw [if_neg (by rw [ha]; simp)]
    rcases ho with rfl | rfl <;> simp only [act, hr, h]
  have same : (step cfg s (.select k, l)).peers = s.peers → c' = c := fun h => by
    rw [h, hc] at hc'; injection hc' with hc'; exact hc'.symm
  have hne : wanted c m.bitfield ≠ [] → ¬ ∀ a ∈ c.received, ∀ i, Announces a i → Bitfield.bit m.bitfield i = true := by
    intro hne hall
    obtain ⟨i, hi⟩ := List.exists_mem_of_ne_nil _ hne
    obtain ⟨h4, h5⟩ := mem_wanted.1 hi
    obtain ⟨a, h6, h7⟩ := (hh r c hc).told i h4
    rw [hall a h6 i h7] at h5; cases h5
  rcases requestPiece_cases (r := r) (l.ok r) l.coins l.pdq hl hc hm with ⟨h0, h⟩ | ⟨hn, ⟨h0, ho, d, h, hd, _⟩ | ⟨n, h1, h⟩ | ⟨h1, h0, h⟩⟩
  · refine ⟨.inl (by rw [same (hstep _ h (.inl rfl))]), fun h1 h2 => ?_⟩
    rw [h1, h2] at h0; rcases h0 with h0 | h0 <;> cases h0
  · have := hstep _ rfl ho
    rw [h] at this
    rw [this] at hc'
    simp only at hc'
    rw [List.getElem?_set_self (List.getElem?_eq_some_iff.1 hc).1] at hc'
    injection hc' with hc'; subst hc'
    have hall : ∀ a ∈ handled c, ∀ i, Announces a i → Bitfield.bit m.bitfield i = true := by
      intro a h1 i h2
      have h3 := (hh r c hc).known hs a h1 i h2
      cases hb : Bitfield.bit m.bitfield i with
      | true => rfl
      | false =>
        have := mem_wanted.2 ⟨h3, hb⟩
        rw [h0] at this; cases this
    refine ⟨?_, fun _ _ h1 h2 _ => by rw [hd, if_pos ⟨h1, h2⟩]⟩
    rw [hd]
    split
    · exact .inr ⟨rfl, hall⟩
    · exact .inl rfl
  · refine ⟨.inl (by rw [same (hstep _ h (.inl rfl))]), fun _ _ _ _ h2 => absurd h2 (hne ?_)⟩
    obtain ⟨h2, _⟩ := firstFree_some h1
    exact List.ne_nil_of_mem ((sortPieces_perm ..).mem_iff.1 h2)
  · exact ⟨.inl (by rw [same (hstep _ h (.inl rfl))]), fun _ _ _ _ h2 => absurd h2 (hne h0)⟩

/-- A peer with both pieces: the download of the first one starts; meanwhile another peer with both pieces gets the second one. -/
example : (run Ex.cfg (init Ex.nothing) (Ex.fine (Ex.joins 0 1 (Ex.id' 2) ++ Ex.gets 0 (bitfieldMsg [192]) ++ Ex.gets 0 PeerWire.unchoke ++ [.select 0] ++
      Ex.joins 1 2 (Ex.id' 3) ++ Ex.gets 1 (bitfieldMsg [192]) ++ Ex.gets 1 PeerWire.unchoke ++ [.select 0]))).jobs = [⟨0, 0, .fresh⟩, ⟨1, 1, .fresh⟩] := by kernel_rfl
/-- When its only piece has been downloaded, the peer is told that it has nothing more for us, and no download starts. -/
example : (run Ex.cfg (init Ex.nothing) (Ex.fine (Ex.joins 0 1 (Ex.id' 2) ++ Ex.gets 0 (bitfieldMsg [64]) ++ Ex.gets 0 PeerWire.unchoke ++ [.select 0, .begin 0, .request 0 ⟨1, 0, 2⟩] ++
      Ex.gets 0 (pieceMsg 1 0 [5, 6]) ++ [.finish 0 .complete, .hand 0, .select 0]))).peers.map (fun c => c.sent.map (·.typ)) = [[BITFIELD, INTERESTED, REQUEST, HAVE, NOT_INTERESTED]] := by kernel_rfl

/-! ### C90

"The number of peers by which the pieces are ordered is, for each piece, the number of connected peers that have announced it." -/

/-- C90: in histories in which nobody is blocked and the server is not stopped, whenever the lock is free. `holders`: the connections that have not ended, and whose peer has announced the piece. -/
theorem C90_availability (w : World) (es : List (Event × Luck)) (hq : Quiet es) (ha : (run cfg (init w) es).alive = true) (hl : (run cfg (init w) es).locked = false) (i : Nat) :
    available (run cfg (init w) es).indexToPeers i = (holders (run cfg (init w) es) i).length ∧
    ∀ x ∈ holders (run cfg (init w) es) i, ∃ c, (run cfg (init w) es).peers[x]? = some c ∧ ∃ a ∈ c.received, Announces a i := by
  refine ⟨available_run w es hq ha hl i, fun x hx => ?_⟩
  obtain ⟨c, h1, _, h2⟩ := mem_holders.1 hx
  exact ⟨c, h1, (has_run (cfg := cfg) w es x c h1).told i h2⟩

/-- Two peers with the second piece, one of which has gone: it counts once. -/
example : available (run Ex.cfg (init Ex.nothing) (Ex.fine (Ex.joins 0 1 (Ex.id' 2) ++ Ex.gets 0 (bitfieldMsg [192]) ++ Ex.joins 1 2 (Ex.id' 3) ++ Ex.gets 1 (have_ 1)))).indexToPeers 1 = 2 ∧
    available (run Ex.cfg (init Ex.nothing) (Ex.fine (Ex.joins 0 1 (Ex.id' 2) ++ Ex.gets 0 (bitfieldMsg [192]) ++ Ex.joins 1 2 (Ex.id' 3) ++ Ex.gets 1 (have_ 1) ++ [.fails 0, .leave 0]))).indexToPeers 1 = 1 ∧
    holders (run Ex.cfg (init Ex.nothing) (Ex.fine (Ex.joins 0 1 (Ex.id' 2) ++ Ex.gets 0 (bitfieldMsg [192]) ++ Ex.joins 1 2 (Ex.id' 3) ++ Ex.gets 1 (have_ 1) ++ [.fails 0, .leave 0]))) 1 = [1] :=
  ⟨by kernel_rfl, by kernel_rfl, by kernel_rfl⟩

/-! ### C71

"Among the pieces that could be requested, the one held by the fewest peers is chosen." False: the comparison is given positions in the list of pieces, and looks up the peers that have the
piece with *that number*. -/

/-- C71: of the pieces that `requestPieceFromPeer` could take (C70), it takes one with the fewest holders. -/
def RarestFirst (cfg : Cfg) : Prop := ∀ (w : World) (es : List (Event × Luck)) (l : Luck) (k : Nat) (r : Ref) (c : Conn) (m : Storage.Mem) (i j : Nat), Quiet es → (run cfg (init w) es).alive = true →
  (run cfg (init w) es).locked = false → (run cfg (init w) es).toRequest[k]? = some r → (run cfg (init w) es).peers[r]? = some c → (run cfg (init w) es).storage.mem = some m →
  (step cfg (run cfg (init w) es) (.select k, l)).jobs = (run cfg (init w) es).jobs ++ [⟨r, i, .fresh⟩] →
  Bitfield.bit c.bitfield j = true → Bitfield.bit m.bitfield j = false → (∀ x ∈ (run cfg (init w) es).jobs, x.index ≠ j) →
  (holders (run cfg (init w) es) i).length ≤ (holders (run cfg (init w) es) j).length

/-- Four pieces of one byte. -/
def Ex.four : Cfg := { store := { info := { sha1 := List.replicate 20 7, pieceLength := 1, pieces := [[1], [2], [3], [4]], name := [120], length := 4 }, sha1 := id }, peerID := Ex.id' 1 }

/-- None of them is there. -/
def Ex.fourNothing : World := Storage.run Ex.four.store [(.start, [])] World.empty

/-- One peer has the pieces 1 and 2, another one has 2 and 3. -/
def Ex.scarce : List Event :=
  Ex.joins 0 1 (Ex.id' 2) ++ Ex.gets 0 (bitfieldMsg [96]) ++ Ex.joins 1 2 (Ex.id' 3) ++ Ex.gets 1 (bitfieldMsg [48]) ++ Ex.gets 1 PeerWire.unchoke

/-- C71 does not hold: from the second peer piece 2 is taken, which both peers have, and not piece 3. -/
theorem C71_refuted : ¬ RarestFirst Ex.four := by
  intro h
  have hm : ((run Ex.four (init Ex.fourNothing) (Ex.fine Ex.scarce)).storage.mem.map fun m => Bitfield.bit m.bitfield 3) = some false := by kernel_rfl
  have hc : ((run Ex.four (init Ex.fourNothing) (Ex.fine Ex.scarce)).peers[1]?.map fun c => Bitfield.bit c.bitfield 3) = some true := by kernel_rfl
  cases hm' : (run Ex.four (init Ex.fourNothing) (Ex.fine Ex.scarce)).storage.mem with
  | none => rw [hm'] at hm; cases hm
  | some m =>
  cases hc' : (run Ex.four (init Ex.fourNothing) (Ex.fine Ex.scarce)).peers[1]? with
  | none => rw [hc'] at hc; cases hc
  | some c =>
  rw [hm'] at hm; rw [hc'] at hc
  injection hm with hm; injection hc with hc
  have := h Ex.fourNothing (Ex.fine Ex.scarce) {} 0 1 c m 2 3 (by
      intro e he
      have : (Ex.fine Ex.scarce).all (fun e => match e.1 with | .stop => false | .finish _ .checksum => false | _ => true) = true := by kernel_rfl
      have := List.all_eq_true.1 this e he
      refine ⟨fun h => ?_, fun k h => ?_⟩ <;> (rw [h] at this; cases this))
    (by kernel_rfl) (by kernel_rfl) (by kernel_rfl) hc' hm' (by kernel_rfl) hc hm
    (by rw [show (run Ex.four (init Ex.fourNothing) (Ex.fine Ex.scarce)).jobs = [] by kernel_rfl]; intro x hx; cases hx)
  rw [show (holders (run Ex.four (init Ex.fourNothing) (Ex.fine Ex.scarce)) 2).length = 2 by kernel_rfl, show (holders (run Ex.four (init Ex.fourNothing) (Ex.fine Ex.scarce)) 3).length = 1 by kernel_rfl] at this
  omega

theorem firstFree_head {inflight : List (Int × Ref)} {a b i : Nat} (h : firstFree inflight [a, b] = some i) : i = a ∨ (i = b ∧ (mget inflight (a : Int)).isSome = true) := by
  unfold firstFree at h
  split at h
  · rename_i ha
    unfold firstFree at h
    split at h
    · cases h
    · injection h with h; exact .inr ⟨h.symm, ha⟩
  · injection h with h; exact .inl h.symm

theorem wanted_sorted (c : Conn) (ours : Bytes) : (wanted c ours).Pairwise (· < ·) := Bitfield.itemsFrom_sorted _ _

/-- C71, what is true: it holds when the peer has announced no other pieces than the first two. Missing: everything else. -/
theorem C71_two_partial (w : World) (es : List (Event × Luck)) (l : Luck) (k : Nat) (r : Ref) (c : Conn) (m : Storage.Mem) (i j : Nat) (hq : Quiet es) (ha : (run cfg (init w) es).alive = true)
    (hl : (run cfg (init w) es).locked = false) (hr : (run cfg (init w) es).toRequest[k]? = some r) (hc : (run cfg (init w) es).peers[r]? = some c) (hm : (run cfg (init w) es).storage.mem = some m)
    (h2 : ∀ a ∈ c.received, ∀ n, Announces a n → n < 2)
    (hjob : (step cfg (run cfg (init w) es) (.select k, l)).jobs = (run cfg (init w) es).jobs ++ [⟨r, i, .fresh⟩])
    (hb : Bitfield.bit c.bitfield j = true) (hbm : Bitfield.bit m.bitfield j = false) (hj : ∀ x ∈ (run cfg (init w) es).jobs, x.index ≠ j) :
    (holders (run cfg (init w) es) i).length ≤ (holders (run cfg (init w) es) j).length := by
  have hav := available_run (cfg := cfg) w es hq ha hl
  have hjobs := jobs_run (cfg := cfg) w es
  have hh := has_run (cfg := cfg) w es
  generalize run cfg (init w) es = s at *
  rw [← hav, ← hav]
  have hstep : ∀ x, requestPieceFromPeer (l.ok r) l.coins l.pdq r s = x → x.1 = .ok () ∨ x.1 = .err .conn → (step cfg s (.select k, l)).jobs = x.2.jobs := by
    rintro ⟨o, s'⟩ h ho
    simp only at ho
    unfold step
    rw [if_neg (by rw [ha]; simp)]
    rcases ho with rfl | rfl <;> simp only [act, hr, h]
  have hno : (step cfg s (.select k, l)).jobs ≠ s.jobs := by
    rw [hjob]; intro h
    have := congrArg List.length h
    simp at this
  rcases requestPiece_cases (r := r) (l.ok r) l.coins l.pdq hl hc hm with ⟨_, h⟩ | ⟨hn, ⟨_, ho, c', h, _⟩ | ⟨n, h1, h⟩ | ⟨_, _, h⟩⟩
  · exact absurd (hstep _ h (.inl rfl)) hno
  · exact absurd ((hstep _ rfl ho).trans (by rw [h])) hno
  · have := hstep _ h (.inl rfl)
    rw [hjob] at this
    have e := List.append_cancel_left this
    injection e with e _
    injection e with _ e
    subst e
    have hlt : ∀ n ∈ wanted c m.bitfield, n < 2 := fun n hn => by
      obtain ⟨h4, _⟩ := mem_wanted.1 hn
      obtain ⟨a, h6, h7⟩ := (hh r c hc).told n h4
      exact h2 a h6 n h7
    have hjw : j ∈ wanted c m.bitfield := mem_wanted.2 ⟨hb, hbm⟩
    have hjf : mget s.inflight (j : Int) = none := by
      cases hg : mget s.inflight (j : Int) with
      | none => rfl
      | some x =>
        obtain ⟨y, h3, h4, _⟩ := (hjobs.inflight j x).1 hg
        exact absurd h4 (hj y h3)
    have hiw : i ∈ wanted c m.bitfield := (sortPieces_perm ..).mem_iff.1 (firstFree_some h1).1
    by_cases hij : i = j
    · subst hij; exact Nat.le_refl _
    have hw : wanted c m.bitfield = [0, 1] := by
      have hp := wanted_sorted c m.bitfield
      have h01 : 0 ∈ wanted c m.bitfield ∧ 1 ∈ wanted c m.bitfield := by
        have := hlt i hiw
        have := hlt j hjw
        rcases (by omega : (i = 0 ∧ j = 1) ∨ (i = 1 ∧ j = 0)) with ⟨rfl, rfl⟩ | ⟨rfl, rfl⟩
        · exact ⟨hiw, hjw⟩
        · exact ⟨hjw, hiw⟩
      generalize wanted c m.bitfield = ws at *
      match ws, hp with
      | [], _ => cases hiw
      | [a], _ =>
        have h3 := List.mem_singleton.1 h01.1
        have h4 := List.mem_singleton.1 h01.2
        omega
      | a :: b :: rest, hp =>
        have h3 : a < b := (List.pairwise_cons.1 hp).1 b (List.mem_cons_self ..)
        have h4 := hlt b (List.mem_cons_of_mem _ (List.mem_cons_self ..))
        have : a = 0 := by omega
        have : b = 1 := by omega
        match rest, hp with
        | [], _ => subst a b; rfl
        | d :: _, hp =>
          have h5 : b < d := (List.pairwise_cons.1 (List.pairwise_cons.1 hp).2).1 d (List.mem_cons_self ..)
          have h6 := hlt d (List.mem_cons_of_mem _ (List.mem_cons_of_mem _ (List.mem_cons_self ..)))
          omega
    rw [hw] at h1
    unfold sortPieces at h1
    rw [if_pos (by simp)] at h1
    have key : ∀ coins, insertionSort (available s.indexToPeers) ([0, 1].length - 1) 1 coins [0, 1] =
        if lessPos (available s.indexToPeers) (coins.headD false) 1 0 then [1, 0] else [0, 1] := by
      intro coins
      show (insertDown (available s.indexToPeers) 1 coins [0, 1]).1 = _
      unfold insertDown
      split <;> rfl
    rw [key] at h1
    have hi2 := hlt i hiw
    have hj2 := hlt j hjw
    by_cases hless : lessPos (available s.indexToPeers) (l.coins.headD false) 1 0 = true
    · rw [if_pos hless] at h1
      unfold lessPos at hless
      rcases firstFree_head h1 with e | ⟨e, hs⟩
      · subst e
        have : j = 0 := by omega
        subst this
        split at hless
        · omega
        · have := of_decide_eq_true hless; omega
      · have : j = 1 := by omega
        subst this
        rw [hjf] at hs; cases hs
    · rw [if_neg hless] at h1
      unfold lessPos at hless
      rcases firstFree_head h1 with e | ⟨e, hs⟩
      · subst e
        have : j = 1 := by omega
        subst this
        split at hless
        · omega
        · have : ¬ _ := fun h => hless (decide_eq_true h)
          omega
      · have : j = 0 := by omega
        subst this
        rw [hjf] at hs; cases hs
  · exact absurd (hstep _ h (.inl rfl)) hno

/-- Of two pieces the rarer one is taken. -/
example : (run Ex.cfg (init Ex.nothing) (Ex.fine (Ex.joins 0 1 (Ex.id' 2) ++ Ex.gets 0 (bitfieldMsg [128]) ++ Ex.joins 1 2 (Ex.id' 3) ++ Ex.gets 1 (bitfieldMsg [192]) ++ Ex.gets 1 PeerWire.unchoke ++
    [.select 0]))).jobs = [⟨1, 1, .fresh⟩] := by kernel_rfl

/-! ### What the order is -/

theorem insertDown_spec (avail : Nat → Nat) : ∀ (j : Nat) (coins : List Bool) (l : List Nat), j < l.length →
    (insertDown avail j coins l).1.length = l.length ∧ (∀ t, j < t → (insertDown avail j coins l).1[t]? = l[t]?) ∧
    (((insertDown avail j coins l).1[0]? = l[j]? ∧ ∀ t, t < j → avail (t + 1) ≤ avail t) ∨ ((insertDown avail j coins l).1[0]? = l[0]? ∧ ∃ t, t < j ∧ avail t ≤ avail (t + 1)))
  | 0, coins, l, _ => ⟨rfl, fun _ _ => rfl, .inl ⟨rfl, fun t ht => by omega⟩⟩
  | j + 1, coins, l, hj => by
    unfold insertDown
    by_cases hless : lessPos avail (coins.headD false) (j + 1) j = true
    · rw [if_pos hless, List.getElem?_eq_getElem (show j < l.length by omega), List.getElem?_eq_getElem hj]
      simp only []
      have hlen : j < ((l.set j l[j + 1]).set (j + 1) l[j]).length := by simp; omega
      obtain ⟨h1, h2, h3⟩ := insertDown_spec avail j coins.tail ((l.set j l[j + 1]).set (j + 1) l[j]) hlen
      have hle : avail (j + 1) ≤ avail j := by
        unfold lessPos at hless
        split at hless
        · omega
        · have := of_decide_eq_true hless; omega
      refine ⟨by rw [h1]; simp, fun t ht => ?_, ?_⟩
      · rw [h2 t (by omega), List.getElem?_set_ne (by omega), List.getElem?_set_ne (by omega)]
      · rcases h3 with ⟨h3, h4⟩ | ⟨h3, t, h4, h5⟩
        · refine .inl ⟨?_, fun t ht => ?_⟩
          · rw [h3, List.getElem?_set_ne (by omega), List.getElem?_set_self (by omega)]
          · by_cases e : t = j
            · subst e; exact hle
            · exact h4 t (by omega)
        · refine .inr ⟨?_, t, by omega, h5⟩
          rw [h3, List.getElem?_set_ne (by omega), List.getElem?_set_ne (by omega)]
    · rw [if_neg hless]
      refine ⟨rfl, fun _ _ => rfl, .inr ⟨rfl, j, by omega, ?_⟩⟩
      unfold lessPos at hless
      split at hless
      · omega
      · have := mt decide_eq_true hless; omega

theorem insertionSort_spec (avail : Nat → Nat) : ∀ (n i : Nat) (coins : List Bool) (l : List Nat), i + n ≤ l.length →
    (∃ d, i ≤ d ∧ d < i + n ∧ (insertionSort avail n i coins l)[0]? = l[d]? ∧ (∀ t, t < d → avail (t + 1) ≤ avail t) ∧ ∀ e, d < e → e < i + n → ∃ t, t < e ∧ avail t ≤ avail (t + 1)) ∨
    ((insertionSort avail n i coins l)[0]? = l[0]? ∧ ∀ e, i ≤ e → e < i + n → ∃ t, t < e ∧ avail t ≤ avail (t + 1))
  | 0, i, coins, l, _ => .inr ⟨rfl, fun e _ _ => by omega⟩
  | n + 1, i, coins, l, h => by
    obtain ⟨h1, h2, h3⟩ := insertDown_spec avail i coins l (by omega)
    unfold insertionSort
    generalize insertDown avail i coins l = y at *
    obtain ⟨l', coins'⟩ := y
    simp only at h1 h2 h3 ⊢
    rcases insertionSort_spec avail n (i + 1) coins' l' (by omega) with ⟨d, g1, g2, g3, g4, g5⟩ | ⟨g1, g2⟩
    · exact .inl ⟨d, by omega, by omega, by rw [g3, h2 d (by omega)], g4, fun e he he' => g5 e he (by omega)⟩
    · rcases h3 with ⟨h3, h4⟩ | ⟨h3, t, h4, h5⟩
      · exact .inl ⟨i, Nat.le_refl _, by omega, by rw [g1, h3], h4, fun e he he' => g2 e (by omega) (by omega)⟩
      · refine .inr ⟨by rw [g1, h3], fun e he he' => ?_⟩
        by_cases e1 : e = i
        · subst e1; exact ⟨t, h4, h5⟩
        · exact g2 e (by omega) (by omega)

theorem sorted_ext : ∀ {a b : List Nat}, a.Pairwise (· < ·) → b.Pairwise (· < ·) → (∀ j, j ∈ a ↔ j ∈ b) → a = b
  | [], [], _, _, _ => rfl
  | [], b :: bs, _, _, h => by have := (h b).2 (by simp); cases this
  | a :: as, [], _, _, h => by have := (h a).1 (by simp); cases this
  | a :: as, b :: bs, ha, hb, h => by
    rw [List.pairwise_cons] at ha hb
    have e : a = b := by
      rcases List.mem_cons.1 ((h a).1 (by simp)) with e | e
      · exact e
      · rcases List.mem_cons.1 ((h b).2 (by simp)) with e' | e'
        · exact e'.symm
        · have := ha.1 _ e'; have := hb.1 _ e; omega
    subst e
    refine congrArg _ (sorted_ext ha.2 hb.2 fun j => ⟨fun hj => ?_, fun hj => ?_⟩)
    · rcases List.mem_cons.1 ((h j).1 (by simp [hj])) with e | e
      · have := ha.1 _ hj; omega
      · exact e
    · rcases List.mem_cons.1 ((h j).2 (by simp [hj])) with e | e
      · have := hb.1 _ hj; omega
      · exact e

/-- C71, what is true of up to twelve pieces of which none is being downloaded: of the pieces `w` that the peer has and we do not, in increasing order, number `d` is chosen, where `d` depends
only on how many peers have the pieces 0, 1, 2, … – not on how many have the pieces `w`: they get rarer up to number `d`, and not up to any later number. Missing: that piece `d` of `w` is the
rarest of `w`, which holds only by accident. -/
theorem C71_choice_partial (w : World) (es : List (Event × Luck)) (l : Luck) (k : Nat) (r : Ref) (c : Conn) (m : Storage.Mem) (i : Nat) (ws : List Nat) (hq : Quiet es)
    (ha : (run cfg (init w) es).alive = true) (hl : (run cfg (init w) es).locked = false) (hr : (run cfg (init w) es).toRequest[k]? = some r) (hc : (run cfg (init w) es).peers[r]? = some c)
    (hm : (run cfg (init w) es).storage.mem = some m)
    (hjob : (step cfg (run cfg (init w) es) (.select k, l)).jobs = (run cfg (init w) es).jobs ++ [⟨r, i, .fresh⟩])
    (hinc : ws.Pairwise (· < ·)) (hws : ∀ j, j ∈ ws ↔ Bitfield.bit c.bitfield j = true ∧ Bitfield.bit m.bitfield j = false) (hlen : ws.length ≤ 12)
    (hfree : ∀ x ∈ (run cfg (init w) es).jobs, x.index ∉ ws) :
    ∃ d, d < ws.length ∧ ws[d]? = some i ∧ (∀ t, t < d → (holders (run cfg (init w) es) (t + 1)).length ≤ (holders (run cfg (init w) es) t).length) ∧
      ∀ e, d < e → e < ws.length → ∃ t, t < e ∧ (holders (run cfg (init w) es) t).length ≤ (holders (run cfg (init w) es) (t + 1)).length := by
  have hav := available_run (cfg := cfg) w es hq ha hl
  have hjobs := jobs_run (cfg := cfg) w es
  generalize run cfg (init w) es = s at *
  simp only [← hav]
  have hwanted : wanted c m.bitfield = ws := by
    refine sorted_ext (wanted_sorted c m.bitfield) hinc fun j => ?_
    rw [mem_wanted, hws]
  have hstep : ∀ x, requestPieceFromPeer (l.ok r) l.coins l.pdq r s = x → x.1 = .ok () ∨ x.1 = .err .conn → (step cfg s (.select k, l)).jobs = x.2.jobs := by
    rintro ⟨o, s'⟩ h ho
    simp only at ho
    unfold step
    rw [if_neg (by rw [ha]; simp)]
    rcases ho with rfl | rfl <;> simp only [act, hr, h]
  have hno : (step cfg s (.select k, l)).jobs ≠ s.jobs := by
    rw [hjob]; intro h
    have := congrArg List.length h
    simp at this
  rcases requestPiece_cases (r := r) (l.ok r) l.coins l.pdq hl hc hm with ⟨_, h⟩ | ⟨hn, ⟨_, ho, c', h, _⟩ | ⟨n, h1, h⟩ | ⟨_, _, h⟩⟩
  · exact absurd (hstep _ h (.inl rfl)) hno
  · exact absurd ((hstep _ rfl ho).trans (by rw [h])) hno
  · have := hstep _ h (.inl rfl)
    rw [hjob] at this
    have e := List.append_cancel_left this
    injection e with e _
    injection e with _ e
    subst e
    rw [hwanted] at h1
    unfold sortPieces at h1
    rw [if_pos hlen] at h1
    have hmem := (firstFree_some h1).1
    have hne : ws ≠ [] := by rintro rfl; cases hmem
    have hpos : 0 < ws.length := List.length_pos_iff.2 hne
    have hperm := insertionSort_perm (available s.indexToPeers) (ws.length - 1) 1 l.coins ws
    have hhead : (insertionSort (available s.indexToPeers) (ws.length - 1) 1 l.coins ws)[0]? = some i := by
      have hfr : ∀ j ∈ insertionSort (available s.indexToPeers) (ws.length - 1) 1 l.coins ws, mget s.inflight (j : Int) = none := by
        intro j hj
        cases hg : mget s.inflight (j : Int) with
        | none => rfl
        | some x =>
          obtain ⟨y, h3, h4, _⟩ := (hjobs.inflight j x).1 hg
          exact absurd (by rw [h4]; exact hperm.mem_iff.1 hj) (hfree y h3)
      generalize insertionSort (available s.indexToPeers) (ws.length - 1) 1 l.coins ws = zs at *
      cases zs with
      | nil => cases hmem
      | cons z zs =>
        unfold firstFree at h1
        rw [hfr z (by simp)] at h1
        exact h1
    rcases insertionSort_spec (available s.indexToPeers) (ws.length - 1) 1 l.coins ws (by omega) with ⟨d, g1, g2, g3, g4, g5⟩ | ⟨g1, g2⟩
    · exact ⟨d, by omega, by rw [← g3, hhead], g4, fun e he he' => g5 e he (by omega)⟩
    · exact ⟨0, hpos, by rw [← g1, hhead], fun t ht => by omega, fun e he he' => g2 e (by omega) (by omega)⟩
  · exact absurd (hstep _ h (.inl rfl)) hno

/-- In the story of the refutation the second peer has pieces 2 and 3 to give. Nobody has piece 0 and one peer has piece 1: that decides for the first of the two, piece 2. -/
example : ∃ d, d < 2 ∧ ([2, 3] : List Nat)[d]? = some 2 ∧
    (∀ t, t < d → (holders (run Ex.four (init Ex.fourNothing) (Ex.fine Ex.scarce)) (t + 1)).length ≤ (holders (run Ex.four (init Ex.fourNothing) (Ex.fine Ex.scarce)) t).length) ∧
    ∀ e, d < e → e < 2 → ∃ t, t < e ∧ (holders (run Ex.four (init Ex.fourNothing) (Ex.fine Ex.scarce)) t).length ≤ (holders (run Ex.four (init Ex.fourNothing) (Ex.fine Ex.scarce)) (t + 1)).length := by
  have hm : ((run Ex.four (init Ex.fourNothing) (Ex.fine Ex.scarce)).storage.mem.map fun m => m.bitfield) = some [0] := by kernel_rfl
  have hc : ((run Ex.four (init Ex.fourNothing) (Ex.fine Ex.scarce)).peers[1]?.map fun c => c.bitfield) = some [48] := by kernel_rfl
  cases hm' : (run Ex.four (init Ex.fourNothing) (Ex.fine Ex.scarce)).storage.mem with
  | none => rw [hm'] at hm; cases hm
  | some m =>
  cases hc' : (run Ex.four (init Ex.fourNothing) (Ex.fine Ex.scarce)).peers[1]? with
  | none => rw [hc'] at hc; cases hc
  | some c =>
  rw [hm'] at hm; rw [hc'] at hc
  injection hm with hm; injection hc with hc
  refine C71_choice_partial Ex.fourNothing (Ex.fine Ex.scarce) {} 0 1 c m 2 [2, 3] (by
      intro e he
      have : (Ex.fine Ex.scarce).all (fun e => match e.1 with | .stop => false | .finish _ .checksum => false | _ => true) = true := by kernel_rfl
      have := List.all_eq_true.1 this e he
      refine ⟨fun h => ?_, fun k h => ?_⟩ <;> (rw [h] at this; cases this))
    (by kernel_rfl) (by kernel_rfl) (by kernel_rfl) hc' hm' (by kernel_rfl) (by decide) ?_ (by decide)
    (by rw [show (run Ex.four (init Ex.fourNothing) (Ex.fine Ex.scarce)).jobs = [] by kernel_rfl]; intro x hx; cases hx)
  intro j
  simp only at hm hc
  rw [← mem_wanted, show wanted c m.bitfield = [2, 3] by unfold wanted; rw [hm, hc]; decide]

end Drip.P2P
