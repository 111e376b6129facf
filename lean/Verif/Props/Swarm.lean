import Verif.Props.Pex
import Verif.Props.P2PDownload
import Verif.Props.P2PSeeding
/-
C137: a client, the tracker, and the others that the tracker knows: from the announce to the download.
-/

namespace Drip.P2P
open Spec Storage

variable {cfg : Cfg}

/-! ### The addresses of an announce are queued and dialled -/

theorem add_step {s : State} {q : Tracker.Peer} {a : Bytes} (hr : remoteAddr q = .ok a) (ha : s.alive = true) (hl : s.locked = false) (hb : s.blockedPeers = []) (hk : mget s.knownPeers a = none)
    (hq : s.newPeerQueue.length < 50) (l : Luck) :
    step cfg s (.addPeer q, l) = { s with newPeerQueue := s.newPeerQueue ++ [q], knownPeers := mput s.knownPeers a q } := by
  have hb : a ∉ s.blockedPeers := by rw [hb]; exact List.not_mem_nil
  unfold step
  rw [if_neg (by rw [ha]; simp)]
  simp only [act, addPeer]
  rw [locked_apply, if_neg (by rw [hl]; simp), bind_apply, hr]
  simp only [Act.lift, Act.pure, bind_apply, get_apply, hk, hb, hq, Option.isSome_none, Bool.false_eq_true, if_false, if_true, modify_apply, hl]

theorem adds (lk : Luck) : ∀ (l : List Tracker.Peer) {s : State}, s.alive = true → s.locked = false → s.blockedPeers = [] →
    (∀ q ∈ l, ∃ a, remoteAddr q = .ok a ∧ mget s.knownPeers a = none) → l.Pairwise (fun q q' => remoteAddr q ≠ remoteAddr q') → s.newPeerQueue.length + l.length ≤ 50 →
    ∃ kp, run cfg s ((l.map Event.addPeer).map fun x => (x, lk)) = { s with newPeerQueue := s.newPeerQueue ++ l, knownPeers := kp }
  | [], s, _, _, _, _, _, _ => ⟨s.knownPeers, by simp [run]⟩
  | q :: l, s, ha, hl, hb, hk, hd, hn => by
    obtain ⟨a, hr, hka⟩ := hk q List.mem_cons_self
    rw [List.pairwise_cons] at hd
    rw [List.length_cons] at hn
    have h1 := add_step (cfg := cfg) hr ha hl hb hka (by omega) lk
    obtain ⟨kp, h2⟩ := adds lk l (s := { s with newPeerQueue := s.newPeerQueue ++ [q], knownPeers := mput s.knownPeers a q }) ha hl hb (fun q' hq' => by
      obtain ⟨a', hr', hka'⟩ := hk q' (List.mem_cons_of_mem _ hq')
      refine ⟨a', hr', ?_⟩
      rw [mget_mput, if_neg, hka']
      intro e
      exact hd.1 q' hq' (by rw [hr, hr', e])) hd.2 (by simp; omega)
    refine ⟨kp, ?_⟩
    simp only [List.map_cons, run]
    rw [h1, h2]
    simp

/-- `takeAddr` and `spawn`, again and again. -/
def fetches : Nat → List Event
  | 0 => []
  | n + 1 => .takeAddr :: .spawn :: fetches n

theorem fetches_run (lk : Luck) : ∀ (l rest : List Tracker.Peer) {s : State}, s.alive = true → s.newPeerQueue = l ++ rest → s.held = none → slots s + l.length ≤ 50 →
    run cfg s ((fetches l.length).map fun x => (x, lk)) = { s with newPeerQueue := rest, dialers := s.dialers ++ l.map fun q => (q, false) }
  | [], rest, s, _, hq, _, _ => by
    simp only [List.length_nil, fetches, List.map_nil, run, List.append_nil, List.nil_append] at hq ⊢
    rw [← hq]
  | q :: l, rest, s, ha, hq, hh, hs => by
    rw [List.length_cons] at hs
    have h1 : step cfg s (.takeAddr, lk) = { s with newPeerQueue := l ++ rest, held := some q } := by
      refine step_of (o := .ok ()) ha ?_ (.inl rfl)
      simp only [act, hh, hq, List.cons_append]
    have h2 : step cfg { s with newPeerQueue := l ++ rest, held := some q } (.spawn, lk) = { s with newPeerQueue := l ++ rest, dialers := s.dialers ++ [(q, false)] } := by
      refine step_of (o := .ok ()) ha ?_ (.inl rfl)
      simp only [act]
      rw [if_neg (by simp only [slots] at hs ⊢; omega)]
      simp only [hh]
    simp only [List.length_cons, fetches, List.map_cons, run]
    rw [h1, h2, fetches_run lk l rest (s := { s with newPeerQueue := l ++ rest, dialers := s.dialers ++ [(q, false)] }) ha rfl hh (by simp only [slots, List.length_append, List.length_singleton] at hs ⊢; omega)]
    simp

/-! ### Where a connection goes to does not change -/

theorem place_smalls {may : May} {s s' : State} (h : Smalls cfg may s s') {x : Ref} {c : Conn} (hc : s.peers[x]? = some c) :
    ∃ c', s'.peers[x]? = some c' ∧ c'.ip = c.ip ∧ c'.port = c.port := by
  induction h with
  | refl => exact ⟨c, hc, rfl, rfl⟩
  | tail _ h ih =>
    obtain ⟨c1, h1, h2, h3⟩ := ih
    have hset : ∀ (l : List Conn) (y : Ref) (d d' : Conn), l[x]? = some c1 → l[y]? = some d → d'.ip = d.ip ∧ d'.port = d.port → ∃ c', (l.set y d')[x]? = some c' ∧ c'.ip = c.ip ∧ c'.port = c.port := by
      intro l y d d' k1 k2 k3
      by_cases e : y = x
      · subst e
        rw [k1] at k2; injection k2 with k2; subst k2
        exact ⟨d', by rw [List.getElem?_set_self (List.getElem?_eq_some_iff.1 k1).1], k3.1.trans h2, k3.2.trans h3⟩
      · exact ⟨c1, by rw [List.getElem?_set_ne e]; exact k1, h2, h3⟩
    cases h with
    | new id ip port hf => exact ⟨c1, by rw [List.getElem?_append_left (List.getElem?_eq_some_iff.1 h1).1]; exact h1, h2, h3⟩
    | upd y a b k1 k2 => exact hset _ y a b h1 k1 ⟨k2.origin.1, k2.origin.2.1⟩
    | upload y a q d f h0 k1 => exact hset _ y a _ h1 k1 ⟨rfl, rfl⟩
    | join y a ms ph h0 k1 => exact hset _ y a _ h1 k1 ⟨rfl, rfl⟩
    | _ => exact ⟨c1, h1, h2, h3⟩

theorem place_run (w : World) (es : List (Event × Luck)) {x : Ref} {c : Conn} (hc : (run cfg (init w) es).peers[x]? = some c) : ∀ es' : List (Event × Luck),
    ∃ c', (run cfg (run cfg (init w) es) es').peers[x]? = some c' ∧ c'.ip = c.ip ∧ c'.port = c.port := by
  intro es'
  induction es' generalizing es c with
  | nil => exact ⟨c, hc, rfl, rfl⟩
  | cons e es' ih =>
    obtain ⟨c1, h1, h2, h3⟩ := place_smalls (step_small (cfg := cfg) e (inv_run (cfg := cfg) w es).pendOK) hc
    rw [← run_snoc] at h1
    obtain ⟨c', h4, h5, h6⟩ := ih (es ++ [e]) h1
    rw [run_snoc] at h4
    exact ⟨c', h4, h5.trans h2, h6.trans h3⟩

/-! ### The swarm -/

/-- The client begins with nothing. -/
def begun (cfg : Cfg) : State := init (Storage.run cfg.store [(.start, []), (.load, [])] ⟨⟨none, none⟩, none⟩)

theorem seeded_quiet {X : List Bytes} (lk : Luck) (hf : ∀ f ∈ lk.fates, f = .ok) : ∀ (xs : List Event) {s : State},
    (∀ x ∈ xs, (∃ q, x = .addPeer q) ∨ x = .takeAddr ∨ x = .spawn ∨ ∃ j, x = .dialCheck j) → Seeded cfg X s → Seeded cfg X (run cfg s (xs.map fun x => (x, lk)))
  | [], _, _, h => h
  | x :: xs, s, hx, h => by
    refine seeded_quiet lk hf xs (fun y hy => hx y (List.mem_cons_of_mem _ hy)) (.step (e := (x, lk)) h ⟨hf, ?_⟩)
    rcases hx x List.mem_cons_self with ⟨q, rfl⟩ | rfl | rfl | ⟨j, rfl⟩ <;> trivial

theorem mem_fetches : ∀ (n : Nat) {x : Event}, x ∈ fetches n → x = .takeAddr ∨ x = .spawn
  | n + 1, x, h => by
    simp only [fetches, List.mem_cons] at h
    rcases h with rfl | rfl | h
    · exact .inl rfl
    · exact .inr rfl
    · exact mem_fetches n h

theorem remoteAddr_endpoint (e : Endpoint) : ∃ a, remoteAddr ⟨[], e.ip, e.port⟩ = .ok a := by
  unfold remoteAddr
  simp only [Endpoint.ip, Net.parseIP_dotted]
  exact ⟨_, rfl⟩

theorem listed_endpoint (e : Endpoint) : ListedAt ⟨[], e.ip, e.port⟩ e.place := ⟨.v4, rfl⟩

theorem endpoints_of : ∀ (l : List Tracker.Peer), (∀ q ∈ l, ∃ e : Endpoint, e.port < 65536 ∧ q = ⟨[], e.ip, e.port⟩) →
    ∃ eps : List Endpoint, l = eps.map (fun e => ⟨[], e.ip, e.port⟩) ∧ ∀ e ∈ eps, e.port < 65536
  | [], _ => ⟨[], rfl, fun _ h => by cases h⟩
  | q :: l, h => by
    obtain ⟨e, h1, h2⟩ := h q List.mem_cons_self
    obtain ⟨eps, h3, h4⟩ := endpoints_of l fun q hq => h q (List.mem_cons_of_mem _ hq)
    refine ⟨e :: eps, by rw [h2, h3]; rfl, fun e' he' => ?_⟩
    rcases List.mem_cons.1 he' with rfl | he'
    · exact h1
    · exact h4 e' he'

/-- What is known of the list that the tracker gives (C83), as far as it is needed here. -/
structure Listing (l : List Tracker.Peer) (eps : List Endpoint) : Prop where
  eq : l = eps.map fun e => ⟨[], e.ip, e.port⟩
  port : ∀ e ∈ eps, e.port < 65536
  nodup : (eps.map Endpoint.place).Nodup
  addrs : l.Pairwise fun q q' => remoteAddr q ≠ remoteAddr q'

theorem listing {l : List Tracker.Peer} (h1 : l.Pairwise fun q q' => ∀ e, ListedAt q e → ¬ ListedAt q' e) (h2 : ∀ q ∈ l, ∃ e : Endpoint, e.port < 65536 ∧ q = ⟨[], e.ip, e.port⟩) :
    ∃ eps, Listing l eps := by
  obtain ⟨eps, rfl, h4⟩ := endpoints_of l h2
  refine ⟨eps, rfl, h4, ?_, ?_⟩
  · rw [List.pairwise_map] at h1
    rw [List.Nodup, List.pairwise_map]
    exact h1.imp fun {a b} h e => h a.place (listed_endpoint a) (by rw [e]; exact listed_endpoint b)
  · refine h1.imp_of_mem fun {q q'} hq hq' h e => ?_
    obtain ⟨x, -, rfl⟩ := List.mem_map.1 hq
    obtain ⟨a, ha⟩ := remoteAddr_endpoint x
    obtain ⟨ip, k1, k2, k3⟩ := remoteAddr_inj ha (e ▸ ha)
    exact h (ip, _) ⟨k1, rfl⟩ ⟨k2, k3.symm⟩

theorem Listing.queued {l : List Tracker.Peer} {eps : List Endpoint} (h : Listing l eps) (hn : l.length ≤ 50) (lk : Luck) :
    ∃ kp, run cfg (begun cfg) ((l.map Event.addPeer).map fun x => (x, lk)) = { begun cfg with newPeerQueue := l, knownPeers := kp } := by
  obtain ⟨kp, h1⟩ := adds (cfg := cfg) lk l (s := begun cfg) rfl rfl rfl (fun q hq => by
    rw [h.eq] at hq
    obtain ⟨e, -, rfl⟩ := List.mem_map.1 hq
    obtain ⟨a, ha⟩ := remoteAddr_endpoint e
    exact ⟨a, ha, rfl⟩) h.addrs (by show 0 + _ ≤ _; omega)
  exact ⟨kp, h1.trans (by rfl)⟩

/-- The address is dialled; the other side sends its handshake, its bitfield, and that it unchokes us. -/
def meets (k : Nat) (hs bf un : Rd) : List Event := [.dial k true, .check 0, .handshake 0 hs, .register 0, .receive 0 bf, .handle 0, .receive 0 un, .handle 0]

/-- A seeder that the list names can be joined, and then the torrent downloaded. -/
theorem Listing.joined {X : List Bytes} (hO : Original cfg.store X) (h20 : cfg.store.info.sha1.length = 20) (hx : X.length ≤ 2 ^ 32) (hsz : ∀ x ∈ X, x.length + 9 < 2 ^ 32)
    {l : List Tracker.Peer} {eps : List Endpoint} (h : Listing l eps) (hn : l.length ≤ 50) {e : Endpoint} (he : e ∈ eps) {id b : Bytes} {hs bf un : Rd} {lk : Luck} (hid : id.length = 20)
    (hme : id ≠ cfg.peerID) (hhs : Shakes hs cfg.store.info.sha1 id) (hbf : Says bf (.bitfield b)) (hb : AllBits X.length b) (hun : Says un .unchoke) (hok : lk.ok 0 = true)
    (hf : ∀ f ∈ lk.fates, f = .ok) :
    ∃ k wait, (∀ x ∈ wait, x = Event.takeAddr ∨ x = .spawn ∨ x = .dialCheck k) ∧
      let s := run cfg (begun cfg) ((l.map Event.addPeer ++ wait ++ meets k hs bf un).map fun x => (x, lk))
      s.peers.map (fun c => (c.ip, (c.port : Int))) = [e.place] ∧
      ∃ es, HonestRun cfg X s es ∧ ∃ m t, (run cfg s es).storage = ⟨⟨some t, none⟩, some m⟩ ∧ Storage.Holds cfg.store.info X.flatten t ∧ TorrentResult m none ∧
        ∀ i, i < cfg.store.info.pieces.length → Reported m i ∧ PieceResult m i none := by
  have hq : (⟨[], e.ip, e.port⟩ : Tracker.Peer) ∈ l := by rw [h.eq]; exact List.mem_map.2 ⟨e, he, rfl⟩
  have hport := h.port e he
  obtain ⟨l1, l2, hl⟩ := List.append_of_mem hq
  obtain ⟨kp, h1⟩ := h.queued (cfg := cfg) hn lk
  have hlen : l1.length + 1 ≤ 50 := by rw [hl] at hn; simp at hn; omega
  have h2 := fetches_run (cfg := cfg) lk (l1 ++ [⟨[], e.ip, e.port⟩]) l2 (s := { begun cfg with newPeerQueue := l, knownPeers := kp }) rfl
    (by show l = _; rw [hl]; simp) rfl (by show 0 + _ ≤ 50; simp; omega)
  have hlen2 : (l1 ++ [(⟨[], e.ip, e.port⟩ : Tracker.Peer)]).length = l1.length + 1 := by simp
  rw [hlen2] at h2
  obtain ⟨a, ha⟩ := remoteAddr_endpoint e
  let ds := (l1.map fun q => (q, false)) ++ [((⟨[], e.ip, e.port⟩ : Tracker.Peer), true)]
  let s1 : State := { begun cfg with newPeerQueue := l2, knownPeers := kp, dialers := ds }
  have h3 : step cfg { begun cfg with newPeerQueue := l2, knownPeers := kp, dialers := (l1 ++ [(⟨[], e.ip, e.port⟩ : Tracker.Peer)]).map fun q => (q, false) } (.dialCheck l1.length, lk) = s1 := by
    refine step_of (o := .ok ()) rfl ?_ (.inl rfl)
    have : ((l1 ++ [(⟨[], e.ip, e.port⟩ : Tracker.Peer)]).map fun q => (q, false))[l1.length]? = some (⟨[], e.ip, e.port⟩, false) := by simp
    simp only [act, this, ha]
    rw [if_neg (by exact Bool.false_ne_true), if_neg (by exact List.not_mem_nil)]
    simp [s1, ds]
  have h4 : run cfg (begun cfg) ((l.map Event.addPeer ++ (fetches (l1.length + 1) ++ [Event.dialCheck l1.length])).map fun x => (x, lk)) = s1 := by
    rw [List.map_append, run_append, h1, List.map_append, run_append, h2]
    exact h3
  have hwait : ∀ x ∈ fetches (l1.length + 1) ++ [Event.dialCheck l1.length], x = Event.takeAddr ∨ x = .spawn ∨ x = .dialCheck l1.length := by
    intro x hx
    rcases List.mem_append.1 hx with hx | hx
    · rcases mem_fetches _ hx with h | h
      · exact .inl h
      · exact .inr (.inl h)
    · exact .inr (.inr (List.mem_singleton.1 hx))
  refine ⟨l1.length, fetches (l1.length + 1) ++ [.dialCheck l1.length], hwait, ?_⟩
  have hS1 : Seeded cfg X s1 := by
    rw [← h4]
    refine seeded_quiet lk hf _ (fun x hx => ?_) .start
    rcases List.mem_append.1 hx with hx | hx
    · obtain ⟨q, -, rfl⟩ := List.mem_map.1 hx
      exact .inl ⟨q, rfl⟩
    · rcases hwait x hx with h | h | h
      · exact .inr (.inl h)
      · exact .inr (.inr (.inl h))
      · exact .inr (.inr (.inr ⟨_, h⟩))
  have hds : ds[l1.length]? = some (⟨[], e.ip, e.port⟩, true) := by simp [ds]
  have hJ : Joins cfg X s1 (run cfg s1 ((meets l1.length hs bf un).map fun x => (x, lk))) :=
    ⟨mapped e.a e.b e.c e.d, id, b, e.port, .dial l1.length true, hs, bf, un, lk, .inr ⟨l1.length, _, rfl, hds, ⟨_, _, _, _, rfl, rfl⟩, rfl, hport, .inl (by simp)⟩, by show 0 < 50; omega, hid, hme,
      fun c hc => (by cases hc), hhs, hbf, hb, hun, hok, hf, rfl⟩
  rw [List.map_append, run_append, h4]
  obtain ⟨⟨fs, m, hS⟩, hlk⟩ := seeded_seeding hO h20 hS1
  obtain ⟨-, -, -, -, -, c, h5, -⟩ := join_seeding hO h20 hS hlk hJ
  have h5 : _ = [c] := h5
  refine ⟨?_, C109_completes hO h20 hx hsz (.join hS1 hJ) (by rw [h5]; simp)⟩
  have h6 : step cfg s1 (.dial l1.length true, lk) = { s1 with dialers := ds.eraseIdx l1.length, peers := [newConn cfg (copyID []) (mapped e.a e.b e.c e.d) e.port] } := by
    refine step_of (o := .ok ()) rfl ?_ (.inl rfl)
    have hd : dialable ⟨[], e.ip, e.port⟩ = some (mapped e.a e.b e.c e.d, e.port) := dialable_dotted rfl rfl hport
    have hds : s1.dialers[l1.length]? = some (⟨[], e.ip, e.port⟩, true) := hds
    simp only [act, hds, hd]
    rfl
  have h7 := place_run (cfg := cfg) _ ((l.map Event.addPeer ++ (fetches (l1.length + 1) ++ [Event.dialCheck l1.length]) ++ [Event.dial l1.length true]).map fun x => (x, lk)) (x := 0)
    (c := newConn cfg (copyID []) (mapped e.a e.b e.c e.d) e.port) (by
      rw [List.map_append, run_append]
      show (run cfg (run cfg (begun cfg) _) _).peers[0]? = _
      rw [h4]
      show (step cfg s1 _).peers[0]? = _
      rw [h6]
      rfl) ([Event.check 0, .handshake 0 hs, .register 0, .receive 0 bf, .handle 0, .receive 0 un, .handle 0].map fun x => (x, lk))
  rw [List.map_append, run_append] at h7
  obtain ⟨c', k1, k2, k3⟩ := h7
  have k1 : (run cfg (run cfg (run cfg (begun cfg) _) _) _).peers[0]? = _ := k1
  rw [h4] at k1
  have k1 : (run cfg s1 ((meets l1.length hs bf un).map fun x => (x, lk))).peers[0]? = some c' := k1
  rw [h5] at k1
  injection k1 with k1
  subst k1
  show List.map _ (run cfg s1 _).peers = _
  rw [h5]
  show [(c.ip, (c.port : Int))] = _
  rw [k2, k3]
  rfl

/-- `dialCheck` and `dial`, again and again. -/
def phones : Nat → List Event
  | 0 => []
  | n + 1 => .dialCheck 0 :: .dial 0 true :: phones n

theorem phones_run (lk : Luck) : ∀ (eps : List Endpoint) {s : State}, (∀ e ∈ eps, e.port < 65536) → s.alive = true → s.locked = false → s.blockedPeers = [] →
    s.dialers = (eps.map fun e => ((⟨[], e.ip, e.port⟩ : Tracker.Peer), false)) →
    run cfg s ((phones eps.length).map fun x => (x, lk)) = { s with dialers := [], peers := s.peers ++ eps.map fun e => newConn cfg (copyID []) (mapped e.a e.b e.c e.d) e.port }
  | [], s, _, _, _, _, hd => by
    simp only [List.length_nil, phones, List.map_nil, run, List.append_nil] at hd ⊢
    rw [← hd]
  | e :: eps, s, hp, ha, hl, hb, hd => by
    obtain ⟨a, hr⟩ := remoteAddr_endpoint e
    have hdl : dialable ⟨[], e.ip, e.port⟩ = some (mapped e.a e.b e.c e.d, e.port) := dialable_dotted rfl rfl (hp e List.mem_cons_self)
    have h1 : step cfg s (.dialCheck 0, lk) = { s with dialers := (⟨[], e.ip, e.port⟩, true) :: eps.map fun e => ((⟨[], e.ip, e.port⟩ : Tracker.Peer), false) } := by
      refine step_of (o := .ok ()) ha ?_ (.inl rfl)
      have : s.dialers[0]? = some (⟨[], e.ip, e.port⟩, false) := by rw [hd]; rfl
      simp only [act, this, hr, hl]
      rw [if_neg (by simp), if_neg (by rw [hb]; exact List.not_mem_nil), hd]
      rfl
    have h2 : step cfg { s with dialers := (⟨[], e.ip, e.port⟩, true) :: eps.map fun e => ((⟨[], e.ip, e.port⟩ : Tracker.Peer), false) } (.dial 0 true, lk) =
        { s with dialers := eps.map fun e => ((⟨[], e.ip, e.port⟩ : Tracker.Peer), false), peers := s.peers ++ [newConn cfg (copyID []) (mapped e.a e.b e.c e.d) e.port] } := by
      refine step_of (o := .ok ()) ha ?_ (.inl rfl)
      simp only [act, List.getElem?_cons_zero, hdl]
      rfl
    simp only [List.length_cons, phones, List.map_cons, run]
    rw [h1, h2, phones_run lk eps (s := { s with dialers := eps.map fun e => ((⟨[], e.ip, e.port⟩ : Tracker.Peer), false), peers := s.peers ++ [newConn cfg (copyID []) (mapped e.a e.b e.c e.d) e.port] })
      (fun x hx => hp x (List.mem_cons_of_mem _ hx)) ha hl hb rfl]
    simp

theorem Listing.called {l : List Tracker.Peer} {eps : List Endpoint} (h : Listing l eps) (hn : l.length ≤ 50) (lk : Luck) :
    (run cfg (begun cfg) ((l.map Event.addPeer ++ (fetches l.length ++ phones l.length)).map fun x => (x, lk))).peers.map (fun c => (c.ip, (c.port : Int))) = eps.map Endpoint.place := by
  obtain ⟨kp, h1⟩ := h.queued (cfg := cfg) hn lk
  have h2 := fetches_run (cfg := cfg) lk l [] (s := { begun cfg with newPeerQueue := l, knownPeers := kp }) rfl (by simp) rfl (by show 0 + _ ≤ 50; omega)
  have h3 := phones_run (cfg := cfg) lk eps (s := { begun cfg with newPeerQueue := [], knownPeers := kp, dialers := l.map fun q => (q, false) }) h.port rfl rfl rfl (by
    show l.map _ = _; rw [h.eq, List.map_map]; rfl)
  have hlen : eps.length = l.length := by rw [h.eq, List.length_map]
  rw [hlen] at h3
  rw [List.map_append, run_append, h1, List.map_append, run_append, h2]
  show List.map _ (run cfg { begun cfg with newPeerQueue := [], knownPeers := kp, dialers := l.map fun q => (q, false) } _).peers = _
  rw [h3]
  show List.map _ ([] ++ _) = _
  rw [List.nil_append, List.map_map]
  rfl

end Drip.P2P

namespace Drip.Swarm
open Spec Tracker Multi Pex Storage P2P

variable {iter : Table → Table} {errText : Bytes → Bytes} {cfg : P2P.Cfg} {X : List Bytes}

/-- **C137.** A client of this program that starts with nothing and announces to a tracker of this program, whatever has happened there before (the swarm is an IPv4 swarm, with at
most 50 others that are alive): with the addresses that it is given, its goroutines can go on so that it is connected with all the others that are alive, each once, and with nobody
else; -/
theorem C137_everyone (hi : ∀ l, (iter l).Perm l) (infos : List Metainfo.Info) (h : List (Int × Spec.Event)) (p : Past) (hp : PastOf (hashes infos) h p) (now : Int)
    (hc : Clock now (h.map (·.1))) (hlen : h.length < 2 ^ 45) (v : View) (event url remote : Bytes) (me : Endpoint)
    (hv : (v.request event).WF) (hash : v.info.sha1 ∈ hashes infos) (hhost : HostOf remote me.ip) (hport : v.port = me.port) (hme : me.port < 65536) (hme0 : me.port ≠ 0)
    (hb : ∀ b t, (t, some b) ∈ p → b.hash = v.info.sha1 → Live now p v.info.sha1 b.place ∨ b.place = me.place →
      ∃ e : Endpoint, e.port < 65536 ∧ b.text = e.ip ∧ b.port = e.port)
    (hfew : ∀ L : List Place, L.Nodup → (∀ e ∈ L, Live now p v.info.sha1 e ∧ e ≠ me.place) → L.length ≤ 50) (lk : Luck) :
    ∃ res l, (trackerGet (network iter errText now remote) v event (after iter errText infos h) url).1 = .ok res ∧ peerList (some res) = .ok l ∧
      ∃ es, let s := P2P.run cfg (begun cfg) ((l.map P2P.Event.addPeer ++ es).map fun x => (x, lk))
        (∀ e, e ∈ s.peers.map (fun c => (c.ip, (c.port : Int))) ↔ Live now p v.info.sha1 e ∧ e ≠ me.place) ∧ (s.peers.map fun c => (c.ip, (c.port : Int))).Nodup := by
  obtain ⟨res, l, h1, -, h2, h3, h4, h5, -⟩ := C83_client_tracker (errText := errText) hi infos h p hp now hc hlen v event url remote me hv hash hhost hport hme hme0 hb
  obtain ⟨eps, hL⟩ := listing h4 h5
  have hiff : ∀ e, e ∈ eps.map Endpoint.place ↔ Live now p v.info.sha1 e ∧ e ≠ me.place := by
    intro e
    rw [← h3 e, hL.eq]
    constructor
    · intro he
      obtain ⟨x, hx, rfl⟩ := List.mem_map.1 he
      exact ⟨_, List.mem_map.2 ⟨x, hx, rfl⟩, listed_endpoint x⟩
    · rintro ⟨q, hq, hat⟩
      obtain ⟨x, hx, rfl⟩ := List.mem_map.1 hq
      rw [at_unique hat (listed_endpoint x)]
      exact List.mem_map.2 ⟨x, hx, rfl⟩
  have hn : l.length ≤ 50 := by
    have := hfew _ hL.nodup fun e he => (hiff e).1 he
    rw [hL.eq]
    simpa using this
  refine ⟨res, l, h1, h2, fetches l.length ++ phones l.length, ?_⟩
  simp only
  rw [hL.called hn lk]
  exact ⟨hiff, hL.nodup⟩

/-- **C137**, and with a seeder among them: wherever it is, the client can be connected with it alone, by the address that it was given, and then the whole torrent can be downloaded. (`id`, `hs`, `bf`,
`un`: the id of the seeder, and what it sends first, in whatever portions.) -/
theorem C137_completes (hi : ∀ l, (iter l).Perm l) (infos : List Metainfo.Info) (h : List (Int × Spec.Event)) (p : Past) (hp : PastOf (hashes infos) h p) (now : Int)
    (hc : Clock now (h.map (·.1))) (hlen : h.length < 2 ^ 45) (v : View) (event url remote : Bytes) (me : Endpoint)
    (hv : (v.request event).WF) (hash : v.info.sha1 ∈ hashes infos) (hhost : HostOf remote me.ip) (hport : v.port = me.port) (hme : me.port < 65536) (hme0 : me.port ≠ 0)
    (hb : ∀ b t, (t, some b) ∈ p → b.hash = v.info.sha1 → Live now p v.info.sha1 b.place ∨ b.place = me.place →
      ∃ e : Endpoint, e.port < 65536 ∧ b.text = e.ip ∧ b.port = e.port)
    (hfew : ∀ L : List Place, L.Nodup → (∀ e ∈ L, Live now p v.info.sha1 e ∧ e ≠ me.place) → L.length ≤ 50)
    (hinfo : v.info = cfg.store.info) (hO : Original cfg.store X) (h20 : cfg.store.info.sha1.length = 20) (hx : X.length ≤ 2 ^ 32) (hsz : ∀ x ∈ X, x.length + 9 < 2 ^ 32) :
    ∃ res l, (trackerGet (network iter errText now remote) v event (after iter errText infos h) url).1 = .ok res ∧ peerList (some res) = .ok l ∧
      ∀ (e : Place) (id b : Bytes) (hs bf un : Rd) (lk : Luck), Live now p cfg.store.info.sha1 e → e ≠ me.place → id.length = 20 → id ≠ cfg.peerID → Shakes hs cfg.store.info.sha1 id →
        Says bf (.bitfield b) → AllBits X.length b → Says un .unchoke → lk.ok 0 = true → (∀ f ∈ lk.fates, f = .ok) →
        ∃ k wait, (∀ x ∈ wait, x = P2P.Event.takeAddr ∨ x = .spawn ∨ x = .dialCheck k) ∧
          let s := P2P.run cfg (begun cfg) ((l.map P2P.Event.addPeer ++ wait ++ meets k hs bf un).map fun x => (x, lk))
          s.peers.map (fun c => (c.ip, (c.port : Int))) = [e] ∧
          ∃ es, HonestRun cfg X s es ∧ ∃ m t, (P2P.run cfg s es).storage = ⟨⟨some t, none⟩, some m⟩ ∧ Storage.Holds cfg.store.info X.flatten t ∧ TorrentResult m none ∧
            ∀ i, i < cfg.store.info.pieces.length → Reported m i ∧ PieceResult m i none := by
  obtain ⟨res, l, h1, -, h2, h3, h4, h5, -⟩ := C83_client_tracker (errText := errText) hi infos h p hp now hc hlen v event url remote me hv hash hhost hport hme hme0 hb
  obtain ⟨eps, hL⟩ := listing h4 h5
  have hn : l.length ≤ 50 := by
    have := hfew _ hL.nodup fun e he => by
      obtain ⟨x, hx, rfl⟩ := List.mem_map.1 he
      exact (h3 _).1 ⟨_, by rw [hL.eq]; exact List.mem_map.2 ⟨x, hx, rfl⟩, listed_endpoint x⟩
    rw [hL.eq]
    simpa using this
  refine ⟨res, l, h1, h2, ?_⟩
  intro e id b hs bf un lk hlive hne hid hid' hhs hbf hbits hun hok hf
  obtain ⟨q, hq, hat⟩ := (h3 e).2 ⟨by rw [hinfo]; exact hlive, hne⟩
  rw [hL.eq] at hq
  obtain ⟨x, hxe, rfl⟩ := List.mem_map.1 hq
  rw [at_unique hat (listed_endpoint x)]
  exact hL.joined hO h20 hx hsz hn hxe hid hid' hhs hbf hbits hun hok hf

/-- What a client says at an address: its port is `port`. -/
def Ex.at_ (port : Int) : View := ⟨P2P.Ex.cfg.store.info, P2P.Ex.cfg.peerID, port, 0, 0, 0⟩

/-- Two others have announced; one of them has said that it stops. -/
def Ex.past : List (Int × Spec.Event) :=
  [(3, .request b!"10.0.0.2:7" ((Ex.at_ 5001).request b!"stopped").encode), (2, .request b!"10.0.0.1:5" ((Ex.at_ 5000).request b!"started").encode),
    (1, .request b!"10.0.0.2:6" ((Ex.at_ 5001).request b!"started").encode)]

/-- A third one announces, learns of the one that is alive, dials it, and downloads the torrent. -/
example : (trackerGet (network (fun t => t) Pex.Ex.err 4 b!"10.0.0.3:9") (Ex.at_ 5002) b!"started" (after (fun t => t) Pex.Ex.err [P2P.Ex.cfg.store.info] Ex.past) b!"http://x/announce").1 =
      .ok { interval := 30, peers := some ⟨true, some [⟨[], b!"10.0.0.1", 5000⟩]⟩ } ∧
    (P2P.run P2P.Ex.cfg (begun P2P.Ex.cfg) (P2P.Ex.fine ([.addPeer ⟨[], b!"10.0.0.1", 5000⟩, .takeAddr, .spawn, .dialCheck 0] ++
      meets 0 (P2P.Ex.shake (P2P.Ex.id' 2)) (P2P.Ex.says (PeerWire.bitfieldMsg [192])) (P2P.Ex.says PeerWire.unchoke) ++
      [.select 0, .begin 0, .request 0 ⟨0, 0, 4⟩, .receive 0 (P2P.Ex.says (PeerWire.pieceMsg 0 0 [1, 2, 3, 4])), .handle 0, .finish 0 .complete, .hand 0,
        .select 0, .begin 1, .request 1 ⟨1, 0, 2⟩, .receive 0 (P2P.Ex.says (PeerWire.pieceMsg 1 0 [5, 6])), .handle 0]))).storage.fs = ⟨some (.file [1, 2, 3, 4, 5, 6]), none⟩ :=
  ⟨by kernel_rfl, by kernel_rfl⟩

end Drip.Swarm
