import Verif.Lemmas.P2PSeedStep
import Verif.Lemmas.P2PDial
/-
A download from seeders begins; another seeder joins.
-/

namespace Drip.P2P
open PeerWire Metainfo Spec
open Storage (Fate World Mem FS Op runOp putBlock resetPiece SInv Exact Original Done blockOf)

variable {cfg : Cfg} {X : List Bytes} {s : State} {fs : FS} {m : Mem}

theorem start_seeding (hO : Original cfg.store X) :
    Seeding cfg X (init (Storage.run cfg.store [(.start, []), (.load, [])] ⟨⟨none, none⟩, none⟩)) ⟨none, none⟩ (Storage.newMem cfg.store.info) := by
  have he : Storage.run cfg.store [(.start, []), (.load, [])] ⟨⟨none, none⟩, none⟩ = ⟨⟨none, none⟩, some (Storage.newMem cfg.store.info)⟩ := by
    have hn := hO.name.1
    simp only [Storage.run, Storage.step, Storage.runOp, Storage.load, Storage.statTarget, Storage.readDir, bind, Storage.Op.bind, Storage.Op.call, hn]
    rfl
  rw [he]
  have hi := Storage.empty_inv (cfg := cfg.store)
  exact {
    alive := rfl, requesting := rfl, calm := rfl, stopped := rfl, storage := rfl
    inv := ⟨hi.1, Storage.newMem_inv _⟩
    exact_ := Storage.newMem_exact hO
    conns := fun r c h => by cases h
    toRequest := fun r h => by cases h
    waiting := fun r h => by cases h
    queued := fun r h => by cases h
    active := fun r h => by cases h
    activeLen := Nat.le_refl _
    idips := fun r h => by cases h
    ids := fun r h => by cases h
    jobs := fun r h => by cases h
    inflight := fun r h => by cases h
    distinct := by simp [init]
    busy := fun r h => by cases h }

theorem get_last {α : Type} (l : List α) (a : α) : (l ++ [a])[l.length]? = some a := by simp

theorem modify_last {α : Type} (l : List α) (a : α) (f : α → α) : (l ++ [a]).modify l.length f = l ++ [f a] := by
  apply List.ext_getElem?
  intro i
  rw [List.getElem?_modify]
  by_cases h : l.length = i
  · subst h; simp
  · by_cases h2 : i < l.length
    · rw [List.getElem?_append_left h2, List.getElem?_append_left h2]; simp [h]
    · rw [List.getElem?_append_right (by omega), List.getElem?_append_right (by omega)]
      rw [List.getElem?_eq_none (by simp; omega), List.getElem?_eq_none (by simp; omega)]
      rfl

/-- The state with one more connection. -/
def grown (s : State) (c : Conn) (ds : List (Tracker.Peer × Bool)) (ix : List (Int × List Ref)) (ka : List (Bytes × List Bytes)) (ki : List (Bytes × Bytes))
    (ap : List (Bytes × Ref)) : State :=
  { s with peers := s.peers ++ [c], dialers := ds, indexToPeers := ix, knownAddrs := ka, knownIDIPs := ki, activePeers := ap }

theorem grown_get (s : State) (c : Conn) (ds : List (Tracker.Peer × Bool)) (ix : List (Int × List Ref)) (ka : List (Bytes × List Bytes)) (ki : List (Bytes × Bytes))
    (ap : List (Bytes × Ref)) : (grown s c ds ix ka ki ap).peers[s.peers.length]? = some c := by simp [grown]

theorem grown_modify (s : State) (c : Conn) (ds : List (Tracker.Peer × Bool)) (ix : List (Int × List Ref)) (ka : List (Bytes × List Bytes)) (ki : List (Bytes × Bytes))
    (ap : List (Bytes × Ref)) (f : Conn → Conn) :
    ({ grown s c ds ix ka ki ap with peers := (grown s c ds ix ka ki ap).peers.modify s.peers.length f } : State) = grown s (f c) ds ix ka ki ap := by
  simp [grown, modify_last]

theorem grown_set (s : State) (c : Conn) (ds : List (Tracker.Peer × Bool)) (ix : List (Int × List Ref)) (ka : List (Bytes × List Bytes)) (ki : List (Bytes × Bytes))
    (ap : List (Bytes × Ref)) (f : Conn → Conn) :
    setConn s.peers.length f (grown s c ds ix ka ki ap) = (.ok (), grown s (f c) ds ix ka ki ap) := by
  rw [setConn_apply, grown_modify]

theorem grown_next (s : State) (c : Conn) (ds : List (Tracker.Peer × Bool)) (ix : List (Int × List Ref)) (ka : List (Bytes × List Bytes)) (ki : List (Bytes × Bytes))
    (ap : List (Bytes × Ref)) (p q : Phase) :
    next s.peers.length p q (.ok (), grown s c ds ix ka ki ap) = (.ok (), grown s { c with phase := p } ds ix ka ki ap) := by
  unfold next
  simp only
  rw [grown_modify]

variable {ds : List (Tracker.Peer × Bool)} {ix : List (Int × List Ref)} {ka : List (Bytes × List Bytes)} {ki : List (Bytes × Bytes)} {ap : List (Bytes × Ref)}

theorem arrive_step (h : Seeding cfg X s fs m) {ip id : Bytes} {port : Nat} {e : Event} (he : Arrives s ip port id e) (l : Luck) :
    ∃ id0 ds, (id0 = zeroID ∨ id0 = id) ∧ step cfg s (e, l) = grown s (newConn cfg id0 ip port) ds s.indexToPeers s.knownAddrs s.knownIDIPs s.activePeers := by
  rcases he with ⟨rfl, hs⟩ | ⟨k, tp, rfl, h1, ⟨a, b, c, d, h2, rfl⟩, h4, h5, h3⟩
  · refine ⟨zeroID, s.dialers, .inl rfl, ?_⟩
    refine step_of (o := .ok ()) h.alive ?_ (.inl rfl)
    simp only [act]
    rw [if_neg (by rw [h.stopped]; simp; omega)]
    rfl
  · refine ⟨copyID tp.id, s.dialers.eraseIdx k, by rw [copyID_eq]; exact h3, ?_⟩
    refine step_of (o := .ok ()) h.alive ?_ (.inl rfl)
    simp only [act, h1, dialable_dotted h2 h4 h5]
    rfl

theorem check_step (h : Seeding cfg X s fs m) (hl : s.locked = false) {c : Conn} (hph : c.phase = .fresh) (hlen : s.peers.length < 50) (hne : ∀ c' ∈ s.peers, c'.addr ≠ c.addr) (l : Luck) :
    step cfg (grown s c ds ix ka s.knownIDIPs s.activePeers) (.check s.peers.length, l) = grown s { c with phase := .checked } ds ix ka s.knownIDIPs s.activePeers := by
  have hget := grown_get s c ds ix ka s.knownIDIPs s.activePeers
  have hki : mget s.knownIDIPs c.addr = none := by
    rw [mget_eq_none]
    intro v hv
    obtain ⟨c', hc', hh⟩ := h.idips _ hv
    exact hne c' hc' hh
  have hal : s.activePeers.length < 50 := by have := h.activeLen; omega
  refine step_of (o := .ok ()) h.alive ?_ (.inl rfl)
  have hat : at_ (grown s c ds ix ka s.knownIDIPs s.activePeers) s.peers.length .fresh = true := by simp [at_, hget, hph]
  have hcc : connectCheck s.peers.length (grown s c ds ix ka s.knownIDIPs s.activePeers) = (.ok (), grown s c ds ix ka s.knownIDIPs s.activePeers) := by
    unfold connectCheck
    rw [bind_apply]
    unfold Act.lock
    rw [if_neg (by show ¬ s.locked = true; rw [hl]; decide)]
    simp only
    rw [bind_apply]
    simp only [get_apply]
    rw [bind_apply, getConn_some (s := { grown s c ds ix ka s.knownIDIPs s.activePeers with locked := true }) (c := c) hget]
    simp only
    rw [if_neg (by show ¬ (s.activePeers.length ≥ 50); omega)]
    rw [show (grown s c ds ix ka s.knownIDIPs s.activePeers).knownIDIPs = s.knownIDIPs from rfl, hki]
    simp only [Act.unlock, modify_apply, grown, hl]
  simp only [act, if_pos hat, hcc]
  rw [grown_next]

theorem shake_step (h : Seeding cfg X s fs m) {c : Conn} (hph : c.phase = .checked) (hcl : c.closed = false) {rd : Rd} {id : Bytes} (hid : id.length = 20) (hcid : c.id = zeroID ∨ c.id = id)
    (hs : cfg.store.info.sha1.length = 20) (hne : id ≠ cfg.peerID) (hrd : Shakes rd cfg.store.info.sha1 id) {l : Luck} (hok : l.ok s.peers.length = true) :
    step cfg (grown s c ds ix ka ki ap) (.handshake s.peers.length rd, l) =
      grown s { c with phase := .shaken, id := id, shook := some ⟨cfg.store.info.sha1, id⟩ } ds ix ka ki ap := by
  have hget := grown_get s c ds ix ka ki ap
  refine step_of (o := .ok ()) h.alive ?_ (.inl rfl)
  have hat : at_ (grown s c ds ix ka ki ap) s.peers.length .checked = true := by simp [at_, hget, hph]
  obtain ⟨hch, rest, hr⟩ := hrd
  have hwf : (⟨cfg.store.info.sha1, id⟩ : Handshake).WF := ⟨hs, hid⟩
  obtain ⟨r', hd, _⟩ := C08_roundtrip ⟨cfg.store.info.sha1, id⟩ hwf rest rd hch (by
    rw [(C08_layout _ hwf).1, hr]
    rfl)
  have hh : handshake (l.ok s.peers.length) cfg s.peers.length rd (grown s c ds ix ka ki ap) =
      (.ok (), grown s { c with id := id, shook := some ⟨cfg.store.info.sha1, id⟩ } ds ix ka ki ap) := by
    unfold handshake
    rw [bind_apply, getConn_some (c := c) hget]
    simp only
    rw [if_neg (by rw [hok, hcl]; decide), bind_apply, hd]
    simp only [Act.lift, Act.pure]
    rw [bind_apply, grown_set]
    simp only
    rw [if_neg (by simp), if_neg (by rcases hcid with h | h <;> simp [h]), bind_apply, grown_set]
    simp only
    rw [if_neg hne]
    rfl
  simp only [act, if_pos hat, hh]
  rw [grown_next]

theorem idip_inj {c c' : Conn} (h1 : c.id.length = 20) (h2 : c'.id.length = 20) (h : c.idip = c'.idip) : c.id = c'.id := by
  unfold Conn.idip at h
  simp only [List.append_assoc] at h
  exact (List.append_inj h (by rw [h1, h2])).1

theorem register_step (h : Seeding cfg X s fs m) (hl : s.locked = false) {c : Conn} (hph : c.phase = .shaken) (hcl : c.closed = false) (hid : c.id.length = 20) (hlen : s.peers.length < 50)
    (hne : ∀ c' ∈ s.peers, c'.id ≠ c.id) {l : Luck} (hok : l.ok s.peers.length = true) :
    ∃ ka', step cfg (grown s c ds ix ka ki s.activePeers) (.register s.peers.length, l) =
      grown s { c with phase := .serving none, registered := true, sent := c.sent ++ [bitfieldMsg m.bitfield] } ds ix ka' (mput ki c.addr c.idip) (mput s.activePeers c.idip s.peers.length) := by
  have hget := grown_get s c ds ix ka ki s.activePeers
  have hac : mget s.activePeers c.idip = none := by
    rw [mget_eq_none]
    intro v hv
    obtain ⟨_, c', hc', hh⟩ := h.active _ hv
    exact hne c' hc' (idip_inj (h.ids c' hc') hid hh)
  have hal : s.activePeers.length < 50 := by have := h.activeLen; omega
  refine ⟨mput ka c.idip (sadd ((mget ka c.idip).getD []) c.addr), ?_⟩
  refine step_of (o := .ok ()) h.alive ?_ (.inl rfl)
  have hat : at_ (grown s c ds ix ka ki s.activePeers) s.peers.length .shaken = true := by simp [at_, hget, hph]
  have hst : s.storage.mem = some m := by rw [h.storage]
  have hr : connectRegister (l.ok s.peers.length) s.peers.length (grown s c ds ix ka ki s.activePeers) =
      (.ok (), grown s { c with registered := true, sent := c.sent ++ [bitfieldMsg m.bitfield] } ds ix (mput ka c.idip (sadd ((mget ka c.idip).getD []) c.addr)) (mput ki c.addr c.idip)
        (mput s.activePeers c.idip s.peers.length)) := by
    unfold connectRegister Act.locked
    show Act.bind Act.lock _ _ = _
    unfold Act.bind Act.lock
    rw [if_neg (by show ¬ s.locked = true; rw [hl]; decide)]
    simp only
    rw [bind_apply]
    simp only [get_apply]
    rw [bind_apply, getConn_some (s := { grown s c ds ix ka ki s.activePeers with locked := true }) (c := c) hget]
    simp only
    rw [if_neg (by show ¬ (s.activePeers.length ≥ 50); omega), bind_apply]
    simp only [modify_apply]
    rw [show (grown s c ds ix ka ki s.activePeers).activePeers = s.activePeers from rfl, hac]
    rw [if_neg (by simp), bind_apply]
    simp only [modify_apply]
    rw [bind_apply, setConn_apply]
    simp only [grown, modify_last]
    rw [bind_apply]
    simp only [torrentBitfield, hst]
    unfold send
    rw [bind_apply, getConn_some (c := { c with registered := true }) (by simp)]
    simp only
    rw [if_neg (by rintro ⟨h, _⟩; exact absurd h (show BITFIELD ≠ REQUEST by decide)), if_pos (by rw [hok, hcl]; decide), setConn_apply]
    simp only [modify_last, hl]
  simp only [act, if_pos hat, hr]
  rw [grown_next]

theorem receive_step (h : Seeding cfg X s fs m) {c : Conn} (hph : c.phase = .serving none) (hcl : c.closed = false) {rd : Rd} {w : Wire} (hrd : Says rd w) (l : Luck) :
    step cfg (grown s c ds ix ka ki ap) (.receive s.peers.length rd, l) = grown s { c with phase := .serving (some (ofWire w)), received := c.received ++ [ofWire w] } ds ix ka ki ap := by
  obtain ⟨r', hd⟩ := says_decode hrd
  refine step_of (o := .ok ()) h.alive ?_ (.inl rfl)
  simp only [act, grown_get]
  rw [if_pos ⟨hph, hcl⟩, hd]
  simp only
  rw [grown_modify]

/-- A HAVE of a seeder that chokes us. -/
theorem have_apply (h : Seeding cfg X s fs m) (hl : s.locked = false) {c : Conn} (hcl : c.closed = false) (hch : c.remoteChoked = true) {i : Nat} (hi : i < 8 * c.bitfield.length)
    (him : i < 8 * m.bitfield.length) :
    ∃ c' ix', handleHave true s.peers.length i (grown s c ds ix ka ki ap) = (.ok (), grown s c' ds ix' ka ki ap) ∧ c'.bitfield.length = c.bitfield.length ∧
      (∀ j, Bitfield.bit c'.bitfield j = (Bitfield.bit c.bitfield j || decide (j = i))) ∧ c'.closed = false ∧ c'.remoteChoked = true ∧ c'.id = c.id ∧ c'.ip = c.ip ∧ c'.port = c.port ∧
      c'.phase = c.phase ∧ c'.received = c.received ∧ ∀ x ∈ c'.sent, x ∈ c.sent ∨ x = PeerWire.interested := by
  have hst : s.storage.mem = some m := by rw [h.storage]
  obtain ⟨b', h1, h2, h3⟩ := Bitfield.add_nat c.bitfield i hi
  unfold handleHave
  rw [bind_apply, getConn_some (grown_get ..)]
  simp only
  rw [bind_apply, h1]
  simp only [Act.lift, Act.pure]
  rw [bind_apply, grown_set]
  simp only
  rw [bind_apply]
  have hrec : recordIndex (i : Int) s.peers.length (grown s { c with bitfield := b' } ds ix ka ki ap) =
      (.ok (), grown s { c with bitfield := b' } ds (mput ix i (sadd ((mget ix i).getD []) s.peers.length)) ka ki ap) := by
    unfold recordIndex Act.locked Act.bind Act.lock
    simp only [if_neg (show ¬ (grown s { c with bitfield := b' } ds ix ka ki ap).locked = true by show ¬ s.locked = true; rw [hl]; decide)]
    simp only [modify_apply, grown, hl]
  rw [hrec]
  simp only
  generalize mput ix (i : Int) (sadd ((mget ix i).getD []) s.peers.length) = ix'
  rw [bind_apply]
  have htb : torrentBitfield (grown s { c with bitfield := b' } ds ix' ka ki ap) = (.ok m.bitfield, grown s { c with bitfield := b' } ds ix' ka ki ap) := by
    unfold torrentBitfield
    rw [show (grown s { c with bitfield := b' } ds ix' ka ki ap).storage.mem = some m from hst]
  rw [htb]
  simp only
  rw [bind_apply, Bitfield.has_nat _ _ him]
  simp only [Act.lift, Act.pure]
  by_cases hb : Bitfield.bit m.bitfield i = false
  · rw [if_pos hb, bind_apply]
    have hq : QueuePeer s.peers.length (grown s { c with bitfield := b' } ds ix' ka ki ap) = (.ok (), grown s { c with bitfield := b' } ds ix' ka ki ap) := by
      unfold QueuePeer Act.locked Act.bind Act.lock
      simp only [if_neg (show ¬ (grown s { c with bitfield := b' } ds ix' ka ki ap).locked = true by show ¬ s.locked = true; rw [hl]; decide)]
      have hg : ({ grown s { c with bitfield := b' } ds ix' ka ki ap with locked := true } : State).peers[s.peers.length]? = some { c with bitfield := b' } := grown_get s { c with bitfield := b' } ds ix' ka ki ap
      unfold queuePeer
      rw [bind_apply, getConn_some hg]
      simp only
      rw [if_pos (.inr hch)]
      simp only [pure_apply, grown, hl]
    rw [hq]
    simp only
    unfold interest
    rw [bind_apply, getConn_some (grown_get ..)]
    simp only
    by_cases hin : c.interested = false
    · rw [if_pos hin, bind_apply, grown_set]
      simp only
      unfold send
      rw [bind_apply, getConn_some (grown_get ..)]
      simp only
      rw [if_neg (by rintro ⟨h, _⟩; exact absurd h (show INTERESTED ≠ REQUEST by decide)), if_pos (by rw [hcl]; decide), grown_set]
      refine ⟨_, _, rfl, h2, h3, hcl, hch, rfl, rfl, rfl, rfl, rfl, ?_⟩
      intro x hx
      rcases List.mem_append.mp hx with hx | hx
      · exact .inl hx
      · exact .inr (List.mem_singleton.mp hx)
    · rw [if_neg hin]
      exact ⟨_, _, rfl, h2, h3, hcl, hch, rfl, rfl, rfl, rfl, rfl, fun x hx => .inl hx⟩
  · rw [if_neg hb]
    exact ⟨_, _, rfl, h2, h3, hcl, hch, rfl, rfl, rfl, rfl, rfl, fun x hx => .inl hx⟩

theorem items_apply (h : Seeding cfg X s fs m) (hl : s.locked = false) (is : List Nat) : ∀ {c : Conn} {ix : List (Int × List Ref)}, c.closed = false → c.remoteChoked = true →
    (∀ i ∈ is, i < 8 * c.bitfield.length ∧ i < 8 * m.bitfield.length) →
    ∃ c' ix', handleItems true s.peers.length is (grown s c ds ix ka ki ap) = (.ok (), grown s c' ds ix' ka ki ap) ∧
      (∀ j, Bitfield.bit c'.bitfield j = (Bitfield.bit c.bitfield j || decide (j ∈ is))) ∧ c'.closed = false ∧ c'.remoteChoked = true ∧ c'.id = c.id ∧ c'.ip = c.ip ∧ c'.port = c.port ∧
      c'.phase = c.phase ∧ c'.received = c.received ∧ ∀ x ∈ c'.sent, x ∈ c.sent ∨ x = PeerWire.interested := by
  induction is with
  | nil => intro c ix hcl hch _; exact ⟨c, ix, rfl, by simp, hcl, hch, rfl, rfl, rfl, rfl, rfl, fun x hx => .inl hx⟩
  | cons i is ih =>
    intro c ix hcl hch hi
    obtain ⟨c1, ix1, g1, g2, g3, g4, g5, g6, g7, g8, g9, g11, g10⟩ := have_apply (ds := ds) (ix := ix) (ka := ka) (ki := ki) (ap := ap) h hl hcl hch (hi i (by simp)).1 (hi i (by simp)).2
    obtain ⟨c2, ix2, k1, k3, k4, k5, k6, k7, k8, k9, k11, k10⟩ := ih (ix := ix1) g4 g5 (fun j hj => by rw [g2]; exact hi j (by simp [hj]))
    refine ⟨c2, ix2, ?_, ?_, k4, k5, k6.trans g6, k7.trans g7, k8.trans g8, k9.trans g9, k11.trans g11, ?_⟩
    · unfold handleItems
      rw [bind_apply, g1]
      exact k1
    · intro j
      rw [k3, g3, Bool.or_assoc]
      simp [List.mem_cons]
    · intro x hx
      rcases k10 x hx with hx | hx
      · exact g10 x hx
      · exact .inr hx

theorem bitfield_step (h : Seeding cfg X s fs m) (hl : s.locked = false) (hX : X.length = cfg.store.info.pieces.length) {c : Conn} {b : Bytes} (hb : AllBits X.length b)
    (hph : c.phase = .serving (some (bitfieldMsg b))) (hcl : c.closed = false) (hch : c.remoteChoked = true) (hbf : c.bitfield = Bitfield.new X.length) {l : Luck}
    (hok : l.ok s.peers.length = true) :
    ∃ c' ix', step cfg (grown s c ds ix ka ki ap) (.handle s.peers.length, l) = grown s c' ds ix' ka ki ap ∧
      (∀ j, Bitfield.bit c'.bitfield j = decide (j < X.length)) ∧ c'.closed = false ∧ c'.remoteChoked = true ∧ c'.id = c.id ∧ c'.ip = c.ip ∧ c'.port = c.port ∧
      c'.phase = .serving none ∧ c'.received = c.received ∧ ∀ x ∈ c'.sent, x ∈ c.sent ∨ x = PeerWire.interested := by
  have hbits : ∀ i, Bitfield.bit b i = decide (i < X.length) := by
    intro i
    rw [← hb.2 i, List.getD_eq_getElem?_getD]
    unfold Bitfield.bit
    cases b[i / 8]? <;> simp
  have hitems : ∀ i, i ∈ Bitfield.items b ↔ i < X.length := by
    intro i; rw [mem_items, hbits]; simp
  have hml : X.length ≤ 8 * m.bitfield.length := by
    have h1 := h.inv.2.bfLen
    have h2 := (Bitfield.new_length X.length).2
    rw [hX] at h2 ⊢
    simp only at h1
    omega
  obtain ⟨c', ix', g1, g3, g4, g5, g6, g7, g8, g9, g11, g10⟩ := items_apply (ds := ds) (ix := ix) (ka := ka) (ki := ki) (ap := ap) h hl (Bitfield.items b) hcl hch (fun i hi => by
    have hi := (hitems i).mp hi
    refine ⟨?_, by omega⟩
    rw [hbf]
    have := (Bitfield.new_length X.length).2
    omega)
  refine ⟨{ c' with phase := .serving none }, ix', ?_, ?_, g4, g5, g6, g7, g8, rfl, g11, g10⟩
  · refine step_of (o := .ok ()) h.alive ?_ (.inl rfl)
    simp only [act, grown_get, hph, Option.map_some]
    have : handleMessage l.fates (l.ok s.peers.length) cfg s.peers.length (bitfieldMsg b) (grown s c ds ix ka ki ap) = (.ok (), grown s c' ds ix' ka ki ap) := by
      rw [hok]
      exact g1
    rw [this, grown_next]
  · intro j
    rw [g3, hbf, Bitfield.bit_new]
    simp [hitems]

theorem unchoke_step (h : Seeding cfg X s fs m) (hl : s.locked = false) {c : Conn} (hph : c.phase = .serving (some PeerWire.unchoke)) (hcl : c.closed = false) (l : Luck) :
    step cfg (grown s c ds ix ka ki ap) (.handle s.peers.length, l) =
      { grown s { c with phase := .serving none, remoteChoked := false } ds ix ka ki ap with
        queuedPeers := sadd s.queuedPeers s.peers.length, toRequest := s.toRequest ++ [s.peers.length] } := by
  have hnq : s.peers.length ∉ s.queuedPeers := fun hh => Nat.lt_irrefl _ (h.queued _ hh)
  refine step_of (o := .ok ()) h.alive ?_ (.inl rfl)
  simp only [act, grown_get, hph, Option.map_some]
  have : handleMessage l.fates (l.ok s.peers.length) cfg s.peers.length PeerWire.unchoke (grown s c ds ix ka ki ap) =
      (.ok (), { grown s { c with remoteChoked := false } ds ix ka ki ap with
        queuedPeers := sadd s.queuedPeers s.peers.length, toRequest := s.toRequest ++ [s.peers.length] }) := by
    unfold handleMessage
    rw [if_neg (by decide), if_pos (by decide), bind_apply, grown_set]
    simp only
    unfold QueuePeer Act.locked Act.bind Act.lock
    simp only [if_neg (show ¬ (grown s { c with remoteChoked := false } ds ix ka ki ap).locked = true by show ¬ s.locked = true; rw [hl]; decide)]
    have hg : ({ grown s { c with remoteChoked := false } ds ix ka ki ap with locked := true } : State).peers[s.peers.length]? = some { c with remoteChoked := false } := grown_get s { c with remoteChoked := false } ds ix ka ki ap
    unfold queuePeer
    rw [bind_apply, getConn_some hg]
    simp only
    rw [if_neg (by simp [hcl]), bind_apply]
    simp only [get_apply]
    rw [if_neg (by exact hnq), bind_apply]
    simp only [modify_apply]
    rw [if_neg (by show ¬ s.requesting = false; rw [h.requesting]; decide)]
    simp only [modify_apply, grown, hl]
  rw [this]
  simp only [next, grown, modify_last]

/-- The state with one more connection. -/
theorem Seeding.grow (h : Seeding cfg X s fs m) {c : Conn} (hC : Ready X s.jobs m c) (hid : c.id.length = 20) (hne : ∀ c' ∈ s.peers, c'.id ≠ c.id) :
    Seeding cfg X { grown s c ds ix ka (mput s.knownIDIPs c.addr c.idip) (mput s.activePeers c.idip s.peers.length) with
        queuedPeers := sadd s.queuedPeers s.peers.length, toRequest := s.toRequest ++ [s.peers.length] } fs m := by
  have hac : mget s.activePeers c.idip = none := by
    rw [mget_eq_none]
    intro v hv
    obtain ⟨_, c', hc', hh⟩ := h.active _ hv
    exact hne c' hc' (idip_inj (h.ids c' hc') hid hh)
  have hlen : (s.peers ++ [c]).length = s.peers.length + 1 := by simp
  have hlt : ∀ {r : Nat}, r < s.peers.length → r < (s.peers ++ [c]).length := by intro r hr; omega
  have hself : s.peers.length < (s.peers ++ [c]).length := by omega
  refine { alive := h.alive, requesting := h.requesting, calm := h.calm, stopped := h.stopped, storage := h.storage, inv := h.inv, exact_ := h.exact_, distinct := h.distinct, inflight := h.inflight, conns := ?_, toRequest := ?_, waiting := ?_, queued := ?_, active := ?_, activeLen := ?_, idips := ?_, ids := ?_, jobs := ?_, busy := ?_ }
  · intro r c' hc'
    have hc' : (s.peers ++ [c])[r]? = some c' := hc'
    by_cases hr : r < s.peers.length
    · rw [List.getElem?_append_left hr] at hc'
      exact h.conns r c' hc'
    · rw [List.getElem?_append_right (by omega)] at hc'
      have : c' = c := by
        cases hk : r - s.peers.length with
        | zero => rw [hk] at hc'; cases hc'; rfl
        | succ n => rw [hk] at hc'; cases hc'
      rw [this]; exact hC
  · intro r hr
    show r < (s.peers ++ [c]).length
    rcases List.mem_append.mp hr with hr | hr
    · exact hlt (h.toRequest r hr)
    · rw [List.mem_singleton] at hr; rw [hr]; exact hself
  · intro r hr
    show r < (s.peers ++ [c]).length
    exact hlt (h.waiting r hr)
  · intro r hr
    show r < (s.peers ++ [c]).length
    rcases mem_sadd.mp hr with hr | hr
    · rw [hr]; exact hself
    · exact hlt (h.queued r hr)
  · intro e he
    show e.2 < (s.peers ++ [c]).length ∧ ∃ c' ∈ s.peers ++ [c], c'.idip = e.1
    rcases mem_mput.mp he with rfl | ⟨he, _⟩
    · exact ⟨by simp, c, by simp, rfl⟩
    · obtain ⟨h1, c', hc', h2⟩ := h.active e he
      exact ⟨hlt h1, c', by simp [hc'], h2⟩
  · show (mput s.activePeers c.idip s.peers.length).length ≤ (s.peers ++ [c]).length
    rw [mput_length _ hac]
    have := h.activeLen
    omega
  · intro e he
    show ∃ c' ∈ s.peers ++ [c], c'.addr = e.1
    rcases mem_mput.mp he with rfl | ⟨he, _⟩
    · exact ⟨c, by simp, rfl⟩
    · obtain ⟨c', hc', h2⟩ := h.idips e he
      exact ⟨c', by simp [hc'], h2⟩
  · intro c' hc'
    rcases List.mem_append.mp hc' with hc' | hc'
    · exact h.ids c' hc'
    · rw [List.mem_singleton.mp hc']; exact hid
  · intro j hj
    show j.peer < (s.peers ++ [c]).length ∧ _
    obtain ⟨h1, h2⟩ := h.jobs j hj
    exact ⟨hlt h1, h2⟩
  · intro r hr
    have hr : r < (s.peers ++ [c]).length := hr
    by_cases hrr : r < s.peers.length
    · rcases h.busy r hrr with h1 | h1
      · exact .inl (List.mem_append_left _ h1)
      · exact .inr h1
    · have : r = s.peers.length := by omega
      exact .inl (by subst this; exact List.mem_append_right _ (by simp))

theorem join_conn (hO : Original cfg.store X) (h20 : cfg.store.info.sha1.length = 20) (h : Seeding cfg X s fs m) (hl : s.locked = false) {s' : State} (hj : Joins cfg X s s') :
    Seeding cfg X s' fs m ∧ s'.locked = false ∧ s'.jobs = s.jobs ∧ s'.waiting = s.waiting ∧ s'.toRequest = s.toRequest ++ [s.peers.length] ∧
      ∃ c, s'.peers = s.peers ++ [c] ∧ ∃ b, AllBits X.length b ∧ c.received = [bitfieldMsg b, PeerWire.unchoke] := by
  obtain ⟨ip, id, b, port, e, hs, bf, un, l, ha, hlen, hid, hown, hnew, hhs, hbf, hb, hun, hok, _, rfl⟩ := hj
  have hX : X.length = cfg.store.info.pieces.length := hO.contents.1
  obtain ⟨id0, ds, h0, e1⟩ := arrive_step h ha l
  obtain ⟨c1, hc1⟩ : ∃ c1, c1 = newConn cfg id0 ip port := ⟨_, rfl⟩
  rw [← hc1] at e1
  have e2 := check_step (cfg := cfg) (c := c1) (ds := ds) (ix := s.indexToPeers) (ka := s.knownAddrs) h hl (by rw [hc1]; rfl) hlen (fun c hc => by rw [hc1]; exact (hnew c hc).2) l
  obtain ⟨c2, hc2⟩ : ∃ c2 : Conn, c2 = { c1 with phase := .checked } := ⟨_, rfl⟩
  rw [← hc2] at e2
  have e3 := shake_step (c := c2) (ds := ds) (ix := s.indexToPeers) (ka := s.knownAddrs) (ki := s.knownIDIPs) (ap := s.activePeers)
    h (by rw [hc2]) (by rw [hc2, hc1]; rfl) hid (by rw [hc2, hc1]; exact h0) h20 hown hhs hok
  obtain ⟨c3, hc3⟩ : ∃ c3 : Conn, c3 = { c2 with phase := .shaken, id := id, shook := some ⟨cfg.store.info.sha1, id⟩ } := ⟨_, rfl⟩
  rw [← hc3] at e3
  have i3 : c3.id = id := by rw [hc3]
  obtain ⟨ka, e4⟩ := register_step (cfg := cfg) (c := c3) (ds := ds) (ix := s.indexToPeers)
    (ka := s.knownAddrs) (ki := s.knownIDIPs) h hl (by rw [hc3]) (by rw [hc3, hc2, hc1]; rfl) (by rw [i3]; exact hid) hlen (fun c hc => by rw [i3]; exact (hnew c hc).1) hok
  obtain ⟨c4, hc4⟩ : ∃ c4 : Conn, c4 = { c3 with phase := .serving none, registered := true, sent := c3.sent ++ [bitfieldMsg m.bitfield] } := ⟨_, rfl⟩
  rw [← hc4] at e4
  obtain ⟨ki, hki⟩ : ∃ ki, ki = mput s.knownIDIPs c3.addr c3.idip := ⟨_, rfl⟩
  obtain ⟨ap, hap⟩ : ∃ ap, ap = mput s.activePeers c3.idip s.peers.length := ⟨_, rfl⟩
  rw [← hki, ← hap] at e4
  have e5 := receive_step (cfg := cfg) (c := c4) (ds := ds) (ix := s.indexToPeers) (ka := ka) (ki := ki) (ap := ap) h (by rw [hc4]) (by rw [hc4, hc3, hc2, hc1]; rfl) hbf l
  obtain ⟨c5, hc5⟩ : ∃ c5 : Conn, c5 = { c4 with phase := .serving (some (ofWire (.bitfield b))), received := c4.received ++ [ofWire (.bitfield b)] } := ⟨_, rfl⟩
  rw [← hc5] at e5
  obtain ⟨c6, ix, e6, b1, b2, b3, b4, b5, b6, b7, b9, b8⟩ := bitfield_step (cfg := cfg) (c := c5) (ds := ds) (ix := s.indexToPeers) (ka := ka) (ki := ki) (ap := ap) h hl hX hb (by rw [hc5]; rfl)
    (by rw [hc5, hc4, hc3, hc2, hc1]; rfl) (by rw [hc5, hc4, hc3, hc2, hc1]; rfl) (by rw [hc5, hc4, hc3, hc2, hc1, hX]; rfl) hok
  have e7 := receive_step (cfg := cfg) (c := c6) (ds := ds) (ix := ix) (ka := ka) (ki := ki) (ap := ap) h b7 b2 hun l
  obtain ⟨c7, hc7⟩ : ∃ c7 : Conn, c7 = { c6 with phase := .serving (some (ofWire .unchoke)), received := c6.received ++ [ofWire .unchoke] } := ⟨_, rfl⟩
  rw [← hc7] at e7
  have e8 := unchoke_step (cfg := cfg) (c := c7) (ds := ds) (ix := ix) (ka := ka) (ki := ki) (ap := ap) h hl (by rw [hc7]; rfl) (by rw [hc7]; exact b2) l
  obtain ⟨c8, hc8⟩ : ∃ c8 : Conn, c8 = { c7 with phase := .serving none, remoteChoked := false } := ⟨_, rfl⟩
  rw [← hc8] at e8
  have f1 : c8.id = c3.id := by rw [hc8, hc7, show ({ c6 with phase := .serving (some (ofWire .unchoke)), received := c6.received ++ [ofWire .unchoke] } : Conn).id = c6.id from rfl, b4, hc5, hc4]
  have f2 : c8.ip = c3.ip := by rw [hc8, hc7, show ({ c6 with phase := .serving (some (ofWire .unchoke)), received := c6.received ++ [ofWire .unchoke] } : Conn).ip = c6.ip from rfl, b5, hc5, hc4]
  have f3 : c8.port = c3.port := by rw [hc8, hc7, show ({ c6 with phase := .serving (some (ofWire .unchoke)), received := c6.received ++ [ofWire .unchoke] } : Conn).port = c6.port from rfl, b6, hc5, hc4]
  have f4 : c8.addr = c3.addr := by simp only [Conn.addr, f2, f3]
  have f5 : c8.idip = c3.idip := by simp only [Conn.idip, f1, f2]
  have f6 : ∀ x ∈ c8.sent, x = bitfieldMsg m.bitfield ∨ x = PeerWire.interested := by
    intro x hx
    have hx : x ∈ c6.sent := by rw [hc8, hc7] at hx; exact hx
    rcases b8 x hx with hx | hx
    · rw [hc5, hc4, hc3, hc2, hc1] at hx
      have hx : x ∈ ([bitfieldMsg m.bitfield] : List Message) := hx
      exact .inl (List.mem_singleton.mp hx)
    · exact .inr hx
  have hC : Ready X s.jobs m c8 := {
    phase := .inl (by rw [hc8])
    open_ := by rw [hc8, hc7]; exact b2
    unchoked := by rw [hc8]
    has := by rw [hc8, hc7]; exact b1
    sent := by
      intro i b' l' hm
      rcases f6 _ hm with hm | hm
      · injection hm with hm
        exact absurd hm (show REQUEST ≠ BITFIELD by decide)
      · injection hm with hm
        exact absurd hm (show REQUEST ≠ INTERESTED by decide) }
  have f7 : c8.received = [bitfieldMsg b, PeerWire.unchoke] := by
    rw [hc8, hc7]
    show c6.received ++ _ = _
    rw [b9, hc5, hc4, hc3, hc2, hc1]
    rfl
  simp only [List.map, run]
  rw [e1, e2, e3, e4, e5, e6, e7, e8, hki, hap, ← f4, ← f5]
  refine ⟨h.grow hC (by rw [f1, i3]; exact hid) (fun c hc => by rw [f1, i3]; exact (hnew c hc).1), hl, rfl, rfl, rfl, c8, rfl, b, hb, f7⟩

theorem join_seeding (hO : Original cfg.store X) (h20 : cfg.store.info.sha1.length = 20) (h : Seeding cfg X s fs m) (hl : s.locked = false) {s' : State} (hj : Joins cfg X s s') :
    Seeding cfg X s' fs m ∧ s'.locked = false ∧ s'.jobs = s.jobs ∧ s'.waiting = s.waiting ∧ s'.toRequest = s.toRequest ++ [s.peers.length] ∧
      ∃ c, s'.peers = s.peers ++ [c] ∧ ∀ x ∈ c.received, x.typ ≠ PIECE := by
  obtain ⟨h1, h2, h3, h4, h5, c, h6, b, _, h7⟩ := join_conn hO h20 h hl hj
  refine ⟨h1, h2, h3, h4, h5, c, h6, fun x hx => ?_⟩
  rw [h7] at hx
  rcases List.mem_cons.mp hx with rfl | hx
  · exact show BITFIELD ≠ PIECE by decide
  · rw [List.mem_singleton.mp hx]
    exact show UNCHOKE ≠ PIECE by decide

/-- All states that are reached. -/
theorem seeded_seeding (hO : Original cfg.store X) (h20 : cfg.store.info.sha1.length = 20) (h : Seeded cfg X s) : (∃ fs m, Seeding cfg X s fs m) ∧ s.locked = false := by
  induction h with
  | start => exact ⟨⟨_, _, start_seeding hO⟩, rfl⟩
  | join _ hj ih =>
    obtain ⟨⟨fs, m, ih⟩, hl⟩ := ih
    obtain ⟨h1, h2, _⟩ := join_seeding hO h20 ih hl hj
    exact ⟨⟨fs, m, h1⟩, h2⟩
  | step _ he ih =>
    obtain ⟨⟨fs, m, ih⟩, hl⟩ := ih
    obtain ⟨fs', m', h1, h2, _⟩ := honest_goes hO ih hl he
    exact ⟨⟨fs', m', h1⟩, h2⟩

end Drip.P2P
