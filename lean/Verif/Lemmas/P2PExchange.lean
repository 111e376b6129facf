import Verif.Spec.Exchange
import Verif.Props.P2PWhole
import Verif.Lemmas.P2PFairInv
/-
A client that has the whole torrent, and another one that asks it for blocks.
-/

namespace Drip.P2P
open PeerWire Metainfo Spec
open Storage (Fate World Mem FS Usable Original SInv)

variable {cfg : Cfg} {X : List Bytes} {r : Ref}

/-- A HAVE for a piece that we have. -/
theorem have_whole {s : State} {c : Conn} {m : Mem} {i : Nat} (hl : s.locked = false) (hc : s.peers[r]? = some c) (hm : s.storage.mem = some m) (hi : i < 8 * c.bitfield.length)
    (him : i < 8 * m.bitfield.length) (hb : Bitfield.bit m.bitfield i = true) (ok : Bool) :
    ∃ b' ix, handleHave ok r i s = (.ok (), { s with peers := s.peers.set r { c with bitfield := b' }, indexToPeers := ix }) ∧ b'.length = c.bitfield.length := by
  obtain ⟨b', h1, h2, h3⟩ := Bitfield.add_nat c.bitfield i hi
  refine ⟨b', mput s.indexToPeers i (sadd ((mget s.indexToPeers i).getD []) r), ?_, h2⟩
  unfold handleHave
  rw [bind_apply, getConn_some hc]
  simp only
  rw [bind_apply, h1]
  simp only [Act.lift, Act.pure]
  rw [bind_apply, setConn_apply]
  simp only
  rw [bind_apply]
  unfold recordIndex
  rw [locked_apply, if_neg (by rw [hl]; decide)]
  simp only [modify_apply]
  rw [bind_apply]
  unfold torrentBitfield
  simp only [hm]
  rw [bind_apply, Bitfield.has_nat _ _ him]
  simp only [Act.lift, Act.pure]
  rw [if_neg (by rw [hb]; decide), modify_some hc]
  simp only [pure_apply, hl]

theorem items_whole (is : List Nat) : ∀ {s : State} {c : Conn} {m : Mem}, s.locked = false → s.peers[r]? = some c → s.storage.mem = some m →
    (∀ i ∈ is, i < 8 * c.bitfield.length ∧ i < 8 * m.bitfield.length ∧ Bitfield.bit m.bitfield i = true) → ∀ ok : Bool, (handleItems ok r is s).1 = .ok () := by
  induction is with
  | nil => intro s c m _ _ _ _ ok; rfl
  | cons i is ih =>
    intro s c m hl hc hm hi ok
    obtain ⟨b', ix, h1, h2⟩ := have_whole hl hc hm (hi i (by simp)).1 (hi i (by simp)).2.1 (hi i (by simp)).2.2 ok
    unfold handleItems
    rw [bind_apply, h1]
    simp only
    refine ih (s := { s with peers := s.peers.set r { c with bitfield := b' }, indexToPeers := ix }) (c := { c with bitfield := b' }) (m := m) hl
      (List.getElem?_set_self (List.getElem?_eq_some_iff.1 hc).1) hm (fun j hj => ?_) ok
    show j < 8 * b'.length ∧ _
    rw [h2]
    exact hi j (by simp [hj])

theorem queuePeer_ok {s : State} {c : Conn} (hc : s.peers[r]? = some c) (hr : s.requesting = true) : ∃ s', queuePeer r s = (.ok (), s') := by
  unfold queuePeer
  rw [bind_apply, getConn_some hc]
  simp only
  split
  · exact ⟨_, rfl⟩
  · rw [bind_apply, get_apply]
    simp only
    split
    · exact ⟨_, rfl⟩
    · rw [bind_apply, modify_apply]
      simp only
      rw [if_neg (by rw [hr]; decide)]
      exact ⟨_, rfl⟩

/-- What a client that downloads says, besides REQUEST. -/
def Polite (n : Nat) (m : Message) : Prop :=
  m.typ = UNCHOKE ∨ m.typ = INTERESTED ∨ m.typ = NOT_INTERESTED ∨ (m.typ = HAVE ∧ 0 ≤ m.index ∧ m.index < n) ∨ (m.typ = BITFIELD ∧ ∀ i, Bitfield.bit m.bitfield i = true → i < n)

/-- It is handled without an error. -/
theorem polite_ok {s : State} {c : Conn} {m : Mem} {msg : Message} (hl : s.locked = false) (hr : s.requesting = true) (hc : s.peers[r]? = some c) (hm : s.storage.mem = some m) {n : Nat}
    (hlen : n ≤ 8 * c.bitfield.length) (hlen' : n ≤ 8 * m.bitfield.length) (hall : ∀ i, i < n → Bitfield.bit m.bitfield i = true) (hp : Polite n msg) (fates : List Fate) (ok : Bool) :
    (handleMessage fates ok cfg r msg s).1 = .ok () := by
  unfold handleMessage
  rcases hp with h | h | h | ⟨h, h0, h1⟩ | ⟨h, h1⟩
  · rw [if_neg (by rw [h]; decide), if_pos h, bind_apply, setConn_apply]
    simp only
    unfold QueuePeer
    rw [locked_apply, if_neg (by show ¬ s.locked = true; rw [hl]; decide)]
    obtain ⟨s', hs'⟩ := queuePeer_ok (r := r) (s := { s with peers := s.peers.modify r fun c => { c with remoteChoked := false }, locked := true }) (modify_self hc _) hr
    rw [hs']
  · rw [if_neg (by rw [h]; decide), if_neg (by rw [h]; decide), if_pos h]; rfl
  · rw [if_neg (by rw [h]; decide), if_neg (by rw [h]; decide), if_neg (by rw [h]; decide), if_pos h]; rfl
  · rw [if_neg (by rw [h]; decide), if_neg (by rw [h]; decide), if_neg (by rw [h]; decide), if_neg (by rw [h]; decide), if_pos h]
    unfold Message.getIndex
    rw [if_pos (.inl h), bind_apply]
    simp only [Act.lift, Act.pure]
    obtain ⟨i, hi⟩ := Int.eq_ofNat_of_zero_le h0
    rw [hi] at h1 ⊢
    obtain ⟨b', ix, h2, _⟩ := have_whole hl hc hm (i := i) (by omega) (by omega) (hall i (by omega)) ok
    rw [h2]
  · rw [if_neg (by rw [h]; decide), if_neg (by rw [h]; decide), if_neg (by rw [h]; decide), if_neg (by rw [h]; decide), if_neg (by rw [h]; decide), if_pos h]
    unfold Message.getBitfield
    rw [if_pos h, bind_apply]
    simp only [Act.lift, Act.pure]
    refine items_whole _ hl hc hm (fun i hi => ?_) ok
    have : i < n := h1 i (by unfold Bitfield.items at hi; rw [Bitfield.mem_itemsFrom] at hi; simpa using hi.2)
    exact ⟨by omega, by omega, hall i this⟩

/-- What a client that downloads says. -/
def Asks (X : List Bytes) (m : Message) : Prop := Polite X.length m ∨ ∃ (i b l : Nat) (x : Bytes), m = request i b l ∧ X[i]? = some x ∧ b + l ≤ x.length

/-- The answer to a REQUEST. -/
def answer (X : List Bytes) (i b l : Nat) : Message := pieceMsg i b (((X.getD i []).drop b).take l)

/-- The connection of a seeder with a client that downloads. -/
structure Serves (X : List Bytes) (d : Conn) : Prop where
  serving : ∃ p, d.phase = .serving p
  open_ : d.closed = false
  gave : ∀ m ∈ d.sent, m.typ = PIECE → ∃ i b l : Nat, request i b l ∈ handled d ∧ m = answer X i b l
  answered : ∀ i b l : Nat, request i b l ∈ handled d → answer X i b l ∈ d.sent

theorem Serves.same {d d' : Conn} (h : Serves X d) (h1 : d'.phase = d.phase) (h2 : d'.closed = d.closed) (h3 : d'.received = d.received) (h4 : ∃ ms, d'.sent = d.sent ++ ms ∧ ∀ m ∈ ms, m.typ ≠ PIECE) :
    Serves X d' := by
  obtain ⟨ms, h4, h5⟩ := h4
  have hh : handled d' = handled d := handled_eq h1 h3
  refine ⟨by rw [h1]; exact h.serving, h2.trans h.open_, fun m hm ht => ?_, fun i b l hr => ?_⟩
  · rw [h4] at hm
    rcases List.mem_append.mp hm with hm | hm
    · rw [hh]; exact h.gave m hm ht
    · exact absurd ht (h5 m hm)
  · rw [h4]
    exact List.mem_append_left _ (h.answered i b l (by rw [← hh]; exact hr))

theorem Asks.notCancel {m : Message} (h : Asks X m) : m.typ ≠ CANCEL := by
  rcases h with (h | h | h | ⟨h, _⟩ | ⟨h, _⟩) | ⟨i, b, l, x, rfl, _⟩
  · rw [h]; decide
  · rw [h]; decide
  · rw [h]; decide
  · rw [h]; decide
  · rw [h]; decide
  · show REQUEST ≠ CANCEL; decide

theorem Polite.notRequest {n : Nat} {m : Message} (h : Polite n m) : m.typ ≠ REQUEST := by
  rcases h with h | h | h | ⟨h, _⟩ | ⟨h, _⟩ <;> rw [h] <;> decide

theorem noCancels (ms : List Message) (h : ∀ m ∈ ms, m.typ ≠ CANCEL) : waitingCancels ms = [] := by
  have : ∀ (ms : List Message), (∀ m ∈ ms, m.typ ≠ CANCEL) → ms.foldl (fun o m =>
      if m.typ = CANCEL then sadd o ⟨m.index, m.begin, m.length⟩ else if m.typ = REQUEST then sdel o ⟨m.index, m.begin, m.length⟩ else o) ([] : List Req) = [] := by
    intro ms
    induction ms with
    | nil => intro _; rfl
    | cons m ms ih =>
      intro h
      rw [List.foldl_cons, if_neg (h m (by simp)), show (if m.typ = REQUEST then sdel ([] : List Req) ⟨m.index, m.begin, m.length⟩ else []) = [] from by split <;> rfl]
      exact ih fun x hx => h x (by simp [hx])
  exact this ms h

theorem handled_sub {d : Conn} : ∀ m ∈ handled d, m ∈ d.received := by
  intro m hm
  unfold handled at hm
  split at hm
  · exact List.dropLast_subset _ hm
  · exact hm

/-- What happens at the side of the seeder. -/
theorem serve_step (hu : Usable cfg.store) (hf : FilesOK cfg.store.info) (hpl : 0 ≤ cfg.store.info.pieceLength) (hX : ∀ ds, Contents cfg.store.sha1 cfg.store.info ds → ds = X)
    (hXl : X.length = cfg.store.info.pieces.length) (hXx : ∀ (i : Nat) (x : Bytes), X[i]? = some x → (x.length : Int) = cfg.store.info.getPieceLength i)
    (es0 : List (Storage.Event × List Fate)) (es1 : List (Event × Luck)) {m0 : Mem} (hm0 : (run cfg (init (Storage.run cfg.store es0 World.empty)) es1).storage.mem = some m0)
    (hd : m0.coalesced = true) (hj : ∀ j ∈ (run cfg (init (Storage.run cfg.store es0 World.empty)) es1).jobs, j.stage = .handed)
    (es : List (Event × Luck)) {s : State} (hs : s = run cfg (run cfg (init (Storage.run cfg.store es0 World.empty)) es1) es) (hal : s.alive = true) (hcan : s.cancelled = false) (hreq : s.requesting = true)
    (hl : s.locked = false) {d : Conn} (hc : s.peers[r]? = some d) (h : Serves X d) (hask : ∀ m ∈ d.received, Asks X m) (hch : d.choked = false) (e : Event × Luck) (hok : e.2.ok r = true)
    (hfa : e.1 = .handle r → ∀ f ∈ e.2.fates, f = .ok) (hnf : e.1 ≠ .fails r) (hrd : ∀ rd, e.1 = .receive r rd → ∃ w, Says rd w) :
    ∃ d', (step cfg s e).peers[r]? = some d' ∧ Serves X d' ∧ d.sent <+: d'.sent ∧
      ((d'.received = d.received ∧ (d'.phase = d.phase ∨ e.1 = .handle r)) ∨
        ∃ rd w, e.1 = .receive r rd ∧ Says rd w ∧ d.phase = .serving none ∧ d'.received = d.received ++ [ofWire w]) ∧
      (e.1 = .handle r → d'.phase = .serving none) ∧ (∀ rd, e.1 = .receive r rd → d.phase = .serving none → d'.received.length = d.received.length + 1) := by
  have hi : Inv cfg s := by rw [hs, ← run_append]; exact inv_run _ _
  have hst : StoreInv cfg s := by rw [hs, ← run_append]; exact store_run' hu hf es0 _
  have hhist : HistInv d := by rw [hs, ← run_append] at hc; exact hist_run _ _ r d hc
  have hwhole : Whole cfg s := by rw [hs] at hal ⊢; exact (whole_run hu hf es0 es1 hm0 hd hj es hal).1
  obtain ⟨m1, hm1, hco⟩ := hwhole.mem
  obtain ⟨p, hp⟩ := h.serving
  have hsm := step_small (cfg := cfg) e hi.pendOK
  obtain ⟨d1, hd1, hF⟩ := hsm.frame (mayOf_good hi e.1) hc
  obtain ⟨ms, hms, hms', _⟩ := hF.sent
  -- nothing happens
  have none_ : act cfg e.2 s e.1 = none → (e.1 = .handle r → p = none) → (∀ rd, e.1 = .receive r rd → d.phase ≠ .serving none) → ∃ d', (step cfg s e).peers[r]? = some d' ∧ Serves X d' ∧ d.sent <+: d'.sent ∧
      ((d'.received = d.received ∧ (d'.phase = d.phase ∨ e.1 = .handle r)) ∨
        ∃ rd w, e.1 = .receive r rd ∧ Says rd w ∧ d.phase = .serving none ∧ d'.received = d.received ++ [ofWire w]) ∧
      (e.1 = .handle r → d'.phase = .serving none) ∧ (∀ rd, e.1 = .receive r rd → d.phase = .serving none → d'.received.length = d.received.length + 1) := by
    intro ha hh hrr
    have : step cfg s e = s := step_none ha
    rw [this]
    exact ⟨d, hc, h, List.prefix_refl _, .inl ⟨rfl, .inl rfl⟩, fun he => by rw [hp, hh he], fun rd he hn => absurd hn (hrr rd he)⟩
  have hat : ∀ ph, ph ≠ .serving p → at_ s r ph = false := by
    intro ph hne
    unfold at_
    rw [hc]
    show (some d.phase == some ph) = false
    rw [hp]
    simp [hne.symm]
  obtain ⟨ev, l⟩ := e
  by_cases hph : (mayOf cfg s ev).phase r
  · rcases hph with he | ⟨rd, he⟩ | he | ⟨rd, he⟩ | he | he | he
    · subst he
      exact none_ (by simp only [act, hat .fresh (by simp), Bool.false_eq_true, if_false]) (fun h => by cases h) (fun rd h => by cases h)
    · subst he
      exact none_ (by simp only [act, hat .checked (by simp), Bool.false_eq_true, if_false]) (fun h => by cases h) (fun rd h => by cases h)
    · subst he
      exact none_ (by simp only [act, hat .shaken (by simp), Bool.false_eq_true, if_false]) (fun h => by cases h) (fun rd h => by cases h)
    · -- receive
      subst he
      obtain ⟨w, hw⟩ := hrd rd rfl
      cases hpp : p with
      | some m =>
        rw [hpp] at hp
        refine none_ ?_ (fun h => by cases h) (fun rd _ hn => by rw [hp] at hn; cases hn)
        simp only [act, hc]
        rw [if_neg (by rw [hp]; rintro ⟨h, _⟩; cases h)]
      | none =>
        rw [hpp] at hp
        obtain ⟨rd', hdec⟩ := says_decode hw
        have hstep : step cfg s (.receive r rd, l) = { s with peers := s.peers.modify r fun c => { c with phase := .serving (some (ofWire w)), received := c.received ++ [ofWire w] } } := by
          unfold step
          rw [if_neg (by rw [hal]; simp)]
          simp only [act, hc]
          rw [if_pos ⟨hp, h.open_⟩, hdec]
        rw [hstep]
        refine ⟨_, modify_self hc _, ?_, List.prefix_refl _, .inr ⟨rd, w, rfl, hw, hp, rfl⟩, (fun h => by cases h), (fun rd' _ _ => by simp)⟩
        have hh : handled { d with phase := .serving (some (ofWire w)), received := d.received ++ [ofWire w] } = handled d := by
          rw [handled_all (c := d) (fun m hm => by rw [hp] at hm; cases hm)]
          show (d.received ++ [_]).dropLast = _
          simp
        exact ⟨⟨_, rfl⟩, h.open_, fun m hm ht => by rw [hh]; exact h.gave m hm ht, fun i b l hr => h.answered i b l (by rw [← hh]; exact hr)⟩
    · -- handle
      subst he
      cases hpp : p with
      | none =>
        rw [hpp] at hp
        refine none_ ?_ (fun _ => hpp) (fun rd h => by cases h)
        simp only [act, hc, Option.map_some, hp]
      | some m =>
        rw [hpp] at hp
        have hlast := hhist.pending m hp
        have hmem : m ∈ d.received := List.mem_of_getLast? hlast
        have hhand : d.received = handled d ++ [m] := by
          have : handled d = d.received.dropLast := by unfold handled; rw [hp]
          rw [this]
          exact (List.dropLast_append_getLast? m hlast).symm
        rcases hask m hmem with hpo | ⟨i, b, n, x, rfl, hx, hbn⟩
        · have hlen : X.length ≤ 8 * d.bitfield.length := by
            have h1 := (hi.conn r d hc).length
            have h2 := (Bitfield.new_length cfg.store.info.pieces.length).2
            omega
          have hab := allBits hu hst hm1 hco
          have hout := polite_ok (cfg := cfg) hl hreq hc hm1 hlen (by have := hab.1; omega) (fun i hi => by
            cases hb : Bitfield.bit m1.bitfield i with
            | true => rfl
            | false => have := spare hu hst hm1 hco hb; omega) hpo l.fates (l.ok r)
          obtain ⟨c', o, ho, _, _, hrec, hstep⟩ := handle_conn hi hal hc hp l
          rw [hout] at ho
          subst ho
          have hd1' : d1 = { c' with phase := .serving none } := by
            rw [hstep] at hd1; injection hd1 with hd1; exact hd1.symm
          have hnp : ∀ m' ∈ ms, m'.typ ≠ PIECE := hms' fun q hq => by
            obtain ⟨_, ht, c, hc', hp'⟩ := hq
            rw [hc] at hc'; injection hc' with hc'; subst hc'
            rw [hp] at hp'; injection hp' with hp'; injection hp' with hp'; subst hp'
            exact hpo.notRequest ht
          have hph1 : d1.phase = .serving none := by rw [hd1']
          have hrec1 : d1.received = d.received := by rw [hd1']; exact hrec
          have hh : handled d1 = handled d ++ [m] := by rw [handled_all (fun m hm => by rw [hph1] at hm; cases hm), hrec1, hhand]
          refine ⟨d1, hd1, ⟨⟨none, hph1⟩, ?_, fun m' hm' ht => ?_, fun i b n hr => ?_⟩, ⟨ms, hms.symm⟩, .inl ⟨hrec1, .inr rfl⟩, fun _ => hph1, fun rd h => by cases h⟩
          · rw [hF.closed (by
              rintro (h | ⟨k, i, h, _⟩ | ⟨h, _⟩) <;> cases h)]
            exact h.open_
          · rw [hms] at hm'
            rcases List.mem_append.mp hm' with hm' | hm'
            · obtain ⟨i, b, n, h1, h2⟩ := h.gave m' hm' ht
              exact ⟨i, b, n, by rw [hh]; exact List.mem_append_left _ h1, h2⟩
            · exact absurd ht (hnp m' hm')
          · rw [hh] at hr
            rcases List.mem_append.mp hr with hr | hr
            · rw [hms]; exact List.mem_append_left _ (h.answered i b n hr)
            · rw [List.mem_singleton] at hr
              exact absurd (show m.typ = REQUEST by rw [← hr]; rfl) hpo.notRequest
        · have hilt : i < cfg.store.info.pieces.length := by rw [← hXl]; exact (List.getElem?_eq_some_iff.1 hx).1
          obtain ⟨es', hes⟩ := hst.hist
          obtain ⟨ds, y, h1, h2, h3⟩ := Storage.getBlock_whole hu es' (m := m1) (by rw [← hes]; exact hm1) hco (fun h => ⟨(hf h).1, (hf h).2.1⟩) hpl (b := b) (l := n) hilt
            (by have := hXx i x hx; omega) l.fates (hfa rfl)
          rw [hX ds h1, hx] at h2
          injection h2 with h2; subst h2
          rw [← hes] at h3
          have hcc : (⟨(request i b n).index, (request i b n).begin, (request i b n).length⟩ : Req) ∉ d.canceled := by
            rw [hhist.cancels (by rw [hp]; simp) (by rw [hp]; simp) (by rw [hp]; simp), noCancels _ fun m hm => (hask m (handled_sub m hm)).notCancel]
            simp
          have hstep := handle_request (cfg := cfg) hal hc hp rfl hch hcc h.open_ hok h3
          have han : answer X i b n = pieceMsg (request i b n).index (request i b n).begin (slice x b n) := by
            unfold answer
            rw [List.getD_eq_getElem?_getD, hx]
            rfl
          rw [hstep]
          have hlt := (List.getElem?_eq_some_iff.1 hc).1
          have hh : handled { d.gave (request i b n) (slice x b n) with phase := .serving none } = handled d ++ [request i b n] := by
            rw [handled_all (fun m hm => by cases hm)]
            exact hhand
          refine ⟨_, List.getElem?_set_self hlt, ⟨⟨none, rfl⟩, h.open_, fun m' hm' ht => ?_, fun i' b' n' hr => ?_⟩, ⟨_, rfl⟩, .inl ⟨rfl, .inr rfl⟩, fun _ => rfl, fun rd h => by cases h⟩
          · rcases List.mem_append.mp (show m' ∈ d.sent ++ [_] from hm') with hm' | hm'
            · obtain ⟨i', b', n', h1, h2⟩ := h.gave m' hm' ht
              exact ⟨i', b', n', by rw [hh]; exact List.mem_append_left _ h1, h2⟩
            · rw [List.mem_singleton] at hm'
              exact ⟨i, b, n, by rw [hh]; simp, by rw [hm', han]⟩
          · show _ ∈ d.sent ++ [_]
            rw [hh] at hr
            rcases List.mem_append.mp hr with hr | hr
            · exact List.mem_append_left _ (h.answered i' b' n' hr)
            · rw [List.mem_singleton] at hr
              injection hr with _ _ e1 e2 e3
              obtain ⟨rfl, rfl, rfl⟩ : i' = i ∧ b' = b ∧ n' = n := ⟨by exact_mod_cast e1, by exact_mod_cast e2, by exact_mod_cast e3⟩
              rw [han]; simp
    · subst he
      exact absurd rfl hnf
    · subst he
      exact none_ (by simp only [act, hat .leaving (by simp), Bool.false_eq_true, if_false]) (fun h => by cases h) (fun rd h => by cases h)
  · have hne : ev ≠ .handle r := fun he => hph (.inr (.inr (.inr (.inr (.inl he)))))
    have hnr : ∀ rd, ev ≠ .receive r rd := fun rd he => hph (.inr (.inr (.inr (.inl ⟨rd, he⟩))))
    have hnl : ev ≠ .leave r := fun he => hph (.inr (.inr (.inr (.inr (.inr (.inr he))))))
    by_cases hstop : ev = .stop
    · subst hstop
      exact none_ (by simp only [act, hcan, Bool.false_eq_true, if_false]) (fun h => by cases h) (fun rd h => by cases h)
    obtain ⟨f1, f2⟩ := hF.phase hph
    have hclosed := hF.closed (by
      rintro (h | ⟨k, i, _, h⟩ | ⟨h, _⟩)
      · exact hnl h
      · exact absurd rfl (hwhole.idle h).1
      · exact hstop h)
    have hnp : ∀ m ∈ ms, m.typ ≠ PIECE := hms' fun q hq => hne hq.1
    exact ⟨d1, hd1, h.same f1 hclosed f2 ⟨ms, hms, hnp⟩, ⟨ms, hms.symm⟩, .inl ⟨f2, .inl f1⟩, fun he => absurd he hne, fun rd he => absurd he (hnr rd)⟩

end Drip.P2P
