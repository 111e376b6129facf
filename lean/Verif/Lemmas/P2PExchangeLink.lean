import Verif.Lemmas.P2PExchange
/-
A client that downloads, and the seeders that it is connected with.
-/

namespace Drip.P2P
open PeerWire Metainfo Spec
open Storage (Fate World Mem FS Usable Original SInv TorrentResult)

variable {cfg : Cfg} {X : List Bytes} {r : Ref}

/-! ## What is sent -/

/-- The messages that are sent. -/
theorem sent_forms (w : World) (es : List (Event × Luck)) : ∀ (r : Ref) (c : Conn), (run cfg (init w) es).peers[r]? = some c → ∀ m ∈ c.sent,
    m.typ = UNCHOKE ∨ m.typ = INTERESTED ∨ m.typ = NOT_INTERESTED ∨ m.typ = PIECE ∨ m.typ = BITFIELD ∨ (∃ i : Nat, m = have_ i) ∨ ∃ i b l, m = request i b l := by
  refine run_rec (cfg := cfg) (P := fun _ s => ∀ (r : Ref) (c : Conn), s.peers[r]? = some c → ∀ m ∈ c.sent,
    m.typ = UNCHOKE ∨ m.typ = INTERESTED ∨ m.typ = NOT_INTERESTED ∨ m.typ = PIECE ∨ m.typ = BITFIELD ∨ (∃ i : Nat, m = have_ i) ∨ ∃ i b l, m = request i b l) _ (fun r c hc => by cases hc)
    (fun es e ih r c' hc' m hm => ?_) es
  rcases step_said (inv_run w es) e hc' m hm with ⟨c, hc, hm⟩ | h | h | h
  · exact ih r c hc m hm
  · rcases h with ⟨_, rfl, _⟩ | ⟨_, rfl, _⟩ | ⟨k, _, _, rfl⟩ | ⟨k, q, i, _, _, _, rfl⟩ | ⟨k, y, i, _, _, _, rfl, _⟩
    · exact .inr (.inl rfl)
    · exact .inl rfl
    · exact .inr (.inr (.inl rfl))
    · exact .inr (.inr (.inr (.inr (.inr (.inr ⟨_, _, _, rfl⟩)))))
    · exact .inr (.inr (.inr (.inr (.inr (.inl ⟨_, rfl⟩)))))
  · exact .inr (.inr (.inr (.inl h)))
  · exact .inr (.inr (.inr (.inr (.inl h))))

/-- Nothing has been stored. -/
def blank (cfg : Cfg) : World := Storage.run cfg.store [(.start, []), (.load, [])] World.empty

theorem seeded_run (h : Seeded cfg X s) : ∃ es, s = run cfg (init (blank cfg)) es := by
  induction h with
  | start => exact ⟨[], rfl⟩
  | join _ hj ih =>
    obtain ⟨es, rfl⟩ := ih
    obtain ⟨ip, id, b, port, e, hs, bf, un, l, _, _, _, _, _, _, _, _, _, _, _, rfl⟩ := hj
    exact ⟨_, (run_append ..).symm⟩
  | step _ he ih =>
    obtain ⟨es, rfl⟩ := ih
    exact ⟨_, (run_snoc ..).symm⟩

/-- Seeders request nothing. -/
theorem seeded_received (hO : Original cfg.store X) (h20 : cfg.store.info.sha1.length = 20) (h : Seeded cfg X s) :
    ∀ (r : Ref) (c : Conn), s.peers[r]? = some c → ∀ m ∈ c.received, m.typ ≠ REQUEST := by
  induction h with
  | start => intro r c hc; cases hc
  | @join s s' h hj ih =>
    obtain ⟨fs, m, h1, h2, _⟩ := seeded_all hO h20 h
    obtain ⟨_, _, _, _, _, c0, hp, b, _, hr⟩ := join_conn hO h20 h1 h2 hj
    intro r c hc
    rw [hp] at hc
    rcases Nat.lt_or_ge r s.peers.length with hlt | hge
    · rw [List.getElem?_append_left hlt] at hc
      exact ih r c hc
    · rw [List.getElem?_append_right hge] at hc
      have : c = c0 := by
        have := List.mem_of_getElem? hc
        simpa using this
      subst this
      intro m hm
      rw [hr] at hm
      rcases List.mem_cons.mp hm with rfl | hm
      · exact show BITFIELD ≠ REQUEST by decide
      · rw [List.mem_singleton.mp hm]
        exact show UNCHOKE ≠ REQUEST by decide
  | @step s e h he ih =>
    intro r c' hc'
    obtain ⟨es, hes⟩ := seeded_run h
    have hi : Inv cfg s := by rw [hes]; exact inv_run _ _
    obtain ⟨fs, m, h1, h2, h3⟩ := seeded_all hO h20 h
    obtain ⟨hmv, _⟩ := honest_all hO h1 h2 h3 he
    cases hc : s.peers[r]? with
    | none =>
      rw [(fresh_step hi h1.alive e hc hc').2.1]
      intro m hm; cases hm
    | some c =>
      obtain ⟨c1, hc1, _, h4⟩ := hmv.conns r c hc
      rw [hc'] at hc1; injection hc1 with hc1; subst hc1
      rcases h4 with ⟨h4, _⟩ | ⟨rd, l, msg, r', h4, _, h5, h6, _⟩
      · rw [h4]; exact ih r c hc
      · intro m hm
        rw [h6] at hm
        rcases List.mem_append.mp hm with hm | hm
        · exact ih r c hc m hm
        · rw [List.mem_singleton.mp hm]
          injection h4 with h4; subst h4
          obtain ⟨_, c2, i, b, n, _, _, hs⟩ := he
          obtain ⟨r2, hd⟩ := says_decode hs
          rw [h5] at hd
          injection hd with hd; injection hd with hd
          rw [hd]
          exact show PIECE ≠ REQUEST by decide

theorem blockOf_length (x : Bytes) (k : Nat) (h : k * 16384 < x.length) : k * 16384 + (Storage.blockOf x k).length ≤ x.length := by
  unfold Storage.blockOf Spec.slice
  simp only [List.length_take, List.length_drop]
  omega

/-- What a client that downloads from seeders says. -/
theorem asks (hu : Usable cfg.store) (hf : FilesOK cfg.store.info) (hO : Original cfg.store X) (h20 : cfg.store.info.sha1.length = 20) (h : Seeded cfg X s) {c : Conn} (hc : s.peers[r]? = some c) :
    ∀ m ∈ c.sent, Asks X m := by
  intro m hm
  obtain ⟨es, hes⟩ := seeded_run h
  obtain ⟨fs, mem, h1, h2, h3⟩ := seeded_all hO h20 h
  have hst : StoreInv cfg s := by rw [hes]; exact store_run' hu hf _ es
  have hmem : s.storage.mem = some mem := by rw [h1.storage]
  have hrep : ∀ i, Announces m i → i < X.length := by
    intro i ha
    have := hst.told r c m i mem hc hm ha hmem
    obtain ⟨es', he'⟩ := hst.hist
    rw [hO.contents.1]
    exact (Storage.C45_consistent hu es' (by rw [← he']; exact hmem)).2.1 i this
  rcases sent_forms (cfg := cfg) (blank cfg) es r c (by rw [← hes]; exact hc) m hm with h | h | h | h | h | ⟨i, rfl⟩ | ⟨i, b, l, rfl⟩
  · exact .inl (.inl h)
  · exact .inl (.inr (.inl h))
  · exact .inl (.inr (.inr (.inl h)))
  · have hh := (hist_run (cfg := cfg) (blank cfg) es r c (by rw [← hes]; exact hc)).answers
    have hn : requestKeys (handled c) = [] := by
      rw [requestKeys, List.filterMap_eq_nil_iff]
      intro m' hm'
      rw [if_neg (seeded_received hO h20 ‹_› r c hc m' (handled_sub m' hm'))]
    rw [hn] at hh
    have : (m.index, m.begin) ∈ pieceKeys c.sent := by
      unfold pieceKeys
      exact List.mem_filterMap.2 ⟨m, hm, by rw [if_pos h]⟩
    rw [List.sublist_nil.1 hh] at this
    cases this
  · exact .inl (.inr (.inr (.inr (.inr ⟨h, fun i hi => hrep i (.inr ⟨h, hi⟩)⟩))))
  · refine .inl (.inr (.inr (.inr (.inl ⟨rfl, ?_, ?_⟩))))
    · exact Int.natCast_nonneg i
    · have := hrep i (.inl ⟨rfl, rfl⟩)
      show (i : Int) < _
      omega
  · obtain ⟨j, k, x, hb, _, rfl, rfl, rfl⟩ := (h1.conns r c hc).sent i b l hm
    exact .inr ⟨j, k * 16384, _, x, rfl, hb.1, blockOf_length x k hb.2⟩

/-- It is about what exists. -/
theorem Asks.inRange {m : Message} (h : Asks X m) {info : Info} (hl : X.length = info.pieces.length) : InRange info m := by
  have ne : ∀ {a b : Int}, m.typ = a → m.typ = b → a ≠ b → False := fun h1 h2 h3 => h3 (h1 ▸ h2)
  rcases h with (h | h | h | ⟨h, _, h1⟩ | ⟨h, h1⟩) | ⟨i, b, l, x, rfl, hx, _⟩
  · exact ⟨fun h' => (ne h h' (by decide)).elim, fun h' => (ne h h' (by decide)).elim, fun h' => (ne h h' (by decide)).elim, fun h' => (ne h h' (by decide)).elim⟩
  · exact ⟨fun h' => (ne h h' (by decide)).elim, fun h' => (ne h h' (by decide)).elim, fun h' => (ne h h' (by decide)).elim, fun h' => (ne h h' (by decide)).elim⟩
  · exact ⟨fun h' => (ne h h' (by decide)).elim, fun h' => (ne h h' (by decide)).elim, fun h' => (ne h h' (by decide)).elim, fun h' => (ne h h' (by decide)).elim⟩
  · exact ⟨fun _ => by omega, fun h' => (ne h h' (by decide)).elim, fun h' => (ne h h' (by decide)).elim, fun h' => (ne h h' (by decide)).elim⟩
  · exact ⟨fun h' => (ne h h' (by decide)).elim, fun _ i hi => by rw [← hl]; exact h1 i hi, fun h' => (ne h h' (by decide)).elim, fun h' => (ne h h' (by decide)).elim⟩
  · have hlt := (List.getElem?_eq_some_iff.1 hx).1
    exact ⟨fun h' => absurd h' (show REQUEST ≠ HAVE by decide), fun h' => absurd h' (show REQUEST ≠ BITFIELD by decide), fun _ => by show (i : Int) < _; omega,
      fun h' => absurd h' (show REQUEST ≠ PIECE by decide)⟩

/-! ## A seeder -/

/-- What is known about a seeder that works. -/
theorem Seeder.alive {S : Seeder} {σ : Nat → State} (hu : Usable cfg.store) (hf : FilesOK cfg.store.info) (hW : S.Works cfg.store σ r) {n : Nat}
    (hd : ∀ e ∈ S.history n, Decent ⟨cfg.store, S.peerID⟩ e) : (S.at cfg.store n).alive = true := by
  obtain ⟨hs, m0, hm0, hw⟩ := hW.whole
  exact C124_alive (cfg := ⟨cfg.store, S.peerID⟩) hu hf S.disk hs S.past hW.past hW.idle.1 hm0 hw hW.idle.2 _ hd

theorem last_unchoke {l : List Int} (h1 : UNCHOKE ∈ l) (h2 : CHOKE ∉ l) : (l.filter fun t => t = CHOKE ∨ t = UNCHOKE).getLast? = some UNCHOKE := by
  cases h : (l.filter fun t => t = CHOKE ∨ t = UNCHOKE).getLast? with
  | none =>
    rw [List.getLast?_eq_none_iff, List.filter_eq_nil_iff] at h
    exact absurd (h _ h1) (by simp)
  | some x =>
    obtain ⟨h3, h4⟩ := List.mem_filter.1 (List.mem_of_getLast? h)
    rcases (by simpa using h4 : x = CHOKE ∨ x = UNCHOKE) with rfl | rfl
    · exact absurd h3 h2
    · rfl

theorem Seeder.hist {S : Seeder} {n : Nat} {x : Ref} {d : Conn} (hd : (S.at cfg.store n).peers[x]? = some d) : HistInv d :=
  hist_run (cfg := ⟨cfg.store, S.peerID⟩) (Storage.run cfg.store S.disk World.empty) (S.past ++ S.history n) x d (by rw [run_append]; exact hd)

theorem Seeder.unchoked {S : Seeder} {σ : Nat → State} (hW : S.Works cfg.store σ r) {n : Nat} {d : Conn} (hd : (S.at cfg.store n).peers[S.conn]? = some d) (ho : d.closed = false)
    (h : PeerWire.unchoke ∈ d.sent) : d.choked = false := by
  have hnone : (S.ready cfg.store).peers[S.conn]? = none := List.getElem?_eq_none hW.later
  have hst := (flags_from (cfg := ⟨cfg.store, S.peerID⟩) (good := (· = S.conn)) (s := S.ready cfg.store) (fun x c hx h => by rw [hx, hnone] at h; cases h) (S.history n)
    (fun e he x hx => by subst hx; exact hW.writes n e he) S.conn d rfl hd ho).inStep
  have hd' : (run ⟨cfg.store, S.peerID⟩ (init (Storage.run cfg.store S.disk World.empty)) (S.past ++ S.history n)).peers[S.conn]? = some d := by rw [run_append]; exact hd
  refine hst.choked.2 (last_unchoke (List.mem_map.2 ⟨_, h, rfl⟩) fun hm => ?_)
  obtain ⟨m, hm, ht⟩ := List.mem_map.1 hm
  rcases sent_forms (cfg := ⟨cfg.store, S.peerID⟩) _ _ _ d hd' m hm with h | h | h | h | h | ⟨i, rfl⟩ | ⟨i, b, l, rfl⟩
  · rw [h] at ht; exact absurd ht (by decide)
  · rw [h] at ht; exact absurd ht (by decide)
  · rw [h] at ht; exact absurd ht (by decide)
  · rw [h] at ht; exact absurd ht (by decide)
  · rw [h] at ht; exact absurd ht (by decide)
  · exact absurd ht (show HAVE ≠ CHOKE by decide)
  · exact absurd ht (show REQUEST ≠ CHOKE by decide)

/-- The next moment of a seeder. `cs`: what the other side has sent. -/
theorem Seeder.next {S : Seeder} {σ : Nat → State} (hu : Usable cfg.store) (hf : FilesOK cfg.store.info) (hpl : 0 ≤ cfg.store.info.pieceLength)
    (hX : ∀ ds, Contents cfg.store.sha1 cfg.store.info ds → ds = X) (hO : Original cfg.store X)
    (hW : S.Works cfg.store σ r) {n : Nat} (hde : ∀ e ∈ S.history n, Decent ⟨cfg.store, S.peerID⟩ e) {d : Conn} (hd : (S.at cfg.store n).peers[S.conn]? = some d) (hs : Serves X d)
    (h1 : PeerWire.unchoke ∈ d.sent) {cs : List Message} (hcs : d.received <+: cs) (hask : ∀ m ∈ cs, Asks X m)
    (hears : ∀ rd l, S.ev n = some (.receive S.conn rd, l) → ∃ w, Says rd w ∧ cs[d.received.length]? = some (ofWire w)) :
    ∃ d', (S.at cfg.store (n + 1)).peers[S.conn]? = some d' ∧ Serves X d' ∧ d.sent <+: d'.sent ∧ d'.received <+: cs ∧ (∀ e ∈ S.history (n + 1), Decent ⟨cfg.store, S.peerID⟩ e) ∧
      d.received.length ≤ d'.received.length ∧ (d.phase = .serving none → d'.received.length = d.received.length → d'.phase = .serving none) ∧
      (Happens S.ev n (.handle S.conn) → d'.phase = .serving none) ∧
      (∀ rd, Happens S.ev n (.receive S.conn rd) → d.phase = .serving none → d'.received.length = d.received.length + 1) := by
  cases he : S.ev n with
  | none =>
    have e1 : S.history (n + 1) = S.history n := by show _ ++ (S.ev n).toList = _; rw [he]; simp
    have e2 : S.at cfg.store (n + 1) = S.at cfg.store n := by unfold Seeder.at; rw [e1]
    rw [e1, e2]
    exact ⟨d, hd, hs, List.prefix_refl _, hcs, hde, Nat.le_refl _, fun h _ => h, fun ⟨l, h⟩ => (by rw [he] at h; cases h), fun rd ⟨l, h⟩ => (by rw [he] at h; cases h)⟩
  | some e =>
    have e1 : S.history (n + 1) = S.history n ++ [e] := by show _ ++ (S.ev n).toList = _; rw [he]; rfl
    have e2 : S.at cfg.store (n + 1) = step ⟨cfg.store, S.peerID⟩ (S.at cfg.store n) e := by unfold Seeder.at; rw [e1]; exact run_snoc ..
    have hnew : Decent ⟨cfg.store, S.peerID⟩ e := by
      by_cases hr : ∃ rd, e.1 = .receive S.conn rd
      · obtain ⟨rd, hr⟩ := hr
        obtain ⟨ev, l⟩ := e
        cases hr
        refine ⟨hW.powered n _ he, fun x rd' hx => ?_⟩
        injection hx with hx hx'; subst hx'
        obtain ⟨w, hw, hcw⟩ := hears rd l he
        obtain ⟨r', hdec⟩ := says_decode hw
        rw [hdec]
        refine ⟨by simp, fun m rd' hm => ?_⟩
        injection hm with hm; injection hm with hm
        rw [← hm]
        exact (hask _ (List.mem_of_getElem? hcw)).inRange hO.contents.1
      · exact hW.decent' n e he fun rd h => hr ⟨rd, h⟩
    have hde' : ∀ e ∈ S.history (n + 1), Decent ⟨cfg.store, S.peerID⟩ e := by
      intro x hx
      rw [e1] at hx
      rcases List.mem_append.mp hx with hx | hx
      · exact hde x hx
      · rw [List.mem_singleton.mp hx]; exact hnew
    obtain ⟨_, m0, hm0, hw⟩ := hW.whole
    obtain ⟨u1, u2, u3⟩ := hW.up n
    have hok : e.2.ok S.conn = true := hW.writes (n + 1) e (by rw [e1]; simp)
    obtain ⟨d', g1, g2, g3, g4, g5, g6⟩ := serve_step (cfg := ⟨cfg.store, S.peerID⟩) hu hf hpl hX hO.contents.1 (fun i x hx => (hO.contents.2 i x hx).2) S.disk S.past hm0
      (coalesced_of (cfg := ⟨cfg.store, S.peerID⟩) hu S.disk S.past hm0 hw) hW.idle.2 (S.history n) (s := S.at cfg.store n) rfl (Seeder.alive hu hf hW hde) u1 u2 u3 hd hs (fun m hm => hask m (hcs.subset hm))
      (Seeder.unchoked hW hd hs.open_ h1) e hok (fun h => hW.reads n e.2 (by rw [he, ← h])) (fun h => hW.holds n e.2 (by rw [he, ← h]))
      (fun rd h => by obtain ⟨w, hw, _⟩ := hears rd e.2 (by rw [he, ← h]); exact ⟨w, hw⟩)
    rw [e2]
    refine ⟨d', g1, g2, g3, ?_, hde', ?_, fun hp hl => ?_, fun ⟨l, h⟩ => g5 (by rw [he] at h; injection h with h; rw [h]), fun rd ⟨l, h⟩ => g6 rd (by rw [he] at h; injection h with h; rw [h])⟩
    · rcases g4 with ⟨g4, _⟩ | ⟨rd, w, h, hw, _, g4⟩
      · rw [g4]; exact hcs
      · obtain ⟨w', hw', hcw⟩ := hears rd e.2 (by rw [he, ← h])
        obtain ⟨_, k1⟩ := says_decode hw
        obtain ⟨_, k2⟩ := says_decode hw'
        rw [k1] at k2
        injection k2 with k2; injection k2 with k2
        rw [g4, k2]
        obtain ⟨t, ht⟩ := hcs
        rw [← ht, List.getElem?_append_right (Nat.le_refl _), Nat.sub_self] at hcw
        obtain ⟨u, hu⟩ : ∃ u, t = ofWire w' :: u := by
          cases t with
          | nil => cases hcw
          | cons a u => exact ⟨u, by simpa using hcw⟩
        exact ⟨u, by rw [← ht, hu]; simp⟩
    · rcases g4 with ⟨g4, _⟩ | ⟨rd, w, h, hw, _, g4⟩ <;> rw [g4]
      · exact Nat.le_refl _
      · simp
    · rcases g4 with ⟨g4, g7 | g7⟩ | ⟨rd, w, h, hw, _, g4⟩
      · rw [g7]; exact hp
      · exact g5 g7
      · rw [g4] at hl; simp at hl

/-! ## The two sides of a connection -/

/-- The connection at both sides. -/
structure Link (cfg : Cfg) (X : List Bytes) (S : Seeder) (n : Nat) (c d : Conn) : Prop where
  here : (S.at cfg.store n).peers[S.conn]? = some d
  serves : Serves X d
  heard : d.received <+: c.sent
  read : c.received <+: d.sent
  two : 2 ≤ c.received.length
  unchoke : d.sent[1]? = some PeerWire.unchoke
  decent : ∀ e ∈ S.history n, Decent ⟨cfg.store, S.peerID⟩ e

theorem ofWire_typ {w : Wire} : ((ofWire w).typ = BITFIELD → ∃ b, w = .bitfield b) ∧ ((ofWire w).typ = UNCHOKE → w = .unchoke) ∧ ((ofWire w).typ = PIECE → ∃ i b d, w = .piece i b d) := by
  cases w with
  | keepalive => exact ⟨fun h => absurd h (show KEEPALIVE ≠ BITFIELD by decide), fun h => absurd h (show KEEPALIVE ≠ UNCHOKE by decide), fun h => absurd h (show KEEPALIVE ≠ PIECE by decide)⟩
  | choke => exact ⟨fun h => absurd h (show CHOKE ≠ BITFIELD by decide), fun h => absurd h (show CHOKE ≠ UNCHOKE by decide), fun h => absurd h (show CHOKE ≠ PIECE by decide)⟩
  | unchoke => exact ⟨fun h => absurd h (show UNCHOKE ≠ BITFIELD by decide), fun _ => rfl, fun h => absurd h (show UNCHOKE ≠ PIECE by decide)⟩
  | interested => exact ⟨fun h => absurd h (show INTERESTED ≠ BITFIELD by decide), fun h => absurd h (show INTERESTED ≠ UNCHOKE by decide), fun h => absurd h (show INTERESTED ≠ PIECE by decide)⟩
  | notInterested => exact ⟨fun h => absurd h (show NOT_INTERESTED ≠ BITFIELD by decide), fun h => absurd h (show NOT_INTERESTED ≠ UNCHOKE by decide), fun h => absurd h (show NOT_INTERESTED ≠ PIECE by decide)⟩
  | have_ i => exact ⟨fun h => absurd h (show HAVE ≠ BITFIELD by decide), fun h => absurd h (show HAVE ≠ UNCHOKE by decide), fun h => absurd h (show HAVE ≠ PIECE by decide)⟩
  | bitfield b => exact ⟨fun _ => ⟨b, rfl⟩, fun h => absurd h (show BITFIELD ≠ UNCHOKE by decide), fun h => absurd h (show BITFIELD ≠ PIECE by decide)⟩
  | request i b l => exact ⟨fun h => absurd h (show REQUEST ≠ BITFIELD by decide), fun h => absurd h (show REQUEST ≠ UNCHOKE by decide), fun h => absurd h (show REQUEST ≠ PIECE by decide)⟩
  | piece i b d => exact ⟨fun h => absurd h (show PIECE ≠ BITFIELD by decide), fun h => absurd h (show PIECE ≠ UNCHOKE by decide), fun _ => ⟨i, b, d, rfl⟩⟩
  | cancel i b l => exact ⟨fun h => absurd h (show CANCEL ≠ BITFIELD by decide), fun h => absurd h (show CANCEL ≠ UNCHOKE by decide), fun h => absurd h (show CANCEL ≠ PIECE by decide)⟩

/-- There is one bitfield of a complete torrent. -/
theorem allBits_unique {n : Nat} {a b : Bytes} (ha : AllBits n a) (hb : AllBits n b) : a = b := by
  refine List.ext_getElem? fun j => ?_
  have hl : a.length = b.length := by rw [ha.1, hb.1]
  by_cases hj : j < a.length
  · rw [List.getElem?_eq_getElem hj, List.getElem?_eq_getElem (hl ▸ hj)]
    congr 1
    apply UInt8.toNat_inj.1
    refine Nat.eq_of_testBit_eq fun k => ?_
    by_cases hk : k < 8
    · have h1 := ha.2 (8 * j + (7 - k))
      have h2 := hb.2 (8 * j + (7 - k))
      rw [show (8 * j + (7 - k)) / 8 = j by omega, show 7 - (8 * j + (7 - k)) % 8 = k by omega, List.getD_eq_getElem?_getD] at h1 h2
      rw [List.getElem?_eq_getElem hj] at h1
      rw [List.getElem?_eq_getElem (hl ▸ hj)] at h2
      exact h1.trans h2.symm
    · have : ∀ x : UInt8, x.toNat.testBit k = false := fun x =>
        Nat.testBit_lt_two_pow (Nat.lt_of_lt_of_le x.toNat_lt (Nat.pow_le_pow_right (by decide) (by omega)))
      rw [this, this]
  · rw [List.getElem?_eq_none (by omega), List.getElem?_eq_none (by omega)]

/-- What a seeder says on a connection with a client that downloads. -/
theorem Seeder.says {S : Seeder} {σ : Nat → State} (hu : Usable cfg.store) (hf : FilesOK cfg.store.info) (hO : Original cfg.store X) (hW : S.Works cfg.store σ r) {n : Nat}
    (hde : ∀ e ∈ S.history n, Decent ⟨cfg.store, S.peerID⟩ e) {d : Conn} (hd : (S.at cfg.store n).peers[S.conn]? = some d) (hp : ∃ p, d.phase = .serving p) (ho : d.closed = false)
    (hask : ∀ m ∈ d.received, Asks X m) :
    ∃ b rest, d.sent = bitfieldMsg b :: rest ∧ AllBits X.length b ∧ (∀ m ∈ rest, m.typ = UNCHOKE ∨ m.typ = PIECE) ∧ (rest.filter fun m => m.typ = UNCHOKE).length ≤ 1 := by
  obtain ⟨_, m0, hm0, hw⟩ := hW.whole
  rw [hO.contents.1]
  refine C124_says (cfg := ⟨cfg.store, S.peerID⟩) hu hf S.disk S.past hm0 hw hW.idle.2 hW.later (S.history n) (Seeder.alive hu hf hW hde) (hW.writes n) hd hp ho fun m hm i ha => ?_
  have hr := (hask m hm).inRange hO.contents.1
  rcases ha with ⟨h1, h2⟩ | ⟨h1, h2⟩
  · have := hr.have_ h1
    show i < cfg.store.info.pieces.length
    omega
  · exact hr.bitfield h1 i h2

/-- After the first two messages, a seeder sends answers. -/
theorem Link.answers {S : Seeder} {σ : Nat → State} (hu : Usable cfg.store) (hf : FilesOK cfg.store.info) (hO : Original cfg.store X) (hW : S.Works cfg.store σ r) {n : Nat} {c d : Conn}
    (h : Link cfg X S n c d) (hask : ∀ m ∈ c.sent, Asks X m) {k : Nat} (hk : 2 ≤ k) {m : Message} (hm : d.sent[k]? = some m) :
    ∃ i b l : Nat, request i b l ∈ c.sent ∧ m = answer X i b l := by
  obtain ⟨b, rest, h1, _, h2, h3⟩ := Seeder.says hu hf hO hW h.decent h.here h.serves.serving h.serves.open_ fun m hm => hask m (h.heard.subset hm)
  obtain ⟨k, rfl⟩ : ∃ j, k = j + 2 := ⟨k - 2, by omega⟩
  have hu1 := h.unchoke
  have hms := List.mem_of_getElem? hm
  have ht : m.typ = PIECE := by
    rw [h1] at hm hu1
    cases rest with
    | nil => cases hu1
    | cons a rest =>
      simp only [List.getElem?_cons_succ, List.getElem?_cons_zero, Option.some.injEq] at hu1
      subst hu1
      simp only [List.getElem?_cons_succ] at hm
      rcases h2 m (by simp [List.mem_of_getElem? hm]) with h4 | h4
      · rw [List.filter_cons_of_pos (by exact decide_eq_true rfl)] at h3
        have : m ∈ rest.filter fun m => m.typ = UNCHOKE := List.mem_filter.2 ⟨List.mem_of_getElem? hm, by simpa using h4⟩
        have := List.length_pos_of_mem this
        rw [List.length_cons] at h3
        omega
      · exact h4
  obtain ⟨i, b, l, g1, g2⟩ := h.serves.gave m hms ht
  exact ⟨i, b, l, h.heard.subset (handled_sub _ g1), g2⟩

theorem answer_wire {w : Wire} {i b l : Nat} (h : ofWire w = answer X i b l) : w = reply X i b l := by
  obtain ⟨i', b', d', rfl⟩ := ofWire_typ.2.2 (show (ofWire w).typ = PIECE by rw [h]; rfl)
  injection h with _ _ h1 h2 h3 h4
  obtain rfl : i' = i := by exact_mod_cast h1
  obtain rfl : b' = b := by exact_mod_cast h2
  unfold reply
  congr 1

/-! ## All of them -/

/-- What holds at the moment `n`. -/
structure Between (cfg : Cfg) (X : List Bytes) (S : Nat → Seeder) (σ : Nat → State) (n : Nat) : Prop where
  seeded : Seeded cfg X (σ n)
  works : ∀ r, r < (σ n).peers.length → (S r).Works cfg.store σ r
  links : ∀ (r : Nat) (c : Conn), (σ n).peers[r]? = some c → ∃ d, Link cfg X (S r) n c d
  grows : ∀ k, k ≤ n → (σ k).peers.length ≤ (σ n).peers.length

/-- A seeder that has not yet joined has not read anything that kills it. -/
theorem Seeder.early {S : Seeder} {σ : Nat → State} (hW : S.Works cfg.store σ r) : ∀ n, (∀ k, k < n → (σ k).peers.length ≤ r) → ∀ e ∈ S.history n, Decent ⟨cfg.store, S.peerID⟩ e
  | 0, _ => fun e he => hW.decent e he
  | n + 1, h => by
    intro e he
    rcases List.mem_append.mp (show e ∈ S.history n ++ (S.ev n).toList from he) with he | he
    · exact Seeder.early hW n (fun k hk => h k (by omega)) e he
    · have he : S.ev n = some e := by simpa using he
      refine hW.decent' n e he fun rd hr => ?_
      obtain ⟨ev, l⟩ := e
      cases hr
      obtain ⟨d, _, c, w, hc, _⟩ := hW.hears n rd l he
      have := (List.getElem?_eq_some_iff.1 hc).1
      have := h n (by omega)
      omega

theorem step_conn {s : State} (hi : Inv cfg s) (e : Event × Luck) {c : Conn} (hc : s.peers[r]? = some c) : ∃ c', (step cfg s e).peers[r]? = some c' ∧ c.sent <+: c'.sent := by
  obtain ⟨c', h1, h2⟩ := (step_small (cfg := cfg) e hi.pendOK).frame (mayOf_good hi e.1) hc
  obtain ⟨ms, h3, _⟩ := h2.sent
  exact ⟨c', h1, ms, h3.symm⟩

/-- Nobody joins. -/
theorem honest_len {s : State} {fs fs' : FS} {m m' : Mem} (hi : Inv cfg s) (h : Seeding cfg X s fs m) (e : Event × Luck) (h' : Seeding cfg X (step cfg s e) fs' m') :
    (step cfg s e).peers.length = s.peers.length := by
  rcases Nat.lt_trichotomy (step cfg s e).peers.length s.peers.length with hlt | heq | hgt
  · obtain ⟨c', hc', _⟩ := step_conn hi e (List.getElem?_eq_getElem hlt)
    rw [List.getElem?_eq_none (Nat.le_refl _)] at hc'
    cases hc'
  · exact heq
  · have h1 := (fresh_step hi h.alive e (List.getElem?_eq_none (Nat.le_refl _)) (List.getElem?_eq_getElem hgt)).1
    rcases (h'.conns _ _ (List.getElem?_eq_getElem hgt)).phase with h2 | ⟨_, _, _, _, _, h2⟩ <;> rw [h1] at h2 <;> cases h2

/-- The next moment. -/
theorem between_next {S : Nat → Seeder} {σ : Nat → State} {ev : Nat → Option (Event × Luck)} (hu : Usable cfg.store) (hf : FilesOK cfg.store.info) (hpl : 0 ≤ cfg.store.info.pieceLength)
    (hX : ∀ ds, Contents cfg.store.sha1 cfg.store.info ds → ds = X) (hO : Original cfg.store X) (h20 : cfg.store.info.sha1.length = 20) (h : Exchange cfg S σ ev) {n : Nat}
    (hB : Between cfg X S σ n) :
    Between cfg X S σ (n + 1) ∧ match ev n with
      | some e => Honest X (σ n) e
      | none => Joins cfg X (σ n) (σ (n + 1)) := by
  obtain ⟨es, hes⟩ := seeded_run hB.seeded
  have hi : Inv cfg (σ n) := by rw [hes]; exact inv_run _ _
  obtain ⟨fs, m, h1, h2, h3⟩ := seeded_all hO h20 hB.seeded
  -- the other side of a connection that exists
  have other : ∀ (r : Nat) (c d : Conn), (σ n).peers[r]? = some c → Link cfg X (S r) n c d → ∃ d', ((S r).at cfg.store (n + 1)).peers[(S r).conn]? = some d' ∧ Serves X d' ∧ d.sent <+: d'.sent ∧
      d'.received <+: c.sent ∧ ∀ e ∈ (S r).history (n + 1), Decent ⟨cfg.store, (S r).peerID⟩ e := by
    intro r c d hc hL
    have hW := hB.works r (List.getElem?_eq_some_iff.1 hc).1
    obtain ⟨d', g1, g2, g3, g4, g5, _⟩ := Seeder.next hu hf hpl hX hO hW hL.decent hL.here hL.serves (List.mem_of_getElem? hL.unchoke) hL.heard (asks hu hf hO h20 hB.seeded hc) fun rd l he => by
      obtain ⟨d1, hd1, c1, w, hc1, hw, hs⟩ := hW.hears n rd l he
      rw [hL.here] at hd1; injection hd1 with hd1; subst hd1
      rw [hc] at hc1; injection hc1 with hc1; subst hc1
      exact ⟨w, hs, hw⟩
    exact ⟨d', g1, g2, g3, g4, g5⟩
  have pre1 : ∀ {a b : List Message} {m : Message}, a <+: b → a[1]? = some m → b[1]? = some m := by
    rintro a b m ⟨t, rfl⟩ hm
    rw [List.getElem?_append_left (List.getElem?_eq_some_iff.1 hm).1, hm]
  have hnext := h.next n
  cases he : ev n with
  | some e =>
    rw [he] at hnext
    obtain ⟨hal, hst⟩ := hnext
    have honest : Honest X (σ n) e := by
      obtain ⟨ev, l⟩ := e
      refine ⟨hal.1, ?_⟩
      cases ev with
      | receive r rd =>
        obtain ⟨c, hc, d, w, hd, hw, hs⟩ := hal.2
        obtain ⟨d1, hL⟩ := hB.links r c hc
        rw [hL.here] at hd; injection hd with hd; subst hd
        obtain ⟨i, b, n', g1, g2⟩ := hL.answers hu hf hO (hB.works r (List.getElem?_eq_some_iff.1 hc).1) (asks hu hf hO h20 hB.seeded hc) hL.two hw
        exact ⟨c, i, b, n', hc, g1, by rw [← answer_wire g2]; exact hs⟩
      | _ => exact hal.2
    obtain ⟨hmv, fs', m', h1', _⟩ := honest_all hO h1 h2 h3 honest
    have hlen : (σ (n + 1)).peers.length = (σ n).peers.length := by rw [hst]; exact honest_len hi h1 e h1'
    refine ⟨⟨by rw [hst]; exact .step hB.seeded honest, fun r hr => hB.works r (by omega), fun r c' hc' => ?_, fun k hk => ?_⟩, honest⟩
    · have hlt : r < (σ n).peers.length := by rw [← hlen]; exact (List.getElem?_eq_some_iff.1 hc').1
      obtain ⟨c, hc⟩ : ∃ c, (σ n).peers[r]? = some c := ⟨_, List.getElem?_eq_getElem hlt⟩
      obtain ⟨d, hL⟩ := hB.links r c hc
      obtain ⟨d', g1, g2, g3, g4, g5⟩ := other r c d hc hL
      obtain ⟨c1, hc1, hsent⟩ := step_conn hi e hc
      obtain ⟨c2, hc2, _, hrec⟩ := hmv.conns r c hc
      rw [hst] at hc'
      rw [hc'] at hc1 hc2
      injection hc1 with hc1; subst hc1
      injection hc2 with hc2; subst hc2
      have hread : c'.received <+: d.sent ∧ 2 ≤ c'.received.length := by
        rcases hrec with ⟨hrec, _⟩ | ⟨rd, l, msg, r', hev, _, hdec, hrec, _⟩
        · rw [hrec]; exact ⟨hL.read, hL.two⟩
        · injection hev with hev; subst hev
          obtain ⟨_, c3, hc3, d3, w, hd3, hw, hs⟩ := hal
          rw [hc] at hc3; injection hc3 with hc3; subst hc3
          rw [hL.here] at hd3; injection hd3 with hd3; subst hd3
          obtain ⟨_, k1⟩ := says_decode hs
          rw [hdec] at k1
          injection k1 with k1; injection k1 with k1
          rw [hrec, k1]
          refine ⟨?_, by have := hL.two; simp; omega⟩
          obtain ⟨t, ht⟩ := hL.read
          rw [← ht, List.getElem?_append_right (Nat.le_refl _), Nat.sub_self] at hw
          cases t with
          | nil => cases hw
          | cons a u =>
            have : a = ofWire w := by simpa using hw
            exact ⟨u, by rw [← ht, this]; simp⟩
      exact ⟨d', g1, g2, g4.trans hsent, hread.1.trans g3, hread.2, pre1 g3 hL.unchoke, g5⟩
    · rcases Nat.lt_or_ge k (n + 1) with hk | hk
      · rw [hlen]; exact hB.grows k (by omega)
      · have : k = n + 1 := by omega
        rw [this]; exact Nat.le_refl _
  | none =>
    rw [he] at hnext
    have hW := h.seeders n he
    obtain ⟨S0, hS0⟩ : ∃ S0, S0 = S (σ n).peers.length := ⟨_, rfl⟩
    rw [← hS0] at hnext hW
    obtain ⟨⟨d, p, hd, hp, ho, hr⟩, ip, port, e, hs, bf, un, l, a1, a2, a3, a4, a5, a6, ⟨d1, w1, hd1, hw1, hb⟩, ⟨d2, w2, hd2, hw2, hun⟩, hok, hfa, hrun⟩ := hnext
    rw [hd] at hd1 hd2
    injection hd1 with hd1; subst hd1
    injection hd2 with hd2; subst hd2
    have hde := Seeder.early hW n fun k hk => hB.grows k (by omega)
    obtain ⟨b, rest, s1, s2, s3, s4⟩ := Seeder.says hu hf hO hW hde hd ⟨p, hp⟩ ho (fun m hm => by rw [hr] at hm; cases hm)
    have hh0 : handled d = [] := by unfold handled; split <;> rw [hr] <;> rfl
    have hnp : ∀ m ∈ d.sent, m.typ ≠ PIECE := by
      intro m hm ht
      have hh := (Seeder.hist (cfg := cfg) hd).answers
      rw [hh0] at hh
      have : (m.index, m.begin) ∈ pieceKeys d.sent := List.mem_filterMap.2 ⟨m, hm, by rw [if_pos ht]⟩
      rw [List.sublist_nil.1 hh] at this
      cases this
    have hw1' : w1 = .bitfield b := by
      rw [s1] at hw1
      have hw1 : bitfieldMsg b = ofWire w1 := by simpa using hw1
      obtain ⟨b', rfl⟩ := ofWire_typ.1 (show (ofWire w1).typ = BITFIELD by rw [← hw1]; rfl)
      have : b = b' := congrArg Message.bitfield hw1
      rw [this]
    have hw2' : w2 = .unchoke := by
      have h4 := List.mem_of_getElem? hw2
      rw [s1] at hw2
      have hw2 : rest[0]? = some (ofWire w2) := by simpa using hw2
      rcases s3 _ (List.mem_of_getElem? hw2) with h5 | h5
      · exact ofWire_typ.2.1 h5
      · exact absurd h5 (hnp _ h4)
    rw [hw1'] at hb
    rw [hw2'] at hun hw2
    have hj : Joins cfg X (σ n) (σ (n + 1)) := ⟨ip, S0.peerID, b, port, e, hs, bf, un, l, a1, a2, a3, a4, a5, a6, hb, s2, hun, hok, hfa, hrun⟩
    obtain ⟨_, _, _, _, _, c0, hpe, b', hb', hrec⟩ := join_conn hO h20 h1 h2 hj
    have hlen : (σ (n + 1)).peers.length = (σ n).peers.length + 1 := by rw [hpe]; simp
    refine ⟨⟨.join hB.seeded hj, fun r hr => ?_, fun r c' hc' => ?_, fun k hk => ?_⟩, hj⟩
    · by_cases hlt : r < (σ n).peers.length
      · exact hB.works r hlt
      · have : r = (σ n).peers.length := by omega
        subst this
        rw [← hS0]; exact hW
    · by_cases hlt : r < (σ n).peers.length
      · rw [hpe, List.getElem?_append_left hlt] at hc'
        obtain ⟨d, hL⟩ := hB.links r c' hc'
        obtain ⟨d', g1, g2, g3, g4, g5⟩ := other r c' d hc' hL
        exact ⟨d', g1, g2, g4, hL.read.trans g3, hL.two, pre1 g3 hL.unchoke, g5⟩
      · have : r = (σ n).peers.length := by have := (List.getElem?_eq_some_iff.1 hc').1; omega
        subst this
        rw [hpe] at hc'
        have : c' = c0 := by simpa using hc'.symm
        subst this
        rw [← hS0]
        have hsv : Serves X d := ⟨⟨p, hp⟩, ho, fun m hm ht => absurd ht (hnp m hm), fun i b l hm => by rw [hh0] at hm; cases hm⟩
        have hw2 : d.sent[1]? = some PeerWire.unchoke := hw2
        obtain ⟨d', g1, g2, g3, g4, g5, _⟩ := Seeder.next hu hf hpl hX hO hW hde hd hsv (List.mem_of_getElem? hw2) (cs := []) (by rw [hr]; exact List.prefix_refl _) (fun m hm => by cases hm)
          fun rd l he => by
            obtain ⟨_, _, c1, w, hc1, _⟩ := hW.hears n rd l he
            have := (List.getElem?_eq_some_iff.1 hc1).1
            omega
        refine ⟨d', g1, g2, by rw [List.prefix_nil.1 g4]; exact List.nil_prefix, ?_, by rw [hrec]; exact Nat.le_refl 2, pre1 g3 hw2, g5⟩
        rw [hrec, allBits_unique hb' s2]
        refine List.IsPrefix.trans ?_ g3
        rw [s1] at hw2 ⊢
        cases rest with
        | nil => cases hw2
        | cons a rest =>
          have : a = PeerWire.unchoke := by simpa using hw2
          exact ⟨rest, by rw [this]; rfl⟩
    · rcases Nat.lt_or_ge k (n + 1) with hk | hk
      · have := hB.grows k (by omega); omega
      · have : k = n + 1 := by omega
        rw [this]; exact Nat.le_refl _

end Drip.P2P
