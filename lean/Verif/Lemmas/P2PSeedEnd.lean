import Verif.Lemmas.P2PSeedJoin
/-
A download from seeders can be completed.
-/

namespace Drip.P2P
open PeerWire Metainfo Spec
open Storage (Fate World Mem FS Op runOp putBlock resetPiece SInv Exact Original Done blockOf Held)

variable {cfg : Cfg} {X : List Bytes} {s : State} {fs : FS} {m : Mem}

/-- It can go on until `P`. -/
def Reaches (cfg : Cfg) (X : List Bytes) (s : State) (P : State → Prop) : Prop := ∃ es, HonestRun cfg X s es ∧ P (run cfg s es)

theorem Reaches.refl {P : State → Prop} (h : P s) : Reaches cfg X s P := ⟨[], trivial, h⟩

theorem honestRun_append (es es' : List (Event × Luck)) : ∀ {s : State}, HonestRun cfg X s es → HonestRun cfg X (run cfg s es) es' → HonestRun cfg X s (es ++ es') := by
  induction es with
  | nil => intro s _ h; exact h
  | cons e es ih => intro s h h'; exact ⟨h.1, ih h.2 h'⟩

theorem Reaches.trans {P Q : State → Prop} (h : Reaches cfg X s P) (h' : ∀ s', P s' → Reaches cfg X s' Q) : Reaches cfg X s Q := by
  obtain ⟨es, h1, h2⟩ := h
  obtain ⟨es', h3, h4⟩ := h' _ h2
  exact ⟨es ++ es', honestRun_append es es' h1 h3, by rw [run_append]; exact h4⟩

theorem Reaches.mono {P Q : State → Prop} (h : Reaches cfg X s P) (h' : ∀ s', P s' → Q s') : Reaches cfg X s Q := by
  obtain ⟨es, h1, h2⟩ := h
  exact ⟨es, h1, h' _ h2⟩

theorem Reaches.step {P : State → Prop} {e : Event} {l : Luck} (he : Honest X s (e, l)) (h : P (P2P.step cfg s (e, l))) : Reaches cfg X s P := ⟨[(e, l)], ⟨he, trivial⟩, h⟩

/-- The storage tells what is in memory. -/
theorem Seeding.same {s s' : State} {fs fs' : FS} {m m' : Mem} (h : Seeding cfg X s fs m) (h' : Seeding cfg X s' fs' m') (hs : s'.storage = s.storage) : fs' = fs ∧ m' = m := by
  have := h'.storage
  rw [hs, h.storage] at this
  injection this with h1 h2
  injection h2 with h2
  exact ⟨h1.symm, h2.symm⟩

/-- What is kept while a piece is downloaded. -/
structure Kept (cfg : Cfg) (X : List Bytes) (s : State) (m : Mem) (s' : State) (m' : Mem) : Prop where
  jobs : s'.jobs = s.jobs
  len : s'.peers.length = s.peers.length
  done : ∀ i, Done m i → Done m' i
  held : ∀ i k, Held m i k → Held m' i k

theorem Kept.refl (s : State) (m : Mem) : Kept cfg X s m s m := ⟨rfl, rfl, fun _ => id, fun _ _ => id⟩
theorem Kept.trans {a b c : State} {ma mb mc : Mem} (h : Kept cfg X a ma b mb) (h' : Kept cfg X b mb c mc) : Kept cfg X a ma c mc :=
  ⟨h'.jobs.trans h.jobs, h'.len.trans h.len, fun i hi => h'.done i (h.done i hi), fun i k hk => h'.held i k (h.held i k hk)⟩

theorem noFates : ∀ f ∈ ({} : Luck).fates, f = Fate.ok := by intro f hf; cases hf

/-- A pending message is handled. -/
theorem idle (hO : Original cfg.store X) (h : Seeding cfg X s fs m) (hl : s.locked = false) {r : Nat} (hr : r < s.peers.length) :
    Reaches cfg X s fun s' => ∃ fs' m' c', Seeding cfg X s' fs' m' ∧ s'.locked = false ∧ Kept cfg X s m s' m' ∧ s'.peers[r]? = some c' ∧ c'.phase = .serving none := by
  obtain ⟨c, hc, hC⟩ := h.conn hr
  rcases hC.phase with hp | ⟨i, k, x, hb, hst, hp⟩
  · exact .refl ⟨fs, m, c, h, hl, .refl s m, hc, hp⟩
  · obtain ⟨fs', m', h1, h2, h3, h4, h5, _, h7, c', h8, h9⟩ := handle_put hO h hl hc hb hst hp {} noFates
    exact .step (e := .handle r) (l := {}) ⟨noFates, trivial⟩ ⟨fs', m', c', h1, h2, ⟨h4, h3, h5, h7⟩, h8, h9⟩

/-- A block is downloaded. -/
theorem get_block (hO : Original cfg.store X) (hn : X.length ≤ 2 ^ 32) (hsz : ∀ x ∈ X, x.length + 9 < 2 ^ 32) (h : Seeding cfg X s fs m) (hl : s.locked = false) {k r i b : Nat} {x : Bytes}
    (hk : s.jobs[k]? = some ⟨r, i, .running⟩) (hb : IsBlock X i b x) :
    Reaches cfg X s fun s' => ∃ fs' m', Seeding cfg X s' fs' m' ∧ s'.locked = false ∧ Kept cfg X s m s' m' ∧ Held m' i b := by
  have hr := (h.jobs _ (List.mem_of_getElem? hk)).1
  refine (idle hO h hl hr).trans ?_
  rintro s1 ⟨fs1, m1, c1, h1, hl1, K1, hc1, hp1⟩
  have hk1 : s1.jobs[k]? = some ⟨r, i, .running⟩ := by rw [K1.jobs]; exact hk
  have hC1 := h1.conns r c1 hc1
  have hq := block_request hO hb
  -- the request
  have e2 : P2P.step cfg s1 (.request k ⟨i, (b * 16384 : Nat), (blockOf x b).length⟩, {}) =
      { s1 with peers := s1.peers.modify r fun c => { c with sent := c.sent ++ [request i (b * 16384 : Nat) (blockOf x b).length] } } := by
    refine step_of (o := .ok ()) h1.alive ?_ (.inl rfl)
    simp only [act, hk1, if_pos hq]
    unfold send
    rw [bind_apply, getConn_some hc1]
    simp only
    rw [if_neg (by rw [hC1.unchoked]; simp), if_pos (by rw [hC1.open_]; decide), setConn_apply]
  obtain ⟨fs2, m2, h2, hl2, hlen2, hd2⟩ := request_goes hO h1 hl1 k ⟨i, (b * 16384 : Nat), (blockOf x b).length⟩ {}
  obtain ⟨rfl, rfl⟩ := h1.same h2 (by rw [e2])
  refine Reaches.trans (.step (e := .request k ⟨i, (b * 16384 : Nat), (blockOf x b).length⟩) (l := {}) (P := fun s' => s' = P2P.step cfg s1 (.request k ⟨i, (b * 16384 : Nat), (blockOf x b).length⟩, {})) ⟨noFates, trivial⟩ rfl) ?_
  rintro s2 rfl
  have K2 : Kept cfg X s1 m2 (P2P.step cfg s1 (.request k ⟨i, (b * 16384 : Nat), (blockOf x b).length⟩, {})) m2 := ⟨by rw [e2], hlen2, fun _ => id, fun _ _ => id⟩
  have hc2 : (P2P.step cfg s1 (.request k ⟨i, (b * 16384 : Nat), (blockOf x b).length⟩, {})).peers[r]? =
      some { c1 with sent := c1.sent ++ [request i (b * 16384 : Nat) (blockOf x b).length] } := by
    rw [e2]; show (s1.peers.modify r _)[r]? = _; rw [List.getElem?_modify, hc1]; simp
  generalize P2P.step cfg s1 (.request k ⟨i, (b * 16384 : Nat), (blockOf x b).length⟩, {}) = s2 at h2 hl2 K2 hc2
  obtain ⟨c2, e⟩ : ∃ c2 : Conn, c2 = { c1 with sent := c1.sent ++ [request i (b * 16384 : Nat) (blockOf x b).length] } := ⟨_, rfl⟩
  rw [← e] at hc2
  have hp2 : c2.phase = .serving none := by rw [e]; exact hp1
  have hs2 : request i (b * 16384 : Nat) (blockOf x b).length ∈ c2.sent := by rw [e]; simp
  have hC2 := h2.conns r c2 hc2
  -- the answer
  have hi : i < X.length := (List.getElem?_eq_some_iff.mp hb.1).1
  have hbl : (blockOf x b).length ≤ x.length := by rw [Storage.blockOf_length]; omega
  have hxs := hsz x (List.mem_of_getElem? hb.1)
  have hsays : Says ⟨[(reply X i (b * 16384) (blockOf x b).length).bytes], .eof⟩ (reply X i (b * 16384) (blockOf x b).length) := by
    refine ⟨?_, [], by simp [Rd.flat]⟩
    rw [answer_eq hb.1]
    have := hb.2
    refine ⟨?_, ?_, ?_⟩ <;> omega
  have hho : Honest X s2 (.receive r ⟨[(reply X i (b * 16384) (blockOf x b).length).bytes], .eof⟩, {}) := ⟨noFates, c2, i, b * 16384, (blockOf x b).length, hc2, hs2, hsays⟩
  obtain ⟨fs3, m3, h3, hl3, hlen3, hd3⟩ := receive_goes h2 hl2 r _ {} hho
  obtain ⟨r', hd⟩ := says_decode hsays
  rw [answer_eq hb.1] at hd
  have e3 : P2P.step cfg s2 (.receive r ⟨[(reply X i (b * 16384) (blockOf x b).length).bytes], .eof⟩, {}) = { s2 with peers := s2.peers.modify r fun c => { c with
        phase := .serving (some (pieceMsg i (b * 16384 : Nat) (blockOf x b))), received := c.received ++ [pieceMsg i (b * 16384 : Nat) (blockOf x b)] } } := by
    refine step_of (o := .ok ()) h2.alive ?_ (.inl rfl)
    rw [answer_eq hb.1]
    simp only [act, hc2, if_pos (And.intro hp2 hC2.open_), hd]
    rfl
  obtain ⟨rfl, rfl⟩ := h2.same h3 (by rw [e3])
  refine Reaches.trans (.step (P := fun s' => s' = _) hho rfl) ?_
  rintro s3 rfl
  have K3 : Kept cfg X s2 m3 (P2P.step cfg s2 (.receive r ⟨[(reply X i (b * 16384) (blockOf x b).length).bytes], .eof⟩, {})) m3 := ⟨by rw [e3], hlen3, fun _ => id, fun _ _ => id⟩
  have hc3 : (P2P.step cfg s2 (.receive r ⟨[(reply X i (b * 16384) (blockOf x b).length).bytes], .eof⟩, {})).peers[r]? =
      some { c2 with phase := .serving (some (pieceMsg i (b * 16384 : Nat) (blockOf x b))), received := c2.received ++ [pieceMsg i (b * 16384 : Nat) (blockOf x b)] } := by
    rw [e3]; show (s2.peers.modify r _)[r]? = _; rw [List.getElem?_modify, hc2]; simp
  generalize P2P.step cfg s2 (.receive r ⟨[(reply X i (b * 16384) (blockOf x b).length).bytes], .eof⟩, {}) = s3 at h3 hl3 K3 hc3
  -- it is stored
  have hj3 : (⟨r, i, .running⟩ : Job) ∈ s3.jobs := by rw [K3.jobs, K2.jobs]; exact List.mem_of_getElem? hk1
  obtain ⟨fs4, m4, h4, hl4, hlen4, hj4, hd4, hh4, hm4, _⟩ := handle_put hO h3 hl3 hc3 hb (.inr ⟨r, hj3⟩) rfl {} noFates
  exact .step (e := .handle r) (l := {}) ⟨noFates, trivial⟩ ⟨fs4, m4, h4, hl4, ((K1.trans K2).trans K3).trans ⟨hj4, hlen4, hd4, hm4⟩, hh4⟩

/-- If all blocks of a piece are there, it is complete. -/
theorem held_done (hO : Original cfg.store X) (h : Seeding cfg X s fs m) {i : Nat} {x : Bytes} (hx : X[i]? = some x) (hall : ∀ k, k * 16384 < x.length → Held m i k) : Done m i := by
  have hin : i < m.pieces.length := by
    have h1 := (List.getElem?_eq_some_iff.mp hx).1
    have h2 := h.inv.2.len
    have h3 := hO.contents.1
    simp only at h2
    omega
  have hp := List.getElem?_eq_getElem hin
  generalize m.pieces[i] = p at hp
  cases hpc : p.coalesced with
  | true => exact ⟨p, hp, hpc⟩
  | false =>
    exfalso
    have hxl := (hO.contents.2 i x hx).2
    have hx0 : 0 < x.length := List.length_pos_iff.mpr (hO.nonempty x (List.mem_of_getElem? hx))
    have hheld : ∀ k, k * 16384 < x.length → ∃ bs b, p.blocks = some bs ∧ bs[k]? = some (some b) := by
      intro k hk
      rcases hall k hk with e | ⟨q, hq, hh⟩
      · have := (h.inv.2.all e).2 p (List.mem_of_getElem? hp)
        rw [hpc] at this; cases this
      · rw [hp] at hq; cases hq
        rcases hh with e | hh
        · rw [hpc] at e; cases e
        · exact hh
    obtain ⟨bs, _, hbs, _⟩ := hheld 0 (by omega)
    refine h.exact_.partial_ i p bs hp hpc hbs ?_
    have hlen := ((h.inv.2.piece i p hp).blocks hpc bs hbs).1
    have hnb := (Storage.numBlocks_pos (info := cfg.store.info) (i := i) (by omega)).2
    unfold Storage.present
    rw [List.countP_eq_length]
    intro o ho
    obtain ⟨k, hk⟩ := List.getElem?_of_mem ho
    have hkl := (List.getElem?_eq_some_iff.mp hk).1
    obtain ⟨bs', b, e1, e2⟩ := hheld k (by have := (hnb k).mp (by omega); omega)
    rw [hbs] at e1; cases e1
    rw [hk] at e2; cases e2
    rfl

/-- The first `n` blocks of a piece are downloaded. -/
theorem get_blocks (hO : Original cfg.store X) (hn : X.length ≤ 2 ^ 32) (hsz : ∀ x ∈ X, x.length + 9 < 2 ^ 32) (h : Seeding cfg X s fs m) (hl : s.locked = false) {k r i : Nat} {x : Bytes}
    (hk : s.jobs[k]? = some ⟨r, i, .running⟩) (hx : X[i]? = some x) (n : Nat) :
    Reaches cfg X s fun s' => ∃ fs' m', Seeding cfg X s' fs' m' ∧ s'.locked = false ∧ Kept cfg X s m s' m' ∧ ∀ b, b < n → b * 16384 < x.length → Held m' i b := by
  induction n with
  | zero => exact .refl ⟨fs, m, h, hl, .refl s m, fun b hb => by omega⟩
  | succ n ih =>
    refine ih.trans ?_
    rintro s1 ⟨fs1, m1, h1, hl1, K1, hh1⟩
    by_cases hb : n * 16384 < x.length
    · refine (get_block hO hn hsz h1 hl1 (by rw [K1.jobs]; exact hk) ⟨hx, hb⟩).mono ?_
      rintro s2 ⟨fs2, m2, h2, hl2, K2, hh2⟩
      refine ⟨fs2, m2, h2, hl2, K1.trans K2, ?_⟩
      intro b hbn hbx
      by_cases e : b = n
      · rw [e]; exact hh2
      · exact K2.held i b (hh1 b (by omega) hbx)
    · refine .refl ⟨fs1, m1, h1, hl1, K1, ?_⟩
      intro b hbn hbx
      refine hh1 b ?_ hbx
      by_cases e : b = n
      · rw [e] at hbx; exact absurd hbx hb
      · omega

/-- There is progress: some more is complete. -/
def More (cfg : Cfg) (X : List Bytes) (s : State) (m : Mem) (s' : State) : Prop :=
  ∃ fs' m', Seeding cfg X s' fs' m' ∧ s'.locked = false ∧ s'.peers.length = s.peers.length ∧ (∀ i, Done m i → Done m' i) ∧ ∃ i, i < X.length ∧ ¬ Done m i ∧ Done m' i

/-- A piece that somebody is downloading. -/
theorem get_piece (hO : Original cfg.store X) (hn : X.length ≤ 2 ^ 32) (hsz : ∀ x ∈ X, x.length + 9 < 2 ^ 32) (h : Seeding cfg X s fs m) (hl : s.locked = false) {j : Job} (hj : j ∈ s.jobs)
    (hd : ¬ Done m j.index) : Reaches cfg X s (More cfg X s m) := by
  obtain ⟨k, hk⟩ := List.getElem?_of_mem hj
  obtain ⟨_, hi, _, _, hov⟩ := h.jobs j hj
  have hx := List.getElem?_eq_getElem hi
  generalize X[j.index] = x at hx
  have hrun : ∀ {s : State} {fs : FS} {m : Mem}, Seeding cfg X s fs m → s.locked = false → s.jobs[k]? = some ⟨j.peer, j.index, .running⟩ → ¬ Done m j.index →
      Reaches cfg X s (More cfg X s m) := by
    intro s fs m h hl hk hd
    refine (get_blocks hO hn hsz h hl hk hx (x.length + 1)).mono ?_
    rintro s' ⟨fs', m', h', hl', K, hh⟩
    exact ⟨fs', m', h', hl', K.len, K.done, j.index, hi, hd, held_done hO h' hx (fun b hb => hh b (by omega) hb)⟩
  obtain ⟨r, i, st⟩ := j
  cases st with
  | running => exact hrun h hl hk hd
  | over => exact absurd (hov (.inl rfl)) hd
  | handed => exact absurd (hov (.inr rfl)) hd
  | fresh =>
    obtain ⟨⟨fs1, m1, h1, hl1, hlen1, hd1⟩, hj1⟩ := begin_goes hO.contents.1 h hl k {} noFates
    obtain ⟨hk1, hp1, _⟩ := hj1 r i hk
    refine Reaches.trans (.step (e := .begin k) (l := {}) (P := fun s' => s' = _) ⟨noFates, trivial⟩ rfl) ?_
    rintro s1 rfl
    by_cases hd' : Done m1 i
    · exact .refl ⟨fs1, m1, h1, hl1, hlen1, hd1, i, hi, hd, hd'⟩
    · refine (hrun h1 hl1 hk1 hd').mono ?_
      rintro s2 ⟨fs2, m2, h2, hl2, hlen2, hd2, i', hi', hn', hy'⟩
      exact ⟨fs2, m2, h2, hl2, hlen2.trans hlen1, fun a ha => hd2 a (hd1 a ha), i', hi', fun ha => hn' (hd1 _ ha), hy'⟩

/-- A peer is asked again when nothing is being downloaded. -/
theorem ask (hO : Original cfg.store X) (h : Seeding cfg X s fs m) (hl : s.locked = false) (hjobs : ∀ j ∈ s.jobs, Done m j.index) (hmiss : ∃ i, i < X.length ∧ ¬ Done m i) {r : Nat} (hr : r < s.peers.length) :
    Reaches cfg X s fun s' => Seeding cfg X s' fs m ∧ s'.locked = false ∧ s'.peers.length = s.peers.length ∧ (∀ j ∈ s'.jobs, Done m j.index) ∧ r ∈ s'.toRequest := by
  rcases h.busy r hr with hb | hb | ⟨j, hj, hjr, hjs⟩ | hb
  · exact .refl ⟨h, hl, rfl, hjobs, hb⟩
  · obtain ⟨k, hk⟩ := List.getElem?_of_mem hb
    obtain ⟨fs1, m1, h1, hl1, hlen1, _⟩ := again_goes h hl k true (.inr rfl) {}
    have e1 : P2P.step cfg s (.again k true, {}) = { s with waiting := s.waiting.eraseIdx k, toRequest := s.toRequest ++ [r] } := by
      refine step_of (o := .ok ()) h.alive ?_ (.inl rfl)
      simp only [act, hk, h.requesting]
      rfl
    obtain ⟨rfl, rfl⟩ := h.same h1 (by rw [e1])
    exact .step (e := .again k true) (l := {}) ⟨noFates, trivial⟩ ⟨h1, hl1, hlen1, by rw [e1]; exact hjobs, by rw [e1]; simp⟩
  · have hd := hjobs j hj
    obtain ⟨k, hk⟩ := List.getElem?_of_mem hj
    obtain ⟨r', i, st⟩ := j
    have hjr : r' = r := hjr
    subst hjr
    have hover : ∀ {s : State}, Seeding cfg X s fs m → s.locked = false → (∀ j ∈ s.jobs, Done m j.index) → s.jobs[k]? = some ⟨r', i, .over⟩ →
        Reaches cfg X s fun s' => Seeding cfg X s' fs m ∧ s'.locked = false ∧ s'.peers.length = s.peers.length ∧ (∀ j ∈ s'.jobs, Done m j.index) ∧ r' ∈ s'.toRequest := by
      intro s h hl hjobs hk
      obtain ⟨fs1, m1, h1, hl1, hlen1, _⟩ := hand_goes h hl k {}
      have e1 : P2P.step cfg s (.hand k, {}) = { s with toRequest := s.toRequest ++ [r'], jobs := s.jobs.set k ⟨r', i, .handed⟩ } := by
        refine step_of (o := .ok ()) h.alive ?_ (.inl rfl)
        simp only [act, hk, h.requesting]
        rfl
      obtain ⟨rfl, rfl⟩ := h.same h1 (by rw [e1])
      refine .step (e := .hand k) (l := {}) ⟨noFates, trivial⟩ ⟨h1, hl1, hlen1, ?_, by rw [e1]; simp⟩
      rw [e1]
      intro j hj
      rcases List.mem_or_eq_of_mem_set hj with hj | rfl
      · exact hjobs j hj
      · exact hd
    cases st with
    | fresh => exact absurd hd ((h.jobs _ hj).2.2.2.1 rfl)
    | handed => exact absurd rfl hjs
    | over => exact hover h hl hjobs hk
    | running =>
      have hst : s.storage.mem = some m := by rw [h.storage]
      obtain ⟨p, hp, hpc⟩ := id hd
      have hfd : m.futs[p.fut]? = some (some none) := ((h.inv.2.piece _ p hp).done hpc).1
      have hc : canReturn s i .complete = true := by
        unfold canReturn
        have hp : m.pieces[i]? = some p := hp
        simp [hst, hp, hfd]
      obtain ⟨fs1, m1, h1, hl1, hlen1, _⟩ := finish_goes h hl k .complete (by decide) {}
      have hf := finish_fine h hl r' i {}
      have ha : act cfg {} s (.finish k .complete) = match finish ({} : Luck).ok ({} : Luck).order r' i .complete s with
          | (.stuck, _) => some (.stuck, s)
          | (o, s) => some (o, { s with jobs := s.jobs.set k ⟨r', i, .over⟩ }) := by
        simp only [act, hk, if_pos hc]
        rfl
      generalize finish ({} : Luck).ok ({} : Luck).order r' i .complete s = y at hf ha
      obtain ⟨o, s'⟩ := y
      obtain ⟨g1, g2, ps, g3, g4⟩ := hf
      have g3 : s' = { s with peers := ps } := g3
      have e1 : P2P.step cfg s (.finish k .complete, {}) = { s' with jobs := s'.jobs.set k ⟨r', i, .over⟩ } := by
        refine step_of (o := o) h.alive ?_ (g1.imp id .inl)
        rw [ha]
        rcases g1 with g1 | ⟨e, g1⟩ <;> (have g1 : o = _ := g1; subst g1; rfl)
      obtain ⟨rfl, rfl⟩ := h.same h1 (by rw [e1, g3])
      refine Reaches.trans (.step (e := .finish k .complete) (l := {}) (P := fun s' => s' = _) ⟨noFates, by show Result.complete ≠ .failed; decide⟩ rfl) ?_
      rintro s2 rfl
      refine (hover h1 hl1 ?_ ?_).mono ?_
      · rw [e1, g3]
        intro j hj
        rcases List.mem_or_eq_of_mem_set hj with hj | rfl
        · exact hjobs j hj
        · exact hd
      · rw [e1, g3]
        show (s.jobs.set k _)[k]? = _
        rw [List.getElem?_set, if_pos rfl, if_pos (List.getElem?_eq_some_iff.mp hk).1]
      · rintro s3 ⟨a1, a2, a3, a4, a5⟩
        exact ⟨a1, a2, a3.trans hlen1, a4, a5⟩
  · obtain ⟨i, hi, hn⟩ := hmiss
    exact absurd (hb i hi) hn

/-- As long as something is missing, there can be progress. -/
theorem progress (hO : Original cfg.store X) (hn : X.length ≤ 2 ^ 32) (hsz : ∀ x ∈ X, x.length + 9 < 2 ^ 32) (h : Seeding cfg X s fs m) (hl : s.locked = false) (hp : s.peers ≠ [])
    (hmiss : ∃ i, i < X.length ∧ ¬ Done m i) : Reaches cfg X s (More cfg X s m) := by
  by_cases hjobs : ∃ j ∈ s.jobs, ¬ Done m j.index
  · obtain ⟨j, hj, hd⟩ := hjobs
    exact get_piece hO hn hsz h hl hj hd
  · have hjobs : ∀ j ∈ s.jobs, Done m j.index := fun j hj => Classical.byContradiction fun hd => hjobs ⟨j, hj, hd⟩
    have hr : 0 < s.peers.length := List.length_pos_iff.mpr hp
    refine (ask hO h hl hjobs hmiss hr).trans ?_
    rintro s1 ⟨h1, hl1, hlen1, hjobs1, hreq1⟩
    obtain ⟨k, hk⟩ := List.getElem?_of_mem hreq1
    obtain ⟨c, hc, hC⟩ := h1.conn (r := 0) (by omega)
    have hsel := select_apply h1 hl1 hc (({} : Luck).ok 0) ({} : Luck).coins ({} : Luck).pdq
    have hmis := missing h1 hO.contents.1 hC
    generalize hits : Bitfield.items (Bitfield.difference c.bitfield m.bitfield) = its at hsel hmis
    obtain ⟨i0, hi0, hn0⟩ := hmiss
    have hi0' : i0 ∈ its := (hmis i0).mpr ⟨hi0, hn0⟩
    rw [if_neg (by intro e; rw [e] at hi0'; cases hi0')] at hsel
    have hperm := sortPieces_perm (available s1.indexToPeers) ({} : Luck).coins ({} : Luck).pdq its
    have hfree : ∀ i ∈ its, (mget s1.inflight (i : Int)).isSome = false := by
      intro i hi
      cases hsome : (mget s1.inflight (i : Int)).isSome with
      | false => rfl
      | true =>
        obtain ⟨j, hj, e⟩ := h1.inflight _ hsome
        have e : j.index = i := by omega
        have := hjobs1 j hj
        rw [e] at this
        exact absurd this ((hmis i).mp hi).2
    cases hff : firstFree s1.inflight (sortPieces (available s1.indexToPeers) ({} : Luck).coins ({} : Luck).pdq its) with
    | none =>
      have := firstFree_none hff i0 (hperm.mem_iff.mpr hi0')
      rw [hfree i0 hi0'] at this; cases this
    | some i =>
      rw [hff] at hsel
      simp only at hsel
      have hi := hperm.mem_iff.mp (firstFree_some hff).1
      obtain ⟨_, hin⟩ := (hmis i).mp hi
      obtain ⟨fs2, m2, h2, hl2, hlen2, _⟩ := select_goes hO.contents.1 h1 hl1 k {}
      have e2 : P2P.step cfg s1 (.select k, {}) =
          { s1 with inflight := mput s1.inflight (i : Int) 0, jobs := s1.jobs ++ [{ peer := 0, index := i }], toRequest := s1.toRequest.eraseIdx k } := by
        refine step_of (o := .ok ()) h1.alive ?_ (.inl rfl)
        simp only [act, hk, hsel]
      obtain ⟨rfl, rfl⟩ := h1.same h2 (by rw [e2])
      refine Reaches.trans (.step (e := .select k) (l := {}) (P := fun s' => s' = _) ⟨noFates, trivial⟩ rfl) ?_
      rintro s2 rfl
      refine (get_piece hO hn hsz h2 hl2 (j := { peer := 0, index := i }) (by rw [e2]; simp) hin).mono ?_
      rintro s3 ⟨fs3, m3, g1, g2, g3, g4⟩
      exact ⟨fs3, m3, g1, g2, by rw [g3, hlen2, hlen1], g4⟩

theorem countP_lt {α : Type} {p q : α → Bool} : ∀ {l : List α}, (∀ a ∈ l, p a = true → q a = true) → (∃ a ∈ l, p a = false ∧ q a = true) → l.countP p < l.countP q
  | [], _, ⟨a, ha, _⟩ => by cases ha
  | b :: l, h1, ⟨a, ha, h2, h3⟩ => by
    have hle : l.countP p ≤ l.countP q := List.countP_mono_left fun a ha => h1 a (by simp [ha])
    rcases List.mem_cons.mp ha with rfl | ha
    · rw [List.countP_cons, List.countP_cons, h2, h3]; simp; omega
    · have := countP_lt (fun a ha => h1 a (List.mem_cons_of_mem _ ha)) ⟨a, ha, h2, h3⟩
      rw [List.countP_cons, List.countP_cons]
      cases hp : p b with
      | false => simp; omega
      | true => rw [h1 b (by simp) hp]; omega

/-- The whole torrent can be downloaded. -/
theorem completes (hO : Original cfg.store X) (hn : X.length ≤ 2 ^ 32) (hsz : ∀ x ∈ X, x.length + 9 < 2 ^ 32) (n : Nat) : ∀ {s : State} {fs : FS} {m : Mem}, Seeding cfg X s fs m → s.locked = false → s.peers ≠ [] →
    (List.range X.length).countP (fun i => !Bitfield.bit m.bitfield i) ≤ n →
    Reaches cfg X s fun s' => ∃ fs' m', Seeding cfg X s' fs' m' ∧ s'.locked = false ∧ ∀ i, i < X.length → Done m' i := by
  have hbf : ∀ {s : State} {fs : FS} {m : Mem}, Seeding cfg X s fs m → ∀ i, Bitfield.bit m.bitfield i = true ↔ Done m i := fun h i => h.inv.2.bf i
  induction n with
  | zero =>
    intro s fs m h hl _ hc
    refine .refl ⟨fs, m, h, hl, fun i hi => ?_⟩
    have := List.countP_eq_zero.mp (Nat.le_zero.mp hc) i (List.mem_range.mpr hi)
    exact (hbf h i).mp (by simpa using this)
  | succ n ih =>
    intro s fs m h hl hp hc
    by_cases hmiss : ∃ i, i < X.length ∧ ¬ Done m i
    · refine (progress hO hn hsz h hl hp hmiss).trans ?_
      rintro s1 ⟨fs1, m1, h1, hl1, hlen1, hd1, i, hi, hni, hyi⟩
      refine ih h1 hl1 ?_ ?_
      · intro e
        rw [e] at hlen1
        exact hp (List.length_eq_zero_iff.mp hlen1.symm)
      · have := countP_lt (l := List.range X.length) (p := fun i => !Bitfield.bit m1.bitfield i) (q := fun i => !Bitfield.bit m.bitfield i) (by
          intro a _ ha
          cases hb : Bitfield.bit m.bitfield a with
          | false => rfl
          | true =>
            have := (hbf h1 a).mpr (hd1 a ((hbf h a).mp hb))
            simp [this] at ha) ⟨i, List.mem_range.mpr hi, by simp [(hbf h1 i).mpr hyi], by
              cases hb : Bitfield.bit m.bitfield i with
              | false => rfl
              | true => exact absurd ((hbf h i).mp hb) hni⟩
        omega
    · exact .refl ⟨fs, m, h, hl, fun i hi => Classical.byContradiction fun hd => hmiss ⟨i, hi, hd⟩⟩

end Drip.P2P
