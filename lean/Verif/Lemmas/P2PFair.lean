import Verif.Spec.Fair
import Verif.Lemmas.P2PSeedEnd
/-
What the steps of a download from seeders change.
-/

namespace Drip.P2P
open PeerWire Metainfo Spec
open Storage (Fate World Mem FS Op runOp putBlock resetPiece SInv Exact Original Done blockOf Held)

variable {cfg : Cfg} {X : List Bytes} {s : State} {fs : FS} {m : Mem}

/-- Nothing that matters here changes, except that messages that are not requests are sent. -/
structure Placid (s s' : State) : Prop where
  storage : s'.storage = s.storage
  jobs : s'.jobs = s.jobs
  toRequest : ∀ r ∈ s.toRequest, r ∈ s'.toRequest
  waiting : ∀ r ∈ s.waiting, r ∈ s'.waiting
  len : s'.peers.length = s.peers.length
  conns : ∀ (r : Nat) (c : Conn), s.peers[r]? = some c → ∃ c', s'.peers[r]? = some c' ∧ (∀ i b l, request i b l ∈ c'.sent ↔ request i b l ∈ c.sent) ∧ c'.received = c.received ∧ c'.phase = c.phase

theorem placid_pre : Pre Placid where
  refl s := ⟨rfl, rfl, fun _ => id, fun _ => id, rfl, fun _ c hc => ⟨c, hc, fun _ _ _ => Iff.rfl, rfl, rfl⟩⟩
  trans h h' := {
    storage := h'.storage.trans h.storage
    jobs := h'.jobs.trans h.jobs
    toRequest := fun r hr => h'.toRequest r (h.toRequest r hr)
    waiting := fun r hr => h'.waiting r (h.waiting r hr)
    len := h'.len.trans h.len
    conns := fun r c hc => by
      obtain ⟨c1, h1, h2, h3, h4⟩ := h.conns r c hc
      obtain ⟨c2, g1, g2, g3, g4⟩ := h'.conns r c1 h1
      exact ⟨c2, g1, fun i b l => (g2 i b l).trans (h2 i b l), g3.trans h3, g4.trans h4⟩ }

theorem Placid.modify (s : State) (r : Nat) (f : Conn → Conn) (hf : ∀ c, s.peers[r]? = some c → (∀ i b l, request i b l ∈ (f c).sent ↔ request i b l ∈ c.sent) ∧ (f c).received = c.received ∧ (f c).phase = c.phase) :
    Placid s { s with peers := s.peers.modify r f } := by
  refine ⟨rfl, rfl, fun _ => id, fun _ => id, by simp, ?_⟩
  intro x c hc
  show ∃ c', (s.peers.modify r f)[x]? = some c' ∧ _
  rw [List.getElem?_modify, hc]
  by_cases e : r = x
  · subst e
    exact ⟨f c, by simp, hf c hc⟩
  · exact ⟨c, by simp [e], fun _ _ _ => Iff.rfl, rfl, rfl⟩

theorem placid_setConn (r : Nat) (f : Conn → Conn) (hf : ∀ c : Conn, (∀ i b l, request i b l ∈ (f c).sent ↔ request i b l ∈ c.sent) ∧ (f c).received = c.received ∧ (f c).phase = c.phase) :
    Pres Placid (setConn r f) := fun s => Placid.modify s r f fun c _ => hf c

theorem placid_send (ok : Bool) (r : Nat) (msg : Message) (h : msg.typ ≠ REQUEST) : Pres Placid (send ok r msg) := by
  unfold send
  refine Pres.bind placid_pre (Pres.getConn placid_pre r) fun c => ?_
  refine Pres.ite (Pres.fail placid_pre _) (Pres.ite (placid_setConn r _ fun c => ⟨?_, rfl, rfl⟩) (Pres.fail placid_pre _))
  intro i b l
  simp only [List.mem_append, List.mem_singleton]
  refine ⟨fun h' => h'.elim id fun e => ?_, .inl⟩
  exact absurd (by rw [← e]; rfl) h

theorem placid_notInterest (ok : Bool) (r : Nat) : Pres Placid (notInterest ok r) := by
  unfold notInterest
  refine Pres.bind placid_pre (Pres.getConn placid_pre r) fun c => Pres.ite ?_ (Pres.pure placid_pre _)
  exact Pres.bind placid_pre (placid_setConn r _ fun c => ⟨fun _ _ _ => Iff.rfl, rfl, rfl⟩) fun _ => placid_send ok r _ (by decide)

theorem placid_unchoke (ok : Bool) (r : Nat) : Pres Placid (P2P.unchoke ok r) := by
  unfold P2P.unchoke
  refine Pres.bind placid_pre (Pres.getConn placid_pre r) fun c => Pres.ite ?_ (Pres.pure placid_pre _)
  exact Pres.bind placid_pre (placid_setConn r _ fun c => ⟨fun _ _ _ => Iff.rfl, rfl, rfl⟩) fun _ => placid_send ok r _ (by decide)

theorem placid_sendHave (oks : Ref → Bool) (i : Nat) (rs : List Ref) : Pres Placid (sendHave oks i rs) := by
  induction rs with
  | nil => exact Pres.pure placid_pre _
  | cons r rs ih =>
    unfold sendHave
    refine Pres.bind placid_pre (Pres.getConn placid_pre r) fun c => Pres.ite ih ?_
    exact Pres.bind placid_pre (placid_send _ r _ (show HAVE ≠ REQUEST by decide)) fun _ => ih

theorem Placid.of_fields {s s' : State} (h0 : s'.storage = s.storage) (h1 : s'.jobs = s.jobs) (h2 : s'.toRequest = s.toRequest) (h3 : s'.waiting = s.waiting) (h4 : s'.peers = s.peers) : Placid s s' :=
  ⟨h0, h1, fun r hr => h2 ▸ hr, fun r hr => h3 ▸ hr, by rw [h4], fun r c hc => ⟨c, by rw [h4]; exact hc, fun _ _ _ => Iff.rfl, rfl, rfl⟩⟩

theorem placid_modify (f : State → State) (h : ∀ s, (f s).storage = s.storage ∧ (f s).jobs = s.jobs ∧ (f s).toRequest = s.toRequest ∧ (f s).waiting = s.waiting ∧ (f s).peers = s.peers) : Pres Placid (Act.modify f) :=
  fun s => .of_fields (h s).1 (h s).2.1 (h s).2.2.1 (h s).2.2.2.1 (h s).2.2.2.2

theorem placid_lock : Pres Placid Act.lock := fun s => by
  unfold Act.lock
  split
  · exact placid_pre.refl s
  · exact .of_fields rfl rfl rfl rfl rfl

theorem placid_locked {α : Type} {p : Act α} (hp : Pres Placid p) : Pres Placid (Act.locked p) := Pres.locked placid_pre (fun _ _ => .of_fields rfl rfl rfl rfl rfl) hp

theorem placid_finish (oks : Ref → Bool) (order : List Ref → List Ref) (r i : Nat) : Pres Placid (finish oks order r i .complete) := by
  unfold finish
  refine Pres.attempt placid_pre ?_
  refine Pres.bind placid_pre placid_lock fun _ => Pres.bind placid_pre ?_ fun _ => Pres.bind placid_pre (Pres.get placid_pre) fun _ => placid_sendHave _ _ _
  exact fun s => .of_fields rfl rfl rfl rfl rfl

/-- `HandlePiece` changes the storage, first of all. -/
theorem placid_handlePiece (f : List Fate) (r : Nat) (i b : Int) (d : Bytes) : ∃ w, Placid { s with storage := w } (handlePiece f cfg r i b d s).2 := by
  unfold handlePiece Act.store
  obtain ⟨o, w⟩ := runOp (putBlock cfg.store i b d) s.storage f
  refine ⟨w, ?_⟩
  cases o with
  | ok u =>
    exact Pres.bind placid_pre (p := setConn r fun c => { c with downloaded := c.downloaded + d.length }) (k := fun _ => Act.modify fun s => { s with downloaded := s.downloaded + d.length })
      (placid_setConn r _ fun c => ⟨fun _ _ _ => Iff.rfl, rfl, rfl⟩) (fun _ => placid_modify _ fun s => ⟨rfl, rfl, rfl, rfl, rfl⟩) _
  | err e => show Placid _ (if e = _ then _ else _ : Outcome Unit × State).2; split <;> exact placid_pre.refl _
  | panic => exact placid_pre.refl _
  | crash => exact placid_pre.refl _

theorem placid_addPeer (tp : Tracker.Peer) : Pres Placid (addPeer tp) := by
  unfold addPeer
  refine placid_locked (Pres.bind placid_pre (Pres.lift placid_pre _) fun _ => Pres.bind placid_pre (Pres.get placid_pre) fun _ => ?_)
  exact Pres.ite (Pres.pure placid_pre _) (Pres.ite (Pres.pure placid_pre _) (Pres.ite (placid_modify _ fun s => ⟨rfl, rfl, rfl, rfl, rfl⟩) (Pres.pure placid_pre _)))

theorem step_some {s s' : State} {e : Event} {l : Luck} {o : Outcome Unit} (h : s.alive = true) (ha : act cfg l s e = some (o, s')) : ∃ b, step cfg s (e, l) = { s' with alive := b } := by
  unfold step
  rw [if_neg (by rw [h]; decide)]
  simp only [ha]
  cases o <;> exact ⟨_, rfl⟩

/-- What a step does to the goroutines and connections. `none`: somebody joins. -/
structure Moves (cfg : Cfg) (s : State) (e : Option (Event × Luck)) (s' : State) : Prop where
  jobs : ∀ j ∈ s.jobs, j ∈ s'.jobs ∨ ∃ k l, s.jobs[k]? = some j ∧ ((e = some (.begin k, l) ∧ j.stage = .fresh) ∨
    (e = some (.finish k .complete, l) ∧ j.stage = .running ∧ canReturn s j.index .complete = true) ∨ (e = some (.hand k, l) ∧ j.stage = .over) ∨ (e = some (.clear k, l) ∧ j.stage = .handed))
  toRequest : ∀ r ∈ s.toRequest, r ∈ s'.toRequest ∨ ∃ k l, s.toRequest[k]? = some r ∧ e = some (.select k, l)
  waiting : ∀ r ∈ s.waiting, r ∈ s'.waiting ∨ ∃ k l, s.waiting[k]? = some r ∧ e = some (.again k true, l)
  conns : ∀ (r : Nat) (c : Conn), s.peers[r]? = some c → ∃ c', s'.peers[r]? = some c' ∧
    (∀ i b l, request i b l ∈ c'.sent ↔ request i b l ∈ c.sent ∨ ∃ k i' lk, e = some (.request k ⟨i, b, l⟩, lk) ∧ s.jobs[k]? = some ⟨r, i', .running⟩ ∧
      ⟨i, b, l⟩ ∈ requestBlocks cfg.store.info i' ∧ lk.ok r = true) ∧
    ((c'.received = c.received ∧ (c'.phase = c.phase ∨ ∃ l, e = some (.handle r, l))) ∨
      ∃ rd l msg r', e = some (.receive r rd, l) ∧ c.phase = .serving none ∧ Message.decode rd = .ok (msg, r') ∧ c'.received = c.received ++ [msg] ∧ c'.phase = .serving (some msg))
  new : ∀ (r : Nat) (c : Conn), s.peers.length ≤ r → s'.peers[r]? = some c → ∀ x ∈ c.received, x.typ ≠ PIECE
  begun : ∀ k l r i, e = some (.begin k, l) → s.jobs[k]? = some ⟨r, i, .fresh⟩ → ⟨r, i, .running⟩ ∈ s'.jobs
  ended : ∀ k l r i, e = some (.finish k .complete, l) → s.jobs[k]? = some ⟨r, i, .running⟩ → canReturn s i .complete = true → ⟨r, i, .over⟩ ∈ s'.jobs
  handed : ∀ k l r i, e = some (.hand k, l) → s.jobs[k]? = some ⟨r, i, .over⟩ → r ∈ s'.toRequest
  tried : ∀ k l r, e = some (.again k true, l) → s.waiting[k]? = some r → r ∈ s'.toRequest

/-- Nothing is asked for, received, begun, … -/
def Event.dull : Event → Bool
  | .begin _ | .finish _ _ | .hand _ | .clear _ | .select _ | .again _ _ | .request _ _ => false
  | _ => true

theorem Moves.of_calm {s' : State} {w : World} {e : Event} {l : Luck} (h : Placid { s with storage := w } s') (hd : e.dull = true) : Moves cfg s (some (e, l)) s' where
  jobs j hj := .inl (by rw [h.jobs]; exact hj)
  toRequest r hr := .inl (h.toRequest r hr)
  waiting r hr := .inl (h.waiting r hr)
  conns r c hc := by
    obtain ⟨c', h1, h2, h3, h4⟩ := h.conns r c hc
    refine ⟨c', h1, fun i b n => (h2 i b n).trans ⟨.inl, fun hh => hh.elim id ?_⟩, .inl ⟨h3, .inl h4⟩⟩
    rintro ⟨k, i', lk, e1, _⟩
    cases e1; cases hd
  new r c hr hc := by
    have := (List.getElem?_eq_some_iff.mp hc).1
    have hl := h.len
    simp only at hl
    omega
  begun k l r i e1 := by cases e1; cases hd
  ended k l r i e1 := by cases e1; cases hd
  handed k l r i e1 := by cases e1; cases hd
  tried k l r e1 := by cases e1; cases hd

theorem Placid.alive {s s' : State} (h : Placid s s') (b : Bool) : Placid s { s' with alive := b } := { h with }

theorem Placid.refl (s : State) : Placid s s := placid_pre.refl s

/-- An event that is not possible. -/
theorem Moves.same {e : Event} {l : Luck} (h : act cfg l s e = none) : Moves cfg s (some (e, l)) s where
  jobs j hj := .inl hj
  toRequest r hr := .inl hr
  waiting r hr := .inl hr
  conns r c hc := by
    refine ⟨c, hc, fun i b n => ⟨.inl, fun hh => hh.elim id ?_⟩, .inl ⟨rfl, .inl rfl⟩⟩
    rintro ⟨k, i', lk, e1, hk, hq, _⟩
    cases e1
    simp [act, hk, if_pos hq] at h
  new r c hr hc := by
    have := (List.getElem?_eq_some_iff.mp hc).1
    omega
  begun k l r i e1 hk := by
    cases e1
    simp [act, hk] at h
  ended k l r i e1 hk hc := by
    cases e1
    simp only [act, hk, if_pos hc] at h
    generalize finish _ _ _ _ _ s = y at h
    obtain ⟨o, s'⟩ := y
    cases o <;> cases h
  handed k l r i e1 hk := by
    cases e1
    simp only [act, hk] at h
    split at h <;> cases h
  tried k l r e1 hk := by
    cases e1
    simp only [act, hk] at h
    split at h <;> cases h

theorem conns_calm {s' s1 : State} {w : World} {e : Event} {l : Luck} (h : Placid { s with storage := w } s1) (hp : s'.peers = s1.peers) (hd : ∀ k q, e ≠ .request k q) :
    ∀ (r : Nat) (c : Conn), s.peers[r]? = some c → ∃ c', s'.peers[r]? = some c' ∧
      (∀ i b n, request i b n ∈ c'.sent ↔ request i b n ∈ c.sent ∨ ∃ k i' lk, some (e, l) = some (.request k ⟨i, b, n⟩, lk) ∧ s.jobs[k]? = some ⟨r, i', .running⟩ ∧
        ⟨i, b, n⟩ ∈ requestBlocks cfg.store.info i' ∧ lk.ok r = true) ∧
      ((c'.received = c.received ∧ (c'.phase = c.phase ∨ ∃ l', some (e, l) = some (.handle r, l'))) ∨
        ∃ rd l' msg r', some (e, l) = some (.receive r rd, l') ∧ c.phase = .serving none ∧ Message.decode rd = .ok (msg, r') ∧ c'.received = c.received ++ [msg] ∧ c'.phase = .serving (some msg)) := by
  intro r c hc
  obtain ⟨c', h1, h2, h3, h4⟩ := h.conns r c hc
  refine ⟨c', by rw [hp]; exact h1, fun i b n => (h2 i b n).trans ⟨.inl, fun hh => hh.elim id ?_⟩, .inl ⟨h3, .inl h4⟩⟩
  rintro ⟨k, i', lk, e1, _⟩
  cases e1
  exact absurd rfl (hd _ _)

theorem new_calm {s' s1 : State} {w : World} (h : Placid { s with storage := w } s1) (hp : s'.peers = s1.peers) :
    ∀ (r : Nat) (c : Conn), s.peers.length ≤ r → s'.peers[r]? = some c → ∀ x ∈ c.received, x.typ ≠ PIECE := by
  intro r c hr hc
  have := (List.getElem?_eq_some_iff.mp hc).1
  have hl := h.len
  rw [hp] at this
  simp only at hl
  omega

theorem Moves.select {s1 s' : State} {k r : Nat} {l : Luck} (hk : s.toRequest[k]? = some r) (hc : Placid s s1) (hj : ∀ j ∈ s.jobs, j ∈ s'.jobs) (hw : ∀ x ∈ s.waiting, x ∈ s'.waiting)
    (hp : s'.peers = s1.peers) (ht : s'.toRequest = s.toRequest.eraseIdx k) : Moves cfg s (some (.select k, l)) s' where
  jobs j hj' := .inl (hj j hj')
  toRequest x hx := by
    rcases mem_eraseIdx hk hx with rfl | hx
    · exact .inr ⟨k, l, hk, rfl⟩
    · exact .inl (by rw [ht]; exact hx)
  waiting x hx := .inl (hw x hx)
  conns := conns_calm (w := s.storage) hc hp (fun _ _ e => by cases e)
  new := new_calm (w := s.storage) hc hp
  begun k l r i e1 := by cases e1
  ended k l r i e1 := by cases e1
  handed k l r i e1 := by cases e1
  tried k l r e1 := by cases e1

theorem select_moves (h : Seeding cfg X s fs m) (hl : s.locked = false) (k : Nat) (l : Luck) :
    Moves cfg s (some (.select k, l)) (step cfg s (.select k, l)) ∧ (step cfg s (.select k, l)).storage = s.storage := by
  cases hk : s.toRequest[k]? with
  | none =>
    have ha : act cfg l s (.select k) = none := by simp [act, hk]
    rw [step_none ha]; exact ⟨.same ha, rfl⟩
  | some r =>
    have hr := h.toRequest r (List.mem_of_getElem? hk)
    obtain ⟨c, hc, hC⟩ := h.conn hr
    have ha := select_apply h hl hc (l.ok r) l.coins l.pdq
    by_cases hp : Bitfield.items (Bitfield.difference c.bitfield m.bitfield) = []
    · rw [if_pos hp] at ha
      have hq : Seeding cfg X { s with queuedPeers := sdel s.queuedPeers r } fs m := h.queuedSub fun x hx => (mem_sdel.mp hx).1
      have hf : Sound cfg X fs m { s with queuedPeers := sdel s.queuedPeers r } (Act.locked (notInterest (l.ok r) r) { s with queuedPeers := sdel s.queuedPeers r }) :=
        locked_fine hl (notInterest_fine (hq.locked true) (l.ok r) hr)
      have hcalm := placid_locked (placid_notInterest (l.ok r) r) { s with queuedPeers := sdel s.queuedPeers r }
      have he : Act.locked (do Act.modify fun s => { s with queuedPeers := sdel s.queuedPeers r }; notInterest (l.ok r) r) s =
          Act.locked (notInterest (l.ok r) r) { s with queuedPeers := sdel s.queuedPeers r } := by
        unfold Act.locked Act.bind Act.lock
        rw [if_neg (by rw [hl]; decide), if_neg (by simp [hl])]
        simp only
        rw [bind_apply]
        rfl
      rw [he] at ha
      generalize Act.locked (notInterest (l.ok r) r) { s with queuedPeers := sdel s.queuedPeers r } = x at ha hf hcalm
      obtain ⟨o, s'⟩ := x
      obtain ⟨h1, h2, ps, h3, h4⟩ := hf
      have h3 : s' = { s with queuedPeers := sdel s.queuedPeers r, peers := ps } := h3
      have hst : step cfg s (.select k, l) = { s' with toRequest := s'.toRequest.eraseIdx k } := by
        refine step_of (o := o) h.alive ?_ (h1.imp id .inl)
        simp only [act, hk, ha]
        rcases h1 with h1 | ⟨e, h1⟩ <;> (have h1 : o = _ := h1; subst h1; rfl)
      have hcalm : Placid s s' := placid_pre.trans (b := { s with queuedPeers := sdel s.queuedPeers r }) (.of_fields rfl rfl rfl rfl rfl) hcalm
      rw [hst]
      exact ⟨.select hk hcalm (fun j hj => by rw [hcalm.jobs]; exact hj) hcalm.waiting rfl (by rw [h3]), by rw [h3]⟩
    · rw [if_neg hp] at ha
      cases hff : firstFree s.inflight (sortPieces (available s.indexToPeers) l.coins l.pdq (Bitfield.items (Bitfield.difference c.bitfield m.bitfield))) with
      | some i =>
        rw [hff] at ha
        have hst : step cfg s (.select k, l) = { s with inflight := mput s.inflight (i : Int) r, jobs := s.jobs ++ [{ peer := r, index := i }], toRequest := s.toRequest.eraseIdx k } := by
          refine step_of (o := .ok ()) h.alive ?_ (.inl rfl)
          simp only [act, hk, ha]
        rw [hst]
        exact ⟨.select hk (.refl s) (fun j hj => by simp [hj]) (fun _ => id) rfl rfl, rfl⟩
      | none =>
        rw [hff] at ha
        have hst : step cfg s (.select k, l) = { s with waiting := s.waiting ++ [r], toRequest := s.toRequest.eraseIdx k } := by
          refine step_of (o := .ok ()) h.alive ?_ (.inl rfl)
          simp only [act, hk, ha]
        rw [hst]
        exact ⟨.select hk (.refl s) (fun _ => id) (fun j hj => by simp [hj]) rfl rfl, rfl⟩

/-- When something is missing and not being downloaded, a download begins. -/
theorem select_new (hX : X.length = cfg.store.info.pieces.length) (h : Seeding cfg X s fs m) (hl : s.locked = false) {k r : Nat} (hk : s.toRequest[k]? = some r) (l : Luck)
    {i0 : Nat} (hi0 : i0 < X.length) (hn0 : ¬ Done m i0) (hfree : ∀ j ∈ s.jobs, j.index ≠ i0) :
    ∃ i, ⟨r, i, .fresh⟩ ∈ (step cfg s (.select k, l)).jobs := by
  have hr := h.toRequest r (List.mem_of_getElem? hk)
  obtain ⟨c, hc, hC⟩ := h.conn hr
  have ha := select_apply h hl hc (l.ok r) l.coins l.pdq
  have hmem := (missing h hX hC i0).mpr ⟨hi0, hn0⟩
  rw [if_neg (by intro e; rw [e] at hmem; cases hmem)] at ha
  cases hff : firstFree s.inflight (sortPieces (available s.indexToPeers) l.coins l.pdq (Bitfield.items (Bitfield.difference c.bitfield m.bitfield))) with
  | some i =>
    rw [hff] at ha
    have hst : step cfg s (.select k, l) = { s with inflight := mput s.inflight (i : Int) r, jobs := s.jobs ++ [{ peer := r, index := i }], toRequest := s.toRequest.eraseIdx k } := by
      refine step_of (o := .ok ()) h.alive ?_ (.inl rfl)
      simp only [act, hk, ha]
    exact ⟨i, by rw [hst]; simp⟩
  | none =>
    have := firstFree_none hff i0 ((sortPieces_perm _ _ _ _).mem_iff.mpr hmem)
    obtain ⟨j, hj, e⟩ := h.inflight _ this
    exact absurd (by omega) (hfree j hj)

theorem begin_moves (hX : X.length = cfg.store.info.pieces.length) (h : Seeding cfg X s fs m) (hl : s.locked = false) (k : Nat) (l : Luck) (hf : ∀ f ∈ l.fates, f = .ok) :
    Moves cfg s (some (.begin k, l)) (step cfg s (.begin k, l)) := by
  by_cases hk : ∃ r i, s.jobs[k]? = some ⟨r, i, .fresh⟩
  · obtain ⟨r, i, hk⟩ := hk
    obtain ⟨h1, _, m', h2, _⟩ := (begin_goes hX h hl k l hf).2 r i hk
    rw [h2]
    exact {
      jobs := fun j hj => by
        rcases mem_set_or (b := ⟨r, i, .running⟩) hk hj with rfl | hj
        · exact .inr ⟨k, l, hk, .inl ⟨rfl, rfl⟩⟩
        · exact .inl hj
      toRequest := fun _ hx => .inl hx
      waiting := fun _ hx => .inl hx
      conns := conns_calm (w := s.storage) (.refl s) rfl (fun _ _ e => by cases e)
      new := new_calm (w := s.storage) (.refl s) rfl
      begun := fun k' l' r' i' e1 hk' => by
        cases e1
        rw [hk] at hk'; cases hk'
        exact List.mem_of_getElem? (i := k) (by simp [(List.getElem?_eq_some_iff.mp hk).1])
      ended := fun k l r i e1 => by cases e1
      handed := fun k l r i e1 => by cases e1
      tried := fun k l r e1 => by cases e1 }
  · have hn : act cfg l s (.begin k) = none := by
      simp only [act]
      split
      · rename_i r i hk'
        exact absurd ⟨r, i, hk'⟩ hk
      · rfl
    rw [step_none hn]
    exact .same hn

theorem request_moves (h : Seeding cfg X s fs m) (k : Nat) (q : Req) (l : Luck) :
    Moves cfg s (some (.request k q, l)) (step cfg s (.request k q, l)) ∧ (step cfg s (.request k q, l)).storage = s.storage := by
  by_cases hk : ∃ r i, s.jobs[k]? = some ⟨r, i, .running⟩ ∧ q ∈ requestBlocks cfg.store.info i
  · obtain ⟨r, i, hk, hq⟩ := hk
    have h1 := (h.jobs _ (List.mem_of_getElem? hk)).1
    obtain ⟨c, hc, hC⟩ := h.conn (show r < s.peers.length from h1)
    have ha : act cfg l s (.request k q) = some (send (l.ok r) r (request q.index q.begin_ q.length) s) := by
      simp only [act, hk, if_pos hq]
    have hs : send (l.ok r) r (request q.index q.begin_ q.length) s = if l.ok r = true then (.ok (), { s with peers := s.peers.modify r fun c => { c with sent := c.sent ++ [request q.index q.begin_ q.length] } })
        else (.err .conn, s) := by
      unfold send
      rw [bind_apply, getConn_some hc]
      simp only
      rw [if_neg (by rw [hC.unchoked]; simp), hC.open_]
      cases l.ok r <;> rfl
    rw [hs] at ha
    have hreq : ∀ i b n, request i b n = request q.index q.begin_ q.length → (⟨i, b, n⟩ : Req) = q := by
      intro i b n e
      injection e with _ _ e1 e2 e3
      cases q
      simp only at e1 e2 e3
      rw [e1, e2, e3]
    cases hok : l.ok r with
    | true =>
      rw [hok, if_pos rfl] at ha
      rw [step_of h.alive ha (.inl rfl)]
      refine ⟨{ jobs := fun _ hx => .inl hx, toRequest := fun _ hx => .inl hx, waiting := fun _ hx => .inl hx, conns := ?_, new := ?_, begun := (fun k l r i e1 => by cases e1), ended := (fun k l r i e1 => by cases e1), handed := (fun k l r i e1 => by cases e1), tried := fun k l r e1 => by cases e1 }, rfl⟩
      · intro x d hd
        show ∃ c', (s.peers.modify r _)[x]? = some c' ∧ _
        rw [List.getElem?_modify, hd]
        by_cases e : r = x
        · subst e
          refine ⟨{ d with sent := d.sent ++ [request q.index q.begin_ q.length] }, by simp, ?_, .inl ⟨rfl, .inl rfl⟩⟩
          intro i' b n
          simp only [List.mem_append, List.mem_singleton]
          refine or_congr Iff.rfl ⟨fun e => ?_, ?_⟩
          · have := hreq _ _ _ e
            subst this
            exact ⟨k, i, l, rfl, hk, hq, hok⟩
          · rintro ⟨k', i'', lk, e, _⟩
            cases e; rfl
        · refine ⟨d, by simp [e], fun i b n => ⟨.inl, fun hh => hh.elim id ?_⟩, .inl ⟨rfl, .inl rfl⟩⟩
          rintro ⟨k', i'', lk, e', hk', _⟩
          cases e'
          rw [hk] at hk'
          injection hk' with hk'
          injection hk' with e1
          exact absurd e1 e
      · intro x d hx hd
        have := (List.getElem?_eq_some_iff.mp hd).1
        simp at this
        omega
    | false =>
      rw [hok, if_neg (by decide)] at ha
      rw [step_of h.alive ha (.inr (.inl ⟨_, rfl⟩))]
      refine ⟨{ jobs := fun _ hx => .inl hx, toRequest := fun _ hx => .inl hx, waiting := fun _ hx => .inl hx, conns := ?_, new := ?_, begun := (fun k l r i e1 => by cases e1), ended := (fun k l r i e1 => by cases e1), handed := (fun k l r i e1 => by cases e1), tried := fun k l r e1 => by cases e1 }, rfl⟩
      · intro x d hd
        refine ⟨d, hd, fun i b n => ⟨.inl, fun hh => hh.elim id ?_⟩, .inl ⟨rfl, .inl rfl⟩⟩
        rintro ⟨k', i'', lk, e', hk', _, hok'⟩
        cases e'
        rw [hk] at hk'
        injection hk' with hk'
        injection hk' with e1
        subst e1
        rw [hok] at hok'; cases hok'
      · intro x d hx hd
        have := (List.getElem?_eq_some_iff.mp hd).1
        omega
  · have hn : act cfg l s (.request k q) = none := by
      simp only [act]
      split
      · rename_i r i hk'
        split
        · rename_i hq; exact absurd ⟨r, i, hk', hq⟩ hk
        · rfl
      · rfl
    rw [step_none hn]
    exact ⟨.same hn, rfl⟩

theorem finish_moves (h : Seeding cfg X s fs m) (hl : s.locked = false) (k : Nat) (res : Result) (hres : res ≠ .failed) (l : Luck) :
    Moves cfg s (some (.finish k res, l)) (step cfg s (.finish k res, l)) ∧ (step cfg s (.finish k res, l)).storage = s.storage := by
  by_cases hk : ∃ r i, s.jobs[k]? = some ⟨r, i, .running⟩ ∧ canReturn s i res = true
  · obtain ⟨r, i, hk, hc⟩ := hk
    obtain ⟨rfl, hd⟩ := return_done h hres hc
    have hf : Sound cfg X fs m s (finish l.ok l.order r i .complete s) := finish_fine h hl r i l
    have hcalm := placid_finish l.ok l.order r i s
    have ha : act cfg l s (.finish k .complete) = match finish l.ok l.order r i .complete s with
        | (.stuck, _) => some (.stuck, s)
        | (o, s) => some (o, { s with jobs := s.jobs.set k ⟨r, i, .over⟩ }) := by
      simp only [act, hk, if_pos hc]
      rfl
    generalize finish l.ok l.order r i .complete s = y at hf ha hcalm
    obtain ⟨o, s'⟩ := y
    obtain ⟨g1, g2, ps, g3, g4⟩ := hf
    have g3 : s' = { s with peers := ps } := g3
    have hcalm : Placid s s' := hcalm
    have hst : step cfg s (.finish k .complete, l) = { s' with jobs := s'.jobs.set k ⟨r, i, .over⟩ } := by
      refine step_of (o := o) h.alive ?_ (g1.imp id .inl)
      rw [ha]
      rcases g1 with g1 | ⟨e, g1⟩ <;> (have g1 : o = _ := g1; subst g1; rfl)
    rw [hst, hcalm.jobs]
    refine ⟨{
      jobs := fun j hj => by
        rcases mem_set_or (b := ⟨r, i, .over⟩) hk hj with rfl | hj
        · exact .inr ⟨k, l, hk, .inr (.inl ⟨rfl, rfl, hc⟩)⟩
        · exact .inl hj
      toRequest := fun r hx => .inl (hcalm.toRequest r hx)
      waiting := fun r hx => .inl (hcalm.waiting r hx)
      conns := conns_calm (w := s.storage) hcalm rfl (fun _ _ e => by cases e)
      new := new_calm (w := s.storage) hcalm rfl
      begun := fun k l r i e1 => by cases e1
      ended := fun k' l' r' i' e1 hk' _ => by
        cases e1
        rw [hk] at hk'; cases hk'
        exact List.mem_of_getElem? (i := k) (by simp [(List.getElem?_eq_some_iff.mp hk).1])
      handed := fun k l r i e1 => by cases e1
      tried := fun k l r e1 => by cases e1 }, hcalm.storage⟩
  · have hn : act cfg l s (.finish k res) = none := by
      simp only [act]
      split
      · rename_i r i hk'
        split
        · rename_i hq; exact absurd ⟨r, i, hk', hq⟩ hk
        · rfl
      · rfl
    rw [step_none hn]
    exact ⟨.same hn, rfl⟩

theorem hand_moves (h : Seeding cfg X s fs m) (k : Nat) (l : Luck) :
    Moves cfg s (some (.hand k, l)) (step cfg s (.hand k, l)) ∧ (step cfg s (.hand k, l)).storage = s.storage := by
  by_cases hk : ∃ r i, s.jobs[k]? = some ⟨r, i, .over⟩
  · obtain ⟨r, i, hk⟩ := hk
    have hst : step cfg s (.hand k, l) = { s with toRequest := s.toRequest ++ [r], jobs := s.jobs.set k ⟨r, i, .handed⟩ } := by
      refine step_of (o := .ok ()) h.alive ?_ (.inl rfl)
      simp only [act, hk, h.requesting]
      rfl
    rw [hst]
    refine ⟨{
      jobs := fun j hj => by
        rcases mem_set_or (b := ⟨r, i, .handed⟩) hk hj with rfl | hj
        · exact .inr ⟨k, l, hk, .inr (.inr (.inl ⟨rfl, rfl⟩))⟩
        · exact .inl hj
      toRequest := fun r hx => .inl (by simp [hx])
      waiting := fun r hx => .inl hx
      conns := conns_calm (w := s.storage) (.refl s) rfl (fun _ _ e => by cases e)
      new := new_calm (w := s.storage) (.refl s) rfl
      begun := fun k l r i e1 => by cases e1
      ended := fun k l r i e1 => by cases e1
      handed := fun k l r i e1 hk' => by
        cases e1
        rw [hk] at hk'; cases hk'
        simp
      tried := fun k l r e1 => by cases e1 }, rfl⟩
  · have hn : act cfg l s (.hand k) = none := by
      simp only [act]
      split
      · rename_i r i hk'; exact absurd ⟨r, i, hk'⟩ hk
      · rfl
    rw [step_none hn]
    exact ⟨.same hn, rfl⟩

theorem clear_moves (h : Seeding cfg X s fs m) (k : Nat) (l : Luck) :
    Moves cfg s (some (.clear k, l)) (step cfg s (.clear k, l)) ∧ (step cfg s (.clear k, l)).storage = s.storage := by
  by_cases hk : ∃ r i, s.jobs[k]? = some ⟨r, i, .handed⟩
  · obtain ⟨r, i, hk⟩ := hk
    have hst : step cfg s (.clear k, l) = { s with inflight := mdel s.inflight (i : Int), jobs := s.jobs.eraseIdx k } := by
      refine step_of (o := .ok ()) h.alive ?_ (.inl rfl)
      simp only [act, hk]
    rw [hst]
    refine ⟨{
      jobs := fun j hj => by
        rcases mem_eraseIdx hk hj with rfl | hj
        · exact .inr ⟨k, l, hk, .inr (.inr (.inr ⟨rfl, rfl⟩))⟩
        · exact .inl hj
      toRequest := fun r hx => .inl hx
      waiting := fun r hx => .inl hx
      conns := conns_calm (w := s.storage) (.refl s) rfl (fun _ _ e => by cases e)
      new := new_calm (w := s.storage) (.refl s) rfl
      begun := fun k l r i e1 => by cases e1
      ended := fun k l r i e1 => by cases e1
      handed := fun k l r i e1 => by cases e1
      tried := fun k l r e1 => by cases e1 }, rfl⟩
  · have hn : act cfg l s (.clear k) = none := by
      simp only [act]
      split
      · rename_i r i hk'; exact absurd ⟨r, i, hk'⟩ hk
      · rfl
    rw [step_none hn]
    exact ⟨.same hn, rfl⟩

theorem again_moves (h : Seeding cfg X s fs m) (k : Nat) (timer : Bool) (l : Luck) :
    Moves cfg s (some (.again k timer, l)) (step cfg s (.again k timer, l)) ∧ (step cfg s (.again k timer, l)).storage = s.storage := by
  have hnone : act cfg l s (.again k timer) = none → Moves cfg s (some (.again k timer, l)) (step cfg s (.again k timer, l)) ∧ (step cfg s (.again k timer, l)).storage = s.storage :=
    fun hn => by rw [step_none hn]; exact ⟨.same hn, rfl⟩
  cases hk : s.waiting[k]? with
  | none => exact hnone (by simp [act, hk])
  | some r =>
    cases timer with
    | false => exact hnone (by simp [act, hk, h.calm])
    | true =>
      have hst : step cfg s (.again k true, l) = { s with waiting := s.waiting.eraseIdx k, toRequest := s.toRequest ++ [r] } := by
        refine step_of (o := .ok ()) h.alive ?_ (.inl rfl)
        simp only [act, hk, h.requesting]
        rfl
      rw [hst]
      refine ⟨{
        jobs := fun j hj => .inl hj
        toRequest := fun r hx => .inl (by simp [hx])
        waiting := fun x hx => by
          rcases mem_eraseIdx hk hx with rfl | hx
          · exact .inr ⟨k, l, hk, rfl⟩
          · exact .inl hx
        conns := conns_calm (w := s.storage) (.refl s) rfl (fun _ _ e => by cases e)
        new := new_calm (w := s.storage) (.refl s) rfl
        begun := fun k l r i e1 => by cases e1
        ended := fun k l r i e1 => by cases e1
        handed := fun k l r i e1 => by cases e1
        tried := fun k l r e1 hk' => by
          cases e1
          rw [hk] at hk'; cases hk'
          simp }, rfl⟩

theorem receive_moves (h : Seeding cfg X s fs m) (r : Nat) (rd : Rd) (l : Luck) (he : Honest X s (.receive r rd, l)) :
    Moves cfg s (some (.receive r rd, l)) (step cfg s (.receive r rd, l)) ∧ (step cfg s (.receive r rd, l)).storage = s.storage := by
  obtain ⟨_, c, i, b, n, hc, _, hs⟩ := he
  have hC := h.conns r c hc
  by_cases hp : c.phase = .serving none
  · obtain ⟨r', hd⟩ := says_decode hs
    have e3 : step cfg s (.receive r rd, l) = { s with peers := s.peers.modify r fun c => { c with phase := .serving (some (ofWire (reply X i b n))), received := c.received ++ [ofWire (reply X i b n)] } } := by
      refine step_of (o := .ok ()) h.alive ?_ (.inl rfl)
      simp only [act, hc, if_pos (And.intro hp hC.open_), hd]
    rw [e3]
    refine ⟨{ jobs := fun _ hx => .inl hx, toRequest := fun _ hx => .inl hx, waiting := fun _ hx => .inl hx, conns := ?_, new := ?_, begun := (fun k l r i e1 => by cases e1), ended := (fun k l r i e1 => by cases e1), handed := (fun k l r i e1 => by cases e1), tried := fun k l r e1 => by cases e1 }, rfl⟩
    · intro x d hd'
      show ∃ c', (s.peers.modify r _)[x]? = some c' ∧ _
      rw [List.getElem?_modify, hd']
      have hsent : ∀ (i b n : Int), request i b n ∈ d.sent ↔ request i b n ∈ d.sent ∨ ∃ k i' lk, some (Event.receive r rd, l) = some (.request k ⟨i, b, n⟩, lk) ∧ s.jobs[k]? = some ⟨x, i', .running⟩ ∧
          ⟨i, b, n⟩ ∈ requestBlocks cfg.store.info i' ∧ lk.ok x = true := fun i b n => ⟨.inl, fun hh => hh.elim id (by rintro ⟨_, _, _, e1, _⟩; cases e1)⟩
      by_cases e : r = x
      · subst e
        rw [hc] at hd'; cases hd'
        exact ⟨{ c with phase := .serving (some (ofWire (reply X i b n))), received := c.received ++ [ofWire (reply X i b n)] }, by simp, hsent, .inr ⟨rd, l, _, r', rfl, hp, hd, rfl, rfl⟩⟩
      · exact ⟨d, by simp [e], hsent, .inl ⟨rfl, .inl rfl⟩⟩
    · intro x d hx hd
      have := (List.getElem?_eq_some_iff.mp hd).1
      simp at this
      omega
  · have hn : act cfg l s (.receive r rd) = none := by
      simp only [act, hc]
      rw [if_neg (fun hh => hp hh.1)]
    rw [step_none hn]
    exact ⟨.same hn, rfl⟩

theorem handle_moves (h : Seeding cfg X s fs m) (r : Nat) (l : Luck) : Moves cfg s (some (.handle r, l)) (step cfg s (.handle r, l)) := by
  have hnone : act cfg l s (.handle r) = none → Moves cfg s (some (.handle r, l)) (step cfg s (.handle r, l)) := fun hn => by rw [step_none hn]; exact .same hn
  cases hc : s.peers[r]? with
  | none => exact hnone (by simp [act, hc])
  | some c =>
    rcases (h.conns r c hc).phase with hp | ⟨i, k, x, hb, hst, hp⟩
    · exact hnone (by simp [act, hc, hp])
    · have hhm : handleMessage l.fates (l.ok r) cfg r (pieceMsg i (k * 16384 : Nat) (blockOf x k)) s =
        handlePiece l.fates cfg r i (k * 16384 : Nat) (blockOf x k) s := rfl
      obtain ⟨w, hcalm⟩ := placid_handlePiece (s := s) (cfg := cfg) l.fates r i (k * 16384 : Nat) (blockOf x k)
      have ha : act cfg l s (.handle r) = some (next r (.serving none) .leaving (handlePiece l.fates cfg r i (k * 16384 : Nat) (blockOf x k) s)) := by
        simp only [act, hc, Option.map_some, hp, hhm]
      generalize handlePiece l.fates cfg r i (k * 16384 : Nat) (blockOf x k) s = y at hcalm ha
      obtain ⟨o, s1⟩ := y
      have hcalm : Placid { s with storage := w } s1 := hcalm
      obtain ⟨b, e⟩ := step_some h.alive ha
      rw [e]
      refine { jobs := fun j hj => .inl ?_, toRequest := fun x hx => .inl (hcalm.toRequest x hx), waiting := fun x hx => .inl (hcalm.waiting x hx), conns := ?_, new := ?_, begun := (fun k l r i e1 => by cases e1), ended := (fun k l r i e1 => by cases e1), handed := (fun k l r i e1 => by cases e1), tried := fun k l r e1 => by cases e1 }
      · show j ∈ s1.jobs
        rw [hcalm.jobs]; exact hj
      · intro y d hd
        obtain ⟨c1, h1, h2, h3, h4⟩ := hcalm.conns y d hd
        have hsent : ∀ (c' : Conn) (_ : c'.sent = c1.sent) (i b n : Int), request i b n ∈ c'.sent ↔ request i b n ∈ d.sent ∨ ∃ k i' lk, some (Event.handle r, l) = some (.request k ⟨i, b, n⟩, lk) ∧ s.jobs[k]? = some ⟨y, i', .running⟩ ∧
            ⟨i, b, n⟩ ∈ requestBlocks cfg.store.info i' ∧ lk.ok y = true := fun c' e i b n => by
          rw [e]
          exact (h2 i b n).trans ⟨.inl, fun hh => hh.elim id (by rintro ⟨_, _, _, e1, _⟩; cases e1)⟩
        by_cases e : r = y
        · subst e
          exact ⟨_, modify_self h1 _, hsent _ rfl, .inl ⟨h3, .inr ⟨l, rfl⟩⟩⟩
        · refine ⟨c1, ?_, hsent _ rfl, .inl ⟨h3, .inl h4⟩⟩
          show (s1.peers.modify r _)[y]? = _
          rw [List.getElem?_modify, h1]
          simp [e]
      · intro y d hy hd
        have := (List.getElem?_eq_some_iff.mp hd).1
        have hl := hcalm.len
        simp [next] at this hl
        omega

theorem Seeding.fresh_not (h : Seeding cfg X s fs m) {k r i : Nat} (hk : s.jobs[k]? = some ⟨r, i, .fresh⟩) : ¬ Started s.jobs m i := by
  rintro (hd | ⟨r', hr'⟩)
  · exact (h.jobs _ (List.mem_of_getElem? hk)).2.2.2.1 rfl hd
  · obtain ⟨b, hb⟩ := List.getElem?_of_mem hr'
    have := (List.getElem?_inj (i := k) (j := b) (by have := (List.getElem?_eq_some_iff.mp hk).1; simpa using this) h.distinct).mp (by
      rw [List.getElem?_map, List.getElem?_map, hk, hb]; rfl)
    subst this
    rw [hk] at hb
    cases hb

/-- What is done and held remains so. -/
def Stays (s : State) (m m' : Mem) : Prop := (∀ i, Done m i → Done m' i) ∧ ∀ i k, Started s.jobs m i → Held m i k → Held m' i k

theorem Stays.refl (s : State) (m : Mem) : Stays s m m := ⟨fun _ => id, fun _ _ _ => id⟩

theorem honest_moves (hO : Original cfg.store X) (h : Seeding cfg X s fs m) (hl : s.locked = false) {e : Event × Luck} (he : Honest X s e) :
    Moves cfg s (some e) (step cfg s e) ∧ ∃ fs' m', Seeding cfg X (step cfg s e) fs' m' ∧ (step cfg s e).locked = false ∧ Stays s m m' := by
  have hX : X.length = cfg.store.info.pieces.length := hO.contents.1
  obtain ⟨fs', m', h1, h2, h3, h4⟩ := honest_goes hO h hl he
  have hsame : (step cfg s e).storage = s.storage → ∃ fs' m', Seeding cfg X (step cfg s e) fs' m' ∧ (step cfg s e).locked = false ∧ Stays s m m' := by
    intro hs
    obtain ⟨rfl, rfl⟩ := h.same h1 hs
    exact ⟨_, _, h1, h2, .refl s _⟩
  obtain ⟨e, l⟩ := e
  have hf : ∀ f ∈ l.fates, f = .ok := he.1
  have hdull : ∀ {o : Outcome Unit} {s1 : State}, e.dull = true → act cfg l s e = some (o, s1) → Placid s s1 →
      Moves cfg s (some (e, l)) (step cfg s (e, l)) ∧ ∃ fs' m', Seeding cfg X (step cfg s (e, l)) fs' m' ∧ (step cfg s (e, l)).locked = false ∧ Stays s m m' := by
    intro o s1 hd ha hc
    obtain ⟨b, hst⟩ := step_some h.alive ha
    exact ⟨by rw [hst]; exact .of_calm (w := s.storage) (hc.alive b) hd, hsame (by rw [hst]; exact hc.storage)⟩
  have hnone : act cfg l s e = none →
      Moves cfg s (some (e, l)) (step cfg s (e, l)) ∧ ∃ fs' m', Seeding cfg X (step cfg s (e, l)) fs' m' ∧ (step cfg s (e, l)).locked = false ∧ Stays s m m' :=
    fun ha => ⟨by rw [step_none ha]; exact .same ha, hsame (by rw [step_none ha])⟩
  cases e with
  | receive r rd => have := receive_moves h r rd l he; exact ⟨this.1, hsame this.2⟩
  | handle r =>
    refine ⟨handle_moves h r l, ?_⟩
    cases hc : s.peers[r]? with
    | none => exact (hnone (by simp [act, hc])).2
    | some c =>
      rcases (h.conns r c hc).phase with hp | ⟨i, k, x, hb, hst, hp⟩
      · exact (hnone (by simp [act, hc, hp])).2
      · obtain ⟨fs', m', g1, g2, _, _, g5, _, g7, _⟩ := handle_put hO h hl hc hb hst hp l hf
        exact ⟨fs', m', g1, g2, g5, fun i k _ => g7 i k⟩
  | select k => have := select_moves h hl k l; exact ⟨this.1, hsame this.2⟩
  | begin k =>
    refine ⟨begin_moves hX h hl k l hf, ?_⟩
    by_cases hk : ∃ r i, s.jobs[k]? = some ⟨r, i, .fresh⟩
    · obtain ⟨r, i, hk⟩ := hk
      obtain ⟨_, _, m2, g1, g2⟩ := (begin_goes hX h hl k l hf).2 r i hk
      have : m' = m2 := by
        have := h1.storage
        rw [g1] at this
        injection this with _ this
        injection this with this
        exact this.symm
      subst this
      refine ⟨fs', m', h1, h2, h4, fun j b hs => g2 j b ?_⟩
      rintro rfl
      exact h.fresh_not hk hs
    · have ha : act cfg l s (.begin k) = none := by
        simp only [act]
        split
        · rename_i r i hk'
          exact absurd ⟨r, i, hk'⟩ hk
        · rfl
      exact (hnone ha).2
  | request k q => have := request_moves h k q l; exact ⟨this.1, hsame this.2⟩
  | hand k => have := hand_moves h k l; exact ⟨this.1, hsame this.2⟩
  | clear k => have := clear_moves h k l; exact ⟨this.1, hsame this.2⟩
  | again k t => have := again_moves h k t l; exact ⟨this.1, hsame this.2⟩
  | finish k res => have := finish_moves h hl k res he.2 l; exact ⟨this.1, hsame this.2⟩
  | unchoke r =>
    by_cases hr : (s.peers[r]?.map Conn.registered) = some true
    · exact hdull rfl (by simp only [act, if_pos hr]; rfl) (placid_unchoke (l.ok r) r s)
    · exact hnone (by simp only [act, if_neg hr])
  | addPeer tp => exact hdull rfl rfl (placid_addPeer tp s)
  | takeAddr =>
    cases ha : act cfg l s .takeAddr with
    | none => exact hnone ha
    | some y =>
      obtain ⟨o, s1⟩ := y
      refine hdull rfl ha ?_
      simp only [act] at ha
      split at ha
      · cases ha; exact .of_fields rfl rfl rfl rfl rfl
      · cases ha
  | spawn =>
    cases ha : act cfg l s .spawn with
    | none => exact hnone ha
    | some y =>
      obtain ⟨o, s1⟩ := y
      refine hdull rfl ha ?_
      simp only [act] at ha
      split at ha
      · split at ha
        · cases ha
        · cases ha; exact .of_fields rfl rfl rfl rfl rfl
      · cases ha
  | dialCheck k =>
    cases ha : act cfg l s (.dialCheck k) with
    | none => exact hnone ha
    | some y =>
      obtain ⟨o, s1⟩ := y
      refine hdull rfl ha ?_
      simp only [act] at ha
      split at ha
      · split at ha
        · split at ha
          · cases ha; exact .refl s
          · split at ha <;> cases ha <;> exact .of_fields rfl rfl rfl rfl rfl
        · cases ha; exact .of_fields rfl rfl rfl rfl rfl
      · cases ha
  | _ => exact absurd he.2 id

end Drip.P2P
