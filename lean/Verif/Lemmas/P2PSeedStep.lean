import Verif.Lemmas.P2PSeed
/-
The steps of a download from seeders.
-/

namespace Drip.P2P
open PeerWire Metainfo Spec
open Storage (Fate World Mem FS Op runOp putBlock resetPiece SInv Exact Original Done blockOf)

variable {cfg : Cfg} {X : List Bytes} {s : State} {fs : FS} {m : Mem}

theorem Ready.mono {jobs jobs' : List Job} {m m' : Mem} {c : Conn} (h : Ready X jobs m c) (hs : ∀ i, Started jobs m i → Started jobs' m' i) : Ready X jobs' m' c where
  phase := h.phase.imp id fun ⟨i, k, x, h1, h2, h3⟩ => ⟨i, k, x, h1, hs i h2, h3⟩
  open_ := h.open_
  unchoked := h.unchoked
  has := h.has
  sent := fun i b l hm => by
    obtain ⟨j, k, x, h1, h2, h3⟩ := h.sent i b l hm
    exact ⟨j, k, x, h1, hs j h2, h3⟩

theorem mem_eraseIdx {α : Type} {l : List α} {k : Nat} {a x : α} (hk : l[k]? = some a) (hx : x ∈ l) : x = a ∨ x ∈ l.eraseIdx k := by
  obtain ⟨i, hi⟩ := List.getElem?_of_mem hx
  by_cases hik : i = k
  · subst hik; rw [hk] at hi; cases hi; exact .inl rfl
  · right
    by_cases h : i < k
    · exact List.mem_of_getElem? (i := i) (by rw [List.getElem?_eraseIdx_of_lt h]; exact hi)
    · exact List.mem_of_getElem? (i := i - 1) (by rw [List.getElem?_eraseIdx_of_ge (by omega), show i - 1 + 1 = i by omega]; exact hi)

/-- A goroutine that has the peer gives it back. -/
theorem Seeding.unrequest (h : Seeding cfg X s fs m) {k r : Nat} (hk : s.toRequest[k]? = some r)
    (hb : r ∈ s.waiting ∨ (∃ j ∈ s.jobs, j.peer = r ∧ j.stage ≠ .handed) ∨ ∀ i, i < X.length → Done m i) :
    Seeding cfg X { s with toRequest := s.toRequest.eraseIdx k } fs m := by
  refine { h with toRequest := fun x hx => h.toRequest x (List.mem_of_mem_eraseIdx hx), busy := ?_ }
  intro x hx
  rcases h.busy x hx with h1 | h1
  · rcases mem_eraseIdx hk h1 with rfl | h1
    · exact .inr hb
    · exact .inl h1
  · exact .inr h1

theorem Seeding.addJob (h : Seeding cfg X s fs m) {r i : Nat} (hr : r < s.peers.length) (hi : i < X.length) (hd : ¬ Done m i) (hf : mget s.inflight (i : Int) = none) :
    Seeding cfg X { s with inflight := mput s.inflight (i : Int) r, jobs := s.jobs ++ [{ peer := r, index := i }] } fs m := by
  have hnew : ∀ j ∈ s.jobs, j.index ≠ i := by
    rintro j hj rfl
    have := (h.jobs j hj).2.2.1
    rw [hf] at this; cases this
  refine { h with conns := ?_, jobs := ?_, inflight := ?_, distinct := ?_, busy := ?_ }
  · intro x c hc
    refine (h.conns x c hc).mono fun i' hs => hs.imp id ?_
    rintro ⟨r', hr'⟩
    exact ⟨r', by simp [hr']⟩
  · intro j hj
    rcases List.mem_append.mp hj with hj | hj
    · obtain ⟨h1, h2, h3, h4⟩ := h.jobs j hj
      refine ⟨h1, h2, ?_, h4⟩
      simp only
      rw [mget_mput]
      split
      · rfl
      · exact h3
    · rw [List.mem_singleton.mp hj]
      refine ⟨hr, hi, ?_, fun _ => hd, by simp⟩
      simp only
      rw [mget_mput, if_pos rfl]; rfl
  · intro i' hi'
    simp only at hi'
    rw [mget_mput] at hi'
    split at hi'
    · rename_i e
      exact ⟨{ peer := r, index := i }, by simp, e.symm⟩
    · obtain ⟨j, hj, e⟩ := h.inflight i' hi'
      exact ⟨j, by simp [hj], e⟩
  · simp only [List.map_append, List.map_cons, List.map_nil]
    rw [List.nodup_append]
    refine ⟨h.distinct, by simp, ?_⟩
    intro a ha b hb
    rw [List.mem_singleton.mp hb]
    obtain ⟨j, hj, rfl⟩ := List.mem_map.mp ha
    exact hnew j hj
  · intro x hx
    rcases h.busy x hx with h1 | h1 | ⟨j, hj, h1⟩ | h1
    · exact .inl h1
    · exact .inr (.inl h1)
    · exact .inr (.inr (.inl ⟨j, by simp [hj], h1⟩))
    · exact .inr (.inr (.inr h1))

theorem locked_fine {p : Act Unit} (hl : s.locked = false) (h : Sound cfg X fs m { s with locked := true } (p { s with locked := true })) : Sound cfg X fs m s (Act.locked p s) := by
  unfold Act.locked
  unfold Act.bind Act.lock
  rw [if_neg (by rw [hl]; decide)]
  simp only
  generalize p { s with locked := true } = x at h
  obtain ⟨o, s'⟩ := x
  obtain ⟨h1, h2, ps, h3, h4⟩ := h
  have h3 : s' = { s with locked := true, peers := ps } := h3
  subst h3
  have hr : ({ ({ s with locked := true, peers := ps } : State) with locked := false } : State) = { s with peers := ps } := by rw [← hl]
  rcases h1 with h1 | ⟨e, h1⟩
  · have h1 : o = .ok () := h1
    subst h1
    exact ⟨.inl rfl, h2.locked false, ps, hr, h4⟩
  · have h1 : o = .err e := h1
    subst h1
    exact ⟨.inr ⟨e, rfl⟩, h2.locked false, ps, hr, h4⟩

theorem Seeding.queuedSub (h : Seeding cfg X s fs m) {q : List Ref} (hq : ∀ r ∈ q, r ∈ s.queuedPeers) : Seeding cfg X { s with queuedPeers := q } fs m :=
  { h with queued := fun r hr => h.queued r (hq r hr) }

/-- `requestPieceFromPeer`. -/
theorem select_goes (hX : X.length = cfg.store.info.pieces.length) (h : Seeding cfg X s fs m) (hl : s.locked = false) (k : Nat) (l : Luck) : Goes cfg X s (step cfg s (.select k, l)) m := by
  cases hk : s.toRequest[k]? with
  | none => rw [step_none (by simp [act, hk])]; exact .refl h hl
  | some r =>
    have hr := h.toRequest r (List.mem_of_getElem? hk)
    obtain ⟨c, hc, hC⟩ := h.conn hr
    have ha := select_apply h hl hc (l.ok r) l.coins l.pdq
    by_cases hp : Bitfield.items (Bitfield.difference c.bitfield m.bitfield) = []
    · rw [if_pos hp] at ha
      have hall : ∀ i, i < X.length → Done m i := by
        intro i hi
        refine Classical.byContradiction fun hn => ?_
        have := (missing h hX hC i).mpr ⟨hi, hn⟩
        rw [hp] at this; cases this
      have hq : Seeding cfg X { s with queuedPeers := sdel s.queuedPeers r } fs m := h.queuedSub fun x hx => (mem_sdel.mp hx).1
      have hf : Sound cfg X fs m { s with queuedPeers := sdel s.queuedPeers r } (Act.locked (notInterest (l.ok r) r) { s with queuedPeers := sdel s.queuedPeers r }) :=
        locked_fine hl (notInterest_fine (hq.locked true) (l.ok r) hr)
      have he : Act.locked (do Act.modify fun s => { s with queuedPeers := sdel s.queuedPeers r }; notInterest (l.ok r) r) s =
          Act.locked (notInterest (l.ok r) r) { s with queuedPeers := sdel s.queuedPeers r } := by
        unfold Act.locked Act.bind Act.lock
        rw [if_neg (by rw [hl]; decide), if_neg (by simp [hl])]
        simp only
        rw [bind_apply]
        rfl
      rw [he] at ha
      generalize Act.locked (notInterest (l.ok r) r) { s with queuedPeers := sdel s.queuedPeers r } = x at ha hf
      obtain ⟨o, s'⟩ := x
      obtain ⟨h1, h2, ps, h3, h4⟩ := hf
      have h3 : s' = { s with queuedPeers := sdel s.queuedPeers r, peers := ps } := h3
      have hk' : s'.toRequest[k]? = some r := by rw [h3]; exact hk
      have hst : step cfg s (.select k, l) = { s' with toRequest := s'.toRequest.eraseIdx k } := by
        refine step_of (o := o) h.alive ?_ (h1.imp id .inl)
        simp only [act, hk, ha]
        rcases h1 with h1 | ⟨e, h1⟩ <;> (have h1 : o = _ := h1; subst h1; rfl)
      rw [hst]
      exact ⟨fs, m, h2.unrequest hk' (.inr (.inr hall)), by rw [h3]; exact hl, by rw [h3]; exact h4, fun _ => id⟩
    · rw [if_neg hp] at ha
      cases hff : firstFree s.inflight (sortPieces (available s.indexToPeers) l.coins l.pdq (Bitfield.items (Bitfield.difference c.bitfield m.bitfield))) with
      | some i =>
        rw [hff] at ha
        obtain ⟨h1, h2⟩ := firstFree_some hff
        have h1 := (missing h hX hC i).mp ((sortPieces_perm _ _ _ _).mem_iff.mp h1)
        have hj := h.addJob hr h1.1 h1.2 h2
        have hst : step cfg s (.select k, l) = { s with inflight := mput s.inflight (i : Int) r, jobs := s.jobs ++ [{ peer := r, index := i }], toRequest := s.toRequest.eraseIdx k } := by
          refine step_of (o := .ok ()) h.alive ?_ (.inl rfl)
          simp only [act, hk, ha]
        rw [hst]
        exact ⟨fs, m, hj.unrequest hk (.inr (.inl ⟨{ peer := r, index := i }, by simp, rfl, fun e => by cases e⟩)), hl, rfl, fun _ => id⟩
      | none =>
        rw [hff] at ha
        have hw : Seeding cfg X { s with waiting := s.waiting ++ [r] } fs m := { h with
          waiting := fun x hx => by
            rcases List.mem_append.mp hx with hx | hx
            · exact h.waiting x hx
            · rw [List.mem_singleton.mp hx]; exact hr
          busy := fun x hx => by
            rcases h.busy x hx with h1 | h1 | h1 | h1
            · exact .inl h1
            · exact .inr (.inl (by simp [h1]))
            · exact .inr (.inr (.inl h1))
            · exact .inr (.inr (.inr h1)) }
        have hst : step cfg s (.select k, l) = { s with waiting := s.waiting ++ [r], toRequest := s.toRequest.eraseIdx k } := by
          refine step_of (o := .ok ()) h.alive ?_ (.inl rfl)
          simp only [act, hk, ha]
        rw [hst]
        exact ⟨fs, m, hw.unrequest hk (.inl (by simp)), hl, rfl, fun _ => id⟩

theorem set_same_conn {α : Type} {l : List α} {k : Nat} {a : α} (h : l[k]? = some a) : l.set k a = l := by
  apply List.ext_getElem?
  intro i
  rw [List.getElem?_set]
  split
  · rename_i e
    subst e
    rw [if_pos (List.getElem?_eq_some_iff.mp h).1, h]
  · rfl

theorem mem_set_or {α : Type} {l : List α} {k : Nat} {a b x : α} (hk : l[k]? = some a) (hx : x ∈ l) : x = a ∨ x ∈ l.set k b := by
  obtain ⟨i, hi⟩ := List.getElem?_of_mem hx
  by_cases hik : i = k
  · subst hik; rw [hk] at hi; cases hi; exact .inl rfl
  · exact .inr (List.mem_of_getElem? (i := i) (by rw [List.getElem?_set, if_neg (Ne.symm hik)]; exact hi))

/-- The goroutine of a job goes on. -/
theorem Seeding.setJob (h : Seeding cfg X s fs m) {k r i : Nat} {st st' : Stage} (hk : s.jobs[k]? = some ⟨r, i, st⟩) (h1 : st' ≠ .fresh)
    (h2 : st' = .over ∨ st' = .handed → Done m i) (h3 : st = .running → st' ≠ .running → Done m i) (h4 : st' = .handed → r ∈ s.toRequest) :
    Seeding cfg X { s with jobs := s.jobs.set k ⟨r, i, st'⟩ } fs m := by
  have hmem := h.jobs _ (List.mem_of_getElem? hk)
  have hklt := (List.getElem?_eq_some_iff.mp hk).1
  have hnew : (⟨r, i, st'⟩ : Job) ∈ s.jobs.set k ⟨r, i, st'⟩ := List.mem_of_getElem? (i := k) (by simp [hklt])
  refine { h with conns := ?_, jobs := ?_, inflight := ?_, distinct := ?_, busy := ?_ }
  · intro x c hc
    refine (h.conns x c hc).mono fun i' hs => ?_
    rcases hs with hs | ⟨r', hr'⟩
    · exact .inl hs
    · rcases mem_set_or (b := ⟨r, i, st'⟩) hk hr' with e | e
      · cases e
        by_cases hst : st' = .running
        · exact .inr ⟨r, by rw [← hst]; exact hnew⟩
        · exact .inl (h3 rfl hst)
      · exact .inr ⟨r', e⟩
  · intro j hj
    rcases List.mem_or_eq_of_mem_set hj with hj | rfl
    · exact h.jobs j hj
    · exact ⟨hmem.1, hmem.2.1, hmem.2.2.1, fun e => absurd e h1, h2⟩
  · intro i' hi'
    obtain ⟨j, hj, e⟩ := h.inflight i' hi'
    rcases mem_set_or (b := ⟨r, i, st'⟩) hk hj with rfl | hj
    · exact ⟨_, hnew, e⟩
    · exact ⟨j, hj, e⟩
  · simp only [List.map_set]
    rw [set_same_conn (by rw [List.getElem?_map, hk]; rfl)]
    exact h.distinct
  · intro x hx
    rcases h.busy x hx with g | g | ⟨j, hj, g1, g2⟩ | g
    · exact .inl g
    · exact .inr (.inl g)
    · rcases mem_set_or (b := ⟨r, i, st'⟩) hk hj with rfl | hj
      · by_cases hh : st' = .handed
        · exact .inl (by rw [← g1]; exact h4 hh)
        · exact .inr (.inr (.inl ⟨_, hnew, g1, hh⟩))
      · exact .inr (.inr (.inl ⟨j, hj, g1, g2⟩))
    · exact .inr (.inr (.inr g))

/-- The storage changes. -/
theorem Seeding.store (h : Seeding cfg X s fs m) {fs' : FS} {m' : Mem} (hi : SInv cfg.store ⟨fs', m'⟩) (he : Exact cfg.store X ⟨fs', m'⟩) (hd : ∀ i, Done m i → Done m' i)
    (hf : ∀ j ∈ s.jobs, j.stage = .fresh → Done m' j.index → Done m j.index) : Seeding cfg X { s with storage := ⟨fs', some m'⟩ } fs' m' where
  alive := h.alive
  requesting := h.requesting
  calm := h.calm
  stopped := h.stopped
  storage := rfl
  inv := hi
  exact_ := he
  conns := fun x c hc => (h.conns x c hc).mono fun i hs => hs.imp (hd i) id
  toRequest := h.toRequest
  waiting := h.waiting
  queued := h.queued
  active := h.active
  activeLen := h.activeLen
  idips := h.idips
  ids := h.ids
  jobs := fun j hj => by
    obtain ⟨h1, h2, h3, h4, h5⟩ := h.jobs j hj
    exact ⟨h1, h2, h3, fun e hd' => h4 e (hf j hj e hd'), fun e => hd _ (h5 e)⟩
  inflight := h.inflight
  distinct := h.distinct
  busy := fun r hr => by
    rcases h.busy r hr with g | g | g | g
    · exact .inl g
    · exact .inr (.inl g)
    · exact .inr (.inr (.inl g))
    · exact .inr (.inr (.inr fun i hi => hd i (g i hi)))

/-- The piece of a job that has not begun is reset. -/
theorem begin_goes (hX : X.length = cfg.store.info.pieces.length) (h : Seeding cfg X s fs m) (hl : s.locked = false) (k : Nat) (l : Luck) (hf : ∀ f ∈ l.fates, f = .ok) :
    Goes cfg X s (step cfg s (.begin k, l)) m ∧ ∀ r i, s.jobs[k]? = some ⟨r, i, .fresh⟩ → (step cfg s (.begin k, l)).jobs[k]? = some ⟨r, i, .running⟩ ∧
      (step cfg s (.begin k, l)).peers = s.peers ∧ ∃ m', step cfg s (.begin k, l) = { s with storage := ⟨fs, some m'⟩, jobs := s.jobs.set k ⟨r, i, .running⟩ } ∧
        ∀ j b, j ≠ i → Storage.Held m j b → Storage.Held m' j b := by
  by_cases hk : ∃ r i, s.jobs[k]? = some ⟨r, i, .fresh⟩
  · obtain ⟨r, i, hk⟩ := hk
    obtain ⟨_, h2, _, h4, _⟩ := h.jobs _ (List.mem_of_getElem? hk)
    have h2 : i < X.length := h2
    have h4 : ¬ Done m i := h4 rfl
    obtain ⟨m', hr, g1, g2, g3, g4⟩ := Storage.reset_exact h.inv h.exact_ (by rw [← hX]; exact h2) h4 hf
    have hs : Act.store l.fates (resetPiece (i : Int)) s = (.ok (), { s with storage := ⟨fs, some m'⟩ }) := by
      unfold Act.store
      rw [h.storage, hr]
    have hst : step cfg s (.begin k, l) = { s with storage := ⟨fs, some m'⟩, jobs := s.jobs.set k ⟨r, i, .running⟩ } := by
      refine step_of (o := .ok ()) h.alive ?_ (.inl rfl)
      simp only [act, hk, hs]
    have hS := h.store g1 g2 (fun i => (g3 i).mpr) (fun j _ _ => (g3 _).mp)
    have hklt := (List.getElem?_eq_some_iff.mp hk).1
    rw [hst]
    refine ⟨⟨fs, m', hS.setJob hk (by decide) (by simp) (fun e => by cases e) (by simp), hl, rfl, fun i => (g3 i).mpr⟩, ?_⟩
    intro r' i' hk'
    rw [hk] at hk'; cases hk'
    exact ⟨by simp [hklt], rfl, m', rfl, g4⟩
  · have hn : act cfg l s (.begin k) = none := by
      simp only [act]
      split
      · rename_i r i hk'
        exact absurd ⟨r, i, hk'⟩ hk
      · rfl
    rw [step_none hn]
    exact ⟨.refl h hl, fun r i hk' => absurd ⟨r, i, hk'⟩ hk⟩

/-- The requests of a piece are for its blocks. -/
theorem request_block (hO : Original cfg.store X) {i : Nat} {q : Req} (hi : i < X.length) (hq : q ∈ requestBlocks cfg.store.info i) :
    ∃ (k : Nat) (x : Bytes), IsBlock X i k x ∧ q.index = i ∧ q.begin_ = (k * 16384 : Nat) ∧ q.length = (blockOf x k).length := by
  have hx := List.getElem?_eq_getElem hi
  generalize X[i] = x at hx
  have hxl := (hO.contents.2 i x hx).2
  unfold requestBlocks at hq
  rw [mem_loop _ _ _ _ (by omega)] at hq
  obtain ⟨h1, h2, h3, h4, h5⟩ := hq
  refine ⟨q.begin_.toNat / 16384, x, ⟨hx, by omega⟩, h1, by omega, ?_⟩
  rw [Storage.blockOf_length]
  omega

theorem block_request (hO : Original cfg.store X) {i k : Nat} {x : Bytes} (hb : IsBlock X i k x) :
    (⟨i, (k * 16384 : Nat), (blockOf x k).length⟩ : Req) ∈ requestBlocks cfg.store.info i := by
  have hxl := (hO.contents.2 i x hb.1).2
  have := hb.2
  unfold requestBlocks
  rw [mem_loop _ _ _ _ (by omega), Storage.blockOf_length]
  refine ⟨rfl, by show (0 : Int) ≤ ((k * 16384 : Nat) : Int); omega, by show ((k * 16384 : Nat) : Int) < _; omega, by show (((k * 16384 : Nat) : Int) - 0) % 16384 = 0; omega, by
    show ((min 16384 (x.length - k * 16384) : Nat) : Int) = min 16384 (_ - ((k * 16384 : Nat) : Int)); omega⟩

/-- A block is requested. -/
theorem request_goes (hO : Original cfg.store X) (h : Seeding cfg X s fs m) (hl : s.locked = false) (k : Nat) (q : Req) (l : Luck) : Goes cfg X s (step cfg s (.request k q, l)) m := by
  by_cases hk : ∃ r i, s.jobs[k]? = some ⟨r, i, .running⟩ ∧ q ∈ requestBlocks cfg.store.info i
  · obtain ⟨r, i, hk, hq⟩ := hk
    obtain ⟨h1, h2, _⟩ := h.jobs _ (List.mem_of_getElem? hk)
    obtain ⟨b, x, g1, g2, g3, g4⟩ := request_block hO h2 hq
    have hf := send_fine h (l.ok r) h1 (request q.index q.begin_ q.length) (fun i' b' l' e => by
      injection e with _ _ e1 e2 e3
      exact ⟨i, b, x, g1, .inr ⟨r, List.mem_of_getElem? hk⟩, by rw [← e1, g2], by rw [← e2, g3], by rw [← e3, g4]⟩)
    have ha : act cfg l s (.request k q) = some (send (l.ok r) r (request q.index q.begin_ q.length) s) := by
      simp only [act, hk, if_pos hq]
    generalize send (l.ok r) r (request q.index q.begin_ q.length) s = y at hf ha
    obtain ⟨o, s'⟩ := y
    rw [step_of h.alive ha (hf.1.imp id .inl)]
    exact .of_fine hf hl
  · have hn : act cfg l s (.request k q) = none := by
      simp only [act]
      split
      · rename_i r i hk'
        split
        · rename_i hq; exact absurd ⟨r, i, hk', hq⟩ hk
        · rfl
      · rfl
    rw [step_none hn]; exact .refl h hl

/-- HAVE is sent. -/
theorem finish_fine (h : Seeding cfg X s fs m) (hl : s.locked = false) (r i : Nat) (l : Luck) : Sound cfg X fs m s (finish l.ok l.order r i .complete s) := by
  unfold finish Act.attempt
  have e : (do Act.lock; Act.unlock; let s ← Act.get; sendHave l.ok i (arrange l.order (s.activePeers.map (·.2))) : Act Unit) s =
      sendHave l.ok i (arrange l.order (s.activePeers.map (·.2))) s := by
    rw [bind_apply]
    unfold Act.lock
    rw [if_neg (by rw [hl]; decide)]
    simp only
    rw [bind_apply]
    unfold Act.unlock
    simp only [modify_apply]
    rw [bind_apply]
    simp only [get_apply]
    have : ({ ({ s with locked := true } : State) with locked := false } : State) = s := by cases s; simp only at hl; subst hl; rfl
    rw [this]
  simp only
  rw [e]
  have := sendHave_fine l.ok i (arrange l.order (s.activePeers.map (·.2))) h (fun x hx => by
    have hx : x ∈ s.activePeers.map (·.2) := by
      unfold arrange at hx
      split at hx
      · rename_i hp; exact (List.isPerm_iff.mp hp).mem_iff.mp hx
      · exact hx
    obtain ⟨e, he, rfl⟩ := List.mem_map.mp hx
    exact (h.active e he).1)
  generalize sendHave l.ok i (arrange l.order (s.activePeers.map (·.2))) s = y at this
  obtain ⟨o, s'⟩ := y
  obtain ⟨g1, g2⟩ := this
  rcases g1 with g1 | ⟨e, g1⟩
  · have g1 : o = .ok () := g1
    subst g1; exact ⟨.inl rfl, g2⟩
  · have g1 : o = .err e := g1
    subst g1; exact ⟨.inl rfl, g2⟩

/-- When the wait for a piece ends, the piece is complete. -/
theorem return_done (h : Seeding cfg X s fs m) {i : Nat} {res : Result} (hres : res ≠ .failed) (hc : canReturn s i res = true) : res = .complete ∧ Done m i := by
  have hst : s.storage.mem = some m := by rw [h.storage]
  unfold canReturn at hc
  cases hp : m.pieces[i]? with
  | none => rw [hst] at hc; cases res <;> simp [hp] at hc hres
  | some p =>
    cases hpc : p.coalesced with
    | true =>
      have hfd := ((h.inv.2.piece i p hp).done hpc).1
      have hfd : m.futs[p.fut]? = some (some none) := hfd
      rw [hst] at hc
      cases res with
      | complete => exact ⟨rfl, p, hp, hpc⟩
      | failed => exact absurd rfl hres
      | checksum => simp [hp, hfd] at hc
    | false =>
      have hfd : m.futs[p.fut]? = some none := h.exact_.open_ i p hp hpc
      rw [hst] at hc
      cases res <;> simp [hp, hfd] at hc hres

theorem done_return (h : Seeding cfg X s fs m) {i : Nat} (hd : Done m i) : canReturn s i .complete = true := by
  have hst : s.storage.mem = some m := by rw [h.storage]
  obtain ⟨p, hp, hpc⟩ := hd
  have hfd : m.futs[p.fut]? = some (some none) := ((h.inv.2.piece _ p hp).done hpc).1
  unfold canReturn
  have hp : m.pieces[i]? = some p := hp
  simp [hst, hp, hfd]

/-- A piece is complete. -/
theorem finish_goes (h : Seeding cfg X s fs m) (hl : s.locked = false) (k : Nat) (res : Result) (hres : res ≠ .failed) (l : Luck) :
    Goes cfg X s (step cfg s (.finish k res, l)) m := by
  by_cases hk : ∃ r i, s.jobs[k]? = some ⟨r, i, .running⟩ ∧ canReturn s i res = true
  · obtain ⟨r, i, hk, hc⟩ := hk
    obtain ⟨h1, h2, _⟩ := h.jobs _ (List.mem_of_getElem? hk)
    have hd := return_done h hres hc
    obtain ⟨rfl, hd⟩ := hd
    have hf : Sound cfg X fs m s (finish l.ok l.order r i .complete s) := finish_fine h hl r i l
    have ha : act cfg l s (.finish k .complete) = match finish l.ok l.order r i .complete s with
        | (.stuck, _) => some (.stuck, s)
        | (o, s) => some (o, { s with jobs := s.jobs.set k ⟨r, i, .over⟩ }) := by
      simp only [act, hk, if_pos hc]
      rfl
    generalize finish l.ok l.order r i .complete s = y at hf ha
    obtain ⟨o, s'⟩ := y
    obtain ⟨g1, g2, ps, g3, g4⟩ := hf
    have g3 : s' = { s with peers := ps } := g3
    have hk' : s'.jobs[k]? = some ⟨r, i, .running⟩ := by rw [g3]; exact hk
    have hst : step cfg s (.finish k .complete, l) = { s' with jobs := s'.jobs.set k ⟨r, i, .over⟩ } := by
      refine step_of (o := o) h.alive ?_ (g1.imp id .inl)
      rw [ha]
      rcases g1 with g1 | ⟨e, g1⟩ <;> (have g1 : o = _ := g1; subst g1; rfl)
    rw [hst]
    have g2 : Seeding cfg X s' fs m := g2
    exact ⟨fs, m, g2.setJob hk' (by decide) (fun _ => hd) (fun _ _ => hd) (by simp), by rw [g3]; exact hl, by rw [g3]; exact g4, fun _ => id⟩
  · have hn : act cfg l s (.finish k res) = none := by
      simp only [act]
      split
      · rename_i r i hk'
        split
        · rename_i hq; exact absurd ⟨r, i, hk', hq⟩ hk
        · rfl
      · rfl
    rw [step_none hn]; exact .refl h hl

/-- The peer is handed back. -/
theorem hand_goes (h : Seeding cfg X s fs m) (hl : s.locked = false) (k : Nat) (l : Luck) : Goes cfg X s (step cfg s (.hand k, l)) m := by
  by_cases hk : ∃ r i, s.jobs[k]? = some ⟨r, i, .over⟩
  · obtain ⟨r, i, hk⟩ := hk
    obtain ⟨h1, _, _, _, h5⟩ := h.jobs _ (List.mem_of_getElem? hk)
    have hst : step cfg s (.hand k, l) = { s with toRequest := s.toRequest ++ [r], jobs := s.jobs.set k ⟨r, i, .handed⟩ } := by
      refine step_of (o := .ok ()) h.alive ?_ (.inl rfl)
      simp only [act, hk, h.requesting]
      rfl
    have hw : Seeding cfg X { s with toRequest := s.toRequest ++ [r] } fs m := { h with
      toRequest := fun x hx => by
        rcases List.mem_append.mp hx with hx | hx
        · exact h.toRequest x hx
        · rw [List.mem_singleton.mp hx]; exact h1
      busy := fun x hx => (h.busy x hx).imp (fun g => by simp [g]) id }
    rw [hst]
    exact ⟨fs, m, hw.setJob hk (by decide) (fun _ => h5 (.inl rfl)) (fun e => by cases e) (fun _ => by simp), hl, rfl, fun _ => id⟩
  · have hn : act cfg l s (.hand k) = none := by
      simp only [act]
      split
      · rename_i r i hk'; exact absurd ⟨r, i, hk'⟩ hk
      · rfl
    rw [step_none hn]; exact .refl h hl

/-- A job is over. -/
theorem clear_goes (h : Seeding cfg X s fs m) (hl : s.locked = false) (k : Nat) (l : Luck) : Goes cfg X s (step cfg s (.clear k, l)) m := by
  by_cases hk : ∃ r i, s.jobs[k]? = some ⟨r, i, .handed⟩
  · obtain ⟨r, i, hk⟩ := hk
    have hst : step cfg s (.clear k, l) = { s with inflight := mdel s.inflight (i : Int), jobs := s.jobs.eraseIdx k } := by
      refine step_of (o := .ok ()) h.alive ?_ (.inl rfl)
      simp only [act, hk]
    have hd : Done m i := (h.jobs _ (List.mem_of_getElem? hk)).2.2.2.2 (.inr rfl)
    have hklt := (List.getElem?_eq_some_iff.mp hk).1
    have hne : ∀ j ∈ s.jobs.eraseIdx k, j.index ≠ i := by
      intro j hj e
      have hnd := h.distinct
      obtain ⟨a, ha⟩ := List.getElem?_of_mem hj
      have hai : (s.jobs.map (·.index))[k]? = some i := by rw [List.getElem?_map, hk]; rfl
      by_cases hak : a < k
      · rw [List.getElem?_eraseIdx_of_lt hak] at ha
        have := (List.getElem?_inj (i := k) (j := a) (by simpa using hklt) hnd).mp (by rw [hai, List.getElem?_map, ha]; simp [e])
        omega
      · rw [List.getElem?_eraseIdx_of_ge (by omega)] at ha
        have := (List.getElem?_inj (i := k) (j := a + 1) (by simpa using hklt) hnd).mp (by rw [hai, List.getElem?_map, ha]; simp [e])
        omega
    rw [hst]
    refine ⟨fs, m, { h with conns := ?_, jobs := ?_, inflight := ?_, distinct := ?_, busy := ?_ }, hl, rfl, fun _ => id⟩
    · intro x c hc
      refine (h.conns x c hc).mono fun i' hs => ?_
      rcases hs with hs | ⟨r', hr'⟩
      · exact .inl hs
      · rcases mem_eraseIdx hk hr' with e | e
        · cases e
        · exact .inr ⟨r', e⟩
    · intro j hj
      obtain ⟨g1, g2, g3, g4⟩ := h.jobs j (List.mem_of_mem_eraseIdx hj)
      refine ⟨g1, g2, ?_, g4⟩
      simp only
      rw [mget_mdel, if_neg (fun e => hne j hj (by omega))]
      exact g3
    · intro i' hi'
      simp only at hi'
      rw [mget_mdel] at hi'
      split at hi'
      · cases hi'
      · rename_i hi''
        obtain ⟨j, hj, e⟩ := h.inflight i' hi'
        rcases mem_eraseIdx hk hj with e' | hj
        · rw [e'] at e; exact absurd e.symm hi''
        · exact ⟨j, hj, e⟩
    · exact List.Nodup.sublist (List.Sublist.map _ (List.eraseIdx_sublist _ _)) h.distinct
    · intro x hx
      rcases h.busy x hx with g | g | ⟨j, hj, g1, g2⟩ | g
      · exact .inl g
      · exact .inr (.inl g)
      · rcases mem_eraseIdx hk hj with rfl | hj
        · exact absurd rfl g2
        · exact .inr (.inr (.inl ⟨j, hj, g1, g2⟩))
      · exact .inr (.inr (.inr g))
  · have hn : act cfg l s (.clear k) = none := by
      simp only [act]
      split
      · rename_i r i hk'; exact absurd ⟨r, i, hk'⟩ hk
      · rfl
    rw [step_none hn]; exact .refl h hl

theorem take_slice (x : Bytes) (b n : Nat) : (x.drop b).take (Spec.slice x b n).length = Spec.slice x b n := by
  unfold Spec.slice
  rw [List.length_take]
  by_cases h : n ≤ (x.drop b).length
  · rw [Nat.min_eq_left h]
  · rw [Nat.min_eq_right (by omega), List.take_of_length_le (Nat.le_refl _), List.take_of_length_le (by omega)]

/-- What the seeder answers. -/
theorem answer_eq {i k : Nat} {x : Bytes} (hx : X[i]? = some x) : reply X i (k * 16384) (blockOf x k).length = .piece i (k * 16384) (blockOf x k) := by
  unfold reply
  rw [List.getD_eq_getElem?_getD, hx, Option.getD_some]
  unfold blockOf
  rw [take_slice]

theorem says_decode {rd : Rd} {w : Wire} (h : Says rd w) : ∃ r', Message.decode rd = .ok (ofWire w, r') := by
  obtain ⟨hf, rest, hr⟩ := h
  obtain ⟨r', h1, _⟩ := C05_roundtrip w hf rest rd (by rw [C05_layout w hf]; exact hr)
  exact ⟨r', h1⟩

/-- An answer arrives. -/
theorem receive_goes (h : Seeding cfg X s fs m) (hl : s.locked = false) (r : Nat) (rd : Rd) (l : Luck) (he : Honest X s (.receive r rd, l)) :
    Goes cfg X s (step cfg s (.receive r rd, l)) m := by
  obtain ⟨_, c, i, b, n, hc, hm, hs⟩ := he
  have hC := h.conns r c hc
  obtain ⟨j, k, x, hb, hst, e1, e2, e3⟩ := hC.sent _ _ _ hm
  have e1 : i = j := by omega
  have e2 : b = k * 16384 := by omega
  have e3 : n = (blockOf x k).length := by omega
  subst e1 e2 e3
  rw [answer_eq hb.1] at hs
  obtain ⟨r', hd⟩ := says_decode hs
  by_cases hp : c.phase = .serving none
  · have ha : act cfg l s (.receive r rd) = some (.ok (), { s with peers := s.peers.modify r fun c => { c with
        phase := .serving (some (pieceMsg i (k * 16384 : Nat) (blockOf x k))), received := c.received ++ [pieceMsg i (k * 16384 : Nat) (blockOf x k)] } }) := by
      simp only [act, hc, if_pos (And.intro hp hC.open_), hd]
      rfl
    rw [step_of h.alive ha (.inl rfl)]
    refine ⟨fs, m, h.modify r _ (fun c => ⟨rfl, rfl, rfl⟩) ?_, hl, by simp, fun _ => id⟩
    intro c' hc'
    rw [hc] at hc'; cases hc'
    exact { hC with phase := .inr ⟨i, k, x, hb, hst, rfl⟩ }
  · have ha : act cfg l s (.receive r rd) = none := by
      simp only [act, hc, if_neg (fun e : c.phase = .serving none ∧ c.closed = false => hp e.1)]
    rw [step_none ha]; exact .refl h hl

/-- The block that has arrived is stored. -/
theorem handle_put (hO : Original cfg.store X) (h : Seeding cfg X s fs m) (hl : s.locked = false) {r : Nat} {c : Conn} (hc : s.peers[r]? = some c) {i k : Nat} {x : Bytes}
    (hb : IsBlock X i k x) (hst : Started s.jobs m i) (hp : c.phase = .serving (some (pieceMsg i (k * 16384 : Nat) (blockOf x k)))) (l : Luck) (hf : ∀ f ∈ l.fates, f = .ok) :
    ∃ fs' m', Seeding cfg X (step cfg s (.handle r, l)) fs' m' ∧ (step cfg s (.handle r, l)).locked = false ∧ (step cfg s (.handle r, l)).peers.length = s.peers.length ∧
      (step cfg s (.handle r, l)).jobs = s.jobs ∧ (∀ i, Done m i → Done m' i) ∧ Storage.Held m' i k ∧ (∀ j l, Storage.Held m j l → Storage.Held m' j l) ∧
      ∃ c', (step cfg s (.handle r, l)).peers[r]? = some c' ∧ c'.phase = .serving none := by
  have hC := h.conns r c hc
  obtain ⟨o, fs', m', g0, g1, g2, g3, g4, g5, g6, g7⟩ := Storage.put_exact hO h.inv h.exact_ hb.1 hb.2 hf
  have hS : Seeding cfg X { s with storage := ⟨fs', some m'⟩ } fs' m' := h.store g2 g3 g6 (fun j hj hfr hd => by
    refine g7 _ ?_ hd
    rintro rfl
    have hnd := (h.jobs j hj).2.2.2.1 hfr
    rcases hst with hst | ⟨r', hr'⟩
    · exact hnd hst
    · have hdis := h.distinct
      obtain ⟨a, ha⟩ := List.getElem?_of_mem hj
      obtain ⟨b, hb⟩ := List.getElem?_of_mem hr'
      have := (List.getElem?_inj (i := a) (j := b) (by have := (List.getElem?_eq_some_iff.mp ha).1; simpa using this) hdis).mp (by
        rw [List.getElem?_map, List.getElem?_map, ha, hb]; rfl)
      subst this
      rw [ha] at hb
      injection hb with hb
      rw [hb] at hfr; cases hfr)
  have hhm : handleMessage l.fates (l.ok r) cfg r (pieceMsg i (k * 16384 : Nat) (blockOf x k)) s =
      handlePiece l.fates cfg r i (k * 16384 : Nat) (blockOf x k) s := rfl
  have hmain : ∃ s1, handlePiece l.fates cfg r i (k * 16384 : Nat) (blockOf x k) s = (.ok (), s1) ∧ Seeding cfg X s1 fs' m' ∧ s1.locked = false ∧
      s1.peers.length = s.peers.length ∧ s1.jobs = s.jobs ∧ s1.alive = true ∧ ∃ c1, s1.peers[r]? = some c1 := by
    unfold handlePiece
    rcases g1 with rfl | rfl
    · have hput : Act.store l.fates (putBlock cfg.store (i : Int) ((k * 16384 : Nat) : Int) (blockOf x k)) s = (.ok (), { s with storage := ⟨fs', some m'⟩ }) := by
        unfold Act.store; rw [h.storage, g0]
      rw [hput]
      have hM := hS.modify r (fun c => { c with downloaded := c.downloaded + (blockOf x k).length }) (fun c => ⟨rfl, rfl, rfl⟩) (by
        intro c' hc'
        have := hS.conns r c' hc'
        exact { this with })
      refine ⟨_, rfl, { hM with }, hl, by simp, rfl, h.alive, { c with downloaded := c.downloaded + (blockOf x k).length }, ?_⟩
      show (s.peers.modify r _)[r]? = _
      rw [List.getElem?_modify, hc]; simp
    · have hput : Act.store l.fates (putBlock cfg.store (i : Int) ((k * 16384 : Nat) : Int) (blockOf x k)) s = (.err .blockExists, { s with storage := ⟨fs', some m'⟩ }) := by
        unfold Act.store; rw [h.storage, g0]
      rw [hput]
      simp only [if_pos rfl]
      exact ⟨_, rfl, hS, hl, rfl, rfl, h.alive, c, hc⟩
  obtain ⟨s1, e1, e2, e3, e4, e5, e6, c1, e7⟩ := hmain
  have ha : act cfg l s (.handle r) = some (.ok (), { s1 with peers := s1.peers.modify r fun c => { c with phase := .serving none } }) := by
    simp only [act, hc, Option.map_some, hp, hhm, e1]
    rfl
  rw [step_of h.alive ha (.inl rfl)]
  refine ⟨fs', m', e2.modify r _ (fun c => ⟨rfl, rfl, rfl⟩) ?_, e3, by simpa using e4, e5, g6, g4, g5, { c1 with phase := .serving none }, ?_, rfl⟩
  · intro c' hc'
    have := e2.conns r c' hc'
    exact { this with phase := .inl rfl }
  · rw [List.getElem?_modify, e7]; simp

theorem handle_goes (hO : Original cfg.store X) (h : Seeding cfg X s fs m) (hl : s.locked = false) (r : Nat) (l : Luck) (hf : ∀ f ∈ l.fates, f = .ok) :
    Goes cfg X s (step cfg s (.handle r, l)) m := by
  cases hc : s.peers[r]? with
  | none =>
    have ha : act cfg l s (.handle r) = none := by simp [act, hc]
    rw [step_none ha]; exact .refl h hl
  | some c =>
    rcases (h.conns r c hc).phase with hp | ⟨i, k, x, hb, hst, hp⟩
    · have ha : act cfg l s (.handle r) = none := by simp [act, hc, hp]
      rw [step_none ha]; exact .refl h hl
    · obtain ⟨fs', m', h1, h2, h3, _, h4, _⟩ := handle_put hO h hl hc hb hst hp l hf
      exact ⟨fs', m', h1, h2, h3, h4⟩

theorem again_goes (h : Seeding cfg X s fs m) (hl : s.locked = false) (k : Nat) (timer : Bool) (hc : s.cancelled = false ∨ timer = true) (l : Luck) :
    Goes cfg X s (step cfg s (.again k timer, l)) m := by
  cases hk : s.waiting[k]? with
  | none => rw [step_none (by simp [act, hk])]; exact .refl h hl
  | some r =>
    cases timer with
    | false =>
      rcases hc with hc | hc
      · rw [step_none (by simp [act, hk, hc])]; exact .refl h hl
      · cases hc
    | true =>
      have hst : step cfg s (.again k true, l) = { s with waiting := s.waiting.eraseIdx k, toRequest := s.toRequest ++ [r] } := by
        refine step_of (o := .ok ()) h.alive ?_ (.inl rfl)
        simp only [act, hk, h.requesting]
        rfl
      rw [hst]
      refine ⟨fs, m, { h with waiting := fun x hx => h.waiting x (List.mem_of_mem_eraseIdx hx), toRequest := ?_, busy := ?_ }, hl, rfl, fun _ => id⟩
      · intro x hx
        rcases List.mem_append.mp hx with hx | hx
        · exact h.toRequest x hx
        · rw [List.mem_singleton.mp hx]; exact h.waiting r (List.mem_of_getElem? hk)
      · intro x hx
        rcases h.busy x hx with g | g | g
        · exact .inl (by simp [g])
        · rcases mem_eraseIdx hk g with rfl | g
          · exact .inl (by simp)
          · exact .inr (.inl g)
        · exact .inr (.inr g)

theorem unchoke_goes (h : Seeding cfg X s fs m) (hl : s.locked = false) (r : Nat) (l : Luck) : Goes cfg X s (step cfg s (.unchoke r, l)) m := by
  by_cases hr : (s.peers[r]?.map Conn.registered) = some true
  · have hlt : r < s.peers.length := by
      cases hc : s.peers[r]? with
      | none => rw [hc] at hr; cases hr
      | some c => exact (List.getElem?_eq_some_iff.mp hc).1
    have ha : act cfg l s (.unchoke r) = some (P2P.unchoke (l.ok r) r s) := by simp only [act, if_pos hr]
    have hf := unchoke_fine h (l.ok r) hlt
    generalize P2P.unchoke (l.ok r) r s = y at ha hf
    obtain ⟨o, s'⟩ := y
    rw [step_of h.alive ha (hf.1.imp id .inl)]
    exact .of_fine hf hl
  · have ha : act cfg l s (.unchoke r) = none := by simp only [act, if_neg hr]
    rw [step_none ha]; exact .refl h hl

theorem addPeer_goes (h : Seeding cfg X s fs m) (hl : s.locked = false) (tp : Tracker.Peer) (l : Luck) : Goes cfg X s (step cfg s (.addPeer tp, l)) m := by
  have key : ∃ o q kp, addPeer tp s = (o, { s with newPeerQueue := q, knownPeers := kp }) ∧ (o = .ok () ∨ ∃ e, o = .err e) ∨ (remoteAddr tp = .panic) := by
    unfold addPeer Act.locked Act.bind Act.lock
    simp only [if_neg (show ¬ s.locked = true by rw [hl]; decide)]
    rw [bind_apply]
    cases hra : remoteAddr tp with
    | panic => exact ⟨.panic, [], [], .inr rfl⟩
    | err e => exact ⟨.err e, s.newPeerQueue, s.knownPeers, .inl ⟨by simp [Act.lift, hl], .inr ⟨e, rfl⟩⟩⟩
    | ok addr =>
      show ∃ o q kp, _
      simp only [Act.lift]
      rw [show (Act.pure addr : Act Bytes) { s with locked := true } = (.ok addr, { s with locked := true }) from rfl]
      simp only
      rw [bind_apply]
      simp only [get_apply]
      by_cases c1 : (mget s.knownPeers addr).isSome = true
      · rw [if_pos c1]; exact ⟨.ok (), s.newPeerQueue, s.knownPeers, .inl ⟨by simp [hl], .inl rfl⟩⟩
      · rw [if_neg c1]
        by_cases c2 : addr ∈ s.blockedPeers
        · rw [if_pos c2]; exact ⟨.ok (), s.newPeerQueue, s.knownPeers, .inl ⟨by simp [hl], .inl rfl⟩⟩
        · rw [if_neg c2]
          by_cases c3 : s.newPeerQueue.length < 50
          · rw [if_pos c3]; exact ⟨.ok (), s.newPeerQueue ++ [tp], mput s.knownPeers addr tp, .inl ⟨by simp only [modify_apply, hl], .inl rfl⟩⟩
          · rw [if_neg c3]; exact ⟨.ok (), s.newPeerQueue, s.knownPeers, .inl ⟨by simp [hl], .inl rfl⟩⟩
  obtain ⟨o, q, kp, h1 | h1⟩ := key
  · have ha : act cfg l s (.addPeer tp) = some (o, { s with newPeerQueue := q, knownPeers := kp }) := by simp only [act, h1.1]
    rw [step_of h.alive ha (h1.2.imp id .inl)]
    exact ⟨fs, m, { h with }, hl, rfl, fun _ => id⟩
  · unfold remoteAddr at h1
    split at h1 <;> cases h1

theorem takeAddr_goes (h : Seeding cfg X s fs m) (hl : s.locked = false) (l : Luck) : Goes cfg X s (step cfg s (.takeAddr, l)) m := by
  by_cases hk : ∃ tp q, s.held = none ∧ s.newPeerQueue = tp :: q
  · obtain ⟨tp, q, h1, h2⟩ := hk
    have ha : act cfg l s .takeAddr = some (.ok (), { s with newPeerQueue := q, held := some tp }) := by simp only [act, h1, h2]
    rw [step_of h.alive ha (.inl rfl)]
    exact ⟨fs, m, { h with }, hl, rfl, fun _ => id⟩
  · have ha : act cfg l s .takeAddr = none := by
      simp only [act]
      split
      · rename_i h1 h2; exact absurd ⟨_, _, h1, h2⟩ hk
      · rfl
    rw [step_none ha]; exact .refl h hl

theorem spawn_goes (h : Seeding cfg X s fs m) (hl : s.locked = false) (l : Luck) : Goes cfg X s (step cfg s (.spawn, l)) m := by
  cases hh : s.held with
  | none => rw [step_none (by simp [act, hh])]; exact .refl h hl
  | some tp =>
    by_cases hs : slots s ≥ 50
    · rw [step_none (by simp [act, hh, hs])]; exact .refl h hl
    · have ha : act cfg l s .spawn = some (.ok (), { s with held := none, dialers := s.dialers ++ [(tp, false)] }) := by simp only [act, hh, if_neg hs]
      rw [step_of h.alive ha (.inl rfl)]
      exact ⟨fs, m, { h with }, hl, rfl, fun _ => id⟩

theorem dialCheck_goes (h : Seeding cfg X s fs m) (hl : s.locked = false) (k : Nat) (l : Luck) : Goes cfg X s (step cfg s (.dialCheck k, l)) m := by
  have key : act cfg l s (.dialCheck k) = none ∨ ∃ o ds, act cfg l s (.dialCheck k) = some (o, { s with dialers := ds }) ∧ (o = .ok () ∨ ∃ e, o = .err e) := by
    simp only [act]
    split
    · rename_i tp hk
      split
      · rw [if_neg (by rw [hl]; decide)]
        split
        · exact .inr ⟨_, _, rfl, .inl rfl⟩
        · exact .inr ⟨_, _, rfl, .inl rfl⟩
      · exact .inr ⟨_, _, rfl, .inr ⟨_, rfl⟩⟩
    · exact .inl rfl
  rcases key with ha | ⟨o, ds, ha, ho⟩
  · rw [step_none ha]; exact .refl h hl
  · rw [step_of h.alive ha (ho.imp id .inl)]
    exact ⟨fs, m, { h with }, hl, rfl, fun _ => id⟩

/-- The download goes on. -/
theorem honest_goes (hO : Original cfg.store X) (h : Seeding cfg X s fs m) (hl : s.locked = false) {e : Event × Luck} (he : Honest X s e) :
    Goes cfg X s (step cfg s e) m := by
  have hX : X.length = cfg.store.info.pieces.length := hO.contents.1
  obtain ⟨e, l⟩ := e
  have hf : ∀ f ∈ l.fates, f = .ok := he.1
  cases e with
  | receive r rd => exact receive_goes h hl r rd l he
  | handle r => exact handle_goes hO h hl r l hf
  | select k => exact select_goes hX h hl k l
  | begin k => exact (begin_goes hX h hl k l hf).1
  | request k q => exact request_goes hO h hl k q l
  | finish k res => exact finish_goes h hl k res he.2 l
  | hand k => exact hand_goes h hl k l
  | clear k => exact clear_goes h hl k l
  | again k timer => exact again_goes h hl k timer (.inl h.calm) l
  | unchoke r => exact unchoke_goes h hl r l
  | addPeer tp => exact addPeer_goes h hl tp l
  | takeAddr => exact takeAddr_goes h hl l
  | spawn => exact spawn_goes h hl l
  | dialCheck k => exact dialCheck_goes h hl k l
  | _ => exact he.2.elim

end Drip.P2P
