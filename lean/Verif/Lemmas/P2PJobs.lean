import Verif.Lemmas.P2PHas
/-
Which pieces are being downloaded.
-/

namespace Drip.P2P
open PeerWire Metainfo
open Storage (Fate World Op runOp getBlock putBlock resetPiece)

variable {cfg : Cfg} {may : May} {r : Ref}

/-- server.go:383: the pieces that the peer has and we do not. -/
def wanted (c : Conn) (ours : Bytes) : List Nat := Bitfield.items (Bitfield.difference c.bitfield ours)

theorem mem_wanted {c : Conn} {ours : Bytes} {i : Nat} : i ∈ wanted c ours ↔ Bitfield.bit c.bitfield i = true ∧ Bitfield.bit ours i = false := by
  unfold wanted
  rw [mem_items, Bitfield.bit_difference]
  simp

theorem set_same {α : Type} {l : List α} {k : Nat} {a : α} (h : l[k]? = some a) : l.set k a = l := by
  obtain ⟨hk, he⟩ := List.getElem?_eq_some_iff.1 h
  rw [← he, List.set_getElem_self]

/-- NOT_INTERESTED. -/
theorem notInterest_cases (ok : Bool) {s : State} {c : Conn} (hc : s.peers[r]? = some c) :
    (c.interested = false ∧ notInterest ok r s = (.ok (), s)) ∨
    (c.interested = true ∧ ok = true ∧ c.closed = false ∧ notInterest ok r s = (.ok (), { s with peers := s.peers.set r { c with interested := false, sent := c.sent ++ [PeerWire.notInterested] } })) ∨
    (c.interested = true ∧ ¬ (ok = true ∧ c.closed = false) ∧ notInterest ok r s = (.err .conn, { s with peers := s.peers.set r { c with interested := false } })) := by
  unfold notInterest
  rw [bind_apply, getConn_some hc]
  simp only []
  cases hi : c.interested with
  | false => left; simp
  | true =>
    right
    rw [if_pos rfl, bind_apply, setConn_apply]
    simp only []
    unfold send
    rw [bind_apply, getConn_some (modify_self hc _)]
    simp only []
    rw [if_neg (by simp [PeerWire.notInterested]; intro h; exact absurd h (by decide))]
    by_cases h : ok = true ∧ c.closed = false
    · left
      refine ⟨trivial, h.1, h.2, ?_⟩
      rw [if_pos (by simp [h.1, h.2]), setConn_apply, modify_some (modify_self hc _), modify_some hc, List.set_set]
    · right
      refine ⟨trivial, h, ?_⟩
      rw [if_neg (by simpa using h), modify_some hc]
      rfl

/-- The outcome of `requestPieceFromPeer`. -/
theorem requestPiece_cases (ok : Bool) (coins : List Bool) (pdq : List Nat → List Nat) {s : State} {c : Conn} {m : Storage.Mem} (hl : s.locked = false) (hc : s.peers[r]? = some c)
    (hm : s.storage.mem = some m) :
    ((c.closed = true ∨ c.remoteChoked = true) ∧ requestPieceFromPeer ok coins pdq r s = (.ok (), { s with queuedPeers := sdel s.queuedPeers r })) ∨
    (¬ (c.closed = true ∨ c.remoteChoked = true) ∧
      ((wanted c m.bitfield = [] ∧ ((requestPieceFromPeer ok coins pdq r s).1 = .ok () ∨ (requestPieceFromPeer ok coins pdq r s).1 = .err .conn) ∧
          ∃ c', (requestPieceFromPeer ok coins pdq r s).2 = { s with queuedPeers := sdel s.queuedPeers r, peers := s.peers.set r c' } ∧
            c'.sent = (if c.interested = true ∧ ok = true then c.sent ++ [PeerWire.notInterested] else c.sent) ∧ c'.bitfield = c.bitfield) ∨
       (∃ i, firstFree s.inflight (sortPieces (available s.indexToPeers) coins pdq (wanted c m.bitfield)) = some i ∧
          requestPieceFromPeer ok coins pdq r s = (.ok (), { s with inflight := mput s.inflight (i : Int) r, jobs := s.jobs ++ [{ peer := r, index := i }] })) ∨
       (firstFree s.inflight (sortPieces (available s.indexToPeers) coins pdq (wanted c m.bitfield)) = none ∧ wanted c m.bitfield ≠ [] ∧
          requestPieceFromPeer ok coins pdq r s = (.ok (), { s with waiting := s.waiting ++ [r] })))) := by
  have hself : ({ s with locked := false } : State) = s := by rw [← hl]
  unfold requestPieceFromPeer
  rw [locked_apply, if_neg (by rw [hl]; simp)]
  have hc' : ({ s with locked := true } : State).peers[r]? = some c := hc
  rw [bind_apply, getConn_some hc']
  simp only []
  by_cases h1 : c.closed = true ∨ c.remoteChoked = true
  · left
    refine ⟨h1, ?_⟩
    rw [if_pos h1]
    simp only [modify_apply]
    rw [hl]
  · right
    refine ⟨h1, ?_⟩
    rw [if_neg h1, bind_apply]
    unfold torrentBitfield
    simp only [hm]
    change _ ∧ _ ∨ _ ∨ _
    by_cases h2 : wanted c m.bitfield = []
    · left
      rw [show Bitfield.items (Bitfield.difference c.bitfield m.bitfield) = [] from h2, if_pos rfl, bind_apply, modify_apply]
      simp only []
      have hcl : c.closed = false := by
        cases h : c.closed with
        | false => rfl
        | true => exact absurd (.inl h) h1
      rcases notInterest_cases (r := r) ok (s := { s with locked := true, queuedPeers := sdel s.queuedPeers r }) hc with ⟨h3, h4⟩ | ⟨h3, h4, h5, h6⟩ | ⟨h3, h4, h6⟩
      · rw [h4]
        exact ⟨h2, .inl rfl, c, by rw [set_same hc, hl], by rw [h3]; simp, rfl⟩
      · rw [h6]
        exact ⟨h2, .inl rfl, _, by rw [hl], by rw [h3, h4]; simp, by rfl⟩
      · rw [h6]
        exact ⟨h2, .inr rfl, _, by rw [hl], by rw [if_neg]; rintro ⟨_, h⟩; exact h4 ⟨h, hcl⟩, by rfl⟩
    · right
      rw [if_neg (show ¬ Bitfield.items (Bitfield.difference c.bitfield m.bitfield) = [] from h2), bind_apply, get_apply]
      simp only []
      show (∃ i, firstFree s.inflight (sortPieces (available s.indexToPeers) coins pdq (wanted c m.bitfield)) = some i ∧ _) ∨ _
      cases h3 : firstFree s.inflight (sortPieces (available s.indexToPeers) coins pdq (wanted c m.bitfield)) with
      | some i =>
        left
        refine ⟨i, rfl, ?_⟩
        unfold wanted at h3
        simp only [h3, modify_apply]
        rw [hl]
      | none =>
        right
        refine ⟨rfl, h2, ?_⟩
        unfold wanted at h3
        simp only [h3, modify_apply]
        rw [hl]

/-! ### The downloads that are going on -/

/-- The entries of `inflight` are the downloads that are going on, one per piece. -/
structure JobsInv (s : State) : Prop where
  nodup : (s.jobs.map Job.index).Nodup
  inflight : ∀ (i : Nat) (x : Ref), mget s.inflight (i : Int) = some x ↔ ∃ j ∈ s.jobs, j.index = i ∧ j.peer = x

theorem Smalls.jobsFrame {s s' : State} (hn : ¬ may.jobs) (h : Smalls cfg may s s') : s'.jobs = s.jobs ∧ s'.inflight = s.inflight := by
  induction h with
  | refl => exact ⟨rfl, rfl⟩
  | tail _ h ih =>
    cases h with
    | jobs i j ha => exact absurd ha hn
    | _ => exact ih

/-- Another stage of the same download. -/
theorem JobsInv.stage {s s' : State} (h : JobsInv s) {k : Nat} {x : Ref} {i : Nat} {st st' : Stage} (hk : s.jobs[k]? = some ⟨x, i, st⟩) (h1 : s'.jobs = s.jobs.set k ⟨x, i, st'⟩)
    (h2 : s'.inflight = s.inflight) : JobsInv s' := by
  have hmap : ∀ {β : Type} (f : Job → β), f ⟨x, i, st⟩ = f ⟨x, i, st'⟩ → s'.jobs.map f = s.jobs.map f := fun f hf => by
    rw [h1, List.map_set, ← hf]
    exact set_same (by rw [List.getElem?_map, hk]; rfl)
  refine ⟨by rw [hmap Job.index rfl]; exact h.nodup, fun n y => ?_⟩
  rw [h2, h.inflight n y]
  have hm := hmap (fun j => (j.index, j.peer)) rfl
  have key : ∀ l : List Job, (∃ j ∈ l, j.index = n ∧ j.peer = y) ↔ (n, y) ∈ l.map fun j => (j.index, j.peer) := fun l => by
    rw [List.mem_map]
    constructor
    · rintro ⟨j, h1, rfl, rfl⟩; exact ⟨j, h1, rfl⟩
    · rintro ⟨j, h1, h2⟩; injection h2 with h2 h3; exact ⟨j, h1, h2, h3⟩
  rw [key, key, hm]

/-- What `requestPieceFromPeer` does to the downloads. -/
theorem requestPiece_jobs (ok : Bool) (coins : List Bool) (pdq : List Nat → List Nat) (r : Ref) (s : State) :
    ((requestPieceFromPeer ok coins pdq r s).2.jobs = s.jobs ∧ (requestPieceFromPeer ok coins pdq r s).2.inflight = s.inflight) ∨
    ∃ i : Nat, mget s.inflight (i : Int) = none ∧ (requestPieceFromPeer ok coins pdq r s).2.jobs = s.jobs ++ [{ peer := r, index := i }] ∧
      (requestPieceFromPeer ok coins pdq r s).2.inflight = mput s.inflight (i : Int) r := by
  cases hl : s.locked with
  | true =>
    have : requestPieceFromPeer ok coins pdq r s = (.stuck, s) := by unfold requestPieceFromPeer; rw [locked_apply, if_pos hl]
    rw [this]; exact .inl ⟨rfl, rfl⟩
  | false =>
    cases hc : s.peers[r]? with
    | none =>
      left
      unfold requestPieceFromPeer
      rw [locked_apply, if_neg (by rw [hl]; simp), bind_apply, getConn_apply]
      simp only [hc, and_self]
    | some c =>
      cases hm : s.storage.mem with
      | none =>
        left
        unfold requestPieceFromPeer
        rw [locked_apply, if_neg (by rw [hl]; simp), bind_apply, getConn_apply]
        simp only [hc]
        by_cases h1 : c.closed = true ∨ c.remoteChoked = true
        · rw [if_pos h1]; exact ⟨rfl, rfl⟩
        · rw [if_neg h1, bind_apply]
          unfold torrentBitfield
          simp only [hm, and_self]
      | some m =>
        rcases requestPiece_cases (r := r) ok coins pdq hl hc hm with ⟨_, h⟩ | ⟨_, ⟨_, _, c', h, _⟩ | ⟨i, h1, h⟩ | ⟨_, _, h⟩⟩
        · rw [h]; exact .inl ⟨rfl, rfl⟩
        · rw [h]; exact .inl ⟨rfl, rfl⟩
        · rw [h]; exact .inr ⟨i, (firstFree_some h1).2, rfl, rfl⟩
        · rw [h]; exact .inl ⟨rfl, rfl⟩

theorem act_jobs {s : State} (hi : Inv cfg s) (h : JobsInv s) (l : Luck) (e : Event) {o : Outcome Unit} {s' : State} (ha : act cfg l s e = some (o, s')) : JobsInv s' := by
  have hsm := act_small (cfg := cfg) l hi.pendOK ha
  have hother : ¬ (mayOf cfg s e).jobs → JobsInv s' := fun hn => by
    obtain ⟨h1, h2⟩ := hsm.jobsFrame hn
    exact ⟨by rw [h1]; exact h.nodup, fun i x => by rw [h1, h2]; exact h.inflight i x⟩
  by_cases he : (mayOf cfg s e).jobs
  · rcases he with ⟨k, he⟩ | ⟨k, he⟩ | ⟨k, res, he⟩ | ⟨k, he⟩ | ⟨k, he⟩
    all_goals subst he; simp only [act] at ha
    · cases hk : s.toRequest[k]? with
      | none => rw [hk] at ha; cases ha
      | some x =>
        rw [hk] at ha
        simp only [] at ha
        have hj := requestPiece_jobs (l.ok x) l.coins l.pdq x s
        generalize requestPieceFromPeer (l.ok x) l.coins l.pdq x s = y at ha hj
        obtain ⟨o', t⟩ := y
        have hs : s' = s ∨ (s'.jobs = t.jobs ∧ s'.inflight = t.inflight) := by
          cases o' <;> cases ha <;> first | exact .inl rfl | exact .inr ⟨rfl, rfl⟩
        rcases hs with rfl | ⟨e1, e2⟩
        · exact h
        rcases hj with ⟨h1, h2⟩ | ⟨i, h0, h1, h2⟩
        · simp only at h1 h2
          exact ⟨by rw [e1, h1]; exact h.nodup, fun i x => by rw [e1, e2, h1, h2]; exact h.inflight i x⟩
        · simp only at h1 h2
          have hno : ∀ j ∈ s.jobs, j.index ≠ i := fun j hj he => by
            rw [(h.inflight i j.peer).2 ⟨j, hj, he, rfl⟩] at h0; cases h0
          refine ⟨?_, fun n y => ?_⟩
          · rw [e1, h1, List.map_append, List.nodup_append]
            refine ⟨h.nodup, by simp, fun a ha b hb => ?_⟩
            obtain ⟨j, hj, rfl⟩ := List.mem_map.1 ha
            rw [List.map_singleton, List.mem_singleton] at hb
            rw [hb]; exact hno j hj
          · rw [e1, e2, h1, h2, mget_mput]
            by_cases hn : n = i
            · subst hn
              rw [if_pos rfl]
              constructor
              · intro e; injection e with e; exact ⟨_, List.mem_append_right _ (List.mem_singleton.2 rfl), rfl, e⟩
              · rintro ⟨j, hj, hji, rfl⟩
                rcases List.mem_append.1 hj with hj | hj
                · exact absurd hji (hno j hj)
                · rw [List.mem_singleton] at hj; rw [hj]
            · rw [if_neg (by omega), h.inflight n y]
              constructor
              · rintro ⟨j, hj, h3⟩; exact ⟨j, List.mem_append_left _ hj, h3⟩
              · rintro ⟨j, hj, h3⟩
                rcases List.mem_append.1 hj with hj | hj
                · exact ⟨j, hj, h3⟩
                · rw [List.mem_singleton] at hj; rw [hj] at h3; exact absurd h3.1.symm hn
    · cases hk : s.jobs[k]? with
      | none => rw [hk] at ha; cases ha
      | some j =>
        obtain ⟨x, i, st⟩ := j
        rw [hk] at ha
        cases st with
        | fresh =>
          simp only [] at ha
          have h2 := store_state l.fates (resetPiece i) s
          generalize Act.store l.fates (resetPiece i) s = y at ha h2
          cases ha
          exact h.stage hk (by rw [h2]) (by rw [h2])
        | _ => cases ha
    · cases hk : s.jobs[k]? with
      | none => rw [hk] at ha; cases ha
      | some j =>
        obtain ⟨x, i, st⟩ := j
        rw [hk] at ha
        cases st with
        | running =>
          simp only [] at ha
          split at ha
          · have hf := pres_finish (cfg := cfg) (may := { May.top with jobs := False }) (r := x) l.ok l.order i res (s := s) (fun _ _ _ _ => trivial) (fun _ => ⟨trivial, trivial⟩)
            obtain ⟨h1, h2⟩ := hf.jobsFrame (fun h => h)
            generalize finish l.ok l.order x i res s = y at ha h1 h2
            obtain ⟨o', t⟩ := y
            simp only at h1 h2
            have hs : s' = s ∨ (s'.jobs = t.jobs.set k ⟨x, i, .over⟩ ∧ s'.inflight = t.inflight) := by
              cases o' <;> cases ha <;> first | exact .inl rfl | exact .inr ⟨rfl, rfl⟩
            rcases hs with rfl | ⟨e1, e2⟩
            · exact h
            · exact h.stage hk (by rw [e1, h1]) (by rw [e2, h2])
          · cases ha
        | _ => cases ha
    · cases hk : s.jobs[k]? with
      | none => rw [hk] at ha; cases ha
      | some j =>
        obtain ⟨x, i, st⟩ := j
        rw [hk] at ha
        cases st with
        | over =>
          simp only [] at ha
          split at ha
          · cases ha; exact h
          · cases ha; exact h.stage hk rfl rfl
        | _ => cases ha
    · cases hk : s.jobs[k]? with
      | none => rw [hk] at ha; cases ha
      | some j =>
        obtain ⟨x, i, st⟩ := j
        rw [hk] at ha
        cases st with
        | handed =>
          cases ha
          obtain ⟨hlt, he⟩ := List.getElem?_eq_some_iff.1 hk
          have hnd := h.nodup
          rw [← List.take_append_drop k s.jobs, List.drop_eq_getElem_cons hlt, he] at hnd
          simp only [List.map_append, List.map_cons] at hnd
          have hmem : ∀ j, j ∈ s.jobs.eraseIdx k ↔ j ∈ s.jobs ∧ j.index ≠ i := fun j => by
            rw [List.eraseIdx_eq_take_drop_succ]
            rw [show (j ∈ s.jobs) ↔ j ∈ s.jobs.take k ++ ⟨x, i, .handed⟩ :: s.jobs.drop (k + 1) by
              rw [← he, ← List.drop_eq_getElem_cons hlt, List.take_append_drop]]
            rw [List.nodup_append, List.nodup_cons] at hnd
            obtain ⟨_, ⟨h2, _⟩, h3⟩ := hnd
            constructor
            · intro hj
              rcases List.mem_append.1 hj with hj | hj
              · exact ⟨List.mem_append_left _ hj, h3 _ (List.mem_map_of_mem hj) _ (List.mem_cons_self ..)⟩
              · exact ⟨List.mem_append_right _ (List.mem_cons_of_mem _ hj), fun e => h2 (e ▸ List.mem_map_of_mem hj)⟩
            · rintro ⟨hj, hn⟩
              rcases List.mem_append.1 hj with hj | hj
              · exact List.mem_append_left _ hj
              · rcases List.mem_cons.1 hj with rfl | hj
                · exact absurd rfl hn
                · exact List.mem_append_right _ hj
          refine ⟨List.Nodup.sublist ((List.eraseIdx_sublist ..).map _) h.nodup, fun n y => ?_⟩
          show mget (mdel s.inflight _) _ = _ ↔ ∃ j ∈ s.jobs.eraseIdx k, _
          rw [mget_mdel]
          by_cases hn : n = i
          · subst hn
            rw [if_pos rfl]
            refine ⟨fun h => by (cases h), ?_⟩
            rintro ⟨j, hj, h3, _⟩
            exact absurd h3 ((hmem j).1 hj).2
          · rw [if_neg (by omega), h.inflight n y]
            constructor
            · rintro ⟨j, hj, h3, h4⟩; exact ⟨j, (hmem j).2 ⟨hj, by omega⟩, h3, h4⟩
            · rintro ⟨j, hj, h3⟩; exact ⟨j, ((hmem j).1 hj).1, h3⟩
        | _ => cases ha
  · exact hother he

theorem jobs_run (w : World) (es : List (Event × Luck)) : JobsInv (run cfg (init w) es) :=
  (run_rec (cfg := cfg) (P := fun _ s => Inv cfg s ∧ JobsInv s) (init w) ⟨.init w, List.nodup_nil, fun i x => ⟨fun h => (by cases h), (by rintro ⟨j, h, _⟩; cases h)⟩⟩ (fun es e ih => ⟨ih.1.step e, by
    rcases step_alive (cfg := cfg) (run cfg (init w) es) e with h | ⟨_, o, s', ha, ⟨_, h⟩ | ⟨_, h⟩⟩
    · rw [h]; exact ih.2
    · rw [h]; exact ⟨(act_jobs ih.1 ih.2 e.2 e.1 ha).1, (act_jobs ih.1 ih.2 e.2 e.1 ha).2⟩
    · rw [h]; exact act_jobs ih.1 ih.2 e.2 e.1 ha⟩) es).2

end Drip.P2P
