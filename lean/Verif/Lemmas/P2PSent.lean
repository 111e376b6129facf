import Verif.Lemmas.P2PQueue
/-
What is sent on a connection and why; from whom pieces are downloaded; the counters of downloaded bytes.
-/

namespace Drip.P2P
open PeerWire Metainfo
open Storage (Fate World Op runOp getBlock putBlock resetPiece)

variable {cfg : Cfg} {may : May} {r : Ref}

/-- Messages are only appended, and for a reason. -/
def Said (may : May) (x : Ref) (c c' : Conn) : Prop := ∃ ms, c'.sent = c.sent ++ ms ∧ ∀ m ∈ ms, may.send x m ∨ m.typ = PIECE ∨ m.typ = BITFIELD

theorem Said.refl (x : Ref) (c : Conn) : Said may x c c := ⟨[], (List.append_nil _).symm, fun _ h => (by cases h)⟩
theorem Said.same {x : Ref} {c c' : Conn} (h : c'.sent = c.sent) : Said may x c c' := ⟨[], by rw [h, List.append_nil], fun _ h => (by cases h)⟩
theorem Said.trans {x : Ref} {a b c : Conn} (h1 : Said may x a b) (h2 : Said may x b c) : Said may x a c := by
  obtain ⟨m1, e1, p1⟩ := h1
  obtain ⟨m2, e2, p2⟩ := h2
  exact ⟨m1 ++ m2, by rw [e2, e1, List.append_assoc], fun m hm => (List.mem_append.1 hm).elim (p1 m) (p2 m)⟩

theorem Change.said {s : State} {c c' : Conn} (h : Change cfg may s r c c') : Said may r c c' := by
  cases h with
  | send m h1 h2 h3 => exact ⟨[m], rfl, fun x hx => by rw [List.mem_singleton] at hx; rw [hx]; exact .inl h1⟩
  | _ => exact .same rfl

theorem Small.said {s s' : State} (h : Small cfg may s s') {x : Ref} {c : Conn} (hc : s.peers[x]? = some c) : ∃ c', s'.peers[x]? = some c' ∧ Said may x c c' := by
  cases h with
  | new id ip port _ => exact ⟨c, by rw [List.getElem?_append_left (List.getElem?_eq_some_iff.1 hc).1]; exact hc, .refl x c⟩
  | upd y a b h1 h2 =>
    rcases set_get (c' := b) h1 hc with ⟨e1, e, h⟩ | ⟨_, h⟩
    · subst e e1; exact ⟨b, h, h2.said⟩
    · exact ⟨c, h, .refl x c⟩
  | upload y a q d f h0 h1 h2 =>
    rcases set_get (c' := a.gave q d) h1 hc with ⟨e1, e, h⟩ | ⟨_, h⟩
    · subst e e1; exact ⟨_, h, [_], rfl, fun m hm => by rw [List.mem_singleton] at hm; rw [hm]; exact .inr (.inl rfl)⟩
    · exact ⟨c, h, .refl x c⟩
  | join y a ms ph hp h1 h2 h3 h4 h5 =>
    rcases set_get (c' := a.join ms ph) h1 hc with ⟨e1, e, h⟩ | ⟨_, h⟩
    · subst e e1
      refine ⟨_, h, ms, rfl, fun m hm => ?_⟩
      rcases h5 with ⟨rfl, _⟩ | ⟨_, _, mem, _, rfl⟩
      · cases hm
      · rw [List.mem_singleton] at hm; rw [hm]; exact .inr (.inr rfl)
    · exact ⟨c, h, .refl x c⟩
  | _ => exact ⟨c, hc, .refl x c⟩

theorem Smalls.said {s s' : State} (h : Smalls cfg may s s') {x : Ref} {c : Conn} (hc : s.peers[x]? = some c) : ∃ c', s'.peers[x]? = some c' ∧ Said may x c c' := by
  induction h with
  | refl => exact ⟨c, hc, .refl x c⟩
  | tail _ h ih =>
    obtain ⟨d, hd, hf⟩ := ih
    obtain ⟨e, he, hf'⟩ := h.said hd
    exact ⟨e, he, hf.trans hf'⟩

/-- What is sent in a step. -/
theorem step_said {s : State} (hi : Inv cfg s) (e : Event × Luck) {x : Ref} {c' : Conn} (hc' : (step cfg s e).peers[x]? = some c') (m : Message) (hm : m ∈ c'.sent) :
    (∃ c, s.peers[x]? = some c ∧ m ∈ c.sent) ∨ (mayOf cfg s e.1).send x m ∨ m.typ = PIECE ∨ m.typ = BITFIELD := by
  have hsm := step_small (cfg := cfg) e hi.pendOK
  cases hc : s.peers[x]? with
  | some c =>
    obtain ⟨d, hd, ms, e1, hms⟩ := hsm.said hc
    rw [hc'] at hd; injection hd with hd; subst hd
    rw [e1] at hm
    rcases List.mem_append.1 hm with hm | hm
    · exact .inl ⟨c, rfl, hm⟩
    · exact .inr (hms m hm)
  | none =>
    suffices h : ∀ c : Conn, (step cfg s e).peers[x]? = some c → m ∈ c.sent → (mayOf cfg s e.1).send x m ∨ m.typ = PIECE ∨ m.typ = BITFIELD from .inr (h c' hc' hm)
    clear hc' hm c'
    generalize mayOf cfg s e.1 = may at *
    generalize step cfg s e = s' at *
    induction hsm with
    | refl => intro c h; rw [hc] at h; cases h
    | @tail b t _ h ih =>
      intro c' hc' hm
      cases hb : b.peers[x]? with
      | some d =>
        obtain ⟨d', h1, ms, e1, hms⟩ := h.said hb
        rw [hc'] at h1; injection h1 with h1; subst h1
        rw [e1] at hm
        rcases List.mem_append.1 hm with hm | hm
        · exact ih d hb hm
        · exact hms m hm
      | none =>
        exfalso
        cases h with
        | new id ip port _ =>
          rcases getElem?_snoc hc' with h | ⟨_, h⟩
          · rw [hb] at h; cases h
          · subst h; cases hm
        | upd y a b h1 h2 => rcases set_cases hc' with ⟨e, _⟩ | ⟨_, h⟩; · subst e; rw [hb] at h1; cases h1
                             · rw [hb] at h; cases h
        | upload y a q d f h0 h1 h2 => rcases set_cases hc' with ⟨e, _⟩ | ⟨_, h⟩; · subst e; rw [hb] at h1; cases h1
                                       · rw [hb] at h; cases h
        | join y a ms ph hp h1 h2 h3 h4 h5 => rcases set_cases hc' with ⟨e, _⟩ | ⟨_, h⟩; · subst e; rw [hb] at h1; cases h1
                                              · rw [hb] at h; cases h
        | _ => have hc' : b.peers[x]? = some c' := hc'; rw [hb] at hc'; cases hc'

/-! ### From whom pieces are downloaded -/

/-- A piece is being downloaded from peers that have it. -/
def JobsHave (s : State) : Prop := ∀ j ∈ s.jobs, ∃ c, s.peers[j.peer]? = some c ∧ Bitfield.bit c.bitfield j.index = true

theorem act_jobs_from {s s' : State} (hi : Inv cfg s) {l : Luck} {e : Event} {o : Outcome Unit} (ha : act cfg l s e = some (o, s')) :
    ∀ j' ∈ s'.jobs, (∃ j ∈ s.jobs, j.peer = j'.peer ∧ j.index = j'.index) ∨ ∃ c, s.peers[j'.peer]? = some c ∧ Bitfield.bit c.bitfield j'.index = true := by
  have hsm := act_small (cfg := cfg) l hi.pendOK ha
  have same : ∀ {t : State}, t.jobs = s.jobs → ∀ j' ∈ t.jobs, (∃ j ∈ s.jobs, j.peer = j'.peer ∧ j.index = j'.index) ∨ ∃ c, s.peers[j'.peer]? = some c ∧ Bitfield.bit c.bitfield j'.index = true :=
    fun h j' hj => .inl ⟨j', h ▸ hj, rfl, rfl⟩
  have set' : ∀ {js : List Job} {k : Nat} {x : Ref} {i : Nat} {st st' : Stage}, s.jobs[k]? = some ⟨x, i, st⟩ → js = s.jobs.set k ⟨x, i, st'⟩ →
      ∀ j' ∈ js, (∃ j ∈ s.jobs, j.peer = j'.peer ∧ j.index = j'.index) ∨ ∃ c, s.peers[j'.peer]? = some c ∧ Bitfield.bit c.bitfield j'.index = true := by
    intro js k x i st st' hk he j' hj
    rw [he] at hj
    rcases List.mem_or_eq_of_mem_set hj with h | h
    · exact .inl ⟨j', h, rfl, rfl⟩
    · exact .inl ⟨_, List.mem_of_getElem? hk, by rw [h], by rw [h]⟩
  by_cases he : (mayOf cfg s e).jobs
  · rcases he with ⟨k, he⟩ | ⟨k, he⟩ | ⟨k, res, he⟩ | ⟨k, he⟩ | ⟨k, he⟩
    all_goals subst he; simp only [act] at ha
    · cases hk : s.toRequest[k]? with
      | none => rw [hk] at ha; cases ha
      | some x =>
        rw [hk] at ha
        simp only [] at ha
        have key : ∀ y, y = requestPieceFromPeer (l.ok x) l.coins l.pdq x s → s' = s ∨ s'.jobs = y.2.jobs := by
          intro y hy
          rw [← hy] at ha
          obtain ⟨o', t⟩ := y
          cases o' <;> cases ha <;> first | exact .inl rfl | exact .inr rfl
        rcases key _ rfl with h | h
        · rw [h]; exact same rfl
        · rw [h]
          cases hl : s.locked with
          | true =>
            have hst : requestPieceFromPeer (l.ok x) l.coins l.pdq x s = (.stuck, s) := by
              unfold requestPieceFromPeer
              rw [locked_apply, if_pos hl]
            rw [hst]; exact same rfl
          | false =>
            obtain ⟨c, hc, _⟩ := hi.refs x (.inl (List.mem_of_getElem? hk))
            cases hmm : s.storage.mem with
            | none =>
              refine same ?_
              unfold requestPieceFromPeer
              rw [locked_apply, if_neg (by rw [hl]; simp), bind_apply, getConn_apply]
              simp only [hc]
              by_cases h1 : c.closed = true ∨ c.remoteChoked = true
              · rw [if_pos h1]; rfl
              · rw [if_neg h1, bind_apply]
                unfold torrentBitfield
                simp only [hmm]
            | some m =>
              rcases requestPiece_cases (r := x) (l.ok x) l.coins l.pdq hl hc hmm with ⟨_, h⟩ | ⟨_, ⟨_, _, c', h, _⟩ | ⟨i, h1, h⟩ | ⟨_, _, h⟩⟩
              · rw [h]; exact same rfl
              · rw [h]; exact same rfl
              · rw [h]
                intro j' hj'
                rcases List.mem_append.1 hj' with hj' | hj'
                · exact .inl ⟨j', hj', rfl, rfl⟩
                · rw [List.mem_singleton] at hj'
                  rw [hj']
                  have := (sortPieces_perm ..).mem_iff.1 (firstFree_some h1).1
                  exact .inr ⟨c, hc, (mem_wanted.1 this).1⟩
              · rw [h]; exact same rfl
    · split at ha
      · rename_i heq
        have h2 := store_state l.fates (resetPiece ‹Nat›) s
        generalize Act.store l.fates (resetPiece ‹Nat›) s = y at ha h2
        cases ha
        exact set' heq (by rw [h2])
      · cases ha
    · split at ha
      · rename_i x i heq
        split at ha
        · have hf := pres_finish (cfg := cfg) (may := { May.top with jobs := False }) (r := x) l.ok l.order i res (s := s) (fun _ _ _ _ => trivial) (fun _ => ⟨trivial, trivial⟩)
          obtain ⟨h1, _⟩ := hf.jobsFrame (fun h => h)
          generalize finish l.ok l.order x i res s = y at ha h1
          obtain ⟨o', t⟩ := y
          simp only at h1
          have hs : s' = s ∨ s'.jobs = t.jobs.set k ⟨x, i, .over⟩ := by
            cases o' <;> cases ha <;> first | exact .inl rfl | exact .inr rfl
          rcases hs with h | h
          · rw [h]; exact same rfl
          · rw [h]; exact set' heq (by rw [h1])
        · cases ha
      · cases ha
    · split at ha
      · rename_i heq
        split at ha
        · cases ha; exact same rfl
        · cases ha; exact set' heq rfl
      · cases ha
    · split at ha
      · cases ha
        exact fun j' hj => .inl ⟨j', List.mem_of_mem_eraseIdx hj, rfl, rfl⟩
      · cases ha
  · exact same (hsm.jobsFrame he).1

theorem jobsHave_run (w : World) (es : List (Event × Luck)) : JobsHave (run cfg (init w) es) := by
  refine run_rec (cfg := cfg) (P := fun _ s => JobsHave s) (init w) (fun j h => by cases h) (fun es e ih => ?_) es
  have hi := inv_run (cfg := cfg) w es
  have hsm := step_small (cfg := cfg) e hi.pendOK
  generalize run cfg (init w) es = s at *
  have key : ∀ s', s'.peers = (step cfg s e).peers → (∀ j' ∈ s'.jobs, (∃ j ∈ s.jobs, j.peer = j'.peer ∧ j.index = j'.index) ∨ ∃ c, s.peers[j'.peer]? = some c ∧ Bitfield.bit c.bitfield j'.index = true) →
      JobsHave s' := by
    intro s' hp h j' hj'
    have hb : ∃ c, s.peers[j'.peer]? = some c ∧ Bitfield.bit c.bitfield j'.index = true := by
      rcases h j' hj' with ⟨j, h1, h2, h3⟩ | h
      · rw [← h2, ← h3]; exact ih j h1
      · exact h
    obtain ⟨c, h1, h2⟩ := hb
    obtain ⟨d, h3, h4⟩ := hsm.grows h1
    exact ⟨d, by rw [hp]; exact h3, h4.keeps _ h2⟩
  rcases step_alive (cfg := cfg) s e with h | ⟨hal, o, s', hact, ⟨_, h⟩ | ⟨_, h⟩⟩
  · rw [h]; exact ih
  · have := act_jobs_from hi hact; exact key _ rfl (by rw [h]; exact this)
  · have := act_jobs_from hi hact; exact key _ rfl (by rw [h]; exact this)

/-! ### What peers are asked for -/

/-- The blocks asked for are blocks of pieces that the peer has announced. -/
theorem requests_run (w : World) (es : List (Event × Luck)) : ∀ (x : Ref) (c : Conn), (run cfg (init w) es).peers[x]? = some c → ∀ m ∈ c.sent, m.typ = REQUEST →
    ∃ (i : Nat) (q : Req), q ∈ requestBlocks cfg.store.info i ∧ m = request q.index q.begin_ q.length ∧ ∃ a ∈ c.received, Announces a i := by
  refine run_rec (cfg := cfg) (P := fun _ s => ∀ (x : Ref) (c : Conn), s.peers[x]? = some c → ∀ m ∈ c.sent, m.typ = REQUEST →
    ∃ (i : Nat) (q : Req), q ∈ requestBlocks cfg.store.info i ∧ m = request q.index q.begin_ q.length ∧ ∃ a ∈ c.received, Announces a i) (init w) (fun x c h => by cases h) (fun es e ih => ?_) es
  have hi := inv_run (cfg := cfg) w es
  have hj := jobsHave_run (cfg := cfg) w es
  have hh := has_run (cfg := cfg) w es
  have hsm := step_small (cfg := cfg) e hi.pendOK
  generalize run cfg (init w) es = s at *
  intro x c' hc' m hm ht
  have grow : ∀ c, s.peers[x]? = some c → ∀ a ∈ c.received, a ∈ c'.received := by
    intro c hc a ha
    obtain ⟨d, hd, hg⟩ := hsm.grows hc
    rw [hc'] at hd; injection hd with hd; subst hd
    obtain ⟨ms, e1⟩ := hg.received
    rw [e1]; exact List.mem_append_left _ ha
  rcases step_said hi e hc' m hm with ⟨c, hc, h⟩ | h | h | h
  · obtain ⟨i, q, h1, h2, a, h3, h4⟩ := ih x c hc m h ht
    exact ⟨i, q, h1, h2, a, grow c hc a h3, h4⟩
  · rcases h with ⟨_, h, _⟩ | ⟨_, h, _⟩ | ⟨k, _, _, h⟩ | ⟨k, q, i, _, h1, h2, h⟩ | ⟨k, y, i, _, _, _, h, _⟩
    · rw [h] at ht; cases ht
    · rw [h] at ht; cases ht
    · rw [h] at ht; cases ht
    · obtain ⟨c, hc, hb⟩ := hj _ (List.mem_of_getElem? h1)
      obtain ⟨a, h3, h4⟩ := (hh x c hc).told i hb
      exact ⟨i, q, h2, h, a, grow c hc a h3, h4⟩
    · rw [h] at ht; cases ht
  · rw [ht] at h; cases h
  · rw [ht] at h; cases h

/-! ### What was downloaded -/

/-- Nothing is counted as downloaded. -/
structure Cn (s s' : State) : Prop where
  total : s'.downloaded = s.downloaded
  conn : ∀ (x : Ref) (c : Conn), s.peers[x]? = some c → ∃ c', s'.peers[x]? = some c' ∧ c'.downloaded = c.downloaded
  fresh : ∀ (x : Ref) (c' : Conn), s'.peers[x]? = some c' → s.peers[x]? = none → c'.downloaded = 0

theorem Cn.same {s s' : State} (h1 : s'.downloaded = s.downloaded) (h2 : s'.peers = s.peers) : Cn s s' :=
  ⟨h1, fun _ c hc => ⟨c, h2 ▸ hc, rfl⟩, fun x c h3 h4 => by rw [h2, h4] at h3; cases h3⟩
theorem Cn.pre : Pre Cn := ⟨fun _ => .same rfl rfl, fun {a b c} h1 h2 => ⟨h2.1.trans h1.1, fun x d hd =>
    let ⟨d1, k1, e1⟩ := h1.2 x d hd
    let ⟨d2, k2, e2⟩ := h2.2 x d1 k1
    ⟨d2, k2, e2.trans e1⟩, fun x d hd hn => by
      cases hb : b.peers[x]? with
      | none => exact h2.3 x d hd hb
      | some d1 =>
        obtain ⟨d2, k2, e2⟩ := h2.2 x d1 hb
        rw [hd] at k2; injection k2 with k2; subst k2
        rw [e2, h1.3 x d1 hb hn]⟩⟩
theorem Kq.cn {s s' : State} (h : Kq cfg s s') : Cn s s' := ⟨h.downloaded, fun x c hc => let ⟨c', h1, h2⟩ := h.peers x c hc; ⟨c', h1, h2.downloaded⟩, fun x c h1 h2 => by
  obtain ⟨id, ip, port, h3⟩ := h.fresh x c h1 h2
  rw [h3.downloaded]; rfl⟩
theorem cn_setConn (f : Conn → Conn) (h : ∀ c, (f c).downloaded = c.downloaded := by exact fun _ => rfl) : Pres Cn (setConn r f) := fun s => by
  rw [setConn_apply]
  cases hc : s.peers[r]? with
  | none => simp only [modify_none hc]; exact Cn.pre.refl s
  | some c =>
    simp only [modify_some hc]
    refine ⟨rfl, fun x d hd => ?_, fun x d h1 h2 => ?_⟩
    · rcases set_get (c' := f c) hc hd with ⟨_, e, h1⟩ | ⟨_, h1⟩
      · subst e; exact ⟨_, h1, h _⟩
      · exact ⟨d, h1, rfl⟩
    · rcases set_cases h1 with ⟨rfl, _⟩ | ⟨_, h1⟩
      · rw [hc] at h2; cases h2
      · rw [h2] at h1; cases h1
theorem cn_locked {α : Type} {p : Act α} (hp : Pres Cn p) : Pres Cn (Act.locked p) := Pres.locked Cn.pre (fun _ _ => .same rfl rfl) hp
theorem cn_send (ok : Bool) (m : Message) : Pres Cn (send ok r m) := by
  unfold send
  exact Pres.bind Cn.pre (Pres.getConn Cn.pre r) fun _ => Pres.ite (Pres.fail Cn.pre _) (Pres.ite (cn_setConn _) (Pres.fail Cn.pre _))
theorem cn_interest (ok : Bool) : Pres Cn (interest ok r) := by
  unfold interest
  exact Pres.bind Cn.pre (Pres.getConn Cn.pre r) fun _ => Pres.ite (Pres.bind Cn.pre (cn_setConn _) fun _ => cn_send ok _) (Pres.pure Cn.pre _)
theorem cn_notInterest (ok : Bool) : Pres Cn (notInterest ok r) := by
  unfold notInterest
  exact Pres.bind Cn.pre (Pres.getConn Cn.pre r) fun _ => Pres.ite (Pres.bind Cn.pre (cn_setConn _) fun _ => cn_send ok _) (Pres.pure Cn.pre _)
theorem cn_QueuePeer : Pres Cn (QueuePeer r) := by
  refine cn_locked ?_
  unfold queuePeer
  refine Pres.bind Cn.pre (Pres.getConn Cn.pre r) fun _ => Pres.ite (Pres.pure Cn.pre _) (Pres.bind Cn.pre (Pres.get Cn.pre) fun _ => Pres.ite (Pres.pure Cn.pre _) ?_)
  exact Pres.bind Cn.pre (fun s => .same rfl rfl) fun _ => Pres.ite (fun s => .same rfl rfl) (fun s => .same rfl rfl)
theorem cn_handleHave (ok : Bool) (i : Int) : Pres Cn (handleHave ok r i) :=
  Pres.bind Cn.pre (Pres.getConn Cn.pre r) fun _ => Pres.bind Cn.pre (Pres.lift Cn.pre _) fun _ => Pres.bind Cn.pre (cn_setConn _) fun _ =>
    Pres.bind Cn.pre (cn_locked (fun s => .same rfl rfl)) fun _ => Pres.bind Cn.pre (Pres.torrentBitfield Cn.pre) fun _ => Pres.bind Cn.pre (Pres.lift Cn.pre _) fun _ =>
      Pres.ite (Pres.bind Cn.pre cn_QueuePeer fun _ => cn_interest ok) (Pres.pure Cn.pre _)
theorem cn_handleItems (ok : Bool) : ∀ is : List Nat, Pres Cn (handleItems ok r is)
  | [] => Pres.pure Cn.pre _
  | i :: is => Pres.bind Cn.pre (cn_handleHave ok i) fun _ => cn_handleItems ok is
theorem cn_store {α : Type} (fates : List Fate) (p : Op α) : Pres Cn (Act.store fates p) := fun s => by rw [store_state]; exact .same rfl rfl

/-- Only PIECE messages count. -/
theorem cn_handleMessage (fates : List Fate) (ok : Bool) {m : Message} (ht : m.typ ≠ PIECE) : Pres Cn (handleMessage fates ok cfg r m) := by
  have hl : ∀ {α : Type} (x : Res α), Pres Cn (Act.lift x) := fun x => Pres.lift Cn.pre x
  unfold handleMessage
  rw [if_neg ht]
  refine Pres.ite (cn_setConn _) (Pres.ite (Pres.bind Cn.pre (cn_setConn _) fun _ => cn_QueuePeer) (Pres.ite (cn_setConn _)
    (Pres.ite (cn_setConn _) (Pres.ite ?_ (Pres.ite ?_ (Pres.ite ?_ (Pres.ite ?_ (Pres.pure Cn.pre _))))))))
  · exact Pres.bind Cn.pre (hl _) fun _ => cn_handleHave ok _
  · exact Pres.bind Cn.pre (hl _) fun _ => cn_handleItems ok _
  · refine Pres.bind Cn.pre (hl _) fun _ => Pres.bind Cn.pre (hl _) fun _ => Pres.bind Cn.pre (hl _) fun _ => ?_
    unfold handleRequest
    exact Pres.bind Cn.pre (Pres.getConn Cn.pre r) fun _ => Pres.ite (Pres.fail Cn.pre _) (Pres.ite (cn_setConn _) (Pres.bind Cn.pre (cn_store _ _) fun _ =>
      Pres.bind Cn.pre (cn_send _ _) fun _ => Pres.bind Cn.pre (cn_setConn _) fun _ => fun s => .same rfl rfl))
  · exact Pres.bind Cn.pre (hl _) fun _ => Pres.bind Cn.pre (hl _) fun _ => Pres.bind Cn.pre (hl _) fun _ => cn_setConn _

theorem cn_requestPiece (ok : Bool) (coins : List Bool) (pdq : List Nat → List Nat) : Pres Cn (requestPieceFromPeer ok coins pdq r) := by
  unfold requestPieceFromPeer
  refine cn_locked (Pres.bind Cn.pre (Pres.getConn Cn.pre r) fun _ => Pres.ite (fun s => .same rfl rfl) (Pres.bind Cn.pre (Pres.torrentBitfield Cn.pre) fun _ => ?_))
  refine Pres.ite (Pres.bind Cn.pre (fun s => .same rfl rfl) fun _ => cn_notInterest ok) (Pres.bind Cn.pre (Pres.get Cn.pre) fun s => ?_)
  split
  · exact fun s => .same rfl rfl
  · exact fun s => .same rfl rfl

/-- Steps other than the handling of a PIECE. -/
theorem cn_act {s s' : State} {l : Luck} {e : Event} {o : Outcome Unit} (h : act cfg l s e = some (o, s'))
    (hne : ∀ x c m, e = .handle x → s.peers[x]? = some c → c.phase = .serving (some m) → m.typ ≠ PIECE) : Cn s s' := by
  by_cases ht : Touches e = false
  · exact (kp_act ht h).cn
  cases e with
  | handle x =>
    simp only [act] at h
    cases hc : s.peers[x]? with
    | none => rw [hc] at h; cases h
    | some c =>
      simp only [hc, Option.map_some] at h
      cases hp : c.phase with
      | serving p =>
        cases p with
        | none => simp only [hp] at h; cases h
        | some msg =>
          simp only [hp] at h
          injection h with h
          have h1 := cn_handleMessage (cfg := cfg) (r := x) l.fates (l.ok x) (hne x c msg rfl hc hp) s
          have h2 := congrArg Prod.snd h
          simp only [P2P.next] at h2
          rw [← h2]
          refine Cn.pre.trans h1 ?_
          have := cn_setConn (r := x) (fun c => { c with phase := match (handleMessage l.fates (l.ok x) cfg x msg s).1 with | .ok _ => .serving none | .err _ => .leaving | _ => .hung }) (fun _ => rfl)
            (handleMessage l.fates (l.ok x) cfg x msg s).2
          rw [setConn_apply] at this
          exact this
      | _ => simp only [hp] at h; cases h
  | select k =>
    simp only [act] at h
    cases hk : s.toRequest[k]? with
    | none => rw [hk] at h; cases h
    | some x =>
      rw [hk] at h
      simp only [] at h
      have h1 := cn_requestPiece (r := x) (l.ok x) l.coins l.pdq s
      generalize requestPieceFromPeer (l.ok x) l.coins l.pdq x s = y at h h1
      obtain ⟨o', t⟩ := y
      have key : s' = s ∨ s' = { t with toRequest := t.toRequest.eraseIdx k } := by
        cases o' <;> cases h <;> first | exact .inl rfl | exact .inr rfl
      rcases key with h | h <;> rw [h]
      · exact Cn.pre.refl s
      · exact ⟨h1.total, h1.conn, h1.fresh⟩
  | begin k =>
    simp only [act] at h
    split at h
    · rename_i x i heq
      have h2 := store_state l.fates (resetPiece i) s
      generalize Act.store l.fates (resetPiece i) s = y at h h2
      cases h
      rw [h2]
      exact .same rfl rfl
    · cases h
  | finish k res =>
    simp only [act] at h
    split at h
    · rename_i x i heq
      split at h
      · have hf := (kp_finish (cfg := cfg) (r := x) l.ok l.order i res s).cn
        generalize finish l.ok l.order x i res s = y at h hf
        obtain ⟨o', t⟩ := y
        simp only at hf
        have key : s' = s ∨ s' = { t with jobs := t.jobs.set k ⟨x, i, .over⟩ } := by
          cases o' <;> cases h <;> first | exact .inl rfl | exact .inr rfl
        rcases key with h | h <;> rw [h]
        · exact Cn.pre.refl s
        · exact ⟨hf.total, hf.conn, hf.fresh⟩
      · cases h
    · cases h
  | hand k =>
    simp only [act] at h
    split at h
    · split at h <;> cases h <;> exact .same rfl rfl
    · cases h
  | clear k =>
    simp only [act] at h
    split at h
    · cases h; exact .same rfl rfl
    · cases h
  | again k timer =>
    simp only [act] at h
    split at h
    · split at h <;> cases h <;> exact .same rfl rfl
    · split at h
      · cases h; exact .same rfl rfl
      · cases h
    · cases h
  | quit =>
    simp only [act] at h
    split at h
    · cases h; exact .same rfl rfl
    · cases h
  | _ => exact absurd rfl ht

/-- The number of bytes that count when the message is handled. -/
def credit (cfg : Cfg) (s : State) (l : Luck) (m : Message) : Int :=
  if m.typ = PIECE ∧ (runOp (putBlock cfg.store m.index m.begin m.piece) s.storage l.fates).1 = .ok () then m.piece.length else 0

/-- How a PIECE is handled. -/
theorem handleMessage_piece (fates : List Fate) (ok : Bool) {m : Message} (ht : m.typ = PIECE) (s : State) {c : Conn} (hc : s.peers[r]? = some c) :
    ∃ w, (runOp (putBlock cfg.store m.index m.begin m.piece) s.storage fates).2 = w ∧
    (((runOp (putBlock cfg.store m.index m.begin m.piece) s.storage fates).1 = .ok () ∧ handleMessage fates ok cfg r m s =
      (.ok (), { s with storage := w, peers := s.peers.set r { c with downloaded := c.downloaded + m.piece.length }, downloaded := s.downloaded + m.piece.length })) ∨
    ((runOp (putBlock cfg.store m.index m.begin m.piece) s.storage fates).1 ≠ .ok () ∧ (handleMessage fates ok cfg r m s).2 = { s with storage := w } ∧
      ∀ e, (runOp (putBlock cfg.store m.index m.begin m.piece) s.storage fates).1 = .err e → (handleMessage fates ok cfg r m s).1 = if e = .blockExists then .ok () else .err e)) := by
  refine ⟨_, rfl, ?_⟩
  have hh : handleMessage fates ok cfg r m s = handlePiece fates cfg r m.index m.begin m.piece s := by
    unfold handleMessage
    rw [if_neg (by rw [ht]; decide), if_neg (by rw [ht]; decide), if_neg (by rw [ht]; decide), if_neg (by rw [ht]; decide), if_neg (by rw [ht]; decide), if_neg (by rw [ht]; decide),
      if_neg (by rw [ht]; decide), if_neg (by rw [ht]; decide), if_pos ht]
    unfold Message.getIndex Message.getBegin Message.getPiece
    rw [if_pos (by simp [ht]), if_pos (by simp [ht]), if_pos (by simp [ht])]
    rfl
  rw [hh]
  unfold handlePiece Act.store
  generalize runOp (putBlock cfg.store m.index m.begin m.piece) s.storage fates = y
  obtain ⟨o, w⟩ := y
  cases o with
  | ok a =>
    left
    refine ⟨rfl, ?_⟩
    simp only []
    show ((setConn r fun c => { c with downloaded := c.downloaded + m.piece.length }) >>= fun _ => Act.modify fun s => { s with downloaded := s.downloaded + m.piece.length }) _ = _
    rw [bind_apply, setConn_apply, modify_some (show ({ s with storage := w } : State).peers[r]? = some c from hc)]
    rfl
  | err e =>
    right
    refine ⟨by simp, ?_, fun e' he => ?_⟩
    · simp only []; split <;> rfl
    · injection he with he; subst he; simp only []; split <;> rfl
  | panic => right; exact ⟨by simp, rfl, fun e' he => by cases he⟩
  | crash => right; exact ⟨by simp, rfl, fun e' he => by cases he⟩

theorem sum_same : ∀ (a b : List Int), (∀ (i : Nat) v, a[i]? = some v → b[i]? = some v) → (∀ (i : Nat) v, b[i]? = some v → a[i]? = none → v = 0) → b.sum = a.sum
  | [], [], _, _ => rfl
  | [], v :: b, h1, h2 => by
    rw [List.sum_cons, h2 0 v rfl rfl, sum_same [] b (fun i v h => by cases h) (fun i v h _ => h2 (i + 1) v h rfl)]; rfl
  | v :: a, [], h1, _ => by cases h1 0 v rfl
  | v :: a, u :: b, h1, h2 => by
    have e := h1 0 v rfl
    injection e with e
    have e : u = v := e
    rw [List.sum_cons, List.sum_cons, e, sum_same a b (fun i v h => h1 (i + 1) v h) (fun i v h hn => h2 (i + 1) v h hn)]

theorem downloaded_set : ∀ (l : List Conn) (k : Nat) (c d : Conn), l[k]? = some c → ((l.set k d).map Conn.downloaded).sum = (l.map Conn.downloaded).sum + (d.downloaded - c.downloaded)
  | [], _, _, _, h => by cases h
  | x :: l, 0, c, d, h => by
    injection h with h; have h : x = c := h; subst h
    simp only [List.set_cons_zero, List.map_cons, List.sum_cons]; omega
  | x :: l, k + 1, c, d, h => by
    have := downloaded_set l k c d h
    simp only [List.set_cons_succ, List.map_cons, List.sum_cons]; omega

theorem Cn.sum {s s' : State} (h : Cn s s') : (s'.peers.map Conn.downloaded).sum = (s.peers.map Conn.downloaded).sum := by
  refine sum_same _ _ (fun i v hv => ?_) (fun i v hv hn => ?_)
  · rw [List.getElem?_map] at hv ⊢
    cases hc : s.peers[i]? with
    | none => rw [hc] at hv; cases hv
    | some c =>
      rw [hc] at hv; injection hv with hv
      obtain ⟨c', h1, h2⟩ := h.conn i c hc
      rw [h1, ← hv]; exact congrArg some h2
  · rw [List.getElem?_map] at hv hn
    cases hc : s'.peers[i]? with
    | none => rw [hc] at hv; cases hv
    | some c' =>
      rw [hc] at hv; injection hv with hv
      rw [← hv]
      refine h.fresh i c' hc ?_
      cases hc2 : s.peers[i]? with
      | none => rfl
      | some c => rw [hc2] at hn; cases hn

/-! ### When we say that we are interested -/

/-- Nothing is sent to the peer. -/
def St (r : Ref) (s s' : State) : Prop := ∀ c, s.peers[r]? = some c → ∃ c', s'.peers[r]? = some c' ∧ c'.sent = c.sent

theorem St.pre : Pre (St r) := ⟨fun _ c hc => ⟨c, hc, rfl⟩, fun h1 h2 c hc =>
  let ⟨c1, k1, e1⟩ := h1 c hc
  let ⟨c2, k2, e2⟩ := h2 c1 k1
  ⟨c2, k2, e2.trans e1⟩⟩
theorem St.same {s s' : State} (h : s'.peers = s.peers) : St r s s' := fun c hc => ⟨c, h ▸ hc, rfl⟩
theorem st_setConn (f : Conn → Conn) (h : ∀ c, (f c).sent = c.sent := by exact fun _ => rfl) : Pres (St r) (setConn r f) := fun s c hc => by
  rw [setConn_apply]; exact ⟨f c, modify_self hc f, h c⟩
theorem st_locked {α : Type} {p : Act α} (hp : Pres (St r) p) : Pres (St r) (Act.locked p) := Pres.locked St.pre (fun _ _ => .same rfl) hp
theorem st_QueuePeer : Pres (St r) (QueuePeer r) := by
  refine st_locked ?_
  unfold queuePeer
  refine Pres.bind St.pre (Pres.getConn St.pre r) fun _ => Pres.ite (Pres.pure St.pre _) (Pres.bind St.pre (Pres.get St.pre) fun _ => Pres.ite (Pres.pure St.pre _) ?_)
  exact Pres.bind St.pre (fun s => .same rfl) fun _ => Pres.ite (fun s => .same rfl) (fun s => .same rfl)

/-- A HAVE for a piece that is ours. -/
theorem handleHave_silent (ok : Bool) (i : Nat) {s : State} {m : Storage.Mem} (hm : s.storage.mem = some m) (hb : Bitfield.bit m.bitfield i = true) :
    St r s (handleHave ok r i s).2 ∧ (handleHave ok r i s).2.storage = s.storage := by
  have hhas : Bitfield.has m.bitfield (i : Int) = .ok true := reported_bit.2 hb
  unfold handleHave
  rw [bind_apply, getConn_apply]
  cases hc : s.peers[r]? with
  | none => exact ⟨St.pre.refl s, rfl⟩
  | some c =>
    simp only []
    rw [bind_apply]
    cases hadd : Bitfield.add c.bitfield i with
    | panic => exact ⟨St.pre.refl s, rfl⟩
    | err e => exact ⟨St.pre.refl s, rfl⟩
    | ok bf =>
      rw [show (Act.lift (Res.ok bf) s) = (Outcome.ok bf, s) from rfl]
      simp only []
      rw [bind_apply]
      have h1 := st_setConn (r := r) (fun c => { c with bitfield := bf }) (fun _ => rfl) s
      have hst : ((setConn r fun c => { c with bitfield := bf }) s).2.storage = s.storage := rfl
      rw [show ((setConn r fun c => { c with bitfield := bf }) s) = (.ok (), ((setConn r fun c => { c with bitfield := bf }) s).2) from rfl]
      simp only []
      generalize ((setConn r fun c => { c with bitfield := bf }) s).2 = s1 at h1 hst
      rw [bind_apply]
      unfold recordIndex
      rw [locked_apply]
      by_cases hl : s1.locked = true
      · rw [if_pos hl]; exact ⟨h1, hst⟩
      · rw [if_neg hl]
        simp only [modify_apply]
        rw [bind_apply]
        unfold torrentBitfield
        simp only [hst, hm]
        rw [bind_apply, hhas]
        rw [show ∀ s : State, (Act.lift (Res.ok true) s) = (Outcome.ok true, s) from fun _ => rfl]
        simp only []
        rw [if_neg (by simp)]
        exact ⟨h1, rfl⟩

theorem handleItems_silent (ok : Bool) {m : Storage.Mem} : ∀ (is : List Nat) {s : State}, s.storage.mem = some m → (∀ i ∈ is, Bitfield.bit m.bitfield i = true) → St r s (handleItems ok r is s).2
  | [], s, _, _ => St.pre.refl s
  | i :: is, s, hm, h => by
    unfold handleItems
    rw [bind_apply]
    obtain ⟨h1, h2⟩ := handleHave_silent (r := r) ok i hm (h i (List.mem_cons_self ..))
    generalize handleHave ok r i s = x at h1 h2
    obtain ⟨o, s'⟩ := x
    cases o with
    | ok a => exact St.pre.trans h1 (handleItems_silent ok is (by rw [h2]; exact hm) fun j hj => h j (List.mem_cons_of_mem _ hj))
    | _ => exact h1

/-- Nothing is sent when a message is handled that is no REQUEST and announces nothing that we need. -/
theorem handleMessage_silent (fates : List Fate) (ok : Bool) (msg : Message) (hi : 0 ≤ msg.index) {s : State} {m : Storage.Mem} (hm : s.storage.mem = some m) (hr : msg.typ ≠ REQUEST)
    (h : ∀ i, Announces msg i → Bitfield.bit m.bitfield i = true) : St r s (handleMessage fates ok cfg r msg s).2 := by
  have hl : ∀ {α : Type} (x : Res α), Pres (St r) (Act.lift x) := fun x => Pres.lift St.pre x
  unfold handleMessage
  by_cases h1 : msg.typ = CHOKE
  · rw [if_pos h1]; exact (st_setConn (r := r) _ : Pres _ _) s
  rw [if_neg h1]
  by_cases h2 : msg.typ = UNCHOKE
  · rw [if_pos h2]; exact Pres.bind St.pre (st_setConn _) (fun _ => st_QueuePeer) s
  rw [if_neg h2]
  by_cases h3 : msg.typ = INTERESTED
  · rw [if_pos h3]; exact (st_setConn (r := r) _ : Pres _ _) s
  rw [if_neg h3]
  by_cases h4 : msg.typ = NOT_INTERESTED
  · rw [if_pos h4]; exact (st_setConn (r := r) _ : Pres _ _) s
  rw [if_neg h4]
  by_cases h5 : msg.typ = HAVE
  · rw [if_pos h5, bind_apply]
    unfold Message.getIndex
    rw [if_pos (by simp [h5])]
    obtain ⟨n, hn⟩ : ∃ n : Nat, msg.index = n := ⟨msg.index.toNat, by omega⟩
    have := (handleHave_silent (r := r) ok n hm (h n (.inl ⟨h5, hn⟩))).1
    rw [hn]
    exact this
  rw [if_neg h5]
  by_cases h6 : msg.typ = BITFIELD
  · rw [if_pos h6, bind_apply]
    unfold Message.getBitfield
    rw [if_pos (by simp [h6])]
    exact handleItems_silent ok _ hm fun i hi => h i (.inr ⟨h6, mem_items.1 hi⟩)
  rw [if_neg h6, if_neg hr]
  by_cases h8 : msg.typ = CANCEL
  · rw [if_pos h8]
    exact Pres.bind St.pre (hl _) (fun _ => Pres.bind St.pre (hl _) fun _ => Pres.bind St.pre (hl _) fun _ => st_setConn _) s
  rw [if_neg h8]
  by_cases h9 : msg.typ = PIECE
  · rw [if_pos h9]
    exact Pres.bind St.pre (hl _) (fun _ => Pres.bind St.pre (hl _) fun _ => Pres.bind St.pre (hl _) fun d =>
      handlePiece_pres St.pre _ _ _ _ (fun s => by rw [store_state]; exact .same rfl) (st_setConn _) (fun s => .same rfl)) s
  rw [if_neg h9]
  exact St.pre.refl s

end Drip.P2P
