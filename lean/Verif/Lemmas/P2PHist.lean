import Verif.Lemmas.P2PInv
/-
What a step does to the messages of a connection.
-/

namespace Drip.P2P
open PeerWire Metainfo
open Storage (Fate World Op runOp getBlock putBlock resetPiece)

variable {cfg : Cfg} {may : May} {r : Ref}

/-- The messages that have been handled: all that were received, except the one that is waiting. -/
def handled (c : Conn) : List Message :=
  match c.phase with
  | .serving (some _) => c.received.dropLast
  | _ => c.received

theorem handled_eq {c c' : Conn} (hp : c'.phase = c.phase) (hr : c'.received = c.received) : handled c' = handled c := by
  unfold handled; rw [hp, hr]

theorem handled_all {c : Conn} (h : ∀ m, c.phase ≠ .serving (some m)) : handled c = c.received := by
  unfold handled
  split
  · rename_i m hm; exact absurd hm (h m)
  · rfl

/-- The connection is no longer served. -/
def Gone (c : Conn) : Prop := c.phase = .leaving ∨ c.phase = .ended ∨ c.phase = .hung

/-- How a connection can change when its messages are not being handled. -/
structure Frame (may : May) (x : Ref) (c c' : Conn) : Prop where
  sent : ∃ ms, c'.sent = c.sent ++ ms ∧ ((∀ m, ¬ may.upload x m) → ∀ m ∈ ms, m.typ ≠ PIECE) ∧ (¬ may.remote x → ∀ m ∈ ms, m.typ = REQUEST → c.remoteChoked = false)
  remote : ¬ may.remote x → c'.remoteChoked = c.remoteChoked
  handled : ¬ may.handle x → P2P.handled c' = P2P.handled c
  phase : ¬ may.phase x → c'.phase = c.phase ∧ c'.received = c.received
  pending : (∀ m, c.phase = .serving (some m) → c.received.getLast? = some m) → ∀ m, c'.phase = .serving (some m) → c'.received.getLast? = some m
  closed : ¬ may.drop x → c'.closed = c.closed
  stays : c.closed = true → c'.closed = true
  canceled : ¬ may.cancels x → c'.canceled = c.canceled
  gone : Gone c → Gone c'

theorem Frame.refl (x : Ref) (c : Conn) : Frame may x c c :=
  ⟨⟨[], by simp, fun _ _ h => (by cases h), fun _ _ h => (by cases h)⟩, fun _ => rfl, fun _ => rfl, fun _ => ⟨rfl, rfl⟩, fun h => h, fun _ => rfl, fun h => h, fun _ => rfl, fun h => h⟩

theorem Frame.trans {x : Ref} {a b c : Conn} (h1 : Frame may x a b) (h2 : Frame may x b c) : Frame may x a c := by
  obtain ⟨m1, e1, p1, q1⟩ := h1.sent
  obtain ⟨m2, e2, p2, q2⟩ := h2.sent
  refine ⟨⟨m1 ++ m2, by rw [e2, e1, List.append_assoc], fun hu m hm => ?_, fun hr m hm ht => ?_⟩, fun h => (h2.remote h).trans (h1.remote h), fun h => (h2.handled h).trans (h1.handled h),
    fun h => ⟨(h2.phase h).1.trans (h1.phase h).1, (h2.phase h).2.trans (h1.phase h).2⟩, fun h => h2.pending (h1.pending h), fun h => (h2.closed h).trans (h1.closed h),
    fun h => h2.stays (h1.stays h), fun h => (h2.canceled h).trans (h1.canceled h), fun h => h2.gone (h1.gone h)⟩
  · rcases List.mem_append.1 hm with h | h
    · exact p1 hu m h
    · exact p2 hu m h
  · rcases List.mem_append.1 hm with h | h
    · exact q1 hr m h ht
    · rw [← h1.remote hr]; exact q2 hr m h ht

theorem Frame.same {x : Ref} {c c' : Conn} (h1 : c'.sent = c.sent) (h2 : c'.remoteChoked = c.remoteChoked) (h3 : c'.phase = c.phase) (h4 : c'.received = c.received) (h5 : c'.closed = c.closed) (h6 : c'.canceled = c.canceled) :
    Frame may x c c' :=
  ⟨⟨[], by simp [h1], fun _ _ h => (by cases h), fun _ _ h => (by cases h)⟩, fun _ => h2, fun _ => handled_eq h3 h4, fun _ => ⟨h3, h4⟩, fun h m hm => by rw [h4]; exact h m (h3 ▸ hm),
    fun _ => h5, fun h => h5.trans h, fun _ => h6, fun h => by unfold Gone; rw [h3]; exact h⟩

theorem Change.toFrame {s : State} {c c' : Conn} (hs : ∀ m, may.send r m → m.typ ≠ PIECE) (h : Change cfg may s r c c') : Frame may r c c' := by
  have nil : ∃ ms, c.sent = c.sent ++ ms ∧ ((∀ m, ¬ may.upload r m) → ∀ m ∈ ms, m.typ ≠ PIECE) ∧ (¬ may.remote r → ∀ m ∈ ms, m.typ = REQUEST → c.remoteChoked = false) :=
    ⟨[], by simp, fun _ _ h => (by cases h), fun _ _ h => (by cases h)⟩
  cases h with
  | phase ph h1 h0 h2 =>
    refine ⟨nil, fun _ => rfl, fun h => ?_, fun h => absurd h1 h, fun _ m hm => ?_, fun _ => rfl, fun h => h, fun _ => rfl, fun h => ?_⟩
    · rw [handled_all (c := c) (fun m hm => h (h0 m hm))]
      refine handled_all fun m hm => ?_
      simp only at hm; subst hm; exact h2
    · simp only at hm; subst hm; exact h2.elim
    · show ph = _ ∨ ph = _ ∨ ph = _
      unfold Gone at h
      cases ph with
      | fresh => exact h2.elim
      | checked => rw [show c.phase = .fresh from h2] at h; rcases h with h | h | h <;> cases h
      | shaken => rw [show c.phase = .checked from h2.1] at h; rcases h with h | h | h <;> cases h
      | serving p =>
        cases p with
        | none => obtain ⟨p, hp⟩ := h2; rw [hp] at h; rcases h with h | h | h <;> cases h
        | some m => exact h2.elim
      | leaving => exact .inl rfl
      | ended => exact .inr (.inl rfl)
      | hung => exact .inr (.inr rfl)
  | shake hs h1 h2 => exact .same rfl rfl rfl rfl rfl rfl
  | ident hs h1 h2 h3 h4 => exact .same rfl rfl rfl rfl rfl rfl
  | close h => exact ⟨nil, fun _ => rfl, fun _ => rfl, fun _ => ⟨rfl, rfl⟩, fun h => h, fun h' => absurd h h', fun _ => rfl, fun _ => rfl, fun h => h⟩
  | cancels a h => exact ⟨nil, fun _ => rfl, fun _ => rfl, fun _ => ⟨rfl, rfl⟩, fun h => h, fun _ => rfl, fun h => h, fun h' => absurd h h', fun h => h⟩
  | flags a b d e => exact .same rfl rfl rfl rfl rfl rfl
  | pieces bf h1 h2 => exact .same rfl rfl rfl rfl rfl rfl
  | send m h1 h2 h3 =>
    refine ⟨⟨[m], rfl, fun _ m' hm => ?_, fun _ m' hm ht => ?_⟩, fun _ => rfl, fun _ => rfl, fun _ => ⟨rfl, rfl⟩, fun h => h, fun _ => rfl, fun h => h, fun _ => rfl, fun h => h⟩
    · rw [List.mem_singleton] at hm; subst hm; exact hs _ h1
    · rw [List.mem_singleton] at hm; subst hm; exact h3 ht
  | remote b h => exact ⟨nil, fun h' => absurd h h', fun _ => rfl, fun _ => ⟨rfl, rfl⟩, fun h => h, fun _ => rfl, fun h => h, fun _ => rfl, fun h => h⟩
  | receive m rd rd' h1 h2 h3 h4 =>
    refine ⟨nil, fun _ => rfl, fun _ => ?_, fun h => absurd h1 h, fun _ m' hm => ?_, fun _ => rfl, fun h => h, fun _ => rfl, fun h => by unfold Gone at h; rw [h2] at h; rcases h with h | h | h <;> cases h⟩
    · rw [handled_all (c := c) (fun m hm => by rw [h2] at hm; cases hm)]
      show (c.received ++ [m]).dropLast = _
      simp
    · injection hm with hm; injection hm with hm; subst hm
      show (c.received ++ [m]).getLast? = _
      simp

theorem Small.frame {s s' : State} (hg : Good may s) (h : Small cfg may s s') {x : Ref} {c : Conn} (hc : s.peers[x]? = some c) : ∃ c', s'.peers[x]? = some c' ∧ Frame may x c c' := by
  cases h with
  | new id ip port _ => exact ⟨c, by rw [List.getElem?_append_left (List.getElem?_eq_some_iff.1 hc).1]; exact hc, .refl x c⟩
  | upd y a b h1 h2 =>
    rcases set_get (c' := b) h1 hc with ⟨e1, e, h⟩ | ⟨_, h⟩
    · subst e e1; exact ⟨b, h, h2.toFrame fun m hm => (hg.send _ m hm).2⟩
    · exact ⟨c, h, .refl x c⟩
  | upload y a q d f h0 h1 h2 =>
    rcases set_get (c' := a.gave q d) h1 hc with ⟨e1, e, h⟩ | ⟨_, h⟩
    · subst e e1
      refine ⟨_, h, ⟨[pieceMsg q.index q.begin d], rfl, fun hu => absurd h0 (hu q), fun _ m hm ht => ?_⟩, fun _ => rfl, fun _ => rfl, fun _ => ⟨rfl, rfl⟩, fun h => h, fun _ => rfl, fun h => h, fun _ => rfl, fun h => h⟩
      rw [List.mem_singleton] at hm; subst hm
      exact absurd ht (by show PIECE ≠ REQUEST; decide)
    · exact ⟨c, h, .refl x c⟩
  | join y a ms ph hp h1 h2 h3 h4 h5 =>
    rcases set_get (c' := a.join ms ph) h1 hc with ⟨e1, e, h⟩ | ⟨_, h⟩
    · subst e e1
      have hb : ∀ m ∈ ms, m.typ = BITFIELD := by
        rcases h5 with ⟨rfl, _⟩ | ⟨_, _, mm, _, rfl⟩
        · intro m hm; cases hm
        · intro m hm; rw [List.mem_singleton] at hm; subst hm; rfl
      have hph : ∀ m, ph ≠ .serving (some m) := by
        rintro m rfl
        rcases h5 with ⟨_, h | h⟩ | ⟨_, h, _⟩ <;> cases h
      refine ⟨_, h, ⟨ms, rfl, fun _ m hm => by rw [hb m hm]; decide, fun _ m hm ht => ?_⟩, fun _ => rfl, fun _ => ?_, fun hn => absurd hp hn, fun _ m hm => absurd hm (hph m), fun _ => rfl, fun h => h, fun _ => rfl, fun h => by unfold Gone at h; rw [h2] at h; rcases h with h | h | h <;> cases h⟩
      · rw [hb m hm] at ht; exact absurd ht (by decide)
      · rw [handled_all (c := c) (fun m hm => by rw [h2] at hm; cases hm), handled_all (c := c.join ms ph) hph]; rfl
    · exact ⟨c, h, .refl x c⟩
  | _ => exact ⟨c, hc, .refl x c⟩

theorem Good.smalls {s s' : State} (hg : Good may s) (h : Smalls cfg may s s') : Good may s' := by
  induction h with
  | refl => exact hg
  | tail _ h ih => exact ih.small h

theorem Smalls.frame {s s' : State} (hg : Good may s) (h : Smalls cfg may s s') {x : Ref} {c : Conn} (hc : s.peers[x]? = some c) : ∃ c', s'.peers[x]? = some c' ∧ Frame may x c c' := by
  induction h with
  | refl => exact ⟨c, hc, .refl x c⟩
  | tail h1 h ih =>
    obtain ⟨d, hd, hf⟩ := ih
    obtain ⟨e, he, hf'⟩ := h.frame (hg.smalls h1) hd
    exact ⟨e, he, hf.trans hf'⟩

/-- A connection that was not there before. -/
theorem Smalls.fresh {s s' : State} (h : Smalls cfg may s s') {x : Ref} (hn : s.peers[x]? = none) {c : Conn} (hc : s'.peers[x]? = some c)
    (hx : ¬ may.phase x) (hr : ¬ may.remote x) (hcan : ¬ may.cancels x) (hs : ∀ m, ¬ may.send x m) (hu : ∀ m, ¬ may.upload x m) :
    c.phase = .fresh ∧ c.received = [] ∧ c.sent = [] ∧ c.remoteChoked = true ∧ c.canceled = [] := by
  suffices ∀ c : Conn, s'.peers[x]? = some c → c.phase = .fresh ∧ c.received = [] ∧ c.sent = [] ∧ c.remoteChoked = true ∧ c.canceled = [] from this c hc
  clear hc c
  induction h with
  | refl => intro c hc; rw [hn] at hc; cases hc
  | tail _ h ih =>
    intro c hc
    cases h with
    | new id ip port _ =>
      rw [List.getElem?_append] at hc
      split at hc
      · exact ih c hc
      · rw [List.getElem?_singleton] at hc
        split at hc
        · injection hc with hc; subst hc; exact ⟨rfl, rfl, rfl, rfl, rfl⟩
        · cases hc
    | upd y a b h1 h2 =>
      rcases set_cases hc with ⟨e, e'⟩ | ⟨_, h⟩
      · subst e e'
        obtain ⟨i1, i2, i3, i4, i5⟩ := ih a h1
        cases h2 with
        | phase ph h => exact absurd h hx
        | send m h => exact absurd h (hs m)
        | remote b h => exact absurd h hr
        | cancels b h => exact absurd h hcan
        | receive m rd rd' h => exact absurd h hx
        | _ => exact ⟨i1, i2, i3, i4, i5⟩
      · exact ih c h
    | upload y a q d f h0 h1 h2 =>
      rcases set_cases hc with ⟨e, e'⟩ | ⟨_, h⟩
      · subst e; exact absurd h0 (hu q)
      · exact ih c h
    | join y a ms ph hp h1 =>
      rcases set_cases hc with ⟨e, e'⟩ | ⟨_, h⟩
      · subst e; exact absurd hp hx
      · exact ih c h
    | _ => exact ih c hc

/-! ### Handling a message -/

theorem handle_step {s : State} {c : Conn} {m : Message} (ha : s.alive = true) (hc : s.peers[r]? = some c) (hp : c.phase = .serving (some m)) (l : Luck) :
    ∃ b, step cfg s (.handle r, l) = { (next r (.serving none) .leaving (handleMessage l.fates (l.ok r) cfg r m s)).2 with alive := b } := by
  have hact : act cfg l s (.handle r) = some (next r (.serving none) .leaving (handleMessage l.fates (l.ok r) cfg r m s)) := by
    simp only [act, hc, Option.map_some, hp]
  have hal : (next r (.serving none) .leaving (handleMessage l.fates (l.ok r) cfg r m s)).2.alive = (next r (.serving none) .leaving (handleMessage l.fates (l.ok r) cfg r m s)).2.alive := rfl
  unfold step
  simp only [ha, hact]
  rw [if_neg (by simp)]
  generalize next r (.serving none) .leaving (handleMessage l.fates (l.ok r) cfg r m s) = x
  obtain ⟨o, s'⟩ := x
  cases o with
  | panic => exact ⟨false, rfl⟩
  | crash => exact ⟨false, rfl⟩
  | _ => exact ⟨s'.alive, rfl⟩

theorem next_peers (ok err : Phase) (x : Outcome Unit × State) {c : Conn} (h : x.2.peers[r]? = some c) :
    (next r ok err x).2.peers[r]? = some { c with phase := match x.1 with | .ok _ => ok | .err _ => err | _ => .hung } :=
  modify_self h _

/-- The phase after a message was handled. -/
def afterHandle (o : Outcome Unit) : Phase := match o with | .ok _ => .serving none | .err _ => .leaving | _ => .hung

/-- A message has been handled, and how. -/
theorem handle_conn {s : State} {c : Conn} {m : Message} (hi : Inv cfg s) (ha : s.alive = true) (hc : s.peers[r]? = some c) (hp : c.phase = .serving (some m)) (l : Luck) :
    ∃ c' o, o = (handleMessage l.fates (l.ok r) cfg r m s).1 ∧ (handleMessage l.fates (l.ok r) cfg r m s).2.peers[r]? = some c' ∧ c'.phase = c.phase ∧ c'.received = c.received ∧
      (step cfg s (.handle r, l)).peers[r]? = some { c' with phase := afterHandle o } := by
  obtain ⟨b, hb⟩ := handle_step (cfg := cfg) ha hc hp l
  have hm : ∃ c', (handleMessage l.fates (l.ok r) cfg r m s).2.peers[r]? = some c' ∧ c'.phase = c.phase ∧ c'.received = c.received := by
    have hsm := pres_handleMessage (cfg := cfg) (r := r) (may := (mayOf cfg s (.handle r)).still) l.fates (l.ok r) m (hi.pendOK r c m hc hp).1 (.inl ⟨rfl, rfl, c, _, hc, hp⟩)
      ⟨rfl, c, _, hc, hp⟩ (fun ht => ⟨rfl, ht, c, hc, hp⟩) (fun ht => ⟨rfl, c, m, hc, hp, ht⟩) (fun ht => ⟨rfl, c, m, hc, hp, ht⟩) (fun i hi => ⟨rfl, c, m, hc, hp, hi⟩) (fun ht => ⟨r, c, m, rfl, hc, hp, ht, rfl, rfl, rfl⟩) s
    have hg := mayOf_good hi (.handle r)
    obtain ⟨c', h1, h2⟩ := Smalls.frame (may := (mayOf cfg s (.handle r)).still) ⟨hg.send, hg.upload, hg.queue⟩ hsm hc
    exact ⟨c', h1, h2.phase id⟩
  obtain ⟨c', h1, h2, h3⟩ := hm
  refine ⟨c', (handleMessage l.fates (l.ok r) cfg r m s).1, rfl, h1, h2, h3, ?_⟩
  rw [hb]
  exact next_peers _ _ _ h1

/-- Does the remote side choke us, after these messages. -/
def theyChoke : List Message → Bool
  | [] => true
  | m :: ms => (ms.foldl (fun b m => if m.typ = CHOKE then true else if m.typ = UNCHOKE then false else b) (if m.typ = CHOKE then true else if m.typ = UNCHOKE then false else true))

/-- The effect of one message on that. -/
def chokeEffect (b : Bool) (m : Message) : Bool := if m.typ = CHOKE then true else if m.typ = UNCHOKE then false else b

theorem theyChoke_eq (ms : List Message) : theyChoke ms = ms.foldl chokeEffect true := by cases ms <;> rfl

theorem theyChoke_snoc (ms : List Message) (m : Message) : theyChoke (ms ++ [m]) = chokeEffect (theyChoke ms) m := by
  rw [theyChoke_eq, theyChoke_eq, List.foldl_append]; rfl

/-- The blocks (index and begin) in PIECE messages. -/
def pieceKeys (ms : List Message) : List (Int × Int) := ms.filterMap fun m => if m.typ = PIECE then some (m.index, m.begin) else none

/-- The blocks in REQUEST messages. -/
def requestKeys (ms : List Message) : List (Int × Int) := ms.filterMap fun m => if m.typ = REQUEST then some (m.index, m.begin) else none

theorem pieceKeys_append (a b : List Message) : pieceKeys (a ++ b) = pieceKeys a ++ pieceKeys b := List.filterMap_append
theorem requestKeys_append (a b : List Message) : requestKeys (a ++ b) = requestKeys a ++ requestKeys b := List.filterMap_append

theorem pieceKeys_none {ms : List Message} (h : ∀ m ∈ ms, m.typ ≠ PIECE) : pieceKeys ms = [] := by
  rw [pieceKeys, List.filterMap_eq_nil_iff]
  intro m hm; rw [if_neg (h m hm)]

theorem peers_pre : Pre (fun s s' : State => s'.peers = s.peers) := ⟨fun _ => rfl, fun h1 h2 => h2.trans h1⟩

theorem QueuePeer_peers (r : Ref) (s : State) : (QueuePeer r s).2.peers = s.peers := by
  have : Pres (fun s s' : State => s'.peers = s.peers) (QueuePeer r) := by
    unfold QueuePeer queuePeer
    refine Pres.locked peers_pre (fun s b => rfl) (Pres.bindConn peers_pre fun s c hc => ?_)
    split
    · rfl
    · rw [bind_apply, get_apply]
      simp only []
      split
      · rfl
      · rw [bind_apply, modify_apply]
        simp only []
        split
        · rfl
        · rfl
  exact this s

/-- What handling a message does to the flag that says whether the remote side chokes us. -/
theorem handleMessage_remote {s : State} {c : Conn} (l : List Fate) (ok : Bool) (m : Message) (hi : 0 ≤ m.index) (hc : s.peers[r]? = some c) {c' : Conn}
    (hc' : (handleMessage l ok cfg r m s).2.peers[r]? = some c') : c'.remoteChoked = chokeEffect c.remoteChoked m := by
  by_cases t0 : m.typ = CHOKE
  · unfold handleMessage at hc'
    rw [if_pos t0, setConn_apply] at hc'
    simp only [modify_self hc] at hc'
    injection hc' with hc'; subst hc'
    simp [chokeEffect, t0]
  by_cases t1 : m.typ = UNCHOKE
  · unfold handleMessage at hc'
    rw [if_neg t0, if_pos t1, bind_apply, setConn_apply] at hc'
    simp only [QueuePeer_peers, modify_self hc] at hc'
    injection hc' with hc'; subst hc'
    unfold chokeEffect; rw [if_neg t0, if_pos t1]
  · have := pres_handleMessage (cfg := cfg) (r := r) (may := { send := fun _ m => m = PeerWire.interested, queue := fun _ => True, upload := fun _ m => m.typ = REQUEST, cancels := fun _ => True, pieces := fun _ _ => True, put := fun _ _ _ => True }) l ok m hi rfl trivial
      (fun h => h) (fun h => by rcases h with h | h; exact t0 h; exact t1 h) (fun _ => trivial) (fun _ _ => trivial) (fun _ => trivial) s
    have hfr : ∀ s s', Smalls cfg { send := fun _ m => m = PeerWire.interested, queue := fun _ => True, upload := fun _ m => m.typ = REQUEST, cancels := fun _ => True, pieces := fun _ _ => True, put := fun _ _ _ => True } s s' →
        ∀ c : Conn, s.peers[r]? = some c → ∃ c', s'.peers[r]? = some c' ∧ c'.remoteChoked = c.remoteChoked := by
      intro s s' h
      induction h with
      | refl => exact fun c hc => ⟨c, hc, rfl⟩
      | tail _ h ih =>
        intro c hc
        obtain ⟨d, hd, hr⟩ := ih c hc
        cases h with
        | new id ip port _ => exact ⟨d, by rw [List.getElem?_append_left (List.getElem?_eq_some_iff.1 hd).1]; exact hd, hr⟩
        | upd y a b h1 h2 =>
          rcases set_get (c' := b) h1 hd with ⟨e1, e, h⟩ | ⟨_, h⟩
          · subst e e1
            refine ⟨b, h, Eq.trans ?_ hr⟩
            cases h2 with
            | remote b hm => exact hm.elim
            | _ => rfl
          · exact ⟨d, h, hr⟩
        | upload y a q d' f h0 h1 h2 =>
          rcases set_get (c' := a.gave q d') h1 hd with ⟨e1, e, h⟩ | ⟨_, h⟩
          · subst e e1; exact ⟨_, h, hr⟩
          · exact ⟨d, h, hr⟩
        | join y a ms ph hp => exact hp.elim
        | _ => exact ⟨d, hd, hr⟩
    obtain ⟨d, hd, hr⟩ := hfr _ _ this c hc
    rw [hc'] at hd; injection hd with hd; subst hd
    rw [hr]; simp [chokeEffect, t0, t1]

/-- What handling a REQUEST does. -/
theorem handleMessage_request {s : State} {c : Conn} (l : List Fate) (ok : Bool) {m : Message} (ht : m.typ = REQUEST) (hc : s.peers[r]? = some c) {c' : Conn}
    (hc' : (handleMessage l ok cfg r m s).2.peers[r]? = some c') :
    (c'.sent = c.sent ∧ c'.uploaded = c.uploaded ∧ (handleMessage l ok cfg r m s).2.uploaded = s.uploaded) ∨
    (c.choked = false ∧ ⟨m.index, m.begin, m.length⟩ ∉ c.canceled ∧ ok = true ∧ c.closed = false ∧
      ∃ d, (runOp (getBlock cfg.store m.index m.begin m.length) s.storage l).1 = .ok d ∧ c'.sent = c.sent ++ [pieceMsg m.index m.begin d] ∧
        c'.uploaded = c.uploaded + d.length ∧ (handleMessage l ok cfg r m s).2.uploaded = s.uploaded + d.length) := by
  have hm : handleMessage l ok cfg r m = handleRequest l ok cfg r m.index m.begin m.length := by
    unfold handleMessage
    rw [if_neg (by rw [ht]; decide), if_neg (by rw [ht]; decide), if_neg (by rw [ht]; decide), if_neg (by rw [ht]; decide), if_neg (by rw [ht]; decide),
      if_neg (by rw [ht]; decide), if_pos ht]
    unfold Message.getIndex Message.getBegin Message.getLength
    rw [if_pos (.inr (.inl ht)), if_pos (.inl ht), if_pos (.inl ht)]
    rfl
  rw [hm] at hc' ⊢
  unfold handleRequest at hc' ⊢
  rw [bind_apply, getConn_some hc] at hc' ⊢
  simp only [] at hc' ⊢
  by_cases hch : c.choked = true
  · rw [if_pos hch] at hc' ⊢
    simp only [fail_apply] at hc' ⊢
    rw [hc] at hc'; injection hc' with hc'; subst hc'
    exact .inl ⟨rfl, rfl, by first | trivial | rfl⟩
  rw [if_neg hch] at hc' ⊢
  by_cases hcan : (⟨m.index, m.begin, m.length⟩ : Req) ∈ c.canceled
  · rw [if_pos hcan] at hc' ⊢
    simp only [setConn_apply, modify_self hc] at hc' ⊢
    injection hc' with hc'; subst hc'
    exact .inl ⟨rfl, rfl, by first | trivial | rfl⟩
  rw [if_neg hcan] at hc' ⊢
  rw [bind_apply] at hc' ⊢
  unfold Act.store at hc' ⊢
  generalize hrun : runOp (getBlock cfg.store m.index m.begin m.length) s.storage l = x at hc' ⊢
  obtain ⟨o, w⟩ := x
  have hc1 : ({ s with storage := w } : State).peers[r]? = some c := hc
  cases o with
  | err e => simp only [] at hc' ⊢; rw [hc] at hc'; injection hc' with hc'; subst hc'; exact .inl ⟨rfl, rfl, by first | trivial | rfl⟩
  | panic => simp only [] at hc' ⊢; rw [hc] at hc'; injection hc' with hc'; subst hc'; exact .inl ⟨rfl, rfl, by first | trivial | rfl⟩
  | crash => simp only [] at hc' ⊢; rw [hc] at hc'; injection hc' with hc'; subst hc'; exact .inl ⟨rfl, rfl, by first | trivial | rfl⟩
  | ok d =>
    simp only [] at hc' ⊢
    rw [bind_apply] at hc' ⊢
    unfold send at hc' ⊢
    rw [bind_apply, getConn_some hc1] at hc' ⊢
    simp only [] at hc' ⊢
    have hn : ¬ ((pieceMsg m.index m.begin d).typ = REQUEST ∧ c.remoteChoked = true) := by
      rintro ⟨h, _⟩; exact absurd h (by show PIECE ≠ REQUEST; decide)
    simp only [hn, if_false] at hc' ⊢
    by_cases h : (ok = true ∧ (!c.closed) = true)
    · simp only [h, and_self, if_true, setConn_apply, bind_apply, modify_apply] at hc' ⊢
      rw [modify_self (modify_self hc _)] at hc'
      injection hc' with hc'; subst hc'
      exact .inr ⟨by simpa using hch, hcan, trivial, by simpa using h.2, d, rfl, rfl, rfl, rfl⟩
    · simp only [h, if_false, fail_apply] at hc' ⊢
      rw [hc] at hc'; injection hc' with hc'; subst hc'
      exact .inl ⟨rfl, rfl, by first | trivial | rfl⟩

/-- The CANCELs that are waiting, after these messages were handled while we did not choke: every CANCEL waits for the next REQUEST for the same block. -/
def waitingCancels (ms : List Message) : List Req :=
  ms.foldl (fun o m =>
    if m.typ = CANCEL then sadd o ⟨m.index, m.begin, m.length⟩
    else if m.typ = REQUEST then sdel o ⟨m.index, m.begin, m.length⟩
    else o) []

theorem sdel_not_mem {s : List Req} {x : Req} (h : x ∉ s) : sdel s x = s := by
  unfold sdel
  rw [List.filter_eq_self]
  intro a ha
  have : a ≠ x := fun e => h (e ▸ ha)
  simp [this]

/-- What handling a message does to the CANCELs. -/
theorem handleMessage_cancels {s : State} {c : Conn} (l : List Fate) (ok : Bool) (m : Message) (ht : m.typ = REQUEST ∨ m.typ = CANCEL) (hc : s.peers[r]? = some c) {c' : Conn}
    (hc' : (handleMessage l ok cfg r m s).2.peers[r]? = some c') (hok : (handleMessage l ok cfg r m s).1 = .ok ()) :
    c'.canceled = if m.typ = CANCEL then sadd c.canceled ⟨m.index, m.begin, m.length⟩ else sdel c.canceled ⟨m.index, m.begin, m.length⟩ := by
  rcases ht with ht | ht
  · rw [if_neg (by rw [ht]; decide)]
    have hm : handleMessage l ok cfg r m = handleRequest l ok cfg r m.index m.begin m.length := by
      unfold handleMessage
      rw [if_neg (by rw [ht]; decide), if_neg (by rw [ht]; decide), if_neg (by rw [ht]; decide), if_neg (by rw [ht]; decide), if_neg (by rw [ht]; decide),
        if_neg (by rw [ht]; decide), if_pos ht]
      unfold Message.getIndex Message.getBegin Message.getLength
      rw [if_pos (.inr (.inl ht)), if_pos (.inl ht), if_pos (.inl ht)]
      rfl
    rw [hm] at hc' hok
    unfold handleRequest at hc' hok
    rw [bind_apply, getConn_some hc] at hc' hok
    simp only [] at hc' hok
    by_cases hch : c.choked = true
    · rw [if_pos hch] at hok; cases hok
    rw [if_neg hch] at hc' hok
    by_cases hcan : (⟨m.index, m.begin, m.length⟩ : Req) ∈ c.canceled
    · rw [if_pos hcan] at hc'
      simp only [setConn_apply, modify_self hc] at hc'
      injection hc' with hc'; subst hc'
      rfl
    rw [if_neg hcan] at hc' hok
    rw [sdel_not_mem hcan]
    rw [bind_apply] at hc' hok
    unfold Act.store at hc' hok
    generalize hrun : runOp (getBlock cfg.store m.index m.begin m.length) s.storage l = x at hc' hok
    obtain ⟨o, w⟩ := x
    have hc1 : ({ s with storage := w } : State).peers[r]? = some c := hc
    cases o with
    | err e => cases hok
    | panic => cases hok
    | crash => cases hok
    | ok d =>
      simp only [] at hc' hok
      rw [bind_apply] at hc' hok
      unfold send at hc' hok
      rw [bind_apply, getConn_some hc1] at hc' hok
      simp only [] at hc' hok
      have hn : ¬ ((pieceMsg m.index m.begin d).typ = REQUEST ∧ c.remoteChoked = true) := by
        rintro ⟨h, _⟩; exact absurd h (by show PIECE ≠ REQUEST; decide)
      simp only [hn, if_false] at hc' hok
      by_cases h : (ok = true ∧ (!c.closed) = true)
      · simp only [h, and_self, if_true, setConn_apply, bind_apply, modify_apply] at hc'
        rw [modify_self (modify_self hc _)] at hc'
        injection hc' with hc'; subst hc'
        rfl
      · simp only [h, if_false, fail_apply] at hok
        cases hok
  · rw [if_pos ht]
    unfold handleMessage at hc'
    rw [if_neg (by rw [ht]; decide), if_neg (by rw [ht]; decide), if_neg (by rw [ht]; decide), if_neg (by rw [ht]; decide), if_neg (by rw [ht]; decide),
      if_neg (by rw [ht]; decide), if_neg (by rw [ht]; decide), if_pos ht] at hc'
    unfold Message.getIndex Message.getBegin Message.getLength at hc'
    rw [if_pos (.inr (.inr (.inl ht))), if_pos (.inr (.inl ht)), if_pos (.inr ht)] at hc'
    have : (s.peers.modify r fun c => { c with canceled := sadd c.canceled ⟨m.index, m.begin, m.length⟩ })[r]? = some c' := hc'
    rw [modify_self hc] at this
    injection this with this; subst this
    rfl

/-- The history of a connection. -/
structure HistInv (c : Conn) : Prop where
  pending : ∀ m, c.phase = .serving (some m) → c.received.getLast? = some m
  choke : c.remoteChoked = theyChoke (handled c)
  answers : (pieceKeys c.sent).Sublist (requestKeys (handled c))
  cancels : c.phase ≠ .leaving → c.phase ≠ .ended → c.phase ≠ .hung → c.canceled = waitingCancels (handled c)

theorem alive_step {s : State} (e : Event × Luck) (h : s.alive = false) : step cfg s e = s := by unfold step; rw [if_pos h]

/-- A connection that a step has made. -/
theorem fresh_step {s : State} (hi : Inv cfg s) (hal : s.alive = true) (e : Event × Luck) {x : Ref} {c' : Conn} (hc : s.peers[x]? = none) (hc' : (step cfg s e).peers[x]? = some c') :
    c'.phase = .fresh ∧ c'.received = [] ∧ c'.sent = [] ∧ c'.remoteChoked = true ∧ c'.canceled = [] := by
  have hsm := step_small (cfg := cfg) e hi.pendOK
  have hg := mayOf_good hi e.1
  refine hsm.fresh hc hc' ?_ ?_ ?_ ?_ ?_
  · rintro (h | ⟨rd, h⟩ | h | ⟨rd, h⟩ | h | h | h) <;>
    · obtain ⟨e, l⟩ := e
      simp only at h; subst h
      unfold P2P.step at hc'
      rw [if_neg (by rw [hal]; simp)] at hc'
      simp [act, at_, hc] at hc'
  · rintro ⟨_, c, m, h, _⟩; rw [hc] at h; cases h
  · rintro ⟨_, c, m, h, _⟩; rw [hc] at h; cases h
  · rintro m hm
    obtain ⟨⟨c, h, _⟩, _⟩ := hg.send x m hm
    rw [hc] at h; cases h
  · rintro m hm
    obtain ⟨c, h, _⟩ := hg.upload x m hm
    rw [hc] at h; cases h

/-- Nothing has been handled unless a message was waiting. -/
theorem handled_step {s : State} (hi : Inv cfg s) (hal : s.alive = true) (e : Event × Luck) {x : Ref} {c c' : Conn} (hc : s.peers[x]? = some c)
    (hc' : (step cfg s e).peers[x]? = some c') (hx : ¬ ∃ m, e.1 = .handle x ∧ c.phase = .serving (some m)) : handled c' = handled c := by
  by_cases he : e.1 = .handle x
  · obtain ⟨e, l⟩ := e
    simp only at he; subst he
    have : P2P.step cfg s (.handle x, l) = s := by
      unfold P2P.step
      rw [if_neg (by rw [hal]; simp)]
      have : act cfg l s (.handle x) = none := by
        simp only [act, hc, Option.map_some]
        cases hph : c.phase with
        | serving p =>
          cases p with
          | none => rfl
          | some m => exact absurd ⟨m, rfl, hph⟩ hx
        | _ => rfl
      simp [this]
    rw [this, hc] at hc'; injection hc' with hc'; subst hc'; rfl
  · obtain ⟨c1, h1, hf⟩ := (step_small (cfg := cfg) e hi.pendOK).frame (mayOf_good hi e.1) hc
    rw [hc'] at h1; injection h1 with h1; subst h1
    exact hf.handled he

theorem HistInv.step {s : State} (hi : Inv cfg s) (hh : ∀ (x : Ref) (c : Conn), s.peers[x]? = some c → HistInv c) (e : Event × Luck) :
    ∀ (x : Ref) (c : Conn), (step cfg s e).peers[x]? = some c → HistInv c := by
  intro x c' hc'
  cases hal : s.alive with
  | false => rw [alive_step e hal] at hc'; exact hh x c' hc'
  | true =>
  have hsm := step_small (cfg := cfg) e hi.pendOK
  have hg := mayOf_good hi e.1
  cases hc : s.peers[x]? with
  | none =>
    obtain ⟨h1, h2, h3, h4, h5⟩ := fresh_step hi hal e hc hc'
    refine ⟨fun m hm => (by rw [h1] at hm; cases hm), ?_, ?_, fun _ _ _ => ?_⟩
    · rw [h4, handled_all (fun m hm => by rw [h1] at hm; cases hm), h2]; rfl
    · rw [h3]; exact List.nil_sublist _
    · rw [h5, handled_all (fun m hm => by rw [h1] at hm; cases hm), h2]; rfl
  | some c =>
    have ih := hh x c hc
    obtain ⟨c1, h1, hf⟩ := hsm.frame hg hc
    rw [hc'] at h1; injection h1 with h1; subst h1
    by_cases hx : ∃ m, e.1 = .handle x ∧ c.phase = .serving (some m)
    · obtain ⟨m, hx, hp⟩ := hx
      obtain ⟨e, l⟩ := e
      simp only at hx; subst hx
      obtain ⟨c2, o, ho, h2, h3, h4, h5⟩ := handle_conn hi hal hc hp l
      rw [hc'] at h5; injection h5 with h5
      have hhand : handled c' = handled c ++ [m] := by
        rw [handled_all (c := c') (fun m' hm => by rw [h5] at hm; cases o <;> cases hm)]
        have : c'.received = c.received := by rw [h5]; exact h4
        rw [this]
        unfold handled
        rw [hp]
        have hl := ih.pending m hp
        obtain ⟨l', e⟩ := List.getLast?_eq_some_iff.1 hl
        rw [e]; simp
      refine ⟨hf.pending ih.pending, ?_, ?_, fun hp1 hp2 hp3 => ?_⟩
      · rw [hhand, theyChoke_snoc, ← ih.choke]
        rw [← handleMessage_remote l.fates (l.ok x) m (hi.pendOK x c m hc hp).1 hc h2, h5]
      · rw [hhand, requestKeys_append]
        have hsent : c'.sent = c2.sent := by rw [h5]
        by_cases ht : m.typ = REQUEST
        · rcases handleMessage_request l.fates (l.ok x) ht hc h2 with ⟨h, _⟩ | ⟨_, _, _, _, d, _, h, _⟩
          · rw [hsent, h]; exact ih.answers.trans (List.sublist_append_left _ _)
          · rw [hsent, h, pieceKeys_append]
            refine ih.answers.append ?_
            simp [pieceKeys, requestKeys, pieceMsg, ht]
        · obtain ⟨ms, e, hms, _⟩ := hf.sent
          rw [e, pieceKeys_append, pieceKeys_none (hms ?_), List.append_nil]
          · exact ih.answers.trans (List.sublist_append_left _ _)
          · rintro q ⟨_, hq, d, hd, hdp⟩
            rw [hc] at hd; injection hd with hd; subst hd
            rw [hp] at hdp; injection hdp with hdp; injection hdp with hdp; subst hdp
            exact ht hq
      · have ihc := ih.cancels (by rw [hp]; simp) (by rw [hp]; simp) (by rw [hp]; simp)
        rw [hhand, waitingCancels, List.foldl_append]
        show _ = (if m.typ = CANCEL then sadd (waitingCancels (handled c)) _ else if m.typ = REQUEST then sdel (waitingCancels (handled c)) _ else waitingCancels (handled c))
        rw [← ihc]
        by_cases ht : m.typ = REQUEST ∨ m.typ = CANCEL
        · have hout : o = .ok () := by
            rw [h5] at hp1 hp2 hp3
            cases o with
            | ok a => rfl
            | err e => exact absurd rfl hp1
            | panic => exact absurd rfl hp3
            | crash => exact absurd rfl hp3
            | stuck => exact absurd rfl hp3
          have := handleMessage_cancels l.fates (l.ok x) m ht hc h2 (ho.symm.trans hout)
          have e1 : c'.canceled = c2.canceled := by rw [h5]
          rw [e1, this]
          by_cases h7 : m.typ = CANCEL
          · rw [if_pos h7, if_pos h7]
          · rw [if_neg h7, if_neg h7, if_pos (ht.resolve_right h7)]
        · rw [if_neg (fun h => ht (.inr h)), if_neg (fun h => ht (.inl h))]
          refine hf.canceled ?_
          rintro ⟨_, d, m', hd, hdp, h⟩
          rw [hc] at hd; injection hd with hd; subst hd
          rw [hp] at hdp; injection hdp with hdp; injection hdp with hdp; subst hdp
          exact ht h
    · have hnh : ∀ m, ¬ (mayOf cfg s e.1).upload x m := by
        rintro m ⟨h1, _, d, hd, hdp⟩
        rw [hc] at hd; injection hd with hd; subst hd
        exact hx ⟨m, h1, hdp⟩
      have hnr : ¬ (mayOf cfg s e.1).remote x := by
        rintro ⟨h1, d, m, hd, hdp, _⟩
        rw [hc] at hd; injection hd with hd; subst hd
        exact hx ⟨m, h1, hdp⟩
      have hhd : handled c' = handled c := handled_step hi hal e hc hc' hx
      have hncan : ¬ (mayOf cfg s e.1).cancels x := by
        rintro ⟨h1, d, m, hd, hdp, _⟩
        rw [hc] at hd; injection hd with hd; subst hd
        exact hx ⟨m, h1, hdp⟩
      refine ⟨hf.pending ih.pending, ?_, ?_, fun hp1 hp2 hp3 => ?_⟩
      · rw [hhd, hf.remote hnr]; exact ih.choke
      · obtain ⟨ms, e, hms, _⟩ := hf.sent
        rw [e, pieceKeys_append, pieceKeys_none (hms hnh), List.append_nil, hhd]
        exact ih.answers
      · rw [hf.canceled hncan, hhd]
        have hg : ¬ Gone c := fun h => (hf.gone h).elim hp1 (fun h => h.elim hp2 hp3)
        exact ih.cancels (fun h => hg (.inl h)) (fun h => hg (.inr (.inl h))) (fun h => hg (.inr (.inr h)))

theorem hist_run (w : World) (es : List (Event × Luck)) (x : Ref) (c : Conn) (h : (run cfg (init w) es).peers[x]? = some c) : HistInv c := by
  suffices ∀ s, Inv cfg s → (∀ (x : Ref) (c : Conn), s.peers[x]? = some c → HistInv c) → ∀ (x : Ref) (c : Conn), (run cfg s es).peers[x]? = some c → HistInv c from
    this _ (.init w) (fun x c h => by cases h) x c h
  clear h
  induction es with
  | nil => exact fun s _ hh => hh
  | cons e es ih => exact fun s hi hh => ih _ (hi.step e) (HistInv.step hi hh e)

end Drip.P2P
