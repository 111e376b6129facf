import Verif.Lemmas.P2PSent
import Verif.Lemmas.P2PBlame
import Verif.Props.StorageChecksum
import Verif.Props.P2PFlags
import Verif.Props.P2PDownload
import Verif.Props.RequestPiece
/-
What is asked of a peer, and when: C94 to C100 of /verif/properties.jsonl.
-/

namespace Drip.P2P
open PeerWire Metainfo
open Storage (Fate World Op runOp getBlock putBlock resetPiece Usable Reported IsBlock)

variable {cfg : Cfg}

/-! ### C94

"At any time at most one piece is being downloaded from a peer, and at most one goroutine is looking for a piece to download from it." -/

/-- C94. `jobs`: the downloads, from the choice of the piece until the peer is passed on; `toRequest` and `waiting`: the goroutines that are about to choose a piece, and those that wait because
there was none. In every history they are, for each peer, at most one altogether. -/
theorem C94_one (w : World) (es : List (Event × Luck)) (r : Ref) :
    (run cfg (init w) es).toRequest.count r + (run cfg (init w) es).waiting.count r +
      ((run cfg (init w) es).jobs.filter fun j => j.peer = r ∧ j.stage ≠ .handed).length ≤ 1 := by
  have := (pipe_run (cfg := cfg) w es).one r
  unfold load at this
  rwa [List.countP_eq_length_filter] at this

/-- C94: two downloads from the same peer are the same. -/
theorem C94_download (w : World) (es : List (Event × Luck)) (a b : Nat) (j j' : Job) (ha : (run cfg (init w) es).jobs[a]? = some j) (hb : (run cfg (init w) es).jobs[b]? = some j')
    (hp : j.peer = j'.peer) (h1 : j.stage ≠ .handed) (h2 : j'.stage ≠ .handed) : a = b := by
  have hc := C94_one (cfg := cfg) w es j.peer
  generalize run cfg (init w) es = s at *
  have key : ∀ (q : Job → Bool) (j j' : Job), q j = true → q j' = true → ∀ (l : List Job) (a b : Nat), a < b → l[a]? = some j → l[b]? = some j' → 2 ≤ (l.filter q).length := by
    intro q j j' h1 h2 l
    induction l with
    | nil => intro a b _ h; cases h
    | cons y l ih =>
      intro a b hab h3 h4
      cases b with
      | zero => omega
      | succ b =>
      cases a with
      | zero =>
        injection h3 with h3; have h3 : y = j := h3; subst h3
        have : 0 < (l.filter q).length := List.length_pos_of_mem (List.mem_filter.2 ⟨List.mem_of_getElem? h4, h2⟩)
        rw [List.filter_cons_of_pos h1, List.length_cons]; omega
      | succ a =>
        have := ih a b (by omega) h3 h4
        rw [List.filter_cons]
        split
        · simp only [List.length_cons]; omega
        · exact this
  have q1 : decide (j.peer = j.peer ∧ j.stage ≠ .handed) = true := decide_eq_true ⟨rfl, h1⟩
  have q2 : decide (j'.peer = j.peer ∧ j'.stage ≠ .handed) = true := decide_eq_true ⟨hp.symm, h2⟩
  rcases Nat.lt_trichotomy a b with h | h | h
  · have := key (fun x => decide (x.peer = j.peer ∧ x.stage ≠ .handed)) j j' q1 q2 s.jobs a b h ha hb; omega
  · exact h
  · have := key (fun x => decide (x.peer = j.peer ∧ x.stage ≠ .handed)) j' j q2 q1 s.jobs b a h hb ha; omega

/-- A peer with both pieces that chokes and unchokes us while a piece is being downloaded: no second download starts; it does when the first piece is there. -/
example : (run Ex.cfg (init Ex.nothing) (Ex.fine (Ex.joins 0 1 (Ex.id' 2) ++ Ex.gets 0 (bitfieldMsg [192]) ++ Ex.gets 0 PeerWire.unchoke ++ [.select 0] ++ Ex.gets 0 PeerWire.choke ++
      Ex.gets 0 PeerWire.unchoke ++ Ex.gets 0 PeerWire.unchoke ++ [.select 0, .select 0]))).jobs = [⟨0, 0, .fresh⟩] ∧
    (run Ex.cfg (init Ex.nothing) (Ex.fine (Ex.joins 0 1 (Ex.id' 2) ++ Ex.gets 0 (bitfieldMsg [192]) ++ Ex.gets 0 PeerWire.unchoke ++ [.select 0, .begin 0, .request 0 ⟨0, 0, 4⟩] ++
      Ex.gets 0 (pieceMsg 0 0 [1, 2, 3, 4]) ++ [.finish 0 .complete, .hand 0, .select 0]))).jobs = [⟨0, 0, .handed⟩, ⟨0, 1, .fresh⟩] := ⟨by kernel_rfl, by kernel_rfl⟩

/-! ### C95

"As long as a connected peer has announced a piece that we do not have, it knows that we are interested; and we say so only to a peer that has just announced such a piece." -/

/-- C95: in every history, if a peer is being served and has announced (in a message that was handled) a piece that we do not have then the flag says that we are interested. -/
theorem C95_interested (hu : Usable cfg.store) (hf : FilesOK cfg.store.info) (es0 : List (Storage.Event × List Fate)) (es : List (Event × Luck)) {r : Ref} {c : Conn} {p : Option Message} {m : Storage.Mem}
    (hc : (run cfg (init (Storage.run cfg.store es0 World.empty)) es).peers[r]? = some c) (hp : c.phase = .serving p) (ho : c.closed = false)
    (hm : (run cfg (init (Storage.run cfg.store es0 World.empty)) es).storage.mem = some m) {a : Message} (ha : a ∈ handled c) {i : Nat} (hi : Announces a i) (hn : ¬ Reported m i) :
    c.interested = true := by
  have h1 := care_run (cfg := cfg) hu hf es0 es m hm r c hc (fun h => by rw [Gone, hp] at h; rcases h with h | h | h <;> cases h)
  have h2 := (has_run (cfg := cfg) (Storage.run cfg.store es0 World.empty) es r c hc).known ⟨p, hp⟩ a ha i hi
  exact (h1 c hc ho i h2 (by cases hb : Bitfield.bit m.bitfield i with | false => rfl | true => exact absurd (reported_bit.2 hb) hn)).1

/-- C95, what the peer has been told: if no write to it has failed, the last message about interest that was sent is INTERESTED. -/
theorem C95_told (hu : Usable cfg.store) (hf : FilesOK cfg.store.info) (es0 : List (Storage.Event × List Fate)) (es : List (Event × Luck)) {r : Ref} {c : Conn} {p : Option Message} {m : Storage.Mem}
    (hok : ∀ e ∈ es, e.2.ok r = true)
    (hc : (run cfg (init (Storage.run cfg.store es0 World.empty)) es).peers[r]? = some c) (hp : c.phase = .serving p) (ho : c.closed = false)
    (hm : (run cfg (init (Storage.run cfg.store es0 World.empty)) es).storage.mem = some m) {a : Message} (ha : a ∈ handled c) {i : Nat} (hi : Announces a i) (hn : ¬ Reported m i) :
    ((c.sent.map (·.typ)).filter fun t => t = INTERESTED ∨ t = NOT_INTERESTED).getLast? = some INTERESTED :=
  (C64_history_partial _ es hok c hc ho).interested.1 (C95_interested hu hf es0 es hc hp ho hm ha hi hn)

/-- C95, the converse: INTERESTED is sent only to a peer from which we have just received a message that announces a piece that we do not have, when that message is handled. -/
theorem C95_only (w : World) (es : List (Event × Luck)) (e : Event) (l : Luck) {r : Ref} {c c' : Conn} {m : Storage.Mem} {ms : List Message}
    (hc : (run cfg (init w) es).peers[r]? = some c) (hc' : (step cfg (run cfg (init w) es) (e, l)).peers[r]? = some c') (hm : (run cfg (init w) es).storage.mem = some m)
    (hs : c'.sent = c.sent ++ ms) (hi : ∃ x ∈ ms, x.typ = INTERESTED) :
    e = .handle r ∧ ∃ a i, c.phase = .serving (some a) ∧ Announces a i ∧ ¬ Reported m i := by
  have inv := inv_run (cfg := cfg) w es
  generalize run cfg (init w) es = s at *
  obtain ⟨x, hx, hxt⟩ := hi
  obtain ⟨d, h1, ms', h2, h3⟩ := (step_small (cfg := cfg) (e, l) inv.pendOK).said hc
  rw [hc'] at h1; injection h1 with h1; subst h1
  have hms : ms' = ms := List.append_cancel_left (h2.symm.trans hs)
  subst hms
  have he : e = .handle r := by
    rcases h3 x hx with h | h | h
    · rcases h with ⟨h, _⟩ | ⟨_, h, _⟩ | ⟨k, _, _, h⟩ | ⟨k, q, i, _, h1, h2, h⟩ | ⟨k, y, i, _, _, _, h, _⟩
      · exact h
      all_goals (rw [h] at hxt; cases hxt)
    · rw [h] at hxt; cases hxt
    · rw [h] at hxt; cases hxt
  subst he
  refine ⟨rfl, ?_⟩
  have hne : (step cfg s (.handle r, l)).peers[r]? ≠ some c := fun h => by
    rw [hc'] at h; injection h with h
    rw [h] at hs
    have := congrArg List.length hs
    have := List.length_pos_of_mem hx
    simp only [List.length_append] at *; omega
  cases hal : s.alive with
  | false => rw [alive_step _ hal] at hne; exact absurd hc hne
  | true =>
  have hnone : act cfg l s (.handle r) = none → False := fun h => by
    apply hne; unfold step; rw [if_neg (by rw [hal]; simp)]; simp only [h]; exact hc
  cases hp : c.phase with
  | serving p =>
    cases p with
    | none => exact (hnone (by simp only [act, hc, Option.map_some, hp])).elim
    | some a =>
      refine ⟨a, ?_⟩
      obtain ⟨d, o, _, h4, _, _, h5⟩ := handle_conn inv hal hc hp l
      rw [hc'] at h5; injection h5 with h5
      have hds : d.sent = c.sent ++ ms' := by rw [← hs, h5]
      by_cases hno : ∃ i, Announces a i ∧ ¬ Reported m i
      · obtain ⟨i, h6, h7⟩ := hno
        exact ⟨i, rfl, h6, h7⟩
      · exfalso
        have hall : ∀ i, Announces a i → Bitfield.bit m.bitfield i = true := by
          intro i ha
          cases hb : Bitfield.bit m.bitfield i with
          | true => rfl
          | false =>
            refine (hno ⟨i, ha, fun h => ?_⟩).elim
            rw [reported_bit.1 h] at hb; cases hb
        by_cases ht : a.typ = REQUEST
        · rcases handleMessage_request (cfg := cfg) l.fates (l.ok r) ht hc h4 with ⟨h6, _⟩ | ⟨_, _, _, _, dd, _, h6, _⟩
          · rw [h6] at hds
            have := congrArg List.length hds
            have := List.length_pos_of_mem hx
            simp only [List.length_append] at *; omega
          · rw [h6] at hds
            have := List.append_cancel_left hds
            rw [← this] at hx
            rw [List.mem_singleton.1 hx] at hxt; cases hxt
        · obtain ⟨d', h6, h7⟩ := handleMessage_silent (cfg := cfg) (r := r) l.fates (l.ok r) a (inv.pendOK r c a hc hp).1 hm ht hall c hc
          rw [h4] at h6; injection h6 with h6; subst h6
          rw [h7] at hds
          have := congrArg List.length hds
          have := List.length_pos_of_mem hx
          simp only [List.length_append] at *; omega
  | _ => exact (hnone (by simp only [act, hc, Option.map_some, hp])).elim

/-- We have the second piece. A peer that announces it is told nothing; one that announces the first is told that we are interested, once. -/
example : (run Ex.cfg (init Ex.second) (Ex.fine (Ex.joins 0 1 (Ex.id' 2) ++ Ex.gets 0 (have_ 1)))).peers.map (fun c => c.sent.map (·.typ)) = [[BITFIELD]] ∧
    (run Ex.cfg (init Ex.second) (Ex.fine (Ex.joins 0 1 (Ex.id' 2) ++ Ex.gets 0 (have_ 1) ++ Ex.gets 0 (have_ 0) ++ Ex.gets 0 (bitfieldMsg [192])))).peers.map (fun c => (c.sent.map (·.typ), c.interested)) =
      [([BITFIELD, INTERESTED], true)] := ⟨by kernel_rfl, by kernel_rfl⟩

/-! ### C96

"The number of bytes downloaded that is reported is the number of bytes of the blocks that the storage has accepted, for each connection and in total; blocks that were already there or were refused do
not count." -/

/-- The number of bytes that count when connection `r` is at the step `e`: the length of the block, if a PIECE is handled and the storage accepts it. -/
def accepted (cfg : Cfg) (s : State) (e : Event × Luck) (r : Ref) (c : Conn) : Int :=
  match e.1, c.phase with
  | .handle x, .serving (some m) =>
    if x = r ∧ m.typ = PIECE ∧ (runOp (putBlock cfg.store m.index m.begin m.piece) s.storage e.2.fates).1 = .ok () then m.piece.length else 0
  | _, _ => 0

theorem accepted_other {s : State} {e : Event × Luck} {r : Ref} {c : Conn} (h : ∀ m, e.1 = .handle r → c.phase = .serving (some m) → m.typ ≠ PIECE) : accepted cfg s e r c = 0 := by
  unfold accepted
  split
  · rename_i x m h1 h2
    rw [if_neg]
    rintro ⟨rfl, h3, _⟩
    exact h m h1 h2 h3
  · rfl

/-- A step adds to the counter of each connection what the storage has accepted from it, and to the total what it has accepted from any. -/
theorem accepted_step {s : State} (hi : Inv cfg s) (ha : s.alive = true) (e : Event × Luck) :
    (∀ (r : Ref) (c : Conn), s.peers[r]? = some c → ∃ c', (step cfg s e).peers[r]? = some c' ∧ c'.downloaded = c.downloaded + accepted cfg s e r c) ∧
    (∀ (r : Ref) (c' : Conn), (step cfg s e).peers[r]? = some c' → s.peers[r]? = none → c'.downloaded = 0) ∧
    (step cfg s e).downloaded - s.downloaded = ((step cfg s e).peers.map Conn.downloaded).sum - (s.peers.map Conn.downloaded).sum := by
  by_cases hne : ∀ x c m, e.1 = .handle x → s.peers[x]? = some c → c.phase = .serving (some m) → m.typ ≠ PIECE
  · have hcn : Cn s (step cfg s e) := by
      rcases step_alive (cfg := cfg) s e with h | ⟨_, o, s', hact, ⟨_, h⟩ | ⟨_, h⟩⟩
      · rw [h]; exact Cn.pre.refl s
      · rw [h]; have := cn_act hact hne; exact ⟨this.total, this.conn, this.fresh⟩
      · rw [h]; exact cn_act hact hne
    refine ⟨fun r c hc => ?_, hcn.fresh, ?_⟩
    · obtain ⟨c', h1, h2⟩ := hcn.conn r c hc
      exact ⟨c', h1, by rw [h2, accepted_other (fun m h3 h4 => hne r c m h3 hc h4)]; omega⟩
    · rw [hcn.sum, hcn.total]; omega
  · obtain ⟨e, l⟩ := e
    obtain ⟨x, hne⟩ := Classical.not_forall.1 hne
    obtain ⟨d, hne⟩ := Classical.not_forall.1 hne
    obtain ⟨m, hne⟩ := Classical.not_forall.1 hne
    have h1 : e = .handle x := Classical.not_not.1 fun h => hne fun h' => absurd h' h
    have h2 : s.peers[x]? = some d := Classical.not_not.1 fun h => hne fun _ h' => absurd h' h
    have h3 : d.phase = .serving (some m) := Classical.not_not.1 fun h => hne fun _ _ h' => absurd h' h
    have ht : m.typ = PIECE := Classical.not_not.1 fun h => hne fun _ _ _ => h
    subst h1
    obtain ⟨b, hb⟩ := handle_step (cfg := cfg) ha h2 h3 l
    obtain ⟨w, hw, hcase⟩ := handleMessage_piece (cfg := cfg) (r := x) l.fates (l.ok x) ht s h2
    have hacc : ∀ r c, s.peers[r]? = some c → accepted cfg s (.handle x, l) r c =
        if x = r ∧ (runOp (putBlock cfg.store m.index m.begin m.piece) s.storage l.fates).1 = .ok () then (m.piece.length : Int) else 0 := by
      intro r c hc
      by_cases hr : x = r
      · subst hr
        rw [h2] at hc; injection hc with hc; subst hc
        unfold accepted
        rw [h3]
        simp only [ht, true_and]
      · rw [if_neg (fun h => hr h.1)]
        refine accepted_other fun m' h4 => ?_
        injection h4 with h4; exact absurd h4 hr
    rcases hcase with ⟨hok, hh⟩ | ⟨hbad, hh, _⟩
    · have hpe : (step cfg s (.handle x, l)).peers = s.peers.set x { d with downloaded := d.downloaded + m.piece.length, phase := .serving none } := by
        rw [hb, hh]
        simp only [P2P.next]
        rw [modify_some (List.getElem?_set_self (List.getElem?_eq_some_iff.1 h2).1), List.set_set]
      have hdo : (step cfg s (.handle x, l)).downloaded = s.downloaded + m.piece.length := by rw [hb, hh]; rfl
      refine ⟨fun r c hc => ?_, fun r c' hc' hn => ?_, ?_⟩
      · rw [hacc r c hc, hpe]
        by_cases hr : x = r
        · subst hr
          rw [h2] at hc; injection hc with hc; subst hc
          exact ⟨_, List.getElem?_set_self (List.getElem?_eq_some_iff.1 h2).1, by rw [if_pos ⟨rfl, hok⟩]⟩
        · rw [if_neg (fun h => hr h.1), List.getElem?_set_ne hr]
          exact ⟨c, hc, by omega⟩
      · rw [hpe] at hc'
        rcases set_cases hc' with ⟨rfl, _⟩ | ⟨_, h⟩
        · rw [h2] at hn; cases hn
        · rw [hn] at h; cases h
      · rw [hdo, hpe, downloaded_set _ _ _ _ h2]
        simp only []; omega
    · have hpe : ∃ ph, (step cfg s (.handle x, l)).peers = s.peers.set x { d with phase := ph } := by
        rw [hb]
        simp only [P2P.next]
        rw [hh, modify_some (show ({ s with storage := w } : State).peers[x]? = some d from h2)]
        exact ⟨_, rfl⟩
      obtain ⟨ph, hpe⟩ := hpe
      have hdo : (step cfg s (.handle x, l)).downloaded = s.downloaded := by rw [hb]; simp only [P2P.next]; rw [hh]
      refine ⟨fun r c hc => ?_, fun r c' hc' hn => ?_, ?_⟩
      · rw [hacc r c hc, if_neg (fun h => hbad h.2), hpe]
        by_cases hr : x = r
        · subst hr
          rw [h2] at hc; injection hc with hc; subst hc
          exact ⟨_, List.getElem?_set_self (List.getElem?_eq_some_iff.1 h2).1, by simp⟩
        · rw [List.getElem?_set_ne hr]
          exact ⟨c, hc, by omega⟩
      · rw [hpe] at hc'
        rcases set_cases hc' with ⟨rfl, _⟩ | ⟨_, h⟩
        · rw [h2] at hn; cases hn
        · rw [hn] at h; cases h
      · rw [hdo, hpe, downloaded_set _ _ _ _ h2]
        simp only []; omega

/-- What the storage has accepted from connection `r` in a history. -/
def acceptedIn (cfg : Cfg) (r : Ref) : State → List (Event × Luck) → Int
  | _, [] => 0
  | s, e :: es => ((s.peers[r]?).map (accepted cfg s e r)).getD 0 + acceptedIn cfg r (step cfg s e) es

theorem acceptedIn_snoc (r : Ref) (e : Event × Luck) : ∀ (s : State) (es : List (Event × Luck)), acceptedIn cfg r s (es ++ [e]) =
    acceptedIn cfg r s es + (((run cfg s es).peers[r]?).map (accepted cfg (run cfg s es) e r)).getD 0
  | s, [] => by simp [acceptedIn, run]
  | s, x :: es => by
    rw [List.cons_append, acceptedIn, acceptedIn, acceptedIn_snoc r e _ es]
    show _ = _ + _ + (((run cfg (step cfg s x) es).peers[r]?).map (accepted cfg (run cfg (step cfg s x) es) e r)).getD 0
    omega

/-- C96: in every history in which the process is alive, the counter of a connection is the number of bytes of the blocks that the storage accepted from it. -/
theorem C96_peer (w : World) (es : List (Event × Luck)) (ha : (run cfg (init w) es).alive = true) {r : Ref} {c : Conn} (hc : (run cfg (init w) es).peers[r]? = some c) :
    c.downloaded = acceptedIn cfg r (init w) es := by
  have := run_rec (cfg := cfg) (P := fun es s => s.alive = true → (∀ (r : Ref) (c : Conn), s.peers[r]? = some c → c.downloaded = acceptedIn cfg r (init w) es) ∧ ∀ r : Ref, s.peers[r]? = none → acceptedIn cfg r (init w) es = 0)
    (init w) (fun _ => ⟨(fun r c h => by cases h), fun _ _ => rfl⟩) (fun es e ih => ?_) es
  · exact (this ha).1 r c hc
  · clear hc
    intro ha'
    have hi := inv_run (cfg := cfg) w es
    have hal : (run cfg (init w) es).alive = true := by
      cases h : (run cfg (init w) es).alive with
      | true => rfl
      | false => rw [alive_step e h, h] at ha'; cases ha'
    obtain ⟨ih1, ih2⟩ := ih hal
    obtain ⟨h1, h2, _⟩ := accepted_step hi hal e
    have hsn := fun r => acceptedIn_snoc (cfg := cfg) r e (init w) es
    generalize run cfg (init w) es = s at *
    refine ⟨fun r c' hc' => ?_, fun r hn => ?_⟩
    · rw [hsn]
      cases hc : s.peers[r]? with
      | none => rw [h2 r c' hc' hc, ih2 r hc]; rfl
      | some c =>
        obtain ⟨d, h3, h4⟩ := h1 r c hc
        rw [hc'] at h3; injection h3 with h3; subst h3
        rw [h4, ih1 r c hc]; rfl
    · rw [hsn]
      cases hc : s.peers[r]? with
      | none => rw [ih2 r hc]; rfl
      | some c =>
        obtain ⟨d, h3, _⟩ := h1 r c hc
        rw [hn] at h3; cases h3

/-- C96: and the total is the sum over all connections that there were. -/
theorem C96_total (w : World) (es : List (Event × Luck)) : (run cfg (init w) es).downloaded = ((run cfg (init w) es).peers.map Conn.downloaded).sum := by
  refine run_rec (cfg := cfg) (P := fun _ s => s.downloaded = (s.peers.map Conn.downloaded).sum) (init w) rfl (fun es e ih => ?_) es
  have hi := inv_run (cfg := cfg) w es
  cases ha : (run cfg (init w) es).alive with
  | false => rw [alive_step e ha]; exact ih
  | true =>
    have := (accepted_step hi ha e).2.2
    omega

/-- The second piece arrives twice, and the first one arrives from another peer: 2 and 4 bytes. -/
example : (run Ex.cfg (init Ex.nothing) (Ex.fine (Ex.joins 0 1 (Ex.id' 2) ++ Ex.gets 0 (pieceMsg 1 0 [5, 6]) ++ Ex.gets 0 (pieceMsg 1 0 [5, 6]) ++ Ex.joins 1 2 (Ex.id' 3) ++
      Ex.gets 1 (pieceMsg 0 0 [1, 2, 3, 4])))).peers.map Conn.downloaded = [2, 4] ∧
    (run Ex.cfg (init Ex.nothing) (Ex.fine (Ex.joins 0 1 (Ex.id' 2) ++ Ex.gets 0 (pieceMsg 1 0 [5, 6]) ++ Ex.gets 0 (pieceMsg 1 0 [5, 6]) ++ Ex.joins 1 2 (Ex.id' 3) ++
      Ex.gets 1 (pieceMsg 0 0 [1, 2, 3, 4])))).downloaded = 6 ∧
    acceptedIn Ex.cfg 0 (init Ex.nothing) (Ex.fine (Ex.joins 0 1 (Ex.id' 2) ++ Ex.gets 0 (pieceMsg 1 0 [5, 6]) ++ Ex.gets 0 (pieceMsg 1 0 [5, 6]))) = 2 := ⟨by kernel_rfl, by kernel_rfl, by kernel_rfl⟩

/-! ### C97

"A block that we already have does not disturb the connection: it stays connected, nothing is counted and nothing changes. A block that the storage refuses for another reason ends it." -/

/-- C97, duplicates. -/
theorem C97_duplicate (hu : Usable cfg.store) (hf : FilesOK cfg.store.info) (es0 : List (Storage.Event × List Fate)) (es : List (Event × Luck)) (l : Luck) {r : Ref} {c : Conn} {m : Storage.Mem} {a : Message}
    (hal : (run cfg (init (Storage.run cfg.store es0 World.empty)) es).alive = true)
    (hc : (run cfg (init (Storage.run cfg.store es0 World.empty)) es).peers[r]? = some c) (hp : c.phase = .serving (some a)) (ht : a.typ = PIECE)
    (hm : (run cfg (init (Storage.run cfg.store es0 World.empty)) es).storage.mem = some m) {i : Nat} (hi : a.index = i) (hr : Reported m i) (hb : IsBlock cfg.store.info i a.begin a.piece.length) :
    step cfg (run cfg (init (Storage.run cfg.store es0 World.empty)) es) (.handle r, l) =
      { run cfg (init (Storage.run cfg.store es0 World.empty)) es with
        peers := (run cfg (init (Storage.run cfg.store es0 World.empty)) es).peers.set r { c with phase := .serving none } } := by
  obtain ⟨es', hst⟩ := (store_run' (cfg := cfg) hu hf es0 es).hist
  generalize run cfg (init (Storage.run cfg.store es0 World.empty)) es = s at *
  have hput : runOp (putBlock cfg.store a.index a.begin a.piece) s.storage l.fates = (.err .blockExists, s.storage) := by
    rw [hi]
    have := Storage.C42_reported (cfg := cfg.store) hu es' (m := m) (by rw [← hst]; exact hm) i a.begin a.piece hb hr l.fates
    rw [← hst] at this; exact this
  obtain ⟨w, hw, hcase⟩ := handleMessage_piece (cfg := cfg) (r := r) l.fates (l.ok r) ht s hc
  rw [hput] at hw hcase
  rcases hcase with ⟨h, _⟩ | ⟨_, h1, h2⟩
  · cases h
  · have h2 := h2 _ rfl
    rw [if_pos rfl] at h2
    have hw : s.storage = w := hw
    subst hw
    have hh : handleMessage l.fates (l.ok r) cfg r a s = (.ok (), s) := Prod.ext h2 h1
    unfold step
    rw [if_neg (by rw [hal]; simp)]
    simp only [act, hc, Option.map_some, hp, hh, P2P.next, modify_some hc]

/-- C97, other refusals: after the handling of a PIECE the goroutine goes on to the next message exactly if the storage has accepted the block or has it already; on any other error it leaves
(and the connection gets closed). -/
theorem C97_refused (w : World) (es : List (Event × Luck)) (l : Luck) {r : Ref} {c : Conn} {a : Message} (hal : (run cfg (init w) es).alive = true)
    (hc : (run cfg (init w) es).peers[r]? = some c) (hp : c.phase = .serving (some a)) (ht : a.typ = PIECE) (e : Err)
    (he : (runOp (putBlock cfg.store a.index a.begin a.piece) (run cfg (init w) es).storage l.fates).1 = .err e) :
    ∃ c', (step cfg (run cfg (init w) es) (.handle r, l)).peers[r]? = some c' ∧ c'.downloaded = c.downloaded ∧ c'.phase = if e = .blockExists then .serving none else .leaving := by
  have inv := inv_run (cfg := cfg) w es
  generalize run cfg (init w) es = s at *
  obtain ⟨w', _, hcase⟩ := handleMessage_piece (cfg := cfg) (r := r) l.fates (l.ok r) ht s hc
  rcases hcase with ⟨h, _⟩ | ⟨_, h1, h2⟩
  · rw [he] at h; cases h
  · have h2 := h2 e he
    obtain ⟨d, o, ho, h4, _, _, h5⟩ := handle_conn inv hal hc hp l
    rw [h1] at h4
    have h4 : s.peers[r]? = some d := h4
    rw [hc] at h4; injection h4 with h4; subst h4
    refine ⟨_, h5, rfl, ?_⟩
    rw [ho, h2]
    by_cases hb : e = .blockExists
    · rw [if_pos hb, if_pos hb]; rfl
    · rw [if_neg hb, if_neg hb]; rfl

/-- The second piece arrives twice, the connection goes on; a block in the middle of a piece ends it. -/
example : (run Ex.cfg (init Ex.second) (Ex.fine (Ex.joins 0 1 (Ex.id' 2) ++ Ex.gets 0 (pieceMsg 1 0 [5, 6])))).peers.map (fun c => (c.phase, c.downloaded)) = [(.serving none, 0)] ∧
    (run Ex.cfg (init Ex.nothing) (Ex.fine (Ex.joins 0 1 (Ex.id' 2) ++ Ex.gets 0 (pieceMsg 0 1 [5, 6])))).peers.map (fun c => (c.phase, c.downloaded)) = [(.leaving, 0)] := ⟨by kernel_rfl, by kernel_rfl⟩

/-! ### C98

"An address is blocked only if a peer connected from it sent wrong data." False: whoever sends the blocks, the peer that was asked for the piece is blocked. -/

/-- C98: when an address gets blocked, then some connection from there has received a block that differs from the data of the torrent. (`genuine`: the data of the torrent.) -/
def OnlyLiars (cfg : Cfg) (genuine : List Bytes) : Prop := ∀ (es0 : List (Storage.Event × List Fate)) (es : List (Event × Luck)) (a : Bytes),
  a ∈ (run cfg (init (Storage.run cfg.store es0 World.empty)) es).blockedPeers →
  ∃ (r : Ref) (c : Conn), (run cfg (init (Storage.run cfg.store es0 World.empty)) es).peers[r]? = some c ∧ c.addr = a ∧
    ∃ m ∈ c.received, m.typ = PIECE ∧ m.piece ≠ ((genuine.getD m.index.toNat []).drop m.begin.toNat).take m.piece.length

/-- The peer at 10.0.0.1 is asked for the second piece; before it answers, another one sends a wrong second piece. -/
def Ex.framed : List Event :=
  Ex.joins 0 1 (Ex.id' 2) ++ Ex.gets 0 (bitfieldMsg [64]) ++ Ex.gets 0 PeerWire.unchoke ++ [.select 0, .begin 0, .request 0 ⟨1, 0, 2⟩] ++ Ex.joins 1 2 (Ex.id' 3) ++ Ex.gets 1 (pieceMsg 1 0 [9, 9]) ++
    [.finish 0 .checksum]

/-- C98 does not hold: the address that gets blocked is that of the peer that has sent nothing. -/
theorem C98_refuted : ¬ OnlyLiars Ex.cfg [[1, 2, 3, 4], [5, 6]] := by
  intro h
  have hb : (run Ex.cfg (init (Storage.run Ex.cfg.store [(.start, [])] World.empty)) (Ex.fine Ex.framed)).blockedPeers = [b!"10.0.0.1:5000"] := by kernel_rfl
  obtain ⟨r, c, hc, ha, m, hm, ht, _⟩ := h [(.start, [])] (Ex.fine Ex.framed) b!"10.0.0.1:5000" (by rw [hb]; exact List.mem_singleton.2 rfl)
  have hp : ((run Ex.cfg (init (Storage.run Ex.cfg.store [(.start, [])] World.empty)) (Ex.fine Ex.framed)).peers.map fun c => (c.addr, c.received.any fun m => decide (m.typ = PIECE))) =
      [(b!"10.0.0.1:5000", false), (b!"10.0.0.2:5000", true)] := by kernel_rfl
  have hx : (c.addr, c.received.any fun m => decide (m.typ = PIECE)) ∈ [(b!"10.0.0.1:5000", false), (b!"10.0.0.2:5000", true)] := by
    rw [← hp]; exact List.mem_map.2 ⟨c, List.mem_of_getElem? hc, rfl⟩
  have hany : (c.received.any fun m => decide (m.typ = PIECE)) = true := List.any_eq_true.2 ⟨m, hm, decide_eq_true ht⟩
  rw [ha, hany] at hx
  rcases List.mem_cons.1 hx with h | h
  · injection h with _ h; cases h
  · have := List.mem_singleton.1 h
    injection this with this _
    exact absurd this (by decide)

/-- C98 (partial: it is not said who has sent the data): an address gets blocked only when a piece that is being downloaded from a peer fails its checksum; the blocked addresses are those
under which this peer (its id and IP address) has connected; and its connection gets closed. -/
theorem C98_cause_partial (w : World) (es : List (Event × Luck)) (e : Event) (l : Luck) (a : Bytes) (ha : a ∉ (run cfg (init w) es).blockedPeers)
    (hb : a ∈ (step cfg (run cfg (init w) es) (e, l)).blockedPeers) :
    ∃ k r i c, e = .finish k .checksum ∧ (run cfg (init w) es).jobs[k]? = some ⟨r, i, .running⟩ ∧
      (∃ m, (run cfg (init w) es).storage.mem = some m ∧ Storage.PieceResult m i (some .checksum)) ∧
      (run cfg (init w) es).peers[r]? = some c ∧ a ∈ (mget (run cfg (init w) es).knownAddrs c.idip).getD [] ∧
      ∃ c', (step cfg (run cfg (init w) es) (e, l)).peers[r]? = some c' ∧ c'.closed = true := by
  have inv := inv_run (cfg := cfg) w es
  generalize run cfg (init w) es = s at *
  have hsm := step_small (cfg := cfg) (e, l) inv.pendOK
  have hmay : ∃ r, (mayOf cfg s e).block r := by
    have key : ∀ s', Smalls cfg (mayOf cfg s e) s s' → a ∈ s'.blockedPeers → ∃ r, (mayOf cfg s e).block r := by
      intro s' h
      generalize mayOf cfg s e = may at *
      induction h with
      | refl => exact fun h => absurd h ha
      | @tail b t _ h ih =>
        intro ht
        cases h with
        | block r c hm _ => exact ⟨r, hm⟩
        | _ => exact ih ht
    exact key _ hsm hb
  obtain ⟨r, k, i, rfl, hj⟩ := hmay
  have hne : step cfg s (.finish k .checksum, l) ≠ s := fun h => by rw [h] at hb; exact ha hb
  have hal : s.alive = true := by
    cases h : s.alive with
    | true => rfl
    | false => exact absurd (alive_step _ h) hne
  have hret : canReturn s i .checksum = true := by
    cases h : canReturn s i .checksum with
    | true => rfl
    | false =>
      refine absurd ?_ hne
      unfold step
      rw [if_neg (by rw [hal]; simp)]
      simp only [act, hj, h, Bool.false_eq_true, if_false]
  have hl : s.locked = false := by
    cases h : s.locked with
    | false => rfl
    | true =>
      refine absurd ?_ hne
      have : block r s = (.stuck, s) := by unfold block; rw [locked_apply, if_pos h]
      unfold step
      rw [if_neg (by rw [hal]; simp)]
      simp only [act, hj, hret, if_true, finish, Act.attempt, this]
  obtain ⟨c, hc, _⟩ := inv.refs r (.inr (.inr ⟨_, List.mem_of_getElem? hj, rfl⟩))
  obtain ⟨h6, h7⟩ := block_apply (r := r) hl hc
  have hclosed : ∃ c', (block r s).2.peers[r]? = some c' ∧ c'.closed = true := by
    unfold block
    rw [locked_apply, if_neg (by rw [hl]; simp), bind_apply, getConn_some (show ({ s with locked := true } : State).peers[r]? = some c from hc)]
    simp only [bind_apply, modify_apply]
    generalize hx : ({ s with locked := true, blockedPeers := ((mget s.knownAddrs c.idip).getD []).foldl sadd s.blockedPeers } : State) = x
    have hp : x.peers[r]? = some c := by rw [← hx]; exact hc
    rw [disconnect_apply hp]
    exact ⟨_, List.getElem?_set_self (List.getElem?_eq_some_iff.1 hp).1, rfl⟩
  have hstep : step cfg s (.finish k .checksum, l) = { (block r s).2 with jobs := (block r s).2.jobs.set k ⟨r, i, .over⟩ } := by
    unfold step
    rw [if_neg (by rw [hal]; simp)]
    simp only [act, hj, hret, if_true, finish, Act.attempt]
    generalize block r s = x at h6
    obtain ⟨o, s'⟩ := x
    simp only at h6
    subst h6
    rfl
  refine ⟨k, r, i, c, rfl, hj, canReturn_iff.1 hret, hc, ?_, ?_⟩
  · rw [hstep] at hb
    have hb : a ∈ (block r s).2.blockedPeers := hb
    rw [h7, mem_foldl_sadd] at hb
    exact hb.resolve_right ha
  · rw [hstep]; exact hclosed

/-- C98 (partial: the wrong data may have come from another peer): when an address gets blocked, it is because of a piece that is being downloaded from there, and some peer has sent a block of
this piece that differs from the data of the torrent. So as long as no peer sends wrong data, nobody is blocked, whatever the order of messages and the failures of the disk. (The storage is
used by no one else since the process started: `after` has no blocks. `x`: the content of the piece.) -/
theorem C98_liar_partial (hu : Usable cfg.store) (before after : List (Storage.Event × List Fate)) (f : List Fate) (hafter : ∀ e ∈ after, ∀ i b d, e.1 ≠ .put i b d)
    (es : List (Event × Luck)) (e : Event) (l : Luck) (a : Bytes) (ha : a ∉ (run cfg (init (Storage.run cfg.store (before ++ (.start, f) :: after) World.empty)) es).blockedPeers)
    (hb : a ∈ (step cfg (run cfg (init (Storage.run cfg.store (before ++ (.start, f) :: after) World.empty)) es) (e, l)).blockedPeers) :
    ∃ k r i, e = .finish k .checksum ∧ (run cfg (init (Storage.run cfg.store (before ++ (.start, f) :: after) World.empty)) es).jobs[k]? = some ⟨r, i, .running⟩ ∧
      ∀ x, Spec.Verified cfg.store.sha1 cfg.store.info i x → (x.length : Int) = cfg.store.info.getPieceLength i →
        ∃ (y : Ref) (c : Conn), (run cfg (init (Storage.run cfg.store (before ++ (.start, f) :: after) World.empty)) es).peers[y]? = some c ∧
          ∃ m ∈ c.received, m.typ = PIECE ∧ m.index = i ∧ m.piece ≠ (x.drop m.begin.toNat).take m.piece.length := by
  obtain ⟨k, r, i, c, h1, h2, ⟨m, hm, hr⟩, _⟩ := C98_cause_partial _ es e l a ha hb
  refine ⟨k, r, i, h1, h2, fun x hv hxl => ?_⟩
  obtain ⟨es', he, hq⟩ := puts_run (cfg := cfg) (Storage.run cfg.store (before ++ (.start, f) :: after) World.empty) es
  have he' : (run cfg (init (Storage.run cfg.store (before ++ (.start, f) :: after) World.empty)) es).storage = Storage.run cfg.store (before ++ (.start, f) :: (after ++ es')) World.empty := by
    rw [he, ← Storage.run_append, List.append_assoc]; rfl
  rw [he'] at hm
  obtain ⟨b, d, g, hmem, hd⟩ := Storage.C119_result hu hv hxl before (after ++ es') (.inl rfl) f hm hr
  rcases List.mem_append.1 hmem with h | h
  · exact absurd rfl (hafter _ h i b d)
  · obtain ⟨y, c, hc, m, hm, ht, e1, e2, e3⟩ := (hq _ h).2 i b d rfl
    subst e2; subst e3
    exact ⟨y, c, hc, m, hm, ht, e1.symm, hd⟩

/-- In the history of the refutation the wrong block came from the second peer. -/
example : (run Ex.cfg (init (Storage.run Ex.cfg.store ([] ++ (.start, []) :: []) World.empty)) (Ex.fine (Ex.framed.take (Ex.framed.length - 1)))).blockedPeers = [] ∧
    (run Ex.cfg (init (Storage.run Ex.cfg.store ([] ++ (.start, []) :: []) World.empty)) (Ex.fine Ex.framed)).blockedPeers ≠ [] ∧
    (run Ex.cfg (init (Storage.run Ex.cfg.store ([] ++ (.start, []) :: []) World.empty)) (Ex.fine Ex.framed)).peers.map (fun c => c.received.map fun m => m.piece) = [[[], []], [[9, 9]]] :=
  ⟨by kernel_rfl, by rw [show (run Ex.cfg (init (Storage.run Ex.cfg.store ([] ++ (.start, []) :: []) World.empty)) (Ex.fine Ex.framed)).blockedPeers = [b!"10.0.0.1:5000"] by kernel_rfl]; simp, by kernel_rfl⟩

/-- The example of C69: the liar is blocked and disconnected. -/
example : ((run Ex.cfg (init Ex.nothing) (Ex.fine (Ex.lies ++ [.finish 0 .checksum]))).blockedPeers, (run Ex.cfg (init Ex.nothing) (Ex.fine (Ex.lies ++ [.finish 0 .checksum]))).peers.map Conn.closed) =
    ([b!"10.0.0.1:5000"], [true]) := by kernel_rfl

/-! ### C99

"A peer that does not choke us and has a piece that we lack is not forgotten: there is always a goroutine that downloads a piece from it or is going to." -/

/-- C99: as long as the context is not cancelled. The peer has unchoked us and announced the piece in messages that were handled. -/
theorem C99_attended (hu : Usable cfg.store) (hf : FilesOK cfg.store.info) (es0 : List (Storage.Event × List Fate)) (es : List (Event × Luck)) {r : Ref} {c : Conn} {p : Option Message} {m : Storage.Mem}
    (hal : (run cfg (init (Storage.run cfg.store es0 World.empty)) es).alive = true) (hcan : (run cfg (init (Storage.run cfg.store es0 World.empty)) es).cancelled = false)
    (hc : (run cfg (init (Storage.run cfg.store es0 World.empty)) es).peers[r]? = some c) (hp : c.phase = .serving p) (ho : c.closed = false) (hch : theyChoke (handled c) = false)
    (hm : (run cfg (init (Storage.run cfg.store es0 World.empty)) es).storage.mem = some m) {a : Message} (ha : a ∈ handled c) {i : Nat} (hi : Announces a i) (hn : ¬ Reported m i) :
    r ∈ (run cfg (init (Storage.run cfg.store es0 World.empty)) es).toRequest ∨ r ∈ (run cfg (init (Storage.run cfg.store es0 World.empty)) es).waiting ∨
      ∃ j ∈ (run cfg (init (Storage.run cfg.store es0 World.empty)) es).jobs, j.peer = r ∧ j.stage ≠ .handed := by
  have h1 := care_run (cfg := cfg) hu hf es0 es m hm r c hc (fun h => by rw [Gone, hp] at h; rcases h with h | h | h <;> cases h)
  have h2 := (has_run (cfg := cfg) (Storage.run cfg.store es0 World.empty) es r c hc).known ⟨p, hp⟩ a ha i hi
  have h3 := (h1 c hc ho i h2 (by cases hb : Bitfield.bit m.bitfield i with | false => rfl | true => exact absurd (reported_bit.2 hb) hn)).2
    (by rw [(hist_run (cfg := cfg) _ es r c hc).choke]; exact hch)
  have h4 := (pipe_run (cfg := cfg) (Storage.run cfg.store es0 World.empty) es).busy hal hcan r h3
  unfold load at h4
  by_cases k1 : r ∈ (run cfg (init (Storage.run cfg.store es0 World.empty)) es).toRequest
  · exact .inl k1
  by_cases k2 : r ∈ (run cfg (init (Storage.run cfg.store es0 World.empty)) es).waiting
  · exact .inr (.inl k2)
  rw [List.count_eq_zero_of_not_mem k1, List.count_eq_zero_of_not_mem k2] at h4
  obtain ⟨j, h5, h6⟩ := List.countP_pos_iff.1 (show 0 < List.countP (fun j => decide (j.peer = r ∧ j.stage ≠ .handed)) (run cfg (init (Storage.run cfg.store es0 World.empty)) es).jobs by omega)
  exact .inr (.inr ⟨j, h5, of_decide_eq_true h6⟩)

/-- A peer unchokes us and then announces a piece; it is about to be asked, then it is being asked; another one with the same piece waits. -/
example : (run Ex.cfg (init Ex.second) (Ex.fine (Ex.joins 0 1 (Ex.id' 2) ++ Ex.gets 0 PeerWire.unchoke ++ [.select 0] ++ Ex.gets 0 (have_ 0)))).toRequest = [0] ∧
    (run Ex.cfg (init Ex.second) (Ex.fine (Ex.joins 0 1 (Ex.id' 2) ++ Ex.gets 0 PeerWire.unchoke ++ [.select 0] ++ Ex.gets 0 (have_ 0) ++ [.select 0] ++ Ex.joins 1 2 (Ex.id' 3) ++ Ex.gets 1 (have_ 0) ++
      Ex.gets 1 PeerWire.unchoke ++ [.select 0]))).waiting = [1] := ⟨by kernel_rfl, by kernel_rfl⟩

/-! ### C100

"The only blocks asked of a peer are whole blocks of pieces that it has announced." -/

/-- C100. -/
theorem C100_requests (w : World) (es : List (Event × Luck)) {r : Ref} {c : Conn} (hc : (run cfg (init w) es).peers[r]? = some c) {m : Message} (hm : m ∈ c.sent) (ht : m.typ = REQUEST) :
    ∃ i : Nat, m.index = i ∧ (∃ a ∈ c.received, Announces a i) ∧ 0 ≤ m.begin ∧ m.begin < cfg.store.info.getPieceLength i ∧ m.begin % 16384 = 0 ∧
      m.length = min 16384 (cfg.store.info.getPieceLength i - m.begin) := by
  obtain ⟨i, q, h1, rfl, h2⟩ := requests_run (cfg := cfg) w es r c hc m hm ht
  unfold requestBlocks at h1
  obtain ⟨h3, h4, h5, h6, h7⟩ := (mem_loop i (cfg.store.info.getPieceLength i) _ 0 (by omega) q).1 h1
  refine ⟨i, h3, h2, h4, h5, ?_, h7⟩
  rw [Int.sub_zero] at h6; exact h6

/-- A peer with the second piece is asked for its only block. -/
example : (run Ex.cfg (init Ex.nothing) (Ex.fine (Ex.joins 0 1 (Ex.id' 2) ++ Ex.gets 0 (bitfieldMsg [64]) ++ Ex.gets 0 PeerWire.unchoke ++ [.select 0, .begin 0, .request 0 ⟨1, 0, 2⟩]))).peers.map
    (fun c => c.sent) = [[bitfieldMsg [0], PeerWire.interested, request 1 0 2]] := by kernel_rfl

end Drip.P2P
