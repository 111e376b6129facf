import Verif.Lemmas.P2PHist
import Verif.Lemmas.P2PExample
/-
Theorems about /repo/p2p: the messages of one connection (C62–C65).
-/

namespace Drip.P2P
open PeerWire Metainfo
open Storage (Fate World Op runOp getBlock putBlock resetPiece)

variable {cfg : Cfg}

/-! ### C62 -/

/-- C62. In every step of every history, what is appended to the messages sent on a connection contains no PIECE, and the counter of uploaded
bytes stays, unless: the step is the handling of a REQUEST on that connection, while it is not choked; then exactly one PIECE for the requested block is sent, with
the bytes that `GetBlock` returned, and both counters advance by their number. -/
theorem C62_step (w : World) (es : List (Event × Luck)) (e : Event) (l : Luck) {r : Ref} {c c' : Conn} (hc : (run cfg (init w) es).peers[r]? = some c)
    (hc' : (step cfg (run cfg (init w) es) (e, l)).peers[r]? = some c') :
    (∃ ms, c'.sent = c.sent ++ ms ∧ (∀ m ∈ ms, m.typ ≠ PIECE) ∧ c'.uploaded = c.uploaded) ∨
    (e = .handle r ∧ c.choked = false ∧ ∃ m, c.phase = .serving (some m) ∧ m.typ = REQUEST ∧
      ∃ d, (runOp (getBlock cfg.store m.index m.begin m.length) (run cfg (init w) es).storage l.fates).1 = .ok d ∧ c'.sent = c.sent ++ [pieceMsg m.index m.begin d] ∧
        c'.uploaded = c.uploaded + d.length ∧ (step cfg (run cfg (init w) es) (e, l)).uploaded = (run cfg (init w) es).uploaded + d.length) := by
  have hi := inv_run (cfg := cfg) w es
  generalize run cfg (init w) es = s at *
  cases hal : s.alive with
  | false =>
    rw [alive_step _ hal, hc] at hc'
    injection hc' with hc'; subst hc'
    exact .inl ⟨[], by simp, by simp, rfl⟩
  | true =>
  have hsm := step_small (cfg := cfg) (e, l) hi.pendOK
  have hg := mayOf_good hi e
  obtain ⟨c1, h1, hf⟩ := hsm.frame hg hc
  rw [hc'] at h1; injection h1 with h1; subst h1
  have hup : c.uploaded = pieceBytes c.sent := (hi.conn r c hc).uploaded
  have hup' : c'.uploaded = pieceBytes c'.sent := ((hi.step (e, l)).conn r c' hc').uploaded
  by_cases hx : ∃ m, e = .handle r ∧ c.phase = .serving (some m) ∧ m.typ = REQUEST
  · obtain ⟨m, rfl, hp, ht⟩ := hx
    obtain ⟨c2, o, _, h2, h3, h4, h5⟩ := handle_conn hi hal hc hp l
    rw [hc'] at h5; injection h5 with h5
    obtain ⟨b, hb⟩ := handle_step (cfg := cfg) hal hc hp l
    rcases handleMessage_request l.fates (l.ok r) ht hc h2 with ⟨h, h', _⟩ | ⟨hch, _, _, _, d, hd, h, h', h''⟩
    · exact .inl ⟨[], by rw [h5]; simp [h], by simp, by rw [h5]; exact h'⟩
    · exact .inr ⟨rfl, hch, m, hp, ht, d, hd, by rw [h5]; exact h, by rw [h5]; exact h', by rw [hb]; exact h''⟩
  · obtain ⟨ms, e1, hms, _⟩ := hf.sent
    have hms := hms fun m hm => by
      obtain ⟨h1, h2, d, hd, hp⟩ := hm
      rw [hc] at hd; injection hd with hd; subst hd
      exact hx ⟨m, h1, hp, h2⟩
    refine .inl ⟨ms, e1, hms, ?_⟩
    rw [hup', e1, pieceBytes_append, hup]
    have : ∀ ms : List Message, (∀ m ∈ ms, m.typ ≠ PIECE) → pieceBytes ms = 0 := by
      intro ms h
      induction ms with
      | nil => rfl
      | cons m ms ih =>
        rw [pieceBytes, if_neg (h m (List.mem_cons_self ..)), ih fun m' h' => h m' (List.mem_cons_of_mem _ h')]; rfl
    rw [this ms hms]; omega

/-- C62. In every history: the PIECE messages sent on a connection answer different REQUESTs that were handled before, in the same order; the counters of uploaded bytes are
the numbers of bytes in the PIECE messages, of the connection and of all connections. -/
theorem C62_history (w : World) (es : List (Event × Luck)) :
    (∀ (r : Ref) (c : Conn), (run cfg (init w) es).peers[r]? = some c → (pieceKeys c.sent).Sublist (requestKeys (handled c)) ∧ c.uploaded = pieceBytes c.sent) ∧
    (run cfg (init w) es).uploaded = ((run cfg (init w) es).peers.map fun c => pieceBytes c.sent).sum := by
  have hi := inv_run (cfg := cfg) w es
  refine ⟨fun r c hc => ⟨(hist_run w es r c hc).answers, (hi.conn r c hc).uploaded⟩, ?_⟩
  rw [hi.total, totalUploaded]
  congr 1
  refine List.map_congr_left fun c hc => ?_
  obtain ⟨r, hr, e⟩ := List.getElem_of_mem hc
  exact (hi.conn r c (List.getElem?_eq_some_iff.2 ⟨hr, e⟩)).uploaded

/-- A peer that was unchoked asks for two blocks. -/
def Ex.leech : List Event := Ex.joins 0 1 (Ex.id' 2) ++ Ex.gets 0 interested ++ [.unchoke 0] ++ Ex.gets 0 (request 0 0 4) ++ Ex.gets 0 (request 1 1 1)

example : (run Ex.cfg (init Ex.everything) (Ex.fine Ex.leech)).peers[0]?.map (fun c => (c.sent, c.uploaded)) =
    some ([bitfieldMsg [192], PeerWire.unchoke, pieceMsg 0 0 [1, 2, 3, 4], pieceMsg 1 1 [6]], 5) := by kernel_rfl
/-- The same without being unchoked: the connection ends at the first REQUEST. -/
example : (run Ex.cfg (init Ex.everything) (Ex.fine (Ex.joins 0 1 (Ex.id' 2) ++ Ex.gets 0 interested ++ Ex.gets 0 (request 0 0 4)))).peers[0]?.map (fun c => (c.sent, c.phase)) =
    some ([bitfieldMsg [192]], .leaving) := by kernel_rfl

/-! ### C63

"After a CANCEL for a block, the corresponding REQUEST is not answered, and later requests are unaffected." False in both parts: messages are handled one after the other,
so that a REQUEST has been answered when a CANCEL for it is handled; and the CANCEL is kept and swallows the next REQUEST for the same block. -/

/-- C63 does not hold: the REQUEST before a CANCEL is answered, the one after it is not. -/
theorem C63_refuted : (run Ex.cfg (init Ex.everything)
      (Ex.fine (Ex.joins 0 1 (Ex.id' 2) ++ [.unchoke 0] ++ Ex.gets 0 (request 0 0 4) ++ Ex.gets 0 (cancel 0 0 4) ++ Ex.gets 0 (request 0 0 4)))).peers[0]?.map
        (fun c => (c.received, c.sent)) =
    some ([request 0 0 4, cancel 0 0 4, request 0 0 4], [bitfieldMsg [192], PeerWire.unchoke, pieceMsg 0 0 [1, 2, 3, 4]]) := by kernel_rfl

/-- C63, what is true: a REQUEST handled while the peer is not choked is answered if and only if no earlier CANCEL for exactly the same block is waiting (spec
`waitingCancels` of the messages handled before), the storage has the block and it can be written; a CANCEL that suppresses a REQUEST is used up, so that the one after is answered again.
Missing: what the property says of REQUESTs before the CANCEL. -/
theorem C63_partial (w : World) (es : List (Event × Luck)) (l : Luck) {r : Ref} {c c' : Conn} {m : Message} (ha : (run cfg (init w) es).alive = true)
    (hc : (run cfg (init w) es).peers[r]? = some c) (hp : c.phase = .serving (some m)) (ht : m.typ = REQUEST) (hu : c.choked = false)
    (hc' : (step cfg (run cfg (init w) es) (.handle r, l)).peers[r]? = some c') :
    (⟨m.index, m.begin, m.length⟩ ∈ waitingCancels (handled c) → c'.sent = c.sent ∧ c'.phase = .serving none) ∧
    (⟨m.index, m.begin, m.length⟩ ∉ waitingCancels (handled c) → l.ok r = true → c.closed = false →
      ∀ d, (runOp (getBlock cfg.store m.index m.begin m.length) (run cfg (init w) es).storage l.fates).1 = .ok d → c'.sent = c.sent ++ [pieceMsg m.index m.begin d]) := by
  have hi := inv_run (cfg := cfg) w es
  rw [← (hist_run (cfg := cfg) w es r c hc).cancels (by rw [hp]; simp) (by rw [hp]; simp) (by rw [hp]; simp)]
  generalize run cfg (init w) es = s at *
  have hm : handleMessage l.fates (l.ok r) cfg r m = handleRequest l.fates (l.ok r) cfg r m.index m.begin m.length := by
    unfold handleMessage
    rw [if_neg (by rw [ht]; decide), if_neg (by rw [ht]; decide), if_neg (by rw [ht]; decide), if_neg (by rw [ht]; decide), if_neg (by rw [ht]; decide),
      if_neg (by rw [ht]; decide), if_pos ht]
    unfold Message.getIndex Message.getBegin Message.getLength
    rw [if_pos (.inr (.inl ht)), if_pos (.inl ht), if_pos (.inl ht)]
    rfl
  obtain ⟨b, hb⟩ := handle_step (cfg := cfg) ha hc hp l
  rw [hb, hm] at hc'
  have hcu : ¬ c.choked = true := by rw [hu]; simp
  refine ⟨fun hcan => ?_, fun hcan hok hcl d hd => ?_⟩
  · have : handleRequest l.fates (l.ok r) cfg r m.index m.begin m.length s =
        (.ok (), { s with peers := s.peers.modify r fun c => { c with canceled := sdel c.canceled ⟨m.index, m.begin, m.length⟩ } }) := by
      unfold handleRequest
      rw [bind_apply, getConn_some hc]
      simp only []
      rw [if_neg hcu, if_pos hcan]; rfl
    rw [this] at hc'
    simp only [next] at hc'
    rw [modify_self (modify_self hc _)] at hc'
    injection hc' with hc'; subst hc'
    exact ⟨rfl, rfl⟩
  · have hx : ∃ c2, (handleMessage l.fates (l.ok r) cfg r m s).2.peers[r]? = some c2 ∧ c2.sent = c'.sent := by
      obtain ⟨c2, o, _, h2, h3, h4, h5⟩ := handle_conn hi ha hc hp l
      rw [hb, hm, hc'] at h5; injection h5 with h5
      exact ⟨c2, h2, by rw [h5]⟩
    obtain ⟨c2, h2, h3⟩ := hx
    rw [hm] at h2
    unfold handleRequest at h2
    rw [bind_apply, getConn_some hc] at h2
    simp only [] at h2
    rw [if_neg hcu, if_neg hcan, bind_apply] at h2
    unfold Act.store at h2
    generalize hrun : runOp (getBlock cfg.store m.index m.begin m.length) s.storage l.fates = x at h2 hd
    obtain ⟨o, w'⟩ := x
    simp only at hd; subst hd
    simp only [] at h2
    rw [bind_apply] at h2
    unfold send at h2
    have hc1 : ({ s with storage := w' } : State).peers[r]? = some c := hc
    rw [bind_apply, getConn_some hc1] at h2
    simp only [] at h2
    have hn : ¬ ((pieceMsg m.index m.begin d).typ = REQUEST ∧ c.remoteChoked = true) := by
      rintro ⟨h, _⟩; exact absurd h (by show PIECE ≠ REQUEST; decide)
    simp only [hn, if_false, hok, hcl, Bool.not_false, and_self, if_true, setConn_apply, bind_apply, modify_apply] at h2
    rw [modify_self (modify_self hc _)] at h2
    injection h2 with h2; rw [← h3, ← h2]

/-- C63, the converse: if anything is sent when a REQUEST is handled, then the peer is not choked, no CANCEL for exactly the same block is waiting, the write succeeded, and it is the block that the storage has. -/
theorem C63_only_partial (w : World) (es : List (Event × Luck)) (l : Luck) {r : Ref} {c c' : Conn} {m : Message} (ha : (run cfg (init w) es).alive = true)
    (hc : (run cfg (init w) es).peers[r]? = some c) (hp : c.phase = .serving (some m)) (ht : m.typ = REQUEST)
    (hc' : (step cfg (run cfg (init w) es) (.handle r, l)).peers[r]? = some c') (hne : c'.sent ≠ c.sent) :
    c.choked = false ∧ ⟨m.index, m.begin, m.length⟩ ∉ waitingCancels (handled c) ∧ l.ok r = true ∧ c.closed = false ∧
    ∃ d, (runOp (getBlock cfg.store m.index m.begin m.length) (run cfg (init w) es).storage l.fates).1 = .ok d ∧ c'.sent = c.sent ++ [pieceMsg m.index m.begin d] := by
  have hi := inv_run (cfg := cfg) w es
  rw [← (hist_run (cfg := cfg) w es r c hc).cancels (by rw [hp]; simp) (by rw [hp]; simp) (by rw [hp]; simp)]
  generalize run cfg (init w) es = s at *
  have hm : handleMessage l.fates (l.ok r) cfg r m = handleRequest l.fates (l.ok r) cfg r m.index m.begin m.length := by
    cases m; simp only at ht; subst ht; rfl
  obtain ⟨c2, h2, h3⟩ : ∃ c2, (handleRequest l.fates (l.ok r) cfg r m.index m.begin m.length s).2.peers[r]? = some c2 ∧ c2.sent = c'.sent := by
    obtain ⟨c2, o, _, h2, _, _, h5⟩ := handle_conn hi ha hc hp l
    rw [hc'] at h5; injection h5 with h5
    exact ⟨c2, by rw [← hm]; exact h2, by rw [h5]⟩
  rw [← h3] at hne ⊢
  unfold handleRequest at h2
  rw [bind_apply, getConn_some hc] at h2
  simp only [] at h2
  by_cases hcu : c.choked = true
  · rw [if_pos hcu] at h2
    have h2 : s.peers[r]? = some c2 := h2
    rw [hc] at h2; injection h2 with h2; exact absurd (by rw [h2]) hne
  rw [if_neg hcu] at h2
  by_cases hcan : ⟨m.index, m.begin, m.length⟩ ∈ c.canceled
  · rw [if_pos hcan, setConn_apply] at h2
    simp only [] at h2
    rw [modify_self hc] at h2
    injection h2 with h2; exact absurd (by rw [← h2]) hne
  rw [if_neg hcan, bind_apply] at h2
  unfold Act.store at h2
  generalize hrun : runOp (getBlock cfg.store m.index m.begin m.length) s.storage l.fates = x at h2 ⊢
  obtain ⟨o, w'⟩ := x
  have hc1 : ({ s with storage := w' } : State).peers[r]? = some c := hc
  cases o with
  | ok d =>
    simp only [] at h2
    rw [bind_apply] at h2
    unfold send at h2
    rw [bind_apply, getConn_some hc1] at h2
    simp only [] at h2
    have hn : ¬ ((pieceMsg m.index m.begin d).typ = REQUEST ∧ c.remoteChoked = true) := by
      rintro ⟨h, _⟩; exact absurd h (by show PIECE ≠ REQUEST; decide)
    by_cases hok : l.ok r = true ∧ (!c.closed) = true
    · simp only [hn, if_false, hok, Bool.not_false, and_self, if_true, setConn_apply, bind_apply, modify_apply] at h2
      rw [modify_self (modify_self hc _)] at h2
      injection h2 with h2
      exact ⟨by simpa using hcu, hcan, hok.1, by simpa using hok.2, d, rfl, by rw [← h2]⟩
    · rw [if_neg hn, if_neg hok] at h2
      have h2 : s.peers[r]? = some c2 := h2
      rw [hc] at h2; injection h2 with h2; exact absurd (by rw [h2]) hne
  | _ =>
    have h2 : s.peers[r]? = some c2 := h2
    rw [hc] at h2; injection h2 with h2; exact absurd (by rw [h2]) hne

/-- A CANCEL waits for the REQUEST after it only. -/
example : waitingCancels [request 0 0 4, cancel 0 0 4, cancel 1 0 2, request 1 0 2] = [⟨0, 0, 4⟩] := by kernel_rfl
/-- The witness of `C63_refuted` goes on: the third REQUEST is answered. -/
example : (run Ex.cfg (init Ex.everything)
      (Ex.fine (Ex.joins 0 1 (Ex.id' 2) ++ [.unchoke 0] ++ Ex.gets 0 (cancel 0 0 4) ++ Ex.gets 0 (request 0 0 4) ++ Ex.gets 0 (request 0 0 4)))).peers[0]?.map
        (fun c => (c.phase, c.sent)) =
    some (.serving none, [bitfieldMsg [192], PeerWire.unchoke, pieceMsg 0 0 [1, 2, 3, 4]]) := by kernel_rfl

/-! ### C65 -/

/-- C65. `Send` refuses a REQUEST while the remote side chokes us, and changes nothing then. Otherwise, if the write succeeds, the message and nothing else is written. -/
theorem C65_send (ok : Bool) (r : Ref) (m : Message) {s : State} {c : Conn} (hc : s.peers[r]? = some c) :
    (m.typ = REQUEST → c.remoteChoked = true → send ok r m s = (.err .choked, s)) ∧
    ((m.typ = REQUEST → c.remoteChoked = false) →
      send ok r m s = if ok = true ∧ c.closed = false then (.ok (), { s with peers := s.peers.set r { c with sent := c.sent ++ [m] } }) else (.err .conn, s)) := by
  unfold send
  rw [bind_apply, getConn_some hc]
  simp only []
  refine ⟨fun h1 h2 => ?_, fun h => ?_⟩
  · rw [if_pos ⟨h1, h2⟩]; rfl
  · rw [if_neg (fun h' => by rw [h h'.1] at h'; exact absurd h'.2 (by simp))]
    by_cases h1 : ok = true ∧ c.closed = false
    · rw [if_pos h1, if_pos ⟨h1.1, by rw [h1.2]; rfl⟩, setConn_apply, modify_some hc]
    · rw [if_neg h1, if_neg (fun h' => h1 ⟨h'.1, by simpa using h'.2⟩)]; rfl

/-- C65. In every step of every history, REQUESTs are sent only on connections where the last CHOKE or UNCHOKE that was handled is an UNCHOKE. -/
theorem C65_history (w : World) (es : List (Event × Luck)) (e : Event) (l : Luck) {r : Ref} {c c' : Conn} (hc : (run cfg (init w) es).peers[r]? = some c)
    (hc' : (step cfg (run cfg (init w) es) (e, l)).peers[r]? = some c') :
    ∃ ms, c'.sent = c.sent ++ ms ∧ ∀ m ∈ ms, m.typ = REQUEST → theyChoke (handled c) = false := by
  have hi := inv_run (cfg := cfg) w es
  have hh := hist_run (cfg := cfg) w es r c hc
  generalize run cfg (init w) es = s at *
  have hsm := step_small (cfg := cfg) (e, l) hi.pendOK
  have hg := mayOf_good hi e
  obtain ⟨c1, h1, hf⟩ := hsm.frame hg hc
  rw [hc'] at h1; injection h1 with h1; subst h1
  obtain ⟨ms, e1, _, hms⟩ := hf.sent
  refine ⟨ms, e1, fun m hm ht => ?_⟩
  rw [← hh.choke]
  by_cases hr : (mayOf cfg s e).remote r
  · -- handling CHOKE or UNCHOKE sends nothing
    obtain ⟨rfl, d, q, hd, hp, hq⟩ := hr
    rw [hc] at hd; injection hd with hd; subst hd
    exfalso
    cases hal : s.alive with
    | false =>
      rw [alive_step _ hal, hc] at hc'
      injection hc' with hc'; subst hc'
      have : ms = [] := by simpa using e1
      rw [this] at hm; cases hm
    | true =>
      obtain ⟨c2, o, _, h2, h3, h4, h5⟩ := handle_conn hi hal hc hp l
      rw [hc'] at h5; injection h5 with h5
      have hs : c2.sent = c.sent := by
        unfold handleMessage at h2
        rcases hq with hq | hq
        · rw [if_pos hq, setConn_apply] at h2
          simp only [modify_self hc] at h2
          injection h2 with h2; rw [← h2]
        · rw [if_neg (by rw [hq]; decide), if_pos hq, bind_apply, setConn_apply] at h2
          simp only [QueuePeer_peers, modify_self hc] at h2
          injection h2 with h2; rw [← h2]
      have : ms = [] := by
        have : c'.sent = c.sent := by rw [h5]; exact hs
        rw [this] at e1; simpa using e1
      rw [this] at hm; cases hm
  · exact hms hr m hm ht

/-- A piece is downloaded from a peer that has it and has unchoked us; then it chokes us. -/
def Ex.seed : List Event :=
  Ex.joins 0 1 (Ex.id' 2) ++ Ex.gets 0 (bitfieldMsg [192]) ++ Ex.gets 0 PeerWire.unchoke ++ [.select 0, .begin 0, .request 0 ⟨0, 0, 4⟩]

example : (run Ex.cfg (init Ex.nothing) (Ex.fine Ex.seed)).peers[0]?.map (fun c => (c.sent, theyChoke (handled c))) =
    some ([bitfieldMsg [0], interested, request 0 0 4], false) := by kernel_rfl
/-- Choked again, the same request is not sent. -/
example : (run Ex.cfg (init Ex.nothing) (Ex.fine (Ex.joins 0 1 (Ex.id' 2) ++ Ex.gets 0 (bitfieldMsg [192]) ++ Ex.gets 0 PeerWire.unchoke ++ [.select 0, .begin 0] ++ Ex.gets 0 PeerWire.choke ++
      [.request 0 ⟨0, 0, 4⟩]))).peers[0]?.map (fun c => (c.sent, theyChoke (handled c))) =
    some ([bitfieldMsg [0], interested], true) := by kernel_rfl

end Drip.P2P
