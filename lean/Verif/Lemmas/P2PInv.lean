import Verif.Lemmas.P2P
/-
Invariants of the states that /repo/p2p can reach.
-/

namespace Drip.P2P
open PeerWire Metainfo
open Storage (Fate World Op runOp getBlock putBlock resetPiece)

variable {cfg : Cfg} {may : May} {r : Ref}

/-- The connection has been registered. -/
def Registered (s : State) (r : Ref) : Prop := ∃ c, s.peers[r]? = some c ∧ c.registered = true

/-- The handshake that was received is acceptable. -/
def Accepted (cfg : Cfg) (c : Conn) : Prop :=
  ∃ hs, c.shook = some hs ∧ hs.infoHash = cfg.store.info.sha1 ∧ c.id = hs.peerID ∧ c.id ≠ cfg.peerID

/-- The bytes in PIECE messages. -/
def pieceBytes : List Message → Int
  | [] => 0
  | m :: ms => (if m.typ = PIECE then (m.piece.length : Int) else 0) + pieceBytes ms

theorem pieceBytes_append (a b : List Message) : pieceBytes (a ++ b) = pieceBytes a + pieceBytes b := by
  induction a with
  | nil => simp [pieceBytes]
  | cons m a ih => simp only [List.cons_append, pieceBytes, ih]; omega

theorem pieceBytes_other {m : Message} (h : m.typ ≠ PIECE) : pieceBytes [m] = 0 := by simp [pieceBytes, h]

/-- What is always true of a connection. -/
structure ConnInv (cfg : Cfg) (c : Conn) : Prop where
  ident : c.announced ≠ zeroID → c.id = c.announced
  shaken : c.phase = .shaken → Accepted cfg c
  reg : c.registered = true → Accepted cfg c ∧ c.phase ≠ .fresh ∧ c.phase ≠ .checked ∧ c.phase ≠ .shaken
  serving : (∃ p, c.phase = .serving p) ∨ c.phase = .leaving → c.registered = true ∧ ∃ bf rest, c.sent = bitfieldMsg bf :: rest
  quiet : c.registered = false → c.sent = [] ∧ c.received = []
  length : c.bitfield.length = (Bitfield.new cfg.store.info.pieces.length).length
  uploaded : c.uploaded = pieceBytes c.sent
  pend : ∀ m, c.phase = .serving (some m) → 0 ≤ m.index ∧ 0 ≤ m.begin ∧ 0 ≤ m.length

theorem ConnInv.new (id ip : Bytes) (port : Nat) : ConnInv cfg (newConn cfg id ip port) where
  ident _ := rfl
  shaken h := by cases h
  reg h := by cases h
  serving h := by rcases h with ⟨_, h⟩ | h <;> cases h
  quiet _ := ⟨rfl, rfl⟩
  length := rfl
  uploaded := rfl
  pend _ h := by cases h

theorem ConnInv.change {s : State} {c c' : Conn} (hc : ConnInv cfg c)
    (hs : ∀ m, may.send r m → c.registered = true ∧ m.typ ≠ PIECE) (h : Change cfg may s r c c') : ConnInv cfg c' := by
  cases h with
  | phase ph h1 h0 h2 =>
    refine ⟨hc.ident, fun h => ?_, fun h => ?_, fun h => ?_, hc.quiet, hc.length, hc.uploaded, fun m h => ?_⟩
    · simp only at h; subst h
      obtain ⟨_, hs, a, b, d, e⟩ := h2
      exact ⟨hs, a, b, d, e⟩
    · obtain ⟨ha, h3, h4, h5⟩ := hc.reg h
      refine ⟨ha, ?_⟩
      cases ph with
      | fresh => exact h2.elim
      | checked => exact absurd h2 h3
      | shaken => exact absurd h2.1 h4
      | _ => exact ⟨by simp, by simp, by simp⟩
    · refine hc.serving ?_
      rcases h with ⟨p, h⟩ | h
      · simp only at h; subst h
        cases p with
        | none => exact .inl h2
        | some p => exact h2.elim
      · simp only at h; subst h; exact .inl h2
    · simp only at h; subst h; exact h2.elim
  | shake hs h1 h2 =>
    refine ⟨hc.ident, fun h => ?_, fun h => ?_, hc.serving, hc.quiet, hc.length, hc.uploaded, hc.pend⟩
    · simp only [h1] at h; cases h
    · exact absurd h1 (hc.reg h).2.2.1
  | ident hs h1 h2 h3 h4 =>
    refine ⟨fun h => ?_, fun h => ?_, fun h => ?_, hc.serving, hc.quiet, hc.length, hc.uploaded, hc.pend⟩
    · have e := hc.ident h
      exact (h4 (fun hz => h (e.symm.trans hz))).symm.trans e
    · simp only [h1] at h; cases h
    · exact absurd h1 (hc.reg h).2.2.1
  | close h => exact ⟨hc.ident, hc.shaken, hc.reg, hc.serving, hc.quiet, hc.length, hc.uploaded, hc.pend⟩
  | cancels a h => exact ⟨hc.ident, hc.shaken, hc.reg, hc.serving, hc.quiet, hc.length, hc.uploaded, hc.pend⟩
  | flags a b d e => exact ⟨hc.ident, hc.shaken, hc.reg, hc.serving, hc.quiet, hc.length, hc.uploaded, hc.pend⟩
  | pieces bf h1 h2 => exact ⟨hc.ident, hc.shaken, hc.reg, hc.serving, hc.quiet, h1.trans hc.length, hc.uploaded, hc.pend⟩
  | send m h1 h2 h3 =>
    obtain ⟨h4, h5⟩ := hs m h1
    refine ⟨hc.ident, hc.shaken, hc.reg, fun h => ?_, fun h => ?_, hc.length, ?_, hc.pend⟩
    · obtain ⟨a, bf, rest, e⟩ := hc.serving h
      exact ⟨a, bf, rest ++ [m], by simp [e]⟩
    · simp only [h4] at h; cases h
    · show c.uploaded = pieceBytes (c.sent ++ [m])
      rw [pieceBytes_append, pieceBytes_other h5, hc.uploaded]; omega
  | remote b h => exact ⟨hc.ident, hc.shaken, hc.reg, hc.serving, hc.quiet, hc.length, hc.uploaded, hc.pend⟩
  | receive m rd rd' h1 h2 h3 h4 =>
    have hr := hc.serving (.inl ⟨none, h2⟩)
    refine ⟨hc.ident, fun h => ?_, fun h => ?_, fun h => hr, fun h => ?_, hc.length, hc.uploaded, fun m' h => ?_⟩
    · cases h
    · exact ⟨(hc.reg h).1, by simp, by simp, by simp⟩
    · simp only [hr.1] at h; cases h
    · injection h with h; injection h with h; subst h
      exact decode_fields h4

theorem ConnInv.gave {c : Conn} (hc : ConnInv cfg c) (hr : c.registered = true) (q : Message) (d : Bytes) : ConnInv cfg (c.gave q d) := by
  refine ⟨hc.ident, hc.shaken, hc.reg, fun h => ?_, fun h => ?_, hc.length, ?_, hc.pend⟩
  · obtain ⟨a, bf, rest, e⟩ := hc.serving h
    exact ⟨a, bf, rest ++ [pieceMsg q.index q.begin d], by simp [Conn.gave, e]⟩
  · rw [show (c.gave q d).registered = c.registered from rfl, hr] at h; cases h
  · show c.uploaded + (d.length : Int) = pieceBytes (c.sent ++ [pieceMsg q.index q.begin d])
    rw [pieceBytes_append, hc.uploaded]
    simp [pieceBytes, pieceMsg]

theorem ConnInv.join {s : State} {c : Conn} (hc : ConnInv cfg c) (hp : c.phase = .shaken) {ms : List Message} {ph : Phase} (h : JoinOK s c ms ph) : ConnInv cfg (c.join ms ph) := by
  have hn : c.registered = false := by
    cases h : c.registered with
    | false => rfl
    | true => exact absurd hp (hc.reg h).2.2.2
  have hs := hc.quiet hn
  have ha : Accepted cfg (c.join ms ph) := hc.shaken hp
  rcases h with ⟨rfl, h⟩ | ⟨_, rfl, m, _, rfl⟩
  · have e : (c.join [] ph).phase = ph := rfl
    refine ⟨hc.ident, fun _ => ha, fun _ => ⟨ha, ?_⟩, fun h' => ?_, fun h => ?_, hc.length, ?_, fun m h' => ?_⟩
    · rw [e]; rcases h with rfl | rfl <;> simp
    · rw [e] at h'; rcases h with rfl | rfl <;> rcases h' with ⟨_, h'⟩ | h' <;> cases h'
    · cases h
    · show c.uploaded = pieceBytes (c.sent ++ []); rw [List.append_nil]; exact hc.uploaded
    · rw [e] at h'; rcases h with rfl | rfl <;> cases h'
  · refine ⟨hc.ident, fun _ => ha, fun _ => ⟨ha, by simp [Conn.join], by simp [Conn.join], by simp [Conn.join]⟩, fun _ => ⟨rfl, m.bitfield, [], ?_⟩, fun h => ?_, hc.length, ?_, fun m h' => ?_⟩
    · show c.sent ++ _ = _; rw [hs.1]; rfl
    · cases h
    · show c.uploaded = pieceBytes (c.sent ++ _)
      rw [pieceBytes_append, pieceBytes_other (by show BITFIELD ≠ PIECE; decide), hc.uploaded]; omega
    · cases h'

/-- What a step may do, in a state satisfying the invariant. -/
structure Good (may : May) (s : State) : Prop where
  send : ∀ x m, may.send x m → Registered s x ∧ m.typ ≠ PIECE
  upload : ∀ x m, may.upload x m → Registered s x
  queue : ∀ x, may.queue x → Registered s x

theorem Registered.change {s : State} {c c' : Conn} (h : Change cfg may s r c c') : c'.registered = c.registered := by
  cases h <;> rfl

theorem Registered.small {s s' : State} (h : Small cfg may s s') {x : Ref} (hx : Registered s x) : Registered s' x := by
  obtain ⟨d, hd, hr⟩ := hx
  cases h with
  | new id ip port _ => exact ⟨d, by rw [List.getElem?_append_left (List.getElem?_eq_some_iff.1 hd).1]; exact hd, hr⟩
  | upd x a b h1 h2 =>
    rcases set_get (c' := b) h1 hd with ⟨_, e, h⟩ | ⟨_, h⟩
    · subst e; exact ⟨b, h, (Registered.change h2).trans hr⟩
    · exact ⟨d, h, hr⟩
  | upload x a q dd f h0 h1 h2 =>
    rcases set_get (c' := a.gave q dd) h1 hd with ⟨_, e, h⟩ | ⟨_, h⟩
    · subst e; exact ⟨_, h, hr⟩
    · exact ⟨d, h, hr⟩
  | join x a ms ph h0 h1 =>
    rcases set_get (c' := a.join ms ph) h1 hd with ⟨_, e, h⟩ | ⟨_, h⟩
    · subst e; exact ⟨_, h, rfl⟩
    · exact ⟨d, h, hr⟩
  | _ => exact ⟨d, hd, hr⟩

theorem Good.small {s s' : State} (hg : Good may s) (h : Small cfg may s s') : Good may s' :=
  ⟨fun x m hm => ⟨Registered.small h (hg.send x m hm).1, (hg.send x m hm).2⟩, fun x m hm => Registered.small h (hg.upload x m hm),
    fun x hx => Registered.small h (hg.queue x hx)⟩

/-- The bytes uploaded over all connections. -/
def totalUploaded (cs : List Conn) : Int := (cs.map Conn.uploaded).sum

theorem totalUploaded_append (a : List Conn) (c : Conn) : totalUploaded (a ++ [c]) = totalUploaded a + c.uploaded := by
  simp [totalUploaded]

theorem totalUploaded_set {cs : List Conn} {r : Nat} {c : Conn} (h : cs[r]? = some c) (c' : Conn) : totalUploaded (cs.set r c') = totalUploaded cs - c.uploaded + c'.uploaded := by
  induction cs generalizing r with
  | nil => cases h
  | cons d cs ih =>
    cases r with
    | zero =>
      injection h with h; subst h
      simp [totalUploaded]; omega
    | succ r =>
      have := ih (r := r) h
      simp only [totalUploaded, List.set_cons_succ, List.map_cons, List.sum_cons] at this ⊢
      omega

/-- What is always true. -/
structure Inv (cfg : Cfg) (s : State) : Prop where
  conn : ∀ (r : Ref) (c : Conn), s.peers[r]? = some c → ConnInv cfg c
  keys : Keys s.activePeers
  len : s.activePeers.length ≤ 50
  entry : ∀ (k : Bytes) (r : Ref), (k, r) ∈ s.activePeers → ∃ c, s.peers[r]? = some c ∧ c.idip = k ∧ c.registered = true
  refs : ∀ r : Ref, r ∈ s.toRequest ∨ r ∈ s.waiting ∨ (∃ j ∈ s.jobs, j.peer = r) → Registered s r
  holders : ∀ (i : Int) (ps : List Ref) (r : Ref), mget s.indexToPeers i = some ps → r ∈ ps → ∃ (n : Nat) (c : Conn), i = n ∧ s.peers[r]? = some c ∧ Bitfield.bit c.bitfield n = true
  total : s.uploaded = totalUploaded s.peers

theorem Inv.pendOK {s : State} (h : Inv cfg s) : PendOK s := fun r c m hc hp => (h.conn r c hc).pend m hp

theorem Inv.init (w : World) : Inv cfg (init w) where
  conn r c h := by cases h
  keys := List.nodup_nil
  len := by show 0 ≤ 50; omega
  entry k r h := by cases h
  refs r h := by rcases h with h | h | ⟨j, h, _⟩ <;> cases h
  holders i ps r h := by cases h
  total := rfl

theorem mayOf_good {s : State} (h : Inv cfg s) (e : Event) : Good (mayOf cfg s e) s where
  send x m hm := by
    rcases hm with ⟨_, rfl, c, p, hc, hp⟩ | ⟨_, rfl, c, hc, hr⟩ | ⟨k, _, hk, rfl⟩ | ⟨k, q, i, _, hj, _, rfl⟩ | ⟨k, y, i, _, _, _, rfl, key, hk⟩
    · exact ⟨⟨c, hc, ((h.conn x c hc).serving (.inl ⟨p, hp⟩)).1⟩, by show INTERESTED ≠ PIECE; decide⟩
    · exact ⟨⟨c, hc, hr⟩, by show UNCHOKE ≠ PIECE; decide⟩
    · exact ⟨h.refs x (.inl (List.mem_of_getElem? hk)), by show NOT_INTERESTED ≠ PIECE; decide⟩
    · exact ⟨h.refs x (.inr (.inr ⟨_, List.mem_of_getElem? hj, rfl⟩)), by show REQUEST ≠ PIECE; decide⟩
    · obtain ⟨c, hc, _, hr⟩ := h.entry key x hk
      exact ⟨⟨c, hc, hr⟩, by show HAVE ≠ PIECE; decide⟩
  upload x m hm := by
    obtain ⟨_, _, c, hc, hp⟩ := hm
    exact ⟨c, hc, ((h.conn x c hc).serving (.inl ⟨_, hp⟩)).1⟩
  queue x hx := by
    obtain ⟨_, c, p, hc, hp⟩ := hx
    exact ⟨c, hc, ((h.conn x c hc).serving (.inl ⟨p, hp⟩)).1⟩

/-- A changed connection keeps its identity unless it is not registered, and its bitfield grows. -/
theorem Change.frame {s : State} {c c' : Conn} (hc : ConnInv cfg c) (h : Change cfg may s r c c') :
    (c.registered = true → c'.idip = c.idip) ∧ c'.uploaded = c.uploaded ∧ ∀ n, Bitfield.bit c.bitfield n = true → Bitfield.bit c'.bitfield n = true := by
  cases h with
  | ident hs h1 h2 h3 h4 => exact ⟨fun h => absurd h1 (hc.reg h).2.2.1, rfl, fun _ h => h⟩
  | pieces bf h1 h2 => exact ⟨fun _ => rfl, rfl, h2⟩
  | _ => exact ⟨fun _ => rfl, rfl, fun _ h => h⟩

theorem mget_forgetIndexes (r : Ref) (is : List Nat) (m : List (Int × List Ref)) (i : Int) :
    mget (forgetIndexes r m is) i = (mget m i).map fun ps => if ∃ n ∈ is, (n : Int) = i then sdel ps r else ps := by
  induction is generalizing m with
  | nil => simp [forgetIndexes]
  | cons n is ih =>
    rw [forgetIndexes, ih]
    cases hn : mget m (n : Int) with
    | none =>
      simp only []
      cases hi : mget m i with
      | none => rfl
      | some ps =>
        have : (n : Int) ≠ i := fun e => by rw [e, hi] at hn; cases hn
        simp [this]
    | some qs =>
      simp only []
      rw [mget_mput]
      by_cases e : i = (n : Int)
      · subst e
        rw [if_pos rfl, hn]
        simp only [Option.map_some, List.mem_cons, exists_eq_or_imp, true_or, if_true]
        split
        · congr 1
          unfold sdel
          rw [List.filter_filter]; simp
        · rfl
      · rw [if_neg e]
        cases mget m i with
        | none => rfl
        | some ps =>
          have : ¬ (n : Int) = i := fun h => e h.symm
          simp [this]

theorem Inv.small {s s' : State} (hi : Inv cfg s) (hg : Good may s) (h : Small cfg may s s') : Inv cfg s' := by
  have hreg : ∀ {x : Ref}, Registered s x → Registered s' x := fun hx => Registered.small h hx
  -- a change of one connection that keeps what others rely on
  have key : ∀ (x : Ref) (c c' : Conn), s.peers[x]? = some c → ConnInv cfg c' → (c.registered = true → c'.idip = c.idip ∧ c'.registered = true) →
      (∀ n, Bitfield.bit c.bitfield n = true → Bitfield.bit c'.bitfield n = true) →
      (∀ (j : Ref) (d : Conn), (s.peers.set x c')[j]? = some d → ConnInv cfg d) ∧
      (∀ (k : Bytes) (j : Ref), (k, j) ∈ s.activePeers → ∃ d, (s.peers.set x c')[j]? = some d ∧ d.idip = k ∧ d.registered = true) ∧
      (∀ (i : Int) (ps : List Ref) (j : Ref), mget s.indexToPeers i = some ps → j ∈ ps → ∃ (n : Nat) (d : Conn), i = n ∧ (s.peers.set x c')[j]? = some d ∧ Bitfield.bit d.bitfield n = true) := by
    intro x c c' hc hc' hid hbit
    refine ⟨fun j d hd => ?_, fun k j hk => ?_, fun i ps j hm hj => ?_⟩
    · rcases set_cases hd with ⟨_, rfl⟩ | ⟨_, hd⟩
      · exact hc'
      · exact hi.conn j d hd
    · obtain ⟨d, hd, e, hr⟩ := hi.entry k j hk
      rcases set_get (c' := c') hc hd with ⟨_, rfl, h⟩ | ⟨_, h⟩
      · exact ⟨c', h, (hid hr).1.trans e, (hid hr).2⟩
      · exact ⟨d, h, e, hr⟩
    · obtain ⟨n, d, e, hd, hb⟩ := hi.holders i ps j hm hj
      rcases set_get (c' := c') hc hd with ⟨_, rfl, h⟩ | ⟨_, h⟩
      · exact ⟨n, c', e, h, hbit n hb⟩
      · exact ⟨n, d, e, h, hb⟩
  cases h with
  | new id ip port _ =>
    have hl : ∀ {j : Ref} {d : Conn}, s.peers[j]? = some d → (s.peers ++ [newConn cfg id ip port])[j]? = some d := fun hd => by
      rw [List.getElem?_append_left (List.getElem?_eq_some_iff.1 hd).1]; exact hd
    refine ⟨fun j d hd => ?_, hi.keys, hi.len, fun k j hk => ?_, fun j hj => hreg (hi.refs j hj), fun i ps j hm hj => ?_, ?_⟩
    · rw [List.getElem?_append] at hd
      split at hd
      · exact hi.conn j d hd
      · rw [List.getElem?_singleton] at hd
        split at hd
        · injection hd with hd; subst hd; exact .new id ip port
        · cases hd
    · obtain ⟨d, hd, h⟩ := hi.entry k j hk; exact ⟨d, hl hd, h⟩
    · obtain ⟨n, d, e, hd, h⟩ := hi.holders i ps j hm hj; exact ⟨n, d, e, hl hd, h⟩
    · show s.uploaded = totalUploaded (s.peers ++ [newConn cfg id ip port])
      rw [totalUploaded_append, hi.total]; simp [newConn]
  | upd x c c' hc hch =>
    have hf := hch.frame (hi.conn x c hc)
    have hci := (hi.conn x c hc).change (fun m hm => by
      obtain ⟨⟨d, hd, hr⟩, ht⟩ := hg.send x m hm
      rw [hc] at hd; injection hd with hd; subst hd; exact ⟨hr, ht⟩) hch
    obtain ⟨h1, h2, h3⟩ := key x c c' hc hci (fun h => ⟨hf.1 h, (Registered.change hch).trans h⟩) hf.2.2
    refine ⟨h1, hi.keys, hi.len, h2, fun j hj => hreg (hi.refs j hj), h3, ?_⟩
    show s.uploaded = totalUploaded (s.peers.set x c')
    rw [totalUploaded_set hc, hf.2.1, hi.total]; omega
  | upload x c q d f hu hc h1 h2 h3 h4 =>
    have hr : c.registered = true := by
      obtain ⟨d, hd, hr⟩ := hg.upload x q hu
      rw [hc] at hd; injection hd with hd; subst hd; exact hr
    obtain ⟨h1, h2, h3⟩ := key x c (c.gave q d) hc ((hi.conn x c hc).gave hr q d) (fun h => ⟨rfl, h⟩) (fun _ h => h)
    refine ⟨h1, hi.keys, hi.len, h2, fun j hj => hreg (hi.refs j hj), h3, ?_⟩
    show s.uploaded + (d.length : Int) = totalUploaded (s.peers.set x (c.gave q d))
    rw [totalUploaded_set hc, hi.total]; show _ = _ - _ + (c.uploaded + (d.length : Int)); omega
  | storage e f h1 h2 => exact ⟨hi.conn, hi.keys, hi.len, hi.entry, fun j hj => hreg (hi.refs j hj), hi.holders, hi.total⟩
  | record x c n hc hb _ =>
    refine ⟨hi.conn, hi.keys, hi.len, hi.entry, fun j hj => hreg (hi.refs j hj), fun i ps j hm hj => ?_, hi.total⟩
    simp only [mget_mput] at hm
    split at hm
    · rename_i e
      injection hm with hm; subst hm
      rcases mem_sadd.1 hj with rfl | hj
      · exact ⟨n, c, e, hc, hb⟩
      · cases hg : mget s.indexToPeers (n : Int) with
        | none => rw [hg] at hj; cases hj
        | some ps =>
          rw [hg] at hj
          subst e
          exact hi.holders _ ps j hg hj
    · exact hi.holders i ps j hm hj
  | unindex x c hd hc =>
    refine ⟨hi.conn, hi.keys, hi.len, hi.entry, fun j hj => hreg (hi.refs j hj), fun i ps j hm hj => ?_, hi.total⟩
    simp only [mget_forgetIndexes] at hm
    cases hg : mget s.indexToPeers i with
    | none => rw [hg] at hm; cases hm
    | some qs =>
      rw [hg] at hm
      simp only [Option.map_some, Option.some.injEq] at hm
      refine hi.holders i qs j hg ?_
      subst hm
      split at hj
      · exact (mem_sdel.1 hj).1
      · exact hj
  | join x c ms ph hp hc hs hn hl hj =>
    have hn0 : c.registered = false := by
      cases h : c.registered with
      | false => rfl
      | true => exact absurd hs ((hi.conn x c hc).reg h).2.2.2
    obtain ⟨h1, h2, h3⟩ := key x c (c.join ms ph) hc ((hi.conn x c hc).join hs hj) (fun h => by rw [hn0] at h; cases h) (fun _ h => h)
    refine ⟨h1, hi.keys.put _ _, ?_, fun k j hk => ?_, fun j hj => hreg (hi.refs j hj), h3, ?_⟩
    · show (mput s.activePeers c.idip x).length ≤ 50
      rw [mput_length x hn]; omega
    · rcases mem_mput.1 hk with e | ⟨hk, _⟩
      · injection e with e1 e2; subst e1 e2
        exact ⟨c.join ms ph, List.getElem?_set_self (List.getElem?_eq_some_iff.1 hc).1, rfl, rfl⟩
      · exact h2 k j hk
    · show s.uploaded = totalUploaded (s.peers.set x (c.join ms ph))
      rw [totalUploaded_set hc, hi.total]; show _ = _ - _ + c.uploaded; omega
  | unregister x c hd hc =>
    refine ⟨hi.conn, hi.keys.del _, Nat.le_trans (mdel_length_le _ _) hi.len, fun k j hk => hi.entry k j (mem_mdel.1 hk).1, fun j hj => hreg (hi.refs j hj), hi.holders, hi.total⟩
  | known a b => exact ⟨hi.conn, hi.keys, hi.len, hi.entry, fun j hj => hreg (hi.refs j hj), hi.holders, hi.total⟩
  | block x c h1 h2 => exact ⟨hi.conn, hi.keys, hi.len, hi.entry, fun j hj => hreg (hi.refs j hj), hi.holders, hi.total⟩
  | queue q t w hq =>
    refine ⟨hi.conn, hi.keys, hi.len, hi.entry, fun j hj => hreg ?_, hi.holders, hi.total⟩
    have : j ∈ s.toRequest ∨ j ∈ s.waiting ∨ (∃ i ∈ s.jobs, i.peer = j) ∨ may.queue j := by
      rcases hj with hj | hj | hj
      · exact hq j (List.mem_append.2 (.inl hj))
      · exact hq j (List.mem_append.2 (.inr hj))
      · exact .inr (.inr (.inl hj))
    rcases this with h | h | h | h
    · exact hi.refs j (.inl h)
    · exact hi.refs j (.inr (.inl h))
    · exact hi.refs j (.inr (.inr h))
    · exact hg.queue j h
  | lock b => exact ⟨hi.conn, hi.keys, hi.len, hi.entry, fun j hj => hreg (hi.refs j hj), hi.holders, hi.total⟩
  | downloaded d => exact ⟨hi.conn, hi.keys, hi.len, hi.entry, fun j hj => hreg (hi.refs j hj), hi.holders, hi.total⟩
  | shutdown c q st => exact ⟨hi.conn, hi.keys, hi.len, hi.entry, fun j hj => hreg (hi.refs j hj), hi.holders, hi.total⟩
  | addrs q h d k h1 => exact ⟨hi.conn, hi.keys, hi.len, hi.entry, fun j hj => hreg (hi.refs j hj), hi.holders, hi.total⟩
  | jobs i js h1 h2 =>
    refine ⟨hi.conn, hi.keys, hi.len, hi.entry, fun j hj => hreg ?_, hi.holders, hi.total⟩
    rcases hj with hj | hj | ⟨y, hy, rfl⟩
    · exact hi.refs j (.inl hj)
    · exact hi.refs j (.inr (.inl hj))
    · rcases h2 y hy with ⟨z, hz, e⟩ | h
      · exact hi.refs _ (.inr (.inr ⟨z, hz, e⟩))
      · exact hi.refs _ (.inl h)
  | die => exact ⟨hi.conn, hi.keys, hi.len, hi.entry, fun j hj => hreg (hi.refs j hj), hi.holders, hi.total⟩

/-- Induction over the small changes of a step, with the invariant at hand. -/
theorem Smalls.rec_inv {s s' : State} (hi : Inv cfg s) (hg : Good may s) (h : Smalls cfg may s s') : Inv cfg s' ∧ Good may s' := by
  induction h with
  | refl => exact ⟨hi, hg⟩
  | tail _ h ih => exact ⟨ih.1.small ih.2 h, ih.2.small h⟩

theorem Inv.step {s : State} (h : Inv cfg s) (e : Event × Luck) : Inv cfg (step cfg s e) :=
  ((step_small e h.pendOK).rec_inv h (mayOf_good h e.1)).1

theorem Inv.run {s : State} (h : Inv cfg s) (es : List (Event × Luck)) : Inv cfg (run cfg s es) := by
  induction es generalizing s with
  | nil => exact h
  | cons e es ih => exact ih (h.step e)

theorem inv_run (w : World) (es : List (Event × Luck)) : Inv cfg (run cfg (init w) es) := (Inv.init w).run es

end Drip.P2P
