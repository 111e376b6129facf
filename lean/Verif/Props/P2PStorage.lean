import Verif.Lemmas.P2PStore
import Verif.Lemmas.P2PExample
import Verif.Lemmas.P2PLock
import Verif.Lemmas.Net6
import Verif.Props.P2PDownload
import Verif.Props.P2PConnect
/-
What peers are told and given (C85, C86, C87, C91), which addresses can be dialled (C88), which connections are closed (C89).
-/

namespace Drip.P2P
open PeerWire Metainfo
open Storage (Fate World Mem Usable Reported OnDisk)

variable {cfg : Cfg} {r : Ref}

/-! ### C85 -/

/-- C85. In every history, the first message sent on a connection that is being served is a BITFIELD, and no other BITFIELD is sent on it. -/
theorem C85_first_partial (hu : Usable cfg.store) (hf : FilesOK cfg.store.info) (es0 : List (Storage.Event × List Fate)) (es : List (Event × Luck)) {c : Conn}
    (hc : (run cfg (init (Storage.run cfg.store es0 World.empty)) es).peers[r]? = some c) (hp : (∃ p, c.phase = .serving p) ∨ c.phase = .leaving) :
    ∃ bf rest, c.sent = bitfieldMsg bf :: rest ∧ ∀ m ∈ rest, m.typ ≠ BITFIELD := by
  obtain ⟨_, bf, rest, e⟩ := ((inv_run (cfg := cfg) _ es).conn r c hc).serving hp
  refine ⟨bf, rest, e, fun m hm ht => ?_⟩
  obtain ⟨k, hk⟩ := List.getElem?_of_mem hm
  have := (store_run' hu hf es0 es).first r c (k + 1) m hc (by rw [e]; exact hk) ht
  omega

/-- C85, what is true of every connection, served or not: a BITFIELD that was sent on it was the first message. Missing: that the first message is one (C85_refuted). -/
theorem C85_only_partial (hu : Usable cfg.store) (hf : FilesOK cfg.store.info) (es0 : List (Storage.Event × List Fate)) (es : List (Event × Luck)) {c : Conn}
    (hc : (run cfg (init (Storage.run cfg.store es0 World.empty)) es).peers[r]? = some c) (ms : List Message) (m : Message) (ms' : List Message) (hs : c.sent = ms ++ m :: ms') (ht : m.typ = BITFIELD) : ms = [] := by
  have := (store_run' hu hf es0 es).first r c ms.length m hc (by rw [hs]; simp) ht
  exact List.length_eq_zero_iff.mp this

/-- Two peers are connected, but the BITFIELD could not be written to the first; the second has piece 0 and sends it. -/
def Ex.silent : List (Event × Luck) :=
  Ex.fine [.accept (Ex.ip 1) 5000, .check 0, .handshake 0 (Ex.shake (Ex.id' 2))] ++ [(.register 0, { ok := fun _ => false })] ++
    Ex.fine (Ex.joins 1 2 (Ex.id' 3) ++ Ex.gets 1 (have_ 0) ++ Ex.gets 1 PeerWire.unchoke ++ [.select 0, .begin 0] ++ Ex.gets 1 (pieceMsg 0 0 [1, 2, 3, 4]) ++ [.finish 0 .complete])

/-- C85 is false of connections that are not served: if the BITFIELD could not be written the peer is sent HAVE messages nevertheless. -/
theorem C85_refuted : ¬ ∀ (es : List (Event × Luck)) (r : Ref) (c : Conn) (m : Message), (run Ex.cfg (init Ex.nothing) es).peers[r]? = some c → c.sent[0]? = some m → m.typ = BITFIELD := by
  intro h
  have hr : (run Ex.cfg (init Ex.nothing) Ex.silent).peers[0]?.map (fun c => c.sent.map (·.typ)) = some [HAVE] := by kernel_rfl
  cases hc : (run Ex.cfg (init Ex.nothing) Ex.silent).peers[0]? with
  | none => rw [hc] at hr; cases hr
  | some c =>
    rw [hc] at hr
    injection hr with hr
    replace hr : c.sent.map (·.typ) = [HAVE] := hr
    cases hs : c.sent with
    | nil => rw [hs] at hr; cases hr
    | cons m ms =>
      have ht := h Ex.silent 0 c m hc (by rw [hs]; rfl)
      rw [hs] at hr
      injection hr with hr
      exact absurd (ht.symm.trans hr) (by decide)

/-! ### C86 -/

/-- C86. In every history: every piece that was announced to a peer, in the BITFIELD or in a HAVE, is on disk with the right SHA-1 and length (as long as the process has
not died). -/
theorem C86_announced (hu : Usable cfg.store) (hf : FilesOK cfg.store.info) (es0 : List (Storage.Event × List Fate)) (es : List (Event × Luck)) {c : Conn}
    (hc : (run cfg (init (Storage.run cfg.store es0 World.empty)) es).peers[r]? = some c) {m : Message} (hm : m ∈ c.sent) {i : Nat} (ha : Announces m i)
    (hal : (run cfg (init (Storage.run cfg.store es0 World.empty)) es).storage.mem ≠ none) :
    ∃ d, OnDisk cfg.store (run cfg (init (Storage.run cfg.store es0 World.empty)) es).storage.fs i d := by
  have hi := store_run' hu hf es0 es
  generalize run cfg (init (Storage.run cfg.store es0 World.empty)) es = s at *
  cases hmem : s.storage.mem with
  | none => exact absurd hmem hal
  | some mem =>
    have hr := hi.told r c m i mem hc hm ha hmem
    obtain ⟨es', he⟩ := hi.hist
    rw [he] at hmem ⊢
    exact Storage.C38_verified hu es' hmem i (.inl hr)

/-! ### C87 -/

/-- C87. In every history: the data of every PIECE that was sent is what the torrent has at that place, according to the SHA-1 of the pieces. -/
theorem C87_genuine (hu : Usable cfg.store) (hf : FilesOK cfg.store.info) (es0 : List (Storage.Event × List Fate)) (es : List (Event × Luck)) {c : Conn}
    (hc : (run cfg (init (Storage.run cfg.store es0 World.empty)) es).peers[r]? = some c) {m : Message} (hm : m ∈ c.sent) (ht : m.typ = PIECE) :
    Genuine cfg.store m.index m.begin m.piece :=
  (store_run' hu hf es0 es).gave r c m hc hm ht

/-- A peer gets the bitfield and asks for two blocks. -/
example : (run Ex.cfg (init (Storage.run Ex.store [(.start, []), (.put 1 0 [5, 6], []), (.put 0 0 [1, 2, 3, 4], [])] World.empty))
      (Ex.fine (Ex.joins 0 1 (Ex.id' 2) ++ [.unchoke 0] ++ Ex.gets 0 (request 0 1 2) ++ Ex.gets 0 (request 1 0 2)))).peers[0]?.map (fun c => c.sent) =
    some [bitfieldMsg [192], PeerWire.unchoke, pieceMsg 0 1 [2, 3], pieceMsg 1 0 [5, 6]] := by kernel_rfl

example : Usable Ex.cfg.store ∧ FilesOK Ex.cfg.store.info := ⟨⟨by decide, by decide⟩, fun h => absurd rfl h⟩

/-! ### C88 -/

/-- C88 is false: a tracker can give IPv6 addresses, and they are all refused by `net.Dial` because they are not put in brackets. -/
theorem C88_ipv6_refuted (tp : Tracker.Peer) (h : 58 ∈ tp.ip) (cfg : Cfg) (s : State) (k : Nat) (l : Luck) (hk : s.dialers[k]? = some (tp, true)) (ha : s.alive = true) :
    (step cfg s (.dial k true, l)).peers = s.peers := by
  have hd : dialable tp = none := by
    unfold dialable; rw [if_pos (.inl (by simpa using h))]
  unfold step
  rw [if_neg (by rw [ha]; simp)]
  simp only [act, hk, hd]

/-- The address ::1. -/
example : (58 : UInt8) ∈ b!"::1" ∧ Spec.IsAddress b!"::1" Ex.ip6 := ⟨by decide, (Net.parseIP_iff _ _).1 (by kernel_rfl)⟩

/-- C88 for IPv4: a peer that the tracker gave with an address a.b.c.d and a port below 65536, and that is not blocked, is connected to when dialling succeeds; the connection has that address and port, and
the id that the tracker gave, cut or filled with zeros to 20 bytes. -/
theorem C88_ipv4_partial (tp : Tracker.Peer) (a b c d : UInt8) (h : tp.ip = Spec.dotted a b c d) (hp : 0 ≤ tp.port ∧ tp.port < 65536) (s : State) (k : Nat) (l l' : Luck)
    (hk : s.dialers[k]? = some (tp, false)) (ha : s.alive = true) (hl : s.locked = false)
    (hb : Spec.dotted a b c d ++ b!":" ++ Spec.decInt tp.port ∉ s.blockedPeers) :
    ∃ p, (run cfg s [(.dialCheck k, l), (.dial k true, l')]).peers = s.peers ++ [p] ∧ p.ip = Spec.mapped a b c d ∧ (p.port : Int) = tp.port ∧
      p.id = (tp.id ++ List.replicate 20 0).take 20 ∧ p.phase = .fresh ∧ p.closed = false := by
  rw [Bencode.decInt_eq] at hb
  have hd : dialable tp = some (Spec.mapped a b c d, tp.port.toNat) := dialable_dotted h (by omega) (by omega)
  have hr : remoteAddr tp = .ok (Spec.dotted a b c d ++ b!":" ++ intDec tp.port) := by
    unfold remoteAddr
    rw [h, Net.parseIP_dotted, ← Net.ipv4String_eq]
    rfl
  have h1 : step cfg s (.dialCheck k, l) = { s with dialers := s.dialers.set k (tp, true) } := by
    unfold step
    rw [if_neg (by rw [ha]; simp)]
    simp only [act, hk, hr, hl, if_neg hb, Bool.false_eq_true, if_false]
  have hid := copyID_eq tp.id
  refine ⟨newConn cfg (copyID tp.id) (Spec.mapped a b c d) tp.port.toNat, ?_, rfl, by show (tp.port.toNat : Int) = tp.port; omega, hid, rfl, rfl⟩
  show (step cfg (step cfg s (.dialCheck k, l)) (.dial k true, l')).peers = _
  rw [h1]
  unfold step
  rw [if_neg (by simp [ha])]
  have hk' : (s.dialers.set k (tp, true))[k]? = some (tp, true) := List.getElem?_set_self (List.getElem?_eq_some_iff.1 hk).1
  simp only [act, hk', hd]

/-- C88: and what is no port is not dialled. -/
theorem C88_port_partial (tp : Tracker.Peer) (hp : tp.port < 0 ∨ 65535 < tp.port) (s : State) (k : Nat) (b : Bool) (l : Luck) (hk : s.dialers[k]? = some (tp, true)) (ha : s.alive = true) :
    (step cfg s (.dial k b, l)).peers = s.peers := by
  have hd : dialable tp = none := by unfold dialable; rw [if_pos (by simp; omega)]
  unfold step
  rw [if_neg (by rw [ha]; simp)]
  cases b <;> simp only [act, hk, hd]

/-- A tracker gives 10.0.0.1:5000 with a short id, and then 10.0.0.1:65536. -/
example : (run Ex.cfg (init Ex.nothing) (Ex.fine [.addPeer ⟨[1, 2], b!"10.0.0.1", 5000⟩, .takeAddr, .spawn, .dialCheck 0, .dial 0 true])).peers.map (fun c => (c.id, c.ip, c.port)) =
      [([1, 2, 0, 0, 0, 0, 0, 0, 0, 0, 0, 0, 0, 0, 0, 0, 0, 0, 0, 0], Ex.ip 1, 5000)] ∧
    (run Ex.cfg (init Ex.nothing) (Ex.fine [.addPeer ⟨[], b!"10.0.0.1", 65536⟩, .takeAddr, .spawn, .dialCheck 0])).dialers = [(⟨[], b!"10.0.0.1", 65536⟩, true)] ∧
    (run Ex.cfg (init Ex.nothing) (Ex.fine [.addPeer ⟨[], b!"10.0.0.1", 65536⟩, .takeAddr, .spawn, .dialCheck 0, .dial 0 true])).peers = [] := ⟨by kernel_rfl, by kernel_rfl, by kernel_rfl⟩

/-! ### C89 -/

/-- C89 is false: a connection that is refused is not closed. (Somebody connects and asks for another torrent.) -/
theorem C89_refuted : ¬ ∀ (es : List (Event × Luck)) (r : Ref) (c : Conn), (run Ex.cfg (init Ex.nothing) es).peers[r]? = some c → c.phase = .ended → c.closed = true := by
  intro h
  let es := Ex.fine [.accept (Ex.ip 1) 5000, .check 0, .handshake 0 ⟨[Handshake.encode ⟨List.replicate 20 9, Ex.id' 2⟩], .eof⟩]
  have hr : (run Ex.cfg (init Ex.nothing) es).peers[0]?.map (fun c => (c.phase, c.closed)) = some (.ended, false) := by kernel_rfl
  cases hc : (run Ex.cfg (init Ex.nothing) es).peers[0]? with
  | none => rw [hc] at hr; cases hr
  | some c =>
    rw [hc] at hr
    injection hr with hr
    have h1 := h es 0 c hc (congrArg Prod.fst hr)
    rw [show c.closed = false from congrArg Prod.snd hr] at h1
    cases h1

/-- C89 for connections that were served: when the goroutine has ended the connection is closed. -/
theorem C89_served_partial (hu : Usable cfg.store) (hf : FilesOK cfg.store.info) (es0 : List (Storage.Event × List Fate)) (es : List (Event × Luck)) {c : Conn}
    (hc : (run cfg (init (Storage.run cfg.store es0 World.empty)) es).peers[r]? = some c) {m : Message} (hm : c.sent[0]? = some m) (ht : m.typ = BITFIELD) (hp : c.phase = .ended) :
    c.closed = true :=
  (store_run' hu hf es0 es).ended r c m hc hm ht hp

example : (run Ex.cfg (init Ex.nothing) (Ex.fine (Ex.joins 0 1 (Ex.id' 2) ++ [.fails 0, .leave 0]))).peers[0]?.map (fun c => (c.sent.map (·.typ), c.phase, c.closed)) =
    some ([BITFIELD], .ended, true) := by kernel_rfl

/-- Only connections that were registered are closed. -/
def OnlyRegistered (s : State) : Prop := ∀ (x : Ref) (c : Conn), s.peers[x]? = some c → c.closed = true → c.registered = true

theorem OnlyRegistered.small {s s' : State} {may : May} (hq : OnlyRegistered s) (hd : ∀ x, may.drop x → Registered s x) (h : Small cfg may s s') : OnlyRegistered s' := by
  intro x c hc hcl
  cases h with
  | new id ip port _ =>
    rw [List.getElem?_append] at hc
    split at hc
    · exact hq x c hc hcl
    · rw [List.getElem?_singleton] at hc
      split at hc
      · injection hc with hc; subst hc; cases hcl
      · cases hc
  | upd y a b h1 h2 =>
    rcases set_cases hc with ⟨rfl, rfl⟩ | ⟨_, hc⟩
    · rw [Registered.change h2]
      cases h2 with
      | close h =>
        obtain ⟨d, hd, hr⟩ := hd _ h
        rw [h1] at hd; injection hd with hd; subst hd; exact hr
      | _ => exact hq x a h1 hcl
    · exact hq x c hc hcl
  | upload y a q d f h0 h1 h2 =>
    rcases set_cases hc with ⟨rfl, rfl⟩ | ⟨_, hc⟩
    · exact hq x a h1 hcl
    · exact hq x c hc hcl
  | join y a ms ph h0 h1 =>
    rcases set_cases hc with ⟨rfl, rfl⟩ | ⟨_, hc⟩
    · rfl
    · exact hq x c hc hcl
  | _ => exact hq x c hc hcl

theorem OnlyRegistered.step {s : State} (hq : OnlyRegistered s) (hi : Inv cfg s) (e : Event × Luck) : OnlyRegistered (step cfg s e) := by
  by_cases hd : ∀ x, (mayOf cfg s e.1).drop x → Registered s x
  · have : Smalls cfg (mayOf cfg s e.1) s (P2P.step cfg s e) := step_small e hi.pendOK
    generalize P2P.step cfg s e = s' at this
    refine (?_ : OnlyRegistered s' ∧ ∀ x, (mayOf cfg s e.1).drop x → Registered s' x).1
    induction this with
    | refl => exact ⟨hq, hd⟩
    | tail _ h ih => exact ⟨ih.1.small ih.2 h, fun x hx => Registered.small h (ih.2 x hx)⟩
  · -- only a `leave` of a connection that does not leave, which is nothing
    have : ∃ x, (mayOf cfg s e.1).drop x ∧ ¬ Registered s x := Classical.byContradiction fun h => hd fun x hx => Classical.byContradiction fun h' => h ⟨x, hx, h'⟩
    obtain ⟨x, hx, hn⟩ := this
    rcases hx with hx | ⟨k, i, _, hj⟩ | ⟨_, k, hk⟩
    · obtain ⟨e, l⟩ := e
      simp only at hx; subst hx
      have ha : at_ s x .leaving = false := by
        cases ha : at_ s x .leaving with
        | false => rfl
        | true =>
          exfalso; apply hn
          unfold at_ at ha
          cases hc : s.peers[x]? with
          | none => rw [hc] at ha; simp at ha
          | some c =>
            rw [hc] at ha
            exact ⟨c, hc, ((hi.conn x c hc).serving (.inr (by simpa using ha))).1⟩
      have : P2P.step cfg s (.leave x, l) = s := by
        unfold P2P.step
        simp only [act, ha]
        split <;> rfl
      rw [this]; exact hq
    · exact absurd (hi.refs x (.inr (.inr ⟨_, List.mem_of_getElem? hj, rfl⟩))) hn
    · obtain ⟨c, hc, _, hr⟩ := hi.entry k x hk
      exact absurd ⟨c, hc, hr⟩ hn

theorem onlyRegistered_run (w : World) (es : List (Event × Luck)) : OnlyRegistered (run cfg (init w) es) := by
  have : ∀ (es : List (Event × Luck)) (s : State), OnlyRegistered s → Inv cfg s → OnlyRegistered (run cfg s es) := by
    intro es
    induction es with
    | nil => intro s h _; exact h
    | cons e es ih => intro s h hi; exact ih _ (h.step hi e) (hi.step e)
  exact this es _ (fun x c h => by simp [init] at h) (Inv.init w)

/-- The goroutine of the connection has ended and the connection was not registered. -/
def Spurned (x : Ref) (s : State) : Prop := ∃ c, s.peers[x]? = some c ∧ c.phase = .ended ∧ c.registered = false

theorem Spurned.small {s s' : State} {may : May} {x : Ref} (hq : Spurned x s) (h : Small cfg may s s') : Spurned x s' := by
  obtain ⟨d, hd, hp, hr⟩ := hq
  cases h with
  | new id ip port _ => exact ⟨d, by rw [List.getElem?_append_left (List.getElem?_eq_some_iff.1 hd).1]; exact hd, hp, hr⟩
  | upd y a b h1 h2 =>
    rcases set_get (c' := b) h1 hd with ⟨_, e, h⟩ | ⟨_, h⟩
    · subst e
      refine ⟨b, h, ?_, (Registered.change h2).trans hr⟩
      cases h2 with
      | phase ph _ _ hok =>
        cases ph with
        | ended => rfl
        | serving p => cases p <;> simp [PhaseOK, hp] at hok
        | _ => simp [PhaseOK, hp] at hok
      | receive m rd rd' _ h1 => rw [hp] at h1; cases h1
      | _ => exact hp
    · exact ⟨d, h, hp, hr⟩
  | upload y a q dd f h0 h1 h2 =>
    rcases set_get (c' := a.gave q dd) h1 hd with ⟨_, e, h⟩ | ⟨_, h⟩
    · subst e; exact ⟨_, h, hp, hr⟩
    · exact ⟨d, h, hp, hr⟩
  | join y a ms ph h0 h1 h2 =>
    rcases set_get (c' := a.join ms ph) h1 hd with ⟨_, e, h⟩ | ⟨_, h⟩
    · subst e; rw [hp] at h2; cases h2
    · exact ⟨d, h, hp, hr⟩
  | _ => exact ⟨d, hd, hp, hr⟩

theorem Spurned.run {s : State} {x : Ref} (h : Spurned x s) (hi : Inv cfg s) (es : List (Event × Luck)) : Spurned x (run cfg s es) := by
  induction es generalizing s with
  | nil => exact h
  | cons e es ih =>
    refine ih ?_ (hi.step e)
    have : Smalls cfg (mayOf cfg s e.1) s (P2P.step cfg s e) := step_small e hi.pendOK
    generalize P2P.step cfg s e = s' at this
    clear ih
    induction this with
    | refl => exact h
    | tail _ h' ih => exact ih.small h'

/-- C89 for the other connections, the converse: a connection that has ended without having been registered (`Connect` refused it, before or after the handshake) is not closed, and whatever happens
afterwards, `Stop` included, it is never closed. Missing: that it is closed. -/
theorem C89_refused_partial (w : World) (es es' : List (Event × Luck)) {c : Conn} (hc : (run cfg (init w) es).peers[r]? = some c) (hp : c.phase = .ended) (hn : c.registered = false) :
    ∃ c', (run cfg (init w) (es ++ es')).peers[r]? = some c' ∧ c'.phase = .ended ∧ c'.closed = false := by
  have h : Spurned r (run cfg (run cfg (init w) es) es') := Spurned.run ⟨c, hc, hp, hn⟩ (inv_run w es) es'
  rw [← run_append] at h
  obtain ⟨d, hd, h1, h2⟩ := h
  refine ⟨d, hd, h1, ?_⟩
  cases hcl : d.closed with
  | false => rfl
  | true => rw [onlyRegistered_run w _ r d hd hcl] at h2; cases h2

/-- Somebody connects and asks for another torrent; then the client is stopped. -/
example : (run Ex.cfg (init Ex.nothing) (Ex.fine [.accept (Ex.ip 1) 5000, .check 0, .handshake 0 ⟨[Handshake.encode ⟨List.replicate 20 9, Ex.id' 2⟩], .eof⟩])).peers[0]?.map
      (fun c => (c.phase, c.registered)) = some (.ended, false) ∧
    (run Ex.cfg (init Ex.nothing) (Ex.fine [.accept (Ex.ip 1) 5000, .check 0, .handshake 0 ⟨[Handshake.encode ⟨List.replicate 20 9, Ex.id' 2⟩], .eof⟩, .cancel, .stop])).peers[0]?.map
      (fun c => (c.phase, c.closed)) = some (.ended, false) := ⟨by kernel_rfl, by kernel_rfl⟩

/-! ### C91 -/

/-- C91 is false: a piece that arrives although it was not requested is not announced. (Peers 0 and 1 are connected; peer 1 sends piece 1, and nothing is being downloaded.) -/
theorem C91_unsolicited_refuted : (run Ex.cfg (init Ex.nothing) (Ex.fine (Ex.joins 0 1 (Ex.id' 2) ++ Ex.joins 1 2 (Ex.id' 3) ++ Ex.gets 1 (pieceMsg 1 0 [5, 6])))).storage.mem.map (fun m => (decide (Reported m 1), m.bitfield)) =
      some (true, [64]) ∧
    (run Ex.cfg (init Ex.nothing) (Ex.fine (Ex.joins 0 1 (Ex.id' 2) ++ Ex.joins 1 2 (Ex.id' 3) ++ Ex.gets 1 (pieceMsg 1 0 [5, 6])))).jobs = [] ∧
    (run Ex.cfg (init Ex.nothing) (Ex.fine (Ex.joins 0 1 (Ex.id' 2) ++ Ex.joins 1 2 (Ex.id' 3) ++ Ex.gets 1 (pieceMsg 1 0 [5, 6])))).peers[0]?.map (fun c => (c.phase, c.sent)) = some (.serving none, [bitfieldMsg [0]]) :=
  ⟨by kernel_rfl, by kernel_rfl, by kernel_rfl⟩

/-- Two peers are connected, and a third one that has piece 0 and sends it; then `ok` says which writes succeed. -/
def Ex.unlucky (ok : Ref → Bool) : List (Event × Luck) :=
  Ex.fine (Ex.joins 0 1 (Ex.id' 2) ++ Ex.joins 1 2 (Ex.id' 3) ++ Ex.joins 2 3 (Ex.id' 4) ++ Ex.gets 2 (have_ 0) ++ Ex.gets 2 PeerWire.unchoke ++ [.select 0, .begin 0] ++ Ex.gets 2 (pieceMsg 0 0 [1, 2, 3, 4])) ++
    [(.finish 0 .complete, { ok := ok })]

/-- C91 is false: when one write fails the remaining peers are not told. -/
theorem C91_write_refuted : (run Ex.cfg (init Ex.nothing) (Ex.unlucky fun r => r != 2)).storage.mem.map (fun m => decide (Reported m 0)) = some true ∧
    (run Ex.cfg (init Ex.nothing) (Ex.unlucky fun r => r != 2)).peers[1]?.map (fun c => (c.phase, c.sent)) = some (.serving none, [bitfieldMsg [0]]) :=
  ⟨by kernel_rfl, by kernel_rfl⟩

/-- Otherwise they are. -/
example : (run Ex.cfg (init Ex.nothing) (Ex.unlucky fun _ => true)).peers[1]?.map (fun c => (c.phase, c.sent)) = some (.serving none, [bitfieldMsg [0], have_ 0]) := by kernel_rfl

theorem sendHave_all (oks : Ref → Bool) (hok : ∀ x, oks x = true) (i : Nat) : ∀ (rs : List Ref) (s : State), rs.Nodup → (∀ r ∈ rs, ∃ c : Conn, s.peers[r]? = some c) →
    ∃ s', sendHave oks i rs s = (.ok (), s') ∧ ∀ (x : Ref) (c : Conn), s.peers[x]? = some c →
      s'.peers[x]? = some (if x ∈ rs ∧ c.closed = false then { c with sent := c.sent ++ [have_ i] } else c)
  | [], s, _, _ => ⟨s, rfl, fun x c hc => by simpa using hc⟩
  | r :: rs, s, hn, hr => by
    obtain ⟨c, hc⟩ := hr r (List.mem_cons_self ..)
    obtain ⟨hn1, hn2⟩ := List.nodup_cons.1 hn
    unfold sendHave
    rw [bind_apply, getConn_some hc]
    simp only []
    by_cases hcl : c.closed = true
    · rw [if_pos hcl]
      obtain ⟨s', h1, h2⟩ := sendHave_all oks hok i rs s hn2 fun x hx => hr x (List.mem_cons_of_mem _ hx)
      refine ⟨s', h1, fun x d hd => ?_⟩
      rw [h2 x d hd]
      by_cases hx : x = r
      · subst hx; rw [hc] at hd; cases hd; simp [hcl]
      · simp [hx]
    · rw [if_neg hcl, bind_apply]
      have hcl' : c.closed = false := by simpa using hcl
      have hsend : send (oks r) r (have_ i) s = (.ok (), { s with peers := s.peers.set r { c with sent := c.sent ++ [have_ i] } }) := by
        unfold send
        rw [bind_apply, getConn_some hc]
        simp only []
        rw [if_neg (fun h => absurd (show HAVE = REQUEST from h.1) (by decide)), if_pos ⟨hok r, by rw [hcl']; rfl⟩, setConn_apply, modify_some hc]
      rw [hsend]
      simp only []
      obtain ⟨s', h1, h2⟩ := sendHave_all oks hok i rs { s with peers := s.peers.set r { c with sent := c.sent ++ [have_ i] } } hn2 fun x hx => by
        obtain ⟨d, hd⟩ := hr x (List.mem_cons_of_mem _ hx)
        have hne : r ≠ x := fun e => hn1 (e ▸ hx)
        exact ⟨d, by rw [List.getElem?_set_ne hne]; exact hd⟩
      refine ⟨s', h1, fun x d hd => ?_⟩
      by_cases hx : x = r
      · subst hx
        rw [hc] at hd; cases hd
        rw [h2 x _ (List.getElem?_set_self (List.getElem?_eq_some_iff.1 hc).1)]
        simp [hn1, hcl']
      · rw [h2 x d (by rw [List.getElem?_set_ne (Ne.symm hx)]; exact hd)]
        simp [hx]

/-- C91 for pieces that were downloaded from a peer, if the writes succeed: when the download of a piece is complete, every connection in the table that is open is sent a HAVE for it. -/
theorem C91_have_partial (w : World) (es : List (Event × Luck)) (k : Nat) (l : Luck) (y : Ref) (i : Nat) (ha : (run cfg (init w) es).alive = true) (hl : (run cfg (init w) es).locked = false)
    (hj : (run cfg (init w) es).jobs[k]? = some ⟨y, i, .running⟩) (m : Storage.Mem) (hm : (run cfg (init w) es).storage.mem = some m)
    (hr : Storage.PieceResult m i none) (hok : ∀ x, l.ok x = true) (key : Bytes) {c : Conn}
    (hk : (key, r) ∈ (run cfg (init w) es).activePeers) (hc : (run cfg (init w) es).peers[r]? = some c) (hcl : c.closed = false) :
    (step cfg (run cfg (init w) es) (.finish k .complete, l)).peers[r]? = some { c with sent := c.sent ++ [have_ i] } := by
  have hi := inv_run (cfg := cfg) w es
  replace hr := canReturn_complete hm hr
  generalize run cfg (init w) es = s at *
  have hnd : (s.activePeers.map (·.2)).Nodup := by
    have hkeys : (s.activePeers.map (·.1)).Nodup := hi.keys
    have : s.activePeers.map (·.1) = (s.activePeers.map (·.2)).map fun x => ((s.peers[x]?).map Conn.idip).getD [] := by
      rw [List.map_map]
      refine List.map_congr_left fun e he => ?_
      obtain ⟨d, hd, hd', _⟩ := hi.entry e.1 e.2 he
      simp [hd, hd']
    rw [this] at hkeys
    exact List.Pairwise.of_map _ (fun a b h e => h (by rw [e])) hkeys
  have hperm := arrange_perm l.order (s.activePeers.map (·.2))
  obtain ⟨s', h1, h2⟩ := sendHave_all l.ok hok i (arrange l.order (s.activePeers.map (·.2))) s (hperm.nodup_iff.2 hnd) fun x hx => by
    obtain ⟨e, he, rfl⟩ := List.mem_map.1 (hperm.mem_iff.1 hx)
    obtain ⟨d, hd, _⟩ := hi.entry e.1 e.2 he
    exact ⟨d, hd⟩
  have hs : s = { s with locked := false } := by cases s; simp only at hl; subst hl; rfl
  have hfin : finish l.ok l.order y i .complete s = (.ok (), s') := by
    unfold finish Act.attempt
    simp only [bind_apply, Act.lock, hl, Bool.false_eq_true, if_false, Act.unlock, modify_apply, get_apply]
    rw [← hs, h1]
  unfold step
  rw [if_neg (by rw [ha]; simp)]
  simp only [act, hj, hr, if_true, hfin]
  rw [h2 r c hc, if_pos ⟨hperm.mem_iff.2 (List.mem_map.2 ⟨(key, r), hk, rfl⟩), hcl⟩]

/-- The write succeeds, or is not tried because the connection is closed. -/
def reaches (s : State) (oks : Ref → Bool) (x : Ref) : Bool := oks x || ((s.peers[x]?).map (·.closed)).getD false

theorem sendHave_exact (oks : Ref → Bool) (i : Nat) : ∀ (rs : List Ref) (s : State), rs.Nodup → (∀ r ∈ rs, ∃ c : Conn, s.peers[r]? = some c) →
    ∃ res s', sendHave oks i rs s = (res, s') ∧ (res = .ok () ∨ res = .err .conn) ∧ ∀ (x : Ref) (c : Conn), s.peers[x]? = some c →
      s'.peers[x]? = some (if x ∈ rs.takeWhile (reaches s oks) ∧ c.closed = false then { c with sent := c.sent ++ [have_ i] } else c)
  | [], s, _, _ => ⟨_, s, rfl, .inl rfl, fun x c hc => by simpa using hc⟩
  | r :: rs, s, hn, hr => by
    obtain ⟨c, hc⟩ := hr r (List.mem_cons_self ..)
    obtain ⟨hn1, hn2⟩ := List.nodup_cons.1 hn
    unfold sendHave
    rw [bind_apply, getConn_some hc]
    simp only []
    by_cases hcl : c.closed = true
    · rw [if_pos hcl]
      obtain ⟨res, s', h1, h1', h2⟩ := sendHave_exact oks i rs s hn2 fun x hx => hr x (List.mem_cons_of_mem _ hx)
      refine ⟨res, s', h1, h1', fun x d hd => ?_⟩
      rw [h2 x d hd, List.takeWhile_cons_of_pos (by simp [reaches, hc, hcl])]
      by_cases hx : x = r
      · subst hx; rw [hc] at hd; cases hd; simp [hcl]
      · simp [hx]
    · rw [if_neg hcl, bind_apply]
      have hcl' : c.closed = false := by simpa using hcl
      cases ho : oks r with
      | false =>
        have hsend : send (oks r) r (have_ i) s = (.err .conn, s) := by
          unfold send
          rw [bind_apply, getConn_some hc]
          simp only []
          rw [if_neg (fun h => absurd (show HAVE = REQUEST from h.1) (by decide)), if_neg (by simp [ho])]
          rfl
        rw [← ho, hsend]
        refine ⟨_, s, rfl, .inr rfl, fun x d hd => ?_⟩
        rw [List.takeWhile_cons_of_neg (by simp [reaches, hc, hcl', ho])]
        simpa using hd
      | true =>
        have hsend : send (oks r) r (have_ i) s = (.ok (), { s with peers := s.peers.set r { c with sent := c.sent ++ [have_ i] } }) := by
          unfold send
          rw [bind_apply, getConn_some hc]
          simp only []
          rw [if_neg (fun h => absurd (show HAVE = REQUEST from h.1) (by decide)), if_pos ⟨ho, by rw [hcl']; rfl⟩, setConn_apply, modify_some hc]
        rw [← ho, hsend]
        simp only []
        obtain ⟨res, s', h1, h1', h2⟩ := sendHave_exact oks i rs { s with peers := s.peers.set r { c with sent := c.sent ++ [have_ i] } } hn2 fun x hx => by
          obtain ⟨d, hd⟩ := hr x (List.mem_cons_of_mem _ hx)
          have hne : r ≠ x := fun e => hn1 (e ▸ hx)
          exact ⟨d, by rw [List.getElem?_set_ne hne]; exact hd⟩
        have hsame : ∀ l : List Ref, r ∉ l → l.takeWhile (reaches { s with peers := s.peers.set r { c with sent := c.sent ++ [have_ i] } } oks) = l.takeWhile (reaches s oks) := by
          intro l hl
          induction l with
          | nil => rfl
          | cons z l ih =>
            have hz : r ≠ z := fun e => hl (e ▸ List.mem_cons_self)
            have hp : reaches { s with peers := s.peers.set r { c with sent := c.sent ++ [have_ i] } } oks z = reaches s oks z := by
              unfold reaches
              simp only [List.getElem?_set_ne hz]
            simp only [List.takeWhile_cons, hp, ih fun h => hl (List.mem_cons_of_mem _ h)]
        rw [hsame rs hn1] at h2
        refine ⟨res, s', h1, h1', fun x d hd => ?_⟩
        rw [List.takeWhile_cons_of_pos (by simp [reaches, ho])]
        by_cases hx : x = r
        · subst hx
          rw [hc] at hd; cases hd
          rw [h2 x _ (List.getElem?_set_self (List.getElem?_eq_some_iff.1 hc).1)]
          have : x ∉ rs.takeWhile (reaches s oks) := fun h => hn1 ((List.takeWhile_prefix _).subset h)
          simp [this, hcl']
        · rw [h2 x d (by rw [List.getElem?_set_ne (Ne.symm hx)]; exact hd)]
          simp [hx]

/-- C91, exactly who is told when a download is complete and writes may fail: the connections of the table are gone through in some order, closed ones are passed over, and all up to the first whose write
fails are sent a HAVE for the piece; no other connection is sent anything. Missing: those after the first failure, and pieces that were not downloaded. -/
theorem C91_exactly_partial (w : World) (es : List (Event × Luck)) (k : Nat) (l : Luck) (y : Ref) (i : Nat) (ha : (run cfg (init w) es).alive = true) (hl : (run cfg (init w) es).locked = false)
    (hj : (run cfg (init w) es).jobs[k]? = some ⟨y, i, .running⟩) (m : Storage.Mem) (hm : (run cfg (init w) es).storage.mem = some m) (hr : Storage.PieceResult m i none) :
    ∃ rs : List Ref, rs.Perm ((run cfg (init w) es).activePeers.map (·.2)) ∧ ∀ (r : Ref) (c : Conn), (run cfg (init w) es).peers[r]? = some c →
      (step cfg (run cfg (init w) es) (.finish k .complete, l)).peers[r]? = some (if c.closed = false ∧ r ∈ rs.takeWhile (fun x => l.ok x || (((run cfg (init w) es).peers[x]?).map (·.closed)).getD false) then
        { c with sent := c.sent ++ [have_ i] } else c) := by
  have hi := inv_run (cfg := cfg) w es
  replace hr := canReturn_complete hm hr
  generalize run cfg (init w) es = s at *
  have hnd : (s.activePeers.map (·.2)).Nodup := by
    have hkeys : (s.activePeers.map (·.1)).Nodup := hi.keys
    have : s.activePeers.map (·.1) = (s.activePeers.map (·.2)).map fun x => ((s.peers[x]?).map Conn.idip).getD [] := by
      rw [List.map_map]
      refine List.map_congr_left fun e he => ?_
      obtain ⟨d, hd, hd', _⟩ := hi.entry e.1 e.2 he
      simp [hd, hd']
    rw [this] at hkeys
    exact List.Pairwise.of_map _ (fun a b h e => h (by rw [e])) hkeys
  have hperm := arrange_perm l.order (s.activePeers.map (·.2))
  obtain ⟨res, s', h1, h1', h2⟩ := sendHave_exact l.ok i (arrange l.order (s.activePeers.map (·.2))) s (hperm.nodup_iff.2 hnd) fun x hx => by
    obtain ⟨e, he, rfl⟩ := List.mem_map.1 (hperm.mem_iff.1 hx)
    obtain ⟨d, hd, _⟩ := hi.entry e.1 e.2 he
    exact ⟨d, hd⟩
  have hs : s = { s with locked := false } := by cases s; simp only at hl; subst hl; rfl
  have hfin : finish l.ok l.order y i .complete s = (.ok (), s') := by
    unfold finish Act.attempt
    simp only [bind_apply, Act.lock, hl, Bool.false_eq_true, if_false, Act.unlock, modify_apply, get_apply]
    rw [← hs, h1]
    rcases h1' with rfl | rfl <;> rfl
  refine ⟨_, hperm, fun r c hc => ?_⟩
  unfold step
  rw [if_neg (by rw [ha]; simp)]
  simp only [act, hj, hr, if_true, hfin]
  rw [h2 r c hc]
  unfold reaches
  by_cases h : r ∈ (arrange l.order (s.activePeers.map (·.2))).takeWhile (fun x => l.ok x || ((s.peers[x]?).map (·.closed)).getD false) ∧ c.closed = false
  · rw [if_pos h, if_pos h.symm]
  · rw [if_neg h, if_neg (fun h' => h h'.symm)]

/-- Three peers; the write to the second one fails. The one gone through before it is told, and the one after it is not. -/
example : (run Ex.cfg (init Ex.nothing) (Ex.unlucky fun r => r != 1)).peers.map (fun c => (c.closed, c.sent.contains (have_ 0))) = [(false, false), (false, false), (false, true)] := by kernel_rfl

end Drip.P2P
