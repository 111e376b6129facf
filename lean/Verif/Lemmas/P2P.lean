import Verif.Model.P2P
import Verif.Lemmas.Assoc
import Verif.Lemmas.Bitfield
import Verif.Lemmas.StorageLoad
import Mathlib.Logic.Relation
/-
What the actions of /repo/p2p can change.
-/

namespace Drip.P2P
open PeerWire Metainfo
open Storage (Fate World Op runOp getBlock putBlock resetPiece)

/-! ### Running actions -/

theorem bind_apply {α β : Type} (p : Act α) (k : α → Act β) (s : State) :
    (p >>= k) s = match p s with
      | (.ok a, s) => k a s
      | (.err e, s) => (.err e, s)
      | (.panic, s) => (.panic, s)
      | (.crash, s) => (.crash, s)
      | (.stuck, s) => (.stuck, s) := rfl

@[simp] theorem pure_apply {α : Type} (a : α) (s : State) : (pure a : Act α) s = (.ok a, s) := rfl
@[simp] theorem fail_apply {α : Type} (e : Err) (s : State) : (Act.fail e : Act α) s = (.err e, s) := rfl
@[simp] theorem modify_apply (f : State → State) (s : State) : Act.modify f s = (.ok (), f s) := rfl
@[simp] theorem get_apply (s : State) : Act.get s = (.ok s, s) := rfl
@[simp] theorem setConn_apply (r : Ref) (f : Conn → Conn) (s : State) : setConn r f s = (.ok (), { s with peers := s.peers.modify r f }) := rfl

theorem getConn_apply (r : Ref) (s : State) : getConn r s = match s.peers[r]? with | some c => (.ok c, s) | none => (.panic, s) := rfl
theorem getConn_some {r : Ref} {s : State} {c : Conn} (h : s.peers[r]? = some c) : getConn r s = (.ok c, s) := by rw [getConn_apply, h]

/-- Every run of `p` is a step of `R`. -/
def Pres {α : Type} (R : State → State → Prop) (p : Act α) : Prop := ∀ s, R s (p s).2

/-- Reflexive and transitive. -/
structure Pre (R : State → State → Prop) : Prop where
  refl : ∀ s, R s s
  trans : ∀ {a b c}, R a b → R b c → R a c

theorem Pre.gen (R : State → State → Prop) : Pre (Relation.ReflTransGen R) := ⟨fun _ => .refl, fun h1 h2 => h1.trans h2⟩

variable {R : State → State → Prop}

theorem Pres.pure {α : Type} (hR : Pre R) (a : α) : Pres R (pure a : Act α) := fun s => hR.refl s
theorem Pres.fail {α : Type} (hR : Pre R) (e : Err) : Pres R (Act.fail e : Act α) := fun s => hR.refl s
theorem Pres.panic {α : Type} (hR : Pre R) : Pres R (Act.panic : Act α) := fun s => hR.refl s
theorem Pres.stuck {α : Type} (hR : Pre R) : Pres R (Act.stuck : Act α) := fun s => hR.refl s
theorem Pres.get (hR : Pre R) : Pres R Act.get := fun s => hR.refl s
theorem Pres.getConn (hR : Pre R) (r : Ref) : Pres R (getConn r) := fun s => by
  rw [getConn_apply]; cases s.peers[r]? <;> exact hR.refl s
theorem Pres.torrentBitfield (hR : Pre R) : Pres R torrentBitfield := fun s => by
  unfold P2P.torrentBitfield; split <;> exact hR.refl s
theorem Pres.lift {α : Type} (hR : Pre R) (x : Res α) : Pres R (Act.lift x) := fun s => by cases x <;> exact hR.refl s

theorem Pres.bind {α β : Type} (hR : Pre R) {p : Act α} {k : α → Act β} (hp : Pres R p) (hk : ∀ a, Pres R (k a)) : Pres R (p >>= k) := by
  intro s
  rw [bind_apply]
  have := hp s
  split <;> rename_i e <;> rw [e] at this
  · exact hR.trans this (hk _ _)
  all_goals exact this

/-- As `Pres.bind`, for code that begins by reading an object. -/
theorem Pres.bindConn {β : Type} (hR : Pre R) {r : Ref} {k : Conn → Act β} (hk : ∀ s c, s.peers[r]? = some c → R s (k c s).2) : Pres R (P2P.getConn r >>= k) := by
  intro s
  rw [bind_apply, getConn_apply]
  cases h : s.peers[r]? with
  | none => exact hR.refl s
  | some c => exact hk s c h

theorem Pres.ite {α : Type} {c : Prop} [Decidable c] {p q : Act α} (hp : Pres R p) (hq : Pres R q) : Pres R (if c then p else q) := by
  split <;> assumption

theorem Pres.attempt (hR : Pre R) {p : Act Unit} (hp : Pres R p) : Pres R (Act.attempt p) := by
  intro s
  have := hp s
  unfold Act.attempt
  split
  · rename_i e; rw [e] at this; exact this
  · exact this

theorem locked_apply {α : Type} (p : Act α) (s : State) : Act.locked p s =
    if s.locked then (.stuck, s) else
      match p { s with locked := true } with
      | (.ok a, s) => (.ok a, { s with locked := false })
      | (.err e, s) => (.err e, { s with locked := false })
      | r => r := by
  unfold Act.locked Act.bind Act.lock
  by_cases h : s.locked
  · simp only [h, if_true]
  · simp only [h]; rfl

theorem Pres.locked {α : Type} (hR : Pre R) {p : Act α} (hl : ∀ s b, R s { s with locked := b }) (hp : Pres R p) : Pres R (Act.locked p) := by
  intro s
  rw [locked_apply]
  by_cases h : s.locked
  · rw [if_pos h]; exact hR.refl s
  · rw [if_neg h]
    refine hR.trans (hl s true) ?_
    have := hp { s with locked := true }
    generalize p { s with locked := true } = x at this
    obtain ⟨o, s'⟩ := x
    cases o with
    | ok a => exact hR.trans this (hl s' false)
    | err e => exact hR.trans this (hl s' false)
    | panic => exact this
    | crash => exact this
    | stuck => exact this

theorem modify_some {α : Type} {l : List α} {r : Nat} {c : α} (h : l[r]? = some c) (f : α → α) : l.modify r f = l.set r (f c) := by
  apply List.ext_getElem?
  intro j
  rw [List.getElem?_modify, List.getElem?_set]
  by_cases e : r = j
  · subst e
    have := (List.getElem?_eq_some_iff.1 h).1
    rw [h]; simp [this]
  · simp [e]

theorem modify_self {α : Type} {l : List α} {r : Nat} {c : α} (h : l[r]? = some c) (f : α → α) : (l.modify r f)[r]? = some (f c) := by
  rw [modify_some h, List.getElem?_set_self (List.getElem?_eq_some_iff.1 h).1]

theorem modify_none {α : Type} {l : List α} {r : Nat} (h : l[r]? = none) (f : α → α) : l.modify r f = l := by
  apply List.ext_getElem?
  intro j
  rw [List.getElem?_modify]
  by_cases e : r = j
  · subst e; simp [h]
  · simp [e]

/-! ### The small changes that steps are made of -/

/-- What a step may do, besides changes that are always possible. -/
structure May where
  send : Ref → Message → Prop := fun _ _ => False
  upload : Ref → Message → Prop := fun _ _ => False
  remote : Ref → Prop := fun _ => False
  phase : Ref → Prop := fun _ => False
  handle : Ref → Prop := fun _ => False
  cancels : Ref → Prop := fun _ => False
  queue : Ref → Prop := fun _ => False
  drop : Ref → Prop := fun _ => False
  block : Ref → Prop := fun _ => False
  addrs : Prop := False
  jobs : Prop := False
  stop : Prop := False
  fresh : Bytes → Bytes → Nat → Prop := fun _ _ _ => False
  shake : Ref → Handshake → Prop := fun _ _ => False
  pieces : Ref → Nat → Prop := fun _ _ => False
  put : Int → Int → Bytes → Prop := fun _ _ _ => False

/-- The message says that its sender has piece `i`. -/
def Announces (m : Message) (i : Nat) : Prop := (m.typ = HAVE ∧ m.index = i) ∨ (m.typ = BITFIELD ∧ Bitfield.bit m.bitfield i = true)

/-- When the goroutine of a connection can move to a phase. -/
def PhaseOK (cfg : Cfg) (c : Conn) : Phase → Prop
  | .fresh => False
  | .checked => c.phase = .fresh
  | .shaken => c.phase = .checked ∧ ∃ hs, c.shook = some hs ∧ hs.infoHash = cfg.store.info.sha1 ∧ c.id = hs.peerID ∧ c.id ≠ cfg.peerID
  | .serving none => ∃ p, c.phase = .serving p
  | .serving (some _) => False
  | .leaving => ∃ p, c.phase = .serving p
  | .ended => c.phase ≠ .hung ∧ (∀ p, c.phase ≠ .serving p) ∧ (c.phase = .leaving → c.closed = true)
  | .hung => c.phase ≠ .ended

/-- A change of the object of connection `r`. -/
inductive Change (cfg : Cfg) (may : May) (s : State) (r : Ref) : Conn → Conn → Prop
  | phase (c : Conn) (ph : Phase) : may.phase r → (∀ m, c.phase = .serving (some m) → may.handle r) → PhaseOK cfg c ph → Change cfg may s r c { c with phase := ph }
  | shake (c : Conn) (hs : Handshake) : c.phase = .checked → may.shake r hs → Change cfg may s r c { c with shook := some hs }
  | ident (c : Conn) (hs : Handshake) : c.phase = .checked → c.shook = some hs → hs.infoHash = cfg.store.info.sha1 →
      (c.id ≠ zeroID → c.id = hs.peerID) → Change cfg may s r c { c with id := hs.peerID }
  | close (c : Conn) : may.drop r → Change cfg may s r c { c with closed := true }
  | flags (c : Conn) (choked interested remoteInterested : Bool) (downloaded : Int) :
      Change cfg may s r c { c with choked, interested, remoteInterested, downloaded }
  | cancels (c : Conn) (canceled : List Req) : may.cancels r → Change cfg may s r c { c with canceled }
  | pieces (c : Conn) (bf : Bytes) : bf.length = c.bitfield.length → (∀ i, Bitfield.bit c.bitfield i = true → Bitfield.bit bf i = true) →
      (∀ i, Bitfield.bit bf i = true → Bitfield.bit c.bitfield i = true ∨ may.pieces r i) →
      Change cfg may s r c { c with bitfield := bf }
  | send (c : Conn) (m : Message) : may.send r m → c.closed = false → (m.typ = REQUEST → c.remoteChoked = false) → Change cfg may s r c { c with sent := c.sent ++ [m] }
  | remote (c : Conn) (b : Bool) : may.remote r → Change cfg may s r c { c with remoteChoked := b }
  | receive (c : Conn) (m : Message) (rd rd' : Rd) : may.phase r → c.phase = .serving none → c.closed = false → Message.decode rd = .ok (m, rd') →
      Change cfg may s r c { c with phase := .serving (some m), received := c.received ++ [m] }

/-- The object of a connection after a PIECE was sent. -/
def Conn.gave (c : Conn) (q : Message) (d : Bytes) : Conn :=
  { c with sent := c.sent ++ [pieceMsg q.index q.begin d], uploaded := c.uploaded + d.length }

/-- The object of a connection after `Connect` has registered it. -/
def Conn.join (c : Conn) (ms : List Message) (ph : Phase) : Conn :=
  { c with registered := true, sent := c.sent ++ ms, phase := ph }

/-- What follows the registration of a connection: the bitfield is sent, or not. -/
def JoinOK (s : State) (c : Conn) (ms : List Message) (ph : Phase) : Prop :=
  (ms = [] ∧ (ph = .ended ∨ ph = .hung)) ∨ (c.closed = false ∧ ph = .serving none ∧ ∃ m, s.storage.mem = some m ∧ ms = [bitfieldMsg m.bitfield])

/-- A small change of the state. -/
inductive Small (cfg : Cfg) (may : May) : State → State → Prop
  | new (s : State) (id ip : Bytes) (port : Nat) : may.fresh id ip port → Small cfg may s { s with peers := s.peers ++ [newConn cfg id ip port] }
  | upd (s : State) (r : Ref) (c c' : Conn) : s.peers[r]? = some c → Change cfg may s r c c' → Small cfg may s { s with peers := s.peers.set r c' }
  | upload (s : State) (r : Ref) (c : Conn) (q : Message) (d : Bytes) (fates : List Fate) : may.upload r q → s.peers[r]? = some c → c.choked = false → c.closed = false →
      (runOp (getBlock cfg.store q.index q.begin q.length) s.storage fates).1 = .ok d → s.storage.mem ≠ none →
      Small cfg may s { s with
        storage := Storage.step cfg.store s.storage (.get q.index q.begin q.length) fates
        peers := s.peers.set r (c.gave q d)
        uploaded := s.uploaded + d.length }
  | storage (s : State) (e : Storage.Event) (fates : List Fate) : e ≠ .start → s.storage.mem ≠ none → (∀ i b d, e = .put i b d → may.put i b d) → e ≠ .load →
      Small cfg may s { s with storage := Storage.step cfg.store s.storage e fates }
  | record (s : State) (r : Ref) (c : Conn) (i : Nat) : s.peers[r]? = some c → Bitfield.bit c.bitfield i = true → may.pieces r i →
      Small cfg may s { s with indexToPeers := mput s.indexToPeers i (sadd ((mget s.indexToPeers i).getD []) r) }
  | unindex (s : State) (r : Ref) (c : Conn) : may.drop r → s.peers[r]? = some c →
      Small cfg may s { s with indexToPeers := forgetIndexes r s.indexToPeers (Bitfield.items c.bitfield) }
  | join (s : State) (r : Ref) (c : Conn) (ms : List Message) (ph : Phase) : may.phase r → s.peers[r]? = some c → c.phase = .shaken → mget s.activePeers c.idip = none →
      s.activePeers.length < 50 → JoinOK s c ms ph → c.addr ∈ (mget s.knownAddrs c.idip).getD [] →
      Small cfg may s { s with activePeers := mput s.activePeers c.idip r, peers := s.peers.set r (c.join ms ph) }
  | unregister (s : State) (r : Ref) (c : Conn) : may.drop r → s.peers[r]? = some c → Small cfg may s { s with activePeers := mdel s.activePeers c.idip }
  | known (s : State) (a : List (Bytes × List Bytes)) (b : List (Bytes × Bytes)) :
      (∀ (k : Bytes) (x : Ref) (y : Bytes), (k, x) ∈ s.activePeers → y ∈ (mget s.knownAddrs k).getD [] → y ∈ (mget a k).getD []) →
      Small cfg may s { s with knownAddrs := a, knownIDIPs := b }
  | block (s : State) (r : Ref) (c : Conn) : may.block r → s.peers[r]? = some c →
      Small cfg may s { s with blockedPeers := ((mget s.knownAddrs c.idip).getD []).foldl sadd s.blockedPeers }
  | queue (s : State) (q t w : List Ref) : (∀ x ∈ t ++ w, x ∈ s.toRequest ∨ x ∈ s.waiting ∨ (∃ j ∈ s.jobs, j.peer = x) ∨ may.queue x) →
      Small cfg may s { s with queuedPeers := q, toRequest := t, waiting := w }
  | lock (s : State) (b : Bool) : Small cfg may s { s with locked := b }
  | downloaded (s : State) (d : Int) : Small cfg may s { s with downloaded := d }
  | shutdown (s : State) (c q st : Bool) : Small cfg may s { s with cancelled := c, requesting := q, stopped := st }
  | addrs (s : State) (q : List Tracker.Peer) (h : Option Tracker.Peer) (d : List (Tracker.Peer × Bool)) (k : List (Bytes × Tracker.Peer)) : may.addrs →
      Small cfg may s { s with newPeerQueue := q, held := h, dialers := d, knownPeers := k }
  | jobs (s : State) (i : List (Int × Ref)) (j : List Job) : may.jobs → (∀ x ∈ j, (∃ y ∈ s.jobs, y.peer = x.peer) ∨ x.peer ∈ s.toRequest) →
      Small cfg may s { s with inflight := i, jobs := j }
  | die (s : State) : Small cfg may s { s with alive := false }

/-- Any number of small changes. -/
def Smalls (cfg : Cfg) (may : May) : State → State → Prop := Relation.ReflTransGen (Small cfg may)

theorem sm (cfg : Cfg) (may : May) : Pre (Smalls cfg may) := Pre.gen _

variable {cfg : Cfg} {may : May} {r : Ref}

theorem Smalls.one {s s' : State} (h : Small cfg may s s') : Smalls cfg may s s' := .single h

theorem Smalls.upd {s : State} {c : Conn} (hc : s.peers[r]? = some c) (f : Conn → Conn) (h : Change cfg may s r c (f c)) :
    Smalls cfg may s { s with peers := s.peers.modify r f } := by
  rw [modify_some hc]; exact .one (.upd s r c _ hc h)

theorem pres_setConn (f : Conn → Conn) (h : ∀ s c, Change cfg may s r c (f c)) : Pres (Smalls cfg may) (setConn r f) := fun s => by
  rw [setConn_apply]
  cases hc : s.peers[r]? with
  | none => simp only [modify_none hc]; exact (sm ..).refl s
  | some c => exact .upd hc f (h s c)

theorem Smalls.locked {α : Type} {p : Act α} {s : State} (h : Smalls cfg may { s with locked := true } (p { s with locked := true }).2) : Smalls cfg may s (Act.locked p s).2 := by
  rw [locked_apply]
  split
  · exact (sm ..).refl s
  · refine (sm ..).trans (.one (.lock s true)) ?_
    generalize p { s with locked := true } = x at h
    obtain ⟨o, s'⟩ := x
    cases o with
    | ok a => exact (sm ..).trans h (.one (.lock _ false))
    | err a => exact (sm ..).trans h (.one (.lock _ false))
    | panic => exact h
    | crash => exact h
    | stuck => exact h

theorem Smalls.attempt {p : Act Unit} {s : State} (h : Smalls cfg may s (p s).2) : Smalls cfg may s (Act.attempt p s).2 := by
  unfold Act.attempt
  generalize p s = x at h
  obtain ⟨o, s'⟩ := x
  cases o <;> exact h

theorem pres_locked {α : Type} {p : Act α} (hp : Pres (Smalls cfg may) p) : Pres (Smalls cfg may) (Act.locked p) :=
  Pres.locked (sm ..) (fun s b => .one (.lock s b)) hp

theorem pres_send (ok : Bool) {m : Message} (hm : may.send r m) : Pres (Smalls cfg may) (send ok r m) := by
  unfold send
  refine Pres.bindConn (sm ..) fun s c hc => ?_
  split
  · exact (sm ..).refl s
  · rename_i hq
    split
    · rename_i h
      exact .upd hc _ (.send c m hm (by simpa using h.2) (fun e => by
        cases hr : c.remoteChoked with
        | false => rfl
        | true => exact absurd ⟨e, hr⟩ hq))
    · exact (sm ..).refl s

theorem change_flags (s : State) (c : Conn) (choked interested remoteInterested : Bool) : Change cfg may s r c { c with choked, interested, remoteInterested } :=
  .flags c choked interested remoteInterested c.downloaded

theorem pres_interest (ok : Bool) (hm : may.send r PeerWire.interested) : Pres (Smalls cfg may) (interest ok r) := by
  unfold interest
  refine Pres.bind (sm ..) (Pres.getConn (sm ..) r) fun c => ?_
  split
  · exact Pres.bind (sm ..) (pres_setConn _ fun s c => change_flags s c _ _ _) fun _ => pres_send ok hm
  · exact Pres.pure (sm ..) _

theorem pres_notInterest (ok : Bool) (hm : may.send r PeerWire.notInterested) : Pres (Smalls cfg may) (notInterest ok r) := by
  unfold notInterest
  refine Pres.bind (sm ..) (Pres.getConn (sm ..) r) fun c => ?_
  split
  · exact Pres.bind (sm ..) (pres_setConn _ fun s c => change_flags s c _ _ _) fun _ => pres_send ok hm
  · exact Pres.pure (sm ..) _

theorem pres_unchoke (ok : Bool) (hm : may.send r PeerWire.unchoke) : Pres (Smalls cfg may) (unchoke ok r) := by
  unfold unchoke
  refine Pres.bind (sm ..) (Pres.getConn (sm ..) r) fun c => ?_
  split
  · exact Pres.bind (sm ..) (pres_setConn _ fun s c => change_flags s c _ _ _) fun _ => pres_send ok hm
  · exact Pres.pure (sm ..) _

theorem pres_choke_queue (t : List Ref → List Ref) (q : List Ref → List Ref) (ht : ∀ l x, x ∈ t l → x ∈ l ∨ may.queue x) :
    Pres (Smalls cfg may) (Act.modify fun s => { s with toRequest := t s.toRequest, queuedPeers := q s.queuedPeers }) := fun s =>
  .one (.queue s (q s.queuedPeers) (t s.toRequest) s.waiting fun x hx => by
    rcases List.mem_append.1 hx with h | h
    · rcases ht _ _ h with h | h
      · exact .inl h
      · exact .inr (.inr (.inr h))
    · exact .inr (.inl h))

theorem pres_queuePeer (hq : may.queue r) : Pres (Smalls cfg may) (queuePeer r) := by
  unfold queuePeer
  refine Pres.bind (sm ..) (Pres.getConn (sm ..) r) fun c => ?_
  refine Pres.ite (Pres.pure (sm ..) _) ?_
  refine Pres.bind (sm ..) (Pres.get (sm ..)) fun s => ?_
  refine Pres.ite (Pres.pure (sm ..) _) ?_
  refine Pres.bind (sm ..) (pres_choke_queue id (fun q => sadd q r) fun _ _ h => .inl h) fun _ => ?_
  refine Pres.ite (Pres.stuck (sm ..)) (pres_choke_queue (fun l => l ++ [r]) id fun l x h => ?_)
  rcases List.mem_append.1 h with h | h
  · exact .inl h
  · rw [List.mem_singleton] at h; subst h; exact .inr hq

theorem pres_QueuePeer (hq : may.queue r) : Pres (Smalls cfg may) (QueuePeer r) := pres_locked (pres_queuePeer hq)

theorem add_spec {b b' : Bytes} {i : Nat} (h : Bitfield.add b i = .ok b') :
    b'.length = b.length ∧ (∀ j, Bitfield.bit b j = true → Bitfield.bit b' j = true) ∧ Bitfield.bit b' i = true ∧
      ∀ j, Bitfield.bit b' j = true → Bitfield.bit b j = true ∨ j = i := by
  by_cases hi : i < 8 * b.length
  · obtain ⟨x, h1, h2, h3⟩ := Bitfield.add_nat b i hi
    rw [h] at h1
    cases h1
    refine ⟨h2, fun j hj => ?_, ?_, fun j hj => ?_⟩
    · rw [h3, hj]; simp
    · rw [h3]; simp
    · rw [h3] at hj; simpa using hj
  · exfalso
    unfold Bitfield.add at h
    rw [Bitfield.pos_nat] at h
    simp only [] at h
    rw [if_neg (by omega), Int.toNat_natCast, List.getElem?_eq_none (by omega)] at h
    cases h

theorem pres_handleHave (ok : Bool) (i : Nat) (hm : may.send r PeerWire.interested) (hq : may.queue r) (hpc : may.pieces r i) : Pres (Smalls cfg may) (handleHave ok r i) := by
  unfold handleHave
  refine Pres.bindConn (sm ..) fun s c hc => ?_
  rw [bind_apply]
  cases hb : Bitfield.add c.bitfield i with
  | panic => exact (sm ..).refl s
  | err e => exact (sm ..).refl s
  | ok bf =>
    obtain ⟨h1, h2, h3, h4⟩ := add_spec hb
    show Smalls cfg may s (_ : Outcome Unit × State).2
    simp only [Act.lift]
    rw [show (Act.pure bf s) = (Outcome.ok bf, s) from rfl]
    simp only []
    rw [bind_apply, setConn_apply]
    simp only []
    refine (sm ..).trans (Smalls.upd hc (fun c => { c with bitfield := bf }) (.pieces c bf h1 h2 fun j hj => (h4 j hj).imp_right fun h => by rw [h]; exact hpc)) ?_
    rw [bind_apply]
    generalize hs' : ({ s with peers := s.peers.modify r fun c => { c with bitfield := bf } } : State) = s'
    have hc' : s'.peers[r]? = some { c with bitfield := bf } := by
      rw [← hs']; exact modify_self hc _
    have hrec : Smalls cfg may s' (recordIndex i r s').2 := by
      unfold recordIndex
      rw [locked_apply]
      split
      · exact (sm ..).refl s'
      · rw [modify_apply]
        simp only []
        refine (sm ..).trans (.one (.lock s' true)) ((sm ..).trans (.one (.record { s' with locked := true } r _ i hc' h3 hpc)) (.one (.lock _ false)))
    generalize recordIndex i r s' = x at hrec
    obtain ⟨o, s2⟩ := x
    cases o with
    | ok a =>
      refine (sm ..).trans hrec ?_
      refine Pres.bind (sm ..) (Pres.torrentBitfield (sm ..)) (fun bf => ?_) s2
      refine Pres.bind (sm ..) (Pres.lift (sm ..) _) fun b => ?_
      refine Pres.ite ?_ (Pres.pure (sm ..) _)
      exact Pres.bind (sm ..) (pres_QueuePeer hq) fun _ => pres_interest ok hm
    | err e => exact hrec
    | panic => exact hrec
    | crash => exact hrec
    | stuck => exact hrec

theorem pres_handleItems (ok : Bool) (hm : may.send r PeerWire.interested) (hq : may.queue r) : ∀ is : List Nat, (∀ i ∈ is, may.pieces r i) → Pres (Smalls cfg may) (handleItems ok r is)
  | [], _ => Pres.pure (sm ..) _
  | i :: is, h => Pres.bind (sm ..) (pres_handleHave ok i hm hq (h i (List.mem_cons_self ..))) fun _ => pres_handleItems ok hm hq is fun j hj => h j (List.mem_cons_of_mem _ hj)

theorem store_state {α : Type} (fates : List Fate) (p : Op α) (s : State) : (Act.store fates p s).2 = { s with storage := (runOp p s.storage fates).2 } := by
  unfold Act.store
  generalize runOp p s.storage fates = x
  obtain ⟨o, w⟩ := x
  cases o <;> rfl

theorem runOp_dead {α : Type} (p : Op α) (w : World) (fates : List Fate) (h : w.mem = none) : runOp p w fates = (.crash, w) := by
  unfold runOp; rw [h]

theorem pres_store {α : Type} (fates : List Fate) (p : Op α) (e : Storage.Event) (hs : e ≠ .start) (he : ∀ w, (runOp p w fates).2 = Storage.step cfg.store w e fates)
    (hp : ∀ i b d, e = .put i b d → may.put i b d) (hld : e ≠ .load := by simp) : Pres (Smalls cfg may) (Act.store fates p) := by
  intro s
  rw [store_state]
  cases hm : s.storage.mem with
  | none => rw [runOp_dead _ _ _ hm]; exact (sm ..).refl s
  | some m => rw [he]; exact .one (.storage s e fates hs (by rw [hm]; simp) hp hld)

/-- `HandleRequest`, as a small change. -/
theorem pres_handleRequest (fates : List Fate) (ok : Bool) (q : Message) (hm : may.upload r q) (h4 : may.cancels r) :
    Pres (Smalls cfg may) (handleRequest fates ok cfg r q.index q.begin q.length) := by
  unfold handleRequest
  refine Pres.bindConn (sm ..) fun s c hc => ?_
  split
  · exact (sm ..).refl s
  · rename_i hch
    split
    · exact pres_setConn _ (fun s c => .cancels c _ h4) s
    · rw [bind_apply]
      have hst := pres_store (cfg := cfg) (may := may) fates (getBlock cfg.store q.index q.begin q.length) (.get q.index q.begin q.length) (by simp) (fun w => rfl) (fun _ _ _ h => by cases h) (by simp) s
      have hx2 := store_state fates (getBlock cfg.store q.index q.begin q.length) s
      have hx1 : ∀ d, (Act.store fates (getBlock cfg.store q.index q.begin q.length) s).1 = .ok d → (runOp (getBlock cfg.store q.index q.begin q.length) s.storage fates).1 = .ok d := by
        intro d hd
        unfold Act.store at hd
        generalize runOp (getBlock cfg.store q.index q.begin q.length) s.storage fates = y at hd
        obtain ⟨o, w⟩ := y
        cases o <;> cases hd <;> rfl
      generalize Act.store fates (getBlock cfg.store q.index q.begin q.length) s = x at hst hx1 hx2
      obtain ⟨o, s1⟩ := x
      cases o with
      | err e => exact hst
      | panic => exact hst
      | crash => exact hst
      | stuck => exact hst
      | ok d =>
        have hget := hx1 d rfl
        have hmem : s.storage.mem ≠ none := fun hn => by rw [runOp_dead _ _ _ hn] at hget; cases hget
        simp only at hx2
        subst hx2
        have hc1 : ({ s with storage := (runOp (getBlock cfg.store q.index q.begin q.length) s.storage fates).2 } : State).peers[r]? = some c := hc
        simp only []
        rw [bind_apply]
        unfold send
        rw [bind_apply, getConn_some hc1]
        simp only []
        rw [if_neg (by rintro ⟨h, _⟩; exact absurd h (by show PIECE ≠ REQUEST; decide))]
        by_cases h : (ok = true ∧ (!c.closed) = true)
        · rw [if_pos h]
          simp only [setConn_apply, bind_apply, modify_apply]
          refine .one ?_
          have : (((s.peers.modify r fun c => { c with sent := c.sent ++ [pieceMsg q.index q.begin d] }).modify r
              fun c => { c with uploaded := c.uploaded + d.length })) =
              s.peers.set r (c.gave q d) := by
            rw [modify_some hc]
            have h1 : (s.peers.set r { c with sent := c.sent ++ [pieceMsg q.index q.begin d] })[r]? = some { c with sent := c.sent ++ [pieceMsg q.index q.begin d] } := by
              rw [List.getElem?_set_self (List.getElem?_eq_some_iff.1 hc).1]
            rw [modify_some h1, List.set_set]; rfl
          rw [this]
          exact .upload s r c q d fates hm hc (by simpa using hch) (by simpa using h.2) hget hmem
        · rw [if_neg h]; exact hst

theorem pres_handlePiece (fates : List Fate) (index begin_ : Int) (data : Bytes) (hp : may.put index begin_ data) :
    Pres (Smalls cfg may) (handlePiece fates cfg r index begin_ data) := by
  intro s
  unfold handlePiece
  have := pres_store (cfg := cfg) (may := may) fates (putBlock cfg.store index begin_ data) (.put index begin_ data) (by simp) (fun w => rfl) (fun _ _ _ h => by cases h; exact hp) (by simp) s
  generalize Act.store fates (putBlock cfg.store index begin_ data) s = x at this
  obtain ⟨o, s'⟩ := x
  cases o with
  | ok a =>
    refine (sm cfg may).trans this ?_
    exact (sm cfg may).trans (pres_setConn (r := r) (fun c => { c with downloaded := c.downloaded + data.length })
      (fun s c => .flags c c.choked c.interested c.remoteInterested _) s') (.one (.downloaded _ (s'.downloaded + data.length)))
  | err e => simp only []; split <;> exact this
  | panic => exact this
  | crash => exact this
  | stuck => exact this

/-- Handling a message makes only small changes. -/
theorem pres_handleMessage (fates : List Fate) (ok : Bool) (m : Message) (hi : 0 ≤ m.index) (h1 : may.send r PeerWire.interested) (hq : may.queue r)
    (h2 : m.typ = REQUEST → may.upload r m) (h3 : m.typ = CHOKE ∨ m.typ = UNCHOKE → may.remote r) (h4 : m.typ = REQUEST ∨ m.typ = CANCEL → may.cancels r)
    (h5 : ∀ i, Announces m i → may.pieces r i) (h6 : m.typ = PIECE → may.put m.index m.begin m.piece) : Pres (Smalls cfg may) (handleMessage fates ok cfg r m) := by
  have hl : ∀ {α : Type} (x : Res α), Pres (Smalls cfg may) (Act.lift x) := fun x => Pres.lift (sm ..) x
  have flag : ∀ {s : State} {c : Conn} {b : Bool}, Change cfg may s r c { c with remoteInterested := b } := change_flags _ _ _ _ _
  unfold handleMessage
  by_cases t0 : m.typ = CHOKE
  · rw [if_pos t0]; exact pres_setConn _ fun s c => .remote c _ (h3 (.inl t0))
  rw [if_neg t0]
  by_cases t1 : m.typ = UNCHOKE
  · rw [if_pos t1]; exact Pres.bind (sm ..) (pres_setConn _ fun s c => .remote c _ (h3 (.inr t1))) fun _ => pres_QueuePeer hq
  rw [if_neg t1]
  refine Pres.ite (pres_setConn _ fun s c => flag) (Pres.ite (pres_setConn _ fun s c => flag) ?_)
  by_cases t4 : m.typ = HAVE
  · rw [if_pos t4]
    unfold Message.getIndex
    rw [if_pos (.inl t4)]
    obtain ⟨i, hi⟩ := Int.eq_ofNat_of_zero_le hi
    show Pres _ (handleHave ok r m.index)
    rw [hi]
    exact pres_handleHave ok i h1 hq (h5 i (.inl ⟨t4, hi⟩))
  rw [if_neg t4]
  by_cases t5 : m.typ = BITFIELD
  · rw [if_pos t5]
    unfold Message.getBitfield
    rw [if_pos t5]
    exact pres_handleItems ok h1 hq _ fun i hi => h5 i (.inr ⟨t5, by simpa using ((Bitfield.mem_itemsFrom 0 _ i).1 hi).2⟩)
  rw [if_neg t5]
  by_cases hr : m.typ = REQUEST
  · rw [if_pos hr]
    unfold Message.getIndex Message.getBegin Message.getLength
    rw [if_pos (.inr (.inl hr)), if_pos (.inl hr), if_pos (.inl hr)]
    exact pres_handleRequest fates ok m (h2 hr) (h4 (.inl hr))
  · rw [if_neg hr]
    by_cases t7 : m.typ = CANCEL
    · rw [if_pos t7]
      refine Pres.bind (sm ..) (hl _) fun _ => Pres.bind (sm ..) (hl _) fun _ => Pres.bind (sm ..) (hl _) fun _ => ?_
      exact pres_setConn _ fun s c => .cancels c _ (h4 (.inr t7))
    · rw [if_neg t7]
      by_cases t8 : m.typ = PIECE
      · rw [if_pos t8]
        unfold Message.getIndex Message.getBegin Message.getPiece
        rw [if_pos (.inr (.inr (.inr t8))), if_pos (.inr (.inr t8)), if_pos t8]
        exact pres_handlePiece fates _ _ _ (h6 t8)
      · rw [if_neg t8]; exact Pres.pure (sm ..) _

/-! ### server.go -/

theorem pres_handshake (ok : Bool) (rd : Rd) {s : State} {c : Conn} (hc : s.peers[r]? = some c) (hp : c.phase = .checked) (hsh : ∀ hs rd', Handshake.decode rd = .ok (hs, rd') → may.shake r hs) :
    Smalls cfg may s (handshake ok cfg r rd s).2 ∧ ((handshake ok cfg r rd s).1 = .ok () → ∃ c', (handshake ok cfg r rd s).2.peers[r]? = some c' ∧ c'.phase = .checked ∧
      ∃ hs, c'.shook = some hs ∧ hs.infoHash = cfg.store.info.sha1 ∧ c'.id = hs.peerID ∧ c'.id ≠ cfg.peerID) := by
  unfold handshake
  rw [bind_apply, getConn_some hc]
  simp only []
  split
  · exact ⟨(sm ..).refl s, by simp⟩
  rw [bind_apply]
  cases hdec : Handshake.decode rd with
  | err e => exact ⟨(sm ..).refl s, by simp [Act.lift]⟩
  | panic => exact ⟨(sm ..).refl s, by simp [Act.lift, Act.panic]⟩
  | ok x =>
    obtain ⟨phs, rd'⟩ := x
    simp only [Act.lift]
    rw [show (Act.pure (phs, rd') s) = (Outcome.ok (phs, rd'), s) from rfl]
    simp only []
    rw [bind_apply, setConn_apply]
    simp only []
    have h1 := Smalls.upd (cfg := cfg) (may := may) hc (fun c => { c with shook := some phs }) (.shake c phs hp (hsh phs rd' hdec))
    generalize hs1 : ({ s with peers := s.peers.modify r fun c => { c with shook := some phs } } : State) = s1 at h1
    have hc1 : s1.peers[r]? = some { c with shook := some phs } := by rw [← hs1]; exact modify_self hc _
    split
    · exact ⟨h1, by simp⟩
    · rename_i hih
      split
      · exact ⟨h1, by simp⟩
      · rename_i hid
        rw [bind_apply, setConn_apply]
        simp only []
        have h2 := Smalls.upd (cfg := cfg) (may := may) hc1 (fun c => { c with id := phs.peerID })
          (.ident { c with shook := some phs } phs hp rfl (Classical.not_not.1 hih) (fun hz => Classical.not_not.1 fun h => hid ⟨hz, h⟩))
        generalize hs2 : ({ s1 with peers := s1.peers.modify r fun c => { c with id := phs.peerID } } : State) = s2 at h2
        have hc2 : s2.peers[r]? = some { c with shook := some phs, id := phs.peerID } := by rw [← hs2]; exact modify_self hc1 _
        split
        · exact ⟨(sm ..).trans h1 h2, by simp⟩
        · rename_i hown
          exact ⟨(sm ..).trans h1 h2, fun _ => ⟨_, hc2, hp, phs, rfl, Classical.not_not.1 hih, rfl, hown⟩⟩

theorem pres_addPeer (tp : Tracker.Peer) (ha : may.addrs) : Pres (Smalls cfg may) (addPeer tp) := by
  unfold addPeer
  refine pres_locked (Pres.bind (sm ..) (Pres.lift (sm ..) _) fun a => Pres.bind (sm ..) (Pres.get (sm ..)) fun s => ?_)
  refine Pres.ite (Pres.pure (sm ..) _) (Pres.ite (Pres.pure (sm ..) _) (Pres.ite ?_ (Pres.pure (sm ..) _)))
  exact fun s => .one (.addrs s _ s.held s.dialers _ ha)

theorem pres_lock : Pres (Smalls cfg may) Act.lock := fun s => by
  unfold Act.lock
  split
  · exact (sm ..).refl s
  · exact .one (.lock s true)

theorem pres_unlock : Pres (Smalls cfg may) Act.unlock := fun s => .one (.lock s false)

theorem pres_connectCheck : Pres (Smalls cfg may) (connectCheck r) := by
  unfold connectCheck
  refine Pres.bind (sm ..) pres_lock fun _ => Pres.bind (sm ..) (Pres.get (sm ..)) fun s => Pres.bind (sm ..) (Pres.getConn (sm ..) r) fun c => ?_
  refine Pres.ite (Pres.fail (sm ..) _) ?_
  split
  · exact Pres.ite (Pres.fail (sm ..) _) pres_unlock
  · exact pres_unlock

theorem register_small (ok : Bool) {s : State} {c : Conn} (hph : may.phase r) (hc : s.peers[r]? = some c) (hp : c.phase = .shaken) :
    Smalls cfg may s (P2P.next r (.serving none) .ended (connectRegister ok r s)).2 := by
  have hend : ∀ s1 : State, s1.peers[r]? = some c → ∀ ph, ph = .ended ∨ ph = .hung → Smalls cfg may s1 { s1 with peers := s1.peers.modify r fun c => { c with phase := ph } } :=
    fun s1 h1 ph h => Smalls.upd h1 (fun c => { c with phase := ph }) (.phase c ph hph (fun m h => by rw [hp] at h; cases h) (by
      rcases h with rfl | rfl
      · exact ⟨by rw [hp]; simp, fun p => by rw [hp]; simp, fun h => by rw [hp] at h; cases h⟩
      · show c.phase ≠ .ended; rw [hp]; simp))
  unfold connectRegister
  rw [locked_apply]
  by_cases hl : s.locked
  · rw [if_pos hl]; exact hend s hc _ (.inr rfl)
  rw [if_neg hl]
  generalize hs0 : ({ s with locked := true } : State) = s0
  have h0 : Smalls cfg may s s0 := by rw [← hs0]; exact .one (.lock s true)
  have hc0 : s0.peers[r]? = some c := by rw [← hs0]; exact hc
  rw [bind_apply, get_apply]
  simp only []
  rw [bind_apply, getConn_some hc0]
  simp only []
  by_cases h50 : s0.activePeers.length ≥ 50
  · rw [if_pos h50]; exact (sm ..).trans h0 ((sm ..).trans (.one (.lock _ false)) (hend { s0 with locked := false } hc0 _ (.inl rfl)))
  rw [if_neg h50, bind_apply, modify_apply]
  simp only []
  generalize hs1 : ({ s0 with
      knownAddrs := mput s0.knownAddrs c.idip (sadd ((mget s0.knownAddrs c.idip).getD []) c.addr)
      knownIDIPs := mput s0.knownIDIPs c.addr c.idip } : State) = s1
  have h1 : Smalls cfg may s s1 := by rw [← hs1]; exact (sm ..).trans h0 (.one (.known s0 _ _ fun k x y _ hy => by
    rw [mget_mput]
    split
    · rename_i h; subst h; exact mem_sadd.2 (.inr hy)
    · exact hy))
  have hadr : c.addr ∈ (mget s1.knownAddrs c.idip).getD [] := by
    rw [← hs1]
    show _ ∈ (mget (mput _ _ _) _).getD []
    rw [mget_mput, if_pos rfl]
    exact mem_sadd.2 (.inl rfl)
  have hc1 : s1.peers[r]? = some c := by rw [← hs1]; exact hc0
  have hact : s1.activePeers = s0.activePeers := by rw [← hs1]
  by_cases hreg : (mget s0.activePeers c.idip).isSome = true
  · rw [if_pos hreg]; exact (sm ..).trans h1 ((sm ..).trans (.one (.lock _ false)) (hend { s1 with locked := false } hc1 _ (.inl rfl)))
  rw [if_neg hreg, bind_apply, modify_apply]
  simp only []
  rw [bind_apply, setConn_apply]
  simp only []
  have hn : mget s1.activePeers c.idip = none := by rw [hact]; simpa using hreg
  have hlt : s1.activePeers.length < 50 := by rw [hact]; omega
  have hset : ∀ c' : Conn, (s1.peers.set r c')[r]? = some c' := fun c' => List.getElem?_set_self (List.getElem?_eq_some_iff.1 hc1).1
  have hjoin : ∀ ms ph, JoinOK s1 c ms ph → Smalls cfg may s { s1 with activePeers := mput s1.activePeers c.idip r, peers := s1.peers.set r (c.join ms ph) } :=
    fun ms ph h => (sm ..).trans h1 (.one (.join s1 r c ms ph hph hc1 hp hn hlt h hadr))
  simp only [modify_some hc1]
  rw [bind_apply]
  unfold torrentBitfield
  simp only []
  cases hmem : s1.storage.mem with
  | none =>
    unfold P2P.next
    simp only [modify_some (hset _), List.set_set]
    exact hjoin [] .hung (.inl ⟨rfl, .inr rfl⟩) |> fun h => by simpa [Conn.join] using h
  | some m =>
    simp only []
    unfold send
    rw [bind_apply, getConn_some (hset _)]
    simp only []
    have hb : ¬((bitfieldMsg m.bitfield).typ = REQUEST ∧ c.remoteChoked = true) := fun h => absurd h.1 (by show BITFIELD ≠ REQUEST; decide)
    simp only [hb, if_false]
    by_cases hok : ok = true ∧ (!c.closed) = true
    · simp only [hok, and_self, if_true]
      rw [setConn_apply]
      unfold P2P.next
      simp only [modify_some (hset _), List.set_set]
      exact (sm ..).trans (hjoin [bitfieldMsg m.bitfield] (.serving none) (.inr ⟨by simpa using hok.2, rfl, m, hmem, rfl⟩)) (.one (.lock _ false))
    · simp only [hok, if_false]
      unfold P2P.next
      simp only [fail_apply, modify_some (hset _), List.set_set]
      have := (sm ..).trans (hjoin [] .ended (.inl ⟨rfl, .inl rfl⟩)) (.one (.lock _ false))
      simpa [Conn.join] using this

theorem pres_disconnect (hd : may.drop r) : Pres (Smalls cfg may) (disconnect r) := by
  unfold disconnect
  refine Pres.bindConn (sm ..) fun s c hc => ?_
  rw [bind_apply, modify_apply]
  simp only [setConn_apply]
  refine (sm ..).trans (.one (.unindex s r c hd hc)) ?_
  generalize hs1 : ({ s with indexToPeers := forgetIndexes r s.indexToPeers (Bitfield.items c.bitfield) } : State) = s1
  have hc1 : s1.peers[r]? = some c := by rw [← hs1]; exact hc
  refine (sm ..).trans (.one (.unregister _ r c hd hc1)) ?_
  refine (sm ..).trans (.one (.known _ (mdel s.knownAddrs c.idip) (forgetAddrs c.idip s.knownIDIPs ((mget s.knownAddrs c.idip).getD [])) fun k x y hk hy => ?_)) ?_
  · rw [mget_mdel, if_neg (mem_mdel.1 hk).2]
    rw [← hs1] at hy; exact hy
  subst hs1
  exact Smalls.upd (r := r) (c := c) (s := { s with
    indexToPeers := forgetIndexes r s.indexToPeers (Bitfield.items c.bitfield)
    knownIDIPs := forgetAddrs c.idip s.knownIDIPs ((mget s.knownAddrs c.idip).getD [])
    knownAddrs := mdel s.knownAddrs c.idip
    activePeers := mdel s.activePeers c.idip }) hc (fun c => { c with closed := true }) (.close c hd)

theorem pres_Disconnect (hd : may.drop r) : Pres (Smalls cfg may) (Disconnect r) := pres_locked (pres_disconnect hd)

theorem pres_block (hd : may.drop r) (hb : may.block r) : Pres (Smalls cfg may) (block r) := by
  unfold block
  refine pres_locked (Pres.bindConn (sm ..) fun s c hc => ?_)
  rw [bind_apply, modify_apply]
  exact (sm ..).trans (.one (.block s r c hb hc)) (pres_disconnect hd _)

theorem pres_disconnectAll : ∀ rs : List Ref, (∀ r ∈ rs, may.drop r) → Pres (Smalls cfg may) (disconnectAll rs)
  | [], _ => Pres.pure (sm ..) _
  | r :: rs, h => Pres.bind (sm ..) (pres_disconnect (h r (by simp))) fun _ => pres_disconnectAll rs fun x hx => h x (by simp [hx])

theorem pres_stop {s : State} (hd : ∀ k r, (k, r) ∈ s.activePeers → may.drop r) : Smalls cfg may s (stop s).2 := by
  unfold stop
  rw [locked_apply]
  split
  · exact (sm ..).refl s
  · rw [bind_apply, modify_apply]
    simp only []
    rw [bind_apply, get_apply]
    simp only []
    have h1 : Smalls cfg may s { s with locked := true, cancelled := true } := (sm ..).trans (.one (.lock s true)) (.one (.shutdown _ true s.requesting s.stopped))
    have h2 := Pres.bind (sm cfg may) (pres_disconnectAll (cfg := cfg) (may := may) (s.activePeers.map (·.2)) fun r hr => by
      obtain ⟨e, he, rfl⟩ := List.mem_map.1 hr
      exact hd e.1 e.2 he) (fun _ (s : State) => .one (.shutdown s s.cancelled s.requesting true)) (k := fun _ => Act.modify fun s => { s with stopped := true })
      { s with locked := true, cancelled := true }
    generalize (disconnectAll (s.activePeers.map (·.2)) >>= fun _ => Act.modify fun s => { s with stopped := true }) { s with locked := true, cancelled := true } = x at h2
    obtain ⟨o, s'⟩ := x
    cases o with
    | ok a => exact (sm ..).trans h1 ((sm ..).trans h2 (.one (.lock _ false)))
    | err a => exact (sm ..).trans h1 ((sm ..).trans h2 (.one (.lock _ false)))
    | panic => exact (sm ..).trans h1 h2
    | crash => exact (sm ..).trans h1 h2
    | stuck => exact (sm ..).trans h1 h2

theorem insertDown_perm (avail : Nat → Nat) : ∀ (j : Nat) (coins : List Bool) (l : List Nat), (insertDown avail j coins l).1.Perm l
  | 0, coins, l => .refl l
  | j + 1, coins, l => by
    unfold insertDown
    split
    · split
      · rename_i a b ha hb
        refine (insertDown_perm avail j _ _).trans ?_
        obtain ⟨h1, h2⟩ := List.getElem?_eq_some_iff.1 ha
        obtain ⟨h3, h4⟩ := List.getElem?_eq_some_iff.1 hb
        subst h2 h4
        exact List.set_set_perm h1 h3
      · exact .refl l
    · exact .refl l

theorem insertionSort_perm (avail : Nat → Nat) : ∀ (n i : Nat) (coins : List Bool) (l : List Nat), (insertionSort avail n i coins l).Perm l
  | 0, i, coins, l => .refl l
  | n + 1, i, coins, l => by
    unfold insertionSort
    exact (insertionSort_perm avail n (i + 1) _ _).trans (insertDown_perm avail i coins l)

theorem arrange_perm (f : List Nat → List Nat) (l : List Nat) : (arrange f l).Perm l := by
  unfold arrange
  split
  · rename_i h; exact List.isPerm_iff.1 h
  · exact .refl l

theorem sortPieces_perm (avail : Nat → Nat) (coins : List Bool) (pdq : List Nat → List Nat) (l : List Nat) : (sortPieces avail coins pdq l).Perm l := by
  unfold sortPieces
  split
  · exact insertionSort_perm ..
  · exact arrange_perm ..

theorem firstFree_some {inflight : List (Int × Ref)} {i : Nat} : ∀ {l : List Nat}, firstFree inflight l = some i → i ∈ l ∧ mget inflight (i : Int) = none
  | [], h => by cases h
  | j :: l, h => by
    unfold firstFree at h
    split at h
    · have := firstFree_some h; exact ⟨by simp [this.1], this.2⟩
    · rename_i hj
      cases h
      exact ⟨by simp, by simpa using hj⟩

theorem firstFree_none {inflight : List (Int × Ref)} : ∀ {l : List Nat}, firstFree inflight l = none → ∀ i ∈ l, (mget inflight (i : Int)).isSome = true
  | [], _, i, hi => by cases hi
  | j :: l, h, i, hi => by
    unfold firstFree at h
    split at h
    · rename_i hj
      rcases List.mem_cons.1 hi with rfl | hi
      · exact hj
      · exact firstFree_none h i hi
    · cases h

theorem pres_requestPieceFromPeer (ok : Bool) (coins : List Bool) (pdq : List Nat → List Nat) {s : State} (hr : r ∈ s.toRequest)
    (hm : may.send r PeerWire.notInterested) (hj : may.jobs) :
    Smalls cfg may s (requestPieceFromPeer ok coins pdq r s).2 := by
  have hdq : Pres (Smalls cfg may) (Act.modify fun s => { s with queuedPeers := sdel s.queuedPeers r }) := fun s =>
    .one (.queue s _ s.toRequest s.waiting fun x hx => (List.mem_append.1 hx).elim .inl fun h => .inr (.inl h))
  unfold requestPieceFromPeer
  refine Smalls.locked ?_
  generalize hs0 : ({ s with locked := true } : State) = s0
  have hr0 : r ∈ s0.toRequest := by rw [← hs0]; exact hr
  rw [bind_apply, getConn_apply]
  cases hc : s0.peers[r]? with
  | none => exact (sm ..).refl _
  | some c =>
    simp only []
    split
    · exact hdq s0
    · rw [bind_apply]
      unfold torrentBitfield
      cases hmem : s0.storage.mem with
      | none => exact (sm ..).refl _
      | some m =>
        simp only []
        split
        · exact Pres.bind (sm ..) hdq (fun _ => pres_notInterest ok hm) s0
        · rw [bind_apply, get_apply]
          simp only []
          generalize firstFree s0.inflight (sortPieces (available s0.indexToPeers) coins pdq (Bitfield.items (Bitfield.difference c.bitfield m.bitfield))) = x
          cases x with
          | some i =>
            refine .one (.jobs s0 _ _ hj fun x hx => ?_)
            rcases List.mem_append.1 hx with h | h
            · exact .inl ⟨x, h, rfl⟩
            · rw [List.mem_singleton] at h; subst h; exact .inr hr0
          | none =>
            refine .one (.queue s0 s0.queuedPeers s0.toRequest _ fun x hx => ?_)
            rcases List.mem_append.1 hx with h | h
            · exact .inl h
            · rcases List.mem_append.1 h with h | h
              · exact .inr (.inl h)
              · rw [List.mem_singleton] at h; subst h; exact .inl hr0

theorem pres_sendHave (oks : Ref → Bool) (i : Nat) : ∀ rs : List Ref, (∀ r ∈ rs, may.send r (have_ i)) → Pres (Smalls cfg may) (sendHave oks i rs)
  | [], _ => Pres.pure (sm ..) _
  | r :: rs, h => by
    unfold sendHave
    have ih := pres_sendHave oks i rs fun x hx => h x (by simp [hx])
    exact Pres.bind (sm ..) (Pres.getConn (sm ..) r) fun c => Pres.ite ih (Pres.bind (sm ..) (pres_send _ (h r (by simp))) fun _ => ih)

theorem pres_finish (oks : Ref → Bool) (order : List Ref → List Ref) (i : Nat) (res : Result) {s : State}
    (h1 : res = .complete → ∀ k x, (k, x) ∈ s.activePeers → may.send x (have_ i)) (h2 : res = .checksum → may.drop r ∧ may.block r) :
    Smalls cfg may s (finish oks order r i res s).2 := by
  unfold finish
  cases res with
  | failed => exact (sm ..).refl s
  | checksum => exact Pres.attempt (sm ..) (pres_block (h2 rfl).1 (h2 rfl).2) s
  | complete =>
    simp only []
    refine Smalls.attempt ?_
    rw [bind_apply]
    unfold Act.lock
    split
    · rename_i hx
      split at hx
      · cases hx
      · cases hx
        refine (sm ..).trans (.one (.lock s true)) ?_
        rw [bind_apply]
        refine (sm ..).trans (pres_unlock _) ?_
        unfold Act.unlock
        simp only [modify_apply, bind_apply, get_apply]
        refine pres_sendHave oks i _ (fun x hx => ?_) _
        obtain ⟨e, he, rfl⟩ := List.mem_map.1 ((arrange_perm order _).mem_iff.1 hx)
        exact h1 rfl e.1 e.2 he
    all_goals
      rename_i hx
      split at hx
      · cases hx; try exact (sm ..).refl _
      · try cases hx

/-! ### Events -/

/-- What an event may do. -/
def mayOf (cfg : Cfg) (s : State) (e : Event) : May where
  send x m := (e = .handle x ∧ m = PeerWire.interested ∧ ∃ c p, s.peers[x]? = some c ∧ c.phase = .serving p) ∨
    (e = .unchoke x ∧ m = PeerWire.unchoke ∧ ∃ c, s.peers[x]? = some c ∧ c.registered = true) ∨
    (∃ k, e = .select k ∧ s.toRequest[k]? = some x ∧ m = PeerWire.notInterested) ∨
    (∃ k q i, e = .request k q ∧ s.jobs[k]? = some ⟨x, i, .running⟩ ∧ q ∈ requestBlocks cfg.store.info i ∧ m = request q.index q.begin_ q.length) ∨
    (∃ k y i, e = .finish k .complete ∧ s.jobs[k]? = some ⟨y, i, .running⟩ ∧ canReturn s i .complete = true ∧ m = have_ i ∧ ∃ key, (key, x) ∈ s.activePeers)
  upload x m := e = .handle x ∧ m.typ = REQUEST ∧ ∃ c, s.peers[x]? = some c ∧ c.phase = .serving (some m)
  remote x := e = .handle x ∧ ∃ c m, s.peers[x]? = some c ∧ c.phase = .serving (some m) ∧ (m.typ = CHOKE ∨ m.typ = UNCHOKE)
  handle x := e = .handle x
  cancels x := e = .handle x ∧ ∃ c m, s.peers[x]? = some c ∧ c.phase = .serving (some m) ∧ (m.typ = REQUEST ∨ m.typ = CANCEL)
  phase x := e = .check x ∨ (∃ rd, e = .handshake x rd) ∨ e = .register x ∨ (∃ rd, e = .receive x rd) ∨ e = .handle x ∨ e = .fails x ∨ e = .leave x
  queue x := e = .handle x ∧ ∃ c p, s.peers[x]? = some c ∧ c.phase = .serving p
  drop x := e = .leave x ∨ (∃ k i, e = .finish k .checksum ∧ s.jobs[k]? = some ⟨x, i, .running⟩) ∨ (e = .stop ∧ ∃ k, (k, x) ∈ s.activePeers)
  block x := ∃ k i, e = .finish k .checksum ∧ s.jobs[k]? = some ⟨x, i, .running⟩
  addrs := (∃ tp, e = .addPeer tp) ∨ e = .takeAddr ∨ e = .spawn ∨ (∃ k, e = .dialCheck k) ∨ ∃ k b, e = .dial k b
  jobs := (∃ k, e = .select k) ∨ (∃ k, e = .begin k) ∨ (∃ k res, e = .finish k res) ∨ (∃ k, e = .hand k) ∨ ∃ k, e = .clear k
  fresh id ip port := (e = .accept ip port ∧ id = zeroID ∧ slots s < 50) ∨
    ∃ k tp, e = .dial k true ∧ s.dialers[k]? = some (tp, true) ∧ dialable tp = some (ip, port) ∧ id = copyID tp.id
  shake x hs := ∃ rd rd', e = .handshake x rd ∧ Handshake.decode rd = .ok (hs, rd')
  pieces x i := e = .handle x ∧ ∃ c m, s.peers[x]? = some c ∧ c.phase = .serving (some m) ∧ Announces m i
  put i b d := ∃ x c m, e = .handle x ∧ s.peers[x]? = some c ∧ c.phase = .serving (some m) ∧ m.typ = PIECE ∧ i = m.index ∧ b = m.begin ∧ d = m.piece

/-- The same, without changes of phase and of the downloads. -/
def May.still (m : May) : May := { m with phase := fun _ => False, jobs := False }

theorem Change.mono {s : State} {c c' : Conn} (h : Change cfg may.still s r c c') : Change cfg may s r c c' := by
  cases h with
  | phase ph h1 => exact h1.elim
  | shake hs h1 h2 => exact .shake _ hs h1 h2
  | ident hs h1 h2 h3 h4 => exact .ident _ hs h1 h2 h3 h4
  | close h => exact .close _ h
  | flags a b d e => exact .flags _ a b d e
  | cancels a h => exact .cancels _ a h
  | pieces bf h1 h2 h3 => exact .pieces _ bf h1 h2 h3
  | send m h1 h2 h3 => exact .send _ m h1 h2 h3
  | remote b h => exact .remote _ b h
  | receive m rd rd' h1 => exact h1.elim

theorem Small.mono {s s' : State} (h : Small cfg may.still s s') : Small cfg may s s' := by
  cases h with
  | new id ip port h => exact .new s id ip port h
  | upd r c c' h1 h2 => exact .upd s r c c' h1 h2.mono
  | upload r c q d f h1 h2 h3 h4 h5 h6 => exact .upload s r c q d f h1 h2 h3 h4 h5 h6
  | storage e f h1 h2 h3 h4 => exact .storage s e f h1 h2 h3 h4
  | record r c i h1 h2 h3 => exact .record s r c i h1 h2 h3
  | unindex r c h1 h2 => exact .unindex s r c h1 h2
  | join r c ms ph h1 => exact h1.elim
  | unregister r c h1 h2 => exact .unregister s r c h1 h2
  | known a b h => exact .known s a b h
  | block r c h1 h2 => exact .block s r c h1 h2
  | queue q t w h => exact .queue s q t w h
  | lock b => exact .lock s b
  | downloaded d => exact .downloaded s d
  | shutdown c q st => exact .shutdown s c q st
  | addrs q h d k h1 => exact .addrs s q h d k h1
  | jobs i j h1 h2 => exact h1.elim
  | die => exact .die s

theorem Smalls.mono {s s' : State} (h : Smalls cfg may.still s s') : Smalls cfg may s s' := by
  induction h with
  | refl => exact (sm ..).refl _
  | tail _ h ih => exact ih.tail h.mono

theorem Change.still {s : State} {c c' : Conn} (h : Change cfg may.still s r c c') : c'.phase = c.phase := by
  cases h with
  | phase ph h1 => exact h1.elim
  | receive m rd rd' h1 => exact h1.elim
  | _ => rfl

theorem set_cases {α : Type} {l : List α} {r j : Nat} {c d : α} (h : (l.set r c)[j]? = some d) : (j = r ∧ d = c) ∨ (j ≠ r ∧ l[j]? = some d) := by
  rw [List.getElem?_set] at h
  by_cases e : r = j
  · rw [if_pos e] at h
    split at h
    · cases h; exact .inl ⟨e.symm, rfl⟩
    · cases h
  · rw [if_neg e] at h; exact .inr ⟨fun h' => e h'.symm, h⟩

/-- Connections are never removed. -/
theorem set_get {l : List Conn} {r j : Nat} {c c' d : Conn} (h : l[r]? = some c) (hd : l[j]? = some d) :
    (j = r ∧ d = c ∧ (l.set r c')[j]? = some c') ∨ (j ≠ r ∧ (l.set r c')[j]? = some d) := by
  rw [List.getElem?_set]
  by_cases e : r = j
  · subst e
    rw [h] at hd; cases hd
    exact .inl ⟨rfl, rfl, by rw [if_pos rfl, if_pos (List.getElem?_eq_some_iff.1 h).1]⟩
  · exact .inr ⟨fun h' => e h'.symm, by rw [if_neg e]; exact hd⟩

theorem Smalls.still {s s' : State} (h : Smalls cfg may.still s s') {c : Conn} (hc : s.peers[r]? = some c) : ∃ c', s'.peers[r]? = some c' ∧ c'.phase = c.phase := by
  induction h with
  | refl => exact ⟨c, hc, rfl⟩
  | tail _ h ih =>
    obtain ⟨d, hd, hp⟩ := ih
    cases h with
    | new id ip port _ => exact ⟨d, by rw [List.getElem?_append_left (List.getElem?_eq_some_iff.1 hd).1]; exact hd, hp⟩
    | upd x a b h1 h2 =>
      rcases set_get (c' := b) h1 hd with ⟨_, e, h⟩ | ⟨_, h⟩
      · subst e; exact ⟨b, h, h2.still.trans hp⟩
      · exact ⟨d, h, hp⟩
    | upload x a q dd f h0 h1 h2 =>
      rcases set_get (c' := a.gave q dd) h1 hd with ⟨_, e, h⟩ | ⟨_, h⟩
      · subst e; exact ⟨_, h, hp⟩
      · exact ⟨d, h, hp⟩
    | join r c ms ph h1 => exact h1.elim
    | _ => exact ⟨d, hd, hp⟩

theorem Smalls.stillJobs {s s' : State} (h : Smalls cfg may.still s s') : s'.jobs = s.jobs := by
  induction h with
  | refl => rfl
  | tail _ h ih =>
    cases h with
    | jobs i j h1 h2 => exact h1.elim
    | _ => exact ih

/-- An action followed by the move of the goroutine. -/
theorem Smalls.next {s : State} {c : Conn} (hc : s.peers[r]? = some c) (hph : may.phase r) (ok err : Phase) {x : Outcome Unit × State}
    (hx : Smalls cfg may.still s x.2) (hne : c.phase ≠ .ended) (hh : ∀ m, c.phase = .serving (some m) → may.handle r)
    (hok : x.1 = .ok () → ∀ c', x.2.peers[r]? = some c' → c'.phase = c.phase → PhaseOK cfg c' ok)
    (herr : ∀ e, x.1 = .err e → ∀ c', x.2.peers[r]? = some c' → c'.phase = c.phase → PhaseOK cfg c' err) : Smalls cfg may s (P2P.next r ok err x).2 := by
  obtain ⟨c', h1, h2⟩ := hx.still hc
  refine (sm ..).trans hx.mono ?_
  refine Smalls.upd h1 (fun c => { c with phase := match x.1 with | .ok _ => ok | .err _ => err | _ => .hung }) (.phase c' _ hph (fun m h => hh m (h2.symm.trans h)) ?_)
  obtain ⟨o, s'⟩ := x
  cases o with
  | ok a => exact hok rfl c' h1 h2
  | err e => exact herr e rfl c' h1 h2
  | panic => exact fun h => hne (h2.symm.trans h)
  | crash => exact fun h => hne (h2.symm.trans h)
  | stuck => exact fun h => hne (h2.symm.trans h)

theorem decode_fields {rd rd' : Rd} {m : Message} (h : Message.decode rd = .ok (m, rd')) : 0 ≤ m.index ∧ 0 ≤ m.begin ∧ 0 ≤ m.length := by
  unfold Message.decode at h
  obtain ⟨⟨a, r1⟩, h1, h⟩ := Res.bind_eq_ok.1 h
  simp only [] at h
  split at h
  · cases h; exact ⟨by simp, by simp, by simp⟩
  · obtain ⟨⟨b, r2⟩, h2, h⟩ := Res.bind_eq_ok.1 h
    obtain ⟨m', h3, h⟩ := Res.bind_eq_ok.1 h
    cases h
    unfold decodePayload at h3
    simp only [] at h3
    split at h3
    · cases h3; exact ⟨by simp, by simp, by simp⟩
    split at h3
    · cases h3; exact ⟨by simp, by simp, by simp⟩
    split at h3
    · obtain ⟨i, _, h3⟩ := Res.bind_eq_ok.1 h3
      cases h3; exact ⟨by simp, by simp, by simp⟩
    split at h3
    · obtain ⟨i, _, h3⟩ := Res.bind_eq_ok.1 h3
      obtain ⟨i, _, h3⟩ := Res.bind_eq_ok.1 h3
      obtain ⟨i, _, h3⟩ := Res.bind_eq_ok.1 h3
      cases h3; exact ⟨by simp, by simp, by simp⟩
    split at h3
    · obtain ⟨i, _, h3⟩ := Res.bind_eq_ok.1 h3
      obtain ⟨i, _, h3⟩ := Res.bind_eq_ok.1 h3
      obtain ⟨i, _, h3⟩ := Res.bind_eq_ok.1 h3
      cases h3; exact ⟨by simp, by simp, by simp⟩
    · cases h3; exact ⟨by simp, by simp, by simp⟩

/-- Messages waiting to be handled have been decoded. -/
def PendOK (s : State) : Prop := ∀ (r : Ref) (c : Conn) (m : Message), s.peers[r]? = some c → c.phase = .serving (some m) → 0 ≤ m.index ∧ 0 ≤ m.begin ∧ 0 ≤ m.length

theorem at_iff {s : State} {ph : Phase} : at_ s r ph = true ↔ ∃ c, s.peers[r]? = some c ∧ c.phase = ph := by
  unfold at_
  cases h : s.peers[r]? with
  | none => simp
  | some c => simp

theorem Smalls.nextSt {s : State} {c : Conn} (hc : s.peers[r]? = some c) (hph : may.phase r) (ok err : Phase) {x : Outcome Unit × State}
    (hx : Smalls cfg may.still s x.2) (hne : c.phase ≠ .ended) (hh : ∀ m, c.phase = .serving (some m) → may.handle r)
    (hok : ∀ c' : Conn, c'.phase = c.phase → PhaseOK cfg c' ok) (herr : ∀ c' : Conn, c'.phase = c.phase → PhaseOK cfg c' err) : Smalls cfg may s (P2P.next r ok err x).2 :=
  Smalls.next hc hph ok err hx hne hh (fun _ c' _ h => hok c' h) fun _ _ c' _ h => herr c' h

theorem disconnect_apply {s : State} {c : Conn} {r : Ref} (hc : s.peers[r]? = some c) : disconnect r s = (.ok (), { s with
    indexToPeers := forgetIndexes r s.indexToPeers (Bitfield.items c.bitfield)
    knownIDIPs := forgetAddrs c.idip s.knownIDIPs ((mget s.knownAddrs c.idip).getD [])
    knownAddrs := mdel s.knownAddrs c.idip
    activePeers := mdel s.activePeers c.idip
    peers := s.peers.set r { c with closed := true } }) := by
  unfold disconnect
  rw [bind_apply, getConn_some hc]
  simp only [bind_apply, modify_apply, setConn_apply, modify_some hc]

/-- Every step is made of small changes. -/
theorem act_small (l : Luck) {s s' : State} {e : Event} {o : Outcome Unit} (hp : PendOK s) (h : act cfg l s e = some (o, s')) : Smalls cfg (mayOf cfg s e) s s' := by
  cases e with
  | accept ip port =>
    simp only [act] at h
    split at h
    · cases h
    · rename_i hs
      cases h; exact .one (.new s _ _ _ (.inl ⟨rfl, rfl, Nat.lt_of_not_le fun h => hs (.inr h)⟩))
  | takeAddr =>
    simp only [act] at h
    split at h
    · cases h; exact .one (.addrs s _ _ s.dialers s.knownPeers (.inr (.inl rfl)))
    · cases h
  | spawn =>
    simp only [act] at h
    split at h
    · split at h
      · cases h
      · cases h; exact .one (.addrs s s.newPeerQueue _ _ s.knownPeers (.inr (.inr (.inl rfl))))
    · cases h
  | dialCheck k =>
    have ha : (mayOf cfg s (.dialCheck k)).addrs := .inr (.inr (.inr (.inl ⟨k, rfl⟩)))
    simp only [act] at h
    split at h
    · split at h
      · split at h
        · cases h; exact (sm ..).refl _
        · split at h
          · cases h; exact .one (.addrs s s.newPeerQueue s.held _ s.knownPeers ha)
          · cases h; exact .one (.addrs s s.newPeerQueue s.held _ s.knownPeers ha)
      · cases h; exact .one (.addrs s s.newPeerQueue s.held _ s.knownPeers ha)
    · cases h
  | dial k b =>
    have ha : (mayOf cfg s (.dial k b)).addrs := .inr (.inr (.inr (.inr ⟨k, b, rfl⟩)))
    simp only [act] at h
    split at h
    · rename_i tp htp
      split at h
      · rename_i hdl
        cases h
        exact (sm ..).trans (.one (.addrs s s.newPeerQueue s.held (s.dialers.eraseIdx k) s.knownPeers ha)) (.one (.new _ _ _ _ (.inr ⟨k, tp, rfl, htp, hdl, rfl⟩)))
      · cases h; exact .one (.addrs s s.newPeerQueue s.held _ s.knownPeers ha)
    · cases h
  | check r =>
    simp only [act] at h
    split at h
    · rename_i ht
      obtain ⟨c, hc, hph⟩ := at_iff.1 ht
      injection h with h
      have : s' = (next r .checked .ended (connectCheck r s)).2 := by rw [h]
      subst this
      exact Smalls.nextSt (may := mayOf cfg s (.check r)) hc (.inl rfl) _ _ (pres_connectCheck (may := (mayOf cfg s (.check r)).still) s) (by rw [hph]; simp) (fun m h => by rw [hph] at h; cases h) (fun _ h => h.trans hph) fun c' h => by
        rw [hph] at h; exact ⟨by rw [h]; simp, fun p => by rw [h]; simp, fun h' => by rw [h] at h'; cases h'⟩
    · cases h
  | handshake r rd =>
    simp only [act] at h
    split at h
    · rename_i ht
      obtain ⟨c, hc, hph⟩ := at_iff.1 ht
      injection h with h
      have : s' = (next r .shaken .ended (handshake (l.ok r) cfg r rd s)).2 := by rw [h]
      subst this
      have hh := pres_handshake (cfg := cfg) (may := (mayOf cfg s (.handshake r rd)).still) (l.ok r) rd hc hph (fun hs rd' h => ⟨rd, rd', rfl, h⟩)
      refine Smalls.next (may := mayOf cfg s (.handshake r rd)) hc (.inr (.inl ⟨rd, rfl⟩)) _ _ hh.1 (by rw [hph]; simp) (fun m h => by rw [hph] at h; cases h) ?_ ?_
      · intro ho c' hc' _
        obtain ⟨c2, h2, h3⟩ := hh.2 ho
        rw [hc'] at h2; cases h2
        exact h3
      · intro _ _ c' _ h
        rw [hph] at h; exact ⟨by rw [h]; simp, fun p => by rw [h]; simp, fun h' => by rw [h] at h'; cases h'⟩
    · cases h
  | register r =>
    simp only [act] at h
    split at h
    · rename_i ht
      obtain ⟨c, hc, hph⟩ := at_iff.1 ht
      injection h with h
      have : s' = (next r (.serving none) .ended (connectRegister (l.ok r) r s)).2 := by rw [h]
      subst this
      exact register_small (may := mayOf cfg s (.register r)) _ (.inr (.inr (.inl rfl))) hc hph
    · cases h
  | receive r rd =>
    have hph : (mayOf cfg s (.receive r rd)).phase r := .inr (.inr (.inr (.inl ⟨rd, rfl⟩)))
    simp only [act] at h
    split at h
    · rename_i c hc
      split at h
      · rename_i hcond
        split at h
        · rename_i m rd' hd
          cases h
          exact Smalls.upd hc _ (.receive c m rd rd' hph hcond.1 hcond.2 hd)
        · rename_i e he
          injection h with h
          have : s' = (next r .leaving .leaving (.err e, s)).2 := by rw [h]
          subst this
          exact Smalls.nextSt (may := mayOf cfg s (.receive r rd)) hc hph _ _ ((sm ..).refl s) (by rw [hcond.1]; simp) (fun m h => by rw [hcond.1] at h; cases h) (fun c' h => ⟨none, h.trans hcond.1⟩) (fun c' h => ⟨none, h.trans hcond.1⟩)
        · cases h; exact (sm ..).refl _
      · cases h
    · cases h
  | handle r =>
    simp only [act] at h
    split at h
    · rename_i m hm
      obtain ⟨c, hc, hph⟩ : ∃ c, s.peers[r]? = some c ∧ c.phase = .serving (some m) := by
        cases hc : s.peers[r]? with
        | none => rw [hc] at hm; cases hm
        | some c => rw [hc] at hm; injection hm with hm; exact ⟨c, rfl, hm⟩
      injection h with h
      have : s' = (next r (.serving none) .leaving (handleMessage l.fates (l.ok r) cfg r m s)).2 := by rw [h]
      subst this
      exact Smalls.nextSt (may := mayOf cfg s (.handle r)) hc (.inr (.inr (.inr (.inr (.inl rfl))))) _ _ (pres_handleMessage (may := (mayOf cfg s (.handle r)).still) l.fates (l.ok r) m (hp r c m hc hph).1 (.inl ⟨rfl, rfl, c, _, hc, hph⟩) ⟨rfl, c, _, hc, hph⟩
        (fun ht => ⟨rfl, ht, c, hc, hph⟩) (fun ht => ⟨rfl, c, m, hc, hph, ht⟩) (fun ht => ⟨rfl, c, m, hc, hph, ht⟩) (fun i hi => ⟨rfl, c, m, hc, hph, hi⟩) (fun ht => ⟨r, c, m, rfl, hc, hph, ht, rfl, rfl, rfl⟩) s) (by rw [hph]; simp) (fun _ _ => rfl) (fun c' h => ⟨_, h.trans hph⟩) (fun c' h => ⟨_, h.trans hph⟩)
    · cases h
  | fails r =>
    simp only [act] at h
    split at h
    · rename_i ht
      obtain ⟨c, hc, hph⟩ := at_iff.1 ht
      injection h with h
      have : s' = (next r .leaving .leaving (.ok (), s)).2 := by rw [h]
      subst this
      exact Smalls.nextSt (may := mayOf cfg s (.fails r)) hc (.inr (.inr (.inr (.inr (.inr (.inl rfl)))))) _ _ ((sm ..).refl s) (by rw [hph]; simp) (fun m h => by rw [hph] at h; cases h) (fun c' h => ⟨none, h.trans hph⟩) (fun c' h => ⟨none, h.trans hph⟩)
    · cases h
  | leave r =>
    simp only [act] at h
    split at h
    · rename_i ht
      obtain ⟨c, hc, hph⟩ := at_iff.1 ht
      injection h with h
      have : s' = (next r .ended .ended (Disconnect r s)).2 := by rw [h]
      subst this
      have hcl : ∀ c', (Disconnect r s).1 ≠ .stuck → (Disconnect r s).2.peers[r]? = some c' → c'.closed = true := fun c' ho hc' => by
        unfold Disconnect at ho hc'
        cases hl : s.locked with
        | true => exact absurd (by simp [Act.locked, Act.bind, Act.lock, hl]) ho
        | false =>
          have hd := disconnect_apply (s := { s with locked := true }) hc
          simp only [Act.locked, Act.bind, Act.lock, hl, hd, Bool.false_eq_true, if_false] at hc'
          rw [List.getElem?_set_self (List.getElem?_eq_some_iff.1 hc).1] at hc'
          cases hc'; rfl
      refine Smalls.next (may := mayOf cfg s (.leave r)) hc (.inr (.inr (.inr (.inr (.inr (.inr rfl)))))) _ _ (pres_Disconnect (may := (mayOf cfg s (.leave r)).still) (.inl rfl) s) (by rw [hph]; simp)
        (fun m h => by rw [hph] at h; cases h) (fun ho c' hc' h => ?_) fun e ho c' hc' h => ?_
      · exact ⟨by rw [h, hph]; simp, fun p => by rw [h, hph]; simp, fun _ => hcl c' (by rw [ho]; simp) hc'⟩
      · exact ⟨by rw [h, hph]; simp, fun p => by rw [h, hph]; simp, fun _ => hcl c' (by rw [ho]; simp) hc'⟩
    · cases h
  | unchoke r =>
    simp only [act] at h
    split at h
    · rename_i hr
      injection h with h
      have : s' = (unchoke (l.ok r) r s).2 := by rw [h]
      subst this
      refine pres_unchoke (may := mayOf cfg s (.unchoke r)) _ (.inr (.inl ⟨rfl, rfl, ?_⟩)) s
      cases hc : s.peers[r]? with
      | none => rw [hc] at hr; cases hr
      | some c =>
        rw [hc] at hr; injection hr with hr
        exact ⟨c, rfl, hr⟩
    · cases h
  | addPeer tp =>
    injection h with h
    have : s' = (addPeer tp s).2 := by rw [h]
    subst this
    exact pres_addPeer (may := mayOf cfg s (.addPeer tp)) tp (.inl ⟨tp, rfl⟩) s
  | select k =>
    simp only [act] at h
    split at h
    · rename_i r hr
      have hx := pres_requestPieceFromPeer (cfg := cfg) (may := mayOf cfg s (.select k)) (r := r) (l.ok r) l.coins l.pdq (List.mem_of_getElem? hr)
        (.inr (.inr (.inl ⟨k, rfl, hr, rfl⟩))) (.inl ⟨k, rfl⟩)
      generalize requestPieceFromPeer (l.ok r) l.coins l.pdq r s = x at h hx
      obtain ⟨o1, s1⟩ := x
      split at h
      · cases h; exact (sm ..).refl _
      · rename_i he
        cases he
        cases h
        refine (sm ..).trans hx (.one (.queue _ s1.queuedPeers _ s1.waiting fun x hx => ?_))
        rcases List.mem_append.1 hx with h | h
        · exact .inl ((List.eraseIdx_sublist ..).mem h)
        · exact .inr (.inl h)
    · cases h
  | begin k =>
    simp only [act] at h
    split at h
    · rename_i r i hj
      have hx := pres_store (cfg := cfg) (may := mayOf cfg s (.begin k)) l.fates (resetPiece i) (.reset i) (by simp) (fun w => rfl) (fun _ _ _ h => by cases h) (by simp) s
      have hjobs : (Act.store l.fates (resetPiece i) s).2.jobs = s.jobs := by rw [store_state]
      generalize Act.store l.fates (resetPiece i) s = x at h hx hjobs
      obtain ⟨o1, s1⟩ := x
      cases h
      refine (sm ..).trans hx (.one (.jobs s1 s1.inflight _ (.inr (.inl ⟨k, rfl⟩)) fun x hx => .inl ?_))
      rcases List.mem_or_eq_of_mem_set hx with h | h
      · exact ⟨x, h, rfl⟩
      · subst h
        have hjobs : s1.jobs = s.jobs := hjobs
        rw [hjobs]
        exact ⟨_, List.mem_of_getElem? hj, rfl⟩
    · cases h
  | request k q =>
    simp only [act] at h
    split at h
    · rename_i r i hj
      split at h
      · rename_i hq
        injection h with h
        have : s' = (send (l.ok r) r (request q.index q.begin_ q.length) s).2 := by rw [h]
        subst this
        exact pres_send (may := mayOf cfg s (.request k q)) _ (.inr (.inr (.inr (.inl ⟨k, q, i, rfl, hj, hq, rfl⟩)))) s
      · cases h
    · cases h
  | finish k res =>
    simp only [act] at h
    split at h
    · rename_i r i hj
      split at h
      · rename_i hcan
        have hx := pres_finish (cfg := cfg) (may := (mayOf cfg s (.finish k res)).still) (r := r) l.ok l.order i res (s := s)
          (fun e key x hkx => by subst e; exact .inr (.inr (.inr (.inr ⟨k, r, i, rfl, hj, hcan, rfl, key, hkx⟩))))
          (fun e => by subst e; exact ⟨.inr (.inl ⟨k, i, rfl, hj⟩), ⟨k, i, rfl, hj⟩⟩)
        have hjobs := hx.stillJobs
        have hx := hx.mono
        generalize finish l.ok l.order r i res s = x at h hx hjobs
        obtain ⟨o1, s1⟩ := x
        split at h
        · cases h; exact (sm ..).refl _
        · rename_i he
          cases he
          cases h
          refine (sm ..).trans hx (.one (.jobs s1 s1.inflight _ (.inr (.inr (.inl ⟨k, res, rfl⟩))) fun x hx => .inl ?_))
          have hjobs : s1.jobs = s.jobs := hjobs
          rcases List.mem_or_eq_of_mem_set hx with h | h
          · exact ⟨x, h, rfl⟩
          · subst h
            rw [hjobs]
            exact ⟨_, List.mem_of_getElem? hj, rfl⟩
      · cases h
    · cases h
  | hand k =>
    simp only [act] at h
    split at h
    · rename_i r i hj
      split at h
      · cases h; exact (sm ..).refl _
      · cases h
        refine (sm ..).trans (.one (.queue s s.queuedPeers (s.toRequest ++ [r]) s.waiting fun x hx => ?_)) (.one (.jobs _ s.inflight _ (.inr (.inr (.inr (.inl ⟨k, rfl⟩)))) fun x hx => .inl ?_))
        · rcases List.mem_append.1 hx with h | h
          · rcases List.mem_append.1 h with h | h
            · exact .inl h
            · rw [List.mem_singleton] at h; subst h; exact .inr (.inr (.inl ⟨_, List.mem_of_getElem? hj, rfl⟩))
          · exact .inr (.inl h)
        · rcases List.mem_or_eq_of_mem_set hx with h | h
          · exact ⟨x, h, rfl⟩
          · subst h; exact ⟨_, List.mem_of_getElem? hj, rfl⟩
    · cases h
  | clear k =>
    simp only [act] at h
    split at h
    · rename_i r i hj
      cases h
      exact .one (.jobs s _ _ (.inr (.inr (.inr (.inr ⟨k, rfl⟩)))) fun x hx => .inl ⟨x, (List.eraseIdx_sublist ..).mem hx, rfl⟩)
    · cases h
  | again k timer =>
    simp only [act] at h
    split at h
    · rename_i r hr
      split at h
      · cases h
        refine .one (.queue s s.queuedPeers s.toRequest _ fun x hx => ?_)
        rcases List.mem_append.1 hx with h | h
        · exact .inl h
        · exact .inr (.inl ((List.eraseIdx_sublist ..).mem h))
      · cases h
        refine .one (.queue s s.queuedPeers _ _ fun x hx => ?_)
        rcases List.mem_append.1 hx with h | h
        · rcases List.mem_append.1 h with h | h
          · exact .inl h
          · rw [List.mem_singleton] at h; subst h; exact .inr (.inl (List.mem_of_getElem? hr))
        · exact .inr (.inl ((List.eraseIdx_sublist ..).mem h))
    · split at h
      · cases h
        refine .one (.queue s s.queuedPeers s.toRequest _ fun x hx => ?_)
        rcases List.mem_append.1 hx with h | h
        · exact .inl h
        · exact .inr (.inl ((List.eraseIdx_sublist ..).mem h))
      · cases h
    · cases h
  | cancel => cases h; exact .one (.shutdown s true s.requesting s.stopped)
  | quit =>
    simp only [act] at h
    split at h
    · cases h; exact .one (.shutdown s s.cancelled false s.stopped)
    · cases h
  | stop =>
    simp only [act] at h
    split at h
    · injection h with h
      have : s' = (stop s).2 := by rw [h]
      subst this
      exact pres_stop (may := mayOf cfg s .stop) fun k r hk => .inr (.inr ⟨rfl, k, hk⟩)
    · cases h

theorem step_small {s : State} (e : Event × Luck) (hp : PendOK s) : Smalls cfg (mayOf cfg s e.1) s (step cfg s e) := by
  unfold step
  split
  · exact (sm ..).refl s
  · cases h : act cfg e.2 s e.1 with
    | none => exact (sm ..).refl s
    | some x =>
      obtain ⟨o, s'⟩ := x
      have := act_small e.2 hp h
      cases o with
      | panic => exact (sm ..).trans this (.one (.die s'))
      | crash => exact (sm ..).trans this (.one (.die s'))
      | _ => exact this

end Drip.P2P
