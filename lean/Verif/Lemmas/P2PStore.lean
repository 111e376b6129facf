import Verif.Lemmas.P2PConn
import Verif.Props.Storage
/-
What the server tells and gives to its peers, and what is in the storage.
-/

namespace Drip.P2P
open PeerWire Metainfo
open Storage (Fate World Mem runOp getBlock Usable Reported OnDisk PieceResult)
open Spec (Verified Contents)

variable {cfg : Cfg} {may : May} {r : Ref}

/-- `data` is what the torrent has at `begin_` in piece `index`: part of a piece with the right SHA-1, or of pieces all of which have the right SHA-1. -/
def Genuine (cfg : Storage.Cfg) (index begin_ : Int) (data : Bytes) : Prop :=
  (0 ≤ begin_ ∧ ∃ (i : Nat) (d : Bytes), index = i ∧ Verified cfg.sha1 cfg.info i d ∧ (d.length : Int) = cfg.info.getPieceLength i ∧ data = Spec.slice d begin_.toNat data.length) ∨
  ∃ ds, Contents cfg.sha1 cfg.info ds ∧ data = Spec.slice ds.flatten (index * cfg.info.pieceLength + begin_).toNat data.length

/-- The files of a torrent with several files have different names, and no length is negative. -/
def FilesOK (info : Info) : Prop := info.files ≠ [] → (info.files.map (·.path)).Nodup ∧ (∀ f ∈ info.files, 0 ≤ f.length) ∧ 0 ≤ info.pieceLength

theorem storage_run_append (c : Storage.Cfg) (es es' : List (Storage.Event × List Fate)) (w : World) : Storage.run c (es ++ es') w = Storage.run c es' (Storage.run c es w) := by
  induction es generalizing w with
  | nil => rfl
  | cons e es ih => exact ih _

/-- What a step may do, backed by the storage. -/
structure Backed (may : May) (s : State) : Prop where
  send : ∀ x m, may.send x m → m.typ ≠ PIECE ∧ m.typ ≠ BITFIELD ∧ ∀ (i : Nat) (mem : Mem), Announces m i → s.storage.mem = some mem → Reported mem i
  upload : ∀ x q, may.upload x q → 0 ≤ q.index ∧ 0 ≤ q.begin

/-- The server and its storage. -/
structure StoreInv (cfg : Cfg) (s : State) : Prop where
  hist : ∃ es, s.storage = Storage.run cfg.store es World.empty
  told : ∀ (x : Ref) (c : Conn) (m : Message) (i : Nat) (mem : Mem), s.peers[x]? = some c → m ∈ c.sent → Announces m i → s.storage.mem = some mem → Reported mem i
  gave : ∀ (x : Ref) (c : Conn) (m : Message), s.peers[x]? = some c → m ∈ c.sent → m.typ = PIECE → Genuine cfg.store m.index m.begin m.piece
  first : ∀ (x : Ref) (c : Conn) (k : Nat) (m : Message), s.peers[x]? = some c → c.sent[k]? = some m → m.typ = BITFIELD → k = 0
  ended : ∀ (x : Ref) (c : Conn) (m : Message), s.peers[x]? = some c → c.sent[0]? = some m → m.typ = BITFIELD → c.phase = .ended → c.closed = true

/-- The storage keeps what it has reported. -/
theorem reported_mono (hu : Usable cfg.store) {w : World} (h : ∃ es, w = Storage.run cfg.store es World.empty) (e : Storage.Event) (f : List Fate) (he : e ≠ .start) (hm : w.mem ≠ none)
    {mem' : Mem} (hm' : (Storage.step cfg.store w e f).mem = some mem') {i : Nat} (hr : ∀ mem, w.mem = some mem → Reported mem i) : Reported mem' i := by
  obtain ⟨es, rfl⟩ := h
  cases h : (Storage.run cfg.store es World.empty).mem with
  | none => exact absurd h hm
  | some mem =>
    exact Storage.C45_monotone hu es [(e, f)] h hm' (by simpa using he) i (hr mem h)

theorem Backed.small {s s' : State} (hu : Usable cfg.store) (hb : Backed may s) (hi : StoreInv cfg s) (h : Small cfg may s s') : Backed may s' := by
  have keep : ∀ {s' : State}, s'.storage = s.storage → Backed may s' := fun e => ⟨fun x m hm => ⟨(hb.send x m hm).1, (hb.send x m hm).2.1, by rw [e]; exact (hb.send x m hm).2.2⟩, hb.upload⟩
  have grow : ∀ {s' : State} (e : Storage.Event) (f : List Fate), e ≠ .start → s.storage.mem ≠ none → s'.storage = Storage.step cfg.store s.storage e f → Backed may s' := fun e f he hm hs =>
    ⟨fun x m hx => ⟨(hb.send x m hx).1, (hb.send x m hx).2.1, fun i mem ha hm' => reported_mono hu hi.hist e f he hm (hs ▸ hm') fun mem hm => (hb.send x m hx).2.2 i mem ha hm⟩, hb.upload⟩
  cases h with
  | storage e f h1 h2 => exact grow e f h1 h2 rfl
  | upload x c q d f h0 h1 h2 h3 h4 h5 => exact grow (.get q.index q.begin q.length) f (by simp) h5 rfl
  | _ => exact keep rfl

theorem getElem?_snoc {α : Type} {l : List α} {x y : α} {k : Nat} (h : (l ++ [x])[k]? = some y) : l[k]? = some y ∨ (k = l.length ∧ y = x) := by
  rw [List.getElem?_append] at h
  split at h
  · exact .inl h
  · rw [List.getElem?_singleton] at h
    split at h
    · injection h with h; exact .inr ⟨by omega, h.symm⟩
    · cases h

theorem StoreInv.small {s s' : State} (hu : Usable cfg.store) (hf : FilesOK cfg.store.info) (hs : StoreInv cfg s) (hi : Inv cfg s) (hg : Good may s) (hb : Backed may s) (h : Small cfg may s s') :
    StoreInv cfg s' := by
  have keep : ∀ {s' : State}, s'.storage = s.storage → s'.peers = s.peers → StoreInv cfg s' := fun e1 e2 =>
    ⟨by rw [e1]; exact hs.hist, by rw [e1, e2]; exact hs.told, by rw [e2]; exact hs.gave, by rw [e2]; exact hs.first, by rw [e2]; exact hs.ended⟩
  have grow : ∀ (e : Storage.Event) (f : List Fate), e ≠ .start → s.storage.mem ≠ none → StoreInv cfg { s with storage := Storage.step cfg.store s.storage e f } := fun e f he hm =>
    ⟨by obtain ⟨es, h⟩ := hs.hist
        exact ⟨es ++ [(e, f)], by rw [storage_run_append, ← h]; rfl⟩,
      fun x c m i mem hc hx ha hm' => reported_mono hu hs.hist e f he hm hm' fun mem hm => hs.told x c m i mem hc hx ha hm, hs.gave, hs.first, hs.ended⟩
  -- a connection changes
  have upd : ∀ {s1 s2 : State} {x : Ref} {c c' : Conn}, StoreInv cfg s1 → s1.peers[x]? = some c → s2.storage = s1.storage → s2.peers = s1.peers.set x c' →
      (∀ m ∈ c'.sent, m ∈ c.sent ∨ ((∀ (i : Nat) (mem : Mem), Announces m i → s1.storage.mem = some mem → Reported mem i) ∧ (m.typ = PIECE → Genuine cfg.store m.index m.begin m.piece))) →
      (∀ (k : Nat) (m : Message), c'.sent[k]? = some m → m.typ = BITFIELD → k = 0) →
      (∀ m, c'.sent[0]? = some m → m.typ = BITFIELD → c'.phase = .ended → c'.closed = true) → StoreInv cfg s2 := by
    intro s1 s2 x c c' h1 hc e1 e2 h2 h3 h4
    refine ⟨by rw [e1]; exact h1.hist, ?_, ?_, ?_, ?_⟩
    · intro y d m i mem hd hm ha hmem
      rw [e2] at hd; rw [e1] at hmem
      rcases set_cases hd with ⟨rfl, rfl⟩ | ⟨_, hd⟩
      · rcases h2 m hm with h | h
        · exact h1.told _ c m i mem hc h ha hmem
        · exact h.1 i mem ha hmem
      · exact h1.told y d m i mem hd hm ha hmem
    · intro y d m hd hm ht
      rw [e2] at hd
      rcases set_cases hd with ⟨rfl, rfl⟩ | ⟨_, hd⟩
      · rcases h2 m hm with h | h
        · exact h1.gave _ c m hc h ht
        · exact h.2 ht
      · exact h1.gave y d m hd hm ht
    · intro y d k m hd
      rw [e2] at hd
      rcases set_cases hd with ⟨rfl, rfl⟩ | ⟨_, hd⟩
      · exact h3 k m
      · exact h1.first y d k m hd
    · intro y d m hd
      rw [e2] at hd
      rcases set_cases hd with ⟨rfl, rfl⟩ | ⟨_, hd⟩
      · exact h4 m
      · exact h1.ended y d m hd
  cases h with
  | new id ip port h =>
    have hn : ∀ {x : Ref} {c : Conn}, (s.peers ++ [newConn cfg id ip port])[x]? = some c → s.peers[x]? = some c ∨ c.sent = [] := fun {x c} hc => by
      rcases getElem?_snoc hc with h | ⟨_, h⟩
      · exact .inl h
      · rw [h]; exact .inr rfl
    refine ⟨hs.hist, ?_, ?_, ?_, ?_⟩
    · intro x c m i mem hc hm
      rcases hn hc with h | h
      · exact hs.told x c m i mem h hm
      · rw [h] at hm; cases hm
    · intro x c m hc hm
      rcases hn hc with h | h
      · exact hs.gave x c m h hm
      · rw [h] at hm; cases hm
    · intro x c k m hc hm
      rcases hn hc with h | h
      · exact hs.first x c k m h hm
      · rw [h] at hm; simp at hm
    · intro x c m hc hm
      rcases hn hc with h | h
      · exact hs.ended x c m h hm
      · rw [h] at hm; simp at hm
  | upd x c c' hc hch =>
    have same : c'.sent = c.sent → (c'.phase = .ended → c.phase = .ended ∨ c'.closed = true ∨ (c.registered = false)) → (c.closed = true → c'.closed = true) → StoreInv cfg { s with peers := s.peers.set x c' } := fun e1 e2 e3 => by
      refine upd hs hc rfl rfl (fun m hm => .inl (e1 ▸ hm)) (fun k m hm => hs.first x c k m hc (e1 ▸ hm)) fun m hm ht hp => ?_
      rcases e2 hp with h | h | h
      · exact e3 (hs.ended x c m hc (e1 ▸ hm) ht h)
      · exact h
      · rw [e1, ((hi.conn x c hc).quiet h).1] at hm; simp at hm
    cases hch with
    | phase ph h1 h0 h2 =>
      refine same rfl (fun h => ?_) id
      simp only at h; subst h
      cases hcp : c.phase with
      | fresh => exact .inr (.inr (Bool.eq_false_iff.2 fun h => ((hi.conn x c hc).reg h).2.1 hcp))
      | checked => exact .inr (.inr (Bool.eq_false_iff.2 fun h => ((hi.conn x c hc).reg h).2.2.1 hcp))
      | shaken => exact .inr (.inr (Bool.eq_false_iff.2 fun h => ((hi.conn x c hc).reg h).2.2.2 hcp))
      | serving p => exact absurd hcp (h2.2.1 p)
      | leaving => exact .inr (.inl (h2.2.2 hcp))
      | ended => exact .inl rfl
      | hung => exact absurd hcp h2.1
    | send m h1 h2 h3 =>
      obtain ⟨hp, hbf, ha⟩ := hb.send x m h1
      refine upd hs hc rfl rfl (fun n hn => ?_) (fun k n hn ht => ?_) fun n hn ht hpe => ?_
      · rcases List.mem_append.1 hn with h | h
        · exact .inl h
        · rw [List.mem_singleton] at h; subst h
          exact .inr ⟨ha, fun h => absurd h hp⟩
      · rcases getElem?_snoc hn with h | ⟨_, h⟩
        · exact hs.first x c k n hc h ht
        · rw [h] at ht; exact absurd ht hbf
      · rcases getElem?_snoc hn with h | ⟨_, h⟩
        · exact hs.ended x c n hc h ht hpe
        · rw [h] at ht; exact absurd ht hbf
    | close h => exact same rfl (fun h => .inl h) fun _ => rfl
    | receive m rd rd' h1 h2 h3 h4 => exact same rfl (fun h => by cases h) id
    | _ => exact same rfl (fun h => .inl h) id
  | storage e f h1 h2 => exact grow e f h1 h2
  | upload x c q d f h0 h1 h2 h3 h4 h5 =>
    have hgen : Genuine cfg.store q.index q.begin d := by
      obtain ⟨es, hes⟩ := hs.hist
      cases hm : s.storage.mem with
      | none => exact absurd hm h5
      | some mem =>
        rw [hes] at h4 hm
        obtain ⟨hx, hy⟩ := hb.upload x q h0
        generalize hrun : runOp (getBlock cfg.store q.index q.begin q.length) (Storage.run cfg.store es World.empty) f = y at h4
        obtain ⟨o, w⟩ := y
        simp only at h4; subst h4
        obtain ⟨_, hl, h⟩ := Storage.C39_right_bytes hu es hm q.index q.begin q.length f (fun hne => ⟨(hf hne).1, (hf hne).2.1, by have := Int.mul_nonneg hx (hf hne).2.2; omega⟩) hrun
        have hln : q.length.toNat = d.length := by omega
        rcases h with ⟨hb0, i, e, hie, ⟨hv, hlen, _⟩, hsl⟩ | ⟨_, _, t, ds, _, _, hcs, hsl⟩
        · exact .inl ⟨hb0, i, e, hie, hv, hlen, by rw [← hln]; exact hsl⟩
        · exact .inr ⟨ds, hcs, by rw [← hln]; exact hsl⟩
    refine upd (grow (.get q.index q.begin q.length) f (by simp) h5) (c := c) h1 rfl rfl (fun n hn => ?_) (fun k n hn ht => ?_) fun n hn ht hpe => ?_
    · rcases List.mem_append.1 hn with h | h
      · exact .inl h
      · rw [List.mem_singleton] at h; subst h
        refine .inr ⟨fun i mem ha => ?_, fun _ => hgen⟩
        rcases ha with ⟨h, _⟩ | ⟨h, _⟩
        · exact absurd (show PIECE = HAVE from h) (by decide)
        · exact absurd (show PIECE = BITFIELD from h) (by decide)
    · rcases getElem?_snoc hn with h | ⟨_, h⟩
      · exact hs.first x c k n h1 h ht
      · rw [h] at ht; exact absurd (show PIECE = BITFIELD from ht) (by decide)
    · rcases getElem?_snoc hn with h | ⟨_, h⟩
      · exact hs.ended x c n h1 h ht hpe
      · rw [h] at ht; exact absurd (show PIECE = BITFIELD from ht) (by decide)
  | join x c ms ph h0 hc hp h1 h2 hj h3 =>
    have hq : c.sent = [] := ((hi.conn x c hc).quiet (Bool.eq_false_iff.2 fun h => ((hi.conn x c hc).reg h).2.2.2 hp)).1
    rcases hj with ⟨rfl, hph⟩ | ⟨hcl, rfl, mem, hm, rfl⟩
    · have hs0 : (c.join [] ph).sent = [] := by show c.sent ++ [] = []; rw [hq]; rfl
      refine upd hs hc rfl rfl (fun n hn => ?_) (fun k n hn ht => ?_) fun n hn ht hpe => ?_
      · rw [hs0] at hn; cases hn
      · rw [hs0] at hn; simp at hn
      · rw [hs0] at hn; simp at hn
    · have hs1 : (c.join [bitfieldMsg mem.bitfield] (.serving none)).sent = [bitfieldMsg mem.bitfield] := by show c.sent ++ _ = _; rw [hq]; rfl
      refine upd hs hc rfl rfl (fun n hn => ?_) (fun k n hn ht => ?_) fun n hn ht hpe => ?_
      · rw [hs1, List.mem_singleton] at hn; subst hn
        refine .inr ⟨fun i mem' ha hm' => ?_, fun h => absurd (show BITFIELD = PIECE from h) (by decide)⟩
        rw [hm] at hm'; cases hm'
        rcases ha with ⟨h, _⟩ | ⟨_, h⟩
        · exact absurd (show BITFIELD = HAVE from h) (by decide)
        · have h : Bitfield.bit mem.bitfield i = true := h
          have hlt : i < 8 * mem.bitfield.length := by
            rcases Nat.lt_or_ge i (8 * mem.bitfield.length) with h' | h'
            · exact h'
            · unfold Bitfield.bit at h; rw [List.getElem?_eq_none (by omega)] at h; cases h
          unfold Reported
          rw [Bitfield.has_nat _ _ hlt, h]
      · rw [hs1] at hn
        cases k with
        | zero => rfl
        | succ k => simp at hn
      · cases hpe
  | _ => exact keep rfl rfl

theorem mayOf_backed {s : State} (hu : Usable cfg.store) (hs : StoreInv cfg s) (hi : Inv cfg s) (e : Event) : Backed (mayOf cfg s e) s where
  send x m hm := by
    have no : ∀ {t : Int} (_ : m.typ = t), t ≠ HAVE → t ≠ BITFIELD → ∀ (i : Nat) (mem : Mem), Announces m i → s.storage.mem = some mem → Reported mem i := fun h h1 h2 i mem ha => by
      rcases ha with ⟨h', _⟩ | ⟨h', _⟩
      · exact absurd (h.symm.trans h') h1
      · exact absurd (h.symm.trans h') h2
    rcases hm with ⟨_, rfl, _⟩ | ⟨_, rfl, _⟩ | ⟨k, _, _, rfl⟩ | ⟨k, q, i, _, _, _, rfl⟩ | ⟨k, y, i, _, _, hr, rfl, _⟩
    · exact ⟨by decide, by decide, no (t := INTERESTED) rfl (by decide) (by decide)⟩
    · exact ⟨by decide, by decide, no (t := UNCHOKE) rfl (by decide) (by decide)⟩
    · exact ⟨by decide, by decide, no (t := NOT_INTERESTED) rfl (by decide) (by decide)⟩
    · exact ⟨by show REQUEST ≠ PIECE; decide, by show REQUEST ≠ BITFIELD; decide, no (t := REQUEST) rfl (by decide) (by decide)⟩
    · refine ⟨by show HAVE ≠ PIECE; decide, by show HAVE ≠ BITFIELD; decide, fun j mem ha hm => ?_⟩
      rcases ha with ⟨_, h⟩ | ⟨h, _⟩
      · have hji : j = i := by have : ((i : Nat) : Int) = j := h; omega
        subst hji
        obtain ⟨es, hes⟩ := hs.hist
        unfold canReturn at hr
        rw [hm] at hr
        rw [hes] at hm
        refine ((Storage.C45_consistent hu es hm).1 j).2 ?_
        simp only [Option.bind_some] at hr
        cases hp : mem.pieces[j]? with
        | none => rw [hp] at hr; cases hr
        | some p =>
          rw [hp] at hr
          simp only [Option.bind_some] at hr
          refine ⟨p, hp, ?_⟩
          cases hf : mem.futs[p.fut]? with
          | none => rw [hf] at hr; cases hr
          | some o =>
            rw [hf] at hr
            cases o with
            | none => cases hr
            | some e => simp at hr; rw [hr]
      · exact absurd (show HAVE = BITFIELD from h) (by decide)
  upload x q hm := by
    obtain ⟨_, _, c, hc, hp⟩ := hm
    have := (hi.conn x c hc).pend q hp
    exact ⟨this.1, this.2.1⟩

theorem StoreInv.smalls {s s' : State} (hu : Usable cfg.store) (hf : FilesOK cfg.store.info) (hs : StoreInv cfg s) (hi : Inv cfg s) (hg : Good may s) (hb : Backed may s) (h : Smalls cfg may s s') :
    StoreInv cfg s' := by
  suffices h' : StoreInv cfg s' ∧ Inv cfg s' ∧ Good may s' ∧ Backed may s' from h'.1
  induction h with
  | refl => exact ⟨hs, hi, hg, hb⟩
  | tail _ h1 ih =>
    obtain ⟨h2, h3, h4, h5⟩ := ih
    exact ⟨h2.small hu hf h3 h4 h5 h1, h3.small h4 h1, h4.small h1, h5.small hu h2 h1⟩

theorem store_run' (hu : Usable cfg.store) (hf : FilesOK cfg.store.info) (es0 : List (Storage.Event × List Fate)) (es : List (Event × Luck)) :
    StoreInv cfg (run cfg (init (Storage.run cfg.store es0 World.empty)) es) := by
  refine run_rec (cfg := cfg) (P := fun _ s => StoreInv cfg s) _ ⟨⟨es0, rfl⟩, ?_, ?_, ?_, ?_⟩ (fun es e ih => ?_) es
  · intro x c m i mem h; cases h
  · intro x c m h; cases h
  · intro x c k m h; cases h
  · intro x c m h; cases h
  · have hi := inv_run (cfg := cfg) (Storage.run cfg.store es0 World.empty) es
    exact ih.smalls hu hf hi (mayOf_good hi e.1) (mayOf_backed hu ih hi e.1) (step_small e hi.pendOK)

end Drip.P2P
