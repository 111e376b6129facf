import Verif.Model.PeerCodec
import Verif.Props.PeerWire
/-
Properties C121–C123 of /repo/api/peer/peer.go: values that are used again, writers that fail, and the memory a message takes.
-/

namespace Drip.PeerWire
open Drip.Spec

/-! ### Decoding into a value that has been used -/

/-- All that can be seen of a message through its methods (its type, its getters, its encoding) is the same. -/
def Message.Same (a b : Message) : Prop :=
  a.typ = b.typ ∧ a.getBitfield = b.getBitfield ∧ a.getIndex = b.getIndex ∧ a.getBegin = b.getBegin ∧ a.getLength = b.getLength ∧ a.getPiece = b.getPiece ∧
    a.encode = b.encode

theorem slice_cases (p : Bytes) (lo hi : Nat) : (∃ d, slice p lo hi = .ok d) ∨ slice p lo hi = .panic := by
  unfold slice
  split
  · exact .inl ⟨_, rfl⟩
  · exact .inr rfl

/-- What `fill` does, compared with decoding the payload into a new message. -/
theorem fill_spec (old : Message) (payload : Bytes) :
    (∀ m0, decodePayload payload = .ok m0 → ∃ m, old.fill payload = (.ok (), m) ∧ m.Same m0) ∧ (decodePayload payload = .panic → ∃ m, old.fill payload = (.panic, m)) ∧
      ∀ e, decodePayload payload ≠ .err e := by
  generalize ht : (payload.headD 0).toNat = t
  have s0 := slice_cases (payload.drop 1) 0 4
  have s1 := slice_cases (payload.drop 1) 4 8
  have s2 := slice_cases (payload.drop 1) 8 12
  have s3 := slice_cases (payload.drop 1) 8 (payload.drop 1).length
  unfold decodePayload Message.fill
  simp only [ht]
  by_cases h0 : (t : Int) = CHOKE ∨ (t : Int) = UNCHOKE ∨ (t : Int) = INTERESTED ∨ (t : Int) = NOT_INTERESTED
  · simp only [h0, if_true]
    refine ⟨fun m0 e => ⟨_, rfl, ?_⟩, fun e => (by cases e), fun e h => (by cases h)⟩
    cases e
    rcases h0 with h | h | h | h <;> simp [Message.Same, h, Message.getBitfield, Message.getIndex, Message.getBegin, Message.getLength, Message.getPiece, Message.encode,
      KEEPALIVE, CHOKE, UNCHOKE, INTERESTED, NOT_INTERESTED, HAVE, BITFIELD, REQUEST, PIECE, CANCEL]
  · simp only [h0, if_false]
    by_cases h5 : (t : Int) = BITFIELD
    · simp only [h5, if_true]
      refine ⟨fun m0 e => ⟨_, rfl, ?_⟩, fun e => (by cases e), fun e h => (by cases h)⟩
      cases e
      simp [Message.Same, Message.getBitfield, Message.getIndex, Message.getBegin, Message.getLength, Message.getPiece, Message.encode,
        KEEPALIVE, CHOKE, UNCHOKE, INTERESTED, NOT_INTERESTED, HAVE, BITFIELD, REQUEST, PIECE, CANCEL]
    · simp only [h5, if_false]
      by_cases h4 : (t : Int) = HAVE
      · simp only [h4, if_true]
        rcases s0 with ⟨i, s0⟩ | s0
        · simp only [s0, Res.bind_ok]
          refine ⟨fun m0 e => ⟨_, rfl, ?_⟩, fun e => (by cases e), fun e h => (by cases h)⟩
          cases e
          simp [Message.Same, Message.getBitfield, Message.getIndex, Message.getBegin, Message.getLength, Message.getPiece, Message.encode,
            KEEPALIVE, CHOKE, UNCHOKE, INTERESTED, NOT_INTERESTED, HAVE, BITFIELD, REQUEST, PIECE, CANCEL]
        · simp only [s0]
          exact ⟨fun m0 e => (by cases e), fun _ => ⟨_, rfl⟩, fun e h => (by cases h)⟩
      · simp only [h4, if_false]
        by_cases h6 : (t : Int) = REQUEST ∨ (t : Int) = CANCEL
        · simp only [h6, if_true]
          rcases s0 with ⟨i, s0⟩ | s0
          · rcases s1 with ⟨b, s1⟩ | s1
            · rcases s2 with ⟨l, s2⟩ | s2
              · simp only [s0, s1, s2, Res.bind_ok]
                refine ⟨fun m0 e => ⟨_, rfl, ?_⟩, fun e => (by cases e), fun e h => (by cases h)⟩
                cases e
                rcases h6 with h | h <;> simp [Message.Same, h, Message.getBitfield, Message.getIndex, Message.getBegin, Message.getLength, Message.getPiece, Message.encode,
                  KEEPALIVE, CHOKE, UNCHOKE, INTERESTED, NOT_INTERESTED, HAVE, BITFIELD, REQUEST, PIECE, CANCEL]
              · simp only [s0, s1, s2, Res.bind_ok]
                exact ⟨fun m0 e => (by cases e), fun _ => ⟨_, rfl⟩, fun e h => (by cases h)⟩
            · simp only [s0, s1, Res.bind_ok]
              exact ⟨fun m0 e => (by cases e), fun _ => ⟨_, rfl⟩, fun e h => (by cases h)⟩
          · simp only [s0]
            exact ⟨fun m0 e => (by cases e), fun _ => ⟨_, rfl⟩, fun e h => (by cases h)⟩
        · simp only [h6, if_false]
          by_cases h7 : (t : Int) = PIECE
          · simp only [h7, if_true]
            rcases s0 with ⟨i, s0⟩ | s0
            · rcases s1 with ⟨b, s1⟩ | s1
              · rcases s3 with ⟨d, s3⟩ | s3
                · simp only [s0, s1, s3, Res.bind_ok]
                  refine ⟨fun m0 e => ⟨_, rfl, ?_⟩, fun e => (by cases e), fun e h => (by cases h)⟩
                  cases e
                  simp [Message.Same, Message.getBitfield, Message.getIndex, Message.getBegin, Message.getLength, Message.getPiece, Message.encode,
                    KEEPALIVE, CHOKE, UNCHOKE, INTERESTED, NOT_INTERESTED, HAVE, BITFIELD, REQUEST, PIECE, CANCEL]
                · simp only [s0, s1, s3, Res.bind_ok]
                  exact ⟨fun m0 e => (by cases e), fun _ => ⟨_, rfl⟩, fun e h => (by cases h)⟩
              · simp only [s0, s1, Res.bind_ok]
                exact ⟨fun m0 e => (by cases e), fun _ => ⟨_, rfl⟩, fun e h => (by cases h)⟩
            · simp only [s0]
              exact ⟨fun m0 e => (by cases e), fun _ => ⟨_, rfl⟩, fun e h => (by cases h)⟩
          · simp only [h7, if_false]
            refine ⟨fun m0 e => ⟨_, rfl, ?_⟩, fun e => (by cases e), fun e h => (by cases h)⟩
            cases e
            have hk : (t : Int) ≠ KEEPALIVE := by unfold KEEPALIVE; omega
            simp only [not_or] at h0 h6
            simp [Message.Same, Message.getBitfield, Message.getIndex, Message.getBegin, Message.getLength, Message.getPiece, Message.encode, h0, h5, h4, h6, h7, hk]

/-- C121. Decoding into a message that has been used shows only what was read: if decoding into a new message succeeds, so does this, leaves the same rest of the
stream, and nothing that can be seen of the message depends on what it was before; if it fails, the message is as it was. -/
theorem C121_message (old : Message) (r : Rd) :
    (∀ m0 r', Message.decode r = .ok (m0, r') → ∃ m, old.decodeInto r = (.ok r', m) ∧ m.Same m0) ∧
    (∀ e, Message.decode r = .err e → old.decodeInto r = (.err e, old)) ∧
    (Message.decode r = .panic → ∃ m, old.decodeInto r = (.panic, m)) := by
  unfold Message.decode Message.decodeInto
  cases h1 : r.readFull 4 with
  | err e => exact ⟨fun _ _ h => (by cases h), fun _ h => (by cases h; rfl), fun h => (by cases h)⟩
  | panic => exact ⟨fun _ _ h => (by cases h), fun _ h => (by cases h), fun _ => ⟨_, rfl⟩⟩
  | ok x =>
    obtain ⟨lb, r1⟩ := x
    simp only [Res.bind_ok]
    by_cases h0 : be32 lb = 0
    · simp only [h0, if_true]
      refine ⟨fun m0 r' h => ?_, fun _ h => (by cases h), fun h => (by cases h)⟩
      cases h
      refine ⟨_, rfl, ?_⟩
      simp [Message.Same, Message.getBitfield, Message.getIndex, Message.getBegin, Message.getLength, Message.getPiece, Message.encode,
        KEEPALIVE, CHOKE, UNCHOKE, INTERESTED, NOT_INTERESTED, HAVE, BITFIELD, REQUEST, PIECE, CANCEL]
    · simp only [h0, if_false]
      cases h2 : r1.readFull (be32 lb) with
      | err e => exact ⟨fun _ _ h => (by cases h), fun _ h => (by cases h; rfl), fun h => (by cases h)⟩
      | panic => exact ⟨fun _ _ h => (by cases h), fun _ h => (by cases h), fun _ => ⟨_, rfl⟩⟩
      | ok y =>
        obtain ⟨payload, r2⟩ := y
        simp only [Res.bind_ok]
        obtain ⟨f1, f2, f3⟩ := fill_spec old payload
        cases h3 : decodePayload payload with
        | err e => exact absurd h3 (f3 e)
        | panic =>
          obtain ⟨m, e⟩ := f2 h3
          rw [e]
          exact ⟨fun _ _ h => (by cases h), fun _ h => (by cases h), fun _ => ⟨_, rfl⟩⟩
        | ok m0 =>
          obtain ⟨m, e, hs⟩ := f1 m0 h3
          rw [e]
          refine ⟨fun _ _ h => ?_, fun _ h => (by cases h), fun h => (by cases h)⟩
          cases h
          exact ⟨_, rfl, hs⟩

/-- C121. The same for a handshake. -/
theorem C121_handshake (old : Handshake) (r : Rd) :
    (∀ h0 r', Handshake.decode r = .ok (h0, r') → old.decodeInto r = (.ok r', h0)) ∧
    (∀ e, Handshake.decode r = .err e → old.decodeInto r = (.err e, old)) ∧ Handshake.decode r ≠ .panic ∧ ∀ h, old.decodeInto r ≠ (.panic, h) := by
  have hp : ∀ k (r : Rd), r.readFull k ≠ .panic := by
    intro k r
    unfold Rd.readFull
    dsimp only
    repeat' split
    all_goals simp
  unfold Handshake.decode Handshake.decodeInto
  cases h1 : r.read 1 with
  | err e => exact ⟨fun _ _ h => (by cases h), fun _ h => (by cases h; rfl), fun h => (by cases h), fun _ h => (by cases h)⟩
  | panic =>
    exfalso
    unfold Rd.read at h1
    repeat' split at h1
    all_goals cases h1
  | ok x =>
    obtain ⟨d0, r1⟩ := x
    simp only [Res.bind_ok]
    split
    · exact ⟨fun _ _ h => (by cases h), fun _ h => (by cases h; rfl), fun h => (by cases h), fun _ h => (by cases h)⟩
    · cases h2 : r1.readFull (handshakeLength - 1) with
      | err e => exact ⟨fun _ _ h => (by cases h), fun _ h => (by cases h; rfl), fun h => (by cases h), fun _ h => (by cases h)⟩
      | panic => exact absurd h2 (hp _ _)
      | ok y =>
        obtain ⟨rest, r2⟩ := y
        simp only [Res.bind_ok, Handshake.parse]
        split
        · exact ⟨fun _ _ h => (by cases h), fun _ h => (by cases h; rfl), fun h => (by cases h), fun _ h => (by cases h)⟩
        · exact ⟨fun _ _ h => (by cases h; rfl), fun _ h => (by cases h), fun h => (by cases h), fun _ h => (by cases h)⟩

theorem bytesReader_flat (data : Bytes) : (bytesReader data).flat = data := by
  unfold bytesReader
  split
  · rename_i h; simp [Rd.flat, h]
  · simp [Rd.flat]

theorem bytesReader_chunks (data : Bytes) : ∀ c ∈ (bytesReader data).chunks, c ≠ [] := by
  unfold bytesReader
  split
  · intro c hc; cases hc
  · rename_i h
    intro c hc
    rw [List.mem_singleton] at hc
    rw [hc]; exact h

/-! Two messages one after the other into the same value: nothing of the piece is left in the request. -/
example : ({ typ := KEEPALIVE } : Message).unmarshal (pieceMsg 3 16384 [1, 2]).encode = (.ok ⟨[], .eof⟩, pieceMsg 3 16384 [1, 2]) ∧
    (pieceMsg 3 16384 [1, 2]).unmarshal (have_ 9).encode = (.ok ⟨[], .eof⟩, { typ := HAVE, index := 9, begin := 16384, piece := [1, 2] }) ∧
    ({ typ := HAVE, index := 9, begin := 16384, piece := [1, 2] } : Message).Same (have_ 9) := by
  refine ⟨by decide +kernel, by decide +kernel, ?_⟩
  unfold Message.Same
  decide +kernel

/-! ### Writers that fail -/

theorem parts_encode (m : Message) : m.parts.1 ++ m.parts.2 = m.encode := by
  unfold Message.parts Message.encode
  repeat' split
  all_goals simp

/-- The contract of `io.Writer`: who takes less than it is given returns an error. -/
def Wr.Keeps (w : Wr) : Prop := ∀ e ∈ w.script, e.2 = true → e.1 = none

theorem write_keeps {d : Bytes} {w w' : Wr} {n : Nat} {ok : Bool} (hk : w.Keeps) (h : w.write d = (n, ok, w')) :
    w'.Keeps ∧ (∃ p, p <+: d ∧ w'.out = w.out ++ p) ∧ (ok = true → n = d.length ∧ w'.out = w.out ++ d) ∧ w'.script = w.script.tail ∧
      (ok = true ↔ ∀ e ∈ w.script.take 1, e.2 = true) := by
  unfold Wr.write at h
  split at h
  · rename_i hs
    injection h with h1 h; injection h with h2 h3
    subst h1; subst h2; subst h3
    refine ⟨fun e he => hk e he, ⟨d, List.prefix_refl d, rfl⟩, fun _ => ⟨rfl, rfl⟩, by simp [hs], by simp [hs]⟩
  · rename_i q ok' s hs
    injection h with h1 h; injection h with h2 h3
    subst h1; subst h2; subst h3
    refine ⟨fun e he => hk e (by rw [hs]; exact List.mem_cons_of_mem _ he), ⟨_, List.take_prefix _ _, rfl⟩, fun ho => ?_, by simp [hs], by simp [hs]⟩
    have : q = none := hk (q, ok') (by rw [hs]; exact List.mem_cons_self) ho
    subst this
    simp

/-- C122. Sending a message to a writer that keeps the contract of `io.Writer` never panics. It reports success exactly if both calls of `Write` succeed, and then
exactly the bytes of the message have been written; otherwise the first bytes of it have been written, and no others. -/
theorem C122_message (x : Wire) (hx : x.Fits) (w : Wr) (hk : w.Keeps) :
    ((∀ e ∈ w.script.take 2, e.2 = true) → ∃ w', (ofWire x).encodeTo w = (.ok (), w') ∧ w'.out = w.out ++ x.bytes) ∧
    (¬ (∀ e ∈ w.script.take 2, e.2 = true) → ∃ w' p, (ofWire x).encodeTo w = (.err .conn, w') ∧ p <+: x.bytes ∧ w'.out = w.out ++ p) := by
  rw [← C05_layout x hx, ← parts_encode]
  generalize ofWire x = m
  unfold Message.encodeTo
  rcases h1 : w.write m.parts.1 with ⟨n, ok, w1⟩
  obtain ⟨hk1, ⟨p1, hp1, ho1⟩, hok1, hs1, hi1⟩ := write_keeps hk h1
  have htake : w.script.take 2 = w.script.take 1 ++ w.script.tail.take 1 := by
    cases w.script with
    | nil => rfl
    | cons a s => simp
  cases ok with
  | false =>
    simp only [Bool.not_false, if_true]
    refine ⟨fun h => ?_, fun _ => ⟨w1, p1, rfl, hp1.trans (List.prefix_append _ _), ho1⟩⟩
    have := hi1.mpr fun e he => h e (by rw [htake]; exact List.mem_append_left _ he)
    cases this
  | true =>
    obtain ⟨hn, ho⟩ := hok1 rfl
    simp only [Bool.not_true, Bool.false_eq_true, if_false, hn, Nat.lt_irrefl]
    rcases h2 : w1.write m.parts.2 with ⟨n2, ok2, w2⟩
    obtain ⟨_, ⟨p2, hp2, ho2⟩, hok2, _, hi2⟩ := write_keeps hk1 h2
    rw [hs1] at hi2
    cases ok2 with
    | false =>
      simp only [Bool.not_false, if_true]
      refine ⟨fun h => ?_, fun _ => ⟨w2, m.parts.1 ++ p2, rfl, (List.prefix_append_right_inj _).mpr hp2, by rw [ho2, ho, List.append_assoc]⟩⟩
      have := hi2.mpr fun e he => h e (by rw [htake]; exact List.mem_append_right _ he)
      cases this
    | true =>
      obtain ⟨hn2, ho2⟩ := hok2 rfl
      simp only [Bool.not_true, Bool.false_eq_true, if_false, hn2, Nat.lt_irrefl]
      refine ⟨fun _ => ⟨w2, rfl, by rw [ho2, ho, List.append_assoc]⟩, fun h => absurd (fun e he => ?_) h⟩
      rw [htake] at he
      rcases List.mem_append.mp he with he | he
      · exact hi1.mp rfl e he
      · exact hi2.mp rfl e he

theorem write_any {d : Bytes} {w w' : Wr} {n : Nat} {ok : Bool} (h : w.write d = (n, ok, w')) :
    ∃ p, p <+: d ∧ w'.out = w.out ++ p ∧ n = p.length := by
  unfold Wr.write at h
  split at h
  · injection h with h1 h; injection h with h2 h3
    subst h1; subst h2; subst h3
    exact ⟨d, List.prefix_refl d, rfl, rfl⟩
  · injection h with h1 h; injection h with h2 h3
    subst h1; subst h2; subst h3
    exact ⟨_, List.take_prefix _ _, rfl, by rw [List.length_take]⟩

/-- C122. Whatever the writer does, also if it breaks the contract: what is written is the beginning of the message, and success is reported only if all of it has
been written. -/
theorem C122_success (x : Wire) (hx : x.Fits) (w : Wr) : ∃ p, p <+: x.bytes ∧ ((ofWire x).encodeTo w).2.out = w.out ++ p ∧
    (((ofWire x).encodeTo w).1 = .ok () → p = x.bytes) := by
  rw [← C05_layout x hx, ← parts_encode]
  generalize ofWire x = m
  unfold Message.encodeTo
  rcases h1 : w.write m.parts.1 with ⟨n, ok, w1⟩
  obtain ⟨p1, hp1, ho1, hn1⟩ := write_any h1
  dsimp only
  split
  · exact ⟨p1, hp1.trans (List.prefix_append _ _), ho1, fun h => by cases h⟩
  · split
    · exact ⟨p1, hp1.trans (List.prefix_append _ _), ho1, fun h => by cases h⟩
    · have e1 : p1 = m.parts.1 := hp1.eq_of_length_le (by omega)
      subst e1
      rcases h2 : w1.write m.parts.2 with ⟨n2, ok2, w2⟩
      obtain ⟨p2, hp2, ho2, hn2⟩ := write_any h2
      have hp : m.parts.1 ++ p2 <+: m.parts.1 ++ m.parts.2 := (List.prefix_append_right_inj _).mpr hp2
      have ho : w2.out = w.out ++ (m.parts.1 ++ p2) := by rw [ho2, ho1, List.append_assoc]
      dsimp only
      split
      · exact ⟨_, hp, ho, fun h => by cases h⟩
      · split
        · exact ⟨_, hp, ho, fun h => by cases h⟩
        · have e2 : p2 = m.parts.2 := hp2.eq_of_length_le (by omega)
          exact ⟨_, hp, ho, fun _ => by rw [e2]⟩

/-! A writer that takes three bytes of the first part and says that all is well. -/
example : (Wire.have_ 7).Fits ∧ (ofWire (.have_ 7)).encodeTo { script := [(some 3, true)] } = (.panic, { out := [0, 0, 0] }) := by
  refine ⟨?_, by decide +kernel⟩
  show _ < 2 ^ 32; decide

/-- C122. The same for a handshake, which is one call of `Write`. -/
theorem C122_handshake (h : Handshake) (w : Wr) (hk : w.Keeps) :
    ((∀ e ∈ w.script.take 1, e.2 = true) → ∃ w', h.encodeTo w = (.ok (), w') ∧ w'.out = w.out ++ h.encode) ∧
    (¬ (∀ e ∈ w.script.take 1, e.2 = true) → ∃ w' p, h.encodeTo w = (.err .conn, w') ∧ p <+: h.encode ∧ w'.out = w.out ++ p) := by
  unfold Handshake.encodeTo
  rcases h1 : w.write h.encode with ⟨n, ok, w1⟩
  obtain ⟨_, ⟨p1, hp1, ho1⟩, hok1, _, hi1⟩ := write_keeps hk h1
  cases ok with
  | false => exact ⟨fun h => (by cases hi1.mpr h), fun _ => ⟨w1, p1, rfl, hp1, ho1⟩⟩
  | true => exact ⟨fun _ => ⟨w1, rfl, (hok1 rfl).2⟩, fun h => absurd (hi1.mp rfl) h⟩

/-- C122. `MarshalBinary` gives the bytes that are sent, and `UnmarshalBinary` reads them back, into a new value or one that has been used; what follows is ignored. -/
theorem C122_binary (x : Wire) (hx : x.Fits) (old : Message) (rest : Bytes) :
    (ofWire x).marshal = .ok x.bytes ∧ ∃ r m, old.unmarshal (x.bytes ++ rest) = (.ok r, m) ∧ m.Same (ofWire x) := by
  constructor
  · obtain ⟨w', h1, h2⟩ := (C122_message x hx {} (fun e he => by cases he)).1 (fun e he => by cases he)
    unfold Message.marshal
    rw [h1]
    simpa using h2
  · obtain ⟨r', h1, _⟩ := C05_roundtrip x hx rest (bytesReader (x.bytes ++ rest)) (by rw [bytesReader_flat, C05_layout x hx])
    obtain ⟨m, h2, h3⟩ := (C121_message old (bytesReader (x.bytes ++ rest))).1 _ _ h1
    exact ⟨r', m, h2, h3⟩

theorem C122_handshake_binary (h : Handshake) (wf : h.WF) (old : Handshake) (rest : Bytes) :
    h.marshal = .ok h.encode ∧ ∃ r, old.unmarshal (h.encode ++ rest) = (.ok r, h) := by
  constructor
  · obtain ⟨w', h1, h2⟩ := (C122_handshake h {} (fun e he => by cases he)).1 (fun e he => by cases he)
    unfold Handshake.marshal
    rw [h1]
    simpa using h2
  · obtain ⟨r', h1, _⟩ := C08_roundtrip h wf rest (bytesReader (h.encode ++ rest)) (bytesReader_chunks _) (bytesReader_flat _)
    exact ⟨r', (C121_handshake old _).1 _ _ h1⟩

/-! A writer that takes three bytes of the second part and fails. -/
example : ({ script := [(none, true), (some 3, false)] } : Wr).Keeps ∧ (Wire.piece 1 0 [1, 2, 3, 4]).Fits ∧
    (ofWire (.piece 1 0 [1, 2, 3, 4])).encodeTo { script := [(none, true), (some 3, false)] } = (.err .conn, { out := [0, 0, 0, 13, 7, 0, 0, 0, 1, 0, 0, 0, 0, 1, 2, 3] }) := by
  refine ⟨?_, ?_, by decide +kernel⟩
  · intro e he
    simp only [List.mem_cons, List.not_mem_nil, or_false] at he
    rcases he with rfl | rfl <;> simp
  · show _ ∧ _ ∧ 9 + 4 < 2 ^ 32; decide

/-! ### Memory -/

/-- **C123 is false of the code**: four bytes make `ReadMessage` allocate 4294967295. -/
theorem C123_refuted : ∃ r : Rd, r.flat.length = 4 ∧ 4294967295 ∈ Message.buffers r := ⟨⟨[[255, 255, 255, 255]], .eof⟩, by decide +kernel, by decide +kernel⟩

/-- C123. What is true: what is allocated is the number in the first four bytes, and 4; so at most 4 GiB, and not more than was sent if the message is complete. -/
theorem C123_partial (r : Rd) : (Message.buffers r).sum ≤ 4 + announced r.flat ∧ (Message.buffers r).sum < 4 + 2 ^ 32 ∧
    ∀ m r', Message.decode r = .ok (m, r') → (Message.buffers r).sum ≤ r.flat.length := by
  have hlt := announced_lt r.flat
  have key : (Message.buffers r).sum ≤ 4 + announced r.flat := by
    unfold Message.buffers
    rcases Rd.readFull_spec 4 r with ⟨_, r1, e, _⟩ | ⟨_, e⟩
    · rw [e]
      have hb32 : be32 (r.flat.take 4) = announced r.flat := by rw [be32_take, be32_eq_announced]
      simp only [hb32]
      split <;> simp
    · rw [e]; simp
  refine ⟨key, by omega, fun m r' h => ?_⟩
  have hno : ¬ (∃ e, Message.decode r = .err e) := by rw [h]; rintro ⟨e, he⟩; cases he
  rw [(C07_outcome r).1] at hno
  omega

example : Message.buffers ⟨[(have_ 7).encode], .eof⟩ = [4, 5] ∧ (have_ 7).encode.length = 9 := by decide +kernel

end Drip.PeerWire
