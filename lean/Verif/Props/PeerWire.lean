import Verif.Lemmas.PeerWire
import Verif.Spec.PeerWire
/-
Properties C05–C09 of /repo/api/peer/peer.go.
-/

namespace Drip.PeerWire
open Drip.Spec

/-- The Go value built by the constructor for a wire message (peer.go:140-209). -/
def ofWire : Wire → Message
  | .keepalive => keepalive
  | .choke => choke
  | .unchoke => unchoke
  | .interested => interested
  | .notInterested => notInterested
  | .have_ i => have_ i
  | .bitfield b => bitfieldMsg b
  | .request i b l => request i b l
  | .piece i b d => pieceMsg i b d
  | .cancel i b l => cancel i b l

theorem put32_eq_u32 (n : Nat) (h : n < 2 ^ 32) : put32 n = u32 n := by
  unfold put32 u32
  have : ((n : Int) % 4294967296).toNat = n := by omega
  simp only [this]

theorem be32_eq_announced (bs : Bytes) : be32 bs = announced bs := by
  match bs with
  | [] => rfl
  | [_] => rfl
  | [_, _] => rfl
  | [_, _, _] => rfl
  | a :: b :: c :: d :: _ => simp only [be32, announced]; omega

theorem announced_u32 (n : Nat) (h : n < 2 ^ 32) (rest : Bytes) : announced (u32 n ++ rest) = n := by
  have := be32_put32 n rest
  rw [put32_eq_u32 n h, be32_eq_announced] at this
  omega

/-- C05 (layout). The encoder writes exactly the BEP 3 layout. -/
theorem C05_layout (w : Wire) (h : w.Fits) : (ofWire w).encode = w.bytes := by
  cases w <;> simp only [ofWire, Wire.Fits] at h ⊢ <;>
    simp only [keepalive, choke, unchoke, interested, notInterested, have_, bitfieldMsg, request, pieceMsg, cancel,
      Message.encode, KEEPALIVE, CHOKE, UNCHOKE, INTERESTED, NOT_INTERESTED, HAVE, BITFIELD, REQUEST, PIECE, CANCEL,
      Wire.bytes, Wire.content]
  · rfl
  · rfl
  · rfl
  · rfl
  · rfl
  · rename_i i
    rw [show (((1:Int) + 4)) = ((5:Nat):Int) from rfl, put32_eq_u32 5 (by omega), put32_eq_u32 i h]; rfl
  · rename_i b
    rw [show ((1:Int) + (b.length:Int)) = ((1 + b.length : Nat) : Int) by omega, put32_eq_u32 _ h]
    rfl
  · rename_i i b l
    rw [show (((1:Int) + 12)) = ((13:Nat):Int) from rfl, put32_eq_u32 13 (by omega), put32_eq_u32 i h.1,
      put32_eq_u32 b h.2.1, put32_eq_u32 l h.2.2]; rfl
  · rename_i i b d
    rw [put32_eq_u32 i h.1, put32_eq_u32 b h.2.1,
      show ((1:Int) + 8 + (d.length:Int)) = ((1 + (u32 i ++ u32 b ++ d).length : Nat) : Int) by simp [u32]; omega,
      put32_eq_u32 _ (by simp [u32]; omega)]
    rfl
  · rename_i i b l
    rw [show (((1:Int) + 12)) = ((13:Nat):Int) from rfl, put32_eq_u32 13 (by omega), put32_eq_u32 i h.1,
      put32_eq_u32 b h.2.1, put32_eq_u32 l h.2.2]; rfl

theorem u32_length (n : Nat) : (u32 n).length = 4 := rfl

theorem slice_u32 (n : Nat) (h : n < 2 ^ 32) (pre rest : Bytes) (lo hi : Nat) (hlo : lo = pre.length)
    (hhi : hi = pre.length + 4) : ∃ x, slice (pre ++ (u32 n ++ rest)) lo hi = .ok x ∧ be32 x = n := by
  subst hlo hhi
  unfold slice
  rw [if_pos (by simp [u32])]
  refine ⟨_, rfl, ?_⟩
  rw [List.drop_left, show pre.length + 4 - pre.length = 4 by omega, be32_take, be32_eq_announced, announced_u32 n h]

theorem decodePayload_wire (w : Wire) (h : w.Fits) (id : UInt8) (p : Bytes) (hc : w.content = some (id, p)) :
    decodePayload (id :: p) = .ok (ofWire w) := by
  cases w <;> simp only [Wire.content, Option.some.injEq, Prod.mk.injEq, reduceCtorEq] at hc <;>
    obtain ⟨rfl, rfl⟩ := hc <;> simp only [Wire.Fits] at h
  · rfl
  · rfl
  · rfl
  · rfl
  · rename_i i
    obtain ⟨x, hx, hb⟩ := slice_u32 i h [] [] 0 4 rfl rfl
    simp only [List.nil_append, List.append_nil] at hx
    simp [decodePayload, CHOKE, UNCHOKE, INTERESTED, NOT_INTERESTED, HAVE, BITFIELD, hx, hb, ofWire, have_]
  · rfl
  · rename_i i b l
    obtain ⟨x, hx, hxb⟩ := slice_u32 i h.1 [] (u32 b ++ u32 l) 0 4 rfl rfl
    obtain ⟨y, hy, hyb⟩ := slice_u32 b h.2.1 (u32 i) (u32 l) 4 8 rfl rfl
    obtain ⟨z, hz, hzb⟩ := slice_u32 l h.2.2 (u32 i ++ u32 b) [] 8 12 rfl rfl
    simp only [List.nil_append, List.append_nil, List.append_assoc] at hx hy hz
    simp [decodePayload, CHOKE, UNCHOKE, INTERESTED, NOT_INTERESTED, HAVE, BITFIELD, REQUEST, CANCEL,
      hx, hy, hz, hxb, hyb, hzb, ofWire, request]
  · rename_i i b d
    obtain ⟨x, hx, hxb⟩ := slice_u32 i h.1 [] (u32 b ++ d) 0 4 rfl rfl
    obtain ⟨y, hy, hyb⟩ := slice_u32 b h.2.1 (u32 i) d 4 8 rfl rfl
    simp only [List.nil_append] at hx hy
    have hz : slice (u32 i ++ (u32 b ++ d)) 8 (u32 i ++ (u32 b ++ d)).length = .ok d := by
      unfold slice
      rw [if_pos (by simp [u32])]
      simp [u32]
    simp only [decodePayload, List.append_assoc, List.headD_cons, List.drop_succ_cons, List.drop_zero]
    simp [CHOKE, UNCHOKE, INTERESTED, NOT_INTERESTED, HAVE, BITFIELD, REQUEST, CANCEL, PIECE,
      hx, hy, hxb, hyb, ofWire, pieceMsg] at hz ⊢
    simp [hz]
  · rename_i i b l
    obtain ⟨x, hx, hxb⟩ := slice_u32 i h.1 [] (u32 b ++ u32 l) 0 4 rfl rfl
    obtain ⟨y, hy, hyb⟩ := slice_u32 b h.2.1 (u32 i) (u32 l) 4 8 rfl rfl
    obtain ⟨z, hz, hzb⟩ := slice_u32 l h.2.2 (u32 i ++ u32 b) [] 8 12 rfl rfl
    simp only [List.nil_append, List.append_nil, List.append_assoc] at hx hy hz
    simp [decodePayload, CHOKE, UNCHOKE, INTERESTED, NOT_INTERESTED, HAVE, BITFIELD, REQUEST, CANCEL,
      hx, hy, hz, hxb, hyb, hzb, ofWire, cancel]

theorem content_fits (w : Wire) (h : w.Fits) (id : UInt8) (p : Bytes) (hc : w.content = some (id, p)) :
    1 + p.length < 2 ^ 32 := by
  cases w <;> simp only [Wire.content, Option.some.injEq, Prod.mk.injEq, reduceCtorEq] at hc <;>
    obtain ⟨rfl, rfl⟩ := hc <;> simp only [Wire.Fits] at h <;> simp [u32] <;> omega

/-- C05. Reading from any stream (however segmented) that starts with an encoded message returns that message and
leaves exactly the bytes after it. -/
theorem C05_roundtrip (w : Wire) (h : w.Fits) (rest : Bytes) (r : Rd)
    (hr : r.flat = (ofWire w).encode ++ rest) :
    ∃ r', Message.decode r = .ok (ofWire w, r') ∧ r'.flat = rest ∧ r'.final = r.final := by
  rw [C05_layout w h] at hr
  unfold Message.decode
  cases hc : w.content with
  | none =>
    have hw : w = .keepalive := by cases w <;> simp [Wire.content] at hc ⊢
    subst hw
    simp only [Wire.bytes, Wire.content] at hr
    rcases Rd.readFull_spec 4 r with ⟨_, r', e, hf, hfin, _⟩ | ⟨hlt, _⟩
    · rw [e]
      have : be32 (r.flat.take 4) = 0 := by
        rw [be32_take, hr, be32_eq_announced, announced_u32 0 (by omega)]
      simp only [Res.bind_ok, this, if_true]
      exact ⟨r', rfl, by rw [hf, hr]; rfl, hfin⟩
    · rw [hr] at hlt; simp [u32] at hlt; omega
  | some x =>
    obtain ⟨id, p⟩ := x
    have hlen := content_fits w h id p hc
    simp only [Wire.bytes, hc] at hr
    rcases Rd.readFull_spec 4 r with ⟨_, r1, e, hf, hfin, _⟩ | ⟨hlt, _⟩
    · rw [e]
      have hb : be32 (r.flat.take 4) = 1 + p.length := by
        rw [be32_take, hr, be32_eq_announced, List.append_assoc, announced_u32 _ (by omega)]
      simp only [Res.bind_ok, hb]
      rw [if_neg (by omega)]
      have hf1 : r1.flat = id :: p ++ rest := by rw [hf, hr]; simp [u32]
      rcases Rd.readFull_spec (1 + p.length) r1 with ⟨_, r2, e2, hf2, hfin2, _⟩ | ⟨hlt, _⟩
      · rw [e2]
        have hp : r1.flat.take (1 + p.length) = id :: p := by
          rw [hf1]; apply List.take_left'; simp; omega
        simp only [Res.bind_ok, hp, decodePayload_wire w h id p hc]
        refine ⟨r2, rfl, ?_, hfin2.trans hfin⟩
        rw [hf2, hf1]; apply List.drop_left'; simp; omega
      · rw [hf1] at hlt; simp at hlt; omega
    · rw [hr] at hlt; simp [u32] at hlt; omega

/-- C05's hypotheses are met by a PIECE message arriving in three segments followed by another message. -/
example : (Wire.piece 1 16384 [1, 2, 3]).Fits := by simp [Wire.Fits]
example : Message.decode { chunks := [[0, 0, 0], [12, 7, 0, 0, 0, 1, 0, 0, 64, 0, 1], [2, 3, 0, 0, 0, 0]] } =
    .ok (pieceMsg 1 16384 [1, 2, 3], { chunks := [[0, 0, 0, 0]] }) := by decide

/-- C06. Reading the concatenation of any list of messages gives back the list and then the end of the stream. -/
theorem C06_stream (ws : List Wire) (h : ∀ w ∈ ws, w.Fits) (r : Rd)
    (hr : r.flat = (ws.map fun w => (ofWire w).encode).flatten) (n : Nat) (hn : ws.length < n) :
    readAll n r = (ws.map ofWire, .err r.final) := by
  induction ws generalizing r n with
  | nil =>
    cases n with
    | zero => omega
    | succ n =>
      simp only [readAll, Message.decode]
      rcases Rd.readFull_spec 4 r with ⟨hle, _⟩ | ⟨_, e⟩
      · rw [hr] at hle; simp at hle
      · rw [e, hr]; simp [Rd.shortErr]
  | cons w ws ih =>
    cases n with
    | zero => omega
    | succ n =>
      simp only [List.map_cons, List.flatten_cons] at hr
      obtain ⟨r', e, hf, hfin⟩ := C05_roundtrip w (h w (by simp)) _ r hr
      simp only [readAll, e]
      rw [ih (fun v hv => h v (by simp [hv])) r' hf n (by simp at hn; omega)]
      simp [hfin]

theorem ofWire_injective (a b : Wire) (h : ofWire a = ofWire b) : a = b := by
  cases a <;> cases b <;>
    simp_all [ofWire, keepalive, choke, unchoke, interested, notInterested, have_, bitfieldMsg, request, pieceMsg,
      cancel, KEEPALIVE, CHOKE, UNCHOKE, INTERESTED, NOT_INTERESTED, HAVE, BITFIELD, REQUEST, PIECE, CANCEL] <;> omega

/-- C06. Different message lists give different byte streams. -/
theorem C06_injective (as bs : List Wire) (ha : ∀ w ∈ as, w.Fits) (hb : ∀ w ∈ bs, w.Fits)
    (h : (as.map fun w => (ofWire w).encode).flatten = (bs.map fun w => (ofWire w).encode).flatten) : as = bs := by
  let r : Rd := { chunks := [(as.map fun w => (ofWire w).encode).flatten] }
  have e1 := C06_stream as ha r (by simp [r, Rd.flat]) (as.length + bs.length + 1) (by omega)
  have e2 := C06_stream bs hb r (by simp [r, Rd.flat, h]) (as.length + bs.length + 1) (by omega)
  rw [e1] at e2
  injection e2 with e2 _
  have hinj : ∀ (xs ys : List Wire), xs.map ofWire = ys.map ofWire → xs = ys := by
    intro xs
    induction xs with
    | nil => intro ys h; cases ys <;> simp at h ⊢
    | cons x xs ih =>
      intro ys h
      cases ys with
      | nil => simp at h
      | cons y ys =>
        simp only [List.map_cons, List.cons.injEq] at h
        rw [ofWire_injective x y h.1, ih ys h.2]
  exact hinj as bs e2

example : ∀ w ∈ [Wire.choke, .have_ 7, .keepalive], w.Fits := by simp [Wire.Fits]

/-- The outcome of `ReadMessage` on a complete frame with type byte `t` and the given body. -/
theorem decodePayload_cases (t : UInt8) (body : Bytes) :
    (decodePayload (t :: body) = .panic ↔ body.length < minBody t) ∧
    (∀ e, decodePayload (t :: body) ≠ .err e) := by
  have key : ∀ t : UInt8, ((t.toNat : Int) = 4 ↔ t = 4) ∧ ((t.toNat : Int) = 6 ↔ t = 6) ∧
      ((t.toNat : Int) = 7 ↔ t = 7) ∧ ((t.toNat : Int) = 8 ↔ t = 8) ∧ ((t.toNat : Int) = 5 ↔ t = 5) ∧
      ((t.toNat : Int) = 0 ↔ t = 0) ∧ ((t.toNat : Int) = 1 ↔ t = 1) ∧ ((t.toNat : Int) = 2 ↔ t = 2) ∧
      ((t.toNat : Int) = 3 ↔ t = 3) := by
    intro t
    refine ⟨?_, ?_, ?_, ?_, ?_, ?_, ?_, ?_, ?_⟩ <;>
      exact ⟨fun h => UInt8.toNat_inj.mp (by simpa using (by omega : t.toNat = _)), fun h => by subst h; rfl⟩
  obtain ⟨h4, h6, h7, h8, h5, h0, h1, h2, h3⟩ := key t
  simp only [decodePayload, List.headD_cons, List.drop_succ_cons, List.drop_zero, CHOKE, UNCHOKE, INTERESTED,
    NOT_INTERESTED, BITFIELD, HAVE, REQUEST, CANCEL, PIECE, h0, h1, h2, h3, h4, h5, h6, h7, h8, minBody, slice]
  constructor
  · repeat' split
    all_goals simp_all
    all_goals first | omega | skip
  · intro e
    repeat' split
    all_goals simp

/-- C07. Exact outcome of `ReadMessage` on an arbitrary stream that ends with end-of-file. -/
theorem C07_outcome (r : Rd) :
    ((∃ e, Message.decode r = .err e) ↔
        r.flat.length < 4 ∨ r.flat.length < 4 + announced r.flat) ∧
    (Message.decode r = .panic ↔
        4 ≤ r.flat.length ∧ 4 + announced r.flat ≤ r.flat.length ∧
          ∃ t, r.flat[4]? = some t ∧ 0 < announced r.flat ∧ announced r.flat - 1 < minBody t) ∧
    (∀ m r', Message.decode r = .ok (m, r') → r'.flat = r.flat.drop (4 + announced r.flat)) := by
  unfold Message.decode
  rcases Rd.readFull_spec 4 r with ⟨hle, r1, e, hf, hfin, _⟩ | ⟨hlt, e⟩
  · rw [e]
    have hb32 : be32 (r.flat.take 4) = announced r.flat := by rw [be32_take, be32_eq_announced]
    simp only [Res.bind_ok, hb32]
    by_cases h0 : announced r.flat = 0
    · simp only [h0, if_true]
      refine ⟨?_, ?_, ?_⟩
      · simp; omega
      · simp
      · intro m r' h; injection h with h; injection h with _ h; subst h; simpa using hf
    · rw [if_neg h0]
      rcases Rd.readFull_spec (announced r.flat) r1 with ⟨hle2, r2, e2, hf2, hfin2, _⟩ | ⟨hlt2, e2⟩
      · rw [e2]
        simp only [Res.bind_ok]
        have hlen : r1.flat.length = r.flat.length - 4 := by rw [hf]; simp
        obtain ⟨t, body, hb⟩ : ∃ t body, r1.flat.take (announced r.flat) = t :: body := by
          cases hq : r1.flat.take (announced r.flat) with
          | nil =>
            have := congrArg List.length hq
            rw [List.length_take, List.length_nil] at this; omega
          | cons t body => exact ⟨t, body, rfl⟩
        have hbl : body.length = announced r.flat - 1 := by
          have := congrArg List.length hb
          simp at this; omega
        have ht : r.flat[4]? = some t := by
          have h1 : (r1.flat.take (announced r.flat))[0]? = some t := by rw [hb]; rfl
          rw [List.getElem?_take_of_lt (by omega), hf, List.getElem?_drop] at h1
          exact h1
        have hp := decodePayload_cases t body
        rw [hb, ht]
        refine ⟨?_, ?_, ?_⟩
        · constructor
          · rintro ⟨e, h⟩
            cases hd : decodePayload (t :: body) with
            | ok m => rw [hd] at h; simp at h
            | err e => exact absurd hd (hp.2 e)
            | panic => rw [hd] at h; simp at h
          · intro h; omega
        · constructor
          · intro h
            refine ⟨hle, by omega, t, rfl, by omega, ?_⟩
            rw [← hbl, ← hp.1]
            cases hd : decodePayload (t :: body) with
            | ok m => rw [hd] at h; simp at h
            | err e => exact absurd hd (hp.2 e)
            | panic => rfl
          · rintro ⟨_, _, t', ht', _, hm⟩
            injection ht' with ht'; subst ht'
            rw [← hbl, ← hp.1] at hm
            rw [hm]; rfl
        · intro m r' h
          cases hd : decodePayload (t :: body) with
          | ok m' =>
            rw [hd] at h; simp at h
            obtain ⟨_, rfl⟩ := h
            rw [hf2, hf, List.drop_drop]
          | err e => exact absurd hd (hp.2 e)
          | panic => rw [hd] at h; simp at h
      · rw [e2]
        have hlen : r1.flat.length = r.flat.length - 4 := by rw [hf]; simp
        refine ⟨?_, ?_, ?_⟩
        · simp; omega
        · simp; omega
        · simp
  · rw [e]
    refine ⟨?_, ?_, ?_⟩
    · simp; omega
    · simp; omega
    · simp

/-- C07, witness: a five-byte HAVE frame without its index crashes the reader; so does an 8-byte PIECE. -/
example : Message.decode { chunks := [[0, 0, 0, 1, 4]] } = .panic := by decide
example : Message.decode { chunks := [[0, 0, 0, 8, 7, 0, 0, 0, 0, 0, 0, 0]] } = .panic := by decide
/-- C07, unknown types are accepted. -/
example : Message.decode { chunks := [[0, 0, 0, 2, 20, 0]] } = .ok ({ typ := 20 }, { chunks := [] }) := by decide

theorem u32_announced (bs : Bytes) (h : bs.length = 4) : u32 (announced bs) = bs := by
  match bs, h with
  | [a, b, c, d], _ =>
    have ha := a.toNat_lt; have hb := b.toNat_lt; have hc := c.toNat_lt; have hd := d.toNat_lt
    simp only [u32, announced]
    have e : ∀ (x : UInt8) (n : Nat), n % 256 = x.toNat → UInt8.ofNat n = x := by
      intro x n h
      apply UInt8.toNat_inj.mp
      simp only [UInt8.toNat_ofNat']
      exact h
    rw [e a _ (by omega), e b _ (by omega), e c _ (by omega), e d _ (by omega)]

theorem announced_lt (bs : Bytes) : announced bs < 2 ^ 32 := by
  rw [← be32_eq_announced]; exact be32_lt bs

/-- Bytes after the id byte in a well-formed frame, by id; `none` when any number is allowed. -/
def exactBody (id : UInt8) (n : Nat) : Prop :=
  if id = 4 then n = 4 else if id = 6 ∨ id = 8 then n = 12 else if id = 7 then 8 ≤ n else if id = 5 then True
  else id < 4 ∧ n = 0

/-- C07 (completeness). Every complete frame that is well formed under BEP 3 is the encoding of a message, so by C05
`ReadMessage` returns exactly that message. -/
theorem C07_wellformed (bs : Bytes) (id : UInt8) (body rest : Bytes) (hn : announced bs = 1 + body.length)
    (hb : bs = bs.take 4 ++ id :: body ++ rest) (hx : exactBody id body.length) (r : Rd) (hr : r.flat = bs) :
    ∃ w : Wire, w.Fits ∧ w.content = some (id, body) ∧
      ∃ r', Message.decode r = .ok (ofWire w, r') ∧ r'.flat = rest := by
  have hlt : 1 + body.length < 2 ^ 32 := hn ▸ announced_lt bs
  have h4 : (bs.take 4).length = 4 := by
    have : 0 < announced bs := by omega
    match bs with
    | [] => simp [announced] at this
    | [_] => simp [announced] at this
    | [_, _] => simp [announced] at this
    | [_, _, _] => simp [announced] at this
    | _ :: _ :: _ :: _ :: _ => rfl
  have hpre : bs.take 4 = u32 (1 + body.length) := by
    rw [← hn, ← be32_eq_announced, ← be32_take, be32_eq_announced, u32_announced _ h4]
  have fin : ∀ w : Wire, w.Fits → w.content = some (id, body) →
      ∃ w : Wire, w.Fits ∧ w.content = some (id, body) ∧
      ∃ r', Message.decode r = .ok (ofWire w, r') ∧ r'.flat = rest := by
    intro w hf hc
    obtain ⟨r', e, h, _⟩ := C05_roundtrip w hf rest r (by
      rw [C05_layout w hf, hr, hb, hpre]
      simp [Wire.bytes, hc, u32])
    exact ⟨w, hf, hc, r', e, h⟩
  have split3 : ∀ (b : Bytes), 8 ≤ b.length →
      b = u32 (announced b) ++ u32 (announced (b.drop 4)) ++ b.drop 8 := by
    intro b hb
    have h1 := u32_announced (b.take 4) (by simp; omega)
    have h2 := u32_announced ((b.drop 4).take 4) (by simp; omega)
    rw [← be32_eq_announced, be32_take, be32_eq_announced] at h1 h2
    rw [h1, h2]
    conv => lhs; rw [← List.take_append_drop 4 b, ← List.take_append_drop 4 (b.drop 4)]
    simp
  unfold exactBody at hx
  split at hx
  · subst id
    refine fin (.have_ (announced body)) (announced_lt _) ?_
    simp [Wire.content, u32_announced body hx]
  split at hx
  · have e := split3 body (by omega)
    have e3 := u32_announced (body.drop 8) (by simp; omega)
    rename_i hid
    rcases hid with hid | hid <;> subst hid
    · refine fin (.request (announced body) (announced (body.drop 4)) (announced (body.drop 8)))
        ⟨announced_lt _, announced_lt _, announced_lt _⟩ ?_
      simp only [Wire.content, e3, ← e]
    · refine fin (.cancel (announced body) (announced (body.drop 4)) (announced (body.drop 8)))
        ⟨announced_lt _, announced_lt _, announced_lt _⟩ ?_
      simp only [Wire.content, e3, ← e]
  split at hx
  · have e := split3 body hx
    subst id
    refine fin (.piece (announced body) (announced (body.drop 4)) (body.drop 8))
        ⟨announced_lt _, announced_lt _, by simp; omega⟩ ?_
    simp only [Wire.content, ← e]
  split at hx
  · subst id
    exact fin (.bitfield body) hlt rfl
  · obtain ⟨hid, h0⟩ := hx
    have hb0 : body = [] := List.length_eq_zero_iff.mp h0
    subst hb0
    have : id = 0 ∨ id = 1 ∨ id = 2 ∨ id = 3 := by
      have hid' : id.toNat < 4 := hid
      have : id.toNat = 0 ∨ id.toNat = 1 ∨ id.toNat = 2 ∨ id.toNat = 3 := by omega
      rcases this with h | h | h | h
      · exact Or.inl (UInt8.toNat_inj.mp h)
      · exact Or.inr (Or.inl (UInt8.toNat_inj.mp h))
      · exact Or.inr (Or.inr (Or.inl (UInt8.toNat_inj.mp h)))
      · exact Or.inr (Or.inr (Or.inr (UInt8.toNat_inj.mp h)))
    rcases this with h | h | h | h <;> subst h
    · exact fin .choke trivial rfl
    · exact fin .unchoke trivial rfl
    · exact fin .interested trivial rfl
    · exact fin .notInterested trivial rfl

/-- A HAVE for piece 9, cut into reads in the middle, with another byte behind it. -/
example : ∃ w : Wire, w.Fits ∧ w.content = some (4, [0, 0, 0, 9]) ∧ ∃ r', Message.decode { chunks := [[0, 0], [0, 5, 4, 0], [0, 0, 9, 77]] } = .ok (ofWire w, r') ∧ r'.flat = [77] :=
  C07_wellformed [0, 0, 0, 5, 4, 0, 0, 0, 9, 77] 4 [0, 0, 0, 9] [77] (by decide) (by decide) (by simp [exactBody]) _ (by decide)

/-! ### Handshake -/

theorem read_one (r : Rd) (hne : ∀ c ∈ r.chunks, c ≠ []) :
    (r.flat = [] ∧ r.read 1 = .err r.final) ∨
    ∃ x xs r', r.flat = x :: xs ∧ r.read 1 = .ok ([x], r') ∧ r'.flat = xs ∧ r'.final = r.final ∧
      ∀ c ∈ r'.chunks, c ≠ [] := by
  obtain ⟨chunks, final⟩ := r
  cases chunks with
  | nil => left; exact ⟨rfl, rfl⟩
  | cons c cs =>
    right
    cases c with
    | nil => exact absurd rfl (hne [] (by simp))
    | cons x xs =>
      cases xs with
      | nil =>
        refine ⟨x, cs.flatten, ⟨cs, final⟩, by simp [Rd.flat], by simp [Rd.read], rfl, rfl, ?_⟩
        intro c hc; exact hne c (by simp at hc ⊢; exact Or.inr hc)
      | cons y ys =>
        refine ⟨x, y :: ys ++ cs.flatten, ⟨(y :: ys) :: cs, final⟩, by simp [Rd.flat], by simp [Rd.read],
          by simp [Rd.flat], rfl, ?_⟩
        intro c hc
        simp at hc
        rcases hc with hc | hc
        · subst hc; simp
        · exact hne c (by simp [hc])

/-- The protocol header of BEP 3: byte 19 and the 19-byte protocol name. -/
def header : Bytes := 19 :: b!"BitTorrent protocol"

/-- C08. An encoded handshake has 68 bytes with the BEP 3 layout. -/
theorem C08_layout (h : Handshake) (wf : h.WF) :
    h.encode = header ++ [0, 0, 0, 0, 0, 0, 0, 0] ++ h.infoHash ++ h.peerID ∧ h.encode.length = 68 := by
  obtain ⟨h1, h2⟩ := wf
  constructor
  · rfl
  · simp [Handshake.encode, h1, h2, protocol]

/-- The outcome of the handshake decoder as a function of the flat byte stream. -/
def handshakeOutcome (bs : Bytes) (final : Err) : Res (Handshake × Bytes) :=
  match bs with
  | [] => .err final
  | x :: xs =>
    if x ≠ 19 then .err .badProtocol
    else if xs.length < 67 then .err (Rd.shortErr xs.length final)
    else if xs.take 19 ≠ b!"BitTorrent protocol" then .err .badProtocol
    else .ok ({ infoHash := (bs.drop 28).take 20, peerID := (bs.drop 48).take 20 }, bs.drop 68)

/-- A reader result with the unread part flattened. -/
def flatRes {α : Type} : Res (α × Rd) → Res (α × Bytes × Err)
  | .ok (a, r) => .ok (a, r.flat, r.final)
  | .err e => .err e
  | .panic => .panic

theorem handshake_decode_eq (r : Rd) (hne : ∀ c ∈ r.chunks, c ≠ []) :
    flatRes (Handshake.decode r) =
      (handshakeOutcome r.flat r.final).map fun x => (x.1, x.2, r.final) := by
  unfold Handshake.decode
  rcases read_one r hne with ⟨h, e⟩ | ⟨x, xs, r1, hfl, e, hf1, hfin1, hne1⟩
  · rw [e, h]; simp [flatRes, handshakeOutcome, Res.map]
  · rw [e, hfl]
    have hx : (x.toNat ≠ protocol.length) ↔ x ≠ 19 := by
      rw [show protocol.length = (19 : UInt8).toNat from rfl, Ne, Ne, UInt8.toNat_inj]
    simp only [Res.bind_ok, List.headD_cons, hx, handshakeOutcome]
    split
    · simp [flatRes, Res.map]
    · rename_i h19
      simp only [ne_eq, Decidable.not_not] at h19
      subst h19
      rw [show handshakeLength - 1 = 67 from rfl]
      rcases Rd.readFull_spec 67 r1 with ⟨hle, r2, e2, hf2, hfin2, _⟩ | ⟨hlt, e2⟩
      · rw [e2, hf1]
        rw [hf1] at hle
        rw [if_neg (by omega)]
        simp only [Res.bind_ok]
        have e3 : (List.drop 1 ([19] ++ List.take 67 xs)).take (UInt8.toNat 19) = xs.take 19 := by
          simp [List.take_take]
        by_cases hp : xs.take 19 = b!"BitTorrent protocol"
        · have : Handshake.parse ([19] ++ List.take 67 xs) =
              .ok { infoHash := ((19 :: xs).drop 28).take 20, peerID := ((19 :: xs).drop 48).take 20 } := by
            refine (if_neg (fun h => h (e3.trans hp))).trans ?_
            simp [List.drop_take, List.take_take]
          rw [this, if_neg (by simp [hp])]
          simp [flatRes, Res.map, hf2, hf1, hfin2, hfin1]
        · have : Handshake.parse ([19] ++ List.take 67 xs) = .err .badProtocol := by
            exact if_pos (fun h => hp (e3.symm.trans h))
          rw [this, if_pos hp]
          simp [flatRes, Res.map]
      · rw [e2, hf1]
        rw [hf1] at hlt
        rw [if_pos hlt]
        simp [flatRes, Res.map, hfin1]

/-- C08. `ReadHandshake` succeeds exactly on the streams that start with the BEP 3 header and have at least 68 bytes;
it then returns bytes 28..47 and 48..67 and consumes exactly 68 bytes, whatever the reserved bytes are. Never panics. -/
theorem C08_accept (r : Rd) (hne : ∀ c ∈ r.chunks, c ≠ []) :
    ((∃ h r', Handshake.decode r = .ok (h, r')) ↔ r.flat.take 20 = header ∧ 68 ≤ r.flat.length) ∧
    (∀ h r', Handshake.decode r = .ok (h, r') →
      h.infoHash = (r.flat.drop 28).take 20 ∧ h.peerID = (r.flat.drop 48).take 20 ∧ r'.flat = r.flat.drop 68) ∧
    Handshake.decode r ≠ .panic := by
  have key := handshake_decode_eq r hne
  have hok : ∀ bs final, (∃ y, handshakeOutcome bs final = .ok y) ↔ bs.take 20 = header ∧ 68 ≤ bs.length := by
    intro bs final
    cases bs with
    | nil => simp [handshakeOutcome]
    | cons x xs =>
      simp only [handshakeOutcome, header, List.take_succ_cons, List.cons.injEq, List.length_cons]
      repeat' split
      all_goals simp_all <;> omega
  refine ⟨?_, ?_, ?_⟩
  · rw [← hok r.flat r.final]
    constructor
    · rintro ⟨h, r', e⟩
      rw [e] at key
      cases hh : handshakeOutcome r.flat r.final with
      | ok y => exact ⟨y, rfl⟩
      | err _ => rw [hh] at key; simp [flatRes, Res.map] at key
      | panic => rw [hh] at key; simp [flatRes, Res.map] at key
    · rintro ⟨y, e⟩
      rw [e] at key
      cases hh : Handshake.decode r with
      | ok y => exact ⟨y.1, y.2, rfl⟩
      | err _ => rw [hh] at key; simp [flatRes, Res.map] at key
      | panic => rw [hh] at key; simp [flatRes, Res.map] at key
  · intro h r' e
    rw [e] at key
    cases hfl : r.flat with
    | nil => rw [hfl] at key; simp [flatRes, handshakeOutcome, Res.map] at key
    | cons x xs =>
      rw [hfl] at key
      simp only [handshakeOutcome] at key
      split at key
      · simp [flatRes, Res.map] at key
      · split at key
        · simp [flatRes, Res.map] at key
        · split at key
          · simp [flatRes, Res.map] at key
          · simp only [flatRes, Res.map, Res.ok.injEq, Prod.mk.injEq] at key
            obtain ⟨rfl, h2, _⟩ := key
            exact ⟨rfl, rfl, h2⟩
  · intro e
    rw [e] at key
    cases hfl : r.flat with
    | nil => rw [hfl] at key; simp [flatRes, handshakeOutcome, Res.map] at key
    | cons x xs =>
      rw [hfl] at key
      simp only [handshakeOutcome] at key
      repeat' split at key
      all_goals simp [flatRes, Res.map] at key

/-- C08. Reading an encoded handshake gives it back and leaves the rest. -/
theorem C08_roundtrip (h : Handshake) (wf : h.WF) (rest : Bytes) (r : Rd) (hne : ∀ c ∈ r.chunks, c ≠ [])
    (hr : r.flat = h.encode ++ rest) :
    ∃ r', Handshake.decode r = .ok (h, r') ∧ r'.flat = rest := by
  obtain ⟨hl, hlen⟩ := C08_layout h wf
  obtain ⟨w1, w2⟩ := wf
  obtain ⟨hiff, hval, _⟩ := C08_accept r hne
  obtain ⟨h', r', e⟩ := hiff.mpr (by
    constructor
    · rw [hr, hl]
      simp only [List.append_assoc]
      apply List.take_left'; rfl
    · rw [hr]; simp only [List.length_append, hlen]; omega)
  obtain ⟨e1, e2, e3⟩ := hval h' r' e
  refine ⟨r', ?_, ?_⟩
  · rw [e]
    have f1 : h'.infoHash = h.infoHash := by
      rw [e1, hr, hl, List.append_assoc, List.append_assoc, List.drop_left' (by rfl)]
      exact List.take_left' w1
    have f2 : h'.peerID = h.peerID := by
      rw [e2, hr, hl, List.append_assoc, List.drop_left' (by simp [header, w1])]
      exact List.take_left' w2
    cases h; cases h'; simp_all
  · rw [e3, hr]; exact List.drop_left' hlen

/-- C08's hypotheses are met: a handshake delivered in two segments, with one more byte behind it. -/
example : Handshake.decode { chunks := [[19, 66, 105, 116],
      b!"Torrent protocol" ++ [1, 2, 3, 4, 5, 6, 7, 8] ++ List.replicate 20 7 ++ List.replicate 20 9 ++ [42]] } =
    .ok ({ infoHash := List.replicate 20 7, peerID := List.replicate 20 9 }, { chunks := [[42]] }) := by
  decide

/-! ### C09: segmentation -/

theorem readFull_congr (k : Nat) (r s : Rd) (hf : r.flat = s.flat) (hfin : r.final = s.final) :
    (∃ r' s', r.readFull k = .ok (r.flat.take k, r') ∧ s.readFull k = .ok (r.flat.take k, s') ∧
      r'.flat = s'.flat ∧ r'.final = s'.final) ∨
    (∃ e, r.readFull k = .err e ∧ s.readFull k = .err e) := by
  rcases Rd.readFull_spec k r with ⟨hle, r', e, h, h', _⟩ | ⟨hlt, e⟩ <;>
    rcases Rd.readFull_spec k s with ⟨hle2, s', e2, h2, h2', _⟩ | ⟨hlt2, e2⟩
  · left; exact ⟨r', s', e, by rw [e2, hf], by rw [h, h2, hf], by rw [h', h2', hfin]⟩
  · rw [hf] at hle; omega
  · rw [hf] at hlt; omega
  · right; exact ⟨_, e, by rw [e2, hf, hfin]⟩

/-- C09. Two streams with the same bytes and the same final error, however they are split into reads, give the same
result from `ReadMessage` (same message, error or panic; same unread bytes). -/
theorem C09_message (r s : Rd) (hf : r.flat = s.flat) (hfin : r.final = s.final) :
    flatRes (Message.decode r) = flatRes (Message.decode s) := by
  unfold Message.decode
  rcases readFull_congr 4 r s hf hfin with ⟨r1, s1, e, e', h1, h2⟩ | ⟨x, e, e'⟩
  · rw [e, e']
    simp only [Res.bind_ok]
    split
    · simp [flatRes, h1, h2]
    · generalize be32 (r.flat.take 4) = n
      rcases readFull_congr n r1 s1 h1 h2 with ⟨r2, s2, e, e', h1, h2⟩ | ⟨x, e, e'⟩
      · rw [e, e']
        simp only [Res.bind_ok]
        cases decodePayload (r1.flat.take n) <;> simp [flatRes, h1, h2]
      · rw [e, e']
  · rw [e, e']

/-- C09 for `ReadHandshake`; here empty reads must be excluded because the first byte is read by a bare `Read`. -/
theorem C09_handshake (r s : Rd) (hf : r.flat = s.flat) (hfin : r.final = s.final)
    (hr : ∀ c ∈ r.chunks, c ≠ []) (hs : ∀ c ∈ s.chunks, c ≠ []) :
    flatRes (Handshake.decode r) = flatRes (Handshake.decode s) := by
  rw [handshake_decode_eq r hr, handshake_decode_eq s hs, hf, hfin]

/-- C09, the exclusion is needed: an empty first read makes `ReadHandshake` reject a valid handshake. -/
example : Handshake.decode { chunks := [[], header ++ List.replicate 48 0] } = .err .badProtocol := by decide
example : flatRes (Message.decode { chunks := [[0, 0], [0, 5, 4, 0], [0, 0, 9]] }) =
    flatRes (Message.decode { chunks := [[0, 0, 0, 5, 4, 0, 0, 0, 9]] }) := by decide

end Drip.PeerWire
