import Verif.Lemmas.Bencode.Any
import Verif.Lemmas.Bencode.NoPanic
import Verif.Lemmas.Bencode.Exact
import Verif.Model.KernelRfl
/-
Properties of `bencode.Unmarshal` and `bencode.Decoder`: C12, C14, C15, C16, C18, C19, C21, C22, C23, C27.
-/

namespace Drip.Bencode
open Spec

theorem unmarshal_ok_iff (env : Env) (t : Ty) (v x : Val) (bs : Bytes) :
    unmarshal env t v bs = .ok x ↔ ∃ st', unmarshalSt env t v bs = .ok (x, st') := by
  unfold unmarshal
  cases unmarshalSt env t v bs with
  | ok y => obtain ⟨a, st⟩ := y; simp [Res.map]
  | err e => simp [Res.map]
  | panic => simp [Res.map]

/-! ### C12: untyped round trip -/

theorem lenText_decNat (b : Bytes) (h : b.length ≤ 2 ^ 48) : LenText (decNat b.length) b := ⟨decNat_snumeral _, h⟩

theorem decNat_head_digit (n : Nat) : ∃ c r, decNat n = c :: r ∧ Digit c := by
  obtain ⟨⟨⟨hne, hd, _⟩, _⟩, _⟩ := decNat_minimal n
  cases h : decNat n with
  | nil => exact absurd h hne
  | cons c r => exact ⟨c, r, rfl, hd c (by simp [h])⟩

mutual
theorem canon_valid (v : BVal) (h : v.Fits) : CV (canon v) := by
  match v with
  | .int n =>
    refine ⟨decInt_snumeral n, ?_, h.1, h.2⟩
    rw [decInt_eq]; exact (intDec_minimal n).not_leadingZero
  | .str b => exact ⟨lenText_decNat b h, fun _ => decNat_head_digit _⟩
  | .list vs => exact canons_valid vs h
  | .dict es => exact canonEs_valid es [] h
theorem canons_valid (vs : List BVal) (h : FitsL vs) : Valids true (2 ^ 63) (canons vs) := by
  match vs with
  | [] => trivial
  | v :: vs => exact ⟨canon_valid v h.1, canons_valid vs h.2⟩
theorem canonEs_valid (es : List (Bytes × BVal)) (last : Bytes) (h : FitsD last es) :
    ValidEs true (2 ^ 63) last (canonEs es) := by
  match es with
  | [] => trivial
  | (k, v) :: es => exact ⟨lenText_decNat k h.2.1, h.1, canon_valid v h.2.2.1, canonEs_valid es k h.2.2.2⟩
end

/-- **C12.** Unmarshal of the canonical encoding of a value into a nil `any` yields the corresponding tree of int,
string, []any and map[string]any, whatever follows the encoding. -/
theorem C12_roundtrip (env : Env) (b : BVal) (h : b.Fits) (rest : Bytes) :
    unmarshal env .any .nilIface (benc b ++ rest) = .ok (toAny b) := by
  rw [unmarshal_ok_iff]
  refine ⟨⟨rest, 0 + (benc b).length⟩, ?_⟩
  have := any_complete env (canon b) (canon_valid b h) (fuelFor (benc b ++ rest))
    (by rw [canon_print]; simp [fuelFor]; omega) { addr := true } rfl rest 0
  rw [canon_print, canon_abs] at this
  exact this

example : benc (.dict [(b!"a", .list [.int (-7), .str b!"xy"])]) = b!"d1:ali-7e2:xyee" := by
  simp [benc, bencs, bencEs, decNat, decInt]
example : BVal.Fits (.dict [(b!"a", .list [.int (-7), .str b!"xy"])]) := by
  simp [BVal.Fits, FitsD, FitsL, BLt]
example : unmarshal noEnv .any .nilIface b!"d1:ali-7e2:xyee" =
    .ok (.iface (.map .any) (.map [(b!"a", .iface (.slice .any) (.slice [.iface (.int 64) (.int (-7)), .iface .str (.str b!"xy")]))])) := by kernel_rfl

/-- **C12**, the converse: whatever Unmarshal accepts into a nil `any` is the text of a well-formed value, and the
result is that value. -/
theorem C12_accepts_iff (env : Env) (bs : Bytes) (x : Val) :
    unmarshal env .any .nilIface bs = .ok x ↔
      ∃ (t : CTree) (rest : Bytes), bs = t.print ++ rest ∧ t.Valid true (2 ^ 63) ∧ x = toAny t.abs := by
  rw [unmarshal_ok_iff]
  constructor
  · rintro ⟨st', h⟩
    obtain ⟨t, ht, hx, hr⟩ := any_sound env _ _ _ _ _ h
    exact ⟨t, st'.rest, hr.1, ht, hx⟩
  · rintro ⟨t, rest, rfl, ht, rfl⟩
    exact ⟨_, any_complete env t ht (fuelFor _) (by simp [fuelFor]; omega) { addr := true } rfl rest 0⟩

example : unmarshal noEnv .any .nilIface b!"li+5e02:xyetrailing" =
    .ok (.iface (.slice .any) (.slice [.iface (.int 64) (.int 5), .iface .str (.str b!"xy")])) := by kernel_rfl

/-! ### C14: custom unmarshalers receive the exact source bytes -/

/-- **C14.** Decoding a well-formed value into an addressable variable with an `UnmarshalBencoding` method calls that
method with exactly the bytes of the value, whatever they are and whatever follows. -/
theorem C14_exact (env : Env) (id : Nat) (u : Ty) (um : Bytes → Val → Res Val) (hum : (env id).unmarshal = some um)
    (t : CTree) (ht : t.Valid true (2 ^ 63)) (v : Val) (rest : Bytes) :
    unmarshal env (.custom id u) v (t.print ++ rest) = um t.print v := by
  have hc := consume_complete t ht (t.print ++ rest).length (by simp) rest 0
  have hf : fuelFor (t.print ++ rest) = ((t.print ++ rest).length + 1) + 1 := rfl
  have hc' : consume ((t.print ++ rest).length + 1) ⟨t.print ++ rest, 0⟩ = .ok (t.print, ⟨rest, 0 + t.print.length⟩) := by
    rcases Le.consume (Nat.le_succ (t.print ++ rest).length) ⟨t.print ++ rest, 0⟩ with h | h
    · rw [hc] at h; simp at h
    · rw [h]; exact hc
  unfold unmarshal unmarshalSt
  rw [hf]
  have e : decode env ((t.print ++ rest).length + 1 + 1) { addr := true } (.custom id u) v =
      decodeUnmarshaler (consume ((t.print ++ rest).length + 1)) false um (some v) := by
    have : decode env ((t.print ++ rest).length + 1 + 1) { addr := true } (.custom id u) v =
        (match (env id).unmarshal, true with
        | some um, true => decodeUnmarshaler (consume ((t.print ++ rest).length + 1)) false um (some v)
        | _, _ => decodeFlat (decode env ((t.print ++ rest).length + 1)) (consume ((t.print ++ rest).length + 1))
            ((t.print ++ rest).length + 1) { addr := true } u v) := by
      cases v <;> rfl
    rw [this, hum]
  rw [e]
  unfold decodeUnmarshaler
  simp only [Bool.false_eq_true, if_false, bind_run, hc', Res.bind_ok, lift_run]
  cases um t.print v <;> rfl

/-- A custom type that stores the raw bytes, like `RawMessage`. -/
def rawEnv : Env := fun _ => { unmarshal := some fun raw _ => .ok (.bytes raw), marshal := none }

example : unmarshal rawEnv (.custom 0 .bytes) .nilBytes b!"d02:abl4:spami+3eeetrailing" =
    .ok (.bytes b!"d02:abl4:spami+3eee") := by kernel_rfl

/-- **C14**, at every position inside every target: the outcome of Unmarshal depends on the methods of the custom types
only through their results on well-formed values that occur as contiguous parts of the input. -/
theorem C14_only_source_bytes (env env' : Env) (bs : Bytes)
    (hsame : ∀ id, (env id).unmarshal.isSome = (env' id).unmarshal.isSome)
    (hagree : ∀ id f g, (env id).unmarshal = some f → (env' id).unmarshal = some g →
      ∀ (t : CTree) pre post, t.Valid true (2 ^ 63) → bs = pre ++ t.print ++ post → ∀ v, f t.print v = g t.print v)
    (t : Ty) (v : Val) : unmarshal env t v bs = unmarshal env' t v bs := by
  unfold unmarshal unmarshalSt
  rw [EqA.decode (env := env) (env' := env') _ _ _ _ ⟨bs, 0⟩ (fun id => ⟨hsame id, hagree id⟩)]

/-- A type whose method rejects everything but the one text. -/
def pickyEnv (c : Bytes) : Env := fun _ =>
  { unmarshal := some fun raw _ => if raw = c then .ok (.bytes raw) else .err .eof, marshal := none }

example : unmarshal (pickyEnv b!"li1ee") (.slice (.custom 0 .bytes)) .nilSlice b!"lli1eee" =
    .ok (.slice [.bytes b!"li1ee"]) := by kernel_rfl

/-! ### C15: sorted dictionaries -/

/-- **C15.** Whatever the target, a successful decode has read the text of one value in which the keys of every
dictionary, at every depth, are strictly increasing and not empty (`CTree.Valid`, `ValidEs`). -/
theorem C15_sorted (env : Env) (t : Ty) (v x : Val) (bs : Bytes) (h : unmarshal env t v bs = .ok x) :
    ∃ (tr : CTree) (rest : Bytes), bs = tr.print ++ rest ∧ tr.Valid false (2 ^ 64) := by
  rw [unmarshal_ok_iff] at h
  obtain ⟨st', h⟩ := h
  obtain ⟨tr, htr, hr⟩ := TrP.decode env _ _ _ _ _ _ _ h
  exact ⟨tr, st'.rest, hr.1, htr⟩

/-- **C15**, for the caller: an input that is the text of one value with a badly ordered dictionary anywhere in it
(nested, in a skipped value, in one handed to a custom type) is rejected by every target. -/
theorem C15_rejected (env : Env) (t : Ty) (v : Val) (tr : CTree) (rest : Bytes) (hsyn : Syn tr)
    (hbad : ¬ tr.Valid false (2 ^ 64)) : ∀ x, unmarshal env t v (tr.print ++ rest) ≠ .ok x := by
  intro x h
  obtain ⟨tr', rest', e, hv⟩ := C15_sorted env t v x _ h
  obtain ⟨rfl, -⟩ := print_unique tr tr' hsyn (Valid.syn tr' hv) rest rest' e
  exact hbad hv

/-- `d1:xld1:bi1e1:ai2eeee`: a list in a dictionary contains a dictionary with the keys `b`, `a`. -/
example : ∀ x, unmarshal noEnv (.struct 0 []) (.struct []) b!"d1:xld1:bi1e1:ai2eeee" ≠ .ok x := by
  have h1 : SNumeral b!"1" 1 := .inl ⟨1, ⟨by decide, by simp [Digit], rfl⟩, rfl⟩
  have h2 : SNumeral b!"2" 2 := .inl ⟨2, ⟨by decide, by simp [Digit], rfl⟩, rfl⟩
  exact C15_rejected noEnv _ _ (.dict [(b!"1", b!"x", .list [.dict [(b!"1", b!"b", .int b!"1" 1), (b!"1", b!"a", .int b!"2" 2)]])]) []
    (by simpa [Syn, Syns, SynEs] using ⟨h1, h2⟩) (by simp [CTree.Valid, Valids, ValidEs, BLt])

/-! ### C16: a decoder stops exactly at the end of the value -/

/-- **C16.** A successful `Decode` consumes a non-empty prefix `c` of the stream, and gives the same result and stops at
the same place for every continuation of `c` and at every position of the stream. -/
theorem C16_prefix (env : Env) (n : Nat) (t : Ty) (v x : Val) (st st' : St)
    (h : decode env n { addr := true } t v st = .ok (x, st')) :
    ∃ c, c ≠ [] ∧ st.rest = c ++ st'.rest ∧ st'.off = st.off + c.length ∧
      ∀ rest off, decode env n { addr := true } t v ⟨c ++ rest, off⟩ = .ok (x, ⟨rest, off + c.length⟩) := by
  obtain ⟨c, d, h1, h2, h3, h4⟩ := Loc.decode env n _ t v st x st' h
  obtain ⟨tr, htr, hr⟩ := TrP.decode env n _ t v st x st' h
  have hc : c = tr.print := by
    have := h1.symm.trans hr.1
    exact List.append_cancel_right this
  have hd : d = c.length := by have := hr.2; rw [hc]; omega
  subst hd
  exact ⟨c, h3 rfl, h1, h2, h4⟩

/-- **C16.** Two values back to back on one decoder: the second decode sees exactly what follows the first value. -/
theorem C16_sequence (env : Env) (n : Nat) (t1 t2 : Ty) (v1 v2 x1 x2 : Val) (c1 c2 rest : Bytes) (o1 o2 o1' o2' : Nat)
    (h1 : decode env n { addr := true } t1 v1 ⟨c1, o1⟩ = .ok (x1, ⟨[], o1'⟩))
    (h2 : decode env n { addr := true } t2 v2 ⟨c2, o2⟩ = .ok (x2, ⟨[], o2'⟩)) :
    ∃ st', decode env n { addr := true } t1 v1 ⟨c1 ++ (c2 ++ rest), 0⟩ = .ok (x1, st') ∧
      decode env n { addr := true } t2 v2 st' = .ok (x2, ⟨rest, c1.length + c2.length⟩) := by
  obtain ⟨c, _, e, _, hc⟩ := C16_prefix env n t1 v1 x1 _ _ h1
  obtain ⟨d, _, e', _, hd⟩ := C16_prefix env n t2 v2 x2 _ _ h2
  simp only [List.append_nil] at e e'
  subst e; subst e'
  exact ⟨_, hc _ _, by simpa using hd rest (0 + c1.length)⟩

example : decode noEnv 9 { addr := true } (.int 64) (.int 0) ⟨b!"i12e3:abc", 0⟩ = .ok (.int 12, ⟨b!"3:abc", 4⟩) := by kernel_rfl
example : decode noEnv 9 { addr := true } .str (.str []) ⟨b!"3:abc", 4⟩ = .ok (.str b!"abc", ⟨[], 9⟩) := by kernel_rfl

/-! ### C18: integers -/

theorem wrapInt_wraps (bits : Nat) (hb : 0 < bits) (n : Int) : Wraps bits n (wrapInt bits n) := by
  obtain ⟨b, rfl⟩ : ∃ b, bits = b + 1 := ⟨bits - 1, by omega⟩
  unfold wrapInt Wraps
  simp only [Nat.add_sub_cancel]
  have hp : (0 : Int) < 2 ^ (b + 1) := Int.pow_pos (by decide)
  have h1 := Int.emod_nonneg (n + 2 ^ b) (Int.ne_of_gt hp)
  have h2 := Int.emod_lt_of_pos (n + 2 ^ b) hp
  have h3 := Int.mul_ediv_add_emod (n + 2 ^ b) (2 ^ (b + 1))
  have h4 : (2 : Int) ^ (b + 1) = 2 ^ b + 2 ^ b := by rw [Int.pow_succ]; omega
  refine ⟨by omega, by omega, (n + 2 ^ b) / 2 ^ (b + 1), ?_⟩
  rw [Int.mul_comm] at h3
  omega

/-- **C18.** Decoding `i…e` into a signed integer variable: accepted iff the text is an optionally signed numeral without
leading zeros that fits in 64 bits; a target of `bits` bits receives the wrapped value. -/
theorem C18_int (env : Env) (bits : Nat) (hb : 0 < bits) (v x : Val) (s rest : Bytes) (hs : 101 ∉ s) :
    unmarshal env (.int bits) v (105 :: s ++ 101 :: rest) = .ok x ↔
      ∃ n m : Int, SNumeral s n ∧ ¬ LeadingZero s ∧ -2 ^ 63 ≤ n ∧ n < 2 ^ 63 ∧ Wraps bits n m ∧ x = .int m := by
  have huniq : ∀ n m, Wraps bits n m → m = wrapInt bits n := by
    intro n m ⟨h1, h2, k, h3⟩
    obtain ⟨g1, g2, j, g3⟩ := wrapInt_wraps bits hb n
    obtain ⟨b, rfl⟩ : ∃ b, bits = b + 1 := ⟨bits - 1, by omega⟩
    simp only [Nat.add_sub_cancel] at h1 h2 g1 g2
    have h4 : (2 : Int) ^ (b + 1) = 2 ^ b + 2 ^ b := by rw [Int.pow_succ]; omega
    have hp : (0 : Int) < 2 ^ b := Int.pow_pos (by decide)
    rw [h4] at h3 g3
    generalize wrapInt (b + 1) n = w at *
    have hkj : (k - j) * (2 ^ b + 2 ^ b) = w - m := by rw [Int.sub_mul]; omega
    have : k - j = 0 := by
      rcases Int.lt_trichotomy (k - j) 0 with h | h | h
      · have := Int.mul_le_mul_of_nonneg_right (show k - j ≤ -1 by omega) (show (0 : Int) ≤ 2 ^ b + 2 ^ b by omega)
        omega
      · exact h
      · have := Int.mul_le_mul_of_nonneg_right (show 1 ≤ k - j by omega) (show (0 : Int) ≤ 2 ^ b + 2 ^ b by omega)
        omega
    rw [this] at hkj
    omega
  rw [unmarshal_ok_iff]
  have e : ∀ st, decode env (fuelFor (105 :: s ++ 101 :: rest)) { addr := true } (.int bits) v st =
      (getInt >>= fun i => setVal { addr := true } (.int (wrapInt bits i))) st := by
    intro st; cases v <;> rfl
  unfold unmarshalSt
  rw [e, bind_run]
  constructor
  · rintro ⟨st', h⟩
    rw [Res.bind_eq_ok] at h
    obtain ⟨⟨n, st1⟩, h1, h2⟩ := h
    obtain ⟨rfl, rfl⟩ := setVal_ok h2
    rw [getInt_ok] at h1
    obtain ⟨s', a1, a2, a3, a4, a5, a6⟩ := h1
    have hs' : (101 : UInt8) ∉ s' := not_mem_of_snumeral a1 101 not_digit_101 (by decide) (by decide)
    simp only [List.cons_append, List.cons.injEq, true_and] at a5
    obtain ⟨rfl, -⟩ := split_unique hs hs' a5
    exact ⟨n, _, a1, a2, a3, a4, wrapInt_wraps bits hb n, rfl⟩
  · rintro ⟨n, m, a1, a2, a3, a4, a5, rfl⟩
    have := (getInt_ok ⟨105 :: s ++ 101 :: rest, 0⟩ n ⟨rest, 0 + (s.length + 2)⟩).mpr ⟨s, a1, a2, a3, a4, rfl, rfl⟩
    rw [this]
    rw [huniq n m a5]
    exact ⟨⟨rest, 0 + (s.length + 2)⟩, rfl⟩

/-- **C18** for unsigned variables: no sign is allowed, and the bound is 2^64. -/
theorem C18_uint (env : Env) (bits : Nat) (v x : Val) (s rest : Bytes) (hs : 101 ∉ s) :
    unmarshal env (.uint bits) v (105 :: s ++ 101 :: rest) = .ok x ↔
      ∃ n : Nat, Numeral s n ∧ ¬ LeadingZero s ∧ n < 2 ^ 64 ∧ x = .uint (n % 2 ^ bits) := by
  rw [unmarshal_ok_iff]
  have e : ∀ st, decode env (fuelFor (105 :: s ++ 101 :: rest)) { addr := true } (.uint bits) v st =
      (getUint >>= fun i => setVal { addr := true } (.uint (wrapUint bits i))) st := by
    intro st; cases v <;> rfl
  unfold unmarshalSt
  rw [e, bind_run]
  constructor
  · rintro ⟨st', h⟩
    rw [Res.bind_eq_ok] at h
    obtain ⟨⟨n, st1⟩, h1, h2⟩ := h
    obtain ⟨rfl, rfl⟩ := setVal_ok h2
    rw [getUint_ok] at h1
    obtain ⟨s', a1, a2, a4, a5, a6⟩ := h1
    have hs' : (101 : UInt8) ∉ s' := not_mem_of_numeral a1 101 not_digit_101
    simp only [List.cons_append, List.cons.injEq, true_and] at a5
    obtain ⟨rfl, -⟩ := split_unique hs hs' a5
    exact ⟨n, a1, a2, a4, rfl⟩
  · rintro ⟨n, a1, a2, a4, rfl⟩
    have := (getUint_ok ⟨105 :: s ++ 101 :: rest, 0⟩ n ⟨rest, 0 + (s.length + 2)⟩).mpr ⟨s, a1, a2, a4, rfl, rfl⟩
    rw [this]
    exact ⟨⟨rest, 0 + (s.length + 2)⟩, rfl⟩

example : unmarshal noEnv (.int 8) (.int 0) b!"i300e" = .ok (.int 44) := by kernel_rfl
example : unmarshal noEnv (.int 64) (.int 0) b!"i-9223372036854775808e" = .ok (.int (-9223372036854775808)) := by kernel_rfl
example : unmarshal noEnv (.int 64) (.int 0) b!"i9223372036854775808e" = .err .syntax := by kernel_rfl
example : unmarshal noEnv (.uint 64) (.uint 0) b!"i18446744073709551615e" = .ok (.uint 18446744073709551615) := by kernel_rfl
example : unmarshal noEnv (.int 64) (.int 0) b!"i-0e" = .err .syntax := by kernel_rfl
example : unmarshal noEnv (.int 64) (.int 0) b!"i+5e" = .ok (.int 5) := by kernel_rfl

/-! ### C19: panics -/

/-- **C19 is false of the code**: a dictionary key with a negative length makes `Unmarshal` panic in `make`. -/
theorem C19_no_panic_refuted : ¬ ∀ bs : Bytes, unmarshal noEnv .any .nilIface bs ≠ .panic := by
  intro h
  exact h b!"d-1:" (by kernel_rfl)

/-- The same for a huge length, which does not need a dictionary. -/
theorem C19_huge_length_refuted : unmarshal noEnv .any .nilIface b!"999999999999999:" = .panic := by kernel_rfl

/-- **C19**, what holds (full claim: for every input; missing: length texts that are negative or above 2^48): `Unmarshal`
into a nil `any` does not panic on any input in which every numeral in front of a colon is between 0 and 2^48. -/
theorem C19_no_panic_partial (env : Env) (bs : Bytes)
    (h : ∀ pre s post n, bs = pre ++ s ++ 58 :: post → SNumeral s n → 0 ≤ n ∧ n ≤ 2 ^ 48) :
    unmarshal env .any .nilIface bs ≠ .panic := by
  have := NP.any env (fuelFor bs) { addr := true } rfl ⟨bs, 0⟩ h
  unfold unmarshal unmarshalSt
  intro hp
  cases hx : decode env (fuelFor bs) { addr := true } .any .nilIface ⟨bs, 0⟩ with
  | ok y => rw [hx] at hp; simp [Res.map] at hp
  | err e => rw [hx] at hp; simp [Res.map] at hp
  | panic => exact this hx

/-- **C19**, the same for skipping a value and for raw values. -/
theorem C19_raw_no_panic_partial (n : Nat) (bs : Bytes)
    (h : ∀ pre s post n, bs = pre ++ s ++ 58 :: post → SNumeral s n → 0 ≤ n ∧ n ≤ 2 ^ 48) (off : Nat) :
    consume n ⟨bs, off⟩ ≠ .panic := NP.consume n ⟨bs, off⟩ h

/-- An input without any colon meets the hypothesis, so does one with an ordinary length. -/
example : ∀ pre s post (n : Int), b!"lllie" = pre ++ s ++ 58 :: post → SNumeral s n → 0 ≤ n ∧ n ≤ 2 ^ 48 := by
  intro pre s post n h
  have : (58 : UInt8) ∈ b!"lllie" := by rw [h]; simp
  simp at this

/-! ### C21: truncated input -/

/-- **C21.** If an input is accepted and consumed completely, no proper prefix of it is accepted, into any target. -/
theorem C21_truncated (env : Env) (t t' : Ty) (v v' x : Val) (bs : Bytes) (off : Nat)
    (h : unmarshalSt env t v bs = .ok (x, ⟨[], off⟩)) (p q : Bytes) (hp : bs = p ++ q) (hq : q ≠ []) :
    ∀ y, unmarshal env t' v' p ≠ .ok y := by
  intro y hy
  obtain ⟨tr, htr, hr⟩ := TrP.decode env _ _ _ _ _ _ _ h
  obtain ⟨tr', rest, e, htr'⟩ := C15_sorted env t' v' y p hy
  have h1 := hr.1
  simp only [List.append_nil] at h1
  have : tr'.print ++ (rest ++ q) = tr.print ++ [] := by
    rw [List.append_nil, ← h1, hp, e, List.append_assoc]
  obtain ⟨-, e2⟩ := print_unique tr' tr (Valid.syn _ htr') (Valid.syn _ htr) _ _ this
  exact hq (List.append_eq_nil_iff.mp e2).2

example : unmarshalSt noEnv .any .nilIface b!"l4:spame" =
    .ok (.iface (.slice .any) (.slice [.iface .str (.str b!"spam")]), ⟨[], 8⟩) := by kernel_rfl
example : unmarshal noEnv .any .nilIface b!"l4:spam" = .err .eof := by kernel_rfl

/-! ### C22: termination -/

/-- **C22.** `Unmarshal` reaches a result on every input, for every target: the recursion bound of the model, which is
linear in the length of the input and does not depend on the target, is never reached … -/
theorem C22_terminates (env : Env) (henv : ∀ id um, (env id).unmarshal = some um → ∀ raw v, um raw v ≠ .err .fuel)
    (t : Ty) (v : Val) (bs : Bytes) : unmarshal env t v bs ≠ .err .fuel := by
  have := NF.decode henv (n := fuelFor bs) (len := bs.length) (by simp [fuelFor]) { addr := true } t v ⟨bs, 0⟩
    (Nat.le_refl _)
  unfold unmarshal unmarshalSt
  intro hp
  cases hx : decode env (fuelFor bs) { addr := true } t v ⟨bs, 0⟩ with
  | ok y => rw [hx] at hp; simp [Res.map] at hp
  | err e => rw [hx] at hp; simp [Res.map] at hp; subst hp; exact this hx
  | panic => rw [hx] at hp; simp [Res.map] at hp

/-- … and any larger bound gives the same result. -/
theorem C22_bound_irrelevant (env : Env) (henv : ∀ id um, (env id).unmarshal = some um → ∀ raw v, um raw v ≠ .err .fuel)
    (t : Ty) (v : Val) (st : St) (n : Nat) (hn : st.rest.length + 2 ≤ n) :
    decode env n { addr := true } t v st = decode env (st.rest.length + 2) { addr := true } t v st := by
  rcases Le.decode env hn { addr := true } t v st with h | h
  · exact absurd h (NF.decode henv (n := st.rest.length + 2) (len := st.rest.length) (by omega) _ t v st (Nat.le_refl _))
  · exact h

/-- The bound on the nesting depth is not far off: `l` repeated n times needs n levels. -/
example : decode noEnv 3 { addr := true } .any .nilIface ⟨b!"llll", 0⟩ = .err .fuel := by kernel_rfl
example : unmarshal noEnv .any .nilIface b!"llll" = .err .eof := by kernel_rfl

/-! ### C23: offsets -/

/-- **C23.** After a successful decode the offset has advanced by exactly the number of bytes consumed. -/
theorem C23_offset (env : Env) (n : Nat) (fl : Flags) (t : Ty) (v x : Val) (st st' : St)
    (h : decode env n fl t v st = .ok (x, st')) : st'.off + st'.rest.length = st.off + st.rest.length := by
  obtain ⟨tr, htr, hr⟩ := TrP.decode env n _ t v st x st' h
  rw [hr.1, hr.2]
  simp
  omega

example : decode noEnv 20 { addr := true } .any .nilIface ⟨b!"d1:al2:xyi3eee4:rest", 100⟩ =
    .ok (.iface (.map .any) (.map [(b!"a", .iface (.slice .any) (.slice [.iface .str (.str b!"xy"), .iface (.int 64) (.int 3)]))]),
      ⟨b!"4:rest", 114⟩) := by kernel_rfl

/-! ### C27: the canonical encoding is injective and prefix-free -/

/-- **C27.** -/
theorem C27_injective (v w : BVal) (h : benc v = benc w) : v = w := by
  have := benc_unique v w [] [] (by simpa using h)
  exact this.1

theorem C27_prefix_free (v w : BVal) (c : Bytes) (h : benc v ++ c = benc w) : c = [] := by
  have := benc_unique v w c [] (by simpa using h)
  exact this.2

/-- Back-to-back encodings decompose in one way only. -/
theorem C27_streams (vs ws : List BVal) (h : bencs vs = bencs ws) : vs = ws := by
  have : benc (.list vs) = benc (.list ws) := by simp [benc, h]
  simpa using C27_injective _ _ this

example : benc (.list [.str b!"a", .int 1]) ≠ benc (.list [.int 1, .str b!"a"]) :=
  fun h => by simpa using C27_injective _ _ h

end Drip.Bencode
