import Verif.Lemmas.Bencode.BigStruct
import Verif.Lemmas.Bencode.RoundTrip
import Verif.Props.BencodeEncode
/-
Properties of decoding into typed targets: C17, C13.
-/

namespace Drip.Bencode
open Spec

/-! ### C17: unknown keys -/

/-- **C17.** Inserting well-formed entries with keys unknown to the struct anywhere between the entries of a dictionary
(such that the keys are still increasing) does not change what Unmarshal makes of it: it succeeds with the same struct,
or fails in both cases. -/
theorem C17_unknown_keys {env : Env} (henv : env.Sane) (id : Nat) (fs : List (Hdr × Ty)) (hok : IdsOk (.struct id fs))
    (es' es : List (Bytes × Bytes × CTree)) (hi : Inserts (.struct id fs) es' es) (hsyn : SynEs es')
    (hkeys : KeysAbove [] (keyed es)) (v x : Val) (rest rest' : Bytes) :
    unmarshal env (.struct id fs) v ((CTree.dict es).print ++ rest) = .ok x ↔
      unmarshal env (.struct id fs) v ((CTree.dict es').print ++ rest') = .ok x := by
  have hsyn' : SynEs es := by
    clear hkeys
    induction hi with
    | nil => trivial
    | keep _ ih => exact ⟨hsyn.1, hsyn.2.1, ih hsyn.2.2⟩
    | insert hu hl htr _ ih => exact ⟨hl.1, Valid.syn _ htr, ih hsyn⟩
  have key : ∀ (es : List (Bytes × Bytes × CTree)) (rest : Bytes), SynEs es →
      (unmarshal env (.struct id fs) v ((CTree.dict es).print ++ rest) = .ok x ↔
        SLoop env { addr := true } (.struct id fs) [] v (textEs es) x) := by
    intro es rest hs
    rw [unmarshal_D henv, ← D.struct_iff hs]
    constructor
    · rintro ⟨tr, rest', h1, h2, h3⟩
      obtain ⟨rfl, -⟩ := print_unique (.dict es) tr hs (Valid.syn tr h1) _ _ h2
      exact h3
    · intro h
      obtain ⟨tr, h1, h2⟩ := h.tree
      exact ⟨tr, rest, h1, by rw [h2], by rw [← h2]; exact h⟩
  rw [key es rest hsyn', key es' rest' hsyn]
  constructor
  · intro h; exact h.remove hok hi (.inl rfl)
  · intro h; exact h.insert hok hi hkeys

/-- A struct with one field `a`. -/
def oneField : Ty := .struct 7 [(⟨b!"A", b!"", false, true⟩, .int 64)]

theorem oneField_ids : IdsOk oneField := by
  have key : ∀ p u, Reach oneField p u → u = oneField := by
    intro p u h
    induction h with
    | here => rfl
    | there _ hf hv he ih =>
      subst ih
      obtain ⟨fs, h1, h2⟩ := hf
      simp only [oneField, target, Ty.under, Ty.struct.injEq] at h1
      obtain ⟨_, rfl⟩ := h1
      rename_i j _ _ _ _
      match j with
      | 0 => simp at h2; obtain ⟨e, _⟩ := h2; rw [← e] at he; simp [Embeds] at he
      | j + 1 => simp at h2
  intro p u q w id fs gs hu hw h1 h2
  rw [key _ _ hu] at h1; rw [key _ _ hw] at h2
  simp only [oneField, target, Ty.under, Ty.struct.injEq] at h1 h2
  exact h1.2.symm.trans h2.2

theorem snumeral_1 : SNumeral b!"1" 1 := .inl ⟨1, ⟨by decide, by simp [Digit], rfl⟩, rfl⟩

/-- `d1:ai5ee` and `d1:Ali7ee1:ai5e1:z0:e`. -/
example (x : Val) : unmarshal noEnv oneField (.struct [.int 0]) b!"d1:Ali1ee1:ai1e1:z1:qe" = .ok x ↔
    unmarshal noEnv oneField (.struct [.int 0]) b!"d1:ai1ee" = .ok x := by
  have hlt : LenText b!"1" b!"A" := ⟨snumeral_1, by decide⟩
  have hlz : LenText b!"1" b!"z" := ⟨snumeral_1, by decide⟩
  have hu : ∀ k : Bytes, k ≠ b!"a" → Unknown oneField k := by
    intro k hk
    rw [unknown_iff oneField_ids]
    have : keyToField oneField = [⟨false, [0], b!"a", b!"", b!"a", false, .int 64, ⟨b!"A", b!"", false, true⟩⟩] := by kernel_rfl
    rw [this, lookupKey, if_neg (fun h => hk h.symm), lookupKey]
  exact C17_unknown_keys (by intro id um h; simp [noEnv] at h) 7 _ oneField_ids
    [(b!"1", b!"a", .int b!"1" 1)]
    [(b!"1", b!"A", .list [.int b!"1" 1]), (b!"1", b!"a", .int b!"1" 1), (b!"1", b!"z", .str b!"1" b!"q")]
    (.insert (hu _ (by decide)) hlt (by simp [CTree.Valid, Valids, snumeral_1, LeadingZero])
      (.keep (.insert (hu _ (by decide)) hlz ⟨⟨snumeral_1, by decide⟩, fun _ => ⟨49, [], rfl, by simp [Digit]⟩⟩ .nil)))
    ⟨snumeral_1, snumeral_1, trivial⟩ (by simp [KeysAbove, keyed, BLt]) (.struct [.int 0]) x [] []

example : unmarshal noEnv oneField (.struct [.int 0]) b!"d1:Ali1ee1:ai1e1:z1:qe" = .ok (.struct [.int 1]) := by kernel_rfl

/-! ### C13: round trip -/

/-- **C13.** A round-trippable value is marshalled (or nested more than 1000 deep and refused), and unmarshalling the
result, whatever follows it, into a fresh variable of its type gives the value back (maps up to the order of their
entries). -/
theorem C13_roundtrip {env : Env} (henv : env.Sane) {t : Ty} {v : Val} (h : RT none t v) :
    (∃ out, marshal env t v = .ok out ∧
      ∃ w, Reorder v w ∧ ∀ rest, unmarshal env t (zero t) (out ++ rest) = .ok w) ∨
    (marshal env t v = .err .depth ∧ ∃ b d, Denotes env { addr := false } t v b d ∧ 1000 < d) := by
  obtain ⟨b, d, w, h1, h2, h3⟩ := rt_back (env := env) h
  have hlim := C20_limit (h1 { addr := false })
  rcases Nat.lt_or_ge 1000 d with hd | hd
  · exact .inr ⟨hlim.2 hd, b, d, h1 _, hd⟩
  · exact .inl ⟨_, hlim.1 hd, w, h3, fun rest => (h2 { addr := true } rfl).unmarshal henv rest⟩

/-- In particular, whatever Marshal returns without error can be read back. -/
theorem C13_roundtrip_ok {env : Env} (henv : env.Sane) {t : Ty} {v : Val} (h : RT none t v) {out : Bytes}
    (hm : marshal env t v = .ok out) : ∃ w, Reorder v w ∧ ∀ rest, unmarshal env t (zero t) (out ++ rest) = .ok w := by
  rcases C13_roundtrip henv h with ⟨out', h1, h2⟩ | ⟨h1, _⟩
  · rw [hm] at h1; cases h1; exact h2
  · rw [hm] at h1; cases h1

/-- `struct { A []int8 "x,omitempty"; B map[string]any; C *string; D [2]uint16 }` -/
def sample : Ty := .struct 8 [
  (⟨b!"A", b!"x,omitempty", false, true⟩, .slice (.int 8)),
  (⟨b!"B", b!"", false, true⟩, .map .any),
  (⟨b!"C", b!"", false, true⟩, .ptr .str),
  (⟨b!"D", b!"d", false, true⟩, .array 2 (.uint 16)),
  (⟨b!"E", b!"", false, true⟩, .ptr .str)]

def sampleVal : Val := .struct [
  .slice [.int (-128), .int 127],
  .map [(b!"q", .iface (.int 64) (.int 5)), (b!"p", .iface (.slice .any) (.slice [.iface .str (.str b!"hi")]))],
  .ptr (.str b!""),
  .array [.uint 0, .uint 65535],
  .nilPtr]

theorem sample_rt : RT none sample sampleVal := by
  refine .struct rfl ⟨?_, by decide +kernel⟩ ?_
  · intro f hf
    simp only [List.mem_cons, List.not_mem_nil, or_false] at hf
    rcases hf with rfl | rfl | rfl | rfl | rfl <;> refine .inr ?_ <;> exact ⟨rfl, rfl, by decide +kernel, by decide +kernel, by decide +kernel⟩
  · intro i h ft fv hf hv
    match i with
    | 0 =>
      simp only [List.getElem?_cons_zero, Option.some.injEq, Prod.mk.injEq] at hf hv
      obtain ⟨rfl, rfl⟩ := hf; subst hv
      refine .field (by decide +kernel) (.slice ?_) (by simp [EmptyVal])
      intro e he
      simp only [List.mem_cons, List.not_mem_nil, or_false] at he
      rcases he with rfl | rfl <;> exact .int (by decide) (by decide) (by decide) (by decide)
    | 1 =>
      simp only [List.getElem?_cons_succ, List.getElem?_cons_zero, Option.some.injEq, Prod.mk.injEq] at hf hv
      obtain ⟨rfl, rfl⟩ := hf; subst hv
      refine .field (by decide +kernel) (.map (by decide) ?_ ?_) (by simp [EmptyVal])
      · intro e he
        simp only [List.mem_cons, List.not_mem_nil, or_false] at he
        rcases he with rfl | rfl <;> exact ⟨by simp, by decide⟩
      · intro e he
        simp only [List.mem_cons, List.not_mem_nil, or_false] at he
        rcases he with rfl | rfl
        · exact .any (.inl rfl) (.int (by decide) (by decide) (by decide) (by decide))
        · refine .any (.inr (.inr (.inl rfl))) (.slice ?_)
          intro e he
          simp only [List.mem_cons, List.not_mem_nil, or_false] at he
          subst he
          exact .any (.inr (.inl rfl)) (.str (by decide))
    | 2 =>
      simp only [List.getElem?_cons_succ, List.getElem?_cons_zero, Option.some.injEq, Prod.mk.injEq] at hf hv
      obtain ⟨rfl, rfl⟩ := hf; subst hv
      exact .ptrField (by decide +kernel) (.str (by decide))
    | 3 =>
      simp only [List.getElem?_cons_succ, List.getElem?_cons_zero, Option.some.injEq, Prod.mk.injEq] at hf hv
      obtain ⟨rfl, rfl⟩ := hf; subst hv
      refine .field (by decide +kernel) (.array rfl ?_) (by simp [EmptyVal])
      intro e he
      simp only [List.mem_cons, List.not_mem_nil, or_false] at he
      rcases he with rfl | rfl <;> exact .uint (by decide) (by decide)
    | 4 =>
      simp only [List.getElem?_cons_succ, List.getElem?_cons_zero, Option.some.injEq, Prod.mk.injEq] at hf hv
      obtain ⟨rfl, rfl⟩ := hf; subst hv
      exact .zeroField (ft := .ptr .str) (.inl (by simp [zero, Nil]))
    | i + 5 => simp at hf

example : marshal noEnv sample sampleVal = .ok b!"d1:bd1:pl2:hie1:qi5ee1:c0:1:dli0ei65535ee1:xli-128ei127eee" := by kernel_rfl

example : ∃ w, Reorder sampleVal w ∧ ∀ rest, unmarshal noEnv sample (zero sample)
    (b!"d1:bd1:pl2:hie1:qi5ee1:c0:1:dli0ei65535ee1:xli-128ei127eee" ++ rest) = .ok w :=
  C13_roundtrip_ok (by intro id um h; simp [noEnv] at h) sample_rt (by kernel_rfl)

end Drip.Bencode
