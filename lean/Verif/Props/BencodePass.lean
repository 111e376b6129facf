import Verif.Props.BencodeEncode
/-
C129: what Unmarshal has read can be written again by Marshal.
-/

namespace Drip.Bencode
open Spec

/-! ### Values that have been read -/

theorem FitsD.above {α : Type} : ∀ {last : Bytes} {es : List (Bytes × BVal)} (f : Bytes × BVal → Bytes × α) (_ : ∀ e, (f e).1 = e.1), FitsD last es → KeysAbove last (es.map f)
  | _, [], _, _, _ => trivial
  | last, (k, v) :: es, f, hf, h => by
    rw [FitsD] at h
    show KeysAbove last (f (k, v) :: es.map f)
    have h1 := hf (k, v)
    generalize f (k, v) = x at h1 ⊢
    obtain ⟨k', a⟩ := x
    subst h1
    exact ⟨h.1, FitsD.above f hf h.2.2.2⟩

theorem toAnyEs_eq : ∀ es : List (Bytes × BVal), toAnyEs es = es.map fun e => (e.1, toAny e.2)
  | [] => rfl
  | (k, v) :: es => by rw [toAnyEs, toAnyEs_eq es]; rfl

theorem fitsD_increasing {last : Bytes} {es : List (Bytes × BVal)} (h : FitsD last es) : KeysIncreasing (toAnyEs es) := by
  rw [toAnyEs_eq]
  cases es with
  | nil => trivial
  | cons e es =>
    obtain ⟨k, v⟩ := e
    rw [FitsD] at h
    exact FitsD.above (fun e => (e.1, toAny e.2)) (fun _ => rfl) h.2.2.2

mutual
theorem denotes_toAny (env : Env) : ∀ (b : BVal) (fl : Flags), b.Fits → Denotes env fl .any (toAny b) b b.nesting
  | .int n, fl, _ => .kind (by simp [UsesMethod]) (.any (.kind (by simp [UsesMethod]) .int))
  | .str b, fl, _ => .kind (by simp [UsesMethod]) (.any (.kind (by simp [UsesMethod]) .str))
  | .list vs, fl, h => .kind (by simp [UsesMethod]) (.any (.kind (by simp [UsesMethod]) (.slice (denotes_toAnys env vs _ (by rw [BVal.Fits] at h; exact h)))))
  | .dict es, fl, h => .kind (by simp [UsesMethod]) (.any (.kind (by simp [UsesMethod]) (.map (List.Perm.refl _) (fitsD_increasing (last := []) (by rw [BVal.Fits] at h; exact h))
      (denotes_toAnyEs env es [] (by rw [BVal.Fits] at h; exact h)))))
theorem denotes_toAnys (env : Env) : ∀ (vs : List BVal) (fl : Flags), FitsL vs → DenotesL env fl .any (toAnys vs) vs (nestings vs)
  | [], _, _ => .nil
  | v :: vs, fl, h => .cons (denotes_toAny env v fl (by rw [FitsL] at h; exact h.1)) (denotes_toAnys env vs fl (by rw [FitsL] at h; exact h.2))
theorem denotes_toAnyEs (env : Env) : ∀ (es : List (Bytes × BVal)) (last : Bytes), FitsD last es → DenotesE env .any (toAnyEs es) es (nestingEs es)
  | [], _, _ => .nil
  | (k, v) :: es, last, h => .cons (denotes_toAny env v _ (by rw [FitsD] at h; exact h.2.2.1)) (denotes_toAnyEs env es k (by rw [FitsD] at h; exact h.2.2.2))
end

mutual
theorem abs_fits : ∀ t : CTree, t.Valid true (2 ^ 63) → t.abs.Fits
  | .int s n, h => by rw [CTree.Valid] at h; rw [CTree.abs, BVal.Fits]; exact ⟨h.2.2.1, h.2.2.2⟩
  | .str l b, h => by rw [CTree.Valid] at h; rw [CTree.abs, BVal.Fits]; exact h.1.2
  | .list ts, h => by rw [CTree.Valid] at h; rw [CTree.abs, BVal.Fits]; exact abss_fits ts h
  | .dict es, h => by rw [CTree.Valid] at h; rw [CTree.abs, BVal.Fits]; exact absEs_fits es [] h
theorem abss_fits : ∀ ts : List CTree, Valids true (2 ^ 63) ts → FitsL (abss ts)
  | [], _ => by rw [abss, FitsL]; trivial
  | t :: ts, h => by rw [Valids] at h; rw [abss, FitsL]; exact ⟨abs_fits t h.1, abss_fits ts h.2⟩
theorem absEs_fits : ∀ (es : List (Bytes × Bytes × CTree)) (last : Bytes), ValidEs true (2 ^ 63) last es → FitsD last (absEs es)
  | [], _, _ => by rw [absEs, FitsD]; trivial
  | (l, k, t) :: es, last, h => by
    rw [ValidEs] at h; rw [absEs, FitsD]
    exact ⟨h.2.1, h.1.2, abs_fits t h.2.2.1, absEs_fits es k h.2.2.2⟩
end

/-! ### C129 -/

/-- **C129**, for texts with up to 1000 levels. The canonical text of a value is read, and what was read is written as the same text. -/
theorem C129_same_partial (env : Env) (b : BVal) (h : b.Fits) (hn : b.nesting ≤ 1000) (rest : Bytes) :
    ∃ x, unmarshal env .any .nilIface (benc b ++ rest) = .ok x ∧ marshal env .any x = .ok (benc b) :=
  ⟨_, C12_roundtrip env b h rest, (C20_limit (denotes_toAny env b _ h)).1 hn⟩

/-- **C129**, whatever is read: it is written as the canonical text of the value that was read, which is read as the same value again; or it has more than 1000 levels, and Marshal
refuses it. Missing: values with more levels. -/
theorem C129_accepted_partial (env : Env) (bs : Bytes) (x : Val) (h : unmarshal env .any .nilIface bs = .ok x) :
    ∃ (t : CTree) (rest : Bytes), bs = t.print ++ rest ∧
      (t.abs.nesting ≤ 1000 → marshal env .any x = .ok (benc t.abs) ∧ unmarshal env .any .nilIface (benc t.abs) = .ok x) ∧
      (1000 < t.abs.nesting → marshal env .any x = .err .depth) := by
  obtain ⟨t, rest, h1, h2, rfl⟩ := (C12_accepts_iff env bs x).mp h
  have hf := abs_fits t h2
  have hd := C20_limit (denotes_toAny env t.abs { addr := false } hf)
  refine ⟨t, rest, h1, fun hn => ⟨hd.1 hn, ?_⟩, hd.2⟩
  have := C12_roundtrip env t.abs hf []
  rwa [List.append_nil] at this

theorem deepB_fits : ∀ n, (deepB n).Fits
  | 0 => by simp [deepB, BVal.Fits, FitsL]
  | n + 1 => by simp only [deepB, BVal.Fits, FitsL]; exact ⟨deepB_fits n, trivial⟩

theorem deepB_nesting : ∀ n, (deepB n).nesting = n + 1
  | 0 => rfl
  | n + 1 => by simp only [deepB, BVal.nesting, nestings, deepB_nesting n]; omega

theorem deepB_length : ∀ n, (benc (deepB n)).length = 2 * n + 2
  | 0 => rfl
  | n + 1 => by
    have := deepB_length n
    simp only [deepB, benc, bencs, List.append_nil, List.cons_append, List.length_cons, List.length_append, List.length_nil]
    omega

/-- **C129 is false** of the code: Unmarshal has no limit. It reads lists within lists to any depth (2002 bytes have 1001 levels), and what it has read is then refused by Marshal. -/
theorem C129_refuted : ∀ n, 1000 ≤ n → ∃ text x, text.length = 2 * n + 2 ∧ unmarshal noEnv .any .nilIface text = .ok x ∧ marshal noEnv .any x = .err .depth := by
  intro n hn
  refine ⟨benc (deepB n), toAny (deepB n), deepB_length n, ?_, ?_⟩
  · have := C12_roundtrip noEnv (deepB n) (deepB_fits n) []
    rwa [List.append_nil] at this
  · exact (C20_limit (denotes_toAny noEnv (deepB n) _ (deepB_fits n))).2 (by rw [deepB_nesting]; omega)

/-- A text that is not canonical (a length with a plus sign and a zero in front, within a list) is read, and written in its canonical form. -/
example : unmarshal noEnv .any .nilIface b!"d2:+1i5e03:abcl0:ee" = .ok (.iface (.map .any) (.map [(b!"+1", .iface (.int 64) (.int 5)), (b!"abc", .iface (.slice .any) (.slice [.iface .str (.str [])]))])) ∧
    marshal noEnv .any (.iface (.map .any) (.map [(b!"+1", .iface (.int 64) (.int 5)), (b!"abc", .iface (.slice .any) (.slice [.iface .str (.str [])]))])) = .ok b!"d2:+1i5e3:abcl0:ee" := ⟨by kernel_rfl, by kernel_rfl⟩

end Drip.Bencode
