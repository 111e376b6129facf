import Verif.Model.MetainfoCodec
import Verif.Lemmas.Bencode.BigInv
import Verif.Lemmas.Bencode.RoundTrip
import Verif.Props.BencodeDecode
import Verif.Model.KernelRfl
/-
Lemmas about the metainfo codecs.
-/

namespace Drip.Metainfo
open Bencode Spec

theorem noEnv_sane : noEnv.Sane := by intro id um h; simp [noEnv] at h

theorem piecesUnmarshal_ne (raw : Bytes) (v : Val) : piecesUnmarshal raw v ≠ .err .fuel := by
  unfold piecesUnmarshal
  have := C22_terminates noEnv noEnv_sane .bytes .nilBytes raw
  cases h : unmarshal noEnv .bytes .nilBytes raw with
  | ok c =>
    rw [Res.bind_ok]
    split
    · split <;> simp
    · simp
  | err e => rw [h] at this; simpa using this
  | panic => simp

theorem timeUnmarshal_ne (raw : Bytes) (v : Val) : timeUnmarshal raw v ≠ .err .fuel :=
  C22_terminates noEnv noEnv_sane (.int 64) (.int 0) raw

theorem innerEnv_sane : innerEnv.Sane := by
  intro id um h raw v
  unfold innerEnv at h
  split at h
  · cases h; exact piecesUnmarshal_ne raw v
  · split at h
    · cases h; exact timeUnmarshal_ne raw v
    · cases h

theorem infoUnmarshal_ne (sha1 : Bytes → Bytes) (raw : Bytes) (v : Val) : infoUnmarshal sha1 raw v ≠ .err .fuel := by
  unfold infoUnmarshal
  have := C22_terminates innerEnv innerEnv_sane infoStruct (zero infoStruct) raw
  cases h : unmarshal innerEnv infoStruct (zero infoStruct) raw with
  | ok c =>
    rw [Res.bind_ok]
    unfold setSha1
    split <;> simp
  | err e => rw [h] at this; simpa using this
  | panic => simp

theorem metaEnv_sane (sha1 : Bytes → Bytes) : (metaEnv sha1).Sane := by
  intro id um h raw v
  unfold metaEnv at h
  split at h
  · cases h; exact infoUnmarshal_ne sha1 raw v
  · exact innerEnv_sane id um h raw v

theorem infoFields_plain : PlainStruct infoFields := by
  refine ⟨?_, by decide +kernel⟩
  intro f hf
  simp only [infoFields, List.mem_cons, List.not_mem_nil, or_false] at hf
  rcases hf with rfl | rfl | rfl | rfl | rfl | rfl | rfl | rfl
  · exact .inl (.inl rfl)
  all_goals exact .inr ⟨rfl, rfl, by decide +kernel, by decide +kernel, by decide +kernel⟩

theorem metaFields_plain : PlainStruct metaFields := by
  refine ⟨?_, by decide +kernel⟩
  intro f hf
  simp only [metaFields, List.mem_cons, List.not_mem_nil, or_false] at hf
  rcases hf with rfl | rfl | rfl | rfl | rfl | rfl | rfl
  all_goals exact .inr ⟨rfl, rfl, by decide +kernel, by decide +kernel, by decide +kernel⟩

/-- The tables of plain structs are flat. -/
theorem flat_plain {id : Nat} {fs : List (Hdr × Ty)} (hp : PlainStruct fs) : Flat (.struct id fs) := by
  have key : ∀ k f, lookupKey k (keyToField (.struct id fs)) = some f → ∃ i h t, fs[i]? = some (h, t) ∧ f = leafInfo [] i h t ∧ f.key = k := by
    intro k f h
    obtain ⟨h1, h2⟩ := lookupKey_some h
    rw [keyToField_plain hp, mem_infos] at h1
    obtain ⟨i, h, t, h3, _, h4⟩ := h1
    exact ⟨i, h, t, h3, by simpa using h4, h2⟩
  constructor
  · intro k f h
    obtain ⟨i, h, t, _, rfl, _⟩ := key k f h
    exact ⟨i, rfl⟩
  · intro k f k' f' h h' e
    obtain ⟨i, hd, t, h1, rfl, rfl⟩ := key k f h
    obtain ⟨i', hd', t', h1', rfl, rfl⟩ := key k' f' h'
    simp only [leafInfo, List.nil_append, List.cons.injEq, and_true] at e
    subst e
    rw [h1] at h1'; cases h1'
    rfl

/-! ### Pieces -/

theorem chunks20_flatten : ∀ (n : Nat) (s : Bytes), s.length ≤ n → (chunks20 n s).flatten = s := by
  intro n
  induction n with
  | zero => intro s h; have : s = [] := List.length_eq_zero_iff.mp (by omega); simp [this, chunks20]
  | succ n ih =>
    intro s h
    cases s with
    | nil => rfl
    | cons b bs =>
      simp only [chunks20, List.flatten_cons]
      rw [ih _ (by simp at h ⊢; omega)]
      exact List.take_append_drop 20 _

theorem chunks20_length : ∀ (n : Nat) (s : Bytes), s.length ≤ n → s.length % 20 = 0 → ∀ h ∈ chunks20 n s, h.length = 20 := by
  intro n
  induction n with
  | zero => intro s h _ x hx; simp [chunks20] at hx
  | succ n ih =>
    intro s h hm x hx
    cases s with
    | nil => simp [chunks20] at hx
    | cons b bs =>
      simp only [chunks20, List.mem_cons] at hx
      have hlen : 20 ≤ (b :: bs).length := by
        simp only [List.length_cons] at hm ⊢; omega
      rcases hx with rfl | hx
      · rw [List.length_take]; omega
      · refine ih _ ?_ ?_ x hx
        · simp at h ⊢; omega
        · rw [List.length_drop]; omega

/-- Lists of 20-byte strings are determined by their concatenation. -/
theorem flatten20_inj : ∀ (hs gs : List Bytes), (∀ h ∈ hs, h.length = 20) → (∀ g ∈ gs, g.length = 20) → hs.flatten = gs.flatten → hs = gs
  | [], [], _, _, _ => rfl
  | [], g :: gs, _, h2, e => by
    have h3 := congrArg List.length e
    have h4 := h2 g (by simp)
    simp only [List.flatten_nil, List.flatten_cons, List.length_append, List.length_nil] at h3
    omega
  | h :: hs, [], h1, _, e => by
    have h3 := congrArg List.length e
    have h4 := h1 h (by simp)
    simp only [List.flatten_nil, List.flatten_cons, List.length_append, List.length_nil] at h3
    omega
  | h :: hs, g :: gs, h1, h2, e => by
    simp only [List.flatten_cons] at e
    have := List.append_inj e (by rw [h1 h (by simp), h2 g (by simp)])
    rw [this.1, flatten20_inj hs gs (fun x hx => h1 x (by simp [hx])) (fun x hx => h2 x (by simp [hx])) this.2]

theorem hashBytes_hashVal (h : Bytes) : hashBytes (hashVal h) = h := by
  induction h with
  | nil => rfl
  | cons x h ih =>
    simp only [hashBytes, hashVal, List.map_map, List.map_cons] at ih ⊢
    rw [ih]; simp

theorem hashVal_inj {a b : Bytes} (h : hashVal a = hashVal b) : a = b := by
  rw [← hashBytes_hashVal a, h, hashBytes_hashVal]

theorem piecesMarshal_val (hs : List Bytes) : piecesMarshal (piecesVal hs) = marshal noEnv .str (.str hs.flatten) := by
  cases hs with
  | nil => rfl
  | cons h hs =>
    have : ∀ l : List Bytes, (l.map hashVal).flatMap hashBytes = l.flatten := by
      intro l
      induction l with
      | nil => rfl
      | cons x l ih => simp only [List.map_cons, List.flatMap_cons, ih, hashBytes_hashVal, List.flatten_cons]
    show marshal noEnv .str (.str (((h :: hs).map hashVal).flatMap hashBytes)) = _
    rw [this]

theorem marshal_str (s : Bytes) : marshal noEnv .str (.str s) = .ok (benc (.str s)) := by
  have hd : Denotes noEnv { addr := false } .str (.str s) (.str s) 0 := .kind (by simp [UsesMethod]) .str
  have he := emits_encode noEnv (Val.str s).height _ _ _ _ _ hd (Nat.le_refl _) ⟨[], 0⟩ (by simp)
  simp only [Nat.zero_add, if_pos (show 0 ≤ 1000 by decide)] at he
  unfold marshal encodeTop
  rw [he]; rfl

end Drip.Metainfo
