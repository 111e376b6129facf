import Verif.Spec.Marshal
import Verif.Lemmas.Bencode.Fields
import Verif.Lemmas.Bencode.Sort
import Verif.Lemmas.Bencode.Unique
/-
What the encoder writes.
-/

namespace Drip.Bencode
open Spec

/-- Started at a depth within the limit, `p` appends `o` and restores the depth, provided it can go `d` levels deeper;
otherwise it fails with the depth error. -/
def Emits (p : E) (o : Bytes) (d : Nat) : Prop :=
  ∀ s : ESt, s.depth ≤ 1000 → if s.depth + d ≤ 1000 then p s = (.ok (), ⟨s.out ++ o, s.depth⟩)
    else ∃ s', p s = (.err .depth, s')

theorem Emits.ok : Emits E.ok [] 0 := by
  intro s h; simp [E.ok, h]

theorem Emits.write (b : Bytes) : Emits (E.write b) b 0 := by
  intro s h; simp [E.write, h]

theorem Emits.seq {a b : E} {o1 o2 : Bytes} {d1 d2 : Nat} (ha : Emits a o1 d1) (hb : Emits b o2 d2) :
    Emits (E.seq a b) (o1 ++ o2) (max d1 d2) := by
  intro s h
  have h1 := ha s h
  by_cases hd1 : s.depth + d1 ≤ 1000
  · rw [if_pos hd1] at h1
    have h2 := hb ⟨s.out ++ o1, s.depth⟩ h
    simp only at h2
    unfold E.seq
    rw [h1]
    by_cases hd2 : s.depth + d2 ≤ 1000
    · rw [if_pos hd2] at h2
      rw [if_pos (by omega)]
      simp [h2]
    · rw [if_neg hd2] at h2
      rw [if_neg (by omega)]
      exact h2
  · rw [if_neg hd1] at h1
    obtain ⟨s', h1⟩ := h1
    rw [if_neg (by omega)]
    unfold E.seq
    rw [h1]
    exact ⟨s', rfl⟩

theorem Emits.seq0 {a b : E} {o1 o2 : Bytes} {d2 : Nat} (ha : Emits a o1 0) (hb : Emits b o2 d2) :
    Emits (E.seq a b) (o1 ++ o2) d2 := by
  have := ha.seq hb
  rwa [Nat.zero_max] at this

theorem nested_run (c : UInt8) (body : E) (s : ESt) : nested c body s =
    if 1000 < s.depth + 1 then (.err .depth, ⟨s.out, s.depth + 1⟩)
    else match E.seq (E.write [c]) (E.seq body (E.write [101])) ⟨s.out, s.depth + 1⟩ with
      | (.ok (), s) => (.ok (), { s with depth := s.depth - 1 })
      | r => r := rfl

theorem Emits.nested {c : UInt8} {body : E} {o : Bytes} {d : Nat} (hb : Emits body o d) :
    Emits (nested c body) (c :: o ++ [101]) (d + 1) := by
  intro s h
  rw [nested_run]
  by_cases hl : 1000 < s.depth + 1
  · rw [if_pos hl, if_neg (by omega)]
    exact ⟨_, rfl⟩
  · rw [if_neg hl]
    have := (Emits.write [c]).seq0 (hb.seq (Emits.write [101]))
    rw [Nat.max_zero] at this
    have h2 := this ⟨s.out, s.depth + 1⟩ (by simp only; omega)
    simp only at h2
    by_cases hd : s.depth + (d + 1) ≤ 1000
    · rw [if_pos (by omega)] at h2
      rw [if_pos hd, h2]
      simp
    · rw [if_neg (by omega)] at h2
      obtain ⟨s', h2⟩ := h2
      rw [if_neg hd, h2]
      exact ⟨s', rfl⟩

theorem natDec_eq_decNat (n : Nat) : natDec n = decNat n := (decNat_eq n).symm
theorem intDec_eq_decInt (n : Int) : intDec n = decInt n := (decInt_eq n).symm

theorem Emits.encString (b : Bytes) : Emits (encString b) (decNat b.length ++ 58 :: b) 0 := by
  unfold Bencode.encString
  rw [natDec_eq_decNat]
  exact (Emits.write _).seq0 ((Emits.write [58]).seq0 (Emits.write b))

theorem Emits.encInt (i : Int) : Emits (encInt i) (105 :: decInt i ++ [101]) 0 := by
  unfold Bencode.encInt
  rw [intDec_eq_decInt]
  exact (Emits.write [105]).seq0 ((Emits.write _).seq0 (Emits.write [101]))

theorem decInt_natCast (n : Nat) : decInt (n : Int) = decNat n := by
  unfold decInt
  rw [if_neg (by omega)]
  simp

theorem Emits.encUint (n : Nat) : Emits (encUint n) (105 :: decInt n ++ [101]) 0 := by
  unfold Bencode.encUint
  rw [decInt_natCast, natDec_eq_decNat]
  exact (Emits.write [105]).seq0 ((Emits.write _).seq0 (Emits.write [101]))

/-! ### Fields -/

theorem isNil_iff (v : Val) : isNil v = true ↔ Nil v := by cases v <;> simp [isNil, Nil]

theorem isEmpty_iff (v : Val) : isEmptyValue v = true ↔ EmptyVal v := by cases v <;> simp [isEmptyValue, EmptyVal]

theorem fieldByIndex_nil {fl : Flags} {t : Ty} {v : Val} (is : List Nat) (h : Nil v) :
    fieldByIndex is fl t v = some (fl, t, v) := by
  cases is with
  | nil => rfl
  | cons i is => unfold fieldByIndex; rw [if_pos ((isNil_iff v).mpr h)]

theorem elem1_struct (fl : Flags) (t : Ty) (vs : List Val) : elem1 fl t (.struct vs) = (fl, t, .struct vs) := by
  cases t <;> rfl

theorem fieldByIndex_at {fl fl' : Flags} {t t' : Ty} {v v' : Val} {p : List Nat} (h : At fl t v p fl' t' v') (q : List Nat)
    (hq : q = [] ∨ Nil v') : fieldByIndex (p ++ q) fl t v = some (fl', t', v') := by
  induction h with
  | done =>
    rcases hq with rfl | hq
    · rfl
    · exact fieldByIndex_nil _ hq
  | field h1 h2 h3 _ ih =>
    rw [List.cons_append]
    unfold fieldByIndex
    simp only [isNil, Bool.false_eq_true, if_false, elem1_struct, h1, h2, h3]
    exact ih hq
  | deref h1 h2 h3 _ ih =>
    rw [List.cons_append]
    unfold fieldByIndex
    simp only [isNil, Bool.false_eq_true, if_false, elem1, h1, h2, h3]
    exact ih hq

theorem at_of_fieldByIndex {is : List Nat} : ∀ {fl fl' : Flags} {t t' : Ty} {v v' : Val},
    fieldByIndex is fl t v = some (fl', t', v') →
    ∃ p q, is = p ++ q ∧ At fl t v p fl' t' v' ∧ (q = [] ∨ Nil v') := by
  induction is with
  | nil =>
    intro fl fl' t t' v v' h
    simp only [fieldByIndex, Option.some.injEq, Prod.mk.injEq] at h
    obtain ⟨rfl, rfl, rfl⟩ := h
    exact ⟨[], [], rfl, .done, .inl rfl⟩
  | cons i is ih =>
    intro fl fl' t t' v v' h
    unfold fieldByIndex at h
    split at h
    · next hn =>
      simp only [Option.some.injEq, Prod.mk.injEq] at h
      obtain ⟨rfl, rfl, rfl⟩ := h
      exact ⟨[], i :: is, rfl, .done, .inr ((isNil_iff _).mp hn)⟩
    · have key : ∀ (fl1 : Flags) (t1 : Ty) (v1 : Val), elem1 fl t v = (fl1, t1, v1) →
          ∃ id fs vs hd ft fv, t1.under = .struct id fs ∧ v1 = .struct vs ∧ fs[i]? = some (hd, ft) ∧ vs[i]? = some fv ∧
            fieldByIndex is { addr := fl1.addr, ro := hd.anon && !hd.exported } ft fv = some (fl', t', v') := by
        intro fl1 t1 v1 he
        simp only [he] at h
        split at h
        · next id fs vs hu =>
          split at h
          · next hd ft fv h1 h2 => exact ⟨id, fs, vs, hd, ft, fv, hu, rfl, h1, h2, h⟩
          · simp at h
        · simp at h
      by_cases hp : ∃ et ev, t = .ptr et ∧ v = .ptr ev
      · obtain ⟨et, ev, rfl, rfl⟩ := hp
        obtain ⟨id, fs, vs, hd, ft, fv, h1, rfl, h3, h4, h5⟩ := key _ _ _ rfl
        obtain ⟨p, q, rfl, ha, hq⟩ := ih h5
        exact ⟨i :: p, q, rfl, .deref h1 h3 h4 ha, hq⟩
      · have he : elem1 fl t v = (fl, t, v) := by
          cases t <;> cases v <;> first | rfl | exact absurd ⟨_, _, rfl, rfl⟩ hp
        obtain ⟨id, fs, vs, hd, ft, fv, h1, rfl, h3, h4, h5⟩ := key _ _ _ he
        obtain ⟨p, q, rfl, ha, hq⟩ := ih h5
        exact ⟨i :: p, q, rfl, .field h1 h3 h4 ha, hq⟩

theorem omitted_iff {fl : Flags} {t : Ty} {v : Val} {f : FieldInfo} {ffl : Flags} {ft : Ty} {fv : Val}
    (h : fieldByIndex f.index fl t v = some (ffl, ft, fv)) :
    Omitted fl t v f ↔ (isNil fv = true ∨ (f.omitempty && isEmptyValue fv) = true) := by
  constructor
  · rintro ⟨p, q, fl', t', v', e, ha, hn | ⟨rfl, ho, he⟩⟩
    · have := fieldByIndex_at ha q (.inr hn)
      rw [← e, h] at this
      simp only [Option.some.injEq, Prod.mk.injEq] at this
      rw [this.2.2]
      exact .inl ((isNil_iff _).mpr hn)
    · have := fieldByIndex_at ha [] (.inl rfl)
      rw [← e, h] at this
      simp only [Option.some.injEq, Prod.mk.injEq] at this
      rw [this.2.2]
      exact .inr (by simp [ho, (isEmpty_iff _).mpr he])
  · intro hs
    obtain ⟨p, q, e, ha, hq⟩ := at_of_fieldByIndex h
    rcases hs with hs | hs
    · exact ⟨p, q, ffl, ft, fv, e, ha, .inl ((isNil_iff _).mp hs)⟩
    · rcases hq with rfl | hq
      · simp only [Bool.and_eq_true] at hs
        exact ⟨p, [], ffl, ft, fv, e, ha, .inr ⟨rfl, hs.1, (isEmpty_iff _).mp hs.2⟩⟩
      · exact ⟨p, q, ffl, ft, fv, e, ha, .inl hq⟩

theorem heights_get {vs : List Val} {i : Nat} {v : Val} (h : vs[i]? = some v) : v.height ≤ heights vs := by
  induction vs generalizing i with
  | nil => simp at h
  | cons w ws ih =>
    cases i with
    | zero => simp only [List.getElem?_cons_zero, Option.some.injEq] at h; subst h; simp only [heights]; omega
    | succ i => have := ih (by simpa using h); simp only [heights]; omega

theorem at_height {fl fl' : Flags} {t t' : Ty} {v v' : Val} {p : List Nat} (h : At fl t v p fl' t' v') :
    v'.height ≤ v.height ∧ (p ≠ [] → v'.height < v.height) := by
  induction h with
  | done => simp
  | field _ _ h3 _ ih =>
    have := heights_get h3
    simp only [Val.height]
    exact ⟨by omega, fun _ => by omega⟩
  | deref _ _ h3 _ ih =>
    have := heights_get h3
    simp only [Val.height]
    exact ⟨by omega, fun _ => by omega⟩

/-! ### Dispatch -/

theorem encode_method {env : Env} {fl : Flags} {t : Ty} {v : Val} {c : Bytes} (h : Method env fl t v c) (n : Nat) :
    encode env (n + 1) fl t v = E.write c := by
  cases h with
  | addr h1 h2 h3 h4 => unfold encode; simp only [h1, h2]; unfold encMarshaler; simp only [h3, h4]; rfl
  | ptr h1 h3 h4 => unfold encode; simp only [h1]; unfold encMarshaler; simp only [h3, h4]; rfl

theorem encode_named {env : Env} {fl : Flags} {id : Nat} {u : Ty} {v : Val} (h : ¬ UsesMethod env fl (.custom id u)) (n : Nat) :
    encode env (n + 1) fl (.custom id u) v = encKind (encode env n) fl u v := by
  unfold encode
  simp only
  split
  · next m h1 h2 => exact absurd ⟨by simp [h1], h2⟩ h
  · rfl

theorem encode_kind {env : Env} {fl : Flags} {t : Ty} {v : Val} (h : ¬ UsesMethod env fl t) (ht : ∀ id u, t ≠ .custom id u)
    (n : Nat) : encode env (n + 1) fl t v = encKind (encode env n) fl t v := by
  unfold encode
  split
  · next id u => exact absurd rfl (ht id u)
  · next id u ev =>
    split
    · next m hm => exact absurd (by simp [UsesMethod, hm]) h
    · rfl
  · next id u _ =>
    split
    · next m hm => exact absurd (by simp [UsesMethod, hm]) h
    · rfl
  · rfl

theorem heightsM_mem {es : List (Bytes × Val)} {e : Bytes × Val} (h : e ∈ es) : e.2.height ≤ heightsM es := by
  induction es with
  | nil => simp at h
  | cons x xs ih =>
    simp only [heightsM]
    rcases List.mem_cons.mp h with rfl | h
    · omega
    · have := ih h; omega

theorem incr_of_keysAbove {α : Type} : ∀ (es : List (Bytes × α)) (last : Bytes), KeysAbove last es →
    Incr (·.1) es ∧ ∀ e ∈ es, BLt last e.1 := by
  intro es
  induction es with
  | nil => intro last _; simp [Incr]
  | cons x xs ih =>
    intro last h
    obtain ⟨k, v⟩ := x
    obtain ⟨h1, h2⟩ := h
    obtain ⟨i1, i2⟩ := ih k h2
    refine ⟨?_, ?_⟩
    · unfold Incr at i1 ⊢
      rw [List.pairwise_cons]
      exact ⟨i2, i1⟩
    · intro e he
      rcases List.mem_cons.mp he with rfl | he
      · exact h1
      · exact BLt.trans h1 (i2 e he)

theorem keysAbove_of_incr {α : Type} : ∀ (es : List (Bytes × α)) (last : Bytes), Incr (·.1) es → (∀ e ∈ es, BLt last e.1) →
    KeysAbove last es := by
  intro es
  induction es with
  | nil => intro last _ _; trivial
  | cons x xs ih =>
    intro last h hl
    obtain ⟨k, v⟩ := x
    unfold Incr at h
    rw [List.pairwise_cons] at h
    exact ⟨hl (k, v) (by simp), ih k h.2 h.1⟩

theorem keysIncreasing_iff {α : Type} (es : List (Bytes × α)) : KeysIncreasing es ↔ Incr (·.1) es := by
  cases es with
  | nil => simp [KeysIncreasing, Incr]
  | cons x xs =>
    obtain ⟨k, v⟩ := x
    constructor
    · intro h
      obtain ⟨h1, h2⟩ := incr_of_keysAbove xs k h
      unfold Incr at h1 ⊢
      rw [List.pairwise_cons]
      exact ⟨h2, h1⟩
    · intro h
      unfold Incr at h
      rw [List.pairwise_cons] at h
      exact keysAbove_of_incr xs k h.2 h.1

/-- Strictly increasing lists have distinct keys. -/
theorem Incr.nodup {α : Type} {key : α → Bytes} {l : List α} (h : Incr key l) : (l.map key).Nodup := by
  unfold Incr at h
  rw [List.Nodup, List.pairwise_map]
  exact h.imp fun {a b} hab (e : key a = key b) => by rw [e] at hab; exact BLt.irrefl _ hab

theorem sortByKey_of_perm_incr {α : Type} (key : α → Bytes) (l l' : List α) (hp : l'.Perm l) (hi : Incr key l') :
    sortByKey key l = l' := by
  have hn : (l'.map key).Nodup := hi.nodup
  have hn' : (l.map key).Nodup := (hp.map key).nodup_iff.mp hn
  exact Incr.unique key _ _ (sortByKey_incr key l hn') hi ((sortByKey_perm key l).trans hp.symm)

/-! ### Completeness -/

theorem emits_encode (env : Env) : ∀ n fl t v b d, Denotes env fl t v b d → v.height ≤ n →
    Emits (encode env n fl t v) (benc b) d := by
  intro n
  induction n with
  | zero =>
    intro fl t v b d _ hh
    have : 0 < v.height := by cases v <;> simp [Val.height]
    omega
  | succ n ih =>
    have hL : ∀ fl t es bs d, DenotesL env fl t es bs d → heights es ≤ n →
        Emits (encElems (encode env n) fl t es) (bencs bs) d := by
      intro fl t es
      induction es with
      | nil => intro bs d h _; cases h; exact Emits.ok
      | cons v vs ihv =>
        intro bs d h hh
        cases h with
        | cons h1 h2 =>
          simp only [heights] at hh
          exact (ih _ _ _ _ _ h1 (by omega)).seq (ihv _ _ h2 (by omega))
    have hE : ∀ t es bs d, DenotesE env t es bs d → (∀ e ∈ es, e.2.height ≤ n) →
        Emits (encEntries (encode env n) t es) (bencEs bs) d := by
      intro t es
      induction es with
      | nil => intro bs d h _; cases h; exact Emits.ok
      | cons x es ihe =>
        intro bs d h hh
        obtain ⟨k, v⟩ := x
        cases h with
        | cons h1 h2 =>
          have h3 := (Emits.encString k).seq0 ((ih _ _ _ _ _ h1 (hh (_, _) List.mem_cons_self)).seq (ihe _ _ h2 (fun e he => hh e (by simp [he]))))
          simpa [encEntries, bencEs, List.append_assoc] using h3
    have hF : ∀ fl t v fs bs d, DenotesF env fl t v fs bs d → (∀ f ∈ fs, f.index ≠ []) → v.height ≤ n + 1 →
        Emits (encFields (encode env n) fl t v fs) (bencEs bs) d := by
      intro fl t v fs
      induction fs with
      | nil => intro bs d h _ _; cases h; exact Emits.ok
      | cons f fs ihf =>
        intro bs d h hi hh
        cases h with
        | skip h1 h2 =>
          have ihf' := ihf _ _ h2 (fun g hg => hi g (by simp [hg])) hh
          obtain ⟨p, q, fl', t', v', e, ha, hx⟩ := h1
          have hfb : fieldByIndex f.index fl t v = some (fl', t', v') := by
            rw [e]
            refine fieldByIndex_at ha q ?_
            rcases hx with hx | hx
            · exact .inr hx
            · exact .inl hx.1
          have := (omitted_iff hfb).mp ⟨p, q, fl', t', v', e, ha, hx⟩
          unfold encFields
          rw [hfb]
          dsimp only
          by_cases h1 : isNil v' = true
          · rw [if_pos h1]; exact ihf'
          · rw [if_neg h1]
            rcases this with h | h
            · exact absurd h h1
            · rw [if_pos h]; exact ihf'
        | cons h1 hno h2 h3 =>
          have ihf' := ihf _ _ h3 (fun g hg => hi g (by simp [hg])) hh
          have hfb := fieldByIndex_at h1 [] (.inl rfl)
          rw [List.append_nil] at hfb
          have hno' := mt (omitted_iff hfb).mpr hno
          simp only [not_or] at hno'
          unfold encFields
          rw [hfb]
          dsimp only
          rw [if_neg hno'.1, if_neg hno'.2]
          have hheight := (at_height h1).2 (hi f (by simp))
          have h4 := (Emits.encString f.key).seq0 ((ih _ _ _ _ _ h2 (by omega)).seq ihf')
          simpa [bencEs, List.append_assoc] using h4
    have hK : ∀ fl t v b d, DenotesK env fl t v b d → v.height ≤ n + 1 → Emits (encKind (encode env n) fl t v) (benc b) d := by
      intro fl t v b d h hh
      cases h with
      | str => exact Emits.encString _
      | bytes => exact Emits.encString _
      | nilBytes => exact Emits.encString []
      | int => exact Emits.encInt _
      | uint => exact Emits.encUint _
      | slice h => simp only [Val.height] at hh; exact (hL _ _ _ _ _ h (by omega)).nested
      | array h => simp only [Val.height] at hh; exact (hL _ _ _ _ _ h (by omega)).nested
      | map hp hi h =>
        simp only [Val.height] at hh
        have := hE _ _ _ _ h (fun e he => by have := heightsM_mem (hp.mem_iff.mp he); omega)
        unfold encKind
        simp only [sortByKey_of_perm_incr _ _ _ hp ((keysIncreasing_iff _).mp hi)]
        exact this.nested
      | struct h => exact (hF _ _ _ _ _ _ h (fun f hf => structFields_index hf) hh).nested
      | any h => simp only [Val.height] at hh; exact ih _ _ _ _ _ h (by omega)
      | iface h => simp only [Val.height] at hh; exact ih _ _ _ _ _ h (by omega)
      | ptr h => simp only [Val.height] at hh; exact ih _ _ _ _ _ h (by omega)
    intro fl t v b d h hh
    cases h with
    | method hm => rw [encode_method hm]; exact Emits.write _
    | named hu hk => rw [encode_named hu]; exact hK _ _ _ _ _ hk hh
    | kind hu hk =>
      rw [encode_kind hu]
      · exact hK _ _ _ _ _ hk hh
      · intro id u e; subst e; cases hk

/-! ### Soundness -/

theorem seq_ok {a b : E} {s s' : ESt} (h : E.seq a b s = (.ok (), s')) : ∃ s1, a s = (.ok (), s1) ∧ b s1 = (.ok (), s') := by
  unfold E.seq at h
  split at h
  · next s1 he => exact ⟨s1, he, h⟩
  · next r hr => exact absurd h (hr s')

theorem nested_ok {c : UInt8} {body : E} {s s' : ESt} (h : nested c body s = (.ok (), s')) :
    ∃ s1 s2, body s1 = (.ok (), s2) ∧ s1.depth = s.depth + 1 ∧ s1.depth ≤ 1000 ∧ s'.depth = s2.depth - 1 ∧
      s1.out = s.out ++ [c] ∧ s'.out = s2.out ++ [101] := by
  rw [nested_run] at h
  split at h
  · simp at h
  · next hd =>
    split at h
    · next s2 he =>
      obtain ⟨s3, h3, h4⟩ := seq_ok he
      obtain ⟨s4, h5, h6⟩ := seq_ok h4
      simp only [E.write, Prod.mk.injEq, true_and] at h3 h6 h
      subst h3 h6 h
      exact ⟨_, s4, h5, rfl, by show s.depth + 1 ≤ 1000; omega, rfl, rfl, rfl⟩
    · next r hr => exact absurd h (hr s')

theorem noNils_get {vs : List Val} (h : NoNilFs vs) {i : Nat} {v : Val} (e : vs[i]? = some v) : Nil v ∨ NoNil v := by
  induction vs generalizing i with
  | nil => simp at e
  | cons w ws ih =>
    cases i with
    | zero => simp only [List.getElem?_cons_zero, Option.some.injEq] at e; subst e; exact h.1
    | succ i => exact ih h.2 (by simpa using e)

theorem goMapss_get {vs : List Val} (h : GoMapss vs) {i : Nat} {v : Val} (e : vs[i]? = some v) : GoMaps v := by
  induction vs generalizing i with
  | nil => simp at e
  | cons w ws ih =>
    cases i with
    | zero => simp only [List.getElem?_cons_zero, Option.some.injEq] at e; subst e; exact h.1
    | succ i => exact ih h.2 (by simpa using e)

theorem at_noNil {fl fl' : Flags} {t t' : Ty} {v v' : Val} {p : List Nat} (h : At fl t v p fl' t' v') (hn : Nil v ∨ NoNil v) :
    Nil v' ∨ NoNil v' := by
  induction h with
  | done => exact hn
  | field _ _ h3 _ ih =>
    rcases hn with hn | hn
    · simp [Nil] at hn
    · exact ih (noNils_get hn h3)
  | deref _ _ h3 _ ih =>
    rcases hn with hn | hn
    · simp [Nil] at hn
    · exact ih (noNils_get hn h3)

theorem at_goMaps {fl fl' : Flags} {t t' : Ty} {v v' : Val} {p : List Nat} (h : At fl t v p fl' t' v') (hn : GoMaps v) :
    GoMaps v' := by
  induction h with
  | done => exact hn
  | field _ _ h3 _ ih => exact ih (goMapss_get hn h3)
  | deref _ _ h3 _ ih => exact ih (goMapss_get hn h3)

/-- The methods return canonical encodings. -/
def CanonicalMethods (env : Env) : Prop :=
  ∀ id m v c, (env id).marshal = some m → m v = .ok c → ∃ b, BVal.Sorted b ∧ c = benc b

theorem encMarshaler_ok {ro : Bool} {m : Val → Res Bytes} {v : Option Val} {s s' : ESt}
    (h : encMarshaler ro m v s = (.ok (), s')) : ro = false ∧ ∃ w c, v = some w ∧ m w = .ok c := by
  unfold encMarshaler at h
  cases ro with
  | true => simp [E.panic] at h
  | false =>
    cases v with
    | none => simp [E.panic] at h
    | some w =>
      cases hc : m w with
      | ok c => exact ⟨rfl, w, c, rfl, hc⟩
      | err e => simp [hc, E.fail] at h
      | panic => simp [hc, E.panic] at h

theorem denotes_of_encode {env : Env} (henv : CanonicalMethods env) : ∀ n fl t v s s', encode env n fl t v s = (.ok (), s') →
    NoNil v → GoMaps v → ∃ b d, Denotes env fl t v b d := by
  intro n
  induction n with
  | zero => intro fl t v s s' h; simp [encode, E.fail] at h
  | succ n ih =>
    have hL : ∀ fl t es s s', encElems (encode env n) fl t es s = (.ok (), s') → NoNils es → GoMapss es →
        ∃ bs d, DenotesL env fl t es bs d := by
      intro fl t es
      induction es with
      | nil => intro s s' _ _ _; exact ⟨[], 0, .nil⟩
      | cons v vs ihv =>
        intro s s' h hn hg
        obtain ⟨s1, h1, h2⟩ := seq_ok h
        obtain ⟨b, d, hb⟩ := ih _ _ _ _ _ h1 hn.1 hg.1
        obtain ⟨bs, d', hbs⟩ := ihv _ _ h2 hn.2 hg.2
        exact ⟨_, _, .cons hb hbs⟩
    have hE : ∀ t (es : List (Bytes × Val)) s s', encEntries (encode env n) t es s = (.ok (), s') →
        (∀ e ∈ es, NoNil e.2 ∧ GoMaps e.2) → ∃ bs d, DenotesE env t es bs d := by
      intro t es
      induction es with
      | nil => intro s s' _ _; exact ⟨[], 0, .nil⟩
      | cons x es ihe =>
        intro s s' h hn
        obtain ⟨k, v⟩ := x
        obtain ⟨s1, _, h2⟩ := seq_ok h
        obtain ⟨s2, h3, h4⟩ := seq_ok h2
        obtain ⟨b, d, hb⟩ := ih _ _ _ _ _ h3 (hn (k, v) (by simp)).1 (hn (k, v) (by simp)).2
        obtain ⟨bs, d', hbs⟩ := ihe _ _ h4 (fun e he => hn e (by simp [he]))
        exact ⟨_, _, .cons hb hbs⟩
    have hF : ∀ fl t v fs s s', encFields (encode env n) fl t v fs s = (.ok (), s') → NoNil v → GoMaps v →
        ∃ bs d, DenotesF env fl t v fs bs d := by
      intro fl t v fs
      induction fs with
      | nil => intro s s' _ _ _; exact ⟨[], 0, .nil⟩
      | cons f fs ihf =>
        intro s s' h hn hg
        unfold encFields at h
        cases hfb : fieldByIndex f.index fl t v with
        | none => rw [hfb] at h; simp [E.panic] at h
        | some x =>
          obtain ⟨ffl, ft, fv⟩ := x
          rw [hfb] at h
          dsimp only at h
          have homit := omitted_iff hfb
          split at h
          · next h1 =>
            obtain ⟨bs, d, hb⟩ := ihf _ _ h hn hg
            exact ⟨bs, d, .skip (homit.mpr (.inl h1)) hb⟩
          · next h1 =>
            split at h
            · next h2 =>
              obtain ⟨bs, d, hb⟩ := ihf _ _ h hn hg
              exact ⟨bs, d, .skip (homit.mpr (.inr h2)) hb⟩
            · next h2 =>
              obtain ⟨s1, _, h4⟩ := seq_ok h
              obtain ⟨s2, h5, h6⟩ := seq_ok h4
              obtain ⟨p, q, e, ha, hq⟩ := at_of_fieldByIndex hfb
              have hnot : ¬ Nil fv := fun x => h1 ((isNil_iff _).mpr x)
              have hq' : q = [] := hq.resolve_right hnot
              subst hq'
              rw [List.append_nil] at e
              subst e
              have hnn : NoNil fv := (at_noNil ha (.inr hn)).resolve_left hnot
              obtain ⟨b, d, hb⟩ := ih _ _ _ _ _ h5 hnn (at_goMaps ha hg)
              obtain ⟨bs, d', hbs⟩ := ihf _ _ h6 hn hg
              refine ⟨_, _, .cons ha ?_ hb hbs⟩
              rw [homit]
              rintro (x | x)
              · exact h1 x
              · exact h2 x
    have hmap : ∀ (es : List (Bytes × Val)), NoNilEs es → GoMapsEs es → ∀ e ∈ es, NoNil e.2 ∧ GoMaps e.2 := by
      intro es
      induction es with
      | nil => simp
      | cons x es ihe =>
        intro h1 h2 e he
        obtain ⟨k, w⟩ := x
        rcases List.mem_cons.mp he with rfl | he
        · exact ⟨h1.1, h2.1⟩
        · exact ihe h1.2 h2.2 e he
    have hK : ∀ fl t v s s', encKind (encode env n) fl t v s = (.ok (), s') → NoNil v → GoMaps v →
        ∃ b d, DenotesK env fl t v b d := by
      intro fl t v s s' h hn hg
      unfold encKind at h
      split at h
      · exact ⟨_, _, .str⟩
      · exact ⟨_, _, .int⟩
      · exact ⟨_, _, .uint⟩
      · exact ⟨_, _, .bytes⟩
      · exact ⟨_, _, .nilBytes⟩
      · exact hn.elim
      · obtain ⟨s1, s2, hb, _⟩ := nested_ok h
        obtain ⟨bs, d, hd⟩ := hL _ _ _ _ _ hb hn hg
        exact ⟨_, _, .slice hd⟩
      · obtain ⟨s1, s2, hb, _⟩ := nested_ok h
        obtain ⟨bs, d, hd⟩ := hL _ _ _ _ _ hb hn hg
        exact ⟨_, _, .array hd⟩
      · exact hn.elim
      · next et es =>
        obtain ⟨s1, s2, hb, _⟩ := nested_ok h
        have hp := sortByKey_perm (fun e : Bytes × Val => e.1) es
        obtain ⟨bs, d, hd⟩ := hE _ _ _ _ hb (fun e he => hmap es hn hg.2 e (hp.mem_iff.mp he))
        exact ⟨_, _, .map hp ((keysIncreasing_iff _).mpr (sortByKey_incr _ _ hg.1)) hd⟩
      · exact hn.elim
      · simp [E.fail] at h
      · obtain ⟨s1, s2, hb, _⟩ := nested_ok h
        obtain ⟨bs, d, hd⟩ := hF _ _ _ _ _ _ hb hn hg
        exact ⟨_, _, .struct hd⟩
      · exact hn.elim
      · exact hn.elim
      · obtain ⟨b, d, hd⟩ := ih _ _ _ _ _ h hn hg
        exact ⟨_, _, .any hd⟩
      · obtain ⟨b, d, hd⟩ := ih _ _ _ _ _ h hn hg
        exact ⟨_, _, .iface hd⟩
      · exact hn.elim
      · obtain ⟨b, d, hd⟩ := ih _ _ _ _ _ h hn hg
        exact ⟨_, _, .ptr hd⟩
      · simp [E.fail] at h
      · simp [E.panic] at h
    intro fl t v s s' h hn hg
    by_cases hu : UsesMethod env fl t
    · match t, v, hu with
      | .custom id u, v, hu =>
        obtain ⟨hs, ha⟩ := hu
        obtain ⟨m, hm⟩ := Option.isSome_iff_exists.mp hs
        unfold encode at h
        simp only [hm, ha] at h
        obtain ⟨hro, w, c, e, hc⟩ := encMarshaler_ok h
        simp only [Option.some.injEq] at e
        subst e
        obtain ⟨b, _, rfl⟩ := henv id m v c hm hc
        exact ⟨b, 0, .method (.addr hm ha hro hc)⟩
      | .ptr (.custom id u), v, hu =>
        obtain ⟨m, hm⟩ := Option.isSome_iff_exists.mp hu
        cases v with
        | ptr ev =>
          unfold encode at h
          simp only [hm] at h
          obtain ⟨hro, w, c, e, hc⟩ := encMarshaler_ok h
          simp only [Option.some.injEq] at e
          subst e
          obtain ⟨b, _, rfl⟩ := henv id m ev c hm hc
          exact ⟨b, 0, .method (.ptr hm hro hc)⟩
        | _ =>
          unfold encode at h
          simp only [hm] at h
          obtain ⟨_, w, c, e, _⟩ := encMarshaler_ok h
          simp at e
    · by_cases hc : ∃ id u, t = .custom id u
      · obtain ⟨id, u, rfl⟩ := hc
        rw [encode_named hu] at h
        obtain ⟨b, d, hd⟩ := hK _ _ _ _ _ h hn hg
        exact ⟨b, d, .named hu hd⟩
      · rw [encode_kind hu (fun id u e => hc ⟨id, u, e⟩)] at h
        obtain ⟨b, d, hd⟩ := hK _ _ _ _ _ h hn hg
        exact ⟨b, d, .kind hu hd⟩

end Drip.Bencode
