import Verif.Lemmas.Bencode.Tree
/-
The concrete syntax is prefix-free and unambiguous.
-/

namespace Drip.Bencode
open Spec

mutual
/-- Integer texts and length texts are numerals. -/
def Syn : CTree → Prop
  | .int s n => SNumeral s n
  | .str l b => SNumeral l b.length
  | .list ts => Syns ts
  | .dict es => SynEs es
def Syns : List CTree → Prop
  | [] => True
  | t :: ts => Syn t ∧ Syns ts
def SynEs : List (Bytes × Bytes × CTree) → Prop
  | [] => True
  | (l, k, t) :: es => SNumeral l k.length ∧ Syn t ∧ SynEs es
end

mutual
theorem Valid.syn {s : Bool} {hi : Int} (t : CTree) (h : t.Valid s hi) : Syn t := by
  match t with
  | .int x n => exact h.1
  | .str l b => exact h.1.1
  | .list ts => exact Valids.syn ts h
  | .dict es => exact ValidEs.syn es [] h
theorem Valids.syn {s : Bool} {hi : Int} (ts : List CTree) (h : Valids s hi ts) : Syns ts := by
  match ts with
  | [] => trivial
  | t :: ts => exact ⟨Valid.syn t h.1, Valids.syn ts h.2⟩
theorem ValidEs.syn {s : Bool} {hi : Int} (es : List (Bytes × Bytes × CTree)) (last : Bytes) (h : ValidEs s hi last es) :
    SynEs es := by
  match es with
  | [] => trivial
  | (l, k, t) :: es => exact ⟨h.1.1, Valid.syn t h.2.2.1, ValidEs.syn es k h.2.2.2⟩
end

theorem snumeral_unique {s : Bytes} {m n : Int} (h : SNumeral s m) (h' : SNumeral s n) : m = n := by
  rcases h with ⟨a, h, rfl⟩ | ⟨ds, a, rfl, h, rfl⟩ | ⟨ds, a, rfl, h, rfl⟩ <;>
  rcases h' with ⟨b, h', rfl⟩ | ⟨es, b, e, h', rfl⟩ | ⟨es, b, e, h', rfl⟩
  · rw [h.unique h']
  · exact (h.not_sign e (.inl rfl)).elim
  · exact (h.not_sign e (.inr rfl)).elim
  · exact (h'.not_sign rfl (.inl rfl)).elim
  · simp at e; subst e; rw [h.unique h']
  · simp at e
  · exact (h'.not_sign rfl (.inr rfl)).elim
  · simp at e
  · simp at e; subst e; rw [h.unique h']

/-- Splitting at the first delimiter is unambiguous. -/
theorem split_unique {c : UInt8} {x y a b : Bytes} (hx : c ∉ x) (hy : c ∉ y) (h : x ++ c :: a = y ++ c :: b) :
    x = y ∧ a = b := by
  have h1 := (splitAt_some c (x ++ c :: a) x a).mpr ⟨rfl, hx⟩
  have h2 := (splitAt_some c (x ++ c :: a) y b).mpr ⟨h, hy⟩
  rw [h1] at h2
  simpa using h2

theorem snumeral_not_mem {s : Bytes} {n : Int} (h : SNumeral s n) : (58 : UInt8) ∉ s ∧ (101 : UInt8) ∉ s :=
  ⟨not_mem_of_snumeral h 58 not_digit_58 (by decide) (by decide),
   not_mem_of_snumeral h 101 not_digit_101 (by decide) (by decide)⟩

theorem snumeral_head {s : Bytes} {n : Int} (h : SNumeral s n) :
    ∃ c r, s = c :: r ∧ c ≠ 105 ∧ c ≠ 108 ∧ c ≠ 100 ∧ c ≠ 101 := by
  rcases h with ⟨a, h, rfl⟩ | ⟨ds, a, rfl, h, rfl⟩ | ⟨ds, a, rfl, h, rfl⟩
  · cases s with
    | nil => exact absurd rfl h.1
    | cons c r => exact ⟨c, r, rfl, digit_ne (h.2.1 c (by simp))⟩
  · exact ⟨43, ds, rfl, by decide⟩
  · exact ⟨45, ds, rfl, by decide⟩

/-- A string with its length in front is unambiguous. -/
theorem str_unique {l l' b b' x y : Bytes} (h : SNumeral l b.length) (h' : SNumeral l' b'.length)
    (e : l ++ 58 :: (b ++ x) = l' ++ 58 :: (b' ++ y)) : l = l' ∧ b = b' ∧ x = y := by
  obtain ⟨rfl, e2⟩ := split_unique (snumeral_not_mem h).1 (snumeral_not_mem h').1 e
  have hl := snumeral_unique h h'
  have : b.length = b'.length := by omega
  obtain ⟨rfl, rfl⟩ := List.append_inj e2 this
  exact ⟨rfl, rfl, rfl⟩

theorem Syn.head_ne {t : CTree} (h : Syn t) : ∃ c r, t.print = c :: r ∧ c ≠ 101 := by
  cases t with
  | int s n => exact ⟨105, _, rfl, by decide⟩
  | list ts => exact ⟨108, _, rfl, by decide⟩
  | dict ts => exact ⟨100, _, rfl, by decide⟩
  | str l b =>
    obtain ⟨c, r, rfl, h'⟩ := snumeral_head h
    exact ⟨c, _, rfl, h'.2.2.2⟩

mutual
/-- Prefix-freeness and unambiguity. -/
theorem print_unique (t u : CTree) (ht : Syn t) (hu : Syn u) (a b : Bytes) (h : t.print ++ a = u.print ++ b) :
    t = u ∧ a = b := by
  match t, u with
  | .int s n, .int s' n' =>
    simp only [CTree.print, List.cons_append, List.append_assoc, List.cons.injEq, true_and, List.nil_append] at h
    obtain ⟨rfl, rfl⟩ := split_unique (snumeral_not_mem ht).2 (snumeral_not_mem hu).2 h
    exact ⟨by rw [snumeral_unique ht hu], rfl⟩
  | .str l x, .str l' x' =>
    simp only [CTree.print, List.cons_append, List.append_assoc] at h
    obtain ⟨rfl, rfl, rfl⟩ := str_unique ht hu h
    exact ⟨rfl, rfl⟩
  | .list ts, .list us =>
    simp only [CTree.print, List.cons_append, List.append_assoc, List.cons.injEq, true_and, List.nil_append] at h
    obtain ⟨rfl, rfl⟩ := prints_unique ts us ht hu a b h
    exact ⟨rfl, rfl⟩
  | .dict ts, .dict us =>
    simp only [CTree.print, List.cons_append, List.append_assoc, List.cons.injEq, true_and, List.nil_append] at h
    obtain ⟨rfl, rfl⟩ := printEs_unique ts us ht hu a b h
    exact ⟨rfl, rfl⟩
  | .str l x, .int _ _ | .str l x, .list _ | .str l x, .dict _ =>
    obtain ⟨c, r, rfl, h1, h2, h3, h4⟩ := snumeral_head ht
    simp [CTree.print, h1, h2, h3] at h
  | .int _ _, .str l x | .list _, .str l x | .dict _, .str l x =>
    obtain ⟨c, r, rfl, h1, h2, h3, h4⟩ := snumeral_head hu
    simp [CTree.print, Ne.symm h1, Ne.symm h2, Ne.symm h3] at h
  | .int _ _, .list _ | .int _ _, .dict _ | .list _, .int _ _ | .list _, .dict _ | .dict _, .int _ _ | .dict _, .list _ =>
    simp [CTree.print] at h
theorem prints_unique (ts us : List CTree) (ht : Syns ts) (hu : Syns us) (a b : Bytes)
    (h : prints ts ++ 101 :: a = prints us ++ 101 :: b) : ts = us ∧ a = b := by
  match ts, us with
  | [], [] => simpa [prints] using h
  | [], u :: us =>
    obtain ⟨c, r, e, hc⟩ := hu.1.head_ne
    simp [prints, e, Ne.symm hc] at h
  | t :: ts, [] =>
    obtain ⟨c, r, e, hc⟩ := ht.1.head_ne
    simp [prints, e, hc] at h
  | t :: ts, u :: us =>
    simp only [prints, List.append_assoc] at h
    obtain ⟨rfl, h'⟩ := print_unique t u ht.1 hu.1 _ _ h
    obtain ⟨rfl, rfl⟩ := prints_unique ts us ht.2 hu.2 a b h'
    exact ⟨rfl, rfl⟩
theorem printEs_unique (ts us : List (Bytes × Bytes × CTree)) (ht : SynEs ts) (hu : SynEs us) (a b : Bytes)
    (h : printEs ts ++ 101 :: a = printEs us ++ 101 :: b) : ts = us ∧ a = b := by
  match ts, us with
  | [], [] => simpa [printEs] using h
  | [], (l, k, u) :: us =>
    obtain ⟨c, r, rfl, h1, h2, h3, hc⟩ := snumeral_head hu.1
    simp [printEs, Ne.symm hc] at h
  | (l, k, t) :: ts, [] =>
    obtain ⟨c, r, rfl, h1, h2, h3, hc⟩ := snumeral_head ht.1
    simp [printEs, hc] at h
  | (l, k, t) :: ts, (l', k', u) :: us =>
    simp only [printEs, List.append_assoc, List.cons_append] at h
    obtain ⟨rfl, rfl, h'⟩ := str_unique ht.1 hu.1 h
    obtain ⟨rfl, h''⟩ := print_unique t u ht.2.1 hu.2.1 _ _ h'
    obtain ⟨rfl, rfl⟩ := printEs_unique ts us ht.2.2 hu.2.2 a b h''
    exact ⟨rfl, rfl⟩
end

/-! ### The canonical text of a value -/

theorem decNat_minimal (n : Nat) : MinimalNat (decNat n) n ∧ ((decNat n).head? = some 48 → n = 0) := by
  induction n using Nat.strongRecOn with
  | ind n ih =>
    unfold decNat
    split
    · rename_i h
      obtain ⟨h1, h2⟩ := digit_ofNat n h
      refine ⟨⟨⟨by simp, by simpa using h1, by simp [natVal]; omega⟩, ?_⟩, ?_⟩
      · intro e
        simp only [List.head?_cons, Option.some.injEq] at e
        rw [e]
      · intro e
        simp only [List.head?_cons, Option.some.injEq] at e
        rw [e] at h2; simp at h2; omega
    · rename_i h
      obtain ⟨⟨⟨hne, hd, hv⟩, hz⟩, h0⟩ := ih (n / 10) (by omega)
      obtain ⟨h1, h2⟩ := digit_ofNat (n % 10) (by omega)
      have hh : (decNat (n / 10) ++ [UInt8.ofNat (48 + n % 10)]).head? = (decNat (n / 10)).head? := by
        cases hc : decNat (n / 10) with
        | nil => exact absurd hc hne
        | cons x xs => rfl
      refine ⟨⟨⟨by simp, ?_, ?_⟩, ?_⟩, ?_⟩
      · intro b hb
        rcases List.mem_append.mp hb with hb | hb
        · exact hd b hb
        · simp at hb; rw [hb]; simpa using h1
      · rw [natVal_append, hv, h2]; omega
      · rw [hh]; intro e; have := h0 e; omega
      · rw [hh]; intro e; have := h0 e; omega

theorem decNat_eq (n : Nat) : decNat n = natDec n := (decNat_minimal n).1.eq_natDec

theorem decInt_eq (n : Int) : decInt n = intDec n := by
  unfold decInt
  rw [decNat_eq]
  split
  · obtain ⟨m, rfl⟩ := Int.eq_negSucc_of_lt_zero ‹_›
    simp [intDec]
  · obtain ⟨m, rfl⟩ := Int.eq_ofNat_of_zero_le (by omega : 0 ≤ n)
    simp [intDec]

mutual
/-- The canonical concrete syntax. -/
def canon : BVal → CTree
  | .int n => .int (decInt n) n
  | .str b => .str (decNat b.length) b
  | .list vs => .list (canons vs)
  | .dict es => .dict (canonEs es)
def canons : List BVal → List CTree
  | [] => []
  | v :: vs => canon v :: canons vs
def canonEs : List (Bytes × BVal) → List (Bytes × Bytes × CTree)
  | [] => []
  | (k, v) :: es => (decNat k.length, k, canon v) :: canonEs es
end

mutual
theorem canon_print (v : BVal) : (canon v).print = benc v := by
  match v with
  | .int n => rfl
  | .str b => rfl
  | .list vs => simp [canon, CTree.print, benc, canons_print vs]
  | .dict es => simp [canon, CTree.print, benc, canonEs_print es]
theorem canons_print (vs : List BVal) : prints (canons vs) = bencs vs := by
  match vs with
  | [] => rfl
  | v :: vs => simp [canons, prints, bencs, canon_print v, canons_print vs]
theorem canonEs_print (es : List (Bytes × BVal)) : printEs (canonEs es) = bencEs es := by
  match es with
  | [] => rfl
  | (k, v) :: es => simp [canonEs, printEs, bencEs, canon_print v, canonEs_print es]
end

mutual
theorem canon_abs (v : BVal) : (canon v).abs = v := by
  match v with
  | .int n => rfl
  | .str b => rfl
  | .list vs => simp [canon, CTree.abs, canons_abs vs]
  | .dict es => simp [canon, CTree.abs, canonEs_abs es]
theorem canons_abs (vs : List BVal) : abss (canons vs) = vs := by
  match vs with
  | [] => rfl
  | v :: vs => simp [canons, abss, canon_abs v, canons_abs vs]
theorem canonEs_abs (es : List (Bytes × BVal)) : absEs (canonEs es) = es := by
  match es with
  | [] => rfl
  | (k, v) :: es => simp [canonEs, absEs, canon_abs v, canonEs_abs es]
end

theorem decNat_snumeral (n : Nat) : SNumeral (decNat n) n := Or.inl ⟨n, (decNat_minimal n).1.1, rfl⟩
theorem decInt_snumeral (n : Int) : SNumeral (decInt n) n := by
  rw [decInt_eq]; exact (intDec_minimal n).snumeral

mutual
theorem canon_syn (v : BVal) : Syn (canon v) := by
  match v with
  | .int n => exact decInt_snumeral n
  | .str b => exact decNat_snumeral _
  | .list vs => exact canons_syn vs
  | .dict es => exact canonEs_syn es
theorem canons_syn (vs : List BVal) : Syns (canons vs) := by
  match vs with
  | [] => trivial
  | v :: vs => exact ⟨canon_syn v, canons_syn vs⟩
theorem canonEs_syn (es : List (Bytes × BVal)) : SynEs (canonEs es) := by
  match es with
  | [] => trivial
  | (k, v) :: es => exact ⟨decNat_snumeral _, canon_syn v, canonEs_syn es⟩
end

theorem benc_unique (v w : BVal) (a b : Bytes) (h : benc v ++ a = benc w ++ b) : v = w ∧ a = b := by
  rw [← canon_print, ← canon_print] at h
  obtain ⟨e, h⟩ := print_unique _ _ (canon_syn v) (canon_syn w) a b h
  refine ⟨?_, h⟩
  rw [← canon_abs v, e, canon_abs]

end Drip.Bencode
