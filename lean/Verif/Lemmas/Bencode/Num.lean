import Verif.Model.Bencode.Decode
import Verif.Spec.Numeral

namespace Drip
open Spec

theorem isDigit_iff (b : UInt8) : isDigit b = true ↔ Digit b := by
  unfold isDigit Digit
  simp only [Bool.and_eq_true, decide_eq_true_eq, UInt8.le_iff_toNat_le]
  rfl

theorem digitsVal_some (s : Bytes) (acc n : Nat) :
    digitsVal s acc = some n ↔
      (∀ b ∈ s, Digit b) ∧ s.foldl (fun a b => a * 10 + (b.toNat - 48)) acc = n := by
  induction s generalizing acc with
  | nil => simp [digitsVal]
  | cons b bs ih =>
    simp only [digitsVal]
    split
    · rename_i h
      rw [ih]
      simp [(isDigit_iff b).mp h]
    · rename_i h
      rw [isDigit_iff] at h
      simp [h]

theorem parseNat_some (s : Bytes) (n : Nat) : parseNat s = some n ↔ Numeral s n := by
  cases s with
  | nil => simp [parseNat, Numeral]
  | cons b bs => simp only [parseNat, digitsVal_some, Numeral, natVal]; simp

theorem parseUint_some (s : Bytes) (n : Nat) : parseUint s = some n ↔ Numeral s n ∧ n < 2 ^ 64 := by
  unfold parseUint
  split
  · rename_i m h
    rw [parseNat_some] at h
    constructor
    · intro e; split at e
      · simp at e; subst e; exact ⟨h, by omega⟩
      · simp at e
    · rintro ⟨h', hlt⟩
      have : m = n := h.2.2.symm.trans h'.2.2
      subst this
      rw [if_pos (by omega)]
  · rename_i h
    simp only [reduceCtorEq, false_iff]
    rintro ⟨h', _⟩
    rw [← parseNat_some, h] at h'; simp at h'

theorem Spec.Numeral.unique {s : Bytes} {m n : Nat} (h : Numeral s m) (h' : Numeral s n) : m = n :=
  h.2.2.symm.trans h'.2.2

theorem Spec.Numeral.not_sign {s ds : Bytes} {n : Nat} {c : UInt8} (h : Numeral s n) (hs : s = c :: ds)
    (hc : c = 43 ∨ c = 45) : False := by
  have := h.2.1 c (by simp [hs])
  unfold Digit at this
  rcases hc with hc | hc <;> subst hc <;> simp at this

theorem parseInt_some (s : Bytes) (n : Int) :
    parseInt s = some n ↔ SNumeral s n ∧ -2 ^ 63 ≤ n ∧ n < 2 ^ 63 := by
  unfold parseInt
  split
  · rename_i ds
    have hs : SNumeral (43 :: ds) n ↔ ∃ m, Numeral ds m ∧ n = m := by
      constructor
      · rintro (⟨m, h, _⟩ | ⟨ds', m, e, h, e'⟩ | ⟨ds', m, e, h, e'⟩)
        · exact (h.not_sign rfl (Or.inl rfl)).elim
        · simp at e; subst e; exact ⟨m, h, e'⟩
        · simp at e
      · rintro ⟨m, h, e⟩; exact Or.inr (Or.inl ⟨ds, m, rfl, h, e⟩)
    rw [hs]
    cases hp : parseNat ds with
    | none =>
      simp only [reduceCtorEq, false_iff]
      rintro ⟨⟨m, h, _⟩, _⟩
      rw [← parseNat_some, hp] at h; simp at h
    | some m =>
      have hm := (parseNat_some _ _).mp hp
      simp only
      constructor
      · intro e; split at e
        · simp at e; subst e; exact ⟨⟨m, hm, rfl⟩, by omega, by omega⟩
        · simp at e
      · rintro ⟨⟨m', h, e⟩, h1, h2⟩
        have := hm.unique h; subst this; subst e
        rw [if_pos (by omega)]
  · rename_i ds
    have hs : SNumeral (45 :: ds) n ↔ ∃ m : Nat, Numeral ds m ∧ n = -(m : Int) := by
      constructor
      · rintro (⟨m, h, _⟩ | ⟨ds', m, e, h, e'⟩ | ⟨ds', m, e, h, e'⟩)
        · exact (h.not_sign rfl (Or.inr rfl)).elim
        · simp at e
        · simp at e; subst e; exact ⟨m, h, e'⟩
      · rintro ⟨m, h, e⟩; exact Or.inr (Or.inr ⟨ds, m, rfl, h, e⟩)
    rw [hs]
    cases hp : parseNat ds with
    | none =>
      simp only [reduceCtorEq, false_iff]
      rintro ⟨⟨m, h, _⟩, _⟩
      rw [← parseNat_some, hp] at h; simp at h
    | some m =>
      have hm := (parseNat_some _ _).mp hp
      simp only
      constructor
      · intro e; split at e
        · simp at e; subst e; exact ⟨⟨m, hm, rfl⟩, by omega, by omega⟩
        · simp at e
      · rintro ⟨⟨m', h, e⟩, h1, h2⟩
        have := hm.unique h; subst this; subst e
        rw [if_pos (by omega)]
  · rename_i h43 h45
    have hs : SNumeral s n ↔ ∃ m : Nat, Numeral s m ∧ n = m := by
      constructor
      · rintro (⟨m, h, e⟩ | ⟨ds', m, e, h, e'⟩ | ⟨ds', m, e, h, e'⟩)
        · exact ⟨m, h, e⟩
        · exact (h43 _ e).elim
        · exact (h45 _ e).elim
      · rintro ⟨m, h, e⟩; exact Or.inl ⟨m, h, e⟩
    rw [hs]
    cases hp : parseNat s with
    | none =>
      simp only [reduceCtorEq, false_iff]
      rintro ⟨⟨m, h, _⟩, _⟩
      rw [← parseNat_some, hp] at h; simp at h
    | some m =>
      have hm := (parseNat_some _ _).mp hp
      simp only
      constructor
      · intro e; split at e
        · simp at e; subst e; exact ⟨⟨m, hm, rfl⟩, by omega, by omega⟩
        · simp at e
      · rintro ⟨⟨m', h, e⟩, h1, h2⟩
        have := hm.unique h; subst this; subst e
        rw [if_pos (by omega)]

theorem natVal_append (s : Bytes) (b : UInt8) : natVal (s ++ [b]) = natVal s * 10 + (b.toNat - 48) := by
  simp [natVal]

theorem digit_ofNat (d : Nat) (h : d < 10) : Digit (UInt8.ofNat (48 + d)) ∧ (UInt8.ofNat (48 + d)).toNat = 48 + d := by
  have : (UInt8.ofNat (48 + d)).toNat = 48 + d := by simp; omega
  unfold Digit
  omega

theorem natDecAux_minimal (f n : Nat) (h : n < f) : MinimalNat (natDecAux f n) n ∧ natDecAux f n ≠ [] ∧
    ((natDecAux f n).head? = some 48 → n = 0) := by
  induction f generalizing n with
  | zero => omega
  | succ f ih =>
    unfold natDecAux
    split
    · rename_i hn
      obtain ⟨h1, h2⟩ := digit_ofNat n hn
      refine ⟨⟨⟨by simp, by simpa using h1, ?_⟩, ?_⟩, by simp, ?_⟩
      · simp only [natVal, List.foldl_cons, List.foldl_nil, h2]; omega
      · simp
      · simp only [List.head?_cons, Option.some.injEq]
        intro e
        rw [e] at h2; simp at h2; omega
    · rename_i hn
      obtain ⟨⟨⟨hne, hd, hv⟩, hm⟩, _, h0⟩ := ih (n / 10) (by omega)
      obtain ⟨h1, h2⟩ := digit_ofNat (n % 10) (by omega)
      have hh : (natDecAux f (n / 10) ++ [UInt8.ofNat (48 + n % 10)]).head? = (natDecAux f (n / 10)).head? := by
        cases hq : natDecAux f (n / 10) with
        | nil => exact absurd hq hne
        | cons a as => simp
      refine ⟨⟨⟨by simp, ?_, ?_⟩, ?_⟩, by simp, ?_⟩
      · intro b hb
        simp only [List.mem_append, List.mem_singleton] at hb
        rcases hb with hb | hb
        · exact hd b hb
        · subst hb; exact h1
      · rw [natVal_append, hv, h2]; omega
      · rw [hh]; intro e; have := h0 e; omega
      · rw [hh]; intro e; have := h0 e; omega

theorem natDec_minimal (n : Nat) : MinimalNat (natDec n) n := (natDecAux_minimal (n + 1) n (by omega)).1

theorem natDec_head_zero (n : Nat) (h : (natDec n).head? = some 48) : n = 0 :=
  (natDecAux_minimal (n + 1) n (by omega)).2.2 h

theorem natDec_ne_nil (n : Nat) : natDec n ≠ [] := (natDec_minimal n).1.1

theorem natDec_digits (n : Nat) : ∀ b ∈ natDec n, Digit b := (natDec_minimal n).1.2.1

theorem intDec_minimal (i : Int) : Minimal (intDec i) i := by
  cases i with
  | ofNat n => exact Or.inl ⟨by simp, natDec_minimal n⟩
  | negSucc n => exact Or.inr ⟨by omega, _, rfl, by simpa using natDec_minimal (n + 1)⟩

theorem natVal_pos_of_head (s : Bytes) (hne : s ≠ []) (hd : ∀ b ∈ s, Digit b) (h : s.head? ≠ some 48) : 0 < natVal s := by
  have key : ∀ (s : Bytes) (acc : Nat), 0 < acc → 0 < s.foldl (fun a b => a * 10 + (b.toNat - 48)) acc := by
    intro s
    induction s with
    | nil => intro acc h; exact h
    | cons b bs ih => intro acc h; exact ih _ (by show 0 < acc * 10 + (b.toNat - 48); omega)
  cases s with
  | nil => exact absurd rfl hne
  | cons b bs =>
    have := hd b (by simp)
    simp only [List.head?_cons, ne_eq, Option.some.injEq] at h
    have h48 : b.toNat ≠ 48 := fun e => h (UInt8.toNat_inj.mp e)
    unfold Digit at this
    exact key bs (0 * 10 + (b.toNat - 48)) (by omega)

/-- The canonical text of a number is unique. -/
theorem Spec.MinimalNat.eq_natDec {s : Bytes} {n : Nat} (h : MinimalNat s n) : s = natDec n := by
  have key : ∀ (k : Nat) (s t : Bytes) (n : Nat), s.length ≤ k → MinimalNat s n → MinimalNat t n → s = t := by
    intro k
    induction k with
    | zero =>
      intro s t n hk hs _
      have : s = [] := List.length_eq_zero_iff.mp (by omega)
      exact absurd this hs.1.1
    | succ k ih =>
      intro s t n hk hs ht
      have last : ∀ (s : Bytes), s ≠ [] → ∃ p b, s = p ++ [b] := fun s h =>
        ⟨s.dropLast, s.getLast h, (List.dropLast_concat_getLast h).symm⟩
      obtain ⟨p, b, rfl⟩ := last s hs.1.1
      obtain ⟨q, c, rfl⟩ := last t ht.1.1
      obtain ⟨⟨_, sd, sv⟩, sm⟩ := hs
      obtain ⟨⟨_, td, tv⟩, tm⟩ := ht
      rw [natVal_append] at sv tv
      have db := sd b (by simp); have dc := td c (by simp)
      unfold Digit at db dc
      have hbc : b = c := UInt8.toNat_inj.mp (by omega)
      subst hbc
      have hv : natVal p = natVal q := by omega
      have mini : ∀ (p : Bytes), p ≠ [] → (∀ x ∈ p ++ [b], Digit x) → ((p ++ [b]).head? = some 48 → p ++ [b] = [48]) →
          MinimalNat p (natVal p) ∧ 0 < natVal p := by
        intro p hp hd hm
        have hh : (p ++ [b]).head? = p.head? := by cases p with | nil => exact absurd rfl hp | cons _ _ => simp
        have h0 : p.head? ≠ some 48 := by
          intro e
          have h1 := hm (hh.trans e)
          have h2 := congrArg List.length h1
          simp at h2; exact hp h2
        exact ⟨⟨⟨hp, fun x hx => hd x (by simp [hx]), rfl⟩, fun e => absurd e h0⟩,
          natVal_pos_of_head p hp (fun x hx => hd x (by simp [hx])) h0⟩
      by_cases hp : p = []
      · by_cases hq : q = []
        · subst hp hq; rfl
        · have := (mini q hq td tm).2
          subst hp; simp [natVal] at hv this; omega
      · by_cases hq : q = []
        · have := (mini p hp sd sm).2
          subst hq; simp [natVal] at hv this; omega
        · have h1 := (mini p hp sd sm).1
          have h2 := (mini q hq td tm).1
          rw [← hv] at h2
          rw [ih p q _ (by simp at hk; omega) h1 h2]
  exact key s.length s _ n (Nat.le_refl _) h (natDec_minimal n)

theorem Spec.Minimal.eq_intDec {s : Bytes} {n : Int} (h : Minimal s n) : s = intDec n := by
  rcases h with ⟨h0, h⟩ | ⟨h0, ds, rfl, h⟩
  · obtain ⟨m, rfl⟩ := Int.eq_ofNat_of_zero_le h0
    exact h.eq_natDec
  · cases n with
    | ofNat n => simp at h0; omega
    | negSucc n => rw [h.eq_natDec]; rfl

theorem Spec.Minimal.snumeral {s : Bytes} {n : Int} (h : Minimal s n) : SNumeral s n := by
  rcases h with ⟨h0, h⟩ | ⟨h0, ds, rfl, h⟩
  · exact Or.inl ⟨n.toNat, h.1, by omega⟩
  · exact Or.inr (Or.inr ⟨ds, n.natAbs, rfl, h.1, by omega⟩)

theorem parseInt_intDec (i : Int) (h1 : -2 ^ 63 ≤ i) (h2 : i < 2 ^ 63) : parseInt (intDec i) = some i :=
  (parseInt_some _ _).mpr ⟨(intDec_minimal i).snumeral, h1, h2⟩

theorem parseInt_natDec (n : Nat) (h2 : n < 2 ^ 63) : parseInt (natDec n) = some (n : Int) :=
  (parseInt_some _ _).mpr ⟨Or.inl ⟨n, (natDec_minimal n).1, rfl⟩, by omega, by omega⟩

theorem parseUint_natDec (n : Nat) (h : n < 2 ^ 64) : parseUint (natDec n) = some n :=
  (parseUint_some _ _).mpr ⟨(natDec_minimal n).1, h⟩

theorem leadingZero_iff (s : Bytes) : Bencode.leadingZero s = true ↔ LeadingZero s := by
  unfold Bencode.leadingZero LeadingZero
  split
  · simp
  · rename_i r; cases r <;> simp
  · rename_i b r
    simp
  · rename_i h1 h2 h3
    simp only [Bool.false_eq_true, false_iff, not_or, not_exists]
    exact ⟨fun b r e => h2 _ e, fun r e => h3 _ _ e⟩

theorem Spec.Minimal.not_leadingZero {s : Bytes} {n : Int} (h : Minimal s n) : ¬ LeadingZero s := by
  rcases h with ⟨h0, ⟨⟨_, hd, _⟩, h⟩⟩ | ⟨h0, ds, rfl, ⟨⟨_, hd, hv⟩, h⟩⟩
  · rintro (⟨b, r, rfl⟩ | ⟨r, rfl⟩)
    · simp at h
    · have := hd 45 (by simp); simp [Digit] at this
  · rintro (⟨b, r, e⟩ | ⟨r, e⟩)
    · simp at e
    · simp at e
      subst e
      simp at h; subst h
      simp [natVal] at hv; omega

theorem leadingZero_intDec (i : Int) : Bencode.leadingZero (intDec i) = false := by
  rw [Bool.eq_false_iff, Ne, leadingZero_iff]
  exact (intDec_minimal i).not_leadingZero

end Drip
