import Verif.Lemmas.Bitfield
/-
Properties C01–C04 of /repo/bitfield/bitfield.go.
-/

namespace Drip.Bitfield

/-- C01. After `New(n)` and any sequence of in-range `Add`s, nothing panics and `Has(j)` is membership. -/
theorem C01_bitfield_is_set (n : Nat) (is : List Nat) (h : ∀ i ∈ is, i < n) :
    ∃ b, addAll (new n) (is.map Int.ofNat) = .ok b ∧
      ∀ j : Nat, j < n → has b j = .ok (decide (j ∈ is)) := by
  have hn := new_length n
  obtain ⟨b, e, l, p⟩ := addAll_nat (new n) is (fun i hi => by have := h i hi; omega)
  refine ⟨b, e, fun j hj => ?_⟩
  rw [has_nat _ _ (by omega), p, bit_new]
  simp

/-- The hypotheses of C01 are met by a two-byte bitfield. -/
example : ∀ i ∈ [0, 9, 3], i < 10 := by decide
example : addAll (new 10) [0, 9, 3] = .ok [144, 64] := by decide

/-- C02. `Items` lists exactly the indices for which `Has` is true, strictly increasing (hence without duplicates). -/
theorem C02_items (b : Bytes) :
    (∀ i : Nat, i ∈ items b ↔ has b i = .ok true) ∧ (items b).Pairwise (· < ·) := by
  refine ⟨fun i => ?_, itemsFrom_sorted 0 b⟩
  unfold items
  rw [mem_itemsFrom]
  simp only [Nat.zero_mul, Nat.zero_le, true_and, Nat.sub_zero]
  by_cases h : i < 8 * b.length
  · rw [has_nat _ _ h]; simp
  · have h2 : b[i / 8]? = none := by rw [List.getElem?_eq_none_iff]; omega
    have h3 : bit b i = false := by unfold bit; rw [h2]
    have h4 : has b i = .panic := by
      unfold has; rw [pos_nat]
      have h1 : ¬ (((i / 8 : Nat) : Int) < 0) := by omega
      simp only [h1, if_false, Int.toNat_natCast, h2]
    simp [h3, h4]

example : items [0b10101010, 0b11001100] = [0, 2, 4, 6, 8, 9, 12, 13] := by decide

/-- C03. `Difference` keeps the length of its receiver, and `Has` on the result is set difference. An index beyond
the end of `a` counts as not being in `a`. -/
theorem C03_difference (b a : Bytes) :
    (difference b a).length = b.length ∧
    ∀ i : Nat, i < 8 * b.length →
      (has (difference b a) i = .ok true ↔ has b i = .ok true ∧ has a i ≠ .ok true) := by
  refine ⟨difference_length b a, fun i hi => ?_⟩
  rw [has_nat _ _ (by rw [difference_length]; exact hi), has_nat _ _ hi, bit_difference]
  by_cases h : i < 8 * a.length
  · rw [has_nat _ _ h]; simp
  · have h2 : a[i / 8]? = none := by rw [List.getElem?_eq_none_iff]; omega
    have h3 : bit a i = false := by unfold bit; rw [h2]
    have h4 : has a i = .panic := by
      unfold has; rw [pos_nat]
      have h1 : ¬ (((i / 8 : Nat) : Int) < 0) := by omega
      simp only [h1, if_false, Int.toNat_natCast, h2]
    simp [h3, h4]

/-- C03, in terms of `Items`: the members of the difference are the members of `b` that are not members of `a`. -/
theorem C03_difference_items (b a : Bytes) (i : Nat) :
    i ∈ items (difference b a) ↔ i ∈ items b ∧ i ∉ items a := by
  unfold items
  simp only [mem_itemsFrom, Nat.zero_mul, Nat.zero_le, true_and, Nat.sub_zero, bit_difference]
  simp

example : difference [0b11001100, 0b11110000, 0xff] [0b10101010, 0b01101101] = [0b01000100, 0b10010000, 0xff] := by
  decide

/-- C04. Exact panic set of `Has` and `Add`. -/
theorem C04_panic_iff (b : Bytes) (i : Int) :
    (has b i = .panic ↔ i ≤ -8 ∨ i ≥ 8 * b.length ∨ b = []) ∧
    (add b i = .panic ↔ i ≤ -8 ∨ i ≥ 8 * b.length ∨ b = []) := by
  have key : ((i.tdiv 8 < 0 ∨ b[(i.tdiv 8).toNat]? = none) ↔ i ≤ -8 ∨ i ≥ 8 * b.length ∨ b = []) := by
    rw [List.getElem?_eq_none_iff, ← List.length_eq_zero_iff]
    rcases Int.le_total 0 i with h | h
    · rw [Int.tdiv_eq_ediv_of_nonneg h]; omega
    · have h1 : i.tdiv 8 = - ((-i) / 8) := by
        rw [← Int.tdiv_eq_ediv_of_nonneg (by omega), Int.neg_tdiv]; omega
      rw [h1]; omega
  rw [← key]
  unfold has add pos
  simp only []
  constructor
  · split
    · simp_all
    · cases h2 : b[(i.tdiv 8).toNat]? <;> simp_all
  · split
    · simp_all
    · cases h2 : b[(i.tdiv 8).toNat]? <;> simp_all

/-- C04. The harmless negative indices -7..-1: `Has` is false, `Add` changes nothing. -/
theorem C04_small_negative (b : Bytes) (i : Int) (hb : b ≠ []) (h1 : -8 < i) (h2 : i < 0) :
    has b i = .ok false ∧ add b i = .ok b := by
  have hd : i.tdiv 8 = 0 := by
    have h1 : i.tdiv 8 = - ((-i) / 8) := by
      rw [← Int.tdiv_eq_ediv_of_nonneg (by omega), Int.neg_tdiv]; omega
    omega
  have hm : i.tmod 8 = i := by
    have := Int.mul_tdiv_add_tmod i 8
    rw [hd] at this; omega
  have hmask : mask (7 - i).toNat = 0 := by
    unfold mask
    have : ¬ (7 - i).toNat < 8 := by omega
    rw [if_neg this]
  cases b with
  | nil => exact absurd rfl hb
  | cons x b =>
    unfold has add pos
    simp [hd, hm, hmask]

example : add [5, 6] (-3) = .ok [5, 6] ∧ add [5, 6] 16 = .panic ∧ add [5, 6] (-8) = .panic := by decide

/-- C04. Every index below `n` is in bounds for a bitfield made by `New(n)`, and `Add` keeps the length, so
it stays so for ever. -/
theorem C04_new_in_bounds (n : Nat) (i : Nat) (h : i < n) (b : Bytes) (hb : b.length = (new n).length) :
    has b i ≠ .panic ∧ ∃ b', add b i = .ok b' ∧ b'.length = b.length := by
  have hn := new_length n
  have hi : i < 8 * b.length := by omega
  obtain ⟨b', e, l, _⟩ := add_nat b i hi
  rw [has_nat _ _ hi]
  exact ⟨by simp, b', e, l⟩

/-- The two bytes of a bitfield for 10 pieces, whatever is in them. -/
example : has [5, 6] (9 : Nat) ≠ .panic ∧ ∃ b', add [5, 6] (9 : Nat) = .ok b' ∧ b'.length = 2 := C04_new_in_bounds 10 9 (by decide) [5, 6] (by decide)

/-- C04. `Add` never changes the length, whatever the index. -/
theorem C04_add_length (b b' : Bytes) (i : Int) (h : add b i = .ok b') : b'.length = b.length := by
  unfold add at h
  simp only [] at h
  split at h
  · cases h
  · split at h
    · cases h
    · injection h with h; subst h; simp

example : add [5, 6] 9 = .ok [5, 70] := by decide

end Drip.Bitfield
