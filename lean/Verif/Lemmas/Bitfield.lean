import Verif.Model.Bitfield

namespace Drip.Bitfield

/-- Bit `k` of a byte, counted from the least significant. -/
theorem and_mask_ne_zero (x : UInt8) (k : Nat) (hk : k < 8) :
    (x &&& mask k != 0) = x.toNat.testBit k := by
  have h : ∀ k : Fin 8, ∀ v : Fin 256, ((UInt8.ofFin v) &&& mask k.val != 0) = v.val.testBit k.val := by
    decide +kernel
  have := h ⟨k, hk⟩ x.toFin
  simpa using this

theorem testBit_or_mask (x : UInt8) (k j : Nat) (hk : k < 8) (hj : j < 8) :
    (x ||| mask k).toNat.testBit j = (x.toNat.testBit j || decide (j = k)) := by
  have hm : ∀ k : Fin 8, ∀ j : Fin 8, (mask k.val).toNat.testBit j.val = decide (j.val = k.val) := by
    decide +kernel
  have := hm ⟨k, hk⟩ ⟨j, hj⟩
  simp only at this
  rw [UInt8.toNat_or, Nat.testBit_or, this]

theorem bv_sub_and (x y : BitVec 8) : x - (x &&& y) = x &&& ~~~ y := by
  have h0 : (x &&& ~~~ y) &&& (x &&& y) = 0#8 := by
    ext i hi; simp; intro _ h1 _; exact h1
  have h1 := BitVec.add_eq_or_of_and_eq_zero _ _ h0
  have h2 : (x &&& ~~~ y) ||| (x &&& y) = x := by
    ext i hi; simp; cases x[i] <;> cases y[i] <;> rfl
  rw [h2] at h1
  rw [← BitVec.eq_sub_iff_add_eq] at h1
  exact h1.symm

theorem testBit_sub_and (x y : UInt8) (k : Nat) (hk : k < 8) :
    (x - (x &&& y)).toNat.testBit k = (x.toNat.testBit k && !y.toNat.testBit k) := by
  have : x - (x &&& y) = x &&& ~~~ y := by
    apply UInt8.toBitVec_inj.mp
    simpa using bv_sub_and x.toBitVec y.toBitVec
  rw [this]
  simp only [UInt8.toNat_and, Nat.testBit_and]
  congr 1
  have := BitVec.getLsbD_not (x := y.toBitVec) (i := k)
  simpa [hk, BitVec.getLsbD] using this

/-- Bit `i` of a bitfield, most significant bit of the first byte first (BEP 3). -/
def bit (b : Bytes) (i : Nat) : Bool :=
  match b[i / 8]? with
  | none => false
  | some x => x.toNat.testBit (7 - i % 8)

theorem pos_nat (i : Nat) : pos (i : Int) = (((i / 8 : Nat) : Int), 7 - i % 8) := by
  unfold pos
  have h1 : (i : Int).tdiv 8 = ((i / 8 : Nat) : Int) := by
    rw [Int.tdiv_eq_ediv_of_nonneg (by omega)]; omega
  have h2 : (i : Int).tmod 8 = ((i % 8 : Nat) : Int) := by
    rw [Int.tmod_eq_emod_of_nonneg (by omega)]; omega
  rw [h1, h2]
  congr 1
  omega

theorem new_length (n : Nat) : 8 * (new n).length < n + 8 ∧ n ≤ 8 * (new n).length := by
  unfold new; simp only [List.length_replicate]; split <;> omega

theorem has_nat (b : Bytes) (i : Nat) (h : i < 8 * b.length) : has b i = .ok (bit b i) := by
  unfold has bit
  rw [pos_nat]
  have h1 : ¬ (((i / 8 : Nat) : Int) < 0) := by omega
  simp only [h1, if_false, Int.toNat_natCast]
  have h2 : i / 8 < b.length := by omega
  rw [List.getElem?_eq_getElem h2]
  simp only []
  rw [and_mask_ne_zero _ _ (by omega)]

theorem add_nat (b : Bytes) (i : Nat) (h : i < 8 * b.length) :
    ∃ b', add b i = .ok b' ∧ b'.length = b.length ∧ ∀ j, bit b' j = (bit b j || decide (j = i)) := by
  unfold add
  rw [pos_nat]
  have h1 : ¬ (((i / 8 : Nat) : Int) < 0) := by omega
  simp only [h1, if_false, Int.toNat_natCast]
  have h2 : i / 8 < b.length := by omega
  rw [List.getElem?_eq_getElem h2]
  refine ⟨_, rfl, by simp, fun j => ?_⟩
  unfold bit
  rw [List.getElem?_set]
  by_cases hj : i / 8 = j / 8
  · rw [if_pos hj, if_pos h2, ← hj, List.getElem?_eq_getElem h2]
    simp only []
    rw [testBit_or_mask _ _ _ (by omega) (by omega)]
    congr 1
    apply decide_eq_decide.mpr
    omega
  · rw [if_neg hj]
    have : decide (j = i) = false := by simp; omega
    simp [this]

theorem bit_new (n i : Nat) : bit (new n) i = false := by
  unfold bit new
  simp only []
  rw [List.getElem?_replicate]
  split
  · rfl
  · rename_i h; split at h <;> simp at h <;> rw [← h.2] <;> simp

theorem addAll_nat (b : Bytes) (is : List Nat) (h : ∀ i ∈ is, i < 8 * b.length) :
    ∃ b', addAll b (is.map Int.ofNat) = .ok b' ∧ b'.length = b.length ∧
      ∀ j, bit b' j = (bit b j || decide (j ∈ is)) := by
  induction is generalizing b with
  | nil => exact ⟨b, rfl, rfl, by simp⟩
  | cons i is ih =>
    obtain ⟨b1, e1, l1, p1⟩ := add_nat b i (h i (by simp))
    obtain ⟨b2, e2, l2, p2⟩ := ih b1 (fun k hk => by rw [l1]; exact h k (by simp [hk]))
    refine ⟨b2, ?_, l2.trans l1, fun j => ?_⟩
    · simp only [List.map_cons, addAll]
      have : add b (Int.ofNat i) = .ok b1 := e1
      rw [this]; exact e2
    · rw [p2, p1]
      simp [Bool.or_assoc]

theorem mem_itemsByte (bi : Nat) (m : UInt8) (k : Nat) :
    k ∈ itemsByte bi m ↔ k / 8 = bi ∧ m.toNat.testBit (7 - k % 8) = true := by
  unfold itemsByte
  simp only [List.mem_filterMap, List.mem_range]
  constructor
  · rintro ⟨j, hj, h⟩
    rw [and_mask_ne_zero _ _ (by omega)] at h
    split at h
    · injection h with h; subst h
      rename_i ht
      have : (bi * 8 + j) % 8 = j := by omega
      exact ⟨by omega, by rw [this]; exact ht⟩
    · cases h
  · rintro ⟨h1, h2⟩
    refine ⟨k % 8, by omega, ?_⟩
    rw [and_mask_ne_zero _ _ (by omega), if_pos h2]
    congr 1; omega

theorem mem_itemsFrom (bi : Nat) (b : Bytes) (k : Nat) :
    k ∈ itemsFrom bi b ↔ bi * 8 ≤ k ∧ bit b (k - bi * 8) = true := by
  induction b generalizing bi with
  | nil => simp [itemsFrom, bit]
  | cons m b ih =>
    simp only [itemsFrom, List.mem_append, mem_itemsByte, ih]
    unfold bit
    by_cases hk : k / 8 = bi
    · have h1 : (k - bi * 8) / 8 = 0 := by omega
      have h2 : (k - bi * 8) % 8 = k % 8 := by omega
      simp only [h1, h2, List.getElem?_cons_zero]
      constructor
      · rintro (h | h)
        · exact ⟨by omega, h.2⟩
        · omega
      · rintro ⟨_, h⟩; exact Or.inl ⟨hk, h⟩
    · by_cases hb : bi * 8 ≤ k
      · have h1 : (k - bi * 8) / 8 = (k - (bi + 1) * 8) / 8 + 1 := by omega
        have h2 : (k - bi * 8) % 8 = (k - (bi + 1) * 8) % 8 := by omega
        simp only [h1, h2, List.getElem?_cons_succ]
        constructor
        · rintro (h | h)
          · exact absurd h.1 hk
          · exact ⟨hb, h.2⟩
        · rintro ⟨_, h⟩; exact Or.inr ⟨by omega, h⟩
      · constructor
        · rintro (h | h)
          · exact absurd h.1 hk
          · omega
        · rintro ⟨h, _⟩; omega

theorem itemsByte_sorted (bi : Nat) (m : UInt8) : (itemsByte bi m).Pairwise (· < ·) := by
  unfold itemsByte
  rw [List.pairwise_filterMap]
  refine List.Pairwise.imp ?_ (List.pairwise_lt_range (n := 8))
  intro a b hab x hx y hy
  split at hx <;> split at hy <;> simp at hx hy
  omega

theorem itemsFrom_sorted (bi : Nat) (b : Bytes) : (itemsFrom bi b).Pairwise (· < ·) := by
  induction b generalizing bi with
  | nil => simp [itemsFrom]
  | cons m b ih =>
    simp only [itemsFrom]
    rw [List.pairwise_append]
    refine ⟨itemsByte_sorted bi m, ih _, ?_⟩
    intro x hx y hy
    rw [mem_itemsByte] at hx
    rw [mem_itemsFrom] at hy
    omega

theorem difference_length (b a : Bytes) : (difference b a).length = b.length := by
  induction b generalizing a with
  | nil => simp [difference]
  | cons x b ih => cases a <;> simp [difference, ih]

theorem difference_getElem? (b a : Bytes) (i : Nat) :
    (difference b a)[i]? = b[i]?.map fun x => match a[i]? with
      | none => x
      | some y => x - (x &&& y) := by
  induction b generalizing a i with
  | nil => simp [difference]
  | cons x b ih =>
    cases a with
    | nil => cases i <;> simp [difference, ih]
    | cons y a => cases i <;> simp [difference, ih]

theorem bit_difference (b a : Bytes) (i : Nat) : bit (difference b a) i = (bit b i && !bit a i) := by
  unfold bit
  rw [difference_getElem?]
  cases hb : b[i / 8]? with
  | none => rfl
  | some x =>
    cases ha : a[i / 8]? with
    | none => simp
    | some y => simp only [Option.map_some]; rw [testBit_sub_and _ _ _ (by omega)]

end Drip.Bitfield
