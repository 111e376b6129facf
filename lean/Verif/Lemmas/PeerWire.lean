import Verif.Model.PeerWire

namespace Drip

namespace Rd

theorem fill_spec (k : Nat) (cs : List Bytes) :
    (fill k cs).1 = cs.flatten.take k ∧ (fill k cs).2.flatten = cs.flatten.drop k := by
  induction cs generalizing k with
  | nil => simp [fill]
  | cons c cs ih =>
    unfold fill
    split
    · rename_i h; subst h; simp
    · split
      · rename_i h
        have := ih (k - c.length)
        simp only [List.flatten_cons]
        rw [List.take_append, List.drop_append]
        rw [List.take_of_length_le h, List.drop_of_length_le h]
        simp [this.1, this.2]
      · rename_i h
        simp only [List.flatten_cons]
        rw [List.take_append_of_le_length (by omega), List.drop_append_of_le_length (by omega)]
        simp

theorem fill_nonempty (k : Nat) (cs : List Bytes) (h : ∀ c ∈ cs, c ≠ []) : ∀ c ∈ (fill k cs).2, c ≠ [] := by
  induction cs generalizing k with
  | nil => simp [fill]
  | cons c cs ih =>
    unfold fill
    split
    · exact h
    · split
      · exact ih _ (fun c hc => h c (by simp [hc]))
      · rename_i hl
        intro d hd
        simp only [List.mem_cons] at hd
        rcases hd with hd | hd
        · subst hd
          intro e
          have := congrArg List.length e
          simp at this; omega
        · exact h d (by simp [hd])

/-- The error of `io.ReadFull` when only `have_` bytes are left. -/
def shortErr (n : Nat) (final : Err) : Err := if n > 0 && final == .eof then .unexpectedEof else final

/-- `readFull` depends only on the flat byte stream. -/
theorem readFull_spec (k : Nat) (r : Rd) :
    (k ≤ r.flat.length ∧ ∃ r' : Rd, r.readFull k = .ok (r.flat.take k, r') ∧ r'.flat = r.flat.drop k ∧
        r'.final = r.final ∧ ((∀ c ∈ r.chunks, c ≠ []) → ∀ c ∈ r'.chunks, c ≠ [])) ∨
    (r.flat.length < k ∧ r.readFull k = .err (shortErr r.flat.length r.final)) := by
  unfold readFull
  have h := fill_spec k r.chunks
  have hn := fill_nonempty k r.chunks
  generalize hf : fill k r.chunks = p at h hn
  obtain ⟨bs, cs⟩ := p
  simp only [] at h hn ⊢
  have hl : bs.length = min k r.flat.length := by rw [h.1]; simp [flat]
  by_cases hk : k ≤ r.flat.length
  · left
    refine ⟨hk, { r with chunks := cs }, ?_, h.2, rfl, hn⟩
    rw [if_pos (by omega), h.1]; rfl
  · right
    refine ⟨by omega, ?_⟩
    rw [if_neg (by omega)]
    unfold shortErr
    have : bs.length = r.flat.length := by omega
    rw [this]
    split <;> simp_all

end Rd

theorem put32_length (n : Int) : (put32 n).length = 4 := rfl

theorem be32_put32 (n : Int) (rest : Bytes) : (be32 (put32 n ++ rest) : Int) = n % 4294967296 := by
  unfold put32 be32
  simp only [List.cons_append, UInt8.toNat_ofNat']
  have h : 0 ≤ n % 4294967296 ∧ n % 4294967296 < 4294967296 := by omega
  generalize hm : (n % 4294967296).toNat = m
  omega

theorem be32_take (bs : Bytes) : be32 (bs.take 4) = be32 bs := by
  match bs with
  | [] => rfl
  | [_] => rfl
  | [_, _] => rfl
  | [_, _, _] => rfl
  | _ :: _ :: _ :: _ :: _ => rfl

theorem be32_lt (bs : Bytes) : be32 bs < 4294967296 := by
  unfold be32
  split
  · rename_i a b c d _
    have := a.toNat_lt; have := b.toNat_lt; have := c.toNat_lt; have := d.toNat_lt
    omega
  · omega

end Drip
