import Verif.Model.Net
import Verif.Spec.Tracker
import Verif.Lemmas.Bencode.Num
import Verif.Lemmas.Bencode.Emit
/-
Texts of IPv4 addresses.
-/

namespace Drip.Net
open Spec Bencode

/-- Fields joined by dots. -/
def dots : List UInt8 → Bytes
  | [] => []
  | [a] => decNat a.toNat
  | a :: b :: r => decNat a.toNat ++ 46 :: dots (b :: r)

theorem ipv4String_eq (a b c d : UInt8) : ipv4String a b c d = dotted a b c d := by
  simp [ipv4String, dotted, natDec_eq_decNat]

theorem dotted_eq (a b c d : UInt8) : dotted a b c d = dots [a, b, c, d] := by simp [dotted, dots]

/-- The text of a field is at most three digits. -/
theorem decNat_byte : ∀ n < 256, natDec n = if n < 10 then [UInt8.ofNat (48 + n)]
    else if n < 100 then [UInt8.ofNat (48 + n / 10), UInt8.ofNat (48 + n % 10)]
    else [UInt8.ofNat (48 + n / 100), UInt8.ofNat (48 + n / 10 % 10), UInt8.ofNat (48 + n % 10)] := by decide +kernel

theorem parseFields_digit {d : Nat} (hd : d < 10) (rest : Bytes) {val digits pos : Nat} {acc : Bytes} (h0 : ¬ (digits = 1 ∧ val = 0))
    (hv : val * 10 + d ≤ 255) :
    parseFields (UInt8.ofNat (48 + d) :: rest) val digits pos acc = parseFields rest (val * 10 + d) (digits + 1) pos acc := by
  obtain ⟨h1, h2⟩ := digit_ofNat d hd
  rw [parseFields, if_pos ((isDigit_iff _).mpr h1), if_neg h0, h2]
  simp only [Nat.add_sub_cancel_left]
  rw [if_neg (by omega)]

theorem parseFields_field (n : Nat) (hn : n < 256) (rest : Bytes) (pos : Nat) (acc : Bytes) :
    ∃ k, 0 < k ∧ parseFields (natDec n ++ rest) 0 0 pos acc = parseFields rest n k pos acc := by
  rw [decNat_byte n hn]
  split
  · refine ⟨1, by omega, ?_⟩
    rw [List.cons_append, List.nil_append, parseFields_digit (by omega) _ (by omega) (by omega)]
    simp
  split
  · refine ⟨2, by omega, ?_⟩
    rw [List.cons_append, List.cons_append, List.nil_append, parseFields_digit (by omega) _ (by omega) (by omega),
      parseFields_digit (by omega) _ (by omega) (by omega)]
    congr 1; omega
  · refine ⟨3, by omega, ?_⟩
    rw [List.cons_append, List.cons_append, List.cons_append, List.nil_append, parseFields_digit (by omega) _ (by omega) (by omega),
      parseFields_digit (by omega) _ (by omega) (by omega), parseFields_digit (by omega) _ (by omega) (by omega)]
    congr 1; omega

theorem parseFields_dot (rest : Bytes) {val digits pos : Nat} {acc : Bytes} (h0 : 0 < digits) (hp : pos < 3) :
    parseFields (46 :: rest) val digits pos acc = parseFields rest 0 0 (pos + 1) (acc ++ [UInt8.ofNat val]) := by
  rw [parseFields, if_neg (by decide), if_pos rfl, if_neg (by omega)]

theorem parseIPv4_dotted (a b c d : UInt8) : parseIPv4 (dotted a b c d) = some [a, b, c, d] := by
  unfold parseIPv4 dotted
  simp only [← natDec_eq_decNat, List.append_assoc, List.cons_append]
  have lt : ∀ x : UInt8, x.toNat < 256 := fun x => x.toNat_lt
  obtain ⟨k1, g1, e1⟩ := parseFields_field a.toNat (lt a) (46 :: (natDec b.toNat ++ 46 :: (natDec c.toNat ++ 46 :: natDec d.toNat))) 0 []
  rw [e1, parseFields_dot _ g1 (by omega)]
  obtain ⟨k2, g2, e2⟩ := parseFields_field b.toNat (lt b) (46 :: (natDec c.toNat ++ 46 :: natDec d.toNat)) 1 ([] ++ [UInt8.ofNat a.toNat])
  rw [e2, parseFields_dot _ g2 (by omega)]
  obtain ⟨k3, g3, e3⟩ := parseFields_field c.toNat (lt c) (46 :: natDec d.toNat) 2 ([] ++ [UInt8.ofNat a.toNat] ++ [UInt8.ofNat b.toNat])
  rw [e3, parseFields_dot _ g3 (by omega)]
  obtain ⟨k4, g4, e4⟩ := parseFields_field d.toNat (lt d) [] 3
    ([] ++ [UInt8.ofNat a.toNat] ++ [UInt8.ofNat b.toNat] ++ [UInt8.ofNat c.toNat])
  rw [List.append_nil] at e4
  rw [e4, parseFields, if_neg (by omega)]
  simp

theorem firstSep_digits {s : Bytes} (h : ∀ b ∈ s, Digit b) (r : Bytes) : firstSep (s ++ 46 :: r) = some 46 := by
  induction s with
  | nil => simp [firstSep]
  | cons c cs ih =>
    have hc := h c (by simp)
    have : ¬ (c = 46 ∨ c = 58 ∨ c = 37) := by
      rintro (rfl | rfl | rfl) <;> exact absurd hc (by simp [Digit])
    rw [List.cons_append, firstSep, if_neg this]
    exact ih fun b hb => h b (by simp [hb])

theorem firstSep_dotted (a b c d : UInt8) : firstSep (dotted a b c d) = some 46 := by
  unfold dotted
  simp only [← natDec_eq_decNat, List.append_assoc, List.cons_append]
  exact firstSep_digits (natDec_digits _) _

theorem parseIP_dotted (a b c d : UInt8) : parseIP (dotted a b c d) = some ([0, 0, 0, 0, 0, 0, 0, 0, 0, 0, 255, 255] ++ [a, b, c, d]) := by
  unfold parseIP
  rw [firstSep_dotted]
  simp [parseIPv4_dotted]

theorem parseTo4_dotted (a b c d : UInt8) : parseTo4 (dotted a b c d) = some [a, b, c, d] := by
  unfold parseTo4
  rw [parseIP_dotted]
  rfl

/-- Dotted decimal texts are canonical. -/
theorem canonText_dotted (a b c d : UInt8) : canonText (dotted a b c d) = some (dotted a b c d) := by
  unfold canonText
  rw [parseIP_dotted, Option.map_some, ← ipv4String_eq]
  rfl

theorem decNat_snoc {n d : Nat} (hn : n ≠ 0) (hd : d < 10) : decNat (n * 10 + d) = decNat n ++ [UInt8.ofNat (48 + d)] := by
  rw [decNat, if_neg (by omega)]
  have h1 : (n * 10 + d) / 10 = n := by omega
  have h2 : (n * 10 + d) % 10 = d := by omega
  rw [h1, h2]

theorem decNat_one {d : Nat} (hd : d < 10) : decNat d = [UInt8.ofNat (48 + d)] := by rw [decNat, if_pos hd]

theorem ofNat_toNat_lt {n : Nat} (h : n ≤ 255) : (UInt8.ofNat n).toNat = n := by
  simp; omega

theorem parseFields_inv : ∀ (s cur : Bytes) (val digits pos : Nat) (acc l : Bytes),
    (digits = 0 ∧ val = 0 ∧ cur = [] ∨ 0 < digits ∧ cur = decNat val ∧ digits = cur.length) → val ≤ 255 → pos ≤ 3 →
    parseFields s val digits pos acc = some l →
    ∃ fs : List UInt8, l = acc ++ fs ∧ fs.length = 4 - pos ∧ cur ++ s = dots fs := by
  intro s
  induction s with
  | nil =>
    intro cur val digits pos acc l hc hv hp h
    rw [parseFields] at h
    split at h
    · cases h
    · rename_i hn
      rcases hc with hc | ⟨h1, h2, h3⟩
      · omega
      · refine ⟨[UInt8.ofNat val], by simpa using h.symm, by simp; omega, ?_⟩
        simp [dots, h2, ofNat_toNat_lt hv, Nat.mod_eq_of_lt (show val < 256 by omega)]
  | cons c cs ih =>
    intro cur val digits pos acc l hc hv hp h
    rw [parseFields] at h
    split at h
    · rename_i hd
      rw [isDigit_iff] at hd
      obtain ⟨d, hd10, rfl⟩ : ∃ d, d < 10 ∧ c = UInt8.ofNat (48 + d) := by
        refine ⟨c.toNat - 48, ?_, ?_⟩
        · simp [Digit, UInt8.le_iff_toNat_le] at hd; omega
        · simp [Digit, UInt8.le_iff_toNat_le] at hd
          apply UInt8.toNat_inj.mp
          have := c.toNat_lt
          simp; omega
      split at h
      · cases h
      · rename_i hz
        simp only [(digit_ofNat d hd10).2, Nat.add_sub_cancel_left] at h
        split at h
        · cases h
        · rename_i hle
          obtain ⟨fs, e1, e2, e3⟩ := ih (cur ++ [UInt8.ofNat (48 + d)]) (val * 10 + d) (digits + 1) pos acc l (Or.inr ⟨by omega, by
            rcases hc with ⟨h1, h2, h3⟩ | ⟨h1, h2, h3⟩
            · subst h2 h3; simp [decNat_one hd10]
            · have : val ≠ 0 := by
                rintro rfl
                subst h2
                exact hz ⟨by rw [h3, decNat_one (by omega)]; rfl, rfl⟩
              rw [h2, decNat_snoc this hd10], by
            rcases hc with ⟨h1, h2, h3⟩ | ⟨h1, h2, h3⟩
            · subst h3; simp [h1]
            · simp [h3]⟩) (by omega) hp h
          exact ⟨fs, e1, e2, by rw [← e3]; simp⟩
    · split at h
      · rename_i hdot
        subst hdot
        split at h
        · cases h
        · rename_i hn
          obtain ⟨fs, e1, e2, e3⟩ := ih [] 0 0 (pos + 1) (acc ++ [UInt8.ofNat val]) l (Or.inl ⟨rfl, rfl, rfl⟩) (by omega) (by omega) h
          rcases hc with hc | ⟨h1, h2, h3⟩
          · omega
          · refine ⟨UInt8.ofNat val :: fs, by rw [e1]; simp, by simp [e2]; omega, ?_⟩
            cases fs with
            | nil => simp at e2; omega
            | cons f fs => rw [dots, ← e3, h2]; simp [Nat.mod_eq_of_lt (show val < 256 by omega)]
      · cases h

/-- Go accepts exactly the dotted decimal notation without leading zeros. -/
theorem parseIPv4_some (s l : Bytes) : parseIPv4 s = some l ↔ ∃ a b c d, s = dotted a b c d ∧ l = [a, b, c, d] := by
  constructor
  · intro h
    obtain ⟨fs, e1, e2, e3⟩ := parseFields_inv s [] 0 0 0 [] l (Or.inl ⟨rfl, rfl, rfl⟩) (by omega) (by omega) h
    match fs, e2 with
    | [a, b, c, d], _ => exact ⟨a, b, c, d, by rw [dotted_eq, ← e3]; simp, by simpa using e1⟩
  · rintro ⟨a, b, c, d, rfl, rfl⟩
    exact parseIPv4_dotted a b c d

theorem firstSep_colon {s : Bytes} (h : 58 ∉ s) : firstSep s ≠ some 58 := by
  induction s with
  | nil => simp [firstSep]
  | cons c cs ih =>
    simp only [List.mem_cons, not_or] at h
    rw [firstSep]
    split
    · simp; exact fun e => h.1 e.symm
    · exact ih h.2

/-- A text without a colon is an address iff it is in dotted decimal notation. -/
theorem parseIP_some {s : Bytes} (hs : 58 ∉ s) (l : Bytes) : parseIP s = some l → ∃ a b c d, s = dotted a b c d := by
  intro h
  unfold parseIP at h
  have hc := firstSep_colon hs
  cases hf : firstSep s with
  | none => rw [hf] at h; cases h
  | some c =>
    rw [hf] at h hc
    simp only at h
    split at h
    · cases h4 : parseIPv4 s with
      | none => rw [h4] at h; cases h
      | some l4 =>
        obtain ⟨a, b, c, d, e, _⟩ := (parseIPv4_some s l4).mp h4
        exact ⟨a, b, c, d, e⟩
    · split at h
      · rename_i e; exact absurd (by rw [e]) hc
      · cases h

/-- A text without a colon is an IPv4 address iff it is in dotted decimal notation. -/
theorem parseTo4_some {s : Bytes} (hs : 58 ∉ s) (l : Bytes) :
    parseTo4 s = some l ↔ ∃ a b c d, s = dotted a b c d ∧ l = [a, b, c, d] := by
  constructor
  · intro h
    unfold parseTo4 at h
    cases hp : parseIP s with
    | none => rw [hp] at h; cases h
    | some ip =>
      obtain ⟨a, b, c, d, rfl⟩ := parseIP_some hs ip hp
      refine ⟨a, b, c, d, rfl, ?_⟩
      rw [parseIP_dotted] at h
      exact (Option.some.inj h).symm
  · rintro ⟨a, b, c, d, rfl, rfl⟩
    exact parseTo4_dotted a b c d

end Drip.Net
