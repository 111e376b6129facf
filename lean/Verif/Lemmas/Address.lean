import Verif.Lemmas.Net6
import Verif.Spec.Address
/-
`net.ParseIP` understands exactly the texts of RFC 4291.
-/

namespace Drip.Net
open Spec Bencode

theorem hexVal_iff (c : UInt8) (v : Nat) : hexVal c = some v ↔ HexOf c v := by
  have h := c.toNat_lt
  unfold hexVal HexOf
  have e : ∀ n : UInt8, (n ≤ c) = (n.toNat ≤ c.toNat) := fun n => by rw [UInt8.le_iff_toNat_le]
  have e' : ∀ n : UInt8, (c ≤ n) = (c.toNat ≤ n.toNat) := fun n => by rw [UInt8.le_iff_toNat_le]
  simp only [Bool.and_eq_true, decide_eq_true_eq, e, e']
  simp only [show (48 : UInt8).toNat = 48 from rfl, show (57 : UInt8).toNat = 57 from rfl, show (97 : UInt8).toNat = 97 from rfl,
    show (102 : UInt8).toNat = 102 from rfl, show (65 : UInt8).toNat = 65 from rfl, show (70 : UInt8).toNat = 70 from rfl]
  split
  · simp only [Option.some.injEq]; omega
  split
  · simp only [Option.some.injEq]; omega
  split
  · simp only [Option.some.injEq]; omega
  · simp only [reduceCtorEq, false_iff]; omega

theorem hexOf_lt {c : UInt8} {v : Nat} (h : HexOf c v) : v < 16 := by unfold HexOf at h; omega

theorem hexOf_ne {c : UInt8} {v : Nat} (h : HexOf c v) : c ≠ 58 ∧ c ≠ 46 ∧ c ≠ 37 := by
  refine ⟨?_, ?_, ?_⟩ <;> rintro rfl <;> unfold HexOf at h
  · simp only [show (58 : UInt8).toNat = 58 from rfl] at h; omega
  · simp only [show (46 : UInt8).toNat = 46 from rfl] at h; omega
  · simp only [show (37 : UInt8).toNat = 37 from rfl] at h; omega

/-- Reading digits. -/
theorem hexGroup_inv : ∀ (s : Bytes) (acc off v k : Nat) (rest : Bytes), hexGroup s acc off = some (v, k, rest) → off ≤ 4 →
    ∃ t ds, s = t ++ rest ∧ List.Forall₂ HexOf t ds ∧ v = ds.foldl (fun v d => v * 16 + d) acc ∧ k = off + t.length ∧ k ≤ 4 ∧ Ends rest := by
  intro s
  induction s with
  | nil =>
    intro acc off v k rest h ho
    simp only [hexGroup, Option.some.injEq, Prod.mk.injEq] at h
    obtain ⟨rfl, rfl, rfl⟩ := h
    exact ⟨[], [], rfl, .nil, rfl, rfl, ho, fun c r e => by cases e⟩
  | cons c s ih =>
    intro acc off v k rest h ho
    rw [hexGroup] at h
    cases hv : hexVal c with
    | none =>
      simp only [hv, Option.some.injEq, Prod.mk.injEq] at h
      obtain ⟨rfl, rfl, rfl⟩ := h
      refine ⟨[], [], rfl, .nil, rfl, rfl, ho, ?_⟩
      intro c' r e
      cases e
      exact hv
    | some d =>
      simp only [hv] at h
      by_cases h3 : off > 3
      · rw [if_pos h3] at h; cases h
      · rw [if_neg h3] at h
        obtain ⟨t, ds, h1, h2, h4, h5, h6, h7⟩ := ih _ _ _ _ _ h (by omega)
        exact ⟨c :: t, d :: ds, by rw [h1]; rfl, .cons ((hexVal_iff c d).mp hv) h2, h4, by rw [h5]; simp; omega, h6, h7⟩

theorem hexGroup_fwd : ∀ (t : Bytes) (ds : List Nat) (acc off : Nat) (rest : Bytes), List.Forall₂ HexOf t ds → off + t.length ≤ 4 → Ends rest →
    hexGroup (t ++ rest) acc off = some (ds.foldl (fun v d => v * 16 + d) acc, off + t.length, rest) := by
  intro t
  induction t with
  | nil => intro ds acc off rest h _ he; cases h; exact hexGroup_ends he _ _
  | cons c t ih =>
    intro ds acc off rest h ho he
    cases h with
    | cons h1 h2 =>
      simp only [List.length_cons] at ho
      rw [List.cons_append, hexGroup, (hexVal_iff _ _).mpr h1]
      simp only
      rw [if_neg (by omega), ih _ _ _ _ h2 (by omega) he]
      simp only [List.foldl_cons, List.length_cons, Option.some.injEq, Prod.mk.injEq, and_true, true_and]
      omega

theorem foldl_lt (ds : List Nat) : ∀ acc, (∀ d ∈ ds, d < 16) → ds.foldl (fun v d => v * 16 + d) acc < (acc + 1) * 16 ^ ds.length := by
  induction ds with
  | nil => intro acc _; simp
  | cons d ds ih =>
    intro acc h
    have h1 := h d (by simp)
    have h2 := ih (acc * 16 + d) fun x hx => h x (by simp [hx])
    refine Nat.lt_of_lt_of_le h2 ?_
    rw [List.length_cons, Nat.pow_succ, Nat.mul_comm (16 ^ _) 16, ← Nat.mul_assoc]
    exact Nat.mul_le_mul_right _ (by omega)

theorem forall2_lt {t : Bytes} {ds : List Nat} (h : List.Forall₂ HexOf t ds) : ds.length = t.length ∧ ∀ d ∈ ds, d < 16 := by
  induction h with
  | nil => simp
  | cons h1 _ ih => exact ⟨by simp [ih.1], by
    intro d hd
    rcases List.mem_cons.mp hd with rfl | hd
    · exact hexOf_lt h1
    · exact ih.2 d hd⟩

/-- A group that is read is a group. -/
theorem hextet_of {s rest : Bytes} {v k : Nat} (h : hexGroup s 0 0 = some (v, k, rest)) (hk : k ≠ 0) :
    ∃ t, s = t ++ rest ∧ Hextet t (UInt8.ofNat (v / 256)) (UInt8.ofNat (v % 256)) ∧ Ends rest := by
  obtain ⟨t, ds, h1, h2, h3, h4, h5, h6⟩ := hexGroup_inv _ _ _ _ _ _ h (by omega)
  have hl : t.length ≤ 4 := by omega
  refine ⟨t, h1, ⟨by rintro rfl; simp at h4; omega, hl, ds, h2, ?_⟩, h6⟩
  obtain ⟨h7, h8⟩ := forall2_lt h2
  have h9 := foldl_lt ds 0 h8
  have : 16 ^ ds.length ≤ 16 ^ 4 := Nat.pow_le_pow_right (by omega) (by omega)
  rw [← h3] at h9 ⊢
  rw [ofNat_toNat_lt (by omega), ofNat_toNat_lt (by omega)]
  omega

theorem hexGroup_hextet {t rest : Bytes} {hi lo : UInt8} (h : Hextet t hi lo) (he : Ends rest) :
    hexGroup (t ++ rest) 0 0 = some (hi.toNat * 256 + lo.toNat, t.length, rest) ∧ t.length ≠ 0 ∧
      UInt8.ofNat ((hi.toNat * 256 + lo.toNat) / 256) = hi ∧ UInt8.ofNat ((hi.toNat * 256 + lo.toNat) % 256) = lo := by
  obtain ⟨h1, h2, ds, h3, h4⟩ := h
  have hh := hi.toNat_lt
  have hl := lo.toNat_lt
  refine ⟨?_, by simpa using h1, ?_, ?_⟩
  · rw [hexGroup_fwd t ds 0 0 rest h3 (by omega) he, h4, Nat.zero_add]
  · rw [show (hi.toNat * 256 + lo.toNat) / 256 = hi.toNat by omega]; simp
  · rw [show (hi.toNat * 256 + lo.toNat) % 256 = lo.toNat by omega]; simp

theorem hextet_chars {t : Bytes} {hi lo : UInt8} (h : Hextet t hi lo) : ∀ c ∈ t, c ≠ 58 ∧ c ≠ 46 ∧ c ≠ 37 := by
  obtain ⟨_, _, ds, h3, _⟩ := h
  intro c hc
  clear * - h3 hc
  induction h3 with
  | nil => cases hc
  | cons h1 _ ih =>
    rcases List.mem_cons.mp hc with rfl | hc
    · exact hexOf_ne h1
    · exact ih hc

theorem ends_dot (r : Bytes) : Ends (46 :: r) := by
  intro c s h
  cases h
  decide

theorem ends_nil : Ends [] := fun c r e => by cases e

/-- An IPv4 address begins with digits and a dot. -/
theorem hexGroup_dotted (a b c d : UInt8) : ∃ v k r, hexGroup (dotted a b c d) 0 0 = some (v, k, 46 :: r) ∧ k ≠ 0 := by
  have ha := a.toNat_lt
  have hd : ∀ n < 10, HexOf (UInt8.ofNat (48 + n)) n := by
    intro n hn
    refine .inl ⟨hn, ?_⟩
    rw [ofNat_toNat_lt (by omega)]
  unfold dotted
  rw [← natDec_eq_decNat, decNat_byte a.toNat ha]
  simp only [List.append_assoc, List.cons_append]
  split
  · exact ⟨_, _, _, hexGroup_fwd [_] [_] 0 0 _ (.cons (hd _ (by omega)) .nil) (by simp) (ends_dot _), by simp⟩
  split
  · exact ⟨_, _, _, hexGroup_fwd [_, _] [_, _] 0 0 _ (.cons (hd _ (by omega)) (.cons (hd _ (by omega)) .nil)) (by simp) (ends_dot _), by simp⟩
  · exact ⟨_, _, _, hexGroup_fwd [_, _, _] [_, _, _] 0 0 _ (.cons (hd _ (by omega)) (.cons (hd _ (by omega)) (.cons (hd _ (by omega)) .nil))) (by simp) (ends_dot _), by simp⟩

theorem hextets_ne_nil {s bs : Bytes} (h : Hextets s bs) : s ≠ [] := by
  cases h with
  | one h => exact h.1
  | cons h _ => simp

theorem groups_head {s bs : Bytes} (h : Groups s bs) : ∃ c r, s = c :: r ∧ c ≠ 58 := by
  have aux : ∀ {t : Bytes} {hi lo : UInt8} (r : Bytes), Hextet t hi lo → ∃ c r', t ++ r = c :: r' ∧ c ≠ 58 := by
    intro t hi lo r h
    cases t with
    | nil => exact absurd rfl h.1
    | cons c t => exact ⟨c, t ++ r, rfl, (hextet_chars h c (by simp)).1⟩
  cases h with
  | one h => simpa using aux [] h
  | cons h _ => exact aux _ h
  | v4 =>
    rename_i a b c d
    obtain ⟨v, k, r, h1, h2⟩ := hexGroup_dotted a b c d
    obtain ⟨t, ds, h3, h4, _, h5, _, _⟩ := hexGroup_inv _ _ _ _ _ _ h1 (by omega)
    cases h4 with
    | nil => simp at h5; omega
    | cons h6 _ => exact ⟨_, _, h3, (hexOf_ne h6).1⟩

theorem hextets_head {s bs : Bytes} (h : Hextets s bs) : ∃ c r, s = c :: r ∧ c ≠ 58 := by
  have : Groups s bs := by
    induction h with
    | one h => exact .one h
    | cons h _ ih => exact .cons h ih
  exact groups_head this

/-- The loop, for a text of groups. -/
theorem loop_groups {s bs : Bytes} (h : Groups s bs) : ∀ (n : Nat) (ip : Bytes) (ell : Option Nat), ip.length + 2 * n = 16 →
    (if ell.isSome then bs.length ≤ 2 * n else bs.length = 2 * n) → parse6Loop n s ip ell = some (ip ++ bs, ell, []) := by
  induction h with
  | one h =>
    rename_i t hi lo
    intro n ip ell hip hn
    cases n with
    | zero => simp only [List.length_cons] at hn; split at hn <;> omega
    | succ n =>
      obtain ⟨h1, h2, h3, h4⟩ := hexGroup_hextet h ends_nil
      rw [List.append_nil] at h1
      rw [parse6Loop, h1]
      simp only
      rw [if_neg h2, h3, h4]
  | v4 =>
    rename_i a b c d
    intro n ip ell hip hn
    simp only [List.length_cons, List.length_nil] at hn
    cases n with
    | zero => split at hn <;> omega
    | succ n =>
      obtain ⟨v, k, r, h1, h2⟩ := hexGroup_dotted a b c d
      rw [parse6Loop, h1]
      simp only
      rw [if_neg h2, if_pos trivial, parseIPv4_dotted]
      cases ell with
      | none =>
        simp only [Option.isSome_none, Bool.false_eq_true, if_false] at hn
        rw [if_neg (by simp; omega), if_neg (by omega)]
      | some e =>
        simp only [Option.isSome_some, if_true] at hn
        rw [if_neg (by simp), if_neg (by omega)]
  | cons h hu ih =>
    rename_i t u bs hi lo
    intro n ip ell hip hn
    simp only [List.length_cons] at hn
    cases n with
    | zero => split at hn <;> omega
    | succ n =>
      obtain ⟨h1, h2, h3, h4⟩ := hexGroup_hextet h (ends_colon u)
      obtain ⟨c, r, rfl, hc⟩ := groups_head hu
      rw [parse6Loop, h1]
      simp only
      rw [if_neg h2, if_neg (by decide), if_neg (by simp), h3, h4]
      rw [if_neg hc, ih n _ ell (by simp; omega) (by split at hn <;> simp_all <;> omega)]
      simp

/-- The loop, for groups, a double colon and groups. -/
theorem loop_gap {t xs u ys : Bytes} (h : Hextets t xs) (hu : u = [] ∧ ys = [] ∨ Groups u ys) : ∀ (n : Nat) (ip : Bytes), ip.length + 2 * n = 16 →
    xs.length + ys.length ≤ 2 * n → parse6Loop n (t ++ 58 :: 58 :: u) ip none = some (ip ++ xs ++ ys, some (ip ++ xs).length, []) := by
  induction h with
  | one h =>
    rename_i t hi lo
    intro n ip hip hn
    simp only [List.length_cons, List.length_nil] at hn
    cases n with
    | zero => omega
    | succ n =>
      obtain ⟨h1, h2, h3, h4⟩ := hexGroup_hextet h (ends_colon (58 :: u))
      rw [parse6Loop, h1]
      simp only
      rw [if_neg h2, if_neg (by decide), if_neg (by simp), h3, h4]
      simp only [if_pos, Option.isSome_none, Bool.false_eq_true, if_false]
      rcases hu with ⟨rfl, rfl⟩ | hu
      · simp
      · rw [if_neg (by obtain ⟨c, r, rfl, _⟩ := groups_head hu; simp), loop_groups hu n _ _ (by simp; omega) (by simp; omega)]
  | cons h ht ih =>
    rename_i t t' bs hi lo
    intro n ip hip hn
    simp only [List.length_cons] at hn
    cases n with
    | zero => omega
    | succ n =>
      obtain ⟨h1, h2, h3, h4⟩ := hexGroup_hextet h (ends_colon (t' ++ 58 :: 58 :: u))
      obtain ⟨c, r, rfl, hc⟩ := hextets_head ht
      rw [List.append_assoc, List.cons_append, parse6Loop, h1]
      simp only [List.cons_append]
      rw [if_neg h2, if_neg (by decide), if_neg (by simp), h3, h4]
      rw [if_neg hc]
      have := ih n (ip ++ [hi, lo]) (by simp; omega) (by omega)
      simp only [List.cons_append] at this
      rw [this]
      simp

/-- What the loop accepted, after the double colon. -/
theorem loop_some : ∀ (n : Nat) (s ip : Bytes) (e : Nat) (ip' : Bytes) (ell' : Option Nat), s ≠ [] →
    parse6Loop n s ip (some e) = some (ip', ell', []) → ell' = some e ∧ ∃ bs, ip' = ip ++ bs ∧ Groups s bs := by
  intro n
  induction n with
  | zero => intro s ip e ip' ell' hs h; simp [parse6Loop] at h; exact absurd h.2.2 hs
  | succ n ih =>
    intro s ip e ip' ell' hs h
    rw [parse6Loop] at h
    cases hg : hexGroup s 0 0 with
    | none => rw [hg] at h; cases h
    | some g =>
      obtain ⟨v, k, rest⟩ := g
      rw [hg] at h
      simp only at h
      by_cases hk : k = 0
      · rw [if_pos hk] at h; cases h
      rw [if_neg hk] at h
      obtain ⟨t, rfl, ht, _⟩ := hextet_of hg hk
      cases rest with
      | nil =>
        simp only [Option.some.injEq, Prod.mk.injEq] at h
        exact ⟨h.2.1.symm, _, h.1.symm, by simpa using Groups.one ht⟩
      | cons c rest =>
        simp only at h
        by_cases h46 : c = 46
        · rw [if_pos h46, if_neg (by simp)] at h
          split at h
          · cases h
          cases h4 : parseIPv4 (t ++ c :: rest) with
          | none => rw [h4] at h; cases h
          | some v4 =>
            rw [h4] at h
            simp only [Option.some.injEq, Prod.mk.injEq] at h
            obtain ⟨a, b, c', d, h5, rfl⟩ := (parseIPv4_some _ _).mp h4
            exact ⟨h.2.1.symm, _, h.1.symm, by rw [h5]; exact .v4⟩
        · rw [if_neg h46] at h
          by_cases h58 : c = 58
          · rw [if_neg (by simpa using h58)] at h
            subst h58
            cases rest with
            | nil => simp at h
            | cons c' rest =>
              simp only at h
              by_cases hc : c' = 58
              · rw [if_pos hc] at h; simp at h
              · rw [if_neg hc] at h
                obtain ⟨h1, bs, h2, h3⟩ := ih _ _ _ _ _ (by simp) h
                exact ⟨h1, _, by rw [h2, List.append_assoc]; rfl, .cons ht h3⟩
          · rw [if_pos h58] at h; cases h

/-- What the loop accepted, before the double colon. -/
theorem loop_none : ∀ (n : Nat) (s ip : Bytes) (ip' : Bytes) (ell' : Option Nat), s ≠ [] →
    parse6Loop n s ip none = some (ip', ell', []) → (ell' = none ∧ ∃ bs, ip' = ip ++ bs ∧ Groups s bs) ∨
      ∃ t xs u ys, Hextets t xs ∧ (u = [] ∧ ys = [] ∨ Groups u ys) ∧ s = t ++ 58 :: 58 :: u ∧ ip' = ip ++ xs ++ ys ∧ ell' = some (ip ++ xs).length := by
  intro n
  induction n with
  | zero => intro s ip ip' ell' hs h; simp [parse6Loop] at h; exact absurd h.2.2 hs
  | succ n ih =>
    intro s ip ip' ell' hs h
    rw [parse6Loop] at h
    cases hg : hexGroup s 0 0 with
    | none => rw [hg] at h; cases h
    | some g =>
      obtain ⟨v, k, rest⟩ := g
      rw [hg] at h
      simp only at h
      by_cases hk : k = 0
      · rw [if_pos hk] at h; cases h
      rw [if_neg hk] at h
      obtain ⟨t, rfl, ht, _⟩ := hextet_of hg hk
      cases rest with
      | nil =>
        simp only [Option.some.injEq, Prod.mk.injEq] at h
        exact .inl ⟨h.2.1.symm, _, h.1.symm, by simpa using Groups.one ht⟩
      | cons c rest =>
        simp only at h
        by_cases h46 : c = 46
        · rw [if_pos h46] at h
          split at h
          · cases h
          split at h
          · cases h
          cases h4 : parseIPv4 (t ++ c :: rest) with
          | none => rw [h4] at h; cases h
          | some v4 =>
            rw [h4] at h
            simp only [Option.some.injEq, Prod.mk.injEq] at h
            obtain ⟨a, b, c', d, h5, rfl⟩ := (parseIPv4_some _ _).mp h4
            exact .inl ⟨h.2.1.symm, _, h.1.symm, by rw [h5]; exact .v4⟩
        · rw [if_neg h46] at h
          by_cases h58 : c = 58
          · rw [if_neg (by simpa using h58)] at h
            subst h58
            cases rest with
            | nil => simp at h
            | cons c' rest =>
              simp only at h
              by_cases hc : c' = 58
              · rw [if_pos hc] at h
                subst hc
                simp only [Option.isSome_none, Bool.false_eq_true, if_false] at h
                by_cases hr : rest = []
                · rw [if_pos hr] at h
                  simp only [Option.some.injEq, Prod.mk.injEq] at h
                  subst hr
                  exact .inr ⟨t, _, [], [], .one ht, .inl ⟨rfl, rfl⟩, rfl, by rw [List.append_nil]; exact h.1.symm, h.2.1.symm⟩
                · rw [if_neg hr] at h
                  obtain ⟨h1, bs, h2, h3⟩ := loop_some _ _ _ _ _ _ hr h
                  exact .inr ⟨t, _, rest, bs, .one ht, .inr h3, rfl, h2, h1⟩
              · rw [if_neg hc] at h
                rcases ih _ _ _ _ (by simp) h with ⟨h1, bs, h2, h3⟩ | ⟨t', xs, u, ys, h1, h2, h3, h4, h5⟩
                · exact .inl ⟨h1, _, by rw [h2, List.append_assoc]; rfl, .cons ht h3⟩
                · exact .inr ⟨t ++ 58 :: t', _ :: _ :: xs, u, ys, .cons ht h1, h2, by rw [h3]; simp, by rw [h4]; simp, by rw [h5]; simp⟩
          · rw [if_pos h58] at h; cases h

theorem dotted_chars (a b c d : UInt8) : ∀ x ∈ dotted a b c d, x ≠ 58 ∧ x ≠ 37 := by
  have h : ∀ (n : UInt8), ∀ x ∈ decNat n.toNat, x ≠ 58 ∧ x ≠ 37 := by
    intro n x hx
    rw [← natDec_eq_decNat] at hx
    have := natDec_digits _ x hx
    constructor <;> rintro rfl <;> exact absurd this (by simp [Digit])
  intro x hx
  unfold dotted at hx
  simp only [List.mem_append, List.mem_cons] at hx
  rcases hx with ((hx | rfl | hx) | rfl | hx) | rfl | hx
  all_goals first | exact h _ x hx | decide

theorem groups_chars {s bs : Bytes} (h : Groups s bs) : 37 ∉ s := by
  induction h with
  | one h => exact fun hc => (hextet_chars h _ hc).2.2 rfl
  | v4 => exact fun hc => (dotted_chars _ _ _ _ _ hc).2 rfl
  | cons h _ ih =>
    intro hc
    rcases List.mem_append.mp hc with hc | hc
    · exact (hextet_chars h _ hc).2.2 rfl
    · rcases List.mem_cons.mp hc with hc | hc
      · exact absurd hc (by decide)
      · exact ih hc

theorem hextets_groups {s bs : Bytes} (h : Hextets s bs) : Groups s bs := by
  induction h with
  | one h => exact .one h
  | cons h _ ih => exact .cons h ih

/-- The texts with colons. -/
inductive Is6 : Bytes → Bytes → Prop
  | full {s ip : Bytes} : Groups s ip → ip.length = 16 → Is6 s ip
  | gap {t u xs ys : Bytes} : (t = [] ∧ xs = [] ∨ Hextets t xs) → (u = [] ∧ ys = [] ∨ Groups u ys) → xs.length + ys.length < 16 →
      Is6 (t ++ 58 :: 58 :: u) (xs ++ List.replicate (16 - (xs.length + ys.length)) 0 ++ ys)

theorem expand_gap {xs ys : Bytes} (h : xs.length + ys.length < 16) :
    expand (xs ++ ys, some xs.length, []) = some (xs ++ List.replicate (16 - (xs.length + ys.length)) 0 ++ ys) := by
  unfold expand
  simp [h]

theorem parseIPv6_iff (s ip : Bytes) : parseIPv6 s = some ip ↔ Is6 s ip := by
  constructor
  · intro h
    unfold parseIPv6 at h
    split at h
    · cases h
    rename_i h37
    split at h
    · rename_i rest
      split at h
      · rename_i hr
        subst hr
        cases h
        exact Is6.gap (t := []) (u := []) (.inl ⟨rfl, rfl⟩) (.inl ⟨rfl, rfl⟩) (by simp)
      · rename_i hr
        cases hl : parse6Loop 8 rest [] (some 0) with
        | none => rw [hl] at h; cases h
        | some r =>
          obtain ⟨ip', ell', rest'⟩ := r
          rw [hl] at h
          simp only [Option.bind_some] at h
          by_cases hr' : rest' = []
          · subst hr'
            obtain ⟨rfl, bs, rfl, hb⟩ := loop_some _ _ _ _ _ _ hr hl
            unfold expand at h
            simp only [ne_eq, not_true, if_false] at h
            split at h
            · rename_i hlt
              simp only [List.take_zero, List.nil_append, List.drop_zero, Option.some.injEq] at h
              subst h
              have := Is6.gap (t := []) (u := rest) (xs := []) (ys := ip') (.inl ⟨rfl, rfl⟩) (.inr hb) (by simpa using hlt)
              simpa using this
            · simp at h
          · unfold expand at h; simp [hr'] at h
    · cases hl : parse6Loop 8 s [] none with
      | none => rw [hl] at h; cases h
      | some r =>
        obtain ⟨ip', ell', rest'⟩ := r
        rw [hl] at h
        simp only [Option.bind_some] at h
        by_cases hr' : rest' = []
        · subst hr'
          have hs : s ≠ [] := by
            rintro rfl
            simp [parse6Loop, hexGroup] at hl
          rcases loop_none _ _ _ _ _ hs hl with ⟨rfl, bs, rfl, hb⟩ | ⟨t, xs, u, ys, h1, h2, rfl, rfl, rfl⟩
          · unfold expand at h
            simp only [ne_eq, not_true, if_false, List.nil_append] at h
            split at h
            · cases h
            · simp only [Option.isSome_none, Bool.false_eq_true, if_false, Option.some.injEq] at h
              subst h
              rename_i hn
              refine .full hb ?_
              have := parse6_length 8 s [] none _ _ _ (by simp) (by simp) hl
              simp at this
              omega
          · rw [List.nil_append] at h
            by_cases hlt : xs.length + ys.length < 16
            · rw [expand_gap hlt] at h
              cases h
              exact .gap (.inr h1) h2 hlt
            · unfold expand at h
              simp [hlt] at h
        · unfold expand at h; simp [hr'] at h
  · intro h
    cases h with
    | full hg hl =>
      have hh := groups_head hg
      rw [parseIPv6_colon (groups_chars hg) (by obtain ⟨c, r, rfl, hc⟩ := hh; intro r' e; cases e; exact hc rfl), loop_groups hg 8 [] none (by simp) (by simpa using hl)]
      simp [expand, hl]
    | gap ht hu hlt =>
      rename_i t u xs ys
      have h37u : 37 ∉ u := by
        rcases hu with ⟨rfl, _⟩ | hu
        · simp
        · exact groups_chars hu
      rcases ht with ⟨rfl, rfl⟩ | ht
      · unfold parseIPv6
        rw [if_neg (by simp [h37u])]
        simp only [List.nil_append]
        rcases hu with ⟨rfl, rfl⟩ | hu
        · simp
        · have hn : u ≠ [] := by obtain ⟨c, r, rfl, _⟩ := groups_head hu; simp
          rw [if_neg hn, loop_groups hu 8 [] (some 0) (by simp) (by simp at hlt ⊢; omega)]
          simpa using expand_gap (xs := []) (ys := ys) hlt
      · rw [parseIPv6_colon, loop_gap ht hu 8 [] (by simp) (by omega)]
        · simpa using expand_gap hlt
        · have := groups_chars (hextets_groups ht)
          simp [this, h37u]
        · obtain ⟨c, r, rfl, hc⟩ := hextets_head ht
          intro r' e
          simp only [List.cons_append, List.cons.injEq] at e
          exact hc e.1

theorem is6_sep {s ip : Bytes} (h : Is6 s ip) : firstSep s = some 58 := by
  have hx : ∀ {t xs : Bytes} (r : Bytes), Hextets t xs → firstSep (t ++ 58 :: r) = some 58 := by
    intro t xs r ht
    cases ht with
    | one h => exact firstSep_hex (hextet_chars h) _
    | cons h _ => rw [List.append_assoc]; exact firstSep_hex (hextet_chars h) _
  cases h with
  | full hg hl =>
    cases hg with
    | one _ => simp at hl
    | v4 => simp at hl
    | cons h _ => exact firstSep_hex (hextet_chars h) _
  | gap ht hu _ =>
    rcases ht with ⟨rfl, rfl⟩ | ht
    · rfl
    · exact hx _ ht

/-- `net.ParseIP`: the texts of RFC 4291. -/
theorem parseIP_iff (s ip : Bytes) : parseIP s = some ip ↔ IsAddress s ip := by
  constructor
  · intro h
    unfold parseIP at h
    split at h
    · split at h
      · cases h4 : parseIPv4 s with
        | none => rw [h4] at h; cases h
        | some v4 =>
          obtain ⟨a, b, c, d, rfl, rfl⟩ := (parseIPv4_some _ _).mp h4
          rw [h4] at h
          simp only [Option.map_some, List.cons_append, List.nil_append, Option.some.injEq] at h
          subst h
          exact .v4
      split at h
      · cases (parseIPv6_iff _ _).mp h with
        | full h1 h2 => exact .full h1 h2
        | gap h1 h2 h3 => exact .gap h1 h2 h3
      · cases h
    · cases h
  · intro h
    have aux : Is6 s ip → parseIP s = some ip := by
      intro h
      unfold parseIP
      rw [is6_sep h]
      simp only
      rw [if_neg (by decide), if_pos trivial, parseIPv6_iff]
      exact h
    cases h with
    | v4 => exact parseIP_dotted _ _ _ _
    | full h1 h2 => exact aux (.full h1 h2)
    | gap h1 h2 h3 => exact aux (.gap h1 h2 h3)

end Drip.Net
