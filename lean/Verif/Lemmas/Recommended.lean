import Verif.Lemmas.Address
/-
`IP.String` is the text recommended by RFC 5952.
-/

namespace Drip.Net
open Spec Bencode

theorem hexChar_toNat {n : Nat} (h : n < 16) : (hexChar n).toNat = if n < 10 then 48 + n else 87 + n := by
  unfold hexChar
  split
  · rw [ofNat_toNat_lt (by omega)]
  · rw [ofNat_toNat_lt (by omega)]

theorem hexChar_of {c : UInt8} {v : Nat} (h : HexOf c v) (hl : ¬ (65 ≤ c.toNat ∧ c.toNat ≤ 70)) : c = hexChar v := by
  apply UInt8.toNat_inj.mp
  unfold HexOf at h
  rw [hexChar_toNat (by omega)]
  split <;> omega

theorem hexOf_char {n : Nat} (h : n < 16) : HexOf (hexChar n) n ∧ ¬ (65 ≤ (hexChar n).toNat ∧ (hexChar n).toNat ≤ 70) := by
  unfold HexOf
  rw [hexChar_toNat h]
  split <;> omega

theorem hexChar_zero {n : Nat} (h : n < 16) (h0 : hexChar n = 48) : n = 0 := by
  have := congrArg UInt8.toNat h0
  rw [hexChar_toNat h] at this
  simp only [show (48 : UInt8).toNat = 48 from rfl] at this
  split at this <;> omega

/-- Digits as characters. -/
theorem forall2_chars : ∀ {t : Bytes} {ds : List Nat}, List.Forall₂ HexOf t ds → (∀ c ∈ t, ¬ (65 ≤ c.toNat ∧ c.toNat ≤ 70)) → t = ds.map hexChar := by
  intro t ds h
  induction h with
  | nil => intro _; rfl
  | cons h1 _ ih =>
    intro hl
    rw [List.map_cons, ← hexChar_of h1 (hl _ (by simp)), ← ih fun c hc => hl c (by simp [hc])]

theorem chars_forall2 : ∀ (ds : List Nat), (∀ d ∈ ds, d < 16) → List.Forall₂ HexOf (ds.map hexChar) ds ∧ ∀ c ∈ ds.map hexChar, ¬ (65 ≤ c.toNat ∧ c.toNat ≤ 70) := by
  intro ds
  induction ds with
  | nil => intro _; exact ⟨.nil, by simp⟩
  | cons d ds ih =>
    intro h
    obtain ⟨h1, h2⟩ := ih fun x hx => h x (by simp [hx])
    obtain ⟨h3, h4⟩ := hexOf_char (h d (by simp))
    refine ⟨.cons h3 h1, ?_⟩
    intro c hc
    rcases List.mem_cons.mp hc with rfl | hc
    · exact h4
    · exact h2 c hc

/-- The digits of a group. -/
def digits (x : Nat) : List Nat :=
  (if x ≥ 4096 then [x / 4096] else []) ++ (if x ≥ 256 then [x / 256 % 16] else []) ++ (if x ≥ 16 then [x / 16 % 16] else []) ++ [x % 16]

theorem hexText_digits (x : Nat) : hexText x = (digits x).map hexChar := by
  unfold hexText digits
  simp only [List.map_append, List.map_cons, List.map_nil]
  split <;> split <;> split <;> rfl

theorem shortHextet_iff (t : Bytes) (hi lo : UInt8) : ShortHextet t hi lo ↔ t = hexText (hi.toNat * 256 + lo.toNat) := by
  have hh := hi.toNat_lt
  have hl := lo.toNat_lt
  generalize hx : hi.toNat * 256 + lo.toNat = x
  have hx' : x < 65536 := by omega
  constructor
  · rintro ⟨⟨h1, h2, ds, h3, h4⟩, h5, h6⟩
    obtain ⟨h7, h8⟩ := forall2_lt h3
    have h9 := forall2_chars h3 h5
    rw [hx] at h4
    rw [hexText_digits, h9]
    congr 1
    have hz : ∀ d ds', ds = d :: ds' → ds' ≠ [] → d ≠ 0 := by
      rintro d ds' rfl hne rfl
      have := h6 (by rw [h9]; rfl)
      rw [h9] at this
      have := congrArg List.length this
      cases ds' with
      | nil => exact hne rfl
      | cons _ _ => simp at this
    unfold digits
    clear h6 h9 h5 h3 hx
    match ds, h4, h7, h8, hz with
    | [], _, h7, _, _ => exact absurd (List.length_eq_zero_iff.mp h7.symm) h1
    | [a], h4, h7, h8, hz =>
      have := h8 a (by simp)
      simp only [List.foldl_cons, List.foldl_nil] at h4
      rw [if_neg (by omega), if_neg (by omega), if_neg (by omega)]
      simp only [List.nil_append, List.cons.injEq, and_true]; omega
    | [a, b], h4, h7, h8, hz =>
      have := h8 a (by simp)
      have := h8 b (by simp)
      have := hz a _ rfl (by simp)
      simp only [List.foldl_cons, List.foldl_nil] at h4
      rw [if_neg (by omega), if_neg (by omega), if_pos (by omega)]
      simp only [List.nil_append, List.cons_append, List.cons.injEq, and_true]; omega
    | [a, b, c], h4, h7, h8, hz =>
      have := h8 a (by simp)
      have := h8 b (by simp)
      have := h8 c (by simp)
      have := hz a _ rfl (by simp)
      simp only [List.foldl_cons, List.foldl_nil] at h4
      rw [if_neg (by omega), if_pos (by omega), if_pos (by omega)]
      simp only [List.nil_append, List.cons_append, List.cons.injEq, and_true]; omega
    | [a, b, c, d], h4, h7, h8, hz =>
      have := h8 a (by simp)
      have := h8 b (by simp)
      have := h8 c (by simp)
      have := h8 d (by simp)
      have := hz a _ rfl (by simp)
      simp only [List.foldl_cons, List.foldl_nil] at h4
      rw [if_pos (by omega), if_pos (by omega), if_pos (by omega)]
      simp only [List.nil_append, List.cons_append, List.cons.injEq, and_true]; omega
    | _ :: _ :: _ :: _ :: _ :: _, _, h7, _, _ => simp at h7; omega
  · rintro rfl
    rw [hexText_digits]
    have hd : ∀ d ∈ digits x, d < 16 := by
      intro d hd
      unfold digits at hd
      simp only [List.mem_append] at hd
      rcases hd with ((hd | hd) | hd) | hd
      · split at hd
        · simp at hd; omega
        · cases hd
      · split at hd
        · simp at hd; omega
        · cases hd
      · split at hd
        · simp at hd; omega
        · cases hd
      · simp at hd; omega
    obtain ⟨h1, h2⟩ := chars_forall2 _ hd
    refine ⟨⟨by simp [digits], ?_, _, h1, ?_⟩, h2, ?_⟩
    · unfold digits
      split <;> split <;> split <;> simp
    · rw [hx]
      unfold digits
      by_cases a1 : x ≥ 4096
      · rw [if_pos a1, if_pos (by omega), if_pos (by omega)]; simp; omega
      rw [if_neg a1]
      by_cases a2 : x ≥ 256
      · rw [if_pos a2, if_pos (by omega)]; simp; omega
      rw [if_neg a2]
      by_cases a3 : x ≥ 16
      · rw [if_pos a3]; simp; omega
      rw [if_neg a3]; simp; omega
    · unfold digits
      by_cases a1 : x ≥ 4096
      · rw [if_pos a1]
        intro h
        simp at h
        have := hexChar_zero (by omega) h
        omega
      rw [if_neg a1]
      by_cases a2 : x ≥ 256
      · rw [if_pos a2]
        intro h
        simp at h
        have := hexChar_zero (by omega) h
        omega
      rw [if_neg a2]
      by_cases a3 : x ≥ 16
      · rw [if_pos a3]
        intro h
        simp at h
        have := hexChar_zero (by omega) h
        omega
      rw [if_neg a3]
      intro h
      simpa using h

theorem shortHextets_iff : ∀ (bs : Bytes) (k : Nat) (t : Bytes), bs.length = 2 * k → (ShortHextets t bs ↔ t = joinHex (groups bs))
  | [], k, t, _ => by
    constructor
    · intro h; cases h; rfl
    · rintro rfl; exact .nil
  | [a], k, t, h => by simp at h; omega
  | a :: b :: r, 0, t, h => by simp at h
  | a :: b :: r, k + 1, t, h => by
    have ih := fun t => shortHextets_iff r k t (by simp at h; omega)
    constructor
    · intro hs
      cases hs with
      | one h1 => simpa [groups, joinHex] using (shortHextet_iff _ _ _).mp h1
      | cons h1 h2 h3 =>
        rw [(shortHextet_iff _ _ _).mp h1, (ih _).mp h2, groups]
        match r, h3 with
        | c :: d :: r', _ => simp [groups, joinHex]
        | [c], _ => simp at h; omega
    · rintro rfl
      match r, ih with
      | [], _ => exact .one ((shortHextet_iff _ _ _).mpr (by simp [groups, joinHex]))
      | c :: d :: r', ih =>
        have := ShortHextets.cons ((shortHextet_iff _ a b).mpr rfl) ((ih _).mpr rfl) (by simp)
        simpa [groups, joinHex] using this
      | [c], _ => simp at h; omega

/-- A run of zeros, in groups. -/
def RunAt (gs : List Nat) (q k : Nat) : Prop := q + k ≤ gs.length ∧ (gs.drop q).take k = List.replicate k 0

theorem zeroRun_ge : ∀ (k : Nat) (gs : List Nat), k ≤ gs.length → gs.take k = List.replicate k 0 → k ≤ zeroRun gs
  | 0, _, _, _ => Nat.zero_le _
  | k + 1, [], h, _ => by simp at h
  | k + 1, g :: gs, h, ht => by
    rw [List.take_succ_cons, List.replicate_succ, List.cons.injEq] at ht
    obtain ⟨rfl, ht⟩ := ht
    have := zeroRun_ge k gs (by simpa using h) ht
    rw [zeroRun]
    omega

theorem longestRun_max (all gs : List Nat) : ∀ (i : Nat) (best : Nat × Nat), gs = all.drop i →
    (∀ q k, q < i → 2 ≤ k → RunAt all q k → k < best.2 ∨ k = best.2 ∧ best.1 ≤ q) → (best.2 ≠ 0 → best.1 < i) →
    ∀ q k, 2 ≤ k → RunAt all q k → k < (longestRun gs i best).2 ∨ k = (longestRun gs i best).2 ∧ (longestRun gs i best).1 ≤ q := by
  induction gs with
  | nil =>
    intro i best hd h1 _ q k hk hr
    have : all.length ≤ i := by simpa using hd.symm
    exact h1 q k (by have := hr.1; omega) hk hr
  | cons g gs ih =>
    intro i best hd h1 h2
    rw [longestRun]
    refine ih _ _ ?_ ?_ ?_
    · have := congrArg List.tail hd
      simpa [List.tail_drop] using this
    · intro q k hq hk hr
      by_cases hqi : q = i
      · subst hqi
        have h3 := zeroRun_ge k (g :: gs) (by rw [hd, List.length_drop]; have := hr.1; omega) (by rw [hd]; exact hr.2)
        split
        · rcases Nat.lt_or_eq_of_le h3 with h4 | h4
          · exact .inl h4
          · exact .inr ⟨h4, Nat.le_refl _⟩
        · rename_i hn
          rcases Nat.lt_or_ge k best.2 with h4 | h4
          · exact .inl h4
          · refine .inr ⟨?_, ?_⟩
            · omega
            · have := h2 (by omega); omega
      · have h3 := h1 q k (by omega) hk hr
        split
        · simp only; omega
        · exact h3
    · split
      · intro _; simp
      · intro h; have := h2 h; omega

theorem bytes2_drop : ∀ (gs : List Nat) (p : Nat), bytes2 (gs.drop p) = (bytes2 gs).drop (2 * p)
  | gs, 0 => by simp
  | [], p + 1 => by simp [bytes2]
  | g :: gs, p + 1 => by
    rw [List.drop_succ_cons, bytes2_drop gs p, bytes2, show 2 * (p + 1) = 2 * p + 1 + 1 by omega, List.drop_succ_cons, List.drop_succ_cons]

theorem bytes2_take : ∀ (gs : List Nat) (p : Nat), bytes2 (gs.take p) = (bytes2 gs).take (2 * p)
  | gs, 0 => by simp [bytes2]
  | [], p + 1 => by simp [bytes2]
  | g :: gs, p + 1 => by
    rw [List.take_succ_cons, bytes2, bytes2_take gs p, bytes2, show 2 * (p + 1) = 2 * p + 1 + 1 by omega, List.take_succ_cons, List.take_succ_cons]

theorem groups_of_bytes2 : ∀ (gs : List Nat), (∀ g ∈ gs, g < 65536) → groups (bytes2 gs) = gs
  | [], _ => rfl
  | g :: gs, h => by
    have hg := h g (by simp)
    rw [bytes2, groups, groups_of_bytes2 gs fun x hx => h x (by simp [hx]), ofNat_toNat_lt (by omega), ofNat_toNat_lt (by omega)]
    congr 1; omega

theorem zeroGroups_iff {ip : Bytes} (h : ip.length = 16) (p k : Nat) : ZeroGroups ip p k ↔ RunAt (groups ip) p k := by
  obtain ⟨h1, h2, h3⟩ := groups_bytes2 ip 8 (by omega)
  have hm : ∀ g ∈ ((groups ip).drop p).take k, g < 65536 := fun g hg => h3 g (List.mem_of_mem_drop (List.mem_of_mem_take hg))
  unfold ZeroGroups RunAt
  rw [h, h2]
  constructor
  · rintro ⟨a, b⟩
    refine ⟨by omega, ?_⟩
    rw [← groups_of_bytes2 _ hm, bytes2_take, bytes2_drop, h1, b, ← bytes2_zero, groups_of_bytes2]
    intro g hg
    have := (List.mem_replicate.mp hg).2
    omega
  · rintro ⟨a, b⟩
    refine ⟨by omega, ?_⟩
    rw [← h1, ← bytes2_drop, ← bytes2_take, b, bytes2_zero]

theorem to4_some {ip : Bytes} (h : ip.length = 16) (l : Bytes) : to4 ip = some l ↔ ∃ a b c d, ip = mapped a b c d ∧ l = [a, b, c, d] := by
  unfold to4
  constructor
  · intro h'
    split at h'
    · rename_i ht
      have he := List.take_append_drop 12 ip
      have hl : (ip.drop 12).length = 4 := by simp [h]
      match hd : ip.drop 12, hl with
      | [a, b, c, d], _ =>
        rw [hd] at h' he
        rw [ht] at he
        exact ⟨a, b, c, d, he.symm, by simpa using h'.symm⟩
    · cases h'
  · rintro ⟨a, b, c, d, rfl, rfl⟩
    rfl

theorem recommended_iff {ip : Bytes} (h : ip.length = 16) (t : Bytes) : Recommended ip t ↔ t = ipString ip := by
  obtain ⟨h1, h2, h3⟩ := groups_bytes2 ip 8 (by omega)
  by_cases hm : ∃ a b c d, ip = mapped a b c d
  · obtain ⟨a, b, c, d, rfl⟩ := hm
    have e : ipString (mapped a b c d) = dotted a b c d := by
      unfold ipString
      rw [(to4_some h [a, b, c, d]).mpr ⟨a, b, c, d, rfl, rfl⟩]
      exact ipv4String_eq a b c d
    rw [e]
    constructor
    · intro hr
      generalize hip : mapped a b c d = ip at *
      cases hr with
      | v4 => unfold mapped at hip; cases hip; rfl
      | full _ hn _ _ => exact absurd hip.symm (hn a b c d)
      | gap _ hn _ _ _ _ _ => exact absurd hip.symm (hn a b c d)
    · rintro rfl; exact .v4
  · have hn : ∀ a b c d, ip ≠ mapped a b c d := fun a b c d e => hm ⟨a, b, c, d, e⟩
    have e : ipString ip = ipv6String ip := by
      unfold ipString
      cases h4 : to4 ip with
      | none => rfl
      | some l => obtain ⟨a, b, c, d, e, _⟩ := (to4_some h _).mp h4; exact absurd e (hn a b c d)
    rw [e]
    have hr := longestRun_run (groups ip) (groups ip) 0 (255, 0) (by simp) (.inl rfl)
    have hx := longestRun_max (groups ip) (groups ip) 0 (255, 0) (by simp) (by intro q k hq; omega) (by simp)
    unfold ipv6String
    simp only
    generalize longestRun (groups ip) 0 (255, 0) = r at hr hx ⊢
    obtain ⟨i, l⟩ := r
    simp only at hr hx ⊢
    have hz := zeroGroups_iff h
    have hpre : ∀ p, joinHex ((groups ip).take p) = joinHex (groups (ip.take (2 * p))) := by
      intro p
      rw [← congrArg (List.take (2 * p)) h1, ← bytes2_take, groups_of_bytes2 _ fun g hg => h3 g (List.mem_of_mem_take hg)]
    have hpost : ∀ p, joinHex ((groups ip).drop p) = joinHex (groups (ip.drop (2 * p))) := by
      intro p
      rw [← congrArg (List.drop (2 * p)) h1, ← bytes2_drop, groups_of_bytes2 _ fun g hg => h3 g (List.mem_of_mem_drop hg)]
    have hs1 : ∀ p t, p ≤ 8 → (ShortHextets t (ip.take (2 * p)) ↔ t = joinHex ((groups ip).take p)) := fun p t hp => by
      rw [hpre, shortHextets_iff _ p _ (by simp [h]; omega)]
    have hs2 : ∀ p t, p ≤ 8 → (ShortHextets t (ip.drop (2 * p)) ↔ t = joinHex ((groups ip).drop p)) := fun p t hp => by
      rw [hpost, shortHextets_iff _ (8 - p) _ (by simp [h]; omega)]
    by_cases hl : l = 0
    · rw [if_pos hl]
      have hno : ∀ p k, ZeroGroups ip p k → k < 2 := by
        intro p k hp
        refine Classical.byContradiction fun hk => ?_
        have := hx p k (by omega) ((hz p k).mp hp)
        omega
      constructor
      · intro hr'
        cases hr' with
        | v4 => exact absurd rfl (hn _ _ _ _)
        | full _ _ _ hs => exact (shortHextets_iff _ 8 _ (by omega)).mp hs
        | gap _ _ hk hp _ _ _ => have := hno _ _ hp; omega
      · rintro rfl
        exact .full h hn hno ((shortHextets_iff _ 8 _ (by omega)).mpr rfl)
    · rw [if_neg hl]
      rcases hr with hr | ⟨hr1, hr2, hr3⟩
      · exact absurd hr hl
      have hrun : ZeroGroups ip i l := (hz i l).mpr ⟨hr2, hr3⟩
      have hmax : ∀ q k, ZeroGroups ip q k → k < l ∨ k = l ∧ i ≤ q := by
        intro q k hq
        by_cases hk : 2 ≤ k
        · exact hx q k hk ((hz q k).mp hq)
        · exact .inl (by omega)
      constructor
      · intro hr'
        cases hr' with
        | v4 => exact absurd rfl (hn _ _ _ _)
        | full _ _ hno _ => have := hno _ _ hrun; omega
        | gap g1 g2 hk hp hmx ht hu =>
          rename_i p n
          have a := hmax _ _ hp
          have b := hmx _ _ hrun
          obtain rfl : p = i := by omega
          obtain rfl : n = l := by omega
          rw [(hs1 _ _ (by omega)).mp ht, (hs2 _ _ (by omega)).mp hu]
      · rintro rfl
        exact .gap h hn hr1 hrun hmax ((hs1 _ _ (by omega)).mpr rfl) ((hs2 _ _ (by omega)).mpr rfl)

/-- `net.ParseIP(s).String() == s`. -/
theorem parseTo4_iff (s l : Bytes) : parseTo4 s = some l ↔ ∃ a b c d, IsAddress s (mapped a b c d) ∧ l = [a, b, c, d] := by
  unfold parseTo4
  simp only [← parseIP_iff]
  cases h : parseIP s with
  | none => simp
  | some ip =>
    rw [Option.bind_some, to4_some (parseIP_length h)]
    simp

theorem canonText_self (s : Bytes) : canonText s = some s ↔ ∃ ip, Recommended ip s := by
  constructor
  · intro h
    unfold canonText at h
    cases hp : parseIP s with
    | none => rw [hp] at h; cases h
    | some ip =>
      rw [hp] at h
      simp only [Option.map_some, Option.some.injEq] at h
      exact ⟨ip, (recommended_iff (parseIP_length hp) s).mpr h.symm⟩
  · rintro ⟨ip, h⟩
    have hl : ip.length = 16 := by cases h <;> first | assumption | rfl
    have := (recommended_iff hl s).mp h
    unfold canonText
    rw [this, parseIP_string hl]
    rfl

end Drip.Net
