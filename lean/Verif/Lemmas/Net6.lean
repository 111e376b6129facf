import Verif.Lemmas.Net
/-
The text of an address determines the address: `net.ParseIP` undoes `IP.String`.
-/

namespace Drip.Net
open Spec

theorem hexVal_hexChar : ∀ n < 16, hexVal (hexChar n) = some n := by decide +kernel

/-- Not a hexadecimal digit at the start. -/
def Ends (s : Bytes) : Prop := ∀ c r, s = c :: r → hexVal c = none

theorem hexGroup_ends {s : Bytes} (h : Ends s) (acc off : Nat) : hexGroup s acc off = some (acc, off, s) := by
  cases s with
  | nil => rfl
  | cons c r => rw [hexGroup, h c r rfl]

theorem hexGroup_char {n : Nat} (hn : n < 16) (s : Bytes) (acc off : Nat) (ho : off ≤ 3) :
    hexGroup (hexChar n :: s) acc off = hexGroup s (acc * 16 + n) (off + 1) := by
  rw [hexGroup, hexVal_hexChar n hn]
  simp only
  rw [if_neg (by omega)]

theorem hexGroup_text {g : Nat} (hg : g < 65536) {s : Bytes} (h : Ends s) : ∃ k, 0 < k ∧ hexGroup (hexText g ++ s) 0 0 = some (g, k, s) := by
  unfold hexText
  by_cases h1 : g ≥ 4096
  · refine ⟨4, by omega, ?_⟩
    rw [if_pos h1, if_pos (by omega), if_pos (by omega)]
    simp only [List.cons_append, List.nil_append]
    rw [hexGroup_char (by omega) _ _ _ (by omega), hexGroup_char (by omega) _ _ _ (by omega), hexGroup_char (by omega) _ _ _ (by omega),
      hexGroup_char (by omega) _ _ _ (by omega), hexGroup_ends h]
    simp only [Option.some.injEq, Prod.mk.injEq, and_true, true_and]
    omega
  rw [if_neg h1]
  by_cases h2 : g ≥ 256
  · refine ⟨3, by omega, ?_⟩
    rw [if_pos h2, if_pos (by omega)]
    simp only [List.cons_append, List.nil_append]
    rw [hexGroup_char (by omega) _ _ _ (by omega), hexGroup_char (by omega) _ _ _ (by omega), hexGroup_char (by omega) _ _ _ (by omega), hexGroup_ends h]
    simp only [Option.some.injEq, Prod.mk.injEq, and_true, true_and]
    omega
  rw [if_neg h2]
  by_cases h3 : g ≥ 16
  · refine ⟨2, by omega, ?_⟩
    rw [if_pos h3]
    simp only [List.cons_append, List.nil_append]
    rw [hexGroup_char (by omega) _ _ _ (by omega), hexGroup_char (by omega) _ _ _ (by omega), hexGroup_ends h]
    simp only [Option.some.injEq, Prod.mk.injEq, and_true, true_and]
    omega
  rw [if_neg h3]
  refine ⟨1, by omega, ?_⟩
  simp only [List.cons_append, List.nil_append]
  rw [hexGroup_char (by omega) _ _ _ (by omega), hexGroup_ends h]
  simp only [Option.some.injEq, Prod.mk.injEq, and_true, true_and]
  omega

/-- The characters of a group. -/
theorem hexChar_ne : ∀ n < 16, hexChar n ≠ 58 ∧ hexChar n ≠ 46 ∧ hexChar n ≠ 37 := by decide +kernel

theorem hexText_mem {g : Nat} (hg : g < 65536) : ∀ c ∈ hexText g, c ≠ 58 ∧ c ≠ 46 ∧ c ≠ 37 := by
  intro c hc
  unfold hexText at hc
  simp only [List.mem_append, List.mem_singleton] at hc
  rcases hc with ((hc | hc) | hc) | hc
  · split at hc
    · rw [List.mem_singleton.mp hc]; exact hexChar_ne _ (by omega)
    · cases hc
  · split at hc
    · rw [List.mem_singleton.mp hc]; exact hexChar_ne _ (by omega)
    · cases hc
  · split at hc
    · rw [List.mem_singleton.mp hc]; exact hexChar_ne _ (by omega)
    · cases hc
  · rw [hc]; exact hexChar_ne _ (by omega)

theorem hexText_cons {g : Nat} (hg : g < 65536) : ∃ c r, hexText g = c :: r ∧ c ≠ 58 ∧ c ≠ 46 ∧ c ≠ 37 := by
  cases h : hexText g with
  | nil => simp [hexText] at h
  | cons c r => exact ⟨c, r, rfl, hexText_mem hg c (by simp [h])⟩

/-- The bytes of groups. -/
def bytes2 : List Nat → Bytes
  | [] => []
  | g :: gs => UInt8.ofNat (g / 256) :: UInt8.ofNat (g % 256) :: bytes2 gs

theorem bytes2_length (gs : List Nat) : (bytes2 gs).length = 2 * gs.length := by
  induction gs with
  | nil => rfl
  | cons g gs ih => simp [bytes2, ih]; omega

theorem bytes2_append (a b : List Nat) : bytes2 (a ++ b) = bytes2 a ++ bytes2 b := by
  induction a with
  | nil => rfl
  | cons g gs ih => simp [bytes2, ih]

theorem ends_colon (r : Bytes) : Ends (58 :: r) := by
  intro c r' h; cases h; decide

theorem joinHex_cons {g : Nat} (hg : g < 65536) (gs : List Nat) : ∃ c r, joinHex (g :: gs) = c :: r ∧ c ≠ 58 ∧ c ≠ 46 ∧ c ≠ 37 := by
  obtain ⟨c, r, h, hc⟩ := hexText_cons hg
  cases gs with
  | nil => exact ⟨c, r, h, hc⟩
  | cons g' gs => exact ⟨c, r ++ 58 :: joinHex (g' :: gs), by rw [joinHex, h] <;> simp, hc⟩

/-- The last groups. -/
theorem parse6_join (gs : List Nat) : ∀ (n : Nat) (ip : Bytes) (ell : Option Nat), gs ≠ [] → (∀ g ∈ gs, g < 65536) → gs.length ≤ n →
    parse6Loop n (joinHex gs) ip ell = some (ip ++ bytes2 gs, ell, []) := by
  induction gs with
  | nil => intro n ip ell h; exact absurd rfl h
  | cons g gs ih =>
    intro n ip ell _ hg hn
    have hg0 := hg g (by simp)
    match n, hn with
    | n + 1, hn =>
      cases gs with
      | nil =>
        obtain ⟨k, hk, e⟩ := hexGroup_text hg0 (s := []) (by intro c r h; cases h)
        rw [List.append_nil] at e
        rw [joinHex, parse6Loop, e]
        simp only
        rw [if_neg (by omega)]
        rfl
      | cons g' gs =>
        obtain ⟨k, hk, e⟩ := hexGroup_text hg0 (ends_colon (joinHex (g' :: gs)))
        rw [joinHex, parse6Loop, e]
        · simp only
          rw [if_neg (by omega), if_neg (by decide), if_neg (by decide)]
          obtain ⟨c, r, hc, hc1, _⟩ := joinHex_cons (hg g' (by simp)) gs
          rw [hc]
          simp only
          rw [if_neg hc1, ← hc, ih n _ ell (by simp) (fun x hx => hg x (by simp [hx])) (by simp at hn ⊢; omega)]
          simp [bytes2]
        · simp

/-- Groups before `::`. -/
theorem parse6_gap (gs : List Nat) (hs : List Nat) (hhs : ∀ g ∈ hs, g < 65536) : ∀ (n : Nat) (ip : Bytes), gs ≠ [] → (∀ g ∈ gs, g < 65536) → gs.length + hs.length ≤ n →
    parse6Loop n (joinHex gs ++ 58 :: 58 :: joinHex hs) ip none = some (ip ++ bytes2 gs ++ bytes2 hs, some (ip ++ bytes2 gs).length, []) := by
  induction gs with
  | nil => intro n ip h; exact absurd rfl h
  | cons g gs ih =>
    intro n ip _ hg hn
    have hg0 := hg g (by simp)
    match n, hn with
    | 0, hn => simp at hn
    | n + 1, hn =>
      cases gs with
      | nil =>
        obtain ⟨k, hk, e⟩ := hexGroup_text hg0 (ends_colon (58 :: joinHex hs))
        rw [joinHex, parse6Loop, e]
        simp only
        rw [if_neg (by omega), if_neg (by decide), if_neg (by decide)]
        simp only [if_true, Option.isSome_none, Bool.false_eq_true, if_false]
        cases hs with
        | nil => simp [joinHex, bytes2]
        | cons h hs =>
          obtain ⟨c, r, hc, _⟩ := joinHex_cons (hhs h (by simp)) hs
          rw [if_neg (by rw [hc]; simp), parse6_join _ n _ _ (by simp) hhs (by simp at hn ⊢; omega)]
          simp [bytes2]
      | cons g' gs =>
        obtain ⟨k, hk, e⟩ := hexGroup_text hg0 (ends_colon (joinHex (g' :: gs) ++ 58 :: 58 :: joinHex hs))
        rw [joinHex, List.append_assoc, List.cons_append, parse6Loop, e]
        · simp only
          rw [if_neg (by omega), if_neg (by decide), if_neg (by decide)]
          obtain ⟨c, r, hc, hc1, _⟩ := joinHex_cons (hg g' (by simp)) gs
          rw [hc]
          simp only [List.cons_append]
          rw [if_neg hc1, ← List.cons_append, ← hc, ih n _ (by simp) (fun x hx => hg x (by simp [hx])) (by simp at hn ⊢; omega)]
          simp [bytes2]
        · simp

theorem zeroRun_take (gs : List Nat) : ∀ l ≤ zeroRun gs, gs.take l = List.replicate l 0 ∧ l ≤ gs.length := by
  induction gs with
  | nil => intro l hl; simp [zeroRun] at hl; subst hl; simp
  | cons g gs ih =>
    intro l hl
    cases l with
    | zero => simp
    | succ l =>
      cases g with
      | zero =>
        simp only [zeroRun] at hl
        obtain ⟨h1, h2⟩ := ih l (by omega)
        exact ⟨by simp [h1, List.replicate_succ], by simp; omega⟩
      | succ g => simp [zeroRun] at hl

/-- A run of zeros in a list of groups. -/
def Run (gs : List Nat) (p : Nat × Nat) : Prop := p.2 = 0 ∨ (2 ≤ p.2 ∧ p.1 + p.2 ≤ gs.length ∧ (gs.drop p.1).take p.2 = List.replicate p.2 0)

theorem longestRun_run (all gs : List Nat) : ∀ (i : Nat) (best : Nat × Nat), gs = all.drop i → Run all best → Run all (longestRun gs i best) := by
  induction gs with
  | nil => intro i best _ h; exact h
  | cons g gs ih =>
    intro i best hd h
    rw [longestRun]
    refine ih _ _ ?_ ?_
    · have := congrArg List.tail hd
      simpa [List.tail_drop] using this
    · split
      · rename_i hl
        obtain ⟨h1, h2⟩ := zeroRun_take (g :: gs) _ (Nat.le_refl _)
        refine .inr ⟨hl.1, ?_, by rw [← hd]; exact h1⟩
        rw [hd, List.length_drop] at h2
        have := hl.1
        rw [hd] at this ⊢
        omega
      · exact h

theorem groups_bytes2 : ∀ (ip : Bytes) (k : Nat), ip.length = 2 * k → bytes2 (groups ip) = ip ∧ (groups ip).length = k ∧ ∀ g ∈ groups ip, g < 65536
  | [], k, h => by
    have : k = 0 := by simp at h; omega
    subst this; simp [groups, bytes2]
  | [a], k, h => by simp at h; omega
  | a :: b :: r, 0, h => by simp at h
  | a :: b :: r, k + 1, h => by
    obtain ⟨h1, h2, h3⟩ := groups_bytes2 r k (by simp at h; omega)
    have ha := a.toNat_lt
    have hb := b.toNat_lt
    refine ⟨?_, by simp [groups, h2], ?_⟩
    · rw [groups, bytes2, h1]
      rw [show (a.toNat * 256 + b.toNat) / 256 = a.toNat by omega, show (a.toNat * 256 + b.toNat) % 256 = b.toNat by omega]
      simp
    · intro g hg
      simp only [groups, List.mem_cons] at hg
      rcases hg with rfl | hg
      · simp at *; omega
      · exact h3 g hg

theorem bytes2_zero (n : Nat) : bytes2 (List.replicate n 0) = List.replicate (2 * n) 0 := by
  induction n with
  | zero => rfl
  | succ n ih => rw [List.replicate_succ, bytes2, ih, show 2 * (n + 1) = 2 * n + 1 + 1 by omega, List.replicate_succ, List.replicate_succ]; rfl

theorem joinHex_mem {gs : List Nat} (hg : ∀ g ∈ gs, g < 65536) : 37 ∉ joinHex gs := by
  induction gs with
  | nil => simp [joinHex]
  | cons g gs ih =>
    have h1 : 37 ∉ hexText g := fun h => (hexText_mem (hg g (by simp)) _ h).2.2 rfl
    have h2 := ih fun x hx => hg x (by simp [hx])
    cases gs with
    | nil => exact h1
    | cons g' gs => rw [joinHex]; simp [h1, h2]; simp

theorem parseIPv6_colon {s : Bytes} (h37 : 37 ∉ s) (h : ∀ r, s ≠ 58 :: 58 :: r) : parseIPv6 s = (parse6Loop 8 s [] none).bind expand := by
  unfold parseIPv6
  rw [if_neg h37]
  split
  · rename_i r
    exact absurd rfl (h r)
  · rfl

theorem parseIPv6_string {ip : Bytes} (h : ip.length = 16) : parseIPv6 (ipv6String ip) = some ip := by
  obtain ⟨h1, h2, h3⟩ := groups_bytes2 ip 8 (by omega)
  unfold ipv6String
  have hr := longestRun_run (groups ip) (groups ip) 0 (255, 0) (by simp) (.inl rfl)
  simp only
  generalize longestRun (groups ip) 0 (255, 0) = p at hr ⊢
  obtain ⟨i, l⟩ := p
  generalize groups ip = gs at *
  simp only
  split
  · match gs, h2 with
    | g :: gs, h2 =>
      obtain ⟨c, r, hc, hc1, _⟩ := joinHex_cons (h3 g (by simp)) gs
      rw [parseIPv6_colon (joinHex_mem h3) (by intro r' e; rw [hc] at e; cases e; exact hc1 rfl), parse6_join _ 8 _ _ (by simp) h3 (by omega),
        Option.bind_some, List.nil_append, h1]
      unfold expand
      simp [h]
  · rename_i hl
    rcases hr with hr | ⟨hr1, hr2, hr3⟩
    · exact absurd hr hl
    simp only at hr1 hr2 hr3
    have hsplit : gs = gs.take i ++ List.replicate l 0 ++ gs.drop (i + l) := by
      rw [← hr3, List.append_assoc, ← List.drop_drop, List.take_append_drop, List.take_append_drop]
    have ht : ∀ g ∈ gs.take i, g < 65536 := fun g hg => h3 g (List.mem_of_mem_take hg)
    have hd : ∀ g ∈ gs.drop (i + l), g < 65536 := fun g hg => h3 g (List.mem_of_mem_drop hg)
    have hlt : (gs.take i).length = i := by rw [List.length_take]; omega
    have hld : (gs.drop (i + l)).length = 8 - (i + l) := by rw [List.length_drop, h2]
    have h37 : 37 ∉ joinHex (gs.take i) ++ 58 :: 58 :: joinHex (gs.drop (i + l)) := by
      simp [joinHex_mem ht, joinHex_mem hd]
    -- the end
    have hfin : expand (bytes2 (gs.take i) ++ bytes2 (gs.drop (i + l)), some (bytes2 (gs.take i)).length, []) = some ip := by
      unfold expand
      have hlen : (bytes2 (gs.take i) ++ bytes2 (gs.drop (i + l))).length = 2 * (8 - l) := by
        rw [List.length_append, bytes2_length, bytes2_length, hlt, hld]; omega
      simp only [hlen]
      rw [if_neg (by simp), if_pos (by omega), List.take_left, List.drop_left, show 16 - 2 * (8 - l) = 2 * l by omega, ← bytes2_zero,
        ← bytes2_append, ← bytes2_append, ← hsplit, h1]
    cases hti : gs.take i with
    | nil =>
      rw [hti] at h37 hfin
      simp only [joinHex, List.nil_append] at h37 ⊢
      unfold parseIPv6
      rw [if_neg h37]
      simp only
      cases hdi : gs.drop (i + l) with
      | nil =>
        rw [hti, hdi] at hsplit
        simp only [joinHex, if_true]
        rw [← h1, hsplit]
        have : l = 8 := by
          have := congrArg List.length hsplit
          simp at this; omega
        subst this
        rfl
      | cons g ds =>
        obtain ⟨c, r, hc, _⟩ := joinHex_cons (hd g (by rw [hdi]; simp)) ds
        rw [if_neg (by rw [hc]; simp), parse6_join _ 8 _ _ (by simp) (by rw [← hdi]; exact hd) (by rw [← hdi, hld]; omega)]
        rw [hdi] at hfin
        exact hfin
    | cons g ts =>
      obtain ⟨c, r, hc, hc1, _⟩ := joinHex_cons (ht g (by rw [hti]; simp)) ts
      rw [hti] at h37 hfin
      rw [parseIPv6_colon h37 (by intro r' e; rw [hc] at e; exact hc1 (List.cons.inj e).1),
        parse6_gap _ _ hd 8 [] (by simp) (by rw [← hti]; exact ht) (by rw [← hti, hlt, hld]; omega)]
      simpa using hfin

theorem firstSep_hex {s : Bytes} (h : ∀ c ∈ s, c ≠ 58 ∧ c ≠ 46 ∧ c ≠ 37) (r : Bytes) : firstSep (s ++ 58 :: r) = some 58 := by
  induction s with
  | nil => simp [firstSep]
  | cons c cs ih =>
    have := h c (by simp)
    rw [List.cons_append, firstSep, if_neg (by simp [this]), ih fun x hx => h x (by simp [hx])]

theorem firstSep_string {ip : Bytes} (h : ip.length = 16) : firstSep (ipv6String ip) = some 58 := by
  obtain ⟨h1, h2, h3⟩ := groups_bytes2 ip 8 (by omega)
  have key : ∀ (gs : List Nat) (r : Bytes), (∀ g ∈ gs, g < 65536) → firstSep (joinHex gs ++ 58 :: r) = some 58 := by
    intro gs r hg
    match gs, hg with
    | [], _ => simp [joinHex, firstSep]
    | [g], hg => exact firstSep_hex (hexText_mem (hg g (by simp))) r
    | g :: g' :: gs, hg =>
      rw [joinHex, List.append_assoc, List.cons_append]
      · exact firstSep_hex (hexText_mem (hg g (by simp))) _
      · simp
  unfold ipv6String
  simp only
  split
  · match hgs : groups ip, h2 with
    | g :: g' :: gs, _ =>
      rw [joinHex]
      · exact firstSep_hex (hexText_mem (h3 g (by rw [hgs]; simp))) _
      · simp
  · exact key _ _ fun g hg => h3 g (List.mem_of_mem_take hg)

/-- `net.ParseIP` undoes `IP.String`. -/
theorem parseIP_string {ip : Bytes} (h : ip.length = 16) : parseIP (ipString ip) = some ip := by
  unfold ipString
  have v6 : parseIP (ipv6String ip) = some ip := by
    unfold parseIP
    rw [firstSep_string h]
    simp only
    rw [if_neg (by decide), if_pos trivial, parseIPv6_string h]
  split
  · rename_i a b c d h4
    unfold to4 at h4
    split at h4
    · rename_i ht
      simp only [Option.some.injEq] at h4
      rw [ipv4String_eq, parseIP_dotted, ← ht, ← h4, List.take_append_drop]
    · cases h4
  · exact v6

theorem parse6_length : ∀ (n : Nat) (s ip : Bytes) (ell : Option Nat) (ip' : Bytes) (ell' : Option Nat) (r : Bytes), ip.length + 2 * n = 16 → (∀ e, ell = some e → e ≤ ip.length) →
    parse6Loop n s ip ell = some (ip', ell', r) → ip'.length ≤ 16 ∧ ∀ e, ell' = some e → e ≤ ip'.length := by
  intro n
  induction n with
  | zero =>
    intro s ip ell ip' ell' r h1 h2 h
    cases h
    exact ⟨by omega, h2⟩
  | succ n ih =>
    intro s ip ell ip' ell' r h1 h2 h
    rw [parse6Loop] at h
    split at h
    · cases h
    · rename_i acc off rest _
      split at h
      · cases h
      split at h
      · cases h
        refine ⟨by simp; omega, fun e he => ?_⟩
        have := h2 e he
        simp; omega
      · rename_i c rest'
        split at h
        · split at h
          · cases h
          split at h
          · cases h
          split at h
          · cases h
          · rename_i v4 hv
            obtain ⟨a, b, c, d, _, rfl⟩ := (parseIPv4_some _ _).mp hv
            cases h
            refine ⟨by simp; omega, fun e he => ?_⟩
            have := h2 e he
            simp; omega
        split at h
        · cases h
        split at h
        · cases h
        split at h
        · split at h
          · cases h
          split at h
          · cases h
            refine ⟨by simp; omega, fun e he => ?_⟩
            cases he
            exact Nat.le_refl _
          · exact ih _ _ _ _ _ _ (by simp; omega) (by intro e he; cases he; exact Nat.le_refl _) h
        · refine ih _ _ _ _ _ _ (by simp; omega) ?_ h
          intro e he
          have := h2 e he
          simp; omega

theorem expand_length {ip : Bytes} {ell : Option Nat} {r : Bytes} {l : Bytes} (h1 : ip.length ≤ 16) (h2 : ∀ e, ell = some e → e ≤ ip.length)
    (h : expand (ip, ell, r) = some l) : l.length = 16 := by
  unfold expand at h
  simp only at h
  split at h
  · cases h
  split at h
  · split at h
    · cases h
    · rename_i e
      have := h2 e rfl
      cases h
      simp; omega
  · split at h
    · cases h
    · cases h; omega

theorem parseIPv6_length {s ip : Bytes} (h : parseIPv6 s = some ip) : ip.length = 16 := by
  unfold parseIPv6 at h
  split at h
  · cases h
  split at h
  · split at h
    · cases h; rfl
    · rw [Option.bind_eq_some_iff] at h
      obtain ⟨⟨i, e, r⟩, h1, h2⟩ := h
      obtain ⟨h3, h4⟩ := parse6_length 8 _ _ _ _ _ _ rfl (by intro e he; cases he; simp) h1
      exact expand_length h3 h4 h2
  · rw [Option.bind_eq_some_iff] at h
    obtain ⟨⟨i, e, r⟩, h1, h2⟩ := h
    obtain ⟨h3, h4⟩ := parse6_length 8 _ _ _ _ _ _ rfl (by intro e he; cases he) h1
    exact expand_length h3 h4 h2

theorem parseIP_length {s ip : Bytes} (h : parseIP s = some ip) : ip.length = 16 := by
  unfold parseIP at h
  split at h
  · split at h
    · rw [Option.map_eq_some_iff] at h
      obtain ⟨v, h1, rfl⟩ := h
      obtain ⟨a, b, c, d, _, rfl⟩ := (parseIPv4_some _ _).mp h1
      rfl
    · split at h
      · exact parseIPv6_length h
      · cases h
  · cases h

/-- The canonical text of an address is canonical, and denotes the same address. -/
theorem canonText_canon {s t : Bytes} (h : canonText s = some t) : parseIP t = parseIP s ∧ canonText t = some t := by
  unfold canonText at h
  rw [Option.map_eq_some_iff] at h
  obtain ⟨ip, h1, rfl⟩ := h
  have := parseIP_string (parseIP_length h1)
  exact ⟨by rw [this, h1], by rw [canonText, this]; rfl⟩

/-- Canonical texts are equal if and only if the addresses are. -/
theorem canonText_eq {s t s' t' : Bytes} (h : canonText s = some s') (h' : canonText t = some t') : s' = t' ↔ parseIP s = parseIP t := by
  constructor
  · intro e
    rw [← (canonText_canon h).1, ← (canonText_canon h').1, e]
  · intro e
    unfold canonText at h h'
    rw [e, h'] at h
    exact (Option.some.inj h).symm

end Drip.Net
