import Verif.Model.Url
import Verif.Spec.Query
/-
Escaping and parsing of URL queries.
-/

namespace Drip.Url
open Spec

theorem unhex_of {c : UInt8} {n : Nat} (h : HexDigit c n) : unhex c = some n := by
  unfold unhex
  simp only [UInt8.le_iff_toNat_le, Bool.and_eq_true, decide_eq_true_eq]
  simp only [show (48 : UInt8).toNat = 48 from rfl, show (57 : UInt8).toNat = 57 from rfl, show (97 : UInt8).toNat = 97 from rfl,
    show (102 : UInt8).toNat = 102 from rfl, show (65 : UInt8).toNat = 65 from rfl, show (70 : UInt8).toNat = 70 from rfl]
  rcases h with ⟨h1, h2, h3⟩ | ⟨h1, h2, h3⟩ | ⟨h1, h2, h3⟩
  · rw [if_pos ⟨h1, h2⟩]; simp; omega
  · rw [if_neg (by omega), if_pos ⟨h1, h2⟩]; simp; omega
  · rw [if_neg (by omega), if_neg (by omega), if_pos ⟨h1, h2⟩]; simp; omega

theorem hexDigit_ne {c : UInt8} {n : Nat} (h : HexDigit c n) : c ≠ 38 ∧ c ≠ 59 ∧ c ≠ 61 ∧ c ≠ 35 ∧ 32 ≤ c.toNat ∧ c.toNat ≠ 127 := by
  refine ⟨?_, ?_, ?_, ?_, ?_, ?_⟩
  · rintro rfl; revert h; simp [HexDigit]
  · rintro rfl; revert h; simp [HexDigit]
  · rintro rfl; revert h; simp [HexDigit]
  · rintro rfl; revert h; simp [HexDigit]
  · unfold HexDigit at h; omega
  · unfold HexDigit at h; omega

theorem unescape_of {eq : Bool} {s t : Bytes} (h : QEnc eq s t) : queryUnescape t = some s := by
  induction h with
  | nil => rfl
  | lit h1 h2 h3 h4 h5 _ ih =>
    unfold queryUnescape
    rw [if_neg h1, if_neg h2, ih]; rfl
  | plus _ ih =>
    unfold queryUnescape
    rw [if_neg (by decide), if_pos rfl, ih]; rfl
  | @pct b h l s t h1 h2 _ ih =>
    unfold queryUnescape
    rw [if_pos rfl]
    simp only [unhex_of h1, unhex_of h2, ih, Option.map_some, Option.some.injEq, List.cons.injEq, and_true]
    rw [Nat.div_add_mod' b.toNat 16]; simp

theorem qenc_mem {eq : Bool} {s t : Bytes} (h : QEnc eq s t) : ∀ c ∈ t, c ≠ 38 ∧ c ≠ 59 ∧ (eq = false → c ≠ 61) := by
  induction h with
  | nil => simp
  | lit h1 h2 h3 h4 h5 _ ih =>
    intro c hc
    rcases List.mem_cons.mp hc with rfl | hc
    · exact ⟨h3, h4, fun h e => by rw [h5 e] at h; cases h⟩
    · exact ih c hc
  | plus _ ih =>
    intro c hc
    rcases List.mem_cons.mp hc with rfl | hc
    · exact ⟨by decide, by decide, fun _ => by decide⟩
    · exact ih c hc
  | pct h1 h2 _ ih =>
    intro c hc
    simp only [List.mem_cons] at hc
    rcases hc with rfl | rfl | rfl | hc
    · exact ⟨by decide, by decide, fun _ => by decide⟩
    · have := hexDigit_ne h1; exact ⟨this.1, this.2.1, fun _ => this.2.2.1⟩
    · have := hexDigit_ne h2; exact ⟨this.1, this.2.1, fun _ => this.2.2.1⟩
    · exact ih c hc

theorem cut_found {sep : UInt8} : ∀ {a : Bytes} (b : Bytes), sep ∉ a → cut sep (a ++ sep :: b) = (a, b)
  | [], b, _ => by simp [cut]
  | c :: a, b, h => by
    simp only [List.mem_cons, not_or] at h
    rw [List.cons_append, cut, if_neg (fun e => h.1 e.symm), cut_found b h.2]

theorem cut_none {sep : UInt8} : ∀ {a : Bytes}, sep ∉ a → cut sep a = (a, [])
  | [], _ => rfl
  | c :: a, h => by
    simp only [List.mem_cons, not_or] at h
    rw [cut, if_neg (fun e => h.1 e.symm), cut_none h.2]

theorem qpair_facts {p : Bytes × Bytes} {t : Bytes} (h : QPair p t) : 38 ∉ t ∧ 59 ∉ t ∧ t ≠ [] ∧
    queryUnescape (cut 61 t).1 = some p.1 ∧ queryUnescape (cut 61 t).2 = some p.2 := by
  cases h with
  | full hk hv =>
    have h1 := qenc_mem hk
    have h2 := qenc_mem hv
    refine ⟨?_, ?_, by simp, ?_⟩
    · intro hm
      simp only [List.mem_append, List.mem_cons] at hm
      rcases hm with hm | hm | hm
      · exact (h1 _ hm).1 rfl
      · exact absurd hm (by decide)
      · exact (h2 _ hm).1 rfl
    · intro hm
      simp only [List.mem_append, List.mem_cons] at hm
      rcases hm with hm | hm | hm
      · exact (h1 _ hm).2.1 rfl
      · exact absurd hm (by decide)
      · exact (h2 _ hm).2.1 rfl
    · rw [cut_found _ (fun hm => (h1 _ hm).2.2 rfl rfl)]
      exact ⟨unescape_of hk, unescape_of hv⟩
  | bare hk hne =>
    have h1 := qenc_mem hk
    refine ⟨fun hm => (h1 _ hm).1 rfl, fun hm => (h1 _ hm).2.1 rfl, hne, ?_⟩
    rw [cut_none (fun hm => (h1 _ hm).2.2 rfl rfl)]
    exact ⟨unescape_of hk, rfl⟩

theorem parsePairs_eq (n : Nat) (c : UInt8) (cs : Bytes) : parsePairs (n + 1) (c :: cs) =
    (if 59 ∈ (cut 38 (c :: cs)).1 then ((parsePairs n (cut 38 (c :: cs)).2).1, true)
    else if (cut 38 (c :: cs)).1 = [] then parsePairs n (cut 38 (c :: cs)).2
    else match queryUnescape (cut 61 (cut 38 (c :: cs)).1).1, queryUnescape (cut 61 (cut 38 (c :: cs)).1).2 with
      | some k, some v => ((k, v) :: (parsePairs n (cut 38 (c :: cs)).2).1, (parsePairs n (cut 38 (c :: cs)).2).2)
      | _, _ => ((parsePairs n (cut 38 (c :: cs)).2).1, true)) := by
  conv => lhs; unfold parsePairs
  rfl

theorem parsePairs_nil (n : Nat) : parsePairs n [] = ([], false) := by cases n <;> rfl

theorem parsePairs_of {ps : List (Bytes × Bytes)} {q : Bytes} (h : QPairs ps q) : ∀ n, q.length ≤ n → parsePairs n q = (ps, false) := by
  induction h with
  | nil => intro n _; exact parsePairs_nil n
  | @last p t h =>
    intro n hn
    obtain ⟨h1, h2, h3, h4, h5⟩ := qpair_facts h
    cases t with
    | nil => exact absurd rfl h3
    | cons c cs =>
      cases n with
      | zero => simp at hn
      | succ n =>
        rw [parsePairs_eq, cut_none h1]
        simp only [h2, if_false, h4, h5, parsePairs_nil]
        rw [if_neg h3]
  | @cons p t ps q h _ ih =>
    intro n hn
    obtain ⟨h1, h2, h3, h4, h5⟩ := qpair_facts h
    cases ht : t ++ 38 :: q with
    | nil => simp at ht
    | cons c cs =>
      cases n with
      | zero => simp at hn
      | succ n =>
        rw [parsePairs_eq, ← ht, cut_found q h1]
        have := ih n (by simp only [List.length_append, List.length_cons] at hn; omega)
        simp only [h2, if_false, h4, h5, this]
        rw [if_neg h3]
  | @skip ps q _ ih =>
    intro n hn
    cases n with
    | zero => simp at hn
    | succ n =>
      rw [parsePairs_eq]
      have : cut 38 (38 :: q) = ([], q) := cut_found (a := []) q (by simp)
      rw [this]
      simp only [List.not_mem_nil, if_false, if_true]
      exact ih n (by simpa using hn)

theorem parseQuery_of {ps : List (Bytes × Bytes)} {q : Bytes} (h : QPairs ps q) : parseQuery q = (ps, false) :=
  parsePairs_of h _ (Nat.le_refl _)

/-! ### What is accepted -/

theorem of_unhex {c : UInt8} {n : Nat} (h : unhex c = some n) : HexDigit c n := by
  unfold unhex at h
  simp only [UInt8.le_iff_toNat_le, Bool.and_eq_true, decide_eq_true_eq] at h
  simp only [show (48 : UInt8).toNat = 48 from rfl, show (57 : UInt8).toNat = 57 from rfl, show (97 : UInt8).toNat = 97 from rfl,
    show (102 : UInt8).toNat = 102 from rfl, show (65 : UInt8).toNat = 65 from rfl, show (70 : UInt8).toNat = 70 from rfl] at h
  unfold HexDigit
  split at h
  · simp only [Option.some.injEq] at h; omega
  split at h
  · simp only [Option.some.injEq] at h; omega
  split at h
  · simp only [Option.some.injEq] at h; omega
  · cases h

theorem of_unescape {eq : Bool} : ∀ (n : Nat) (t s : Bytes), t.length ≤ n → queryUnescape t = some s → 38 ∉ t → 59 ∉ t → (eq = false → 61 ∉ t) → QEnc eq s t := by
  intro n
  induction n with
  | zero =>
    intro t s hn h _ _ _
    have : t = [] := by simpa using hn
    subst this
    simp only [queryUnescape, Option.some.injEq] at h
    subst h
    exact .nil
  | succ n ih =>
    intro t s hn h h1 h2 h3
    match t, hn, h, h1, h2, h3 with
    | [], _, h, _, _, _ =>
      simp only [queryUnescape, Option.some.injEq] at h
      subst h
      exact .nil
    | c :: t, hn, h, h1, h2, h3 =>
      simp only [List.length_cons] at hn
      have h1' : 38 ∉ t := fun x => h1 (by simp [x])
      have h2' : 59 ∉ t := fun x => h2 (by simp [x])
      have h3' : eq = false → 61 ∉ t := fun e x => h3 e (by simp [x])
      unfold queryUnescape at h
      split at h
      · rename_i hc
        subst hc
        match t, hn, h, h1', h2', h3' with
        | [], _, h, _, _, _ => cases h
        | [_], _, h, _, _, _ => cases h
        | a :: b :: t, hn, h, h1', h2', h3' =>
          simp only at h
          cases ha : unhex a with
          | none => simp [ha] at h
          | some x =>
            cases hb : unhex b with
            | none => simp [ha, hb] at h
            | some y =>
              simp only [ha, hb] at h
              cases hu : queryUnescape t with
              | none => rw [hu] at h; cases h
              | some s' =>
                rw [hu] at h
                simp only [Option.map_some, Option.some.injEq] at h
                subst h
                have e1 := of_unhex ha
                have e2 := of_unhex hb
                have hx : x < 16 := by unfold HexDigit at e1; omega
                have hy : y < 16 := by unfold HexDigit at e2; omega
                have ht : (UInt8.ofNat (x * 16 + y)).toNat = x * 16 + y := by simp; omega
                refine .pct ?_ ?_ (ih t s' (by simp at hn; omega) hu (fun z => h1' (by simp [z])) (fun z => h2' (by simp [z])) fun e z => h3' e (by simp [z]))
                · rw [ht, show (x * 16 + y) / 16 = x by omega]; exact e1
                · rw [ht, show (x * 16 + y) % 16 = y by omega]; exact e2
      · rename_i hc
        split at h
        · rename_i hp
          subst hp
          cases hu : queryUnescape t with
          | none => rw [hu] at h; cases h
          | some s' =>
            rw [hu] at h
            simp only [Option.map_some, Option.some.injEq] at h
            subst h
            exact .plus (ih t s' (by omega) hu h1' h2' h3')
        · rename_i hp
          cases hu : queryUnescape t with
          | none => rw [hu] at h; cases h
          | some s' =>
            rw [hu] at h
            simp only [Option.map_some, Option.some.injEq] at h
            subst h
            refine .lit hc hp (fun e => h1 (by simp [e])) (fun e => h2 (by simp [e])) (fun e => ?_) (ih t s' (by omega) hu h1' h2' h3')
            cases eq with
            | true => rfl
            | false => exact absurd (by simp [e]) (h3 rfl)

theorem cut_cases (sep : UInt8) (s : Bytes) : (s = (cut sep s).1 ++ sep :: (cut sep s).2 ∧ sep ∉ (cut sep s).1) ∨ (sep ∉ s ∧ cut sep s = (s, [])) := by
  induction s with
  | nil => exact .inr ⟨by simp, rfl⟩
  | cons c s ih =>
    unfold cut
    by_cases hc : c = sep
    · subst hc
      rw [if_pos rfl]
      exact .inl ⟨rfl, by simp⟩
    · rw [if_neg hc]
      rcases ih with ⟨h1, h2⟩ | ⟨h1, h2⟩
      · refine .inl ⟨?_, ?_⟩
        · simp only [List.cons_append, List.cons.injEq, true_and]; exact h1
        · simp only [List.mem_cons, not_or]; exact ⟨fun e => hc e.symm, h2⟩
      · refine .inr ⟨?_, by rw [h2]⟩
        simp only [List.mem_cons, not_or]; exact ⟨fun e => hc e.symm, h1⟩

theorem of_parsePairs : ∀ (n : Nat) (q : Bytes) (ps : List (Bytes × Bytes)), q.length ≤ n → parsePairs n q = (ps, false) → QPairs ps q := by
  intro n
  induction n with
  | zero =>
    intro q ps hn h
    have : q = [] := by simpa using hn
    subst this
    cases h
    exact .nil
  | succ n ih =>
    intro q ps hn h
    cases q with
    | nil => cases h; exact .nil
    | cons c cs =>
      rw [parsePairs_eq] at h
      generalize hq : c :: cs = q at *
      have hl : (cut 38 q).2.length ≤ n := by
        rcases cut_cases 38 q with ⟨h1, h2⟩ | ⟨h1, h2⟩
        · have := congrArg List.length h1
          simp only [List.length_append, List.length_cons] at this
          omega
        · rw [h2]; simp
      split at h
      · cases h
      rename_i h59
      split at h
      · rename_i h0
        have hp := ih _ _ hl h
        rcases cut_cases 38 q with ⟨h1, h2⟩ | ⟨h1, h2⟩
        · rw [h1, h0]
          exact .skip hp
        · rw [h2] at h0; simp only at h0; subst h0; cases hq
      · rename_i h0
        split at h
        · rename_i k v hk hv
          simp only [Prod.mk.injEq] at h
          obtain ⟨rfl, h4⟩ := h
          have hp := ih _ _ hl (Prod.ext rfl h4)
          have h38 : 38 ∉ (cut 38 q).1 := by
            rcases cut_cases 38 q with ⟨h1, h2⟩ | ⟨h1, h2⟩
            · exact h2
            · rw [h2]; exact h1
          have hpair : QPair (k, v) (cut 38 q).1 := by
            generalize (cut 38 q).1 = kv at *
            rcases cut_cases 61 kv with ⟨h1, h2⟩ | ⟨h1, h2⟩
            · generalize cut 61 kv = c at *
              obtain ⟨k', v'⟩ := c
              subst h1
              refine .full ?_ ?_
              · exact of_unescape _ k' k (Nat.le_refl _) hk (fun x => h38 (by simp [x])) (fun x => h59 (by simp [x])) fun _ => h2
              · exact of_unescape _ v' v (Nat.le_refl _) hv (fun x => h38 (by simp [x])) (fun x => h59 (by simp [x])) (by simp)
            · rw [h2] at hk hv
              simp only [queryUnescape, Option.some.injEq] at hv
              subst hv
              exact .bare (of_unescape _ kv k (Nat.le_refl _) hk h38 h59 fun _ => h1) h0
          rcases cut_cases 38 q with ⟨h1, h2⟩ | ⟨h1, h2⟩
          · have := QPairs.cons hpair hp
            rwa [← h1] at this
          · rw [h2] at hpair hp ⊢
            have e : (parsePairs n []).1 = [] := by cases n <;> simp [parsePairs]
            rw [e]
            exact .last hpair
        · cases h

theorem parseQuery_iff (q : Bytes) (ps : List (Bytes × Bytes)) : parseQuery q = (ps, false) ↔ QPairs ps q :=
  ⟨of_parsePairs _ _ _ (Nat.le_refl _), parseQuery_of⟩

/-! ### Encoding -/

theorem hexUpper_digit {n : Nat} (h : n < 16) : HexDigit (hexUpper n) n := by
  unfold hexUpper HexDigit
  split
  · have : (UInt8.ofNat (48 + n)).toNat = 48 + n := by simp; omega
    rw [this]; omega
  · have : (UInt8.ofNat (55 + n)).toNat = 55 + n := by simp; omega
    rw [this]; omega

theorem qenc_escape (eq : Bool) (s : Bytes) : QEnc eq s (queryEscape s) := by
  induction s with
  | nil => exact .nil
  | cons b s ih =>
    unfold queryEscape
    by_cases h1 : unreserved b = true
    · rw [if_pos h1]
      have key : ∀ c : UInt8, unreserved c = false → b ≠ c := by
        rintro c hc rfl; rw [h1] at hc; cases hc
      exact .lit (key _ (by decide)) (key _ (by decide)) (key _ (by decide)) (key _ (by decide)) (fun e => absurd e (key _ (by decide))) ih
    · rw [if_neg h1]
      by_cases h2 : b = 32
      · rw [if_pos h2, h2]; exact .plus ih
      · rw [if_neg h2]
        have := UInt8.toNat_lt b
        exact .pct (hexUpper_digit (by omega)) (hexUpper_digit (by omega)) ih

theorem qpairs_encode : ∀ ps : List (Bytes × Bytes), QPairs ps (encodePairs ps)
  | [] => .nil
  | [(k, v)] => .last (.full (qenc_escape _ k) (qenc_escape _ v))
  | (k, v) :: p :: ps => .cons (.full (qenc_escape _ k) (qenc_escape _ v)) (qpairs_encode (p :: ps))

theorem parse_encodePairs (ps : List (Bytes × Bytes)) : parseQuery (encodePairs ps) = (ps, false) := parseQuery_of (qpairs_encode ps)

/-! ### Lookup -/

theorem get_of_mem {ps : List (Bytes × Bytes)} (hn : (ps.map (·.1)).Nodup) {k v : Bytes} (h : (k, v) ∈ ps) : get ps k = v := by
  induction ps with
  | nil => simp at h
  | cons p ps ih =>
    obtain ⟨k', v'⟩ := p
    simp only [List.map_cons, List.nodup_cons] at hn
    unfold get
    rcases List.mem_cons.mp h with e | h
    · cases e; rw [if_pos rfl]
    · rw [if_neg, ih hn.2 h]
      rintro rfl
      exact hn.1 (List.mem_map.mpr ⟨_, h, rfl⟩)

theorem get_of_not_mem {ps : List (Bytes × Bytes)} {k : Bytes} (h : k ∉ ps.map (·.1)) : get ps k = [] := by
  induction ps with
  | nil => rfl
  | cons p ps ih =>
    obtain ⟨k', v'⟩ := p
    simp only [List.map_cons, List.mem_cons, not_or] at h
    unfold get
    rw [if_neg (fun e => h.1 e.symm), ih h.2]

end Drip.Url
