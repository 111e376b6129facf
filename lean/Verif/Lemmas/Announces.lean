import Verif.Spec.Announces
import Verif.Lemmas.Url
import Verif.Lemmas.Address
import Verif.Lemmas.Bencode.Num
import Verif.Model.Pex
/-
What `Decode` accepts.
-/

namespace Drip.Tracker
open Spec

theorem firstValue_iff (ps : List (Bytes × Bytes)) (k v : Bytes) : FirstValue ps k v ↔ v = Url.get ps k := by
  induction ps with
  | nil => simp [FirstValue, Url.get]
  | cons p ps ih =>
    obtain ⟨k', v'⟩ := p
    unfold Url.get
    by_cases hk : k' = k
    · subst hk
      rw [if_pos rfl]
      constructor
      · rintro (⟨l, r, h1, h2⟩ | ⟨_, h2⟩)
        · cases l with
          | nil => simp only [List.nil_append, List.cons.injEq, Prod.mk.injEq, true_and] at h1; exact h1.1.symm
          | cons x l =>
            simp only [List.cons_append, List.cons.injEq] at h1
            exact absurd (by rw [← h1.1]) (h2 x (by simp))
        · exact absurd rfl (h2 (k', v') (by simp))
      · rintro rfl
        exact .inl ⟨[], ps, rfl, by simp⟩
    · rw [if_neg hk, ← ih]
      constructor
      · rintro (⟨l, r, h1, h2⟩ | ⟨h1, h2⟩)
        · cases l with
          | nil => simp only [List.nil_append, List.cons.injEq, Prod.mk.injEq] at h1; exact absurd h1.1.1 hk
          | cons x l =>
            simp only [List.cons_append, List.cons.injEq] at h1
            exact .inl ⟨l, r, h1.2, fun p hp => h2 p (by simp [hp])⟩
        · exact .inr ⟨h1, fun p hp => h2 p (by simp [hp])⟩
      · rintro (⟨l, r, h1, h2⟩ | ⟨h1, h2⟩)
        · refine .inl ⟨(k', v') :: l, r, by rw [h1]; rfl, fun p hp => ?_⟩
          rcases List.mem_cons.mp hp with rfl | hp
          · exact hk
          · exact h2 p hp
        · refine .inr ⟨h1, fun p hp => ?_⟩
          rcases List.mem_cons.mp hp with rfl | hp
          · exact hk
          · exact h2 p hp

theorem twenty_copy (v : Bytes) : (if v = [] then List.replicate 20 0 else copy20 (List.replicate 20 0) v) = twenty v := by
  split
  · rename_i h; subst h; rfl
  · unfold copy20 twenty
    rw [List.take_append, List.drop_replicate, List.take_replicate]
    congr 2
    omega

theorem numberOf_iff (v : Bytes) (n : Int) : NumberOf v n ↔ (if v = [] then some 0 else parseInt v) = some n := by
  unfold NumberOf
  split
  · rename_i h
    simp only [h, ne_eq, not_true, false_and, or_false, true_and, Option.some.injEq]
    exact eq_comm
  · rename_i h
    rw [parseInt_some]
    simp [h]

/-- One integer parameter. -/
theorem intParam_iff (ps : List (Bytes × Bytes)) (k : Bytes) (f : Int → Request → Request) (g : Request → Int) (h0 : ∀ r, f (g r) r = r) (r r' : Request) (hg : g r = 0) :
    param ps k (intParam f) r = .ok r' ↔ ∃ n, NumberOf (Url.get ps k) n ∧ r' = f n r := by
  unfold param
  simp only [numberOf_iff]
  split
  · rename_i h
    constructor
    · intro e; cases e; exact ⟨0, rfl, by have := h0 r; rw [hg] at this; exact this.symm⟩
    · rintro ⟨n, h1, rfl⟩; cases h1; have := h0 r; rw [hg] at this; rw [this]
  · unfold intParam
    constructor
    · intro e
      split at e
      · rename_i i hi; cases e; exact ⟨i, hi, rfl⟩
      · cases e
    · rintro ⟨n, h1, rfl⟩; rw [h1]

theorem strParam_zero (ps : List (Bytes × Bytes)) (k : Bytes) (f : Bytes → Request → Request) (r x : Request) (h0 : Url.get ps k = [] → r = x)
    (h1 : Url.get ps k ≠ [] → f (Url.get ps k) r = x) : param ps k (fun v r => .ok (f v r)) r = .ok x := by
  unfold param
  split
  · rename_i h; rw [h0 h]
  · rename_i h; show Res.ok (f _ r) = _; rw [h1 h]

theorem bind_ok_iff {α β : Type} (x : Res α) (f : α → Res β) (b : β) : (x >>= f) = .ok b ↔ ∃ a, x = .ok a ∧ f a = .ok b := by
  cases x with
  | ok a => simp [Res.bind_ok]
  | err e => constructor <;> intro h
             · cases h
             · obtain ⟨_, h, _⟩ := h; cases h
  | panic => constructor <;> intro h
             · cases h
             · obtain ⟨_, h, _⟩ := h; cases h

/-- The requests that are understood, exactly. -/
theorem decode_iff (q : Bytes) (r : Request) : Request.zero.decode q = .ok r ↔ IsRequest q r := by
  unfold Request.decode IsRequest
  simp only [firstValue_iff]
  cases hq : Url.parseQuery q with
  | mk ps b =>
    cases b with
    | true =>
      simp only [if_true]
      constructor
      · intro h; cases h
      · rintro ⟨ps', v, h, _⟩
        rw [← Url.parseQuery_iff, hq] at h
        cases h
    | false =>
      have huniq : ∀ ps', QPairs ps' q ↔ ps' = ps := by
        intro ps'
        rw [← Url.parseQuery_iff, hq]
        simp [eq_comm]
      simp only [Bool.false_eq_true, if_false]
      obtain ⟨i1, i2, i3, i4, i5, i6, i7, i8, i9⟩ := r
      generalize b!"info_hash" = n1
      generalize b!"peer_id" = n2
      generalize b!"ip" = n3
      generalize b!"port" = n4
      generalize b!"uploaded" = n5
      generalize b!"downloaded" = n6
      generalize b!"left" = n7
      generalize b!"event" = n8
      generalize b!"compact" = n9
      have ht := fun v => (twenty_copy v).symm
      rw [show Request.zero = ⟨List.replicate 20 0, List.replicate 20 0, [], 0, 0, 0, 0, [], false⟩ from rfl]
      rw [strParam_zero ps n1 _ _ ⟨twenty (Url.get ps n1), _, _, _, _, _, _, _, _⟩ (fun h => by rw [h]; rfl) (fun h => by rw [ht, if_neg h]), Res.bind_ok]
      rw [strParam_zero ps n2 _ _ ⟨_, twenty (Url.get ps n2), _, _, _, _, _, _, _⟩ (fun h => by rw [h]; rfl) (fun h => by rw [ht (Url.get ps n2), if_neg h]), Res.bind_ok]
      rw [strParam_zero ps n3 _ _ ⟨_, _, Url.get ps n3, _, _, _, _, _, _⟩ (fun h => by rw [h]) (fun h => rfl), Res.bind_ok]
      simp only [bind_ok_iff]
      have e4 := fun r r' (h : r.port = 0) => intParam_iff ps n4 (fun i r => { r with port := i }) (·.port) (fun _ => rfl) r r' h
      have e5 := fun r r' (h : r.uploaded = 0) => intParam_iff ps n5 (fun i r => { r with uploaded := i }) (·.uploaded) (fun _ => rfl) r r' h
      have e6 := fun r r' (h : r.downloaded = 0) => intParam_iff ps n6 (fun i r => { r with downloaded := i }) (·.downloaded) (fun _ => rfl) r r' h
      have e7 := fun r r' (h : r.left = 0) => intParam_iff ps n7 (fun i r => { r with left := i }) (·.left) (fun _ => rfl) r r' h
      have e8 : ∀ r : Request, r.event = [] → param ps n8 (fun v r => .ok { r with event := v }) r = .ok { r with event := Url.get ps n8 } := fun r h =>
        strParam_zero ps n8 _ _ _ (fun h' => by rw [h', ← h]) (fun _ => rfl)
      have e9 : ∀ r : Request, r.compact = false → param ps n9 (fun v r => .ok { r with compact := v == b!"1" }) r = .ok { r with compact := Url.get ps n9 == b!"1" } := fun r h =>
        strParam_zero ps n9 _ _ _ (fun h' => by rw [h', show (([] : Bytes) == b!"1") = false from rfl, ← h]) (fun _ => rfl)
      constructor
      · rintro ⟨r4, h4, r5, h5, r6, h6, r7, h7, r8, h8, h9⟩
        obtain ⟨p4, q4, rfl⟩ := (e4 _ _ rfl).mp h4
        obtain ⟨p5, q5, rfl⟩ := (e5 _ _ rfl).mp h5
        obtain ⟨p6, q6, rfl⟩ := (e6 _ _ rfl).mp h6
        obtain ⟨p7, q7, rfl⟩ := (e7 _ _ rfl).mp h7
        rw [e8 _ rfl] at h8
        cases h8
        rw [e9 _ rfl] at h9
        cases h9
        exact ⟨ps, Url.get ps, (huniq ps).mpr rfl, fun _ => rfl, rfl, rfl, rfl, q4, q5, q6, q7, rfl, by rw [beq_iff_eq]⟩
      · rintro ⟨ps', v, h0, hv, rfl, rfl, rfl, q4, q5, q6, q7, rfl, h9⟩
        rw [huniq] at h0
        subst h0
        simp only [hv] at q4 q5 q6 q7 h9 ⊢
        refine ⟨_, (e4 _ _ rfl).mpr ⟨_, q4, rfl⟩, _, (e5 _ _ rfl).mpr ⟨_, q5, rfl⟩, _, (e6 _ _ rfl).mpr ⟨_, q6, rfl⟩, _, (e7 _ _ rfl).mpr ⟨_, q7, rfl⟩, _, e8 _ rfl, ?_⟩
        rw [e9 _ rfl]
        have : (Url.get ps' n9 == b!"1") = i9 := by
          rw [Bool.eq_iff_iff, beq_iff_eq, h9]
        rw [this]

end Drip.Tracker

namespace Drip.Pex
open Spec

theorem findIdx_some (c : UInt8) (s : Bytes) (i : Nat) : s.findIdx? (· == c) = some i ↔ ∃ a b, s = a ++ c :: b ∧ c ∉ a ∧ a.length = i := by
  induction s generalizing i with
  | nil => simp
  | cons x s ih =>
    rw [List.findIdx?_cons]
    by_cases hx : x = c
    · subst hx
      simp only [beq_self_eq_true, if_true, Option.some.injEq]
      constructor
      · rintro rfl; exact ⟨[], s, rfl, by simp, rfl⟩
      · rintro ⟨a, b, h1, h2, rfl⟩
        cases a with
        | nil => rfl
        | cons y a =>
          simp only [List.cons_append, List.cons.injEq] at h1
          exact absurd (by simp [h1.1]) h2
    · rw [show (x == c) = false by simpa using hx]
      simp only [Bool.false_eq_true, if_false, Option.map_eq_some_iff, ih]
      constructor
      · rintro ⟨j, ⟨a, b, rfl, h2, rfl⟩, rfl⟩
        exact ⟨x :: a, b, rfl, by simp only [List.mem_cons, not_or]; exact ⟨fun e => hx e.symm, h2⟩, rfl⟩
      · rintro ⟨a, b, h1, h2, rfl⟩
        cases a with
        | nil => simp only [List.nil_append, List.cons.injEq] at h1; exact absurd h1.1 hx
        | cons y a =>
          simp only [List.cons_append, List.cons.injEq] at h1
          exact ⟨a.length, ⟨a, b, h1.2, fun e => h2 (by simp [e]), rfl⟩, rfl⟩

theorem lastIndex_some (c : UInt8) (s : Bytes) (i : Nat) : lastIndex c s = some i ↔ ∃ a b, s = a ++ c :: b ∧ c ∉ b ∧ a.length = i := by
  unfold lastIndex
  simp only [Option.map_eq_some_iff, findIdx_some]
  constructor
  · rintro ⟨j, ⟨a, b, h1, h2, rfl⟩, rfl⟩
    have h3 := congrArg List.reverse h1
    simp only [List.reverse_reverse, List.reverse_append, List.reverse_cons, List.append_assoc, List.singleton_append] at h3
    refine ⟨b.reverse, a.reverse, h3, by simpa using h2, ?_⟩
    rw [h3]
    simp only [List.length_append, List.length_reverse, List.length_cons]
    omega
  · rintro ⟨a, b, rfl, h2, rfl⟩
    refine ⟨b.length, ⟨b.reverse, a.reverse, by simp, by simpa using h2, by simp⟩, ?_⟩
    simp only [List.length_append, List.length_cons]
    omega

theorem split_last {c : UInt8} {a b a' b' : Bytes} (h : a ++ c :: b = a' ++ c :: b') (hb : c ∉ b) (hb' : c ∉ b') : a = a' ∧ b = b' := by
  have h1 := (lastIndex_some c _ _).mpr ⟨a, b, rfl, hb, rfl⟩
  have h2 := (lastIndex_some c _ _).mpr ⟨a', b', h, hb', rfl⟩
  rw [h1] at h2
  have := List.append_inj h (Option.some.inj h2)
  exact ⟨this.1, by simpa using this.2⟩

/-- `net.SplitHostPort`. -/
theorem splitHost_iff (s host : Bytes) : splitHost s = some host ↔ HostOf s host := by
  unfold splitHost
  constructor
  · intro h
    split at h
    · cases h
    · rename_i i hi
      obtain ⟨a, b, rfl, hb, rfl⟩ := (lastIndex_some _ _ _).mp hi
      split at h
      · rename_i h91
        split at h
        · cases h
        · rename_i e he
          obtain ⟨x, y, hxy, hx, rfl⟩ := (findIdx_some _ _ _).mp he
          split at h
          · cases h
          rename_i hlen
          simp only [ne_eq, Decidable.not_not] at hlen
          split at h
          · cases h
          rename_i g1
          split at h
          · cases h
          rename_i g2
          cases h
          have h3 : a = x ++ [93] ∧ 58 :: b = y := List.append_inj (by rw [hxy]; simp) (by simp [hlen])
          obtain ⟨rfl, rfl⟩ := h3
          cases x with
          | nil => simp at h91
          | cons z x =>
            simp only [List.cons_append, List.head?_cons, Option.some.injEq] at h91
            subst h91
            refine .inr ⟨?_, ?_, b, ⟨hb, ?_, ?_⟩, by simp⟩
            · simp at g1 ⊢; exact g1.1
            · simp at hx ⊢; exact hx
            · simp at g1 ⊢; exact g1.2
            · simp at g2 ⊢; exact g2
      · split at h
        · cases h
        rename_i g1
        split at h
        · cases h
        rename_i g2
        split at h
        · cases h
        rename_i g3
        cases h
        rw [List.take_left] at g1 ⊢
        simp only [List.mem_append, List.mem_cons, not_or] at g2 g3
        exact .inl ⟨⟨g1, g2.1, g3.1⟩, b, ⟨hb, g2.2.2, g3.2.2⟩, rfl⟩
  · rintro (⟨⟨p1, p2, p3⟩, port, ⟨q1, q2, q3⟩, rfl⟩ | ⟨p2, p3, port, ⟨q1, q2, q3⟩, rfl⟩)
    · rw [(lastIndex_some 58 _ _).mpr ⟨host, port, rfl, q1, rfl⟩]
      simp only
      rw [if_neg, List.take_left, if_neg p1, if_neg, if_neg]
      · simp [p3, q3]
      · simp [p2, q2]
      · cases host with
        | nil => simp
        | cons x host => simp only [List.cons_append, List.head?_cons, Option.some.injEq]; rintro rfl; simp at p2
    · have e : 91 :: host ++ 93 :: 58 :: port = (91 :: host ++ [93]) ++ 58 :: port := by simp
      rw [(lastIndex_some 58 _ _).mpr ⟨_, port, e, q1, rfl⟩]
      simp only
      rw [if_pos (by simp), (findIdx_some 93 _ _).mpr ⟨91 :: host, 58 :: port, rfl, by simp [p3], rfl⟩]
      simp only
      rw [if_neg (by simp), if_neg (by simp [p2, q2]), if_neg]
      · simp
      · simp [q3]

end Drip.Pex
