import Verif.Model.Assoc
/-
Lemmas about Go maps as association lists.
-/

namespace Drip

variable {κ α : Type} [DecidableEq κ]

theorem mget_mem {m : List (κ × α)} {k : κ} {v : α} (h : mget m k = some v) : (k, v) ∈ m := by
  induction m with
  | nil => cases h
  | cons e m ih =>
    unfold mget at h
    split at h
    · rename_i he; injection h with h; subst h; subst he; exact List.mem_cons_self ..
    · exact List.mem_cons_of_mem _ (ih h)

theorem mget_eq_none {m : List (κ × α)} {k : κ} : mget m k = none ↔ ∀ v, (k, v) ∉ m := by
  induction m with
  | nil => simp [mget]
  | cons e m ih =>
    unfold mget
    split
    · rename_i he
      simp only [reduceCtorEq, false_iff]
      intro h
      exact h e.2 (by rw [← he]; exact List.mem_cons_self ..)
    · rename_i he
      rw [ih]
      constructor
      · intro h v hv
        rcases List.mem_cons.1 hv with e' | h'
        · exact he (by rw [← e'])
        · exact h v h'
      · intro h v hv; exact h v (List.mem_cons_of_mem _ hv)

theorem mget_isSome {m : List (κ × α)} {k : κ} : (mget m k).isSome = true ↔ ∃ v, (k, v) ∈ m := by
  cases h : mget m k with
  | none => simp [mget_eq_none.1 h]
  | some v => simp only [Option.isSome_some, true_iff]; exact ⟨v, mget_mem h⟩

/-- At most one entry per key. -/
def Keys (m : List (κ × α)) : Prop := (m.map (·.1)).Nodup

theorem Keys.get {m : List (κ × α)} (h : Keys m) {k : κ} {v : α} (hm : (k, v) ∈ m) : mget m k = some v := by
  induction m with
  | nil => cases hm
  | cons e m ih =>
    unfold Keys at h
    rw [List.map_cons, List.nodup_cons] at h
    unfold mget
    rcases List.mem_cons.1 hm with e' | h'
    · rw [if_pos (by rw [← e']), ← e']
    · rw [if_neg]
      · exact ih h.2 h'
      · intro e'
        exact h.1 (List.mem_map.2 ⟨_, h', e'.symm⟩)

theorem mem_mdel {m : List (κ × α)} {k : κ} {e : κ × α} : e ∈ mdel m k ↔ e ∈ m ∧ e.1 ≠ k := by
  unfold mdel; simp

theorem Keys.del {m : List (κ × α)} (h : Keys m) (k : κ) : Keys (mdel m k) :=
  List.Nodup.sublist (List.Sublist.map _ List.filter_sublist) h

theorem mdel_length_le (m : List (κ × α)) (k : κ) : (mdel m k).length ≤ m.length := List.length_filter_le _ _

theorem Keys.put {m : List (κ × α)} (h : Keys m) (k : κ) (v : α) : Keys (mput m k v) := by
  unfold Keys mput
  rw [List.map_cons, List.nodup_cons]
  refine ⟨?_, h.del k⟩
  intro hk
  obtain ⟨e, he, hk⟩ := List.mem_map.1 hk
  exact (mem_mdel.1 he).2 hk

theorem mem_mput {m : List (κ × α)} {k : κ} {v : α} {e : κ × α} : e ∈ mput m k v ↔ e = (k, v) ∨ (e ∈ m ∧ e.1 ≠ k) := by
  unfold mput; rw [List.mem_cons, mem_mdel]

theorem mget_mdel (m : List (κ × α)) (k k' : κ) : mget (mdel m k) k' = if k' = k then none else mget m k' := by
  induction m with
  | nil => simp [mdel, mget]
  | cons e m ih =>
    unfold mdel at ih ⊢
    rw [List.filter_cons]
    split
    · rename_i h
      simp only [ne_eq, decide_not, Bool.not_eq_true', decide_eq_false_iff_not] at h
      unfold mget
      by_cases h1 : e.1 = k'
      · rw [if_pos h1, if_pos h1, if_neg]; intro h2; exact h (h1.trans h2)
      · rw [if_neg h1, if_neg h1]; exact ih
    · rename_i h
      simp only [ne_eq, decide_not, Bool.not_eq_true', decide_eq_false_iff_not, Classical.not_not] at h
      rw [ih]
      split
      · rfl
      · rename_i h2
        rw [mget, if_neg]
        intro h1; exact h2 (h1.symm.trans h)

theorem mget_mput (m : List (κ × α)) (k k' : κ) (v : α) : mget (mput m k v) k' = if k' = k then some v else mget m k' := by
  unfold mput
  conv => lhs; unfold mget
  by_cases h : k = k'
  · rw [if_pos h, if_pos h.symm]
  · rw [if_neg h, if_neg (fun e => h e.symm), mget_mdel, if_neg (fun e => h e.symm)]

theorem mem_sadd {s : List κ} {k x : κ} : x ∈ sadd s k ↔ x = k ∨ x ∈ s := by
  unfold sadd
  split
  · rename_i h
    constructor
    · exact .inr
    · intro h'
      cases h' with
      | inl e => rw [e]; exact h
      | inr h' => exact h'
  · rw [List.mem_cons]

theorem mem_sdel {s : List κ} {k x : κ} : x ∈ sdel s k ↔ x ∈ s ∧ x ≠ k := by
  unfold sdel; simp

theorem sadd_nodup {s : List κ} (h : s.Nodup) (k : κ) : (sadd s k).Nodup := by
  unfold sadd
  split
  · exact h
  · rename_i hk; exact List.nodup_cons.2 ⟨hk, h⟩

theorem sdel_nodup {s : List κ} (h : s.Nodup) (k : κ) : (sdel s k).Nodup := List.Nodup.sublist List.filter_sublist h

theorem mput_length {m : List (κ × α)} {k : κ} (v : α) (h : mget m k = none) : (mput m k v).length = m.length + 1 := by
  have : mdel m k = m := by
    unfold mdel
    rw [List.filter_eq_self]
    intro e he
    have := mget_eq_none.1 h e.2
    simp only [ne_eq, decide_not, Bool.not_eq_true', decide_eq_false_iff_not]
    intro hk; apply this; rw [← hk]; exact he
  unfold mput
  rw [this, List.length_cons]

end Drip
