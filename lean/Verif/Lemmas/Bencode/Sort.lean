import Verif.Model.Bencode.Fields
import Verif.Lemmas.Bencode.Any
/-
`sortByKey`: a permutation, strictly increasing if the keys are distinct, and independent of the order of its input.
-/

namespace Drip.Bencode
open Spec

theorem insertSorted_perm {α : Type} (key : α → Bytes) (x : α) (l : List α) : (insertSorted key x l).Perm (x :: l) := by
  induction l with
  | nil => exact List.Perm.refl _
  | cons y ys ih =>
    unfold insertSorted
    split
    · exact (ih.cons y).trans (List.Perm.swap x y ys)
    · exact List.Perm.refl _

theorem sortByKey_perm {α : Type} (key : α → Bytes) (l : List α) : (sortByKey key l).Perm l := by
  induction l with
  | nil => exact List.Perm.refl _
  | cons x xs ih => exact (insertSorted_perm key x _).trans (ih.cons x)

/-- Strictly increasing keys. -/
def Incr {α : Type} (key : α → Bytes) (l : List α) : Prop := l.Pairwise fun a b => BLt (key a) (key b)

theorem insertSorted_incr {α : Type} (key : α → Bytes) (x : α) (l : List α) (hl : Incr key l)
    (hx : ∀ y ∈ l, key y ≠ key x) : Incr key (insertSorted key x l) := by
  induction l with
  | nil => simp [insertSorted, Incr]
  | cons y ys ih =>
    unfold insertSorted
    unfold Incr at hl ⊢
    rw [List.pairwise_cons] at hl
    split
    · next h =>
      rw [List.pairwise_cons]
      refine ⟨?_, ih hl.2 (fun z hz => hx z (by simp [hz]))⟩
      intro z hz
      rcases List.mem_cons.mp ((insertSorted_perm key x ys).mem_iff.mp hz) with rfl | hz
      · exact (bltB_iff _ _).mp h
      · exact hl.1 z hz
    · next h =>
      have hxy : BLt (key x) (key y) := by
        rcases BLt.total (key x) (key y) with h' | h' | h'
        · exact h'
        · exact absurd h'.symm (hx y (by simp))
        · exact absurd ((bltB_iff _ _).mpr h') h
      rw [List.pairwise_cons]
      refine ⟨?_, List.pairwise_cons.mpr hl⟩
      intro z hz
      rcases List.mem_cons.mp hz with rfl | hz
      · exact hxy
      · exact BLt.trans hxy (hl.1 z hz)

theorem sortByKey_incr {α : Type} (key : α → Bytes) (l : List α) (h : (l.map key).Nodup) : Incr key (sortByKey key l) := by
  induction l with
  | nil => simp [sortByKey, Incr]
  | cons x xs ih =>
    rw [List.map_cons, List.nodup_cons] at h
    refine insertSorted_incr key x _ (ih h.2) ?_
    intro y hy e
    exact h.1 (List.mem_map.mpr ⟨y, (sortByKey_perm key xs).mem_iff.mp hy, e⟩)

/-- Two strictly increasing lists with the same elements are equal. -/
theorem Incr.unique {α : Type} (key : α → Bytes) : ∀ (l l' : List α), Incr key l → Incr key l' → l.Perm l' → l = l' := by
  intro l
  induction l with
  | nil => intro l' _ _ h; exact (List.nil_perm.mp h).symm
  | cons x xs ih =>
    intro l' h h' hp
    cases l' with
    | nil => exact absurd hp.symm (by simp)
    | cons y ys =>
      unfold Incr at h h'
      rw [List.pairwise_cons] at h h'
      have hxy : x = y := by
        rcases List.mem_cons.mp (hp.mem_iff.mp (List.mem_cons_self (a := x) (l := xs))) with e | hx
        · exact e
        · rcases List.mem_cons.mp (hp.mem_iff.mpr (List.mem_cons_self (a := y) (l := ys))) with e | hy
          · exact e.symm
          · exact absurd (BLt.trans (h'.1 x hx) (h.1 y hy)) (BLt.irrefl _)
      subst hxy
      rw [ih ys h.2 h'.2 (List.perm_cons _ |>.mp hp)]

/-- The sorted list does not depend on the order of the input. -/
theorem sortByKey_eq_of_perm {α : Type} (key : α → Bytes) (l l' : List α) (hp : l.Perm l') (h : (l.map key).Nodup) :
    sortByKey key l = sortByKey key l' := by
  have h' : (l'.map key).Nodup := (hp.map key).nodup_iff.mp h
  exact Incr.unique key _ _ (sortByKey_incr key l h) (sortByKey_incr key l' h')
    (((sortByKey_perm key l).trans hp).trans (sortByKey_perm key l').symm)

end Drip.Bencode
