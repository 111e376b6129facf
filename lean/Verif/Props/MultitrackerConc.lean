import Verif.Model.MultitrackerConc
/-
Concurrent announces: C81.
-/

namespace Drip.Multi
open Conc

/-- **C81** is false of the code: of two announces at the same time, one answered by the second tracker and one by the third,
the third is lost for good and the first is there twice. -/
theorem C81_concurrent_refuted :
    Reach GetStep ([b!"a", b!"b", b!"c"], [.at 0, .at 0]) ([b!"b", b!"a", b!"a"], [.done (some b!"b"), .done (some b!"c")]) := by
  have s : ∀ (i : Nat) {x y : List Bytes × List Pc} {z : List Bytes × List Pc} {l : Pc} {t' : List Bytes} {l' : Pc},
      x.2[i]? = some l → GetStep x.1 l t' l' → (t', x.2.set i l') = y → Reach GetStep y z → Reach GetStep x z := by
    intro i x y z l t' l' h1 h2 h3 h4
    subst h3
    exact .head (.mk i h1 h2) h4
  refine s 0 (l := .at 0) rfl (.read rfl) rfl ?_
  refine s 0 (l := .asks 0 b!"a") rfl .fails rfl ?_
  refine s 0 (l := .at 1) rfl (.read rfl) rfl ?_
  refine s 0 (l := .asks 1 b!"b") rfl .answers rfl ?_
  refine s 1 (l := .at 0) rfl (.read rfl) rfl ?_
  refine s 1 (l := .asks 0 b!"a") rfl .fails rfl ?_
  refine s 1 (l := .at 1) rfl (.read rfl) rfl ?_
  refine s 1 (l := .asks 1 b!"b") rfl .fails rfl ?_
  refine s 1 (l := .at 2) rfl (.read rfl) rfl ?_
  refine s 1 (l := .asks 2 b!"c") rfl .answers rfl ?_
  refine s 0 (l := .won 1 b!"b") rfl .copy rfl ?_
  refine s 1 (l := .won 2 b!"c") rfl .copy rfl ?_
  refine s 1 (l := .copied b!"c") rfl .set rfl ?_
  refine s 0 (l := .copied b!"b") rfl .set rfl ?_
  exact .refl

/-- What a goroutine knows is right: the positions are in the tier and the trackers are of it. -/
def Right (tier0 tier : List Bytes) : Pc → Prop
  | .at j => j ≤ tier.length
  | .asks j t => j < tier.length ∧ t ∈ tier0
  | .won j t => j < tier.length ∧ t ∈ tier0
  | .moving us ls t => (∀ k ∈ us, 0 < k ∧ k < tier.length) ∧ (∀ x ∈ ls, 0 < x.1 ∧ x.1 < tier.length ∧ x.2 ∈ tier0) ∧ t ∈ tier0
  | .copied t => t ∈ tier0
  | .done t => ∀ u, t = some u → u ∈ tier0

theorem Right.keep {tier0 tier tier' : List Bytes} {l : Pc} (h : Right tier0 tier l) (he : tier'.length = tier.length) : Right tier0 tier' l := by
  cases l <;> simp only [Right] at h ⊢ <;> first | exact h | (rw [he]; exact h)

theorem copyAt_length {α : Type} {l : List α} {j : Nat} (h : j < l.length) : (copyAt l 1 (l.take j)).length = l.length := by
  unfold copyAt
  simp only [List.length_append, List.length_take, List.length_drop]
  omega

theorem copyAt_mem {α : Type} {l : List α} {j : Nat} {x : α} (h : x ∈ copyAt l 1 (l.take j)) : x ∈ l := by
  unfold copyAt at h
  rcases List.mem_append.mp h with h | h
  · rcases List.mem_append.mp h with h | h
    · exact List.mem_of_mem_take h
    · exact List.mem_of_mem_take h
  · exact List.mem_of_mem_drop h

theorem copyAt_zero {α : Type} {l : List α} {j : Nat} (h : j < l.length) : (copyAt l 1 (l.take j))[0]? = l[0]? := by
  unfold copyAt
  cases l with
  | nil => simp at h
  | cons a l => simp

theorem WordStep.right {tier0 tier tier' : List Bytes} {l l' : Pc} (h : WordStep tier l tier' l') (h0 : ∀ u ∈ tier, u ∈ tier0) (hr : Right tier0 tier l) :
    tier'.length = tier.length ∧ (∀ u ∈ tier', u ∈ tier0) ∧ Right tier0 tier' l' ∧ (tier'[0]? = tier[0]? ∨ ∃ u, l' = .done (some u) ∧ tier'[0]? = some u) ∧ ((∃ t, l = .done t) → False) := by
  cases h with
  | whole h =>
    cases h with
    | read ht => exact ⟨rfl, h0, ⟨(List.getElem?_eq_some_iff.mp ht).1, h0 _ (List.mem_of_getElem? ht)⟩, .inl rfl, by rintro ⟨_, h⟩; cases h⟩
    | fails => exact ⟨rfl, h0, hr.1, .inl rfl, by rintro ⟨_, h⟩; cases h⟩
    | answers => exact ⟨rfl, h0, hr, .inl rfl, by rintro ⟨_, h⟩; cases h⟩
    | copy => exact ⟨copyAt_length hr.1, fun u hu => h0 u (copyAt_mem hu), hr.2, .inl (copyAt_zero hr.1), by rintro ⟨_, h⟩; cases h⟩
    | @set t =>
      refine ⟨List.length_set, fun u hu => ?_, fun u hu => (by injection hu with hu; exact hu ▸ hr), ?_, by rintro ⟨_, h⟩; cases h⟩
      · rcases List.mem_or_eq_of_mem_set hu with h | h
        · exact h0 u h
        · exact h ▸ hr
      · cases tier with
        | nil => exact .inl rfl
        | cons a tier => exact .inr ⟨t, rfl, rfl⟩
    | stop _ => exact ⟨rfl, h0, fun u hu => (by cases hu), .inl rfl, by rintro ⟨_, h⟩; cases h⟩
  | begin =>
    refine ⟨rfl, h0, ⟨fun k hk => ?_, by simp, hr.2⟩, .inl rfl, by rintro ⟨_, h⟩; cases h⟩
    obtain ⟨i, hi, rfl⟩ := List.mem_map.mp hk
    have h1 := List.mem_range.mp hi
    have h2 := hr.1
    omega
  | load hk hv =>
    refine ⟨rfl, h0, ⟨fun k hk => hr.1 k (List.mem_of_mem_erase hk), fun x hx => ?_, hr.2.2⟩, .inl rfl, by rintro ⟨_, h⟩; cases h⟩
    rcases List.mem_cons.mp hx with rfl | hx
    · exact ⟨(hr.1 _ hk).1, (hr.1 _ hk).2, h0 _ (List.mem_of_getElem? hv)⟩
    · exact hr.2.1 x hx
  | @store us ls t v k hk =>
    obtain ⟨h1, h2, h3⟩ := hr.2.1 _ hk
    refine ⟨List.length_set, fun u hu => ?_, ?_, ?_, by rintro ⟨_, h⟩; cases h⟩
    · rcases List.mem_or_eq_of_mem_set hu with h | h
      · exact h0 u h
      · exact h ▸ h3
    · exact Right.keep (tier := tier) ⟨hr.1, fun x hx => hr.2.1 x (List.mem_of_mem_erase hx), hr.2.2⟩ List.length_set
    · left
      rw [List.getElem?_set_ne]
      dsimp only at h1
      omega
  | moved => exact ⟨rfl, h0, hr.2.2, .inl rfl, by rintro ⟨_, h⟩; cases h⟩

/-- **C81** (partial: what is true of any number of announces at the same time, also if `copy` is interrupted anywhere). Each tier keeps its length, has only trackers that it had before, only such trackers are
asked, no index is out of range, and the first tracker is the one that was first or one that has answered an announce. Missing: that no tracker is lost. -/
theorem C81_concurrent_partial (tier tier' : List Bytes) (n : Nat) (ts : List Pc) (h : Reach WordStep (tier, List.replicate n (.at 0)) (tier', ts)) :
    tier'.length = tier.length ∧ (∀ u ∈ tier', u ∈ tier) ∧ (∀ (i j : Nat) (u : Bytes), ts[i]? = some (.asks j u) ∨ ts[i]? = some (.won j u) → j < tier'.length ∧ u ∈ tier) ∧
    (tier'[0]? = tier[0]? ∨ ∃ (i : Nat) (u : Bytes), ts[i]? = some (.done (some u)) ∧ tier'[0]? = some u) := by
  suffices H : ∀ x : List Bytes × List Pc, Reach WordStep (tier, List.replicate n (.at 0)) x →
      x.1.length = tier.length ∧ (∀ u ∈ x.1, u ∈ tier) ∧ (∀ (i : Nat) (l : Pc), x.2[i]? = some l → Right tier x.1 l) ∧
      (x.1[0]? = tier[0]? ∨ ∃ (i : Nat) (u : Bytes), x.2[i]? = some (.done (some u)) ∧ x.1[0]? = some u) by
    obtain ⟨h1, h2, h3, h4⟩ := H _ h
    refine ⟨h1, h2, fun i j u hu => ?_, h4⟩
    rcases hu with hu | hu <;> exact h3 i _ hu
  intro x hx
  induction hx with
  | refl =>
    refine ⟨rfl, fun _ h => h, fun i l hl => ?_, .inl rfl⟩
    rw [List.eq_of_mem_replicate (List.mem_of_getElem? hl)]
    exact Nat.zero_le _
  | tail _ hs ih =>
    obtain ⟨i1, i2, i3, i4⟩ := ih
    cases hs with
    | @mk s s' l l' ls i hi ha =>
      obtain ⟨w1, w2, w3, w4, w5⟩ := ha.right i2 (i3 i l hi)
      have hlt := (List.getElem?_eq_some_iff.mp hi).1
      refine ⟨w1.trans i1, w2, fun k m hm => ?_, ?_⟩
      · by_cases hk : i = k
        · subst hk
          rw [List.getElem?_set_self hlt] at hm
          injection hm with hm
          exact hm ▸ w3
        · rw [List.getElem?_set_ne hk] at hm
          exact (i3 k m hm).keep w1
      · rcases w4 with w4 | ⟨u, rfl, w4⟩
        · rcases i4 with i4 | ⟨k, u, hk, i4⟩
          · exact .inl (w4.trans i4)
          · refine .inr ⟨k, u, ?_, w4.trans i4⟩
            have hne : i ≠ k := by
              rintro rfl
              rw [hk] at hi
              injection hi with hi
              exact w5 ⟨_, hi.symm⟩
            rw [List.getElem?_set_ne hne]
            exact hk
        · exact .inr ⟨i, u, List.getElem?_set_self hlt, w4⟩

/-- The interleaving of `C81_concurrent_refuted` is one of these: the first tracker afterwards has answered, the third is lost. -/
example : Reach WordStep ([b!"a", b!"b", b!"c"], List.replicate 2 (.at 0)) ([b!"b", b!"a", b!"a"], [.done (some b!"b"), .done (some b!"c")]) := by
  refine Relation.ReflTransGen.mono ?_ _ _ C81_concurrent_refuted
  rintro _ _ ⟨i, h1, h2⟩
  exact .mk i h1 (.whole h2)

end Drip.Multi
