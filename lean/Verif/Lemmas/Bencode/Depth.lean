import Verif.Lemmas.Bencode.Emit
/-
The nesting of the encoding of a value is bounded by the height of the value.
-/

namespace Drip.Bencode
open Spec

theorem denotes_height (env : Env) : ∀ n fl t v b d, Denotes env fl t v b d → v.height ≤ n → d ≤ v.height := by
  intro n
  induction n with
  | zero =>
    intro fl t v b d _ hh
    have : 0 < v.height := by cases v <;> simp [Val.height]
    omega
  | succ n ih =>
    have hL : ∀ fl t es bs d, DenotesL env fl t es bs d → heights es ≤ n → d ≤ heights es := by
      intro fl t es
      induction es with
      | nil => intro bs d h _; cases h; simp
      | cons v vs ihv =>
        intro bs d h hh
        cases h with
        | cons h1 h2 =>
          simp only [heights] at hh ⊢
          have := ih _ _ _ _ _ h1 (by omega)
          have := ihv _ _ h2 (by omega)
          omega
    have hE : ∀ t es bs d m, DenotesE env t es bs d → (∀ e ∈ es, e.2.height ≤ n) → (∀ e ∈ es, e.2.height ≤ m) → d ≤ m := by
      intro t es
      induction es with
      | nil => intro bs d m h _ _; cases h; simp
      | cons x es ihe =>
        intro bs d m h hh hm
        obtain ⟨k, v⟩ := x
        cases h with
        | cons h1 h2 =>
          have a1 := ih _ _ _ _ _ h1 (hh (_, _) List.mem_cons_self)
          have a2 := ihe _ _ m h2 (fun e he => hh e (by simp [he])) (fun e he => hm e (by simp [he]))
          have a3 := hm (_, _) List.mem_cons_self
          simp only at a3
          omega
    have hF : ∀ fl t v fs bs d, DenotesF env fl t v fs bs d → (∀ f ∈ fs, f.index ≠ []) → v.height ≤ n + 1 → d + 1 ≤ v.height := by
      intro fl t v fs
      induction fs with
      | nil =>
        intro bs d h _ _; cases h
        have : 0 < v.height := by cases v <;> simp [Val.height]
        omega
      | cons f fs ihf =>
        intro bs d h hi hh
        cases h with
        | skip h1 h2 => exact ihf _ _ h2 (fun g hg => hi g (by simp [hg])) hh
        | cons h1 hno h2 h3 =>
          have ihf' := ihf _ _ h3 (fun g hg => hi g (by simp [hg])) hh
          have hheight := (at_height h1).2 (hi f (by simp))
          have := ih _ _ _ _ _ h2 (by omega)
          omega
    have hK : ∀ fl t v b d, DenotesK env fl t v b d → v.height ≤ n + 1 → d ≤ v.height := by
      intro fl t v b d h hh
      cases h with
      | str => simp
      | bytes => simp
      | nilBytes => simp
      | int => simp
      | uint => simp
      | slice h => simp only [Val.height] at hh ⊢; have := hL _ _ _ _ _ h (by omega); omega
      | array h => simp only [Val.height] at hh ⊢; have := hL _ _ _ _ _ h (by omega); omega
      | map hp hi h =>
        simp only [Val.height] at hh ⊢
        have := hE _ _ _ _ _ h (fun e he => by have := heightsM_mem (hp.mem_iff.mp he); omega)
          (fun e he => heightsM_mem (hp.mem_iff.mp he))
        omega
      | struct h => exact hF _ _ _ _ _ _ h (fun f hf => structFields_index hf) hh
      | any h => simp only [Val.height] at hh ⊢; have := ih _ _ _ _ _ h (by omega); omega
      | iface h => simp only [Val.height] at hh ⊢; have := ih _ _ _ _ _ h (by omega); omega
      | ptr h => simp only [Val.height] at hh ⊢; have := ih _ _ _ _ _ h (by omega); omega
    intro fl t v b d h hh
    cases h with
    | method hm => simp
    | named hu hk => exact hK _ _ _ _ _ hk hh
    | kind hu hk => exact hK _ _ _ _ _ hk hh

end Drip.Bencode
