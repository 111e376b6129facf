import Verif.Model.Storage
/-
A weakest-precondition calculus for the operations of the storage model.
-/

namespace Drip.Storage

/-- What is claimed of each outcome. -/
structure Post (α : Type) where
  ok : α → Sys → Prop
  err : Err → Sys → Prop
  panic : Sys → Prop
  crash : Sys → Prop

def Post.holds {α : Type} (Q : Post α) : Out α → Sys → Prop
  | .ok a, s => Q.ok a s
  | .err e, s => Q.err e s
  | .panic, s => Q.panic s
  | .crash, s => Q.crash s

/-- The same claims for the other outcomes. -/
def Post.with {α β : Type} (Q : Post α) (ok : β → Sys → Prop) : Post β := ⟨ok, Q.err, Q.panic, Q.crash⟩

/-- For all fates satisfying `A`, the outcome satisfies `Q`. -/
def wp (A : Fate → Prop) {α : Type} (p : Op α) (Q : Post α) (s : Sys) : Prop :=
  ∀ f, (∀ x ∈ f, A x) → Q.holds (p s f).1 (p s f).2.1 ∧ ∀ x ∈ (p s f).2.2, A x

variable {A : Fate → Prop}

theorem wp_mono {α : Type} {p : Op α} {Q Q' : Post α} {s : Sys} (h : wp A p Q s) (h1 : ∀ a s, Q.ok a s → Q'.ok a s)
    (h2 : ∀ e s, Q.err e s → Q'.err e s) (h3 : ∀ s, Q.panic s → Q'.panic s) (h4 : ∀ s, Q.crash s → Q'.crash s) :
    wp A p Q' s := by
  intro f hf
  obtain ⟨h, h'⟩ := h f hf
  refine ⟨?_, h'⟩
  revert h
  cases (p s f).1 with
  | ok a => exact h1 _ _
  | err e => exact h2 _ _
  | panic => exact h3 _
  | crash => exact h4 _

theorem wp_pure {α : Type} {a : α} {Q : Post α} {s : Sys} (h : Q.ok a s) : wp A (pure a : Op α) Q s :=
  fun _ hf => ⟨h, hf⟩

theorem wp_fail {α : Type} {e : Err} {Q : Post α} {s : Sys} (h : Q.err e s) : wp A (Op.fail e) Q s := fun _ hf => ⟨h, hf⟩

theorem wp_panic {α : Type} {Q : Post α} {s : Sys} (h : Q.panic s) : wp A (Op.panic : Op α) Q s := fun _ hf => ⟨h, hf⟩

theorem wp_bind {α β : Type} {p : Op α} {k : α → Op β} {Q : Post β} {s : Sys}
    (h : wp A p (Q.with fun a s => wp A (k a) Q s) s) : wp A (p >>= k) Q s := by
  intro f hf
  obtain ⟨h1, h2⟩ := h f hf
  show Q.holds (Op.bind p k s f).1 (Op.bind p k s f).2.1 ∧ ∀ x ∈ (Op.bind p k s f).2.2, A x
  unfold Op.bind
  revert h1 h2
  generalize p s f = r
  obtain ⟨o, s', f'⟩ := r
  cases o with
  | ok a => intro h1 h2; exact h1 f' h2
  | err e => intro h1 h2; exact ⟨h1, h2⟩
  | panic => intro h1 h2; exact ⟨h1, h2⟩
  | crash => intro h1 h2; exact ⟨h1, h2⟩

theorem wp_getMem {Q : Post Mem} {s : Sys} (h : Q.ok s.mem s) : wp A Op.getMem Q s := fun _ hf => ⟨h, hf⟩

theorem wp_setMem {m : Mem} {Q : Post Unit} {s : Sys} (h : Q.ok () { s with mem := m }) : wp A (Op.setMem m) Q s :=
  fun _ hf => ⟨h, hf⟩

theorem wp_lift {α : Type} {r : Res α} {Q : Post α} {s : Sys}
    (h : match r with | .ok a => Q.ok a s | .err e => Q.err e s | .panic => Q.panic s) : wp A (Op.lift r) Q s := by
  cases r with
  | ok a => exact wp_pure h
  | err e => exact wp_fail h
  | panic => exact wp_panic h

theorem wp_call {α : Type} {eff : FS → Option (α × FS)} {part : List Bytes → FS → FS} {Q : Post α} {s : Sys}
    (h1 : ∀ a fs, eff s.fs = some (a, fs) → Q.ok a { s with fs := fs })
    (h2 : eff s.fs = none → Q.err .fs s)
    (h3 : ∀ r, A (.fail r) → Q.err .fs { s with fs := part r s.fs })
    (h4 : ∀ r, A (.crash r) → Q.crash { s with fs := part r s.fs }) : wp A (Op.call eff part) Q s := by
  intro f hf
  have htail : ∀ x ∈ f.tail, A x := fun x hx => hf x (List.mem_of_mem_tail hx)
  unfold Op.call
  have hok : ∀ f', (∀ x ∈ f', A x) →
      Q.holds (match eff s.fs with
        | some (a, fs) => ((.ok a, { s with fs := fs }, f') : Out α × Sys × List Fate)
        | none => (.err .fs, s, f')).1
        (match eff s.fs with
        | some (a, fs) => ((.ok a, { s with fs := fs }, f') : Out α × Sys × List Fate)
        | none => (.err .fs, s, f')).2.1 ∧
      ∀ x ∈ (match eff s.fs with
        | some (a, fs) => ((.ok a, { s with fs := fs }, f') : Out α × Sys × List Fate)
        | none => (.err .fs, s, f')).2.2, A x := by
    intro f' hf'
    cases he : eff s.fs with
    | none => exact ⟨h2 he, hf'⟩
    | some x => obtain ⟨a, fs⟩ := x; exact ⟨h1 a fs he, hf'⟩
  match f with
  | [] => exact hok _ htail
  | .ok :: f => exact hok _ htail
  | .fail r :: f => exact ⟨h3 r (hf _ (by simp)), htail⟩
  | .crash r :: f => exact ⟨h4 r (hf _ (by simp)), htail⟩

theorem wp_callTemp {Q : Post Unit} {s : Sys} (h1 : Q.ok () s) (h3 : ∀ r, A (.fail r) → Q.err .fs s)
    (h4 : ∀ r, A (.crash r) → Q.crash s) : wp A Op.callTemp Q s :=
  wp_call (by intro a fs h; cases h; exact h1) (by simp) h3 h4

theorem wp_onErr {α : Type} {p : Op α} {hd : Err → Op Unit} {Q : Post α} {s : Sys}
    (h : wp A p ⟨Q.ok, fun e s => wp A (hd e) ⟨fun _ s => Q.err e s, Q.err, Q.panic, Q.crash⟩ s, Q.panic, Q.crash⟩ s) :
    wp A (onErr p hd) Q s := by
  intro f hf
  obtain ⟨h1, h2⟩ := h f hf
  unfold onErr
  revert h1 h2
  generalize p s f = r
  obtain ⟨o, s', f'⟩ := r
  cases o with
  | ok a => intro h1 h2; exact ⟨h1, h2⟩
  | panic => intro h1 h2; exact ⟨h1, h2⟩
  | crash => intro h1 h2; exact ⟨h1, h2⟩
  | err e =>
    intro h1 h2
    obtain ⟨h3, h4⟩ := h1 f' h2
    revert h3 h4
    dsimp only
    generalize hd e s' f' = r'
    obtain ⟨o', s'', f''⟩ := r'
    cases o' <;> exact fun h3 h4 => ⟨h3, h4⟩

/-- Pieces of code that only touch the memory. -/
theorem wp_deliver {id : Nat} {v : Option Err} {Q : Post Unit} {s : Sys}
    (h1 : s.mem.futs[id]? = some none → Q.ok () { s with mem := { s.mem with futs := s.mem.futs.set id (some v) } })
    (h2 : s.mem.futs[id]? ≠ some none → Q.panic s) : wp A (deliver id v) Q s := by
  unfold deliver
  refine wp_bind (wp_getMem ?_)
  show wp A _ Q s
  cases h : s.mem.futs[id]? with
  | none => exact wp_panic (h2 (by simp [h]))
  | some x =>
    cases x with
    | none => exact wp_setMem (h1 h)
    | some y => exact wp_panic (h2 (by simp [h]))

theorem wp_getPiece {index : Int} {Q : Post (Nat × Piece)} {s : Sys}
    (h1 : ∀ (i : Nat) (p : Piece), index = (i : Int) → s.mem.pieces[i]? = some p → Q.ok (i, p) s)
    (h2 : (index < 0 ∨ (s.mem.pieces.length : Int) ≤ index) → Q.panic s) : wp A (getPiece index) Q s := by
  unfold getPiece
  refine wp_bind (wp_getMem ?_)
  show wp A _ Q s
  by_cases hi : index < 0
  · simp only [if_pos hi]; exact wp_panic (h2 (.inl hi))
  · simp only [if_neg hi]
    cases h : s.mem.pieces[index.toNat]? with
    | none =>
      refine wp_panic (h2 (.inr ?_))
      have := List.getElem?_eq_none_iff.mp h
      omega
    | some p => exact wp_pure (h1 _ _ (by omega) h)

theorem wp_setPiece {i : Nat} {p : Piece} {Q : Post Unit} {s : Sys}
    (h : Q.ok () { s with mem := { s.mem with pieces := s.mem.pieces.set i p } }) : wp A (setPiece i p) Q s := by
  unfold setPiece
  exact wp_bind (wp_getMem (wp_setMem h))

end Drip.Storage
