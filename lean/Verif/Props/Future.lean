import Verif.Model.Future
/-
Properties of futures: C48.
-/

namespace Drip.Future
open Conc

variable {α : Type}

/-- The goroutines have not done anything yet: they are about to deliver or to wait. -/
def Fresh (ls : List (Th α)) : Prop := ∀ l ∈ ls, (∃ v, l = .deliver v) ∨ l = .wait

theorem set_get {β : Type} {ls : List β} {i j : Nat} {l x y : β} (h : ls[i]? = some y) (hx : (ls.set i l)[j]? = some x) :
    (j = i ∧ x = l) ∨ (j ≠ i ∧ ls[j]? = some x) := by
  by_cases hij : j = i
  · subst hij
    have : j < ls.length := (List.getElem?_eq_some_iff.mp h).1
    rw [List.getElem?_set_self this] at hx
    exact .inl ⟨rfl, (Option.some.inj hx).symm⟩
  · rw [List.getElem?_set_ne (fun e => hij e.symm)] at hx
    exact .inr ⟨hij, hx⟩

theorem get_set {β : Type} {ls : List β} {i : Nat} {y : β} (h : ls[i]? = some y) (l : β) : (ls.set i l)[i]? = some l := by
  rw [List.getElem?_set_self (List.getElem?_eq_some_iff.mp h).1]

/-- The invariant with any number of deliveries. -/
structure FInv (s : Fut α) (ls : List (Th α)) : Prop where
  woken : ∀ i : Nat, (ls[i]? = some .woken ∨ ∃ x, ls[i]? = some (.got x)) → s.closed = true
  closed : s.closed = true → ∃ j : Nat, ls[j]? = some .delivered
  open_ : s.closed = false → ∀ j : Nat, ls[j]? ≠ some .delivered
  one : ∀ i j : Nat, ls[i]? = some .delivered → ls[j]? = some .delivered → i = j

theorem FInv.step {s s' : Fut α} {ls ls' : List (Th α)} (h : FInv s ls) (hs : Step Act (s, ls) (s', ls')) : FInv s' ls' := by
  cases hs with
  | mk i hi ha =>
    have key : ∀ {l l'} {t : Fut α}, ls[i]? = some l → t.closed = s.closed → l ≠ .delivered → l' ≠ .delivered →
        (l' = .woken ∨ (∃ x, l' = .got x) → s.closed = true) → FInv t (ls.set i l') := by
      intro l l' t hi ht h1 h2 h3
      refine ⟨fun j hj => ?_, fun hc => ?_, fun hc j hj => ?_, fun a b ha hb => ?_⟩
      · rw [ht]
        rcases hj with hj | ⟨x, hj⟩
        · rcases set_get hi hj with ⟨_, e⟩ | ⟨_, e⟩
          · exact h3 (.inl e.symm)
          · exact h.woken j (.inl e)
        · rcases set_get hi hj with ⟨_, e⟩ | ⟨_, e⟩
          · exact h3 (.inr ⟨x, e.symm⟩)
          · exact h.woken j (.inr ⟨x, e⟩)
      · obtain ⟨j, hj⟩ := h.closed (ht ▸ hc)
        refine ⟨j, ?_⟩
        rw [List.getElem?_set_ne, hj]
        rintro rfl
        rw [hi] at hj
        exact h1 (Option.some.inj hj)
      · rcases set_get hi hj with ⟨_, e⟩ | ⟨_, e⟩
        · exact h2 e.symm
        · exact h.open_ (ht ▸ hc) j e
      · rcases set_get hi ha with ⟨_, e⟩ | ⟨_, e⟩
        · exact absurd e.symm h2
        · rcases set_get hi hb with ⟨_, e'⟩ | ⟨_, e'⟩
          · exact absurd e'.symm h2
          · exact h.one a b e e'
    cases ha with
    | write => exact key hi rfl (by simp) (by simp) (by simp)
    | closeClosed => exact key hi rfl (by simp) (by simp) (by simp)
    | receive => exact key hi rfl (by simp) (by simp) (by simp)
    | read => exact key hi rfl (by simp) (by simp) (fun _ => h.woken i (.inl hi))
    | close =>
      have ho := h.open_ rfl
      refine ⟨fun _ _ => rfl, fun _ => ⟨i, get_set hi _⟩, fun hc => by simp at hc, fun a b ha hb => ?_⟩
      rcases set_get hi ha with ⟨e, _⟩ | ⟨_, e⟩
      · rcases set_get hi hb with ⟨e', _⟩ | ⟨_, e'⟩
        · rw [e, e']
        · exact absurd e' (ho b)
      · exact absurd e (ho a)

theorem fresh_inv {z : α} {ls : List (Th α)} (h : Fresh ls) : FInv (new z) ls := by
  have no : ∀ (i : Nat) (l : Th α), ls[i]? = some l → (∃ v, l = .deliver v) ∨ l = .wait := fun i l hl => h l (List.mem_of_getElem? hl)
  refine ⟨fun i hi => ?_, fun hc => by simp [new] at hc, fun _ j hj => ?_, fun i _ hi => ?_⟩
  · rcases hi with hi | ⟨x, hi⟩ <;> simpa using no _ _ hi
  · simpa using no _ _ hj
  · simpa using no _ _ hi

theorem reach_inv {z : α} {ls ls' : List (Th α)} {s : Fut α} (h : Fresh ls) (hr : Reach Act (new z, ls) (s, ls')) : FInv s ls' := by
  have : ∀ c, Reach Act (new z, ls) c → FInv c.1 c.2 := by
    intro c hc
    induction hc with
    | refl => exact fresh_inv h
    | tail _ hs ih => exact ih.step hs
  exact this _ hr

/-- **C48.** `Wait` blocks until a delivery is complete: in every reachable state in which some `Wait` has passed its
receive, a `Deliver` has closed the channel. -/
theorem C48_blocks (z : α) (ls ls' : List (Th α)) (s : Fut α) (h : Fresh ls) (hr : Reach Act (new z, ls) (s, ls')) (i : Nat)
    (hi : ls'[i]? = some .woken ∨ ∃ x, ls'[i]? = some (.got x)) : ∃ j : Nat, ls'[j]? = some .delivered :=
  (reach_inv h hr).closed ((reach_inv h hr).woken i hi)

/-- Steps of one goroutine only. -/
inductive Alone {S L : Type} (act : S → L → S → L → Prop) (i : Nat) : S × List L → S × List L → Prop
  | refl {c} : Alone act i c c
  | step {s s' : S} {l l' : L} {ls : List L} {c} : ls[i]? = some l → act s l s' l' → Alone act i (s', ls.set i l') c → Alone act i (s, ls) c

/-- **C48.** Once a delivery is complete, every goroutine that waits, now or later, can return without help from any other
goroutine, and nothing can block it again. -/
theorem C48_wakes (z : α) (ls ls' : List (Th α)) (s : Fut α) (h : Fresh ls) (hr : Reach Act (new z, ls) (s, ls')) (j : Nat)
    (hj : ls'[j]? = some .delivered) :
    (∀ i, ls'[i]? = some .wait ∨ ls'[i]? = some .woken → ∃ x, Alone Act i (s, ls') (s, ls'.set i (.got x))) ∧
    (∀ s'' ls'', Step Act (s, ls') (s'', ls'') → ls''[j]? = some .delivered) := by
  have hc : s.closed = true := by
    cases hc : s.closed with
    | true => rfl
    | false => exact absurd hj ((reach_inv h hr).open_ hc j)
  obtain ⟨v, c⟩ := s
  simp only at hc
  subst hc
  constructor
  · rintro i (hi | hi)
    · refine ⟨v, .step hi .receive (.step (get_set hi _) .read ?_)⟩
      rw [List.set_set]
      exact .refl
    · exact ⟨v, .step hi .read .refl⟩
  · intro s'' ls'' hs
    cases hs with
    | mk i hi ha =>
      rw [List.getElem?_set_ne, hj]
      rintro rfl
      rw [hi] at hj
      cases (Option.some.inj hj)
      cases ha

/-- The invariant with a single delivery, of `v` by goroutine `k`. -/
structure OneInv (k : Nat) (v : α) (s : Fut α) (ls : List (Th α)) : Prop where
  deliverer : ls[k]? = some (.deliver v) ∧ s.closed = false ∨ ls[k]? = some (.delivering v) ∧ s.closed = false ∧ s.value = v ∨
    ls[k]? = some .delivered ∧ s.closed = true ∧ s.value = v
  others : ∀ (i : Nat) l, i ≠ k → ls[i]? = some l → l = .wait ∨ (l = .woken ∧ s.closed = true) ∨ (l = .got v ∧ s.closed = true)

theorem OneInv.step {k : Nat} {v : α} {s s' : Fut α} {ls ls' : List (Th α)} (h : OneInv k v s ls) (hs : Step Act (s, ls) (s', ls')) :
    OneInv k v s' ls' := by
  cases hs with
  | @mk _ _ l l' _ i hi ha =>
    by_cases hk : i = k
    · subst hk
      rcases h.deliverer with ⟨h1, h2⟩ | ⟨h1, h2, h3⟩ | ⟨h1, h2, h3⟩
      · rw [hi] at h1
        cases Option.some.inj h1
        cases ha with
        | write =>
          refine ⟨.inr (.inl ⟨get_set hi _, h2, rfl⟩), fun j l hj hl => ?_⟩
          rw [List.getElem?_set_ne (fun e => hj e.symm)] at hl
          exact h.others j l hj hl
      · rw [hi] at h1
        cases Option.some.inj h1
        cases ha with
        | close =>
          refine ⟨.inr (.inr ⟨get_set hi _, rfl, h3⟩), fun j l hj hl => ?_⟩
          rw [List.getElem?_set_ne (fun e => hj e.symm)] at hl
          rcases h.others j l hj hl with e | ⟨_, e⟩ | ⟨_, e⟩
          · exact .inl e
          · simp at e
          · simp at e
        | closeClosed => simp at h2
      · rw [hi] at h1
        cases Option.some.inj h1
        cases ha
    · have hd : ∀ l, (ls.set i l)[k]? = ls[k]? := fun l => List.getElem?_set_ne (by omega)
      rcases h.others i l hk hi with rfl | ⟨rfl, hc⟩ | ⟨rfl, hc⟩
      · cases ha with
        | receive =>
          refine ⟨by rw [hd]; exact h.deliverer, fun j l hj hl => ?_⟩
          rcases set_get hi hl with ⟨_, e⟩ | ⟨_, e⟩
          · exact .inr (.inl ⟨e, rfl⟩)
          · exact h.others j l hj e
      · cases ha with
        | read =>
          refine ⟨by rw [hd]; exact h.deliverer, fun j l hj hl => ?_⟩
          rcases set_get hi hl with ⟨_, e⟩ | ⟨_, e⟩
          · refine .inr (.inr ⟨?_, hc⟩)
            rcases h.deliverer with ⟨_, h2⟩ | ⟨_, h2, _⟩ | ⟨_, _, h3⟩
            · rw [h2] at hc; cases hc
            · rw [h2] at hc; cases hc
            · rw [e, ← h3]
          · exact h.others j l hj e
      · cases ha

/-- **C48.** If `Deliver` is called once, no interleaving panics, and every `Wait` that returns gives the delivered
value. -/
theorem C48_value (z : α) (ls ls' : List (Th α)) (s : Fut α) (k : Nat) (v : α) (hk : ls[k]? = some (.deliver v))
    (h : ∀ (i : Nat) l, i ≠ k → ls[i]? = some l → l = .wait) (hr : Reach Act (new z, ls) (s, ls')) (i : Nat) :
    ls'[i]? ≠ some .panicked ∧ ∀ x, ls'[i]? = some (.got x) → x = v := by
  have hinv : ∀ c, Reach Act (new z, ls) c → OneInv k v c.1 c.2 := by
    intro c hc
    induction hc with
    | refl => exact ⟨.inl ⟨hk, rfl⟩, fun i l hi hl => .inl (h i l hi hl)⟩
    | tail _ hs ih => exact ih.step hs
  have hi := hinv _ hr
  by_cases e : i = k
  · subst e
    rcases hi.deliverer with ⟨h1, _⟩ | ⟨h1, _⟩ | ⟨h1, _⟩ <;> simp only at h1 <;> rw [h1] <;> simp
  · constructor
    · intro hp
      simpa using hi.others i _ e hp
    · intro x hx
      have := hi.others i _ e hx
      simp at this
      exact this.1

/-- **C48.** Of any number of calls of `Deliver` at most one returns; every other one that gets to its end panics. -/
theorem C48_second (z : α) (ls ls' : List (Th α)) (s : Fut α) (h : Fresh ls) (hr : Reach Act (new z, ls) (s, ls')) :
    (∀ i j : Nat, ls'[i]? = some .delivered → ls'[j]? = some .delivered → i = j) ∧
    (∀ (j : Nat) (s'' : Fut α) (l v l''), ls'[j]? = some .delivered → l = .delivering v → Act s l s'' l'' → l'' = .panicked) := by
  refine ⟨(reach_inv h hr).one, fun j s'' l v l'' hj hl ha => ?_⟩
  subst hl
  cases ha with
  | closeClosed => rfl
  | close => exact absurd hj ((reach_inv h hr).open_ rfl j)

/-- The second call of `Deliver` panics only after it has changed the value, so a goroutine that waits can get either. -/
example : Reach Act (new 0, [.deliver 1, .deliver 2, .wait]) (⟨2, true⟩, [.delivered, .delivering 2, .got 2]) := by
  refine .head (.mk 0 rfl .write) (.head (.mk 0 rfl .close) (.head (.mk 1 rfl .write) (.head (.mk 2 rfl .receive) (.head (.mk 2 rfl .read) .refl))))

/-- One delivery and two goroutines that wait, one of them from the start. -/
example : Reach Act (new 0, [.wait, .deliver 7, .wait]) (⟨7, true⟩, [.got 7, .delivered, .got 7]) := by
  refine .head (.mk 1 rfl .write) (.head (.mk 1 rfl .close) (.head (.mk 2 rfl .receive) (.head (.mk 0 rfl .receive) (.head (.mk 2 rfl .read)
    (.head (.mk 0 rfl .read) .refl)))))

end Drip.Future
