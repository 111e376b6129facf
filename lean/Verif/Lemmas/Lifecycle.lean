import Verif.Model.Lifecycle
/-
Invariants of the life of a client.
-/

namespace Drip.Lifecycle
open Tracker

theorem run_append (s : State) (es fs : List Event) : run s (es ++ fs) = run (run s es) fs := by
  induction es generalizing s with
  | nil => rfl
  | cons e es ih => exact ih _

/-- A property kept by every step that is possible holds after every history. -/
theorem run_induction {R : List Event → State → Prop} (h0 : R [] new)
    (hs : ∀ es e s s', R es s → step s e = some s' → R (es ++ [e]) s') (hn : ∀ es e s, R es s → step s e = none → R (es ++ [e]) s) (es : List Event) : R es (run new es) := by
  suffices H : ∀ fs es s, R es s → R (es ++ fs) (run s fs) from H es [] new h0
  intro fs
  induction fs with
  | nil => intro es s h; simpa [run] using h
  | cons e fs ih =>
    intro es s h
    have : R (es ++ [e]) ((step s e).getD s) := by
      cases hstep : step s e with
      | none => exact hn es e s h hstep
      | some s' => exact hs es e s s' h hstep
    have := ih (es ++ [e]) _ this
    simpa [run] using this

theorem run_snoc (s : State) (es : List Event) (e : Event) : run s (es ++ [e]) = (step (run s es) e).getD (run s es) := by
  rw [run_append]; rfl

/-- The same, about the state after the history. -/
theorem run_induction' {R : List Event → State → Prop} (h0 : R [] new)
    (hs : ∀ es e s', R es (run new es) → step (run new es) e = some s' → R (es ++ [e]) s') (hn : ∀ es e, R es (run new es) → step (run new es) e = none → R (es ++ [e]) (run new es))
    (es : List Event) : R es (run new es) := by
  refine (run_induction (R := fun es s => s = run new es ∧ R es s) ⟨rfl, h0⟩ ?_ ?_ es).2
  · rintro es e s s' ⟨rfl, hr⟩ h
    exact ⟨by rw [run_snoc, h]; rfl, hs es e s' hr h⟩
  · rintro es e s ⟨rfl, hr⟩ h
    exact ⟨by rw [run_snoc, h]; rfl, hn es e hr h⟩

/-- `Start` has not yet begun to ask the tracker. -/
def Main.early : Main → Bool
  | .idle | .loaded | .listening => true
  | _ => false

/-- A call of `Stop` that holds the lock. -/
def StopCall.inside : StopCall → Bool
  | .locked | .cancelled | .closed | .asking | .told => true
  | _ => false

/-- A call of `Stop` that has told the tracker. -/
def StopCall.hasTold : StopCall → Bool
  | .asking | .told | .returned => true
  | _ => false

/-- A call of `Stop` that has closed the socket. -/
def StopCall.hasClosed : StopCall → Bool
  | .closed | .asking | .told | .returned => true
  | _ => false

/-- The invariant; `n` is the number of calls of `Stop` by the user. -/
structure Inv (n : Nat) (s : State) : Prop where
  cancel : s.hasCancel = false → s.main = .idle ∨ s.main = .loaded ∨ s.main = .returned
  cancel' : s.main = .idle ∨ s.main = .loaded → s.hasCancel = false
  ctx : s.done = true → s.hasCancel = true
  before : s.main.early = true ∨ s.hasCancel = false →
    STARTED ∉ s.told ∧ s.watching = false ∧ s.serve = .absent ∧ s.request = .absent ∧ s.dial = .absent ∧ s.unchoker = .absent ∧ s.announcer = .absent ∧ s.stops.length ≤ n
  after : s.hasCancel = true → s.main.early = false →
    STARTED ∈ s.told ∧ s.serve ≠ .absent ∧ s.request ≠ .absent ∧ s.dial ≠ .absent ∧ s.unchoker ≠ .absent ∧ (s.watching = true ∨ ∃ c ∈ s.stops, c ≠ .refused)
  noann : s.main = .asking ∨ (∃ ps i, s.main = .adding ps i) → s.announcer = .absent
  ann : s.main = .unchoking ∨ s.main = .waiting → s.announcer ≠ .absent
  calls : s.stops.length + (if s.watching then 1 else 0) ≤ n + 1
  once : s.told.count STARTED ≤ 1
  only : ∀ e ∈ s.told, e = STARTED ∨ e = ANNOUNCE ∨ e = STOPPED
  stopped : s.told.count STOPPED = s.stops.countP StopCall.hasTold
  mutex : ∀ k, s.lock = some (.stop k) ↔ ∃ c, s.stops[k]? = some c ∧ c.inside = true
  shut : ∀ c ∈ s.stops, c.hasClosed = true → s.open_ = false
  own : ∀ c ∈ s.stops, c ≠ .waiting → c ≠ .refused → s.hasCancel = true
  quit : ∀ c ∈ s.stops, c ≠ .waiting → c ≠ .refused → c ≠ .locked → s.done = true

theorem inv_new : Inv 0 new := by
  constructor <;> simp [new, Main.early]

theorem mem_set' {α : Type} {l : List α} {k : Nat} {a b : α} (h : a ∈ l.set k b) : a ∈ l ∨ a = b := List.mem_or_eq_of_mem_set h

theorem countP_set {l : List StopCall} {k : Nat} {c d : StopCall} (h : l[k]? = some c) (p : StopCall → Bool) :
    (l.set k d).countP p + (if p c then 1 else 0) = l.countP p + if p d then 1 else 0 := by
  induction l generalizing k with
  | nil => simp at h
  | cons x l ih =>
    cases k with
    | zero =>
      simp at h; subst h
      simp only [List.set_cons_zero, List.countP_cons]
      omega
    | succ k =>
      simp only [List.getElem?_cons_succ] at h
      simp only [List.set_cons_succ, List.countP_cons]
      have := ih h
      omega

/-- Changing the k-th call of `Stop` keeps what the invariant says about the list. -/
theorem inv_set {n : Nat} {s : State} (hi : Inv n s) {k : Nat} {c d : StopCall} (h : s.stops[k]? = some c) (hc : c ≠ .refused) (hd : d ≠ .refused ∨ s.hasCancel = false)
    (lock : Option Owner) (done open_ : Bool) (told : List Bytes)
    (hdone : done = true → s.hasCancel = true) (hdone' : s.done = true → done = true) (hopen : open_ = true → s.open_ = true)
    (htold : told = s.told ∨ told = s.told ++ [STOPPED])
    (hcount : told.count STOPPED + (if c.hasTold then 1 else 0) = s.told.count STOPPED + if d.hasTold then 1 else 0)
    (hlock : ∀ j, lock = some (.stop j) ↔ if j = k then d.inside = true else s.lock = some (.stop j))
    (hclosed : d.hasClosed = true → open_ = false) (hown : d ≠ .waiting → d ≠ .refused → s.hasCancel = true) (hquit : d ≠ .waiting → d ≠ .refused → d ≠ .locked → done = true) :
    Inv n { s with stops := s.stops.set k d, lock := lock, done := done, open_ := open_, told := told } := by
  have hk : k < s.stops.length := by
    rcases Nat.lt_or_ge k s.stops.length with h' | h'
    · exact h'
    · rw [List.getElem?_eq_none h'] at h; cases h
  have hne : STOPPED ≠ STARTED := by decide
  have hmem : STARTED ∈ told ↔ STARTED ∈ s.told := by
    rcases htold with rfl | rfl
    · rfl
    · simp [hne.symm]
  refine ⟨hi.cancel, hi.cancel', fun h => hdone h, ?_, ?_, hi.noann, hi.ann, ?_, ?_, ?_, ?_, ?_, ?_, ?_, ?_⟩
  · intro hb
    have := hi.before hb
    simp only [List.length_set]
    rw [hmem]
    exact this
  · intro h1 h2
    obtain ⟨a1, a2, a3, a4, a5, a6⟩ := hi.after h1 h2
    refine ⟨hmem.2 a1, a2, a3, a4, a5, ?_⟩
    rcases a6 with a6 | ⟨c', hc', hr⟩
    · exact .inl a6
    · refine .inr ⟨d, List.mem_set hk d, ?_⟩
      rcases hd with hd | hd
      · exact hd
      · simp only at h1; rw [hd] at h1; cases h1
  · simpa using hi.calls
  · rcases htold with rfl | rfl
    · exact hi.once
    · simp only [List.count_append]
      rw [List.count_eq_zero (a := STARTED) (l := [STOPPED]) |>.2 (by simp [hne.symm])]
      exact hi.once
  · intro e he
    rcases htold with rfl | rfl
    · exact hi.only e he
    · rcases List.mem_append.1 he with he | he
      · exact hi.only e he
      · simp at he; exact .inr (.inr he)
  · have := countP_set (d := d) h StopCall.hasTold
    have h2 := hi.stopped
    simp only
    omega
  · intro j
    simp only
    rw [hlock j, List.getElem?_set]
    by_cases hj : j = k
    · subst hj; simp [hk]
    · rw [if_neg hj, if_neg (fun h => hj h.symm)]
      exact hi.mutex j
  · intro c' hc' hcl
    rcases mem_set' hc' with h' | rfl
    · have := hi.shut c' h' hcl
      cases ho : open_ with
      | false => rfl
      | true => rw [hopen ho] at this; cases this
    · exact hclosed hcl
  · intro c' hc'
    rcases mem_set' hc' with h' | rfl
    · exact hi.own c' h'
    · exact hown
  · intro c' hc' h1 h2 h3
    rcases mem_set' hc' with h' | rfl
    · exact hdone' (hi.quit c' h' h1 h2 h3)
    · exact hquit h1 h2 h3

theorem inv_stopStep {n : Nat} {s s' : State} (hi : Inv n s) {k : Nat} (h : stopStep s k = some s') : Inv n s' := by
  unfold stopStep at h
  have own : ∀ c, s.stops[k]? = some c → c ≠ .waiting → c ≠ .refused → s.hasCancel = true := fun c hc => hi.own c (List.mem_of_getElem? hc)
  have quit : ∀ c, s.stops[k]? = some c → c ≠ .waiting → c ≠ .refused → c ≠ .locked → s.done = true := fun c hc => hi.quit c (List.mem_of_getElem? hc)
  have held : ∀ c, s.stops[k]? = some c → c.inside = true → s.lock = some (.stop k) := fun c hc hin => (hi.mutex k).2 ⟨c, hc, hin⟩
  split at h
  · next hk =>
    by_cases hl : s.lock = none
    · rw [if_neg (by simp [hl])] at h
      by_cases hc : s.hasCancel = false
      · rw [if_pos hc] at h
        cases h
        refine inv_set hi hk (by decide) (.inr hc) s.lock s.done s.open_ s.told hi.ctx id id (.inl rfl) (by simp [StopCall.hasTold]) ?_ (by simp [StopCall.hasClosed]) (by simp) (by simp)
        intro j
        by_cases hj : j = k
        · simp [hj, hl, StopCall.inside]
        · rw [if_neg hj]
      · rw [if_neg hc] at h
        cases h
        refine inv_set hi hk (by decide) (.inl (by decide)) (some (.stop k)) s.done s.open_ s.told hi.ctx id id (.inl rfl) (by simp [StopCall.hasTold]) ?_ (by simp [StopCall.hasClosed]) (by simpa using hc) (by simp)
        intro j
        by_cases hj : j = k
        · simp [hj, StopCall.inside]
        · simp [hj, hl, Ne.symm hj]
    · rw [if_pos hl] at h; cases h
  · next hk =>
    cases h
    refine inv_set hi hk (by decide) (.inl (by decide)) s.lock true s.open_ s.told (fun _ => own _ hk (by decide) (by decide)) (fun _ => rfl) id (.inl rfl) (by simp [StopCall.hasTold]) ?_
      (by simp [StopCall.hasClosed]) (fun _ _ => own _ hk (by decide) (by decide)) (by simp)
    intro j
    by_cases hj : j = k
    · simp [hj, StopCall.inside, held _ hk rfl]
    · rw [if_neg hj]
  · next hk =>
    cases h
    refine inv_set hi hk (by decide) (.inl (by decide)) s.lock s.done false s.told hi.ctx id (by simp) (.inl rfl) (by simp [StopCall.hasTold]) ?_
      (by simp) (fun _ _ => own _ hk (by decide) (by decide)) (fun _ _ _ => quit _ hk (by decide) (by decide) (by decide))
    intro j
    by_cases hj : j = k
    · simp [hj, StopCall.inside, held _ hk rfl]
    · rw [if_neg hj]
  · next hk =>
    cases h
    refine inv_set hi hk (by decide) (.inl (by decide)) s.lock s.done s.open_ (s.told ++ [STOPPED]) hi.ctx id id (.inr rfl) (by simp [StopCall.hasTold]) ?_
      (fun _ => hi.shut _ (List.mem_of_getElem? hk) rfl) (fun _ _ => own _ hk (by decide) (by decide)) (fun _ _ _ => quit _ hk (by decide) (by decide) (by decide))
    intro j
    by_cases hj : j = k
    · simp [hj, StopCall.inside, held _ hk rfl]
    · rw [if_neg hj]
  · next hk =>
    cases h
    refine inv_set hi hk (by decide) (.inl (by decide)) none s.done s.open_ s.told hi.ctx id id (.inl rfl) (by simp [StopCall.hasTold]) ?_
      (fun _ => hi.shut _ (List.mem_of_getElem? hk) rfl) (fun _ _ => own _ hk (by decide) (by decide)) (fun _ _ _ => quit _ hk (by decide) (by decide) (by decide))
    intro j
    by_cases hj : j = k
    · simp [hj, StopCall.inside]
    · simp [hj, held _ hk rfl, Ne.symm hj]
  · cases h

/-- One more call of `Stop`. -/
theorem inv_call {n n' : Nat} {s : State} (hi : Inv n s) (watching : Bool) (hw : watching = s.watching ∧ n' = n + 1 ∨ watching = false ∧ s.watching = true ∧ n' = n) :
    Inv n' { s with stops := s.stops ++ [.waiting], watching := watching } := by
  refine ⟨hi.cancel, hi.cancel', hi.ctx, ?_, ?_, hi.noann, hi.ann, ?_, hi.once, hi.only, ?_, ?_, ?_, ?_, ?_⟩
  · intro hb
    obtain ⟨b1, b2, b3, b4, b5, b6, b7, b8⟩ := hi.before hb
    rcases hw with ⟨rfl, rfl⟩ | ⟨rfl, hw, rfl⟩
    · refine ⟨b1, b2, b3, b4, b5, b6, b7, ?_⟩
      simp only [List.length_append, List.length_cons, List.length_nil]; omega
    · rw [b2] at hw; cases hw
  · intro h1 h2
    obtain ⟨a1, a2, a3, a4, a5, _⟩ := hi.after h1 h2
    exact ⟨a1, a2, a3, a4, a5, .inr ⟨.waiting, by simp, by decide⟩⟩
  · have := hi.calls
    rcases hw with ⟨rfl, rfl⟩ | ⟨rfl, hw, rfl⟩
    · simp only [List.length_append, List.length_cons, List.length_nil]; omega
    · simp only [hw, if_true] at this
      simp; omega
  · simp only [List.countP_append, hi.stopped]
    simp [StopCall.hasTold]
  · intro k
    simp only
    rw [hi.mutex k, List.getElem?_append]
    by_cases hk : k < s.stops.length
    · simp [hk]
    · rw [if_neg hk, List.getElem?_eq_none (by omega)]
      constructor
      · rintro ⟨c, hc, _⟩; cases hc
      · rintro ⟨c, hc, hin⟩
        cases hd : k - s.stops.length with
        | zero => rw [hd] at hc; simp at hc; subst hc; cases hin
        | succ j => rw [hd] at hc; simp at hc
  · intro c hc
    rcases List.mem_append.1 hc with hc | hc
    · exact hi.shut c hc
    · simp at hc; subst hc; intro h; cases h
  · intro c hc
    rcases List.mem_append.1 hc with hc | hc
    · exact hi.own c hc
    · simp at hc; subst hc; intro h; exact absurd rfl h
  · intro c hc
    rcases List.mem_append.1 hc with hc | hc
    · exact hi.quit c hc
    · simp at hc; subst hc; intro h; exact absurd rfl h

set_option maxHeartbeats 1000000 in
theorem inv_step {n : Nat} {s s' : State} {e : Event} (hi : Inv n s) (h : step s e = some s') : Inv (n + if e = .stop then 1 else 0) s' := by
  have hne : STOPPED ≠ STARTED := by decide
  have hne' : ANNOUNCE ≠ STARTED := by decide
  have hne'' : ANNOUNCE ≠ STOPPED := by decide
  cases e with
  | stop =>
    simp only [step] at h
    split at h
    · cases h; exact inv_call hi _ (.inl ⟨rfl, rfl⟩)
    · cases h
  | watch =>
    simp only [step] at h
    split at h
    · next hg => cases h; exact inv_call hi _ (.inr ⟨rfl, hg.2.1, rfl⟩)
    · cases h
  | stopStep k =>
    simp only [step] at h
    split at h
    · exact inv_stopStep hi h
    · cases h
  | stopAnswer k a =>
    simp only [step] at h
    split at h
    · next hg =>
      split at h
      · cases h; exact ⟨hi.cancel, hi.cancel', hi.ctx, hi.before, hi.after, hi.noann, hi.ann, hi.calls, hi.once, hi.only, hi.stopped, hi.mutex, hi.shut, hi.own, hi.quit⟩
      · cases h
        have hk := hg.2
        have hm := List.mem_of_getElem? hk
        refine inv_set hi hk (by decide) (.inl (by decide)) s.lock s.done s.open_ s.told hi.ctx id id (.inl rfl) (by simp [StopCall.hasTold]) ?_
          (fun _ => hi.shut _ hm rfl) (fun _ _ => hi.own _ hm (by decide) (by decide)) (fun _ _ _ => hi.quit _ hm (by decide) (by decide) (by decide))
        intro j
        by_cases hj : j = k
        · simp [hj, StopCall.inside, (hi.mutex k).2 ⟨_, hk, rfl⟩]
        · rw [if_neg hj]
    · cases h
  | launch =>
    simp only [step] at h
    split at h
    · next hg =>
      cases h
      have he : s.main.early = true := by rw [hg.2]; rfl
      obtain ⟨b1, b2, b3, b4, b5, b6, b7, b8⟩ := hi.before (.inl he)
      refine ⟨?_, by simp, hi.ctx, ?_, ?_, ?_, by simp, ?_, ?_, ?_, ?_, hi.mutex, hi.shut, hi.own, hi.quit⟩
      · intro hc; rcases hi.cancel hc with h | h | h <;> rw [hg.2] at h <;> cases h
      · rintro (hb | hb)
        · cases hb
        · rcases hi.cancel hb with h | h | h <;> rw [hg.2] at h <;> cases h
      · intro _ _; simp
      · intro _; exact b7
      · simp; omega
      · simp only [List.count_append, List.count_eq_zero.2 b1]; decide
      · intro e he
        rcases List.mem_append.1 he with he | he
        · exact hi.only e he
        · simp at he; exact .inl he
      · simp only [List.count_append, hi.stopped]
        have : List.count STOPPED [STARTED] = 0 := by decide
        simp [this]
    · cases h
  | _ =>
    obtain ⟨i1, i2, i3, i4, i5, i6, i7, i8, i9, i10, i11, i12, i13, i14, i15⟩ := hi
    simp only [step] at h
    (repeat' split at h) <;> first | (cases h; done) | skip
    all_goals
      cases h
      refine ⟨?_, ?_, ?_, ?_, ?_, ?_, ?_, ?_, ?_, ?_, ?_, ?_, ?_, ?_, ?_⟩
      all_goals first
        | assumption
        | (simp_all [Main.early]; done)
        | (intro k; refine Iff.trans ?_ (i12 k); rename_i hg; simp [hg.2]; done)
        | (intro c hc hcl
           have hf := i2 (by simp_all)
           have := i14 c hc (by rintro rfl; cases hcl) (by rintro rfl; cases hcl)
           rw [hf] at this
           cases this)
        | (intro c hc; rcases List.mem_append.1 hc with hc | hc
           · exact i10 c hc
           · exact .inr (.inl (by simpa using hc)))

end Drip.Lifecycle
