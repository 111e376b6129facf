import Verif.Model.TempFiles
import Verif.Props.Storage
/-
C138: temporary files.
-/

namespace Drip.TempFiles
open Storage Metainfo

variable {cfg : Cfg} {α β : Type}

/-! ### The same results -/

/-- The code with temporary files does the same. -/
def Same (p : T α) (q : Op α) : Prop := ∀ s f t, (p s f t).1 = q s f

theorem Same.of (q : Op α) : Same (T.of q) q := fun _ _ _ => rfl

theorem Same.bind {p : T α} {q : Op α} {k : α → T β} {k' : α → Op β} (h : Same p q) (hk : ∀ a, Same (k a) (k' a)) : Same (p >>= k) (q >>= k') := by
  intro s f t
  show (T.bind p k s f t).1 = Op.bind q k' s f
  unfold T.bind Op.bind
  have := h s f t
  generalize p s f t = x at this ⊢
  obtain ⟨⟨o, s', f'⟩, t'⟩ := x
  simp only at this
  rw [← this]
  cases o with
  | ok a => exact hk a s' f' t'
  | err e => rfl
  | panic => rfl
  | crash => rfl

theorem Same.note {g : Tmp → Tmp} {k : T β} {k' : Op β} (h : Same k k') : Same (T.note g >>= fun _ => k) k' := fun s f t => h s f (g t)

theorem Same.withTemp {fd : Nat} {create : Op Unit} {p : T α} {q : Op α} (h : Same p q) : Same (withTemp fd create p) (create >>= fun _ => q) := by
  intro s f t
  show _ = Op.bind create (fun _ => q) s f
  unfold TempFiles.withTemp Op.bind
  generalize create s f = x
  obtain ⟨o, s', f'⟩ := x
  cases o with
  | ok a =>
    simp only
    have := h s' f' { t with count := t.count + 1, own := true, opened := t.opened + fd }
    rw [← this]
    generalize p s' f' _ = y
    obtain ⟨⟨o, s'', f''⟩, t'⟩ := y
    cases o <;> rfl
  | err e => rfl
  | panic => rfl
  | crash => rfl

theorem Same.onErr {p : T α} {q : Op α} (h : Same p q) (hd : Err → Op Unit) : Same (onErr p hd) (Storage.onErr q hd) := by
  intro s f t
  unfold TempFiles.onErr Storage.onErr
  rw [← h s f t]
  generalize p s f t = y
  obtain ⟨⟨o, s'', f''⟩, t'⟩ := y
  cases o with
  | err e =>
    simp only
    generalize hd e s'' f'' = z
    obtain ⟨o, _, _⟩ := z
    cases o <;> rfl
  | ok => rfl
  | panic => rfl
  | crash => rfl

theorem same_blocks (i : Nat) : Same (coalesceBlocks cfg i) (Storage.coalesceBlocks cfg i) := by
  unfold coalesceBlocks Storage.coalesceBlocks
  refine (Same.of _).bind fun x => ?_
  obtain ⟨_, p⟩ := x
  simp only
  split
  · exact .of _
  · refine (Same.of _).bind fun _ => Same.withTemp ?_
    cases joinBlocks (p.blocks.getD []) with
    | none => exact .of _
    | some data =>
      refine (Same.of _).bind fun _ => ?_
      split
      · exact .of _
      · exact (Same.of _).bind fun _ => (Same.of _).bind fun _ => .note (.of _)

theorem same_write (fs : List File) : ∀ buf is acc, Same (writeFiles buf is acc fs) (Storage.writeFiles buf is acc fs) := by
  induction fs with
  | nil => exact fun _ _ _ => .of _
  | cons f fs ih =>
    intro buf is acc
    unfold writeFiles Storage.writeFiles
    split
    · exact .of _
    · refine (Same.of _).bind fun _ => (Same.of _).bind fun _ => .note ((Same.of _).bind fun x => ?_)
      obtain ⟨c, buf, is⟩ := x
      exact (Same.of _).bind fun _ => .note (ih _ _ _)

theorem same_pieces : Same (coalescePieces cfg) (Storage.coalescePieces cfg) := by
  unfold coalescePieces Storage.coalescePieces
  refine (Same.of _).bind fun m => ?_
  split
  · exact .of _
  · split
    · unfold coalesceMulti Storage.coalesceMulti
      exact (Same.of _).bind fun _ => .withTemp ((same_write _ _ _ _).bind fun _ => (Same.of _).bind fun _ => .note ((Same.of _).bind fun _ => .of _))
    · unfold coalesceSingle Storage.coalesceSingle
      exact (Same.of _).bind fun _ => .withTemp ((Same.of _).bind fun _ => (Same.of _).bind fun _ => .note ((Same.of _).bind fun _ => .of _))

theorem same_put (i b : Int) (d : Bytes) : Same (putBlock cfg i b d) (Storage.putBlock cfg i b d) := by
  unfold putBlock Storage.putBlock
  refine (Same.of _).bind fun _ => (Same.of _).bind fun m => ?_
  split
  · exact .of _
  · refine (Same.of _).bind fun x => ?_
    obtain ⟨i, p⟩ := x
    exact (Same.of _).bind fun _ => ((same_blocks i).onErr _).bind fun _ => same_pieces

theorem same_load : Same (load cfg) (Storage.load cfg) := by
  unfold load Storage.load
  refine (Same.of _).bind fun o => ?_
  cases o with
  | some size => exact (Same.of _).bind fun _ => (Same.of _).bind fun _ => (Same.of _).bind fun _ => .of _
  | none =>
    refine (Same.of _).bind fun o => ?_
    cases o with
    | none => exact .of _
    | some es => exact (Same.of _).bind fun _ => same_pieces

theorem same_run {p : T α} {q : Op α} (h : Same p q) (w : World) (f : List Fate) (r : List Bool) (t : Tmp) :
    (runOp p w f r t).1 = (Storage.runOp q w f).1 ∧ (runOp p w f r t).2.1 = (Storage.runOp q w f).2 := by
  unfold runOp Storage.runOp
  cases w.mem with
  | none => exact ⟨rfl, rfl⟩
  | some m =>
    simp only
    rw [← h ⟨w.fs, m⟩ f { t with removals := r }]
    generalize p ⟨w.fs, m⟩ f { t with removals := r } = y
    obtain ⟨⟨o, s'', f''⟩, t'⟩ := y
    cases o <;> exact ⟨rfl, rfl⟩

theorem same_step (x : World × Tmp) (e : Event) (f : List Fate) (r : List Bool) : (step cfg x e f r).1 = Storage.step cfg x.1 e f := by
  cases e with
  | load => exact (same_run same_load _ _ _ _).2
  | put i b d => exact (same_run (same_put i b d) _ _ _ _).2
  | _ => rfl

/-! ### What becomes of the temporary files -/

/-- The outcome is a normal return. -/
def Returns : Out α → Prop
  | .ok _ => True
  | _ => False

/-- Code that leaves temporary files alone; `k`: how many more files may be open if it fails. -/
def Pre (k : Nat) (p : T α) : Prop := ∀ s f t, ∃ o, (p s f t).2 = { t with opened := o } ∧ t.opened ≤ o ∧ o ≤ t.opened + k ∧ (Returns (p s f t).1.1 → o = t.opened)

theorem Pre.of (k : Nat) (q : Op α) : Pre k (T.of q) := fun _ _ t => ⟨t.opened, rfl, Nat.le_refl _, by omega, fun _ => rfl⟩

theorem Pre.bind {k : Nat} {p : T α} {g : α → T β} (h : Pre k p) (hk : ∀ a, Pre k (g a)) : Pre k (p >>= g) := by
  intro s f t
  show ∃ o, (T.bind p g s f t).2 = _ ∧ _ ∧ _ ∧ (Returns (T.bind p g s f t).1.1 → _)
  unfold T.bind
  obtain ⟨o, h1, h2, h3, h4⟩ := h s f t
  generalize p s f t = x at h1 h4 ⊢
  obtain ⟨⟨r, s', f'⟩, t'⟩ := x
  simp only at h1 h4
  subst h1
  cases r with
  | ok a =>
    have := h4 trivial
    subst this
    exact hk a s' f' _
  | err e => exact ⟨o, rfl, h2, h3, fun h => h.elim⟩
  | panic => exact ⟨o, rfl, h2, h3, fun h => h.elim⟩
  | crash => exact ⟨o, rfl, h2, h3, fun h => h.elim⟩

theorem pre_write (fs : List File) : ∀ buf is acc, Pre 1 (writeFiles buf is acc fs) := by
  induction fs with
  | nil => exact fun _ _ _ => .of _ _
  | cons f fs ih =>
    intro buf is acc
    unfold writeFiles
    split
    · exact .of _ _
    · refine (Pre.of _ _).bind fun _ => (Pre.of _ _).bind fun _ => ?_
      intro s g t
      show ∃ o, (T.bind (T.of (copyN f.length.toNat buf is)) _ s g { t with opened := t.opened + 1 }).2 = _ ∧ _ ∧ _ ∧ (Returns (T.bind (T.of (copyN f.length.toNat buf is)) _ s g { t with opened := t.opened + 1 }).1.1 → _)
      unfold T.bind T.of
      cases copyN f.length.toNat buf is s g with
      | mk r x =>
        obtain ⟨s', g'⟩ := x
        cases r with
        | ok a =>
          obtain ⟨c, buf', is'⟩ := a
          simp only
          show ∃ o, (T.bind (T.of Op.callTemp) _ s' g' { t with opened := t.opened + 1 }).2 = _ ∧ _ ∧ _ ∧ (Returns (T.bind (T.of Op.callTemp) _ s' g' { t with opened := t.opened + 1 }).1.1 → _)
          unfold T.bind T.of
          cases Op.callTemp s' g' with
          | mk r x =>
            obtain ⟨s'', g''⟩ := x
            cases r with
            | ok a =>
              simp only
              have := ih buf' is' (storePath f.path c acc) s'' g'' { t with opened := t.opened + 1 - 1 }
              exact this
            | err e => exact ⟨_, rfl, by omega, Nat.le_refl _, fun h => h.elim⟩
            | panic => exact ⟨_, rfl, by omega, Nat.le_refl _, fun h => h.elim⟩
            | crash => exact ⟨_, rfl, by omega, Nat.le_refl _, fun h => h.elim⟩
        | err e => exact ⟨_, rfl, by omega, Nat.le_refl _, fun h => h.elim⟩
        | panic => exact ⟨_, rfl, by omega, Nat.le_refl _, fun h => h.elim⟩
        | crash => exact ⟨_, rfl, by omega, Nat.le_refl _, fun h => h.elim⟩

/-- Code that uses a temporary file, and perhaps renames it. -/
def Body (k : Nat) (p : T α) : Prop := ∀ s f t, ∃ o, ((p s f t).2 = { t with opened := o } ∨ (p s f t).2 = { t with opened := o, count := t.count - 1, own := false }) ∧ t.opened ≤ o ∧ o ≤ t.opened + k ∧
  (Returns (p s f t).1.1 → o = t.opened)

theorem Pre.body {k : Nat} {p : T α} (h : Pre k p) : Body k p := fun s f t => by
  obtain ⟨o, h1, h2⟩ := h s f t
  exact ⟨o, .inl h1, h2⟩

theorem Body.bind {k : Nat} {p : T α} {g : α → T β} (h : Pre k p) (hk : ∀ a, Body k (g a)) : Body k (p >>= g) := by
  intro s f t
  show ∃ o, ((T.bind p g s f t).2 = _ ∨ (T.bind p g s f t).2 = _) ∧ _ ∧ _ ∧ (Returns (T.bind p g s f t).1.1 → _)
  unfold T.bind
  obtain ⟨o, h1, h2, h3, h4⟩ := h s f t
  generalize p s f t = x at h1 h4 ⊢
  obtain ⟨⟨r, s', f'⟩, t'⟩ := x
  simp only at h1 h4
  subst h1
  cases r with
  | ok a =>
    have := h4 trivial
    subst this
    exact hk a s' f' _
  | err e => exact ⟨o, .inl rfl, h2, h3, fun h => h.elim⟩
  | panic => exact ⟨o, .inl rfl, h2, h3, fun h => h.elim⟩
  | crash => exact ⟨o, .inl rfl, h2, h3, fun h => h.elim⟩

theorem Body.moved {k : Nat} {p : T α} (h : Pre k p) : Body k (moved >>= fun _ => p) := fun s f t => by
  obtain ⟨o, h1, h2, h3, h4⟩ := h s f { t with count := t.count - 1, own := false }
  exact ⟨o, .inr h1, h2, h3, h4⟩

/-- A call: what it adds to the temporary files are those whose removal fails, and one if the process dies; `k`: how many more files may be open if it fails. -/
def Call (k : Nat) (p : T α) : Prop := ∀ s f t, t.own = false → ∃ a b,
  (p s f t).2.own = false ∧ (p s f t).2.count = t.count + a + b ∧ (p s f t).2.failed = t.failed + a ∧ (p s f t).2.died = t.died + b ∧
  a + (p s f t).2.removals.count false ≤ t.removals.count false ∧ (b = 0 ∨ b = 1 ∧ (p s f t).1.1 = .crash) ∧
  ((p s f t).1.1 = .crash ∨ (p s f t).2.opened ≤ t.opened + k ∧ t.opened ≤ (p s f t).2.opened) ∧
  (Returns (p s f t).1.1 → (p s f t).2.opened = t.opened)

theorem Call.of {k : Nat} (q : Op α) : Call k (T.of q) := fun _ _ t h =>
  ⟨0, 0, h, rfl, rfl, rfl, by show 0 + t.removals.count false ≤ _; omega, .inl rfl, .inr ⟨by show t.opened ≤ _; omega, Nat.le_refl _⟩, fun _ => rfl⟩

theorem Call.bind {k : Nat} {p : T α} {g : α → T β} (h : Call k p) (hk : ∀ a, Call k (g a)) : Call k (p >>= g) := by
  intro s f t ht
  show ∃ a b, (T.bind p g s f t).2.own = _ ∧ (T.bind p g s f t).2.count = _ ∧ (T.bind p g s f t).2.failed = _ ∧ (T.bind p g s f t).2.died = _ ∧ a + (T.bind p g s f t).2.removals.count false ≤ _ ∧
    (_ ∨ _ ∧ (T.bind p g s f t).1.1 = _) ∧ ((T.bind p g s f t).1.1 = _ ∨ (T.bind p g s f t).2.opened ≤ _ ∧ _ ≤ (T.bind p g s f t).2.opened) ∧ (Returns (T.bind p g s f t).1.1 → (T.bind p g s f t).2.opened = _)
  unfold T.bind
  obtain ⟨a, b, h1, h2, h3, h4, h5, h6, h7, h8⟩ := h s f t ht
  generalize p s f t = x at *
  obtain ⟨⟨r, s', f'⟩, t'⟩ := x
  simp only at h1 h2 h3 h4 h5 h6 h7 h8
  cases r with
  | ok x =>
    have ho := h8 trivial
    obtain ⟨a', b', g1, g2, g3, g4, g5, g6, g7, g8⟩ := hk x s' f' t' h1
    have hb : b = 0 := by exact h6.elim id fun h => by cases h.2
    simp only
    refine ⟨a + a', b', g1, by omega, by omega, by omega, by omega, g6, ?_, fun h => by rw [g8 h, ho]⟩
    rcases g7 with g | g
    · exact .inl g
    · exact .inr (by omega)
  | err e => exact ⟨a, b, h1, h2, h3, h4, h5, h6.imp id (fun h => by cases h.2), h7.imp (fun h => by cases h) id, fun h => h.elim⟩
  | panic => exact ⟨a, b, h1, h2, h3, h4, h5, h6.imp id (fun h => by cases h.2), h7.imp (fun h => by cases h) id, fun h => h.elim⟩
  | crash => exact ⟨a, b, h1, h2, h3, h4, h5, h6.imp id (fun h => ⟨h.1, rfl⟩), .inl rfl, fun h => h.elim⟩

theorem Call.onErr {k : Nat} {p : T α} (h : Call k p) (hd : Err → Op Unit) : Call k (onErr p hd) := by
  intro s f t ht
  unfold TempFiles.onErr
  obtain ⟨a, b, h1, h2, h3, h4, h5, h6, h7, h8⟩ := h s f t ht
  generalize p s f t = x at *
  obtain ⟨⟨r, s', f'⟩, t'⟩ := x
  simp only at h1 h2 h3 h4 h5 h6 h7 h8
  cases r with
  | err e =>
    have hb : b = 0 := by exact h6.elim id fun h => by cases h.2
    have ho : t'.opened ≤ t.opened + k ∧ t.opened ≤ t'.opened := by exact h7.elim (fun h => by cases h) id
    simp only
    generalize hd e s' f' = y
    obtain ⟨r, s'', f''⟩ := y
    cases r with
    | ok => exact ⟨a, b, h1, h2, h3, h4, h5, .inl hb, .inr ho, fun h => h.elim⟩
    | err => exact ⟨a, b, h1, h2, h3, h4, h5, .inl hb, .inr ho, fun h => h.elim⟩
    | panic => exact ⟨a, b, h1, h2, h3, h4, h5, .inl hb, .inr ho, fun h => h.elim⟩
    | crash => exact ⟨a, b, h1, h2, h3, h4, h5, .inl hb, .inr ho, fun h => h.elim⟩
  | ok => exact ⟨a, b, h1, h2, h3, h4, h5, h6, h7, h8⟩
  | panic => exact ⟨a, b, h1, h2, h3, h4, h5, h6, h7, h8⟩
  | crash => exact ⟨a, b, h1, h2, h3, h4, h5, h6, h7, h8⟩

theorem cleanup_spec (t : Tmp) (c : Nat) (h : t.count = c + if t.own then 1 else 0) : ∃ a, t.cleanup.own = false ∧ t.cleanup.count = c + a ∧ t.cleanup.failed = t.failed + a ∧
    t.cleanup.died = t.died ∧ a + t.cleanup.removals.count false ≤ t.removals.count false := by
  unfold Tmp.cleanup
  cases ho : t.own with
  | false => exact ⟨0, by simp [ho], by simpa [ho] using h, by simp, by simp, by simp⟩
  | true =>
    rw [ho] at h
    simp only [if_true] at h ⊢
    cases hr : t.removals with
    | nil => exact ⟨0, rfl, by simp; omega, rfl, rfl, by simp⟩
    | cons x xs =>
      cases x with
      | true => exact ⟨0, rfl, by simp; omega, rfl, rfl, by simp⟩
      | false => exact ⟨1, rfl, by simp; omega, rfl, rfl, by simp; omega⟩

theorem Call.withTemp {k fd : Nat} {create : Op Unit} {body : T α} (h : Body k body) : Call k (withTemp fd create body) := by
  intro s f t ht
  unfold TempFiles.withTemp
  generalize create s f = x
  obtain ⟨r, s', f'⟩ := x
  cases r with
  | ok =>
    simp only
    obtain ⟨o, h1, h2, h3, h4⟩ := h s' f' { t with count := t.count + 1, own := true, opened := t.opened + fd }
    generalize body s' f' _ = y at *
    obtain ⟨⟨r, s'', f''⟩, t'⟩ := y
    simp only at h1 h2 h3 h4
    have hc : t'.count = t.count + if t'.own then 1 else 0 := by rcases h1 with h | h <;> rw [h] <;> simp
    have hf : t'.failed = t.failed := by rcases h1 with h | h <;> rw [h]
    have hd : t'.died = t.died := by rcases h1 with h | h <;> rw [h]
    have hr : t'.removals = t.removals := by rcases h1 with h | h <;> rw [h]
    have ho : t'.opened = o := by rcases h1 with h | h <;> rw [h]
    obtain ⟨a, c1, c2, c3, c4, c5⟩ := cleanup_spec t' t.count hc
    cases r with
    | crash =>
      cases hw : t'.own with
      | true => rw [hw] at hc; exact ⟨0, 1, by simp [hw], by simpa [hw] using hc, by simpa [hw] using hf, by simpa [hw] using hd, by simp [hr, hw], .inr ⟨rfl, rfl⟩, .inl rfl, fun h => h.elim⟩
      | false => rw [hw] at hc; exact ⟨0, 0, by simp [hw], by simpa [hw] using hc, by simpa [hw] using hf, by simpa [hw] using hd, by simp [hr, hw], .inl rfl, .inl rfl, fun h => h.elim⟩
    | ok x => exact ⟨a, 0, c1, c2, by show t'.cleanup.failed = _; omega, by show t'.cleanup.died = _; omega, by rw [← hr]; exact c5, .inl rfl,
        .inr (by show t'.opened - fd ≤ _ ∧ _ ≤ t'.opened - fd; omega), fun h => by have := h4 h; show t'.opened - fd = _; omega⟩
    | err x => exact ⟨a, 0, c1, c2, by show t'.cleanup.failed = _; omega, by show t'.cleanup.died = _; omega, by rw [← hr]; exact c5, .inl rfl,
        .inr (by show t'.opened - fd ≤ _ ∧ _ ≤ t'.opened - fd; omega), fun h => h.elim⟩
    | panic => exact ⟨a, 0, c1, c2, by show t'.cleanup.failed = _; omega, by show t'.cleanup.died = _; omega, by rw [← hr]; exact c5, .inl rfl,
        .inr (by show t'.opened - fd ≤ _ ∧ _ ≤ t'.opened - fd; omega), fun h => h.elim⟩
  | err e => exact ⟨0, 0, ht, rfl, rfl, rfl, by simp, .inl rfl, .inr ⟨by simp, by simp⟩, fun h => h.elim⟩
  | panic => exact ⟨0, 0, ht, rfl, rfl, rfl, by simp, .inl rfl, .inr ⟨by simp, by simp⟩, fun h => h.elim⟩
  | crash => exact ⟨0, 0, ht, rfl, rfl, rfl, by simp, .inl rfl, .inl rfl, fun h => h.elim⟩

theorem Call.mono {k k' : Nat} {p : T α} (h : Call k p) (hk : k ≤ k') : Call k' p := by
  intro s f t ht
  obtain ⟨a, b, h1, h2, h3, h4, h5, h6, h7, h8⟩ := h s f t ht
  exact ⟨a, b, h1, h2, h3, h4, h5, h6, h7.imp id (fun h => by omega), h8⟩

theorem call_blocks (i : Nat) : Call 0 (coalesceBlocks cfg i) := by
  unfold coalesceBlocks
  refine (Call.of _).bind fun x => ?_
  obtain ⟨_, p⟩ := x
  simp only
  split
  · exact .of _
  · refine (Call.of _).bind fun _ => Call.withTemp ?_
    cases joinBlocks (p.blocks.getD []) with
    | none => exact (Pre.of _ _).body
    | some data =>
      refine Body.bind (Pre.of _ _) fun _ => ?_
      split
      · exact (Pre.of _ _).body
      · exact Body.bind (Pre.of _ _) fun _ => Body.bind (Pre.of _ _) fun _ => .moved (.of _ _)

/-- How many more files may be open after a call that failed. -/
def leak (cfg : Cfg) : Nat := if cfg.info.files = [] then 0 else 1

theorem call_pieces : Call (leak cfg) (coalescePieces cfg) := by
  unfold coalescePieces
  refine (Call.of _).bind fun m => ?_
  by_cases h0 : m.completePieces ≠ (m.pieces.length : Int)
  · rw [if_pos h0]
    exact .of _
  · rw [if_neg h0]
    by_cases h : cfg.info.files = []
    · rw [if_neg (not_not_intro h), leak, if_pos h]
      unfold coalesceSingle
      exact (Call.of _).bind fun _ => .withTemp (.bind (.of _ _) fun _ => .bind (.of _ _) fun _ => .moved ((Pre.of _ _).bind fun _ => .of _ _))
    · rw [if_pos h, leak, if_neg h]
      unfold coalesceMulti
      exact (Call.of _).bind fun _ => .withTemp (.bind (pre_write _ _ _ _) fun _ => .bind (.of _ _) fun _ => .moved ((Pre.of _ _).bind fun _ => .of _ _))

theorem call_put (i b : Int) (d : Bytes) : Call (leak cfg) (putBlock cfg i b d) := by
  unfold putBlock
  refine (Call.of _).bind fun _ => (Call.of _).bind fun m => ?_
  split
  · exact .of _
  · refine (Call.of _).bind fun x => ?_
    obtain ⟨i, p⟩ := x
    exact (Call.of _).bind fun _ => (((call_blocks i).mono (Nat.zero_le _)).onErr _).bind fun _ => call_pieces

theorem call_load : Call (leak cfg) (load cfg) := by
  unfold load
  refine (Call.of _).bind fun o => ?_
  cases o with
  | some size => exact (Call.of _).bind fun _ => (Call.of _).bind fun _ => (Call.of _).bind fun _ => .of _
  | none =>
    refine (Call.of _).bind fun o => ?_
    cases o with
    | none => exact .of _
    | some es => exact (Call.of _).bind fun _ => call_pieces

/-- How often the process has died in a history: it ran before a call, and does not after it. -/
def deaths (cfg : Cfg) : List (Event × List Fate × List Bool) → World → Nat
  | [], _ => 0
  | (e, f, _) :: es, w => (if w.mem ≠ none ∧ (Storage.step cfg w e f).mem = none then 1 else 0) + deaths cfg es (Storage.step cfg w e f)

theorem run_call {k : Nat} {p : T α} (h : Call k p) (w : World) (f : List Fate) (r : List Bool) (t : Tmp) (ht : t.own = false) : ∃ a b,
    (runOp p w f r t).2.2.own = false ∧ (runOp p w f r t).2.2.count = t.count + a + b ∧ (runOp p w f r t).2.2.failed = t.failed + a ∧ (runOp p w f r t).2.2.died = t.died + b ∧
    a ≤ r.count false ∧ (b = 0 ∨ b = 1 ∧ w.mem ≠ none ∧ (runOp p w f r t).2.1.mem = none) ∧
    ((runOp p w f r t).2.1.mem ≠ none → (runOp p w f r t).2.2.opened ≤ t.opened + k ∧ t.opened ≤ (runOp p w f r t).2.2.opened) ∧
    (Returns (runOp p w f r t).1 → (runOp p w f r t).2.2.opened = t.opened) := by
  unfold runOp
  cases hm : w.mem with
  | none => exact ⟨0, 0, ht, rfl, rfl, rfl, Nat.zero_le _, .inl rfl, fun h => absurd hm h, fun h => h.elim⟩
  | some m =>
    simp only
    obtain ⟨a, b, h1, h2, h3, h4, h5, h6, h7, h8⟩ := h ⟨w.fs, m⟩ f { t with removals := r } ht
    clear h
    generalize p ⟨w.fs, m⟩ f { t with removals := r } = x at h1 h2 h3 h4 h5 h6 h7 h8 ⊢
    obtain ⟨⟨o, s', f'⟩, t'⟩ := x
    simp only at h1 h2 h3 h4 h5 h6 h7 h8
    have ha : a ≤ r.count false := by omega
    cases o with
    | ok x => exact ⟨a, b, h1, h2, h3, h4, ha, h6.imp id (fun h => by cases h.2), fun _ => h7.elim (fun h => by cases h) id, fun _ => h8 trivial⟩
    | err x => exact ⟨a, b, h1, h2, h3, h4, ha, h6.imp id (fun h => by cases h.2), fun _ => h7.elim (fun h => by cases h) id, fun h => h.elim⟩
    | panic => exact ⟨a, b, h1, h2, h3, h4, ha, h6.imp id (fun h => by cases h.2), fun h => absurd rfl h, fun h => h.elim⟩
    | crash => exact ⟨a, b, h1, h2, h3, h4, ha, h6.imp id (fun h => ⟨h.1, by simp [hm], rfl⟩), fun h => absurd rfl h, fun h => h.elim⟩

theorem step_call (x : World × Tmp) (e : Event) (f : List Fate) (r : List Bool) (ht : x.2.own = false) : ∃ a b,
    (step cfg x e f r).2.own = false ∧ (step cfg x e f r).2.count = x.2.count + a + b ∧ (step cfg x e f r).2.failed = x.2.failed + a ∧ (step cfg x e f r).2.died = x.2.died + b ∧
    a ≤ r.count false ∧ b ≤ (if x.1.mem ≠ none ∧ (Storage.step cfg x.1 e f).mem = none then 1 else 0) := by
  rw [← same_step x e f r]
  cases e with
  | load =>
    obtain ⟨a, b, h1, h2, h3, h4, h5, h6, _⟩ := run_call (call_load (cfg := cfg)) x.1 f r x.2 ht
    refine ⟨a, b, h1, h2, h3, h4, h5, ?_⟩
    rcases h6 with h | h
    · rw [h]; exact Nat.zero_le _
    · exact Nat.le_of_eq (h.1.trans (if_pos h.2).symm)
  | put i g d =>
    obtain ⟨a, b, h1, h2, h3, h4, h5, h6, _⟩ := run_call (call_put (cfg := cfg) i g d) x.1 f r x.2 ht
    refine ⟨a, b, h1, h2, h3, h4, h5, ?_⟩
    rcases h6 with h | h
    · rw [h]; exact Nat.zero_le _
    · exact Nat.le_of_eq (h.1.trans (if_pos h.2).symm)
  | start => exact ⟨0, 0, ht, rfl, rfl, rfl, Nat.zero_le _, Nat.zero_le _⟩
  | reset i => refine ⟨0, 0, ?_, ?_, ?_, ?_, Nat.zero_le _, Nat.zero_le _⟩ <;> simp only [step] <;> split <;> first | exact ht | rfl
  | get i g l => refine ⟨0, 0, ?_, ?_, ?_, ?_, Nat.zero_le _, Nat.zero_le _⟩ <;> simp only [step] <;> split <;> first | exact ht | rfl

/-- **C138**: the code with temporary files is the code of the other storage properties. -/
theorem C138_same (es : List (Event × List Fate × List Bool)) (x : World × Tmp) :
    (run cfg es x).1 = Storage.run cfg (es.map fun e => (e.1, e.2.1)) x.1 := by
  induction es generalizing x with
  | nil => rfl
  | cons e es ih =>
    obtain ⟨e, f, r⟩ := e
    simp only [run, List.map_cons, Storage.run]
    rw [ih, same_step]

example : (run Ex.single [(.start, [], []), (.put 1 0 [5, 6], [], []), (.put 0 0 [1, 2, 3, 4], [], [])] (World.empty, {})).1.fs = ⟨some (.file [1, 2, 3, 4, 5, 6]), none⟩ := by kernel_rfl

/-- **C138**, within one call: if the process survives it and no removal fails, there are as many temporary files after it as before; a call that succeeds leaves no more files open, and one that fails
at most one, and none if the torrent is a single file. -/
theorem C138_call_partial (w : World) (f : List Fate) (t : Tmp) (ht : t.own = false) (p : T Unit) (hp : p = load cfg ∨ ∃ i b d, p = putBlock cfg i b d) (r : List Bool) (hr : false ∉ r)
    (hm : (runOp p w f r t).2.1.mem ≠ none) : (runOp p w f r t).2.2.count = t.count ∧ ((runOp p w f r t).1 = .ok () → (runOp p w f r t).2.2.opened = t.opened) ∧
      t.opened ≤ (runOp p w f r t).2.2.opened ∧ (runOp p w f r t).2.2.opened ≤ t.opened + (if cfg.info.files = [] then 0 else 1) := by
  have hc : Call (leak cfg) p := by
    rcases hp with rfl | ⟨i, b, d, rfl⟩
    · exact call_load
    · exact call_put i b d
  obtain ⟨a, b, h1, h2, h3, h4, h5, h6, h7, h8⟩ := run_call hc w f r t ht
  have : r.count false = 0 := List.count_eq_zero.2 hr
  have hb : b = 0 := h6.elim id fun h => absurd h.2.2 hm
  exact ⟨by omega, fun h => h8 (by rw [h]; trivial), (h7 hm).2, (h7 hm).1⟩

/-- A block that completes a piece; one whose checksum is wrong; one that cannot be copied, so that the file of a torrent of several files stays open. -/
example : (runOp (putBlock Ex.single 0 0 [1, 2, 3, 4]) (Storage.run Ex.single [(.start, [])] World.empty) [] [true] {}).1 = .ok () ∧
    (runOp (putBlock Ex.single 0 0 [1, 2, 3, 5]) (Storage.run Ex.single [(.start, [])] World.empty) [] [true] {}).1 = .err .checksum ∧
    (runOp (putBlock Ex.single 0 0 [1, 2, 3, 5]) (Storage.run Ex.single [(.start, [])] World.empty) [] [true] {}).2.2 = {} ∧
    (runOp (putBlock Ex.single 0 0 [1, 2, 3, 5]) (Storage.run Ex.single [(.start, [])] World.empty) [] [false] {}).2.2 = { count := 1, failed := 1 } := ⟨by kernel_rfl, by kernel_rfl, by kernel_rfl, by kernel_rfl⟩

theorem history (es : List (Event × List Fate × List Bool)) (x : World × Tmp) (hx : x.2.own = false) :
    (run cfg es x).2.own = false ∧ x.2.count ≤ (run cfg es x).2.count ∧ (run cfg es x).2.count ≤ x.2.count + (es.flatMap (·.2.2)).count false + deaths cfg es x.1 ∧
      (run cfg es x).2.count + x.2.failed + x.2.died = x.2.count + (run cfg es x).2.failed + (run cfg es x).2.died := by
  induction es generalizing x with
  | nil => exact ⟨hx, Nat.le_refl _, by simp [run, deaths], rfl⟩
  | cons e es ih =>
    obtain ⟨e, f, r⟩ := e
    obtain ⟨a, b, h1, h2, h3, h4, h5, h6⟩ := step_call (cfg := cfg) x e f r hx
    obtain ⟨g1, g2, g3, g4⟩ := ih (step cfg x e f r) h1
    rw [same_step] at g3
    simp only [run, deaths, List.flatMap_cons, List.count_append]
    exact ⟨g1, by omega, by omega, by omega⟩

/-- **C138**, for every history: the temporary files there are, are those whose removal failed and those of the processes that died when theirs existed; so they are not more than the failed removals
and the deaths of the process. -/
theorem C138_history_partial (es : List (Event × List Fate × List Bool)) (w : World) :
    (run cfg es (w, {})).2.count = (run cfg es (w, {})).2.failed + (run cfg es (w, {})).2.died ∧
    (run cfg es (w, {})).2.count ≤ (es.flatMap (·.2.2)).count false + deaths cfg es w := by
  obtain ⟨_, _, h3, h4⟩ := history (cfg := cfg) es (w, {}) rfl
  simp only [Nat.zero_add, Nat.add_zero] at h3 h4
  exact ⟨h4, h3⟩

/-- One removal fails, one process dies: two files. -/
example : (run Ex.single [(.start, [], []), (.put 0 0 [1, 2, 3, 5], [], [false]), (.put 1 0 [5, 6], [.ok, .ok, .crash []], []), (.start, [], []), (.load, [], []), (.put 0 0 [1, 2, 3, 4], [], []),
    (.put 1 0 [5, 6], [], [])] (World.empty, {})).2 = { count := 2, failed := 1, died := 1 } := by kernel_rfl

/-- **C138**: what is left is never cleaned up, whatever is done afterwards. -/
theorem C138_stays (es es' : List (Event × List Fate × List Bool)) (w : World) : (run cfg es (w, {})).2.count ≤ (run cfg (es ++ es') (w, {})).2.count := by
  have happ : ∀ (es : List (Event × List Fate × List Bool)) (x : World × Tmp), run cfg (es ++ es') x = run cfg es' (run cfg es x) := by
    intro es
    induction es with
    | nil => exact fun _ => rfl
    | cons e es ih => exact fun x => ih _
  rw [happ]
  exact (history es' _ (history es (w, {}) rfl).1).2.1

/-- A process that dies when it copies a block to its temporary file. -/
def round : List (Event × List Fate × List Bool) := [(.start, [], []), (.put 0 0 [1, 2, 3, 4], [.ok, .ok, .crash []], [])]

theorem rounds (n k : Nat) : run Ex.single (List.replicate n round).flatten (World.empty, { count := k, died := k }) = (World.empty, { count := k + n, died := k + n }) := by
  induction n generalizing k with
  | zero => rfl
  | succ n ih =>
    have h : run Ex.single round (World.empty, { count := k, died := k }) = (World.empty, { count := k + 1, died := k + 1 }) := by rfl
    have happ : ∀ (es es' : List (Event × List Fate × List Bool)) (x : World × Tmp), run Ex.single (es ++ es') x = run Ex.single es' (run Ex.single es x) := by
      intro es es'
      induction es with
      | nil => exact fun _ => rfl
      | cons e es ih => exact fun x => ih _
    rw [List.replicate_succ, List.flatten_cons, happ, h, ih, show k + 1 + n = k + (n + 1) by omega]

/-- **C138 is false**: however large `n`, there is a history without a failing removal or call after which `n` temporary files are left; and a call that reports an error can leave a file open. -/
theorem C138_refuted : (∀ n, ∃ es, (∀ e ∈ es, e.2.2 = []) ∧ (run Ex.single es (World.empty, {})).2.count = n) ∧
    ∃ es e f, (run Ex.multi es (World.empty, {})).2.opened = 0 ∧ (step Ex.multi (run Ex.multi es (World.empty, {})) e f []).2.opened = 1 ∧
      (step Ex.multi (run Ex.multi es (World.empty, {})) e f []).1.mem ≠ none := by
  refine ⟨fun n => ⟨(List.replicate n round).flatten, ?_, ?_⟩, [(.start, [], []), (.put 1 0 [5, 6], [], [])], .put 0 0 [1, 2, 3, 4], List.replicate 9 .ok ++ [.fail []], ?_, ?_, ?_⟩
  · intro e he
    obtain ⟨l, hl, he⟩ := List.mem_flatten.1 he
    rw [(List.mem_replicate.1 hl).2] at he
    rcases List.mem_cons.1 he with rfl | he
    · rfl
    · rw [List.mem_singleton.1 he]
  · have := rounds n 0
    rw [Nat.zero_add] at this
    rw [show ({} : Tmp) = { count := 0, died := 0 } from rfl, this]
  · kernel_rfl
  · kernel_rfl
  · decide +kernel

end Drip.TempFiles
