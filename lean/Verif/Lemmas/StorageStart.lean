import Verif.Lemmas.StoragePiece
/-
What Load does whatever is on the disk (not only what drip wrote): pieces are marked only because of the target or of files whose name
starts like a piece's.
-/

namespace Drip.Storage
open Metainfo

variable {cfg : Cfg} {A : Fate → Prop} {S : Nat → Prop}

/-- No blocks in memory; the bits are all in `S`. -/
def LInv (S : Nat → Prop) (m : Mem) : Prop := (∀ p ∈ m.pieces, p.blocks = none) ∧ ∀ j : Nat, Bitfield.bit m.bitfield j = true → S j

def lpost (S : Nat → Prop) {α : Type} : Post α := ⟨fun _ s => LInv S s.mem, fun _ s => LInv S s.mem, fun _ => True, fun _ => True⟩

def LKeep (A : Fate → Prop) (S : Nat → Prop) {α : Type} (p : Op α) : Prop := ∀ s : Sys, LInv S s.mem → wp A p (lpost S) s

theorem LKeep.pure {α : Type} (a : α) : LKeep A S (Pure.pure a : Op α) := fun _ h => wp_pure h
theorem LKeep.fail {α : Type} (e : Err) : LKeep A S (Op.fail e : Op α) := fun _ h => wp_fail h
theorem LKeep.panic {α : Type} : LKeep A S (Op.panic : Op α) := fun _ _ => wp_panic trivial
theorem LKeep.bind {α β : Type} {p : Op α} {k : α → Op β} (h : LKeep A S p) (hk : ∀ a, LKeep A S (k a)) : LKeep A S (p >>= k) :=
  fun s hs => wp_seq (h s hs) (fun a s' h' => hk a s' h') (fun _ _ h => h) (fun _ h => h) (fun _ h => h)
theorem LKeep.call {α : Type} {eff : FS → Option (α × FS)} {part : List Bytes → FS → FS} : LKeep A S (Op.call eff part) :=
  fun _ h => wp_call (fun _ _ _ => h) (fun _ => h) (fun _ _ => h) (fun _ _ => trivial)
theorem LKeep.getMem : LKeep A S Op.getMem := fun _ h => wp_getMem h
theorem LKeep.ite {α : Type} {c : Prop} [Decidable c] {p q : Op α} (hp : LKeep A S p) (hq : LKeep A S q) : LKeep A S (if c then p else q) := by
  split
  · exact hp
  · exact hq

theorem LInv.set {m : Mem} {i : Nat} {q : Piece} (h : LInv S m) (hq : q.blocks = none) : LInv S { m with pieces := m.pieces.set i q } := by
  refine ⟨fun p hp => ?_, h.2⟩
  rcases List.mem_or_eq_of_mem_set hp with hp | rfl
  · exact h.1 p hp
  · exact hq

theorem add_bit {b b' : Bytes} {i : Nat} (h : Bitfield.add b i = .ok b') (j : Nat) : Bitfield.bit b' j = (Bitfield.bit b j || decide (j = i)) := by
  by_cases hi : i < 8 * b.length
  · obtain ⟨b'', h1, _, h2⟩ := Bitfield.add_nat b i hi
    rw [h1] at h; cases h; exact h2 j
  · have := Bitfield.pos_nat i
    simp only [Bitfield.add, this] at h
    rw [if_neg (by omega), Int.toNat_natCast, List.getElem?_eq_none (by omega)] at h
    cases h

theorem lk_addBit {i : Nat} (hi : S i) : LKeep A S (do
    let m ← Op.getMem
    let bf ← Op.lift (Bitfield.add m.bitfield i)
    Op.setMem { m with bitfield := bf, completePieces := m.completePieces + 1 }) := by
  intro s h
  refine wp_bind (wp_getMem (wp_bind (wp_lift ?_)))
  cases hb : Bitfield.add s.mem.bitfield i with
  | ok bf =>
    refine wp_setMem ⟨h.1, fun k hk => ?_⟩
    have hk : Bitfield.bit bf k = true := hk
    rw [add_bit hb, Bool.or_eq_true] at hk
    rcases hk with hk | hk
    · exact h.2 k hk
    · have : k = i := by simpa using hk
      rw [this]; exact hi
  | err e => exact h
  | panic => trivial

theorem lk_completePiece {i : Nat} (hi : S i) : LKeep A S (completePiece i) := by
  intro s h
  unfold completePiece
  refine wp_bind (wp_getPiece ?_ (fun _ => trivial))
  intro j p hj hp
  have : i = j := by omega
  subst this
  show wp A _ _ s
  have hpb : p.blocks = none := h.1 p (List.mem_of_getElem? hp)
  refine wp_bind (wp_setPiece ?_)
  have h1 : LInv S { s.mem with pieces := s.mem.pieces.set i { p with coalesced := true } } := h.set hpb
  refine wp_bind (wp_deliver (fun _ => ?_) (fun _ => trivial))
  refine wp_bind (wp_setPiece ?_)
  have h2 := h1.set (i := i) (q := { p with coalesced := true, blocks := none }) rfl
  exact lk_addBit hi _ h2

theorem lk_complete : LKeep A S complete := by
  intro s h
  unfold complete
  exact wp_bind (wp_getMem (wp_bind (wp_setMem (wp_deliver (fun _ => h) (fun _ => trivial)))))

theorem lk_readPieces (is : List Nat) : LKeep A S (readPieces is) := by
  induction is with
  | nil => exact LKeep.pure _
  | cons i is ih => exact LKeep.bind LKeep.call fun _ => LKeep.bind LKeep.call fun _ => LKeep.bind ih fun _ => LKeep.pure _

theorem lk_copyN (n : Nat) (is : List Nat) : ∀ buf, LKeep A S (copyN n buf is) := by
  induction is with
  | nil => intro buf; exact LKeep.ite (LKeep.pure _) (LKeep.fail _)
  | cons i is ih => intro buf; exact LKeep.ite (LKeep.pure _) (LKeep.bind LKeep.call fun _ => ih _)

theorem lk_writeFiles (files : List File) : ∀ buf is acc, LKeep A S (writeFiles buf is acc files) := by
  induction files with
  | nil => intro buf is acc; exact LKeep.pure _
  | cons f fs ih =>
    intro buf is acc
    exact LKeep.ite (LKeep.fail _) (LKeep.bind LKeep.call fun _ => LKeep.bind LKeep.call fun _ => LKeep.bind (lk_copyN _ _ _) fun _ =>
      LKeep.bind LKeep.call fun _ => ih _ _ _)

theorem lk_coalescePieces : LKeep A S (coalescePieces cfg) := by
  unfold coalescePieces
  refine LKeep.bind LKeep.getMem fun m => LKeep.ite (LKeep.pure _) (LKeep.ite ?_ ?_)
  · exact LKeep.bind LKeep.call fun _ => LKeep.bind LKeep.call fun _ => LKeep.bind (lk_writeFiles _ _ _ _) fun _ => LKeep.bind LKeep.call fun _ =>
      LKeep.bind LKeep.call fun _ => lk_complete
  · exact LKeep.bind LKeep.call fun _ => LKeep.bind LKeep.call fun _ => LKeep.bind (lk_readPieces _) fun _ => LKeep.bind LKeep.call fun _ =>
      LKeep.bind LKeep.call fun _ => lk_complete

theorem lk_completeAll (is : List Nat) (hS : ∀ i ∈ is, S i) : LKeep A S (completeAll is) := by
  induction is with
  | nil => exact LKeep.pure _
  | cons i is ih => exact LKeep.bind (lk_completePiece (hS i (by simp))) fun _ => ih fun j hj => hS j (by simp [hj])

theorem lk_loadEntries (es : List (Bytes × Bytes)) (hS : ∀ x ∈ es, ∀ i : Nat, sscanfPiece x.1 = some (i : Int) → S i) : LKeep A S (loadEntries es) := by
  induction es with
  | nil => exact LKeep.pure _
  | cons x es ih =>
    obtain ⟨name, content⟩ := x
    unfold loadEntries
    have ih := ih fun y hy => hS y (by simp [hy])
    cases hn : sscanfPiece name with
    | none => exact ih
    | some i =>
      refine LKeep.bind LKeep.call fun _ => ?_
      intro s h
      refine wp_bind (wp_getMem (wp_bind (wp_setMem (wp_bind (wp_getPiece ?_ (fun _ => trivial))))))
      intro j p hj hp
      exact LKeep.bind (lk_completePiece (hS (name, content) (by simp) j (by rw [hn, hj]))) (fun _ => ih) _ h

theorem wp_load_any {s : Sys} (h : LInv S s.mem) (h1 : s.fs.target ≠ none ∨ trivialName cfg.info.name = true → ∀ i, i < cfg.info.pieces.length → S i)
    (h2 : ∀ l, s.fs.work = some l → ∀ x ∈ l, ∀ i : Nat, sscanfPiece x.1 = some (i : Int) → S i) : wp A (load cfg) (lpost S) s := by
  unfold load
  refine wp_seq (Q1 := ⟨fun o s' => s' = s ∧ (o ≠ none → s.fs.target ≠ none ∨ trivialName cfg.info.name = true), fun _ s' => s' = s, fun _ => True, fun _ => True⟩) ?_ ?_
    (fun _ s' e => by rw [show s' = s from e]; exact h) (fun _ h => h) (fun _ h => h)
  · refine wp_call ?_ (fun _ => rfl) (fun _ _ => rfl) (fun _ _ => trivial)
    intro o fs he
    split at he
    · rename_i ht; cases he; exact ⟨rfl, fun _ => .inr ht⟩
    · split at he
      · rename_i c hc; cases he; exact ⟨rfl, fun _ => .inl (by simp [hc])⟩
      · rename_i c hc; cases he; exact ⟨rfl, fun _ => .inl (by simp [hc])⟩
      · cases he; exact ⟨rfl, fun hn => absurd rfl hn⟩
  · rintro o s' ⟨hs', ho⟩
    rw [hs']
    cases o with
    | some size =>
      refine LKeep.bind (lk_completeAll _ ?_) (fun _ => LKeep.bind lk_complete fun _ => ?_) s h
      · intro i hi; exact h1 (ho (by simp)) i (List.mem_range.mp hi)
      · intro s'' h''
        exact wp_bind (wp_getMem (wp_setMem h''))
    | none =>
      refine wp_seq (Q1 := ⟨fun o s' => s' = s ∧ o = s.fs.work, fun _ s' => s' = s, fun _ => True, fun _ => True⟩) ?_ ?_
        (fun _ s' e => by rw [show s' = s from e]; exact h) (fun _ h => h) (fun _ h => h)
      · refine wp_call ?_ (fun _ => rfl) (fun _ _ => rfl) (fun _ _ => trivial)
        intro o fs he
        cases he
        exact ⟨rfl, rfl⟩
      · rintro o s'' ⟨hs'', ho'⟩
        rw [hs'']
        cases o with
        | none => exact wp_pure h
        | some es => exact LKeep.bind (lk_loadEntries es (h2 es ho'.symm)) (fun _ => lk_coalescePieces) s h

theorem newMem_linv (info : Info) : LInv S (newMem info) := by
  refine ⟨fun p hp => ?_, fun j hj => ?_⟩
  · obtain ⟨i, hi⟩ := List.getElem?_of_mem hp
    obtain ⟨_, rfl⟩ := newMem_get hi
    rfl
  · rw [show (newMem info).bitfield = Bitfield.new info.pieces.length from rfl, Bitfield.bit_new] at hj
    cases hj

/-! ### Sizes -/

theorem sum_ite {n : Nat} (g : Nat → Int) (P Q : Nat → Prop) [DecidablePred P] [DecidablePred Q] {k : Nat} (hk : k < n) (hPQ : ∀ i, Q i ↔ i = k ∨ P i) (hP : ¬ P k) :
    ((List.range n).map fun i => if Q i then g i else 0).sum = g k + ((List.range n).map fun i => if P i then g i else 0).sum := by
  have key : ∀ n, ((List.range n).map fun i => if Q i then g i else 0).sum = (if k < n then g k else 0) + ((List.range n).map fun i => if P i then g i else 0).sum := by
    intro n
    induction n with
    | zero => simp
    | succ n ih =>
      rw [List.range_succ, List.map_append, List.map_append, List.sum_append, List.sum_append, ih]
      simp only [List.map_cons, List.map_nil, List.sum_cons, List.sum_nil]
      by_cases hn : n = k
      · subst hn
        rw [if_neg (show ¬ n < n by omega), if_pos (show n < n + 1 by omega), if_pos ((hPQ n).mpr (.inl rfl)), if_neg hP]
        omega
      · have : Q n ↔ P n := by rw [hPQ]; exact ⟨fun h => h.resolve_left hn, .inr⟩
        by_cases hPn : P n
        · rw [if_pos hPn, if_pos (this.mpr hPn)]
          by_cases h : k < n
          · rw [if_pos h, if_pos (show k < n + 1 by omega)]; omega
          · rw [if_neg h, if_neg (show ¬ k < n + 1 by omega)]; omega
        · rw [if_neg hPn, if_neg (fun h => hPn (this.mp h))]
          by_cases h : k < n
          · rw [if_pos h, if_pos (show k < n + 1 by omega)]; omega
          · rw [if_neg h, if_neg (show ¬ k < n + 1 by omega)]; omega
  rw [key n, if_pos hk]

theorem sizes_eq {info : Info} (l : List (Bytes × Bytes)) (hn : (l.map Prod.fst).Nodup)
    (h : ∀ x ∈ l, ∃ i : Nat, x.1 = pieceName i ∧ i < info.pieces.length ∧ (x.2.length : Int) = info.getPieceLength i) :
    sizes l = ((List.range info.pieces.length).map fun (i : Nat) => if pieceName i ∈ l.map Prod.fst then info.getPieceLength i else 0).sum := by
  induction l with
  | nil =>
    have : ∀ n, ((List.range n).map fun (i : Nat) => if pieceName i ∈ ([] : List Bytes) then info.getPieceLength i else 0).sum = 0 := by
      intro n
      induction n with
      | zero => rfl
      | succ n ih => rw [List.range_succ, List.map_append, List.sum_append, ih]; simp
    exact (this _).symm
  | cons x l ih =>
    obtain ⟨k, hk, hkn, hkl⟩ := h x (by simp)
    rw [List.map_cons, List.nodup_cons] at hn
    have ih := ih hn.2 fun y hy => h y (by simp [hy])
    rw [sum_ite (fun i => info.getPieceLength i) (fun i => pieceName i ∈ l.map Prod.fst) (fun i => pieceName i ∈ (x :: l).map Prod.fst) hkn ?_ ?_]
    · rw [← ih, ← hkl]; simp [sizes]
    · intro i
      rw [List.map_cons, List.mem_cons, hk]
      exact ⟨fun h => h.imp_left pieceName_inj, fun h => h.imp_left (congrArg pieceName)⟩
    · rw [← hk]; exact hn.1

/-! ### Names -/

/-- `name` begins, after spaces, with a decimal number with or without sign, which is `i`, and then `.piece`. -/
def LooksLike (name : Bytes) (i : Int) : Prop :=
  ∃ sp num rest, name = sp ++ num ++ b!".piece" ++ rest ∧ (∀ b ∈ sp, b = 32 ∨ b = 9 ∨ b = 11 ∨ b = 12 ∨ b = 13) ∧ Spec.SNumeral num i

theorem skipSpaces_eq (s : Bytes) : ∃ sp, s = sp ++ skipSpaces s ∧ ∀ b ∈ sp, b = 32 ∨ b = 9 ∨ b = 11 ∨ b = 12 ∨ b = 13 := by
  induction s with
  | nil => exact ⟨[], rfl, by simp⟩
  | cons b s ih =>
    unfold skipSpaces
    split
    · rename_i hb
      obtain ⟨sp, h1, h2⟩ := ih
      refine ⟨b :: sp, by rw [List.cons_append, ← h1], ?_⟩
      intro c hc
      rcases List.mem_cons.mp hc with rfl | hc
      · exact hb
      · exact h2 c hc
    · exact ⟨[], rfl, by simp⟩

theorem splitSign_eq (s : Bytes) : (splitSign s).1 ++ (splitSign s).2 = s := by
  cases s with
  | nil => rfl
  | cons b s => unfold splitSign; dsimp only; split <;> rfl

theorem spanDigits_eq (s : Bytes) : (spanDigits s).1 ++ (spanDigits s).2 = s := by
  induction s with
  | nil => rfl
  | cons b s ih =>
    unfold spanDigits
    split
    · simp [ih]
    · rfl

theorem sscanf_looksLike {name : Bytes} {i : Int} (h : sscanfPiece name = some i) : LooksLike name i := by
  unfold sscanfPiece at h
  dsimp only at h
  cases hp : parseInt ((splitSign (skipSpaces name)).1 ++ (spanDigits (splitSign (skipSpaces name)).2).1) with
  | none => rw [hp] at h; cases h
  | some n =>
    rw [hp] at h
    dsimp only at h
    split at h
    · rename_i hpre
      cases h
      obtain ⟨rest, hrest⟩ := List.isPrefixOf_iff_prefix.mp hpre
      obtain ⟨sp, h1, h2⟩ := skipSpaces_eq name
      refine ⟨sp, _, rest, ?_, h2, ((parseInt_some _ _).mp hp).1⟩
      rw [List.append_assoc, hrest, List.append_assoc, List.append_assoc, spanDigits_eq, splitSign_eq]
      exact h1
    · cases h

end Drip.Storage
