import Verif.Spec.Fields
/-
The field table: the breadth-first search finds, for every candidate, an entry with its key at most as deep.
-/

namespace Drip.Bencode
open Spec

/-! ### The key map as a fold -/

/-- `f` is `g` up to the `ignored` mark. -/
def SameField (f g : FieldInfo) : Prop := f = g ∨ f = { g with ignored := true }

theorem SameField.key {f g : FieldInfo} (h : SameField f g) : f.key = g.key := by rcases h with rfl | rfl <;> rfl
theorem SameField.index {f g : FieldInfo} (h : SameField f g) : f.index = g.index := by rcases h with rfl | rfl <;> rfl

theorem lookupKey_some {k : Bytes} {m : List FieldInfo} {f : FieldInfo} (h : lookupKey k m = some f) :
    f ∈ m ∧ f.key = k := by
  induction m with
  | nil => simp [lookupKey] at h
  | cons g gs ih =>
    unfold lookupKey at h
    split at h
    · next hk => simp only [Option.some.injEq] at h; subst h; exact ⟨by simp, hk⟩
    · have := ih h; exact ⟨by simp [this.1], this.2⟩

theorem lookupKey_none {k : Bytes} {m : List FieldInfo} (h : lookupKey k m = none) : ∀ f ∈ m, f.key ≠ k := by
  induction m with
  | nil => simp
  | cons g gs ih =>
    unfold lookupKey at h
    split at h
    · simp at h
    · next hk =>
      intro f hf
      rcases List.mem_cons.mp hf with rfl | hf
      · exact hk
      · exact ih h f hf

theorem replaceKey_keys (f : FieldInfo) (m : List FieldInfo) : (replaceKey f m).map (·.key) = m.map (·.key) := by
  induction m with
  | nil => rfl
  | cons g gs ih =>
    unfold replaceKey
    split
    · next h => simp [h]
    · simp [ih]

theorem mem_replaceKey {f g : FieldInfo} {m : List FieldInfo} (h : g ∈ replaceKey f m) : g = f ∨ (g ∈ m) := by
  induction m with
  | nil => simp [replaceKey] at h
  | cons a as ih =>
    unfold replaceKey at h
    split at h
    · rcases List.mem_cons.mp h with rfl | h
      · exact .inl rfl
      · exact .inr (by simp [h])
    · rcases List.mem_cons.mp h with rfl | h
      · exact .inr (by simp)
      · rcases ih h with e | h
        · exact .inl e
        · exact .inr (by simp [h])

theorem mem_replaceKey_self {f : FieldInfo} {m : List FieldInfo} (h : ∃ g ∈ m, g.key = f.key) : f ∈ replaceKey f m := by
  induction m with
  | nil => obtain ⟨g, hg, _⟩ := h; simp at hg
  | cons a as ih =>
    unfold replaceKey
    split
    · simp
    · next hk =>
      obtain ⟨g, hg, e⟩ := h
      rcases List.mem_cons.mp hg with rfl | hg
      · exact absurd e hk
      · exact List.mem_cons_of_mem _ (ih ⟨g, hg, e⟩)

theorem mem_replaceKey_other {f g : FieldInfo} {m : List FieldInfo} (h : g ∈ m) (hk : g.key ≠ f.key) :
    g ∈ replaceKey f m := by
  induction m with
  | nil => simp at h
  | cons a as ih =>
    unfold replaceKey
    rcases List.mem_cons.mp h with rfl | h
    · rw [if_neg hk]; simp
    · split
      · simp [h]
      · simp [ih h]

/-- What the fold over a list of leaves maintains. -/
structure MapInv (L m : List FieldInfo) : Prop where
  nodup : (m.map (·.key)).Nodup
  from_ : ∀ f ∈ m, ∃ g ∈ L, SameField f g
  has : ∀ g ∈ L, ∃ f ∈ m, f.key = g.key ∧ f.index.length ≤ g.index.length
  ign : ∀ f ∈ m, f.ignored = true → ∃ g ∈ L, g.key = f.key ∧ g.index ≠ f.index ∧ g.index.length = f.index.length

theorem MapInv.insert {L m : List FieldInfo} {f : FieldInfo} (h : MapInv L m) (hf : f.ignored = false)
    (hmono : ∀ g ∈ L, g.index.length ≤ f.index.length) (hnew : ∀ g ∈ L, g.index ≠ f.index) :
    MapInv (L ++ [f]) (insertField m f) := by
  unfold insertField
  cases hl : lookupKey f.key m with
  | none =>
    have hn := lookupKey_none hl
    refine ⟨?_, ?_, ?_, ?_⟩
    · rw [List.map_append, List.nodup_append]
      refine ⟨h.nodup, by simp, ?_⟩
      intro a ha b hb
      simp only [List.map_cons, List.map_nil, List.mem_singleton] at hb
      subst hb
      obtain ⟨x, hx, rfl⟩ := List.mem_map.mp ha
      exact hn x hx
    · intro x hx
      rcases List.mem_append.mp hx with hx | hx
      · obtain ⟨g, hg, e⟩ := h.from_ x hx
        exact ⟨g, by simp [hg], e⟩
      · simp only [List.mem_singleton] at hx
        subst hx
        exact ⟨x, by simp, .inl rfl⟩
    · intro g hg
      rcases List.mem_append.mp hg with hg | hg
      · obtain ⟨x, hx, e⟩ := h.has g hg
        exact ⟨x, by simp [hx], e⟩
      · simp only [List.mem_singleton] at hg
        subst hg
        exact ⟨g, by simp, rfl, Nat.le_refl _⟩
    · intro x hx hi
      rcases List.mem_append.mp hx with hx | hx
      · obtain ⟨g, hg, e⟩ := h.ign x hx hi
        exact ⟨g, by simp [hg], e⟩
      · simp only [List.mem_singleton] at hx
        subst hx
        rw [hf] at hi; simp at hi
  | some ef =>
    obtain ⟨hem, hek⟩ := lookupKey_some hl
    obtain ⟨eg, heg, hes⟩ := h.from_ ef hem
    have hle : ef.index.length ≤ f.index.length := by rw [hes.index]; exact hmono eg heg
    have hne : ef.index ≠ f.index := by rw [hes.index]; exact hnew eg heg
    -- the map is kept
    have keep : MapInv (L ++ [f]) m := by
      refine ⟨h.nodup, ?_, ?_, ?_⟩
      · intro x hx
        obtain ⟨g, hg, e⟩ := h.from_ x hx
        exact ⟨g, by simp [hg], e⟩
      · intro g hg
        rcases List.mem_append.mp hg with hg | hg
        · exact h.has g hg
        · simp only [List.mem_singleton] at hg
          subst hg
          exact ⟨ef, hem, hek, hle⟩
      · intro x hx hi
        obtain ⟨g, hg, e⟩ := h.ign x hx hi
        exact ⟨g, by simp [hg], e⟩
    -- the entry is replaced by one with the same key, at most as deep
    have repl : ∀ f' : FieldInfo, f'.key = f.key → (∃ g ∈ L ++ [f], SameField f' g) →
        f'.index.length ≤ ef.index.length →
        (f'.ignored = true → ∃ g ∈ L ++ [f], g.key = f'.key ∧ g.index ≠ f'.index ∧ g.index.length = f'.index.length) →
        MapInv (L ++ [f]) (replaceKey f' m) := by
      intro f' hk' hfrom hlen hign
      refine ⟨by rw [replaceKey_keys]; exact h.nodup, ?_, ?_, ?_⟩
      · intro x hx
        rcases mem_replaceKey hx with rfl | hx
        · exact hfrom
        · exact keep.from_ x hx
      · intro g hg
        obtain ⟨x, hx, e1, e2⟩ := keep.has g hg
        by_cases hkx : x.key = f'.key
        · refine ⟨f', mem_replaceKey_self ⟨x, hx, hkx⟩, by rw [← hkx]; exact e1, ?_⟩
          have hxe : x = ef := by
            have hk2 : x.key = ef.key := by rw [hkx, hk', hek]
            have := h.nodup
            obtain ⟨i, hi, rfl⟩ := List.getElem_of_mem hx
            obtain ⟨j, hj, rfl⟩ := List.getElem_of_mem hem
            have := (List.getElem_inj (h₀ := by simpa using hi) (h₁ := by simpa using hj) h.nodup).mp (by simpa using hk2)
            subst this; rfl
          rw [hxe] at e2
          exact Nat.le_trans hlen e2
        · exact ⟨x, mem_replaceKey_other hx hkx, e1, e2⟩
      · intro x hx hi
        rcases mem_replaceKey hx with rfl | hx
        · exact hign hi
        · exact keep.ign x hx hi
    dsimp only
    split
    · exact keep
    · next hc =>
      simp only [Bool.or_eq_true, decide_eq_true_eq, not_or, Bool.not_eq_true] at hc
      have hlen : f.index.length = ef.index.length := by omega
      split
      · refine repl _ hek ?_ (Nat.le_refl _) ?_
        · exact ⟨eg, by simp [heg], by
            rcases hes with rfl | rfl
            · exact .inr rfl
            · exact .inr rfl⟩
        · intro _
          exact ⟨f, by simp, hek.symm, fun e => hne e.symm, hlen⟩
      · split
        · exact repl f rfl ⟨f, by simp, .inl rfl⟩ (by omega) (by rw [hf]; simp)
        · exact keep

theorem MapInv.fold (L : List FieldInfo) (hign : ∀ f ∈ L, f.ignored = false)
    (hmono : L.Pairwise fun f g => f.index.length ≤ g.index.length) (hnew : L.Pairwise fun f g => f.index ≠ g.index) :
    MapInv L (L.foldl insertField []) := by
  have gen : ∀ (rest done : List FieldInfo) (m : List FieldInfo), L = done ++ rest → MapInv done m →
      MapInv L (rest.foldl insertField m) := by
    intro rest
    induction rest with
    | nil => intro done m e h; simp only [List.append_nil] at e; subst e; exact h
    | cons f rest ih =>
      intro done m e h
      rw [List.foldl_cons]
      refine ih (done ++ [f]) _ (by simp [e]) (h.insert (hign f (by simp [e])) ?_ ?_)
      · intro g hg
        rw [e, List.pairwise_append] at hmono
        exact hmono.2.2 g hg f (by simp)
      · intro g hg
        rw [e, List.pairwise_append] at hnew
        exact hnew.2.2 g hg f (by simp)
  exact gen L [] [] (by simp) ⟨by simp, by simp, by simp, by simp⟩

/-! ### The leaves in the order of the search -/

def leavesOf (index : List Nat) : Nat → List (Hdr × Ty) → List FieldInfo
  | _, [] => []
  | j, (h, t) :: fs =>
    match classify index j h t with
    | .leaf f => f :: leavesOf index (j + 1) fs
    | _ => leavesOf index (j + 1) fs

def embedsOf (index : List Nat) : Nat → List (Hdr × Ty) → List (List Nat × Ty)
  | _, [] => []
  | j, (h, t) :: fs =>
    match classify index j h t with
    | .embed f => (f.index, t) :: embedsOf index (j + 1) fs
    | _ => embedsOf index (j + 1) fs

theorem leavesOf_cons (index : List Nat) (j : Nat) (h : Hdr) (t : Ty) (fs : List (Hdr × Ty)) :
    leavesOf index j ((h, t) :: fs) =
      (match classify index j h t with | .leaf f => f :: leavesOf index (j + 1) fs | _ => leavesOf index (j + 1) fs) := rfl

theorem embedsOf_cons (index : List Nat) (j : Nat) (h : Hdr) (t : Ty) (fs : List (Hdr × Ty)) :
    embedsOf index j ((h, t) :: fs) =
      (match classify index j h t with
      | .embed f => (f.index, t) :: embedsOf index (j + 1) fs
      | _ => embedsOf index (j + 1) fs) := rfl

theorem scanFields_eq (index : List Nat) (fs : List (Hdr × Ty)) : ∀ j m next,
    scanFields index j fs m next = ((leavesOf index j fs).foldl insertField m, next ++ embedsOf index j fs) := by
  induction fs with
  | nil => intro j m next; simp [scanFields, leavesOf, embedsOf]
  | cons f fs ih =>
    intro j m next
    obtain ⟨h, t⟩ := f
    unfold scanFields leavesOf embedsOf
    cases classify index j h t <;> simp [ih]

def roundLeaves : List (List Nat × Ty) → List Nat → List FieldInfo
  | [], _ => []
  | (index, t) :: curr, visited =>
    match t.deref1.structOf? with
    | none => roundLeaves curr visited
    | some (id, fs) => if id ∈ visited then roundLeaves curr visited
      else leavesOf index 0 fs ++ roundLeaves curr (id :: visited)

def roundEmbeds : List (List Nat × Ty) → List Nat → List (List Nat × Ty)
  | [], _ => []
  | (index, t) :: curr, visited =>
    match t.deref1.structOf? with
    | none => roundEmbeds curr visited
    | some (id, fs) => if id ∈ visited then roundEmbeds curr visited
      else embedsOf index 0 fs ++ roundEmbeds curr (id :: visited)

def roundVisited : List (List Nat × Ty) → List Nat → List Nat
  | [], v => v
  | (_, t) :: curr, visited =>
    match t.deref1.structOf? with
    | none => roundVisited curr visited
    | some (id, _) => if id ∈ visited then roundVisited curr visited else roundVisited curr (id :: visited)

theorem scanRound_eq (curr : List (List Nat × Ty)) : ∀ visited m next,
    scanRound curr visited m next =
      ((roundLeaves curr visited).foldl insertField m, next ++ roundEmbeds curr visited, roundVisited curr visited) := by
  induction curr with
  | nil => intro v m next; simp [scanRound, roundLeaves, roundEmbeds, roundVisited]
  | cons x curr ih =>
    intro v m next
    obtain ⟨index, t⟩ := x
    unfold scanRound roundLeaves roundEmbeds roundVisited
    cases t.deref1.structOf? with
    | none => simp [ih]
    | some y =>
      obtain ⟨id, fs⟩ := y
      by_cases hv : id ∈ v
      · simp [hv, ih]
      · simp [hv, ih, scanFields_eq]

def allLeaves : Nat → List (List Nat × Ty) → List Nat → List FieldInfo
  | 0, _, _ => []
  | n + 1, next, visited => roundLeaves next visited ++ allLeaves n (roundEmbeds next visited) (roundVisited next visited)

theorem allLeaves_nil (n : Nat) (v : List Nat) : allLeaves n [] v = [] := by
  induction n generalizing v with
  | zero => rfl
  | succ n ih => simp [allLeaves, roundLeaves, roundEmbeds, roundVisited, ih]

theorem scanAll_eq (n : Nat) : ∀ next visited m, scanAll n next visited m = (allLeaves n next visited).foldl insertField m := by
  induction n with
  | zero => intro next v m; rfl
  | succ n ih =>
    intro next v m
    cases next with
    | nil => rw [allLeaves_nil]; rfl
    | cons x xs =>
      unfold scanAll allLeaves
      simp only [scanRound_eq, List.nil_append, ih, List.foldl_append]

/-! ### Classification against the specification -/

theorem cutComma_fst (s : Bytes) : (cutComma s).1 = s.takeWhile (· ≠ 44) := by
  induction s with
  | nil => rfl
  | cons b bs ih =>
    unfold cutComma
    by_cases h : b = 44
    · subst h; simp
    · simp [h, ih]

theorem parseTag_fst (s : Bytes) : (parseTag s).1 = s.takeWhile (· ≠ 44) := by
  unfold parseTag; rw [← cutComma_fst]

theorem deref1_eq (t : Ty) : t.deref1 = target t := by cases t <;> rfl

theorem structOf_some (t : Ty) (id : Nat) (fs : List (Hdr × Ty)) : t.structOf? = some (id, fs) ↔ t.under = .struct id fs := by
  unfold Ty.structOf?
  cases t.under <;> simp

theorem structOf_isSome (t : Ty) : t.structOf?.isSome = true ↔ IsStruct t := by
  unfold IsStruct
  rw [Option.isSome_iff_exists]
  constructor
  · rintro ⟨⟨id, fs⟩, h⟩; exact ⟨id, fs, (structOf_some t id fs).mp h⟩
  · rintro ⟨id, fs, h⟩; exact ⟨(id, fs), (structOf_some t id fs).mpr h⟩

/-- The field entered for a leaf. -/
def leafInfo (index : List Nat) (j : Nat) (h : Hdr) (t : Ty) : FieldInfo :=
  { index := index ++ [j], name := toLower h.name, tag := tagName h, key := fieldKey h,
    omitempty := (parseTag h.tag).2, ty := t, hdr := h }

theorem classify_spec (index : List Nat) (j : Nat) (h : Hdr) (t : Ty) :
    (Visible h t ∧ Embeds h t ∧ classify index j h t = .embed (leafInfo index j h t)) ∨
    (Visible h t ∧ ¬ Embeds h t ∧ classify index j h t = .leaf (leafInfo index j h t)) ∨
    (¬ Visible h t ∧ classify index j h t = .skip) := by
  have hS := structOf_isSome (target t)
  have htn : toLower (parseTag h.tag).1 = tagName h := by rw [parseTag_fst]; rfl
  unfold classify
  rw [deref1_eq]
  unfold Visible Embeds
  cases ha : h.anon with
  | false =>
    simp only [Bool.false_eq_true, if_false, Bool.false_and, Bool.not_false, Bool.true_and, false_and, or_false, and_false,
      false_or, not_false_eq_true, true_and]
    cases he : h.exported with
    | false => simp
    | true =>
      by_cases hd : h.tag = b!"-"
      · simp [hd]
      · simp [hd, leafInfo, fieldKey, ← htn]
  | true =>
    simp only [if_true, Bool.true_and, Bool.not_true, Bool.false_and, Bool.false_eq_true, if_false, true_and]
    by_cases hs : IsStruct (target t)
    · have hs' := hS.mpr hs
      simp only [hs, hs', Bool.not_true, Bool.and_false, Bool.false_eq_true, if_false, or_true, true_and]
      by_cases hd : h.tag = b!"-"
      · simp [hd]
      · by_cases hn : tagName h = []
        · left
          refine ⟨hd, hn, ?_⟩
          simp [hd, leafInfo, fieldKey, ← htn]
          rw [← htn] at hn
          simp [hn]
        · right; left
          refine ⟨hd, hn, ?_⟩
          simp [hd, leafInfo, fieldKey, ← htn]
          rw [← htn] at hn
          simp [hn]
    · have hs' : (target t).structOf?.isSome = false := by
        rw [Bool.eq_false_iff]; exact fun e => hs (hS.mp e)
      simp only [hs, hs', Bool.not_false, Bool.and_true, false_and, or_false, and_false]
      cases he : h.exported with
      | false => simp
      | true =>
        by_cases hd : h.tag = b!"-"
        · simp [hd]
        · simp [hd, leafInfo, fieldKey, ← htn]

theorem mem_leavesOf (index : List Nat) (fs : List (Hdr × Ty)) : ∀ j f, f ∈ leavesOf index j fs ↔
    ∃ i h t, fs[i]? = some (h, t) ∧ Visible h t ∧ ¬ Embeds h t ∧ f = leafInfo index (j + i) h t := by
  induction fs with
  | nil => intro j f; simp [leavesOf]
  | cons x fs ih =>
    intro j f
    obtain ⟨h, t⟩ := x
    have step : (∃ i h' t', ((h, t) :: fs)[i]? = some (h', t') ∧ Visible h' t' ∧ ¬ Embeds h' t' ∧ f = leafInfo index (j + i) h' t') ↔
        ((Visible h t ∧ ¬ Embeds h t ∧ f = leafInfo index j h t) ∨ f ∈ leavesOf index (j + 1) fs) := by
      rw [ih]
      constructor
      · rintro ⟨i, h', t', e, hv, he, rfl⟩
        cases i with
        | zero => simp only [List.getElem?_cons_zero, Option.some.injEq, Prod.mk.injEq] at e
                  obtain ⟨rfl, rfl⟩ := e
                  exact .inl ⟨hv, he, rfl⟩
        | succ i => simp only [List.getElem?_cons_succ] at e
                    exact .inr ⟨i, h', t', e, hv, he, by rw [Nat.add_assoc, Nat.add_comm 1]⟩
      · rintro (⟨hv, he, rfl⟩ | ⟨i, h', t', e, hv, he, rfl⟩)
        · exact ⟨0, h, t, by simp, hv, he, rfl⟩
        · exact ⟨i + 1, h', t', by simpa using e, hv, he, by rw [Nat.add_assoc, Nat.add_comm 1]⟩
    rw [step, leavesOf_cons]
    rcases classify_spec index j h t with ⟨a, b, c⟩ | ⟨a, b, c⟩ | ⟨a, c⟩
    · simp [c, b]
    · simp [c, a, b]
    · simp [c, a]

theorem mem_embedsOf (index : List Nat) (fs : List (Hdr × Ty)) : ∀ j x, x ∈ embedsOf index j fs ↔
    ∃ i h t, fs[i]? = some (h, t) ∧ Visible h t ∧ Embeds h t ∧ x = (index ++ [j + i], t) := by
  induction fs with
  | nil => intro j f; simp [embedsOf]
  | cons x fs ih =>
    intro j f
    obtain ⟨h, t⟩ := x
    have step : (∃ i h' t', ((h, t) :: fs)[i]? = some (h', t') ∧ Visible h' t' ∧ Embeds h' t' ∧ f = (index ++ [j + i], t')) ↔
        ((Visible h t ∧ Embeds h t ∧ f = (index ++ [j], t)) ∨ f ∈ embedsOf index (j + 1) fs) := by
      rw [ih]
      constructor
      · rintro ⟨i, h', t', e, hv, he, rfl⟩
        cases i with
        | zero => simp only [List.getElem?_cons_zero, Option.some.injEq, Prod.mk.injEq] at e
                  obtain ⟨rfl, rfl⟩ := e
                  exact .inl ⟨hv, he, rfl⟩
        | succ i => simp only [List.getElem?_cons_succ] at e
                    exact .inr ⟨i, h', t', e, hv, he, by rw [Nat.add_assoc, Nat.add_comm 1]⟩
      · rintro (⟨hv, he, rfl⟩ | ⟨i, h', t', e, hv, he, rfl⟩)
        · exact ⟨0, h, t, by simp, hv, he, rfl⟩
        · exact ⟨i + 1, h', t', by simpa using e, hv, he, by rw [Nat.add_assoc, Nat.add_comm 1]⟩
    rw [step, embedsOf_cons]
    rcases classify_spec index j h t with ⟨a, b, c⟩ | ⟨a, b, c⟩ | ⟨a, c⟩
    · simp [c, a, b, leafInfo]
    · simp [c, b]
    · simp [c, a]

/-! ### The search -/

/-- Struct identity and fields of the type or its target. -/
theorem structOf_target (t : Ty) (id : Nat) (fs : List (Hdr × Ty)) :
    t.deref1.structOf? = some (id, fs) ↔ (target t).under = .struct id fs := by rw [deref1_eq, structOf_some]

theorem mem_roundVisited (curr : List (List Nat × Ty)) : ∀ v id, id ∈ roundVisited curr v ↔
    id ∈ v ∨ ∃ p t fs, (p, t) ∈ curr ∧ (target t).under = .struct id fs := by
  induction curr with
  | nil => intro v id; simp [roundVisited]
  | cons x curr ih =>
    intro v id
    obtain ⟨p, t⟩ := x
    unfold roundVisited
    cases hs : t.deref1.structOf? with
    | none =>
      simp only [ih]
      constructor
      · rintro (h | ⟨q, u, fs, h, e⟩)
        · exact .inl h
        · exact .inr ⟨q, u, fs, by simp [h], e⟩
      · rintro (h | ⟨q, u, fs, h, e⟩)
        · exact .inl h
        · rcases List.mem_cons.mp h with h | h
          · simp only [Prod.mk.injEq] at h
            obtain ⟨rfl, rfl⟩ := h
            rw [(structOf_target _ _ _).mpr e] at hs
            simp at hs
          · exact .inr ⟨q, u, fs, h, e⟩
    | some y =>
      obtain ⟨id', fs'⟩ := y
      have hs' := (structOf_target _ _ _).mp hs
      dsimp only
      by_cases hv : id' ∈ v
      · simp only [hv, if_true, ih]
        constructor
        · rintro (h | ⟨q, u, fs, h, e⟩)
          · exact .inl h
          · exact .inr ⟨q, u, fs, by simp [h], e⟩
        · rintro (h | ⟨q, u, fs, h, e⟩)
          · exact .inl h
          · rcases List.mem_cons.mp h with h | h
            · simp only [Prod.mk.injEq] at h
              obtain ⟨rfl, rfl⟩ := h
              rw [e] at hs'
              simp only [Ty.struct.injEq] at hs'
              exact .inl (hs'.1 ▸ hv)
            · exact .inr ⟨q, u, fs, h, e⟩
      · simp only [hv, if_false, ih, List.mem_cons]
        constructor
        · rintro ((rfl | h) | ⟨q, u, fs, h, e⟩)
          · exact .inr ⟨p, t, fs', by simp, hs'⟩
          · exact .inl h
          · exact .inr ⟨q, u, fs, by simp [h], e⟩
        · rintro (h | ⟨q, u, fs, h, e⟩)
          · exact .inl (.inr h)
          · rcases h with h | h
            · simp only [Prod.mk.injEq] at h
              obtain ⟨rfl, rfl⟩ := h
              rw [e] at hs'
              simp only [Ty.struct.injEq] at hs'
              exact .inl (.inl hs'.1)
            · exact .inr ⟨q, u, fs, h, e⟩

/-- Everything in a round comes from an item of the queue whose struct was not visited before. -/
theorem roundLeaves_from (curr : List (List Nat × Ty)) : ∀ v f, f ∈ roundLeaves curr v →
    ∃ p t id fs, (p, t) ∈ curr ∧ (target t).under = .struct id fs ∧ id ∉ v ∧ f ∈ leavesOf p 0 fs := by
  induction curr with
  | nil => intro v f h; simp [roundLeaves] at h
  | cons x curr ih =>
    intro v f h
    obtain ⟨p, t⟩ := x
    unfold roundLeaves at h
    cases hs : t.deref1.structOf? with
    | none =>
      rw [hs] at h
      obtain ⟨q, u, id, fs, h1, h2⟩ := ih v f h
      exact ⟨q, u, id, fs, by simp [h1], h2⟩
    | some y =>
      obtain ⟨id', fs'⟩ := y
      rw [hs] at h
      dsimp only at h
      split at h
      · obtain ⟨q, u, id, fs, h1, h2⟩ := ih v f h
        exact ⟨q, u, id, fs, by simp [h1], h2⟩
      · next hv =>
        rcases List.mem_append.mp h with h | h
        · exact ⟨p, t, id', fs', by simp, (structOf_target _ _ _).mp hs, hv, h⟩
        · obtain ⟨q, u, id, fs, h1, h2, h3, h4⟩ := ih _ f h
          exact ⟨q, u, id, fs, by simp [h1], h2, fun e => h3 (by simp [e]), h4⟩

theorem roundEmbeds_from (curr : List (List Nat × Ty)) : ∀ v x, x ∈ roundEmbeds curr v →
    ∃ p t id fs, (p, t) ∈ curr ∧ (target t).under = .struct id fs ∧ id ∉ v ∧ x ∈ embedsOf p 0 fs := by
  induction curr with
  | nil => intro v f h; simp [roundEmbeds] at h
  | cons x curr ih =>
    intro v f h
    obtain ⟨p, t⟩ := x
    unfold roundEmbeds at h
    cases hs : t.deref1.structOf? with
    | none =>
      rw [hs] at h
      obtain ⟨q, u, id, fs, h1, h2⟩ := ih v f h
      exact ⟨q, u, id, fs, by simp [h1], h2⟩
    | some y =>
      obtain ⟨id', fs'⟩ := y
      rw [hs] at h
      dsimp only at h
      split at h
      · obtain ⟨q, u, id, fs, h1, h2⟩ := ih v f h
        exact ⟨q, u, id, fs, by simp [h1], h2⟩
      · next hv =>
        rcases List.mem_append.mp h with h | h
        · exact ⟨p, t, id', fs', by simp, (structOf_target _ _ _).mp hs, hv, h⟩
        · obtain ⟨q, u, id, fs, h1, h2, h3, h4⟩ := ih _ f h
          exact ⟨q, u, id, fs, by simp [h1], h2, fun e => h3 (by simp [e]), h4⟩

/-- Every struct identity in the queue that was not visited before is expanded at one of its items. -/
theorem round_expands (curr : List (List Nat × Ty)) : ∀ v id, id ∉ v →
    (∃ p t fs, (p, t) ∈ curr ∧ (target t).under = .struct id fs) →
    ∃ p t fs, (p, t) ∈ curr ∧ (target t).under = .struct id fs ∧ (∀ f ∈ leavesOf p 0 fs, f ∈ roundLeaves curr v) ∧
      (∀ x ∈ embedsOf p 0 fs, x ∈ roundEmbeds curr v) := by
  induction curr with
  | nil => rintro v id hv ⟨p, t, fs, h, _⟩; simp at h
  | cons x curr ih =>
    rintro v id hv ⟨q, u, gs, hm, hu⟩
    obtain ⟨p, t⟩ := x
    cases hs : t.deref1.structOf? with
    | none =>
      have hm' : (q, u) ∈ curr := by
        rcases List.mem_cons.mp hm with h | h
        · simp only [Prod.mk.injEq] at h
          obtain ⟨rfl, rfl⟩ := h
          rw [(structOf_target _ _ _).mpr hu] at hs; simp at hs
        · exact h
      obtain ⟨p', t', fs, h1, h2, h3, h4⟩ := ih v id hv ⟨q, u, gs, hm', hu⟩
      refine ⟨p', t', fs, by simp [h1], h2, ?_, ?_⟩
      · intro f hf; unfold roundLeaves; rw [hs]; exact h3 f hf
      · intro f hf; unfold roundEmbeds; rw [hs]; exact h4 f hf
    | some y =>
      obtain ⟨id', fs'⟩ := y
      have hs' := (structOf_target _ _ _).mp hs
      by_cases hid : id' = id
      · subst hid
        refine ⟨p, t, fs', by simp, hs', ?_, ?_⟩
        · intro f hf; unfold roundLeaves; rw [hs]; simp [hv, hf]
        · intro f hf; unfold roundEmbeds; rw [hs]; simp [hv, hf]
      · have hm' : (q, u) ∈ curr := by
          rcases List.mem_cons.mp hm with h | h
          · simp only [Prod.mk.injEq] at h
            obtain ⟨rfl, rfl⟩ := h
            rw [hu] at hs'; simp only [Ty.struct.injEq] at hs'; exact absurd hs'.1.symm hid
          · exact h
        by_cases hv' : id' ∈ v
        · obtain ⟨p', t', fs, h1, h2, h3, h4⟩ := ih v id hv ⟨q, u, gs, hm', hu⟩
          refine ⟨p', t', fs, by simp [h1], h2, ?_, ?_⟩
          · intro f hf; unfold roundLeaves; rw [hs]; simp only [hv', if_true]; exact h3 f hf
          · intro f hf; unfold roundEmbeds; rw [hs]; simp only [hv', if_true]; exact h4 f hf
        · obtain ⟨p', t', fs, h1, h2, h3, h4⟩ := ih (id' :: v) id (by simp [hv, Ne.symm hid]) ⟨q, u, gs, hm', hu⟩
          refine ⟨p', t', fs, by simp [h1], h2, ?_, ?_⟩
          · intro f hf; unfold roundLeaves; rw [hs]; simp only [hv', if_false]
            exact List.mem_append_right _ (h3 f hf)
          · intro f hf; unfold roundEmbeds; rw [hs]; simp only [hv', if_false]
            exact List.mem_append_right _ (h4 f hf)

/-- What holds of queue and visited set before a round. -/
structure SInv (T : Ty) (r : Nat) (next : List (List Nat × Ty)) (V : List Nat) : Prop where
  reach : ∀ x ∈ next, x.1.length = r ∧ Reach T x.1 x.2
  distinct : next.Pairwise fun x y => x.1 ≠ y.1
  closed : ∀ id ∈ V, ∀ p u fs, Reach T p u → (target u).under = .struct id fs → ∀ (i : Nat) (h : Hdr) (ft : Ty), fs[i]? = some (h, ft) →
    Visible h ft → Embeds h ft → ∀ id' gs, (target ft).under = .struct id' gs →
      id' ∈ V ∨ ∃ x ∈ next, ∃ gs', (target x.2).under = .struct id' gs'
  found : ∀ p u id fs, Reach T p u → p.length ≤ r → (target u).under = .struct id fs →
    id ∈ V ∨ ∃ x ∈ next, ∃ gs', (target x.2).under = .struct id gs'

theorem SInv.start (T : Ty) : SInv T 0 [([], T)] [] := by
  refine ⟨?_, by simp, by simp, ?_⟩
  · intro x hx
    simp only [List.mem_singleton] at hx
    subst hx
    exact ⟨rfl, .here⟩
  · intro p u id fs hr hp hu
    have : p = [] := List.length_eq_zero_iff.mp (by omega)
    subst this
    have hT : u = T := by
      generalize hq : ([] : List Nat) = q at hr
      cases hr with
      | here => rfl
      | there _ _ _ _ => simp at hq
    subst hT
    exact .inr ⟨([], u), by simp, fs, hu⟩

theorem embedsOf_distinct (index : List Nat) (fs : List (Hdr × Ty)) : ∀ j,
    (embedsOf index j fs).Pairwise fun x y => x.1 ≠ y.1 := by
  induction fs with
  | nil => intro j; simp [embedsOf]
  | cons x fs ih =>
    intro j
    obtain ⟨h, t⟩ := x
    rw [embedsOf_cons]
    rcases classify_spec index j h t with ⟨a, b, c⟩ | ⟨a, b, c⟩ | ⟨a, c⟩
    · rw [c]
      simp only [List.pairwise_cons]
      refine ⟨?_, ih _⟩
      intro y hy
      obtain ⟨i, h', t', _, _, _, rfl⟩ := (mem_embedsOf index fs _ y).mp hy
      simp [leafInfo]; omega
    · rw [c]; exact ih _
    · rw [c]; exact ih _

theorem leavesOf_distinct (index : List Nat) (fs : List (Hdr × Ty)) : ∀ j,
    (leavesOf index j fs).Pairwise fun x y => x.index ≠ y.index := by
  induction fs with
  | nil => intro j; simp [leavesOf]
  | cons x fs ih =>
    intro j
    obtain ⟨h, t⟩ := x
    rw [leavesOf_cons]
    rcases classify_spec index j h t with ⟨a, b, c⟩ | ⟨a, b, c⟩ | ⟨a, c⟩
    · rw [c]; exact ih _
    · rw [c]
      simp only [List.pairwise_cons]
      refine ⟨?_, ih _⟩
      intro y hy
      obtain ⟨i, h', t', _, _, _, rfl⟩ := (mem_leavesOf index fs _ y).mp hy
      simp [leafInfo]; omega
    · rw [c]; exact ih _

theorem leavesOf_index {index : List Nat} {fs : List (Hdr × Ty)} {j : Nat} {f : FieldInfo} (h : f ∈ leavesOf index j fs) :
    ∃ i, f.index = index ++ [i] := by
  obtain ⟨i, h', t', _, _, _, rfl⟩ := (mem_leavesOf index fs _ f).mp h
  exact ⟨_, rfl⟩

theorem embedsOf_index {index : List Nat} {fs : List (Hdr × Ty)} {j : Nat} {x : List Nat × Ty} (h : x ∈ embedsOf index j fs) :
    ∃ i, x.1 = index ++ [i] := by
  obtain ⟨i, h', t', _, _, _, rfl⟩ := (mem_embedsOf index fs _ x).mp h
  exact ⟨_, rfl⟩

theorem roundEmbeds_distinct (curr : List (List Nat × Ty)) (hd : curr.Pairwise fun x y => x.1 ≠ y.1) : ∀ v,
    (roundEmbeds curr v).Pairwise fun x y => x.1 ≠ y.1 := by
  induction curr with
  | nil => intro v; simp [roundEmbeds]
  | cons x curr ih =>
    intro v
    obtain ⟨p, t⟩ := x
    rw [List.pairwise_cons] at hd
    unfold roundEmbeds
    cases t.deref1.structOf? with
    | none => exact ih hd.2 v
    | some y =>
      obtain ⟨id, fs⟩ := y
      dsimp only
      split
      · exact ih hd.2 v
      · rw [List.pairwise_append]
        refine ⟨embedsOf_distinct _ _ _, ih hd.2 _, ?_⟩
        intro a ha b hb
        obtain ⟨i, hi⟩ := embedsOf_index ha
        obtain ⟨q, u, _, gs, hq, _, _, hb⟩ := roundEmbeds_from _ _ _ hb
        obtain ⟨i', hi'⟩ := embedsOf_index hb
        rw [hi, hi']
        intro e
        have := (List.append_inj' e rfl).1
        exact hd.1 (q, u) hq this

theorem roundLeaves_distinct (curr : List (List Nat × Ty)) (hd : curr.Pairwise fun x y => x.1 ≠ y.1) : ∀ v,
    (roundLeaves curr v).Pairwise fun x y => x.index ≠ y.index := by
  induction curr with
  | nil => intro v; simp [roundLeaves]
  | cons x curr ih =>
    intro v
    obtain ⟨p, t⟩ := x
    rw [List.pairwise_cons] at hd
    unfold roundLeaves
    cases t.deref1.structOf? with
    | none => exact ih hd.2 v
    | some y =>
      obtain ⟨id, fs⟩ := y
      dsimp only
      split
      · exact ih hd.2 v
      · rw [List.pairwise_append]
        refine ⟨leavesOf_distinct _ _ _, ih hd.2 _, ?_⟩
        intro a ha b hb
        obtain ⟨i, hi⟩ := leavesOf_index ha
        obtain ⟨q, u, _, gs, hq, _, _, hb⟩ := roundLeaves_from _ _ _ hb
        obtain ⟨i', hi'⟩ := leavesOf_index hb
        rw [hi, hi']
        intro e
        have := (List.append_inj' e rfl).1
        exact hd.1 (q, u) hq this

theorem SInv.step {T : Ty} (hok : IdsOk T) {r : Nat} {next : List (List Nat × Ty)} {V : List Nat} (h : SInv T r next V) :
    SInv T (r + 1) (roundEmbeds next V) (roundVisited next V) := by
  have hclosed : ∀ id ∈ roundVisited next V, ∀ p u fs, Reach T p u → (target u).under = .struct id fs → ∀ (i : Nat) (h : Hdr) (ft : Ty),
      fs[i]? = some (h, ft) → Visible h ft → Embeds h ft → ∀ id' gs, (target ft).under = .struct id' gs →
        id' ∈ roundVisited next V ∨ ∃ x ∈ roundEmbeds next V, ∃ gs', (target x.2).under = .struct id' gs' := by
    intro id hid p u fs hr hu i hd ft hi hv he id' gs hg
    by_cases hV : id ∈ V
    · rcases h.closed id hV p u fs hr hu i hd ft hi hv he id' gs hg with e | ⟨x, hx, gs', e⟩
      · exact .inl ((mem_roundVisited _ _ _).mpr (.inl e))
      · exact .inl ((mem_roundVisited _ _ _).mpr (.inr ⟨x.1, x.2, gs', hx, e⟩))
    · rcases (mem_roundVisited _ _ _).mp hid with e | ⟨q, w, ws, hq, hw⟩
      · exact absurd e hV
      · obtain ⟨q', w', ws', h1, h2, _, h4⟩ := round_expands next V id hV ⟨q, w, ws, hq, hw⟩
        have hsame := hok _ _ _ _ _ _ _ hr (h.reach _ h1).2 hu h2
        subst hsame
        refine .inr ⟨(q' ++ [0 + i], ft), h4 _ ((mem_embedsOf _ _ _ _).mpr ⟨i, hd, ft, hi, hv, he, rfl⟩), gs, hg⟩
  refine ⟨?_, roundEmbeds_distinct _ h.distinct _, hclosed, ?_⟩
  · intro x hx
    obtain ⟨p, t, id, fs, h1, h2, _, h4⟩ := roundEmbeds_from _ _ _ hx
    obtain ⟨i, hd, ft, hi, hv, he, rfl⟩ := (mem_embedsOf _ _ _ _).mp h4
    obtain ⟨hl, hr⟩ := h.reach _ h1
    simp only at hl hr
    refine ⟨by simp [hl], ?_⟩
    simp only [Nat.zero_add]
    exact .there hr ⟨fs, h2, hi⟩ hv he
  · intro p u id fs hr hp hu
    by_cases hlen : p.length ≤ r
    · rcases h.found p u id fs hr hlen hu with e | ⟨x, hx, gs', e⟩
      · exact .inl ((mem_roundVisited _ _ _).mpr (.inl e))
      · exact .inl ((mem_roundVisited _ _ _).mpr (.inr ⟨x.1, x.2, gs', hx, e⟩))
    · cases hr with
      | here => simp at hlen
      | @there _ _ id' _ _ _ hr' hf hv he =>
        obtain ⟨fs', hw, hi⟩ := hf
        simp only [List.length_append, List.length_cons, List.length_nil] at hp hlen
        have : id' ∈ roundVisited next V := by
          rcases h.found _ _ _ _ hr' (by omega) hw with e | ⟨x, hx, gs', e⟩
          · exact (mem_roundVisited _ _ _).mpr (.inl e)
          · exact (mem_roundVisited _ _ _).mpr (.inr ⟨x.1, x.2, gs', hx, e⟩)
        exact hclosed _ this _ _ _ hr' hw _ _ _ hi hv he _ _ hu

theorem cand_of_reach {T u : Ty} {p q : List Nat} {h : Hdr} {ft : Ty} (hr : Reach T p u) (hc : Cand u q h ft) :
    Cand T (p ++ q) h ft := by
  induction hr generalizing q with
  | here => exact hc
  | there hr' hf hv he ih =>
    rw [List.append_assoc]
    exact ih (.there hf hv he hc)

theorem reach_cons {t : Ty} {id j : Nat} {h : Hdr} {ft u : Ty} {p : List Nat} (hf : FieldAt t id j h ft) (hv : Visible h ft)
    (he : Embeds h ft) (hr : Reach ft p u) : Reach t (j :: p) u := by
  induction hr with
  | here => exact .there (p := []) .here hf hv he
  | there hr' hf' hv' he' ih =>
    rw [← List.cons_append]
    exact .there ih hf' hv' he'

theorem cand_split {t : Ty} {q : List Nat} {h : Hdr} {ft : Ty} (hc : Cand t q h ft) :
    ∃ p u id j, q = p ++ [j] ∧ Reach t p u ∧ FieldAt u id j h ft ∧ Visible h ft ∧ ¬ Embeds h ft := by
  induction hc with
  | here hf hv he => exact ⟨[], _, _, _, rfl, .here, hf, hv, he⟩
  | there hf hv he _ ih =>
    obtain ⟨p, u, id, j, rfl, hr, h1, h2, h3⟩ := ih
    exact ⟨_ :: p, u, id, j, rfl, reach_cons hf hv he hr, h1, h2, h3⟩

/-- Properties of the list of leaves found from round `r` on. -/
structure LeafInv (T : Ty) (r : Nat) (L : List FieldInfo) : Prop where
  cand : ∀ f ∈ L, Cand T f.index f.hdr f.ty ∧ f.key = fieldKey f.hdr ∧ f.ignored = false ∧ r < f.index.length ∧
    f.omitempty = (parseTag f.hdr.tag).2
  mono : L.Pairwise fun f g => f.index.length ≤ g.index.length
  distinct : L.Pairwise fun f g => f.index ≠ g.index

theorem allLeaves_inv {T : Ty} (hok : IdsOk T) (n : Nat) : ∀ r next V, SInv T r next V → LeafInv T r (allLeaves n next V) := by
  induction n with
  | zero => intro r next V _; exact ⟨by simp [allLeaves], by simp [allLeaves], by simp [allLeaves]⟩
  | succ n ih =>
    intro r next V h
    have hrest := ih (r + 1) _ _ (h.step hok)
    have hround : ∀ f ∈ roundLeaves next V, Cand T f.index f.hdr f.ty ∧ f.key = fieldKey f.hdr ∧ f.ignored = false ∧
        f.index.length = r + 1 ∧ f.omitempty = (parseTag f.hdr.tag).2 := by
      intro f hf
      obtain ⟨p, t, id, fs, h1, h2, _, h4⟩ := roundLeaves_from _ _ _ hf
      obtain ⟨i, hd, ft, hi, hv, he, rfl⟩ := (mem_leavesOf _ _ _ _).mp h4
      obtain ⟨hl, hr⟩ := h.reach _ h1
      simp only at hl hr
      refine ⟨?_, rfl, rfl, by simp [leafInfo, hl], rfl⟩
      simp only [leafInfo, Nat.zero_add]
      exact cand_of_reach hr (.here ⟨fs, h2, hi⟩ hv he)
    unfold allLeaves
    refine ⟨?_, ?_, ?_⟩
    · intro f hf
      rcases List.mem_append.mp hf with hf | hf
      · obtain ⟨a, b, c, d, e⟩ := hround f hf; exact ⟨a, b, c, by omega, e⟩
      · obtain ⟨a, b, c, d, e⟩ := hrest.cand f hf; exact ⟨a, b, c, by omega, e⟩
    · rw [List.pairwise_append]
      refine ⟨List.Pairwise.imp_of_mem ?_ (roundLeaves_distinct next h.distinct V), hrest.mono, ?_⟩
      · intro a b ha hb _
        rw [(hround a ha).2.2.2.1, (hround b hb).2.2.2.1]; exact Nat.le_refl _
      · intro a ha b hb
        have := (hround a ha).2.2.2.1
        have := (hrest.cand b hb).2.2.2.1
        omega
    · rw [List.pairwise_append]
      refine ⟨roundLeaves_distinct next h.distinct V, hrest.distinct, ?_⟩
      intro a ha b hb e
      have h1 := (hround a ha).2.2.2.1
      have h2 := (hrest.cand b hb).2.2.2.1
      rw [e] at h1; omega

theorem under_depth (t : Ty) : t.under.depth ≤ t.depth := by
  cases t <;> simp [Ty.under, Ty.depth]

theorem target_depth (t : Ty) : (target t).depth ≤ t.depth := by
  cases t <;> simp [target, Ty.depth]

theorem fieldsDepth_get {fs : List (Hdr × Ty)} {i : Nat} {h : Hdr} {t : Ty} (e : fs[i]? = some (h, t)) :
    t.depth ≤ fieldsDepth fs := by
  induction fs generalizing i with
  | nil => simp at e
  | cons f fs ih =>
    cases i with
    | zero => simp only [List.getElem?_cons_zero, Option.some.injEq] at e; subst e; simp [fieldsDepth]; omega
    | succ i => have := ih (by simpa using e); simp only [fieldsDepth]; omega

theorem fieldAt_depth {t : Ty} {id j : Nat} {h : Hdr} {ft : Ty} (hf : FieldAt t id j h ft) : ft.depth < t.depth := by
  obtain ⟨fs, h1, h2⟩ := hf
  have a := fieldsDepth_get h2
  have b := under_depth (target t)
  have c := target_depth t
  rw [h1] at b
  simp only [Ty.depth] at b
  omega

theorem reach_depth {t u : Ty} {p : List Nat} (hr : Reach t p u) : u.depth + p.length ≤ t.depth := by
  induction hr with
  | here => simp
  | there _ hf _ _ ih => have := fieldAt_depth hf; simp; omega

/-- A visited struct was expanded before: its leaves are represented in `L0`, the leaves found so far, at depth ≤ r. -/
def Seen (T : Ty) (r : Nat) (V : List Nat) (L0 : List FieldInfo) : Prop :=
  ∀ id ∈ V, ∀ p u fs, Reach T p u → (target u).under = .struct id fs → ∀ (i : Nat) (h : Hdr) (ft : Ty), fs[i]? = some (h, ft) →
    Visible h ft → ¬ Embeds h ft → ∃ g ∈ L0, g.key = fieldKey h ∧ g.index.length ≤ r

theorem allLeaves_complete {T : Ty} (hok : IdsOk T) (n : Nat) : ∀ r next V L0, SInv T r next V → Seen T r V L0 →
    (∀ p h ft, Cand T p h ft → p.length ≤ r → ∃ g ∈ L0, g.key = fieldKey h ∧ g.index.length ≤ p.length) →
    T.depth < r + n →
    ∀ p h ft, Cand T p h ft → ∃ g ∈ L0 ++ allLeaves n next V, g.key = fieldKey h ∧ g.index.length ≤ p.length := by
  induction n with
  | zero =>
    intro r next V L0 h hs hc hd p hh ft hcand
    refine ⟨_, List.mem_append_left _ (hc p hh ft hcand ?_).choose_spec.1, (hc p hh ft hcand ?_).choose_spec.2⟩ <;>
    · obtain ⟨q, u, id, j, rfl, hr, hf, _, _⟩ := cand_split hcand
      have := reach_depth hr
      have := fieldAt_depth hf
      simp; omega
  | succ n ih =>
    intro r next V L0 h hs hc hd p hh ft hcand
    have hs' : Seen T (r + 1) (roundVisited next V) (L0 ++ roundLeaves next V) := by
      intro id hid q u fs hr hu i hd' ft' hi hv he
      by_cases hV : id ∈ V
      · obtain ⟨g, hg, e1, e2⟩ := hs id hV q u fs hr hu i hd' ft' hi hv he
        exact ⟨g, by simp [hg], e1, by omega⟩
      · rcases (mem_roundVisited _ _ _).mp hid with e | ⟨q', w, ws, hq, hw⟩
        · exact absurd e hV
        · obtain ⟨q2, w2, ws2, h1, h2, h3, _⟩ := round_expands next V id hV ⟨q', w, ws, hq, hw⟩
          have hsame := hok _ _ _ _ _ _ _ hr (h.reach _ h1).2 hu h2
          subst hsame
          have hmem := h3 _ ((mem_leavesOf q2 fs 0 _).mpr ⟨i, hd', ft', hi, hv, he, rfl⟩)
          refine ⟨_, List.mem_append_right _ hmem, rfl, ?_⟩
          have := (h.reach _ h1).1
          simp only at this
          simp [leafInfo, this]
    have := ih (r + 1) (roundEmbeds next V) (roundVisited next V) (L0 ++ roundLeaves next V) (h.step hok) hs' ?_ (by omega)
      p hh ft hcand
    · unfold allLeaves
      rw [← List.append_assoc]
      exact this
    · intro p' h' ft' hcand' hlen
      by_cases hl : p'.length ≤ r
      · obtain ⟨g, hg, e⟩ := hc p' h' ft' hcand' hl
        exact ⟨g, by simp [hg], e⟩
      · obtain ⟨q, u, id, j, rfl, hr, ⟨fs, hu, hi⟩, hv, he⟩ := cand_split hcand'
        simp only [List.length_append, List.length_cons, List.length_nil] at hlen hl
        have hmem : id ∈ roundVisited next V := by
          rcases h.found _ _ _ _ hr (by omega) hu with e | ⟨x, hx, gs', e⟩
          · exact (mem_roundVisited _ _ _).mpr (.inl e)
          · exact (mem_roundVisited _ _ _).mpr (.inr ⟨x.1, x.2, gs', hx, e⟩)
        obtain ⟨g, hg, e1, e2⟩ := hs' id hmem q u fs hr hu j h' ft' hi hv he
        exact ⟨g, hg, e1, by simp; omega⟩

/-- The leaves of `T` in the order of the search. -/
def leaves (T : Ty) : List FieldInfo := allLeaves (T.depth + 1) [([], T)] []

theorem keyToField_eq (T : Ty) : keyToField T = (leaves T).foldl insertField [] := scanAll_eq _ _ _ _

theorem leaves_inv {T : Ty} (hok : IdsOk T) : LeafInv T 0 (leaves T) := allLeaves_inv hok _ _ _ _ (SInv.start T)

theorem leaves_complete {T : Ty} (hok : IdsOk T) {p : List Nat} {h : Hdr} {ft : Ty} (hc : Cand T p h ft) :
    ∃ g ∈ leaves T, g.key = fieldKey h ∧ g.index.length ≤ p.length := by
  have := allLeaves_complete hok (T.depth + 1) 0 [([], T)] [] [] (SInv.start T) (by intro id hid; simp at hid) ?_ (by omega) p h ft hc
  · simpa [leaves] using this
  · intro p' h' ft' hc' hl
    obtain ⟨q, u, id, j, rfl, _⟩ := cand_split hc'
    simp at hl

theorem keyToField_inv {T : Ty} (hok : IdsOk T) : MapInv (leaves T) (keyToField T) := by
  rw [keyToField_eq]
  have h := leaves_inv hok
  exact MapInv.fold _ (fun f hf => (h.cand f hf).2.2.1) h.mono h.distinct

end Drip.Bencode

namespace Drip.Bencode

theorem insertField_from {L m : List FieldInfo} {f : FieldInfo} (h : ∀ x ∈ m, ∃ g ∈ L, SameField x g) :
    ∀ x ∈ insertField m f, ∃ g ∈ L ++ [f], SameField x g := by
  have hkeep : ∀ x ∈ m, ∃ g ∈ L ++ [f], SameField x g := by
    intro x hx; obtain ⟨g, hg, e⟩ := h x hx; exact ⟨g, by simp [hg], e⟩
  intro x hx
  unfold insertField at hx
  cases hl : lookupKey f.key m with
  | none =>
    rw [hl] at hx
    rcases List.mem_append.mp hx with hx | hx
    · exact hkeep x hx
    · simp only [List.mem_singleton] at hx
      subst hx; exact ⟨x, by simp, .inl rfl⟩
  | some ef =>
    obtain ⟨hem, _⟩ := lookupKey_some hl
    rw [hl] at hx
    dsimp only at hx
    split at hx
    · exact hkeep x hx
    · split at hx
      · rcases mem_replaceKey hx with rfl | hx
        · obtain ⟨g, hg, e⟩ := hkeep ef hem
          exact ⟨g, hg, by rcases e with rfl | rfl <;> exact .inr rfl⟩
        · exact hkeep x hx
      · split at hx
        · rcases mem_replaceKey hx with rfl | hx
          · exact ⟨x, by simp, .inl rfl⟩
          · exact hkeep x hx
        · exact hkeep x hx

theorem insertField_nodup {m : List FieldInfo} {f : FieldInfo} (h : (m.map (·.key)).Nodup) :
    ((insertField m f).map (·.key)).Nodup := by
  unfold insertField
  cases hl : lookupKey f.key m with
  | none =>
    dsimp only
    rw [List.map_append, List.nodup_append]
    refine ⟨h, by simp, ?_⟩
    intro a ha b hb
    simp only [List.map_cons, List.map_nil, List.mem_singleton] at hb
    subst hb
    obtain ⟨x, hx, rfl⟩ := List.mem_map.mp ha
    exact lookupKey_none hl x hx
  | some ef =>
    dsimp only
    split
    · exact h
    · split
      · rw [replaceKey_keys]; exact h
      · split
        · rw [replaceKey_keys]; exact h
        · exact h

theorem keyToField_from (T : Ty) : ∀ f ∈ keyToField T, ∃ g ∈ leaves T, SameField f g := by
  rw [keyToField_eq]
  have gen : ∀ (rest done m : List FieldInfo), (∀ x ∈ m, ∃ g ∈ done, SameField x g) →
      ∀ x ∈ rest.foldl insertField m, ∃ g ∈ done ++ rest, SameField x g := by
    intro rest
    induction rest with
    | nil => intro done m h x hx; simpa using h x hx
    | cons f rest ih =>
      intro done m h x hx
      have := ih (done ++ [f]) _ (insertField_from h) x hx
      simpa using this
  simpa using gen (leaves T) [] [] (by simp)

theorem keyToField_nodup (T : Ty) : ((keyToField T).map (·.key)).Nodup := by
  rw [keyToField_eq]
  have gen : ∀ (rest m : List FieldInfo), (m.map (·.key)).Nodup → ((rest.foldl insertField m).map (·.key)).Nodup := by
    intro rest
    induction rest with
    | nil => intro m h; exact h
    | cons f rest ih => intro m h; exact ih _ (insertField_nodup h)
  exact gen _ [] (by simp)

theorem allLeaves_index (n : Nat) : ∀ next V, ∀ f ∈ allLeaves n next V, ∃ p i, f.index = p ++ [i] := by
  induction n with
  | zero => intro next V f hf; simp [allLeaves] at hf
  | succ n ih =>
    intro next V f hf
    unfold allLeaves at hf
    rcases List.mem_append.mp hf with hf | hf
    · obtain ⟨p, t, id, fs, _, _, _, h4⟩ := roundLeaves_from _ _ _ hf
      obtain ⟨i, hi⟩ := leavesOf_index h4
      exact ⟨p, i, hi⟩
    · exact ih _ _ f hf

theorem mem_structFields {T : Ty} {f : FieldInfo} : f ∈ structFields T ↔ f ∈ keyToField T ∧ f.ignored = false := by
  unfold structFields
  have hp : ∀ l : List FieldInfo, ∀ x, x ∈ sortByKey FieldInfo.key l ↔ x ∈ l := by
    intro l
    induction l with
    | nil => simp [sortByKey]
    | cons y ys ih =>
      intro x
      have hins : ∀ (l : List FieldInfo), x ∈ insertSorted FieldInfo.key y l ↔ x = y ∨ x ∈ l := by
        intro l
        induction l with
        | nil => simp [insertSorted]
        | cons z zs ihz =>
          unfold insertSorted
          split
          · simp only [List.mem_cons, ihz]
            constructor
            · rintro (h | h | h) <;> simp [h]
            · rintro (h | h | h) <;> simp [h]
          · simp
      unfold sortByKey
      rw [hins, ih, List.mem_cons]
  rw [hp]
  simp

theorem structFields_index {T : Ty} {f : FieldInfo} (h : f ∈ structFields T) : f.index ≠ [] := by
  obtain ⟨g, hg, e⟩ := keyToField_from T f (mem_structFields.mp h).1
  obtain ⟨p, i, hi⟩ := allLeaves_index _ _ _ g hg
  rw [e.index, hi]
  simp

end Drip.Bencode
