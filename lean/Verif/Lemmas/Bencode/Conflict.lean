import Verif.Lemmas.Bencode.Fields
/-
Fields with the same key at the same depth.
-/

namespace Drip.Bencode
open Spec

/-- The key of a leaf is its tag or, if there is none, its name. -/
def KeyOK (f : FieldInfo) : Prop := f.key = if f.tag = [] then f.name else f.tag

/-- What is known about conflicts after entering the leaves `L`. -/
structure Contest (L m : List FieldInfo) : Prop where
  /-- the winner is the only one, or the only one with a tag -/
  wins : ∀ f ∈ m, f.ignored = false → ∀ g ∈ L, g.key = f.key → g.index.length = f.index.length → g = f ∨ (f.tag ≠ [] ∧ g.tag = [])
  /-- why nobody wins -/
  none_ : ∀ f ∈ m, f.ignored = true → ∃ a ∈ L, ∃ b ∈ L, a.key = f.key ∧ b.key = f.key ∧ a.index.length = f.index.length ∧ b.index.length = f.index.length ∧
    a.index ≠ b.index ∧ ((a.tag ≠ [] ∧ b.tag ≠ []) ∨ (a.tag = [] ∧ b.name = f.key))

theorem nodup_key {m : List FieldInfo} (h : (m.map (·.key)).Nodup) {f g : FieldInfo} (hf : f ∈ m) (hg : g ∈ m) (hk : f.key = g.key) : f = g := by
  induction m with
  | nil => simp at hf
  | cons x xs ih =>
    simp only [List.map_cons, List.nodup_cons, List.mem_map, not_exists, not_and] at h
    rcases List.mem_cons.mp hf with rfl | hf' <;> rcases List.mem_cons.mp hg with rfl | hg'
    · rfl
    · exact absurd hk.symm (h.1 g hg')
    · exact absurd hk (h.1 f hf')
    · exact ih h.2 hf' hg'

theorem mem_replaceKey_nodup {f x : FieldInfo} {m : List FieldInfo} (h : (m.map (·.key)).Nodup) (hx : x ∈ replaceKey f m) : x = f ∨ (x ∈ m ∧ x.key ≠ f.key) := by
  induction m with
  | nil => simp [replaceKey] at hx
  | cons a as ih =>
    simp only [List.map_cons, List.nodup_cons, List.mem_map, not_exists, not_and] at h
    unfold replaceKey at hx
    split at hx
    · next hk =>
      rcases List.mem_cons.mp hx with rfl | hx
      · exact .inl rfl
      · exact .inr ⟨by simp [hx], fun e => h.1 x hx (e.trans hk.symm)⟩
    · next hk =>
      rcases List.mem_cons.mp hx with rfl | hx
      · exact .inr ⟨by simp, hk⟩
      · rcases ih h.2 hx with e | ⟨h1, h2⟩
        · exact .inl e
        · exact .inr ⟨by simp [h1], h2⟩

theorem Contest.insert {L m : List FieldInfo} {f : FieldInfo} (hm : MapInv L m) (h : Contest L m) (hL : ∀ g ∈ L, KeyOK g ∧ g.ignored = false) (hfk : KeyOK f) (hfi : f.ignored = false)
    (hmono : ∀ g ∈ L, g.index.length ≤ f.index.length) (hnew : ∀ g ∈ L, g.index ≠ f.index) : Contest (L ++ [f]) (insertField m f) := by
  have old : ∀ x ∈ m, x.ignored = true → ∃ a ∈ L ++ [f], ∃ b ∈ L ++ [f], a.key = x.key ∧ b.key = x.key ∧ a.index.length = x.index.length ∧ b.index.length = x.index.length ∧
      a.index ≠ b.index ∧ ((a.tag ≠ [] ∧ b.tag ≠ []) ∨ (a.tag = [] ∧ b.name = x.key)) := by
    intro x hx hi
    obtain ⟨a, ha, b, hb, e⟩ := h.none_ x hx hi
    exact ⟨a, by simp [ha], b, by simp [hb], e⟩
  unfold insertField
  cases hl : lookupKey f.key m with
  | none =>
    have hn := lookupKey_none hl
    have hfresh : ∀ g ∈ L, g.key ≠ f.key := by
      intro g hg e
      obtain ⟨x, hx, e1, _⟩ := hm.has g hg
      exact hn x hx (e1.trans e)
    dsimp only
    refine ⟨?_, ?_⟩
    · intro x hx hi g hg hk hlen
      rcases List.mem_append.mp hx with hx' | hx' <;> rcases List.mem_append.mp hg with hg' | hg'
      · exact h.wins x hx' hi g hg' hk hlen
      · rw [List.mem_singleton.mp hg'] at hk; exact absurd hk.symm (hn x hx')
      · rw [List.mem_singleton.mp hx'] at hk; exact absurd hk (hfresh g hg')
      · rw [List.mem_singleton.mp hx', List.mem_singleton.mp hg']; exact .inl rfl
    · intro x hx hi
      rcases List.mem_append.mp hx with hx | hx
      · exact old x hx hi
      · simp only [List.mem_singleton] at hx; subst hx; rw [hfi] at hi; cases hi
  | some ef =>
    obtain ⟨hem, hek⟩ := lookupKey_some hl
    have huniq : ∀ x ∈ m, x.key = f.key → x = ef := fun x hx e => nodup_key hm.nodup hx hem (e.trans hek.symm)
    obtain ⟨eg, heg, hes⟩ := hm.from_ ef hem
    have hne : ef.index ≠ f.index := by rw [hes.index]; exact hnew eg heg
    have heK : KeyOK ef := by
      have := (hL eg heg).1
      rcases hes with rfl | rfl <;> exact this
    -- entries with other keys
    have other : ∀ x ∈ m, x.ignored = false → x.key ≠ f.key → ∀ g ∈ L ++ [f], g.key = x.key → g.index.length = x.index.length → g = x ∨ (x.tag ≠ [] ∧ g.tag = []) := by
      intro x hx hi hkx g hg hk hlen
      rcases List.mem_append.mp hg with hg | hg
      · exact h.wins x hx hi g hg hk hlen
      · simp only [List.mem_singleton] at hg; subst hg; exact absurd hk.symm hkx
    dsimp only
    split
    · next hc =>
      refine ⟨?_, old⟩
      intro x hx hi g hg hk hlen
      by_cases hkx : x.key = f.key
      · have := huniq x hx hkx; subst this
        simp only [Bool.or_eq_true, decide_eq_true_eq, hi, Bool.false_eq_true, or_false] at hc
        rcases List.mem_append.mp hg with hg | hg
        · exact h.wins x hx hi g hg hk hlen
        · simp only [List.mem_singleton] at hg; subst hg; omega
      · exact other x hx hi hkx g hg hk hlen
    · next hc =>
      simp only [Bool.or_eq_true, decide_eq_true_eq, not_or, Bool.not_eq_true] at hc
      have hlen' : ef.index.length = f.index.length := by
        have : ef.index.length ≤ f.index.length := by rw [hes.index]; exact hmono eg heg
        omega
      have hegm : ef ∈ L := by
        rcases hes with rfl | rfl
        · exact heg
        · simp at hc
      unfold KeyOK at heK hfk
      split
      · next hsame =>
        refine ⟨?_, ?_⟩
        · intro x hx hi g hg hk hlen
          rcases mem_replaceKey_nodup hm.nodup hx with rfl | ⟨hx, hkx⟩
          · simp at hi
          · exact other x hx hi (by rw [← hek]; exact hkx) g hg hk hlen
        · intro x hx hi
          rcases mem_replaceKey_nodup hm.nodup hx with rfl | ⟨hx, hkx⟩
          · refine ⟨ef, by simp [hegm], f, by simp, rfl, hek.symm, rfl, hlen'.symm, hne, ?_⟩
            rcases hsame with ⟨h1, h2⟩ | ⟨h1, h2⟩
            · exact .inl ⟨by rw [← h2]; exact h1, h1⟩
            · refine .inr ⟨h1, ?_⟩
              show f.name = ef.key
              rw [heK, if_pos h1, h2]
          · exact old x hx hi
      · next hdiff =>
        split
        · next hrep =>
          refine ⟨?_, ?_⟩
          · intro x hx hi g hg hk hlen
            rcases mem_replaceKey_nodup hm.nodup hx with rfl | ⟨hx, hkx⟩
            · rcases List.mem_append.mp hg with hg | hg
              · rcases h.wins ef hem hc.2 g hg (hk.trans hek.symm) (hlen.trans hlen'.symm) with e | ⟨e, _⟩
                · subst e; exact .inr ⟨hrep.1, hrep.2⟩
                · exact absurd hrep.2 e
              · simp only [List.mem_singleton] at hg; exact .inl hg
            · exact other x hx hi hkx g hg hk hlen
          · intro x hx hi
            rcases mem_replaceKey_nodup hm.nodup hx with rfl | ⟨hx, hkx⟩
            · rw [hfi] at hi; cases hi
            · exact old x hx hi
        · next hkeep =>
          refine ⟨?_, old⟩
          intro x hx hi g hg hk hlen
          by_cases hkx : x.key = f.key
          · have := huniq x hx hkx; subst this
            rcases List.mem_append.mp hg with hg | hg
            · exact h.wins x hx hi g hg hk hlen
            · simp only [List.mem_singleton] at hg; subst hg
              right
              have hgt : g.tag = [] := by
                apply Classical.byContradiction
                intro ht
                have hxt : x.tag ≠ [] := fun e => hkeep ⟨ht, e⟩
                rw [if_neg hxt] at heK
                rw [if_neg ht] at hfk
                exact hdiff (.inl ⟨ht, by rw [← hfk, ← heK, hk]⟩)
              refine ⟨fun e => ?_, hgt⟩
              rw [if_pos e] at heK
              rw [if_pos hgt] at hfk
              exact hdiff (.inr ⟨e, by rw [← hfk, ← heK, hk]⟩)
          · exact other x hx hi hkx g hg hk hlen

theorem Contest.fold (L : List FieldInfo) (hL : ∀ f ∈ L, KeyOK f ∧ f.ignored = false) (hmono : L.Pairwise fun f g => f.index.length ≤ g.index.length)
    (hnew : L.Pairwise fun f g => f.index ≠ g.index) : Contest L (L.foldl insertField []) := by
  have gen : ∀ (rest done m : List FieldInfo), L = done ++ rest → MapInv done m → Contest done m → Contest L (rest.foldl insertField m) := by
    intro rest
    induction rest with
    | nil => intro done m e _ h; simp only [List.append_nil] at e; subst e; exact h
    | cons f rest ih =>
      intro done m e hm h
      rw [List.foldl_cons]
      have h1 : ∀ g ∈ done, g.index.length ≤ f.index.length := by
        intro g hg
        rw [e, List.pairwise_append] at hmono
        exact hmono.2.2 g hg f (by simp)
      have h2 : ∀ g ∈ done, g.index ≠ f.index := by
        intro g hg
        rw [e, List.pairwise_append] at hnew
        exact hnew.2.2 g hg f (by simp)
      have h3 := hL f (by simp [e])
      exact ih (done ++ [f]) _ (by simp [e]) (hm.insert h3.2 h1 h2) (h.insert hm (fun g hg => hL g (by simp [e, hg])) h3.1 h3.2 h1 h2)
  exact gen L [] [] (by simp) ⟨by simp, by simp, by simp, by simp⟩ ⟨by simp, by simp⟩

theorem allLeaves_leafInfo (n : Nat) : ∀ next V, ∀ f ∈ allLeaves n next V, ∃ p i h t, f = leafInfo p i h t := by
  induction n with
  | zero => intro next V f hf; simp [allLeaves] at hf
  | succ n ih =>
    intro next V f hf
    unfold allLeaves at hf
    rcases List.mem_append.mp hf with hf | hf
    · obtain ⟨p, t, id, fs, _, _, _, h4⟩ := roundLeaves_from _ _ _ hf
      obtain ⟨i, h, t, _, _, _, e⟩ := (mem_leavesOf _ _ _ _).mp h4
      exact ⟨p, _, h, t, e⟩
    · exact ih _ _ f hf

theorem leaf_tag {T : Ty} {f : FieldInfo} (hf : f ∈ leaves T) : f.tag = tagName f.hdr ∧ f.name = toLower f.hdr.name ∧ KeyOK f := by
  obtain ⟨p, i, h, t, rfl⟩ := allLeaves_leafInfo _ _ _ f hf
  exact ⟨rfl, rfl, rfl⟩

theorem contest {T : Ty} (hok : IdsOk T) : Contest (leaves T) (keyToField T) := by
  rw [keyToField_eq]
  have h := leaves_inv hok
  exact Contest.fold _ (fun f hf => ⟨(leaf_tag hf).2.2, (h.cand f hf).2.2.1⟩) h.mono h.distinct

/-- As `Seen`, with the path. -/
def SeenAt (T : Ty) (V : List Nat) (L0 : List FieldInfo) : Prop :=
  ∀ id ∈ V, ∀ p u fs, Reach T p u → (target u).under = .struct id fs → ∀ (i : Nat) (h : Hdr) (ft : Ty), fs[i]? = some (h, ft) →
    Visible h ft → ¬ Embeds h ft → ∃ g ∈ L0, g.index = p ++ [i] ∧ g.hdr = h

theorem allLeaves_exact {T : Ty} (hok : IdsOk T) (h1p : OnePath T) (n : Nat) : ∀ r next V L0, SInv T r next V → SeenAt T V L0 →
    (∀ p h ft, Cand T p h ft → p.length ≤ r → ∃ g ∈ L0, g.index = p ∧ g.hdr = h) → T.depth < r + n →
    ∀ p h ft, Cand T p h ft → ∃ g ∈ L0 ++ allLeaves n next V, g.index = p ∧ g.hdr = h := by
  induction n with
  | zero =>
    intro r next V L0 h hs hc hd p hh ft hcand
    obtain ⟨g, hg, e⟩ := hc p hh ft hcand (by
      obtain ⟨q, u, id, j, rfl, hr, hf, _, _⟩ := cand_split hcand
      have := reach_depth hr
      have := fieldAt_depth hf
      simp; omega)
    exact ⟨g, by simp [hg], e⟩
  | succ n ih =>
    intro r next V L0 h hs hc hd p hh ft hcand
    have hs' : SeenAt T (roundVisited next V) (L0 ++ roundLeaves next V) := by
      intro id hid q u fs hr hu i hd' ft' hi hv he
      by_cases hV : id ∈ V
      · obtain ⟨g, hg, e⟩ := hs id hV q u fs hr hu i hd' ft' hi hv he
        exact ⟨g, by simp [hg], e⟩
      · rcases (mem_roundVisited _ _ _).mp hid with e | ⟨q', w, ws, hq, hw⟩
        · exact absurd e hV
        · obtain ⟨q2, w2, ws2, h1, h2, h3, _⟩ := round_expands next V id hV ⟨q', w, ws, hq, hw⟩
          have hsame := hok _ _ _ _ _ _ _ hr (h.reach _ h1).2 hu h2
          have hpath := h1p _ _ _ _ _ _ _ hr (h.reach _ h1).2 hu h2
          simp only at hpath
          subst hsame hpath
          have hmem := h3 _ ((mem_leavesOf q fs 0 _).mpr ⟨i, hd', ft', hi, hv, he, rfl⟩)
          exact ⟨_, List.mem_append_right _ hmem, by simp [leafInfo], rfl⟩
    have := ih (r + 1) (roundEmbeds next V) (roundVisited next V) (L0 ++ roundLeaves next V) (h.step hok) hs' ?_ (by omega) p hh ft hcand
    · unfold allLeaves
      rw [← List.append_assoc]
      exact this
    · intro p' h' ft' hcand' hlen
      by_cases hl : p'.length ≤ r
      · obtain ⟨g, hg, e⟩ := hc p' h' ft' hcand' hl
        exact ⟨g, by simp [hg], e⟩
      · obtain ⟨q, u, id, j, rfl, hr, ⟨fs, hu, hi⟩, hv, he⟩ := cand_split hcand'
        simp only [List.length_append, List.length_cons, List.length_nil] at hlen hl
        have hmem : id ∈ roundVisited next V := by
          rcases h.found _ _ _ _ hr (by omega) hu with e | ⟨x, hx, gs', e⟩
          · exact (mem_roundVisited _ _ _).mpr (.inl e)
          · exact (mem_roundVisited _ _ _).mpr (.inr ⟨x.1, x.2, gs', hx, e⟩)
        exact hs' id hmem q u fs hr hu j h' ft' hi hv he

theorem leaves_exact {T : Ty} (hok : IdsOk T) (h1p : OnePath T) {p : List Nat} {h : Hdr} {ft : Ty} (hc : Cand T p h ft) : ∃ g ∈ leaves T, g.index = p ∧ g.hdr = h := by
  have := allLeaves_exact hok h1p (T.depth + 1) 0 [([], T)] [] [] (SInv.start T) (by intro id hid; simp at hid) ?_ (by omega) p h ft hc
  · simpa [leaves] using this
  · intro p' h' ft' hc' hl
    obtain ⟨q, u, id, j, rfl, _⟩ := cand_split hc'
    simp at hl

end Drip.Bencode
