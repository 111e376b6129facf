import Verif.Lemmas.Bencode.Conflict
import Verif.Props.BencodeEncode
/-
C111: which of several fields with the same key is used.
-/

namespace Drip.Bencode
open Spec

/-- `type P struct { A int }`, `type Q struct { A int `bencode:"a"` }`, `type T struct { P; Q }` and `type U struct { Q; P }`. -/
def exP : Ty := .struct 2 [(⟨b!"A", b!"", false, true⟩, .int 64)]
def exQ : Ty := .struct 3 [(⟨b!"A", b!"a", false, true⟩, .int 64)]
def exPQ : Ty := .struct 4 [(⟨b!"P", b!"", true, true⟩, exP), (⟨b!"Q", b!"", true, true⟩, exQ)]
def exQP : Ty := .struct 4 [(⟨b!"Q", b!"", true, true⟩, exQ), (⟨b!"P", b!"", true, true⟩, exP)]

/-- The candidates of `exPQ`. -/
theorem exPQ_cands {p : List Nat} {h : Hdr} {ft : Ty} (hc : Cand exPQ p h ft) :
    (p = [0, 0] ∧ h = ⟨b!"A", b!"", false, true⟩) ∨ (p = [1, 0] ∧ h = ⟨b!"A", b!"a", false, true⟩) := by
  have inner : ∀ {id : Nat} {hd : Hdr} {q : List Nat} {h : Hdr} {ft : Ty}, hd.anon = false → Cand (.struct id [(hd, .int 64)]) q h ft → q = [0] ∧ h = hd := by
    intro id hd q h ft ha hc
    cases hc with
    | @here _ _ j _ _ hf _ _ =>
      obtain ⟨fs, h1, h2⟩ := hf
      simp only [target, Ty.under, Ty.struct.injEq] at h1
      obtain ⟨_, rfl⟩ := h1
      match j with
      | 0 => simp at h2; exact ⟨rfl, h2.1.symm⟩
      | j + 1 => simp at h2
    | @there _ _ j _ _ _ _ _ hf _ he _ =>
      obtain ⟨fs, h1, h2⟩ := hf
      simp only [target, Ty.under, Ty.struct.injEq] at h1
      obtain ⟨_, rfl⟩ := h1
      match j with
      | 0 => simp at h2; rw [← h2.1] at he; rw [he.1] at ha; cases ha
      | j + 1 => simp at h2
  cases hc with
  | @here _ _ j _ _ hf _ he =>
    obtain ⟨fs, h1, h2⟩ := hf
    simp only [exPQ, target, Ty.under, Ty.struct.injEq] at h1
    obtain ⟨_, rfl⟩ := h1
    match j with
    | 0 => simp at h2; rw [← h2.1, ← h2.2] at he; exact absurd ⟨rfl, ⟨2, _, rfl⟩, rfl⟩ he
    | 1 => simp at h2; rw [← h2.1, ← h2.2] at he; exact absurd ⟨rfl, ⟨3, _, rfl⟩, rfl⟩ he
    | j + 2 => simp at h2
  | @there _ _ j _ _ _ _ _ hf _ _ hc =>
    obtain ⟨fs, h1, h2⟩ := hf
    simp only [exPQ, target, Ty.under, Ty.struct.injEq] at h1
    obtain ⟨_, rfl⟩ := h1
    match j with
    | 0 =>
      simp at h2; rw [← h2.2] at hc
      obtain ⟨rfl, rfl⟩ := inner rfl hc
      exact .inl ⟨rfl, rfl⟩
    | 1 =>
      simp at h2; rw [← h2.2] at hc
      obtain ⟨rfl, rfl⟩ := inner rfl hc
      exact .inr ⟨rfl, rfl⟩
    | j + 2 => simp at h2

/-- C111 is false: of two fields `A` at the same depth one has the tag `a`, so it belongs to the key; it is used if it comes first, but not if it comes second. -/
theorem C111_tagged_refuted : Cand exPQ [1, 0] ⟨b!"A", b!"a", false, true⟩ (.int 64) ∧ Dominant exPQ [1, 0] ⟨b!"A", b!"a", false, true⟩ ∧ structFields exPQ = [] ∧
    (structFields exQP).map FieldInfo.index = [[0, 0]] := by
  refine ⟨.there (id := 4) ⟨_, rfl, rfl⟩ (by simp [Visible]) ⟨rfl, ⟨3, _, rfl⟩, rfl⟩ (.here (id := 3) ⟨_, rfl, rfl⟩ (by simp [Visible]) (by simp [Embeds])), ?_, by kernel_rfl, by kernel_rfl⟩
  intro q h' ft' hc _
  rcases exPQ_cands hc with ⟨rfl, rfl⟩ | ⟨rfl, rfl⟩
  · exact .inr (.inr ⟨rfl, by decide, by decide⟩)
  · exact .inr (.inl rfl)

/-- `type X struct { E }`, `type Y struct { E }`, `type T struct { X; Y }` with `type E struct { A int }`. -/
def exE : Ty := .struct 5 [(⟨b!"A", b!"", false, true⟩, .int 64)]
def exXY : Ty := .struct 8 [(⟨b!"X", b!"", true, true⟩, .struct 6 [(⟨b!"E", b!"", true, true⟩, exE)]), (⟨b!"Y", b!"", true, true⟩, .struct 7 [(⟨b!"E", b!"", true, true⟩, exE)])]

/-- C111 is false: when a struct is embedded twice at the same depth, its fields are ambiguous, but the first are used. -/
theorem C111_twice_refuted : (structFields exXY).map FieldInfo.index = [[0, 0, 0]] ∧ ¬ Dominant exXY [0, 0, 0] ⟨b!"A", b!"", false, true⟩ := by
  refine ⟨by kernel_rfl, fun h => ?_⟩
  have := h [1, 0, 0] ⟨b!"A", b!"", false, true⟩ (.int 64) (.there (id := 8) ⟨_, rfl, rfl⟩ (by simp [Visible]) ⟨rfl, ⟨7, _, rfl⟩, rfl⟩
    (.there (id := 7) ⟨_, rfl, rfl⟩ (by simp [Visible]) ⟨rfl, ⟨5, _, rfl⟩, rfl⟩ (.here (id := 5) ⟨_, rfl, rfl⟩ (by simp [Visible]) (by simp [Embeds])))) rfl
  rcases this with h | h | ⟨_, h, _⟩
  · exact absurd h (by decide)
  · exact absurd h (by decide)
  · exact h rfl

/-- C111, what is true: every field that is used is the one that belongs to its key, if no struct is promoted by two paths. Missing: such structs. -/
theorem C111_used_partial (T : Ty) (hok : IdsOk T) (h1 : OnePath T) (f : FieldInfo) (hf : f ∈ structFields T) : Cand T f.index f.hdr f.ty ∧ f.key = fieldKey f.hdr ∧ Dominant T f.index f.hdr := by
  obtain ⟨hf, hi⟩ := mem_structFields.mp hf
  obtain ⟨⟨hc, hk⟩, hmin⟩ := C24_resolved T hok f hf
  refine ⟨hc, hk, fun q h' ft' hc' hk' => ?_⟩
  obtain ⟨g, hg, e1, e2⟩ := leaves_exact hok h1 hc'
  subst e1 e2
  have hgk := ((leaves_inv hok).cand g hg).2.1
  rcases Nat.lt_or_ge f.index.length g.index.length with hlt | hge
  · exact .inl hlt
  · have hle := hmin _ _ _ hc' (hk'.trans hk.symm)
    rcases (contest hok).wins f hf hi g hg (hgk.trans (hk'.trans hk.symm)) (by omega) with e | ⟨e1, e2⟩
    · exact .inr (.inl (by rw [e]))
    · obtain ⟨x, hx, hs⟩ := (keyToField_inv hok).from_ f hf
      have ht : f.tag = tagName f.hdr := by
        rcases hs with rfl | rfl <;> exact (leaf_tag hx).1
      exact .inr (.inr ⟨by omega, by rw [← ht]; exact e1, by rw [← (leaf_tag hg).1]; exact e2⟩)

/-- C111, what is true: of one field with a tag and one without at the same depth, the one with the tag is used, in whatever order they come, unless its tag is its name. Missing: a
tag that is the field's name, and two fields without a tag beside the one with a tag. -/
theorem C111_tagged_partial (T : Ty) (hok : IdsOk T) {p q : List Nat} {h h' : Hdr} {ft ft' : Ty} (hp : Cand T p h ft) (hq : Cand T q h' ft') (hk : fieldKey h' = fieldKey h) (hlen : q.length = p.length)
    (ht : tagName h ≠ []) (ht' : tagName h' = []) (hname : toLower h.name ≠ tagName h) (h1 : OnePath T)
    (hother : ∀ x hx tx, Cand T x hx tx → fieldKey hx = fieldKey h → x = p ∨ x = q ∨ p.length < x.length) : ∃ f ∈ structFields T, f.index = p ∧ f.key = fieldKey h := by
  have hm := keyToField_inv hok
  have hl := leaves_inv hok
  have hct := contest hok
  obtain ⟨gp, hgp, ep1, ep2⟩ := leaves_exact hok h1 hp
  obtain ⟨gq, hgq, eq1, eq2⟩ := leaves_exact hok h1 hq
  have hkp : gp.key = fieldKey h := by rw [(hl.cand gp hgp).2.1, ep2]
  have htp : gp.tag ≠ [] := by rw [(leaf_tag hgp).1, ep2]; exact ht
  have htq : gq.tag = [] := by rw [(leaf_tag hgq).1, eq2]; exact ht'
  have only : ∀ g ∈ leaves T, g.key = fieldKey h → g.index.length ≤ p.length → g = gp ∨ g = gq := by
    have inj : ∀ a ∈ leaves T, ∀ b ∈ leaves T, a.index = b.index → a = b := by
      intro a ha b hb e
      obtain ⟨i, hi, rfl⟩ := List.getElem_of_mem ha
      obtain ⟨j, hj, rfl⟩ := List.getElem_of_mem hb
      have hd := List.pairwise_iff_getElem.mp hl.distinct
      rcases Nat.lt_trichotomy i j with hij | hij | hij
      · exact absurd e (hd i j hi hj hij)
      · subst hij; rfl
      · exact absurd e.symm (hd j i hj hi hij)
    intro g hg hgk hgl
    obtain ⟨hc, hkk, _⟩ := hl.cand g hg
    rcases hother _ _ _ hc (hkk.symm.trans hgk) with e | e | e
    · exact .inl (inj g hg gp hgp (e.trans ep1.symm))
    · exact .inr (inj g hg gq hgq (e.trans eq1.symm))
    · omega
  obtain ⟨f, hf, hfk, hfl⟩ := hm.has gp hgp
  rw [ep1] at hfl
  obtain ⟨x, hx, hs⟩ := hm.from_ f hf
  have hxk : x.key = fieldKey h := by rw [← hs.key, hfk, hkp]
  have hfi : f.ignored = false := by
    cases hi : f.ignored with
    | false => rfl
    | true =>
      obtain ⟨a, ha, b, hb, ka, kb, la, lb, hab, hcase⟩ := hct.none_ f hf hi
      rw [hfk, hkp] at ka kb
      have oa := only a ha ka (by omega)
      have ob := only b hb kb (by omega)
      exfalso
      rcases hcase with ⟨h1, h2⟩ | ⟨h1, h2⟩
      · rcases oa with rfl | rfl
        · rcases ob with rfl | rfl
          · exact hab rfl
          · exact h2 htq
        · exact h1 htq
      · rcases oa with rfl | rfl
        · exact htp h1
        · rcases ob with rfl | rfl
          · apply hname
            rw [(leaf_tag hb).2.1, ep2, hfk, hkp] at h2
            rw [h2]; unfold fieldKey; rw [if_neg ht]
          · exact hab rfl
  have hxf : x = f := by
    rcases hs with rfl | rfl
    · rfl
    · simp at hfi
  subst hxf
  have hxp : x = gp := by
    rcases only x hx hxk hfl with e | e
    · exact e
    · subst e
      rcases hct.wins x hf hfi gp hgp (hkp.trans hxk.symm) (by rw [ep1, eq1, hlen]) with e | ⟨e, _⟩
      · exact e.symm
      · exact absurd htq e
  exact ⟨x, mem_structFields.mpr ⟨hf, hfi⟩, by rw [hxp, ep1], hxk⟩

/-! Cases that meet the hypotheses. -/

/-- `type R struct { B int `bencode:"a"` }`, `type T struct { P; R }`: the hypotheses are met, and the field with the tag is used although it comes second. -/
def exR : Ty := .struct 3 [(⟨b!"B", b!"a", false, true⟩, .int 64)]
def exPR : Ty := .struct 4 [(⟨b!"P", b!"", true, true⟩, exP), (⟨b!"R", b!"", true, true⟩, exR)]

example : (structFields exPR).map (fun f => (f.key, f.index)) = [(b!"a", [1, 0])] := by kernel_rfl

theorem exPR_reach {p : List Nat} {u : Ty} (h : Reach exPR p u) : (p = [] ∧ u = exPR) ∨ (p = [0] ∧ u = exP) ∨ (p = [1] ∧ u = exR) := by
  induction h with
  | here => exact .inl ⟨rfl, rfl⟩
  | @there p _ id j hd ft _ hf hv he ih =>
    obtain ⟨fs, h1, h2⟩ := hf
    rcases ih with ⟨rfl, rfl⟩ | ⟨rfl, rfl⟩ | ⟨rfl, rfl⟩
    · simp only [exPR, target, Ty.under, Ty.struct.injEq] at h1
      obtain ⟨_, rfl⟩ := h1
      match j with
      | 0 => simp at h2; exact .inr (.inl ⟨rfl, h2.2.symm⟩)
      | 1 => simp at h2; exact .inr (.inr ⟨rfl, h2.2.symm⟩)
      | j + 2 => simp at h2
    · simp only [exP, target, Ty.under, Ty.struct.injEq] at h1
      obtain ⟨_, rfl⟩ := h1
      match j with
      | 0 => simp at h2; rw [← h2.1] at he; exact absurd he.1 (by simp)
      | j + 1 => simp at h2
    · simp only [exR, target, Ty.under, Ty.struct.injEq] at h1
      obtain ⟨_, rfl⟩ := h1
      match j with
      | 0 => simp at h2; rw [← h2.1] at he; exact absurd he.1 (by simp)
      | j + 1 => simp at h2

example : IdsOk exPR ∧ OnePath exPR := by
  constructor <;>
  · intro p u q w id fs gs hu hw h1 h2
    rcases exPR_reach hu with ⟨rfl, rfl⟩ | ⟨rfl, rfl⟩ | ⟨rfl, rfl⟩ <;> rcases exPR_reach hw with ⟨rfl, rfl⟩ | ⟨rfl, rfl⟩ | ⟨rfl, rfl⟩ <;>
      simp only [exPR, exP, exR, target, Ty.under, Ty.struct.injEq] at h1 h2 <;> first | rfl | omega | exact h1.2.symm.trans h2.2

end Drip.Bencode
