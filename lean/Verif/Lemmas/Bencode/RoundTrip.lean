import Verif.Lemmas.Bencode.BigStruct
import Verif.Lemmas.Bencode.EmitMore
import Verif.Spec.RoundTrip
/-
What Marshal writes for a round-trippable value, Unmarshal reads back.
-/

namespace Drip.Bencode
open Spec

variable {env : Env}

theorem lenText_canon {b : Bytes} (h : b.length ≤ 2 ^ 48) : LenText (decNat b.length) b := ⟨decNat_snumeral _, h⟩

theorem decInt_not_leadingZero (n : Int) : ¬ LeadingZero (decInt n) := by
  rw [decInt_eq]; exact (intDec_minimal n).not_leadingZero

theorem wrapInt_self {bits : Nat} (hb : 0 < bits) {i : Int} (h1 : -2 ^ (bits - 1) ≤ i) (h2 : i < 2 ^ (bits - 1)) :
    wrapInt bits i = i := by
  obtain ⟨b, rfl⟩ : ∃ b, bits = b + 1 := ⟨bits - 1, by omega⟩
  simp only [Nat.add_sub_cancel] at h1 h2
  unfold wrapInt
  simp only [Nat.add_sub_cancel]
  have h4 : (2 : Int) ^ (b + 1) = 2 ^ b + 2 ^ b := by rw [Int.pow_succ]; omega
  rw [Int.emod_eq_of_lt (by omega) (by omega)]
  omega

theorem pow_le_pow {a b : Nat} (h : a ≤ b) : (2 : Int) ^ a ≤ 2 ^ b := by
  have := Nat.pow_le_pow_right (show 0 < 2 by decide) h
  exact_mod_cast this

/-! ### The option `omitempty` -/

theorem cutComma_spec (s : Bytes) : (44 ∉ (cutComma s).1) ∧
    ((s = (cutComma s).1 ∧ (cutComma s).2 = []) ∨ s = (cutComma s).1 ++ 44 :: (cutComma s).2) := by
  induction s with
  | nil => exact ⟨by simp [cutComma], .inl ⟨rfl, rfl⟩⟩
  | cons b s ih =>
    by_cases hb : b = 44
    · subst hb
      have : cutComma (44 :: s) = ([], s) := rfl
      rw [this]; exact ⟨by simp, .inr rfl⟩
    · have : cutComma (b :: s) = (b :: (cutComma s).1, (cutComma s).2) := by
        rw [cutComma, if_neg hb]
      rw [this]
      refine ⟨by simp [ih.1, Ne.symm hb], ?_⟩
      rcases ih.2 with ⟨h1, h2⟩ | h
      · exact .inl ⟨by simp [← h1], h2⟩
      · exact .inr (by simp [← h])

theorem cutComma_append {a : Bytes} (ha : 44 ∉ a) (s : Bytes) : cutComma (a ++ 44 :: s) = (a, s) := by
  induction a with
  | nil => rfl
  | cons b a ih =>
    simp only [List.mem_cons, not_or] at ha
    rw [List.cons_append, cutComma, if_neg (Ne.symm ha.1), ih ha.2]

theorem cutComma_whole {a : Bytes} (ha : 44 ∉ a) : cutComma a = (a, []) := by
  induction a with
  | nil => rfl
  | cons b a ih =>
    simp only [List.mem_cons, not_or] at ha
    rw [cutComma, if_neg (Ne.symm ha.1), ih ha.2]

/-- One of the comma-separated options is `omitempty`. -/
def HasOmit (s : Bytes) : Prop := ∃ opts rest, s = opts ++ b!"omitempty" ++ rest ∧
  (opts = [] ∨ ∃ o, opts = o ++ [44]) ∧ (rest = [] ∨ ∃ r, rest = 44 :: r)

theorem omit_no_comma : (44 : UInt8) ∉ b!"omitempty" := by decide

/-- The first option is `omitempty`, or one of those after the first comma. -/
theorem hasOmit_cut (s : Bytes) : HasOmit s ↔ (cutComma s).1 = b!"omitempty" ∨ HasOmit (cutComma s).2 := by
  obtain ⟨h44, hs⟩ := cutComma_spec s
  constructor
  · rintro ⟨opts, rest, rfl, rfl | ⟨o, rfl⟩, hr⟩
    · left
      rcases hr with rfl | ⟨r, rfl⟩
      · rw [List.nil_append, List.append_nil, cutComma_whole omit_no_comma]
      · rw [List.nil_append, cutComma_append omit_no_comma]
    · right
      obtain ⟨g44, hg⟩ := cutComma_spec o
      rcases hg with ⟨h1, -⟩ | h1
      · rw [h1] at g44 ⊢
        refine ⟨[], rest, ?_, .inl rfl, hr⟩
        have : (cutComma o).1 ++ [44] ++ b!"omitempty" ++ rest = (cutComma o).1 ++ 44 :: (b!"omitempty" ++ rest) := by simp
        rw [this, cutComma_append (by rw [← h1]; rw [h1]; exact (cutComma_spec o).1)]; rfl
      · refine ⟨(cutComma o).2 ++ [44], rest, ?_, .inr ⟨_, rfl⟩, hr⟩
        have : o ++ [44] ++ b!"omitempty" ++ rest = (cutComma o).1 ++ 44 :: ((cutComma o).2 ++ [44] ++ b!"omitempty" ++ rest) := by
          conv => lhs; rw [h1]
          simp
        rw [this, cutComma_append g44]
  · rintro (h | ⟨opts, rest, h, ho, hr⟩)
    · rcases hs with ⟨h1, -⟩ | h1
      · exact ⟨[], [], by rw [h1, h]; rfl, .inl rfl, .inl rfl⟩
      · exact ⟨[], 44 :: (cutComma s).2, by rw [List.nil_append, ← h]; exact h1, .inl rfl, .inr ⟨_, rfl⟩⟩
    · rcases hs with ⟨-, h2⟩ | h1
      · rw [h2] at h
        have := congrArg List.length h
        simp at this
      · refine ⟨(cutComma s).1 ++ 44 :: opts, rest, ?_, .inr ?_, hr⟩
        · conv => lhs; rw [h1, h]
          simp
        · rcases ho with rfl | ⟨o, rfl⟩
          · exact ⟨_, rfl⟩
          · exact ⟨(cutComma s).1 ++ 44 :: o, by simp⟩

theorem cutComma_len (s : Bytes) (h : s ≠ []) : (cutComma s).2.length < s.length := by
  rcases (cutComma_spec s).2 with ⟨_, h2⟩ | h1
  · rw [h2]; exact List.length_pos_iff.mpr h
  · have := congrArg List.length h1
    simp at this; omega

theorem hasOmit_iff : ∀ (n : Nat) (s : Bytes), s.length < n → (hasOmit n s = true ↔ HasOmit s) := by
  intro n
  induction n with
  | zero => intro s h; omega
  | succ n ih =>
    intro s h
    cases hs : s with
    | nil =>
      simp only [hasOmit, Bool.false_eq_true, false_iff]
      rintro ⟨o, r, h, _⟩
      have := congrArg List.length h
      simp at this
    | cons b t =>
      rw [← hs, hasOmit_cut]
      have e : hasOmit (n + 1) s = if (cutComma s).1 = b!"omitempty" then true else hasOmit n (cutComma s).2 := by
        rw [hs]; rfl
      rw [e]
      have := cutComma_len s (by simp [hs])
      split
      · rename_i h; simp [h]
      · rename_i h'; simp only [h', false_or]; exact ih _ (by omega)

theorem omitEmpty_iff (h : Hdr) : (parseTag h.tag).2 = true ↔ OmitEmpty h := by
  have e : (parseTag h.tag).2 = hasOmit ((cutComma h.tag).2.length + 1) (cutComma h.tag).2 := rfl
  rw [e, hasOmit_iff _ _ (by omega)]
  obtain ⟨h44, hs⟩ := cutComma_spec h.tag
  constructor
  · rintro ⟨opts, rest, he, ho, hr⟩
    rcases hs with ⟨-, h2⟩ | h1
    · rw [h2] at he
      have := congrArg List.length he
      simp at this
    · refine ⟨(cutComma h.tag).1, opts, rest, ?_, h44, ho, hr⟩
      conv => lhs; rw [h1, he]
      simp
  · rintro ⟨name, opts, rest, he, hn, ho, hr⟩
    have : h.tag = name ++ 44 :: (opts ++ b!"omitempty" ++ rest) := by rw [he]; simp
    rw [this, cutComma_append hn]
    exact ⟨opts, rest, rfl, ho, hr⟩

/-! ### Tables of plain structs -/

theorem plain_not_embeds {h : Hdr} {t : Ty} (hp : PlainField h) : ¬ Embeds h t := by
  rintro ⟨h1, _⟩; rw [hp.2.1] at h1; simp at h1

theorem plain_visible {h : Hdr} {t : Ty} (hp : PlainField h) : Visible h t := ⟨.inl hp.1, hp.2.2.1⟩

theorem plain_not_hidden {h : Hdr} (hp : PlainField h) : ¬ Hidden h := by
  rintro (h1 | ⟨h1, _⟩)
  · exact hp.2.2.1 h1
  · rw [hp.1] at h1; simp at h1

theorem hidden_not_visible {h : Hdr} {t : Ty} (hp : Hidden h) : ¬ Visible h t := by
  rintro ⟨h1, h2⟩
  rcases hp with h3 | ⟨h3, h4⟩
  · exact h2 h3
  · simp [h3, h4] at h1

/-- The table entries of the fields, in order. -/
def infos : Nat → List (Hdr × Ty) → List FieldInfo
  | _, [] => []
  | j, (h, t) :: fs => if Hidden h then infos (j + 1) fs else leafInfo [] j h t :: infos (j + 1) fs

theorem leavesOf_plain {fs : List (Hdr × Ty)} (hp : ∀ f ∈ fs, Hidden f.1 ∨ PlainField f.1) : ∀ j, leavesOf [] j fs = infos j fs := by
  induction fs with
  | nil => intro j; rfl
  | cons f fs ih =>
    intro j
    obtain ⟨h, t⟩ := f
    have ih' := ih (fun f hf => hp f (by simp [hf])) (j + 1)
    rw [leavesOf_cons]
    rcases hp (h, t) (by simp) with hh | hh
    · rw [infos, if_pos hh]
      rcases classify_spec [] j h t with ⟨hv, _⟩ | ⟨hv, _⟩ | ⟨_, e⟩
      · exact absurd hv (hidden_not_visible hh)
      · exact absurd hv (hidden_not_visible hh)
      · rw [e]; exact ih'
    · rw [infos, if_neg (plain_not_hidden hh)]
      rcases classify_spec [] j h t with ⟨_, he, _⟩ | ⟨_, _, e⟩ | ⟨hv, _⟩
      · exact absurd he (plain_not_embeds hh)
      · rw [e, ← ih']
      · exact absurd (plain_visible hh) hv

theorem embedsOf_plain {fs : List (Hdr × Ty)} (hp : ∀ f ∈ fs, Hidden f.1 ∨ PlainField f.1) : ∀ j, embedsOf [] j fs = [] := by
  induction fs with
  | nil => intro j; rfl
  | cons f fs ih =>
    intro j
    obtain ⟨h, t⟩ := f
    rw [embedsOf_cons]
    rcases classify_spec [] j h t with ⟨hv, he, _⟩ | ⟨_, _, e⟩ | ⟨_, e⟩
    · rcases hp (h, t) (by simp) with hh | hh
      · exact absurd hv (hidden_not_visible hh)
      · exact absurd he (plain_not_embeds hh)
    · rw [e]; exact ih (fun f hf => hp f (by simp [hf])) _
    · rw [e]; exact ih (fun f hf => hp f (by simp [hf])) _

theorem leaves_plain {id : Nat} {fs : List (Hdr × Ty)} (hp : ∀ f ∈ fs, Hidden f.1 ∨ PlainField f.1) : leaves (.struct id fs) = infos 0 fs := by
  unfold leaves
  have h1 : roundLeaves [([], .struct id fs)] [] = leavesOf [] 0 fs ++ [] := rfl
  have h2 : roundEmbeds [([], .struct id fs)] [] = embedsOf [] 0 fs ++ [] := rfl
  rw [allLeaves, h1, h2, embedsOf_plain hp, leavesOf_plain hp]
  simp [allLeaves_nil]

theorem foldl_insert_distinct : ∀ (L m : List FieldInfo), ((m ++ L).map (·.key)).Nodup → L.foldl insertField m = m ++ L := by
  intro L
  induction L with
  | nil => intro m _; simp
  | cons f L ih =>
    intro m h
    have hnone : lookupKey f.key m = none := by
      cases hx : lookupKey f.key m with
      | none => rfl
      | some g =>
        obtain ⟨hg, hk⟩ := lookupKey_some hx
        rw [List.map_append, List.nodup_append] at h
        exact absurd hk (h.2.2 g.key (List.mem_map.mpr ⟨g, hg, rfl⟩) f.key (by simp))
    have : insertField m f = m ++ [f] := by unfold insertField; rw [hnone]
    rw [List.foldl_cons, this, ih (m ++ [f]) (by simpa using h)]
    simp

theorem infos_keys (fs : List (Hdr × Ty)) : ∀ j, (infos j fs).map (·.key) = (shown fs).map (fieldKey ·.1) := by
  induction fs with
  | nil => intro j; rfl
  | cons f fs ih =>
    intro j; obtain ⟨h, t⟩ := f
    by_cases hh : Hidden h
    · simp [infos, shown, hh]; exact ih _
    · simp only [infos, shown, hh, if_false, decide_false, Bool.not_false, List.filter_cons_of_pos, List.map_cons]
      rw [ih]; rfl

theorem mem_infos {fs : List (Hdr × Ty)} : ∀ {j : Nat} {f : FieldInfo}, f ∈ infos j fs ↔
    ∃ i h t, fs[i]? = some (h, t) ∧ ¬ Hidden h ∧ f = leafInfo [] (j + i) h t := by
  induction fs with
  | nil => intro j f; simp [infos]
  | cons g fs ih =>
    intro j f
    obtain ⟨h, t⟩ := g
    have e : f ∈ infos j ((h, t) :: fs) ↔ (¬ Hidden h ∧ f = leafInfo [] j h t) ∨ f ∈ infos (j + 1) fs := by
      by_cases hh : Hidden h <;> simp [infos, hh]
    rw [e, ih]
    constructor
    · rintro (⟨hh, rfl⟩ | ⟨i, h', t', hi, hh, rfl⟩)
      · exact ⟨0, h, t, rfl, hh, rfl⟩
      · exact ⟨i + 1, h', t', by simpa using hi, hh, by rw [Nat.add_assoc, Nat.add_comm 1 i]⟩
    · rintro ⟨i, h', t', hi, hh, rfl⟩
      cases i with
      | zero => simp at hi; obtain ⟨rfl, rfl⟩ := hi; exact .inl ⟨hh, rfl⟩
      | succ i => exact .inr ⟨i, h', t', by simpa using hi, hh, by rw [Nat.add_assoc, Nat.add_comm 1 i]⟩

theorem keyToField_plain {id : Nat} {fs : List (Hdr × Ty)} (hp : PlainStruct fs) :
    keyToField (.struct id fs) = infos 0 fs := by
  rw [keyToField_eq, leaves_plain hp.1, foldl_insert_distinct _ [] (by simpa [infos_keys] using hp.2)]
  simp

theorem mem_structFields_plain {id : Nat} {fs : List (Hdr × Ty)} (hp : PlainStruct fs)
    {f : FieldInfo} : f ∈ structFields (.struct id fs) ↔ ∃ i h t, fs[i]? = some (h, t) ∧ ¬ Hidden h ∧ f = leafInfo [] i h t := by
  rw [mem_structFields, keyToField_plain hp, mem_infos]
  constructor
  · rintro ⟨⟨i, h, t, h1, h3, h2⟩, _⟩; exact ⟨i, h, t, h1, h3, by simpa using h2⟩
  · rintro ⟨i, h, t, h1, h3, h2⟩; exact ⟨⟨i, h, t, h1, h3, by simpa using h2⟩, by rw [h2]; rfl⟩

theorem lookupKey_mem {m : List FieldInfo} (hn : (m.map (·.key)).Nodup) {f : FieldInfo} (hf : f ∈ m) : lookupKey f.key m = some f := by
  induction m with
  | nil => simp at hf
  | cons g m ih =>
    rw [List.map_cons, List.nodup_cons] at hn
    unfold lookupKey
    rcases List.mem_cons.mp hf with rfl | hf
    · simp
    · rw [if_neg, ih hn.2 hf]
      intro e
      exact hn.1 (List.mem_map.mpr ⟨f, hf, e.symm⟩)

theorem lookup_plain {id : Nat} {fs : List (Hdr × Ty)} (hp : PlainStruct fs)
    {i : Nat} {h : Hdr} {t : Ty} (hi : fs[i]? = some (h, t)) (hh : ¬ Hidden h) :
    lookupKey (fieldKey h) (keyToField (.struct id fs)) = some (leafInfo [] i h t) := by
  rw [keyToField_plain hp]
  have := lookupKey_mem (m := infos 0 fs) (by rw [infos_keys]; exact hp.2) (f := leafInfo [] i h t)
    (mem_infos.mpr ⟨i, h, t, hi, hh, by simp⟩)
  exact this

/-! ### The two halves -/

/-- Marshalling a value and reading it back. -/
def Back (env : Env) (t : Ty) (v : Val) : Prop :=
  ∃ b d w, (∀ fl, Denotes env fl t v b d) ∧ (∀ fl : Flags, fl.settable = true → D env fl t (zero t) (benc b) w) ∧ Reorder v w

/-- The same for a struct field, which is read back as a value related to it by `R`, if it can be addressed according to
`A`; its bencode value satisfies `Q`. The methods of `env` are used for
marshalling, those of `env'` for unmarshalling. -/
def BackF (env env' : Env) (A : Bool → Prop) (Q : BVal → Prop) (R : Val → Val → Prop) (h : Hdr) (ft : Ty) (fv : Val) : Prop :=
  (R fv (zero ft) ∧ (Hidden h ∨ Nil fv ∨ (OmitEmpty h ∧ EmptyVal fv))) ∨
  (¬ Hidden h ∧ ¬ Nil fv ∧ ¬ (OmitEmpty h ∧ EmptyVal fv) ∧ ∃ b d w, (∀ a, A a → Denotes env { addr := a } ft fv b d) ∧ Q b ∧ R fv w ∧
    ∀ (fl : Flags) (id i : Nat) (fs : List (Hdr × Ty)) (us : List Val), fl.addr = true → fs[i]? = some (h, ft) →
      us[i]? = some (zero ft) → PlainField h → DA env' [i] fl (.struct id fs) (.struct us) (benc b) (.struct (us.set i w)))

theorem zeros_get (fs : List (Hdr × Ty)) (i : Nat) : (zeros fs)[i]? = (fs[i]?).map (fun f => zero f.2) := by
  induction fs generalizing i with
  | nil => simp [zeros]
  | cons f fs ih => cases i <;> simp [zeros, ih]

theorem zeros_length (fs : List (Hdr × Ty)) : (zeros fs).length = fs.length := by
  induction fs with
  | nil => rfl
  | cons f fs ih => simp [zeros, ih]

theorem _root_.Drip.Spec.FitsD.weaken {last k : Bytes} {bs : List (Bytes × BVal)} (h : FitsD k bs) (hlt : BLt last k) : FitsD last bs := by
  cases bs with
  | nil => trivial
  | cons e bs => exact ⟨BLt.trans hlt h.1, h.2⟩

/-- The elements of a list. -/
theorem back_elems {et : Ty} : ∀ {es : List Val}, (∀ e ∈ es, Back env et e) →
    ∃ bs d ws, (∀ fl, DenotesL env fl et es bs d) ∧ DL env et (bs.map benc) ws ∧ Reorders es ws
  | [], _ => ⟨[], 0, [], fun _ => .nil, .nil, .nil⟩
  | e :: es, h => by
    obtain ⟨b, d, w, h1, h2, h3⟩ := h e (by simp)
    obtain ⟨bs, ds, ws, g1, g2, g3⟩ := back_elems (es := es) (fun x hx => h x (by simp [hx]))
    exact ⟨b :: bs, max d ds, w :: ws, fun fl => .cons (h1 fl) (g1 fl), .cons (h2 _ rfl) g2, .cons h3 g3⟩

theorem back_array {et : Ty} : ∀ {es : List Val}, (∀ e ∈ es, Back env et e) →
    ∃ bs d ws, (∀ fl, DenotesL env fl et es bs d) ∧
      (∀ fl : Flags, fl.addr = true → DArr env fl et (List.replicate es.length (zero et)) (bs.map benc) ws) ∧ Reorders es ws
  | [], _ => ⟨[], 0, [], fun _ => .nil, fun _ _ => .nil, .nil⟩
  | e :: es, h => by
    obtain ⟨b, d, w, h1, h2, h3⟩ := h e (by simp)
    obtain ⟨bs, ds, ws, g1, g2, g3⟩ := back_array (es := es) (fun x hx => h x (by simp [hx]))
    refine ⟨b :: bs, max d ds, w :: ws, fun fl => .cons (h1 fl) (g1 fl), fun fl hfl => ?_, .cons h3 g3⟩
    rw [List.length_cons, List.replicate_succ]
    exact .cons (h2 _ (by simp [Flags.settable, hfl])) (g2 fl hfl)

theorem bencs_flatten (bs : List BVal) : bencs bs = (bs.map benc).flatten := by
  induction bs with
  | nil => rfl
  | cons b bs ih => simp [bencs, ih]

/-- The entries as text. -/
def bencEntries (bs : List (Bytes × BVal)) : List (Bytes × Bytes × Bytes) := bs.map fun e => (decNat e.1.length, e.1, benc e.2)

theorem bencEs_entries (bs : List (Bytes × BVal)) : bencEs bs = entries (bencEntries bs) := by
  induction bs with
  | nil => rfl
  | cons b bs ih =>
    obtain ⟨k, b⟩ := b
    rw [bencEs, ih]
    simp [bencEntries, entries]

theorem back_entries {et : Ty} : ∀ {es : List (Bytes × Val)} {last : Bytes}, KeysAbove last es → (∀ e ∈ es, e.1.length ≤ 2 ^ 48) →
    (∀ e ∈ es, Back env et e.2) →
    ∃ bs d ws, DenotesE env et es bs d ∧ DM env et last (bencEntries bs) ws ∧ ReorderEs es ws
  | [], _, _, _, _ => ⟨[], 0, [], .nil, .nil, .nil⟩
  | (k, e) :: es, last, hk, hl, h => by
    obtain ⟨b, d, w, h1, h2, h3⟩ := h (k, e) (by simp)
    obtain ⟨bs, ds, ws, g1, g2, g3⟩ := back_entries (es := es) hk.2 (fun x hx => hl x (by simp [hx])) (fun x hx => h x (by simp [hx]))
    exact ⟨(k, b) :: bs, max d ds, (k, w) :: ws, .cons (h1 _) g1,
      .cons (lenText_canon (hl (k, e) (by simp))) hk.1 (h2 _ rfl) g2, .cons h3 g3⟩

theorem reorderEs_exists {es es' : List (Bytes × Val)} (hp : es'.Perm es) : ∀ {ws : List (Bytes × Val)}, ReorderEs es' ws →
    ∃ ws', ReorderEs es ws' ∧ ws'.Perm ws := by
  induction hp with
  | nil => intro ws h; exact ⟨ws, h, .refl _⟩
  | cons x _ ih =>
    intro ws h
    cases h with
    | cons hv ht =>
      obtain ⟨ws', h1, h2⟩ := ih ht
      exact ⟨_, .cons hv h1, h2.cons _⟩
  | swap x y l =>
    intro ws h
    cases h with
    | cons hv ht =>
      cases ht with
      | cons hv' ht' => exact ⟨_, .cons hv' (.cons hv ht'), .swap _ _ _⟩
  | trans _ _ ih1 ih2 =>
    intro ws h
    obtain ⟨w1, h1, p1⟩ := ih1 h
    obtain ⟨w2, h2, p2⟩ := ih2 h1
    exact ⟨w2, h2, p2.trans p1⟩

theorem SLoop.weaken {fl : Flags} {t : Ty} {last last' : Bytes} {v w : Val} {es : List (Bytes × Bytes × Bytes)}
    (h : SLoop env fl t last v es w) (hl : BLt last' last) : SLoop env fl t last' v es w := by
  cases h with
  | nil => exact .nil
  | skip a b c d e => exact .skip a (BLt.trans hl b) c d e
  | field a b c d e => exact .field a (BLt.trans hl b) c d e

/-- The fields of a struct, in the order of the table. -/
theorem back_fields {env' : Env} {A : Bool → Prop} {Q : BVal → Prop} {R : Nat → Val → Val → Prop} {id : Nat} {fs : List (Hdr × Ty)} {vs : List Val}
    (hp : PlainStruct fs)
    (hb : ∀ (i : Nat) (h : Hdr) (ft : Ty) (fv : Val), fs[i]? = some (h, ft) → vs[i]? = some fv → BackF env env' A Q (R i) h ft fv)
    (hlen : vs.length = fs.length) : ∀ (L : List FieldInfo) (last : Bytes), Incr FieldInfo.key L → (∀ f ∈ L, BLt last f.key) →
    (∀ f ∈ L, ∃ i h t, fs[i]? = some (h, t) ∧ ¬ Hidden h ∧ f = leafInfo [] i h t) →
    ∃ bs d, (∀ fl : Flags, A fl.addr → DenotesF env fl (.struct id fs) (.struct vs) L bs d) ∧
      ((∀ b, Q b → b.Fits) → FitsD last bs) ∧
      ∀ (fl : Flags) (us : List Val), fl.addr = true → us.length = fs.length →
        (∀ i h t, fs[i]? = some (h, t) → leafInfo [] i h t ∈ L → us[i]? = some (zero t)) →
        ∃ us', SLoop env' fl (.struct id fs) last (.struct us) (bencEntries bs) (.struct us') ∧ us'.length = fs.length ∧
          (∀ i h t, fs[i]? = some (h, t) → leafInfo [] i h t ∈ L → ∃ fv w, vs[i]? = some fv ∧ us'[i]? = some w ∧ R i fv w) ∧
          (∀ i : Nat, (∀ h t, fs[i]? = some (h, t) → leafInfo [] i h t ∉ L) → us'[i]? = us[i]?) := by
  intro L
  induction L with
  | nil =>
    intro last _ _ _
    exact ⟨[], 0, fun _ _ => .nil, fun _ => trivial, fun fl us _ hl _ => ⟨us, .nil, hl, by simp, fun _ _ => rfl⟩⟩
  | cons f L ih =>
    intro last hi hlast hmem
    have hi' := List.pairwise_cons.mp hi
    obtain ⟨i, h, t, hfi, hhid, hf⟩ := hmem f (by simp)
    obtain ⟨bs, d, hden, hfits, hloop⟩ := ih f.key hi'.2 hi'.1 (fun g hg => hmem g (by simp [hg]))
    obtain ⟨ilt, _⟩ := List.getElem?_eq_some_iff.mp hfi
    obtain ⟨fv, hfv⟩ : ∃ fv, vs[i]? = some fv := ⟨vs[i]'(by omega), List.getElem?_eq_getElem (by omega)⟩
    have hpl : PlainField h := (hp.1 (h, t) (List.mem_of_getElem? hfi)).resolve_left hhid
    have hnotin : ∀ h' t', fs[i]? = some (h', t') → leafInfo [] i h' t' ∉ L := by
      intro h' t' e hin
      rw [hfi] at e
      simp only [Option.some.injEq, Prod.mk.injEq] at e
      obtain ⟨rfl, rfl⟩ := e
      rw [← hf] at hin
      exact absurd (hi'.1 f hin) (BLt.irrefl _)
    have hkey : f.key = fieldKey h := by rw [hf]; rfl
    have hidx : f.index = [i] := by rw [hf]; rfl
    have homit : f.omitempty = (parseTag h.tag).2 := by rw [hf]; rfl
    have hat : ∀ fl : Flags, At fl (.struct id fs) (.struct vs) f.index { addr := fl.addr } t fv := by
      intro fl; rw [hidx]
      have := At.field (fl := fl) (t := .struct id fs) (vs := vs) rfl hfi hfv .done
      rw [hpl.2.1] at this
      exact this
    have hom : ∀ fl : Flags, Omitted fl (.struct id fs) (.struct vs) f ↔ (Nil fv ∨ (OmitEmpty h ∧ EmptyVal fv)) := by
      intro fl
      have hfb : fieldByIndex f.index fl (.struct id fs) (.struct vs) = some ({ addr := fl.addr }, t, fv) := by
        have := fieldByIndex_at (hat fl) [] (.inl rfl)
        simpa using this
      rw [omitted_iff hfb, isNil_iff, Bool.and_eq_true, isEmpty_iff, homit, omitEmpty_iff]
    rcases hb i h t fv hfi hfv with ⟨hz, hnil⟩ | ⟨-, hnil, hne, b, db, w, hdb, hq, hre, hda⟩
    · -- left out
      have hnil : Nil fv ∨ (OmitEmpty h ∧ EmptyVal fv) := hnil.resolve_left hhid
      refine ⟨bs, d, fun fl ha => .skip ((hom fl).mpr hnil) (hden fl ha), fun hQ => (hfits hQ).weaken (hlast f (by simp)), ?_⟩
      intro fl us hfl hl hzero
      obtain ⟨us', h1, h2, h3, h4⟩ := hloop fl us hfl hl (fun i' h' t' e hin => hzero i' h' t' e (by simp [hin]))
      have hlt : BLt last f.key := hlast f (by simp)
      refine ⟨us', ?_, h2, ?_, ?_⟩
      · exact h1.weaken hlt
      · intro i' h' t' e hin
        rcases List.mem_cons.mp hin with e' | hin
        · have hii : i' = i := by have := congrArg FieldInfo.index e'; rw [hidx] at this; simpa [leafInfo] using this
          subst hii
          rw [hfi] at e
          simp only [Option.some.injEq, Prod.mk.injEq] at e
          obtain ⟨rfl, rfl⟩ := e
          refine ⟨fv, zero t, hfv, ?_, hz⟩
          rw [h4 i' hnotin, hzero i' h t hfi (by rw [e']; simp)]
        · exact h3 i' h' t' e hin
      · intro i' hni
        refine h4 i' (fun h' t' e hin => hni h' t' e (by simp [hin]))
    · have hlt : BLt last f.key := hlast f (by simp)
      refine ⟨(f.key, b) :: bs, max db d, fun fl ha => .cons (hat fl) (fun ho => ?_) (hdb _ ha) (hden fl ha),
        fun hQ => ⟨hlt, by rw [hkey]; exact hpl.2.2.2.2, hQ b hq, hfits hQ⟩, ?_⟩
      · rcases (hom fl).mp ho with h | h
        · exact hnil h
        · exact hne h
      intro fl us hfl hl hzero
      have hz0 := hzero i h t hfi (by rw [hf]; simp)
      have hda := hda fl id i fs us hfl hfi hz0 hpl
      obtain ⟨us', h1, h2, h3, h4⟩ := hloop fl (us.set i w) hfl (by simp [hl]) (by
        intro i' h' t' e hin
        have : i ≠ i' := by
          rintro rfl
          exact hnotin h' t' e hin
        rw [List.getElem?_set_ne this]
        exact hzero i' h' t' e (by simp [hin]))
      refine ⟨us', ?_, h2, ?_, ?_⟩
      · have hlk : lookupKey f.key (keyToField (.struct id fs)) = some (leafInfo [] i h t) := by
          rw [hkey]; exact lookup_plain hp hfi hhid
        exact .field (lenText_canon (by rw [hkey]; exact hpl.2.2.2.2)) hlt hlk hda h1
      · intro i' h' t' e hin
        rcases List.mem_cons.mp hin with e' | hin
        · have hii : i' = i := by have := congrArg FieldInfo.index e'; rw [hidx] at this; simpa [leafInfo] using this
          subst hii
          refine ⟨fv, w, hfv, ?_, hre⟩
          rw [h4 i' hnotin, List.getElem?_set_self (by omega)]
        · exact h3 i' h' t' e hin
      · intro i' hni
        rw [h4 i' (fun h' t' e hin => hni h' t' e (by simp [hin]))]
        refine List.getElem?_set_ne ?_
        rintro rfl
        exact hni h t hfi (by rw [hf]; simp)

/-- A whole struct. -/
theorem back_struct {env' : Env} {A : Bool → Prop} {Q : BVal → Prop} {R : Nat → Val → Val → Prop} {id : Nat} {fs : List (Hdr × Ty)} {vs : List Val}
    (hp : PlainStruct fs)
    (hb : ∀ (i : Nat) (h : Hdr) (ft : Ty) (fv : Val), fs[i]? = some (h, ft) → vs[i]? = some fv → BackF env env' A Q (R i) h ft fv)
    (hlen : vs.length = fs.length) :
    ∃ b d ws, (∀ fl : Flags, A fl.addr → DenotesK env fl (.struct id fs) (.struct vs) b d) ∧ ((∀ b, Q b → b.Fits) → b.Fits) ∧
      (∀ fl : Flags, fl.settable = true → D env' fl (.struct id fs) (zero (.struct id fs)) (benc b) (.struct ws)) ∧
      ws.length = fs.length ∧ ∀ i, i < vs.length → ∃ fv w, vs[i]? = some fv ∧ ws[i]? = some w ∧ R i fv w := by
  have hmem : ∀ f ∈ structFields (.struct id fs), ∃ i h t, fs[i]? = some (h, t) ∧ ¬ Hidden h ∧ f = leafInfo [] i h t :=
    fun f hf => (mem_structFields_plain hp).mp hf
  obtain ⟨bs, d, hden, hfits, hloop⟩ := back_fields (env := env) (env' := env') (id := id) hp hb hlen
    (structFields (.struct id fs)) [] (structFields_incr _) (by
      intro f hf
      obtain ⟨i, h, t, hfi, hh, rfl⟩ := hmem f hf
      have := ((hp.1 (h, t) (List.mem_of_getElem? hfi)).resolve_left hh).2.2.2.1
      show BLt [] (fieldKey h)
      cases hx : fieldKey h with
      | nil => exact absurd hx this
      | cons a b => simp [BLt]) hmem
  obtain ⟨us', h1, h2, h3, h4⟩ := hloop { addr := true } (zeros fs) rfl (zeros_length fs) (by
    intro i h t e _; rw [zeros_get, e]; rfl)
  refine ⟨.dict bs, d + 1, us', fun fl ha => .struct (hden _ ha), hfits, fun fl hfl => ?_, h2, fun i hi => ?_⟩
  · rw [benc, bencEs_entries, zero]
    have : fl = { addr := true } := by
      obtain ⟨a, r⟩ := fl
      simp only [Flags.settable, Bool.and_eq_true, Bool.not_eq_true'] at hfl
      rw [hfl.1, hfl.2]
    rw [this]
    exact D.struct h1
  · obtain ⟨⟨h, t⟩, hf⟩ : ∃ f, fs[i]? = some f := ⟨fs[i]'(by omega), List.getElem?_eq_getElem (by omega)⟩
    by_cases hh : Hidden h
    · obtain ⟨fv, hfv⟩ : ∃ fv, vs[i]? = some fv := ⟨vs[i]'(by omega), List.getElem?_eq_getElem (by omega)⟩
      refine ⟨fv, zero t, hfv, ?_, ?_⟩
      · rw [h4 i, zeros_get, hf]; rfl
        intro h' t' e hin
        rw [hf] at e; cases e
        obtain ⟨i', h', t', _, hh', e'⟩ := hmem _ hin
        have := congrArg FieldInfo.hdr e'
        simp only [leafInfo] at this
        rw [← this] at hh'
        exact hh' hh
      · rcases hb i h t fv hf hfv with ⟨hz, _⟩ | ⟨hnh, _⟩
        · exact hz
        · exact absurd hh hnh
    · exact h3 i h t hf ((mem_structFields_plain hp).mpr ⟨i, h, t, hf, hh, rfl⟩)

theorem reorders_of_get : ∀ {vs ws : List Val}, vs.length = ws.length →
    (∀ (i : Nat), i < vs.length → ∃ v w, vs[i]? = some v ∧ ws[i]? = some w ∧ Reorder v w) → Reorders vs ws
  | [], [], _, _ => .nil
  | [], _ :: _, h, _ => by simp at h
  | _ :: _, [], h, _ => by simp at h
  | v :: vs, w :: ws, hl, h => by
    obtain ⟨v', w', h1, h2, h3⟩ := h 0 (by simp)
    simp only [List.getElem?_cons_zero, Option.some.injEq] at h1 h2
    subst h1; subst h2
    refine .cons h3 (reorders_of_get (by simpa using hl) ?_)
    intro i hi
    have := h (i + 1) (by simp; omega)
    simpa using this

/-- `any` with one of the types the decoder chooses. -/
theorem D.anyOf {fl : Flags} {dt : Ty} {c : Bytes} {w : Val} (hdt : AnyTy dt) (hfl : fl.settable = true)
    (hc : ∃ b r, c = b :: r ∧ (dt = .int 64 → b = 105) ∧ (dt = .slice .any → b = 108) ∧ (dt = .map .any → b = 100) ∧ (dt = .str → Digit b))
    (h : D env { addr := true } dt (zero dt) c w) : D env fl .any .nilIface c (.iface dt w) := by
  obtain ⟨n, h⟩ := h
  have hpl : Plain dt := by rcases hdt with rfl | rfl | rfl | rfl <;> trivial
  obtain ⟨n, rfl⟩ : ∃ m, n = m + 1 := by
    cases n with
    | zero => have := h [] 0; simp [decode] at this
    | succ m => exact ⟨m, rfl⟩
  rw [decode_plain hpl] at h
  refine ⟨n + 1, ?_⟩
  rw [decode_any_eq]
  obtain ⟨b, r, rfl, h1, h2, h3, h4⟩ := hc
  have hset : Runs (decodeFlat (decode env n) (consume n) n { addr := true } dt (zero dt) >>= fun x => setVal fl (.iface dt x)) (b :: r) (.iface dt w) :=
    h.then (fun st => setVal_run hfl _ st)
  intro ext off
  have hset := hset ext off
  unfold decodeNilAny
  rw [bind_run]
  have hpk : peekByte ⟨(b :: r) ++ ext, off⟩ = .ok (b, ⟨(b :: r) ++ ext, off⟩) := rfl
  rw [hpk, Res.bind_ok]
  simp only
  rcases hdt with rfl | rfl | rfl | rfl
  · rw [h1 rfl, if_pos rfl]; rw [h1 rfl] at hset; exact hset
  · have hd := h4 rfl
    obtain ⟨a1, a2, a3, _⟩ := digit_ne hd
    have hd' : isDigit b = true := by
      unfold isDigit; unfold Digit at hd
      simp only [Bool.and_eq_true, decide_eq_true_eq, UInt8.le_iff_toNat_le]
      exact hd
    rw [if_neg a1, if_neg a2, if_neg a3, if_pos hd']; exact hset
  · rw [h2 rfl, if_neg (by decide), if_pos rfl]; rw [h2 rfl] at hset; exact hset
  · rw [h3 rfl, if_neg (by decide), if_neg (by decide), if_pos rfl]; rw [h3 rfl] at hset; exact hset

theorem rt_not_nil {o : Option Hdr} {t : Ty} {v : Val} (h : RT o t v) : o = none → ¬ Nil v := by
  cases h <;> simp [Nil]

theorem rt_not_custom {o : Option Hdr} {t : Ty} {v : Val} (h : RT o t v) : o = none → (∀ id u, t ≠ .custom id u) ∧ NotPtr t := by
  cases h <;> simp [NotPtr]

theorem not_uses {fl : Flags} {t : Ty} (h : ∀ id u, t ≠ .custom id u) (hp : NotPtr t) : ¬ UsesMethod env fl t := by
  cases t <;> simp [UsesMethod, NotPtr] at *

theorem decNat_digit (n : Nat) : ∃ c r, decNat n = c :: r ∧ Digit c := by
  obtain ⟨⟨⟨hne, hd, _⟩, _⟩, _⟩ := decNat_minimal n
  cases h : decNat n with
  | nil => exact absurd h hne
  | cons c r => exact ⟨c, r, rfl, hd c (by simp [h])⟩

/-- **The round trip.** -/
theorem rt_back {o : Option Hdr} {t : Ty} {v : Val} (h : RT o t v) :
    match o with | none => Back env t v | some h => BackF env env (fun _ => True) (fun _ => True) Reorder h t v := by
  induction h with
  | str hb =>
    refine ⟨.str _, 0, _, fun fl => .kind (by simp [UsesMethod]) .str, fun fl hfl => ?_, .refl⟩
    rw [benc]; exact D.str hfl (lenText_canon hb)
  | bytes hb =>
    refine ⟨.str _, 0, _, fun fl => .kind (by simp [UsesMethod]) .bytes, fun fl hfl => ?_, .refl⟩
    rw [benc]; exact D.bytes hfl (lenText_canon hb)
  | int h0 h64 h1 h2 =>
    rename_i bits i
    refine ⟨.int i, 0, .int i, fun fl => .kind (by simp [UsesMethod]) .int, fun fl hfl => ?_, .refl⟩
    rw [benc]
    have hp := pow_le_pow (show bits - 1 ≤ 63 by omega)
    have := D.int (env := env) (bits := bits) (v := zero (.int bits)) hfl (decInt_snumeral i) (decInt_not_leadingZero i) (by omega) (by omega)
    rw [wrapInt_self h0 h1 h2] at this
    exact this
  | uint h64 h1 =>
    rename_i bits n
    refine ⟨.int n, 0, .uint n, fun fl => .kind (by simp [UsesMethod]) .uint, fun fl hfl => ?_, .refl⟩
    rw [benc, decInt_natCast]
    have hp := Nat.pow_le_pow_right (show 0 < 2 by decide) h64
    have := D.uint (env := env) (bits := bits) (v := zero (.uint bits)) (s := decNat n) hfl (decNat_minimal n).1.1
      (by rw [← decInt_natCast]; exact decInt_not_leadingZero n) (Nat.lt_of_lt_of_le h1 hp)
    rw [wrapUint, Nat.mod_eq_of_lt h1] at this
    exact this
  | slice _ ih =>
    obtain ⟨bs, d, ws, h1, h2, h3⟩ := back_elems ih
    refine ⟨.list bs, d + 1, .slice ws, fun fl => .kind (by simp [UsesMethod]) (.slice (h1 _)), fun fl hfl => ?_, .slice h3⟩
    rw [benc, bencs_flatten]; exact D.slice hfl h2
  | array hn _ ih =>
    obtain ⟨bs, d, ws, h1, h2, h3⟩ := back_array ih
    refine ⟨.list bs, d + 1, .array ws, fun fl => .kind (by simp [UsesMethod]) (.array (h1 _)), fun fl hfl => ?_, .array h3⟩
    simp only [Flags.settable, Bool.and_eq_true, Bool.not_eq_true'] at hfl
    rw [benc, bencs_flatten, zero, ← hn]; exact D.array (h2 _ hfl.1)
  | @map et es hn hk _ ih =>
    have hp := sortByKey_perm (·.1) es
    have hi := sortByKey_incr (·.1) es hn
    have hka : KeysAbove [] (sortByKey (·.1) es) := keysAbove_of_incr _ _ hi (by
      intro e he
      have := (hk e (hp.mem_iff.mp he)).1
      cases hx : e.1 with
      | nil => exact absurd hx this
      | cons a b => simp [BLt])
    obtain ⟨bs, d, ws, h1, h2, h3⟩ := back_entries (env := env) hka (fun e he => (hk e (hp.mem_iff.mp he)).2)
      (fun e he => ih e (hp.mem_iff.mp he))
    obtain ⟨ws', g1, g2⟩ := reorderEs_exists hp h3
    refine ⟨.dict bs, d + 1, .map ws, fun fl => .kind (by simp [UsesMethod]) (.map hp ?_ h1), fun fl hfl => ?_, .map g1 g2⟩
    · rw [keysIncreasing_iff]; exact hi
    · rw [benc, bencEs_entries]; exact D.map hfl h2
  | any hdt hrt ih =>
    obtain ⟨b, d, w, h1, h2, h3⟩ := ih
    refine ⟨b, d, _, fun fl => .kind (by simp [UsesMethod]) (.any (h1 _)), fun fl hfl => D.anyOf hdt hfl ?_ (h2 _ rfl), .iface h3⟩
    have hd := h1 { addr := true }
    rcases hdt with rfl | rfl | rfl | rfl
    · cases hd with
      | kind _ hd => cases hd with | int => exact ⟨105, _, rfl, by simp, by simp, by simp, by simp⟩
      | method hm => cases hm
    · cases hd with
      | kind _ hd => cases hd with
        | str =>
          rename_i bb
          obtain ⟨c, r, e, hc⟩ := decNat_digit bb.length
          exact ⟨c, _, by rw [benc, e]; rfl, by simp, by simp, by simp, fun _ => hc⟩
      | method hm => cases hm
    · cases hd with
      | kind _ hd => cases hd with | slice => exact ⟨108, _, rfl, by simp, by simp, by simp, by simp⟩
      | method hm => cases hm
    · cases hd with
      | kind _ hd => cases hd with | map => exact ⟨100, _, rfl, by simp, by simp, by simp, by simp⟩
      | method hm => cases hm
  | @struct id fs vs hlen hp _ ih =>
    obtain ⟨b, d, ws, h1, -, h2, h3, h4⟩ := back_struct (env := env) (id := id) (R := fun _ => Reorder) hp ih hlen
    exact ⟨b, d, .struct ws, fun fl => .kind (by simp [UsesMethod]) (h1 _ trivial), h2, .struct (reorders_of_get (by rw [h3, hlen]) h4)⟩
  | zeroField h => exact .inl ⟨.refl, .inr h⟩
  | hidden h => exact .inl ⟨.refl, .inl h⟩
  | field hh hrt hne ih =>
    rename_i h ft fv
    obtain ⟨b, d, w, h1, h2, h3⟩ := ih
    refine .inr ⟨hh, rt_not_nil hrt rfl, hne, b, d, w, fun _ _ => h1 _, trivial, h3, ?_⟩
    intro fl id i fs us hfl hf hu hpl
    refine (DA_field (id := id) rfl hf hu (rt_not_custom hrt rfl).2).mpr ⟨w, h2 _ ?_, rfl⟩
    simp [Flags.settable, hfl, hpl.2.1]
  | ptrField hh hrt ih =>
    rename_i h et ev
    obtain ⟨b, d, w, h1, h2, h3⟩ := ih
    refine .inr ⟨hh, by simp [Nil], by simp [EmptyVal], b, d, .ptr w, ?_, trivial, .ptr h3, ?_⟩
    · intro fl _
      refine .kind ?_ (.ptr (h1 _))
      have := (rt_not_custom hrt rfl).1
      cases et <;> simp [UsesMethod]
      exact absurd rfl (this _ _)
    · intro fl id i fs us hfl hf hu hpl
      exact (DA_nilptr (id := id) rfl hf hu ⟨hfl, by simp [hpl.2.1]⟩).mpr ⟨w, h2 _ rfl, rfl⟩

end Drip.Bencode
