import Verif.Lemmas.Bencode.Tree
/-
Custom unmarshalers only ever see the text of values that are contiguous parts of the input.
-/

namespace Drip.Bencode
open Spec

/-- The two environments have the same methods, and these agree on every well-formed value that occurs as a contiguous
part of `bs`. -/
def AgreeOn (bs : Bytes) (env env' : Env) : Prop := ∀ id,
  ((env id).unmarshal.isSome = (env' id).unmarshal.isSome) ∧
  ∀ f g, (env id).unmarshal = some f → (env' id).unmarshal = some g →
    ∀ t pre post, CV t → bs = pre ++ t.print ++ post → ∀ v, f t.print v = g t.print v

theorem AgreeOn.suffix {c bs : Bytes} {env env' : Env} (h : AgreeOn (c ++ bs) env env') : AgreeOn bs env env' := by
  intro id
  refine ⟨(h id).1, fun f g hf hg t pre post ht e v => (h id).2 f g hf hg t (c ++ pre) post ht (by rw [e]; simp) v⟩

/-- Equal on inputs on which the environments agree. -/
def EqA {α : Type} (env env' : Env) (p q : P α) : Prop := ∀ st : St, AgreeOn st.rest env env' → p st = q st

variable {env env' : Env}

theorem EqA.refl {α : Type} (p : P α) : EqA env env' p p := fun _ _ => rfl

theorem EqA.bind {α β : Type} {ne : Bool} {p q : P α} {f g : α → P β} (h : EqA env env' p q) (hl : Loc ne p)
    (hf : ∀ a, EqA env env' (f a) (g a)) : EqA env env' (p >>= f) (q >>= g) := by
  intro st hs
  rw [bind_run, bind_run, ← h st hs]
  cases hx : p st with
  | err e => rfl
  | panic => rfl
  | ok x =>
    obtain ⟨c, d, h1, _⟩ := hl st x.1 x.2 hx
    rw [h1] at hs
    exact hf x.1 x.2 hs.suffix

theorem EqA.peek {β : Type} {f g : UInt8 → P β} (hf : ∀ b, EqA env env' (f b) (g b)) :
    EqA env env' (peekByte >>= f) (peekByte >>= g) := by
  intro st hs
  rw [bind_run, bind_run]
  cases hp : peekByte st with
  | err e => rfl
  | panic => rfl
  | ok y =>
    obtain ⟨h1, _⟩ := (peekByte_ok st y.1 y.2).mp hp
    simp only [Res.bind_ok, h1]
    exact hf _ st hs

theorem EqA.bind_left {α β : Type} {ne : Bool} {p q : P α} {f : α → P β} (h : EqA env env' p q) (hl : Loc ne p) :
    EqA env env' (p >>= f) (q >>= f) := h.bind hl fun _ => EqA.refl _

theorem EqA.ite {α : Type} {c : Prop} [Decidable c] {p q p' q' : P α} (hp : EqA env env' p p') (hq : EqA env env' q q') :
    EqA env env' (if c then p else q) (if c then p' else q') := by
  split <;> assumption

section
variable {rec rec' : Dec} (hl : ∀ fl t v, Loc true (rec fl t v)) (hrec : ∀ fl t v, EqA env env' (rec fl t v) (rec' fl t v))
  {skip : P Bytes} (hls : Loc true skip)
include hl hrec

theorem EqA.decodeSliceLoop (fl : Flags) (t : Ty) (k : Nat) (pre old : List Val) :
    EqA env env' (decodeSliceLoop rec fl t k pre old) (decodeSliceLoop rec' fl t k pre old) := by
  induction k generalizing pre old with
  | zero => exact EqA.refl _
  | succ k ih =>
    unfold Bencode.decodeSliceLoop
    refine EqA.peek fun c => EqA.ite (EqA.refl _) ?_
    cases old with
    | nil => exact EqA.ite ((hrec _ _ _).bind (hl _ _ _) fun _ => ih _ _) (EqA.refl _)
    | cons v old => exact (hrec _ _ _).bind (hl _ _ _) fun _ => ih _ _

include hls in
theorem EqA.decodeArrayLoop (fl : Flags) (t : Ty) (k : Nat) (pre old : List Val) :
    EqA env env' (decodeArrayLoop rec skip fl t k pre old) (decodeArrayLoop rec' skip fl t k pre old) := by
  induction k generalizing pre old with
  | zero => exact EqA.refl _
  | succ k ih =>
    unfold Bencode.decodeArrayLoop
    refine EqA.peek fun c => EqA.ite (EqA.refl _) ?_
    cases old with
    | nil => exact (EqA.refl skip).bind hls fun _ => ih _ _
    | cons v old => exact (hrec _ _ _).bind (hl _ _ _) fun _ => ih _ _

theorem EqA.decodeMapLoop (t : Ty) (k : Nat) (last : Bytes) (m : List (Bytes × Val)) :
    EqA env env' (decodeMapLoop rec t k last m) (decodeMapLoop rec' t k last m) := by
  induction k generalizing last m with
  | zero => exact EqA.refl _
  | succ k ih =>
    unfold Bencode.decodeMapLoop
    refine EqA.peek fun c => EqA.ite (EqA.refl _) ((EqA.refl _).bind Loc.getString fun key => EqA.ite (EqA.refl _) ?_)
    exact (hrec _ _ _).bind (hl _ _ _) fun _ => ih _ _

theorem EqA.atField (is : List Nat) (fl : Flags) (t : Ty) (v : Val) :
    EqA env env' (atField rec is fl t v) (atField rec' is fl t v) := by
  induction is generalizing fl t v with
  | nil => exact hrec _ _ _
  | cons i is ih =>
    unfold Bencode.atField
    dsimp only
    repeat' split
    all_goals first
      | exact EqA.refl _
      | exact EqA.bind_left (ih _ _ _) (Loc.atField hl _ _ _ _)

include hls in
theorem EqA.decodeStructLoop (fl : Flags) (t : Ty) (k : Nat) (last : Bytes) (v : Val) :
    EqA env env' (decodeStructLoop rec skip fl t k last v) (decodeStructLoop rec' skip fl t k last v) := by
  induction k generalizing last v with
  | zero => exact EqA.refl _
  | succ k ih =>
    unfold Bencode.decodeStructLoop
    refine EqA.peek fun c => EqA.ite (EqA.refl _) ((EqA.refl _).bind Loc.getString fun key => EqA.ite (EqA.refl _) ?_)
    split
    · exact (EqA.refl skip).bind hls fun _ => ih _ _
    · exact (EqA.atField hl hrec _ _ _ _).bind (Loc.atField hl _ _ _ _) fun _ => ih _ _

include hls in
theorem EqA.decodeFlat (n : Nat) (fl : Flags) (t : Ty) (v : Val) :
    EqA env env' (decodeFlat rec skip n fl t v) (decodeFlat rec' skip n fl t v) := by
  have fr : ∀ {β : Type} {c : UInt8} {q q' : P β}, EqA env env' q q' →
      EqA env env' (readByte >>= fun b => if b ≠ c then P.fail .syntax else (adv 1 >>= fun _ => q))
        (readByte >>= fun b => if b ≠ c then P.fail .syntax else (adv 1 >>= fun _ => q')) :=
    fun h => (EqA.refl _).bind Loc.readByte fun _ => EqA.ite (EqA.refl _) ((EqA.refl _).bind (Loc.adv _) fun _ => h)
  unfold Bencode.decodeFlat
  cases t with
  | slice et =>
    refine fr ?_
    split
    · exact (EqA.decodeSliceLoop hl hrec _ _ _ _ _).bind_left (Loc.decodeSliceLoop hl _ _ _ _ _)
    · exact EqA.ite ((EqA.decodeSliceLoop hl hrec _ _ _ _ _).bind_left (Loc.decodeSliceLoop hl _ _ _ _ _)) (EqA.refl _)
  | array k et =>
    refine fr ?_
    split
    · exact (EqA.decodeArrayLoop hl hrec hls _ _ _ _ _).bind_left (Loc.decodeArrayLoop hl hls _ _ _ _ _)
    · exact EqA.refl _
  | map et =>
    refine fr ?_
    split
    · exact (EqA.decodeMapLoop hl hrec _ _ _ _).bind_left (Loc.decodeMapLoop hl _ _ _ _)
    · exact EqA.ite ((EqA.decodeMapLoop hl hrec _ _ _ _).bind_left (Loc.decodeMapLoop hl _ _ _ _)) (EqA.refl _)
  | struct sid fs =>
    exact fr ((EqA.decodeStructLoop hl hrec hls _ _ _ _ _).bind_left (Loc.decodeStructLoop hl hls _ _ _ _ _))
  | _ => exact EqA.refl _

omit hl hrec in
theorem EqA.decodeNilAny {dec dec' : Ty → P Val} (hld : ∀ t, Loc true (dec t)) (h : ∀ t, EqA env env' (dec t) (dec' t))
    (fl : Flags) : EqA env env' (decodeNilAny dec fl) (decodeNilAny dec' fl) := by
  unfold Bencode.decodeNilAny
  refine EqA.peek fun b => ?_
  exact EqA.ite (EqA.bind_left (h _) (hld _)) (EqA.ite (EqA.bind_left (h _) (hld _)) (EqA.ite (EqA.bind_left (h _) (hld _))
    (EqA.ite (EqA.bind_left (h _) (hld _)) (EqA.refl _))))
end

theorem Still.loc_false {α : Type} (r : Res α) : Loc false (P.lift r : P α) := Loc.lift r

/-- The unmarshaler is applied to exactly the text of the value that comes next. -/
theorem decodeUnmarshaler_eqA (n : Nat) (id : Nat) (f g : Bytes → Val → Res Val) (hf : (env id).unmarshal = some f)
    (hg : (env' id).unmarshal = some g) (ro : Bool) (v : Option Val) :
    EqA env env' (decodeUnmarshaler (consume n) ro f v) (decodeUnmarshaler (consume n) ro g v) := by
  intro st hs
  unfold decodeUnmarshaler
  cases ro with
  | true => rfl
  | false =>
    simp only [Bool.false_eq_true, if_false, bind_run]
    cases hx : consume n st with
    | err e => rfl
    | panic => rfl
    | ok x =>
      obtain ⟨t, ht, e, hr⟩ := consume_sound n st x.1 x.2 hx
      cases v with
      | none => rfl
      | some v =>
        have := (hs id).2 f g hf hg t [] x.2.rest ht (by simpa using hr.1) v
        simp only [Res.bind_ok, lift_run, e, this]

theorem EqA.decodeVal {rec rec' : Dec} {n : Nat} (hl : ∀ fl t v, Loc true (rec fl t v))
    (hrec : ∀ fl t v, EqA env env' (rec fl t v) (rec' fl t v)) (v : Val) (fl : Flags) (t : Ty) :
    EqA env env' (decodeVal env rec (consume n) n v fl t) (decodeVal env' rec' (consume n) n v fl t) := by
  have hflat := fun fl t v => EqA.decodeFlat hl hrec (Loc.consume n) n fl t v
  have hlf := fun fl t v => Loc.decodeFlat hl (Loc.consume n) n fl t v
  have hlu := fun ro um v => Loc.decodeUnmarshaler (Loc.consume n) ro um v
  have key : ∀ {α : Type} {p q : P α}, (∀ st : St, AgreeOn st.rest env env' → EqA env env' p q) → EqA env env' p q :=
    fun h st hs => h st hs st hs
  refine key fun st0 hs0 => ?_
  clear key
  have hsome := fun id => (hs0 id).1
  clear hs0
  have hcust : ∀ (id : Nat) (u : Ty) (v : Val) (fl : Flags), EqA env env'
      (match (env id).unmarshal, fl.addr with
        | some um, true => decodeUnmarshaler (consume n) fl.ro um (some v)
        | _, _ => Bencode.decodeFlat rec (consume n) n fl u v)
      (match (env' id).unmarshal, fl.addr with
        | some um, true => decodeUnmarshaler (consume n) fl.ro um (some v)
        | _, _ => Bencode.decodeFlat rec' (consume n) n fl u v) := by
    intro id u v fl
    cases h1 : (env id).unmarshal with
    | none =>
      have h2 := hsome id
      rw [h1] at h2
      cases h3 : (env' id).unmarshal with
      | none => exact hflat _ _ _
      | some g => rw [h3] at h2; simp at h2
    | some f =>
      have h2 := hsome id
      rw [h1] at h2
      cases h3 : (env' id).unmarshal with
      | none => rw [h3] at h2; simp at h2
      | some g =>
        cases fl.addr with
        | true => exact decodeUnmarshaler_eqA n id f g h1 h3 _ _
        | false => exact hflat _ _ _
  have hptr : ∀ et, (ptrMethod env et = none ∧ ptrMethod env' et = none) ∨ ∃ id f g, (env id).unmarshal = some f ∧
      (env' id).unmarshal = some g ∧ ptrMethod env et = some f ∧ ptrMethod env' et = some g := by
    intro et
    cases et with
    | custom id u =>
      have h2 := hsome id
      cases h1 : (env id).unmarshal with
      | none =>
        rw [h1] at h2
        cases h3 : (env' id).unmarshal with
        | none => exact .inl ⟨h1, h3⟩
        | some g => rw [h3] at h2; simp at h2
      | some f =>
        rw [h1] at h2
        cases h3 : (env' id).unmarshal with
        | none => rw [h3] at h2; simp at h2
        | some g => exact .inr ⟨id, f, g, h1, h3, h1, h3⟩
    | _ => exact .inl ⟨rfl, rfl⟩
  have hnp : ∀ v et fl, (∀ ev, v ≠ .ptr ev) →
      EqA env env' (Bencode.decodeVal env rec (consume n) n v fl (.ptr et)) (Bencode.decodeVal env' rec' (consume n) n v fl (.ptr et)) := by
    intro v et fl hv
    have e1 : ∀ env rec, Bencode.decodeVal env rec (consume n) n v fl (.ptr et) = (match ptrMethod env et with
        | some um => decodeUnmarshaler (consume n) fl.ro um none
        | none => P.panic) := by
      intro env rec
      cases v <;> first | rfl | exact absurd rfl (hv _)
    rw [e1, e1]
    rcases hptr et with ⟨h1, h2⟩ | ⟨id, f, g, h1, h2, h3, h4⟩
    · rw [h1, h2]; exact EqA.refl _
    · rw [h3, h4]; exact decodeUnmarshaler_eqA n id f g h1 h2 _ _
  have hlv : ∀ v fl t, Loc true (Bencode.decodeVal env rec (consume n) n v fl t) :=
    decodeVal_induct (Q := Loc true) hlf (fun _ _ _ _ _ => hlu _ _ _)
      (fun _ _ h => h.bind_left fun _ => Loc.pure _) (Loc.panic _) (Loc.fail _ _)
      (fun _ => Loc.decodeNilAny hl (Loc.consume n) _ _)
  have hnil : ∀ fl, EqA env env' (Bencode.decodeNilAny (fun t => Bencode.decodeFlat rec (consume n) n { addr := true } t (zero t)) fl)
      (Bencode.decodeNilAny (fun t => Bencode.decodeFlat rec' (consume n) n { addr := true } t (zero t)) fl) :=
    fun fl => EqA.decodeNilAny (fun _ => hlf _ _ _) (fun _ => hflat _ _ _) _
  -- the walk through pointers and interfaces
  suffices H : ∀ (v : Val) (fl : Flags) (t : Ty),
      EqA env env' (Bencode.decodeVal env rec (consume n) n v fl t) (Bencode.decodeVal env' rec' (consume n) n v fl t) from H v fl t
  intro v
  induction v using Val.rec (motive_2 := fun _ => True) (motive_3 := fun _ => True) (motive_4 := fun _ => True) with
  | ptr ev ih =>
    intro fl t
    cases t with
    | custom id u => exact hcust id u _ fl
    | ptr et =>
      have e1 : ∀ env rec, Bencode.decodeVal env rec (consume n) n (.ptr ev) fl (.ptr et) = (match ptrMethod env et with
        | some um => do
          let x ← decodeUnmarshaler (consume n) fl.ro um (some ev)
          pure (.ptr x)
        | none => do
          let x ← Bencode.decodeVal env rec (consume n) n ev { addr := true, ro := fl.ro } et
          pure (.ptr x)) := fun _ _ => rfl
      rw [e1, e1]
      rcases hptr et with ⟨h1, h2⟩ | ⟨id, f, g, h1, h2, h3, h4⟩
      · rw [h1, h2]; exact (ih _ _).bind_left (hlv _ _ _)
      · rw [h3, h4]; exact (decodeUnmarshaler_eqA n id f g h1 h2 _ _).bind_left (hlu _ _ _)
    | _ => exact hflat _ _ _
  | iface dt dv ih =>
    intro fl t
    cases t with
    | custom id u => exact hcust id u _ fl
    | ptr et => exact hnp _ _ _ (by simp)
    | any => exact (ih _ _).bind_left (hlv _ _ _)
    | iface => exact (ih _ _).bind_left (hlv _ _ _)
    | _ => exact hflat _ _ _
  | nilIface =>
    intro fl t
    cases t with
    | custom id u => exact hcust id u _ fl
    | ptr et => exact hnp _ _ _ (by simp)
    | any => exact hnil _
    | iface => exact EqA.refl _
    | _ => exact hflat _ _ _
  | nil => trivial
  | cons => trivial
  | mk => trivial
  | _ =>
    first
    | exact True.intro
    | intro fl t
      cases t with
      | custom id u => exact hcust id u _ fl
      | ptr et => exact hnp _ _ _ (by simp)
      | _ => exact hflat _ _ _

/-- Decoding depends on the methods of custom types only through their results on values that are contiguous parts of
the input. -/
theorem EqA.decode (n : Nat) (fl : Flags) (t : Ty) (v : Val) : EqA env env' (decode env n fl t v) (decode env' n fl t v) := by
  induction n generalizing fl t v with
  | zero => exact EqA.refl _
  | succ n ih => exact EqA.decodeVal (Loc.decode env n) ih v fl t

end Drip.Bencode
