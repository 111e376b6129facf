import Verif.Lemmas.Bencode.Local
/-
More fuel never changes a result: the recursion bound of the model only matters when it is reached.
-/

namespace Drip.Bencode

/-- `q` does what `p` does, unless `p` runs out of fuel. -/
def Le {α : Type} (p q : P α) : Prop := ∀ st, p st = .err .fuel ∨ q st = p st

theorem Le.refl {α : Type} (p : P α) : Le p p := fun _ => .inr rfl

theorem Le.fuel {α : Type} (q : P α) : Le (P.fail .fuel) q := fun _ => .inl rfl

theorem Le.bind {α β : Type} {p q : P α} {f g : α → P β} (h : Le p q) (hf : ∀ a, Le (f a) (g a)) :
    Le (p >>= f) (q >>= g) := by
  intro st
  rcases h st with h | h
  · left; simp [h]
  · cases hp : p st with
    | err e => right; simp [h, hp]
    | panic => right; simp [h, hp]
    | ok x =>
      rcases hf x.1 x.2 with h' | h'
      · left; simp [hp, h']
      · right; simp [h, hp, h']

theorem Le.bind_left {α β : Type} {p q : P α} {f : α → P β} (h : Le p q) : Le (p >>= f) (q >>= f) :=
  h.bind fun _ => Le.refl _

theorem Le.bind_right {α β : Type} {p : P α} {f g : α → P β} (hf : ∀ a, Le (f a) (g a)) : Le (p >>= f) (p >>= g) :=
  (Le.refl p).bind hf

theorem Le.ite {α : Type} {c : Prop} [Decidable c] {p q p' q' : P α} (hp : Le p p') (hq : Le q q') :
    Le (if c then p else q) (if c then p' else q') := by
  split
  · exact hp
  · exact hq

theorem Le.consumeListLoop {p q : P Bytes} (h : Le p q) {k k' : Nat} (hk : k ≤ k') :
    Le (consumeListLoop p k) (consumeListLoop q k') := by
  induction k generalizing k' with
  | zero => exact Le.fuel _
  | succ k ih =>
    obtain ⟨k', rfl⟩ : ∃ m, k' = m + 1 := ⟨k' - 1, by omega⟩
    unfold Bencode.consumeListLoop
    refine Le.bind_right fun c => Le.ite (Le.refl _) ?_
    exact h.bind fun r => Le.bind_left (ih (by omega))

theorem Le.consumeDictLoop {p q : P Bytes} (h : Le p q) {k k' : Nat} (hk : k ≤ k') (last : Bytes) :
    Le (consumeDictLoop p k last) (consumeDictLoop q k' last) := by
  induction k generalizing k' last with
  | zero => exact Le.fuel _
  | succ k ih =>
    obtain ⟨k', rfl⟩ : ∃ m, k' = m + 1 := ⟨k' - 1, by omega⟩
    unfold Bencode.consumeDictLoop
    refine Le.bind_right fun c => Le.ite (Le.refl _) ?_
    refine Le.bind_right fun x => Le.ite (Le.refl _) ?_
    exact h.bind fun r => Le.bind_left (ih (by omega) _)

theorem Le.consume {n m : Nat} (h : n ≤ m) : Le (consume n) (consume m) := by
  induction n generalizing m with
  | zero => exact Le.fuel _
  | succ n ih =>
    obtain ⟨m, rfl⟩ : ∃ k, m = k + 1 := ⟨m - 1, by omega⟩
    have hnm : n ≤ m := by omega
    unfold Bencode.consume consumeList consumeDict
    refine Le.bind_right fun c => Le.ite (Le.refl _) (Le.ite ?_ (Le.ite ?_ (Le.refl _)))
    · exact Le.bind_right fun b => Le.ite (Le.refl _) (Le.bind_right fun _ =>
        Le.bind_left (Le.consumeListLoop (ih hnm) hnm))
    · exact Le.bind_right fun b => Le.ite (Le.refl _) (Le.bind_right fun _ =>
        Le.bind_left (Le.consumeDictLoop (ih hnm) hnm _))

section
variable {rec rec' : Dec} (hrec : ∀ fl t v, Le (rec fl t v) (rec' fl t v)) {skip skip' : P Bytes} (hskip : Le skip skip')
include hrec

theorem Le.decodeSliceLoop (fl : Flags) (t : Ty) {k k' : Nat} (hk : k ≤ k') (pre old : List Val) :
    Le (decodeSliceLoop rec fl t k pre old) (decodeSliceLoop rec' fl t k' pre old) := by
  induction k generalizing k' pre old with
  | zero => exact Le.fuel _
  | succ k ih =>
    obtain ⟨k', rfl⟩ : ∃ m, k' = m + 1 := ⟨k' - 1, by omega⟩
    unfold Bencode.decodeSliceLoop
    refine Le.bind_right fun c => Le.ite (Le.refl _) ?_
    cases old with
    | nil => exact Le.ite ((hrec _ _ _).bind fun _ => ih (by omega) _ _) (Le.refl _)
    | cons v old => exact (hrec _ _ _).bind fun _ => ih (by omega) _ _

include hskip in
theorem Le.decodeArrayLoop (fl : Flags) (t : Ty) {k k' : Nat} (hk : k ≤ k') (pre old : List Val) :
    Le (decodeArrayLoop rec skip fl t k pre old) (decodeArrayLoop rec' skip' fl t k' pre old) := by
  induction k generalizing k' pre old with
  | zero => exact Le.fuel _
  | succ k ih =>
    obtain ⟨k', rfl⟩ : ∃ m, k' = m + 1 := ⟨k' - 1, by omega⟩
    unfold Bencode.decodeArrayLoop
    refine Le.bind_right fun c => Le.ite (Le.refl _) ?_
    cases old with
    | nil => exact hskip.bind fun _ => ih (by omega) _ _
    | cons v old => exact (hrec _ _ _).bind fun _ => ih (by omega) _ _

theorem Le.decodeMapLoop (t : Ty) {k k' : Nat} (hk : k ≤ k') (last : Bytes) (m : List (Bytes × Val)) :
    Le (decodeMapLoop rec t k last m) (decodeMapLoop rec' t k' last m) := by
  induction k generalizing k' last m with
  | zero => exact Le.fuel _
  | succ k ih =>
    obtain ⟨k', rfl⟩ : ∃ m, k' = m + 1 := ⟨k' - 1, by omega⟩
    unfold Bencode.decodeMapLoop
    refine Le.bind_right fun c => Le.ite (Le.refl _) (Le.bind_right fun key => Le.ite (Le.refl _) ?_)
    exact (hrec _ _ _).bind fun _ => ih (by omega) _ _

theorem Le.atField (is : List Nat) (fl : Flags) (t : Ty) (v : Val) :
    Le (atField rec is fl t v) (atField rec' is fl t v) := by
  induction is generalizing fl t v with
  | nil => exact hrec _ _ _
  | cons i is ih =>
    unfold Bencode.atField
    dsimp only
    repeat' split
    all_goals first
      | exact Le.refl _
      | exact Le.bind_left (ih _ _ _)

include hskip in
theorem Le.decodeStructLoop (fl : Flags) (t : Ty) {k k' : Nat} (hk : k ≤ k') (last : Bytes) (v : Val) :
    Le (decodeStructLoop rec skip fl t k last v) (decodeStructLoop rec' skip' fl t k' last v) := by
  induction k generalizing k' last v with
  | zero => exact Le.fuel _
  | succ k ih =>
    obtain ⟨k', rfl⟩ : ∃ m, k' = m + 1 := ⟨k' - 1, by omega⟩
    unfold Bencode.decodeStructLoop
    refine Le.bind_right fun c => Le.ite (Le.refl _) (Le.bind_right fun key => Le.ite (Le.refl _) ?_)
    split
    · exact hskip.bind fun _ => ih (by omega) _ _
    · exact (Le.atField hrec _ _ _ _).bind fun _ => ih (by omega) _ _

include hskip in
theorem Le.decodeFlat {n m : Nat} (h : n ≤ m) (fl : Flags) (t : Ty) (v : Val) :
    Le (Bencode.decodeFlat rec skip n fl t v) (Bencode.decodeFlat rec' skip' m fl t v) := by
  unfold Bencode.decodeFlat
  cases t with
  | slice et =>
    refine Le.bind_right fun b => Le.ite (Le.refl _) (Le.bind_right fun _ => ?_)
    split
    · exact Le.bind_left (Le.decodeSliceLoop hrec _ _ h _ _)
    · exact Le.ite (Le.bind_left (Le.decodeSliceLoop hrec _ _ h _ _)) (Le.refl _)
  | array k et =>
    refine Le.bind_right fun b => Le.ite (Le.refl _) (Le.bind_right fun _ => ?_)
    split
    · exact Le.bind_left (Le.decodeArrayLoop hrec hskip _ _ h _ _)
    · exact Le.refl _
  | map et =>
    refine Le.bind_right fun b => Le.ite (Le.refl _) (Le.bind_right fun _ => ?_)
    split
    · exact Le.bind_left (Le.decodeMapLoop hrec _ h _ _)
    · exact Le.ite (Le.bind_left (Le.decodeMapLoop hrec _ h _ _)) (Le.refl _)
  | struct sid fs =>
    refine Le.bind_right fun b => Le.ite (Le.refl _) (Le.bind_right fun _ => ?_)
    exact Le.bind_left (Le.decodeStructLoop hrec hskip _ _ h _ _)
  | _ => exact Le.refl _

omit hrec in
include hskip in
theorem Le.decodeUnmarshaler (ro : Bool) (um : Bytes → Val → Res Val) (v : Option Val) :
    Le (Bencode.decodeUnmarshaler skip ro um v) (Bencode.decodeUnmarshaler skip' ro um v) := by
  unfold Bencode.decodeUnmarshaler
  exact Le.ite (Le.refl _) (Le.bind_left hskip)

omit hrec in
theorem Le.decodeNilAny {dec dec' : Ty → P Val} (h : ∀ t, Le (dec t) (dec' t)) (fl : Flags) :
    Le (decodeNilAny dec fl) (decodeNilAny dec' fl) := by
  unfold Bencode.decodeNilAny
  refine Le.bind_right fun b => ?_
  exact Le.ite (Le.bind_left (h _)) (Le.ite (Le.bind_left (h _)) (Le.ite (Le.bind_left (h _))
    (Le.ite (Le.bind_left (h _)) (Le.refl _))))

end

theorem Le.decodeVal {env : Env} {rec rec' : Dec} {skip skip' : P Bytes} {n n' : Nat}
    (hflat : ∀ fl t v, Le (Bencode.decodeFlat rec skip n fl t v) (Bencode.decodeFlat rec' skip' n' fl t v))
    (hum : ∀ ro um v, Le (Bencode.decodeUnmarshaler skip ro um v) (Bencode.decodeUnmarshaler skip' ro um v)) :
    ∀ (v : Val) (fl : Flags) (t : Ty), Le (decodeVal env rec skip n v fl t) (decodeVal env rec' skip' n' v fl t)
  | .ptr ev, fl, t => by
    have ih := Le.decodeVal (env := env) hflat hum ev
    cases t <;> unfold Bencode.decodeVal <;> (repeat' split) <;>
      first | exact hflat _ _ _ | exact hum _ _ _ | exact (hum _ _ _).bind_left | exact (ih _ _).bind_left
  | .iface dt dv, fl, t => by
    have ih := Le.decodeVal (env := env) hflat hum dv
    cases t <;> unfold Bencode.decodeVal <;> (repeat' split) <;>
      first | exact hflat _ _ _ | exact hum _ _ _ | exact (ih _ _).bind_left | exact Le.refl _
  | .nilIface, fl, t => by
    cases t <;> unfold Bencode.decodeVal <;> (repeat' split) <;>
      first | exact hflat _ _ _ | exact hum _ _ _ | exact Le.refl _ | exact Le.decodeNilAny (fun _ => hflat _ _ _) _
  | .nilPtr, fl, t => by
    cases t <;> unfold Bencode.decodeVal <;> (repeat' split) <;>
      first | exact hflat _ _ _ | exact hum _ _ _ | exact Le.refl _
  | .str _, fl, t => by
    cases t <;> unfold Bencode.decodeVal <;> (repeat' split) <;>
      first | exact hflat _ _ _ | exact hum _ _ _ | exact Le.refl _
  | .int _, fl, t => by
    cases t <;> unfold Bencode.decodeVal <;> (repeat' split) <;>
      first | exact hflat _ _ _ | exact hum _ _ _ | exact Le.refl _
  | .uint _, fl, t => by
    cases t <;> unfold Bencode.decodeVal <;> (repeat' split) <;>
      first | exact hflat _ _ _ | exact hum _ _ _ | exact Le.refl _
  | .nilBytes, fl, t => by
    cases t <;> unfold Bencode.decodeVal <;> (repeat' split) <;>
      first | exact hflat _ _ _ | exact hum _ _ _ | exact Le.refl _
  | .bytes _, fl, t => by
    cases t <;> unfold Bencode.decodeVal <;> (repeat' split) <;>
      first | exact hflat _ _ _ | exact hum _ _ _ | exact Le.refl _
  | .nilSlice, fl, t => by
    cases t <;> unfold Bencode.decodeVal <;> (repeat' split) <;>
      first | exact hflat _ _ _ | exact hum _ _ _ | exact Le.refl _
  | .slice _, fl, t => by
    cases t <;> unfold Bencode.decodeVal <;> (repeat' split) <;>
      first | exact hflat _ _ _ | exact hum _ _ _ | exact Le.refl _
  | .array _, fl, t => by
    cases t <;> unfold Bencode.decodeVal <;> (repeat' split) <;>
      first | exact hflat _ _ _ | exact hum _ _ _ | exact Le.refl _
  | .nilMap, fl, t => by
    cases t <;> unfold Bencode.decodeVal <;> (repeat' split) <;>
      first | exact hflat _ _ _ | exact hum _ _ _ | exact Le.refl _
  | .map _, fl, t => by
    cases t <;> unfold Bencode.decodeVal <;> (repeat' split) <;>
      first | exact hflat _ _ _ | exact hum _ _ _ | exact Le.refl _
  | .struct _, fl, t => by
    cases t <;> unfold Bencode.decodeVal <;> (repeat' split) <;>
      first | exact hflat _ _ _ | exact hum _ _ _ | exact Le.refl _
  | .unsupported, fl, t => by
    cases t <;> unfold Bencode.decodeVal <;> (repeat' split) <;>
      first | exact hflat _ _ _ | exact hum _ _ _ | exact Le.refl _

/-- A larger recursion bound gives the same result. -/
theorem Le.decode (env : Env) {n m : Nat} (h : n ≤ m) (fl : Flags) (t : Ty) (v : Val) :
    Le (decode env n fl t v) (decode env m fl t v) := by
  induction n generalizing m fl t v with
  | zero => exact Le.fuel _
  | succ n ih =>
    obtain ⟨m, rfl⟩ : ∃ k, m = k + 1 := ⟨m - 1, by omega⟩
    have hnm : n ≤ m := by omega
    unfold Bencode.decode
    exact Le.decodeVal (fun fl t v => Le.decodeFlat (fun fl t v => ih hnm fl t v) (Le.consume hnm) hnm fl t v)
      (fun ro um v => Le.decodeUnmarshaler (Le.consume hnm) ro um v) _ _ _

end Drip.Bencode
