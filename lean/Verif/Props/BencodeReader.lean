import Verif.Model.Bencode.Reader
import Verif.Lemmas.Bencode.Fuel
import Verif.Lemmas.Bencode.FuelMono
import Verif.Model.KernelRfl
/-
C140: a decoder whose reader fails.
-/

namespace Drip.Bencode.Reader

/-- What the decoder of a whole text does, if the one of a reader that breaks off has done this and `cs` are the bytes that are missing. -/
def Out.at {α : Type} (cs : Bytes) : Out (α × St) → Res (α × St)
  | .ok (a, st) => .ok (a, ⟨st.rest ++ cs, st.off⟩)
  | .err e => .err e
  | .broke => .err .eof
  | .panic => .panic

/-- `p` reads from a reader that breaks off and `q` from a text: if `p` has noticed the end then `q` fails at the end of the same text; otherwise `q` does the same, whatever follows. -/
def Rel {α : Type} (p : P α) (q : Bencode.P α) : Prop :=
  ∀ st, (p st = .broke ∧ (q st = .err .eof ∨ q st = .err .syntax)) ∨ (p st ≠ .broke ∧ ∀ cs, q ⟨st.rest ++ cs, st.off⟩ = (p st).at cs)

theorem bind_run {α β : Type} (p : P α) (f : α → P β) (st : St) :
    (p >>= f) st = match p st with | .ok (a, st') => f a st' | .err e => .err e | .broke => .broke | .panic => .panic := rfl

theorem Rel.ret {α : Type} (a : α) : Rel (pure a) (pure a) := fun _ => .inr ⟨fun h => (by cases h), fun _ => rfl⟩
theorem Rel.fail {α : Type} (e : Err) : Rel (α := α) (P.fail e) (Bencode.P.fail e) := fun _ => .inr ⟨fun h => (by cases h), fun _ => rfl⟩
theorem Rel.panic {α : Type} : Rel (α := α) P.panic Bencode.P.panic := fun _ => .inr ⟨fun h => (by cases h), fun _ => rfl⟩
theorem Rel.adv (n : Nat) : Rel (adv n) (Bencode.adv n) := fun _ => .inr ⟨fun h => (by cases h), fun _ => rfl⟩
theorem Rel.lift {α : Type} (r : Res α) : Rel (P.lift r) (Bencode.P.lift r) := by
  intro st
  right
  cases r <;> exact ⟨fun h => (by cases h), fun _ => rfl⟩

theorem Rel.readByte : Rel readByte Bencode.readByte := by
  intro ⟨r, off⟩
  cases r with
  | nil => exact .inl ⟨rfl, .inl rfl⟩
  | cons b r => exact .inr ⟨fun h => (by cases h), fun _ => rfl⟩

theorem Rel.peekByte : Rel peekByte Bencode.peekByte := by
  intro ⟨r, off⟩
  cases r with
  | nil => exact .inl ⟨rfl, .inl rfl⟩
  | cons b r => exact .inr ⟨fun h => (by cases h), fun _ => rfl⟩

theorem splitAt_more (d : UInt8) : ∀ (bs x y cs : Bytes), splitAt d bs = some (x, y) → splitAt d (bs ++ cs) = some (x, y ++ cs)
  | [], x, y, cs, h => by cases h
  | b :: bs, x, y, cs, h => by
    simp only [splitAt, List.cons_append] at h ⊢
    split at h
    · next hb => cases h; simp [hb]
    · next hb =>
      cases hs : splitAt d bs with
      | none => rw [hs] at h; cases h
      | some z =>
        obtain ⟨x', y'⟩ := z
        rw [hs] at h
        cases h
        rw [if_neg hb, splitAt_more d bs x' y cs hs]

theorem Rel.readUntil (d : UInt8) : Rel (readUntil d) (Bencode.readUntil d) := by
  intro st
  unfold Reader.readUntil Bencode.readUntil
  cases hs : splitAt d st.rest with
  | none => exact .inl ⟨rfl, .inr rfl⟩
  | some z =>
    refine .inr ⟨fun h => (by cases h), fun cs => ?_⟩
    rw [splitAt_more d _ z.1 z.2 cs hs]
    rfl

theorem Rel.readN (n : Int) : Rel (readN n) (Bencode.readN n) := by
  intro st
  unfold Reader.readN Bencode.readN
  by_cases h1 : n < 0 ∨ maxAlloc < n
  · simp only [h1, if_true]
    exact .inr ⟨fun h => (by cases h), fun _ => rfl⟩
  · simp only [h1, if_false]
    by_cases h2 : st.rest.length < n.toNat
    · simp only [h2, if_true]
      exact .inl ⟨trivial, .inr trivial⟩
    · simp only [h2, if_false]
      refine .inr ⟨fun h => (by cases h), fun cs => ?_⟩
      have h3 : ¬ (st.rest ++ cs).length < n.toNat := by simp only [List.length_append]; omega
      rw [if_neg h3, List.take_append_of_le_length (by omega), List.drop_append_of_le_length (by omega)]
      rfl

theorem Rel.bind {α β : Type} {p : P α} {q : Bencode.P α} {f : α → P β} {g : α → Bencode.P β} (h : Rel p q) (hf : ∀ a, Rel (f a) (g a)) : Rel (p >>= f) (q >>= g) := by
  intro st
  rw [bind_run]
  rcases h st with ⟨h1, h2⟩ | ⟨h1, h2⟩
  · left
    rw [h1]
    refine ⟨rfl, ?_⟩
    rw [Bencode.bind_run]
    rcases h2 with h2 | h2 <;> rw [h2]
    · exact .inl rfl
    · exact .inr rfl
  · cases hp : p st with
    | broke => exact absurd hp h1
    | err e => exact .inr ⟨fun h => (by cases h), fun cs => by rw [Bencode.bind_run, h2 cs, hp]; rfl⟩
    | panic => exact .inr ⟨fun h => (by cases h), fun cs => by rw [Bencode.bind_run, h2 cs, hp]; rfl⟩
    | ok x =>
      obtain ⟨a, st'⟩ := x
      rcases hf a st' with ⟨h3, h4⟩ | ⟨h3, h4⟩
      · left
        refine ⟨h3, ?_⟩
        have := h2 []
        rw [hp] at this
        simp only [List.append_nil, Out.at] at this
        rw [Bencode.bind_run, this]
        exact h4
      · refine .inr ⟨h3, fun cs => ?_⟩
        rw [Bencode.bind_run, h2 cs, hp]
        exact h4 cs

theorem Rel.ite {α : Type} {c : Prop} [Decidable c] {p p' : P α} {q q' : Bencode.P α} (hp : Rel p q) (hq : Rel p' q') : Rel (if c then p else p') (if c then q else q') := by
  split
  · exact hp
  · exact hq

theorem Rel.setVal (fl : Flags) (x : Val) : Rel (setVal fl x) (Bencode.setVal fl x) := Rel.ite (Rel.ret _) Rel.panic

theorem Rel.consumeString : Rel consumeString Bencode.consumeString := by
  refine (Rel.readUntil _).bind fun s => ?_
  cases parseInt s with
  | none => exact Rel.fail _
  | some n => exact (Rel.adv _).bind fun _ => (Rel.readN _).bind fun _ => (Rel.adv _).bind fun _ => Rel.ret _

theorem Rel.getString : Rel getString Bencode.getString := by
  refine (Rel.readUntil _).bind fun s => ?_
  cases parseInt s with
  | none => exact Rel.fail _
  | some n => exact (Rel.adv _).bind fun _ => (Rel.readN _).bind fun _ => (Rel.adv _).bind fun _ => Rel.ret _

theorem Rel.consumeInt : Rel consumeInt Bencode.consumeInt := by
  refine Rel.readByte.bind fun b => Rel.ite (Rel.fail _) ((Rel.adv _).bind fun _ => (Rel.readUntil _).bind fun s => Rel.ite (Rel.fail _) ?_)
  cases parseInt s with
  | none => exact Rel.fail _
  | some n => exact (Rel.adv _).bind fun _ => Rel.ret _

theorem Rel.getInt : Rel getInt Bencode.getInt := by
  refine Rel.readByte.bind fun b => Rel.ite (Rel.fail _) ((Rel.adv _).bind fun _ => (Rel.readUntil _).bind fun s => Rel.ite (Rel.fail _) ?_)
  cases parseInt s with
  | none => exact Rel.fail _
  | some n => exact (Rel.adv _).bind fun _ => Rel.ret _

theorem Rel.getUint : Rel getUint Bencode.getUint := by
  refine Rel.readByte.bind fun b => Rel.ite (Rel.fail _) ((Rel.adv _).bind fun _ => (Rel.readUntil _).bind fun s => Rel.ite (Rel.fail _) ?_)
  cases parseUint s with
  | none => exact Rel.fail _
  | some n => exact (Rel.adv _).bind fun _ => Rel.ret _

theorem Rel.consumeListLoop {p : P Bytes} {q : Bencode.P Bytes} (h : Rel p q) (k : Nat) : Rel (consumeListLoop p k) (Bencode.consumeListLoop q k) := by
  induction k with
  | zero => exact Rel.fail _
  | succ k ih =>
    unfold Reader.consumeListLoop Bencode.consumeListLoop
    exact Rel.peekByte.bind fun c => Rel.ite (Rel.readByte.bind fun _ => Rel.ret _) (h.bind fun r => ih.bind fun _ => Rel.ret _)

theorem Rel.consumeDictLoop {p : P Bytes} {q : Bencode.P Bytes} (h : Rel p q) (k : Nat) (last : Bytes) : Rel (consumeDictLoop p k last) (Bencode.consumeDictLoop q k last) := by
  induction k generalizing last with
  | zero => exact Rel.fail _
  | succ k ih =>
    unfold Reader.consumeDictLoop Bencode.consumeDictLoop
    exact Rel.peekByte.bind fun c => Rel.ite (Rel.readByte.bind fun _ => Rel.ret _)
      (Rel.consumeString.bind fun x => Rel.ite (Rel.fail _) (h.bind fun r => (ih _).bind fun _ => Rel.ret _))

theorem Rel.consume (n : Nat) : Rel (consume n) (Bencode.consume n) := by
  induction n with
  | zero => exact Rel.fail _
  | succ n ih =>
    unfold Reader.consume Bencode.consume consumeList consumeDict Bencode.consumeList Bencode.consumeDict
    refine Rel.peekByte.bind fun c => Rel.ite Rel.consumeInt (Rel.ite ?_ (Rel.ite ?_ (Rel.ite (Rel.consumeString.bind fun _ => Rel.ret _) (Rel.fail _))))
    · exact Rel.readByte.bind fun b => Rel.ite (Rel.fail _) ((Rel.adv _).bind fun _ => (Rel.consumeListLoop ih _).bind fun _ => (Rel.adv _).bind fun _ => Rel.ret _)
    · exact Rel.readByte.bind fun b => Rel.ite (Rel.fail _) ((Rel.adv _).bind fun _ => (Rel.consumeDictLoop ih _ _).bind fun _ => (Rel.adv _).bind fun _ => Rel.ret _)

section
variable {rec : Dec} {rec' : Bencode.Dec} (hrec : ∀ fl t v, Rel (rec fl t v) (rec' fl t v)) {skip : P Bytes} {skip' : Bencode.P Bytes} (hskip : Rel skip skip')
include hrec

theorem Rel.decodeSliceLoop (fl : Flags) (t : Ty) (k : Nat) (pre old : List Val) : Rel (decodeSliceLoop rec fl t k pre old) (Bencode.decodeSliceLoop rec' fl t k pre old) := by
  induction k generalizing pre old with
  | zero => exact Rel.fail _
  | succ k ih =>
    unfold Reader.decodeSliceLoop Bencode.decodeSliceLoop
    refine Rel.peekByte.bind fun c => Rel.ite (Rel.readByte.bind fun _ => Rel.ret _) ?_
    cases old with
    | nil => exact Rel.ite ((hrec _ _ _).bind fun _ => ih _ _) Rel.panic
    | cons v old => exact (hrec _ _ _).bind fun _ => ih _ _

include hskip in
theorem Rel.decodeArrayLoop (fl : Flags) (t : Ty) (k : Nat) (pre old : List Val) : Rel (decodeArrayLoop rec skip fl t k pre old) (Bencode.decodeArrayLoop rec' skip' fl t k pre old) := by
  induction k generalizing pre old with
  | zero => exact Rel.fail _
  | succ k ih =>
    unfold Reader.decodeArrayLoop Bencode.decodeArrayLoop
    refine Rel.peekByte.bind fun c => Rel.ite (Rel.readByte.bind fun _ => Rel.ret _) ?_
    cases old with
    | nil => exact hskip.bind fun _ => ih _ _
    | cons v old => exact (hrec _ _ _).bind fun _ => ih _ _

theorem Rel.decodeMapLoop (t : Ty) (k : Nat) (last : Bytes) (m : List (Bytes × Val)) : Rel (decodeMapLoop rec t k last m) (Bencode.decodeMapLoop rec' t k last m) := by
  induction k generalizing last m with
  | zero => exact Rel.fail _
  | succ k ih =>
    unfold Reader.decodeMapLoop Bencode.decodeMapLoop
    exact Rel.peekByte.bind fun c => Rel.ite (Rel.readByte.bind fun _ => Rel.ret _) (Rel.getString.bind fun key => Rel.ite (Rel.fail _) ((hrec _ _ _).bind fun _ => ih _ _))

theorem Rel.atField (is : List Nat) (fl : Flags) (t : Ty) (v : Val) : Rel (atField rec is fl t v) (Bencode.atField rec' is fl t v) := by
  induction is generalizing fl t v with
  | nil => exact hrec _ _ _
  | cons i is ih =>
    unfold Reader.atField Bencode.atField
    dsimp only
    generalize t.under = u
    cases u with
    | struct sid fs =>
      cases v with
      | struct vs =>
        dsimp only
        generalize fs[i]? = a, vs[i]? = b
        cases a with
        | none => exact Rel.panic
        | some hft =>
          obtain ⟨h, ft⟩ := hft
          cases b with
          | none => exact Rel.panic
          | some fv =>
            cases ft with
            | ptr et =>
              cases fv with
              | nilPtr => exact Rel.ite ((ih _ _ _).bind fun _ => Rel.ret _) Rel.panic
              | ptr ev => exact (ih _ _ _).bind fun _ => Rel.ret _
              | _ => exact (ih _ _ _).bind fun _ => Rel.ret _
            | _ => exact (ih _ _ _).bind fun _ => Rel.ret _
      | _ => exact Rel.panic
    | _ => exact Rel.panic

include hskip in
theorem Rel.decodeStructLoop (fl : Flags) (t : Ty) (k : Nat) (last : Bytes) (v : Val) : Rel (decodeStructLoop rec skip fl t k last v) (Bencode.decodeStructLoop rec' skip' fl t k last v) := by
  induction k generalizing last v with
  | zero => exact Rel.fail _
  | succ k ih =>
    unfold Reader.decodeStructLoop Bencode.decodeStructLoop
    refine Rel.peekByte.bind fun c => Rel.ite (Rel.readByte.bind fun _ => Rel.ret _) (Rel.getString.bind fun key => Rel.ite (Rel.fail _) ?_)
    cases lookupKey key (keyToField t) with
    | none => exact hskip.bind fun _ => ih _ _
    | some f => exact (Rel.atField hrec _ _ _ _).bind fun _ => ih _ _

include hskip in
theorem Rel.decodeFlat (n : Nat) (fl : Flags) (t : Ty) (v : Val) : Rel (decodeFlat rec skip n fl t v) (Bencode.decodeFlat rec' skip' n fl t v) := by
  unfold Reader.decodeFlat Bencode.decodeFlat
  cases t with
  | str => exact Rel.getString.bind fun _ => Rel.setVal _ _
  | bytes => exact Rel.getString.bind fun _ => Rel.setVal _ _
  | int b => exact Rel.getInt.bind fun _ => Rel.setVal _ _
  | uint b => exact Rel.getUint.bind fun _ => Rel.setVal _ _
  | slice et =>
    refine Rel.readByte.bind fun b => Rel.ite (Rel.fail _) ((Rel.adv _).bind fun _ => ?_)
    cases v with
    | slice es => exact (Rel.decodeSliceLoop hrec _ _ _ _ _).bind fun _ => (Rel.adv _).bind fun _ => Rel.ret _
    | _ => exact Rel.ite ((Rel.decodeSliceLoop hrec _ _ _ _ _).bind fun _ => (Rel.adv _).bind fun _ => Rel.ret _) Rel.panic
  | array k et =>
    refine Rel.readByte.bind fun b => Rel.ite (Rel.fail _) ((Rel.adv _).bind fun _ => ?_)
    cases v with
    | array es => exact (Rel.decodeArrayLoop hrec hskip _ _ _ _ _).bind fun _ => (Rel.adv _).bind fun _ => Rel.ret _
    | _ => exact Rel.panic
  | map et =>
    refine Rel.readByte.bind fun b => Rel.ite (Rel.fail _) ((Rel.adv _).bind fun _ => ?_)
    cases v with
    | map es => exact (Rel.decodeMapLoop hrec _ _ _ _).bind fun _ => (Rel.adv _).bind fun _ => Rel.ret _
    | _ => exact Rel.ite ((Rel.decodeMapLoop hrec _ _ _ _).bind fun _ => (Rel.adv _).bind fun _ => Rel.ret _) Rel.panic
  | badmap => exact Rel.readByte.bind fun b => Rel.ite (Rel.fail _) (Rel.fail _)
  | struct sid fs =>
    exact Rel.readByte.bind fun b => Rel.ite (Rel.fail _) ((Rel.adv _).bind fun _ => (Rel.decodeStructLoop hrec hskip _ _ _ _ _).bind fun _ => (Rel.adv _).bind fun _ => Rel.ret _)
  | unsupported => exact Rel.fail _
  | _ => exact Rel.panic

omit hrec in
include hskip in
theorem Rel.decodeUnmarshaler (ro : Bool) (um : Bytes → Val → Res Val) (v : Option Val) : Rel (decodeUnmarshaler skip ro um v) (Bencode.decodeUnmarshaler skip' ro um v) := by
  unfold Reader.decodeUnmarshaler Bencode.decodeUnmarshaler
  refine Rel.ite Rel.panic (hskip.bind fun raw => ?_)
  cases v with
  | none => exact Rel.panic
  | some v => exact Rel.lift _

omit hrec in
theorem Rel.decodeNilAny {dec : Ty → P Val} {dec' : Ty → Bencode.P Val} (h : ∀ t, Rel (dec t) (dec' t)) (fl : Flags) : Rel (decodeNilAny dec fl) (Bencode.decodeNilAny dec' fl) := by
  unfold Reader.decodeNilAny Bencode.decodeNilAny
  have hb : ∀ t (f : Val → Val), Rel (dec t >>= fun x => Reader.setVal fl (f x)) (dec' t >>= fun x => Bencode.setVal fl (f x)) := fun t f => (h t).bind fun _ => Rel.setVal _ _
  exact Rel.peekByte.bind fun b => Rel.ite (hb _ _) (Rel.ite (hb _ _) (Rel.ite (hb _ _) (Rel.ite (hb _ _) (Rel.fail _))))

end

theorem Rel.decodeVal {env : Env} {rec : Dec} {rec' : Bencode.Dec} {skip : P Bytes} {skip' : Bencode.P Bytes} {n : Nat}
    (hflat : ∀ fl t v, Rel (Reader.decodeFlat rec skip n fl t v) (Bencode.decodeFlat rec' skip' n fl t v))
    (hum : ∀ ro um v, Rel (Reader.decodeUnmarshaler skip ro um v) (Bencode.decodeUnmarshaler skip' ro um v)) :
    ∀ (v : Val) (fl : Flags) (t : Ty), Rel (decodeVal env rec skip n v fl t) (Bencode.decodeVal env rec' skip' n v fl t)
  | .ptr ev, fl, t => by
    have ih := Rel.decodeVal (env := env) hflat hum ev
    cases t with
    | custom id u =>
      unfold Reader.decodeVal Bencode.decodeVal
      cases (env id).unmarshal with
      | none => exact hflat _ _ _
      | some um =>
        cases fl.addr with
        | false => exact hflat _ _ _
        | true => exact hum _ _ _
    | ptr et =>
      unfold Reader.decodeVal Bencode.decodeVal
      cases ptrMethod env et with
      | none => exact (ih _ _).bind fun _ => Rel.ret _
      | some um => exact (hum _ _ _).bind fun _ => Rel.ret _
    | any => exact hflat _ _ _
    | iface => exact hflat _ _ _
    | _ => exact hflat _ _ _
  | .iface dt dv, fl, t => by
    have ih := Rel.decodeVal (env := env) hflat hum dv
    cases t with
    | custom id u =>
      unfold Reader.decodeVal Bencode.decodeVal
      cases (env id).unmarshal with
      | none => exact hflat _ _ _
      | some um =>
        cases fl.addr with
        | false => exact hflat _ _ _
        | true => exact hum _ _ _
    | ptr et =>
      unfold Reader.decodeVal Bencode.decodeVal
      cases ptrMethod env et with
      | none => exact Rel.panic
      | some um => exact hum _ _ _
    | any => exact (ih _ _).bind fun _ => Rel.ret _
    | iface => exact (ih _ _).bind fun _ => Rel.ret _
    | _ => exact hflat _ _ _
  | .nilIface, fl, t => by
    cases t with
    | custom id u =>
      unfold Reader.decodeVal Bencode.decodeVal
      cases (env id).unmarshal with
      | none => exact hflat _ _ _
      | some um =>
        cases fl.addr with
        | false => exact hflat _ _ _
        | true => exact hum _ _ _
    | ptr et =>
      unfold Reader.decodeVal Bencode.decodeVal
      cases ptrMethod env et with
      | none => exact Rel.panic
      | some um => exact hum _ _ _
    | any => exact Rel.decodeNilAny (fun _ => hflat _ _ _) _
    | iface => exact Rel.fail _
    | _ => exact hflat _ _ _
  | .nilPtr, fl, t => by
    cases t with
    | custom id u =>
      unfold Reader.decodeVal Bencode.decodeVal
      cases (env id).unmarshal with
      | none => exact hflat _ _ _
      | some um =>
        cases fl.addr with
        | false => exact hflat _ _ _
        | true => exact hum _ _ _
    | ptr et =>
      unfold Reader.decodeVal Bencode.decodeVal
      cases ptrMethod env et with
      | none => exact Rel.panic
      | some um => exact hum _ _ _
    | any => exact hflat _ _ _
    | iface => exact hflat _ _ _
    | _ => exact hflat _ _ _
  | .str _, fl, t => by
    cases t with
    | custom id u =>
      unfold Reader.decodeVal Bencode.decodeVal
      cases (env id).unmarshal with
      | none => exact hflat _ _ _
      | some um =>
        cases fl.addr with
        | false => exact hflat _ _ _
        | true => exact hum _ _ _
    | ptr et =>
      unfold Reader.decodeVal Bencode.decodeVal
      cases ptrMethod env et with
      | none => exact Rel.panic
      | some um => exact hum _ _ _
    | any => exact hflat _ _ _
    | iface => exact hflat _ _ _
    | _ => exact hflat _ _ _
  | .int _, fl, t => by
    cases t with
    | custom id u =>
      unfold Reader.decodeVal Bencode.decodeVal
      cases (env id).unmarshal with
      | none => exact hflat _ _ _
      | some um =>
        cases fl.addr with
        | false => exact hflat _ _ _
        | true => exact hum _ _ _
    | ptr et =>
      unfold Reader.decodeVal Bencode.decodeVal
      cases ptrMethod env et with
      | none => exact Rel.panic
      | some um => exact hum _ _ _
    | any => exact hflat _ _ _
    | iface => exact hflat _ _ _
    | _ => exact hflat _ _ _
  | .uint _, fl, t => by
    cases t with
    | custom id u =>
      unfold Reader.decodeVal Bencode.decodeVal
      cases (env id).unmarshal with
      | none => exact hflat _ _ _
      | some um =>
        cases fl.addr with
        | false => exact hflat _ _ _
        | true => exact hum _ _ _
    | ptr et =>
      unfold Reader.decodeVal Bencode.decodeVal
      cases ptrMethod env et with
      | none => exact Rel.panic
      | some um => exact hum _ _ _
    | any => exact hflat _ _ _
    | iface => exact hflat _ _ _
    | _ => exact hflat _ _ _
  | .nilBytes, fl, t => by
    cases t with
    | custom id u =>
      unfold Reader.decodeVal Bencode.decodeVal
      cases (env id).unmarshal with
      | none => exact hflat _ _ _
      | some um =>
        cases fl.addr with
        | false => exact hflat _ _ _
        | true => exact hum _ _ _
    | ptr et =>
      unfold Reader.decodeVal Bencode.decodeVal
      cases ptrMethod env et with
      | none => exact Rel.panic
      | some um => exact hum _ _ _
    | any => exact hflat _ _ _
    | iface => exact hflat _ _ _
    | _ => exact hflat _ _ _
  | .bytes _, fl, t => by
    cases t with
    | custom id u =>
      unfold Reader.decodeVal Bencode.decodeVal
      cases (env id).unmarshal with
      | none => exact hflat _ _ _
      | some um =>
        cases fl.addr with
        | false => exact hflat _ _ _
        | true => exact hum _ _ _
    | ptr et =>
      unfold Reader.decodeVal Bencode.decodeVal
      cases ptrMethod env et with
      | none => exact Rel.panic
      | some um => exact hum _ _ _
    | any => exact hflat _ _ _
    | iface => exact hflat _ _ _
    | _ => exact hflat _ _ _
  | .nilSlice, fl, t => by
    cases t with
    | custom id u =>
      unfold Reader.decodeVal Bencode.decodeVal
      cases (env id).unmarshal with
      | none => exact hflat _ _ _
      | some um =>
        cases fl.addr with
        | false => exact hflat _ _ _
        | true => exact hum _ _ _
    | ptr et =>
      unfold Reader.decodeVal Bencode.decodeVal
      cases ptrMethod env et with
      | none => exact Rel.panic
      | some um => exact hum _ _ _
    | any => exact hflat _ _ _
    | iface => exact hflat _ _ _
    | _ => exact hflat _ _ _
  | .slice _, fl, t => by
    cases t with
    | custom id u =>
      unfold Reader.decodeVal Bencode.decodeVal
      cases (env id).unmarshal with
      | none => exact hflat _ _ _
      | some um =>
        cases fl.addr with
        | false => exact hflat _ _ _
        | true => exact hum _ _ _
    | ptr et =>
      unfold Reader.decodeVal Bencode.decodeVal
      cases ptrMethod env et with
      | none => exact Rel.panic
      | some um => exact hum _ _ _
    | any => exact hflat _ _ _
    | iface => exact hflat _ _ _
    | _ => exact hflat _ _ _
  | .array _, fl, t => by
    cases t with
    | custom id u =>
      unfold Reader.decodeVal Bencode.decodeVal
      cases (env id).unmarshal with
      | none => exact hflat _ _ _
      | some um =>
        cases fl.addr with
        | false => exact hflat _ _ _
        | true => exact hum _ _ _
    | ptr et =>
      unfold Reader.decodeVal Bencode.decodeVal
      cases ptrMethod env et with
      | none => exact Rel.panic
      | some um => exact hum _ _ _
    | any => exact hflat _ _ _
    | iface => exact hflat _ _ _
    | _ => exact hflat _ _ _
  | .nilMap, fl, t => by
    cases t with
    | custom id u =>
      unfold Reader.decodeVal Bencode.decodeVal
      cases (env id).unmarshal with
      | none => exact hflat _ _ _
      | some um =>
        cases fl.addr with
        | false => exact hflat _ _ _
        | true => exact hum _ _ _
    | ptr et =>
      unfold Reader.decodeVal Bencode.decodeVal
      cases ptrMethod env et with
      | none => exact Rel.panic
      | some um => exact hum _ _ _
    | any => exact hflat _ _ _
    | iface => exact hflat _ _ _
    | _ => exact hflat _ _ _
  | .map _, fl, t => by
    cases t with
    | custom id u =>
      unfold Reader.decodeVal Bencode.decodeVal
      cases (env id).unmarshal with
      | none => exact hflat _ _ _
      | some um =>
        cases fl.addr with
        | false => exact hflat _ _ _
        | true => exact hum _ _ _
    | ptr et =>
      unfold Reader.decodeVal Bencode.decodeVal
      cases ptrMethod env et with
      | none => exact Rel.panic
      | some um => exact hum _ _ _
    | any => exact hflat _ _ _
    | iface => exact hflat _ _ _
    | _ => exact hflat _ _ _
  | .struct _, fl, t => by
    cases t with
    | custom id u =>
      unfold Reader.decodeVal Bencode.decodeVal
      cases (env id).unmarshal with
      | none => exact hflat _ _ _
      | some um =>
        cases fl.addr with
        | false => exact hflat _ _ _
        | true => exact hum _ _ _
    | ptr et =>
      unfold Reader.decodeVal Bencode.decodeVal
      cases ptrMethod env et with
      | none => exact Rel.panic
      | some um => exact hum _ _ _
    | any => exact hflat _ _ _
    | iface => exact hflat _ _ _
    | _ => exact hflat _ _ _
  | .unsupported, fl, t => by
    cases t with
    | custom id u =>
      unfold Reader.decodeVal Bencode.decodeVal
      cases (env id).unmarshal with
      | none => exact hflat _ _ _
      | some um =>
        cases fl.addr with
        | false => exact hflat _ _ _
        | true => exact hum _ _ _
    | ptr et =>
      unfold Reader.decodeVal Bencode.decodeVal
      cases ptrMethod env et with
      | none => exact Rel.panic
      | some um => exact hum _ _ _
    | any => exact hflat _ _ _
    | iface => exact hflat _ _ _
    | _ => exact hflat _ _ _

theorem Rel.decode (env : Env) (n : Nat) (fl : Flags) (t : Ty) (v : Val) : Rel (decode env n fl t v) (Bencode.decode env n fl t v) := by
  induction n generalizing fl t v with
  | zero => exact Rel.fail _
  | succ n ih =>
    unfold Reader.decode Bencode.decode
    exact Rel.decodeVal (fun fl t v => Rel.decodeFlat (fun fl t v => ih fl t v) (Rel.consume n) n fl t v) (fun ro um v => Rel.decodeUnmarshaler (Rel.consume n) ro um v) _ _ _

/-- No method of a value answers with the error that says that the bound of the model is reached. -/
def Sane (env : Env) : Prop := ∀ id um, (env id).unmarshal = some um → ∀ raw v, um raw v ≠ .err .fuel

/-- The two decoders, with the bounds that `Unmarshal` uses. -/
theorem decodeFrom_cases (env : Env) (henv : Sane env) (t : Ty) (v : Val) (bs : Bytes) :
    (decodeFrom env t v bs = .broke ∧ ∃ e, unmarshalSt env t v bs = .err e) ∨
      (decodeFrom env t v bs ≠ .broke ∧ decodeFrom env t v bs ≠ .err .fuel ∧ ∀ cs, unmarshalSt env t v (bs ++ cs) = (decodeFrom env t v bs).at cs) := by
  rcases Rel.decode env (fuelFor bs) { addr := true } t v ⟨bs, 0⟩ with ⟨h1, h2⟩ | ⟨h1, h2⟩
  · exact .inl ⟨h1, h2.elim (fun h => ⟨_, h⟩) (fun h => ⟨_, h⟩)⟩
  · right
    have hf : decodeFrom env t v bs ≠ .err .fuel := by
      intro h
      have h3 := h2 []
      rw [show Reader.decode env (fuelFor bs) { addr := true } t v ⟨bs, 0⟩ = .err .fuel from h] at h3
      simp only [List.append_nil] at h3
      exact NF.decode henv (n := fuelFor bs) (len := bs.length) (by simp [fuelFor]) { addr := true } t v ⟨bs, 0⟩ (Nat.le_refl _) h3
    refine ⟨h1, hf, fun cs => ?_⟩
    have h3 := h2 cs
    rcases Le.decode env (n := fuelFor bs) (m := fuelFor (bs ++ cs)) (by simp [fuelFor]) { addr := true } t v ⟨bs ++ cs, 0⟩ with h | h
    · rw [h] at h3
      exfalso
      revert h1 hf h3
      unfold decodeFrom
      cases Reader.decode env (fuelFor bs) { addr := true } t v ⟨bs, 0⟩ with
      | ok x => intro _ _ h3; cases h3
      | err e => intro _ hf h3; cases h3; exact hf rfl
      | broke => intro h1 _ _; exact h1 rfl
      | panic => intro _ _ h3; cases h3
    · exact h.trans h3

/-- **C140**, success: `Decode` succeeds if and only if a whole value was delivered before the reader failed, as `Unmarshal` says, with the same value, and stops at the same place; what would have followed does not matter. -/
theorem C140_ok (env : Env) (henv : Sane env) (t : Ty) (v : Val) (bs : Bytes) (x : Val) (st : St) :
    (decodeFrom env t v bs = .ok (x, st) ↔ unmarshalSt env t v bs = .ok (x, st)) ∧
      (decodeFrom env t v bs = .ok (x, st) → ∀ cs, unmarshalSt env t v (bs ++ cs) = .ok (x, ⟨st.rest ++ cs, st.off⟩)) := by
  rcases decodeFrom_cases env henv t v bs with ⟨h1, e, h2⟩ | ⟨h1, -, h2⟩
  · rw [h1, h2]
    exact ⟨⟨fun h => (by cases h), fun h => (by cases h)⟩, fun h => (by cases h)⟩
  · refine ⟨?_, fun h cs => by rw [h2 cs, h]; rfl⟩
    have h3 := h2 []
    rw [List.append_nil] at h3
    rw [h3]
    revert h1
    cases decodeFrom env t v bs with
    | broke => intro h; exact absurd rfl h
    | ok y => intro _; obtain ⟨a, r, o⟩ := y; simp [Out.at]
    | err e => intro _; exact ⟨fun h => (by cases h), fun h => (by cases h)⟩
    | panic => intro _; exact ⟨fun h => (by cases h), fun h => (by cases h)⟩

/-- **C140**, the error of the reader: it is reported whenever the value was not complete, that is when what was to follow makes it one that `Unmarshal` takes, and ends after what was delivered. -/
theorem C140_reported (env : Env) (henv : Sane env) (t : Ty) (v : Val) (bs cs : Bytes) (x : Val) (st : St)
    (h : unmarshalSt env t v (bs ++ cs) = .ok (x, st)) (hs : st.rest.length < cs.length) : decodeFrom env t v bs = .broke := by
  rcases decodeFrom_cases env henv t v bs with ⟨h1, -⟩ | ⟨h1, -, h2⟩
  · exact h1
  · exfalso
    have h3 := (h2 cs).symm.trans h
    revert h3 h1
    cases decodeFrom env t v bs with
    | broke => intro h1; exact absurd rfl h1
    | ok y =>
      obtain ⟨a, r, o⟩ := y
      intro _ h3
      simp only [Out.at, Res.ok.injEq, Prod.mk.injEq] at h3
      rw [← h3.2] at hs
      simp at hs
      omega
    | err e => intro _ h3; cases h3
    | panic => intro _ h3; cases h3

/-- **C140**, other errors (and panics): they are those of the text, and no matter what would have followed, `Unmarshal` of the whole text says the same. -/
theorem C140_own (env : Env) (henv : Sane env) (t : Ty) (v : Val) (bs : Bytes) :
    (∀ e, decodeFrom env t v bs = .err e → ∀ cs, unmarshal env t v (bs ++ cs) = .err e) ∧ (decodeFrom env t v bs = .panic → ∀ cs, unmarshal env t v (bs ++ cs) = .panic) := by
  rcases decodeFrom_cases env henv t v bs with ⟨h1, -⟩ | ⟨-, -, h2⟩
  · rw [h1]
    exact ⟨fun e h => (by cases h), fun h => (by cases h)⟩
  · exact ⟨fun e h cs => by unfold unmarshal; rw [h2 cs, h]; rfl, fun h cs => by unfold unmarshal; rw [h2 cs, h]; rfl⟩

/-- The reader fails within a number, within a string, before the end of a list; after the value (which is complete); after a byte that is wrong; and after a length that cannot be. -/
example : decodeFrom noEnv .any .nilIface b!"li1ei23" = .broke ∧ decodeFrom noEnv .any .nilIface b!"4:abc" = .broke ∧ decodeFrom noEnv .any .nilIface b!"li1e" = .broke ∧
    decodeFrom noEnv .any .nilIface b!"i5eli" = .ok (.iface (.int 64) (.int 5), ⟨b!"li", 3⟩) ∧ decodeFrom noEnv .any .nilIface b!"lx" = .err .syntax ∧
    decodeFrom noEnv .any .nilIface b!"d-1:" = .panic := by
  refine ⟨?_, ?_, ?_, ?_, ?_, ?_⟩ <;> kernel_rfl

example : Sane noEnv := fun id um h => by cases h

end Drip.Bencode.Reader
