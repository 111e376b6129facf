import Verif.Model.Bencode.Decode
/-
Locality of the decoder: a successful step consumes a prefix of the input, does not look beyond it, and moves the
offset by the length of that prefix.
-/

namespace Drip.Bencode

@[simp] theorem bind_run {α β : Type} (p : P α) (f : α → P β) (st : St) :
    (p >>= f) st = (p st >>= fun x => f x.1 x.2) := rfl
@[simp] theorem pure_run {α : Type} (a : α) (st : St) : (pure a : P α) st = .ok (a, st) := rfl
@[simp] theorem fail_run {α : Type} (e : Err) (st : St) : (P.fail e : P α) st = .err e := rfl
@[simp] theorem panic_run {α : Type} (st : St) : (P.panic : P α) st = .panic := rfl
@[simp] theorem lift_run {α : Type} (r : Res α) (st : St) : (P.lift r : P α) st = (r >>= fun a => .ok (a, st)) := rfl
@[simp] theorem adv_run (n : Nat) (st : St) : adv n st = .ok ((), { st with off := st.off + n }) := rfl

/-- `p` is local: on success it consumes a prefix `c` of the input (not empty if `ne`), moves the offset by some `d`
that depends only on `c`, and gives the same result for every continuation of `c`. -/
def Loc {α : Type} (ne : Bool) (p : P α) : Prop :=
  ∀ st a st', p st = .ok (a, st') → ∃ c d, st.rest = c ++ st'.rest ∧ st'.off = st.off + d ∧ (ne = true → c ≠ []) ∧
    ∀ ext off, p ⟨c ++ ext, off⟩ = .ok (a, ⟨ext, off + d⟩)

theorem Loc.weaken {α : Type} {ne : Bool} {p : P α} (h : Loc ne p) : Loc false p := by
  intro st a st' e
  obtain ⟨c, d, h1, h2, _, h4⟩ := h st a st' e
  exact ⟨c, d, h1, h2, by simp, h4⟩

theorem Loc.bind {α β : Type} {n1 n2 : Bool} {p : P α} {f : α → P β} (hp : Loc n1 p) (hf : ∀ a, Loc n2 (f a)) :
    Loc (n1 || n2) (p >>= f) := by
  intro st b st'' e
  rw [bind_run, Res.bind_eq_ok] at e
  obtain ⟨⟨a, st'⟩, e1, e2⟩ := e
  obtain ⟨c1, d1, h1, h2, h3, h4⟩ := hp st a st' e1
  obtain ⟨c2, d2, k1, k2, k3, k4⟩ := hf a st' b st'' e2
  refine ⟨c1 ++ c2, d1 + d2, by rw [h1, k1, List.append_assoc], by omega, ?_, ?_⟩
  · intro hn
    simp only [Bool.or_eq_true] at hn
    rcases hn with hn | hn
    · intro e; exact h3 hn (List.append_eq_nil_iff.mp e).1
    · intro e; exact k3 hn (List.append_eq_nil_iff.mp e).2
  · intro ext off
    rw [bind_run, List.append_assoc, h4]
    simp only [Res.bind_ok, k4, Nat.add_assoc]

theorem Loc.bind_left {α β : Type} {p : P α} {f : α → P β} (hp : Loc true p) (hf : ∀ a, Loc false (f a)) :
    Loc true (p >>= f) := Loc.bind hp hf

theorem Loc.bind_right {α β : Type} {p : P α} {f : α → P β} (hp : Loc false p) (hf : ∀ a, Loc true (f a)) :
    Loc true (p >>= f) := Loc.bind hp hf

theorem Loc.pure {α : Type} (a : α) : Loc false (Pure.pure a : P α) := by
  intro st b st' e
  simp only [pure_run, Res.ok.injEq, Prod.mk.injEq] at e
  obtain ⟨rfl, rfl⟩ := e
  exact ⟨[], 0, rfl, rfl, by simp, fun _ _ => rfl⟩

theorem Loc.fail {α : Type} (ne : Bool) (e : Err) : Loc ne (P.fail e : P α) := by
  intro st b st' h; simp at h

theorem Loc.panic {α : Type} (ne : Bool) : Loc ne (P.panic : P α) := by
  intro st b st' h; simp at h

theorem Loc.lift {α : Type} (r : Res α) : Loc false (P.lift r : P α) := by
  cases r with
  | ok a => exact Loc.pure a
  | err e => exact Loc.fail _ e
  | panic => exact Loc.panic _

theorem Loc.adv (n : Nat) : Loc false (adv n) := by
  intro st b st' e
  simp only [adv_run, Res.ok.injEq, Prod.mk.injEq] at e
  obtain ⟨-, rfl⟩ := e
  exact ⟨[], n, rfl, rfl, by simp, fun _ _ => rfl⟩

theorem Loc.readByte : Loc true readByte := by
  intro st b st' e
  unfold Bencode.readByte at e
  split at e
  · simp at e
  · rename_i x xs hx
    simp only [Res.ok.injEq, Prod.mk.injEq] at e
    obtain ⟨rfl, rfl⟩ := e
    exact ⟨[x], 0, hx, rfl, by simp, fun _ _ => rfl⟩

/-- A peek is local together with what follows it, if that consumes something. -/
theorem Loc.peek {β : Type} {f : UInt8 → P β} (hf : ∀ b, Loc true (f b)) : Loc true (peekByte >>= f) := by
  intro st a st' e
  rw [bind_run] at e
  unfold peekByte at e
  cases hr : st.rest with
  | nil => rw [hr] at e; simp at e
  | cons b bs =>
    rw [hr] at e
    simp only [Res.bind_ok] at e
    obtain ⟨c, d, h1, h2, h3, h4⟩ := hf b st a st' e
    refine ⟨c, d, by rw [← hr]; exact h1, h2, h3, ?_⟩
    intro ext off
    cases c with
    | nil => exact absurd rfl (h3 rfl)
    | cons x xs =>
      rw [hr] at h1
      simp only [List.cons_append, List.cons.injEq] at h1
      obtain ⟨rfl, _⟩ := h1
      have := h4 ext off
      simpa [peekByte] using this

theorem splitAt_some (delim : UInt8) (bs x y : Bytes) :
    splitAt delim bs = some (x, y) ↔ bs = x ++ delim :: y ∧ delim ∉ x := by
  induction bs generalizing x with
  | nil => simp [splitAt]
  | cons b bs ih =>
    simp only [splitAt]
    split
    · rename_i h
      subst h
      simp only [Option.some.injEq, Prod.mk.injEq]
      constructor
      · rintro ⟨rfl, rfl⟩; simp
      · rintro ⟨h, hn⟩
        cases x with
        | nil => simp at h; exact ⟨rfl, h⟩
        | cons c cs => simp at h hn; exact absurd h.1 hn.1
    · rename_i h
      cases hs : splitAt delim bs with
      | none =>
        simp only [reduceCtorEq, false_iff]
        rintro ⟨h1, h2⟩
        cases x with
        | nil => simp at h1; exact h h1.1
        | cons c cs =>
          simp at h1 h2
          have := (ih cs).mpr ⟨h1.2, h2.2⟩
          rw [hs] at this; simp at this
      | some q =>
        obtain ⟨x', y'⟩ := q
        simp only [Option.some.injEq, Prod.mk.injEq]
        constructor
        · rintro ⟨rfl, rfl⟩
          obtain ⟨h1, h2⟩ := (ih x').mp hs
          subst h1
          simp [h2, Ne.symm h]
        · rintro ⟨h1, h2⟩
          cases x with
          | nil => simp at h1; exact absurd h1.1 h
          | cons c cs =>
            simp at h1 h2
            have := (ih cs).mpr ⟨h1.2, h2.2⟩
            rw [hs] at this
            simp at this
            obtain ⟨rfl, rfl⟩ := this
            simp [h1.1]

theorem readUntil_ok (delim : UInt8) (st : St) (x : Bytes) (st' : St) :
    readUntil delim st = .ok (x, st') ↔ st.rest = x ++ delim :: st'.rest ∧ delim ∉ x ∧ st'.off = st.off := by
  unfold readUntil
  cases hs : splitAt delim st.rest with
  | none =>
    simp only [reduceCtorEq, false_iff]
    rintro ⟨h1, h2, _⟩
    have := (splitAt_some delim st.rest x st'.rest).mpr ⟨h1, h2⟩
    rw [hs] at this; simp at this
  | some q =>
    obtain ⟨x', y'⟩ := q
    simp only [Res.ok.injEq, Prod.mk.injEq]
    have hq := (splitAt_some _ _ _ _).mp hs
    constructor
    · rintro ⟨rfl, rfl⟩; exact ⟨hq.1, hq.2, rfl⟩
    · rintro ⟨h1, h2, h3⟩
      have := (splitAt_some delim st.rest x st'.rest).mpr ⟨h1, h2⟩
      rw [hs] at this
      simp at this
      obtain ⟨rfl, rfl⟩ := this
      cases st; cases st'; simp_all

theorem readUntil_run (delim : UInt8) (x y : Bytes) (off : Nat) (h : delim ∉ x) :
    readUntil delim ⟨x ++ delim :: y, off⟩ = .ok (x, ⟨y, off⟩) := by
  rw [readUntil_ok]; exact ⟨rfl, h, rfl⟩

theorem Loc.readUntil (delim : UInt8) : Loc true (readUntil delim) := by
  intro st b st' e
  rw [readUntil_ok] at e
  obtain ⟨h1, h2, h3⟩ := e
  refine ⟨b ++ [delim], 0, by rw [h1]; simp, h3, by simp, ?_⟩
  intro ext off
  rw [List.append_assoc]
  exact readUntil_run delim b ext off h2

theorem readN_ok (n : Int) (st : St) (x : Bytes) (st' : St) :
    readN n st = .ok (x, st') ↔
      0 ≤ n ∧ n ≤ maxAlloc ∧ st.rest = x ++ st'.rest ∧ (x.length : Int) = n ∧ st'.off = st.off := by
  unfold readN
  split
  · rename_i h
    simp only [reduceCtorEq, false_iff]
    rintro ⟨h1, h2, _⟩; omega
  · rename_i h
    split
    · rename_i hl
      simp only [reduceCtorEq, false_iff]
      rintro ⟨_, _, h3, h4, _⟩
      rw [h3] at hl; simp at hl; omega
    · rename_i hl
      simp only [Res.ok.injEq, Prod.mk.injEq]
      constructor
      · rintro ⟨rfl, rfl⟩
        refine ⟨by omega, by omega, by simp, by simp; omega, rfl⟩
      · rintro ⟨_, _, h3, h4, h5⟩
        have : n.toNat = x.length := by omega
        rw [h3, this]
        cases st; cases st'; simp_all

theorem readN_run (x y : Bytes) (off : Nat) (h : (x.length : Int) ≤ maxAlloc) :
    readN x.length ⟨x ++ y, off⟩ = .ok (x, ⟨y, off⟩) := by
  rw [readN_ok]; exact ⟨by omega, h, rfl, rfl, rfl⟩

theorem Loc.readN (n : Int) : Loc false (readN n) := by
  intro st b st' e
  rw [readN_ok] at e
  obtain ⟨h1, h2, h3, h4, h5⟩ := e
  refine ⟨b, 0, h3, h5, by simp, ?_⟩
  intro ext off
  rw [readN_ok]
  exact ⟨h1, h2, rfl, h4, rfl⟩

theorem Loc.ite {α : Type} {ne : Bool} {c : Prop} [Decidable c] {p q : P α} (hp : Loc ne p) (hq : Loc ne q) :
    Loc ne (if c then p else q) := by split <;> assumption

theorem Loc.consumeString : Loc true consumeString := by
  unfold Bencode.consumeString
  refine Loc.bind_left (Loc.readUntil _) fun s => ?_
  split
  · exact Loc.fail _ _
  · exact (Loc.adv _).bind fun _ => (Loc.readN _).bind fun _ => (Loc.adv _).bind fun _ => Loc.pure _

theorem Loc.getString : Loc true getString := by
  unfold Bencode.getString
  refine Loc.bind_left (Loc.readUntil _) fun s => ?_
  split
  · exact Loc.fail _ _
  · exact (Loc.adv _).bind fun _ => (Loc.readN _).bind fun _ => (Loc.adv _).bind fun _ => Loc.pure _

theorem Loc.consumeInt : Loc true consumeInt := by
  unfold Bencode.consumeInt
  refine Loc.bind_left Loc.readByte fun b => Loc.ite (Loc.fail _ _) ?_
  refine (Loc.adv _).bind fun _ => (Loc.readUntil _).weaken.bind fun s => Loc.ite (Loc.fail _ _) ?_
  split
  · exact Loc.fail _ _
  · exact (Loc.adv _).bind fun _ => Loc.pure _

theorem Loc.getInt : Loc true getInt := by
  unfold Bencode.getInt
  refine Loc.bind_left Loc.readByte fun b => Loc.ite (Loc.fail _ _) ?_
  refine (Loc.adv _).bind fun _ => (Loc.readUntil _).weaken.bind fun s => Loc.ite (Loc.fail _ _) ?_
  split
  · exact Loc.fail _ _
  · exact (Loc.adv _).bind fun _ => Loc.pure _

theorem Loc.getUint : Loc true getUint := by
  unfold Bencode.getUint
  refine Loc.bind_left Loc.readByte fun b => Loc.ite (Loc.fail _ _) ?_
  refine (Loc.adv _).bind fun _ => (Loc.readUntil _).weaken.bind fun s => Loc.ite (Loc.fail _ _) ?_
  split
  · exact Loc.fail _ _
  · exact (Loc.adv _).bind fun _ => Loc.pure _

theorem Loc.consumeListLoop {rec : P Bytes} (h : Loc true rec) (k : Nat) : Loc true (consumeListLoop rec k) := by
  induction k with
  | zero => exact Loc.fail _ _
  | succ k ih =>
    refine Loc.peek fun c => Loc.ite ?_ ?_
    · exact Loc.bind_left Loc.readByte fun _ => Loc.pure _
    · exact h.bind fun _ => ih.bind fun _ => Loc.pure _

theorem Loc.consumeDictLoop {rec : P Bytes} (h : Loc true rec) (k : Nat) (last : Bytes) :
    Loc true (consumeDictLoop rec k last) := by
  induction k generalizing last with
  | zero => exact Loc.fail _ _
  | succ k ih =>
    refine Loc.peek fun c => Loc.ite ?_ ?_
    · exact Loc.bind_left Loc.readByte fun _ => Loc.pure _
    · refine Loc.consumeString.bind fun x => Loc.ite (Loc.fail true _) ?_
      exact h.bind fun _ => (ih _).bind fun _ => Loc.pure _

theorem Loc.consume (n : Nat) : Loc true (consume n) := by
  induction n with
  | zero => exact Loc.fail _ _
  | succ n ih =>
    refine Loc.peek fun b => Loc.ite Loc.consumeInt (Loc.ite ?_ (Loc.ite ?_ (Loc.ite ?_ (Loc.fail _ _))))
    · refine Loc.readByte.bind_left fun b => Loc.ite (Loc.fail _ _) ?_
      exact (Loc.adv _).bind fun _ => (Loc.consumeListLoop ih n).weaken.bind fun _ => (Loc.adv _).bind fun _ => Loc.pure _
    · refine Loc.readByte.bind_left fun b => Loc.ite (Loc.fail _ _) ?_
      exact (Loc.adv _).bind fun _ => (Loc.consumeDictLoop ih n []).weaken.bind fun _ =>
        (Loc.adv _).bind fun _ => Loc.pure _
    · exact Loc.consumeString.bind_left fun _ => Loc.pure _

theorem Loc.setVal (fl : Flags) (x : Val) : Loc false (setVal fl x) := Loc.ite (Loc.pure _) (Loc.panic _)

section
variable {rec : Dec} (hrec : ∀ fl t v, Loc true (rec fl t v)) {skip : P Bytes} (hskip : Loc true skip)
include hrec hskip

omit hskip in
theorem Loc.decodeSliceLoop (fl : Flags) (t : Ty) (k : Nat) (pre old : List Val) :
    Loc true (decodeSliceLoop rec fl t k pre old) := by
  induction k generalizing pre old with
  | zero => exact Loc.fail _ _
  | succ k ih =>
    refine Loc.peek fun c => Loc.ite ?_ ?_
    · exact Loc.bind_left Loc.readByte fun _ => Loc.pure _
    · cases old with
      | nil => exact Loc.ite ((hrec _ _ _).bind fun _ => ih _ _) (Loc.panic _)
      | cons v old => exact (hrec _ _ _).bind fun _ => ih _ _

theorem Loc.decodeArrayLoop (fl : Flags) (t : Ty) (k : Nat) (pre old : List Val) :
    Loc true (decodeArrayLoop rec skip fl t k pre old) := by
  induction k generalizing pre old with
  | zero => exact Loc.fail _ _
  | succ k ih =>
    refine Loc.peek fun c => Loc.ite ?_ ?_
    · exact Loc.bind_left Loc.readByte fun _ => Loc.pure _
    · cases old with
      | nil => exact hskip.bind fun _ => ih _ _
      | cons v old => exact (hrec _ _ _).bind fun _ => ih _ _

omit hskip in
theorem Loc.decodeMapLoop (t : Ty) (k : Nat) (last : Bytes) (m : List (Bytes × Val)) :
    Loc true (decodeMapLoop rec t k last m) := by
  induction k generalizing last m with
  | zero => exact Loc.fail _ _
  | succ k ih =>
    refine Loc.peek fun c => Loc.ite ?_ ?_
    · exact Loc.bind_left Loc.readByte fun _ => Loc.pure _
    · exact Loc.getString.bind fun x => Loc.ite (Loc.fail true _) ((hrec _ _ _).bind fun _ => ih _ _)

omit hskip in
theorem Loc.atField (path : List Nat) (fl : Flags) (t : Ty) (v : Val) : Loc true (atField rec path fl t v) := by
  induction path generalizing fl t v with
  | nil => exact hrec _ _ _
  | cons i is ih =>
    unfold Bencode.atField
    split
    · split
      · dsimp only
        split
        · exact Loc.ite ((ih _ _ _).bind fun _ => Loc.pure _) (Loc.panic _)
        · exact (ih _ _ _).bind fun _ => Loc.pure _
        · exact (ih _ _ _).bind fun _ => Loc.pure _
      · exact Loc.panic _
    · exact Loc.panic _

theorem Loc.decodeStructLoop (fl : Flags) (t : Ty) (k : Nat) (last : Bytes) (v : Val) :
    Loc true (decodeStructLoop rec skip fl t k last v) := by
  induction k generalizing last v with
  | zero => exact Loc.fail _ _
  | succ k ih =>
    refine Loc.peek fun c => Loc.ite ?_ ?_
    · exact Loc.bind_left Loc.readByte fun _ => Loc.pure _
    · refine Loc.getString.bind fun x => Loc.ite (Loc.fail true _) ?_
      split
      · exact hskip.bind fun _ => ih _ _
      · exact (Loc.atField hrec _ _ _ _).bind fun _ => ih _ _

theorem Loc.decodeFlat (n : Nat) (fl : Flags) (t : Ty) (v : Val) : Loc true (decodeFlat rec skip n fl t v) := by
  unfold Bencode.decodeFlat
  split
  · exact Loc.getString.bind_left fun _ => Loc.setVal _ _
  · exact Loc.getString.bind_left fun _ => Loc.setVal _ _
  · exact Loc.getInt.bind_left fun _ => Loc.setVal _ _
  · exact Loc.getUint.bind_left fun _ => Loc.setVal _ _
  · refine Loc.readByte.bind_left fun b => Loc.ite (Loc.fail _ _) ((Loc.adv _).bind fun _ => ?_)
    split
    · exact (Loc.decodeSliceLoop hrec _ _ _ _ _).weaken.bind fun _ => (Loc.adv _).bind fun _ => Loc.pure _
    · exact Loc.ite ((Loc.decodeSliceLoop hrec _ _ _ _ _).weaken.bind fun _ =>
        (Loc.adv _).bind fun _ => Loc.pure _) (Loc.panic _)
  · refine Loc.readByte.bind_left fun b => Loc.ite (Loc.fail _ _) ((Loc.adv _).bind fun _ => ?_)
    split
    · exact (Loc.decodeArrayLoop hrec hskip _ _ _ _ _).weaken.bind fun _ => (Loc.adv _).bind fun _ => Loc.pure _
    · exact Loc.panic _
  · refine Loc.readByte.bind_left fun b => Loc.ite (Loc.fail _ _) ((Loc.adv _).bind fun _ => ?_)
    split
    · exact (Loc.decodeMapLoop hrec _ _ _ _).weaken.bind fun _ => (Loc.adv _).bind fun _ => Loc.pure _
    · exact Loc.ite ((Loc.decodeMapLoop hrec _ _ _ _).weaken.bind fun _ =>
        (Loc.adv _).bind fun _ => Loc.pure _) (Loc.panic _)
  · exact Loc.readByte.bind_left fun b => Loc.ite (Loc.fail _ _) (Loc.fail _ _)
  · refine Loc.readByte.bind_left fun b => Loc.ite (Loc.fail _ _) ((Loc.adv _).bind fun _ => ?_)
    exact (Loc.decodeStructLoop hrec hskip _ _ _ _ _).weaken.bind fun _ => (Loc.adv _).bind fun _ => Loc.pure _
  · exact Loc.panic _
  · exact Loc.panic _
  · exact Loc.panic _
  · exact Loc.panic _
  · exact Loc.fail _ _

theorem Loc.decodeNilAny (n : Nat) (fl : Flags) :
    Loc true (decodeNilAny (fun t => Bencode.decodeFlat rec skip n { addr := true } t (zero t)) fl) := by
  refine Loc.peek fun c => Loc.ite ?_ (Loc.ite ?_ (Loc.ite ?_ (Loc.ite ?_ (Loc.fail _ _))))
  all_goals exact (Loc.decodeFlat hrec hskip _ _ _ _).bind fun _ => Loc.setVal _ _

omit hrec in
theorem Loc.decodeUnmarshaler (ro : Bool) (um : Bytes → Val → Res Val) (v : Option Val) :
    Loc true (decodeUnmarshaler skip ro um v) := by
  unfold Bencode.decodeUnmarshaler
  refine Loc.ite (Loc.panic _) (hskip.bind_left fun raw => ?_)
  cases v with
  | none => exact Loc.panic _
  | some v => exact Loc.lift _
end

theorem ptrMethod_elim {env : Env} {R : (Bytes → Val → Res Val) → Prop}
    (h : ∀ id um, (env id).unmarshal = some um → R um) : ∀ et um, ptrMethod env et = some um → R um := by
  intro et um he
  cases et <;> simp [ptrMethod] at he
  exact h _ _ he

/-- Induction over the pointers and interfaces that `decodeVal` walks through. -/
theorem decodeVal_induct {Q : P Val → Prop} {env : Env} {rec : Dec} {skip : P Bytes} {n : Nat}
    (hflat : ∀ fl t v, Q (decodeFlat rec skip n fl t v)) (hum : ∀ id um, (env id).unmarshal = some um → ∀ ro v, Q (decodeUnmarshaler skip ro um v))
    (hmap : ∀ (p : P Val) (g : Val → Val), Q p → Q (p >>= fun x => pure (g x))) (hpanic : Q P.panic)
    (hfail : Q (P.fail .unsupportedType))
    (hnil : ∀ fl, Q (decodeNilAny (fun t => decodeFlat rec skip n { addr := true } t (zero t)) fl)) :
    ∀ (v : Val) (fl : Flags) (t : Ty), Q (decodeVal env rec skip n v fl t)
  | .ptr ev, fl, t => by
    have hump : ∀ et um, ptrMethod env et = some um → ∀ ro v, Q (decodeUnmarshaler skip ro um v) := ptrMethod_elim hum
    have ih := decodeVal_induct (env := env) hflat hum hmap hpanic hfail hnil ev
    cases t <;> unfold decodeVal
    all_goals repeat' split
    all_goals first
      | exact hflat _ _ _ | exact hum _ _ (by assumption) _ _ | exact hump _ _ (by assumption) _ _ | exact hmap _ _ (hum _ _ (by assumption) _ _) | exact hmap _ _ (hump _ _ (by assumption) _ _) | exact hmap _ _ (ih _ _)
  | .iface dt dv, fl, t => by
    have hump : ∀ et um, ptrMethod env et = some um → ∀ ro v, Q (decodeUnmarshaler skip ro um v) := ptrMethod_elim hum
    have ih := decodeVal_induct (env := env) hflat hum hmap hpanic hfail hnil dv
    cases t <;> unfold decodeVal
    all_goals repeat' split
    all_goals first
      | exact hflat _ _ _ | exact hum _ _ (by assumption) _ _ | exact hump _ _ (by assumption) _ _ | exact hmap _ _ (hum _ _ (by assumption) _ _) | exact hmap _ _ (hump _ _ (by assumption) _ _) | exact hmap _ _ (ih _ _) | exact hpanic
  | .nilIface, fl, t => by
    have hump : ∀ et um, ptrMethod env et = some um → ∀ ro v, Q (decodeUnmarshaler skip ro um v) := ptrMethod_elim hum
    cases t <;> unfold decodeVal
    all_goals repeat' split
    all_goals first
      | exact hflat _ _ _ | exact hum _ _ (by assumption) _ _ | exact hump _ _ (by assumption) _ _ | exact hpanic | exact hfail | exact hnil _
  | .nilPtr, fl, t => by
    have hump : ∀ et um, ptrMethod env et = some um → ∀ ro v, Q (decodeUnmarshaler skip ro um v) := ptrMethod_elim hum
    cases t <;> unfold decodeVal <;> (repeat' split) <;> first | exact hflat _ _ _ | exact hum _ _ (by assumption) _ _ | exact hump _ _ (by assumption) _ _ | exact hpanic
  | .str _, fl, t => by
    have hump : ∀ et um, ptrMethod env et = some um → ∀ ro v, Q (decodeUnmarshaler skip ro um v) := ptrMethod_elim hum
    cases t <;> unfold decodeVal <;> (repeat' split) <;> first | exact hflat _ _ _ | exact hum _ _ (by assumption) _ _ | exact hump _ _ (by assumption) _ _ | exact hpanic
  | .int _, fl, t => by
    have hump : ∀ et um, ptrMethod env et = some um → ∀ ro v, Q (decodeUnmarshaler skip ro um v) := ptrMethod_elim hum
    cases t <;> unfold decodeVal <;> (repeat' split) <;> first | exact hflat _ _ _ | exact hum _ _ (by assumption) _ _ | exact hump _ _ (by assumption) _ _ | exact hpanic
  | .uint _, fl, t => by
    have hump : ∀ et um, ptrMethod env et = some um → ∀ ro v, Q (decodeUnmarshaler skip ro um v) := ptrMethod_elim hum
    cases t <;> unfold decodeVal <;> (repeat' split) <;> first | exact hflat _ _ _ | exact hum _ _ (by assumption) _ _ | exact hump _ _ (by assumption) _ _ | exact hpanic
  | .nilBytes, fl, t => by
    have hump : ∀ et um, ptrMethod env et = some um → ∀ ro v, Q (decodeUnmarshaler skip ro um v) := ptrMethod_elim hum
    cases t <;> unfold decodeVal <;> (repeat' split) <;> first | exact hflat _ _ _ | exact hum _ _ (by assumption) _ _ | exact hump _ _ (by assumption) _ _ | exact hpanic
  | .bytes _, fl, t => by
    have hump : ∀ et um, ptrMethod env et = some um → ∀ ro v, Q (decodeUnmarshaler skip ro um v) := ptrMethod_elim hum
    cases t <;> unfold decodeVal <;> (repeat' split) <;> first | exact hflat _ _ _ | exact hum _ _ (by assumption) _ _ | exact hump _ _ (by assumption) _ _ | exact hpanic
  | .nilSlice, fl, t => by
    have hump : ∀ et um, ptrMethod env et = some um → ∀ ro v, Q (decodeUnmarshaler skip ro um v) := ptrMethod_elim hum
    cases t <;> unfold decodeVal <;> (repeat' split) <;> first | exact hflat _ _ _ | exact hum _ _ (by assumption) _ _ | exact hump _ _ (by assumption) _ _ | exact hpanic
  | .slice _, fl, t => by
    have hump : ∀ et um, ptrMethod env et = some um → ∀ ro v, Q (decodeUnmarshaler skip ro um v) := ptrMethod_elim hum
    cases t <;> unfold decodeVal <;> (repeat' split) <;> first | exact hflat _ _ _ | exact hum _ _ (by assumption) _ _ | exact hump _ _ (by assumption) _ _ | exact hpanic
  | .array _, fl, t => by
    have hump : ∀ et um, ptrMethod env et = some um → ∀ ro v, Q (decodeUnmarshaler skip ro um v) := ptrMethod_elim hum
    cases t <;> unfold decodeVal <;> (repeat' split) <;> first | exact hflat _ _ _ | exact hum _ _ (by assumption) _ _ | exact hump _ _ (by assumption) _ _ | exact hpanic
  | .nilMap, fl, t => by
    have hump : ∀ et um, ptrMethod env et = some um → ∀ ro v, Q (decodeUnmarshaler skip ro um v) := ptrMethod_elim hum
    cases t <;> unfold decodeVal <;> (repeat' split) <;> first | exact hflat _ _ _ | exact hum _ _ (by assumption) _ _ | exact hump _ _ (by assumption) _ _ | exact hpanic
  | .map _, fl, t => by
    have hump : ∀ et um, ptrMethod env et = some um → ∀ ro v, Q (decodeUnmarshaler skip ro um v) := ptrMethod_elim hum
    cases t <;> unfold decodeVal <;> (repeat' split) <;> first | exact hflat _ _ _ | exact hum _ _ (by assumption) _ _ | exact hump _ _ (by assumption) _ _ | exact hpanic
  | .struct _, fl, t => by
    have hump : ∀ et um, ptrMethod env et = some um → ∀ ro v, Q (decodeUnmarshaler skip ro um v) := ptrMethod_elim hum
    cases t <;> unfold decodeVal <;> (repeat' split) <;> first | exact hflat _ _ _ | exact hum _ _ (by assumption) _ _ | exact hump _ _ (by assumption) _ _ | exact hpanic
  | .unsupported, fl, t => by
    have hump : ∀ et um, ptrMethod env et = some um → ∀ ro v, Q (decodeUnmarshaler skip ro um v) := ptrMethod_elim hum
    cases t <;> unfold decodeVal <;> (repeat' split) <;> first | exact hflat _ _ _ | exact hum _ _ (by assumption) _ _ | exact hump _ _ (by assumption) _ _ | exact hpanic

theorem Loc.decode (env : Env) (n : Nat) (fl : Flags) (t : Ty) (v : Val) : Loc true (decode env n fl t v) := by
  induction n generalizing fl t v with
  | zero => exact Loc.fail _ _
  | succ n ih =>
    unfold Bencode.decode
    exact decodeVal_induct (Q := Loc true) (fun _ _ _ => Loc.decodeFlat ih (Loc.consume n) _ _ _ _)
      (fun _ _ _ _ _ => Loc.decodeUnmarshaler (Loc.consume n) _ _ _) (fun _ _ h => h.bind_left fun _ => Loc.pure _)
      (Loc.panic _) (Loc.fail _ _) (fun _ => Loc.decodeNilAny ih (Loc.consume n) _ _) _ _ _

theorem decode_any_eq (env : Env) (n : Nat) (fl : Flags) :
    decode env (n + 1) fl .any .nilIface =
      decodeNilAny (fun t => decodeFlat (decode env n) (consume n) n { addr := true } t (zero t)) fl := rfl

end Drip.Bencode
