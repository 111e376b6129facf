import Verif.Lemmas.Bencode.FuelMono
/-
The recursion bound of the model is never reached.
-/

namespace Drip.Bencode

/-- `p` does not run out of fuel on inputs of length at most `len`. -/
def NF {α : Type} (len : Nat) (p : P α) : Prop := ∀ st : St, st.rest.length ≤ len → p st ≠ .err .fuel

/-- `p` never runs out of fuel. -/
def NF' {α : Type} (p : P α) : Prop := ∀ st : St, p st ≠ .err .fuel

theorem NF'.nf {α : Type} {p : P α} (h : NF' p) (len : Nat) : NF len p := fun st _ => h st

theorem Loc.length {α : Type} {p : P α} (h : Loc true p) {st : St} {a : α} {st' : St} (e : p st = .ok (a, st')) :
    st'.rest.length < st.rest.length := by
  obtain ⟨c, d, h1, _, h3, _⟩ := h st a st' e
  have := List.length_pos_iff.mpr (h3 rfl)
  rw [h1]; simp; omega

theorem Loc.length' {α : Type} {ne : Bool} {p : P α} (h : Loc ne p) {st : St} {a : α} {st' : St} (e : p st = .ok (a, st')) :
    st'.rest.length ≤ st.rest.length := by
  obtain ⟨c, d, h1, _, h3, _⟩ := h st a st' e
  rw [h1]; simp

/-- What follows a step that consumes something may rely on a shorter input. -/
theorem NF.bind {α β : Type} {len : Nat} {p : P α} {f : α → P β} (hp : NF (len + 1) p) (hl : Loc true p)
    (hf : ∀ a, NF len (f a)) : NF (len + 1) (p >>= f) := by
  intro st hs h
  rw [bind_run] at h
  cases hx : p st with
  | err e => rw [hx] at h; simp at h; subst h; exact hp st hs hx
  | panic => rw [hx] at h; simp at h
  | ok x =>
    rw [hx] at h
    simp only [Res.bind_ok] at h
    have := hl.length (a := x.1) (st' := x.2) hx
    exact hf x.1 x.2 (by omega) h

theorem NF.bind' {α β : Type} {len : Nat} {ne : Bool} {p : P α} {f : α → P β} (hp : NF len p) (hl : Loc ne p)
    (hf : ∀ a, NF len (f a)) : NF len (p >>= f) := by
  intro st hs h
  rw [bind_run] at h
  cases hx : p st with
  | err e => rw [hx] at h; simp at h; subst h; exact hp st hs hx
  | panic => rw [hx] at h; simp at h
  | ok x =>
    rw [hx] at h
    simp only [Res.bind_ok] at h
    have := hl.length' (a := x.1) (st' := x.2) hx
    exact hf x.1 x.2 (by omega) h

theorem NF.then {α β : Type} {len : Nat} {p : P α} {f : α → P β} (hp : NF len p) (hf : ∀ a, NF' (f a)) :
    NF len (p >>= f) := by
  intro st hs h
  rw [bind_run] at h
  cases hx : p st with
  | err e => rw [hx] at h; simp at h; subst h; exact hp st hs hx
  | panic => rw [hx] at h; simp at h
  | ok x => rw [hx] at h; exact hf x.1 x.2 h

theorem NF'.bind {α β : Type} {p : P α} {f : α → P β} (hp : NF' p) (hf : ∀ a, NF' (f a)) : NF' (p >>= f) := by
  intro st h
  rw [bind_run] at h
  cases hx : p st with
  | err e => rw [hx] at h; simp at h; subst h; exact hp st hx
  | panic => rw [hx] at h; simp at h
  | ok x => rw [hx] at h; exact hf x.1 x.2 h

theorem NF.ite {α : Type} {len : Nat} {c : Prop} [Decidable c] {p q : P α} (hp : NF len p) (hq : NF len q) :
    NF len (if c then p else q) := by split <;> assumption

theorem NF'.ite {α : Type} {c : Prop} [Decidable c] {p q : P α} (hp : NF' p) (hq : NF' q) :
    NF' (if c then p else q) := by split <;> assumption

theorem NF.mono {α : Type} {l l' : Nat} {p : P α} (h : NF l' p) (hl : l ≤ l') : NF l p :=
  fun st hs => h st (by omega)

theorem NF'.pure {α : Type} (a : α) : NF' (Pure.pure a : P α) := by intro st h; simp at h
theorem NF'.panic {α : Type} : NF' (P.panic : P α) := by intro st h; simp at h
theorem NF'.fail {α : Type} {e : Err} (he : e ≠ .fuel) : NF' (P.fail e : P α) := by
  intro st h; simp at h; exact he h
theorem NF'.adv (n : Nat) : NF' (adv n) := by intro st h; simp at h
theorem NF'.readByte : NF' readByte := by
  intro st h; unfold Bencode.readByte at h; split at h <;> simp at h
theorem NF'.peekByte : NF' peekByte := by
  intro st h; unfold Bencode.peekByte at h; split at h <;> simp at h
theorem NF'.readUntil (c : UInt8) : NF' (readUntil c) := by
  intro st h; unfold Bencode.readUntil at h; split at h <;> simp at h
theorem NF'.readN (n : Int) : NF' (readN n) := by
  intro st h
  unfold Bencode.readN at h
  split at h
  · simp at h
  · split at h <;> simp at h

theorem NF'.setVal (fl : Flags) (x : Val) : NF' (setVal fl x) := by
  unfold Bencode.setVal; exact NF'.ite (NF'.pure _) NF'.panic

theorem NF'.consumeString : NF' consumeString := by
  unfold Bencode.consumeString
  refine (NF'.readUntil _).bind fun s => ?_
  split
  · exact NF'.fail (by decide)
  · exact (NF'.adv _).bind fun _ => (NF'.readN _).bind fun _ => (NF'.adv _).bind fun _ => NF'.pure _

theorem NF'.getString : NF' getString := by
  unfold Bencode.getString
  refine (NF'.readUntil _).bind fun s => ?_
  split
  · exact NF'.fail (by decide)
  · exact (NF'.adv _).bind fun _ => (NF'.readN _).bind fun _ => (NF'.adv _).bind fun _ => NF'.pure _

theorem NF'.consumeInt : NF' consumeInt := by
  unfold Bencode.consumeInt
  refine NF'.readByte.bind fun b => NF'.ite (NF'.fail (by decide)) ((NF'.adv _).bind fun _ =>
    (NF'.readUntil _).bind fun s => NF'.ite (NF'.fail (by decide)) ?_)
  split
  · exact NF'.fail (by decide)
  · exact (NF'.adv _).bind fun _ => NF'.pure _

theorem NF'.getInt : NF' getInt := by
  unfold Bencode.getInt
  refine NF'.readByte.bind fun b => NF'.ite (NF'.fail (by decide)) ((NF'.adv _).bind fun _ =>
    (NF'.readUntil _).bind fun s => NF'.ite (NF'.fail (by decide)) ?_)
  split
  · exact NF'.fail (by decide)
  · exact (NF'.adv _).bind fun _ => NF'.pure _

theorem NF'.getUint : NF' getUint := by
  unfold Bencode.getUint
  refine NF'.readByte.bind fun b => NF'.ite (NF'.fail (by decide)) ((NF'.adv _).bind fun _ =>
    (NF'.readUntil _).bind fun s => NF'.ite (NF'.fail (by decide)) ?_)
  split
  · exact NF'.fail (by decide)
  · exact (NF'.adv _).bind fun _ => NF'.pure _

/-- A loop step: end of input, the closing `e`, or one more element. -/
theorem NF.peek {β : Type} {len : Nat} {e : β} {q : P β} (h : NF len q) :
    NF len (Bencode.peekByte >>= fun c => if c = 101 then (Bencode.readByte >>= fun _ => Pure.pure e) else q) := by
  intro st hs hx
  rw [bind_run] at hx
  cases hp : Bencode.peekByte st with
  | err e => rw [hp] at hx; simp at hx; subst hx; exact NF'.peekByte st hp
  | panic => rw [hp] at hx; simp at hx
  | ok y =>
    rw [hp] at hx
    simp only [Res.bind_ok] at hx
    have : y.2 = st := by
      unfold Bencode.peekByte at hp
      split at hp
      · simp at hp
      · simp at hp; rw [← hp]
    rw [this] at hx
    split at hx
    · exact (NF'.readByte.bind fun _ => NF'.pure e) st hx
    · exact h st hs hx

/-- On an empty input every loop step stops at once. -/
theorem NF.peek_zero {β : Type} (f : UInt8 → P β) : NF 0 (Bencode.peekByte >>= f) := by
  intro st hs h
  have : st.rest = [] := List.eq_nil_of_length_eq_zero (by omega)
  rw [bind_run] at h
  simp [Bencode.peekByte, this] at h

theorem NF.consumeListLoop {rec : P Bytes} {len : Nat} (hl : Loc true rec) (hrec : NF len rec) {k : Nat} (hk : len < k) :
    NF len (consumeListLoop rec k) := by
  induction k generalizing len with
  | zero => omega
  | succ k ih =>
    unfold Bencode.consumeListLoop
    cases len with
    | zero => exact NF.peek_zero _
    | succ len =>
      refine NF.peek (NF.bind hrec hl fun r => ?_)
      exact (ih (hrec.mono (by omega)) (by omega)).then fun _ => NF'.pure _

theorem NF.consumeDictLoop {rec : P Bytes} {len : Nat} (hl : Loc true rec) (hrec : NF len rec) {k : Nat} (hk : len < k)
    (last : Bytes) : NF len (consumeDictLoop rec k last) := by
  induction k generalizing len last with
  | zero => omega
  | succ k ih =>
    unfold Bencode.consumeDictLoop
    cases len with
    | zero => exact NF.peek_zero _
    | succ len =>
      refine NF.peek (NF.bind (NF'.consumeString.nf _) Loc.consumeString fun x => NF.ite ((NF'.fail (by decide)).nf _) ?_)
      refine NF.bind' (hrec.mono (by omega)) hl fun r => ?_
      exact (ih (hrec.mono (by omega)) (by omega) _).then fun _ => NF'.pure _

theorem NF.consume {n len : Nat} (h : len < n) : NF len (consume n) := by
  induction n generalizing len with
  | zero => omega
  | succ n ih =>
    unfold Bencode.consume consumeList consumeDict
    cases len with
    | zero => exact NF.peek_zero _
    | succ len =>
      intro st hs hx
      rw [bind_run] at hx
      cases hp : Bencode.peekByte st with
      | err e => rw [hp] at hx; simp at hx; subst hx; exact NF'.peekByte st hp
      | panic => rw [hp] at hx; simp at hx
      | ok y =>
        rw [hp] at hx
        simp only [Res.bind_ok] at hx
        have : y.2 = st := by
          unfold Bencode.peekByte at hp
          split at hp
          · simp at hp
          · simp at hp; rw [← hp]
        rw [this] at hx
        revert hx
        have hi : NF len (Bencode.consume n) := ih (by omega)
        refine (NF.ite (NF'.consumeInt.nf (len + 1)) (NF.ite ?_ (NF.ite ?_ ?_))) st hs
        · refine NF.bind (NF'.readByte.nf _) Loc.readByte fun b => NF.ite ((NF'.fail (by decide)).nf _) ?_
          refine NF.bind' ((NF'.adv _).nf _) (Loc.adv _) fun _ => ?_
          exact (NF.consumeListLoop (Loc.consume n) hi (by omega)).then fun _ => (NF'.adv _).bind fun _ => NF'.pure _
        · refine NF.bind (NF'.readByte.nf _) Loc.readByte fun b => NF.ite ((NF'.fail (by decide)).nf _) ?_
          refine NF.bind' ((NF'.adv _).nf _) (Loc.adv _) fun _ => ?_
          exact (NF.consumeDictLoop (Loc.consume n) hi (by omega) _).then fun _ => (NF'.adv _).bind fun _ => NF'.pure _
        · exact NF.ite ((NF'.consumeString.bind fun _ => NF'.pure _).nf _) ((NF'.fail (by decide)).nf _)

section
variable {rec : Dec} {skip : P Bytes} {len : Nat} (hl : ∀ fl t v, Loc true (rec fl t v)) (hrec : ∀ fl t v, NF len (rec fl t v))
  (hls : Loc true skip) (hskip : NF len skip)
include hl hrec

theorem NF.decodeSliceLoop (fl : Flags) (t : Ty) {k : Nat} (hk : len < k) (pre old : List Val) :
    NF len (decodeSliceLoop rec fl t k pre old) := by
  induction k generalizing len pre old with
  | zero => omega
  | succ k ih =>
    unfold Bencode.decodeSliceLoop
    cases len with
    | zero => exact NF.peek_zero _
    | succ len =>
      refine NF.peek ?_
      have hn : ∀ pre old, NF len (Bencode.decodeSliceLoop rec fl t k pre old) :=
        ih (fun fl t v => (hrec fl t v).mono (by omega)) (by omega)
      cases old with
      | nil => exact NF.ite (NF.bind (hrec _ _ _) (hl _ _ _) fun _ => hn _ _) (NF'.panic.nf _)
      | cons v old => exact NF.bind (hrec _ _ _) (hl _ _ _) fun _ => hn _ _

include hls hskip in
theorem NF.decodeArrayLoop (fl : Flags) (t : Ty) {k : Nat} (hk : len < k) (pre old : List Val) :
    NF len (decodeArrayLoop rec skip fl t k pre old) := by
  induction k generalizing len pre old with
  | zero => omega
  | succ k ih =>
    unfold Bencode.decodeArrayLoop
    cases len with
    | zero => exact NF.peek_zero _
    | succ len =>
      refine NF.peek ?_
      have hn : ∀ pre old, NF len (Bencode.decodeArrayLoop rec skip fl t k pre old) :=
        ih (fun fl t v => (hrec fl t v).mono (by omega)) (hskip.mono (by omega)) (by omega)
      cases old with
      | nil => exact NF.bind hskip hls fun _ => hn _ _
      | cons v old => exact NF.bind (hrec _ _ _) (hl _ _ _) fun _ => hn _ _

theorem NF.decodeMapLoop (t : Ty) {k : Nat} (hk : len < k) (last : Bytes) (m : List (Bytes × Val)) :
    NF len (decodeMapLoop rec t k last m) := by
  induction k generalizing len last m with
  | zero => omega
  | succ k ih =>
    unfold Bencode.decodeMapLoop
    cases len with
    | zero => exact NF.peek_zero _
    | succ len =>
      refine NF.peek (NF.bind (NF'.getString.nf _) Loc.getString fun key => NF.ite ((NF'.fail (by decide)).nf _) ?_)
      refine NF.bind' ((hrec _ _ _).mono (by omega)) (hl _ _ _) fun _ => ?_
      exact ih (fun fl t v => (hrec fl t v).mono (by omega)) (by omega) _ _

omit hl in
theorem NF.atField (is : List Nat) (fl : Flags) (t : Ty) (v : Val) : NF len (atField rec is fl t v) := by
  induction is generalizing fl t v with
  | nil => exact hrec _ _ _
  | cons i is ih =>
    unfold Bencode.atField
    dsimp only
    repeat' split
    all_goals first
      | exact NF'.panic.nf _
      | exact (ih _ _ _).then fun _ => NF'.pure _

include hls hskip in
theorem NF.decodeStructLoop (fl : Flags) (t : Ty) {k : Nat} (hk : len < k) (last : Bytes) (v : Val) :
    NF len (decodeStructLoop rec skip fl t k last v) := by
  induction k generalizing len last v with
  | zero => omega
  | succ k ih =>
    unfold Bencode.decodeStructLoop
    cases len with
    | zero => exact NF.peek_zero _
    | succ len =>
      refine NF.peek (NF.bind (NF'.getString.nf _) Loc.getString fun key => NF.ite ((NF'.fail (by decide)).nf _) ?_)
      have hn : ∀ last v, NF len (Bencode.decodeStructLoop rec skip fl t k last v) :=
        ih (fun fl t v => (hrec fl t v).mono (by omega)) (hskip.mono (by omega)) (by omega)
      split
      · exact NF.bind' (hskip.mono (by omega)) hls fun _ => hn _ _
      · exact NF.bind' (NF.atField (fun fl t v => (hrec fl t v).mono (by omega)) _ _ _ _) (Loc.atField hl _ _ _ _)
          fun _ => hn _ _

omit hl hrec in
/-- The frame of a container: the loop works on a shorter input. -/
theorem NF.frame {β : Type} {len : Nat} {c : UInt8} {q : P β} (hq : NF len q) :
    NF (len + 1) (Bencode.readByte >>= fun b => if b ≠ c then P.fail .syntax else (Bencode.adv 1 >>= fun _ => q)) :=
  NF.bind (NF'.readByte.nf _) Loc.readByte fun _ => NF.ite ((NF'.fail (by decide)).nf _)
    (NF.bind' ((NF'.adv _).nf _) (Loc.adv _) fun _ => hq)

omit hl hrec in
theorem NF.frame_zero {β : Type} {c : UInt8} {q : P β} :
    NF 0 (Bencode.readByte >>= fun b => if b ≠ c then P.fail .syntax else (Bencode.adv 1 >>= fun _ => q)) := by
  intro st hs h
  have : st.rest = [] := List.eq_nil_of_length_eq_zero (by omega)
  rw [bind_run] at h
  simp [Bencode.readByte, this] at h

omit hrec in
include hls in
/-- One target: the recursive calls are made on a shorter input. -/
theorem NF.decodeFlat (hrec : ∀ l, len = l + 1 → ∀ fl t v, NF l (rec fl t v)) (hskip : ∀ l, len = l + 1 → NF l skip) {n : Nat} (hn : len ≤ n)
    (fl : Flags) (t : Ty) (v : Val) : NF len (decodeFlat rec skip n fl t v) := by
  have done : ∀ {α β : Type} {l : Nat} {p : P α} {g : α → β}, NF l p →
      NF l (p >>= fun a => Bencode.adv 1 >>= fun _ => Pure.pure (g a)) :=
    fun h => h.then fun _ => (NF'.adv _).bind fun _ => NF'.pure _
  unfold Bencode.decodeFlat
  cases t with
  | str => exact (NF'.getString.bind fun _ => NF'.setVal _ _).nf _
  | bytes => exact (NF'.getString.bind fun _ => NF'.setVal _ _).nf _
  | int b => exact (NF'.getInt.bind fun _ => NF'.setVal _ _).nf _
  | uint b => exact (NF'.getUint.bind fun _ => NF'.setVal _ _).nf _
  | slice et =>
    cases len with
    | zero => exact NF.frame_zero
    | succ len =>
      refine NF.frame ?_
      split
      · exact done (NF.decodeSliceLoop hl (hrec _ rfl) _ _ (by omega) _ _)
      · exact NF.ite (done (NF.decodeSliceLoop hl (hrec _ rfl) _ _ (by omega) _ _)) (NF'.panic.nf _)
  | array k et =>
    cases len with
    | zero => exact NF.frame_zero
    | succ len =>
      refine NF.frame ?_
      split
      · exact done (NF.decodeArrayLoop hl (hrec _ rfl) hls (hskip _ rfl) _ _ (by omega) _ _)
      · exact NF'.panic.nf _
  | map et =>
    cases len with
    | zero => exact NF.frame_zero
    | succ len =>
      refine NF.frame ?_
      split
      · exact done (NF.decodeMapLoop hl (hrec _ rfl) _ (by omega) _ _)
      · exact NF.ite (done (NF.decodeMapLoop hl (hrec _ rfl) _ (by omega) _ _)) (NF'.panic.nf _)
  | badmap => exact (NF'.readByte.bind fun _ => NF'.ite (NF'.fail (by decide)) (NF'.fail (by decide))).nf _
  | struct sid fs =>
    cases len with
    | zero => exact NF.frame_zero
    | succ len => exact NF.frame (done (g := id) (NF.decodeStructLoop hl (hrec _ rfl) hls (hskip _ rfl) _ _ (by omega) _ _))
  | any => exact NF'.panic.nf _
  | iface => exact NF'.panic.nf _
  | ptr et => exact NF'.panic.nf _
  | custom id u => exact NF'.panic.nf _
  | unsupported => exact (NF'.fail (by decide)).nf _
end

/-- The methods of the custom types do not themselves report the model's internal "out of fuel" (no Go method can). -/
def Env.Sane (env : Env) : Prop := ∀ id um, (env id).unmarshal = some um → ∀ raw v, um raw v ≠ .err .fuel

theorem NF.decodeUnmarshaler {skip : P Bytes} {len : Nat} (hskip : NF len skip) (ro : Bool) {um : Bytes → Val → Res Val}
    (hum : ∀ raw v, um raw v ≠ .err .fuel) (v : Option Val) : NF len (decodeUnmarshaler skip ro um v) := by
  unfold Bencode.decodeUnmarshaler
  refine NF.ite (NF'.panic.nf _) (hskip.then fun raw => ?_)
  cases v with
  | none => exact NF'.panic
  | some v =>
    intro st h
    replace h : (um raw v >>= fun a => Res.ok (a, st)) = .err .fuel := h
    cases hx : um raw v with
    | ok a => rw [hx] at h; simp at h
    | panic => rw [hx] at h; simp at h
    | err e => rw [hx] at h; simp at h; subst h; exact hum _ _ hx

theorem NF.decodeNilAny {dec : Ty → P Val} {len : Nat} (h : ∀ t, NF len (dec t)) (fl : Flags) :
    NF len (decodeNilAny dec fl) := by
  intro st hs hx
  unfold Bencode.decodeNilAny at hx
  rw [bind_run] at hx
  cases hp : Bencode.peekByte st with
  | err e => rw [hp] at hx; simp at hx; subst hx; exact NF'.peekByte st hp
  | panic => rw [hp] at hx; simp at hx
  | ok y =>
    rw [hp] at hx
    simp only [Res.bind_ok] at hx
    have : y.2 = st := by
      unfold Bencode.peekByte at hp
      split at hp
      · simp at hp
      · simp at hp; rw [← hp]
    rw [this] at hx
    revert hx
    have g : ∀ t (k : Val → Val), NF len (dec t >>= fun x => Bencode.setVal fl (k x)) :=
      fun t k => (h t).then fun _ => NF'.setVal _ _
    exact (NF.ite (g _ _) (NF.ite (g _ _) (NF.ite (g _ _) (NF.ite (g _ _) ((NF'.fail (by decide)).nf _))))) st hs

theorem NF.decode {env : Env} (henv : env.Sane) {n len : Nat} (h : len + 1 < n) (fl : Flags) (t : Ty) (v : Val) :
    NF len (decode env n fl t v) := by
  induction n generalizing len fl t v with
  | zero => omega
  | succ n ih =>
    have hflat := fun fl t v => NF.decodeFlat (len := len) (Loc.decode env n) (Loc.consume n)
      (fun l hl fl t v => ih (len := l) (by omega) fl t v) (fun l hl => NF.consume (by omega)) (n := n) (by omega) fl t v
    unfold Bencode.decode
    exact decodeVal_induct (Q := NF len) hflat
      (fun id um hu ro v => NF.decodeUnmarshaler (NF.consume (by omega)) ro (henv id um hu) v)
      (fun _ _ h => h.then fun _ => NF'.pure _) (NF'.panic.nf _) ((NF'.fail (by decide)).nf _) (fun _ => NF.decodeNilAny (fun _ => hflat _ _ _) _) _ _ _

end Drip.Bencode
