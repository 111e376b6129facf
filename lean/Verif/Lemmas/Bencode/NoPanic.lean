import Verif.Lemmas.Bencode.Consume
/-
Where the untyped decoder can panic: only in `make([]byte, n)`.
-/

namespace Drip.Bencode
open Spec

/-- Every length text in front of a colon is reasonable. -/
def GoodLens (bs : Bytes) : Prop :=
  ∀ pre s post n, bs = pre ++ s ++ 58 :: post → SNumeral s n → 0 ≤ n ∧ n ≤ 2 ^ 48

theorem GoodLens.suffix {c bs : Bytes} (h : GoodLens (c ++ bs)) : GoodLens bs := by
  intro pre s post n e
  exact h (c ++ pre) s post n (by rw [e]; simp)

/-- `p` does not panic on inputs with reasonable lengths. -/
def NP {α : Type} (p : P α) : Prop := ∀ st : St, GoodLens st.rest → p st ≠ .panic

theorem NP.bind {α β : Type} {ne : Bool} {p : P α} {f : α → P β} (hp : NP p) (hl : Loc ne p) (hf : ∀ a, NP (f a)) :
    NP (p >>= f) := by
  intro st hs h
  rw [bind_run] at h
  cases hx : p st with
  | err e => rw [hx] at h; simp at h
  | panic => exact hp st hs hx
  | ok x =>
    rw [hx] at h
    simp only [Res.bind_ok] at h
    obtain ⟨c, d, h1, _⟩ := hl st x.1 x.2 hx
    rw [h1] at hs
    exact hf x.1 x.2 hs.suffix h

theorem NP.ite {α : Type} {c : Prop} [Decidable c] {p q : P α} (hp : NP p) (hq : NP q) : NP (if c then p else q) := by
  split <;> assumption

theorem NP.pure {α : Type} (a : α) : NP (Pure.pure a : P α) := by intro st _ h; simp at h
theorem NP.fail {α : Type} (e : Err) : NP (P.fail e : P α) := by intro st _ h; simp at h
theorem NP.adv (n : Nat) : NP (adv n) := by intro st _ h; simp at h
theorem NP.readByte : NP readByte := by
  intro st _ h; unfold Bencode.readByte at h; split at h <;> simp at h
theorem NP.readUntil (c : UInt8) : NP (readUntil c) := by
  intro st _ h; unfold Bencode.readUntil at h; split at h <;> simp at h

theorem NP.peek {β : Type} {f : UInt8 → P β} (hf : ∀ b, NP (f b)) : NP (peekByte >>= f) := by
  intro st hs h
  rw [bind_run] at h
  cases hp : Bencode.peekByte st with
  | err e => rw [hp] at h; simp at h
  | panic => unfold Bencode.peekByte at hp; split at hp <;> simp at hp
  | ok y =>
    rw [hp] at h
    simp only [Res.bind_ok] at h
    obtain ⟨h1, _⟩ := (peekByte_ok st y.1 y.2).mp hp
    rw [h1] at h
    exact hf _ st hs h

/-- `make` gets a reasonable length. -/
theorem readLen_np (g : Bytes → Bytes → P α) (hg : ∀ s b, NP (g s b)) (h0 : P α) (hh : NP h0) :
    NP (Bencode.readUntil 58 >>= fun s => match parseInt s with
      | none => h0
      | some n => Bencode.adv (s.length + 1) >>= fun _ => readN n >>= fun b => g s b) := by
  intro st hs h
  rw [bind_run] at h
  cases hp : Bencode.readUntil 58 st with
  | err e => rw [hp] at h; simp at h
  | panic => exact NP.readUntil _ st hs hp
  | ok y =>
    rw [hp] at h
    simp only [Res.bind_ok] at h
    obtain ⟨e1, e2, e3⟩ := (readUntil_ok _ st y.1 y.2).mp hp
    have hs2 : GoodLens y.2.rest := by
      rw [e1] at hs
      have : GoodLens ((y.1 ++ [58]) ++ y.2.rest) := by simpa using hs
      exact this.suffix
    cases hpi : parseInt y.1 with
    | none => rw [hpi] at h; exact hh _ hs2 h
    | some n =>
      rw [hpi] at h
      have hn := (parseInt_some _ _).mp hpi
      obtain ⟨g1, g2⟩ := hs [] y.1 y.2.rest n (by rw [e1]; simp) hn.1
      simp only [bind_run, adv_run, Res.bind_ok] at h
      cases hr : readN n { y.2 with off := y.2.off + (y.1.length + 1) } with
      | err e => rw [hr] at h; simp at h
      | panic =>
        unfold readN at hr
        rw [if_neg (by rw [maxAlloc_eq]; omega)] at hr
        split at hr <;> simp at hr
      | ok z =>
        rw [hr] at h
        simp only [Res.bind_ok] at h
        obtain ⟨c, d, h1, _⟩ := Loc.readN n _ z.1 z.2 hr
        dsimp only at h1
        rw [h1] at hs2
        exact hg _ _ _ hs2.suffix h

theorem NP.consumeString : NP consumeString := by
  unfold Bencode.consumeString
  exact readLen_np (fun s b => Bencode.adv b.length >>= fun _ => Pure.pure (b, s ++ 58 :: b))
    (fun s b => (NP.adv _).bind (Loc.adv _) fun _ => NP.pure _) _ (NP.fail _)

theorem NP.getString : NP getString := by
  unfold Bencode.getString
  exact readLen_np (fun s b => Bencode.adv b.length >>= fun _ => Pure.pure b)
    (fun s b => (NP.adv _).bind (Loc.adv _) fun _ => NP.pure _) _ (NP.fail _)

theorem NP.consumeInt : NP consumeInt := by
  unfold Bencode.consumeInt
  refine NP.readByte.bind Loc.readByte fun b => NP.ite (NP.fail _) ((NP.adv _).bind (Loc.adv _) fun _ =>
    (NP.readUntil _).bind (Loc.readUntil _) fun s => NP.ite (NP.fail _) ?_)
  split
  · exact NP.fail _
  · exact (NP.adv _).bind (Loc.adv _) fun _ => NP.pure _

theorem NP.getInt : NP getInt := by
  unfold Bencode.getInt
  refine NP.readByte.bind Loc.readByte fun b => NP.ite (NP.fail _) ((NP.adv _).bind (Loc.adv _) fun _ =>
    (NP.readUntil _).bind (Loc.readUntil _) fun s => NP.ite (NP.fail _) ?_)
  split
  · exact NP.fail _
  · exact (NP.adv _).bind (Loc.adv _) fun _ => NP.pure _

theorem NP.getUint : NP getUint := by
  unfold Bencode.getUint
  refine NP.readByte.bind Loc.readByte fun b => NP.ite (NP.fail _) ((NP.adv _).bind (Loc.adv _) fun _ =>
    (NP.readUntil _).bind (Loc.readUntil _) fun s => NP.ite (NP.fail _) ?_)
  split
  · exact NP.fail _
  · exact (NP.adv _).bind (Loc.adv _) fun _ => NP.pure _

theorem NP.consumeListLoop {rec : P Bytes} (hl : Loc true rec) (hrec : NP rec) (k : Nat) :
    NP (consumeListLoop rec k) := by
  induction k with
  | zero => exact NP.fail _
  | succ k ih =>
    unfold Bencode.consumeListLoop
    refine NP.peek fun c => NP.ite (NP.readByte.bind Loc.readByte fun _ => NP.pure _) ?_
    exact hrec.bind hl fun _ => ih.bind (Loc.consumeListLoop hl k) fun _ => NP.pure _

theorem NP.consumeDictLoop {rec : P Bytes} (hl : Loc true rec) (hrec : NP rec) (k : Nat) (last : Bytes) :
    NP (consumeDictLoop rec k last) := by
  induction k generalizing last with
  | zero => exact NP.fail _
  | succ k ih =>
    unfold Bencode.consumeDictLoop
    refine NP.peek fun c => NP.ite (NP.readByte.bind Loc.readByte fun _ => NP.pure _) ?_
    refine NP.consumeString.bind Loc.consumeString fun x => NP.ite (NP.fail _) ?_
    exact hrec.bind hl fun _ => (ih _).bind (Loc.consumeDictLoop hl k _) fun _ => NP.pure _

theorem NP.consume (n : Nat) : NP (consume n) := by
  induction n with
  | zero => exact NP.fail _
  | succ n ih =>
    unfold Bencode.consume consumeList consumeDict
    refine NP.peek fun c => NP.ite NP.consumeInt (NP.ite ?_ (NP.ite ?_ (NP.ite ?_ (NP.fail _))))
    · refine NP.readByte.bind Loc.readByte fun b => NP.ite (NP.fail _) ((NP.adv _).bind (Loc.adv _) fun _ => ?_)
      exact (NP.consumeListLoop (Loc.consume n) ih n).bind (Loc.consumeListLoop (Loc.consume n) n) fun _ =>
        (NP.adv _).bind (Loc.adv _) fun _ => NP.pure _
    · refine NP.readByte.bind Loc.readByte fun b => NP.ite (NP.fail _) ((NP.adv _).bind (Loc.adv _) fun _ => ?_)
      exact (NP.consumeDictLoop (Loc.consume n) ih n _).bind (Loc.consumeDictLoop (Loc.consume n) n _) fun _ =>
        (NP.adv _).bind (Loc.adv _) fun _ => NP.pure _
    · exact NP.consumeString.bind Loc.consumeString fun _ => NP.pure _

theorem NP.setVal {fl : Flags} (h : fl.settable = true) (x : Val) : NP (setVal fl x) := by
  unfold Bencode.setVal; rw [if_pos h]; exact NP.pure _

/-- Decoding into a nil `any` does not panic. -/
theorem NP.any (env : Env) (n : Nat) (fl : Flags) (hfl : fl.settable = true) : NP (decode env n fl .any .nilIface) := by
  induction n generalizing fl with
  | zero => exact NP.fail _
  | succ n ih =>
    rw [decode_any_eq]
    have hlA := Loc.decode env n { addr := true } .any .nilIface
    have hA : NP (decode env n { addr := true } .any .nilIface) := ih _ rfl
    have hsl : ∀ k pre, NP (decodeSliceLoop (decode env n) { addr := true } .any k pre []) := by
      intro k
      induction k with
      | zero => intro pre; exact NP.fail _
      | succ k ihk =>
        intro pre
        unfold Bencode.decodeSliceLoop
        refine NP.peek fun c => NP.ite (NP.readByte.bind Loc.readByte fun _ => NP.pure _) ?_
        exact hA.bind hlA fun _ => ihk _
    have hml : ∀ k last m, NP (decodeMapLoop (decode env n) .any k last m) := by
      intro k
      induction k with
      | zero => intro last m; exact NP.fail _
      | succ k ihk =>
        intro last m
        unfold Bencode.decodeMapLoop
        refine NP.peek fun c => NP.ite (NP.readByte.bind Loc.readByte fun _ => NP.pure _) ?_
        refine NP.getString.bind Loc.getString fun x => NP.ite (NP.fail _) ?_
        exact hA.bind hlA fun _ => ihk _ _
    have hlf := fun t v => Loc.decodeFlat (Loc.decode env n) (Loc.consume n) n { addr := true } t v
    unfold Bencode.decodeNilAny
    refine NP.peek fun c => NP.ite ?_ (NP.ite ?_ (NP.ite ?_ (NP.ite ?_ (NP.fail _))))
    · exact NP.bind (NP.getInt.bind Loc.getInt fun _ => NP.setVal rfl _) (hlf _ _) fun _ => NP.setVal hfl _
    · refine NP.bind ?_ (hlf _ _) fun _ => NP.setVal hfl _
      refine NP.readByte.bind Loc.readByte fun b => NP.ite (NP.fail _) ((NP.adv _).bind (Loc.adv _) fun _ => ?_)
      exact (hsl _ _).bind (Loc.decodeSliceLoop (Loc.decode env n) _ _ _ _ _) fun _ =>
        (NP.adv _).bind (Loc.adv _) fun _ => NP.pure _
    · refine NP.bind ?_ (hlf _ _) fun _ => NP.setVal hfl _
      refine NP.readByte.bind Loc.readByte fun b => NP.ite (NP.fail _) ((NP.adv _).bind (Loc.adv _) fun _ => ?_)
      exact (hml _ _ _).bind (Loc.decodeMapLoop (Loc.decode env n) _ _ _ _) fun _ =>
        (NP.adv _).bind (Loc.adv _) fun _ => NP.pure _
    · exact NP.bind (NP.getString.bind Loc.getString fun _ => NP.setVal rfl _) (hlf _ _) fun _ => NP.setVal hfl _

end Drip.Bencode
