import Verif.Lemmas.Bencode.Consume
/-
Whatever the target: a successful `decode` has read exactly the text of one well-formed value with sorted dictionaries.
-/

namespace Drip.Bencode
open Spec

mutual
theorem Valid.mono (t : CTree) {s : Bool} {hi hi' : Int} (hh : hi ≤ hi') (h : t.Valid s hi) : t.Valid false hi' := by
  match t with
  | .int x n => exact ⟨h.1, h.2.1, h.2.2.1, by have := h.2.2.2; omega⟩
  | .str l b => exact ⟨h.1, by simp⟩
  | .list ts => exact Valids.mono ts hh h
  | .dict es => exact ValidEs.mono es [] hh h
theorem Valids.mono (ts : List CTree) {s : Bool} {hi hi' : Int} (hh : hi ≤ hi') (h : Valids s hi ts) :
    Valids false hi' ts := by
  match ts with
  | [] => trivial
  | t :: ts => exact ⟨Valid.mono t hh h.1, Valids.mono ts hh h.2⟩
theorem ValidEs.mono (es : List (Bytes × Bytes × CTree)) (last : Bytes) {s : Bool} {hi hi' : Int} (hh : hi ≤ hi')
    (h : ValidEs s hi last es) : ValidEs false hi' last es := by
  match es with
  | [] => trivial
  | (l, k, t) :: es => exact ⟨h.1, h.2.1, Valid.mono t hh h.2.2.1, ValidEs.mono es k hh h.2.2.2⟩
end

/-- What some target accepts: strings need not start with a digit, integers may be unsigned 64-bit. -/
abbrev DV (t : CTree) : Prop := t.Valid false (2 ^ 64)

/-- A successful step reads the text of one well-formed value. -/
def TrP {α : Type} (p : P α) : Prop :=
  ∀ st a st', p st = .ok (a, st') → ∃ t, DV t ∧ Reads st t.print st'

/-- A successful step reads nothing. -/
def Still {α : Type} (p : P α) : Prop := ∀ st a st', p st = .ok (a, st') → st' = st

theorem Still.pure {α : Type} (a : α) : Still (Pure.pure a : P α) := by
  intro st b st' h
  simp only [pure_run, Res.ok.injEq, Prod.mk.injEq] at h
  exact h.2.symm

theorem Still.lift {α : Type} (r : Res α) : Still (P.lift r : P α) := by
  intro st b st' h
  cases r with
  | ok a =>
    simp only [lift_run, Res.bind_ok, Res.ok.injEq, Prod.mk.injEq] at h
    exact h.2.symm
  | err e => simp at h
  | panic => simp at h

theorem Still.panic {α : Type} : Still (P.panic : P α) := by intro st b st' h; simp at h

theorem Still.setVal (fl : Flags) (x : Val) : Still (setVal fl x) := by
  unfold Bencode.setVal
  split
  · exact Still.pure _
  · exact Still.panic

theorem TrP.fail {α : Type} (e : Err) : TrP (P.fail e : P α) := by intro st b st' h; simp at h
theorem TrP.panic {α : Type} : TrP (P.panic : P α) := by intro st b st' h; simp at h

theorem TrP.bind_still {α β : Type} {p : P α} {f : α → P β} (hp : TrP p) (hf : ∀ a, Still (f a)) : TrP (p >>= f) := by
  intro st b st' h
  rw [bind_run, Res.bind_eq_ok] at h
  obtain ⟨⟨a, st1⟩, h1, h2⟩ := h
  have := hf _ _ _ _ h2
  subst this
  exact hp _ _ _ h1

theorem TrP.still_bind {α β : Type} {p : P α} {f : α → P β} (hp : Still p) (hf : ∀ a, TrP (f a)) : TrP (p >>= f) := by
  intro st b st' h
  rw [bind_run, Res.bind_eq_ok] at h
  obtain ⟨⟨a, st1⟩, h1, h2⟩ := h
  have := hp _ _ _ h1
  subst this
  exact hf _ _ _ _ h2

theorem Still.peek : Still peekByte := by
  intro st a st' h
  rw [peekByte_ok] at h
  exact h.1

theorem TrP.ite {α : Type} {c : Prop} [Decidable c] {p q : P α} (hp : TrP p) (hq : TrP q) :
    TrP (if c then p else q) := by
  split
  · exact hp
  · exact hq

theorem TrP.consume (n : Nat) : TrP (consume n) := by
  intro st a st' h
  obtain ⟨t, ht, _, hr⟩ := consume_sound n st a st' h
  exact ⟨t, Valid.mono t (by decide) ht, hr⟩

theorem TrP.getString : TrP getString := by
  intro st a st' h
  rw [getString_ok] at h
  obtain ⟨l, h1, h2, h3⟩ := h
  exact ⟨.str l a, ⟨h1, by simp⟩, h2, h3⟩

theorem TrP.getInt : TrP getInt := by
  intro st a st' h
  rw [getInt_ok] at h
  obtain ⟨s, h1, h2, h3, h4, h5, h6⟩ := h
  refine ⟨.int s a, ⟨h1, h2, h3, Int.lt_trans h4 (by decide)⟩, ?_, ?_⟩
  · rw [h5]; simp [CTree.print]
  · rw [h6]; simp [CTree.print]

theorem TrP.getUint : TrP getUint := by
  intro st a st' h
  rw [getUint_ok] at h
  obtain ⟨s, h1, h2, h4, h5, h6⟩ := h
  refine ⟨.int s a, ⟨Or.inl ⟨a, h1, rfl⟩, h2, by omega, by omega⟩, ?_, ?_⟩
  · rw [h5]; simp [CTree.print]
  · rw [h6]; simp [CTree.print]

/-- A list loop: elements, then the closing `e`, which the offset does not count yet. -/
def TrL {α : Type} (p : P α) : Prop :=
  ∀ st a st', p st = .ok (a, st') → ∃ ts, Valids false (2 ^ 64) ts ∧ st.rest = prints ts ++ 101 :: st'.rest ∧
    st'.off = st.off + (prints ts).length

/-- A dictionary loop above `last`. -/
def TrD {α : Type} (last : Bytes) (p : P α) : Prop :=
  ∀ st a st', p st = .ok (a, st') → ∃ es, ValidEs false (2 ^ 64) last es ∧ st.rest = printEs es ++ 101 :: st'.rest ∧
    st'.off = st.off + (printEs es).length

theorem TrL.fail {α : Type} (e : Err) : TrL (P.fail e : P α) := by intro st b st' h; simp at h
theorem TrL.panic {α : Type} : TrL (P.panic : P α) := by intro st b st' h; simp at h
theorem TrD.fail {α : Type} (last : Bytes) (e : Err) : TrD last (P.fail e : P α) := by intro st b st' h; simp at h

/-- One element and then the loop. -/
theorem TrL.cons {α β : Type} {p : P α} {f : α → P β} (hp : TrP p) (hf : ∀ a, TrL (f a)) : TrL (p >>= f) := by
  intro st b st' h
  rw [bind_run, Res.bind_eq_ok] at h
  obtain ⟨⟨a, st1⟩, h1, h2⟩ := h
  obtain ⟨t, ht, e1, e2⟩ := hp _ _ _ h1
  obtain ⟨ts, hts, e3, e4⟩ := hf _ _ _ _ h2
  dsimp only at e1 e2 e3 e4
  refine ⟨t :: ts, ⟨ht, hts⟩, ?_, ?_⟩
  · rw [e1, e3]; simp [prints]
  · simp [prints]; omega

/-- Look at the next byte: `e` ends the loop. -/
theorem TrL.step {β : Type} {e : β} {f : P β} (hf : TrL f) :
    TrL (peekByte >>= fun c => if c = 101 then (readByte >>= fun _ => Pure.pure e) else f) := by
  intro st b st' h
  rw [bind_run, Res.bind_eq_ok] at h
  obtain ⟨⟨c, st1⟩, h1, h2⟩ := h
  rw [peekByte_ok] at h1
  obtain ⟨rfl, r, hr⟩ := h1
  dsimp only at h2
  split at h2
  · rename_i hc
    rw [bind_run, Res.bind_eq_ok] at h2
    obtain ⟨⟨c', st2⟩, h3, h4⟩ := h2
    rw [readByte_ok] at h3
    have := Still.pure _ _ _ _ h4
    subst this
    refine ⟨[], trivial, ?_, by simp [prints, h3.2]⟩
    rw [h3.1] at hr
    simp at hr
    rw [h3.1, hr.1, hc]; rfl
  · exact hf _ _ _ h2

theorem TrD.step {β : Type} {last : Bytes} {e : β} {f : Bytes → P β} (hf : ∀ key, BLt last key →
      ∀ st a st', f key st = .ok (a, st') → ∃ t es, DV t ∧ ValidEs false (2 ^ 64) key es ∧
        st.rest = t.print ++ (printEs es ++ 101 :: st'.rest) ∧ st'.off = st.off + (t.print.length + (printEs es).length)) :
    TrD last (peekByte >>= fun c => if c = 101 then (readByte >>= fun _ => Pure.pure e)
      else (getString >>= fun key => if !bltB last key then P.fail .unsorted else f key)) := by
  intro st b st' h
  rw [bind_run, Res.bind_eq_ok] at h
  obtain ⟨⟨c, st1⟩, h1, h2⟩ := h
  rw [peekByte_ok] at h1
  obtain ⟨rfl, r, hr⟩ := h1
  dsimp only at h2
  split at h2
  · rename_i hc
    rw [bind_run, Res.bind_eq_ok] at h2
    obtain ⟨⟨c', st2⟩, h3, h4⟩ := h2
    rw [readByte_ok] at h3
    have := Still.pure _ _ _ _ h4
    subst this
    refine ⟨[], trivial, ?_, by simp [printEs, h3.2]⟩
    rw [h3.1] at hr
    simp at hr
    rw [h3.1, hr.1, hc]; rfl
  · rw [bind_run, Res.bind_eq_ok] at h2
    obtain ⟨⟨key, st2⟩, h3, h4⟩ := h2
    rw [getString_ok] at h3
    obtain ⟨l, hl, e1, e2⟩ := h3
    dsimp only at h4
    split at h4
    · simp at h4
    · rename_i hlt
      simp only [Bool.not_eq_true', Bool.not_eq_false, bltB_iff] at hlt
      obtain ⟨t, es, ht, hes, e3, e4⟩ := hf key hlt _ _ _ h4
      refine ⟨(l, key, t) :: es, ⟨hl, hlt, ht, hes⟩, ?_, ?_⟩
      · rw [e1, e3]; simp [printEs]
      · simp at e2; simp [printEs]; omega

/-- One value and then the loop above `key`. -/
theorem TrD.cons {α β : Type} {key : Bytes} {p : P α} {f : α → P β} (hp : TrP p) (hf : ∀ a, TrD key (f a)) :
    ∀ st a st', (p >>= f) st = .ok (a, st') → ∃ t es, DV t ∧ ValidEs false (2 ^ 64) key es ∧
        st.rest = t.print ++ (printEs es ++ 101 :: st'.rest) ∧ st'.off = st.off + (t.print.length + (printEs es).length) := by
  intro st b st' h
  rw [bind_run, Res.bind_eq_ok] at h
  obtain ⟨⟨a, st1⟩, h1, h2⟩ := h
  obtain ⟨t, ht, e1, e2⟩ := hp _ _ _ h1
  obtain ⟨ts, hts, e3, e4⟩ := hf _ _ _ _ h2
  dsimp only at e1 e2 e3 e4
  exact ⟨t, ts, ht, hts, by rw [e1, e3], by omega⟩

/-- The rest of a list after its opening byte. -/
def TrLe {α : Type} (p : P α) : Prop :=
  ∀ st a st', p st = .ok (a, st') → ∃ ts, Valids false (2 ^ 64) ts ∧ st.rest = prints ts ++ 101 :: st'.rest ∧
    st'.off = st.off + ((prints ts).length + 1)

/-- The rest of a dictionary after its opening byte. -/
def TrDe {α : Type} (p : P α) : Prop :=
  ∀ st a st', p st = .ok (a, st') → ∃ es, ValidEs false (2 ^ 64) [] es ∧ st.rest = printEs es ++ 101 :: st'.rest ∧
    st'.off = st.off + ((printEs es).length + 1)

theorem TrLe.panic {α : Type} : TrLe (P.panic : P α) := by intro st b st' h; simp at h
theorem TrDe.panic {α : Type} : TrDe (P.panic : P α) := by intro st b st' h; simp at h
theorem TrDe.fail {α : Type} (e : Err) : TrDe (P.fail e : P α) := by intro st b st' h; simp at h

theorem TrLe.mk {α β : Type} {p : P α} {g : α → β} (hp : TrL p) :
    TrLe (p >>= fun a => adv 1 >>= fun _ => Pure.pure (g a)) := by
  intro st b st' h2
  simp only [bind_run, adv_run, Res.bind_ok] at h2
  rw [Res.bind_eq_ok] at h2
  obtain ⟨⟨a, st2⟩, h3, h4⟩ := h2
  simp only [pure_run, Res.ok.injEq, Prod.mk.injEq] at h4
  obtain ⟨rfl, rfl⟩ := h4
  obtain ⟨ts, hts, e1, e2⟩ := hp _ _ _ h3
  exact ⟨ts, hts, e1, by dsimp only; omega⟩

theorem TrDe.mk {α β : Type} {p : P α} {g : α → β} (hp : TrD [] p) :
    TrDe (p >>= fun a => adv 1 >>= fun _ => Pure.pure (g a)) := by
  intro st b st' h2
  simp only [bind_run, adv_run, Res.bind_ok] at h2
  rw [Res.bind_eq_ok] at h2
  obtain ⟨⟨a, st2⟩, h3, h4⟩ := h2
  simp only [pure_run, Res.ok.injEq, Prod.mk.injEq] at h4
  obtain ⟨rfl, rfl⟩ := h4
  obtain ⟨ts, hts, e1, e2⟩ := hp _ _ _ h3
  exact ⟨ts, hts, e1, by dsimp only; omega⟩

/-- Opening byte, loop, `offset++`. -/
theorem TrP.list {β : Type} {p : P β} (hp : TrLe p) :
    TrP (readByte >>= fun b => if b ≠ 108 then P.fail .syntax else (adv 1 >>= fun _ => p)) := by
  intro st b st' h
  rw [bind_run, Res.bind_eq_ok] at h
  obtain ⟨⟨c, st1⟩, h1, h2⟩ := h
  rw [readByte_ok] at h1
  dsimp only at h1 h2
  split at h2
  · simp at h2
  · rename_i hc
    simp only [ne_eq, Decidable.not_not] at hc
    subst hc
    simp only [bind_run, adv_run, Res.bind_ok] at h2
    obtain ⟨ts, hts, e1, e2⟩ := hp _ _ _ h2
    dsimp only at e1 e2
    refine ⟨.list ts, hts, ?_, ?_⟩
    · rw [h1.1, e1]; simp [CTree.print]
    · rw [e2, h1.2]; simp [CTree.print]; omega

theorem TrP.dict {β : Type} {p : P β} (hp : TrDe p) :
    TrP (readByte >>= fun b => if b ≠ 100 then P.fail .syntax else (adv 1 >>= fun _ => p)) := by
  intro st b st' h
  rw [bind_run, Res.bind_eq_ok] at h
  obtain ⟨⟨c, st1⟩, h1, h2⟩ := h
  rw [readByte_ok] at h1
  dsimp only at h1 h2
  split at h2
  · simp at h2
  · rename_i hc
    simp only [ne_eq, Decidable.not_not] at hc
    subst hc
    simp only [bind_run, adv_run, Res.bind_ok] at h2
    obtain ⟨ts, hts, e1, e2⟩ := hp _ _ _ h2
    dsimp only at e1 e2
    refine ⟨.dict ts, hts, ?_, ?_⟩
    · rw [h1.1, e1]; simp [CTree.print]
    · rw [e2, h1.2]; simp [CTree.print]; omega

theorem TrP.head_fail {α : Type} {c : UInt8} {p : P α} (hp : ∀ st, ∀ x, p st ≠ .ok x) :
    TrP (readByte >>= fun b => if b ≠ c then P.fail .syntax else p) := by
  intro st b st' h
  rw [bind_run, Res.bind_eq_ok] at h
  obtain ⟨⟨c', st1⟩, h1, h2⟩ := h
  dsimp only at h2
  split at h2
  · simp at h2
  · exact absurd h2 (hp _ _)

section
variable {rec : Dec} {skip : P Bytes}

theorem TrL.decodeSliceLoop (hrec : ∀ fl t v, TrP (rec fl t v)) (fl : Flags) (t : Ty) (k : Nat) (pre old : List Val) :
    TrL (decodeSliceLoop rec fl t k pre old) := by
  induction k generalizing pre old with
  | zero => exact TrL.fail _
  | succ k ih =>
    unfold Bencode.decodeSliceLoop
    refine TrL.step ?_
    cases old with
    | nil =>
      dsimp only
      split
      · exact TrL.cons (hrec _ _ _) fun _ => ih _ _
      · exact TrL.panic
    | cons v old => exact TrL.cons (hrec _ _ _) fun _ => ih _ _

theorem TrL.decodeArrayLoop (hrec : ∀ fl t v, TrP (rec fl t v)) (hskip : TrP skip) (fl : Flags) (t : Ty) (k : Nat)
    (pre old : List Val) : TrL (decodeArrayLoop rec skip fl t k pre old) := by
  induction k generalizing pre old with
  | zero => exact TrL.fail _
  | succ k ih =>
    unfold Bencode.decodeArrayLoop
    refine TrL.step ?_
    cases old with
    | nil => exact TrL.cons hskip fun _ => ih _ _
    | cons v old => exact TrL.cons (hrec _ _ _) fun _ => ih _ _

theorem TrD.decodeMapLoop (hrec : ∀ fl t v, TrP (rec fl t v)) (t : Ty) (k : Nat) (last : Bytes)
    (m : List (Bytes × Val)) : TrD last (decodeMapLoop rec t k last m) := by
  induction k generalizing last m with
  | zero => exact TrD.fail _ _
  | succ k ih =>
    unfold Bencode.decodeMapLoop
    exact TrD.step fun key _ => TrD.cons (hrec _ _ _) fun _ => ih _ _

theorem TrP.atField {f : Flags → Ty → Val → P Val} (hrec : ∀ fl t v, TrP (f fl t v)) (is : List Nat) (fl : Flags) (t : Ty) (v : Val) :
    TrP (atField f is fl t v) := by
  induction is generalizing fl t v with
  | nil => exact hrec _ _ _
  | cons i is ih =>
    unfold Bencode.atField
    dsimp only
    repeat' split
    all_goals first
      | exact TrP.panic
      | exact TrP.bind_still (ih _ _ _) fun _ => Still.pure _

theorem TrD.decodeStructLoop (hrec : ∀ fl t v, TrP (rec fl t v)) (hskip : TrP skip) (fl : Flags) (t : Ty) (k : Nat)
    (last : Bytes) (v : Val) : TrD last (decodeStructLoop rec skip fl t k last v) := by
  induction k generalizing last v with
  | zero => exact TrD.fail _ _
  | succ k ih =>
    unfold Bencode.decodeStructLoop
    refine TrD.step fun key _ => ?_
    cases lookupKey key (keyToField t) with
    | none => exact TrD.cons hskip fun _ => ih _ _
    | some f => exact TrD.cons (TrP.atField hrec _ _ _ _) fun _ => ih _ _

theorem TrP.decodeUnmarshaler (hskip : TrP skip) (ro : Bool) (um : Bytes → Val → Res Val) (v : Option Val) :
    TrP (decodeUnmarshaler skip ro um v) := by
  unfold Bencode.decodeUnmarshaler
  refine TrP.ite TrP.panic (TrP.bind_still hskip fun raw => ?_)
  cases v
  · exact Still.panic
  · exact Still.lift _

theorem TrP.decodeFlat (hrec : ∀ fl t v, TrP (rec fl t v)) (hskip : TrP skip) (n : Nat) (fl : Flags) (t : Ty) (v : Val) :
    TrP (decodeFlat rec skip n fl t v) := by
  unfold Bencode.decodeFlat
  cases t with
  | str => exact TrP.bind_still TrP.getString fun _ => Still.setVal _ _
  | bytes => exact TrP.bind_still TrP.getString fun _ => Still.setVal _ _
  | int b => exact TrP.bind_still TrP.getInt fun _ => Still.setVal _ _
  | uint b => exact TrP.bind_still TrP.getUint fun _ => Still.setVal _ _
  | slice et =>
    simp only
    unfold decodeSlice
    have h := fun pre old => TrL.decodeSliceLoop hrec fl et n pre old
    refine TrP.list ?_
    split
    · exact TrLe.mk (h _ _)
    · split
      · exact TrLe.mk (h _ _)
      · exact TrLe.panic
  | array k et =>
    simp only
    unfold decodeArray
    refine TrP.list ?_
    split
    · exact TrLe.mk (TrL.decodeArrayLoop hrec hskip _ _ _ _ _)
    · exact TrLe.panic
  | map et =>
    simp only
    unfold decodeMap
    refine TrP.dict ?_
    split
    · exact TrDe.mk (TrD.decodeMapLoop hrec _ _ _ _)
    · split
      · exact TrDe.mk (TrD.decodeMapLoop hrec _ _ _ _)
      · exact TrDe.panic
  | badmap => exact TrP.head_fail fun st x => by simp
  | struct sid fs => exact TrP.dict (TrDe.mk (g := id) (TrD.decodeStructLoop hrec hskip _ _ _ _ _))
  | any => exact TrP.panic
  | iface => exact TrP.panic
  | ptr et => exact TrP.panic
  | custom id u => exact TrP.panic
  | unsupported => exact TrP.fail _

theorem TrP.decodeNilAny {dec : Ty → P Val} (h : ∀ t, TrP (dec t)) (fl : Flags) : TrP (decodeNilAny dec fl) := by
  unfold Bencode.decodeNilAny
  refine TrP.still_bind Still.peek fun b => ?_
  refine TrP.ite (TrP.bind_still (h _) fun _ => Still.setVal _ _) ?_
  refine TrP.ite (TrP.bind_still (h _) fun _ => Still.setVal _ _) ?_
  refine TrP.ite (TrP.bind_still (h _) fun _ => Still.setVal _ _) ?_
  exact TrP.ite (TrP.bind_still (h _) fun _ => Still.setVal _ _) (TrP.fail _)

end

/-- A successful `decode` reads exactly the text of one well-formed value. -/
theorem TrP.decode (env : Env) (n : Nat) (fl : Flags) (t : Ty) (v : Val) : TrP (decode env n fl t v) := by
  induction n generalizing fl t v with
  | zero => exact TrP.fail _
  | succ n ih =>
    unfold Bencode.decode
    exact decodeVal_induct (Q := TrP) (fun _ _ _ => TrP.decodeFlat ih (TrP.consume n) _ _ _ _)
      (fun _ _ _ _ _ => TrP.decodeUnmarshaler (TrP.consume n) _ _ _) (fun _ _ h => h.bind_still fun _ => Still.pure _)
      TrP.panic (TrP.fail _) (fun _ => TrP.decodeNilAny (fun _ => TrP.decodeFlat ih (TrP.consume n) _ _ _ _) _) _ _ _

end Drip.Bencode
