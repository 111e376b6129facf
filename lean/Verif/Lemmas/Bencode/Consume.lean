import Verif.Lemmas.Bencode.Local
import Verif.Lemmas.Bencode.Num
import Verif.Spec.Bencode
/-
`consume` accepts exactly the well-formed values and copies their text.
-/

namespace Drip.Bencode
open Spec

theorem bltB_iff (a b : Bytes) : bltB a b = true ↔ BLt a b := by
  induction a generalizing b with
  | nil => cases b <;> simp [bltB, BLt]
  | cons x xs ih =>
    cases b with
    | nil => simp [bltB, BLt]
    | cons y ys =>
      simp only [bltB, BLt]
      split
      · rename_i h; simp [UInt8.lt_iff_toNat_lt.mp h]
      · rename_i h
        split
        · rename_i h2
          simp only [UInt8.lt_iff_toNat_lt] at h h2
          simp only [Bool.false_eq_true, false_iff, not_or, not_and]
          refine ⟨by omega, ?_⟩
          intro e; subst e; omega
        · rename_i h2
          simp only [UInt8.lt_iff_toNat_lt] at h h2
          have : x = y := UInt8.toNat_inj.mp (by omega)
          subst this
          rw [ih]; simp

theorem not_mem_of_numeral {s : Bytes} {n : Nat} (h : Numeral s n) (c : UInt8) (hc : ¬ Digit c) : c ∉ s :=
  fun hm => hc (h.2.1 c hm)

theorem not_mem_of_snumeral {s : Bytes} {n : Int} (h : SNumeral s n) (c : UInt8) (hc : ¬ Digit c) (h43 : c ≠ 43)
    (h45 : c ≠ 45) : c ∉ s := by
  rcases h with ⟨m, h, _⟩ | ⟨ds, m, rfl, h, _⟩ | ⟨ds, m, rfl, h, _⟩
  · exact not_mem_of_numeral h c hc
  · simp [h43, not_mem_of_numeral h c hc]
  · simp [h45, not_mem_of_numeral h c hc]

theorem not_digit_58 : ¬ Digit 58 := by simp [Digit]
theorem not_digit_101 : ¬ Digit 101 := by simp [Digit]

theorem _root_.Drip.Spec.LenText.not_mem {l b : Bytes} (h : LenText l b) : (58 : UInt8) ∉ l :=
  not_mem_of_snumeral h.1 58 not_digit_58 (by decide) (by decide)

theorem _root_.Drip.Spec.LenText.parse {l b : Bytes} (h : LenText l b) : parseInt l = some (b.length : Int) :=
  (parseInt_some _ _).mpr ⟨h.1, by have := h.2; omega, by have := h.2; omega⟩

theorem maxAlloc_eq : maxAlloc = 2 ^ 48 := rfl

/-- `consumeString` succeeds exactly on a length text, a colon and that many bytes. -/
theorem consumeString_ok (st : St) (x : Bytes × Bytes) (st' : St) :
    consumeString st = .ok (x, st') ↔
      ∃ l, LenText l x.1 ∧ x.2 = l ++ 58 :: x.1 ∧ st.rest = l ++ 58 :: x.1 ++ st'.rest ∧
        st'.off = st.off + (l ++ 58 :: x.1).length := by
  unfold consumeString
  rw [bind_run, Res.bind_eq_ok]
  constructor
  · rintro ⟨⟨l, st1⟩, h1, h2⟩
    rw [readUntil_ok] at h1
    obtain ⟨e1, e2, e3⟩ := h1
    dsimp only at h2 e1 e2 e3
    cases hp : parseInt l with
    | none => simp [hp] at h2
    | some n =>
      simp only [hp] at h2
      simp only [bind_run, adv_run, Res.bind_ok] at h2
      rw [Res.bind_eq_ok] at h2
      obtain ⟨⟨b, st2⟩, h3, h4⟩ := h2
      rw [readN_ok] at h3
      obtain ⟨f1, f2, f3, f4, f5⟩ := h3
      simp only [pure_run, Res.ok.injEq, Prod.mk.injEq] at h4
      obtain ⟨rfl, rfl⟩ := h4
      dsimp only at f3 f5 ⊢
      refine ⟨l, ⟨?_, ?_⟩, rfl, ?_, ?_⟩
      · have := (parseInt_some _ _).mp hp
        rw [f4]; exact this.1
      · rw [maxAlloc_eq] at f2; omega
      · rw [e1, f3]; simp
      · simp [f5, e3]; omega
  · rintro ⟨l, hl, e1, e2, e3⟩
    refine ⟨(l, ⟨x.1 ++ st'.rest, st.off⟩), ?_, ?_⟩
    · rw [readUntil_ok]; exact ⟨by rw [e2]; simp, hl.not_mem, rfl⟩
    · simp only [hl.parse, bind_run, adv_run, Res.bind_ok]
      rw [readN_run _ _ _ (by rw [maxAlloc_eq]; have := hl.2; omega)]
      simp only [Res.bind_ok, pure_run, Res.ok.injEq, Prod.mk.injEq]
      refine ⟨by rw [← e1], ?_⟩
      cases st'; simp at e3 ⊢; omega

theorem getString_eq : getString = (do let x ← consumeString; pure x.1) := by
  funext st
  unfold getString consumeString
  simp only [bind_run]
  cases readUntil 58 st with
  | err e => rfl
  | panic => rfl
  | ok y =>
    simp only [Res.bind_ok]
    cases parseInt y.1 with
    | none => rfl
    | some n =>
      simp only [bind_run, adv_run, Res.bind_ok]
      generalize readN n _ = z
      cases z <;> rfl

theorem getString_ok (st : St) (b : Bytes) (st' : St) :
    getString st = .ok (b, st') ↔
      ∃ l, LenText l b ∧ st.rest = l ++ 58 :: b ++ st'.rest ∧ st'.off = st.off + (l ++ 58 :: b).length := by
  rw [getString_eq, bind_run, Res.bind_eq_ok]
  constructor
  · rintro ⟨⟨x, st1⟩, h, e⟩
    rw [consumeString_ok] at h
    obtain ⟨l, h1, h2, h3, h4⟩ := h
    simp only [pure_run, Res.ok.injEq, Prod.mk.injEq] at e
    obtain ⟨rfl, rfl⟩ := e
    exact ⟨l, h1, h3, h4⟩
  · rintro ⟨l, h1, h3, h4⟩
    exact ⟨((b, l ++ 58 :: b), st'), (consumeString_ok _ _ _).mpr ⟨l, h1, rfl, h3, h4⟩, rfl⟩

/-- The common shape of the integer readers: `i`, text, `e`. -/
theorem getInt_ok (st : St) (n : Int) (st' : St) :
    getInt st = .ok (n, st') ↔
      ∃ s, SNumeral s n ∧ ¬ LeadingZero s ∧ -2 ^ 63 ≤ n ∧ n < 2 ^ 63 ∧ st.rest = 105 :: s ++ 101 :: st'.rest ∧
        st'.off = st.off + (s.length + 2) := by
  unfold getInt
  rw [bind_run, Res.bind_eq_ok]
  constructor
  · rintro ⟨⟨c, st1⟩, h1, h2⟩
    unfold readByte at h1
    split at h1
    · simp at h1
    · rename_i x xs hx
      simp only [Res.ok.injEq, Prod.mk.injEq] at h1
      obtain ⟨rfl, rfl⟩ := h1
      dsimp only at h2
      split at h2
      · simp at h2
      · rename_i hc
        simp only [ne_eq, Decidable.not_not] at hc
        simp only [bind_run, adv_run, Res.bind_ok] at h2
        rw [Res.bind_eq_ok] at h2
        obtain ⟨⟨s, st2⟩, h3, h4⟩ := h2
        rw [readUntil_ok] at h3
        obtain ⟨e1, e2, e3⟩ := h3
        dsimp only at h4 e1 e2 e3
        split at h4
        · simp at h4
        · rename_i hz
          cases hp : parseInt s with
          | none => simp [hp] at h4
          | some i =>
            simp only [hp, bind_run, adv_run, Res.bind_ok, pure_run, Res.ok.injEq, Prod.mk.injEq] at h4
            obtain ⟨rfl, rfl⟩ := h4
            have := (parseInt_some _ _).mp hp
            refine ⟨s, this.1, ?_, this.2.1, this.2.2, ?_, ?_⟩
            · rw [← leadingZero_iff]; simpa using hz
            · rw [hx, hc, e1]; rfl
            · dsimp only; omega
  · rintro ⟨s, h1, h2, h3, h4, h5, h6⟩
    refine ⟨(105, ⟨s ++ 101 :: st'.rest, st.off⟩), ?_, ?_⟩
    · simp [readByte, h5]
    · have hz : leadingZero s = false := by
        rw [Bool.eq_false_iff, Ne, leadingZero_iff]; exact h2
      have hm : (101 : UInt8) ∉ s := not_mem_of_snumeral h1 101 not_digit_101 (by decide) (by decide)
      simp only [ne_eq, not_true_eq_false, if_false, bind_run, adv_run, Res.bind_ok, readUntil_run _ _ _ _ hm, hz,
        Bool.false_eq_true, (parseInt_some s n).mpr ⟨h1, h3, h4⟩, pure_run, Res.ok.injEq, Prod.mk.injEq, true_and]
      cases st'; simp at h6 ⊢; omega

theorem getUint_ok (st : St) (n : Nat) (st' : St) :
    getUint st = .ok (n, st') ↔
      ∃ s, Numeral s n ∧ ¬ LeadingZero s ∧ n < 2 ^ 64 ∧ st.rest = 105 :: s ++ 101 :: st'.rest ∧
        st'.off = st.off + (s.length + 2) := by
  unfold getUint
  rw [bind_run, Res.bind_eq_ok]
  constructor
  · rintro ⟨⟨c, st1⟩, h1, h2⟩
    unfold readByte at h1
    split at h1
    · simp at h1
    · rename_i x xs hx
      simp only [Res.ok.injEq, Prod.mk.injEq] at h1
      obtain ⟨rfl, rfl⟩ := h1
      dsimp only at h2
      split at h2
      · simp at h2
      · rename_i hc
        simp only [ne_eq, Decidable.not_not] at hc
        simp only [bind_run, adv_run, Res.bind_ok] at h2
        rw [Res.bind_eq_ok] at h2
        obtain ⟨⟨s, st2⟩, h3, h4⟩ := h2
        rw [readUntil_ok] at h3
        obtain ⟨e1, e2, e3⟩ := h3
        dsimp only at h4 e1 e2 e3
        split at h4
        · simp at h4
        · rename_i hz
          cases hp : parseUint s with
          | none => simp [hp] at h4
          | some i =>
            simp only [hp, bind_run, adv_run, Res.bind_ok, pure_run, Res.ok.injEq, Prod.mk.injEq] at h4
            obtain ⟨rfl, rfl⟩ := h4
            have := (parseUint_some _ _).mp hp
            refine ⟨s, this.1, ?_, this.2, ?_, ?_⟩
            · rw [← leadingZero_iff]; simpa using hz
            · rw [hx, hc, e1]; rfl
            · dsimp only; omega
  · rintro ⟨s, h1, h2, h4, h5, h6⟩
    refine ⟨(105, ⟨s ++ 101 :: st'.rest, st.off⟩), ?_, ?_⟩
    · simp [readByte, h5]
    · have hz : leadingZero s = false := by
        rw [Bool.eq_false_iff, Ne, leadingZero_iff]; exact h2
      have hm : (101 : UInt8) ∉ s := not_mem_of_numeral h1 101 not_digit_101
      simp only [ne_eq, not_true_eq_false, if_false, bind_run, adv_run, Res.bind_ok, readUntil_run _ _ _ _ hm, hz,
        Bool.false_eq_true, (parseUint_some s n).mpr ⟨h1, h4⟩, pure_run, Res.ok.injEq, Prod.mk.injEq, true_and]
      cases st'; simp at h6 ⊢; omega

/-- `consumeInt` is `decodeInt` plus copying. -/
theorem consumeInt_ok (st : St) (raw : Bytes) (st' : St) :
    consumeInt st = .ok (raw, st') ↔
      ∃ s n, SNumeral s n ∧ ¬ LeadingZero s ∧ -2 ^ 63 ≤ n ∧ n < 2 ^ 63 ∧ raw = 105 :: s ++ [101] ∧
        st.rest = raw ++ st'.rest ∧ st'.off = st.off + raw.length := by
  unfold consumeInt
  rw [bind_run, Res.bind_eq_ok]
  constructor
  · rintro ⟨⟨c, st1⟩, h1, h2⟩
    unfold readByte at h1
    split at h1
    · simp at h1
    · rename_i x xs hx
      simp only [Res.ok.injEq, Prod.mk.injEq] at h1
      obtain ⟨rfl, rfl⟩ := h1
      dsimp only at h2
      split at h2
      · simp at h2
      · rename_i hc
        simp only [ne_eq, Decidable.not_not] at hc
        simp only [bind_run, adv_run, Res.bind_ok] at h2
        rw [Res.bind_eq_ok] at h2
        obtain ⟨⟨s, st2⟩, h3, h4⟩ := h2
        rw [readUntil_ok] at h3
        obtain ⟨e1, e2, e3⟩ := h3
        dsimp only at h4 e1 e2 e3
        split at h4
        · simp at h4
        · rename_i hz
          cases hp : parseInt s with
          | none => simp [hp] at h4
          | some i =>
            simp only [hp, bind_run, adv_run, Res.bind_ok, pure_run, Res.ok.injEq, Prod.mk.injEq] at h4
            obtain ⟨rfl, rfl⟩ := h4
            have := (parseInt_some _ _).mp hp
            refine ⟨s, i, this.1, ?_, this.2.1, this.2.2, rfl, ?_, ?_⟩
            · rw [← leadingZero_iff]; simpa using hz
            · rw [hx, hc, e1]; simp
            · simp; omega
  · rintro ⟨s, n, h1, h2, h3, h4, h5, h6, h7⟩
    subst h5
    refine ⟨(105, ⟨s ++ 101 :: st'.rest, st.off⟩), ?_, ?_⟩
    · simp [readByte, h6]
    · have hz : leadingZero s = false := by
        rw [Bool.eq_false_iff, Ne, leadingZero_iff]; exact h2
      have hm : (101 : UInt8) ∉ s := not_mem_of_snumeral h1 101 not_digit_101 (by decide) (by decide)
      simp only [ne_eq, not_true_eq_false, if_false, bind_run, adv_run, Res.bind_ok, readUntil_run _ _ _ _ hm, hz,
        Bool.false_eq_true, (parseInt_some s n).mpr ⟨h1, h3, h4⟩, pure_run, Res.ok.injEq, Prod.mk.injEq, true_and]
      cases st'; simp at h7 ⊢; omega

theorem readByte_ok (st : St) (b : UInt8) (st' : St) :
    readByte st = .ok (b, st') ↔ st.rest = b :: st'.rest ∧ st'.off = st.off := by
  unfold readByte
  cases hr : st.rest with
  | nil => simp
  | cons x xs =>
    simp only [Res.ok.injEq, Prod.mk.injEq, List.cons.injEq]
    constructor
    · rintro ⟨rfl, rfl⟩; exact ⟨⟨rfl, rfl⟩, rfl⟩
    · rintro ⟨⟨rfl, h⟩, h2⟩
      refine ⟨rfl, ?_⟩
      cases st; cases st'; simp_all

theorem peekByte_ok (st : St) (b : UInt8) (st' : St) :
    peekByte st = .ok (b, st') ↔ st' = st ∧ ∃ r, st.rest = b :: r := by
  unfold peekByte
  cases hr : st.rest with
  | nil => simp
  | cons x xs =>
    simp only [Res.ok.injEq, Prod.mk.injEq, List.cons.injEq]
    constructor
    · rintro ⟨rfl, rfl⟩; exact ⟨rfl, xs, rfl, rfl⟩
    · rintro ⟨rfl, r, rfl, _⟩; exact ⟨rfl, rfl⟩

@[simp] theorem peekByte_run (b : UInt8) (r : Bytes) (off : Nat) : peekByte ⟨b :: r, off⟩ = .ok (b, ⟨b :: r, off⟩) := rfl
@[simp] theorem readByte_run (b : UInt8) (r : Bytes) (off : Nat) : readByte ⟨b :: r, off⟩ = .ok (b, ⟨r, off⟩) := rfl

/-- What `consume` recognises: strict syntax with int64 integers. -/
abbrev CV (t : CTree) : Prop := t.Valid true (2 ^ 63)

/-- `st → st'` reads exactly the text `c`. -/
def Reads (st : St) (c : Bytes) (st' : St) : Prop := st.rest = c ++ st'.rest ∧ st'.off = st.off + c.length

theorem consumeListLoop_sound {rec : P Bytes}
    (hrec : ∀ st raw st', rec st = .ok (raw, st') → ∃ t, CV t ∧ raw = t.print ∧ Reads st t.print st')
    (k : Nat) (st : St) (raw : Bytes) (st' : St) (h : consumeListLoop rec k st = .ok (raw, st')) :
    ∃ ts, Valids true (2 ^ 63) ts ∧ raw = prints ts ∧ st.rest = prints ts ++ 101 :: st'.rest ∧
      st'.off = st.off + (prints ts).length := by
  induction k generalizing st raw with
  | zero => simp [consumeListLoop] at h
  | succ k ih =>
    simp only [consumeListLoop, bind_run] at h
    rw [Res.bind_eq_ok] at h
    obtain ⟨⟨c, st1⟩, h1, h2⟩ := h
    rw [peekByte_ok] at h1
    obtain ⟨rfl, r, hr⟩ := h1
    dsimp only at h2
    split at h2
    · rename_i hc
      rw [bind_run, Res.bind_eq_ok] at h2
      obtain ⟨⟨c', st2⟩, h3, h4⟩ := h2
      rw [readByte_ok] at h3
      simp only [pure_run, Res.ok.injEq, Prod.mk.injEq] at h4
      obtain ⟨rfl, rfl⟩ := h4
      refine ⟨[], by simp [Valids], by simp [prints], ?_, by simp [prints, h3.2]⟩
      rw [h3.1] at hr
      simp at hr
      rw [h3.1, hr.1, hc]; rfl
    · rw [bind_run, Res.bind_eq_ok] at h2
      obtain ⟨⟨x, st2⟩, h3, h4⟩ := h2
      rw [bind_run, Res.bind_eq_ok] at h4
      obtain ⟨⟨xs, st3⟩, h5, h6⟩ := h4
      simp only [pure_run, Res.ok.injEq, Prod.mk.injEq] at h6
      obtain ⟨rfl, rfl⟩ := h6
      obtain ⟨t, ht, rfl, hr1, hr2⟩ := hrec _ _ _ h3
      obtain ⟨ts, hts, hxs, hr3, hr4⟩ := ih _ _ h5
      dsimp only at hr1 hr2 hr3 hr4 hxs ⊢
      refine ⟨t :: ts, ⟨ht, hts⟩, by simp [prints, hxs], ?_, ?_⟩
      · rw [hr1, hr3]; simp [prints]
      · simp [prints]; omega

theorem consumeDictLoop_sound {rec : P Bytes}
    (hrec : ∀ st raw st', rec st = .ok (raw, st') → ∃ t, CV t ∧ raw = t.print ∧ Reads st t.print st')
    (k : Nat) (last : Bytes) (st : St) (raw : Bytes) (st' : St) (h : consumeDictLoop rec k last st = .ok (raw, st')) :
    ∃ es, ValidEs true (2 ^ 63) last es ∧ raw = printEs es ∧ st.rest = printEs es ++ 101 :: st'.rest ∧
      st'.off = st.off + (printEs es).length := by
  induction k generalizing st raw last with
  | zero => simp [consumeDictLoop] at h
  | succ k ih =>
    simp only [consumeDictLoop, bind_run] at h
    rw [Res.bind_eq_ok] at h
    obtain ⟨⟨c, st1⟩, h1, h2⟩ := h
    rw [peekByte_ok] at h1
    obtain ⟨rfl, r, hr⟩ := h1
    dsimp only at h2
    split at h2
    · rename_i hc
      rw [bind_run, Res.bind_eq_ok] at h2
      obtain ⟨⟨c', st2⟩, h3, h4⟩ := h2
      rw [readByte_ok] at h3
      simp only [pure_run, Res.ok.injEq, Prod.mk.injEq] at h4
      obtain ⟨rfl, rfl⟩ := h4
      refine ⟨[], by simp [ValidEs], by simp [printEs], ?_, by simp [printEs, h3.2]⟩
      rw [h3.1] at hr
      simp at hr
      rw [h3.1, hr.1, hc]; rfl
    · rw [bind_run, Res.bind_eq_ok] at h2
      obtain ⟨⟨⟨key, kraw⟩, st2⟩, h3, h4⟩ := h2
      rw [consumeString_ok] at h3
      obtain ⟨l, hl, e1, e2, e3⟩ := h3
      dsimp only at h4 hl e1 e2 e3
      split at h4
      · simp at h4
      · rename_i hlt
        simp only [Bool.not_eq_true', Bool.not_eq_false, bltB_iff] at hlt
        rw [bind_run, Res.bind_eq_ok] at h4
        obtain ⟨⟨x, st3⟩, h5, h6⟩ := h4
        rw [bind_run, Res.bind_eq_ok] at h6
        obtain ⟨⟨xs, st4⟩, h7, h8⟩ := h6
        simp only [pure_run, Res.ok.injEq, Prod.mk.injEq] at h8
        obtain ⟨rfl, rfl⟩ := h8
        obtain ⟨t, ht, rfl, hr1, hr2⟩ := hrec _ _ _ h5
        obtain ⟨es, hes, hxs, hr3, hr4⟩ := ih _ _ _ h7
        dsimp only at hr1 hr2 hr3 hr4 hxs ⊢
        refine ⟨(l, key, t) :: es, ⟨hl, hlt, ht, hes⟩, by simp [printEs, hxs, e1], ?_, ?_⟩
        · rw [e2, hr1, hr3]; simp [printEs]
        · simp at e3; simp [printEs]; omega

theorem consume_sound (n : Nat) (st : St) (raw : Bytes) (st' : St) (h : consume n st = .ok (raw, st')) :
    ∃ t, CV t ∧ raw = t.print ∧ Reads st t.print st' := by
  induction n generalizing st raw st' with
  | zero => simp [consume] at h
  | succ n ih =>
    simp only [consume, bind_run] at h
    rw [Res.bind_eq_ok] at h
    obtain ⟨⟨c, st1⟩, h1, h2⟩ := h
    rw [peekByte_ok] at h1
    obtain ⟨rfl, r, hr⟩ := h1
    dsimp only at h2
    split at h2
    · rw [consumeInt_ok] at h2
      obtain ⟨s, i, h1, h2, h3, h4, h5, h6, h7⟩ := h2
      subst h5
      exact ⟨.int s i, ⟨h1, h2, h3, h4⟩, rfl, h6, h7⟩
    split at h2
    · unfold consumeList at h2
      rw [bind_run, Res.bind_eq_ok] at h2
      obtain ⟨⟨c', st2⟩, h3, h4⟩ := h2
      rw [readByte_ok] at h3
      dsimp only at h3 h4
      split at h4
      · simp at h4
      · rename_i hc
        simp only [ne_eq, Decidable.not_not] at hc
        subst hc
        simp only [bind_run, adv_run, Res.bind_ok] at h4
        rw [Res.bind_eq_ok] at h4
        obtain ⟨⟨rs, st3⟩, h5, h6⟩ := h4
        simp only [pure_run, Res.ok.injEq, Prod.mk.injEq] at h6
        obtain ⟨rfl, rfl⟩ := h6
        obtain ⟨ts, hts, rfl, e1, e2⟩ := consumeListLoop_sound ih _ _ _ _ h5
        refine ⟨.list ts, hts, rfl, ?_, ?_⟩
        · rw [h3.1, e1]; simp [CTree.print]
        · dsimp only at e2 ⊢; rw [e2, h3.2]; simp [CTree.print]; omega
    split at h2
    · unfold consumeDict at h2
      rw [bind_run, Res.bind_eq_ok] at h2
      obtain ⟨⟨c', st2⟩, h3, h4⟩ := h2
      rw [readByte_ok] at h3
      dsimp only at h3 h4
      split at h4
      · simp at h4
      · rename_i hc
        simp only [ne_eq, Decidable.not_not] at hc
        subst hc
        simp only [bind_run, adv_run, Res.bind_ok] at h4
        rw [Res.bind_eq_ok] at h4
        obtain ⟨⟨rs, st3⟩, h5, h6⟩ := h4
        simp only [pure_run, Res.ok.injEq, Prod.mk.injEq] at h6
        obtain ⟨rfl, rfl⟩ := h6
        obtain ⟨ts, hts, rfl, e1, e2⟩ := consumeDictLoop_sound ih _ _ _ _ _ h5
        refine ⟨.dict ts, hts, rfl, ?_, ?_⟩
        · rw [h3.1, e1]; simp [CTree.print]
        · dsimp only at e2 ⊢; rw [e2, h3.2]; simp [CTree.print]; omega
    split at h2
    · rename_i hd
      rw [bind_run, Res.bind_eq_ok] at h2
      obtain ⟨⟨x, st2⟩, h3, h4⟩ := h2
      rw [consumeString_ok] at h3
      obtain ⟨l, hl, e1, e2, e3⟩ := h3
      simp only [pure_run, Res.ok.injEq, Prod.mk.injEq] at h4
      obtain ⟨rfl, rfl⟩ := h4
      refine ⟨.str l x.1, ⟨hl, fun _ => ?_⟩, e1, e2, e3⟩
      cases l with
      | nil =>
        rcases hl.1 with ⟨m, h, _⟩ | ⟨ds, m, e, _⟩ | ⟨ds, m, e, _⟩
        · exact absurd rfl h.1
        · simp at e
        · simp at e
      | cons y ys =>
        rw [hr] at e2
        simp at e2
        exact ⟨y, ys, rfl, by rw [← e2.1]; exact (isDigit_iff _).mp hd⟩
    · simp at h2

/-- First byte of a text, as `consume` and `decodeInterface` look at it. -/
theorem print_head (t : CTree) (h : t.Valid true hi) :
    ∃ c r, t.print = c :: r ∧ (match t with
      | .int _ _ => c = 105 | .list _ => c = 108 | .dict _ => c = 100 | .str _ _ => Digit c) := by
  cases t with
  | int s n => exact ⟨105, _, rfl, rfl⟩
  | list ts => exact ⟨108, _, rfl, rfl⟩
  | dict es => exact ⟨100, _, rfl, rfl⟩
  | str l b =>
    obtain ⟨c, r, rfl, hc⟩ := h.2 rfl
    exact ⟨c, r ++ 58 :: b, rfl, hc⟩

theorem digit_ne {c : UInt8} (h : Digit c) : c ≠ 105 ∧ c ≠ 108 ∧ c ≠ 100 ∧ c ≠ 101 := by
  unfold Digit at h
  refine ⟨?_, ?_, ?_, ?_⟩ <;> (rintro rfl; simp at h)

theorem print_head_ne (t : CTree) (h : t.Valid true hi) : ∃ c r, t.print = c :: r ∧ c ≠ 101 := by
  obtain ⟨c, r, e, hc⟩ := print_head t h
  refine ⟨c, r, e, ?_⟩
  cases t with
  | int s n => simp only at hc; subst hc; decide
  | list ts => simp only at hc; subst hc; decide
  | dict es => simp only at hc; subst hc; decide
  | str l b => exact (digit_ne hc).2.2.2

theorem lenText_head {l b : Bytes} (h : LenText l b) : ∃ c r, l = c :: r ∧ c ≠ 101 := by
  have hm := not_mem_of_snumeral h.1 101 not_digit_101 (by decide) (by decide)
  cases l with
  | nil =>
    rcases h.1 with ⟨m, h, _⟩ | ⟨ds, m, e, _⟩ | ⟨ds, m, e, _⟩
    · exact absurd rfl h.1
    · simp at e
    · simp at e
  | cons c r =>
    refine ⟨c, r, rfl, ?_⟩
    rintro rfl; simp at hm

theorem print_length_pos (t : CTree) (h : t.Valid true hi) : 0 < t.print.length := by
  obtain ⟨c, r, e, _⟩ := print_head t h
  simp [e]

mutual
/-- `consume` accepts every well-formed text and copies it. -/
theorem consume_complete (t : CTree) (h : CV t) (n : Nat) (hn : t.print.length ≤ n) (ext : Bytes) (off : Nat) :
    consume n ⟨t.print ++ ext, off⟩ = .ok (t.print, ⟨ext, off + t.print.length⟩) := by
  match t, n with
  | .int s i, 0 => simp [CTree.print] at hn
  | .list ts, 0 => simp [CTree.print] at hn
  | .dict es, 0 => simp [CTree.print] at hn
  | .str l b, 0 => simp [CTree.print] at hn
  | .int s i, n + 1 =>
    have hv : consumeInt ⟨(CTree.int s i).print ++ ext, off⟩ = _ :=
      (consumeInt_ok ⟨(CTree.int s i).print ++ ext, off⟩ (CTree.int s i).print ⟨ext, off + (CTree.int s i).print.length⟩).mpr
        ⟨s, i, h.1, h.2.1, h.2.2.1, h.2.2.2, rfl, rfl, rfl⟩
    rw [← hv]
    simp [consume, CTree.print]
  | .str l b, n + 1 =>
    obtain ⟨c, r, rfl, hc⟩ := h.2 rfl
    obtain ⟨n1, n2, n3, _⟩ := digit_ne hc
    have hv := (consumeString_ok ⟨(CTree.str (c :: r) b).print ++ ext, off⟩ (b, (CTree.str (c :: r) b).print)
      ⟨ext, off + (CTree.str (c :: r) b).print.length⟩).mpr ⟨c :: r, h.1, rfl, rfl, rfl⟩
    simp only [CTree.print, List.cons_append] at hv ⊢
    simp only [consume, bind_run, peekByte_run, Res.bind_ok, n1, n2, n3, if_false, (isDigit_iff c).mpr hc, if_true, hv,
      pure_run]
  | .list ts, n + 1 =>
    have hl := consume_list_complete ts h n (by simp [CTree.print] at hn; omega) n
      (by simp [CTree.print] at hn; omega) ext (off + 1)
    simp only [CTree.print, List.cons_append, List.append_assoc, List.nil_append] at hl ⊢
    simp only [consume, bind_run, peekByte_run, Res.bind_ok, consumeList]
    simp only [show ((108 : UInt8) = 105) = False by decide, if_false, if_true, ne_eq, not_true_eq_false, bind_run,
      readByte_run, Res.bind_ok, adv_run, hl, pure_run, Res.ok.injEq, Prod.mk.injEq, List.cons_append, true_and]
    simp; omega
  | .dict es, n + 1 =>
    have hl := consume_dict_complete es [] h n (by simp [CTree.print] at hn; omega) n
      (by simp [CTree.print] at hn; omega) ext (off + 1)
    simp only [CTree.print, List.cons_append, List.append_assoc, List.nil_append] at hl ⊢
    simp only [consume, bind_run, peekByte_run, Res.bind_ok, consumeDict]
    simp only [show ((100 : UInt8) = 105) = False by decide, show ((100 : UInt8) = 108) = False by decide,
      if_false, if_true, ne_eq, not_true_eq_false, bind_run,
      readByte_run, Res.bind_ok, adv_run, hl, pure_run, Res.ok.injEq, Prod.mk.injEq, List.cons_append, true_and]
    simp; omega
theorem consume_list_complete (ts : List CTree) (h : Valids true (2 ^ 63) ts) (n : Nat) (hn : (prints ts).length ≤ n)
    (k : Nat) (hk : (prints ts).length < k) (ext : Bytes) (off : Nat) :
    consumeListLoop (consume n) k ⟨prints ts ++ 101 :: ext, off⟩ =
      .ok (prints ts, ⟨ext, off + (prints ts).length⟩) := by
  match ts, k with
  | ts, 0 => omega
  | [], k + 1 => simp [consumeListLoop, prints]
  | t :: ts, k + 1 =>
    have hp := print_length_pos t h.1
    simp only [prints, List.length_append] at hn hk
    have h1 := consume_complete t h.1 n (by omega) (prints ts ++ 101 :: ext) off
    have h2 := consume_list_complete ts h.2 n (by omega) k (by omega) ext (off + t.print.length)
    obtain ⟨c, r, e, hc⟩ := print_head_ne t h.1
    have hpk : peekByte ⟨t.print ++ (prints ts ++ 101 :: ext), off⟩ = .ok (c, ⟨t.print ++ (prints ts ++ 101 :: ext), off⟩) := by
      rw [e]; rfl
    simp only [consumeListLoop, prints, List.append_assoc, bind_run, hpk, Res.bind_ok, hc, if_false, h1, h2, pure_run,
      List.length_append, Nat.add_assoc]
theorem consume_dict_complete (es : List (Bytes × Bytes × CTree)) (last : Bytes) (h : ValidEs true (2 ^ 63) last es) (n : Nat)
    (hn : (printEs es).length ≤ n) (k : Nat) (hk : (printEs es).length < k) (ext : Bytes) (off : Nat) :
    consumeDictLoop (consume n) k last ⟨printEs es ++ 101 :: ext, off⟩ =
      .ok (printEs es, ⟨ext, off + (printEs es).length⟩) := by
  match es, k with
  | es, 0 => omega
  | [], k + 1 => simp [consumeDictLoop, printEs]
  | (l, key, t) :: es, k + 1 =>
    obtain ⟨hl, hlt, ht, hes⟩ := h
    have hp := print_length_pos t ht
    simp only [printEs, List.length_append, List.length_cons] at hn hk
    have h0 := (consumeString_ok ⟨l ++ 58 :: key ++ (t.print ++ (printEs es ++ 101 :: ext)), off⟩ (key, l ++ 58 :: key)
      ⟨t.print ++ (printEs es ++ 101 :: ext), off + (l ++ 58 :: key).length⟩).mpr ⟨l, hl, rfl, rfl, rfl⟩
    have h1 := consume_complete t ht n (by omega) (printEs es ++ 101 :: ext) (off + (l ++ 58 :: key).length)
    have h2 := consume_dict_complete es key hes n (by omega) k (by omega) ext (off + (l ++ 58 :: key).length + t.print.length)
    obtain ⟨c, r, e, hc⟩ := lenText_head hl
    have hpk : ∀ x, peekByte ⟨l ++ x, off⟩ = .ok (c, ⟨l ++ x, off⟩) := by intro x; rw [e]; rfl
    simp only [List.append_assoc, List.cons_append] at h0
    simp only [consumeDictLoop, printEs, List.append_assoc, List.cons_append, bind_run, hpk, Res.bind_ok, hc, if_false, h0,
      (bltB_iff last key).mpr hlt, Bool.not_true, Bool.false_eq_true, h1, h2, pure_run, Res.ok.injEq, Prod.mk.injEq,
      true_and]
    simp; omega
end

end Drip.Bencode
