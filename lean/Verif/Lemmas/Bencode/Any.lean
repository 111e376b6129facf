import Verif.Lemmas.Bencode.Unique
import Verif.Lemmas.Bencode.Fuel
import Verif.Spec.BencodeAny
/-
Decoding into a nil `any`.
-/

namespace Drip.Bencode
open Spec

theorem BLt.irrefl (a : Bytes) : ¬ BLt a a := by
  induction a with
  | nil => simp [BLt]
  | cons x xs ih => simp [BLt, ih]

theorem BLt.trans {a b c : Bytes} (h : BLt a b) (h' : BLt b c) : BLt a c := by
  induction a generalizing b c with
  | nil =>
    cases c with
    | nil => cases b <;> simp [BLt] at h'
    | cons z zs => simp [BLt]
  | cons x xs ih =>
    cases b with
    | nil => simp [BLt] at h
    | cons y ys =>
      cases c with
      | nil => simp [BLt] at h'
      | cons z zs =>
        simp only [BLt] at h h' ⊢
        rcases h with h | ⟨rfl, h⟩ <;> rcases h' with h' | ⟨rfl, h'⟩
        · left; omega
        · left; exact h
        · left; exact h'
        · right; exact ⟨rfl, ih h h'⟩

theorem BLt.total (a b : Bytes) : BLt a b ∨ a = b ∨ BLt b a := by
  induction a generalizing b with
  | nil => cases b <;> simp [BLt]
  | cons x xs ih =>
    cases b with
    | nil => simp [BLt]
    | cons y ys =>
      simp only [BLt, List.cons.injEq]
      rcases Nat.lt_trichotomy x.toNat y.toNat with h | h | h
      · exact .inl (.inl h)
      · have : x = y := UInt8.toNat_inj.mp h
        subst this
        rcases ih ys with h | h | h
        · exact .inl (.inr ⟨rfl, h⟩)
        · exact .inr (.inl ⟨rfl, h⟩)
        · exact .inr (.inr (.inr ⟨rfl, h⟩))
      · exact .inr (.inr (.inl h))

/-- A key that is not there is appended. -/
theorem setKey_new (key : Bytes) (v : Val) (m : List (Bytes × Val)) (h : ∀ e ∈ m, e.1 ≠ key) :
    setKey key v m = m ++ [(key, v)] := by
  induction m with
  | nil => rfl
  | cons e m ih =>
    obtain ⟨k, w⟩ := e
    have h1 := h (k, w) (by simp)
    simp only [setKey, h1, if_false, List.cons_append]
    rw [ih fun e he => h e (by simp [he])]

/-- All keys of `m` are at most `last`. -/
def KeysLe {α : Type} (last : Bytes) (m : List (Bytes × α)) : Prop := ∀ e ∈ m, e.1 = last ∨ BLt e.1 last

theorem KeysLe.ne {α : Type} {last key : Bytes} {m : List (Bytes × α)} (h : KeysLe last m) (hk : BLt last key) :
    ∀ e ∈ m, e.1 ≠ key := by
  intro e he heq
  rcases h e he with h1 | h1
  · rw [heq] at h1; rw [h1] at hk; exact BLt.irrefl _ hk
  · rw [heq] at h1; exact BLt.irrefl _ (BLt.trans hk h1)

theorem KeysLe.snoc {α : Type} {last key : Bytes} {m : List (Bytes × α)} {v : α} (h : KeysLe last m) (hk : BLt last key) :
    KeysLe key (m ++ [(key, v)]) := by
  intro e he
  rcases List.mem_append.mp he with he | he
  · rcases h e he with h1 | h1
    · rw [h1]; exact .inr hk
    · exact .inr (BLt.trans h1 hk)
  · simp at he; exact .inl (by rw [he])

/-- The fields of an element decoder for `any`. -/
def AnyOK (rec : Dec) : Prop := ∀ st v st', rec { addr := true } .any .nilIface st = .ok (v, st') →
  ∃ t, CV t ∧ v = toAny t.abs ∧ Reads st t.print st'

theorem sliceLoop_any_sound {rec : Dec} (hrec : AnyOK rec) (k : Nat) (pre : List Val) (st : St) (vs : List Val) (st' : St)
    (h : decodeSliceLoop rec { addr := true } .any k pre [] st = .ok (vs, st')) :
    ∃ ts, Valids true (2 ^ 63) ts ∧ vs = pre ++ toAnys (abss ts) ∧ st.rest = prints ts ++ 101 :: st'.rest ∧
      st'.off = st.off + (prints ts).length := by
  induction k generalizing st pre with
  | zero => simp [decodeSliceLoop] at h
  | succ k ih =>
    simp only [decodeSliceLoop, bind_run] at h
    rw [Res.bind_eq_ok] at h
    obtain ⟨⟨c, st1⟩, h1, h2⟩ := h
    rw [peekByte_ok] at h1
    obtain ⟨rfl, r, hr⟩ := h1
    dsimp only at h2
    split at h2
    · rename_i hc
      rw [bind_run, Res.bind_eq_ok] at h2
      obtain ⟨⟨c', st2⟩, h3, h4⟩ := h2
      rw [readByte_ok] at h3
      simp only [pure_run, Res.ok.injEq, Prod.mk.injEq] at h4
      obtain ⟨rfl, rfl⟩ := h4
      refine ⟨[], trivial, by simp [abss, toAnys], ?_, by simp [prints, h3.2]⟩
      rw [h3.1] at hr
      simp at hr
      rw [h3.1, hr.1, hc]; rfl
    · replace h2 := h2
      rw [show (Flags.settable { addr := true }) = true from rfl] at h2
      simp only [if_true, zero] at h2
      rw [bind_run, Res.bind_eq_ok] at h2
      obtain ⟨⟨x, st2⟩, h3, h4⟩ := h2
      obtain ⟨t, ht, rfl, hr1, hr2⟩ := hrec _ _ _ h3
      obtain ⟨ts, hts, rfl, hr3, hr4⟩ := ih _ _ h4
      dsimp only at hr1 hr2 hr3 hr4 ⊢
      refine ⟨t :: ts, ⟨ht, hts⟩, by simp [abss, toAnys], ?_, ?_⟩
      · rw [hr1, hr3]; simp [prints]
      · simp [prints]; omega

theorem mapLoop_any_sound {rec : Dec} (hrec : AnyOK rec) (k : Nat) (last : Bytes) (m : List (Bytes × Val))
    (hm : KeysLe last m) (st : St)
    (es' : List (Bytes × Val)) (st' : St) (h : decodeMapLoop rec .any k last m st = .ok (es', st')) :
    ∃ es, ValidEs true (2 ^ 63) last es ∧ es' = m ++ toAnyEs (absEs es) ∧ st.rest = printEs es ++ 101 :: st'.rest ∧
      st'.off = st.off + (printEs es).length := by
  induction k generalizing st last m with
  | zero => simp [decodeMapLoop] at h
  | succ k ih =>
    simp only [decodeMapLoop, bind_run] at h
    rw [Res.bind_eq_ok] at h
    obtain ⟨⟨c, st1⟩, h1, h2⟩ := h
    rw [peekByte_ok] at h1
    obtain ⟨rfl, r, hr⟩ := h1
    dsimp only at h2
    split at h2
    · rename_i hc
      rw [bind_run, Res.bind_eq_ok] at h2
      obtain ⟨⟨c', st2⟩, h3, h4⟩ := h2
      rw [readByte_ok] at h3
      simp only [pure_run, Res.ok.injEq, Prod.mk.injEq] at h4
      obtain ⟨rfl, rfl⟩ := h4
      refine ⟨[], trivial, by simp [absEs, toAnyEs], ?_, by simp [printEs, h3.2]⟩
      rw [h3.1] at hr
      simp at hr
      rw [h3.1, hr.1, hc]; rfl
    · rw [bind_run, Res.bind_eq_ok] at h2
      obtain ⟨⟨key, st2⟩, h3, h4⟩ := h2
      rw [getString_ok] at h3
      obtain ⟨l, hl, e2, e3⟩ := h3
      dsimp only at h4 hl e2 e3
      split at h4
      · simp at h4
      · rename_i hlt
        simp only [Bool.not_eq_true', Bool.not_eq_false, bltB_iff] at hlt
        rw [bind_run, Res.bind_eq_ok] at h4
        obtain ⟨⟨x, st3⟩, h5, h6⟩ := h4
        obtain ⟨t, ht, rfl, hr1, hr2⟩ := hrec _ _ _ h5
        dsimp only at h6
        rw [setKey_new _ _ _ (hm.ne hlt)] at h6
        obtain ⟨es, hes, rfl, hr3, hr4⟩ := ih _ _ (hm.snoc hlt) _ h6
        refine ⟨(l, key, t) :: es, ⟨hl, hlt, ht, hes⟩, by simp [absEs, toAnyEs], ?_, ?_⟩
        · rw [e2, hr1, hr3]; simp [printEs]
        · simp at e3; simp [printEs]; omega

theorem setVal_run {fl : Flags} (h : fl.settable = true) (x : Val) (st : St) : setVal fl x st = .ok (x, st) := by
  simp [setVal, h]

theorem setVal_ok {fl : Flags} {x y : Val} {st st' : St} (h : setVal fl x st = .ok (y, st')) : y = x ∧ st' = st := by
  unfold setVal at h
  split at h
  · simp at h; exact ⟨h.1.symm, h.2.symm⟩
  · simp at h

theorem wrapInt_64 (i : Int) (h1 : -2 ^ 63 ≤ i) (h2 : i < 2 ^ 63) : wrapInt 64 i = i := by
  unfold wrapInt; omega

theorem any_sound (env : Env) (n : Nat) (fl : Flags) (st : St) (v : Val) (st' : St)
    (h : decode env n fl .any .nilIface st = .ok (v, st')) : ∃ t, CV t ∧ v = toAny t.abs ∧ Reads st t.print st' := by
  induction n generalizing fl st v st' with
  | zero => simp [decode] at h
  | succ n ih =>
    rw [decode_any_eq] at h
    unfold decodeNilAny at h
    rw [bind_run, Res.bind_eq_ok] at h
    obtain ⟨⟨c, st1⟩, h1, h2⟩ := h
    rw [peekByte_ok] at h1
    obtain ⟨rfl, r, hr⟩ := h1
    dsimp only at h2
    split at h2
    · rw [bind_run, Res.bind_eq_ok] at h2
      obtain ⟨⟨x, st2⟩, h3, h4⟩ := h2
      obtain ⟨rfl, rfl⟩ := setVal_ok h4
      simp only [decodeFlat] at h3
      rw [bind_run, Res.bind_eq_ok] at h3
      obtain ⟨⟨i, st3⟩, h5, h6⟩ := h3
      obtain ⟨rfl, rfl⟩ := setVal_ok h6
      rw [getInt_ok] at h5
      obtain ⟨s, a1, a2, a3, a4, a5, a6⟩ := h5
      refine ⟨.int s i, ⟨a1, a2, a3, a4⟩, ?_, ?_, ?_⟩
      · simp only [CTree.abs, toAny]; rw [wrapInt_64 i a3 a4]
      · rw [a5]; simp [CTree.print]
      · rw [a6]; simp [CTree.print]
    split at h2
    · rw [bind_run, Res.bind_eq_ok] at h2
      obtain ⟨⟨x, st2⟩, h3, h4⟩ := h2
      obtain ⟨rfl, rfl⟩ := setVal_ok h4
      simp only [decodeFlat, decodeSlice] at h3
      rw [bind_run, Res.bind_eq_ok] at h3
      obtain ⟨⟨c', st3⟩, h5, h6⟩ := h3
      rw [readByte_ok] at h5
      dsimp only at h5 h6
      split at h6
      · simp at h6
      · rename_i hc
        simp only [ne_eq, Decidable.not_not] at hc
        subst hc
        simp only [bind_run, adv_run, Res.bind_ok, zero] at h6
        rw [show (Flags.settable { addr := true }) = true from rfl, if_pos rfl, bind_run, Res.bind_eq_ok] at h6
        obtain ⟨⟨vs, st4⟩, h7, h8⟩ := h6
        simp only [bind_run, adv_run, Res.bind_ok, pure_run, Res.ok.injEq, Prod.mk.injEq] at h8
        obtain ⟨rfl, rfl⟩ := h8
        obtain ⟨ts, hts, rfl, e1, e2⟩ := sliceLoop_any_sound (fun st v st' => ih _ st v st') _ _ _ _ _ h7
        dsimp only at e1 e2
        refine ⟨.list ts, hts, by simp [CTree.abs, toAny], ?_, ?_⟩
        · rw [h5.1, e1]; simp [CTree.print]
        · dsimp only; rw [e2, h5.2]; simp [CTree.print]; omega
    split at h2
    · rw [bind_run, Res.bind_eq_ok] at h2
      obtain ⟨⟨x, st2⟩, h3, h4⟩ := h2
      obtain ⟨rfl, rfl⟩ := setVal_ok h4
      simp only [decodeFlat, decodeMap] at h3
      rw [bind_run, Res.bind_eq_ok] at h3
      obtain ⟨⟨c', st3⟩, h5, h6⟩ := h3
      rw [readByte_ok] at h5
      dsimp only at h5 h6
      split at h6
      · simp at h6
      · rename_i hc
        simp only [ne_eq, Decidable.not_not] at hc
        subst hc
        simp only [bind_run, adv_run, Res.bind_ok, zero] at h6
        rw [show (Flags.settable { addr := true }) = true from rfl, if_pos rfl, bind_run, Res.bind_eq_ok] at h6
        obtain ⟨⟨vs, st4⟩, h7, h8⟩ := h6
        simp only [bind_run, adv_run, Res.bind_ok, pure_run, Res.ok.injEq, Prod.mk.injEq] at h8
        obtain ⟨rfl, rfl⟩ := h8
        obtain ⟨ts, hts, rfl, e1, e2⟩ := mapLoop_any_sound (fun st v st' => ih _ st v st') _ _ _ (by intro e he; simp at he)
          _ _ _ h7
        dsimp only at e1 e2
        refine ⟨.dict ts, hts, by simp [CTree.abs, toAny], ?_, ?_⟩
        · rw [h5.1, e1]; simp [CTree.print]
        · dsimp only; rw [e2, h5.2]; simp [CTree.print]; omega
    split at h2
    · rename_i hd
      rw [bind_run, Res.bind_eq_ok] at h2
      obtain ⟨⟨x, st2⟩, h3, h4⟩ := h2
      obtain ⟨rfl, rfl⟩ := setVal_ok h4
      simp only [decodeFlat] at h3
      rw [bind_run, Res.bind_eq_ok] at h3
      obtain ⟨⟨b, st3⟩, h5, h6⟩ := h3
      obtain ⟨rfl, rfl⟩ := setVal_ok h6
      rw [getString_ok] at h5
      obtain ⟨l, hl, e2, e3⟩ := h5
      refine ⟨.str l b, ⟨hl, fun _ => ?_⟩, rfl, e2, e3⟩
      obtain ⟨c', r', hc', -⟩ := lenText_head hl
      subst hc'
      rw [e2] at hr
      simp at hr
      exact ⟨c', r', rfl, by rw [hr.1]; exact (isDigit_iff _).mp hd⟩
    · simp at h2

mutual
theorem any_complete (env : Env) (t : CTree) (h : CV t) (n : Nat) (hn : t.print.length ≤ n) (fl : Flags)
    (hfl : fl.settable = true) (ext : Bytes) (off : Nat) :
    decode env n fl .any .nilIface ⟨t.print ++ ext, off⟩ = .ok (toAny t.abs, ⟨ext, off + t.print.length⟩) := by
  match t, n with
  | .int s i, 0 => simp [CTree.print] at hn
  | .list ts, 0 => simp [CTree.print] at hn
  | .dict es, 0 => simp [CTree.print] at hn
  | .str l b, 0 => simp [CTree.print] at hn
  | .int s i, n + 1 =>
    have hv := (getInt_ok ⟨105 :: (s ++ 101 :: ext), off⟩ i ⟨ext, off + (s.length + 2)⟩).mpr
      ⟨s, h.1, h.2.1, h.2.2.1, h.2.2.2, rfl, rfl⟩
    simp only [decode_any_eq, decodeNilAny, decodeFlat, CTree.print, List.cons_append, List.append_assoc,
      List.nil_append, bind_run, peekByte_run, Res.bind_ok, if_true, hv, setVal_run hfl, CTree.abs, toAny]
    rw [setVal_run rfl]
    simp only [Res.bind_ok]
    rw [wrapInt_64 i h.2.2.1 h.2.2.2]
    simp
  | .str l b, n + 1 =>
    obtain ⟨c, r, rfl, hc⟩ := h.2 rfl
    obtain ⟨n1, n2, n3, _⟩ := digit_ne hc
    have hv := (getString_ok ⟨(CTree.str (c :: r) b).print ++ ext, off⟩ b
      ⟨ext, off + (CTree.str (c :: r) b).print.length⟩).mpr ⟨c :: r, h.1, rfl, rfl⟩
    simp only [CTree.print, List.cons_append] at hv ⊢
    simp only [decode_any_eq, decodeNilAny, decodeFlat, bind_run, peekByte_run, Res.bind_ok, n1, n2, n3, if_false,
      (isDigit_iff c).mpr hc, if_true, hv]
    rw [setVal_run rfl]
    simp only [Res.bind_ok]
    rw [setVal_run hfl]
    simp [CTree.abs, toAny]
  | .list ts, n + 1 =>
    have hl := any_list_complete env ts h n (by simp [CTree.print] at hn; omega) n
      (by simp [CTree.print] at hn; omega) [] ext (off + 1)
    simp only [CTree.print, List.cons_append, List.append_assoc, List.nil_append] at hl ⊢
    simp only [decode_any_eq, decodeNilAny, decodeFlat, decodeSlice, zero, bind_run, peekByte_run, Res.bind_ok,
      show ((108 : UInt8) = 105) = False by decide, if_false, if_true, readByte_run, ne_eq, not_true_eq_false, adv_run]
    rw [show (Flags.settable { addr := true }) = true from rfl, if_pos rfl, bind_run, hl]
    simp only [Res.bind_ok, bind_run, adv_run, pure_run, setVal_run hfl, CTree.abs, toAny, Res.ok.injEq, Prod.mk.injEq,
      true_and]
    simp; omega
  | .dict es, n + 1 =>
    have hl := any_dict_complete env es [] h n (by simp [CTree.print] at hn; omega) n
      (by simp [CTree.print] at hn; omega) [] (by intro e he; simp at he) ext (off + 1)
    simp only [CTree.print, List.cons_append, List.append_assoc, List.nil_append] at hl ⊢
    simp only [decode_any_eq, decodeNilAny, decodeFlat, decodeMap, zero, bind_run, peekByte_run, Res.bind_ok,
      show ((100 : UInt8) = 105) = False by decide, show ((100 : UInt8) = 108) = False by decide,
      if_false, if_true, readByte_run, ne_eq, not_true_eq_false, adv_run]
    rw [show (Flags.settable { addr := true }) = true from rfl, if_pos rfl, bind_run, hl]
    simp only [Res.bind_ok, bind_run, adv_run, pure_run, setVal_run hfl, CTree.abs, toAny, Res.ok.injEq, Prod.mk.injEq,
      true_and]
    simp; omega
theorem any_list_complete (env : Env) (ts : List CTree) (h : Valids true (2 ^ 63) ts) (n : Nat)
    (hn : (prints ts).length ≤ n) (k : Nat) (hk : (prints ts).length < k) (pre : List Val) (ext : Bytes) (off : Nat) :
    decodeSliceLoop (decode env n) { addr := true } .any k pre [] ⟨prints ts ++ 101 :: ext, off⟩ =
      .ok (pre ++ toAnys (abss ts), ⟨ext, off + (prints ts).length⟩) := by
  match ts, k with
  | ts, 0 => omega
  | [], k + 1 => simp [decodeSliceLoop, prints, abss, toAnys]
  | t :: ts, k + 1 =>
    have hp := print_length_pos t h.1
    simp only [prints, List.length_append] at hn hk
    have h1 := any_complete env t h.1 n (by omega) { addr := true } rfl (prints ts ++ 101 :: ext) off
    have h2 := any_list_complete env ts h.2 n (by omega) k (by omega) (pre ++ [toAny t.abs]) ext (off + t.print.length)
    obtain ⟨c, r, e, hc⟩ := print_head_ne t h.1
    have hpk : peekByte ⟨t.print ++ (prints ts ++ 101 :: ext), off⟩ = .ok (c, ⟨t.print ++ (prints ts ++ 101 :: ext), off⟩) := by
      rw [e]; rfl
    simp only [decodeSliceLoop, prints, List.append_assoc, bind_run, hpk, Res.bind_ok, hc, if_false, zero]
    rw [show (Flags.settable { addr := true }) = true from rfl, if_pos rfl, bind_run, h1]
    simp only [Res.bind_ok, h2, abss, toAnys, List.append_assoc, List.cons_append, List.nil_append, List.length_append,
      Nat.add_assoc]
theorem any_dict_complete (env : Env) (es : List (Bytes × Bytes × CTree)) (last : Bytes)
    (h : ValidEs true (2 ^ 63) last es) (n : Nat)
    (hn : (printEs es).length ≤ n) (k : Nat) (hk : (printEs es).length < k) (m : List (Bytes × Val)) (hm : KeysLe last m)
    (ext : Bytes) (off : Nat) :
    decodeMapLoop (decode env n) .any k last m ⟨printEs es ++ 101 :: ext, off⟩ =
      .ok (m ++ toAnyEs (absEs es), ⟨ext, off + (printEs es).length⟩) := by
  match es, k with
  | es, 0 => omega
  | [], k + 1 => simp [decodeMapLoop, printEs, absEs, toAnyEs]
  | (l, key, t) :: es, k + 1 =>
    obtain ⟨hl, hlt, ht, hes⟩ := h
    have hp := print_length_pos t ht
    simp only [printEs, List.length_append, List.length_cons] at hn hk
    have h0 := (getString_ok ⟨l ++ 58 :: key ++ (t.print ++ (printEs es ++ 101 :: ext)), off⟩ key
      ⟨t.print ++ (printEs es ++ 101 :: ext), off + (l ++ 58 :: key).length⟩).mpr ⟨l, hl, rfl, rfl⟩
    have h1 := any_complete env t ht n (by omega) { addr := true } rfl (printEs es ++ 101 :: ext) (off + (l ++ 58 :: key).length)
    have h2 := any_dict_complete env es key hes n (by omega) k (by omega) (m ++ [(key, toAny t.abs)]) (hm.snoc hlt) ext
      (off + (l ++ 58 :: key).length + t.print.length)
    obtain ⟨c, r, e, hc⟩ := lenText_head hl
    have hpk : ∀ x, peekByte ⟨l ++ x, off⟩ = .ok (c, ⟨l ++ x, off⟩) := by intro x; rw [e]; rfl
    simp only [List.append_assoc, List.cons_append] at h0
    simp only [decodeMapLoop, printEs, List.append_assoc, List.cons_append, bind_run, hpk, Res.bind_ok, hc, if_false, h0,
      (bltB_iff last key).mpr hlt, Bool.not_true, Bool.false_eq_true, zero, h1, setKey_new _ _ _ (hm.ne hlt), h2,
      absEs, toAnyEs, List.nil_append, Res.ok.injEq, Prod.mk.injEq, true_and]
    simp; omega
end

end Drip.Bencode
