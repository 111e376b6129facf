import Verif.Model.Bencode.Depth
import Verif.Props.BencodePass
import Verif.Model.Tracker
import Verif.Model.KernelRfl
/-
C130: how deep the calls of Unmarshal are nested.
-/

namespace Drip.Bencode
open Spec

theorem decodeIn_any_eq (env : Env) (k n : Nat) (fl : Flags) :
    decodeIn env k (n + 1) fl .any .nilIface = decodeNilAny (fun t => decodeFlat (decodeIn env k n) (consumeIn k n) k { addr := true } t (zero t)) fl := rfl

/-! ### Reading -/

mutual
theorem anyIn_ok (env : Env) (k : Nat) (t : CTree) (h : CV t) (n : Nat) (hn : t.levels ≤ n) (hk : t.print.length ≤ k) (fl : Flags) (hfl : fl.settable = true) (ext : Bytes) (off : Nat) :
    decodeIn env k n fl .any .nilIface ⟨t.print ++ ext, off⟩ = .ok (toAny t.abs, ⟨ext, off + t.print.length⟩) := by
  match t, n with
  | .int s i, 0 => simp [CTree.levels] at hn
  | .list ts, 0 => simp [CTree.levels] at hn
  | .dict es, 0 => simp [CTree.levels] at hn
  | .str l b, 0 => simp [CTree.levels] at hn
  | .int s i, n + 1 =>
    have hv := (getInt_ok ⟨105 :: (s ++ 101 :: ext), off⟩ i ⟨ext, off + (s.length + 2)⟩).mpr
      ⟨s, h.1, h.2.1, h.2.2.1, h.2.2.2, rfl, rfl⟩
    simp only [decodeIn_any_eq, decodeNilAny, decodeFlat, CTree.print, List.cons_append, List.append_assoc,
      List.nil_append, bind_run, peekByte_run, Res.bind_ok, if_true, hv, setVal_run hfl, CTree.abs, toAny]
    rw [setVal_run rfl]
    simp only [Res.bind_ok]
    rw [wrapInt_64 i h.2.2.1 h.2.2.2]
    simp
  | .str l b, n + 1 =>
    obtain ⟨c, r, rfl, hc⟩ := h.2 rfl
    obtain ⟨n1, n2, n3, _⟩ := digit_ne hc
    have hv := (getString_ok ⟨(CTree.str (c :: r) b).print ++ ext, off⟩ b
      ⟨ext, off + (CTree.str (c :: r) b).print.length⟩).mpr ⟨c :: r, h.1, rfl, rfl⟩
    simp only [CTree.print, List.cons_append] at hv ⊢
    simp only [decodeIn_any_eq, decodeNilAny, decodeFlat, bind_run, peekByte_run, Res.bind_ok, n1, n2, n3, if_false,
      (isDigit_iff c).mpr hc, if_true, hv]
    rw [setVal_run rfl]
    simp only [Res.bind_ok]
    rw [setVal_run hfl]
    simp [CTree.abs, toAny]
  | .list ts, n + 1 =>
    have hl := anyIn_list_ok env k ts h n (by simp only [CTree.levels] at hn; omega) (by simp [CTree.print] at hk; omega) k
      (by simp [CTree.print] at hk; omega) [] ext (off + 1)
    simp only [CTree.print, List.cons_append, List.append_assoc, List.nil_append] at hl ⊢
    simp only [decodeIn_any_eq, decodeNilAny, decodeFlat, decodeSlice, zero, bind_run, peekByte_run, Res.bind_ok,
      show ((108 : UInt8) = 105) = False by decide, if_false, if_true, readByte_run, ne_eq, not_true_eq_false, adv_run]
    rw [show Flags.settable ({ addr := true }) = true from rfl, if_pos rfl, bind_run, hl]
    simp only [Res.bind_ok, bind_run, adv_run, pure_run, setVal_run hfl, CTree.abs, toAny, Res.ok.injEq, Prod.mk.injEq,
      true_and]
    simp; omega
  | .dict es, n + 1 =>
    have hl := anyIn_dict_ok env k es [] h n (by simp only [CTree.levels] at hn; omega) (by simp [CTree.print] at hk; omega) k
      (by simp [CTree.print] at hk; omega) [] (by intro e he; simp at he) ext (off + 1)
    simp only [CTree.print, List.cons_append, List.append_assoc, List.nil_append] at hl ⊢
    simp only [decodeIn_any_eq, decodeNilAny, decodeFlat, decodeMap, zero, bind_run, peekByte_run, Res.bind_ok,
      show ((100 : UInt8) = 105) = False by decide, show ((100 : UInt8) = 108) = False by decide,
      if_false, if_true, readByte_run, ne_eq, not_true_eq_false, adv_run]
    rw [show Flags.settable ({ addr := true }) = true from rfl, if_pos rfl, bind_run, hl]
    simp only [Res.bind_ok, bind_run, adv_run, pure_run, setVal_run hfl, CTree.abs, toAny, Res.ok.injEq, Prod.mk.injEq,
      true_and]
    simp; omega
theorem anyIn_list_ok (env : Env) (k0 : Nat) (ts : List CTree) (h : Valids true (2 ^ 63) ts) (n : Nat) (hn : levelss ts ≤ n) (hk0 : (prints ts).length ≤ k0)
    (k : Nat) (hk : (prints ts).length < k) (pre : List Val) (ext : Bytes) (off : Nat) :
    decodeSliceLoop (decodeIn env k0 n) { addr := true } .any k pre [] ⟨prints ts ++ 101 :: ext, off⟩ =
      .ok (pre ++ toAnys (abss ts), ⟨ext, off + (prints ts).length⟩) := by
  match ts, k with
  | ts, 0 => omega
  | [], k + 1 => simp [decodeSliceLoop, prints, abss, toAnys]
  | t :: ts, k + 1 =>
    have hp := print_length_pos t h.1
    simp only [prints, List.length_append] at hk hk0
    simp only [levelss] at hn
    have h1 := anyIn_ok env k0 t h.1 n (by omega) (by omega) { addr := true } rfl (prints ts ++ 101 :: ext) off
    have h2 := anyIn_list_ok env k0 ts h.2 n (by omega) (by omega) k (by omega) (pre ++ [toAny t.abs]) ext (off + t.print.length)
    obtain ⟨c, r, e, hc⟩ := print_head_ne t h.1
    have hpk : peekByte ⟨t.print ++ (prints ts ++ 101 :: ext), off⟩ = .ok (c, ⟨t.print ++ (prints ts ++ 101 :: ext), off⟩) := by
      rw [e]; rfl
    simp only [decodeSliceLoop, prints, List.append_assoc, bind_run, hpk, Res.bind_ok, hc, if_false, zero]
    rw [show Flags.settable ({ addr := true }) = true from rfl, if_pos rfl, bind_run, h1]
    simp only [Res.bind_ok, h2, abss, toAnys, List.append_assoc, List.cons_append, List.nil_append, List.length_append,
      Nat.add_assoc]
theorem anyIn_dict_ok (env : Env) (k0 : Nat) (es : List (Bytes × Bytes × CTree)) (last : Bytes) (h : ValidEs true (2 ^ 63) last es) (n : Nat) (hn : levelsEs es ≤ n)
    (hk0 : (printEs es).length ≤ k0) (k : Nat) (hk : (printEs es).length < k) (m : List (Bytes × Val)) (hm : KeysLe last m) (ext : Bytes) (off : Nat) :
    decodeMapLoop (decodeIn env k0 n) .any k last m ⟨printEs es ++ 101 :: ext, off⟩ =
      .ok (m ++ toAnyEs (absEs es), ⟨ext, off + (printEs es).length⟩) := by
  match es, k with
  | es, 0 => omega
  | [], k + 1 => simp [decodeMapLoop, printEs, absEs, toAnyEs]
  | (l, key, t) :: es, k + 1 =>
    obtain ⟨hl, hlt, ht, hes⟩ := h
    have hp := print_length_pos t ht
    simp only [printEs, List.length_append, List.length_cons] at hk hk0
    simp only [levelsEs] at hn
    have h0 := (getString_ok ⟨l ++ 58 :: key ++ (t.print ++ (printEs es ++ 101 :: ext)), off⟩ key
      ⟨t.print ++ (printEs es ++ 101 :: ext), off + (l ++ 58 :: key).length⟩).mpr ⟨l, hl, rfl, rfl⟩
    have h1 := anyIn_ok env k0 t ht n (by omega) (by omega) { addr := true } rfl (printEs es ++ 101 :: ext) (off + (l ++ 58 :: key).length)
    have h2 := anyIn_dict_ok env k0 es key hes n (by omega) (by omega) k (by omega) (m ++ [(key, toAny t.abs)]) (hm.snoc hlt) ext
      (off + (l ++ 58 :: key).length + t.print.length)
    obtain ⟨c, r, e, hc⟩ := lenText_head hl
    have hpk : ∀ x, peekByte ⟨l ++ x, off⟩ = .ok (c, ⟨l ++ x, off⟩) := by intro x; rw [e]; rfl
    simp only [List.append_assoc, List.cons_append] at h0
    simp only [decodeMapLoop, printEs, List.append_assoc, List.cons_append, bind_run, hpk, Res.bind_ok, hc, if_false, h0,
      (bltB_iff last key).mpr hlt, Bool.not_true, Bool.false_eq_true, zero, h1, setKey_new _ _ _ (hm.ne hlt), h2,
      absEs, toAnyEs, List.nil_append, Res.ok.injEq, Prod.mk.injEq, true_and]
    simp; omega
end

mutual
theorem anyIn_deep (env : Env) (k : Nat) (t : CTree) (h : CV t) (n : Nat) (hn : n < t.levels) (hk : t.print.length ≤ k) (fl : Flags) (hfl : fl.settable = true) (ext : Bytes) (off : Nat) :
    decodeIn env k n fl .any .nilIface ⟨t.print ++ ext, off⟩ = .err .fuel := by
  match t, n with
  | _, 0 => rfl
  | .int s i, n + 1 => simp [CTree.levels] at hn
  | .str l b, n + 1 => simp [CTree.levels] at hn
  | .list ts, n + 1 =>
    have hl := anyIn_list_deep env k ts h n (by simp only [CTree.levels] at hn; omega) (by simp [CTree.print] at hk; omega) k
      (by simp [CTree.print] at hk; omega) [] ext (off + 1)
    simp only [CTree.print, List.cons_append, List.append_assoc, List.nil_append] at hl ⊢
    simp only [decodeIn_any_eq, decodeNilAny, decodeFlat, decodeSlice, zero, bind_run, peekByte_run, Res.bind_ok,
      show ((108 : UInt8) = 105) = False by decide, if_false, if_true, readByte_run, ne_eq, not_true_eq_false, adv_run]
    rw [show Flags.settable ({ addr := true }) = true from rfl, if_pos rfl, bind_run, hl]
    rfl
  | .dict es, n + 1 =>
    have hl := anyIn_dict_deep env k es [] h n (by simp only [CTree.levels] at hn; omega) (by simp [CTree.print] at hk; omega) k
      (by simp [CTree.print] at hk; omega) [] (by intro e he; simp at he) ext (off + 1)
    simp only [CTree.print, List.cons_append, List.append_assoc, List.nil_append] at hl ⊢
    simp only [decodeIn_any_eq, decodeNilAny, decodeFlat, decodeMap, zero, bind_run, peekByte_run, Res.bind_ok,
      show ((100 : UInt8) = 105) = False by decide, show ((100 : UInt8) = 108) = False by decide,
      if_false, if_true, readByte_run, ne_eq, not_true_eq_false, adv_run]
    rw [show Flags.settable ({ addr := true }) = true from rfl, if_pos rfl, bind_run, hl]
    rfl
theorem anyIn_list_deep (env : Env) (k0 : Nat) (ts : List CTree) (h : Valids true (2 ^ 63) ts) (n : Nat) (hn : n < levelss ts) (hk0 : (prints ts).length ≤ k0)
    (k : Nat) (hk : (prints ts).length < k) (pre : List Val) (ext : Bytes) (off : Nat) :
    decodeSliceLoop (decodeIn env k0 n) { addr := true } .any k pre [] ⟨prints ts ++ 101 :: ext, off⟩ = .err .fuel := by
  match ts, k with
  | ts, 0 => omega
  | [], k + 1 => simp [levelss] at hn
  | t :: ts, k + 1 =>
    have hp := print_length_pos t h.1
    simp only [prints, List.length_append] at hk hk0
    simp only [levelss] at hn
    obtain ⟨c, r, e, hc⟩ := print_head_ne t h.1
    have hpk : peekByte ⟨t.print ++ (prints ts ++ 101 :: ext), off⟩ = .ok (c, ⟨t.print ++ (prints ts ++ 101 :: ext), off⟩) := by
      rw [e]; rfl
    simp only [decodeSliceLoop, prints, List.append_assoc, bind_run, hpk, Res.bind_ok, hc, if_false, zero]
    rw [show Flags.settable ({ addr := true }) = true from rfl, if_pos rfl, bind_run]
    by_cases ht : n < t.levels
    · rw [anyIn_deep env k0 t h.1 n ht (by omega) { addr := true } rfl (prints ts ++ 101 :: ext) off]
      rfl
    · rw [anyIn_ok env k0 t h.1 n (by omega) (by omega) { addr := true } rfl (prints ts ++ 101 :: ext) off]
      exact anyIn_list_deep env k0 ts h.2 n (by omega) (by omega) k (by omega) (pre ++ [toAny t.abs]) ext (off + t.print.length)
theorem anyIn_dict_deep (env : Env) (k0 : Nat) (es : List (Bytes × Bytes × CTree)) (last : Bytes) (h : ValidEs true (2 ^ 63) last es) (n : Nat) (hn : n < levelsEs es)
    (hk0 : (printEs es).length ≤ k0) (k : Nat) (hk : (printEs es).length < k) (m : List (Bytes × Val)) (hm : KeysLe last m) (ext : Bytes) (off : Nat) :
    decodeMapLoop (decodeIn env k0 n) .any k last m ⟨printEs es ++ 101 :: ext, off⟩ = .err .fuel := by
  match es, k with
  | es, 0 => omega
  | [], k + 1 => simp [levelsEs] at hn
  | (l, key, t) :: es, k + 1 =>
    obtain ⟨hl, hlt, ht, hes⟩ := h
    have hp := print_length_pos t ht
    simp only [printEs, List.length_append, List.length_cons] at hk hk0
    simp only [levelsEs] at hn
    have h0 := (getString_ok ⟨l ++ 58 :: key ++ (t.print ++ (printEs es ++ 101 :: ext)), off⟩ key
      ⟨t.print ++ (printEs es ++ 101 :: ext), off + (l ++ 58 :: key).length⟩).mpr ⟨l, hl, rfl, rfl⟩
    obtain ⟨c, r, e, hc⟩ := lenText_head hl
    have hpk : ∀ x, peekByte ⟨l ++ x, off⟩ = .ok (c, ⟨l ++ x, off⟩) := by intro x; rw [e]; rfl
    simp only [List.append_assoc, List.cons_append] at h0
    simp only [decodeMapLoop, printEs, List.append_assoc, List.cons_append, bind_run, hpk, Res.bind_ok, hc, if_false, h0,
      (bltB_iff last key).mpr hlt, Bool.not_true, Bool.false_eq_true, zero]
    by_cases hx : n < t.levels
    · rw [anyIn_deep env k0 t ht n hx (by omega) { addr := true } rfl (printEs es ++ 101 :: ext) _]
      rfl
    · rw [anyIn_ok env k0 t ht n (by omega) (by omega) { addr := true } rfl (printEs es ++ 101 :: ext) _]
      simp only [Res.bind_ok, setKey_new _ _ _ (hm.ne hlt)]
      exact anyIn_dict_deep env k0 es key hes n (by omega) (by omega) k (by omega) (m ++ [(key, toAny t.abs)]) (hm.snoc hlt) ext _
end

/-! ### Skipping -/

mutual
theorem consumeIn_ok (k : Nat) (t : CTree) (h : CV t) (n : Nat) (hn : t.levels ≤ n) (hk : t.print.length ≤ k) (ext : Bytes) (off : Nat) :
    consumeIn k n ⟨t.print ++ ext, off⟩ = .ok (t.print, ⟨ext, off + t.print.length⟩) := by
  match t, n with
  | .int s i, 0 => simp [CTree.levels] at hn
  | .list ts, 0 => simp [CTree.levels] at hn
  | .dict es, 0 => simp [CTree.levels] at hn
  | .str l b, 0 => simp [CTree.levels] at hn
  | .int s i, n + 1 =>
    have hv : consumeInt ⟨(CTree.int s i).print ++ ext, off⟩ = _ :=
      (consumeInt_ok ⟨(CTree.int s i).print ++ ext, off⟩ (CTree.int s i).print ⟨ext, off + (CTree.int s i).print.length⟩).mpr
        ⟨s, i, h.1, h.2.1, h.2.2.1, h.2.2.2, rfl, rfl, rfl⟩
    rw [← hv]
    simp [consumeIn, CTree.print]
  | .str l b, n + 1 =>
    obtain ⟨c, r, rfl, hc⟩ := h.2 rfl
    obtain ⟨n1, n2, n3, _⟩ := digit_ne hc
    have hv := (consumeString_ok ⟨(CTree.str (c :: r) b).print ++ ext, off⟩ (b, (CTree.str (c :: r) b).print)
      ⟨ext, off + (CTree.str (c :: r) b).print.length⟩).mpr ⟨c :: r, h.1, rfl, rfl, rfl⟩
    simp only [CTree.print, List.cons_append] at hv ⊢
    simp only [consumeIn, bind_run, peekByte_run, Res.bind_ok, n1, n2, n3, if_false, (isDigit_iff c).mpr hc, if_true, hv,
      pure_run]
  | .list ts, n + 1 =>
    have hl := consumeIn_list_ok k ts h n (by simp only [CTree.levels] at hn; omega) (by simp [CTree.print] at hk; omega) k
      (by simp [CTree.print] at hk; omega) ext (off + 1)
    simp only [CTree.print, List.cons_append, List.append_assoc, List.nil_append] at hl ⊢
    simp only [consumeIn, bind_run, peekByte_run, Res.bind_ok, consumeList]
    simp only [show ((108 : UInt8) = 105) = False by decide, if_false, if_true, ne_eq, not_true_eq_false, bind_run,
      readByte_run, Res.bind_ok, adv_run, hl, pure_run, Res.ok.injEq, Prod.mk.injEq, List.cons_append, true_and]
    simp; omega
  | .dict es, n + 1 =>
    have hl := consumeIn_dict_ok k es [] h n (by simp only [CTree.levels] at hn; omega) (by simp [CTree.print] at hk; omega) k
      (by simp [CTree.print] at hk; omega) ext (off + 1)
    simp only [CTree.print, List.cons_append, List.append_assoc, List.nil_append] at hl ⊢
    simp only [consumeIn, bind_run, peekByte_run, Res.bind_ok, consumeDict]
    simp only [show ((100 : UInt8) = 105) = False by decide, show ((100 : UInt8) = 108) = False by decide,
      if_false, if_true, ne_eq, not_true_eq_false, bind_run,
      readByte_run, Res.bind_ok, adv_run, hl, pure_run, Res.ok.injEq, Prod.mk.injEq, List.cons_append, true_and]
    simp; omega
theorem consumeIn_list_ok (k0 : Nat) (ts : List CTree) (h : Valids true (2 ^ 63) ts) (n : Nat) (hn : levelss ts ≤ n) (hk0 : (prints ts).length ≤ k0)
    (k : Nat) (hk : (prints ts).length < k) (ext : Bytes) (off : Nat) :
    consumeListLoop (consumeIn k0 n) k ⟨prints ts ++ 101 :: ext, off⟩ = .ok (prints ts, ⟨ext, off + (prints ts).length⟩) := by
  match ts, k with
  | ts, 0 => omega
  | [], k + 1 => simp [consumeListLoop, prints]
  | t :: ts, k + 1 =>
    have hp := print_length_pos t h.1
    simp only [prints, List.length_append] at hk hk0
    simp only [levelss] at hn
    have h1 := consumeIn_ok k0 t h.1 n (by omega) (by omega) (prints ts ++ 101 :: ext) off
    have h2 := consumeIn_list_ok k0 ts h.2 n (by omega) (by omega) k (by omega) ext (off + t.print.length)
    obtain ⟨c, r, e, hc⟩ := print_head_ne t h.1
    have hpk : peekByte ⟨t.print ++ (prints ts ++ 101 :: ext), off⟩ = .ok (c, ⟨t.print ++ (prints ts ++ 101 :: ext), off⟩) := by
      rw [e]; rfl
    simp only [consumeListLoop, prints, List.append_assoc, bind_run, hpk, Res.bind_ok, hc, if_false, h1, h2, pure_run,
      List.length_append, Nat.add_assoc]
theorem consumeIn_dict_ok (k0 : Nat) (es : List (Bytes × Bytes × CTree)) (last : Bytes) (h : ValidEs true (2 ^ 63) last es) (n : Nat) (hn : levelsEs es ≤ n)
    (hk0 : (printEs es).length ≤ k0) (k : Nat) (hk : (printEs es).length < k) (ext : Bytes) (off : Nat) :
    consumeDictLoop (consumeIn k0 n) k last ⟨printEs es ++ 101 :: ext, off⟩ = .ok (printEs es, ⟨ext, off + (printEs es).length⟩) := by
  match es, k with
  | es, 0 => omega
  | [], k + 1 => simp [consumeDictLoop, printEs]
  | (l, key, t) :: es, k + 1 =>
    obtain ⟨hl, hlt, ht, hes⟩ := h
    have hp := print_length_pos t ht
    simp only [printEs, List.length_append, List.length_cons] at hk hk0
    simp only [levelsEs] at hn
    have h0 := (consumeString_ok ⟨l ++ 58 :: key ++ (t.print ++ (printEs es ++ 101 :: ext)), off⟩ (key, l ++ 58 :: key)
      ⟨t.print ++ (printEs es ++ 101 :: ext), off + (l ++ 58 :: key).length⟩).mpr ⟨l, hl, rfl, rfl, rfl⟩
    have h1 := consumeIn_ok k0 t ht n (by omega) (by omega) (printEs es ++ 101 :: ext) (off + (l ++ 58 :: key).length)
    have h2 := consumeIn_dict_ok k0 es key hes n (by omega) (by omega) k (by omega) ext (off + (l ++ 58 :: key).length + t.print.length)
    obtain ⟨c, r, e, hc⟩ := lenText_head hl
    have hpk : ∀ x, peekByte ⟨l ++ x, off⟩ = .ok (c, ⟨l ++ x, off⟩) := by intro x; rw [e]; rfl
    simp only [List.append_assoc, List.cons_append] at h0
    simp only [consumeDictLoop, printEs, List.append_assoc, List.cons_append, bind_run, hpk, Res.bind_ok, hc, if_false, h0,
      (bltB_iff last key).mpr hlt, Bool.not_true, Bool.false_eq_true, h1, h2, pure_run, Res.ok.injEq, Prod.mk.injEq, true_and]
    simp; omega
end

mutual
theorem consumeIn_deep (k : Nat) (t : CTree) (h : CV t) (n : Nat) (hn : n < t.levels) (hk : t.print.length ≤ k) (ext : Bytes) (off : Nat) :
    consumeIn k n ⟨t.print ++ ext, off⟩ = .err .fuel := by
  match t, n with
  | _, 0 => rfl
  | .int s i, n + 1 => simp [CTree.levels] at hn
  | .str l b, n + 1 => simp [CTree.levels] at hn
  | .list ts, n + 1 =>
    have hl := consumeIn_list_deep k ts h n (by simp only [CTree.levels] at hn; omega) (by simp [CTree.print] at hk; omega) k
      (by simp [CTree.print] at hk; omega) ext (off + 1)
    simp only [CTree.print, List.cons_append, List.append_assoc, List.nil_append] at hl ⊢
    simp only [consumeIn, bind_run, peekByte_run, Res.bind_ok, consumeList]
    simp only [show ((108 : UInt8) = 105) = False by decide, if_false, if_true, ne_eq, not_true_eq_false, bind_run,
      readByte_run, Res.bind_ok, adv_run, hl]
    rfl
  | .dict es, n + 1 =>
    have hl := consumeIn_dict_deep k es [] h n (by simp only [CTree.levels] at hn; omega) (by simp [CTree.print] at hk; omega) k
      (by simp [CTree.print] at hk; omega) ext (off + 1)
    simp only [CTree.print, List.cons_append, List.append_assoc, List.nil_append] at hl ⊢
    simp only [consumeIn, bind_run, peekByte_run, Res.bind_ok, consumeDict]
    simp only [show ((100 : UInt8) = 105) = False by decide, show ((100 : UInt8) = 108) = False by decide,
      if_false, if_true, ne_eq, not_true_eq_false, bind_run,
      readByte_run, Res.bind_ok, adv_run, hl]
    rfl
theorem consumeIn_list_deep (k0 : Nat) (ts : List CTree) (h : Valids true (2 ^ 63) ts) (n : Nat) (hn : n < levelss ts) (hk0 : (prints ts).length ≤ k0)
    (k : Nat) (hk : (prints ts).length < k) (ext : Bytes) (off : Nat) :
    consumeListLoop (consumeIn k0 n) k ⟨prints ts ++ 101 :: ext, off⟩ = .err .fuel := by
  match ts, k with
  | ts, 0 => omega
  | [], k + 1 => simp [levelss] at hn
  | t :: ts, k + 1 =>
    have hp := print_length_pos t h.1
    simp only [prints, List.length_append] at hk hk0
    simp only [levelss] at hn
    obtain ⟨c, r, e, hc⟩ := print_head_ne t h.1
    have hpk : peekByte ⟨t.print ++ (prints ts ++ 101 :: ext), off⟩ = .ok (c, ⟨t.print ++ (prints ts ++ 101 :: ext), off⟩) := by
      rw [e]; rfl
    simp only [consumeListLoop, prints, List.append_assoc, bind_run, hpk, Res.bind_ok, hc, if_false]
    by_cases ht : n < t.levels
    · rw [consumeIn_deep k0 t h.1 n ht (by omega) (prints ts ++ 101 :: ext) off]
      rfl
    · rw [consumeIn_ok k0 t h.1 n (by omega) (by omega) (prints ts ++ 101 :: ext) off]
      simp only [Res.bind_ok]
      rw [consumeIn_list_deep k0 ts h.2 n (by omega) (by omega) k (by omega) ext (off + t.print.length)]
      rfl
theorem consumeIn_dict_deep (k0 : Nat) (es : List (Bytes × Bytes × CTree)) (last : Bytes) (h : ValidEs true (2 ^ 63) last es) (n : Nat) (hn : n < levelsEs es)
    (hk0 : (printEs es).length ≤ k0) (k : Nat) (hk : (printEs es).length < k) (ext : Bytes) (off : Nat) :
    consumeDictLoop (consumeIn k0 n) k last ⟨printEs es ++ 101 :: ext, off⟩ = .err .fuel := by
  match es, k with
  | es, 0 => omega
  | [], k + 1 => simp [levelsEs] at hn
  | (l, key, t) :: es, k + 1 =>
    obtain ⟨hl, hlt, ht, hes⟩ := h
    have hp := print_length_pos t ht
    simp only [printEs, List.length_append, List.length_cons] at hk hk0
    simp only [levelsEs] at hn
    have h0 := (consumeString_ok ⟨l ++ 58 :: key ++ (t.print ++ (printEs es ++ 101 :: ext)), off⟩ (key, l ++ 58 :: key)
      ⟨t.print ++ (printEs es ++ 101 :: ext), off + (l ++ 58 :: key).length⟩).mpr ⟨l, hl, rfl, rfl, rfl⟩
    obtain ⟨c, r, e, hc⟩ := lenText_head hl
    have hpk : ∀ x, peekByte ⟨l ++ x, off⟩ = .ok (c, ⟨l ++ x, off⟩) := by intro x; rw [e]; rfl
    simp only [List.append_assoc, List.cons_append] at h0
    simp only [consumeDictLoop, printEs, List.append_assoc, List.cons_append, bind_run, hpk, Res.bind_ok, hc, if_false, h0,
      (bltB_iff last key).mpr hlt, Bool.not_true, Bool.false_eq_true]
    by_cases hx : n < t.levels
    · rw [consumeIn_deep k0 t ht n hx (by omega) (printEs es ++ 101 :: ext) _]
      rfl
    · rw [consumeIn_ok k0 t ht n (by omega) (by omega) (printEs es ++ 101 :: ext) _]
      simp only [Res.bind_ok]
      rw [consumeIn_dict_deep k0 es key hes n (by omega) (by omega) k (by omega) ext _]
      rfl
end

/-! ### C130 -/

mutual
theorem levels_le : ∀ t : CTree, t.levels ≤ t.print.length
  | .int s n => by simp [CTree.levels, CTree.print]
  | .str l b => by simp [CTree.levels, CTree.print]; omega
  | .list ts => by have := levelss_le ts; simp [CTree.levels, CTree.print]; omega
  | .dict es => by have := levelsEs_le es; simp [CTree.levels, CTree.print]; omega
theorem levelss_le : ∀ ts : List CTree, levelss ts ≤ (prints ts).length
  | [] => Nat.le_refl _
  | t :: ts => by have h1 := levels_le t; have h2 := levelss_le ts; simp [levelss, prints]; omega
theorem levelsEs_le : ∀ es : List (Bytes × Bytes × CTree), levelsEs es ≤ (printEs es).length
  | [] => Nat.le_refl _
  | (l, k, t) :: es => by have h1 := levels_le t; have h2 := levelsEs_le es; simp [levelsEs, printEs]; omega
end

/-- **C130**, what is true: the calls are nested exactly as deep as the values in the text; if so many can be nested, Unmarshal does what it does, else the process ends. Missing: a limit that does not
depend on the text (`C130_refuted`). -/
theorem C130_exactly_partial (env : Env) (t : CTree) (h : t.Valid true (2 ^ 63)) (rest : Bytes) (d : Nat) :
    unmarshalIn d env .any .nilIface (t.print ++ rest) = if t.levels ≤ d then unmarshal env .any .nilIface (t.print ++ rest) else .err .fuel := by
  have hk : t.print.length ≤ fuelFor (t.print ++ rest) := by simp [fuelFor]; omega
  split
  · next hd =>
    rw [(C12_accepts_iff env (t.print ++ rest) (toAny t.abs)).mpr ⟨t, rest, rfl, h, rfl⟩]
    unfold unmarshalIn
    rw [anyIn_ok env _ t h d hd hk { addr := true } rfl rest 0]
    rfl
  · next hd =>
    unfold unmarshalIn
    rw [anyIn_deep env _ t h d (by omega) hk { addr := true } rfl rest 0]
    rfl

/-- **C130**, what is true: so the length of the text is a bound. -/
theorem C130_bound_partial (env : Env) (bs : Bytes) (x : Val) (h : unmarshal env .any .nilIface bs = .ok x) (d : Nat) (hd : bs.length ≤ d) : unmarshalIn d env .any .nilIface bs = .ok x := by
  obtain ⟨t, rest, rfl, h2, rfl⟩ := (C12_accepts_iff env bs x).mp h
  rw [C130_exactly_partial env t h2 rest d, if_pos, h]
  have := levels_le t
  rw [List.length_append] at hd
  omega

theorem struct_unknown {rec : Dec} {skip : P Bytes} {T : Ty} {v : Val} {l key : Bytes} (hl : LenText l key) (hne : key ≠ []) (hkey : lookupKey key (keyToField T) = none) (t rest : Bytes) (k : Nat) :
    decodeStruct rec skip { addr := true } T v (k + 2) ⟨100 :: (l ++ 58 :: (key ++ (t ++ 101 :: rest))), 0⟩ =
      skip ⟨t ++ 101 :: rest, 1 + (l ++ 58 :: key).length⟩ >>= fun x => decodeStructLoop rec skip { addr := true } T (k + 1) key v x.2 >>= fun y => .ok (y.1, { y.2 with off := y.2.off + 1 }) := by
  have hlt : BLt [] key := by
    cases key with
    | nil => exact absurd rfl hne
    | cons c r => trivial
  have h0 := (getString_ok ⟨l ++ 58 :: key ++ (t ++ 101 :: rest), 1⟩ key ⟨t ++ 101 :: rest, 1 + (l ++ 58 :: key).length⟩).mpr ⟨l, hl, rfl, rfl⟩
  obtain ⟨c, r, e, hc⟩ := lenText_head hl
  have hpk : ∀ x o, peekByte ⟨l ++ x, o⟩ = .ok (c, ⟨l ++ x, o⟩) := by intro x o; rw [e]; rfl
  simp only [List.append_assoc, List.cons_append] at h0
  simp only [decodeStruct, bind_run, readByte_run, Res.bind_ok, ne_eq, not_true_eq_false, if_false, adv_run]
  rw [decodeStructLoop]
  simp only [bind_run, hpk, hc, h0, Nat.zero_add, Res.bind_ok, if_false, (bltB_iff [] key).mpr hlt, Bool.not_true, Bool.false_eq_true, hkey]
  cases skip ⟨t ++ 101 :: rest, 1 + (l ++ 58 :: key).length⟩ with
  | ok x => rfl
  | err e => rfl
  | panic => rfl

/-- **C130**, what is true: a value at a key that is none of a struct's keys is not stored, but the calls that skip it are nested as deep as it is. -/
theorem C130_skipped_partial (env : Env) (id : Nat) (fs : List (Hdr × Ty)) (v : Val) (l key : Bytes) (hl : LenText l key) (hne : key ≠ []) (hkey : lookupKey key (keyToField (.struct id fs)) = none)
    (t : CTree) (h : t.Valid true (2 ^ 63)) (rest : Bytes) (d : Nat) :
    unmarshal env (.struct id fs) v (100 :: (l ++ 58 :: (key ++ (t.print ++ 101 :: rest)))) = .ok v ∧
    unmarshalIn (d + 1) env (.struct id fs) v (100 :: (l ++ 58 :: (key ++ (t.print ++ 101 :: rest)))) = if t.levels ≤ d then .ok v else .err .fuel := by
  generalize hf : fuelFor (100 :: (l ++ 58 :: (key ++ (t.print ++ 101 :: rest)))) = k
  have hk : t.print.length + 3 ≤ k := by rw [← hf]; simp [fuelFor]; omega
  unfold unmarshal unmarshalSt unmarshalIn
  rw [hf]
  obtain ⟨k, rfl⟩ : ∃ k', k = k' + 3 := ⟨k - 3, by omega⟩
  have hv : decodeIn env (k + 1 + 2) (d + 1) { addr := true } (.struct id fs) v =
      decodeStruct (decodeIn env (k + 3) d) (consumeIn (k + 3) d) { addr := true } (.struct id fs) v (k + 1 + 2) := by
    show decodeVal env _ _ _ v _ _ = _
    cases v <;> rfl
  have hv' : decode env (k + 3) { addr := true } (.struct id fs) v = decodeStruct (decode env (k + 2)) (consume (k + 2)) { addr := true } (.struct id fs) v (k + 2) := by
    show decodeVal env _ _ _ v _ _ = _
    cases v <;> rfl
  rw [hv, hv', struct_unknown hl hne hkey, struct_unknown hl hne hkey]
  constructor
  · rw [consume_complete t h (k + 2) (by omega)]
    rw [Res.bind_ok, decodeStructLoop]
    simp only [bind_run, peekByte_run, readByte_run, if_true, pure_run, Res.bind_ok, Res.map]
  · split
    · next hd =>
      rw [consumeIn_ok (k + 3) t h d hd (by omega)]
      rw [Res.bind_ok, decodeStructLoop]
      simp only [bind_run, peekByte_run, readByte_run, if_true, pure_run, Res.bind_ok, Res.map]
    · next hd =>
      rw [consumeIn_deep (k + 3) t h d (by omega) (by omega)]
      rfl

/-- `n + 1` lists within each other. -/
def deepC : Nat → CTree
  | 0 => .list []
  | n + 1 => .list [deepC n]

theorem deepC_valid : ∀ n, (deepC n).Valid true (2 ^ 63)
  | 0 => by simp [deepC, CTree.Valid, Valids]
  | n + 1 => by simp only [deepC, CTree.Valid, Valids]; exact ⟨deepC_valid n, trivial⟩

theorem deepC_levels : ∀ n, (deepC n).levels = n + 1
  | 0 => rfl
  | n + 1 => by simp only [deepC, CTree.levels, levelss, deepC_levels n]; omega

theorem deepC_length : ∀ n, (deepC n).print.length = 2 * n + 2
  | 0 => rfl
  | n + 1 => by
    have := deepC_length n
    simp only [deepC, CTree.print, prints, List.append_nil, List.cons_append, List.length_cons, List.length_append, List.length_nil]
    omega

/-- **C130 is false** of the code: however many calls can be nested, a text of two bytes for each of them ends the process. (It is a valid text, which could be read with more nested calls.) -/
theorem C130_refuted (d : Nat) : ∃ text x, text.length = 2 * d + 2 ∧ unmarshal noEnv .any .nilIface text = .ok x ∧ unmarshalIn d noEnv .any .nilIface text = .err .fuel := by
  have h1 := C130_exactly_partial noEnv (deepC d) (deepC_valid d) [] d
  rw [if_neg (by rw [deepC_levels]; omega), List.append_nil] at h1
  exact ⟨_, toAny (deepC d).abs, deepC_length d, (C12_accepts_iff _ _ _).mpr ⟨deepC d, [], (List.append_nil _).symm, deepC_valid d, rfl⟩, h1⟩

theorem lenText_x : LenText b!"1" b!"x" := ⟨.inl ⟨1, ⟨by decide, by simp [Digit], rfl⟩, rfl⟩, by decide⟩
theorem response_x : lookupKey b!"x" (keyToField (.struct 23 Tracker.responseFields)) = none := by kernel_rfl
theorem response_zero : Tracker.Response.ofVal (zero Tracker.responseTy) = some ⟨b!"", 0, none, b!"", 0, b!"", 0, 0⟩ := by kernel_rfl

/-- **C130 is false** of the code: a tracker can do so, with an entry that the client does not even know. -/
theorem C130_tracker_refuted (d : Nat) : ∃ text r, text.length = 2 * d + 7 ∧ Tracker.unmarshalResponse text = .ok r ∧
    unmarshalIn (d + 1) Tracker.trackerEnv Tracker.responseTy (zero Tracker.responseTy) text = .err .fuel := by
  obtain ⟨h1, h2⟩ := C130_skipped_partial Tracker.trackerEnv 23 Tracker.responseFields (zero Tracker.responseTy) b!"1" b!"x" lenText_x (by decide) response_x (deepC d)
    (deepC_valid d) [] d
  rw [if_neg (by rw [deepC_levels]; omega)] at h2
  have hlen : (100 :: (b!"1" ++ 58 :: (b!"x" ++ ((deepC d).print ++ 101 :: []))) : Bytes).length = 2 * d + 7 := by
    have := deepC_length d
    simp only [List.length_cons, List.length_append, List.length_nil, this]
    omega
  generalize (100 :: (b!"1" ++ 58 :: (b!"x" ++ ((deepC d).print ++ 101 :: []))) : Bytes) = text at h1 h2 hlen
  refine ⟨text, ⟨b!"", 0, none, b!"", 0, b!"", 0, 0⟩, hlen, ?_, h2⟩
  unfold Tracker.unmarshalResponse
  rw [show unmarshal Tracker.trackerEnv Tracker.responseTy (zero Tracker.responseTy) text = .ok (zero Tracker.responseTy) from h1]
  simp only [Res.bind_ok, response_zero]
/-- The text `d1:xlll` … `eeee` needs 4 levels. -/
example : (CTree.dict [(b!"1", b!"x", deepC 2)]).levels = 4 ∧ (CTree.dict [(b!"1", b!"x", deepC 2)]).print = b!"d1:xllleeee" ∧
    unmarshalIn 4 noEnv .any .nilIface b!"d1:xllleeee" = .ok (toAny (.dict [(b!"x", deepB 2)])) ∧ unmarshalIn 3 noEnv .any .nilIface b!"d1:xllleeee" = .err .fuel :=
  ⟨by kernel_rfl, by kernel_rfl, by kernel_rfl, by kernel_rfl⟩

end Drip.Bencode
