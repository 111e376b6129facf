import Verif.Props.BencodeDecode
import Verif.Spec.Again
/-
What becomes of a variable that is decoded into a second time: C131.
-/

namespace Drip.Bencode
open Spec

theorem setKey_eq (k : Bytes) (v : Val) (m : List (Bytes × Val)) : setKey k v m = setEntry k v m := by
  induction m with
  | nil => rfl
  | cons e m ih => obtain ⟨k', w⟩ := e; simp only [setKey, setEntry, ih]

theorem toAnyEs_set (k : Bytes) (v : BVal) (m : List (Bytes × BVal)) : toAnyEs (setEntry k v m) = setEntry k (toAny v) (toAnyEs m) := by
  induction m with
  | nil => rfl
  | cons e m ih =>
    obtain ⟨k', w⟩ := e
    simp only [setEntry, toAnyEs]
    split <;> simp [toAnyEs, ih]

theorem toAnyEs_union (new old : List (Bytes × BVal)) : toAnyEs (union old new) = union (toAnyEs old) (toAnyEs new) := by
  induction new generalizing old with
  | nil => rfl
  | cons e new ih =>
    obtain ⟨k, v⟩ := e
    show toAnyEs (union (setEntry k v old) new) = union (setEntry k (toAny v) (toAnyEs old)) (toAnyEs new)
    rw [ih, toAnyEs_set]

/-- A text that does not begin like a number is no string. -/
theorem getString_other {c : UInt8} (hc : ¬ Digit c) (h43 : c ≠ 43) (h45 : c ≠ 45) (h58 : c ≠ 58) (r : Bytes) (off : Nat) : getString ⟨c :: r, off⟩ = .err .syntax := by
  unfold getString
  rw [bind_run]
  cases h : readUntil 58 ⟨c :: r, off⟩ with
  | err e =>
    unfold readUntil at h
    split at h <;> simp_all
  | panic =>
    unfold readUntil at h
    split at h <;> simp_all
  | ok x =>
    obtain ⟨s, st⟩ := x
    obtain ⟨h1, _, _⟩ := (readUntil_ok _ _ _ _).mp h
    have hs : c ∈ s := by
      cases s with
      | nil => simp at h1; exact absurd h1.1 h58
      | cons d s => simp at h1; simp [h1.1]
    have hp : parseInt s = none := by
      cases hp : parseInt s with
      | none => rfl
      | some n => exact absurd hs (not_mem_of_snumeral ((parseInt_some s n).mp hp).1 c hc h43 h45)
    simp [hp]

theorem decode_iface (env : Env) (n : Nat) (fl : Flags) (t : Ty) (v : Val) :
    decode env (n + 1) fl .any (.iface t v) = (do let x ← decodeVal env (decode env n) (consume n) n v { addr := false, ro := fl.ro } t; pure (.iface t x)) := rfl

/-- Decoding into a map puts the entries into the old map. -/
theorem again_dict (env : Env) (es : List (Bytes × Bytes × CTree)) (last : Bytes)
    (h : ValidEs true (2 ^ 63) last es) (n : Nat)
    (hn : (printEs es).length ≤ n) (k : Nat) (hk : (printEs es).length < k) (m : List (Bytes × Val)) (ext : Bytes) (off : Nat) :
    decodeMapLoop (decode env n) .any k last m ⟨printEs es ++ 101 :: ext, off⟩ =
      .ok (union m (toAnyEs (absEs es)), ⟨ext, off + (printEs es).length⟩) := by
  match es, k with
  | es, 0 => omega
  | [], k + 1 => simp [decodeMapLoop, printEs, absEs, toAnyEs, union]
  | (l, key, t) :: es, k + 1 =>
    obtain ⟨hl, hlt, ht, hes⟩ := h
    have hp := print_length_pos t ht
    simp only [printEs, List.length_append, List.length_cons] at hn hk
    have h0 := (getString_ok ⟨l ++ 58 :: key ++ (t.print ++ (printEs es ++ 101 :: ext)), off⟩ key
      ⟨t.print ++ (printEs es ++ 101 :: ext), off + (l ++ 58 :: key).length⟩).mpr ⟨l, hl, rfl, rfl⟩
    have h1 := any_complete env t ht n (by omega) { addr := true } rfl (printEs es ++ 101 :: ext) (off + (l ++ 58 :: key).length)
    have h2 := again_dict env es key hes n (by omega) k (by omega) (setEntry key (toAny t.abs) m) ext
      (off + (l ++ 58 :: key).length + t.print.length)
    obtain ⟨c, r, e, hc⟩ := lenText_head hl
    have hpk : ∀ x, peekByte ⟨l ++ x, off⟩ = .ok (c, ⟨l ++ x, off⟩) := by intro x; rw [e]; rfl
    simp only [List.append_assoc, List.cons_append] at h0
    simp only [decodeMapLoop, printEs, List.append_assoc, List.cons_append, bind_run, hpk, Res.bind_ok, hc, if_false, h0,
      (bltB_iff last key).mpr hlt, Bool.not_true, Bool.false_eq_true, zero, h1, setKey_eq, h2,
      absEs, toAnyEs, List.nil_append, Res.ok.injEq, Prod.mk.injEq]
    refine ⟨rfl, ?_⟩
    simp; omega

mutual
theorem again_run (env : Env) (t : CTree) (h : CV t) (b : BVal) (n : Nat) (hn : t.print.length ≤ n) (fl : Flags) (ext : Bytes) (off : Nat) :
    decode env n fl .any (toAny b) ⟨t.print ++ ext, off⟩ = again b t.abs >>= fun x => .ok (toAny x, ⟨ext, off + t.print.length⟩) := by
  match t, n with
  | .int s i, 0 => simp [CTree.print] at hn
  | .list ts, 0 => simp [CTree.print] at hn
  | .dict es, 0 => simp [CTree.print] at hn
  | .str l b, 0 => simp [CTree.print] at hn
  | .int s i, n + 1 =>
    have hv := (getInt_ok ⟨105 :: (s ++ 101 :: ext), off⟩ i ⟨ext, off + (s.length + 2)⟩).mpr
      ⟨s, h.1, h.2.1, h.2.2.1, h.2.2.2, rfl, rfl⟩
    cases b with
    | int j =>
      simp only [toAny, decode_iface, CTree.print, List.cons_append, List.append_assoc, List.nil_append, bind_run, CTree.abs, again, decodeVal, decodeFlat, hv, Res.bind_ok, setVal, Flags.settable]
      rfl
    | str j =>
      simp only [toAny, decode_iface, CTree.print, List.cons_append, List.append_assoc, List.nil_append, bind_run, CTree.abs, again, decodeVal, decodeFlat,
        getString_other (c := 105) (by simp [Digit]) (by decide) (by decide) (by decide), Res.bind_err]
    | list j => simp [toAny, decode_iface, CTree.print, CTree.abs, again, decodeVal, decodeFlat, decodeSlice]
    | dict j => simp [toAny, decode_iface, CTree.print, CTree.abs, again, decodeVal, decodeFlat, decodeMap]
  | .str l b', n + 1 =>
    obtain ⟨c, r, rfl, hc⟩ := h.2 rfl
    obtain ⟨n1, n2, n3, _⟩ := digit_ne hc
    have hv := (getString_ok ⟨(CTree.str (c :: r) b').print ++ ext, off⟩ b'
      ⟨ext, off + (CTree.str (c :: r) b').print.length⟩).mpr ⟨c :: r, h.1, rfl, rfl⟩
    cases b with
    | int j => simp [toAny, decode_iface, CTree.print, CTree.abs, again, decodeVal, decodeFlat, getInt, n1]
    | str j =>
      simp only [toAny, decode_iface, bind_run, CTree.abs, again, decodeVal, decodeFlat, hv, Res.bind_ok, setVal, Flags.settable]
      rfl
    | list j => simp [toAny, decode_iface, CTree.print, CTree.abs, again, decodeVal, decodeFlat, decodeSlice, n2]
    | dict j => simp [toAny, decode_iface, CTree.print, CTree.abs, again, decodeVal, decodeFlat, decodeMap, n3]
  | .list ts, n + 1 =>
    cases b with
    | int j => simp [toAny, decode_iface, CTree.print, CTree.abs, again, decodeVal, decodeFlat, getInt]
    | str j =>
      simp only [toAny, decode_iface, CTree.print, List.cons_append, List.append_assoc, List.nil_append, bind_run, CTree.abs, again, decodeVal, decodeFlat,
        getString_other (c := 108) (by simp [Digit]) (by decide) (by decide) (by decide), Res.bind_err]
    | list j =>
      have hl := again_list env ts h j n (by simp [CTree.print] at hn; omega) n (by simp [CTree.print] at hn; omega) fl.ro [] ext (off + 1)
      simp only [toAny, decode_iface, CTree.print, List.cons_append, List.append_assoc, List.nil_append, bind_run, CTree.abs, again, decodeVal, decodeFlat, decodeSlice,
        readByte_run, Res.bind_ok, ne_eq, not_true_eq_false, if_false, adv_run] at hl ⊢
      rw [hl]
      cases againL j (abss ts) with
      | ok x => simp [toAny]; omega
      | err e => rfl
      | panic => rfl
    | dict j => simp [toAny, decode_iface, CTree.print, CTree.abs, again, decodeVal, decodeFlat, decodeMap]
  | .dict es, n + 1 =>
    cases b with
    | int j => simp [toAny, decode_iface, CTree.print, CTree.abs, again, decodeVal, decodeFlat, getInt]
    | str j =>
      simp only [toAny, decode_iface, CTree.print, List.cons_append, List.append_assoc, List.nil_append, bind_run, CTree.abs, again, decodeVal, decodeFlat,
        getString_other (c := 100) (by simp [Digit]) (by decide) (by decide) (by decide), Res.bind_err]
    | list j => simp [toAny, decode_iface, CTree.print, CTree.abs, again, decodeVal, decodeFlat, decodeSlice]
    | dict j =>
      have hl := again_dict env es [] h n (by simp [CTree.print] at hn; omega) n (by simp [CTree.print] at hn; omega) (toAnyEs j) ext (off + 1)
      simp only [toAny, decode_iface, CTree.print, List.cons_append, List.append_assoc, List.nil_append, bind_run, CTree.abs, again, decodeVal, decodeFlat, decodeMap,
        readByte_run, Res.bind_ok, ne_eq, not_true_eq_false, if_false, adv_run, hl, pure_run, toAnyEs_union, Res.ok.injEq, Prod.mk.injEq, true_and]
      simp; omega
theorem again_list (env : Env) (ts : List CTree) (h : Valids true (2 ^ 63) ts) (bs : List BVal) (n : Nat)
    (hn : (prints ts).length ≤ n) (k : Nat) (hk : (prints ts).length < k) (ro : Bool) (pre : List Val) (ext : Bytes) (off : Nat) :
    decodeSliceLoop (decode env n) { addr := false, ro } .any k pre (toAnys bs) ⟨prints ts ++ 101 :: ext, off⟩ =
      againL bs (abss ts) >>= fun xs => .ok (pre ++ toAnys xs, ⟨ext, off + (prints ts).length⟩) := by
  match ts, k with
  | ts, 0 => omega
  | [], k + 1 =>
    have : againL bs (abss []) = .ok bs := by cases bs <;> rfl
    rw [this]
    simp [decodeSliceLoop, prints]
  | t :: ts, k + 1 =>
    have hp := print_length_pos t h.1
    simp only [prints, List.length_append] at hn hk
    obtain ⟨c, r, e, hc⟩ := print_head_ne t h.1
    have hpk : peekByte ⟨t.print ++ (prints ts ++ 101 :: ext), off⟩ = .ok (c, ⟨t.print ++ (prints ts ++ 101 :: ext), off⟩) := by
      rw [e]; rfl
    cases bs with
    | nil =>
      simp only [decodeSliceLoop, prints, List.append_assoc, bind_run, hpk, Res.bind_ok, hc, if_false, toAnys, Flags.settable, abss, againL]
      rfl
    | cons b bs =>
      have h1 := again_run env t h.1 b n (by omega) { addr := true } (prints ts ++ 101 :: ext) off
      simp only [decodeSliceLoop, prints, List.append_assoc, bind_run, hpk, Res.bind_ok, hc, if_false, toAnys, h1, abss, againL]
      cases again b t.abs with
      | err e => rfl
      | panic => rfl
      | ok x =>
        have h2 := again_list env ts h.2 bs n (by omega) k (by omega) ro (pre ++ [toAny x]) ext (off + t.print.length)
        simp only [Res.bind_ok, h2]
        cases againL bs (abss ts) with
        | err e => rfl
        | panic => rfl
        | ok xs => simp [toAnys, Nat.add_assoc]
end

/-- **C131, exactly**, for a variable of type `any` that holds what was decoded before. Missing: that it becomes what the text says, for it panics or keeps some of the old. -/
theorem C131_any_partial (env : Env) (b : BVal) (t : CTree) (h : t.Valid true (2 ^ 63)) (rest : Bytes) :
    unmarshal env .any (toAny b) (t.print ++ rest) = (again b t.abs).map toAny := by
  unfold unmarshal unmarshalSt
  rw [again_run env t h b _ (by simp [fuelFor]; omega)]
  cases again b t.abs <;> rfl

/-! ### Variables of other types -/

theorem overs_nil (t : Ty) (new : List Val) : overs t [] new = new := by cases new <;> rfl

theorem decode_flat {t : Ty} (ht : Simple t) (env : Env) (n : Nat) (fl : Flags) (v : Val) : decode env (n + 1) fl t v = decodeFlat (decode env n) (consume n) n fl t v := by
  cases ht <;> (show decodeVal env _ _ _ v _ _ = _; cases v <;> rfl)

/-- The loop of a list: the elements are decoded into the old ones. -/
theorem over_slice {rec : Dec} {fl : Flags} (hfl : fl.settable = true) {t : Ty}
    (hr : ∀ v st, rec { addr := true } t v st = rec { addr := true } t (zero t) st >>= fun x => .ok (over t v x.1, x.2)) (k : Nat) (pre old : List Val) (st : St) :
    decodeSliceLoop rec fl t k pre old st = decodeSliceLoop rec fl t k [] [] st >>= fun x => .ok (pre ++ overs t old x.1, x.2) := by
  induction k generalizing pre old st with
  | zero => rfl
  | succ k ih =>
    simp only [decodeSliceLoop, bind_run]
    cases peekByte st with
    | err e => rfl
    | panic => rfl
    | ok c =>
      simp only [Res.bind_ok]
      split
      · simp only [bind_run]
        cases readByte c.2 with
        | err e => rfl
        | panic => rfl
        | ok d => simp [overs]
      · simp only [hfl, if_true, bind_run]
        cases old with
        | nil =>
          simp only [hfl, if_true, bind_run]
          cases rec { addr := true } t (zero t) c.2 with
          | err e => rfl
          | panic => rfl
          | ok x =>
            simp only [Res.bind_ok]
            rw [ih (pre ++ [x.1]) [], ih ([] ++ [x.1]) []]
            cases decodeSliceLoop rec fl t k [] [] x.2 with
            | err e => rfl
            | panic => rfl
            | ok y => simp [overs_nil]
        | cons v old =>
          simp only [bind_run]
          rw [hr v c.2]
          cases rec { addr := true } t (zero t) c.2 with
          | err e => rfl
          | panic => rfl
          | ok x =>
            simp only [Res.bind_ok]
            rw [ih (pre ++ [over t v x.1]) old, ih ([] ++ [x.1]) []]
            cases decodeSliceLoop rec fl t k [] [] x.2 with
            | err e => rfl
            | panic => rfl
            | ok y => simp [overs_nil, overs]

/-- The entries have increasing keys after `last`. -/
def Upwards : Bytes → List (Bytes × Val) → Prop
  | _, [] => True
  | last, (k, _) :: es => BLt last k ∧ Upwards k es

theorem union_upwards {last : Bytes} {m es : List (Bytes × Val)} (hm : KeysLe last m) (h : Upwards last es) : union m es = m ++ es := by
  induction es generalizing last m with
  | nil => simp [union]
  | cons e es ih =>
    obtain ⟨k, v⟩ := e
    show union (setEntry k v m) es = _
    rw [← setKey_eq, setKey_new k v m (hm.ne h.1), ih (hm.snoc h.1) h.2]
    simp

/-- The loop of a map: what is read does not depend on the old map. -/
theorem over_map (rec : Dec) (t : Ty) (k : Nat) (last : Bytes) (st : St) :
    (∃ es st', Upwards last es ∧ ∀ m, decodeMapLoop rec t k last m st = .ok (union m es, st')) ∨ (∃ e, ∀ m, decodeMapLoop rec t k last m st = .err e) ∨
      ∀ m, decodeMapLoop rec t k last m st = .panic := by
  induction k generalizing last st with
  | zero => exact .inr (.inl ⟨_, fun _ => rfl⟩)
  | succ k ih =>
    simp only [decodeMapLoop, bind_run]
    cases peekByte st with
    | err e => exact .inr (.inl ⟨e, fun _ => rfl⟩)
    | panic => exact .inr (.inr fun _ => rfl)
    | ok c =>
      simp only [Res.bind_ok]
      split
      · simp only [bind_run]
        cases readByte c.2 with
        | err e => exact .inr (.inl ⟨e, fun _ => rfl⟩)
        | panic => exact .inr (.inr fun _ => rfl)
        | ok d => exact .inl ⟨[], d.2, trivial, fun _ => rfl⟩
      · simp only [bind_run]
        cases getString c.2 with
        | err e => exact .inr (.inl ⟨e, fun _ => rfl⟩)
        | panic => exact .inr (.inr fun _ => rfl)
        | ok x =>
          simp only [Res.bind_ok]
          split
          · exact .inr (.inl ⟨_, fun _ => rfl⟩)
          · next hlt =>
            simp only [Bool.not_eq_true', Bool.not_eq_false] at hlt
            simp only [bind_run]
            cases rec { addr := true } t (zero t) x.2 with
            | err e => exact .inr (.inl ⟨e, fun _ => rfl⟩)
            | panic => exact .inr (.inr fun _ => rfl)
            | ok y =>
              simp only [Res.bind_ok]
              rcases ih x.1 y.2 with ⟨es, st', h1, h2⟩ | ⟨e, h⟩ | h
              · refine .inl ⟨(x.1, y.1) :: es, st', ⟨(bltB_iff _ _).mp hlt, h1⟩, fun m => ?_⟩
                rw [h2, setKey_eq]; rfl
              · exact .inr (.inl ⟨e, fun m => h _⟩)
              · exact .inr (.inr fun m => h _)

theorem over_run (env : Env) {t : Ty} (ht : Simple t) (n : Nat) {fl : Flags} (hfl : fl.settable = true) (v : Val) (st : St) :
    decode env n fl t v st = decode env n fl t (zero t) st >>= fun x => .ok (over t v x.1, x.2) := by
  induction n generalizing t fl v st with
  | zero => rfl
  | succ n ih =>
    rw [decode_flat ht, decode_flat ht]
    cases ht with
    | str => simp only [decodeFlat, bind_run]; cases getString st <;> simp [setVal, hfl, over]
    | bytes => simp only [decodeFlat, bind_run]; cases getString st <;> simp [setVal, hfl, over]
    | int b => simp only [decodeFlat, bind_run]; cases getInt st <;> simp [setVal, hfl, over]
    | uint b => simp only [decodeFlat, bind_run]; cases getUint st <;> simp [setVal, hfl, over]
    | slice hs =>
      rename_i t
      simp only [decodeFlat, decodeSlice, zero, bind_run]
      cases readByte st with
      | err e => rfl
      | panic => rfl
      | ok c =>
        simp only [Res.bind_ok]
        split
        · rfl
        · simp only [bind_run, adv_run, Res.bind_ok, hfl, if_true]
          cases v
          case slice old =>
            simp only [bind_run]
            rw [over_slice hfl (fun v st => ih hs rfl v st)]
            cases decodeSliceLoop (decode env n) fl t n [] [] { c.2 with off := c.2.off + 1 } with
            | err e => rfl
            | panic => rfl
            | ok x => simp [over]
          all_goals
            simp only [bind_run]
            cases decodeSliceLoop (decode env n) fl t n [] [] { c.2 with off := c.2.off + 1 } with
            | err e => rfl
            | panic => rfl
            | ok x => simp [over]
    | map t =>
      simp only [decodeFlat, decodeMap, zero, bind_run]
      cases readByte st with
      | err e => rfl
      | panic => rfl
      | ok c =>
        simp only [Res.bind_ok]
        split
        · rfl
        · simp only [bind_run, adv_run, Res.bind_ok, hfl, if_true]
          have key := over_map (decode env n) t n [] { c.2 with off := c.2.off + 1 }
          cases v <;> simp only [bind_run] <;> rcases key with ⟨es, st', h1, h2⟩ | ⟨e, h⟩ | h
          case map.inl old =>
            simp only [h2, Res.bind_ok, bind_run, adv_run, pure_run]
            rw [union_upwards (m := []) (fun _ h => by simp at h) h1]
            simp [over]
          all_goals first
            | (simp only [h2, Res.bind_ok, bind_run, adv_run, pure_run]; simp [over]; done)
            | simp only [h, Res.bind_err]; done
            | simp only [h, Res.bind_panic]; done

/-- **C131** for a variable of a type of texts, numbers, lists of such, and maps, for every text: it is accepted if and only if it is in a new variable, with the same error, and the variable becomes
what a new one would, except that the elements of a longer old list and the entries of an old map with other keys stay. Missing: that these do not stay. -/
theorem C131_simple_partial (env : Env) {t : Ty} (ht : Simple t) (old : Val) (bs : Bytes) :
    unmarshal env t old bs = (unmarshal env t (zero t) bs).map (over t old) := by
  unfold unmarshal unmarshalSt
  rw [over_run env ht _ rfl old]
  cases decode env (fuelFor bs) { addr := true } t (zero t) { rest := bs, off := 0 } <;> rfl

/-- **C131 is false** of the code: Unmarshal of the same text into the same variable of type `any`, twice, panics. -/
theorem C131_refuted : ∃ x, unmarshal noEnv .any .nilIface b!"i1e" = .ok x ∧ unmarshal noEnv .any x b!"i1e" = .panic :=
  ⟨.iface (.int 64) (.int 1), by kernel_rfl, by kernel_rfl⟩

/-- **C131 is false** of the code: a list of one text, read into a variable that holds two, is two texts. -/
theorem C131_list_refuted : unmarshal noEnv (.slice .str) (.slice [.str b!"a", .str b!"b"]) b!"l1:xe" = .ok (.slice [.str b!"x", .str b!"b"]) ∧
    unmarshal noEnv (.slice .str) .nilSlice b!"l1:xe" = .ok (.slice [.str b!"x"]) := ⟨by kernel_rfl, by kernel_rfl⟩

/-- A list of numbers and a map, read into a variable that holds a longer list and another map; and a map, which is read into `any` a second time. -/
example : unmarshal noEnv (.slice (.int 64)) (.slice [.int 1, .int 2, .int 3]) b!"li7ei8ee" = .ok (.slice [.int 7, .int 8, .int 3]) ∧ Simple (.slice (.int 64)) ∧
    unmarshal noEnv (.map .str) (.map [(b!"a", .str b!"1"), (b!"b", .str b!"2")]) b!"d1:b1:x1:c1:ye" = .ok (.map [(b!"a", .str b!"1"), (b!"b", .str b!"x"), (b!"c", .str b!"y")]) ∧
    again (.dict [(b!"a", .int 1)]) (.dict [(b!"a", .str b!"x"), (b!"b", .int 2)]) = .ok (.dict [(b!"a", .str b!"x"), (b!"b", .int 2)]) ∧
    again (.list [.list [], .int 3]) (.list [.list []]) = .ok (.list [.list [], .int 3]) ∧ again (.list [.int 1]) (.list [.str b!"x"]) = .err .syntax :=
  ⟨by kernel_rfl, .slice (.int 64), by kernel_rfl, by kernel_rfl, by kernel_rfl, by kernel_rfl⟩

end Drip.Bencode
