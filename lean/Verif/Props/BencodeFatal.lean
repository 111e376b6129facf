import Verif.Spec.Fatal
import Verif.Props.BencodeDecode
/-
C19, exactly: which texts make Unmarshal panic.
-/

namespace Drip.Bencode
open Spec

theorem bind_panic {α β : Type} {r : Res α} {f : α → Res β} (h : (r >>= f) = .panic) : r = .panic ∨ ∃ a, r = .ok a ∧ f a = .panic := by
  cases r with
  | ok a => exact .inr ⟨a, rfl, h⟩
  | err e => cases h
  | panic => exact .inl rfl

theorem peekByte_np {st : St} : peekByte st ≠ .panic := by
  unfold peekByte
  split <;> simp

theorem readByte_np {st : St} : readByte st ≠ .panic := by
  unfold readByte
  split <;> simp

theorem readUntil_np {d : UInt8} {st : St} : readUntil d st ≠ .panic := by
  unfold readUntil
  split <;> simp

theorem getInt_np {st : St} : getInt st ≠ .panic := by
  intro h
  unfold getInt at h
  rw [bind_run] at h
  rcases bind_panic h with h | ⟨⟨c, s1⟩, -, h⟩
  · exact readByte_np h
  · dsimp only at h
    split at h
    · cases h
    · simp only [bind_run, adv_run, Res.bind_ok] at h
      rcases bind_panic h with h | ⟨⟨x, s2⟩, -, h⟩
      · exact readUntil_np h
      · dsimp only at h
        split at h
        · cases h
        · cases hp : parseInt x with
          | none => rw [hp] at h; cases h
          | some i => rw [hp] at h; cases h

theorem readN_panic {n : Int} {st : St} : readN n st = .panic ↔ n < 0 ∨ 2 ^ 48 < n := by
  unfold readN
  rw [maxAlloc_eq]
  by_cases h : n < 0 ∨ (2 : Int) ^ 48 < n
  · rw [if_pos h]; exact ⟨fun _ => h, fun _ => rfl⟩
  · rw [if_neg h]
    refine ⟨fun h' => ?_, fun h' => absurd h' h⟩
    split at h' <;> cases h'

theorem getString_panic (st : St) : getString st = .panic ↔ ∃ s rest, st.rest = s ++ 58 :: rest ∧ Impossible s := by
  unfold getString
  constructor
  · intro h
    rw [bind_run] at h
    rcases bind_panic h with h | ⟨⟨s, st1⟩, h1, h⟩
    · exact absurd h readUntil_np
    · obtain ⟨e1, -, -⟩ := (readUntil_ok _ _ _ _).mp h1
      refine ⟨s, st1.rest, e1, ?_⟩
      dsimp only at h
      cases hn : parseInt s with
      | none => rw [hn] at h; cases h
      | some n =>
        rw [hn] at h
        simp only [bind_run, adv_run, Res.bind_ok] at h
        obtain ⟨h2, h3, h4⟩ := (parseInt_some _ _).mp hn
        rcases bind_panic h with h | ⟨⟨b, st2⟩, -, h⟩
        · exact ⟨n, h2, h3, h4, readN_panic.mp h⟩
        · cases h
  · rintro ⟨s, rest, h, n, h2, h3, h4, h5⟩
    obtain ⟨r, off⟩ := st
    simp only at h
    subst h
    rw [bind_run, readUntil_run 58 s rest off (snumeral_not_mem h2).1]
    simp only [Res.bind_ok, (parseInt_some _ _).mpr ⟨h2, h3, h4⟩, bind_run, adv_run]
    rw [readN_panic.mpr h5]
    rfl

theorem sliceLoop_panic {rec : Dec} (hok : AnyOK rec) (hrec : ∀ st, rec { addr := true } .any .nilIface st = .panic → Fatal st.rest) (k : Nat) (pre : List Val) (st : St)
    (h : decodeSliceLoop rec { addr := true } .any k pre [] st = .panic) : ∃ ts bs, Valids true (2 ^ 63) ts ∧ Fatal bs ∧ st.rest = prints ts ++ bs := by
  induction k generalizing st pre with
  | zero => cases h
  | succ k ih =>
    simp only [decodeSliceLoop, bind_run] at h
    rcases bind_panic h with h | ⟨⟨c, st1⟩, h1, h2⟩
    · exact absurd h peekByte_np
    rw [peekByte_ok] at h1
    obtain ⟨rfl, r, hr⟩ := h1
    dsimp only at h2
    split at h2
    · rw [bind_run] at h2
      rcases bind_panic h2 with h | ⟨_, _, h⟩
      · exact absurd h readByte_np
      · cases h
    · rw [show (Flags.settable { addr := true }) = true from rfl] at h2
      simp only [if_true, zero] at h2
      rw [bind_run] at h2
      rcases bind_panic h2 with h | ⟨⟨x, st2⟩, h3, h4⟩
      · exact ⟨[], _, trivial, hrec _ h, rfl⟩
      · obtain ⟨t, ht, rfl, hr1, hr2⟩ := hok _ _ _ h3
        obtain ⟨ts, bs, hts, hbs, e⟩ := ih _ _ h4
        refine ⟨t :: ts, bs, ⟨ht, hts⟩, hbs, ?_⟩
        rw [hr1]
        dsimp only at e
        rw [e]
        simp [prints]

theorem mapLoop_panic {rec : Dec} (hok : AnyOK rec) (hrec : ∀ st, rec { addr := true } .any .nilIface st = .panic → Fatal st.rest) (k : Nat) (last : Bytes) (m : List (Bytes × Val)) (st : St)
    (h : decodeMapLoop rec .any k last m st = .panic) :
    ∃ es, ValidEs true (2 ^ 63) last es ∧ ((∃ s rest, Impossible s ∧ st.rest = printEs es ++ (s ++ 58 :: rest)) ∨
      ∃ l k bs, LenText l k ∧ BLt (lastKey last es) k ∧ Fatal bs ∧ st.rest = printEs es ++ (l ++ 58 :: k ++ bs)) := by
  induction k generalizing st last m with
  | zero => cases h
  | succ k ih =>
    simp only [decodeMapLoop, bind_run] at h
    rcases bind_panic h with h | ⟨⟨c, st1⟩, h1, h2⟩
    · exact absurd h peekByte_np
    rw [peekByte_ok] at h1
    obtain ⟨rfl, r, hr⟩ := h1
    dsimp only at h2
    split at h2
    · rw [bind_run] at h2
      rcases bind_panic h2 with h | ⟨_, _, h⟩
      · exact absurd h readByte_np
      · cases h
    · rw [bind_run] at h2
      rcases bind_panic h2 with h | ⟨⟨key, st2⟩, h3, h4⟩
      · obtain ⟨s, rest, e, hs⟩ := (getString_panic _).mp h
        exact ⟨[], trivial, .inl ⟨s, rest, hs, e⟩⟩
      · rw [getString_ok] at h3
        obtain ⟨l, hl, e2, e3⟩ := h3
        dsimp only at h4 hl e2 e3
        split at h4
        · cases h4
        · rename_i hlt
          simp only [Bool.not_eq_true', Bool.not_eq_false, bltB_iff] at hlt
          rw [bind_run] at h4
          rcases bind_panic h4 with h | ⟨⟨x, st3⟩, h5, h6⟩
          · exact ⟨[], trivial, .inr ⟨l, key, st2.rest, hl, hlt, hrec _ h, e2⟩⟩
          · obtain ⟨t, ht, rfl, hr1, hr2⟩ := hok _ _ _ h5
            obtain ⟨es, hes, hh⟩ := ih _ _ _ h6
            refine ⟨(l, key, t) :: es, ⟨hl, hlt, ht, hes⟩, ?_⟩
            dsimp only at hh
            rcases hh with ⟨s, rest, h1, h2⟩ | ⟨l', k', bs, h1, h2, h3, h4⟩
            · exact .inl ⟨s, rest, h1, by rw [e2, hr1, h2]; simp [printEs]⟩
            · exact .inr ⟨l', k', bs, h1, h2, h3, by rw [e2, hr1, h4]; simp [printEs]⟩

theorem fatal_sound (env : Env) (n : Nat) (fl : Flags) (hfl : fl.settable = true) (st : St) (h : decode env n fl .any .nilIface st = .panic) : Fatal st.rest := by
  induction n generalizing fl st with
  | zero => cases h
  | succ n ih =>
    have hset : ∀ (fl : Flags) (x : Val) (st : St), fl.settable = true → setVal fl x st ≠ .panic := fun fl x st h => by rw [setVal_run h]; simp
    have hok : AnyOK (decode env n) := fun st v st' => any_sound env n _ st v st'
    rw [decode_any_eq] at h
    unfold decodeNilAny at h
    rw [bind_run] at h
    rcases bind_panic h with h | ⟨⟨c, st1⟩, h1, h2⟩
    · exact absurd h peekByte_np
    rw [peekByte_ok] at h1
    obtain ⟨rfl, r, hr⟩ := h1
    dsimp only at h2
    split at h2
    · rw [bind_run] at h2
      rcases bind_panic h2 with h | ⟨_, _, h⟩
      · simp only [decodeFlat, bind_run] at h
        rcases bind_panic h with h | ⟨_, _, h⟩
        · exact absurd h getInt_np
        · exact absurd h (hset _ _ _ rfl)
      · exact absurd h (hset _ _ _ hfl)
    split at h2
    · rename_i hc
      rw [bind_run] at h2
      rcases bind_panic h2 with h | ⟨_, _, h⟩
      · simp only [decodeFlat, decodeSlice, bind_run] at h
        rcases bind_panic h with h | ⟨⟨c', st3⟩, h5, h⟩
        · exact absurd h readByte_np
        · rw [readByte_ok] at h5
          dsimp only at h5 h
          split at h
          · cases h
          · rename_i hc'
            simp only [ne_eq, Decidable.not_not] at hc'
            subst hc'
            simp only [bind_run, adv_run, Res.bind_ok, zero] at h
            rw [show (Flags.settable { addr := true }) = true from rfl, if_pos rfl, bind_run] at h
            rcases bind_panic h with h | ⟨_, _, h⟩
            · obtain ⟨ts, bs, h1, h2, h3⟩ := sliceLoop_panic hok (fun st => ih _ rfl st) _ _ _ h
              dsimp only at h3
              rw [h5.1, h3]
              exact .list h1 h2
            · cases h
      · exact absurd h (hset _ _ _ hfl)
    split at h2
    · rename_i hc
      rw [bind_run] at h2
      rcases bind_panic h2 with h | ⟨_, _, h⟩
      · simp only [decodeFlat, decodeMap, bind_run] at h
        rcases bind_panic h with h | ⟨⟨c', st3⟩, h5, h⟩
        · exact absurd h readByte_np
        · rw [readByte_ok] at h5
          dsimp only at h5 h
          split at h
          · cases h
          · rename_i hc'
            simp only [ne_eq, Decidable.not_not] at hc'
            subst hc'
            simp only [bind_run, adv_run, Res.bind_ok, zero] at h
            rw [show (Flags.settable { addr := true }) = true from rfl, if_pos rfl, bind_run] at h
            rcases bind_panic h with h | ⟨_, _, h⟩
            · obtain ⟨es, h1, h2⟩ := mapLoop_panic hok (fun st => ih _ rfl st) _ _ _ _ h
              dsimp only at h2
              rw [h5.1]
              rcases h2 with ⟨s, rest, h2, h3⟩ | ⟨l', k', bs, h2, h3, h4, h6⟩
              · rw [h3]; exact .key h1 h2
              · rw [h6]; exact .value h1 h2 h3 h4
            · cases h
      · exact absurd h (hset _ _ _ hfl)
    split at h2
    · rename_i hd
      rw [bind_run] at h2
      rcases bind_panic h2 with h | ⟨_, _, h⟩
      · simp only [decodeFlat, bind_run] at h
        rcases bind_panic h with h | ⟨_, _, h⟩
        · obtain ⟨s, rest, e, hs⟩ := (getString_panic _).mp h
          rw [e]
          refine .str hs ?_
          obtain ⟨n, hn, _⟩ := hs
          obtain ⟨c', r', rfl, -⟩ := snumeral_head hn
          rw [e] at hr
          simp at hr
          exact ⟨c', r', rfl, by rw [hr.1]; exact (isDigit_iff _).mp hd⟩
        · exact absurd h (hset _ _ _ rfl)
      · exact absurd h (hset _ _ _ hfl)
    · cases h2

theorem fatal_head {bs : Bytes} (h : Fatal bs) : ∃ c r, bs = c :: r ∧ c ≠ 101 := by
  cases h with
  | str hs hd =>
    obtain ⟨c, r, rfl, hc⟩ := hd
    exact ⟨c, _, rfl, (digit_ne hc).2.2.2⟩
  | list => exact ⟨108, _, rfl, by decide⟩
  | key => exact ⟨100, _, rfl, by decide⟩
  | value => exact ⟨100, _, rfl, by decide⟩

theorem sliceLoop_fatal (env : Env) (n : Nat) {bs : Bytes} (hb : ∃ c r, bs = c :: r ∧ c ≠ 101) (hf : ∀ off, decode env n { addr := true } .any .nilIface ⟨bs, off⟩ = .panic) :
    ∀ (ts : List CTree), Valids true (2 ^ 63) ts → (prints ts).length ≤ n → ∀ (k : Nat), (prints ts).length < k → ∀ (pre : List Val) (off : Nat),
      decodeSliceLoop (decode env n) { addr := true } .any k pre [] ⟨prints ts ++ bs, off⟩ = .panic
  | ts, h, hn, 0, hk, pre, off => by omega
  | [], h, hn, k + 1, hk, pre, off => by
    obtain ⟨c, r, rfl, hc⟩ := hb
    simp only [decodeSliceLoop, prints, List.nil_append, bind_run, peekByte_run, Res.bind_ok, hc, if_false, zero]
    rw [show (Flags.settable { addr := true }) = true from rfl, if_pos rfl, bind_run, hf off]
    rfl
  | t :: ts, h, hn, k + 1, hk, pre, off => by
    have hp := print_length_pos t h.1
    simp only [prints, List.length_append] at hn hk
    have h1 := any_complete env t h.1 n (by omega) { addr := true } rfl (prints ts ++ bs) off
    have h2 := sliceLoop_fatal env n hb hf ts h.2 (by omega) k (by omega) (pre ++ [toAny t.abs]) (off + t.print.length)
    obtain ⟨c, r, e, hc⟩ := print_head_ne t h.1
    have hpk : peekByte ⟨t.print ++ (prints ts ++ bs), off⟩ = .ok (c, ⟨t.print ++ (prints ts ++ bs), off⟩) := by
      rw [e]; rfl
    simp only [decodeSliceLoop, prints, List.append_assoc, bind_run, hpk, Res.bind_ok, hc, if_false, zero]
    rw [show (Flags.settable { addr := true }) = true from rfl, if_pos rfl, bind_run, h1]
    simp only [Res.bind_ok, h2]

/-- What comes after the entries, for the loop of a dictionary. -/
def AfterEntries (env : Env) (n : Nat) (last : Bytes) (bs : Bytes) : Prop :=
  (∃ s rest, Impossible s ∧ bs = s ++ 58 :: rest) ∨
    ∃ l k bs', LenText l k ∧ BLt last k ∧ bs = l ++ 58 :: k ++ bs' ∧ ∀ off, decode env n { addr := true } .any .nilIface ⟨bs', off⟩ = .panic

theorem mapLoop_fatal (env : Env) (n : Nat) {bs : Bytes} :
    ∀ (es : List (Bytes × Bytes × CTree)) (last : Bytes), ValidEs true (2 ^ 63) last es → AfterEntries env n (lastKey last es) bs → (printEs es).length ≤ n → ∀ (k : Nat), (printEs es).length < k →
      ∀ (m : List (Bytes × Val)), KeysLe last m → ∀ (off : Nat), decodeMapLoop (decode env n) .any k last m ⟨printEs es ++ bs, off⟩ = .panic
  | es, last, h, ha, hn, 0, hk, m, hm, off => by omega
  | [], last, h, ha, hn, k + 1, hk, m, hm, off => by
    rcases ha with ⟨s, rest, hs, rfl⟩ | ⟨l, key, bs', hl, hlt, rfl, hf⟩
    · have h0 := (getString_panic ⟨s ++ 58 :: rest, off⟩).mpr ⟨s, rest, rfl, hs⟩
      obtain ⟨i, hi, _⟩ := hs
      obtain ⟨c, r, rfl, -, -, -, hc⟩ := snumeral_head hi
      simp only [List.cons_append] at h0
      simp only [decodeMapLoop, printEs, List.nil_append, List.cons_append, bind_run, peekByte_run, Res.bind_ok, hc, if_false, h0]
      rfl
    · have h0 := (getString_ok ⟨l ++ 58 :: key ++ bs', off⟩ key ⟨bs', off + (l ++ 58 :: key).length⟩).mpr ⟨l, hl, rfl, rfl⟩
      obtain ⟨c, r, rfl, hc⟩ := lenText_head hl
      simp only [lastKey] at hlt
      simp only [List.append_assoc, List.cons_append] at h0
      simp only [decodeMapLoop, printEs, List.nil_append, List.append_assoc, List.cons_append, bind_run, peekByte_run, Res.bind_ok, hc, if_false, h0,
        (bltB_iff last key).mpr hlt, Bool.not_true, Bool.false_eq_true, zero, hf]
      rfl
  | (l, key, t) :: es, last, h, ha, hn, k + 1, hk, m, hm, off => by
    obtain ⟨hl, hlt, ht, hes⟩ := h
    have hp := print_length_pos t ht
    simp only [printEs, List.length_append, List.length_cons] at hn hk
    have h0 := (getString_ok ⟨l ++ 58 :: key ++ (t.print ++ (printEs es ++ bs)), off⟩ key
      ⟨t.print ++ (printEs es ++ bs), off + (l ++ 58 :: key).length⟩).mpr ⟨l, hl, rfl, rfl⟩
    have h1 := any_complete env t ht n (by omega) { addr := true } rfl (printEs es ++ bs) (off + (l ++ 58 :: key).length)
    have h2 := mapLoop_fatal env n es key hes ha (by omega) k (by omega) (m ++ [(key, toAny t.abs)]) (hm.snoc hlt)
      (off + (l ++ 58 :: key).length + t.print.length)
    obtain ⟨c, r, e, hc⟩ := lenText_head hl
    have hpk : ∀ x, peekByte ⟨l ++ x, off⟩ = .ok (c, ⟨l ++ x, off⟩) := by intro x; rw [e]; rfl
    simp only [List.append_assoc, List.cons_append] at h0
    simp only [decodeMapLoop, printEs, List.append_assoc, List.cons_append, bind_run, hpk, Res.bind_ok, hc, if_false, h0,
      (bltB_iff last key).mpr hlt, Bool.not_true, Bool.false_eq_true, zero, h1, setKey_new _ _ _ (hm.ne hlt), h2]

theorem fatal_complete (env : Env) {bs : Bytes} (h : Fatal bs) : ∀ (n : Nat), bs.length ≤ n → ∀ (fl : Flags) (off : Nat), decode env n fl .any .nilIface ⟨bs, off⟩ = .panic := by
  induction h with
  | @str s rest hs hd =>
    intro n hn fl off
    have h0 := (getString_panic ⟨s ++ 58 :: rest, off⟩).mpr ⟨s, rest, rfl, hs⟩
    obtain ⟨c, r, rfl, hc⟩ := hd
    obtain ⟨n1, n2, n3, _⟩ := digit_ne hc
    match n with
    | 0 => simp at hn
    | n + 1 =>
      simp only [List.cons_append] at h0 ⊢
      simp only [decode_any_eq, decodeNilAny, decodeFlat, bind_run, peekByte_run, Res.bind_ok, n1, n2, n3, if_false, (isDigit_iff c).mpr hc, if_true, h0]
      rfl
  | @list ts bs h1 h2 ih =>
    intro n hn fl off
    match n with
    | 0 => simp at hn
    | n + 1 =>
      obtain ⟨c, r, e, _⟩ := (fatal_head h2)
      have hl : 1 ≤ bs.length := by rw [e]; simp
      simp only [List.length_cons, List.length_append] at hn
      have := sliceLoop_fatal env n (fatal_head h2) (fun off => ih n (by omega) _ off) ts h1 (by omega) n (by omega) [] (off + 1)
      simp only [decode_any_eq, decodeNilAny, decodeFlat, decodeSlice, zero, bind_run, peekByte_run, Res.bind_ok,
        show ((108 : UInt8) = 105) = False by decide, if_false, if_true, readByte_run, ne_eq, not_true_eq_false, adv_run]
      rw [show (Flags.settable { addr := true }) = true from rfl, if_pos rfl, bind_run, this]
      rfl
  | @key es s rest h1 h2 =>
    intro n hn fl off
    match n with
    | 0 => simp at hn
    | n + 1 =>
      simp only [List.length_cons, List.length_append] at hn
      have := mapLoop_fatal env n (bs := s ++ 58 :: rest) es [] h1 (.inl ⟨s, rest, h2, rfl⟩) (by omega) n (by omega) [] (fun e he => by simp at he) (off + 1)
      simp only [decode_any_eq, decodeNilAny, decodeFlat, decodeMap, zero, bind_run, peekByte_run, Res.bind_ok,
        show ((100 : UInt8) = 105) = False by decide, show ((100 : UInt8) = 108) = False by decide,
        if_false, if_true, readByte_run, ne_eq, not_true_eq_false, adv_run]
      rw [show (Flags.settable { addr := true }) = true from rfl, if_pos rfl, bind_run, this]
      rfl
  | @value es l k bs h1 h2 h3 h4 ih =>
    intro n hn fl off
    match n with
    | 0 => simp at hn
    | n + 1 =>
      simp only [List.length_cons, List.length_append] at hn
      have := mapLoop_fatal env n (bs := l ++ 58 :: k ++ bs) es [] h1 (.inr ⟨l, k, bs, h2, h3, rfl, fun off => ih n (by omega) _ off⟩) (by omega) n (by omega) [] (fun e he => by simp at he) (off + 1)
      simp only [decode_any_eq, decodeNilAny, decodeFlat, decodeMap, zero, bind_run, peekByte_run, Res.bind_ok,
        show ((100 : UInt8) = 105) = False by decide, show ((100 : UInt8) = 108) = False by decide,
        if_false, if_true, readByte_run, ne_eq, not_true_eq_false, adv_run]
      rw [show (Flags.settable { addr := true }) = true from rfl, if_pos rfl, bind_run, this]
      rfl

/-- **C19, exactly.** `Unmarshal` into a nil `any` panics on the texts that are well-formed up to a length that cannot be (negative, or more than 2^48), and on no others. Missing: that there are none. -/
theorem C19_exactly_partial (env : Env) (bs : Bytes) : unmarshal env .any .nilIface bs = .panic ↔ Fatal bs := by
  have hu : unmarshal env .any .nilIface bs = .panic ↔ decode env (fuelFor bs) { addr := true } .any .nilIface ⟨bs, 0⟩ = .panic := by
    unfold unmarshal unmarshalSt
    cases decode env (fuelFor bs) { addr := true } .any .nilIface ⟨bs, 0⟩ <;> simp [Res.map]
  rw [hu]
  exact ⟨fatal_sound env _ _ rfl _, fun h => fatal_complete env h _ (by simp [fuelFor]) _ _⟩

/-- In a list, after a number; the value of the second key of a dictionary; a key. A string in place of a value must begin with a digit, so that a negative length is no more than an error there. -/
example : Fatal b!"li5e999999999999999:" ∧ Fatal b!"d1:ai1e1:bl300000000000000:x" ∧ Fatal b!"d1:ai1e-7:" ∧ ¬ Fatal b!"l-7:e" ∧ ¬ Fatal b!"l99999999999999999999:e" ∧ ¬ Fatal b!"d1:bi1e1:ad-1:" := by
  simp only [← C19_exactly_partial noEnv]
  exact ⟨by kernel_rfl, by kernel_rfl, by kernel_rfl, (fun h => by cases (show unmarshal noEnv .any .nilIface b!"l-7:e" = .err .syntax by kernel_rfl).symm.trans h),
    (fun h => by cases (show unmarshal noEnv .any .nilIface b!"l99999999999999999999:e" = .err .syntax by kernel_rfl).symm.trans h),
    (fun h => by cases (show unmarshal noEnv .any .nilIface b!"d1:bi1e1:ad-1:" = .err .unsorted by kernel_rfl).symm.trans h)⟩

end Drip.Bencode
