import Verif.Lemmas.Bencode.BigStruct
/-
What a successful decoding into a typed target says about the text.
-/

namespace Drip.Bencode
open Spec

variable {env : Env} {fl : Flags}

theorem D.succ {t : Ty} {v w : Val} {c : Bytes} (h : D env fl t v c w) : ∃ n, Runs (decode env (n + 1) fl t v) c w := by
  obtain ⟨n, h⟩ := h
  cases n with
  | zero => have := h [] 0; simp [decode] at this
  | succ n => exact ⟨n, h⟩

theorem D.str_inv {v w : Val} {c : Bytes} (h : D env fl .str v c w) : ∃ l b, LenText l b ∧ c = l ++ 58 :: b ∧ w = .str b := by
  obtain ⟨n, h⟩ := h.succ
  have e : decode env (n + 1) fl .str v = (getString >>= fun s => setVal fl (.str s)) := by cases v <;> rfl
  rw [e] at h
  have h := h [] 0
  rw [bind_run, Res.bind_eq_ok] at h
  obtain ⟨⟨b, st⟩, h1, h2⟩ := h
  obtain ⟨rfl, rfl⟩ := setVal_ok h2
  obtain ⟨l, h3, h4, _⟩ := (getString_ok _ _ _).mp h1
  exact ⟨l, b, h3, by simpa using h4, rfl⟩

theorem D.bytes_inv {v w : Val} {c : Bytes} (h : D env fl .bytes v c w) : ∃ l b, LenText l b ∧ c = l ++ 58 :: b ∧ w = .bytes b := by
  obtain ⟨n, h⟩ := h.succ
  have e : decode env (n + 1) fl .bytes v = (getString >>= fun s => setVal fl (.bytes s)) := by cases v <;> rfl
  rw [e] at h
  have h := h [] 0
  rw [bind_run, Res.bind_eq_ok] at h
  obtain ⟨⟨b, st⟩, h1, h2⟩ := h
  obtain ⟨rfl, rfl⟩ := setVal_ok h2
  obtain ⟨l, h3, h4, _⟩ := (getString_ok _ _ _).mp h1
  exact ⟨l, b, h3, by simpa using h4, rfl⟩

theorem D.int_inv {v w : Val} {bits : Nat} {c : Bytes} (h : D env fl (.int bits) v c w) :
    ∃ s n, SNumeral s n ∧ ¬ LeadingZero s ∧ -2 ^ 63 ≤ n ∧ n < 2 ^ 63 ∧ c = 105 :: s ++ [101] ∧ w = .int (wrapInt bits n) := by
  obtain ⟨n, h⟩ := h.succ
  have e : decode env (n + 1) fl (.int bits) v = (getInt >>= fun s => setVal fl (.int (wrapInt bits s))) := by cases v <;> rfl
  rw [e] at h
  have h := h [] 0
  rw [bind_run, Res.bind_eq_ok] at h
  obtain ⟨⟨b, st⟩, h1, h2⟩ := h
  obtain ⟨rfl, rfl⟩ := setVal_ok h2
  obtain ⟨s, a1, a2, a3, a4, a5, _⟩ := (getInt_ok _ _ _).mp h1
  exact ⟨s, b, a1, a2, a3, a4, by simpa using a5, rfl⟩

theorem sliceLoop_sound {et : Ty} {n : Nat} : ∀ (k : Nat) (pre : List Val) (st : St) (ws : List Val) (st' : St),
    decodeSliceLoop (decode env n) fl et k pre [] st = .ok (ws, st') →
    ∃ cs ws', ws = pre ++ ws' ∧ DL env et cs ws' ∧ st.rest = cs.flatten ++ 101 :: st'.rest := by
  intro k
  induction k with
  | zero => intro pre st ws st' h; simp [decodeSliceLoop] at h
  | succ k ih =>
    intro pre st ws st' h
    have e : decodeSliceLoop (decode env n) fl et (k + 1) pre [] = (peekByte >>= fun c => if c = 101 then (readByte >>= fun _ => Pure.pure (pre ++ []))
      else (if fl.settable then (decode env n { addr := true } et (zero et) >>= fun v' => decodeSliceLoop (decode env n) fl et k (pre ++ [v']) []) else P.panic)) := rfl
    rw [e, bind_run, Res.bind_eq_ok] at h
    obtain ⟨⟨c, st1⟩, h1, h2⟩ := h
    obtain ⟨rfl, r, hr⟩ := (peekByte_ok _ _ _).mp h1
    by_cases hc : c = 101
    · subst hc
      simp only [if_true, bind_run, readByte, hr, Res.bind_ok] at h2
      simp only [pure_run, Res.ok.injEq, Prod.mk.injEq] at h2
      obtain ⟨rfl, rfl⟩ := h2
      exact ⟨[], [], rfl, .nil, by simp [hr]⟩
    · simp only [if_neg hc] at h2
      cases hs : fl.settable with
      | false => simp [hs] at h2
      | true =>
        simp only [hs, if_true, bind_run] at h2
        rw [Res.bind_eq_ok] at h2
        obtain ⟨⟨v', st2⟩, h2, h3⟩ := h2
        obtain ⟨tr, _, h4, h5⟩ := decode_D h2
        obtain ⟨cs, ws', rfl, h6, h7⟩ := ih _ _ _ _ h3
        refine ⟨tr.print :: cs, v' :: ws', by simp, .cons h5 h6, ?_⟩
        rw [h4.1, h7]; simp

theorem D.slice_inv {et : Ty} {w : Val} {c : Bytes} (h : D env fl (.slice et) .nilSlice c w) :
    ∃ cs ws, DL env et cs ws ∧ c = 108 :: cs.flatten ++ [101] ∧ w = .slice ws := by
  obtain ⟨n, h⟩ := h.succ
  rw [decode_plain (by trivial)] at h
  have h : Runs (decodeSlice (decode env n) fl et .nilSlice n) c w := h
  have e : decodeSlice (decode env n) fl et .nilSlice n = (readByte >>= fun b => if b ≠ 108 then P.fail .syntax else
      (adv 1 >>= fun _ => if fl.settable then (decodeSliceLoop (decode env n) fl et n [] [] >>= fun a => adv 1 >>= fun _ => Pure.pure (Val.slice a)) else P.panic)) := rfl
  rw [e] at h
  have h := h [] 0
  rw [bind_run, Res.bind_eq_ok] at h
  obtain ⟨⟨b, st1⟩, h1, h2⟩ := h
  obtain ⟨hr1, _⟩ := (readByte_ok _ _ _).mp h1
  simp only [List.append_nil] at hr1
  by_cases hb : b = 108
  · subst hb
    simp only [ne_eq, not_true, if_false, bind_run, adv, Res.bind_ok] at h2
    cases hs : fl.settable with
    | false => simp [hs] at h2
    | true =>
      simp only [hs, if_true, bind_run] at h2
      rw [Res.bind_eq_ok] at h2
      obtain ⟨⟨a, st2⟩, h2, h3⟩ := h2
      simp only [bind_run, adv, Res.bind_ok, pure_run, Res.ok.injEq, Prod.mk.injEq] at h3
      obtain ⟨rfl, h3⟩ := h3
      obtain ⟨cs, ws', rfl, h6, h7⟩ := sliceLoop_sound _ _ _ _ _ h2
      refine ⟨cs, _, h6, ?_, by simp⟩
      have : st2.rest = [] := by have := congrArg St.rest h3; simpa using this
      simp only at h7
      rw [hr1, h7, this]; simp
  · simp [hb] at h2

/-- A single field is replaced, the others stay. -/
theorem DA_single {i : Nat} {t : Ty} {vs : List Val} {c : Bytes} {w : Val} (h : DA env [i] fl t (.struct vs) c w) :
    ∃ u, w = .struct (vs.set i u) := by
  obtain ⟨n, h⟩ := h
  have h := h [] 0
  unfold atField at h
  cases ht : t.under <;> rw [ht] at h <;> try (simp [P.panic] at h)
  rename_i id fs
  cases hf : fs[i]? with
  | none => simp [hf, P.panic] at h
  | some f =>
    obtain ⟨hd, ft⟩ := f
    cases hv : vs[i]? with
    | none => simp [hf, hv, P.panic] at h
    | some fv =>
      simp only [hf, hv] at h
      have fin : ∀ {p : P Val} {g : Val → Val}, (p >>= fun x => Pure.pure (Val.struct (vs.set i (g x)))) ⟨c, 0⟩ = .ok (w, ⟨[], c.length⟩) →
          ∃ u, w = .struct (vs.set i u) := by
        intro p g h
        rw [bind_run, Res.bind_eq_ok] at h
        obtain ⟨⟨x, st⟩, h1, h2⟩ := h
        simp only [pure_run, Res.ok.injEq, Prod.mk.injEq] at h2
        exact ⟨_, h2.1.symm⟩
      split at h
      · split at h
        · exact fin (g := Val.ptr) h
        · simp at h
      · exact fin (g := Val.ptr) h
      · exact fin (g := fun x => x) h

theorem SLoop.keys {t : Ty} {last : Bytes} {v w : Val} {es : List (Bytes × Bytes × Bytes)} (h : SLoop env fl t last v es w) :
    ∀ e ∈ es, BLt last e.2.1 := by
  induction h with
  | nil => intro e he; simp at he
  | skip _ hb _ _ _ ih =>
    intro e he
    rcases List.mem_cons.mp he with rfl | he
    · exact hb
    · exact BLt.trans hb (ih e he)
  | field _ hb _ _ _ ih =>
    intro e he
    rcases List.mem_cons.mp he with rfl | he
    · exact hb
    · exact BLt.trans hb (ih e he)

/-- Every key belongs to a field of the struct itself, and different keys to different fields. -/
def Flat (t : Ty) : Prop := (∀ k f, lookupKey k (keyToField t) = some f → ∃ i, f.index = [i]) ∧
  ∀ k f k' f', lookupKey k (keyToField t) = some f → lookupKey k' (keyToField t) = some f' → f.index = f'.index → k = k'

/-- What becomes of the field with a given key: it stays if the key does not occur, and else is decoded from its entry. -/
theorem SLoop.at {t : Ty} (hflat : Flat t) {k : Bytes} {f : FieldInfo} {i : Nat} (hk : lookupKey k (keyToField t) = some f) (hi : f.index = [i])
    {last : Bytes} {v w : Val} {es : List (Bytes × Bytes × Bytes)} (h : SLoop env fl t last v es w) :
    ∀ us, v = .struct us → ∃ ws, w = .struct ws ∧ ws.length = us.length ∧
      (((∀ e ∈ es, e.2.1 ≠ k) ∧ ws[i]? = us[i]?) ∨
        ∃ l c us' ws', (l, k, c) ∈ es ∧ DA env [i] fl t (.struct us') c (.struct ws') ∧ us'.length = us.length ∧ us'[i]? = us[i]? ∧
          ws[i]? = ws'[i]?) := by
  induction h with
  | nil => intro us e; exact ⟨us, e, rfl, .inl ⟨by simp, rfl⟩⟩
  | skip hl hb hk' htr hrest ih =>
    intro us e
    obtain ⟨ws, hw, hlen, hh⟩ := ih us e
    refine ⟨ws, hw, hlen, ?_⟩
    rcases hh with ⟨h1, h2⟩ | ⟨l, c, us', ws', h1, h2⟩
    · refine .inl ⟨?_, h2⟩
      intro e he
      rcases List.mem_cons.mp he with rfl | he
      · rintro rfl; rw [hk] at hk'; simp at hk'
      · exact h1 e he
    · exact .inr ⟨l, c, us', ws', List.mem_cons_of_mem _ h1, h2⟩
  | field hl hb hk' hd hrest ih =>
    rename_i last l' k' c' es v v' w g
    intro us e
    subst e
    obtain ⟨j, hj⟩ := hflat.1 _ _ hk'
    rw [hj] at hd
    obtain ⟨u, rfl⟩ := DA_single hd
    obtain ⟨ws, hw, hlen, hh⟩ := ih _ rfl
    refine ⟨ws, hw, by simpa using hlen, ?_⟩
    by_cases hkk : k' = k
    · subst hkk
      rw [hk] at hk'; cases hk'
      rw [hi] at hj
      simp only [List.cons.injEq, and_true] at hj
      subst hj
      have hnot : ∀ e ∈ es, e.2.1 ≠ k' := by
        intro e he e'
        have := hrest.keys e he
        rw [e'] at this
        exact BLt.irrefl _ this
      rcases hh with ⟨_, h2⟩ | ⟨l, c, us', ws', h1, _⟩
      · exact .inr ⟨l', c', us, _, by simp, hd, rfl, rfl, h2⟩
      · exact absurd rfl (hnot _ h1)
    · have hij : j ≠ i := by
        rintro rfl
        exact hkk (hflat.2 _ _ _ _ hk' hk (by rw [hi, hj]))
      rcases hh with ⟨h1, h2⟩ | ⟨l, c, us', ws', h1, h2, h4, h3⟩
      · refine .inl ⟨?_, by rw [h2, List.getElem?_set_ne hij]⟩
        intro e he
        rcases List.mem_cons.mp he with rfl | he
        · exact hkk
        · exact h1 e he
      · rw [List.getElem?_set_ne hij] at h3
        exact .inr ⟨l, c, us', ws', List.mem_cons_of_mem _ h1, h2, by simpa using h4, h3⟩

end Drip.Bencode
