import Verif.Lemmas.Bencode.Any
import Verif.Lemmas.Bencode.Exact
import Verif.Lemmas.Bencode.FuelMono
/-
Decoding as a relation between the text of a value, the target before and the target after.
-/

namespace Drip.Bencode
open Spec

/-- `p` reads exactly `c` and returns `w`, whatever follows `c`. -/
def Runs {α : Type} (p : P α) (c : Bytes) (w : α) : Prop :=
  ∀ ext off, p ⟨c ++ ext, off⟩ = .ok (w, ⟨ext, off + c.length⟩)

/-- The same for the loops, which also read the closing `e` without counting it. -/
def RunsL {α : Type} (p : P α) (c : Bytes) (w : α) : Prop :=
  ∀ ext off, p ⟨c ++ 101 :: ext, off⟩ = .ok (w, ⟨ext, off + c.length⟩)

theorem Runs.mono {α : Type} {p q : P α} {c : Bytes} {w : α} (h : Runs p c w) (hle : Le p q) : Runs q c w := by
  intro ext off
  rcases hle ⟨c ++ ext, off⟩ with e | e
  · rw [h] at e; simp at e
  · rw [e, h]

theorem RunsL.mono {α : Type} {p q : P α} {c : Bytes} {w : α} (h : RunsL p c w) (hle : Le p q) : RunsL q c w := by
  intro ext off
  rcases hle ⟨c ++ 101 :: ext, off⟩ with e | e
  · rw [h] at e; simp at e
  · rw [e, h]

theorem Runs.bind {α β : Type} {p : P α} {f : α → P β} {c c' : Bytes} {a : α} {b : β} (h : Runs p c a)
    (h' : Runs (f a) c' b) : Runs (p >>= f) (c ++ c') b := by
  intro ext off
  rw [bind_run, List.append_assoc, h, Res.bind_ok, h']
  simp [Nat.add_assoc]

theorem Runs.then {α β : Type} {p : P α} {f : α → P β} {c : Bytes} {a : α} {b : β} (h : Runs p c a)
    (h' : ∀ st, f a st = .ok (b, st)) : Runs (p >>= f) c b := by
  intro ext off
  rw [bind_run, h, Res.bind_ok, h']

theorem Runs.bindL {α β : Type} {p : P α} {f : α → P β} {c c' : Bytes} {a : α} {b : β} (h : Runs p c a)
    (h' : RunsL (f a) c' b) : RunsL (p >>= f) (c ++ c') b := by
  intro ext off
  rw [bind_run, List.append_assoc, h, Res.bind_ok, h']
  simp [Nat.add_assoc]

theorem RunsL.stop {β : Type} {e : β} {q : P β} :
    RunsL (peekByte >>= fun c => if c = 101 then (readByte >>= fun _ => Pure.pure e) else q) [] e := by
  intro ext off; rfl

theorem RunsL.step {β : Type} {e w : β} {q : P β} {c : Bytes} (hc : ∃ b r, c = b :: r ∧ b ≠ 101) (h : RunsL q c w) :
    RunsL (peekByte >>= fun c => if c = 101 then (readByte >>= fun _ => Pure.pure e) else q) c w := by
  obtain ⟨b, r, rfl, hb⟩ := hc
  intro ext off
  have := h ext off
  simp only [List.cons_append] at this ⊢
  simp only [bind_run, peekByte, Res.bind_ok, if_neg hb]
  exact this

theorem Runs.frame {α β : Type} {p : P α} {g : α → β} {c : Bytes} {w : α} {o : UInt8} (h : RunsL p c w) :
    Runs (readByte >>= fun b => if b ≠ o then P.fail .syntax else
      (adv 1 >>= fun _ => p >>= fun a => adv 1 >>= fun _ => Pure.pure (g a))) (o :: c ++ [101]) (g w) := by
  intro ext off
  have h' := h ext (off + 1)
  rw [bind_run]
  show ((if o ≠ o then P.fail .syntax else (adv 1 >>= fun _ => p >>= fun a => adv 1 >>= fun _ => Pure.pure (g a))) : P β)
    ⟨(c ++ [101]) ++ ext, off⟩ = _
  rw [if_neg (by simp)]
  show (p >>= fun a => adv 1 >>= fun _ => Pure.pure (g a)) ⟨(c ++ [101]) ++ ext, off + 1⟩ = _
  rw [bind_run, List.append_assoc]
  show (p ⟨c ++ 101 :: ext, off + 1⟩ >>= _) = _
  rw [h', Res.bind_ok]
  show Res.ok (g w, (⟨ext, off + 1 + c.length + 1⟩ : St)) = _
  congr 3
  simp only [List.length_append, List.length_cons, List.length_nil]
  omega

theorem Runs.getString {l b : Bytes} (h : LenText l b) : Runs getString (l ++ 58 :: b) b := by
  intro ext off
  rw [getString_ok]
  exact ⟨l, h, by simp, rfl⟩

theorem Runs.getInt {s : Bytes} {n : Int} (h : SNumeral s n) (hz : ¬ LeadingZero s) (h1 : -2 ^ 63 ≤ n) (h2 : n < 2 ^ 63) :
    Runs getInt (105 :: s ++ [101]) n := by
  intro ext off
  rw [getInt_ok]
  exact ⟨s, h, hz, h1, h2, by simp, by simp⟩

theorem Runs.getUint {s : Bytes} {n : Nat} (h : Numeral s n) (hz : ¬ LeadingZero s) (h2 : n < 2 ^ 64) :
    Runs getUint (105 :: s ++ [101]) n := by
  intro ext off
  rw [getUint_ok]
  exact ⟨s, h, hz, h2, by simp, by simp⟩

theorem Runs.consume {t : CTree} (h : CV t) : Runs (consume t.print.length) t.print t.print :=
  fun ext off => consume_complete t h _ (Nat.le_refl _) ext off

/-- A successful run of a local parser. -/
theorem Loc.runs {α : Type} {ne : Bool} {p : P α} (hl : Loc ne p) (ht : TrP p) {st st' : St} {a : α} (h : p st = .ok (a, st')) :
    ∃ tr, DV tr ∧ Reads st tr.print st' ∧ Runs p tr.print a := by
  obtain ⟨c, d, h1, h2, _, h4⟩ := hl st a st' h
  obtain ⟨tr, htr, hr⟩ := ht st a st' h
  have hc : c = tr.print := List.append_cancel_right (h1.symm.trans hr.1)
  have hd : d = c.length := by have := hr.2; rw [hc]; omega
  subst hd; subst hc
  exact ⟨tr, htr, hr, h4⟩

/-- **Decoding as a relation**: decoding the text `c` into a target with flags `fl`, type `t` and value `v` succeeds with
the value `w`, whatever follows. -/
def D (env : Env) (fl : Flags) (t : Ty) (v : Val) (c : Bytes) (w : Val) : Prop := ∃ n, Runs (decode env n fl t v) c w

/-- The same for the field at the path `is`. -/
def DA (env : Env) (is : List Nat) (fl : Flags) (t : Ty) (v : Val) (c : Bytes) (w : Val) : Prop :=
  ∃ n, Runs (atField (decode env n) is fl t v) c w

theorem D.at {env : Env} {n m : Nat} {fl : Flags} {t : Ty} {v : Val} {c : Bytes} {w : Val} (h : Runs (decode env n fl t v) c w)
    (hm : n ≤ m) : Runs (decode env m fl t v) c w := h.mono (Le.decode env hm fl t v)

/-- The text is the text of one value. -/
theorem D.tree {env : Env} {fl : Flags} {t : Ty} {v : Val} {c : Bytes} {w : Val} (h : D env fl t v c w) :
    ∃ tr, DV tr ∧ c = tr.print := by
  obtain ⟨n, h⟩ := h
  obtain ⟨tr, htr, hr⟩ := TrP.decode env n fl t v _ _ _ (h [] 0)
  exact ⟨tr, htr, by simpa using hr.1⟩

theorem DV.head {tr : CTree} (h : DV tr) : ∃ b r, tr.print = b :: r ∧ b ≠ 101 := (Valid.syn tr h).head_ne

theorem D.head {env : Env} {fl : Flags} {t : Ty} {v : Val} {c : Bytes} {w : Val} (h : D env fl t v c w) :
    ∃ b r, c = b :: r ∧ b ≠ 101 := by
  obtain ⟨tr, htr, rfl⟩ := h.tree
  exact DV.head htr

theorem DA.tree {env : Env} {is : List Nat} {fl : Flags} {t : Ty} {v : Val} {c : Bytes} {w : Val} (h : DA env is fl t v c w) :
    ∃ tr, DV tr ∧ c = tr.print := by
  obtain ⟨n, h⟩ := h
  obtain ⟨tr, htr, hr⟩ := TrP.atField (fun fl t v => TrP.decode env n fl t v) is fl t v _ _ _ (h [] 0)
  exact ⟨tr, htr, by simpa using hr.1⟩

/-- A decoder run that succeeds is an instance of the relation. -/
theorem decode_D {env : Env} {n : Nat} {fl : Flags} {t : Ty} {v w : Val} {st st' : St} (h : decode env n fl t v st = .ok (w, st')) :
    ∃ tr, DV tr ∧ Reads st tr.print st' ∧ D env fl t v tr.print w := by
  obtain ⟨tr, h1, h2, h3⟩ := Loc.runs (Loc.decode env n fl t v) (TrP.decode env n fl t v) h
  exact ⟨tr, h1, h2, n, h3⟩

theorem D.unique {env : Env} {fl : Flags} {t : Ty} {v w w' : Val} {c : Bytes} (h : D env fl t v c w) (h' : D env fl t v c w') :
    w = w' := by
  obtain ⟨n, h⟩ := h
  obtain ⟨m, h'⟩ := h'
  have h1 := D.at h (Nat.le_max_left n m) [] 0
  have h2 := D.at h' (Nat.le_max_right n m) [] 0
  rw [h1] at h2
  simpa using h2

theorem D.unmarshalSt {env : Env} {t : Ty} {v w : Val} {c : Bytes} (henv : env.Sane) (h : D env { addr := true } t v c w)
    (rest : Bytes) : unmarshalSt env t v (c ++ rest) = .ok (w, ⟨rest, c.length⟩) := by
  obtain ⟨n, h⟩ := h
  have hr := D.at h (Nat.le_max_left n (fuelFor (c ++ rest))) rest 0
  unfold Bencode.unmarshalSt
  rcases Le.decode env (Nat.le_max_right n (fuelFor (c ++ rest))) { addr := true } t v ⟨c ++ rest, 0⟩ with e | e
  · exact absurd e (NF.decode henv (len := (c ++ rest).length) (by simp [fuelFor]) _ t v _ (Nat.le_refl _))
  · rw [← e, hr]; simp

theorem D.unmarshal {env : Env} {t : Ty} {v w : Val} {c : Bytes} (henv : env.Sane) (h : D env { addr := true } t v c w)
    (rest : Bytes) : unmarshal env t v (c ++ rest) = .ok w := by
  unfold Bencode.unmarshal
  rw [D.unmarshalSt henv h rest]; rfl

/-- What `Unmarshal` accepts. -/
theorem unmarshal_D {env : Env} (henv : env.Sane) {t : Ty} {v w : Val} {bs : Bytes} :
    unmarshal env t v bs = .ok w ↔ ∃ tr rest, DV tr ∧ bs = tr.print ++ rest ∧ D env { addr := true } t v tr.print w := by
  constructor
  · intro h
    unfold Bencode.unmarshal at h
    cases hx : Bencode.unmarshalSt env t v bs with
    | err e => rw [hx] at h; simp [Res.map] at h
    | panic => rw [hx] at h; simp [Res.map] at h
    | ok y =>
      obtain ⟨a, st'⟩ := y
      rw [hx] at h
      simp only [Res.map, Res.ok.injEq] at h
      subst h
      obtain ⟨tr, h1, h2, h3⟩ := decode_D hx
      exact ⟨tr, st'.rest, h1, h2.1, h3⟩
  · rintro ⟨tr, rest, _, rfl, h⟩
    exact h.unmarshal henv rest

/-! ### The kinds -/

section kinds
variable {env : Env} {fl : Flags}

theorem D.str {v : Val} {l b : Bytes} (hfl : fl.settable = true) (h : LenText l b) : D env fl .str v (l ++ 58 :: b) (.str b) := by
  refine ⟨1, ?_⟩
  have e : decode env 1 fl .str v = (getString >>= fun s => setVal fl (.str s)) := by cases v <;> rfl
  rw [e]
  exact (Runs.getString h).then (fun st => setVal_run hfl _ st)

theorem D.bytes {v : Val} {l b : Bytes} (hfl : fl.settable = true) (h : LenText l b) :
    D env fl .bytes v (l ++ 58 :: b) (.bytes b) := by
  refine ⟨1, ?_⟩
  have e : decode env 1 fl .bytes v = (getString >>= fun s => setVal fl (.bytes s)) := by cases v <;> rfl
  rw [e]
  exact (Runs.getString h).then (fun st => setVal_run hfl _ st)

theorem D.int {v : Val} {bits : Nat} {s : Bytes} {n : Int} (hfl : fl.settable = true) (h : SNumeral s n) (hz : ¬ LeadingZero s)
    (h1 : -2 ^ 63 ≤ n) (h2 : n < 2 ^ 63) : D env fl (.int bits) v (105 :: s ++ [101]) (.int (wrapInt bits n)) := by
  refine ⟨1, ?_⟩
  have e : decode env 1 fl (.int bits) v = (getInt >>= fun s => setVal fl (.int (wrapInt bits s))) := by cases v <;> rfl
  rw [e]
  exact (Runs.getInt h hz h1 h2).then (fun st => setVal_run hfl _ st)

theorem D.uint {v : Val} {bits : Nat} {s : Bytes} {n : Nat} (hfl : fl.settable = true) (h : Numeral s n) (hz : ¬ LeadingZero s)
    (h2 : n < 2 ^ 64) : D env fl (.uint bits) v (105 :: s ++ [101]) (.uint (wrapUint bits n)) := by
  refine ⟨1, ?_⟩
  have e : decode env 1 fl (.uint bits) v = (getUint >>= fun s => setVal fl (.uint (wrapUint bits s))) := by cases v <;> rfl
  rw [e]
  exact (Runs.getUint h hz h2).then (fun st => setVal_run hfl _ st)

theorem D.any {tr : CTree} (hfl : fl.settable = true) (h : CV tr) : D env fl .any .nilIface tr.print (toAny tr.abs) :=
  ⟨tr.print.length, fun ext off => any_complete env tr h _ (Nat.le_refl _) fl hfl ext off⟩

theorem decode_method {id : Nat} {u : Ty} {um : Bytes → Val → Res Val} {v : Val} (hum : (env id).unmarshal = some um)
    (ha : fl.addr = true) (n : Nat) :
    decode env (n + 1) fl (.custom id u) v = decodeUnmarshaler (consume n) fl.ro um (some v) := by
  have : decode env (n + 1) fl (.custom id u) v = (match (env id).unmarshal, fl.addr with
      | some um, true => decodeUnmarshaler (consume n) fl.ro um (some v)
      | _, _ => decodeFlat (decode env n) (consume n) n fl u v) := by
    cases v <;> rfl
  rw [this, hum, ha]

theorem D.method {id : Nat} {u : Ty} {um : Bytes → Val → Res Val} {v w : Val} {tr : CTree} (hum : (env id).unmarshal = some um)
    (hfl : fl.settable = true) (ht : CV tr) (h : um tr.print v = .ok w) : D env fl (.custom id u) v tr.print w := by
  simp only [Flags.settable, Bool.and_eq_true, Bool.not_eq_true'] at hfl
  refine ⟨tr.print.length + 1, ?_⟩
  rw [decode_method hum hfl.1, hfl.2]
  unfold decodeUnmarshaler
  simp only [Bool.false_eq_true, if_false]
  exact (Runs.consume ht).then (fun st => by simp [h])

/-- The converse: what a method is given, and what it returns. -/
theorem D.method_inv {id : Nat} {u : Ty} {um : Bytes → Val → Res Val} {v w : Val} {c : Bytes} (hum : (env id).unmarshal = some um)
    (ha : fl.addr = true) (h : D env fl (.custom id u) v c w) : (∃ tr, CV tr ∧ c = tr.print) ∧ um c v = .ok w := by
  obtain ⟨n, h⟩ := h
  cases n with
  | zero => have := h [] 0; simp [decode] at this
  | succ n =>
    rw [decode_method hum ha] at h
    have h := h [] 0
    unfold decodeUnmarshaler at h
    cases hro : fl.ro with
    | true => rw [hro] at h; simp [P.panic] at h
    | false =>
      simp only [hro, Bool.false_eq_true, if_false, bind_run, List.append_nil] at h
      rw [Res.bind_eq_ok] at h
      obtain ⟨⟨raw, st1⟩, h1, h2⟩ := h
      simp only [lift_run] at h2
      rw [Res.bind_eq_ok] at h2
      obtain ⟨x, h2, h3⟩ := h2
      simp only [Res.ok.injEq, Prod.mk.injEq] at h3
      obtain ⟨rfl, rfl⟩ := h3
      obtain ⟨tr, htr, hraw, hr⟩ := consume_sound _ _ _ _ h1
      have hc : c = tr.print := by simpa using hr.1
      rw [hraw, ← hc] at h2
      exact ⟨⟨tr, htr, hc⟩, h2⟩

/-- The kinds that are decoded in place. -/
def Plain : Ty → Prop
  | .ptr _ | .any | .iface | .custom _ _ => False
  | _ => True

theorem decode_plain {t : Ty} (ht : Plain t) (n : Nat) (v : Val) :
    decode env (n + 1) fl t v = decodeFlat (decode env n) (consume n) n fl t v := by
  cases t <;> simp only [Plain] at ht <;> (cases v <;> rfl)

theorem D.named {id : Nat} {u : Ty} {v w : Val} {c : Bytes} (hum : (env id).unmarshal = none) (hu : Plain u) :
    D env fl (.custom id u) v c w ↔ D env fl u v c w := by
  have e : ∀ n, decode env n fl (.custom id u) v = decode env n fl u v := by
    intro n
    cases n with
    | zero => rfl
    | succ n =>
      rw [decode_plain hu]
      have : decode env (n + 1) fl (.custom id u) v = (match (env id).unmarshal, fl.addr with
          | some um, true => decodeUnmarshaler (consume n) fl.ro um (some v)
          | _, _ => decodeFlat (decode env n) (consume n) n fl u v) := by
        cases v <;> rfl
      rw [this, hum]
  unfold D
  simp only [e]

/-- Elements of a list, each decoded into a fresh variable. -/
inductive DL (env : Env) (et : Ty) : List Bytes → List Val → Prop
  | nil : DL env et [] []
  | cons {c w cs ws} : D env { addr := true } et (zero et) c w → DL env et cs ws → DL env et (c :: cs) (w :: ws)

theorem sliceLoop_runs {et : Ty} (hfl : fl.settable = true) {cs : List Bytes} {ws : List Val} (h : DL env et cs ws) :
    ∃ n, ∀ m, n ≤ m → ∀ k, cs.length < k → ∀ pre,
      RunsL (decodeSliceLoop (decode env m) fl et k pre []) cs.flatten (pre ++ ws) := by
  induction h with
  | nil =>
    refine ⟨0, fun m _ k hk pre => ?_⟩
    obtain ⟨k, rfl⟩ : ∃ k', k = k' + 1 := ⟨k - 1, by simp at hk; omega⟩
    have e : decodeSliceLoop (decode env m) fl et (k + 1) pre [] = (peekByte >>= fun c => if c = 101 then (readByte >>= fun _ => Pure.pure (pre ++ []))
      else (if fl.settable then (decode env m { addr := true } et (zero et) >>= fun v' => decodeSliceLoop (decode env m) fl et k (pre ++ [v']) []) else P.panic)) := rfl
    rw [e]
    exact RunsL.stop
  | cons hd hrest ih =>
    rename_i c w cs ws
    obtain ⟨n2, ih⟩ := ih
    have hh := hd.head
    obtain ⟨n1, hd⟩ := hd
    refine ⟨max n1 n2, fun m hm k hk pre => ?_⟩
    obtain ⟨k, rfl⟩ : ∃ k', k = k' + 1 := ⟨k - 1, by simp at hk; omega⟩
    have e : decodeSliceLoop (decode env m) fl et (k + 1) pre [] = (peekByte >>= fun c => if c = 101 then (readByte >>= fun _ => Pure.pure (pre ++ []))
      else (if fl.settable then (decode env m { addr := true } et (zero et) >>= fun v' => decodeSliceLoop (decode env m) fl et k (pre ++ [v']) []) else P.panic)) := rfl
    rw [e]
    refine RunsL.step ?_ ?_
    · obtain ⟨b, r, rfl, hb⟩ := hh
      exact ⟨b, r ++ cs.flatten, by simp, hb⟩
    · rw [if_pos hfl]
      have hr := D.at hd (Nat.le_trans (Nat.le_max_left n1 n2) hm)
      have hl := ih m (Nat.le_trans (Nat.le_max_right n1 n2) hm) k (by simp at hk; omega) (pre ++ [w])
      have := Runs.bindL (f := fun v' => decodeSliceLoop (decode env m) fl et k (pre ++ [v']) []) hr hl
      simpa using this

theorem D.slice {et : Ty} (hfl : fl.settable = true) {cs : List Bytes} {ws : List Val} (h : DL env et cs ws) :
    D env fl (.slice et) .nilSlice (108 :: cs.flatten ++ [101]) (.slice ws) := by
  obtain ⟨n, h⟩ := sliceLoop_runs hfl h
  have h := h (max n (cs.length + 1)) (Nat.le_max_left _ _) (max n (cs.length + 1)) (by omega) []
  refine ⟨max n (cs.length + 1) + 1, ?_⟩
  rw [decode_plain (by trivial)]
  show Runs (decodeSlice (decode env (max n (cs.length + 1))) fl et .nilSlice (max n (cs.length + 1))) _ _
  generalize max n (cs.length + 1) = N at h
  have e : decodeSlice (decode env N) fl et .nilSlice N = (readByte >>= fun b => if b ≠ 108 then P.fail .syntax else
      (adv 1 >>= fun _ => if fl.settable then (decodeSliceLoop (decode env N) fl et N [] [] >>= fun a => adv 1 >>= fun _ => Pure.pure (Val.slice a)) else P.panic)) := rfl
  rw [e, hfl]
  exact Runs.frame (g := Val.slice) h

/-- Elements of an array. -/
inductive DArr (env : Env) (fl : Flags) (et : Ty) : List Val → List Bytes → List Val → Prop
  | nil : DArr env fl et [] [] []
  | cons {v c w vs cs ws} : D env { addr := fl.addr } et v c w → DArr env fl et vs cs ws → DArr env fl et (v :: vs) (c :: cs) (w :: ws)

theorem arrayLoop_runs {et : Ty} {vs : List Val} {cs : List Bytes} {ws : List Val} (h : DArr env fl et vs cs ws) :
    ∃ n, ∀ m, n ≤ m → ∀ skip k, cs.length < k → ∀ pre,
      RunsL (decodeArrayLoop (decode env m) skip fl et k pre vs) cs.flatten (pre ++ ws) := by
  induction h with
  | nil =>
    refine ⟨0, fun m _ skip k hk pre => ?_⟩
    obtain ⟨k, rfl⟩ : ∃ k', k = k' + 1 := ⟨k - 1, by simp at hk; omega⟩
    have e : decodeArrayLoop (decode env m) skip fl et (k + 1) pre [] = (peekByte >>= fun c => if c = 101 then (readByte >>= fun _ => Pure.pure (pre ++ []))
      else (skip >>= fun _ => decodeArrayLoop (decode env m) skip fl et k pre [])) := rfl
    rw [e]
    exact RunsL.stop
  | cons hd hrest ih =>
    rename_i v c w vs cs ws
    obtain ⟨n2, ih⟩ := ih
    have hh := hd.head
    obtain ⟨n1, hd⟩ := hd
    refine ⟨max n1 n2, fun m hm skip k hk pre => ?_⟩
    obtain ⟨k, rfl⟩ : ∃ k', k = k' + 1 := ⟨k - 1, by simp at hk; omega⟩
    have e : decodeArrayLoop (decode env m) skip fl et (k + 1) pre (v :: vs) = (peekByte >>= fun c => if c = 101 then (readByte >>= fun _ => Pure.pure (pre ++ v :: vs))
      else (decode env m { addr := fl.addr } et v >>= fun v' => decodeArrayLoop (decode env m) skip fl et k (pre ++ [v']) vs)) := rfl
    rw [e]
    refine RunsL.step ?_ ?_
    · obtain ⟨b, r, rfl, hb⟩ := hh
      exact ⟨b, r ++ cs.flatten, by simp, hb⟩
    · have hr := D.at hd (Nat.le_trans (Nat.le_max_left n1 n2) hm)
      have hl := ih m (Nat.le_trans (Nat.le_max_right n1 n2) hm) skip k (by simp at hk; omega) (pre ++ [w])
      have := Runs.bindL (f := fun v' => decodeArrayLoop (decode env m) skip fl et k (pre ++ [v']) vs) hr hl
      simpa using this

theorem D.array {n : Nat} {et : Ty} {vs : List Val} {cs : List Bytes} {ws : List Val} (h : DArr env fl et vs cs ws) :
    D env fl (.array n et) (.array vs) (108 :: cs.flatten ++ [101]) (.array ws) := by
  obtain ⟨n0, h⟩ := arrayLoop_runs h
  have h := h (max n0 (cs.length + 1)) (Nat.le_max_left _ _) (consume (max n0 (cs.length + 1))) (max n0 (cs.length + 1)) (by omega) []
  refine ⟨max n0 (cs.length + 1) + 1, ?_⟩
  rw [decode_plain (by trivial)]
  show Runs (decodeArray (decode env (max n0 (cs.length + 1))) (consume (max n0 (cs.length + 1))) fl et (.array vs) (max n0 (cs.length + 1))) _ _
  generalize max n0 (cs.length + 1) = N at h
  exact Runs.frame (g := Val.array) h

/-- The text of dictionary entries. -/
def entries : List (Bytes × Bytes × Bytes) → Bytes
  | [] => []
  | (l, k, c) :: es => (l ++ 58 :: k) ++ (c ++ entries es)

/-- Entries of a map, each decoded into a fresh variable; `last` is the preceding key. -/
inductive DM (env : Env) (et : Ty) : Bytes → List (Bytes × Bytes × Bytes) → List (Bytes × Val) → Prop
  | nil {last} : DM env et last [] []
  | cons {last l k c w es ws} : LenText l k → BLt last k → D env { addr := true } et (zero et) c w → DM env et k es ws →
      DM env et last ((l, k, c) :: es) ((k, w) :: ws)

theorem lenText_ne {l b : Bytes} (h : LenText l b) (r : Bytes) : ∃ x y, l ++ 58 :: b ++ r = x :: y ∧ x ≠ 101 := by
  obtain ⟨c, r', rfl, hc⟩ := lenText_head h
  exact ⟨c, r' ++ 58 :: b ++ r, by simp, hc⟩

theorem mapLoop_runs {et : Ty} {last : Bytes} {es : List (Bytes × Bytes × Bytes)} {ws : List (Bytes × Val)} (h : DM env et last es ws) :
    ∃ n, ∀ m, n ≤ m → ∀ k, es.length < k → ∀ pre : List (Bytes × Val), KeysLe last pre →
      RunsL (decodeMapLoop (decode env m) et k last pre) (entries es) (pre ++ ws) := by
  induction h with
  | nil =>
    rename_i last
    refine ⟨0, fun m _ k hk pre _ => ?_⟩
    obtain ⟨k, rfl⟩ : ∃ k', k = k' + 1 := ⟨k - 1, by simp at hk; omega⟩
    have e : decodeMapLoop (decode env m) et (k + 1) last pre = (peekByte >>= fun c => if c = 101 then (readByte >>= fun _ => Pure.pure pre)
      else (getString >>= fun key => if !bltB last key then P.fail .unsorted else
        (decode env m { addr := true } et (zero et) >>= fun v => decodeMapLoop (decode env m) et k key (setKey key v pre)))) := rfl
    rw [e]
    simp only [List.append_nil]
    exact RunsL.stop
  | cons hl hb hd hrest ih =>
    rename_i last l key c w es ws
    obtain ⟨n2, ih⟩ := ih
    obtain ⟨n1, hd⟩ := hd
    refine ⟨max n1 n2, fun m hm k hk pre hpre => ?_⟩
    obtain ⟨k, rfl⟩ : ∃ k', k = k' + 1 := ⟨k - 1, by simp at hk; omega⟩
    have e : decodeMapLoop (decode env m) et (k + 1) last pre = (peekByte >>= fun c => if c = 101 then (readByte >>= fun _ => Pure.pure pre)
      else (getString >>= fun key => if !bltB last key then P.fail .unsorted else
        (decode env m { addr := true } et (zero et) >>= fun v => decodeMapLoop (decode env m) et k key (setKey key v pre)))) := rfl
    rw [e]
    refine RunsL.step (lenText_ne hl _) ?_
    refine Runs.bindL (Runs.getString hl) ?_
    rw [(bltB_iff last key).mpr hb]
    simp only [Bool.not_true, Bool.false_eq_true, if_false]
    refine Runs.bindL (D.at hd (Nat.le_trans (Nat.le_max_left n1 n2) hm)) ?_
    rw [setKey_new key w pre (hpre.ne hb)]
    have := ih m (Nat.le_trans (Nat.le_max_right n1 n2) hm) k (by simp at hk; omega) (pre ++ [(key, w)]) (hpre.snoc hb)
    simpa using this

theorem D.map {et : Ty} (hfl : fl.settable = true) {es : List (Bytes × Bytes × Bytes)} {ws : List (Bytes × Val)} (h : DM env et [] es ws) :
    D env fl (.map et) .nilMap (100 :: entries es ++ [101]) (.map ws) := by
  obtain ⟨n0, h⟩ := mapLoop_runs h
  have h := h (max n0 (es.length + 1)) (Nat.le_max_left _ _) (max n0 (es.length + 1)) (by omega) [] (by simp [KeysLe])
  refine ⟨max n0 (es.length + 1) + 1, ?_⟩
  rw [decode_plain (by trivial)]
  show Runs (decodeMap (decode env (max n0 (es.length + 1))) fl et .nilMap (max n0 (es.length + 1))) _ _
  generalize max n0 (es.length + 1) = N at h
  have e : decodeMap (decode env N) fl et .nilMap N = (readByte >>= fun b => if b ≠ 100 then P.fail .syntax else
      (adv 1 >>= fun _ => if fl.settable then (decodeMapLoop (decode env N) et N [] [] >>= fun a => adv 1 >>= fun _ => Pure.pure (Val.map a)) else P.panic)) := rfl
  rw [e, hfl]
  exact Runs.frame (g := Val.map) h

/-! ### Structs -/

/-- Decoding dictionary entries into a struct: `last` is the preceding key. -/
inductive SLoop (env : Env) (fl : Flags) (t : Ty) : Bytes → Val → List (Bytes × Bytes × Bytes) → Val → Prop
  | nil {last v} : SLoop env fl t last v [] v
  | skip {last l k tr es v w} : LenText l k → BLt last k → lookupKey k (keyToField t) = none → CV tr → SLoop env fl t k v es w →
      SLoop env fl t last v ((l, k, tr.print) :: es) w
  | field {last l k c es v v' w f} : LenText l k → BLt last k → lookupKey k (keyToField t) = some f →
      DA env f.index fl t v c v' → SLoop env fl t k v' es w → SLoop env fl t last v ((l, k, c) :: es) w

theorem structLoop_eq (rec : Dec) (skip : P Bytes) (fl : Flags) (t : Ty) (k : Nat) (last : Bytes) (v : Val) :
    decodeStructLoop rec skip fl t (k + 1) last v = (peekByte >>= fun c => if c = 101 then (readByte >>= fun _ => Pure.pure v)
      else (getString >>= fun key => if !bltB last key then P.fail .unsorted else
        (match lookupKey key (keyToField t) with
        | none => skip >>= fun _ => decodeStructLoop rec skip fl t k key v
        | some f => atField rec f.index fl t v >>= fun v' => decodeStructLoop rec skip fl t k key v'))) := rfl

theorem structLoop_runs {t : Ty} {last : Bytes} {v w : Val} {es : List (Bytes × Bytes × Bytes)} (h : SLoop env fl t last v es w) :
    ∃ n, ∀ m, n ≤ m → ∀ k, es.length < k →
      RunsL (decodeStructLoop (decode env m) (consume m) fl t k last v) (entries es) w := by
  induction h with
  | nil =>
    refine ⟨0, fun m _ k hk => ?_⟩
    obtain ⟨k, rfl⟩ : ∃ k', k = k' + 1 := ⟨k - 1, by simp at hk; omega⟩
    rw [structLoop_eq]
    exact RunsL.stop
  | skip hl hb hk htr hrest ih =>
    rename_i last l key tr es v w
    obtain ⟨n2, ih⟩ := ih
    refine ⟨max tr.print.length n2, fun m hm k hk' => ?_⟩
    obtain ⟨k, rfl⟩ : ∃ k', k = k' + 1 := ⟨k - 1, by simp at hk'; omega⟩
    rw [structLoop_eq]
    refine RunsL.step (lenText_ne hl _) ?_
    refine Runs.bindL (Runs.getString hl) ?_
    rw [(bltB_iff last key).mpr hb, hk]
    simp only [Bool.not_true, Bool.false_eq_true, if_false]
    refine Runs.bindL ((Runs.consume htr).mono (Le.consume (Nat.le_trans (Nat.le_max_left _ n2) hm))) ?_
    exact ih m (Nat.le_trans (Nat.le_max_right _ n2) hm) k (by simp at hk'; omega)
  | field hl hb hk hd hrest ih =>
    rename_i last l key c es v v' w f
    obtain ⟨n2, ih⟩ := ih
    obtain ⟨n1, hd⟩ := hd
    refine ⟨max n1 n2, fun m hm k hk' => ?_⟩
    obtain ⟨k, rfl⟩ : ∃ k', k = k' + 1 := ⟨k - 1, by simp at hk'; omega⟩
    rw [structLoop_eq]
    refine RunsL.step (lenText_ne hl _) ?_
    refine Runs.bindL (Runs.getString hl) ?_
    rw [(bltB_iff last key).mpr hb, hk]
    simp only [Bool.not_true, Bool.false_eq_true, if_false]
    refine Runs.bindL (hd.mono ?_) ?_
    · exact Le.atField (fun fl t v => Le.decode env (Nat.le_trans (Nat.le_max_left n1 n2) hm) fl t v) _ _ _ _
    · exact ih m (Nat.le_trans (Nat.le_max_right _ n2) hm) k (by simp at hk'; omega)

theorem D.struct {id : Nat} {fs : List (Hdr × Ty)} {v w : Val} {es : List (Bytes × Bytes × Bytes)}
    (h : SLoop env fl (.struct id fs) [] v es w) : D env fl (.struct id fs) v (100 :: entries es ++ [101]) w := by
  obtain ⟨n0, h⟩ := structLoop_runs h
  have h := h (max n0 (es.length + 1)) (Nat.le_max_left _ _) (max n0 (es.length + 1)) (by omega)
  refine ⟨max n0 (es.length + 1) + 1, ?_⟩
  rw [decode_plain (by trivial)]
  generalize max n0 (es.length + 1) = N at h
  have e : decodeFlat (decode env N) (consume N) N fl (.struct id fs) v = (readByte >>= fun b => if b ≠ 100 then P.fail .syntax else
      (adv 1 >>= fun _ => decodeStructLoop (decode env N) (consume N) fl (.struct id fs) N [] v >>= fun a => adv 1 >>= fun _ => Pure.pure a)) := by
    cases v <;> rfl
  rw [e]
  exact Runs.frame (g := fun a => a) h

end kinds

end Drip.Bencode
