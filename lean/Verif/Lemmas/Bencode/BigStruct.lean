import Verif.Lemmas.Bencode.Big
import Verif.Lemmas.Bencode.Fields
/-
Decoding into structs as a relation: the converse direction, single fields, entries with unknown keys.
-/

namespace Drip.Bencode
open Spec

variable {env : Env} {fl : Flags}

theorem structLoop_sound {t : Ty} {n m : Nat} : ∀ (k : Nat) (last : Bytes) (v : Val) (st : St) (w : Val) (st' : St),
    decodeStructLoop (decode env n) (consume m) fl t k last v st = .ok (w, st') →
    ∃ es, SLoop env fl t last v es w ∧ st.rest = entries es ++ 101 :: st'.rest := by
  intro k
  induction k with
  | zero => intro last v st w st' h; simp [decodeStructLoop] at h
  | succ k ih =>
    intro last v st w st' h
    rw [structLoop_eq, bind_run, Res.bind_eq_ok] at h
    obtain ⟨⟨c, st1⟩, h1, h2⟩ := h
    obtain ⟨rfl, r, hr⟩ := (peekByte_ok _ _ _).mp h1
    by_cases hc : c = 101
    · subst hc
      simp only [if_true, bind_run, readByte, hr, Res.bind_ok] at h2
      simp only [pure_run, Res.ok.injEq, Prod.mk.injEq] at h2
      obtain ⟨rfl, rfl⟩ := h2
      exact ⟨[], .nil, by simp [entries, hr]⟩
    · simp only [if_neg hc, bind_run] at h2
      rw [Res.bind_eq_ok] at h2
      obtain ⟨⟨key, st2⟩, h2, h3⟩ := h2
      obtain ⟨l, hl, hr2, _⟩ := (getString_ok _ _ _).mp h2
      simp only at h3
      cases hb : bltB last key with
      | false => simp [hb] at h3
      | true =>
        simp only [hb, Bool.not_true, Bool.false_eq_true, if_false] at h3
        have hb' := (bltB_iff last key).mp hb
        cases hk : lookupKey key (keyToField t) with
        | none =>
          simp only [hk, bind_run] at h3
          rw [Res.bind_eq_ok] at h3
          obtain ⟨⟨raw, st3⟩, h3, h4⟩ := h3
          obtain ⟨tr, htr, _, hr3⟩ := consume_sound _ _ _ _ h3
          obtain ⟨es, hes, hr4⟩ := ih _ _ _ _ _ h4
          refine ⟨(l, key, tr.print) :: es, .skip hl hb' hk htr hes, ?_⟩
          rw [hr2, hr3.1, hr4]
          simp [entries]
        | some f =>
          simp only [hk, bind_run] at h3
          rw [Res.bind_eq_ok] at h3
          obtain ⟨⟨v', st3⟩, h3, h4⟩ := h3
          obtain ⟨tr, htr, hr3, hrun⟩ := Loc.runs (Loc.atField (fun fl t v => Loc.decode env n fl t v) f.index fl t v)
            (TrP.atField (fun fl t v => TrP.decode env n fl t v) f.index fl t v) h3
          obtain ⟨es, hes, hr4⟩ := ih _ _ _ _ _ h4
          refine ⟨(l, key, tr.print) :: es, .field hl hb' hk ⟨n, hrun⟩ hes, ?_⟩
          rw [hr2, hr3.1, hr4]
          simp [entries]

theorem D.struct_inv {id : Nat} {fs : List (Hdr × Ty)} {v w : Val} {c : Bytes} (h : D env fl (.struct id fs) v c w) :
    ∃ es, c = 100 :: entries es ++ [101] ∧ SLoop env fl (.struct id fs) [] v es w := by
  obtain ⟨n, h⟩ := h
  cases n with
  | zero => have := h [] 0; simp [decode] at this
  | succ n =>
    rw [decode_plain (by trivial)] at h
    have h := h [] 0
    have e : decodeFlat (decode env n) (consume n) n fl (.struct id fs) v = (readByte >>= fun b => if b ≠ 100 then P.fail .syntax else
        (adv 1 >>= fun _ => decodeStructLoop (decode env n) (consume n) fl (.struct id fs) n [] v >>= fun a => adv 1 >>= fun _ => Pure.pure a)) := by
      cases v <;> rfl
    rw [e, bind_run, Res.bind_eq_ok] at h
    obtain ⟨⟨b, st1⟩, h1, h2⟩ := h
    obtain ⟨hr1, _⟩ := (readByte_ok _ _ _).mp h1
    simp only [List.append_nil] at hr1
    by_cases hb : b = 100
    · subst hb
      simp only [ne_eq, not_true, if_false, bind_run, adv, Res.bind_ok] at h2
      rw [Res.bind_eq_ok] at h2
      obtain ⟨⟨a, st2⟩, h2, h3⟩ := h2
      simp only [pure_run, Res.ok.injEq, Prod.mk.injEq] at h3
      obtain ⟨rfl, h3⟩ := h3
      obtain ⟨es, hes, hr2⟩ := structLoop_sound _ _ _ _ _ _ h2
      refine ⟨es, ?_, hes⟩
      have : st2.rest = [] := by have := congrArg St.rest h3; simpa using this
      simp only at hr2
      rw [hr1, hr2, this]; simp
    · simp [hb] at h2

/-- The entries as concrete syntax. -/
def textEs : List (Bytes × Bytes × CTree) → List (Bytes × Bytes × Bytes)
  | [] => []
  | (l, k, t) :: es => (l, k, t.print) :: textEs es

theorem entries_textEs (es : List (Bytes × Bytes × CTree)) : entries (textEs es) = printEs es := by
  induction es with
  | nil => rfl
  | cons e es ih => obtain ⟨l, k, t⟩ := e; simp [textEs, entries, printEs, ih]

theorem SLoop.valid {t : Ty} {last : Bytes} {v w : Val} {es : List (Bytes × Bytes × Bytes)} (h : SLoop env fl t last v es w) :
    ∃ ts, es = textEs ts ∧ ValidEs false (2 ^ 64) last ts := by
  induction h with
  | nil => exact ⟨[], rfl, trivial⟩
  | skip hl hb _ htr _ ih =>
    obtain ⟨ts, rfl, hv⟩ := ih
    exact ⟨(_, _, _) :: ts, rfl, hl, hb, Valid.mono _ (by decide) htr, hv⟩
  | field hl hb _ hd _ ih =>
    obtain ⟨ts, rfl, hv⟩ := ih
    obtain ⟨tr, htr, rfl⟩ := hd.tree
    exact ⟨(_, _, tr) :: ts, rfl, hl, hb, htr, hv⟩

theorem printEs_inj {es es' : List (Bytes × Bytes × CTree)} (h : SynEs es) (h' : SynEs es') (e : printEs es ++ [101] = printEs es' ++ [101]) :
    es = es' := by
  have := (print_unique (.dict es) (.dict es') h h' [] [] (by simp only [CTree.print]; simpa using e)).1
  simpa using this

/-- Decoding the text of a dictionary into a struct. -/
theorem D.struct_iff {id : Nat} {fs : List (Hdr × Ty)} {v w : Val} {es : List (Bytes × Bytes × CTree)} (hsyn : SynEs es) :
    D env fl (.struct id fs) v (CTree.dict es).print w ↔ SLoop env fl (.struct id fs) [] v (textEs es) w := by
  constructor
  · intro h
    obtain ⟨es', e, hs⟩ := h.struct_inv
    obtain ⟨ts, rfl, hv⟩ := hs.valid
    rw [entries_textEs] at e
    have : es = ts := printEs_inj hsyn (by
      have := Valid.syn (.dict ts) hv
      exact this) (by simpa [CTree.print] using e)
    rw [this]; exact hs
  · intro h
    have := D.struct h
    rw [entries_textEs] at this
    exact this

/-! ### Single fields -/

/-- Not a pointer. -/
def NotPtr : Ty → Prop
  | .ptr _ => False
  | _ => True

theorem DA_field {t ft : Ty} {id i : Nat} {fs : List (Hdr × Ty)} {h : Hdr} {vs : List Val} {fv w : Val} {c : Bytes}
    (ht : t.under = .struct id fs) (hf : fs[i]? = some (h, ft)) (hv : vs[i]? = some fv) (hp : NotPtr ft) :
    DA env [i] fl t (.struct vs) c w ↔
      ∃ x, D env { addr := fl.addr, ro := h.anon && !h.exported } ft fv c x ∧ w = .struct (vs.set i x) := by
  have e : ∀ n, atField (decode env n) [i] fl t (.struct vs) =
      (decode env n { addr := fl.addr, ro := h.anon && !h.exported } ft fv >>= fun x => Pure.pure (Val.struct (vs.set i x))) := by
    intro n
    unfold atField
    rw [ht]
    simp only [hf, hv]
    cases ft <;> first | exact hp.elim | rfl
  constructor
  · rintro ⟨n, h⟩
    rw [e] at h
    have h0 := h [] 0
    rw [bind_run, Res.bind_eq_ok] at h0
    obtain ⟨⟨x, st⟩, h1, h2⟩ := h0
    simp only [pure_run, Res.ok.injEq, Prod.mk.injEq] at h2
    obtain ⟨rfl, rfl⟩ := h2
    obtain ⟨tr, h3, h4, h5⟩ := decode_D h1
    have : c = tr.print := by simpa using h4.1
    rw [← this] at h5
    exact ⟨x, h5, rfl⟩
  · rintro ⟨x, ⟨n, h⟩, rfl⟩
    exact ⟨n, by rw [e]; exact h.then (fun st => rfl)⟩

theorem DA_nilptr {t et : Ty} {id i : Nat} {fs : List (Hdr × Ty)} {h : Hdr} {vs : List Val} {w : Val} {c : Bytes}
    (ht : t.under = .struct id fs) (hf : fs[i]? = some (h, .ptr et)) (hv : vs[i]? = some .nilPtr)
    (hs : fl.addr = true ∧ (h.anon && !h.exported) = false) :
    DA env [i] fl t (.struct vs) c w ↔
      ∃ x, D env { addr := true } et (zero et) c x ∧ w = .struct (vs.set i (.ptr x)) := by
  have e : ∀ n, atField (decode env n) [i] fl t (.struct vs) =
      (decode env n { addr := true } et (zero et) >>= fun x => Pure.pure (Val.struct (vs.set i (.ptr x)))) := by
    intro n
    unfold atField
    rw [ht]
    simp only [hf, hv, hs.1, hs.2]
    rfl
  constructor
  · rintro ⟨n, h⟩
    rw [e] at h
    have h0 := h [] 0
    rw [bind_run, Res.bind_eq_ok] at h0
    obtain ⟨⟨x, st⟩, h1, h2⟩ := h0
    simp only [pure_run, Res.ok.injEq, Prod.mk.injEq] at h2
    obtain ⟨rfl, rfl⟩ := h2
    obtain ⟨tr, h3, h4, h5⟩ := decode_D h1
    have : c = tr.print := by simpa using h4.1
    rw [← this] at h5
    exact ⟨x, h5, rfl⟩
  · rintro ⟨x, ⟨n, h⟩, rfl⟩
    exact ⟨n, by rw [e]; exact h.then (fun st => rfl)⟩

/-! ### Unknown keys -/

/-- No field of the struct, own or promoted, has this key. -/
def Unknown (t : Ty) (k : Bytes) : Prop := ∀ p h ft, Cand t p h ft → fieldKey h ≠ k

theorem unknown_iff {t : Ty} (hok : IdsOk t) (k : Bytes) : Unknown t k ↔ lookupKey k (keyToField t) = none := by
  constructor
  · intro h
    cases hx : lookupKey k (keyToField t) with
    | none => rfl
    | some f =>
      obtain ⟨hf, hk⟩ := lookupKey_some hx
      obtain ⟨g, hg, hs⟩ := (keyToField_inv hok).from_ f hf
      obtain ⟨h1, h2, _⟩ := (leaves_inv hok).cand g hg
      exact absurd (by rw [← h2, ← hs.key, hk]) (h _ _ _ h1)
  · intro h p hd ft hc hk
    obtain ⟨g, hg, hgk, _⟩ := leaves_complete hok hc
    obtain ⟨f, hf, hfk, _⟩ := (keyToField_inv hok).has g hg
    exact lookupKey_none h f hf (by rw [hfk, hgk, hk])

/-- `es` results from `es'` by inserting well-formed entries with keys unknown to `t`. -/
inductive Inserts (t : Ty) : List (Bytes × Bytes × CTree) → List (Bytes × Bytes × CTree) → Prop
  | nil : Inserts t [] []
  | keep {e es' es} : Inserts t es' es → Inserts t (e :: es') (e :: es)
  | insert {l k tr es' es} : Unknown t k → LenText l k → tr.Valid true (2 ^ 63) → Inserts t es' es →
      Inserts t es' ((l, k, tr) :: es)

/-- The keys of the entries with their values. -/
def keyed : List (Bytes × Bytes × CTree) → List (Bytes × CTree)
  | [] => []
  | (_, k, t) :: es => (k, t) :: keyed es

theorem SLoop.remove {t : Ty} (hok : IdsOk t) {es' es : List (Bytes × Bytes × CTree)} (hi : Inserts t es' es) :
    ∀ {last last' : Bytes} {v w : Val}, SLoop env fl t last v (textEs es) w → (last' = last ∨ BLt last' last) →
      SLoop env fl t last' v (textEs es') w := by
  induction hi with
  | nil => intro last last' v w h _; cases h; exact .nil
  | keep hi ih =>
    rename_i e es' es
    obtain ⟨l, k, tr⟩ := e
    intro last last' v w h hle
    have tr' : ∀ {k}, BLt last k → BLt last' k := by
      intro k hk
      rcases hle with rfl | hle
      · exact hk
      · exact BLt.trans hle hk
    generalize he : textEs ((l, k, tr) :: es) = E at h
    cases h with
    | nil => simp [textEs] at he
    | skip hl hb hn htr hs =>
      simp only [textEs, List.cons.injEq, Prod.mk.injEq] at he
      obtain ⟨⟨rfl, rfl, e⟩, rfl⟩ := he
      have := SLoop.skip hl (tr' hb) hn htr (ih hs (.inl rfl))
      rw [← e] at this
      exact this
    | field hl hb hn hd hs =>
      simp only [textEs, List.cons.injEq, Prod.mk.injEq] at he
      obtain ⟨⟨rfl, rfl, rfl⟩, rfl⟩ := he
      exact .field hl (tr' hb) hn hd (ih hs (.inl rfl))
  | insert hu hl htr hi ih =>
    rename_i l k tr es' es
    intro last last' v w h hle
    generalize he : textEs ((l, k, tr) :: es) = E at h
    cases h with
    | nil => simp [textEs] at he
    | skip hl hb hn htr hs =>
      simp only [textEs, List.cons.injEq, Prod.mk.injEq] at he
      obtain ⟨⟨rfl, rfl, e⟩, rfl⟩ := he
      refine ih hs (.inr ?_)
      rcases hle with rfl | hle
      · exact hb
      · exact BLt.trans hle hb
    | field hl hb hn hd hs =>
      simp only [textEs, List.cons.injEq, Prod.mk.injEq] at he
      obtain ⟨⟨rfl, rfl, rfl⟩, rfl⟩ := he
      rw [(unknown_iff hok _).mp hu] at hn
      simp at hn

theorem SLoop.insert {t : Ty} (hok : IdsOk t) {es' es : List (Bytes × Bytes × CTree)} (hi : Inserts t es' es) :
    ∀ {last last' : Bytes} {v w : Val}, SLoop env fl t last' v (textEs es') w → KeysAbove last (keyed es) →
      SLoop env fl t last v (textEs es) w := by
  induction hi with
  | nil => intro last last' v w h _; cases h; exact .nil
  | keep hi ih =>
    rename_i e es' es
    obtain ⟨l, k, tr⟩ := e
    intro last last' v w h hk
    generalize he : textEs ((l, k, tr) :: es') = E at h
    cases h with
    | nil => simp [textEs] at he
    | skip hl hb hn htr hs =>
      simp only [textEs, List.cons.injEq, Prod.mk.injEq] at he
      obtain ⟨⟨rfl, rfl, e⟩, rfl⟩ := he
      have := SLoop.skip hl hk.1 hn htr (ih hs hk.2)
      rw [← e] at this
      exact this
    | field hl hb hn hd hs =>
      simp only [textEs, List.cons.injEq, Prod.mk.injEq] at he
      obtain ⟨⟨rfl, rfl, rfl⟩, rfl⟩ := he
      exact .field hl hk.1 hn hd (ih hs hk.2)
  | insert hu hl htr hi ih =>
    intro last last' v w h hk
    exact .skip hl hk.1 ((unknown_iff hok _).mp hu) htr (ih h hk.2)

end Drip.Bencode
