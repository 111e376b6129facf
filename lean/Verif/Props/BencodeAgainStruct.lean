import Verif.Props.BencodeAgain
import Verif.Props.Metainfo
import Verif.Props.Response
/-
What becomes of a struct that is decoded into a second time: C131.
-/

namespace Drip.Bencode
open Spec Metainfo

variable {env : Env}

theorem DA_ptr {t et : Ty} {id i : Nat} {fs : List (Hdr × Ty)} {h : Hdr} {vs : List Val} {o w : Val} {c : Bytes} {fl : Flags}
    (ht : t.under = .struct id fs) (hf : fs[i]? = some (h, .ptr et)) (hv : vs[i]? = some (.ptr o))
    (hs : (h.anon && !h.exported) = false) :
    DA env [i] fl t (.struct vs) c w ↔ ∃ x, D env { addr := true } et o c x ∧ w = .struct (vs.set i (.ptr x)) := by
  have e : ∀ n, atField (decode env n) [i] fl t (.struct vs) =
      (decode env n { addr := true } et o >>= fun x => Pure.pure (Val.struct (vs.set i (.ptr x)))) := by
    intro n
    unfold atField
    rw [ht]
    simp only [hf, hv, hs]
    rfl
  constructor
  · rintro ⟨n, h⟩
    rw [e] at h
    have h0 := h [] 0
    rw [bind_run, Res.bind_eq_ok] at h0
    obtain ⟨⟨x, st⟩, h1, h2⟩ := h0
    simp only [pure_run, Res.ok.injEq, Prod.mk.injEq] at h2
    obtain ⟨rfl, rfl⟩ := h2
    obtain ⟨tr, h3, h4, h5⟩ := decode_D h1
    have : c = tr.print := by simpa using h4.1
    rw [← this] at h5
    exact ⟨x, h5, rfl⟩
  · rintro ⟨x, ⟨n, h⟩, rfl⟩
    exact ⟨n, by rw [e]; exact h.then (fun st => rfl)⟩

/-- What the field of a used struct held is what a variable of its type can hold, as far as this matters: a pointer is
nil or points to something. -/
def PtrOk (ft : Ty) (old : Val) : Prop := ∀ et, ft = .ptr et → old = .nilPtr ∨ ∃ o, old = .ptr o

theorem field_of_loop_used {id : Nat} {fs : List (Hdr × Ty)} (hp : PlainStruct fs) {es : List (Bytes × Bytes × CTree)} {w : Val} {vs : List Val}
    (h : SLoop env { addr := true } (.struct id fs) [] (.struct vs) (textEs es) w) {i : Nat} {hd : Hdr} {ft : Ty} {old : Val}
    (hi : fs[i]? = some (hd, ft)) (hh : ¬ Hidden hd) (hz : vs[i]? = some old) (hok : PtrOk ft old) :
    ∃ ws x, w = .struct ws ∧ ws.length = vs.length ∧ ws[i]? = some x ∧
      (((∀ e ∈ es, e.2.1 ≠ fieldKey hd) ∧ x = old) ∨
        ∃ l tr, (l, fieldKey hd, tr) ∈ es ∧
          ((NotPtr ft ∧ D env { addr := true } ft old tr.print x) ∨
            ∃ et y, ft = .ptr et ∧ x = .ptr y ∧
              ((old = .nilPtr ∧ D env { addr := true } et (zero et) tr.print y) ∨
                ∃ o, old = .ptr o ∧ D env { addr := true } et o tr.print y))) := by
  have hpl : PlainField hd := (hp.1 (hd, ft) (List.mem_of_getElem? hi)).resolve_left hh
  obtain ⟨ws, hw, hlen, hx⟩ := h.at (flat_plain hp) (lookup_plain hp hi hh) rfl vs rfl
  rcases hx with ⟨h1, h2⟩ | ⟨l, c, us', ws', h1, h2, h3, h4, h5⟩
  · refine ⟨ws, old, hw, hlen, by rw [h2, hz], .inl ⟨?_, rfl⟩⟩
    rintro ⟨l, k, tr⟩ he
    exact h1 _ (textEs_mem he)
  · obtain ⟨tr, htr, rfl⟩ := mem_textEs h1
    rw [hz] at h4
    obtain ⟨il, _⟩ := List.getElem?_eq_some_iff.mp h4
    cases ft with
    | ptr et =>
      rcases hok et rfl with rfl | ⟨o, rfl⟩
      · obtain ⟨y, h6, h7⟩ := (DA_nilptr (id := id) rfl hi h4 ⟨rfl, by simp [hpl.2.1]⟩).mp h2
        refine ⟨ws, .ptr y, hw, hlen, ?_, .inr ⟨l, tr, htr, .inr ⟨et, y, rfl, rfl, .inl ⟨rfl, h6⟩⟩⟩⟩
        simp only [Val.struct.injEq] at h7
        rw [h5, h7, List.getElem?_set_self il]
      · obtain ⟨y, h6, h7⟩ := (DA_ptr (id := id) rfl hi h4 (by simp [hpl.2.1])).mp h2
        refine ⟨ws, .ptr y, hw, hlen, ?_, .inr ⟨l, tr, htr, .inr ⟨et, y, rfl, rfl, .inr ⟨o, rfl, h6⟩⟩⟩⟩
        simp only [Val.struct.injEq] at h7
        rw [h5, h7, List.getElem?_set_self il]
    | _ =>
      obtain ⟨y, h6, h7⟩ := (DA_field (id := id) rfl hi h4 trivial).mp h2
      refine ⟨ws, y, hw, hlen, ?_, .inr ⟨l, tr, htr, .inl ⟨trivial, ?_⟩⟩⟩
      · simp only [Val.struct.injEq] at h7
        rw [h5, h7, List.getElem?_set_self il]
      · simpa [hpl.2.1] using h6

/-- **C131, structs.** What Unmarshal leaves in a field of a used struct depends on what the field held and on the entry
with the field's key: without such an entry it holds what it held before; else it is the result of unmarshalling the
entry's bytes by themselves into a variable that held the same (into the target of a pointer that is not nil, into a
new zeroed variable if it is nil). -/
theorem C131_struct_partial (henv : env.Sane) {id : Nat} {fs : List (Hdr × Ty)} (hp : PlainStruct fs) {es : List (Bytes × Bytes × CTree)}
    (hs : SynEs es) {vs : List Val} {rest : Bytes} {w : Val}
    (h : unmarshal env (.struct id fs) (.struct vs) ((CTree.dict es).print ++ rest) = .ok w)
    {i : Nat} {hd : Hdr} {ft : Ty} {old : Val} (hi : fs[i]? = some (hd, ft)) (hh : ¬ Hidden hd) (hz : vs[i]? = some old)
    (hok : PtrOk ft old) :
    ∃ ws x, w = .struct ws ∧ ws.length = vs.length ∧ ws[i]? = some x ∧
      (((∀ e ∈ es, e.2.1 ≠ fieldKey hd) ∧ x = old) ∨
        ∃ l tr, (l, fieldKey hd, tr) ∈ es ∧
          ((NotPtr ft ∧ ∀ rest', unmarshal env ft old (tr.print ++ rest') = .ok x) ∨
            ∃ et y, ft = .ptr et ∧ x = .ptr y ∧
              ((old = .nilPtr ∧ ∀ rest', unmarshal env et (zero et) (tr.print ++ rest') = .ok y) ∨
                ∃ o, old = .ptr o ∧ ∀ rest', unmarshal env et o (tr.print ++ rest') = .ok y))) := by
  obtain ⟨tr, rest', h1, h2, h3⟩ := (unmarshal_D henv).mp h
  obtain ⟨rfl, -⟩ := print_unique (.dict es) tr hs (Valid.syn tr h1) _ _ h2
  obtain ⟨ws, x, hw, hl, hx, hy⟩ := field_of_loop_used hp ((D.struct_iff hs).mp h3) hi hh hz hok
  refine ⟨ws, x, hw, hl, hx, ?_⟩
  rcases hy with hy | ⟨l, tr, htr, hy⟩
  · exact .inl hy
  · refine .inr ⟨l, tr, htr, ?_⟩
    rcases hy with ⟨h5, h6⟩ | ⟨et, y, h5, h6, h7⟩
    · exact .inl ⟨h5, fun r => h6.unmarshal henv r⟩
    · refine .inr ⟨et, y, h5, h6, ?_⟩
      rcases h7 with ⟨h8, h9⟩ | ⟨o, h8, h9⟩
      · exact .inl ⟨h8, fun r => h9.unmarshal henv r⟩
      · exact .inr ⟨o, h8, fun r => h9.unmarshal henv r⟩

/-- **C131 is false of structs**: a tracker's answer decoded into a used `Response` keeps the failure of the answer
before, which the new answer does not mention. -/
theorem C131_struct_refuted :
    ∃ used : Val, unmarshal Tracker.trackerEnv Tracker.responseTy (zero Tracker.responseTy) b!"d14:failure reason2:noe" = .ok used ∧
      ∃ w, unmarshal Tracker.trackerEnv Tracker.responseTy used b!"d8:intervali9ee" = .ok w ∧
        w = .struct [.str b!"no", .int 9, .nilPtr, .str [], .int 0, .str [], .int 0, .int 0] ∧
        unmarshal Tracker.trackerEnv Tracker.responseTy (zero Tracker.responseTy) b!"d8:intervali9ee" =
          .ok (.struct [.str [], .int 9, .nilPtr, .str [], .int 0, .str [], .int 0, .int 0]) :=
  ⟨.struct [.str b!"no", .int 0, .nilPtr, .str [], .int 0, .str [], .int 0, .int 0], by kernel_rfl, _, by kernel_rfl, rfl, by kernel_rfl⟩

/-- The hypotheses of `C131_struct_partial`: the used `Response` of `C131_struct_refuted`, of which the new text has one of
two fields. -/
example : PlainStruct Tracker.responseFields ∧ SynEs [(b!"8", b!"interval", CTree.int b!"9" 9)] ∧
    (CTree.dict [(b!"8", b!"interval", CTree.int b!"9" 9)]).print = b!"d8:intervali9ee" ∧
    Tracker.responseFields[0]? = some (⟨b!"FailureReason", b!"failure reason,omitempty", false, true⟩, .str) ∧
    PtrOk .str (.str b!"no") :=
  ⟨Tracker.responseFields_plain,
    ⟨.inl ⟨8, ⟨by decide, by simp [Digit], rfl⟩, rfl⟩, .inl ⟨9, ⟨by decide, by simp [Digit], rfl⟩, rfl⟩, trivial⟩,
    rfl, rfl, fun _ h => nomatch h⟩

end Drip.Bencode
