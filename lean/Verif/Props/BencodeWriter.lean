import Verif.Model.Bencode.Writer
import Verif.Props.BencodeEncode
/-
C139: an Encoder whose writer fails.
-/

namespace Drip.Bencode.Writer

/-- The outcome of the code with a writer that can fail, next to the outcome with one that cannot. -/
structure Sim1 (s : WSt) (r : Res Unit × WSt) (r' : Res Unit × ESt) : Prop where
  late : r.2.late = 0
  fine : r.2.error = none → r.1 = r'.1 ∧ r.2.st = r'.2
  bad : ∀ e, r.2.error = some e → r.1 = .err e
  more : s.st.out <+: r.2.st.out
  pre : r.2.st.out <+: r'.2.out
  /-- an error is returned by a call of the writer -/
  none : (∀ x ∈ s.fates, x = Option.none) → r.2.error = Option.none ∧ ∀ x ∈ r.2.fates, x = Option.none

/-- The two do the same as long as the writer does not fail. -/
def Sim (p : WE) (q : E) : Prop := ∀ s : WSt, s.error = none → s.late = 0 → Sim1 s (p s) (q s.st)

theorem Sim.ok : Sim WE.ok E.ok := fun s h hl => ⟨hl, fun _ => ⟨rfl, rfl⟩, (fun e he => by rw [show (WE.ok s).2.error = s.error from rfl, h] at he; cases he), List.prefix_rfl, List.prefix_rfl, fun hn => ⟨h, hn⟩⟩
theorem Sim.fail (e : Err) : Sim (WE.fail e) (E.fail e) :=
  fun s h hl => ⟨hl, fun _ => ⟨rfl, rfl⟩, (fun e he => by rw [show (WE.fail _ s).2.error = s.error from rfl, h] at he; cases he), List.prefix_rfl, List.prefix_rfl, fun hn => ⟨h, hn⟩⟩
theorem Sim.panic : Sim WE.panic E.panic :=
  fun s h hl => ⟨hl, fun _ => ⟨rfl, rfl⟩, (fun e he => by rw [show (WE.panic s).2.error = s.error from rfl, h] at he; cases he), List.prefix_rfl, List.prefix_rfl, fun hn => ⟨h, hn⟩⟩

theorem Sim.write (b : Bytes) : Sim (WE.write b) (E.write b) := by
  intro s h hl
  obtain ⟨st, fates, error, late⟩ := s
  simp only at h hl
  subst h hl
  cases fates with
  | nil => exact ⟨rfl, fun _ => ⟨rfl, rfl⟩, (fun e he => by cases he), ⟨_, rfl⟩, List.prefix_rfl, fun hn => ⟨rfl, hn⟩⟩
  | cons x fs =>
    cases x with
    | none => exact ⟨rfl, fun _ => ⟨rfl, rfl⟩, (fun e he => by cases he), ⟨_, rfl⟩, List.prefix_rfl, fun hn => ⟨rfl, fun x hx => hn x (List.mem_cons_of_mem _ hx)⟩⟩
    | some y =>
      obtain ⟨k, e⟩ := y
      exact ⟨rfl, (fun he => by cases he), (fun e he => by cases he; rfl), ⟨_, rfl⟩, (List.prefix_append_right_inj _).2 (List.take_prefix _ _), fun hn => by cases hn _ List.mem_cons_self⟩

/-- Nothing is taken back. -/
def Grows (q : E) : Prop := ∀ s, s.out <+: (q s).2.out

theorem Sim.seq {p p' : WE} {q q' : E} (h : Sim p q) (h' : Sim p' q') (hg : Grows q') : Sim (WE.seq p p') (E.seq q q') := by
  intro s he hl
  have h1 := h s he hl
  unfold WE.seq E.seq
  generalize p s = x at h1 ⊢
  generalize hy : q s.st = y at h1 ⊢
  obtain ⟨r, s'⟩ := x
  obtain ⟨r', t'⟩ := y
  cases hse : s'.error with
  | none =>
    obtain ⟨e1, e2⟩ := h1.fine hse
    simp only at e1 e2
    subst e1 e2
    cases r with
    | ok _ =>
      have h2 := h' s' hse h1.late
      exact ⟨h2.late, h2.fine, h2.bad, h1.more.trans h2.more, h2.pre, fun hn => h2.none (h1.none hn).2⟩
    | err e => exact h1
    | panic => exact h1
  | some e =>
    have := h1.bad e hse
    simp only at this
    subst this
    refine ⟨h1.late, (fun he => by rw [show s'.error = some e from hse] at he; cases he), h1.bad, h1.more, ?_, h1.none⟩
    cases r' with
    | ok _ => exact h1.pre.trans (hg t')
    | err e => exact h1.pre
    | panic => exact h1.pre

theorem Grows.ok : Grows E.ok := fun _ => List.prefix_rfl
theorem Grows.fail (e : Err) : Grows (E.fail e) := fun _ => List.prefix_rfl
theorem Grows.panic : Grows E.panic := fun _ => List.prefix_rfl
theorem Grows.write (b : Bytes) : Grows (E.write b) := fun _ => ⟨_, rfl⟩
theorem Grows.seq {p q : E} (h : Grows p) (h' : Grows q) : Grows (E.seq p q) := by
  intro s
  unfold E.seq
  have := h s
  generalize p s = x at this ⊢
  obtain ⟨r, s'⟩ := x
  cases r with
  | ok _ => exact this.trans (h' s')
  | err e => exact this
  | panic => exact this

theorem Grows.nested {b : UInt8} {q : E} (h : Grows q) : Grows (Bencode.nested b q) := by
  intro s
  unfold Bencode.nested
  simp only
  split
  · exact List.prefix_rfl
  · have := ((Grows.write [b]).seq (h.seq (.write [101]))) { s with depth := s.depth + 1 }
    generalize E.seq _ _ _ = x at this ⊢
    obtain ⟨r, s'⟩ := x
    cases r <;> exact this

theorem Sim.nested {b : UInt8} {p : WE} {q : E} (h : Sim p q) (hg : Grows q) : Sim (nested b p) (Bencode.nested b q) := by
  intro s he hl
  unfold Writer.nested Bencode.nested
  simp only
  split
  · exact ⟨hl, fun _ => ⟨rfl, rfl⟩, (fun e he' => by rw [show s.error = some e from he'] at he; cases he), List.prefix_rfl, List.prefix_rfl, fun hn => ⟨he, hn⟩⟩
  · have := ((Sim.write [b]).seq (h.seq (.write [101]) (.write _)) (hg.seq (.write _))) { s with st := { s.st with depth := s.st.depth + 1 } } he hl
    simp only at this
    generalize WE.seq _ _ _ = x at this ⊢
    generalize E.seq _ _ _ = y at this ⊢
    obtain ⟨r, s'⟩ := x
    obtain ⟨r', t'⟩ := y
    obtain ⟨h1, h2, h3, h4, h5, h6⟩ := this
    cases hse : s'.error with
    | none =>
      obtain ⟨e1, e2⟩ := h2 hse
      simp only at e1 e2
      subst e1 e2
      cases r with
      | ok _ => exact ⟨h1, fun _ => ⟨rfl, rfl⟩, (fun e he' => by rw [show s'.error = some e from he'] at hse; cases hse), h4, h5, h6⟩
      | err e => exact ⟨h1, h2, h3, h4, h5, h6⟩
      | panic => exact ⟨h1, h2, h3, h4, h5, h6⟩
    | some e =>
      have := h3 e hse
      simp only at this
      subst this
      cases r' with
      | ok _ => exact ⟨h1, (fun he => by rw [show s'.error = some e from hse] at he; cases he), h3, h4, h5, h6⟩
      | err e => exact ⟨h1, h2, h3, h4, h5, h6⟩
      | panic => exact ⟨h1, h2, h3, h4, h5, h6⟩

/-- Both. -/
def Good (p : WE) (q : E) : Prop := Sim p q ∧ Grows q

theorem Good.ok : Good WE.ok E.ok := ⟨.ok, .ok⟩
theorem Good.fail (e : Err) : Good (WE.fail e) (E.fail e) := ⟨.fail e, .fail e⟩
theorem Good.panic : Good WE.panic E.panic := ⟨.panic, .panic⟩
theorem Good.write (b : Bytes) : Good (WE.write b) (E.write b) := ⟨.write b, .write b⟩
theorem Good.seq {p p' : WE} {q q' : E} (h : Good p q) (h' : Good p' q') : Good (WE.seq p p') (E.seq q q') := ⟨h.1.seq h'.1 h'.2, h.2.seq h'.2⟩
theorem Good.nested {b : UInt8} {p : WE} {q : E} (h : Good p q) : Good (nested b p) (Bencode.nested b q) := ⟨h.1.nested h.2, h.2.nested⟩
theorem Good.string (b : Bytes) : Good (encString b) (Bencode.encString b) := (Good.write _).seq ((Good.write _).seq (.write _))
theorem Good.int (i : Int) : Good (encInt i) (Bencode.encInt i) := (Good.write _).seq ((Good.write _).seq (.write _))
theorem Good.uint (i : Nat) : Good (encUint i) (Bencode.encUint i) := (Good.write _).seq ((Good.write _).seq (.write _))

variable {rec : WEnc} {rec' : Enc}

theorem Good.elems (h : ∀ fl t v, Good (rec fl t v) (rec' fl t v)) (fl : Flags) (t : Ty) : ∀ l, Good (encElems rec fl t l) (Bencode.encElems rec' fl t l)
  | [] => .ok
  | v :: l => (h fl t v).seq (Good.elems h fl t l)

theorem Good.entries (h : ∀ fl t v, Good (rec fl t v) (rec' fl t v)) (t : Ty) : ∀ l, Good (encEntries rec t l) (Bencode.encEntries rec' t l)
  | [] => .ok
  | (k, v) :: l => (Good.string k).seq ((h _ t v).seq (Good.entries h t l))

theorem Good.fields (h : ∀ fl t v, Good (rec fl t v) (rec' fl t v)) (fl : Flags) (t : Ty) (v : Val) : ∀ l, Good (encFields rec fl t v l) (Bencode.encFields rec' fl t v l)
  | [] => .ok
  | f :: l => by
    unfold encFields Bencode.encFields
    cases fieldByIndex f.index fl t v with
    | none => exact .panic
    | some x =>
      obtain ⟨ffl, ft, fv⟩ := x
      simp only
      split
      · exact Good.fields h fl t v l
      · split
        · exact Good.fields h fl t v l
        · exact (Good.string _).seq ((h _ _ _).seq (Good.fields h fl t v l))

theorem Good.marshaler (ro : Bool) (m : Val → Res Bytes) (v : Option Val) : Good (encMarshaler ro m v) (Bencode.encMarshaler ro m v) := by
  unfold encMarshaler Bencode.encMarshaler
  split
  · exact .panic
  · cases v with
    | none => exact .panic
    | some v =>
      simp only
      cases m v with
      | ok b => exact .write b
      | err e => exact .fail e
      | panic => exact .panic

theorem Good.kind (h : ∀ fl t v, Good (rec fl t v) (rec' fl t v)) (fl : Flags) (t : Ty) (v : Val) : Good (encKind rec fl t v) (Bencode.encKind rec' fl t v) := by
  unfold encKind Bencode.encKind
  cases t <;> cases v <;> first | exact .string _ | exact .int _ | exact .uint _ | exact .ok | exact .fail _ | exact .panic | exact h _ _ _ | exact .nested (.elems h _ _ _) |
    exact .nested (.entries h _ _) | exact .nested (.fields h _ _ _ _)

theorem Good.encode (env : Env) : ∀ n fl t v, Good (encode env n fl t v) (Bencode.encode env n fl t v)
  | 0, _, _, _ => .fail _
  | n + 1, fl, t, v => by
    have h := Good.encode env n
    cases t with
    | custom id u =>
      unfold Writer.encode Bencode.encode
      simp only
      cases (env id).marshal with
      | none => exact .kind h _ _ _
      | some m =>
        cases fl.addr with
        | true => exact .marshaler _ _ _
        | false => exact .kind h _ _ _
    | ptr et =>
      cases et with
      | custom id u =>
        cases v <;>
        · unfold Writer.encode Bencode.encode
          simp only
          cases (env id).marshal with
          | none => exact .kind h _ _ _
          | some m => exact .marshaler _ _ _
      | _ => exact .kind h _ _ _
    | unsupported => exact Good.kind h fl .unsupported v
    | _ => exact .kind h _ _ _

/-- **C139**: with a writer that can fail at any call, after any number of bytes, on any encoder: Encode does what it does with one that cannot fail, unless the writer returns an error. Then
Encode returns that error and does not call the writer again; what has been written is the beginning of what would have been. -/
theorem C139_failing_writer (env : Env) (t : Ty) (v : Val) (st : ESt) (fates : List (Option (Nat × Err))) :
    let r := encodeTop env t v { st, fates }
    let r' := Bencode.encodeTop env t v st
    (r.2.error = none ∧ r.1 = r'.1 ∧ r.2.st = r'.2 ∨ ∃ e, r.2.error = some e ∧ r.1 = .err e ∧ st.out <+: r.2.st.out ∧ r.2.st.out <+: r'.2.out) ∧ r.2.late = 0 := by
  intro r r'
  have h := (Good.encode env v.height { addr := false } t v).1 { st, fates } rfl rfl
  refine ⟨?_, h.late⟩
  cases he : r.2.error with
  | none => exact .inl ⟨rfl, h.fine he⟩
  | some e => exact .inr ⟨e, rfl, h.bad e he, h.more, h.pre⟩

/-- **C139**: what a new encoder writes is what Marshal returns, or the beginning of it and the error of the writer. -/
theorem C139_prefix (env : Env) (t : Ty) (v : Val) (out : Bytes) (h : marshal env t v = .ok out) (fates : List (Option (Nat × Err))) :
    let r := encodeTop env t v { st := ⟨[], 0⟩, fates }
    r.1 = .ok () ∧ r.2.st.out = out ∧ r.2.error = none ∨ ∃ e, r.1 = .err e ∧ r.2.error = some e ∧ r.2.st.out <+: out := by
  intro r
  unfold marshal at h
  have hm := (C139_failing_writer env t v ⟨[], 0⟩ fates).1
  simp only at hm
  generalize Bencode.encodeTop env t v ⟨[], 0⟩ = x at h hm
  obtain ⟨r', s'⟩ := x
  cases r' with
  | ok _ =>
    cases h
    rcases hm with ⟨h1, h2, h3⟩ | ⟨e, h1, h2, _, h4⟩
    · exact .inl ⟨h2, congrArg ESt.out h3, h1⟩
    · exact .inr ⟨e, h2, h1, h4⟩
  | err e => cases h
  | panic => cases h

/-- **C139**: and it is what Marshal returns, error or not, if the writer does not fail. -/
theorem C139_fine (env : Env) (t : Ty) (v : Val) (st : ESt) (fates : List (Option (Nat × Err))) (h : ∀ x ∈ fates, x = none) :
    (encodeTop env t v { st, fates }).1 = (Bencode.encodeTop env t v st).1 ∧ (encodeTop env t v { st, fates }).2.st = (Bencode.encodeTop env t v st).2 := by
  have hs := (Good.encode env v.height { addr := false } t v).1 { st, fates } rfl rfl
  exact hs.fine (hs.none h).1

/-- A writer that fails at the fourth call, after two bytes: `d`, the length of the key and the colon are written, and two letters of the key. -/
example : encodeTop noEnv (.map .str) (.map [(b!"abc", .str b!"x")]) { st := ⟨[], 0⟩, fates := [none, none, none, some (2, .conn)] } =
    (.err .conn, { st := ⟨b!"d3:ab", 1⟩, fates := [], error := some .conn }) := by kernel_rfl
example : marshal noEnv (.map .str) (.map [(b!"abc", .str b!"x")]) = .ok b!"d3:abc1:xe" := by kernel_rfl
example : encodeTop noEnv (.map .str) (.map [(b!"abc", .str b!"x")]) { st := ⟨[], 0⟩, fates := List.replicate 3 none } =
    (.ok (), { st := ⟨b!"d3:abc1:xe", 0⟩, fates := [] }) := by kernel_rfl

end Drip.Bencode.Writer
