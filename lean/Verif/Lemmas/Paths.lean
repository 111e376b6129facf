import Verif.Model.Paths
import Verif.Spec.Paths
/-
Cleaning a name does not change where it leads.
-/

namespace Drip.Paths
open Metainfo Spec

theorem parts_ne_nil (p : Bytes) : parts p ≠ [] := by
  cases p with
  | nil => simp [parts]
  | cons c cs =>
    simp only [parts]
    split
    · simp
    · split <;> simp

theorem parts_cons (c : UInt8) (cs : Bytes) : ∃ p ps, parts cs = p :: ps ∧ parts (c :: cs) = if c = 47 then [] :: p :: ps else (c :: p) :: ps := by
  cases h : parts cs with
  | nil => exact absurd h (parts_ne_nil cs)
  | cons p ps => exact ⟨p, ps, rfl, by simp [parts, h]⟩

theorem parts_plain {p : Bytes} (h : 47 ∉ p) : parts p = [p] := by
  induction p with
  | nil => rfl
  | cons c cs ih =>
    simp only [List.mem_cons, not_or] at h
    obtain ⟨q, qs, h1, h2⟩ := parts_cons c cs
    rw [ih h.2] at h1
    injection h1 with e1 e2
    subst e1; subst e2
    rw [h2, if_neg (fun e => h.1 e.symm)]

theorem parts_sep (p r : Bytes) : parts (p ++ 47 :: r) = parts p ++ parts r := by
  induction p with
  | nil =>
    obtain ⟨q, qs, h1, h2⟩ := parts_cons 47 r
    rw [List.nil_append, h2, if_pos rfl, h1]; rfl
  | cons c cs ih =>
    obtain ⟨a, as, h3, h4⟩ := parts_cons c cs
    obtain ⟨b, bs, h5, h6⟩ := parts_cons c (cs ++ 47 :: r)
    rw [ih, h3] at h5
    simp only [List.cons_append] at h5
    injection h5 with e1 e2
    subst e1
    rw [List.cons_append, h6, h4, ← e2]
    split <;> rfl

theorem names_parts : ∀ {p : Bytes} {ns : List Bytes}, Names p ns ↔ ns = parts p := by
  intro p ns
  constructor
  · intro h
    induction h with
    | last p h => exact (parts_plain h).symm
    | more p rest ps h _ ih => rw [parts_sep, parts_plain h, ih]; rfl
  · rintro rfl
    induction p with
    | nil => exact .last [] (by simp)
    | cons c cs ih =>
      obtain ⟨a, as, h3, h4⟩ := parts_cons c cs
      rw [h4]
      rw [h3] at ih
      split
      · rename_i hc; subst hc
        exact .more [] cs _ (by simp) ih
      · rename_i hc
        cases ih with
        | last _ h => exact .last _ (by simp only [List.mem_cons, not_or]; exact ⟨fun e => hc e.symm, h⟩)
        | more _ rest _ h hr =>
          exact .more (c :: a) rest as (by simp only [List.mem_cons, not_or]; exact ⟨fun e => hc e.symm, h⟩) hr

theorem parts_no_slash {p n : Bytes} (h : n ∈ parts p) : 47 ∉ n := by
  have := (names_parts (p := p)).2 rfl
  generalize parts p = ns at h this
  induction this with
  | last p hp => simp only [List.mem_singleton] at h; subst h; exact hp
  | more p rest ps hp _ ih =>
    rcases List.mem_cons.1 h with e | h'
    · subst e; exact hp
    · exact ih h'

/-- `Walk` as a function. -/
def walk : List Bytes → List Bytes → List Bytes
  | at_, [] => at_
  | at_, n :: ns => if n = b!"" ∨ n = b!"." then walk at_ ns else if n = b!".." then walk at_.dropLast ns else walk (at_ ++ [n]) ns

theorem walk_iff {ns : List Bytes} : ∀ {at_ z : List Bytes}, Walk at_ ns z ↔ z = walk at_ ns := by
  induction ns with
  | nil =>
    intro at_ z
    constructor
    · intro h; cases h; rfl
    · rintro rfl; exact .done _
  | cons n ns ih =>
    intro at_ z
    constructor
    · intro h
      unfold walk
      cases h with
      | stay _ _ _ _ h1 h2 => rw [if_pos h1]; exact ih.1 h2
      | up _ _ _ h2 => rw [if_neg (by decide), if_pos rfl]; exact ih.1 h2
      | down _ _ _ _ h1 h3 h4 h2 =>
        rw [if_neg (fun h => h.elim h1 h3), if_neg h4]; exact ih.1 h2
    · rintro rfl
      unfold walk
      split
      · rename_i h; exact .stay _ _ _ _ h (ih.2 rfl)
      · rename_i h
        split
        · rename_i h2; subst h2; exact .up _ _ _ (ih.2 rfl)
        · rename_i h2; exact .down _ _ _ _ (fun e => h (.inl e)) (fun e => h (.inr e)) h2 (ih.2 rfl)

theorem walk_append (at_ ns ms : List Bytes) : walk at_ (ns ++ ms) = walk (walk at_ ns) ms := by
  induction ns generalizing at_ with
  | nil => rfl
  | cons n ns ih =>
    simp only [List.cons_append, walk]
    split
    · exact ih _
    · split <;> exact ih _

/-- Where a path leads. -/
def resolve (cwd : List Bytes) (p : Bytes) : List Bytes := walk (if Absolute p then [] else cwd) (parts p)

theorem leads_iff {cwd z : List Bytes} {p : Bytes} : Leads cwd p z ↔ z = resolve cwd p := by
  unfold Leads resolve
  constructor
  · rintro ⟨ns, h1, h2⟩
    rw [names_parts] at h1; subst h1
    exact walk_iff.1 h2
  · intro h
    exact ⟨_, names_parts.2 rfl, walk_iff.2 h⟩

/-! ### Clean -/

/-- What the output of the loop looks like. -/
def OutOk (rooted : Bool) (out : List Bytes) : Prop :=
  (∀ n ∈ out, n ≠ b!"" ∧ n ≠ b!"." ∧ 47 ∉ n) ∧ (rooted = true → b!".." ∉ out)

theorem OutOk.dropLast {rooted : Bool} {out : List Bytes} (h : OutOk rooted out) : OutOk rooted out.dropLast :=
  ⟨fun n hn => h.1 n ((List.dropLast_sublist _).mem hn), fun hr hm => h.2 hr ((List.dropLast_sublist _).mem hm)⟩

theorem cleanLoop_ok (rooted : Bool) (ps : List Bytes) : ∀ (out : List Bytes), OutOk rooted out → (∀ n ∈ ps, 47 ∉ n) →
    OutOk rooted (cleanLoop rooted out ps) ∧ ∀ at_, (rooted = true → at_ = []) → walk at_ (cleanLoop rooted out ps) = walk (walk at_ out) ps := by
  induction ps with
  | nil => intro out h _; exact ⟨h, fun _ _ => rfl⟩
  | cons p ps ih =>
    intro out h hp
    have hp' : ∀ n ∈ ps, 47 ∉ n := fun n hn => hp n (List.mem_cons_of_mem _ hn)
    unfold cleanLoop
    split
    · rename_i hs
      obtain ⟨h1, h2⟩ := ih out h hp'
      refine ⟨h1, fun at_ ha => ?_⟩
      rw [h2 at_ ha]
      conv => rhs; unfold walk
      rw [if_pos hs]
    · rename_i hs
      split
      · rename_i hu
        subst hu
        split
        · rename_i ho
          obtain ⟨h1, h2⟩ := ih _ h.dropLast hp'
          refine ⟨h1, fun at_ ha => ?_⟩
          rw [h2 at_ ha]
          conv => rhs; unfold walk
          rw [if_neg (by decide), if_pos rfl]
          congr 1
          obtain ⟨x, hx⟩ : ∃ x, out.getLast? = some x := by
            cases hl : out.getLast? with
            | none => exact absurd (List.getLast?_eq_none_iff.1 hl) ho.1
            | some x => exact ⟨x, rfl⟩
          have he : out = out.dropLast ++ [x] := by
            rw [List.getLast?_eq_some_iff] at hx
            obtain ⟨ys, rfl⟩ := hx
            simp
          have hxm : x ∈ out := by rw [he]; simp
          have hx2 : x ≠ b!".." := by intro e; subst e; exact ho.2 hx
          conv => rhs; rw [he, walk_append]
          have := h.1 x hxm
          have hw : ∀ a, walk a [x] = a ++ [x] := by
            intro a
            unfold walk
            rw [if_neg (fun h => h.elim this.1 this.2.1), if_neg hx2]
            rfl
          rw [hw, List.dropLast_concat]
        · rename_i ho
          cases rooted with
          | true =>
            rw [if_pos rfl]
            have hout : out = [] := by
              cases hl : out.getLast? with
              | none => exact List.getLast?_eq_none_iff.1 hl
              | some x =>
                exfalso
                apply ho
                refine ⟨fun e => by rw [e] at hl; simp at hl, ?_⟩
                rw [hl]
                intro e
                injection e with e
                subst e
                rw [List.getLast?_eq_some_iff] at hl
                obtain ⟨ys, rfl⟩ := hl
                exact h.2 rfl (by simp)
            obtain ⟨h1, h2⟩ := ih out h hp'
            refine ⟨h1, fun at_ ha => ?_⟩
            rw [h2 at_ ha, ha rfl, hout]
            conv => rhs; unfold walk
            rw [if_neg (by decide), if_pos rfl]
            rfl
          | false =>
            rw [if_neg (by simp)]
            obtain ⟨h1, h2⟩ := ih (out ++ [b!".."]) ⟨fun n hn => by
              rcases List.mem_append.1 hn with hn | hn
              · exact h.1 n hn
              · simp only [List.mem_singleton] at hn; subst hn; decide, by simp⟩ hp'
            refine ⟨h1, fun at_ ha => ?_⟩
            rw [h2 at_ ha, walk_append]
            conv => rhs; unfold walk
            rw [if_neg (by decide), if_pos rfl]
            rfl
      · rename_i hu
        obtain ⟨h1, h2⟩ := ih (out ++ [p]) ⟨fun n hn => by
            rcases List.mem_append.1 hn with hn | hn
            · exact h.1 n hn
            · simp only [List.mem_singleton] at hn; subst hn
              exact ⟨fun e => hs (.inl e), fun e => hs (.inr e), hp _ (List.mem_cons_self ..)⟩, fun hr hm => by
            rcases List.mem_append.1 hm with hm | hm
            · exact h.2 hr hm
            · simp only [List.mem_singleton] at hm; exact hu hm.symm⟩ hp'
        refine ⟨h1, fun at_ ha => ?_⟩
        rw [h2 at_ ha, walk_append]
        conv => rhs; unfold walk
        rw [if_neg hs, if_neg hu]
        congr 1
        generalize walk at_ out = a
        unfold walk
        rw [if_neg hs, if_neg hu]
        rfl

theorem parts_unparts : ∀ {l : List Bytes}, l ≠ [] → (∀ n ∈ l, 47 ∉ n) → parts (unparts l) = l
  | [], h, _ => absurd rfl h
  | [p], _, h => parts_plain (h p (by simp))
  | p :: q :: ps, _, h => by
    rw [unparts, parts_sep, parts_plain (h p (by simp)), parts_unparts (by simp) (fun n hn => h n (List.mem_cons_of_mem _ hn))]
    rfl

theorem parts_unparts_flat : ∀ {l : List Bytes}, l ≠ [] → parts (unparts l) = l.flatMap parts
  | [], h => absurd rfl h
  | [p], _ => by simp [unparts]
  | p :: q :: ps, _ => by
    rw [unparts, parts_sep, parts_unparts_flat (by simp)]
    rfl

theorem absolute_cons (p : Bytes) : Absolute (47 :: p) := rfl

/-- Cleaning a name does not change where it leads. -/
theorem resolve_clean (cwd : List Bytes) (p : Bytes) : resolve cwd (clean p) = resolve cwd p := by
  have hp : ∀ n ∈ parts p, 47 ∉ n := fun n hn => parts_no_slash hn
  unfold clean
  by_cases ha : p.head? = some 47
  · rw [if_pos ha]
    obtain ⟨h1, h2⟩ := cleanLoop_ok true (parts p) [] ⟨by simp, by simp⟩ hp
    unfold resolve
    rw [if_pos (absolute_cons _), if_pos (show Absolute p from ha)]
    have := parts_sep [] (unparts (cleanLoop true [] (parts p)))
    rw [List.nil_append] at this
    rw [this, walk_append]
    have e : walk [] (parts []) = [] := by decide
    rw [e]
    by_cases hn : cleanLoop true [] (parts p) = []
    · rw [hn]
      have := h2 [] (fun _ => rfl)
      rw [hn] at this
      exact this
    · rw [parts_unparts hn (fun n hn' => (h1.1 n hn').2.2)]
      exact h2 [] (fun _ => rfl)
  · rw [if_neg ha]
    obtain ⟨h1, h2⟩ := cleanLoop_ok false (parts p) [] ⟨by simp, by simp⟩ hp
    have h3 := h2 cwd (by simp)
    unfold resolve
    rw [if_neg (show ¬ Absolute p from ha)]
    generalize cleanLoop false [] (parts p) = out at *
    simp only []
    by_cases hn : out = []
    · rw [if_pos hn]
      subst hn
      rw [if_neg (by decide)]
      exact h3
    · rw [if_neg hn]
      have hna : ¬ Absolute (unparts out) := by
        cases out with
        | nil => exact absurd rfl hn
        | cons q qs =>
          have := h1.1 q (List.mem_cons_self ..)
          obtain ⟨h4, _, h5⟩ := this
          cases q with
          | nil => exact absurd rfl h4
          | cons c cs =>
            have : c ≠ 47 := by intro e; subst e; simp at h5
            cases qs <;> simpa [Absolute, unparts] using this
      rw [if_neg hna, parts_unparts hn (fun n hn' => (h1.1 n hn').2.2)]
      exact h3

theorem absolute_unparts {e : Bytes} {es : List Bytes} (h : e ≠ []) : Absolute (unparts (e :: es)) ↔ Absolute e := by
  cases e with
  | nil => exact absurd rfl h
  | cons c cs => cases es <;> simp [Absolute, unparts]

/-- Where a joined name leads: from the first element on, one element after the other. -/
theorem resolve_join (cwd : List Bytes) {e : Bytes} (es : List Bytes) (h : e ≠ []) :
    resolve cwd (join (e :: es)) = walk (resolve cwd e) (es.flatMap parts) := by
  unfold join
  rw [if_neg h, resolve_clean]
  unfold resolve
  rw [parts_unparts_flat (by simp)]
  by_cases ha : Absolute e
  · rw [if_pos ((absolute_unparts h).2 ha), if_pos ha, List.flatMap_cons, walk_append]
  · rw [if_neg (fun x => ha ((absolute_unparts h).1 x)), if_neg ha, List.flatMap_cons, walk_append]

theorem flatMap_plain {ns : List Bytes} (h : ∀ n ∈ ns, 47 ∉ n) : ns.flatMap parts = ns := by
  induction ns with
  | nil => rfl
  | cons n ns ih =>
    rw [List.flatMap_cons, parts_plain (h n (by simp)), ih (fun m hm => h m (List.mem_cons_of_mem _ hm))]
    rfl

theorem walk_plain {ns : List Bytes} (h : ∀ n ∈ ns, PlainName n) (at_ : List Bytes) : walk at_ ns = at_ ++ ns := by
  induction ns generalizing at_ with
  | nil => simp [walk]
  | cons n ns ih =>
    obtain ⟨h1, h2, h3, _⟩ := h n (by simp)
    unfold walk
    rw [if_neg (fun h => h.elim h1 h2), if_neg h3, ih (fun m hm => h m (List.mem_cons_of_mem _ hm))]
    simp

theorem walk_stays (d : List Bytes) : ∀ (ns k : List Bytes), Stays k.length ns → ∃ k', walk (d ++ k) ns = d ++ k' := by
  intro ns
  induction ns with
  | nil => intro k _; exact ⟨k, rfl⟩
  | cons n ns ih =>
    intro k h
    unfold Stays at h
    unfold walk
    split
    · rename_i hs; rw [if_pos hs] at h; exact ih k h
    · rename_i hs
      rw [if_neg hs] at h
      split
      · rename_i hu
        rw [if_pos hu] at h
        have hk : k ≠ [] := by intro e; subst e; exact absurd h.1 (by simp)
        rw [List.dropLast_append_of_ne_nil hk]
        exact ih k.dropLast (by rw [List.length_dropLast]; exact h.2)
      · rename_i hu
        rw [if_neg hu] at h
        rw [List.append_assoc]
        exact ih (k ++ [n]) (by simpa using h)

end Drip.Paths
