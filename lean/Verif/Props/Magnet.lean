import Verif.Model.Magnet
import Verif.Model.KernelRfl
import Verif.Lemmas.Url
import Verif.Lemmas.Bencode.Num
import Verif.Spec.Tracker
/-
Properties of magnet links: C37.
-/

namespace Drip.Magnet
open Spec Bencode

/-- The first value of a parameter, or nothing. -/
def first (ps : List (Bytes × Bytes)) (k : Bytes) : Option Bytes := (ps.find? (·.1 == k)).map (·.2)

/-- All values of a parameter, in order. -/
def values (ps : List (Bytes × Bytes)) (k : Bytes) : List Bytes := (ps.filter (·.1 == k)).map (·.2)

theorem get_eq (ps : List (Bytes × Bytes)) (k : Bytes) : Url.get ps k = (first ps k).getD [] := by
  induction ps with
  | nil => rfl
  | cons p ps ih =>
    obtain ⟨k', v⟩ := p
    unfold Url.get first
    by_cases h : k' = k
    · rw [if_pos h, List.find?_cons_of_pos (by simpa using h)]; rfl
    · rw [if_neg h, List.find?_cons_of_neg (by simpa using h), ih]; rfl

theorem getAll_eq (ps : List (Bytes × Bytes)) (k : Bytes) : Url.getAll ps k = values ps k := by
  induction ps with
  | nil => rfl
  | cons p ps ih =>
    obtain ⟨k', v⟩ := p
    unfold Url.getAll values
    by_cases h : k' = k
    · rw [if_pos h, List.filter_cons_of_pos (by simpa using h), ih]; rfl
    · rw [if_neg h, List.filter_cons_of_neg (by simpa using h), ih]; rfl

theorem unescape_plain {s : Bytes} (h : 37 ∉ s) : (Url.queryUnescape s).isNone = false := by
  induction s with
  | nil => rfl
  | cons c cs ih =>
    simp only [List.mem_cons, not_or] at h
    have := ih h.2
    unfold Url.queryUnescape
    rw [if_neg fun e => h.1 e.symm]
    cases hc : Url.queryUnescape cs with
    | none => rw [hc] at this; simp at this
    | some x => split <;> simp

/-- The text after the parameters: nothing, or a fragment without escapes. -/
def Fragment (f : Bytes) : Prop := f = [] ∨ ∃ r, f = 35 :: r ∧ 37 ∉ r

theorem parseLink_of {q f : Bytes} (hc : ∀ c ∈ q, 32 ≤ c ∧ c ≠ 127 ∧ c ≠ 35) (hf : Fragment f) : parseLink (q ++ f) = some q := by
  have h35 : (35 : UInt8) ∉ q := fun h => (hc _ h).2.2 rfl
  have hctl : q.any (fun b => b < 32 || b = 127) = false := by
    rw [List.any_eq_false]
    intro c h
    have := (hc c h).1
    simp only [Bool.or_eq_true, decide_eq_true_eq, not_or]
    refine ⟨fun hlt => ?_, (hc c h).2.1⟩
    rw [UInt8.le_iff_toNat_le] at this
    rw [UInt8.lt_iff_toNat_lt] at hlt
    omega
  unfold parseLink
  rcases hf with rfl | ⟨r, rfl, hr⟩
  · rw [List.append_nil, Url.cut_none h35]
    simp only [hctl]
    rfl
  · rw [Url.cut_found r h35]
    simp only [hctl, unescape_plain hr]
    rfl

/-- **C37.** For a link with parameters `ps` (in any escaping): the topic, the name and the web seed are the first values of
their parameters, the trackers and peers all the values, in order; the length is the first `xl`, if it is an integer that
fits; the link is refused iff that is there and is no such integer. -/
theorem C37_parameters (ps : List (Bytes × Bytes)) (q f : Bytes) (hq : QPairs ps q) (hc : ∀ c ∈ q, 32 ≤ c ∧ c ≠ 127 ∧ c ≠ 35) (hf : Fragment f) :
    (∀ xl, first ps b!"xl" = some xl → xl ≠ [] → (¬ ∃ n, SNumeral xl n ∧ FitsInt64 n) → parseMagnet (q ++ f) = .err .badQuery) ∧
    (∀ n, (first ps b!"xl").getD [] = [] ∧ n = 0 ∨ (∃ xl, first ps b!"xl" = some xl ∧ SNumeral xl n ∧ FitsInt64 n) →
      parseMagnet (q ++ f) = .ok {
        exactTopic := (first ps b!"xt").getD []
        name := (first ps b!"dn").getD []
        length := n
        trackers := values ps b!"tr"
        webSeed := (first ps b!"ws").getD []
        peers := values ps b!"x.pe" }) := by
  unfold parseMagnet
  rw [parseLink_of hc hf]
  simp only [Url.parseQuery_of hq, get_eq, getAll_eq]
  refine ⟨fun xl h1 h2 h3 => ?_, fun n h => ?_⟩
  · rw [h1]
    simp only [Option.getD_some, if_neg h2]
    cases hp : parseInt xl with
    | none => rfl
    | some n => exact absurd ⟨n, ((parseInt_some xl n).mp hp).1, ((parseInt_some xl n).mp hp).2⟩ h3
  · rcases h with ⟨h1, rfl⟩ | ⟨xl, h1, h2, h3⟩
    · rw [if_pos h1]
    · have hp := (parseInt_some xl n).mpr ⟨h2, h3.1, h3.2⟩
      rw [h1]
      simp only [Option.getD_some]
      rw [if_neg, hp]
      rintro rfl
      simp [parseInt, parseNat] at hp

/-- A link with repeated and escaped parameters. -/
example : parseMagnet b!"xt=urn:btih:ff&dn=a+b%21&tr=udp%3A%2F%2Fx&tr=y&xl=10&dn=c&x.pe=1.2.3.4:5&ws=#top" =
    .ok ⟨b!"urn:btih:ff", b!"a b!", 10, [b!"udp://x", b!"y"], [], [b!"1.2.3.4:5"]⟩ := by kernel_rfl
example : parseMagnet b!"xl=1x" = .err .badQuery := by kernel_rfl
/-- The hypotheses are met by such a link. -/
example : QPairs [(b!"dn", b!"a b!"), (b!"tr", b!"y")] b!"dn=a+b%21&tr=y" := by
  refine .cons (t := b!"dn=a+b%21") (.full (k' := b!"dn") (v' := b!"a+b%21") ?_ ?_) (.last (.full (k' := b!"tr") (v' := b!"y") ?_ ?_))
  · exact .lit (by decide) (by decide) (by decide) (by decide) (by decide) (.lit (by decide) (by decide) (by decide) (by decide) (by decide) .nil)
  · refine .lit (by decide) (by decide) (by decide) (by decide) (by decide) (.plus (.lit (by decide) (by decide) (by decide) (by decide)
      (by decide) (.pct ?_ ?_ .nil))) <;> simp [HexDigit]
  · exact .lit (by decide) (by decide) (by decide) (by decide) (by decide) (.lit (by decide) (by decide) (by decide) (by decide) (by decide) .nil)
  · exact .lit (by decide) (by decide) (by decide) (by decide) (by decide) .nil

end Drip.Magnet
