import Verif.Model.Basic
import Batteries.Data.List.Basic
/-
BEP 12: the order in which trackers are tried. Independent of the model; `R` is the type of responses.
-/

namespace Drip.Spec

/-- The trackers asked and their answers, in the order of the requests; the network goes from the first state to the last. -/
inductive Asked {σ R : Type} (ask : σ → Bytes → Res R × σ) : σ → List (Bytes × Res R) → σ → Prop
  | nil (s : σ) : Asked ask s [] s
  | cons {s s' s'' : σ} {t : Bytes} {a : Res R} {log : List (Bytes × Res R)} :
    ask s t = (a, s') → Asked ask s' log s'' → Asked ask s ((t, a) :: log) s''

/-- All answers are errors. -/
def Failed {R : Type} (log : List (Bytes × Res R)) : Prop := ∀ x ∈ log, ∃ e, x.2 = .err e

/-- `Announced tiers log tiers' res`: trackers were tried in order until one succeeded (or the program crashed). -/
inductive Announced {R : Type} (tiers : List (List Bytes)) : List (Bytes × Res R) → List (List Bytes) → Res (Option R) → Prop
  /-- The tracker `t` succeeded: all trackers before it were asked, in order, and failed; it moves to the front of its tier. -/
  | success {log : List (Bytes × Res R)} {above below : List (List Bytes)} {before after : List Bytes} {t : Bytes} {r : R} :
    tiers = above ++ (before ++ t :: after) :: below → Failed log → log.map (·.1) = above.flatten ++ before →
    Announced tiers (log ++ [(t, .ok r)]) (above ++ (t :: before ++ after) :: below) (.ok (some r))
  /-- All failed: the last error is returned, nothing moves. -/
  | failure {log : List (Bytes × Res R)} {t : Bytes} {e : Err} :
    Failed log → (log.map (·.1)) ++ [t] = tiers.flatten → Announced tiers (log ++ [(t, .err e)]) tiers (.err e)
  /-- There is no tracker: no response and no error. -/
  | none : tiers.flatten = [] → Announced tiers [] tiers (.ok none)
  /-- A tracker's answer crashed the program. -/
  | crash {log : List (Bytes × Res R)} {t : Bytes} {rest : List Bytes} :
    Failed log → tiers.flatten = log.map (·.1) ++ t :: rest → Announced tiers (log ++ [(t, .panic)]) tiers .panic

/-- The same tiers, each with the same trackers in some order. -/
def SameTiers (tiers tiers' : List (List Bytes)) : Prop := List.Forall₂ List.Perm tiers tiers'

end Drip.Spec
