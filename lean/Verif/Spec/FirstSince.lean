import Verif.Spec.Announces
/-
Which announce of a place a tracker remembers that takes the id and the text of the address from the first one, and forgets places when it cleans up. Histories are newest first.
-/

namespace Drip.Spec

/-- The event announces the place for the torrent. -/
def AnnouncesPlace (known : List Bytes) (hash : Bytes) (e : Place) (x : Int × Event) (b : Announce) : Prop :=
  ∃ remote query c, x.2 = .request remote query ∧ Announces known remote query b c ∧ b.hash = hash ∧ b.place = e

/-- The tracker cleaned up, and the place was not alive at that time; `h` is what had happened before. -/
def Swept (known : List Bytes) (hash : Bytes) (e : Place) (x : Int × Event) (h : List (Int × Event)) : Prop :=
  x.2 = .cleanup ∧ ∀ p, PastOf known h p → ¬ Live x.1 p hash e

/-- The place is not known: it has not announced the torrent ever, or not since a cleanup at which it was not alive. -/
def Forgotten (known : List Bytes) (hash : Bytes) (e : Place) (h : List (Int × Event)) : Prop :=
  ∃ l r, h = l ++ r ∧ (∀ x ∈ l, ∀ b, ¬ AnnouncesPlace known hash e x b) ∧ (r = [] ∨ ∃ x r', r = x :: r' ∧ Swept known hash e x r')

/-- `b` is the first announce of the place since it was last forgotten. -/
def FirstSince (known : List Bytes) (hash : Bytes) (e : Place) (h : List (Int × Event)) (b : Announce) : Prop :=
  ∃ l x r, h = l ++ x :: r ∧ AnnouncesPlace known hash e x b ∧ Forgotten known hash e r ∧ ∀ l1 y l2, l = l1 ++ y :: l2 → ¬ Swept known hash e y (l2 ++ x :: r)

end Drip.Spec
