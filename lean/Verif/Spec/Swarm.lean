import Verif.Model.Basic
import Verif.Spec.Tracker
/-
Which peers a tracker should list: independent of the tracker's tables.
-/

namespace Drip.Spec

/-- An announce: for which torrent, by whom, from which address (its text and its 16 bytes) and port, with which event. -/
structure Announce where
  (hash id text ip : Bytes)
  port : Int
  event : Bytes

/-- An address and a port. -/
abbrev Place := Bytes × Int

/-- The place of an IPv4 address and a port: the address as 16 bytes. -/
def Endpoint.place (e : Endpoint) : Place := ([0, 0, 0, 0, 0, 0, 0, 0, 0, 0, 255, 255, e.a, e.b, e.c, e.d], e.port)

/-- The place that announces. -/
def Announce.place (a : Announce) : Place := (a.ip, a.port)

/-- What has happened, newest first: the time (in nanoseconds) and the announce, if it was one. -/
abbrev Past := List (Int × Option Announce)

/-- When and with which event a place has announced a torrent the last time. -/
def lastSeen (hash : Bytes) (e : Place) : Past → Option (Int × Bytes)
  | [] => none
  | (t, some a) :: past => if a.hash = hash ∧ a.place = e then some (t, a.event) else lastSeen hash e past
  | (_, none) :: past => lastSeen hash e past

/-- The place has announced the torrent within the last minute, and not that it stops. -/
def Live (now : Int) (past : Past) (hash : Bytes) (e : Place) : Prop :=
  ∃ t event, lastSeen hash e past = some (t, event) ∧ event ≠ b!"stopped" ∧ now - t ≤ 60 * 1000000000

/-- The clock never goes back, and it is `now`. -/
def Clock : (now : Int) → List Int → Prop
  | _, [] => True
  | now, t :: ts => t ≤ now ∧ Clock t ts

end Drip.Spec
