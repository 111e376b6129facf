import Verif.Model.Url
import Verif.Model.Bencode.Num
/-
Model of /repo/api/magnet/magnet.go.
-/

namespace Drip.Magnet

/-- magnet.go:8-15 `Magnet`. -/
structure Magnet where
  exactTopic : Bytes
  name : Bytes
  length : Int
  trackers : List Bytes
  webSeed : Bytes
  peers : List Bytes
  deriving DecidableEq, Repr

/-- `url.Parse` of magnet.go:18 for links that begin with `magnet:?`, given what follows: the raw query, or an error if
there are control characters before the fragment or the fragment has an invalid escape. Fragments are otherwise
ignored. -/
def parseLink (s : Bytes) : Option Bytes :=
  let (q, frag) := Url.cut 35 s
  if q.any (fun b => b < 32 || b = 127) then none
  else if (Url.queryUnescape frag).isNone then none
  else some q

/-- magnet.go:17-37 `ParseMagnetURL("magnet:?" + s)`; the errors of `url.Query()` are dropped. -/
def parseMagnet (s : Bytes) : Res Magnet :=
  match parseLink s with
  | none => .err .badQuery
  | some q =>
    let ps := (Url.parseQuery q).1
    let m : Magnet := ⟨Url.get ps b!"xt", Url.get ps b!"dn", 0, Url.getAll ps b!"tr", Url.get ps b!"ws", Url.getAll ps b!"x.pe"⟩
    let xl := Url.get ps b!"xl"
    if xl = [] then .ok m
    else match parseInt xl with
      | some n => .ok { m with length := n }
      | none => .err .badQuery

end Drip.Magnet
