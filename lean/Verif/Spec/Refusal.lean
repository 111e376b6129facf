import Verif.Spec.Announces
/-
Why an announce is refused, independently of the tracker's code.
-/

namespace Drip.Spec

/-- What is wrong with a request, in the order of the checks; `errText` is the message for a query that cannot be read. -/
inductive Reason (errText : Bytes → Bytes) (known : List Bytes) (remote query : Bytes) : Bytes → Prop
  | query : (∀ r, ¬ IsRequest query r) → Reason errText known remote query (errText query)
  | unknown {r} : IsRequest query r → r.infoHash ∉ known → Reason errText known remote query b!"unknown info hash"
  | address {r text} : IsRequest query r → r.infoHash ∈ known → (if r.ip = [] then HostOf remote text else text = r.ip) → (∀ ip, ¬ IsAddress text ip) →
      Reason errText known remote query b!"bad ip"
  | port {r text ip} : IsRequest query r → r.infoHash ∈ known → (if r.ip = [] then HostOf remote text else text = r.ip) → IsAddress text ip → r.port = 0 →
      Reason errText known remote query b!"bad port"

/-- The request has no address, and neither has the connection it comes from. -/
def Nowhere (known : List Bytes) (remote query : Bytes) : Prop :=
  ∃ r, IsRequest query r ∧ r.infoHash ∈ known ∧ r.ip = [] ∧ ∀ host, ¬ HostOf remote host

end Drip.Spec
