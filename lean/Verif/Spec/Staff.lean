import Verif.Model.Staff
import Verif.Spec.Group
/-
What the property about partitions that come into being while a group runs (C136) speaks of.
-/
set_option autoImplicit false
namespace Kiel.Spec

variable {β δ : Type}

/-- Metadata that lists a partition of a topic. -/
def Lists (topics : Dict String (List Int)) (t : String) (p : Int) : Prop :=
  ∃ ids, (t, ids) ∈ topics ∧ p ∈ ids

/-- Messages of partition `p` of topic `t` are asked for. -/
def AsksAbout (t : String) (p : Int) (out : FirstGroupOut δ) : Prop :=
  ∃ reqs, out = .group (.sent reqs) ∧ ∃ q ∈ reqs, q.topic = t ∧ ∃ f ∈ q.parts, f.id = p

/-- A consumer connects, and finds metadata that lists the partition; or the application itself adds
the partition to the group's. -/
def Offers (t : String) (p : Int) : StaffEv β → Prop
  | .connects _ cl _ => Lists cl.topics t p
  | .group (.add _ d) => Lists d t p
  | _ => False

/-- What the partitions are that a consumer takes to be its own. -/
def own (s : Staff δ) (i : Nat) (t : String) : List Int :=
  match (s.client i).group.base.consumer.ext.mapping with
  | some a => (a.get? t).getD []
  | .none => []

/-- What happens in zookeeper. -/
def inZookeeper : StaffEv β → List GEv
  | .group ev => [ev]
  | .connects i cl _ => [.join i, .add i cl.topics]
  | _ => []

end Kiel.Spec
