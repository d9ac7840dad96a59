import Verif.Model.Cluster
/-
What the cluster's tables should say, given the metadata.
-/
set_option autoImplicit false
namespace Kiel.Spec
open Kiel

/-- The partitions of topic `t` that can be used: those of its entries which are not flagged
as a whole (unknown topic 3, replica not available 9), whose leader is known and not under
election (5), in response order. -/
def usable (known : Int → Prop) [DecidablePred known] (topics : List TopicMd) (t : String) :
    List PartMd :=
  ((topics.filter fun x => x.name = t ∧ x.error ≠ 3 ∧ x.error ≠ 9).flatMap (·.parts)).filter
    fun p => p.error ≠ 5 ∧ known p.leader

/-- Topic `t` needs another look: an entry is flagged 9, or one that is not flagged has a
partition under election or with an unknown leader. -/
def NeedsLook (known : Int → Prop) (topics : List TopicMd) (t : String) : Prop :=
  ∃ x ∈ topics, x.name = t ∧
    (x.error = 9 ∨ (x.error ≠ 3 ∧ ∃ p ∈ x.parts, p.error = 5 ∨ ¬ known p.leader))

/-- Who leads partition `p` of topic `t` according to a cluster, without the side effects of
`get_leader`. -/
def leaderOf (cl : Cluster) (t : String) (p : Int) : Option Int :=
  (cl.leaders.get? t).bind (·.get? p)

/-- The partitions of a topic according to a cluster. -/
def partitionsOf (cl : Cluster) (t : String) : List Int := (cl.topics.get? t).getD []

/-- The broker is listed in the metadata or has an open connection. -/
def Reachable (cl : Cluster) (m : Metadata) (id : Int) : Prop :=
  id ∈ m.brokers.map (·.id) ∨ ∃ c, (id, c) ∈ cl.conns ∧ c.closing = false

/-- A broker answers for exactly the topics asked for; asked for none, for all it has. -/
def Honest (env : ClusterEnv) : Prop :=
  ∀ n ts id m, env.ask n ts id = .ok m → ts ≠ [] → ∀ x ∈ m.topics, x.name ∈ ts

/-- Topic `t` is reported healthy: all its entries are free of flags, all partitions have a
leader, one that is among the brokers. -/
def Healthy (m : Metadata) (t : String) : Prop :=
  (∃ x ∈ m.topics, x.name = t) ∧ ∀ x ∈ m.topics, x.name = t → x.error = 0 ∧
    x.parts ≠ [] ∧ ∀ p ∈ x.parts, p.error = 0 ∧ p.leader ∈ m.brokers.map (·.id)

end Kiel.Spec
