import Verif.Spec.Cluster
import Verif.Spec.Stored
/-
What C140 and C141 speak of: topics that a producer's metadata do not list.
-/
set_option autoImplicit false
namespace Kiel.Spec

variable {α κ β γ : Type}

/-- No leader of a partition of topic `t` is known. -/
def NoLeaders (cl : Cluster) (t : String) : Prop := ∀ p, leaderOf cl t p = .none

/-- Some message for topic `t` waits to be sent. -/
def Queued (s : ProducerBusy α κ β γ) (t : String) : Prop := ∃ m, (t, m) ∈ inQueue s.producer.unsent

/-- The requests have nothing for topic `t`. -/
def NotFor (t : String) (reqs : List (PReq γ)) : Prop := ∀ r ∈ reqs, ∀ e ∈ r.topics, e.1 ≠ t

/-- The event is not that the cluster changes: neither metadata nor connections do. -/
def NoNews : ProduceEv α κ β γ → Prop
  | .cluster _ => False
  | _ => True

/-- As partitioners do: if there are partitions, one of them is chosen. -/
def ChoosesOne (pick : Nat → κ → List Int → Res Int) : Prop :=
  ∀ n k ps, ps ≠ [] → ∃ p ∈ ps, pick n k ps = .ok p

end Kiel.Spec
