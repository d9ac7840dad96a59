import Verif.Spec.Staff
import Verif.Spec.Cluster
/-
What the properties about partitions whose leaders a consumer of a group does not know (C137, C138)
speak of.
-/
set_option autoImplicit false
namespace Kiel.Spec

variable {β δ : Type}

/-- The metadata of consumer `i` name no leader of partition `p` of topic `t`. -/
def Leaderless (s : Staff δ) (i : Nat) (t : String) (p : Int) : Prop :=
  leaderOf (s.client i).group.base.consumer.cluster t p = .none

/-- No call of the consumer is under way, and none has left a healing to be done. -/
def Idle (s : Staff δ) (i : Nat) : Prop :=
  (s.client i).starting = [] ∧ (s.client i).group.base.waiting = [] ∧ (s.client i).group.commits = [] ∧
    (s.client i).group.base.consumer.heal = false

/-- Consumer `i` gets metadata. -/
def Learns (i : Nat) : StaffEv β → Prop
  | .heals j _ => j = i
  | .connects j _ _ => j = i
  | _ => False

/-- Nothing of consumer `i`, but that it calls `consume` for topic `t`: it gets no metadata, and is
not told of members or partitions. -/
def OnlyCalls (i : Nat) (t : String) : StaffEv β → Prop
  | .group (.seesMembers j) => j ≠ i
  | .group (.seesItems j) => j ≠ i
  | .group _ => True
  | .client j ev => j = i → ∃ k, ev = .call k t
  | .heals j _ => j ≠ i
  | .connects j _ _ => j ≠ i

/-- A partition of the group is taken out of it. -/
def TakesOut : StaffEv β → Prop
  | .group (.remove _ _) => True
  | _ => False

end Kiel.Spec
