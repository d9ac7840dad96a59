import Verif.Spec.CallsPipeline
import Verif.Spec.Fleet
/-
A producer with overlapping calls, brokers, and a group whose members' calls overlap.
-/
set_option autoImplicit false
namespace Kiel.Spec

variable {β δ : Type}

/-- What happens to a group, as what a consumer reads: the group is rebalanced only while no call is
under way and the coordinator has the offsets at which the members are. -/
def fleetReads (gcfg : Nat → GCfg) (cfg : CCfg β δ) : Reads (Fleet δ) β δ :=
  fun logs g outs g' => FleetStep gcfg cfg logs Fleet.Committed g g' ∧
    g'.returned = g.returned ++ outs

end Kiel.Spec
