import Verif.Spec.CallsPipeline
import Verif.Spec.Band
/-
A producer with overlapping calls, brokers, and a group whose members' calls overlap and that is
rebalanced, and loses members, while calls are under way.
-/
set_option autoImplicit false
namespace Kiel.Spec

variable {β δ : Type}

/-- What happens to a group, as what a consumer reads. -/
def bandReads (gcfg : Nat → GCfg) (cfg : CCfg β δ) (base : String → Int → Int) :
    Reads (Band δ) β δ :=
  fun logs g outs g' => BandStep gcfg cfg logs NoneWaits base g g' ∧ g'.returned = g.returned ++ outs

/-- A member, or an offset that a member has asked the coordinator to store, is past all the messages
of the partition that can be deserialized. -/
def Band.Past (cfg : CCfg β δ) (g : Band δ) (t : String) (p : Int) (log : List (Int × β)) : Prop :=
  ∃ o, ((t, p, o) ∈ offsetsIn g.sent ∨ ∃ i, o = offsetOf (g.member i).offsets t p) ∧
    ahead cfg log o = []

end Kiel.Spec
