import Verif.Model.Grouped
import Verif.Model.Startup
/-
Closing a `GroupedConsumer`.
-/
set_option autoImplicit false
namespace Kiel

/-- `close` of a `GroupedConsumer` (kiel/clients/client.py:34-45, kiel/clients/grouped.py:285-290);
`σ` and the three functions: the outside world, and what the steps of `allocator.stop()` do to it.
`cluster.stop()` is reached only if these do not raise.
Simplification: `stop` leaves the allocation as it is (leaving the group makes kazoo notify the
allocator, which is not waited for). -/
def Grouped.close {σ : Type} (leave stop close : σ → Res Unit × σ) (s : σ) (c : Grouped) :
    Res Unit × σ × Grouped :=
  let c : Grouped := { c with closing := true }
  match allocatorStop leave stop close s with
  | (.error e, s, _) => (.error e, s, c)
  | (.ok _, s, _) => (.ok (), s, { c with cluster := c.cluster.stop })

end Kiel
