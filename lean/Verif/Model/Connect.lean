import Verif.Model.Grouped
import Verif.Model.Startup
import Verif.Model.SharedSet
/-
kiel/clients/grouped.py: `connect`, which starts the cluster, the allocator and the search for the
coordinator.
-/
set_option autoImplicit false
namespace Kiel

/-- What happens outside while `connect` runs: connecting to the given hosts and asking one of them
for metadata (kiel/cluster.py:83-104), the healing that follows, zookeeper, the requests for the
coordinator, and the notifications zookeeper's watches give while those are waited for
(kiel/zookeeper/allocator.py:165-203). -/
structure ConnectEnv where
  reach : List Char × Int → Option Exc
  ask : List Char × Int → Res Metadata
  cluster : ClusterEnv
  zk : StartEnv
  coord : Nat → SendEnv CoordResp
  meanwhile : List Note := []

/-- The three steps of `connect`. -/
inductive ConnectStep where
  | cluster | allocator | coordinator
  deriving DecidableEq, Repr

/-- What the consumer is once its allocator has been started: reading `self.allocation` gives what
the allocator has (kiel/clients/grouped.py:59-64, kiel/zookeeper/allocator.py:65-70), and if it has
rebalanced the set of synced topics was cleared (kiel/clients/grouped.py:53,
kiel/zookeeper/allocator.py:269-270). -/
def Grouped.allocatedBy (before after : Alloc) (c : Grouped) : Grouped :=
  { c with
    synced := if before.calls = after.calls then c.synced else []
    ext := { c.ext with mapping := match after.allocation.1 with
      | .ok a => some a
      | .error _ => .none } }

/-- kiel/clients/grouped.py:66-76 (`connect`), with kiel/clients/client.py:27-32: the outcome, the
consumer and its allocator, the steps begun, and what is offered to the shared set of partitions
(kiel/zookeeper/allocator.py:212-217, 226), if the allocator gets that far.  The allocator blocks
the thread while it starts, so nothing else happens to the consumer meanwhile.
Rebalances during the last step are put at its end: they change the allocation and the set of synced
topics, which the search for the coordinator neither reads nor changes. -/
def Grouped.connect (fn : AllocFn) (env : ConnectEnv) (fuel : Nat) (hosts : List (List Char))
    (al : Alloc) (c : Grouped) :
    Run Unit × Grouped × Alloc × List ConnectStep × Option (List String) :=
  match c.cluster.start env.reach env.ask env.cluster fuel hosts with
  | (.running, cl) => (.running, { c with cluster := cl }, al, [.cluster], .none)
  | (.raised e, cl) => (.raised e, { c with cluster := cl }, al, [.cluster], .none)
  | (.done _, cl) =>
    match al.start fn env.zk with
    | (out, al', ran) =>
      let c := Grouped.allocatedBy al al' { c with cluster := cl }
      let offered := if StartStep.addPartitions ∈ ran then some (addedItems cl.topics) else .none
      match out with
      | .none => (.running, c, al', [.cluster, .allocator], offered)
      | some (.error e) => (.raised e, c, al', [.cluster, .allocator], offered)
      | some (.ok _) =>
        match c.determineCoordinator env.coord fuel with
        | (r, c, _) =>
          let al'' := al'.notifyAll fn env.meanwhile
          (r, Grouped.allocatedBy al' al'' c, al'', [.cluster, .allocator, .coordinator], offered)

end Kiel
