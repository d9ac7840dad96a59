import Verif.Model.Allocator
import Verif.Model.SharedSet
import Verif.Model.Party
/-
A consumer group: any number of consumers, each with its `PartitionAllocator`, on one zookeeper.
-/
set_option autoImplicit false
namespace Kiel

/-- kazoo's connection states, as told to listeners (kiel/zookeeper/allocator.py:155-163). -/
inductive KState where
  | connected | suspended | lost
  deriving DecidableEq, Repr

/-- A consumer of the group: its allocator, kazoo's current session (`client_id[0]`), and whether
the event `connected` is set (kiel/zookeeper/allocator.py:47). -/
structure Mate where
  alloc : Alloc
  sess : Int
  connected : Bool

/-- kiel/zookeeper/allocator.py:148-163 (`handle_connection_change`). -/
def Mate.connectionChange (st : KState) (m : Mate) : Mate :=
  if st = .lost then { m with connected := false }
  else if st = .suspended then { m with connected := false }
  else { m with connected := true }

/-- The group: the children of its node `members` (kiel/zookeeper/allocator.py:73-77,
kiel/zookeeper/party.py:20-26), the data of its node `partitions`
(kiel/zookeeper/allocator.py:80-84, kiel/zookeeper/shared_set.py:15-20), and its consumers, whether
they have joined or not. -/
structure Group where
  zk : Zk
  items : List String
  mate : Nat → Mate

/-- What can happen.
* `state`: kazoo tells a consumer a connection state;
* `session`: kazoo has made a new session for a consumer;
* `expire`: zookeeper expires a session;
* `join`, `leave`: `party.join()` and `party.leave()` of a consumer.  Of the code, only
  `PartitionAllocator.start` and `stop` call them (kiel/zookeeper/allocator.py:107, 131);
* `add`, `remove`: `add_partitions` and `remove_partitions` of a consumer;
* `seesMembers`, `seesItems`: a watch tells a consumer the current members or partitions. -/
inductive GEv where
  | state (i : Nat) (st : KState)
  | session (i : Nat) (sess : Int)
  | expire (sess : Int)
  | join (i : Nat)
  | leave (i : Nat)
  | add (i : Nat) (d : Dict String (List Int))
  | remove (i : Nat) (d : Dict String Val)
  | seesMembers (i : Nat)
  | seesItems (i : Nat)
  deriving Repr

/-- What a watch tells a consumer (kiel/zookeeper/party.py:36-38, kiel/zookeeper/shared_set.py:35-40). -/
def Group.tell (g : Group) (i : Nat) (n : Note) : Group :=
  { g with mate := upd g.mate i { g.mate i with alloc := ((g.mate i).alloc.notify naiveFn n).2 } }

/-- One event.  `add_partitions` and `remove_partitions` wait until the event `connected` is set
(kiel/zookeeper/allocator.py:224, 239; kiel/events.py:6-23): until then, nothing happens.
Simplifications: no event happens in the middle of another (for that see Verif/Model/SharedSet.lean,
Verif/Model/Startup.lean and `partyJoin`), and the allocator function is the default one. -/
def Group.step (textOk : Bool) (g : Group) : GEv → Group
  | .state i st => { g with mate := upd g.mate i ((g.mate i).connectionChange st) }
  | .session i sess => { g with mate := upd g.mate i { g.mate i with sess := sess } }
  | .expire sess => { g with zk := g.zk.expire sess }
  | .join i => { g with zk := (partyJoin (g.mate i).alloc.name (g.mate i).sess id g.zk).2 }
  | .leave i => { g with zk := (partyLeave (g.mate i).alloc.name (g.mate i).sess g.zk).2 }
  | .add i d =>
    if (g.mate i).connected then { g with items := (addPartitions textOk d g.items).2.1 } else g
  | .remove i d =>
    if (g.mate i).connected then { g with items := (removePartitions textOk d g.items).2.1 } else g
  | .seesMembers i => g.tell i (.members g.zk.nodes.keys)
  | .seesItems i => g.tell i (.partitions (some g.items))

/-- The beginning: consumers that have not been started (kiel/zookeeper/allocator.py:31-63), and a
group nobody has used. -/
def Group.new (name : Nat → String) (sess : Nat → Int) : Group :=
  ⟨⟨[], []⟩, [], fun i => ⟨Alloc.new (name i), sess i, false⟩⟩

/-- Events one after the other. -/
def Group.run (textOk : Bool) (evs : List GEv) (g : Group) : Group := evs.foldl (Group.step textOk) g

end Kiel
