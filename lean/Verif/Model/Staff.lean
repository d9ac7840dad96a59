import Verif.Model.Group
import Verif.Model.Connect
import Verif.Model.FirstGrouped
/-
A consumer group with everything its consumers do: their allocators on one zookeeper, their metadata,
and their `consume`s and commits.
-/
set_option autoImplicit false
namespace Kiel

variable {β δ : Type}

/-- A consumer group: its allocators and zookeeper (kiel/clients/grouped.py:50-54), and its consumers
with the calls under way (kiel/clients/grouped.py:18-57). -/
structure Staff (δ : Type) where
  group : Group
  client : Nat → GroupFirst δ

/-- What can happen.
* `group`: something in zookeeper, or a consumer is told of it;
* `client`: a step of a call of a consumer;
* `heals`: a `heal()` of a consumer, whatever called it, finds the metadata `cl`
  (kiel/cluster.py:113-144);
* `connects`: `connect()` of a consumer, once it has metadata (kiel/clients/grouped.py:66-76). -/
inductive StaffEv (β : Type) where
  | group (ev : GEv)
  | client (i : Nat) (ev : FirstGroupEv β)
  | heals (i : Nat) (cl : Cluster)
  | connects (i : Nat) (cl : Cluster) (coordinator : Option Int)

/-- What a consumer sees of a rebalance of its allocator (kiel/clients/grouped.py:53, 59-64,
kiel/zookeeper/allocator.py:246-270), if there was one. -/
def GroupFirst.allocatedBy (before after : Alloc) (s : GroupFirst δ) : GroupFirst δ :=
  if before.calls = after.calls then s
  else
    { s with group := { s.group with base := { s.group.base with
      consumer := Grouped.allocatedBy before after s.group.base.consumer } } }

/-- The same for all consumers, after an event in zookeeper (kiel/clients/grouped.py:53). -/
def Staff.inZk (textOk : Bool) (s : Staff δ) (ev : GEv) : Staff δ :=
  ⟨s.group.step textOk ev, fun i =>
    (s.client i).allocatedBy (s.group.mate i).alloc ((s.group.step textOk ev).mate i).alloc⟩

/-- A consumer gets other metadata (kiel/cluster.py:113-144). -/
def GroupFirst.informed (cl : Cluster) (s : GroupFirst δ) : GroupFirst δ :=
  { s with group := { s.group with base := { s.group.base with
    consumer := { s.group.base.consumer with cluster := cl } } } }

/-- `connect()` finds out who coordinates (kiel/clients/grouped.py:76, 98-140). -/
def GroupFirst.coordinatedBy (co : Option Int) (s : GroupFirst δ) : GroupFirst δ :=
  { s with group := { s.group with base := { s.group.base with
    consumer := { s.group.base.consumer with
      ext := { s.group.base.consumer.ext with coordinator := co } } } } }

/-- One event, and what is seen of which consumer.  Of `connect()` there is: the metadata; joining
(kiel/zookeeper/allocator.py:107); adding the partitions of the topics in the metadata
(kiel/clients/grouped.py:75, kiel/zookeeper/allocator.py:108, 205-226); and the coordinator.
Simplifications: those of `Group.step` and `GroupFirst.step`; what a consumer is told while it
connects are events of their own; the other changes that `FirstGroupEv` leaves open (`other`) are the
events of the other kinds here. -/
def Staff.step (textOk : Bool) (gcfg : GCfg) (cfg : CCfg β δ) (s : Staff δ) :
    StaffEv β → Option (Nat × FirstGroupOut δ) × Staff δ
  | .group ev => (.none, s.inZk textOk ev)
  | .client _ (.group (.base (.other _))) => (.none, s)
  | .client i ev =>
    (some (i, ((s.client i).step gcfg cfg ev).1),
      { s with client := upd s.client i ((s.client i).step gcfg cfg ev).2 })
  | .heals i cl => (.none, { s with client := upd s.client i ((s.client i).informed cl) })
  | .connects i cl co =>
    (.none, Staff.inZk textOk (Staff.inZk textOk
      { s with client := upd s.client i (((s.client i).informed cl).coordinatedBy co) } (.join i))
      (.add i cl.topics))

/-- The beginning: consumers that have not been connected (kiel/clients/grouped.py:30-57), and a
group nobody has used. -/
def Staff.new (name : Nat → String) (sess : Nat → Int) : Staff δ :=
  ⟨Group.new name sess, fun _ => ⟨⟨⟨Grouped.new Cluster.new, []⟩, []⟩, []⟩⟩

/-- Events one after the other: what is seen, and the group after them (each as in
kiel/clients/grouped.py:66-290). -/
def Staff.run (textOk : Bool) (gcfg : GCfg) (cfg : CCfg β δ) :
    List (StaffEv β) → Staff δ → List (Nat × FirstGroupOut δ) × Staff δ
  | [], s => ([], s)
  | ev :: evs, s =>
    let r := Staff.run textOk gcfg cfg evs (s.step textOk gcfg cfg ev).2
    ((s.step textOk gcfg cfg ev).1.toList ++ r.1, r.2)

end Kiel
