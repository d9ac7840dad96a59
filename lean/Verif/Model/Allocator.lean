import Mathlib.Data.List.Sort
import Mathlib.Data.String.Basic
import Verif.Model.Text
/-
The default allocator (kiel/clients/grouped.py:293-313) and the part of
kiel/zookeeper/allocator.py that reacts to notifications.
-/
set_option autoImplicit false
namespace Kiel

/-! ### Text -/

/-- `str(i)` of an integer (kiel/zookeeper/allocator.py:215). -/
def strInt : Int → String
  | .ofNat n => String.ofList (Nat.toDigits 10 n)
  | .negSucc n => String.ofList ('-' :: Nat.toDigits 10 (n + 1))

/-! ### The default allocator -/

/-- What an allocator function returns: members to topics to partition ids. -/
abbrev Mapping := Dict String (Dict String (List Int))

/-- `zip(itertools.cycle(members), partitions)` (kiel/clients/grouped.py:309); the second argument
is what is left of the current round of the cycle. -/
def zipCycle {α β : Type} (members : List α) : List α → List β → List (α × β)
  | _, [] => []
  | m :: rest, p :: ps => (m, p) :: zipCycle members rest ps
  | [], p :: ps =>
    match members with
    | [] => []
    | m :: rest => (m, p) :: zipCycle members rest ps

/-- `mapping[member][topic].append(i)` (kiel/clients/grouped.py:311), with both levels
`defaultdict`s (lines 305-307). -/
def Mapping.append (d : Mapping) (m t : String) (i : Int) : Mapping :=
  let topics := (d.getDefault m []).2
  let ids := (topics.getDefault t []).2
  d.set m (topics.set t (ids ++ [i]))

/-- The loop of kiel/clients/grouped.py:309-311. -/
def allocLoop : List (String × String) → Mapping → Res Mapping
  | [], d => .ok d
  | (m, p) :: rest, d =>
    match splitColon p.toList with
    | [t, i] =>
      match pyInt? i with
      | .none => .error .valueError
      | some i => allocLoop rest (d.append m (String.ofList t) i)
    | _ => .error .valueError

/-- kiel/clients/grouped.py:293-313 (`naive_allocator`). -/
def naiveAllocator (members partitions : List String) : Res Mapping :=
  allocLoop (zipCycle members members partitions) []

/-! ### Sets -/

/-- `set(xs)` (kiel/zookeeper/allocator.py:176), listed in some order. -/
def pySet (xs : List String) : List String := xs.foldl addSet []

/-- `a == b` of sets (kiel/zookeeper/allocator.py:177, 199). -/
def setEq (a b : List String) : Bool := a.all (fun x => decide (x ∈ b)) && b.all (fun x => decide (x ∈ a))

/-- `sorted(s)` of a set of strings (kiel/zookeeper/allocator.py:258-259): by code points.  How
Python sorts does not matter, as the elements are different. -/
def pySorted (s : List String) : List String := s.insertionSort (· ≤ ·)

/-! ### `PartitionAllocator` -/

/-- An object used as mapping: `dflt` if reading a missing key inserts an empty dictionary, as the
default allocator's does (kiel/clients/grouped.py:305-307), and raises a `KeyError` otherwise. -/
structure Mapped where
  entries : Mapping
  dflt : Bool
  deriving DecidableEq, Repr

/-- The allocator function (kiel/zookeeper/allocator.py:43). -/
abbrev AllocFn := List String → List String → Res Mapped

/-- The default one (kiel/clients/grouped.py:52, 293-313). -/
def naiveFn : AllocFn := fun ms ps =>
  match naiveAllocator ms ps with
  | .ok d => .ok ⟨d, true⟩
  | .error e => .error e

/-- `PartitionAllocator` (kiel/zookeeper/allocator.py:31-63): the attributes that change.
`calls`: how often `on_rebalance` was called.  Simplification: `on_rebalance` is given and does
not raise (kiel/clients/grouped.py:53 gives `set.clear`). -/
structure Alloc where
  name : String
  members : List String
  partitions : List String
  membersCollected : Bool
  partitionsCollected : Bool
  mapping : Mapped
  calls : Nat
  deriving DecidableEq, Repr

/-- kiel/zookeeper/allocator.py:31-63: a new allocator. -/
def Alloc.new (name : String) : Alloc := ⟨name, [], [], false, false, ⟨[], false⟩, 0⟩

/-- kiel/zookeeper/allocator.py:65-70 (`allocation`). -/
def Alloc.allocation (s : Alloc) : Res (Dict String (List Int)) × Alloc :=
  match s.mapping.entries.get? s.name with
  | some a => (.ok a, s)
  | .none =>
    if s.mapping.dflt then
      (.ok [], { s with mapping := { s.mapping with entries := s.mapping.entries.set s.name [] } })
    else (.error .keyError, s)

/-- kiel/zookeeper/allocator.py:246-270 (`rebalance`).  Lines 263-267 only log, but read
`self.allocation`. -/
def Alloc.rebalance (fn : AllocFn) (s : Alloc) : Res Unit × Alloc :=
  match fn (pySorted s.members) (pySorted s.partitions) with
  | .error e => (.error e, s)
  | .ok d =>
    match ({ s with mapping := d } : Alloc).allocation with
    | (.error e, s) => (.error e, s)
    | (.ok _, s) => (.ok (), { s with calls := s.calls + 1 })

/-- kiel/zookeeper/allocator.py:165-181 (`on_group_members_change`). -/
def Alloc.onMembers (fn : AllocFn) (new : List String) (s : Alloc) : Res Unit × Alloc :=
  if setEq (pySet new) s.members then (.ok (), { s with membersCollected := true })
  else
    match ({ s with members := pySet new } : Alloc).rebalance fn with
    | (.error e, s) => (.error e, s)
    | (.ok _, s) => (.ok (), { s with membersCollected := true })

/-- kiel/zookeeper/allocator.py:183-203 (`on_partition_change`).  `none`: the node is missing;
`create` is then given a set, and kazoo takes nothing but byte strings. -/
def Alloc.onPartitions (fn : AllocFn) (new : Option (List String)) (s : Alloc) : Res Unit × Alloc :=
  match new with
  | .none => (.error .typeError, s)
  | some new =>
    if setEq new s.partitions then (.ok (), { s with partitionsCollected := true })
    else
      match ({ s with partitions := new } : Alloc).rebalance fn with
      | (.error e, s) => (.error e, s)
      | (.ok _, s) => (.ok (), { s with partitionsCollected := true })

/-- A notification, as zookeeper's watches give them: the children of the party's node
(kiel/zookeeper/party.py:36-38), or the data of the shared set's
(kiel/zookeeper/shared_set.py:35-40), as a list. -/
inductive Note where
  | members (l : List String)
  | partitions (l : Option (List String))
  deriving DecidableEq, Repr

/-- The call a notification leads to; the set is made at kiel/zookeeper/shared_set.py:94. -/
def Alloc.notify (fn : AllocFn) (n : Note) (s : Alloc) : Res Unit × Alloc :=
  match n with
  | .members l => s.onMembers fn l
  | .partitions l => s.onPartitions fn (l.map pySet)

/-- Notifications one after the other; an exception only ends the callback that raised it. -/
def Alloc.notifyAll (fn : AllocFn) : List Note → Alloc → Alloc
  | [], s => s
  | n :: ns, s => Alloc.notifyAll fn ns (s.notify fn n).2

end Kiel
