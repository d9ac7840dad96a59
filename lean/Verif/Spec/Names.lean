import Verif.Model.Names
/-
What the properties of names speak of: consumers as they are in the world, and the tree of
zookeeper's nodes.
-/
set_option autoImplicit false
namespace Kiel.Spec

/-- A consumer: the machine and the process it is in, its address there, and its group. -/
structure Being where
  host : String
  process : Nat
  address : Nat
  group : String
  deriving DecidableEq, Repr

/-- What it is called. -/
def Being.name (b : Being) : String := consumerName b.host b.address

/-- Consumers that exist at the same time: no two are at the same place. -/
def Together (b : Nat → Being) : Prop :=
  ∀ i j, (b i).host = (b j).host → (b i).process = (b j).process →
    (b i).address = (b j).address → i = j

/-- The nodes that a consumer has zookeeper make: those its watches need, the one that stands for
it, and the lock, beneath which kazoo makes further ones. -/
inductive Makes (group name : String) : String → Prop
  | members : Makes group name (membersPath group)
  | partitions : Makes group name (partitionPath group)
  | member : Makes group name (memberPath (membersPath group) name)
  | lock : Makes group name (lockPath (partitionPath group))
  | waiting (s : String) : Makes group name (memberPath (lockPath (partitionPath group)) s)

/-- `name` is a child of the node `path`, given the nodes that were made: it was made, or a node
beneath it was (with a node, those above it are made). -/
def Child (made : String → Prop) (path name : String) : Prop :=
  '/' ∉ name.toList ∧ ∃ q, made q ∧
    (q.toList = path.toList ++ '/' :: name.toList ∨
      path.toList ++ '/' :: name.toList ++ ['/'] <+: q.toList)

/-- Text that stands for one node in a path (kazoo leaves out empty ones). -/
def OneNode (s : String) : Prop := s ≠ "" ∧ '/' ∉ s.toList

end Kiel.Spec
