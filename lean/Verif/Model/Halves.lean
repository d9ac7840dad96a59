import Verif.Model.FirstGrouped
/-
kiel/zookeeper/allocator.py: a rebalance as the consumer's thread may see it.  It happens on
kazoo's thread, and the consumer's may run at any point in between.
-/
set_option autoImplicit false
namespace Kiel

/-- kiel/zookeeper/allocator.py:261: the mapping is replaced. -/
def Grouped.remapped (a : Dict String (List Int)) (c : Grouped) : Grouped :=
  { c with ext := { c.ext with mapping := some a } }

/-- kiel/zookeeper/allocator.py:269-270, kiel/clients/grouped.py:53: the callback is called, which
clears the synced topics. -/
def Grouped.unsynced (c : Grouped) : Grouped := { c with synced := [] }

/-- The first half of a rebalance (kiel/zookeeper/allocator.py:257-267), as an event.
Simplification: it happens between two steps of the consumer's coroutines, not within one. -/
def FirstGroupEv.remap {β : Type} (a : Dict String (List Int)) : FirstGroupEv β :=
  .group (.base (.other (Grouped.remapped a)))

/-- The second half (kiel/zookeeper/allocator.py:269-270), as an event. -/
def FirstGroupEv.unsync {β : Type} : FirstGroupEv β := .group (.base (.other Grouped.unsynced))

/-- kiel/zookeeper/allocator.py:263-267: between the halves the new share is iterated over.
`left`: the topics still to come; `looked`: what the consumer's thread looks up in the share before
each of the iterator's steps (`determine_offsets`, kiel/clients/grouped.py:160, adds what it does
not find, the share being a `defaultdict`).  CPython raises a `RuntimeError` on the next step if
the dictionary's size is not `size` any more, after the last entry as well.  Simplification: what
the iterator gives after keys were added does not matter, as that raises. -/
def logShare (size : Nat) : List String → List (List String) → Dict String (List Int) →
    Res Unit × Dict String (List Int)
  | left, looked, a =>
    let a := (looked.headD []).foldl (fun a t => (a.getDefault t []).1) a
    if a.length ≠ size then (.error .runtimeError, a)
    else
      match left with
      | [] => (.ok (), a)
      | _ :: left => logShare size left looked.tail a

end Kiel
