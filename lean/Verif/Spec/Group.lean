import Verif.Model.Group
import Verif.Spec.Notify
/-
Consumer groups: who is a member, who has been told what.
-/
set_option autoImplicit false
namespace Kiel.Spec

/-- Consumer `i`'s node is there. -/
def Joined (g : Group) (i : Nat) : Prop := (g.zk.nodes.get? (g.mate i).alloc.name).isSome

/-- Partition `p` of topic `t` is among the group's. -/
def InGroup (g : Group) (t : String) (p : Int) : Prop := item (t, p) ∈ g.items

/-- What consumer `i` was told while `evs` happened, beginning with group `g`. -/
def told (textOk : Bool) (i : Nat) : List GEv → Group → List Note
  | [], _ => []
  | e :: evs, g =>
    (match e with
      | .seesMembers j => if j = i then [.members (g.zk.nodes.map (·.1))] else []
      | .seesItems j => if j = i then [.partitions (some g.items)] else []
      | _ => []) ++ told textOk i evs (g.step textOk e)

/-- What consumer `i` was last told, of members and of partitions, is how it is after `evs`. -/
def UpToDate (textOk : Bool) (i : Nat) (evs : List GEv) (g : Group) : Prop :=
  SameSet (latestMembers (told textOk i evs g)) ((g.run textOk evs).zk.nodes.map (·.1)) ∧
  SameSet (latestPartitions (told textOk i evs g)) (g.run textOk evs).items

/-- Consumer `i` is to consume partition `p` of topic `t`. -/
def Consumes (g : Group) (i : Nat) (t : String) (p : Int) : Prop :=
  ∃ a, (g.mate i).alloc.allocation.1 = .ok a ∧ p ∈ (a.get? t).getD []

/-- The state last reported to consumer `i`; to begin with, none was. -/
def lastState (i : Nat) (evs : List GEv) : Option KState :=
  (evs.filterMap fun e => match e with | .state j st => if j = i then some st else .none | _ => .none).getLast?

/-- Partitions are only added for topics with ordinary names. -/
def PlainAdds (evs : List GEv) : Prop := ∀ i d, GEv.add i d ∈ evs → ∀ e ∈ d, PlainName e.1

/-- Nothing happens but consumers being told what there is. -/
def OnlyTold (evs : List GEv) : Prop := ∀ e ∈ evs, ∃ i, e = .seesMembers i ∨ e = .seesItems i

end Kiel.Spec
