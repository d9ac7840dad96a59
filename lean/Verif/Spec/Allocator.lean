import Mathlib.Order.Defs.LinearOrder
import Mathlib.Data.String.Basic
import Verif.Model.Py
/-
What allocation means, independently of the code.
-/
set_option autoImplicit false
namespace Kiel.Spec

/-- The text that stands for partition `p.2` of topic `p.1`. -/
def item (p : String × Int) : String := p.1 ++ ":" ++ toString p.2

/-- Topics whose names can be told apart from the partition id. -/
def PlainName (t : String) : Prop := ':' ∉ t.toList

instance (t : String) : Decidable (PlainName t) := inferInstanceAs (Decidable (_ ∉ _))

/-- Who is given the `k`-th partition: members take turns. -/
def owner (members : List String) (k : Nat) : Option String := members[k % members.length]?

/-- The partitions of topic `t` that go to `m`. -/
def given (members : List String) (parts : List (String × Int)) (m t : String) : List Int :=
  (parts.zipIdx.filter fun x => decide (x.1.1 = t ∧ owner members x.2 = some m)).map (·.1.2)

/-- What a mapping gives `m` of topic `t`; nothing if there is no entry. -/
def lookup (mp : Dict String (Dict String (List Int))) (m t : String) : List Int :=
  (((mp.get? m).getD []).get? t).getD []

/-- How many partitions a mapping gives `m`. -/
def total (mp : Dict String (Dict String (List Int))) (m : String) : Nat :=
  (((mp.get? m).getD []).map fun e => e.2.length).sum

/-- `l` lists the elements of `s` in increasing order. -/
def SortedSet (l s : List String) : Prop := l.Pairwise (· < ·) ∧ ∀ x, x ∈ l ↔ x ∈ s

/-- The same elements. -/
def SameSet (a b : List String) : Prop := ∀ x, x ∈ a ↔ x ∈ b

end Kiel.Spec
