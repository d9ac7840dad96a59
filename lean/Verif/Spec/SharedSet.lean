import Mathlib.Data.Set.Basic
import Verif.Model.SharedSet
/-
What adding to and removing from a set means.
-/
set_option autoImplicit false
namespace Kiel.Spec

/-- The elements of a list. -/
def elements (l : List String) : Set String := {x | x ∈ l}

/-- The set after one operation. -/
def apply (s : Set String) : SetOp → Set String
  | .add items => s ∪ elements items
  | .remove items => s \ elements items

/-- The set after operations one after the other. -/
def applyAll (s : Set String) (ops : List SetOp) : Set String := ops.foldl apply s

/-- Of calls with their outcomes: those that took effect.  A call that returned did; one that
raised an exception may or may not have. -/
inductive TookEffect : List (SetOp × Res Unit) → List SetOp → Prop where
  | nil : TookEffect [] []
  | yes (op : SetOp) (r : Res Unit) (log : List (SetOp × Res Unit)) (ops : List SetOp)
      (h : TookEffect log ops) : TookEffect (log ++ [(op, r)]) (ops ++ [op])
  | no (op : SetOp) (e : Exc) (log : List (SetOp × Res Unit)) (ops : List SetOp)
      (h : TookEffect log ops) : TookEffect (log ++ [(op, .error e)]) ops

end Kiel.Spec
