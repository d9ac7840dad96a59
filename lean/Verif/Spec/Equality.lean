import Verif.Spec.Wire
/-
What is to be said of `==` on protocol structures.
-/
set_option autoImplicit false
namespace Kiel.Spec
open Kiel

/-- The instance has the attribute. -/
def HasAttr (v : Val) (name : String) : Prop := ∃ kvs, v = .part kvs ∧ name ∈ kvs.map (·.1)

/-- Nothing, text, or bytes that are not text. -/
def FaithfulScalar (v : Val) : Prop :=
  v = .none ∨ (∃ s, v = .str s) ∨ ∃ b, v = .bytes b ∧ decodeUtf8 b = .none

mutual
/-- The values that are written as what they are: all attributes are there, arrays are lists, and
length-prefixed fields hold nothing, text, or bytes that are not text. -/
def Faithful : Ty → Val → Prop
  | .string, v => FaithfulScalar v
  | .bytes, v => FaithfulScalar v
  | .array t, v => v ≠ .none ∧ ∀ x ∈ elems v, Faithful t x
  | .part fs, v => FaithfulFields fs v
  | .messageSet, v => ∀ e ∈ msgs v, HasAttr e.2 "key" ∧ HasAttr e.2 "value" ∧
      FaithfulScalar (attr e.2 "key") ∧ FaithfulScalar (attr e.2 "value")
  | _, _ => True
/-- The same for the fields of an instance. -/
def FaithfulFields : Fields → Val → Prop
  | .nil, _ => True
  | .cons name t rest, v => HasAttr v name ∧ Faithful t (attr v name) ∧ FaithfulFields rest v
end

/-- The names of the fields. -/
def fieldNames : Fields → List String
  | .nil => []
  | .cons name _ rest => name :: fieldNames rest

mutual
/-- No class has two fields of the same name. -/
def Distinct : Ty → Prop
  | .array t => Distinct t
  | .part fs => DistinctFields fs
  | _ => True
/-- The same for a list of fields. -/
def DistinctFields : Fields → Prop
  | .nil => True
  | .cons name t rest => name ∉ fieldNames rest ∧ Distinct t ∧ DistinctFields rest
end

mutual
/-- Structures without message sets. -/
def NoSets : Ty → Prop
  | .array t => NoSets t
  | .part fs => NoSetsFields fs
  | .messageSet => False
  | _ => True
/-- The same for a list of fields. -/
def NoSetsFields : Fields → Prop
  | .nil => True
  | .cons _ t rest => NoSets t ∧ NoSetsFields rest
end

end Kiel.Spec
