import Mathlib.Data.Int.Notation
/-
The error codes of the Kafka protocol the client was written for.
-/
set_option autoImplicit false
namespace Kiel.Spec

/-- The error codes the client knows. -/
def KnownCode (code : Int) : Prop := -1 ≤ code ∧ code ≤ 31 ∧ code ≠ 13

instance (code : Int) : Decidable (KnownCode code) := inferInstanceAs (Decidable (_ ∧ _))

/-- Codes after which trying again makes sense. -/
def Retriable (code : Int) : Prop := code ∈ [2, 3, 5, 6, 7, 14, 15, 16, 19, 20]

instance (code : Int) : Decidable (Retriable code) := inferInstanceAs (Decidable (_ ∈ _))

/-- Codes that are neither success nor retriable. -/
def Fatal (code : Int) : Prop := code ≠ 0 ∧ ¬ Retriable code

instance (code : Int) : Decidable (Fatal code) := inferInstanceAs (Decidable (_ ∧ _))

end Kiel.Spec
