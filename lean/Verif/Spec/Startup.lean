import Verif.Model.Py
/-
Steps in order, up to the first that fails.
-/
set_option autoImplicit false
namespace Kiel.Spec

/-- The outcome of a list of steps with their outcomes, and the steps that are run. -/
def inOrder {ι : Type} : List (ι × Res Unit) → Res Unit × List ι
  | [] => (.ok (), [])
  | (i, .error e) :: _ => (.error e, [i])
  | (i, .ok _) :: rest => ((inOrder rest).1, i :: (inOrder rest).2)

end Kiel.Spec
