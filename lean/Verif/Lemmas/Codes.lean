import Verif.Spec.Codes
import Verif.Model.Errors
import Verif.Lemmas.Dict
import Mathlib.Tactic.NormNum
/- The tables of error codes hold what the specification says. -/
set_option autoImplicit false
namespace Kiel
open Spec

theorem knownCode_iff (c : Int) : KnownCode c ↔ c ∈ errorCodes.keys := by
  have : errorCodes.keys = [0, -1, 1, 2, 3, 4, 5, 6, 7, 8, 9, 10, 11, 12, 14, 15, 16, 17, 18,
    19, 20, 21, 22, 23, 24, 25, 26, 27, 28, 29, 30, 31] := by decide +kernel
  rw [this]
  unfold KnownCode
  simp only [List.mem_cons, List.not_mem_nil, or_false]
  omega

theorem errorCodes_none (c : Int) : errorCodes.get? c = none ↔ ¬ KnownCode c := by
  rw [knownCode_iff]; exact Dict.get?_eq_none

theorem errorCodes_has (c : Int) : errorCodes.has c = true ↔ KnownCode c := by
  rw [knownCode_iff]; exact Dict.has_iff

theorem retriable_iff (c : Int) : Retriable c ↔ c ∈ Err.retriable := Iff.rfl

end Kiel
