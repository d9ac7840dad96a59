import Verif.Model.Producer
/-
What the answer to a produce request says.
-/
set_option autoImplicit false
namespace Kiel

/-- The answers of a response: topic, partition and code, in order. -/
def PResp.answers (r : PResp) : List (String × Int × Int) :=
  r.topics.flatMap fun t => t.2.map fun a => (t.1, a.1, a.2)

end Kiel
