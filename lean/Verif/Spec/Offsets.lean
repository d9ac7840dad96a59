import Verif.Model.Single
import Verif.Spec.Codes
import Verif.Spec.Consumer
/-
What the properties of offset answers to a single consumer speak of.
-/
set_option autoImplicit false
namespace Kiel.Spec

/-- The offset an answer reports for a partition: the first it lists, if there is no error. -/
def reported (q : OPart) : Option Int := if q.code = 0 then q.offsets.head? else .none

/-- The offset of partition `p` after an answer: the last one reported for it that is not
negative, else what it was. -/
def afterAnswer (ps : List OPart) (p o : Int) : Int :=
  ((ps.filter fun q => decide (q.id = p)).filterMap fun q =>
    (reported q).filter fun o => decide (0 ≤ o)).getLast?.getD o

/-- A leader's answer to an offset request, without errors: the topic, just the partitions asked
for, and for each the offset `o` first. -/
def AnswersAll (o : Int → Int) (q : OReq) (r : OResp) : Prop :=
  ∃ ps, r.topics = [(q.topic, ps)] ∧ (∀ p, p ∈ ps.map (·.id) ↔ p ∈ q.parts) ∧
    ∀ x ∈ ps, reported x = some (o x.id)

end Kiel.Spec
