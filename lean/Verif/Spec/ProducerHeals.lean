import Verif.Spec.Produces
import Verif.Spec.Codes
/-
What C78 speaks of in courses of overlapping calls of a producer.
-/
set_option autoImplicit false
namespace Kiel.Spec

variable {α κ β γ : Type}

/-- What calls for a heal: a request fails, other than by its connection being closed; one is answered
with an error that is to be retried; or a flush leaves messages in the queue. -/
def CallsForHeal (cfg : PCfg α κ β) (s : ProducerBusy α κ β γ) (e : ProduceEv α κ β γ) : Prop :=
  (∃ i b x q, e = .outcome i b (.error x) ∧ x ≠ .streamClosed ∧ Waits s i q ∧ q.broker = b) ∨
  (∃ i b topics q, e = .outcome i b (.ok topics) ∧ Waits s i q ∧ q.broker = b ∧
    ∃ a ∈ topics, ∃ c ∈ a.2, Retriable c.2) ∨
  ∃ reqs, ((s.step cfg e).1 = .sent reqs ∨ reqs ≠ [] ∧ ∃ x, (s.step cfg e).1 = .raised x reqs) ∧
    (s.step cfg e).2.producer.unsent ≠ []

/-- The `heal()` of a `send` has returned. -/
def HealEnds (cfg : PCfg α κ β) (s : ProducerBusy α κ β γ) (e : ProduceEv α κ β γ) : Prop :=
  ∃ i, e = .healed i (.ok ()) ∧ (s.step cfg e).1 = .returned

/-- No `heal()` of a `send` returns in the course. -/
def NoHealEnds (cfg : PCfg α κ β) : ProducerBusy α κ β γ → List (ProduceEv α κ β γ) → Prop
  | _, [] => True
  | s, e :: es => ¬ HealEnds cfg s e ∧ NoHealEnds cfg (s.step cfg e).2 es

end Kiel.Spec
