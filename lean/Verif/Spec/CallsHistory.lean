import Verif.Spec.Stored
import Verif.Spec.Order
/-
What C75 speaks of in courses of overlapping calls of a producer.
-/
set_option autoImplicit false
namespace Kiel.Spec

variable {α κ β γ : Type}

/-- Neither a flush nor the handling of an answer raises at this event.  (The `send` of a flush may.) -/
def Smooth (cfg : PCfg α κ β) (s : ProducerBusy α κ β γ) (e : ProduceEv α κ β γ) : Prop :=
  ∀ x, (s.step cfg e).1 = .raised x [] → acceptedIn cfg s e = [] ∧
    ∀ i, (∀ env, e ≠ .flush i env ∧ e ≠ .close i env) ∧ ∀ b topics, e ≠ .outcome i b (.ok topics)

/-- `P` holds at every event of the course. -/
def Throughout (cfg : PCfg α κ β) (P : ProducerBusy α κ β γ → ProduceEv α κ β γ → Prop) :
    ProducerBusy α κ β γ → List (ProduceEv α κ β γ) → Prop
  | _, [] => True
  | s, e :: es => P s e ∧ Throughout cfg P (s.step cfg e).2 es

/-- The flush at this event, if any, chooses partitions by key, with `f`, and makes message sets that
`read` opens. -/
def KeyedBy (f : κ → Int) (read : γ → List (Msg κ β)) (e : ProduceEv α κ β γ) : Prop :=
  ∀ env, beginsWith e = some env →
    (∀ n k parts q, env.pick n k parts = .ok q → q = f k) ∧ ∀ ms s, env.comp ms = .ok s → read s = ms

/-- No answer reports a retriable error for the partition. -/
def NotRetried (t : String) (part : Int) (e : ProduceEv α κ β γ) : Prop :=
  ∀ i b topics, e = .outcome i b (.ok topics) →
    ∀ a ∈ topics, a.1 = t → ∀ c ∈ a.2, c.1 = part → ¬ Retriable c.2

end Kiel.Spec
