import Verif.Spec.Stored
/-
What C120 speaks of: requests that will not be answered any more.
-/
set_option autoImplicit false
namespace Kiel.Spec

variable {α κ β γ : Type}

/-- The request with the correlation id `k` is awaited. -/
def Awaited (s : ProducerBusy α κ β γ) (k : Int) : Prop := ∃ i q, Waits s i q ∧ q.corr = k

/-- At this event the request `k` fails; or the call raises that awaits it, or that would have sent it. -/
def LostAt (cfg : PCfg α κ β) (s : ProducerBusy α κ β γ) (e : ProduceEv α κ β γ) (k : Int) : Prop :=
  (∃ i b x q, e = .outcome i b (.error x) ∧ Waits s i q ∧ q.broker = b ∧ q.corr = k) ∨
  ∃ x given, (s.step cfg e).1 = .raised x given ∧
    ((s.producer.lastId < k ∧ k ≤ (s.step cfg e).2.producer.lastId) ∨
      ∃ i q, whoseProduce e = some i ∧ Waits s i q ∧ q.corr = k)

/-- At some event of the course. -/
def LostIn (cfg : PCfg α κ β) (s : ProducerBusy α κ β γ) (es : List (ProduceEv α κ β γ)) (k : Int) :
    Prop :=
  ∃ pre e post, es = pre ++ e :: post ∧ LostAt cfg (afterCalls cfg s pre) e k

end Kiel.Spec
