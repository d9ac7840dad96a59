import Verif.Model.Produces
import Verif.Spec.Producer
import Verif.Spec.Endings
/-
What the properties of overlapping calls of a producer speak of.
-/
set_option autoImplicit false
namespace Kiel.Spec

variable {α κ β γ : Type}

/-- The number of the call that an event is about. -/
def whoseProduce : ProduceEv α κ β γ → Option Nat
  | .produce i _ _ _ => some i
  | .flush i _ => some i
  | .close i _ => some i
  | .found i _ _ => some i
  | .outcome i _ _ => some i
  | .goOn i => some i
  | .healed i _ => some i
  | .cluster _ => .none
  | .others _ => .none

/-- Calls of `produce`, `flush` and `close`. -/
def watchProducer (cfg : PCfg α κ β) :
    Watched (ProducerBusy α κ β γ) (ProduceEv α κ β γ) (ProduceOut γ) where
  step := ProducerBusy.step cfg
  calls
    | .produce i _ _ _ => some i
    | .flush i _ => some i
    | .close i _ => some i
    | _ => .none
  ends e
    | .returned => whoseProduce e
    | .raised _ _ => whoseProduce e
    | _ => .none
  busy s i := s.calls.has i

/-- A new producer, with no call under way. -/
def idleProducer (cl : Cluster) (n : Int) : ProducerBusy α κ β γ := ⟨Producer.new cl n, []⟩

/-- The producer and its calls after a course of events. -/
def afterCalls (cfg : PCfg α κ β) : ProducerBusy α κ β γ → List (ProduceEv α κ β γ) →
    ProducerBusy α κ β γ
  | s, [] => s
  | s, e :: es => afterCalls cfg (s.step cfg e).2 es

/-- What is seen in a course of events. -/
def seenIn (cfg : PCfg α κ β) : ProducerBusy α κ β γ → List (ProduceEv α κ β γ) →
    List (ProduceOut γ)
  | _, [] => []
  | s, e :: es => (s.step cfg e).1 :: seenIn cfg (s.step cfg e).2 es

/-- Request `q` is outstanding in call number `i`: sent, and neither answered nor failed.
-/
def Waits (s : ProducerBusy α κ β γ) (i : Nat) (q : PReq γ) : Prop :=
  ∃ left stop, s.calls.get? i = some (.sending left stop) ∧ q ∈ left

/-- The message that is accepted at an event, if any. -/
def acceptedIn (cfg : PCfg α κ β) (s : ProducerBusy α κ β γ) :
    ProduceEv α κ β γ → List (String × Msg κ β)
  | .produce i t a _ =>
    if s.calls.has i ∨ s.producer.closing ∨ ¬ s.producer.cluster.topics.has t then []
    else accepted.msg cfg t a
  | .found i (.ok _) _ =>
    match s.calls.get? i with
    | some (.finding t a) =>
      if s.producer.cluster.topics.has t then accepted.msg cfg t a else []
    | _ => []
  | _ => []

/-- The messages settled at an event: those of an answered request, but for those partitions that the
answer reports a retriable error for, if its handling does not raise. -/
def settledIn (cfg : PCfg α κ β) (s : ProducerBusy α κ β γ) (e : ProduceEv α κ β γ) :
    List (String × Msg κ β) :=
  match e with
  | .outcome i b (.ok topics) =>
    match s.calls.get? i with
    | some (.sending left _) =>
      match left.find? fun q => decide (q.broker = b), (s.step cfg e).1 with
      | some q, .nothing => settled ((s.producer.sent.get? q.corr).getD []) ⟨q.corr, topics⟩
      | _, _ => []
    | _ => []
  | _ => []

/-- The queue that a flush found, if it, or the `send` it calls, raised. -/
def riskIn (cfg : PCfg α κ β) (s : ProducerBusy α κ β γ) (e : ProduceEv α κ β γ) :
    List (String × Msg κ β) :=
  match e, (s.step cfg e).1 with
  | .flush _ _, .raised _ _ => inQueue s.producer.unsent
  | .close _ _, .raised _ _ => inQueue s.producer.unsent
  | .produce _ _ _ _, .raised _ _ =>
    if acceptedIn cfg s e = [] then [] else acceptedIn cfg s e ++ inQueue s.producer.unsent
  | .found _ _ _, .raised _ _ =>
    if acceptedIn cfg s e = [] then [] else acceptedIn cfg s e ++ inQueue s.producer.unsent
  | _, _ => []

/-- All of `f` in a course of events. -/
def inCourse {X : Type} (cfg : PCfg α κ β)
    (f : ProducerBusy α κ β γ → ProduceEv α κ β γ → List X) :
    ProducerBusy α κ β γ → List (ProduceEv α κ β γ) → List X
  | _, [] => []
  | s, e :: es => f s e ++ inCourse cfg f (s.step cfg e).2 es

/-- What has become of request `q` of call `i` in the course `es`, which began when it was sent: it was
answered, the producer having kept its messages until then, what the answer reports a retriable error
for was put at the end of the queue, and nothing is kept any more; or it failed, and all its messages are
still kept. -/
inductive SeenThrough (cfg : PCfg α κ β) (s : ProducerBusy α κ β γ) (i : Nat)
    (es : List (ProduceEv α κ β γ)) (q : PReq γ) : Prop
  | answered (pre post : List (ProduceEv α κ β γ)) (topics : List (String × List (Int × Int)))
      (split : es = pre ++ .outcome i q.broker (.ok topics) :: post)
      (kept : (afterCalls cfg s pre).producer.sent.get? q.corr = s.producer.sent.get? q.corr)
      (queue : ∀ t, queueOf
        (afterCalls cfg s (pre ++ [.outcome i q.broker (.ok topics)])).producer.unsent t =
          queueOf (afterCalls cfg s pre).producer.unsent t ++
            retried s.producer.sent ⟨q.corr, topics⟩ t)
      (gone : (afterCalls cfg s es).producer.sent.get? q.corr = .none)
  | failed (e : Exc) (mem : .outcome i q.broker (.error e) ∈ es)
      (kept : (afterCalls cfg s es).producer.sent.get? q.corr = s.producer.sent.get? q.corr)

/-- Neither `flush` nor `close` is called. -/
def OnlyProduces (es : List (ProduceEv α κ β γ)) : Prop :=
  ∀ e ∈ es, ∀ i env, e ≠ .flush i env ∧ e ≠ .close i env

/-- What can become of a call: the `heal()` of a `produce` ends as `h` says, its requests as `r` says, and
the `heal()` of its `send` as `h` says. -/
def OwnProduce (r : Int → Res (List (String × List (Int × Int)))) (h : Res Unit)
    (env : FlushStart κ β γ) (i : Nat) (e : ProduceEv α κ β γ) : Prop :=
  e = .found i h env ∨ (∃ b, e = .outcome i b (r b)) ∨ e = .goOn i ∨ e = .healed i h

end Kiel.Spec
