import Verif.Spec.Producer
/-
The order in which a producer hands the messages of a partition over.
-/
set_option autoImplicit false
namespace Kiel.Spec

variable {α κ β γ : Type}

/-- The requests that an event makes the producer send. -/
def requestsBy (p : Producer κ β) : PEv α κ β γ → List (PReq γ)
  | .flush pick comp =>
    match (p.prepare pick comp).1 with
    | .ok (some reqs) => reqs
    | _ => []
  | _ => []

/-- The requests sent in the course of events, in order. -/
def requestsOf (cfg : PCfg α κ β) : Producer κ β → List (PEv α κ β γ) → List (PReq γ)
  | _, [] => []
  | p, ev :: evs => requestsBy p ev ++ requestsOf cfg (p.step cfg ev).2 evs

/-- The messages that requests hold for a partition, in order; `read` opens a message set. -/
def inPartition (read : γ → List (Msg κ β)) (reqs : List (PReq γ)) (t : String) (part : Int) :
    List (Msg κ β) :=
  reqs.flatMap fun r => r.topics.flatMap fun e => e.2.flatMap fun q =>
    if e.1 = t ∧ q.1 = part then read q.2 else []

/-- The messages of a topic that belong on a partition, if `f` chooses partitions by key. -/
def ownOf (f : κ → Int) (t : String) (part : Int) (l : List (String × Msg κ β)) :
    List (Msg κ β) :=
  (l.filter fun m => decide (m.1 = t ∧ f m.2.key = part)).map (·.2)

/-- Every flush of the events chooses partitions by key, with `f`, and makes message sets that
`read` opens. -/
def ByKey (f : κ → Int) (read : γ → List (Msg κ β)) (evs : List (PEv α κ β γ)) : Prop :=
  ∀ pick comp, PEv.flush pick comp ∈ evs →
    (∀ n k parts q, pick n k parts = .ok q → q = f k) ∧ ∀ ms s, comp ms = .ok s → read s = ms

end Kiel.Spec
