import Verif.Model.FirstConsumes
import Verif.Spec.Overlap
import Verif.Spec.Offsets
/-
What the properties of whole `consume`s that run at the same time speak of.
-/
set_option autoImplicit false
namespace Kiel.Spec

variable {β δ : Type}

/-- The answers about partitions up to the first that ends the handling of a response: one with a
code that is neither success nor retriable, or a success without an offset. -/
def taken (ps : List OPart) : List OPart :=
  ps.takeWhile fun q => decide (Retriable q.code ∨ q.code = 0 ∧ q.offsets ≠ [])

/-- What an event tells a `consume` that has asked for offsets: a topic and answers about its
partitions. -/
def toldBy (s : SingleBusy δ) : FirstEv β → List (String × List OPart)
  | .offsets i broker (.ok r) =>
    match s.starting.get? i with
    | some (.determining _ pending) =>
      if broker ∈ pending.map (·.broker) then (r.topics.take 1).map fun x => (x.1, taken x.2) else []
    | _ => []
  | _ => []

/-- Where partitions start, given where they would without `told`, in order: at the last offset
that was reported. -/
def startOf : List (String × List OPart) → (String → Int → Int) → String → Int → Int
  | [], o => o
  | (t, ps) :: told, o => startOf told fun t' p =>
      if t' = t then afterAnswer ps p (o t' p) else o t' p

/-- What the environment does: numbers of `consume`s are not used twice at a time; answers to
fetches are honest; answers to offset requests are about the topic asked for; nothing else changes
offsets or makes them (un)known. -/
def FairFirst (batch : List (Int × β) → Int → List (Int × β) → Prop)
    (logs : String → Int → List (Int × β)) (s : SingleBusy δ) : FirstEv β → Prop
  | .call i _ _ _ => s.base.waiting.get? i = .none ∧ s.starting.get? i = .none
  | .offsets i broker (.ok r) => ∀ t pending, s.starting.get? i = some (.determining t pending) →
      ∀ q ∈ pending, q.broker = broker → ∃ ps, r.topics = [(q.topic, ps)]
  | .base (.other f) => ∀ c, (f c).offsets = c.offsets ∧ (f c).synced = c.synced
  | .base ev => Fair batch logs s.base ev
  | _ => True

/-- `consume` is not called while another one for the same topic is under way. -/
def ApartFirst (s : SingleBusy δ) : FirstEv β → Prop
  | .call _ topic _ _ => (∀ x ∈ s.base.waiting, x.2.topic ≠ topic) ∧
      ∀ x ∈ s.starting, x.2.topic ≠ topic
  | _ => True

/-- What a step returns to callers. -/
def firstReturned : FirstOut δ → List (String × δ)
  | .returned topic (some out) => out.map fun v => (topic, v)
  | _ => []

/-- A course of events: every event is allowed, and no `consume` raises that waits for messages;
`outs` is what is returned, in order, and `told` what brokers have told about offsets. -/
inductive FirstCourse (cfg : CCfg β δ) (ok : SingleBusy δ → FirstEv β → Prop) :
    SingleBusy δ → List (String × δ) → List (String × List OPart) → SingleBusy δ → Prop where
  | nil (s : SingleBusy δ) : FirstCourse cfg ok s [] [] s
  | cons {s s1 s2 : SingleBusy δ} {ev : FirstEv β} {out : FirstOut δ} {outs : List (String × δ)}
      {told : List (String × List OPart)} :
      ok s ev → s.step cfg ev = (out, s1) → (∀ e bev, ev = .base bev → out ≠ .raised e) →
      FirstCourse cfg ok s1 outs told s2 →
      FirstCourse cfg ok s (firstReturned out ++ outs) (toldBy s ev ++ told) s2

end Kiel.Spec
