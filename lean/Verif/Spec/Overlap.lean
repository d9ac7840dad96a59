import Verif.Model.Overlap
import Verif.Spec.Consumer
/-
What the properties of `consume`s that run at the same time speak of.
-/
set_option autoImplicit false
namespace Kiel.Spec

variable {ε β δ : Type}

/-- The broker answers the request it was sent: about its topic, each partition at most once; a
successful answer holds messages as `batch` allows for the log and the offset asked for; no
`offset_out_of_range`. -/
def HonestAnswer (batch : List (Int × β) → Int → List (Int × β) → Prop)
    (logs : String → Int → List (Int × β)) (q : FReq) (r : FResp β) : Prop :=
  ∃ ps, r.topics = [(q.topic, ps)] ∧ (ps.map (·.id)).Nodup ∧
    ∀ p ∈ ps, p.code ≠ 1 ∧ (p.code = 0 → ∃ f ∈ q.parts, f.id = p.id ∧
      batch (logs q.topic p.id) f.offset p.msgs)

/-- What the environment does: numbers for `consume`s are not used twice at a time, answers are
honest, and nothing else changes offsets. -/
def Fair (batch : List (Int × β) → Int → List (Int × β) → Prop)
    (logs : String → Int → List (Int × β)) (b : Busy ε δ) : BEv ε β → Prop
  | .consume i _ => b.waiting.get? i = .none
  | .outcome i broker (.ok r) => ∀ w, b.waiting.get? i = some w → ∀ q ∈ w.pending,
      q.broker = broker → HonestAnswer batch logs q r
  | .other f => ∀ c, (f c).offsets = c.offsets
  | _ => True

/-- A `consume` does not begin while another one for the same topic is waiting. -/
def Apart (b : Busy ε δ) : BEv ε β → Prop
  | .consume _ topic => ∀ x ∈ b.waiting, x.2.topic ≠ topic
  | _ => True

/-- What a step returns to callers. -/
def returnedBy : BOut δ → List (String × δ)
  | .returned topic (some out) => out.map fun v => (topic, v)
  | _ => []

/-- A course of events in which nothing raises: every event is allowed; `outs` is what is
returned, in order. -/
inductive Course (allocation : Consumer ε → Res (Dict String (List Int))) (cfg : CCfg β δ)
    (ok : Busy ε δ → BEv ε β → Prop) : Busy ε δ → List (String × δ) → Busy ε δ → Prop where
  | nil (b : Busy ε δ) : Course allocation cfg ok b [] b
  | cons {b b1 b2 : Busy ε δ} {ev : BEv ε β} {out : BOut δ} {outs : List (String × δ)} :
      ok b ev → b.step allocation cfg ev = (out, b1) → (∀ e, out ≠ .raised e) →
      Course allocation cfg ok b1 outs b2 → Course allocation cfg ok b (returnedBy out ++ outs) b2

/-- What the `consume`s under way have of a topic, and will return. -/
def inHand (cfg : CCfg β δ) (b : Busy ε δ) (t : String) : List δ :=
  b.waiting.flatMap fun w =>
    if w.2.topic = t then w.2.results.vals.flatten.filter cfg.truthy else []

/-- All that the `consume`s under way have, and will return. -/
def underWay (cfg : CCfg β δ) (b : Busy ε δ) : List (String × δ) :=
  b.waiting.flatMap fun w =>
    (w.2.results.vals.flatten.filter cfg.truthy).map fun v => (w.2.topic, v)

end Kiel.Spec
