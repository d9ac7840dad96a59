import Verif.Spec.CallsPipeline
import Verif.Spec.Band
/-
Vocabulary for what consumers may return, whatever else happens.
-/
set_option autoImplicit false
namespace Kiel.Spec

variable {β δ ε : Type}

/-- The value is that of a message stored for the topic, in some partition, and not false to Python. -/
def Genuine (cfg : CCfg β δ) (logs : String → Int → List (Int × β)) (x : String × δ) : Prop :=
  ∃ p, ∃ m ∈ logs x.1 p, decode cfg m.2 = some x.2 ∧ cfg.truthy x.2 = true

/-- A broker answers about the topic it was asked about first, and what it sends without an error is
stored: any of it, in any order, any number of times, from any offset, of any partition. -/
def FromLogs (logs : String → Int → List (Int × β)) (topic : String) (r : FResp β) : Prop :=
  ∃ ps rest, r.topics = (topic, ps) :: rest ∧ ∀ p ∈ ps, p.code = 0 → ∀ m ∈ p.msgs, m ∈ logs topic p.id

/-- The same of an event: nothing is required of events that are not answers with messages. -/
def SendsFrom (logs : String → Int → List (Int × β)) (b : Busy ε δ) : BEv ε β → Prop
  | .outcome i broker (.ok r) => ∀ w, b.waiting.get? i = some w → ∀ q ∈ w.pending,
      q.broker = broker → FromLogs logs q.topic r
  | _ => True

/-- The same for the members of groups. -/
def SendsStored (logs : String → Int → List (Int × β)) (s : GroupFirst δ) : FirstGroupEv β → Prop
  | .group (.base ev) => SendsFrom logs s.group.base ev
  | _ => True

/-- What may happen to a group, whatever the coordinator, ZooKeeper and the application do: events of
a member's calls; members told other shares at any time; members lost at any time, and replaced. -/
inductive WildStep (gcfg : Nat → GCfg) (cfg : CCfg β δ) (logs : String → Int → List (Int × β))
    (g : Band δ) : Band δ → Prop where
  | event (i : Nat) (ev : FirstGroupEv β) (out : FirstGroupOut δ) (s : GroupFirst δ) :
      SendsStored logs (g.members i) ev → (g.members i).step (gcfg i) cfg ev = (out, s) →
      WildStep gcfg cfg logs g ⟨g.put i s, g.sent ++ requestIn out, g.returned ++ groupGiven out⟩
  | rebalance (i : Nat) (a : Dict String (List Int)) :
      WildStep gcfg cfg logs g ⟨g.put i (reshared a (g.members i)), g.sent, g.returned⟩
  | replaced (i : Nat) (c : Grouped) :
      WildStep gcfg cfg logs g ⟨g.put i (resting (fun _ => c) i), g.sent, g.returned⟩

/-- The histories of a group. -/
inductive WildRun (gcfg : Nat → GCfg) (cfg : CCfg β δ) (logs : String → Int → List (Int × β)) :
    Band δ → Prop where
  | start (members : Nat → Grouped) : WildRun gcfg cfg logs ⟨resting members, [], []⟩
  | step {g g' : Band δ} : WildRun gcfg cfg logs g → WildStep gcfg cfg logs g g' →
      WildRun gcfg cfg logs g'

/-- What happens to a group, as what a consumer reads. -/
def wildReads (gcfg : Nat → GCfg) (cfg : CCfg β δ) : Reads (Band δ) β δ :=
  fun logs g outs g' => WildStep gcfg cfg logs g g' ∧ g'.returned = g.returned ++ outs

/-- Events of a consumer's calls, and what they return. -/
inductive WildCourse (allocation : Consumer ε → Res (Dict String (List Int))) (cfg : CCfg β δ)
    (logs : String → Int → List (Int × β)) (b0 : Busy ε δ) : List (String × δ) → Busy ε δ → Prop where
  | nil : WildCourse allocation cfg logs b0 [] b0
  | snoc {outs : List (String × δ)} {b b' : Busy ε δ} {ev : BEv ε β} {out : BOut δ} :
      WildCourse allocation cfg logs b0 outs b → SendsFrom logs b ev →
      b.step allocation cfg ev = (out, b') →
      WildCourse allocation cfg logs b0 (outs ++ returnedBy out) b'

/-- The same for whole calls of `consume` of a `SingleConsumer`, which determine offsets first. -/
inductive WildFirst (cfg : CCfg β δ) (logs : String → Int → List (Int × β)) (s0 : SingleBusy δ) :
    List (String × δ) → SingleBusy δ → Prop where
  | nil : WildFirst cfg logs s0 [] s0
  | snoc {outs : List (String × δ)} {s s' : SingleBusy δ} {ev : FirstEv β} {out : FirstOut δ} :
      WildFirst cfg logs s0 outs s → (∀ bev, ev = .base bev → SendsFrom logs s.base bev) →
      s.step cfg ev = (out, s') → WildFirst cfg logs s0 (outs ++ firstReturned out) s'

end Kiel.Spec
