import Verif.Model.Halves
/-
What the property about rebalances that are seen half done (C128) speaks of.
-/
set_option autoImplicit false
namespace Kiel.Spec

variable {β δ : Type}

/-- What happens to a consumer, and what is seen of it, step by step. -/
abbrev Story (β δ : Type) := List (FirstGroupEv β × FirstGroupOut δ)

/-- The story of some events, and the consumer after them. -/
def story (gcfg : GCfg) (cfg : CCfg β δ) : GroupFirst δ → List (FirstGroupEv β) →
    Story β δ × GroupFirst δ
  | s, [] => ([], s)
  | s, ev :: evs =>
    let r := story gcfg cfg (s.step gcfg cfg ev).2 evs
    ((ev, (s.step gcfg cfg ev).1) :: r.1, r.2)

/-- Not a rebalance, nor part of one. -/
def NoRebalance : FirstGroupEv β → Prop
  | .group (.base (.other f)) =>
    ∀ c, (f c).synced = c.synced ∧ (f c).ext.mapping = c.ext.mapping
  | _ => True

/-- The `consume` with number `i` has asked the coordinator for the offsets of exactly these
partitions of the topic. -/
def AskedFor (t : String) (parts : List Int) (i : Nat) (h : Story β δ) : Prop :=
  ∃ ev b, (ev, FirstGroupOut.wanted b t parts) ∈ h ∧ (ev = .call i t ∨ ev = .goOn i)

/-- That has happened, and then been answered. -/
def ToldOf (t : String) (parts : List Int) (h : Story β δ) : Prop :=
  ∃ l1 l2 i r out, h = l1 ++ (.offsets i r, out) :: l2 ∧ AskedFor t parts i l1

/-- Messages of the topic are asked for. -/
def Fetches (t : String) (out : FirstGroupOut δ) : Prop :=
  ∃ reqs, out = .group (.sent reqs) ∧ ∃ q ∈ reqs, q.topic = t

/-- The offsets at which messages of partitions are asked for. -/
def startsOf : FirstGroupOut δ → List (String × Int × Int)
  | .group (.sent reqs) => reqs.flatMap fun q => q.parts.map fun p => (q.topic, p.id, p.offset)
  | _ => []

end Kiel.Spec
