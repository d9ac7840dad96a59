import Verif.Spec.Pipeline
import Verif.Spec.Settled
/-
A producer, brokers that store what they are sent, and a group of consumers.
-/
set_option autoImplicit false
namespace Kiel.Spec

variable {α κ β γ δ : Type}

/-- Histories of a producer, the brokers' logs, and a group of consumers that reads them: at any time,
something may happen on the producer's side, or to the group, which is served the logs as they are
then.  `p0`, `logs0`, `base`: the producer, the logs and the group's offsets in the beginning.
`acc`: what the producer has accepted; `foreign`: what others have stored. -/
inductive GroupPipeline (pcfg : PCfg α κ β) (read : γ → List (Msg κ β)) (cfg : CCfg β δ)
    (p0 : Producer κ β) (logs0 : String → Int → List (Int × β)) (base : String → Int → Int) :
    Producer κ β → (String → Int → List (Int × β)) → Crew δ → List (String × Msg κ β) →
      List (String × β) → Prop where
  | start (members : Nat → Grouped) : SharesApart members → (∀ i, NewlyTold (members i)) →
      GroupPipeline pcfg read cfg p0 logs0 base p0 logs0 ⟨members, base, []⟩ [] []
  | made {p p' : Producer κ β} {logs logs' : String → Int → List (Int × β)} {g : Crew δ}
      {acc acc' : List (String × Msg κ β)} {foreign foreign' : List (String × β)} :
      GroupPipeline pcfg read cfg p0 logs0 base p logs g acc foreign →
      Made pcfg read p logs acc' foreign' p' logs' →
      GroupPipeline pcfg read cfg p0 logs0 base p' logs' g (acc ++ acc') (foreign ++ foreign')
  | group {p : Producer κ β} {logs : String → Int → List (Int × β)} {g g' : Crew δ}
      {acc : List (String × Msg κ β)} {foreign : List (String × β)} :
      GroupPipeline pcfg read cfg p0 logs0 base p logs g acc foreign →
      CrewStep cfg logs g g' →
      GroupPipeline pcfg read cfg p0 logs0 base p logs g' acc foreign

end Kiel.Spec
