import Verif.Spec.Producer
/-
Histories of a producer in which anything may raise.
-/
set_option autoImplicit false
namespace Kiel.Spec

variable {α κ β γ : Type}

/-- The queue that a flush found, if it raised. -/
def atRisk (p : Producer κ β) (e : Option Exc) : PEv α κ β γ → List (String × Msg κ β)
  | .flush _ _ => if e = .none then [] else inQueue p.unsent
  | _ => []

/-- Any history from `p` in which answers are to requests made before: `acc` was accepted in it and
`fin` settled by answers that did not raise; `risk` was in the queue when a flush raised. -/
inductive Ledger (cfg : PCfg α κ β) : Producer κ β → List (PEv α κ β γ) →
    List (String × Msg κ β) → List (String × Msg κ β) → List (String × Msg κ β) →
    Producer κ β → Prop
  | nil (p) : Ledger cfg p [] [] [] [] p
  | cons {p ev p' e evs acc fin risk p''} (hstep : p.step cfg ev = (e, p'))
      (hans : ∀ r, ev = .answer r → r.corr ≤ p.lastId)
      (hrest : Ledger cfg p' evs acc fin risk p'') :
      Ledger cfg p (ev :: evs) (accepted cfg p ev ++ acc)
        ((if e = .none then settledBy p ev else []) ++ fin) (atRisk p e ev ++ risk) p''

end Kiel.Spec
