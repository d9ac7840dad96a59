import Verif.Model.Party
/-
Who is a member, by the last event that concerns them.
-/
set_option autoImplicit false
namespace Kiel.Spec

/-- Has the session expired? -/
def ended (evs : List PartyEvent) (sess : Int) : Prop := .expire sess ∈ evs

instance (evs : List PartyEvent) (sess : Int) : Decidable (ended evs sess) :=
  inferInstanceAs (Decidable (_ ∈ _))

/-- `m` is a member through session `sess` after `evs`: it joined with it, and since then it has
not joined with another live session, nobody left in its name with a live session, and the session
has not expired. -/
def Member (evs : List PartyEvent) (m : String) (sess : Int) : Prop :=
  ∃ before after, evs = before ++ .join m sess :: after ∧ ¬ ended evs sess ∧
    ∀ mid e rest, after = mid ++ e :: rest → ∀ s,
      (e = .join m s ∨ e = .leave m s) → (e = .join m s ∧ s = sess) ∨ ended (before ++ .join m sess :: mid) s

end Kiel.Spec
