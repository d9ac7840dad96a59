import Verif.Model.Heals
/-
What the properties of `heal()`s that run at the same time speak of.
-/
set_option autoImplicit false
namespace Kiel.Spec

/-- A cluster just created: no connections, nobody healing. -/
def freshHealing : Healing := ⟨⟨[], [], [], []⟩, []⟩

/-- A `heal()` does not begin while another one is under way. -/
def Alone (h : Healing) : HEv → Prop
  | .heal _ _ => h.heals = []
  | _ => True

/-- A course of events, every one of them allowed; `outs` is how the steps come out. -/
inductive HCourse (ok : Healing → HEv → Prop) : Healing → List HOut → Healing → Prop where
  | nil (h : Healing) : HCourse ok h [] h
  | cons {h h1 h2 : Healing} {ev : HEv} {out : HOut} {outs : List HOut} :
      ok h ev → h.step ev = (out, h1) → HCourse ok h1 outs h2 → HCourse ok h (out :: outs) h2

/-- The same as a function, whether the events are allowed or not. -/
def runHealing : Healing → List HEv → List HOut × Healing
  | h, [] => ([], h)
  | h, e :: es =>
    let (o, h) := h.step e
    let (os, h) := runHealing h es
    (o :: os, h)

/-- Connection number `n` has been made, and is open. -/
def IsOpen (h : Healing) (n : Nat) : Prop :=
  ∃ c, h.shared.made[n]? = some c ∧ c.closing = false

/-- Connection number `n` is the one in use for some broker. -/
def InUse (h : Healing) (n : Nat) : Prop := ∃ b, h.shared.conns.get? b = some n

end Kiel.Spec
