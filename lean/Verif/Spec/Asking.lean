import Verif.Model.Asking
import Verif.Spec.Wired
/-
What the properties of `get_metadata()` over connections speak of.
-/
set_option autoImplicit false
namespace Kiel.Spec
open Kiel

variable {σ ρ : Type}

/-- A course of events: what is seen of each, and the state at the end. -/
def askCourse (hs : Handlers σ Reply ρ) (cx : Codec) (depth : Nat) :
    Asking σ ρ → List (AskEv σ) → List AskOut × Asking σ ρ
  | s, [] => ([], s)
  | s, e :: es =>
    ((s.step hs cx depth e).1 :: (askCourse hs cx depth (s.step hs cx depth e).2 es).1,
      (askCourse hs cx depth (s.step hs cx depth e).2 es).2)

/-- A client without connections, of which nobody asks for metadata. -/
def unasked (client : σ) : Asking σ ρ := ⟨unwired client, []⟩

/-- `get_metadata()` number `j` ends. -/
def EndsAsk (j : Nat) (out : AskOut) : Prop := (∃ x, out = .metadata j x) ∨ ∃ e, out = .raised j e

/-- `get_metadata()` number `j` waits for an answer over connection `k`. -/
def AsksAt (s : Asking σ ρ) (j k : Nat) : Prop :=
  ∃ n rest c, s.asks.get? j = some ⟨k, n, rest⟩ ∧ s.net.pool[k]? = some c ∧ Pending c n

/-- The broker closes connection `k`. -/
def lost (k : Nat) : AskEv σ := .wired (.wire k (.readError .streamClosed))

/-- The connections `ks` have been closed. -/
def AllLost (s : Asking σ ρ) (ks : List Nat) : Prop :=
  ∀ k ∈ ks, ∃ c, s.net.pool[k]? = some c ∧ c.closing = true

/-- A request that can be written. -/
def WritesAll (r : Req) : Prop := ∃ p b, r.serialize = .ok p ∧ frame p = .ok b

/-- The correlation ids of the requests that an event may send. -/
def askIds : AskEv σ → List Int
  | .ask _ r _ => [r.correlationId]
  | .resumes _ r _ => [r.correlationId]
  | .wired e => idsOf e

/-- With this event, `get_metadata()` number `j` sends request `r` over connection `k`. -/
def AsksOver (hs : Handlers σ Reply ρ) (cx : Codec) (depth : Nat) (s s1 : Asking σ ρ) (j : Nat) (r : Req)
    (k : Nat) : Prop :=
  ∃ w e a, (e = .ask j r w ∨ e = .resumes j r w) ∧ s.step hs cx depth e = (.nothing, s1) ∧
    s1.asks.get? j = some a ∧ a.conn = k ∧ s.asks.get? j ≠ some a

/-- How often `get_metadata()` number `j` goes on. -/
def resumptions (j : Nat) : List (AskEv σ) → Nat
  | [] => 0
  | .resumes i _ _ :: es => (if i = j then 1 else 0) + resumptions j es
  | _ :: es => resumptions j es

/-- The request that `get_metadata()` number `j` sends with this event, if it sends one. -/
def asksOf (j : Nat) : AskEv σ → List Req
  | .ask i r _ => if i = j then [r] else []
  | .resumes i r _ => if i = j then [r] else []
  | .wired _ => []

/-- Connection `k` has been made, and is open when `es` have happened. -/
def StaysOpen (hs : Handlers σ Reply ρ) (cx : Codec) (depth : Nat) (s : Asking σ ρ) (es : List (AskEv σ))
    (k : Nat) : Prop :=
  (∃ c, s.net.pool[k]? = some c) ∧
    ∃ c, (askCourse hs cx depth s es).2.net.pool[k]? = some c ∧ c.closing = false

/-- Call `i` of the client has all its answers and waits for the `heal()` it has begun. -/
def WaitsForHeal (s : Asking σ ρ) (i : Nat) : Prop := ∃ results, s.net.sys.sends.get? i = some (.healing results)

/-- In this course of events, the `heal()` of call `i` ends only after the `get_metadata()` that it waits for,
which has the same number. -/
def HealsByAsking (hs : Handlers σ Reply ρ) (cx : Codec) (depth : Nat) (s : Asking σ ρ) (i : Nat)
    (es : List (AskEv σ)) : Prop :=
  ∀ pre r post, es = pre ++ .wired (.healed i r) :: post → ∃ o ∈ (askCourse hs cx depth s pre).1, EndsAsk i o

end Kiel.Spec
