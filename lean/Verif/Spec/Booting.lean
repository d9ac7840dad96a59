import Verif.Model.Booting
import Verif.Spec.Connection
/-
What the properties of `start()` over connections speak of.
-/
set_option autoImplicit false
namespace Kiel.Spec
open Kiel

/-- What is seen of a course of events, and where `start()` is at the end. -/
def bootCourse (cx : Codec) (depth : Nat) : Boot → List BootEv → List BootOut × Boot
  | b, [] => ([], b)
  | b, e :: es =>
    ((b.step cx depth e).1 :: (bootCourse cx depth (b.step cx depth e).2 es).1,
      (bootCourse cx depth (b.step cx depth e).2 es).2)

/-- `start()` with these bootstrap hosts, from when it is called. -/
def booted (cx : Codec) (depth : Nat) (hosts : List (List Char)) (es : List BootEv) : List BootOut × Boot :=
  ((bootNext hosts).1 :: (bootCourse cx depth (bootNext hosts).2 es).1,
    (bootCourse cx depth (bootNext hosts).2 es).2)

/-- The loop over the bootstrap hosts ends. -/
def EndsBoot (o : BootOut) : Prop := (∃ x, o = .response x) ∨ ∃ e, o = .raised e

/-- A host has been connected to, and its answer is awaited. -/
def AwaitsHost (b : Boot) : Prop := ∃ c n, b = .waiting c n ∧ Pending c n

/-- The host closes the connection. -/
def hostLost : BootEv := .wire (.readError .streamClosed)

/-- A request is sent. -/
def isSend : ConnEv → Bool
  | .send _ _ => true
  | _ => false

end Kiel.Spec
