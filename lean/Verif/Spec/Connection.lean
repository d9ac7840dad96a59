import Verif.Model.Connection
import Verif.Spec.Wire
import Verif.Spec.Schemas
/-
What users of a connection see.
-/
namespace Kiel.Spec
open Kiel

/-- The requests passed to `send`. -/
def sends (evs : List ConnEv) : List Req :=
  evs.flatMap fun
    | .send r _ => [r]
    | _ => []

/-- Future `i` exists and is not settled. -/
def Pending (c : Conn) (i : Nat) : Prop := c.futs[i]? = some []

/-- No request is sent while one with the same correlation id is outstanding.  Requests have
different correlation ids (property C13), so this is so if no request is sent again before its
answer has arrived. -/
def Unambiguous (cx : Codec) (depth : Nat) (evs : List ConnEv) : Prop :=
  ∀ before r w after, evs = before ++ .send r w :: after → ∀ (i : Nat) (r' : Req),
    Pending (Conn.init.run cx depth before) i →
    (Conn.init.run cx depth before).sent[i]? = some r' → r'.correlationId ≠ r.correlationId

/-- Future `i` is settled, in the way `o` and no other. -/
def SettledAs (c : Conn) (i : Nat) (o : Outcome) : Prop := c.futs[i]? = some [o]

/-- A frame as the broker sends it: size, correlation id, response. -/
def responseFrame (f : Int × Bytes) : Bytes :=
  be 4 (4 + f.2.length) ++ (be 4 f.1 ++ f.2)

/-- The apis whose answers a connection understands. -/
def answeredApis : List String :=
  ["metadata", "produce", "fetch", "offset", "offset_commit", "offset_fetch",
    "group_coordinator"]

/-- `p`, read with the documented layout of the answer to a request of this api, gives `r`: a
value, or the error at which reading stops.  What follows the last field is ignored. -/
def AnswerReads (cx : Codec) (depth : Nat) (api : String) (p : Bytes) (r : Res Val) : Prop :=
  api ∈ answeredApis ∧ ∃ d ∈ documented, d.api = api ∧ d.isRequest = false ∧
    (parse cx depth (struct d.fields) p 0).map Prod.fst = r

end Kiel.Spec
