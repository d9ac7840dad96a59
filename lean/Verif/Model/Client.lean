import Verif.Model.Cluster
/-
kiel/clients/client.py: sending requests to several brokers at once.
-/
namespace Kiel

/-- The handlers of a client class, `handle_<api>_response` (kiel/clients/client.py:97-101).
`σ`: the state of the client; `R`: responses; `ρ`: results.  `none`: the class has no handler
for that response.  A handler returns its result or raises, changes the state, and may set
`self.heal_cluster` (the `Bool`). -/
structure Handlers (σ R ρ : Type) where
  api : R → String
  handle : R → Option (σ → Res ρ × σ × Bool)

/-- The loop of kiel/clients/client.py:81-102 over the outcomes of the requests, in the order
in which they come in: results so far, state, and the `heal_cluster` flag. -/
def sendLoop {σ R ρ : Type} (hs : Handlers σ R ρ) :
    List (Int × Res R) → Dict Int ρ → σ → Bool → Res (Dict Int ρ) × σ × Bool
  | [], results, s, heal => (.ok results, s, heal)
  | (_, .error e) :: rest, results, s, heal =>
    sendLoop hs rest results s (if e = .streamClosed then heal else true)
  | (b, .ok r) :: rest, results, s, heal =>
    match hs.handle r with
    | .none => (.error (.unhandledResponse (hs.api r)), s, heal)
    | some f =>
      match f s with
      | (.error e, s, ask) => (.error e, s, heal || ask)
      | (.ok x, s, ask) => sendLoop hs rest (results.set b x) s (heal || ask)

/-- The dictionary comprehension of kiel/clients/client.py:76-79: the first exception, if any.
`known`: the brokers in `self.cluster`, that is, those with a connection (kiel/cluster.py:33-43,
kiel/cluster.py:45-53); `write b`: the exception, if any, that
`Connection.send` raises for the request to broker `b` (serialization).  Requests before the
failing one have been sent; their responses go unhandled. -/
def sendStart (known : Int → Bool) (write : Int → Option Exc) : List Int → Option Exc
  | [] => .none
  | b :: bs =>
    if ¬ known b then some .keyError
    else
      match write b with
      | some e => some e
      | .none => sendStart known write bs

/-- kiel/clients/client.py:56-108 (`Client.send`).  `requests`: the brokers addressed;
`outcomes`: what their requests yield, in order of completion; `healC`: `cluster.heal()`.
Result, state, `heal_cluster` flag, and whether `heal` was called.
Simplification: no other coroutine changes the client's state or flag meanwhile. -/
def clientSend {σ R ρ : Type} (hs : Handlers σ R ρ) (known : Int → Bool)
    (write : Int → Option Exc) (healC : σ → Res Unit × σ) (requests : List Int)
    (outcomes : List (Int × Res R)) (s : σ) (heal : Bool) :
    Res (Dict Int ρ) × σ × Bool × Bool :=
  match sendStart known write requests with
  | some e => (.error e, s, heal, false)
  | .none =>
    match sendLoop hs outcomes [] s heal with
    | (.error e, s, heal) => (.error e, s, heal, false)
    | (.ok results, s, false) => (.ok results, s, false, false)
    | (.ok results, s, true) =>
      match healC s with
      | (.error e, s) => (.error e, s, true, true)
      | (.ok _, s) => (.ok results, s, false, true)

end Kiel
