import Verif.Model.Wired
import Verif.Spec.Connection
import Verif.Spec.Sends
/-
What the properties of `send`s over connections speak of.
-/
set_option autoImplicit false
namespace Kiel.Spec
open Kiel

variable {σ ρ : Type}

/-- A course of events: what is seen of each, and the state at the end. -/
def wiredCourse (hs : Handlers σ Reply ρ) (cx : Codec) (depth : Nat) :
    Wired σ ρ → List (WEv σ) → List (SOut ρ) × Wired σ ρ
  | s, [] => ([], s)
  | s, e :: es =>
    ((s.step hs cx depth e).1 :: (wiredCourse hs cx depth (s.step hs cx depth e).2 es).1,
      (wiredCourse hs cx depth (s.step hs cx depth e).2 es).2)

/-- A client without connections. -/
def unwired (client : σ) : Wired σ ρ := ⟨⟨client, false, []⟩, [], [], []⟩

/-- `send` number `i` ends. -/
def EndsSend (i : Nat) (out : SOut ρ) : Prop := (∃ x, out = .returned i x) ∨ ∃ e, out = .raised i e

/-- The future of the request of `send` number `i` to broker `b` is number `n` of connection `k`. -/
def FutureAt (s : Wired σ ρ) (i : Nat) (b : Int) (k n : Nat) : Prop :=
  ∃ l, s.waits.get? i = some l ∧ l.get? b = some (k, n)

/-- The request of `send` number `i` to broker `b` is not settled, at connection `k`. -/
def AwaitsAt (s : Wired σ ρ) (i : Nat) (b : Int) (k : Nat) : Prop :=
  ∃ n c, FutureAt s i b k n ∧ s.pool[k]? = some c ∧ Pending c n

/-- The streams of connections report that they were closed. -/
def closed (ks : List Nat) : List (WEv σ) := ks.map fun k => .wire k (.readError .streamClosed)

/-- All connections are closed by `cluster.stop()`, and their streams report so. -/
def shutDown (s : Wired σ ρ) : List (WEv σ) :=
  .stops :: closed s.conns.vals

/-- Events that concern `send` number `i` only. -/
def OwnWired (h : Res Unit) (i : Nat) (e : WEv σ) : Prop :=
  (∃ b, e = .takes i b) ∨ e = .finish i ∨ e = .healed i h

/-- `x` is what the handler made of a frame that came, in the course of `es`, from the connection to broker
`b`, with the correlation id of the request to this broker, and that reads as an answer to it. -/
def FromAnswer (hs : Handlers σ Reply ρ) (cx : Codec) (depth : Nat) (conns : Dict Int Nat)
    (requests : List (Int × Req)) (es : List (WEv σ)) (b : Int) (x : ρ) : Prop :=
  ∃ r k p v f c, (b, r) ∈ requests ∧ conns.get? b = some k ∧
    WEv.wire k (.deliver r.correlationId p) ∈ es ∧ AnswerReads cx depth r.cls.api p (.ok v) ∧
    hs.handle ⟨r.cls.api, r.correlationId, v⟩ = some f ∧ (f c).1 = .ok x

/-- The correlation ids of the requests that an event sends. -/
def idsOf : WEv σ → List Int
  | .send _ requests _ => requests.map (·.2.correlationId)
  | .wire _ (.send r _) => [r.correlationId]
  | _ => []

/-- These requests have correlation ids of their own, which no request that is sent later has (property
C13). -/
def OwnIds (requests : List (Int × Req)) (es : List (WEv σ)) : Prop :=
  (requests.map (·.2.correlationId)).Nodup ∧
    ∀ e ∈ es, ∀ j ∈ idsOf e, j ∉ requests.map (·.2.correlationId)

/-- In the course of `es`, while connection `k` is open, a frame comes from it that reads as an answer to
`r`. -/
def AnsweredOver (hs : Handlers σ Reply ρ) (cx : Codec) (depth : Nat) (s : Wired σ ρ) (es : List (WEv σ))
    (k : Nat) (r : Req) : Prop :=
  ∃ before after p v c, es = before ++ .wire k (.deliver r.correlationId p) :: after ∧
    AnswerReads cx depth r.cls.api p (.ok v) ∧
    (wiredCourse hs cx depth s before).2.pool[k]? = some c ∧ c.closing = false

/-- Handlers that take every answer, and neither raise nor ask for a `heal()`. -/
def Quiet (hs : Handlers σ Reply ρ) : Prop :=
  ∀ r, ∃ f, hs.handle r = some f ∧ ∀ c, ∃ x c', f c = (.ok x, c', false)

end Kiel.Spec
