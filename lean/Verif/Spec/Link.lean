import Verif.Spec.Connection
import Verif.Model.Link
/-
Conversations over a connection, in terms of the bytes that arrive.
-/
set_option autoImplicit false
namespace Kiel.Spec
open Kiel

/-- The requests passed to `send`. -/
def requests (evs : List NetEv) : List Req :=
  evs.flatMap fun
    | .send r => [r]
    | .chunk _ => []

/-- The bytes that have arrived. -/
def received (evs : List NetEv) : Bytes :=
  evs.flatMap fun
    | .send _ => []
    | .chunk b => b

/-- What the broker writes for its answers, each a correlation id and a payload. -/
def answerBytes (answers : List (Int × Bytes)) : Bytes := (answers.map responseFrame).flatten

/-- The `n`-th answer of the broker has arrived completely. -/
def Arrived (answers : List (Int × Bytes)) (evs : List NetEv) (n : Nat) : Prop :=
  answerBytes (answers.take (n + 1)) <+: received evs

/-- A broker that answers requests of these users: with frames for different requests, in any
order, each after the request was sent and as documented for its api, where `val k` is what the
answer to request `k` says. -/
structure Answers (cx : Codec) (depth : Nat) (evs : List NetEv) (answers : List (Int × Bytes))
    (val : Int → Val) : Prop where
  stream : received evs <+: answerBytes answers
  fit : ∀ a ∈ answers, Fits 4 a.1 ∧ 4 + a.2.length < 2 ^ 31
  once : (answers.map (·.1)).Nodup
  later : ∀ before after, evs = before ++ after → ∀ n a, answers[n]? = some a →
    Arrived answers before n → ∃ r ∈ requests before, r.correlationId = a.1 ∧
      AnswerReads cx depth r.cls.api a.2 (.ok (val a.1))

end Kiel.Spec
