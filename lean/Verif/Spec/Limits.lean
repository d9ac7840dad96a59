import Verif.Spec.Messages
import Verif.Spec.Progress
import Verif.Model.Decode
import Verif.Model.Schemas
/-
Brokers that limit the size of what they send.  A fetch request names a number of bytes for each
partition.  A broker cuts the stored bytes off there, wherever in a message that is.
-/
set_option autoImplicit false
namespace Kiel.Spec
open Kiel

/-- What is stored of a partition from an offset on. -/
def entriesFrom (o : Int) (es : List (Val × Val)) : List (Val × Val) :=
  es.filter fun e => decide (o ≤ intOf e.1)

/-- The stored entries as messages: offset and value. -/
def logOf (es : List (Val × Val)) : List (Int × Val) :=
  es.map fun e => (intOf e.1, sizedValue (attr e.2 "value"))

/-- The entries of which the first `n` bytes hold all. -/
def whole : Nat → List (Val × Val) → List (Val × Val)
  | _, [] => []
  | n, e :: es => if (entry e).length ≤ n then e :: whole (n - (entry e).length) es else []

/-- The first `n` bytes end with a whole entry. -/
def EndsWhole (n : Nat) (es : List (Val × Val)) : Prop :=
  (entries es).take n = entries (whole n es)

/-- A partition in an answer to a request: the stored bytes from the offset on, as many as were
asked for. -/
def limitedPart (hw : Int) (es : List (Val × Val)) (f : FPartReq) : Bytes :=
  let b := (entries (entriesFrom f.offset es)).take f.maxBytes.toNat
  be 4 f.id ++ be 2 0 ++ be 8 hw ++ (be 4 b.length ++ b)

/-- The answer to a request, given what is stored and the high-water marks. -/
def limitedWire (hw : String → Int → Int) (elogs : String → Int → List (Val × Val)) (q : FReq) :
    Bytes :=
  fetchWire [topicWire q.topic (q.parts.map fun f =>
    limitedPart (hw q.topic f.id) (elogs q.topic f.id) f)]

/-- A request of which the numbers fit their fields. -/
structure Sendable (q : FReq) : Prop where
  name : (encodeUtf8 q.topic).length < 2 ^ 15
  count : q.parts.length < 2 ^ 31
  ids : ∀ f ∈ q.parts, Fits 4 f.id
  limits : ∀ f ∈ q.parts, f.maxBytes < 2 ^ 31

/-- In the answer to the request, only the last partition may end within an entry. -/
def CutLast (elogs : String → Int → List (Val × Val)) (q : FReq) : Prop :=
  ∃ fs f, q.parts = fs ++ [f] ∧
    ∀ g ∈ fs, EndsWhole g.maxBytes.toNat (entriesFrom g.offset (elogs q.topic g.id))

/-- The brokers that answer do so with the stored bytes, as many as they were asked for (each
broker once, and not for a partition twice); none but the last partition of an answer ends within an
entry.  The rest of the requests may fail. -/
def LimitedFetch (cx : Codec) (depth : Nat) (hw : String → Int → Int)
    (elogs : String → Int → List (Val × Val)) {ε : Type} (env : ConsumeEnv ε Val) : Prop :=
  ∀ reqs : List FReq, ((env.outcomes reqs).map (·.1)).Nodup ∧
    ∀ b r, (b, .ok r) ∈ env.outcomes reqs → ∃ q ∈ reqs, q.broker = b ∧ Sendable q ∧
      (q.parts.map (·.id)).Nodup ∧ CutLast elogs q ∧
      ∃ v, Schema.fetchResponse.deserialize cx (depth + 1) (limitedWire hw elogs q) = .ok v ∧
        r = frespOf v

/-- During a `consume` that did `acts`, a broker answered a request for the partition (and for at
most `m` in all). -/
def Asked {ε : Type} (env : ConsumeEnv ε Val) (acts : List CAct) (t : String) (p : Int) (m : Nat) :
    Prop :=
  ∃ reqs, CAct.fetch reqs ∈ acts ∧ ∃ q ∈ reqs, q.topic = t ∧ (∃ f ∈ q.parts, f.id = p) ∧
    q.parts.length ≤ m ∧ ∃ r, (q.broker, .ok r) ∈ env.outcomes reqs

variable {ε δ : Type}

/-- A sequence of successful `consume`s, with all that they returned, none of which determines
offsets, with brokers that limit what they send; counting those in which the given partition was
`Asked` for. -/
inductive LimitedN (allocation : Consumer ε → Res (Dict String (List Int)))
    (determine : String → Consumer ε → Res Unit × Consumer ε) (cfg : CCfg Val δ) (cx : Codec)
    (depth : Nat) (hw : String → Int → Int) (elogs : String → Int → List (Val × Val)) (t : String)
    (p : Int) (m : Nat) : Nat → Consumer ε → List (String × δ) → Consumer ε → Prop where
  | nil (c : Consumer ε) : LimitedN allocation determine cfg cx depth hw elogs t p m 0 c [] c
  | cons {n k : Nat} {c c1 c2 : Consumer ε} {env : ConsumeEnv ε Val} {topic : String}
      {out : List δ} {acts : List CAct} {outs : List (String × δ)} :
      LimitedFetch cx depth hw elogs env →
      (∀ n (c : Consumer ε), (env.tick n c).offsets = c.offsets) →
      c.consume allocation (determine topic) cfg env topic = (.ok (some out), c1, acts) →
      CAct.determine ∉ acts →
      (k = 0 ∨ k = 1 ∧ Asked env acts t p m) →
      LimitedN allocation determine cfg cx depth hw elogs t p m n c1 outs c2 →
      LimitedN allocation determine cfg cx depth hw elogs t p m (n + k) c
        (out.map (fun v => (topic, v)) ++ outs) c2

end Kiel.Spec
