import Verif.Model.Single
import Verif.Spec.Codes
import Verif.Spec.Cluster
/-
Vocabulary for the properties of consumers.
-/
set_option autoImplicit false
namespace Kiel.Spec

variable {ε β δ : Type}

/-- The offset a consumer will ask for. -/
def offsetOf (o : Offsets) (topic : String) (partition : Int) : Int :=
  ((Dict.get? ((Dict.get? o topic).getD []) partition)).getD 0

/-- The deserialized value, if there is one. -/
def decode (cfg : CCfg β δ) (v : β) : Option δ := (cfg.deserializer v).toOption

/-- The messages that can be deserialized, as values. -/
def values (cfg : CCfg β δ) (ms : List (Int × β)) : List δ := ms.filterMap fun m => decode cfg m.2

/-- The offset just after the last message that can be deserialized and has a non-negative
offset; `o` if there is none. -/
def after (cfg : CCfg β δ) (ms : List (Int × β)) (o : Int) : Int :=
  match (ms.filter fun m => (decode cfg m.2).isSome && decide (0 ≤ m.1)).getLast? with
  | some m => m.1 + 1
  | .none => o

/-- The partitions a response is about, each with its topic.  Only the first topic counts:
a request names only one. -/
def answersOf (r : FResp β) : List (String × FPart β) :=
  match r.topics with
  | [] => []
  | (t, ps) :: _ => ps.map fun p => (t, p)

/-- The same for all responses among the outcomes of the requests. -/
def allAnswers (outs : List (Int × Res (FResp β))) : List (String × FPart β) :=
  outs.flatMap fun o => match o.2 with
    | .ok r => answersOf r
    | .error _ => []

/-- The messages successfully fetched for a partition. -/
def fetchedFor (as : List (String × FPart β)) (topic : String) (partition : Int) :
    List (Int × β) :=
  (as.filter fun a => decide (a.1 = topic ∧ a.2.id = partition ∧ a.2.code = 0)).flatMap (·.2.msgs)

/-- All messages successfully fetched. -/
def fetched (as : List (String × FPart β)) : List (Int × β) :=
  (as.filter fun a => decide (a.2.code = 0)).flatMap (·.2.msgs)

/-- What `as` (answers, in order) do to a consumer, the `heal` flag aside. -/
structure Effect (cfg : CCfg β δ) (as : List (String × FPart β)) (c c' : Consumer ε) : Prop where
  offsets : ∀ t p, offsetOf c'.offsets t p = after cfg (fetchedFor as t p) (offsetOf c.offsets t p)
  synced : ∀ t, t ∈ c'.synced ↔ t ∈ c.synced ∧ ∀ a ∈ as, a.1 = t → a.2.code ≠ 1
  cluster : c'.cluster = c.cluster
  closing : c'.closing = c.closing
  ext : c'.ext = c.ext

/-- The requests of one `consume`: one per leader, each naming exactly the partitions it leads,
in order, at the consumer's offsets; what they may return adds up to at most `max_bytes` per
leader, of which each partition has an equal share. -/
structure FetchesExactly (cfg : CCfg β δ) (c : Consumer ε) (topic : String) (parts : List Int)
    (reqs : List FReq) : Prop where
  brokers : (reqs.map (·.broker)).Nodup
  topics : ∀ r ∈ reqs, r.topic = topic ∧ r.maxWait = cfg.maxWait ∧ r.minBytes = cfg.minBytes
  named : ∀ r ∈ reqs, r.parts.map (·.id) =
    parts.filter fun p => decide (leaderOf c.cluster topic p = some r.broker)
  nonempty : ∀ r ∈ reqs, r.parts ≠ []
  all : ∀ p ∈ parts, ∃ r ∈ reqs, leaderOf c.cluster topic p = some r.broker
  offsets : ∀ r ∈ reqs, ∀ p ∈ r.parts, p.offset = offsetOf c.offsets topic p.id
  bytes : 0 ≤ cfg.maxBytes → ∀ r ∈ reqs, (∀ p ∈ r.parts, 0 ≤ p.maxBytes) ∧
    (r.parts.map (·.maxBytes)).sum ≤ cfg.maxBytes
  shares : 0 ≤ cfg.maxBytes → ∀ r ∈ reqs, ∀ p ∈ r.parts,
    ∀ s : Int, s * r.parts.length ≤ cfg.maxBytes → s ≤ p.maxBytes

/-! ### Brokers and their logs -/

/-- The log of a partition: messages with increasing, non-negative offsets. -/
structure IsLog (log : List (Int × β)) : Prop where
  sorted : log.Pairwise fun a b => a.1 < b.1
  nonneg : ∀ m ∈ log, 0 ≤ m.1

/-- A fetch at offset `o` yields the next messages of the log, however many. -/
def Batch (log : List (Int × β)) (o : Int) (ms : List (Int × β)) : Prop :=
  ms <+: log.filter fun m => decide (o ≤ m.1)

/-- The same for a log that holds compressed sets: the messages begin at the latest with the
first one at or after `o`, since a set is sent whole. -/
def WideBatch (log : List (Int × β)) (o : Int) (ms : List (Int × β)) : Prop :=
  ∃ pre rest, log = pre ++ ms ++ rest ∧ ∀ m ∈ pre, m.1 < o

/-- Brokers answer what they were asked: each at most once, for the topic asked for, a partition
at most once; a successful answer holds messages as `batch` allows for the log and the offset
asked for.  Errors are as they like, except `offset_out_of_range` (which makes the consumer
determine its offsets anew). -/
def HonestFetch (batch : List (Int × β) → Int → List (Int × β) → Prop)
    (logs : String → Int → List (Int × β)) (env : ConsumeEnv ε β) : Prop :=
  ∀ reqs : List FReq, ((env.outcomes reqs).map (·.1)).Nodup ∧
    ∀ b r, (b, .ok r) ∈ env.outcomes reqs → ∃ q ∈ reqs, q.broker = b ∧
      ∃ ps, r.topics = [(q.topic, ps)] ∧ (ps.map (·.id)).Nodup ∧
        ∀ p ∈ ps, p.code ≠ 1 ∧ (p.code = 0 → ∃ f ∈ q.parts, f.id = p.id ∧
          batch (logs q.topic p.id) f.offset p.msgs)

/-- `outs` is an interleaving of the lists `per`, one for each partition: each element can be
attributed to a partition of its topic, such that those attributed to a partition are its list. -/
def Interleaving (per : String → Int → List δ) (outs : List (String × δ)) : Prop :=
  ∃ src : List ((String × Int) × δ), src.map (fun x => (x.1.1, x.2)) = outs ∧
    ∀ t p, (src.filter fun x => decide (x.1 = (t, p))).map (·.2) = per t p

/-- A sequence of successful `consume`s, with all that they returned, none of which determines
offsets. -/
inductive Consumed (allocation : Consumer ε → Res (Dict String (List Int)))
    (determine : String → Consumer ε → Res Unit × Consumer ε) (cfg : CCfg β δ)
    (batch : List (Int × β) → Int → List (Int × β) → Prop)
    (logs : String → Int → List (Int × β)) :
    Consumer ε → List (String × δ) → Consumer ε → Prop where
  | nil (c : Consumer ε) : Consumed allocation determine cfg batch logs c [] c
  | cons {c c1 c2 : Consumer ε} {env : ConsumeEnv ε β} {topic : String} {out : List δ}
      {acts : List CAct} {outs : List (String × δ)} :
      HonestFetch batch logs env → (∀ n (c : Consumer ε), (env.tick n c).offsets = c.offsets) →
      c.consume allocation (determine topic) cfg env topic = (.ok (some out), c1, acts) →
      CAct.determine ∉ acts →
      Consumed allocation determine cfg batch logs c1 outs c2 →
      Consumed allocation determine cfg batch logs c (out.map (fun v => (topic, v)) ++ outs) c2

end Kiel.Spec
