import Verif.Model.Client
/-
kiel/clients/consumer.py: fetching and deserializing messages.

`ε`: the attributes subclasses add; `β`: message values as they come off the wire; `δ`:
deserialized values.
-/
set_option autoImplicit false
namespace Kiel

variable {ε β δ : Type}

/-- `self.offsets`: a `defaultdict` of `defaultdict(int)`s (kiel/clients/consumer.py:44-46). -/
abbrev Offsets := Dict String (Dict Int Int)

/-- `self.offsets[topic][partition]` as an expression: missing entries are inserted, with
offset 0 (kiel/clients/consumer.py:44-46, 122). -/
def Offsets.index (o : Offsets) (topic : String) (partition : Int) : Int × Offsets :=
  let (o, ps) := Dict.getDefault o topic []
  let (ps, v) := Dict.getDefault ps partition 0
  (v, Dict.set o topic ps)

/-- `self.offsets[topic][partition] = v` (kiel/clients/consumer.py:202). -/
def Offsets.put (o : Offsets) (topic : String) (partition : Int) (v : Int) : Offsets :=
  Dict.set o topic (Dict.set ((Dict.get? o topic).getD []) partition v)

/-- The attributes of a `BaseConsumer` (kiel/clients/consumer.py:44-47) and of its base class
(kiel/clients/client.py:22-25). `ext`: those of the subclass. -/
structure Consumer (ε : Type) where
  cluster : Cluster
  offsets : Offsets
  synced : List String
  heal : Bool
  closing : Bool
  ext : ε
  deriving DecidableEq, Repr

/-- The options given to the constructor (kiel/clients/consumer.py:26-42), and which values
Python takes as true (`if msg`, kiel/clients/consumer.py:134).
`write`, for calls that overlap: the exception, if any, that serializing raises (kiel/connection.py:122-123)
for the request of this api of this call to this broker, whatever it is made of.
Simplification: requests that one call repeats raise all or none.
`plain`, for a `GroupedConsumer`: whether the dictionaries of topics that its `partition_allocator`
makes are plain ones, as docs/clients/zkgrouped.rst:95-109 has it; those of the default one are
`defaultdict`s (kiel/clients/grouped.py:305-307). -/
structure CCfg (β δ : Type) where
  deserializer : β → Res δ
  truthy : δ → Bool
  maxWait : Int
  minBytes : Int
  maxBytes : Int
  write : Nat → String → Int → Option Exc := fun _ _ _ => .none
  plain : Bool := false

/-- kiel/protocol/fetch.py:21-34 (`PartitionRequest`). -/
structure FPartReq where
  id : Int
  offset : Int
  maxBytes : Int
  deriving DecidableEq, Repr

/-- kiel/protocol/fetch.py:51-68 (`FetchRequest`), with the broker it is for and its only
topic. `replica_id` is always -1 (kiel/constants.py:34). -/
structure FReq where
  broker : Int
  maxWait : Int
  minBytes : Int
  topic : String
  parts : List FPartReq
  deriving DecidableEq, Repr

/-- kiel/protocol/fetch.py:71-86 (`PartitionResponse`), with the (offset, value) of each
message; the high-water mark and the keys are not used. -/
structure FPart (β : Type) where
  id : Int
  code : Int
  msgs : List (Int × β)
  deriving DecidableEq, Repr

/-- kiel/protocol/fetch.py:103-114 (`FetchResponse`). -/
structure FResp (β : Type) where
  topics : List (String × List (FPart β))
  deriving DecidableEq, Repr

/-- kiel/clients/consumer.py:177-205 (`deserialize_messages`). -/
def deserializeMessages (cfg : CCfg β δ) (topic : String) (partition : Int) :
    List (Int × β) → Consumer ε → List δ → List δ × Consumer ε
  | [], c, out => (out, c)
  | (offset, value) :: rest, c, out =>
    match cfg.deserializer value with
    | .error _ => deserializeMessages cfg topic partition rest c out
    | .ok v =>
      let c := if offset ≥ 0 then
          { c with offsets := c.offsets.put topic partition (offset + 1) }
        else c
      deserializeMessages cfg topic partition rest c (out ++ [v])

/-- The loop of kiel/clients/consumer.py:160-173. -/
def handleFetchParts (cfg : CCfg β δ) (topic : String) :
    List (FPart β) → Consumer ε → List δ → Res (List δ) × Consumer ε
  | [], c, out => (.ok out, c)
  | p :: rest, c, out =>
    if p.code = Err.noError then
      let (ms, c) := deserializeMessages cfg topic p.id p.msgs c []
      handleFetchParts cfg topic rest c (out ++ ms)
    else if p.code ∈ Err.retriable then
      handleFetchParts cfg topic rest { c with heal := true } out
    else if p.code = Err.offsetOutOfRange then
      handleFetchParts cfg topic rest { c with synced := discard c.synced topic } out
    else
      match errorCodes.get? p.code with
      | .none => (.error .keyError, c)
      | some _ => handleFetchParts cfg topic rest c out

/-- kiel/clients/consumer.py:138-175 (`handle_fetch_response`). -/
def handleFetchResponse (cfg : CCfg β δ) (r : FResp β) (c : Consumer ε) :
    Res (List δ) × Consumer ε :=
  match r.topics with
  | [] => (.error .indexError, c)
  | (topic, parts) :: _ => handleFetchParts cfg topic parts c []

/-- How `send` sees the handler of fetch responses (kiel/clients/client.py:97-102).  The class of
a response is that of the request it answers (kiel/connection.py:201-203), so no other handler
is called. -/
def fetchHandlers (cfg : CCfg β δ) : Handlers (Consumer ε) (FResp β) (List δ) where
  api _ := "fetch"
  handle r := some fun c =>
    match handleFetchResponse cfg r c with
    | (res, c') => (res, { c' with heal := false }, c'.heal)

/-- The loop of kiel/clients/consumer.py:106-109 (also of kiel/clients/single.py:74-75): the
partitions by leader, in order of first appearance. -/
def groupByLeader (topic : String) :
    List Int → Cluster → Dict Int (List Int) → Res (Dict Int (List Int)) × Cluster
  | [], cl, ordered => (.ok ordered, cl)
  | p :: ps, cl, ordered =>
    match cl.getLeader topic p with
    | (.error e, cl) => (.error e, cl)
    | (.ok l, cl) =>
      groupByLeader topic ps cl (ordered.set l ((ordered.get? l).getD [] ++ [p]))

/-- The list comprehension of kiel/clients/consumer.py:119-126. -/
def fetchParts (topic : String) (maxBytes : Int) :
    List Int → Offsets → List FPartReq × Offsets
  | [], o => ([], o)
  | p :: ps, o =>
    let (v, o) := o.index topic p
    let (rest, o) := fetchParts topic maxBytes ps o
    (⟨p, v, maxBytes⟩ :: rest, o)

/-- The loop of kiel/clients/consumer.py:111-128.
Simplification: `int(max_bytes / n)` divides floats, which is exact below 2^53; the field has
32 bits. -/
def fetchRequests (cfg : CCfg β δ) (topic : String) :
    List (Int × List Int) → Offsets → List FReq × Offsets
  | [], o => ([], o)
  | (l, ps) :: rest, o =>
    let (parts, o) := fetchParts topic (Int.tdiv cfg.maxBytes ps.length) ps o
    let (reqs, o) := fetchRequests cfg topic rest o
    (⟨l, cfg.maxWait, cfg.minBytes, topic, parts⟩ :: reqs, o)

/-- The sending half of `consume`: kiel/clients/consumer.py:106-128.  The requests, or the
exception raised, and the consumer afterwards. -/
def Consumer.fetches (cfg : CCfg β δ) (topic : String) (parts : List Int) (c : Consumer ε) :
    Res (List FReq) × Consumer ε :=
  match groupByLeader topic parts c.cluster [] with
  | (.error e, cl) => (.error e, { c with cluster := cl })
  | (.ok ordered, cl) =>
    let (reqs, o) := fetchRequests cfg topic ordered c.offsets
    (.ok reqs, { c with cluster := cl, offsets := o })

/-- What the environment does during one `consume`: what becomes of the requests, in order of
completion; exceptions raised when serializing them; `cluster.heal()` when called on
kiel/clients/consumer.py:100 and when called by `send`.
`tick n`: what other threads do to the consumer while the `n`-th `yield` of `consume` waits
(kiel/clients/consumer.py:92, 100, 130).  For a `SingleConsumer`, nothing; for a
`GroupedConsumer`, rebalancing. -/
structure ConsumeEnv (ε β : Type) where
  outcomes : List FReq → List (Int × Res (FResp β))
  write : Int → Option Exc
  heal : Cluster → Res Unit × Cluster
  healC : Cluster → Res Unit × Cluster
  tick : Nat → Consumer ε → Consumer ε

/-- What is seen of a `consume` from outside. -/
inductive CAct where
  | determine          -- `determine_offsets` is called
  | heal               -- `cluster.heal()` is called
  | fetch (reqs : List FReq)
  deriving DecidableEq, Repr

/-- kiel/clients/consumer.py:106-136. -/
def Consumer.fetch (cfg : CCfg β δ) (env : ConsumeEnv ε β) (topic : String) (parts : List Int)
    (c : Consumer ε) : Res (Option (List δ)) × Consumer ε × List CAct :=
  match c.fetches cfg topic parts with
  | (.error e, c) => (.error e, c, [])
  | (.ok reqs, c) =>
    match clientSend (fetchHandlers cfg) (fun b => c.cluster.conns.has b) env.write
        (fun c => ((env.healC c.cluster).1, { c with cluster := (env.healC c.cluster).2 }))
        (reqs.map (·.broker)) (env.outcomes reqs) { c with heal := false } c.heal with
    | (.error e, c, heal, _) => (.error e, env.tick 2 { c with heal := heal }, [.fetch reqs])
    | (.ok results, c, heal, _) =>
      (.ok (some (results.vals.flatten.filter cfg.truthy)),
        env.tick 2 { c with heal := heal }, [.fetch reqs])

/-- `self.allocation.get(topic)` after the check of kiel/clients/consumer.py:98 and 102: the
partitions to consume; `none` if there are none. -/
def allocated (alloc : Dict String (List Int)) (topic : String) : Option (List Int) :=
  match alloc.get? topic with
  | some (p :: ps) => some (p :: ps)
  | _ => .none

/-- kiel/clients/consumer.py:98-136, given what `self.allocation` is. -/
def Consumer.consumeSynced (allocation : Consumer ε → Res (Dict String (List Int)))
    (cfg : CCfg β δ) (env : ConsumeEnv ε β) (topic : String) (c : Consumer ε) :
    Res (Option (List δ)) × Consumer ε × List CAct :=
  match allocation c with
  | .error e => (.error e, c, [])
  | .ok a =>
    match allocated a topic with
    | some parts => c.fetch cfg env topic parts
    | .none =>
      match env.heal c.cluster with
      | (.error e, cl) => (.error e, env.tick 1 { c with cluster := cl }, [.heal])
      | (.ok _, cl) =>
        let c := env.tick 1 { c with cluster := cl }
        match allocation c with
        | .error e => (.error e, c, [.heal])
        | .ok a =>
          match allocated a topic with
          | .none => (.ok (some []), c, [.heal])
          | some parts =>
            match c.fetch cfg env topic parts with
            | (r, c, acts) => (r, c, .heal :: acts)

/-- kiel/clients/consumer.py:72-136 (`BaseConsumer.consume`).  `allocation`, `determine`: the
subclass's property and its `determine_offsets` (with `start` given).  The result is Python's
`None` on a closing consumer.
Simplification: no two `consume`s of the same consumer run at the same time, and other threads
act only while it waits (`ConsumeEnv.tick`). -/
def Consumer.consume (allocation : Consumer ε → Res (Dict String (List Int)))
    (determine : Consumer ε → Res Unit × Consumer ε) (cfg : CCfg β δ) (env : ConsumeEnv ε β)
    (topic : String) (c : Consumer ε) : Res (Option (List δ)) × Consumer ε × List CAct :=
  if c.closing then (.ok .none, c, [])
  else if topic ∈ c.synced then c.consumeSynced allocation cfg env topic
  else
    match determine c with
    | (.error .noOffsets, c) => (.ok (some []), env.tick 0 c, [.determine])
    | (.error e, c) => (.error e, env.tick 0 c, [.determine])
    | (.ok _, c) =>
      let c := env.tick 0 c
      match ({ c with synced := addSet c.synced topic } : Consumer ε).consumeSynced
        allocation cfg env topic with
      | (r, c, acts) => (r, c, .determine :: acts)

end Kiel
