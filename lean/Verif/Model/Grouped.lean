import Verif.Model.Consumer
/-
kiel/clients/grouped.py: the consumer that shares partitions with the rest of its group.
The allocation itself is in Verif/Model/Allocator.lean.
-/
set_option autoImplicit false
namespace Kiel

variable {β δ : Type}

/-- The attributes `GroupedConsumer` adds (kiel/clients/grouped.py:46-57), of those that
change.  `mapping`: what `self.allocator.allocation` is, `none` if reading it raises a `KeyError`
(kiel/zookeeper/allocator.py:63-70). -/
structure GExt where
  coordinator : Option Int
  toCommit : List String
  mapping : Option (Dict String (List Int))
  deriving DecidableEq, Repr

/-- A `GroupedConsumer` (kiel/clients/grouped.py:18-57). -/
abbrev Grouped := Consumer GExt

/-- A new `GroupedConsumer` (kiel/clients/grouped.py:30-57), with a given cluster. -/
def Grouped.new (cl : Cluster) : Grouped := ⟨cl, [], [], false, false, ⟨.none, [], .none⟩⟩

/-- kiel/clients/grouped.py:59-64 (`allocation`). -/
def Grouped.allocation (c : Grouped) : Res (Dict String (List Int)) :=
  match c.ext.mapping with
  | .none => .error .keyError
  | some a => .ok a

/-- What a rebalance does to the consumer: the mapping is replaced
(kiel/zookeeper/allocator.py:261), and the callback clears the synced topics
(kiel/clients/grouped.py:53, kiel/zookeeper/allocator.py:269-270).  Simplification: both at once;
`Model/Halves.lean` takes them apart. -/
def Grouped.rebalanced (a : Dict String (List Int)) (c : Grouped) : Grouped :=
  { c with synced := [], ext := { c.ext with mapping := some a } }

/-- What becomes of a single request: its answer or the failure to get one, the exception, if
any, of serializing it, and the effect of `cluster.heal()` if it is called at the end of
`send`. -/
structure SendEnv (R : Type) where
  outcome : Res R
  write : Option Exc
  healC : Cluster → Res Unit × Cluster

/-- `(yield self.send({broker: request}))[broker]` (kiel/clients/grouped.py:114-115, 167-168,
243-244): there is no result for a broker whose request failed. -/
def Grouped.sendTo {R ρ : Type} (hs : Handlers Grouped R ρ) (env : SendEnv R) (broker : Int)
    (c : Grouped) : Res ρ × Grouped :=
  match clientSend hs (fun b => c.cluster.conns.has b) (fun _ => env.write)
      (fun c => ((env.healC c.cluster).1, { c with cluster := (env.healC c.cluster).2 }))
      [broker] [(broker, env.outcome)] { c with heal := false } c.heal with
  | (.error e, c, heal, _) => (.error e, { c with heal := heal })
  | (.ok results, c, heal, _) =>
    match results.get? broker with
    | .none => (.error .keyError, { c with heal := heal })
    | some x => (.ok x, { c with heal := heal })

/-- The same with `self.coordinator_id` for the broker; it may be `None`, which is not in the
cluster (kiel/clients/client.py:77). -/
def Grouped.sendCoordinator {R ρ : Type} (hs : Handlers Grouped R ρ) (env : SendEnv R)
    (c : Grouped) : Res ρ × Grouped :=
  match c.ext.coordinator with
  | .none => (.error .keyError, c)
  | some b => c.sendTo hs env b

/-! ### The coordinator -/

/-- kiel/protocol/coordinator.py:28-45 (`GroupCoordinatorResponse`); host and port are not
used. -/
structure CoordResp where
  code : Int
  coordinator : Int
  deriving DecidableEq, Repr

/-- kiel/clients/grouped.py:119-140 (`handle_group_coordinator_response`).  The call on line 137
lacks the argument of its format string; `logging` reports that and goes on. -/
def handleCoordinatorResponse (r : CoordResp) (c : Grouped) : Res Bool × Grouped :=
  if r.code = Err.noError then
    (.ok true, { c with ext := { c.ext with coordinator := some r.coordinator } })
  else if r.code ∈ Err.retriable then (.ok false, { c with heal := true })
  else (.ok true, c)

/-- How `send` sees the handler (kiel/clients/client.py:97-102). -/
def coordinatorHandlers : Handlers Grouped CoordResp Bool where
  api _ := "group_coordinator"
  handle r := some fun c =>
    match handleCoordinatorResponse r c with
    | (res, c') => (res, { c' with heal := false }, c'.heal)

/-- The loops of kiel/clients/grouped.py:109-117; iterating over the cluster gives the brokers with
a connection (kiel/cluster.py:55-63).  `left`: the brokers still to be tried in this
pass; `env n`: what becomes of the `n`-th request.  Result, consumer, and the brokers asked. -/
def Grouped.coordinatorLoop (env : Nat → SendEnv CoordResp) :
    Nat → Nat → List Int → Grouped → Run Unit × Grouped × List Int
  | 0, _, _, c => (.running, c, [])
  | fuel + 1, n, [], c =>
    match c.cluster.conns.keys with
    | [] => (.raised .noBrokers, c, [])
    | b :: bs => Grouped.coordinatorLoop env fuel n (b :: bs) c
  | fuel + 1, n, b :: bs, c =>
    match c.sendTo coordinatorHandlers (env n) b with
    | (.error e, c) => (.raised e, c, [b])
    | (.ok true, c) => (.done (), c, [b])
    | (.ok false, c) =>
      match Grouped.coordinatorLoop env fuel (n + 1) bs c with
      | (r, c, asked) => (r, c, b :: asked)

/-- kiel/clients/grouped.py:98-117 (`determine_coordinator`). -/
def Grouped.determineCoordinator (env : Nat → SendEnv CoordResp) (fuel : Nat) (c : Grouped) :
    Run Unit × Grouped × List Int :=
  c.coordinatorLoop env fuel 0 []

/-! ### Offsets of the group -/

/-- kiel/protocol/offset_fetch.py:48-64 (`PartitionResponse`); the metadata is not used. -/
structure OFPart where
  id : Int
  offset : Int
  code : Int
  deriving DecidableEq, Repr

/-- kiel/protocol/offset_fetch.py:80-91 (`OffsetFetchResponse`). -/
structure OFResp where
  topics : List (String × List OFPart)
  deriving DecidableEq, Repr

/-- The loop of kiel/clients/grouped.py:185-208. -/
def handleOffsetFetchParts (topic : String) : List OFPart → Grouped → Bool → Res Bool × Grouped
  | [], c, retry => (.ok retry, c)
  | p :: rest, c, retry =>
    if p.code = Err.noError then
      handleOffsetFetchParts topic rest { c with offsets := c.offsets.put topic p.id p.offset } retry
    else if p.code = Err.offsetsLoadInProgress then handleOffsetFetchParts topic rest c true
    else if p.code ∈ Err.retriable then
      handleOffsetFetchParts topic rest { c with heal := true } true
    else
      match errorCodes.get? p.code with
      | .none => (.error .keyError, c)
      | some _ => (.error .noOffsets, c)

/-- kiel/clients/grouped.py:170-210 (`handle_offset_fetch_response`). -/
def handleOffsetFetchResponse (r : OFResp) (c : Grouped) : Res Bool × Grouped :=
  match r.topics with
  | [] => (.error .indexError, c)
  | (topic, parts) :: _ => handleOffsetFetchParts topic parts c false

/-- How `send` sees the handler (kiel/clients/client.py:97-102). -/
def offsetFetchHandlers : Handlers Grouped OFResp Bool where
  api _ := "offset_fetch"
  handle r := some fun c =>
    match handleOffsetFetchResponse r c with
    | (res, c') => (res, { c' with heal := false }, c'.heal)

/-- kiel/clients/grouped.py:165-168. -/
def Grouped.determineLoop (env : Nat → SendEnv OFResp) : Nat → Nat → Grouped → Run Unit × Grouped
  | 0, _, c => (.running, c)
  | fuel + 1, n, c =>
    match c.sendCoordinator offsetFetchHandlers (env n) with
    | (.error e, c) => (.raised e, c)
    | (.ok true, c) => Grouped.determineLoop env fuel (n + 1) c
    | (.ok false, c) => (.done (), c)

/-- kiel/clients/grouped.py:142-168 (`determine_offsets`): result, consumer, and the partitions
named in the request (each time it is sent), if it gets that far.  Looking the topic up (160) adds
it to a `defaultdict`, and raises if it is not in a `plain` dictionary.
`env n`: what becomes of the `n`-th request; `fuel`: how many are followed. -/
def Grouped.determine (plain : Bool) (env : Nat → SendEnv OFResp) (fuel : Nat) (topic : String)
    (c : Grouped) : Run Unit × Grouped × Option (List Int) :=
  match c.ext.mapping with
  | .none => (.raised .keyError, c, .none)
  | some a =>
    if plain = true ∧ a.has topic = false then (.raised .keyError, c, .none)
    else
      let (a, parts) := Dict.getDefault a topic []
      match Grouped.determineLoop env fuel 0 { c with ext := { c.ext with mapping := some a } } with
      | (r, c) => (r, c, some parts)

/-! ### Committing -/

/-- kiel/protocol/offset_commit.py:85-98 (`OffsetCommitV0Request`) as sent: the coordinator, the
metadata, and for each topic the partitions with their offsets. -/
structure CommitReq where
  coordinator : Option Int
  metadata : String
  topics : List (String × List (Int × Int))
  deriving DecidableEq, Repr

/-- kiel/protocol/offset_commit.py:173-184 (`OffsetCommitResponse`): topics, and for each
partition its id and error code. -/
structure CommitResp where
  topics : List (String × List (Int × Int))
  deriving DecidableEq, Repr

/-- The inner loop of kiel/clients/grouped.py:266-281. -/
def handleCommitParts (topic : String) :
    List (Int × Int) → Grouped → Bool × Bool → Res (Bool × Bool) × Grouped
  | [], c, r => (.ok r, c)
  | (_, code) :: rest, c, (retry, adjust) =>
    if code = Err.noError then
      handleCommitParts topic rest
        { c with ext := { c.ext with toCommit := discard c.ext.toCommit topic } } (retry, adjust)
    else if code ∈ Err.retriable then
      handleCommitParts topic rest { c with heal := true } (true, adjust)
    else if code = Err.offsetMetadataTooLarge then
      handleCommitParts topic rest c (true, true)
    else
      match errorCodes.get? code with
      | .none => (.error .keyError, c)
      | some _ => handleCommitParts topic rest c (retry, adjust)

/-- The outer loop of kiel/clients/grouped.py:265-281. -/
def handleCommitTopics :
    List (String × List (Int × Int)) → Grouped → Bool × Bool → Res (Bool × Bool) × Grouped
  | [], c, r => (.ok r, c)
  | (t, ps) :: rest, c, r =>
    match handleCommitParts t ps c r with
    | (.error e, c) => (.error e, c)
    | (.ok r, c) => handleCommitTopics rest c r

/-- kiel/clients/grouped.py:252-283 (`handle_offset_commit_response`): (retry, adjust). -/
def handleCommitResponse (r : CommitResp) (c : Grouped) : Res (Bool × Bool) × Grouped :=
  handleCommitTopics r.topics c (false, false)

/-- How `send` sees the handler (kiel/clients/client.py:97-102). -/
def commitHandlers : Handlers Grouped CommitResp (Bool × Bool) where
  api _ := "offset_commit"
  handle r := some fun c =>
    match handleCommitResponse r c with
    | (res, c') => (res, { c' with heal := false }, c'.heal)

/-- kiel/clients/grouped.py:229-236: the partitions of a topic with `self.offsets[topic][id]`
(which inserts missing entries). -/
def commitParts (topic : String) : List Int → Offsets → List (Int × Int) × Offsets
  | [], o => ([], o)
  | p :: ps, o =>
    let (v, o) := o.index topic p
    let (rest, o) := commitParts topic ps o
    ((p, v) :: rest, o)

/-- kiel/clients/grouped.py:226-240: the topics of the request. -/
def commitTopics (toCommit : List String) :
    List (String × List Int) → Offsets → List (String × List (Int × Int)) × Offsets
  | [], o => ([], o)
  | (t, ps) :: rest, o =>
    if t ∈ toCommit then
      let (parts, o) := commitParts t ps o
      let (topics, o) := commitTopics toCommit rest o
      ((t, parts) :: topics, o)
    else commitTopics toCommit rest o

/-- What the environment does during `commit_offsets`: what becomes of the `n`-th request, and
what other threads do meanwhile. -/
structure CommitEnv where
  send : Nat → SendEnv CommitResp
  tick : Nat → Grouped → Grouped

/-- kiel/clients/grouped.py:212-250 (`commit_offsets`), once `metadata` is a string; result,
consumer, and the requests handed to `send`.  (The recursion on line 250 is one of coroutines, each
of which yields to the I/O loop: Python's limit on recursion does not apply.) -/
def Grouped.commitLoop (env : CommitEnv) :
    Nat → Nat → String → Grouped → Run Unit × Grouped × List CommitReq
  | 0, _, _, c => (.running, c, [])
  | fuel + 1, n, metadata, c =>
    match c.ext.mapping with
    | .none => (.raised .keyError, c, [])
    | some a =>
      let (topics, o) := commitTopics c.ext.toCommit a c.offsets
      let c : Grouped := { c with offsets := o }
      let req : CommitReq := ⟨c.ext.coordinator, metadata, topics⟩
      match c.sendCoordinator commitHandlers (env.send n) with
      | (.error e, c) => (.raised e, env.tick n c, [req])
      | (.ok (retry, adjust), c) =>
        let c := env.tick n c
        if retry then
          match Grouped.commitLoop env fuel (n + 1) (if adjust then "" else metadata) c with
          | (r, c, reqs) => (r, c, req :: reqs)
        else (.done (), c, [req])

/-- kiel/clients/grouped.py:212-250 (`commit_offsets`).  `name`: `self.name`; `metadata`: the
argument, `none` if it is not given. -/
def Grouped.commit (env : CommitEnv) (fuel : Nat) (name : String) (metadata : Option String)
    (c : Grouped) : Run Unit × Grouped × List CommitReq :=
  c.commitLoop env fuel 0 (metadata.getD ("committed by " ++ name))

/-! ### Consuming -/

/-- The options (kiel/clients/grouped.py:30-57) and `self.name`. -/
structure GCfg where
  name : String
  autocommit : Bool

/-- What the environment does during one `consume`. -/
structure GroupEnv (β : Type) where
  offsets : Nat → SendEnv OFResp
  base : ConsumeEnv GExt β
  commit : CommitEnv

/-- `determine_offsets` as the base class sees it, if it finishes. -/
def Run.toRes {α : Type} : Run α → Res α
  | .done a => .ok a
  | .raised e => .error e
  | .running => .error (.other 0)

/-- `determine_offsets` as `BaseConsumer.consume` calls it (kiel/clients/consumer.py:92). -/
def Grouped.determineRes (plain : Bool) (env : Nat → SendEnv OFResp) (fuel : Nat) (topic : String) (c : Grouped) :
    Res Unit × Grouped :=
  ((c.determine plain env fuel topic).1.toRes, (c.determine plain env fuel topic).2.1)

/-- kiel/clients/grouped.py:78-96 (`consume`): result, consumer, what the base class does, and
the commit requests.  If `determine_offsets` does not finish within `fuel` rounds, neither does
`consume`. -/
def Grouped.consume (gcfg : GCfg) (cfg : CCfg β δ) (env : GroupEnv β) (fuel : Nat) (topic : String)
    (c : Grouped) : Run (Option (List δ)) × Grouped × List CAct × List CommitReq :=
  if c.closing = false ∧ topic ∉ c.synced ∧ (c.determine cfg.plain env.offsets fuel topic).1 = .running then
    (.running, env.base.tick 0 (c.determine cfg.plain env.offsets fuel topic).2.1, [.determine], [])
  else
    match Consumer.consume Grouped.allocation
        (Grouped.determineRes cfg.plain env.offsets fuel topic) cfg env.base topic c with
    | (.error e, c, acts) => (.raised e, c, acts, [])
    | (.ok result, c, acts) =>
      if topic ∉ c.synced then (.done (some []), c, acts, [])
      else
        let c : Grouped := { c with ext := { c.ext with toCommit := addSet c.ext.toCommit topic } }
        if gcfg.autocommit then
          match c.commit env.commit fuel gcfg.name .none with
          | (.done _, c, reqs) => (.done result, c, acts, reqs)
          | (.raised e, c, reqs) => (.raised e, c, acts, reqs)
          | (.running, c, reqs) => (.running, c, acts, reqs)
        else (.done result, c, acts, [])

end Kiel
