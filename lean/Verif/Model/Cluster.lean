import Verif.Model.Errors
import Verif.Model.Text
/-
kiel/cluster.py: the connections to the brokers, and who leads which partition.
-/
namespace Kiel

/-- kiel/protocol/metadata.py:32-45 (`Broker`). -/
structure BrokerMd where
  id : Int
  host : String
  port : Int
  deriving DecidableEq, Repr

/-- kiel/protocol/metadata.py:48-65 (`PartitionMetadata`). `replicas` and `isrs` are not used
by the client and left out. -/
structure PartMd where
  error : Int
  id : Int
  leader : Int
  deriving DecidableEq, Repr

/-- kiel/protocol/metadata.py:68-81 (`TopicMetadata`). -/
structure TopicMd where
  error : Int
  name : String
  parts : List PartMd
  deriving DecidableEq, Repr

/-- kiel/protocol/metadata.py:84-96 (`MetadataResponse`). -/
structure Metadata where
  brokers : List BrokerMd
  topics : List TopicMd
  deriving DecidableEq, Repr

/-- What a cluster knows of a `Connection` (kiel/connection.py:50-58); how it treats requests
is in Verif/Model/Connection.lean. -/
structure CConn where
  host : String
  port : Int
  closing : Bool
  deriving DecidableEq, Repr

/-- The attributes of a `Cluster` (kiel/cluster.py:26-31). -/
structure Cluster where
  conns : Dict Int CConn
  topics : Dict String (List Int)
  leaders : Dict String (Dict Int Int)
  deriving DecidableEq, Repr

/-- kiel/cluster.py:26-31 (`__init__`). -/
def Cluster.new : Cluster := ⟨[], [], []⟩

/-- kiel/cluster.py:65-69 (`get_leader`): `leaders` is a `defaultdict`, so asking for an
unknown topic inserts it. -/
def Cluster.getLeader (cl : Cluster) (topic : String) (partition : Int) : Res Int × Cluster :=
  let (leaders, d) := cl.leaders.getDefault topic []
  let cl := { cl with leaders := leaders }
  match d.get? partition with
  | .none => (.error .keyError, cl)
  | some l => (.ok l, cl)

/-- What `process_topics` builds up: the new tables and the set of missing topics
(kiel/cluster.py:228-231). -/
structure Tables where
  topics : Dict String (List Int)
  leaders : Dict String (Dict Int Int)
  missing : List String
  deriving DecidableEq, Repr

/-- The body of the inner loop, kiel/cluster.py:241-258. -/
def processPartition (conns : Dict Int CConn) (name : String) (t : Tables) (p : PartMd) :
    Tables :=
  if p.error = Err.leaderNotAvailable then { t with missing := addSet t.missing name }
  else if ¬ conns.has p.leader then { t with missing := addSet t.missing name }
  else
    let (topics, ps) := t.topics.getDefault name []
    let (leaders, ls) := t.leaders.getDefault name []
    { t with
      topics := topics.set name (ps ++ [p.id])
      leaders := leaders.set name (ls.set p.id p.leader) }

/-- The body of the outer loop, kiel/cluster.py:233-258. -/
def processTopic (conns : Dict Int CConn) (t : Tables) (topic : TopicMd) : Tables :=
  if topic.error = Err.unknownTopicOrPartition then t
  else if topic.error = Err.replicaNotAvailable then
    { t with missing := addSet t.missing topic.name }
  else topic.parts.foldl (processPartition conns topic.name) t

/-- kiel/cluster.py:216-263 (`process_topics`): the missing topics and the cluster
afterwards. -/
def Cluster.processTopics (cl : Cluster) (topics : List TopicMd) : List String × Cluster :=
  let t := topics.foldl (processTopic cl.conns) ⟨[], [], []⟩
  (t.missing, { cl with topics := t.topics, leaders := t.leaders })

/-- The loop of kiel/cluster.py:188-209.  `connect n` is the exception, if any, that
connecting to the `n`-th broker of the list raises. -/
def addBrokers (connect : Nat → Option Exc) :
    Nat → List BrokerMd → Dict Int CConn → List Int → Dict Int CConn × List Int
  | _, [], conns, missing => (conns, missing)
  | n, b :: bs, conns, missing =>
    if conns.has b.id then addBrokers connect (n + 1) bs conns missing
    else
      match connect n with
      | .none => addBrokers connect (n + 1) bs (conns.set b.id ⟨b.host, b.port, false⟩) missing
      | some _ => addBrokers connect (n + 1) bs conns (addSet missing b.id)

/-- `self.conns[broker_id].abort()`: see `Conn.abort`. -/
def abortConn (conns : Dict Int CConn) (id : Int) : Dict Int CConn :=
  match conns.get? id with
  | .none => conns
  | some c => conns.set id { c with closing := true }

/-- kiel/cluster.py:174-214 (`process_brokers`): the missing brokers and the cluster
afterwards.
Simplification: while this waits for connections, no other coroutine changes `conns`. -/
def Cluster.processBrokers (connect : Nat → Option Exc) (cl : Cluster)
    (brokers : List BrokerMd) : List Int × Cluster :=
  let toDrop := cl.conns.keys.filter (fun k => decide (k ∉ brokers.map (·.id)))
  let (conns, missing) := addBrokers connect 0 brokers cl.conns []
  (missing, { cl with conns := toDrop.foldl abortConn conns })

/-- kiel/cluster.py:146-172 (`get_metadata`).  `ask id` is what a metadata request (for the
topics at hand) to the connection to broker `id` yields if the connection is open; on a
closing one, `send` fails at once (kiel/connection.py:118-120). -/
def getMetadata (ask : Int → Res Metadata) : Dict Int CConn → Res Metadata
  | [] => .error .noBrokers
  | (id, c) :: rest =>
    match (if c.closing then .error .brokerConnection else ask id) with
    | .ok m => .ok m
    | .error e =>
      if e = .streamClosed ∨ e = .brokerConnection then getMetadata ask rest else .error e

/-- What the brokers do during a `heal()`, round by round: the answers to metadata requests,
given round, topics and broker; and the failures to connect, given round and position in the
list of brokers. -/
structure ClusterEnv where
  ask : Nat → List String → Int → Res Metadata
  connect : Nat → Nat → Option Exc

/-- How a loop that may run for ever is left: normally, with an exception, or not within the
given number of rounds. -/
inductive Run (α : Type) where
  | done (a : α)
  | raised (e : Exc)
  | running
  deriving DecidableEq, Repr

/-- One round: kiel/cluster.py:138-139, 143-144. -/
def Cluster.sync (connect : Nat → Option Exc) (cl : Cluster) (m : Metadata) :
    List Int × List String × Cluster :=
  let (mc, cl) := cl.processBrokers connect m.brokers
  let (mt, cl) := cl.processTopics m.topics
  (mc, mt, cl)

/-- The loop of kiel/cluster.py:141-144.  `list(missing_topics)` is in arbitrary order in
Python; here it is the order of discovery. -/
def healLoop (env : ClusterEnv) :
    Nat → Nat → List Int → List String → Cluster → Run Unit × Cluster
  | 0, _, _, _, cl => (.running, cl)
  | fuel + 1, n, mc, mt, cl =>
    if mc = [] ∧ mt = [] then (.done (), cl)
    else
      match getMetadata (env.ask n mt) cl.conns with
      | .error e => (.raised e, cl)
      | .ok m =>
        let (mc, mt, cl) := cl.sync (env.connect n) m
        healLoop env fuel (n + 1) mc mt cl

/-- kiel/cluster.py:129-136: closing connections are dropped. -/
def Cluster.cull (cl : Cluster) : Cluster :=
  { cl with conns := cl.conns.filter (fun e => !e.2.closing) }

/-- kiel/cluster.py:113-144 (`heal`).  Without a response, `get_metadata()` is called first,
as round 0.
Simplification: the connections' `closing` flags change only by `process_brokers` while this
runs (a broker that fails meanwhile shows as an error of `ask`), and no other coroutine heals
the same cluster. -/
def Cluster.heal (env : ClusterEnv) (fuel : Nat) (response : Option Metadata) (cl : Cluster) :
    Run Unit × Cluster :=
  let r := match response with
    | some m => Except.ok m
    | .none => getMetadata (env.ask 0 []) cl.conns
  match r with
  | .error e => (.raised e, cl)
  | .ok m =>
    let (mc, mt, cl) := cl.cull.sync (env.connect 0) m
    healLoop env fuel 1 mc mt cl

/-- kiel/constants.py:1 (`DEFAULT_KAFKA_PORT`). -/
def defaultPort : Int := 9092

/-- kiel/cluster.py:84-89: host and port of a bootstrap entry. -/
def parseHost (s : List Char) : Res (List Char × Int) :=
  if ':' ∈ s then
    match splitColon s with
    | [host, port] =>
      match pyInt? port with
      | some p => .ok (host, p)
      | .none => .error .valueError
    | _ => .error .valueError
  else .ok (s, defaultPort)

/-- The loop of kiel/cluster.py:83-104.  `connect h` is the exception, if any, of connecting
to `h`; `ask h` the result of the metadata request sent there.  The result is the first
response, if any host could be connected to. -/
def bootstrap (connect : List Char × Int → Option Exc) (ask : List Char × Int → Res Metadata) :
    List (List Char) → Res (Option Metadata)
  | [] => .ok .none
  | s :: rest =>
    match parseHost s with
    | .error e => .error e
    | .ok h =>
      match connect h with
      | some _ => bootstrap connect ask rest
      | .none =>
        match ask h with
        | .error e => .error e
        | .ok m => .ok (some m)

/-- kiel/cluster.py:71-111 (`start`). -/
def Cluster.start (connect : List Char × Int → Option Exc) (ask : List Char × Int → Res Metadata)
    (env : ClusterEnv) (fuel : Nat) (hosts : List (List Char)) (cl : Cluster) :
    Run Unit × Cluster :=
  match bootstrap connect ask hosts with
  | .error e => (.raised e, cl)
  | .ok .none => (.raised .noBrokers, cl)
  | .ok (some m) => cl.heal env fuel (some m)

/-- kiel/cluster.py:265-270 (`stop`). -/
def Cluster.stop (cl : Cluster) : Cluster :=
  { cl with conns := cl.conns.map (fun e => (e.1, { e.2 with closing := true })) }

end Kiel
