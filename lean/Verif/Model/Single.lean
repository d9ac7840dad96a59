import Verif.Model.Consumer
/-
kiel/clients/single.py: the consumer of all partitions.
-/
set_option autoImplicit false
namespace Kiel

variable {β δ : Type}

/-- The `start` argument of `consume` (kiel/clients/single.py:44-56): nothing, an integer (such
as `BEGINNING` or `END`), a naive `datetime` given as microseconds since the epoch, or a
`timedelta` in microseconds. -/
inductive Start where
  | unset
  | int (i : Int)
  | datetime (us : Int)
  | timedelta (us : Int)
  deriving DecidableEq, Repr

/-- kiel/clients/single.py:32 (`BEGINNING`) and 34 (`END`). -/
def beginning : Int := -2
@[inherit_doc beginning] def endOffset : Int := -1

/-- The `time` of an offset request: an integer, or a float. Floats are given as microseconds;
their rounding is not modelled. -/
inductive Stamp where
  | int (i : Int)
  | float (us : Int)
  deriving DecidableEq, Repr

/-- kiel/clients/single.py:130-145 (`start_to_timestamp`), after 59-60 of `determine_offsets`.
`now`: the clock, in seconds.  `total_seconds()` is a float, and so is a difference with a
float. -/
def startToTimestamp (now : Int) : Start → Stamp
  | .unset => .int endOffset
  | .int i => .int i
  | .datetime us => .float us
  | .timedelta us => .float (now * 1000000 - us)

/-- kiel/protocol/offset.py:49-62 (`OffsetRequest`), with the broker it is for and its only
topic.  Each partition asks for one offset (kiel/clients/single.py:80). -/
structure OReq where
  broker : Int
  topic : String
  time : Stamp
  parts : List Int
  deriving DecidableEq, Repr

/-- kiel/protocol/offset.py:65-78 (`PartitionResponse`). -/
structure OPart where
  id : Int
  code : Int
  offsets : List Int
  deriving DecidableEq, Repr

/-- kiel/protocol/offset.py:95-106 (`OffsetResponse`). -/
structure OResp where
  topics : List (String × List OPart)
  deriving DecidableEq, Repr

/-- A `SingleConsumer` adds no attributes (kiel/clients/single.py:22). -/
abbrev Single := Consumer Unit

/-- kiel/clients/single.py:37-42 (`allocation`). -/
def Single.allocation (c : Single) : Res (Dict String (List Int)) := .ok c.cluster.topics

/-- The loop of kiel/clients/single.py:104-120. -/
def handleOffsetParts (topic : String) : List OPart → Single → Res Unit × Single
  | [], c => (.ok (), c)
  | p :: rest, c =>
    if p.code = Err.noError then
      match p.offsets with
      | [] => (.error .indexError, c)
      | offset :: _ =>
        handleOffsetParts topic rest
          (if offset ≥ 0 then { c with offsets := c.offsets.put topic p.id offset } else c)
    else if p.code ∈ Err.retriable then
      handleOffsetParts topic rest
        { c with heal := true, synced := discard c.synced topic }
    else
      match errorCodes.get? p.code with
      | .none => (.error .keyError, c)
      | some _ => (.error .noOffsets, c)

/-- kiel/clients/single.py:91-120 (`handle_offset_response`). -/
def handleOffsetResponse (r : OResp) (c : Single) : Res Unit × Single :=
  match r.topics with
  | [] => (.error .indexError, c)
  | (topic, parts) :: _ => handleOffsetParts topic parts c

/-- How `send` sees the handler of offset responses (kiel/clients/client.py:97-102). -/
def offsetHandlers : Handlers Single OResp Unit where
  api _ := "offset"
  handle r := some fun c =>
    match handleOffsetResponse r c with
    | (res, c') => (res, { c' with heal := false }, c'.heal)

/-- What the environment does during one `determine_offsets`. -/
structure OffsetEnv where
  now : Int
  outcomes : List OReq → List (Int × Res OResp)
  write : Int → Option Exc
  healC : Cluster → Res Unit × Cluster

/-- The exception, if any, of serializing the request to broker `b`: the `time` field is an
`Int64`, which packs integers only (see `C43_float` in Verif/Props/Single.lean for the wire
format). -/
def offsetWrite (write : Int → Option Exc) (reqs : List OReq) (b : Int) : Option Exc :=
  match reqs.find? (fun r => decide (r.broker = b)) with
  | some ⟨_, _, .float _, _ :: _⟩ => some .structError
  | _ => write b

/-- kiel/clients/single.py:44-89 (`determine_offsets`): result, consumer, and the requests. -/
def Single.determineSent (env : OffsetEnv) (topic : String) (start : Start) (c : Single) :
    Res Unit × Single × List OReq :=
  let time := startToTimestamp env.now start
  let (topics, parts) := c.cluster.topics.getDefault topic []
  match groupByLeader topic parts { c.cluster with topics := topics } [] with
  | (.error e, cl) => (.error e, { c with cluster := cl }, [])
  | (.ok ordered, cl) =>
    let c := { c with cluster := cl }
    let reqs := ordered.map fun e => (⟨e.1, topic, time, e.2⟩ : OReq)
    match clientSend offsetHandlers (fun b => c.cluster.conns.has b) (offsetWrite env.write reqs)
        (fun c => ((env.healC c.cluster).1, { c with cluster := (env.healC c.cluster).2 }))
        (reqs.map (·.broker)) (env.outcomes reqs) { c with heal := false } c.heal with
    | (.error e, c, heal, _) => (.error e, { c with heal := heal }, reqs)
    | (.ok _, c, heal, _) => (.ok (), { c with heal := heal }, reqs)

/-- kiel/clients/single.py:44-89, without the requests. -/
def Single.determine (env : OffsetEnv) (topic : String) (start : Start) (c : Single) :
    Res Unit × Single :=
  ((c.determineSent env topic start).1, (c.determineSent env topic start).2.1)

/-- `consume` of a `SingleConsumer` (kiel/clients/consumer.py:72-136). -/
def Single.consume (cfg : CCfg β δ) (oenv : OffsetEnv) (env : ConsumeEnv Unit β) (topic : String)
    (start : Start) (c : Single) : Res (Option (List δ)) × Single × List CAct :=
  Consumer.consume Single.allocation (Single.determine oenv topic start) cfg env topic c

/-- `close` of a `SingleConsumer` (kiel/clients/client.py:34-45, kiel/clients/single.py:122-127). -/
def Single.close (c : Single) : Single := { c with closing := true, cluster := c.cluster.stop }

/-- A new `SingleConsumer` (kiel/clients/consumer.py:26-47) whose cluster is in the given
state. -/
def Single.new (cl : Cluster) : Single := ⟨cl, [], [], false, false, ()⟩

end Kiel
