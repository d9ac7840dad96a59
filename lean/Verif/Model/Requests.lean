import Verif.Model.Schemas
import Verif.Model.Producer
import Verif.Model.Single
import Verif.Model.Grouped
/-
The requests of the clients as instances of the classes of kiel/protocol, and what
`Connection.send` makes of them.
-/
set_option autoImplicit false
namespace Kiel

/-- What `Connection.send` writes for a new request on an open connection
(kiel/connection.py:122-133), or the exception of constructing or serializing it. -/
def onWire (r : Res Req × Int) : Res Bytes :=
  match r.1 with
  | .error e => .error e
  | .ok r =>
    match r.serialize with
    | .error e => .error e
    | .ok payload => frame payload

/-- kiel/clients/producer.py:106-111 and 178-180: the message set for one partition. -/
def producerComp (cx : Codec) (compression : Option Int) (ms : List (Msg Val Val)) :
    Res (List (Val × Val)) :=
  compressedSet cx compression (ms.map fun m => mkMessage 0 m.key m.value)

/-- kiel/clients/producer.py:165-183: the request to one broker. `acks`, `timeout`:
`self.required_acks` and `self.ack_timeout`.  The parts are appended one by one in the code. -/
def PReq.make (acks timeout : Int) (r : PReq (List (Val × Val))) : Res Req × Int :=
  newRequest (r.corr - 1) Schema.produceRequest
    [("required_acks", .int acks), ("timeout", .int timeout),
     ("topics", .list (r.topics.map fun t =>
        .part [("name", .str t.1), ("partitions", .list (t.2.map fun p =>
          .part [("partition_id", .int p.1), ("message_set", .mset p.2)]))]))]

/-- kiel/constants.py:34 (`CONSUMER_REPLICA_ID`). -/
def consumerReplicaId : Int := -1

/-- kiel/clients/consumer.py:114-128: the request to one broker. -/
def FReq.make (lastId : Int) (r : FReq) : Res Req × Int :=
  newRequest lastId Schema.fetchRequest
    [("replica_id", .int consumerReplicaId), ("max_wait_time", .int r.maxWait),
     ("min_bytes", .int r.minBytes),
     ("topics", .list [.part [("name", .str r.topic), ("partitions", .list (r.parts.map fun p =>
        .part [("partition_id", .int p.id), ("offset", .int p.offset),
          ("max_bytes", .int p.maxBytes)]))]])]

/-- The `time` of an offset request as a Python value. -/
def Stamp.val : Stamp → Val
  | .int i => .int i
  | .float us => .flt (toString us ++ "e-6")

/-- kiel/clients/single.py:64-82: the request to one broker. -/
def OReq.make (lastId : Int) (r : OReq) : Res Req × Int :=
  newRequest lastId Schema.offsetRequest
    [("replica_id", .int consumerReplicaId),
     ("topics", .list [.part [("name", .str r.topic), ("partitions", .list (r.parts.map fun p =>
        .part [("partition_id", .int p), ("time", r.time.val), ("max_offsets", .int 1)]))]])]

/-- kiel/clients/grouped.py:107. -/
def coordinatorMake (lastId : Int) (group : String) : Res Req × Int :=
  newRequest lastId Schema.coordinatorRequest [("group", .str group)]

/-- kiel/clients/grouped.py:156-163. -/
def offsetFetchMake (lastId : Int) (group topic : String) (parts : List Int) : Res Req × Int :=
  newRequest lastId Schema.ofetchRequest
    [("group_name", .str group),
     ("topics", .list [.part [("name", .str topic), ("partitions", .list (parts.map .int))]])]

/-- kiel/clients/grouped.py:224-241. -/
def CommitReq.make (lastId : Int) (group : String) (r : CommitReq) : Res Req × Int :=
  newRequest lastId Schema.commitV0Request
    [("group", .str group),
     ("topics", .list (r.topics.map fun t =>
        .part [("name", .str t.1), ("partitions", .list (t.2.map fun p =>
          .part [("partition_id", .int p.1), ("offset", .int p.2),
            ("metadata", .str r.metadata)]))]))]

/-- kiel/cluster.py:102 and 162-164. -/
def metadataMake (lastId : Int) (topics : List String) : Res Req × Int :=
  newRequest lastId Schema.metadataRequest [("topics", .list (topics.map .str))]

end Kiel
