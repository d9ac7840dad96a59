import Verif.Model.Wire
/-
The request and response classes of kiel/protocol/*.py, request construction and
serialization (kiel/protocol/request.py) and the api tables of kiel/constants.py.
-/
namespace Kiel

/-- An item of a `parts` tuple.  Normally a (name, class) pair; kiel/protocol/heartbeat.py
has bare names and bare classes as items. -/
inductive PartsItem where
  | pair (name : String) (t : Ty)
  | name (s : String)
  | cls (t : Ty)

/-- A class statement of kiel/protocol: name, `api` attribute, whether it derives from
`Request` (otherwise from `Response` or `Part`), and `parts`.  The base classes leave `api` and
`parts` empty (kiel/protocol/request.py:44, kiel/protocol/response.py:11,
kiel/protocol/part.py:12). -/
structure Cls where
  name : String
  api : String
  isRequest : Bool
  items : List PartsItem

/-- (name, class) pairs as `Fields`. -/
def mkFields : List (String × Ty) → Fields
  | [] => .nil
  | (n, t) :: r => .cons n t (mkFields r)

/-- A `Part` subclass as a type. -/
def mkPart (l : List (String × Ty)) : Ty := .part (mkFields l)

/-- A class whose `parts` are all pairs. -/
def mkCls (name api : String) (isRequest : Bool) (l : List (String × Ty)) : Cls :=
  ⟨name, api, isRequest, l.map (fun e => .pair e.1 e.2)⟩

namespace Schema

/-- kiel/protocol/metadata.py:18-29. -/
def metadataRequest := mkCls "MetadataRequest" "metadata" true [("topics", .array .string)]
/-- kiel/protocol/metadata.py:32-45 (`Broker`). -/
def metadataBroker := mkPart [("broker_id", .int32), ("host", .string), ("port", .int32)]
/-- kiel/protocol/metadata.py:48-65 (`PartitionMetadata`). -/
def metadataPartition := mkPart [("error_code", .int16), ("partition_id", .int32),
  ("leader", .int32), ("replicas", .array .int32), ("isrs", .array .int32)]
/-- kiel/protocol/metadata.py:68-81 (`TopicMetadata`). -/
def metadataTopic := mkPart [("error_code", .int16), ("name", .string),
  ("partitions", .array metadataPartition)]
/-- kiel/protocol/metadata.py:84-97. -/
def metadataResponse := mkCls "MetadataResponse" "metadata" false
  [("brokers", .array metadataBroker), ("topics", .array metadataTopic)]

/-- kiel/protocol/produce.py:20-31. -/
def producePartitionRequest := mkPart [("partition_id", .int32), ("message_set", .messageSet)]
/-- kiel/protocol/produce.py:34-45. -/
def produceTopicRequest := mkPart [("name", .string),
  ("partitions", .array producePartitionRequest)]
/-- kiel/protocol/produce.py:48-63. -/
def produceRequest := mkCls "ProduceRequest" "produce" true
  [("required_acks", .int16), ("timeout", .int32), ("topics", .array produceTopicRequest)]
/-- kiel/protocol/produce.py:66-79. -/
def producePartitionResponse := mkPart [("partition_id", .int32), ("error_code", .int16),
  ("offset", .int64)]
/-- kiel/protocol/produce.py:82-93. -/
def produceTopicResponse := mkPart [("name", .string),
  ("partitions", .array producePartitionResponse)]
/-- kiel/protocol/produce.py:96-107. -/
def produceResponse := mkCls "ProduceResponse" "produce" false
  [("topics", .array produceTopicResponse)]

/-- kiel/protocol/fetch.py:21-34. -/
def fetchPartitionRequest := mkPart [("partition_id", .int32), ("offset", .int64),
  ("max_bytes", .int32)]
/-- kiel/protocol/fetch.py:37-48. -/
def fetchTopicRequest := mkPart [("name", .string),
  ("partitions", .array fetchPartitionRequest)]
/-- kiel/protocol/fetch.py:51-68. -/
def fetchRequest := mkCls "FetchRequest" "fetch" true
  [("replica_id", .int32), ("max_wait_time", .int32), ("min_bytes", .int32),
   ("topics", .array fetchTopicRequest)]
/-- kiel/protocol/fetch.py:71-86. -/
def fetchPartitionResponse := mkPart [("partition_id", .int32), ("error_code", .int16),
  ("highwater_mark_offset", .int64), ("message_set", .messageSet)]
/-- kiel/protocol/fetch.py:89-100. -/
def fetchTopicResponse := mkPart [("name", .string),
  ("partitions", .array fetchPartitionResponse)]
/-- kiel/protocol/fetch.py:103-114. -/
def fetchResponse := mkCls "FetchResponse" "fetch" false
  [("topics", .array fetchTopicResponse)]

/-- kiel/protocol/offset.py:19-32. -/
def offsetPartitionRequest := mkPart [("partition_id", .int32), ("time", .int64),
  ("max_offsets", .int32)]
/-- kiel/protocol/offset.py:35-46. -/
def offsetTopicRequest := mkPart [("name", .string),
  ("partitions", .array offsetPartitionRequest)]
/-- kiel/protocol/offset.py:49-62. -/
def offsetRequest := mkCls "OffsetRequest" "offset" true
  [("replica_id", .int32), ("topics", .array offsetTopicRequest)]
/-- kiel/protocol/offset.py:65-78. -/
def offsetPartitionResponse := mkPart [("partition_id", .int32), ("error_code", .int16),
  ("offsets", .array .int64)]
/-- kiel/protocol/offset.py:81-92. -/
def offsetTopicResponse := mkPart [("name", .string),
  ("partitions", .array offsetPartitionResponse)]
/-- kiel/protocol/offset.py:95-106. -/
def offsetResponse := mkCls "OffsetResponse" "offset" false
  [("topics", .array offsetTopicResponse)]

/-- kiel/protocol/offset_commit.py:23-36. -/
def commitPartitionRequest := mkPart [("partition_id", .int32), ("offset", .int64),
  ("metadata", .string)]
/-- kiel/protocol/offset_commit.py:39-54. -/
def commitPartitionV1Request := mkPart [("partition_id", .int32), ("offset", .int64),
  ("timestamp", .int64), ("metadata", .string)]
/-- kiel/protocol/offset_commit.py:57-68. -/
def commitTopicRequest := mkPart [("name", .string),
  ("partitions", .array commitPartitionRequest)]
/-- kiel/protocol/offset_commit.py:71-82: the docstring says `[PartitionV1Request]`, the
declaration `PartitionV1Request`, not an array. -/
def commitTopicV1Request := mkPart [("name", .string),
  ("partitions", commitPartitionV1Request)]
/-- kiel/protocol/offset_commit.py:85-98. -/
def commitV0Request := mkCls "OffsetCommitV0Request" "offset_commit" true
  [("group", .string), ("topics", .array commitTopicRequest)]
/-- kiel/protocol/offset_commit.py:101-118. -/
def commitV1Request := mkCls "OffsetCommitV1Request" "offset_commit" true
  [("group", .string), ("generation", .int32), ("consumer_id", .int32),
   ("topics", .array commitTopicV1Request)]
/-- kiel/protocol/offset_commit.py:121-140. -/
def commitV2Request := mkCls "OffsetCommitV2Request" "offset_commit" true
  [("group", .string), ("generation", .int32), ("consumer_id", .int32),
   ("retention_time", .int64), ("topics", .array commitTopicRequest)]
/-- kiel/protocol/offset_commit.py:143-156. -/
def commitPartitionResponse := mkPart [("partition_id", .int32), ("error_code", .int16)]
/-- kiel/protocol/offset_commit.py:159-170. -/
def commitTopicResponse := mkPart [("name", .string),
  ("partitions", .array commitPartitionResponse)]
/-- kiel/protocol/offset_commit.py:173-184. -/
def commitResponse := mkCls "OffsetCommitResponse" "offset_commit" false
  [("topics", .array commitTopicResponse)]

/-- kiel/protocol/offset_fetch.py:18-29. -/
def ofetchTopicRequest := mkPart [("name", .string), ("partitions", .array .int32)]
/-- kiel/protocol/offset_fetch.py:32-45. -/
def ofetchRequest := mkCls "OffsetFetchRequest" "offset_fetch" true
  [("group_name", .string), ("topics", .array ofetchTopicRequest)]
/-- kiel/protocol/offset_fetch.py:48-63. -/
def ofetchPartitionResponse := mkPart [("partition_id", .int32), ("offset", .int64),
  ("metadata", .string), ("error_code", .int16)]
/-- kiel/protocol/offset_fetch.py:66-77. -/
def ofetchTopicResponse := mkPart [("name", .string),
  ("partitions", .array ofetchPartitionResponse)]
/-- kiel/protocol/offset_fetch.py:80-91. -/
def ofetchResponse := mkCls "OffsetFetchResponse" "offset_fetch" false
  [("topics", .array ofetchTopicResponse)]

/-- kiel/protocol/coordinator.py:14-25. -/
def coordinatorRequest := mkCls "GroupCoordinatorRequest" "group_coordinator" true
  [("group", .string)]
/-- kiel/protocol/coordinator.py:28-45. -/
def coordinatorResponse := mkCls "GroupCoordinatorResponse" "group_coordinator" false
  [("error_code", .int16), ("coordinator_id", .int32), ("coordinator_host", .string),
   ("coordinator_port", .int32)]

/-- kiel/protocol/join_group.py:18-33. -/
def joinGroupProtocol := mkPart [("name", .string), ("version", .int16),
  ("subscription", .array .string), ("user_data", .bytes)]
/-- kiel/protocol/join_group.py:36-55. -/
def joinGroupRequest := mkCls "JoinGroupRequest" "join_group" true
  [("group_id", .string), ("session_timeout", .int32), ("member_id", .string),
   ("protocol_type", .string), ("group_protocols", .array joinGroupProtocol)]
/-- kiel/protocol/join_group.py:58-69. -/
def joinGroupMember := mkPart [("member_id", .string), ("metadata", .bytes)]
/-- kiel/protocol/join_group.py:72-93. -/
def joinGroupResponse := mkCls "JoinGroupResponse" "join_group" false
  [("error_code", .int16), ("generation_id", .int32), ("protocol", .string),
   ("leader_id", .string), ("member_id", .string), ("members", .array joinGroupMember)]

/-- kiel/protocol/heartbeat.py:15-30: a flat tuple of names and classes. -/
def heartbeatRequest : Cls := ⟨"HeartbeatRequest", "heartbeat", true,
  [.name "group_id", .cls .string, .name "generation_id", .cls .int32,
   .name "member_id", .cls .string]⟩
/-- kiel/protocol/heartbeat.py:33-44: `("error_code", Int16)`, a flat pair. -/
def heartbeatResponse : Cls := ⟨"HeartbeatResponse", "heartbeat", false,
  [.name "error_code", .cls .int16]⟩

/-- kiel/protocol/leave_group.py:15-28. -/
def leaveGroupRequest := mkCls "LeaveGroupRequest" "leave_group" true
  [("group_id", .string), ("member_id", .string)]
/-- kiel/protocol/leave_group.py:31-42. -/
def leaveGroupResponse := mkCls "LeaveGroupResponse" "leave_group" false
  [("error_code", .int16)]

/-- kiel/protocol/sync_group.py:18-29, kiel/protocol/describe_groups.py:34-45. -/
def topicAssignment := mkPart [("name", .string), ("partitions", .array .int32)]
/-- kiel/protocol/sync_group.py:32-45, kiel/protocol/describe_groups.py:48-61. -/
def assignment := mkPart [("version", .int16), ("topics", .array topicAssignment),
  ("user_data", .bytes)]
/-- kiel/protocol/sync_group.py:48-59. -/
def memberAssignment := mkPart [("member_id", .string), ("assignment", assignment)]
/-- kiel/protocol/sync_group.py:62-79. -/
def syncGroupRequest := mkCls "SyncGroupRequest" "sync_group" true
  [("group_id", .string), ("generation_id", .int32), ("member_id", .string),
   ("assignments", .array memberAssignment)]
/-- kiel/protocol/sync_group.py:82-95. -/
def syncGroupResponse := mkCls "SyncGroupResponse" "sync_group" false
  [("error_code", .int16), ("assignments", .array memberAssignment)]

/-- kiel/protocol/describe_groups.py:20-31. -/
def describeGroupsRequest := mkCls "DescribeGroupsRequest" "describe_groups" true
  [("groups", .array .string)]
/-- kiel/protocol/describe_groups.py:64-81. -/
def memberDescription := mkPart [("member_id", .string), ("client_id", .string),
  ("client_host", .string), ("metadata", .bytes), ("assignment", assignment)]
/-- kiel/protocol/describe_groups.py:84-103. -/
def groupDescription := mkPart [("error_code", .int16), ("group_id", .string),
  ("state", .string), ("protocol_type", .string), ("protocol", .string),
  ("members", .array memberDescription)]
/-- kiel/protocol/describe_groups.py:106-117. -/
def describeGroupsResponse := mkCls "DescribeGroupsResponse" "describe_groups" false
  [("groups", .array groupDescription)]

/-- kiel/protocol/list_groups.py:17-25. -/
def listGroupsRequest := mkCls "ListGroupsRequest" "list_groups" true []
/-- kiel/protocol/list_groups.py:28-39. -/
def listGroup := mkPart [("group_id", .string), ("protocol_type", .string)]
/-- kiel/protocol/list_groups.py:42-55. -/
def listGroupsResponse := mkCls "ListGroupsResponse" "list_groups" false
  [("error_code", .int16), ("groups", .array listGroup)]

/-- All request classes of kiel/protocol. -/
def requests : List Cls :=
  [metadataRequest, produceRequest, fetchRequest, offsetRequest, commitV0Request,
   commitV1Request, commitV2Request, ofetchRequest, coordinatorRequest, joinGroupRequest,
   heartbeatRequest, leaveGroupRequest, syncGroupRequest, describeGroupsRequest,
   listGroupsRequest]

/-- All response classes of kiel/protocol. -/
def responses : List Cls :=
  [metadataResponse, produceResponse, fetchResponse, offsetResponse, commitResponse,
   ofetchResponse, coordinatorResponse, joinGroupResponse, heartbeatResponse,
   leaveGroupResponse, syncGroupResponse, describeGroupsResponse, listGroupsResponse]

end Schema

/-- kiel/constants.py:15-29 (`API_KEYS`). -/
def apiKeys : Dict String Int :=
  [("produce", 0), ("fetch", 1), ("offset", 2), ("metadata", 3), ("offset_commit", 8),
   ("offset_fetch", 9), ("group_coordinator", 10), ("join_group", 11), ("heartbeat", 12),
   ("leave_group", 13), ("sync_group", 14), ("describe_groups", 15), ("list_groups", 16)]

/-- kiel/constants.py:10 (`CLIENT_ID`). -/
def clientId : String := "kiel"

/-- kiel/constants.py:13 (`API_VERSION`). -/
def apiVersion : Int := 0

/-- `item[0]` of kiel/protocol/part.py:15: a class is not subscriptable, a name gives its
first character. -/
def PartsItem.first : PartsItem → Res String
  | .pair n _ => .ok n
  | .name s =>
    match s.toList with
    | [] => .error .indexError
    | c :: _ => .ok (String.singleton c)
  | .cls _ => .error .typeError

/-- `for name, part_class in parts` (kiel/protocol/part.py:39,62): a string unpacks into
its characters, of which there must be two (and then the second one is no class); a class
is not iterable. -/
def PartsItem.unpack : PartsItem → Res (String × Ty)
  | .pair n t => .ok (n, t)
  | .name s => .error (if s.length = 2 then .typeError else .valueError)
  | .cls _ => .error .typeError

/-- The comprehension of kiel/protocol/part.py:15. -/
def partNames : List PartsItem → Res (List String)
  | [] => .ok []
  | i :: is =>
    match i.first with
    | .error e => .error e
    | .ok n =>
      match partNames is with
      | .error e => .error e
      | .ok ns => .ok (n :: ns)

/-- kiel/protocol/part.py:14-21 (`Part.__init__`): the attributes of the new instance. -/
def initPart (items : List PartsItem) (kwargs : List (String × Val)) :
    Res (List (String × Val)) :=
  match partNames items with
  | .error e => .error e
  | .ok names =>
    if kwargs.all (fun e => names.contains e.1) then .ok kwargs else .error .valueError

/-- kiel/protocol/part.py:23-50 (`Part.render`) for a `parts` tuple that may be
malformed. -/
def renderItems : List PartsItem → List (String × Val) → Res (List Fmt × List Val)
  | [], _ => .ok ([], [])
  | i :: is, attrs =>
    match i.unpack with
    | .error e => .error e
    | .ok (name, t) =>
      match render t (getAttr attrs name) with
      | .error e => .error e
      | .ok (f, d) =>
        match renderItems is attrs with
        | .error e => .error e
        | .ok (fs, ds) => .ok (f ++ fs, d ++ ds)

/-- The loop of kiel/protocol/part.py:62-66 for a `parts` tuple that may be malformed. -/
def parseItemsOf (cx : Codec) (depth : Nat) :
    List PartsItem → Bytes → Nat → Res (List (String × Val) × Nat)
  | [], _, offset => .ok ([], offset)
  | i :: is, buff, offset =>
    match i.unpack with
    | .error e => .error e
    | .ok (name, t) =>
      match parse cx depth t buff offset with
      | .error e => .error e
      | .ok (v, offset) =>
        match parseItemsOf cx depth is buff offset with
        | .error e => .error e
        | .ok (kvs, offset) => .ok ((name, v) :: kvs, offset)

/-- kiel/protocol/response.py:13-24 with part.py:52-68: `cls.deserialize(raw)`, ending with
`cls(**values)`. -/
def Cls.deserialize (cx : Codec) (depth : Nat) (c : Cls) (raw : Bytes) : Res Val :=
  match parseItemsOf cx depth c.items raw 0 with
  | .error e => .error e
  | .ok (kvs, _) =>
    match initPart c.items kvs with
    | .error e => .error e
    | .ok attrs => .ok (.part attrs)

/-- kiel/protocol/request.py:15-20: the seed of `last_id`, from a hash of the host name
and the process id.  `+` binds tighter than `&`. -/
def seedId (machine pid : Nat) : Nat := (machine + pid) &&& 0xffffff

/-- A request instance: its class and attributes. -/
structure Req where
  cls : Cls
  attrs : List (String × Val)
  correlationId : Int

/-- kiel/protocol/request.py:46-52 (`Request.__init__`) with `generate_correlation_id`
(23-34): the new request, if any, and `last_id` afterwards. -/
def newRequest (lastId : Int) (c : Cls) (kwargs : List (String × Val)) : Res Req × Int :=
  match initPart c.items kwargs with
  | .error e => (.error e, lastId)
  | .ok attrs =>
    let attrs := Dict.set attrs "client_id" (.str clientId)
    match Dict.get? apiKeys c.api with
    | .none => (.error .keyError, lastId)
    | some k =>
      let attrs := Dict.set attrs "api_key" (.int k)
      let attrs := Dict.set attrs "api_version" (.int apiVersion)
      let lastId := lastId + 1
      (.ok ⟨c, Dict.set attrs "correlation_id" (.int lastId), lastId⟩, lastId)

/-- `preamble_parts` of kiel/protocol/request.py:70-75. -/
def preambleParts : Fields :=
  mkFields [("api_key", .int16), ("api_version", .int16), ("correlation_id", .int32),
    ("client_id", .string)]

/-- kiel/protocol/request.py:54-86 (`Request.serialize`). -/
def Req.serialize (r : Req) : Res Bytes :=
  match renderFields preambleParts r.attrs with
  | .error e => .error e
  | .ok (pf, pd) =>
    match renderItems r.cls.items r.attrs with
    | .error e => .error e
    | .ok (f, d) => pack (pf ++ f) (pd ++ d)

/-- What `Connection.send` writes to the stream (kiel/connection.py:122-123). -/
def frame (payload : Bytes) : Res Bytes :=
  match packInt 4 payload.length with
  | .error e => .error e
  | .ok size => .ok (size ++ payload)

/-- kiel/connection.py:24-32 (`response_classes`). -/
def responseClasses : Dict String Cls :=
  [("metadata", Schema.metadataResponse), ("produce", Schema.produceResponse),
   ("fetch", Schema.fetchResponse), ("offset", Schema.offsetResponse),
   ("offset_commit", Schema.commitResponse), ("offset_fetch", Schema.ofetchResponse),
   ("group_coordinator", Schema.coordinatorResponse)]

end Kiel
