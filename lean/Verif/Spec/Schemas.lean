import Verif.Spec.Wire
/-
The request and response layouts as the docstrings of kiel/protocol/*.py (and the Kafka
protocol guide they quote) give them.  Field names are the keyword arguments of the classes.
Written from the docstrings, not from the `parts` tuples.
-/
namespace Kiel.Spec
open Kiel

/-- A documented class: name, api, request or response, fields. -/
structure Doc where
  name : String
  api : String
  isRequest : Bool
  fields : List (String × Ty)

/-- Named fields as a field list. -/
def fieldsOf : List (String × Ty) → Fields
  | [] => .nil
  | (n, t) :: r => .cons n t (fieldsOf r)

/-- `[T]` in the docstrings. -/
def arr (t : Ty) : Ty := .array t
/-- A nested structure. -/
def struct (l : List (String × Ty)) : Ty := .part (fieldsOf l)

/-- Topic name and one entry per partition. -/
def perTopic (t : Ty) : Ty := arr (struct [("name", .string), ("partitions", arr t)])

/-- Assignment (consumer protocol). -/
def assignmentDoc : Ty := struct [("version", .int16),
  ("topics", perTopic .int32), ("user_data", .bytes)]

/-- The documented layouts. -/
def documented : List Doc :=
  [⟨"MetadataRequest", "metadata", true, [("topics", arr .string)]⟩,
   ⟨"MetadataResponse", "metadata", false,
     [("brokers", arr (struct [("broker_id", .int32), ("host", .string), ("port", .int32)])),
      ("topics", arr (struct [("error_code", .int16), ("name", .string),
        ("partitions", arr (struct [("error_code", .int16), ("partition_id", .int32),
          ("leader", .int32), ("replicas", arr .int32), ("isrs", arr .int32)]))]))]⟩,
   ⟨"ProduceRequest", "produce", true,
     [("required_acks", .int16), ("timeout", .int32),
      ("topics", perTopic (struct [("partition_id", .int32), ("message_set", .messageSet)]))]⟩,
   ⟨"ProduceResponse", "produce", false,
     [("topics", perTopic (struct [("partition_id", .int32), ("error_code", .int16),
       ("offset", .int64)]))]⟩,
   ⟨"FetchRequest", "fetch", true,
     [("replica_id", .int32), ("max_wait_time", .int32), ("min_bytes", .int32),
      ("topics", perTopic (struct [("partition_id", .int32), ("offset", .int64),
        ("max_bytes", .int32)]))]⟩,
   ⟨"FetchResponse", "fetch", false,
     [("topics", perTopic (struct [("partition_id", .int32), ("error_code", .int16),
       ("highwater_mark_offset", .int64), ("message_set", .messageSet)]))]⟩,
   ⟨"OffsetRequest", "offset", true,
     [("replica_id", .int32), ("topics", perTopic (struct [("partition_id", .int32),
       ("time", .int64), ("max_offsets", .int32)]))]⟩,
   ⟨"OffsetResponse", "offset", false,
     [("topics", perTopic (struct [("partition_id", .int32), ("error_code", .int16),
       ("offsets", arr .int64)]))]⟩,
   ⟨"OffsetCommitV0Request", "offset_commit", true,
     [("group", .string), ("topics", perTopic (struct [("partition_id", .int32),
       ("offset", .int64), ("metadata", .string)]))]⟩,
   ⟨"OffsetCommitV1Request", "offset_commit", true,
     [("group", .string), ("generation", .int32), ("consumer_id", .int32),
      ("topics", perTopic (struct [("partition_id", .int32), ("offset", .int64),
        ("timestamp", .int64), ("metadata", .string)]))]⟩,
   ⟨"OffsetCommitV2Request", "offset_commit", true,
     [("group", .string), ("generation", .int32), ("consumer_id", .int32),
      ("retention_time", .int64), ("topics", perTopic (struct [("partition_id", .int32),
       ("offset", .int64), ("metadata", .string)]))]⟩,
   ⟨"OffsetCommitResponse", "offset_commit", false,
     [("topics", perTopic (struct [("partition_id", .int32), ("error_code", .int16)]))]⟩,
   ⟨"OffsetFetchRequest", "offset_fetch", true,
     [("group_name", .string), ("topics", perTopic .int32)]⟩,
   ⟨"OffsetFetchResponse", "offset_fetch", false,
     [("topics", perTopic (struct [("partition_id", .int32), ("offset", .int64),
       ("metadata", .string), ("error_code", .int16)]))]⟩,
   ⟨"GroupCoordinatorRequest", "group_coordinator", true, [("group", .string)]⟩,
   ⟨"GroupCoordinatorResponse", "group_coordinator", false,
     [("error_code", .int16), ("coordinator_id", .int32), ("coordinator_host", .string),
      ("coordinator_port", .int32)]⟩,
   ⟨"JoinGroupRequest", "join_group", true,
     [("group_id", .string), ("session_timeout", .int32), ("member_id", .string),
      ("protocol_type", .string), ("group_protocols", arr (struct [("name", .string),
        ("version", .int16), ("subscription", arr .string), ("user_data", .bytes)]))]⟩,
   ⟨"JoinGroupResponse", "join_group", false,
     [("error_code", .int16), ("generation_id", .int32), ("protocol", .string),
      ("leader_id", .string), ("member_id", .string),
      ("members", arr (struct [("member_id", .string), ("metadata", .bytes)]))]⟩,
   ⟨"HeartbeatRequest", "heartbeat", true,
     [("group_id", .string), ("generation_id", .int32), ("member_id", .string)]⟩,
   ⟨"HeartbeatResponse", "heartbeat", false, [("error_code", .int16)]⟩,
   ⟨"LeaveGroupRequest", "leave_group", true,
     [("group_id", .string), ("member_id", .string)]⟩,
   ⟨"LeaveGroupResponse", "leave_group", false, [("error_code", .int16)]⟩,
   ⟨"SyncGroupRequest", "sync_group", true,
     [("group_id", .string), ("generation_id", .int32), ("member_id", .string),
      ("assignments", arr (struct [("member_id", .string), ("assignment", assignmentDoc)]))]⟩,
   ⟨"SyncGroupResponse", "sync_group", false,
     [("error_code", .int16),
      ("assignments", arr (struct [("member_id", .string), ("assignment", assignmentDoc)]))]⟩,
   ⟨"DescribeGroupsRequest", "describe_groups", true, [("groups", arr .string)]⟩,
   ⟨"DescribeGroupsResponse", "describe_groups", false,
     [("groups", arr (struct [("error_code", .int16), ("group_id", .string),
       ("state", .string), ("protocol_type", .string), ("protocol", .string),
       ("members", arr (struct [("member_id", .string), ("client_id", .string),
         ("client_host", .string), ("metadata", .bytes), ("assignment", assignmentDoc)]))]))]⟩,
   ⟨"ListGroupsRequest", "list_groups", true, []⟩,
   ⟨"ListGroupsResponse", "list_groups", false,
     [("error_code", .int16),
      ("groups", arr (struct [("group_id", .string), ("protocol_type", .string)]))]⟩]

/-- Api keys of the Kafka protocol. -/
def apiKey : String → Option Int
  | "produce" => some 0
  | "fetch" => some 1
  | "offset" => some 2
  | "metadata" => some 3
  | "offset_commit" => some 8
  | "offset_fetch" => some 9
  | "group_coordinator" => some 10
  | "join_group" => some 11
  | "heartbeat" => some 12
  | "leave_group" => some 13
  | "sync_group" => some 14
  | "describe_groups" => some 15
  | "list_groups" => some 16
  | _ => none

/-- What precedes the fields of a request: api key, version 0, correlation id, client. -/
def preamble (key corr : Int) : Bytes :=
  be 2 key ++ be 2 0 ++ be 4 corr ++ (be 2 4 ++ [0x6b, 0x69, 0x65, 0x6c])

/-- The keyword arguments are declared fields. -/
def Declared (fields : List (String × Ty)) (kwargs : List (String × Val)) : Prop :=
  ∀ e ∈ kwargs, e.1 ∈ fields.map (·.1)

end Kiel.Spec
