import Verif.Model.Py
/-
kiel/constants.py and kiel/protocol/errors.py: error codes.
-/
namespace Kiel

/-- kiel/constants.py:37-70 (`ERROR_CODES`). -/
def errorCodes : Dict Int String :=
  [(0, "no_error"), (-1, "unknown"), (1, "offset_out_of_range"), (2, "invalid_message"),
   (3, "unknown_topic_or_partition"), (4, "invalid_message_size"), (5, "leader_not_available"),
   (6, "not_partition_leader"), (7, "request_timed_out"), (8, "broker_not_available"),
   (9, "replica_not_available"), (10, "message_size_too_large"), (11, "stale_controller_epoch"),
   (12, "offset_metadata_too_large"), (14, "offsets_load_in_progress"),
   (15, "coordinator_not_available"), (16, "not_coordinator"), (17, "invalid_topic"),
   (18, "record_list_too_large"), (19, "not_enough_replicas"),
   (20, "not_enough_replicas_after_append"), (21, "invalid_required_acks"),
   (22, "illegal_generation"), (23, "inconsistent_group_protocol"), (24, "invalid_group_id"),
   (25, "unknown_member_id"), (26, "invalid_session_timeout"), (27, "rebalance_in_progress"),
   (28, "invalid_commit_offset_size"), (29, "topic_authorization_failed"),
   (30, "group_authorization_failed"), (31, "cluster_authorization_failed")]

/-- kiel/constants.py:72-83 (`RETRIABLE_CODES`). -/
def retriableCodes : List String :=
  ["invalid_message", "unknown_topic_or_partition", "leader_not_available",
   "not_partition_leader", "request_timed_out", "offsets_load_in_progress",
   "coordinator_not_available", "not_coordinator", "not_enough_replicas",
   "not_enough_replicas_after_append"]

/-- The `errors` object of kiel/protocol/errors.py:6-11: its attributes set by the loop, and
`errors.retriable`. -/
structure Errors where
  attrs : Dict String Int
  retriable : List Int

/-- The loop of kiel/protocol/errors.py:13-16. -/
def mkErrors (table : Dict Int String) (names : List String) : Errors :=
  table.foldl (fun e p =>
    { attrs := e.attrs.set p.2 p.1
      retriable := if p.2 ∈ names then addSet e.retriable p.1 else e.retriable }) ⟨[], []⟩

/-- kiel/protocol/errors.py:10 (`errors`). -/
def errors : Errors := mkErrors errorCodes retriableCodes

/-- `errors.<name>`, for use in the models of the clients: the codes they compare with
(kiel/constants.py:37-70). `C63_codes` in Verif/Props/Errors.lean checks each against
`errors`. -/
def Err.noError : Int := 0
@[inherit_doc Err.noError] def Err.offsetOutOfRange : Int := 1
@[inherit_doc Err.noError] def Err.unknownTopicOrPartition : Int := 3
@[inherit_doc Err.noError] def Err.leaderNotAvailable : Int := 5
@[inherit_doc Err.noError] def Err.replicaNotAvailable : Int := 9
@[inherit_doc Err.noError] def Err.offsetMetadataTooLarge : Int := 12
@[inherit_doc Err.noError] def Err.offsetsLoadInProgress : Int := 14
@[inherit_doc Err.noError] def Err.retriable : List Int := [2, 3, 5, 6, 7, 14, 15, 16, 19, 20]

end Kiel
