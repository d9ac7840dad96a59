# Design

A formal model of theoren/kiel (a Tornado client for Kafka, in Python) in Lean 4, under
`lean/Verif/`, and proofs about it.

## Layout

* `Verif/Model/*`: the code, function by function. Each definition cites file and lines in /repo,
  and says where it simplifies.
* `Verif/Spec/*`: small specifications the theorems are stated with. They do not use the model's
  helpers: the wire format, for example, is given once more as byte lists (`Spec/Wire.lean`,
  `Spec/Messages.lean`, `Spec/Requests.lean`), a broker's log as a list of entries, a group's state
  as sets.
* `Verif/Lemmas/*`: helper lemmas.
* `Verif/Props/*`: the theorems, named after the properties (`C07_parse`), and beside them
  `example`s with concrete, non-trivial cases that meet their hypotheses.
* `Verif/Util/Krfl.lean`: a tactic that leaves an equation between closed terms to the kernel
  (`Eq.refl`); it adds no axiom.

Suffixes of theorem names: `_partial`: the property holds under the extra hypotheses shown;
`_false`: the property, as stated in properties.jsonl, does not hold of the code, proved with a
concrete case. In MANIFEST.json such properties have status `partial`. Other theorems of the same
property say exactly what the code does instead.

## How the code is modelled

* Functions become Lean functions with explicit state: `Res α × σ` is a result or an exception,
  and the state afterwards; state changed before an exception stays changed.
* Python values are `Val`; dictionaries are association lists in insertion order (`Dict`), sets are
  lists without repetition. Exceptions are `Exc`, by class.
* Loops that need not end are functions of an amount of fuel, with `running` as the result when it
  runs out. Theorems hold for every amount, or fuel is proved not to matter (C06, C10).
* Coroutines: a method whose interleaving with others does not matter to a property is modelled in
  one go, with an environment that supplies what it waits for, and, where another thread may
  interfere, a function applied at each `yield`. Where interleaving is the point, the model is a
  transition system over events, and theorems are about all sequences of events: connections
  (C14-C18), overlapping consumes (C76, C104), overlapping consumes and commits of a grouped consumer
  (C102, C103, C106), overlapping calls of a producer (C87, C107, C108), overlapping sends and heals
  (C78-C80), the ends of overlapping calls of any kind (C105), threads that handle notifications (C59), the shared set (C56), zookeeper sessions (C58).
  Where a method is modelled in both ways, that one call alone does the same in both is proved
  (`consume_alone` in Props/Alone.lean, `commit_alone` and `consume_alone_grouped` in
  Props/GroupAlone.lean, `produce_alone`, `flush_alone` and `close_alone` in Props/ProducerAlone.lean).
* What lies outside (brokers, zookeeper, the network, user-supplied functions) is universally
  quantified, subject to the assumptions below.

## Trusted base

* Lean 4.33.0's kernel. No axioms are added, there is no `sorry`, `admit`, `native_decide` or
  `bv_decide`.
* The model: that the definitions under `Verif/Model` say what the cited lines do. Nothing checks
  this but reading.
* The specifications under `Verif/Spec` and the theorem statements.
* CPython 3 and Tornado 4.x, as the code's other dependencies need. Where Python 2 differs
  (`struct`, text as bytes for kazoo), a parameter (`textOk`) covers both.
* Assumptions about libraries, all explicit as hypotheses or as part of a transition system:
  * gzip: decompressing what was compressed gives it back, and output begins with the magic bytes
    (`Spec.GzipLaws`); raw snappy likewise on blocks (`Spec.SnappyLaws`). Concrete codecs that meet
    the laws are given in examples. CRC-32 is concrete (`crc32`), checked against known values.
  * `struct.pack`/`unpack_from` for the formats `b h i q Ns`: concrete (`Struct.lean`).
  * Tornado: a coroutine runs until it yields; a future's callbacks run later, on the I/O loop;
    `IOStream` delivers bytes in order. A stream that is closed fails its pending read with
    `StreamClosedError`.
  * kazoo: a lock has one holder at a time while sessions last; ephemeral nodes vanish with their
    session; watches call back once when set and then after changes; `set` and `create` take byte
    strings only.
  * CPython's `json`: concrete (`Json.lean`), its documented behaviour character by character.
    User-supplied serializers are arbitrary functions.
  * `str`: a sequence of Unicode scalar values. (Python's can hold lone surrogates as well; these
    cannot be encoded, and are left out.)

### Axioms of each theorem

Obtained with `#print axioms` for every theorem in MANIFEST.json. No theorem depends on `sorryAx`,
on `Lean.ofReduceBool` or on an axiom of this project.

* none (1): C88_false.

* `propext` (15): C10_unavailable, C23_false, C24_first, C24_none, C25_unhandled, C26_false_group, C56_leaky, C61_remove, C62_stop, C63_codes, C68_false, C81_false_bytes, C88_raises, C89_group_fails, C89_kept.

* `Quot.sound`, `propext` (164): C102_false, C103_false, C103_wanted, C105_grouped_ends, C105_producer, C105_producer_ends, C105_sends, C105_sends_end, C105_single_ends, C106_false_order, C106_false_repeats, C107_false, C107_nothing_partial, C108_accepts_nothing_partial, C108_false_queues, C108_false_under_way, C109_false, C112_false_nothing_waits, C120_false, C122_default_partial, C122_false, C122_nothing, C122_raises, C124_queued, C124_raises, C128_discarded, C128_false_for_good, C128_false_healing, C128_false_lost, C128_false_rewinds, C128_half, C128_unfinished, C129_false, C130_false, C131_false, C132_false, C133_false, C133_hangs, C134_consume, C134_false, C134_offsets, C134_others_partial, C135_false_election, C141_each, C141_false, C141_fresh_partial, C141_hides, C14_chunks, C19_getLeader, C19_known, C19_leaders, C19_topics, C20_missing, C21_brokers, C22_last_partial, C23_bootstrap_partial, C23_gives_up, C23_none, C25_order, C25_results, C26_false, C26_heal_fails, C26_heal_partial, C27_batching, C28_succeeds, C29_false, C30_retry, C31_false, C32_false, C33_false, C33_loses, C34_closing, C34_created, C34_unknown, C35_again, C35_conserved, C35_empties, C35_replaced, C38_false_lost, C39_false, C40_false, C43_false, C43_named, C43_requests_partial, C44_closing, C44_false, C44_grouped_closing, C44_no_offsets, C44_raises, C48_false, C49_consumed, C49_every, C49_first, C50_false, C51_false, C52_false, C53_down, C53_false, C53_fatal, C53_found_partial, C53_none, C54_adopted, C55_false, C55_false_forever, C57_false, C57_when, C58_expire, C58_false, C58_history, C58_join_partial, C58_leave, C58_lost_race, C61_false, C63_general, C63_table, C65_false, C66_false, C66_stuck, C67_determine, C67_false, C67_lost, C68_accepted, C71_coordinator, C71_false_fetch, C71_false_produce, C72_false, C72_grouped_partial, C72_producer_partial, C72_producer_raises, C72_single, C73_connected_partial, C73_moved, C73_open_partial, C73_origin, C73_relisted, C75_false, C77_adopted, C77_empty, C78_false, C78_flushes, C78_heals_partial, C79_false, C79_false_stop, C80_false, C88_answers_partial, C88_undisturbed_partial, C89_consume, C89_fetch_again, C89_fetch_next, C89_flush, C89_flush_again, C89_group, C89_group_again, C89_offsets, C89_offsets_again, C89_quiet, C90_stuck, C91_waits_broker, C96_false_commit, C96_false_crash, C96_false_rebalance, commit_alone, consume_synced_grouped, consume_synced_single.

* `Classical.choice`, `Quot.sound`, `propext` (406): C01_encode, C01_parse, C01_parse_inv, C01_refused, C02_bytes, C02_encode, C02_none, C02_parse, C02_refused, C02_scalar, C02_text, C03_attr, C03_encode, C03_parse, C03_roundtrip, C03_unambiguous, C04_C05_requests_partial, C04_false, C04_frame, C04_frame_refused, C04_preamble, C04_refused, C04_written, C05_false_commit_v1, C05_false_heartbeat_request, C05_false_heartbeat_response, C05_responses_partial, C06_bounds, C06_bounds_past, C06_terminates, C07_encode, C07_fetch, C07_parse, C08_crc_partial, C08_exact, C08_false, C08_false_witness, C09_roundtrip, C09_stored, C100_all, C100_committed, C100_exactly_once, C100_group, C101_pipeline, C101_settles, C102_covered_partial, C102_returned_partial, C103_committed_partial, C104_exactly_once_partial, C104_false_repeats, C104_false_skips, C104_no_skip_partial, C105_grouped, C105_single, C106_determined, C106_exactly_once_partial, C106_no_skip_partial, C106_returned_partial, C107_seen_through_partial, C108_at_rest_partial, C109_at_most_once_partial, C10_false, C10_false_witness, C10_roundtrip_partial, C10_terminates, C110_exactly_once, C110_grouped, C110_single, C111_delivered, C111_reads, C111_refuses, C111_set, C112_all, C112_exactly_once, C112_returned, C113_all, C113_exactly_once, C114_committed, C114_false_heals, C114_false_waits, C114_position, C114_returned, C115_delivered, C115_false_ascii, C115_false_utf8_mark, C115_marked_partial, C115_only, C115_unmarked_partial, C116_not_lost, C116_returned, C117_consumer, C117_group, C117_made, C117_single, C118_grouped, C118_in_order, C118_single, C119_blocked, C119_catches_up_partial, C119_false_cut, C119_false_garbled, C119_false_large, C119_read, C11_false, C11_roundtrip_partial, C120_at_rest_partial, C120_kept_partial, C120_never_released, C121_aborted, C121_false, C121_false_closed, C121_never_released, C121_open_partial, C121_unsettled, C123_false, C123_received, C123_responses, C123_sent_partial, C124_as_if, C125_apart_partial, C125_false, C125_names, C125_settled_partial, C125_twins, C126_false, C126_members_partial, C126_one_node, C126_separate, C127_false, C127_reads, C127_refused, C127_start_partial, C127_taken, C128_asks_partial, C129_unconnected, C129_unknown, C129_untold, C12_false, C12_last_partial, C130_consume, C130_not_asked, C130_produce, C130_unknown, C131_topics_partial, C132_noticed, C132_single, C132_stalls, C132_stuck, C133_committed_partial, C133_stuck, C134_send, C135_false_order, C135_keys_partial, C135_listed, C135_same_partial, C136_asks_partial, C136_begins_partial, C136_connects_partial, C136_false, C136_never, C137_elsewhere, C137_false, C137_healed_partial, C137_never, C137_raises, C138_false, C138_stays, C138_taken_out_partial, C139_brings, C139_false, C139_goes_on_partial, C139_loses, C13_fits, C13_increasing, C13_seed, C140_false, C140_goes_on_partial, C140_gone, C140_loses, C140_never, C140_raises, C141_only, C141_stuck, C142_aborted_partial, C142_ends_partial, C142_false, C142_hangs, C142_hangs_lost, C143_connection, C143_results, C144_noticed, C145_ends_partial, C145_false, C145_held, C145_returns_partial, C146_agrees_partial, C146_answer_partial, C146_answers_partial, C146_call, C146_false, C146_hangs, C146_none_partial, C146_passes_partial, C146_raises, C147_agrees_partial, C147_answers_partial, C147_false, C147_hangs, C147_last, C147_none_partial, C147_raises, C14_answered, C14_correlation, C14_frames, C15_once, C16_abort, C17_false, C17_hangs, C17_loss_partial, C18_unintelligible, C22_clean_partial, C22_false, C22_loses, C25_overlap, C28_routing, C29_conservation_partial, C29_distinct, C30_flushed, C30_proper, C31_stuck, C32_close_partial, C35_order, C36_determined, C36_fetches, C36_once, C36_requests, C36_unallocated, C37_offsets, C37_others, C38_exactly_once_partial, C38_false_twice, C38_no_skip, C38_order_partial, C39_results_partial, C40_skipped_partial, C40_stuck, C40_tombstones, C41_codes, C41_unknown, C42_nonneg, C43_float, C43_raises, C44_exactly, C44_first, C44_grouped, C45_exact, C45_exactly_one, C45_malformed, C45_no_members, C46_balanced, C46_total, C47_agree, C48_during, C48_next_partial, C50_dropped, C50_retried_partial, C51_blank_partial, C51_fatal, C51_kept, C51_overlap, C51_unknown, C52_commit_partial, C52_consume_partial, C54_determine, C54_fatal, C54_unknown, C55_nonneg_partial, C56_linearizable, C56_quiet, C57_partial, C57_python3, C59_default, C59_false, C59_false_race, C59_one_at_a_time, C59_partial, C59_unchanged, C60_exact, C60_false, C60_partial, C61_add_partial, C61_remove_text_partial, C62_false, C62_start_partial, C64_false, C64_received_partial, C64_roundtrip_partial, C64_sent, C65_synced_anyway, C68_sends_partial, C68_unavailable, C69_commit, C69_coordinator, C69_fetch, C69_metadata, C69_offset, C69_offset_fetch, C69_produce, C69_written, C70_commit, C70_coordinator, C70_metadata, C70_offset, C70_offset_fetch, C70_produce, C71_commit, C71_fetch, C71_fetch_partial, C71_offset, C71_offset_fetch, C71_produce, C71_produce_partial, C73_false, C74_false, C74_ignored, C75_calls_partial, C75_order_partial, C75_raising_partial, C76_exactly_once_partial, C76_false, C76_no_skip, C77_fatal, C77_starts, C78_consumes, C78_healed, C78_only, C78_producer_only, C78_producer_partial, C79_in_use_partial, C79_stopped_partial, C80_again_partial, C80_raises_partial, C80_undisturbed_partial, C81_classes, C81_false_read, C81_read_back, C81_same_bytes_partial, C81_sets, C82_settled, C82_settles, C82_untold, C83_gives_up, C83_taken_over, C84_false, C84_gone, C84_rejoins_partial, C85_waits, C86_catches_up, C86_in_order, C87_accounted, C87_calls, C90_failed, C90_false, C90_false_coordinator, C90_offsets, C90_order, C90_ready_partial, C90_returned, C91_ends, C91_returns, C91_waits_start, C91_waits_topic, C92_false, C92_waits, C93_canonical, C93_delivered, C93_json, C94_call, C94_calls, C94_empty, C94_false, C94_malformed_partial, C94_raises, C94_read, C94_taken, C95_exhausted, C95_false, C95_first_partial, C95_limit, C95_send, C96_position_partial, C96_quiet_partial, C96_steady_partial, C97_conversation, C97_cut, C98_accounted, C98_delivered, C98_round, C99_pipeline, C99_settles, close_alone, consume_alone, consume_alone_grouped, flush_alone, produce_alone, sends_alone.

## Which parts of the code are modelled

Every definition under `Verif/Model` cites the lines it stands for. The table is made from those
citations: for every function (or class body) of the package, where it is modelled.
Lines that occur in no citation are listed as not modelled.

**kiel/clients/client.py**

* `Client.__init__` (19-25): `Consumer.Consumer`, `Producer.Producer`, `Sends.Sends`; not modelled: lines 20 (the name of the client, made of host, process and a random number).
* `Client.connect` (28-32): `Connect.Grouped.connect`.
* `Client.close` (35-45): `Closing.Grouped.close`, `Producer.Producer.close`, `Produces.ProducerBusy.over`, `Produces.ProducerBusy.step`, `Produces.Producing`, `Single.Single.close`.
* `Client.wind_down` (48-54): not modelled: all of it (abstract).
* `Client.send` (57-108): `Client.Handlers`, `Client.clientSend`, `Client.sendLoop`, `Client.sendStart`, `Consumer.fetchHandlers`, `FirstConsumes.FirstEv`, `FirstConsumes.FirstOut`, `FirstConsumes.SingleBusy.step`.

**kiel/clients/consumer.py**

* `BaseConsumer.__init__` (26-47): `Consumer.CCfg`, `Consumer.Consumer`, `Consumer.Offsets`, `Consumer.Offsets.index`, `Json.chars16`, `Json.decodeDetected`, `Json.detectEncoding`, `Json.jsonDeserializer`.
* `BaseConsumer.allocation` (50-59): not modelled: all of it (abstract).
* `BaseConsumer.determine_offsets` (62-70): not modelled: all of it (abstract).
* `BaseConsumer.consume` (73-136): `Consumer.CCfg`, `Consumer.ConsumeEnv`, `Consumer.Consumer.consume`, `Consumer.Consumer.consumeSynced`, `Consumer.Consumer.fetch`, `Consumer.Consumer.fetches`, `Consumer.Offsets.index`, `Consumer.allocated`.
* `BaseConsumer.handle_fetch_response` (138-175): `Consumer.handleFetchParts`, `Consumer.handleFetchResponse`, `Decode.fpartOf`, `Decode.frespOf`.
* `BaseConsumer.deserialize_messages` (177-205): `Consumer.Offsets.put`, `Consumer.deserializeMessages`, `Decode.Val.messages`.

**kiel/clients/grouped.py**

* `GroupedConsumer.__init__` (30-57): `Allocator.Alloc`, `Allocator.naiveFn`, `Connect.Grouped.allocatedBy`, `GroupOverlap.GroupBusy`, `Grouped.GCfg`, `Grouped.GExt`, `Grouped.Grouped`, `Grouped.Grouped.new`.
* `GroupedConsumer.allocation` (60-64): `Connect.Grouped.allocatedBy`, `Grouped.Grouped.allocation`, `Staff.GroupFirst.allocatedBy`.
* `GroupedConsumer.connect` (67-76): `Connect.Grouped.connect`, `Staff.GroupFirst.coordinatedBy`, `Staff.Staff.run`, `Staff.Staff.step`, `Staff.StaffEv`.
* `GroupedConsumer.consume` (79-96): `FirstGrouped.FirstGroupEv`, `FirstGrouped.GroupFirst.leave`, `FirstGrouped.GroupFirst.step`, `GroupOverlap.Committing`, `GroupOverlap.GroupBusy.finish`, `GroupOverlap.GroupEv`, `GroupOverlap.GroupOut`, `Grouped.Grouped.consume`.
* `GroupedConsumer.determine_coordinator` (99-117): `Grouped.Grouped.coordinatorLoop`, `Grouped.Grouped.determineCoordinator`, `Grouped.Grouped.sendTo`, `Requests.coordinatorMake`, `Staff.GroupFirst.coordinatedBy`, `Staff.Staff.run`.
* `GroupedConsumer.handle_group_coordinator_response` (119-140): `Decode.coordRespOf`, `Grouped.handleCoordinatorResponse`, `Staff.GroupFirst.coordinatedBy`, `Staff.Staff.run`.
* `GroupedConsumer.determine_offsets` (143-168): `FirstGrouped.FirstGroupEv`, `FirstGrouped.FirstGroupOut`, `FirstGrouped.GroupFirst.determine`, `FirstGrouped.GroupFirst.step`, `FirstGrouped.GroupFirst.want`, `FirstGrouped.GroupPhase`, `Grouped.Grouped.determine`, `Grouped.Grouped.determineLoop`.
* `GroupedConsumer.handle_offset_fetch_response` (170-210): `Decode.ofrespOf`, `FirstGrouped.GroupFirst.step`, `Grouped.handleOffsetFetchParts`, `Grouped.handleOffsetFetchResponse`, `Staff.Staff.run`.
* `GroupedConsumer.commit_offsets` (213-250): `GroupOverlap.CommitPhase`, `GroupOverlap.GroupBusy.ask`, `GroupOverlap.GroupBusy.step`, `GroupOverlap.GroupEv`, `GroupOverlap.GroupOut`, `Grouped.Grouped.commit`, `Grouped.Grouped.commitLoop`, `Grouped.commitParts`.
* `GroupedConsumer.handle_offset_commit_response` (252-283): `Decode.commitRespOf`, `Grouped.handleCommitParts`, `Grouped.handleCommitResponse`, `Grouped.handleCommitTopics`, `Staff.Staff.run`.
* `GroupedConsumer.wind_down` (286-290): `Closing.Grouped.close`, `Staff.Staff.run`.
* `naive_allocator` (293-313): `Allocator.Mapped`, `Allocator.Mapping.append`, `Allocator.allocLoop`, `Allocator.naiveAllocator`, `Allocator.naiveFn`, `Allocator.zipCycle`, `Consumer.CCfg`, `Py.splitColon`.

**kiel/clients/producer.py**

* `Producer.__init__` (27-69): `Json.dumps`, `Json.escape`, `Json.jsonSerializer`, `Producer.PCfg`, `Producer.Producer`, `Producer.Producer.new`, `Producer.checkCompression`.
* `Producer.__init__.json_serializer` (47-48): `Json.dumps`, `Json.escape`, `Json.jsonSerializer`, `Producer.PCfg`.
* `Producer.__init__.null_key_maker` (50-51): `Producer.PCfg`.
* `Producer.__init__.random_partitioner` (53-54): `Producer.PCfg`.
* `Producer.unsent_count` (72-76): `Producer.Producer.unsentCount`.
* `Producer.produce` (79-115): `Producer.Msg`, `Producer.Producer.enqueue`, `Producer.Producer.produce`, `Produces.ProducerBusy`, `Produces.ProducerBusy.queues`, `Produces.ProducerBusy.step`, `Produces.Producing`, `Requests.producerComp`.
* `Producer.queue_retries` (117-125): `Producer.Producer.queueRetries`.
* `Producer.flush` (128-190): `Producer.Producer.flush`, `Producer.Producer.prepare`, `Producer.Routing`, `Producer.buildParts`, `Producer.buildRequests`, `Producer.buildTopics`, `Producer.putOrdered`, `Producer.routeMsgs`.
* `Producer.handle_produce_response` (192-223): `Decode.prespOf`, `Producer.Producer.handlePart`, `Producer.Producer.handleParts`, `Producer.Producer.handleResponse`, `Producer.Producer.handleTopics`.
* `Producer.wind_down` (226-230): `Producer.Producer.close`, `Produces.ProducerBusy.step`.

**kiel/clients/single.py**

* `SingleConsumer (body)` (22-127): `Single.beginning`; not modelled: lines 34 (the constant for the end of the log is part of `startToTimestamp`).
* `SingleConsumer.allocation` (38-42): `Single.Single.allocation`.
* `SingleConsumer.determine_offsets` (45-89): `Consumer.groupByLeader`, `FirstConsumes.FirstPhase`, `FirstConsumes.SingleBusy.determine`, `FirstConsumes.SingleBusy.step`, `Requests.OReq.make`, `Single.OReq`, `Single.Single.determine`, `Single.Single.determineSent`.
* `SingleConsumer.determine_offsets.request_factory` (64-70): `FirstConsumes.SingleBusy.determine`, `FirstConsumes.SingleBusy.step`, `Requests.OReq.make`, `Single.Single.determine`, `Single.Single.determineSent`.
* `SingleConsumer.handle_offset_response` (91-120): `Decode.orespOf`, `FirstConsumes.SingleBusy.step`, `Single.handleOffsetParts`, `Single.handleOffsetResponse`.
* `SingleConsumer.wind_down` (123-127): `Single.Single.close`.
* `start_to_timestamp` (130-145): `Single.startToTimestamp`.

**kiel/cluster.py**

* `Cluster.__init__` (26-31): `Cluster.Cluster`, `Cluster.Cluster.new`, `Heals.Shared`, `Wired.Wired`.
* `Cluster.__getitem__` (33-43): `Client.sendStart`, `Wired.sendAll`.
* `Cluster.__contains__` (45-53): `Client.sendStart`.
* `Cluster.__iter__` (55-63): `Grouped.Grouped.coordinatorLoop`.
* `Cluster.get_leader` (65-69): `Cluster.Cluster.getLeader`.
* `Cluster.start` (72-111): `Booting.Boot`, `Booting.Boot.step`, `Booting.BootEv`, `Booting.bootNext`, `Cluster.Cluster.start`, `Cluster.bootstrap`, `Cluster.parseHost`, `Connect.ConnectEnv`.
* `Cluster.heal` (114-144): `Cluster.Cluster.cull`, `Cluster.Cluster.heal`, `Cluster.Cluster.sync`, `Cluster.healLoop`, `Heals.HEv`, `Heals.HealPhase`, `Heals.Healing.put`, `Heals.Healing.step`.
* `Cluster.get_metadata` (147-172): `Asking.Ask`, `Asking.AskEv`, `Asking.Asking.step`, `Asking.askNext`, `Cluster.getMetadata`, `Heals.gatherFrom`, `Heals.gatherMetadata`, `Requests.metadataMake`.
* `Cluster.process_brokers` (175-214): `Cluster.Cluster.processBrokers`, `Cluster.addBrokers`, `Decode.metadataOf`, `Heals.HEv`, `Heals.HealPhase`, `Heals.Healing.step`, `Heals.Shared.shut`, `Heals.brokersLoop`.
* `Cluster.process_topics` (216-263): `Cluster.Cluster.processTopics`, `Cluster.Tables`, `Cluster.processPartition`, `Cluster.processTopic`, `Decode.metadataOf`.
* `Cluster.stop` (265-270): `Cluster.Cluster.stop`, `Heals.HEv`, `Heals.Healing.step`, `Heals.Shared.shut`, `Wired.WEv`, `Wired.closeAll`.

**kiel/compression/gzip.py**

* `compress` (8-26): `Compression.Codec`.
* `decompress` (29-42): `Compression.Codec`, `Wire.gunzipVal`.

**kiel/compression/snappy.py**

* `compress` (27-55): `Compression.snappyBlocks`, `Compression.snappyCompress`.
* `decompress` (58-85): `Compression.snappyDecompress`, `Compression.snappyUnblocks`, `Wire.unsnappyVal`.

**kiel/connection.py**

* `Connection.__init__` (50-58): `Cluster.CConn`, `Connection.Conn`, `Connection.Conn.init`, `Link.Link.init`.
* `Connection.connect` (61-74): `Connection.Conn.init`, `Link.Link.init`.
* `Connection.close` (76-82): `Connection.Conn.close`.
* `Connection.socket_error_handling` (85-99): `Connection.Conn.socketError`.
* `Connection.send` (101-135): `Asking.Asking.step`, `Booting.Boot.step`, `Cluster.getMetadata`, `Connection.Conn.send`, `Connection.Conn.writeDone`, `Connection.Write`, `Consumer.CCfg`, `Produces.ProduceEv`.
* `Connection.send.handle_write` (128-130): `Asking.Asking.step`, `Booting.Boot.step`, `Connection.Conn.send`, `Connection.Conn.writeDone`, `Requests.onWire`, `Wired.Wired.step`.
* `Connection.read_loop` (138-151): `Asking.Asking.step`, `Booting.Boot.step`, `Connection.Conn.deliver`, `Connection.Conn.readError`, `Link.Link.step`, `Produces.ProduceEv`, `Wired.Wired.step`.
* `Connection.abort` (153-176): `Asking.Asking.step`, `Booting.Boot.step`, `Connection.Conn.abort`, `Connection.failAll`, `Wired.Wired.step`.
* `Connection.read_message` (179-206): `Asking.Asking.step`, `Booting.Boot.step`, `Connection.Conn.readMessage`, `Connection.readFrame`, `Consumer.fetchHandlers`, `Decode.prespOf`, `Link.Link.step`, `Wired.Reply`.

**kiel/events.py**

* `wait_on_event` (6-23): `Group.Group.step`.

**kiel/exc.py**

* `KielError (body)` (1-5): `Py.Exc`.
* `NoBrokersError (body)` (8-12): `Py.Exc`.
* `NoOffsetsError (body)` (15-19): `Py.Exc`.
* `BrokerConnectionError.__init__` (26-29): `Py.Exc`.
* `BrokerConnectionError.__str__` (31-32): `Py.Exc`.
* `UnhandledResponseError.__init__` (42-43): `Py.Exc`.
* `UnhandledResponseError.__str__` (45-46): `Py.Exc`.

**kiel/iterables.py**

* `drain` (3-28): `Iterables.CollKind`, `Iterables.Drain.step`, `Iterables.nextItem`.

**kiel/protocol/coordinator.py**

Class bodies: GroupCoordinatorRequest (`Schemas.coordinatorRequest`), GroupCoordinatorResponse (`Grouped.CoordResp`, `Schemas.coordinatorResponse`).

**kiel/protocol/describe_groups.py**

Class bodies: DescribeGroupsRequest (`Schemas.describeGroupsRequest`), TopicAssignment (`Schemas.topicAssignment`), Assignment (`Schemas.assignment`), MemberDescription (`Schemas.memberDescription`), GroupDescription (`Schemas.groupDescription`), DescribeGroupsResponse (`Schemas.describeGroupsResponse`).

**kiel/protocol/errors.py**

Class bodies: Errors (`Errors.Errors`).

**kiel/protocol/fetch.py**

Class bodies: PartitionRequest (`Consumer.FPartReq`, `Schemas.fetchPartitionRequest`), TopicRequest (`Schemas.fetchTopicRequest`), FetchRequest (`Consumer.FReq`, `Schemas.fetchRequest`), PartitionResponse (`Consumer.FPart`, `Schemas.fetchPartitionResponse`), TopicResponse (`Schemas.fetchTopicResponse`), FetchResponse (`Consumer.FResp`, `Schemas.fetchResponse`).

**kiel/protocol/heartbeat.py**

Class bodies: HeartbeatRequest (`Schemas.heartbeatRequest`), HeartbeatResponse (`Schemas.heartbeatResponse`).

**kiel/protocol/join_group.py**

Class bodies: GroupProtocol (`Schemas.joinGroupProtocol`), JoinGroupRequest (`Schemas.joinGroupRequest`), Member (`Schemas.joinGroupMember`), JoinGroupResponse (`Schemas.joinGroupResponse`).

**kiel/protocol/leave_group.py**

Class bodies: LeaveGroupRequest (`Schemas.leaveGroupRequest`), LeaveGroupResponse (`Schemas.leaveGroupResponse`).

**kiel/protocol/list_groups.py**

Class bodies: ListGroupsRequest (`Schemas.listGroupsRequest`), Group (`Schemas.listGroup`), ListGroupsResponse (`Schemas.listGroupsResponse`).

**kiel/protocol/messages.py**

* `MessageSet.__init__` (23-24): `Py.Val`.
* `MessageSet.compressed` (27-62): `Wire.compressedSet`, `Wire.mkMessage`.
* `MessageSet.render` (64-95): `Wire.renderSet`, `Wire.renderSetItems`.
* `MessageSet.__eq__` (97-105): `Equality.eqVal`.
* `MessageSet.__repr__` (107-108): `Show.showVal`.
* `MessageSet.parse` (111-145): `Wire.parseNested`, `Wire.parseSet`, `Wire.parseSetEntry`, `Wire.parseSetLoop`.
* `Message (body)` (148-218): `Producer.Msg`, `Wire.renderMessage`.
* `Message.render` (168-182): `Producer.Msg`, `Wire.renderMessage`.
* `Message.parse` (185-208): `Wire.parseMessage`.
* `Message.__eq__` (210-215): `Equality.eqMessage`.
* `Message.__repr__` (217-218): `Show.showMessage`.

**kiel/protocol/metadata.py**

Class bodies: MetadataRequest (`Schemas.metadataRequest`), Broker (`Cluster.BrokerMd`, `Schemas.metadataBroker`), PartitionMetadata (`Cluster.PartMd`, `Schemas.metadataPartition`), TopicMetadata (`Cluster.TopicMd`, `Schemas.metadataTopic`), MetadataResponse (`Cluster.Metadata`, `Schemas.metadataResponse`).

**kiel/protocol/offset.py**

Class bodies: PartitionRequest (`Schemas.offsetPartitionRequest`), TopicRequest (`Schemas.offsetTopicRequest`), OffsetRequest (`Schemas.offsetRequest`, `Single.OReq`), PartitionResponse (`Schemas.offsetPartitionResponse`, `Single.OPart`), TopicResponse (`Schemas.offsetTopicResponse`), OffsetResponse (`Schemas.offsetResponse`, `Single.OResp`).

**kiel/protocol/offset_commit.py**

Class bodies: PartitionRequest (`Schemas.commitPartitionRequest`), PartitionV1Request (`Schemas.commitPartitionV1Request`), TopicRequest (`Schemas.commitTopicRequest`), TopicV1Request (`Schemas.commitTopicV1Request`), OffsetCommitV0Request (`Grouped.CommitReq`, `Schemas.commitV0Request`), OffsetCommitV1Request (`Schemas.commitV1Request`), OffsetCommitV2Request (`Schemas.commitV2Request`), PartitionResponse (`Schemas.commitPartitionResponse`), TopicResponse (`Schemas.commitTopicResponse`), OffsetCommitResponse (`Grouped.CommitResp`, `Schemas.commitResponse`).

**kiel/protocol/offset_fetch.py**

Class bodies: TopicRequest (`Schemas.ofetchTopicRequest`), OffsetFetchRequest (`Schemas.ofetchRequest`), PartitionResponse (`Grouped.OFPart`, `Schemas.ofetchPartitionResponse`), TopicResponse (`Schemas.ofetchTopicResponse`), OffsetFetchResponse (`Grouped.OFResp`, `Schemas.ofetchResponse`).

**kiel/protocol/part.py**

* `Part (body)` (4-100): `Schemas.Cls`, `Wire.Ty`.
* `Part.__init__` (14-21): `Schemas.PartsItem.first`, `Schemas.initPart`, `Schemas.partNames`.
* `Part.render` (23-50): `Schemas.PartsItem.unpack`, `Schemas.renderItems`, `Struct.Fmt`, `Wire.getAttr`, `Wire.render`, `Wire.renderAll`, `Wire.renderFields`.
* `Part.parse` (53-68): `Schemas.PartsItem.unpack`, `Schemas.parseItemsOf`, `Wire.parseFields`, `Wire.parseMessageParts`.
* `Part.__eq__` (70-80): `Equality.eqFields`, `Equality.eqVal`.
* `Part.__repr__` (82-100): `Show.showFields`, `Show.showVal`, `Show.unset`.
* `Part.__repr__.subpart_string` (84-95): `Show.showFields`, `Show.showVal`, `Show.unset`.

**kiel/protocol/primitives.py**

* `Primitive (body)` (6-51): `Wire.Ty`.
* `Primitive.__init__` (17-18): `Wire.Ty`.
* `Primitive.render` (20-27): `Wire.render`.
* `Primitive.parse` (30-42): `Wire.parseInt`.
* `Primitive.__eq__` (44-48): `Equality.eqVal`.
* `Primitive.__repr__` (50-51): not modelled: all of it (text for logs).
* `VariablePrimitive (body)` (54-114): `Wire.Ty`.
* `VariablePrimitive.render` (60-89): `Wire.renderVar`, `Wire.varBytes`.
* `VariablePrimitive.parse` (92-114): `Json.jsonDeserializer`, `Wire.parseVar`.
* `Int8 (body)` (117-121): `Wire.Ty`.
* `Int16 (body)` (124-128): `Wire.Ty`.
* `Int32 (body)` (131-135): `Wire.Ty`.
* `Int64 (body)` (138-142): `Wire.Ty`.
* `String (body)` (145-152): `Wire.Ty`.
* `String.__repr__` (151-152): `Wire.Ty`.
* `Bytes (body)` (155-159): `Wire.Ty`.
* `Array (body)` (162-231): `Wire.Ty`.
* `Array.of` (172-182): `Wire.Ty`.
* `Array.render` (184-209): `Wire.render`, `Wire.renderAll`.
* `Array.parse` (212-228): `Wire.parseItems`.
* `Array.__repr__` (230-231): not modelled: all of it (text for logs).

**kiel/protocol/produce.py**

Class bodies: PartitionRequest (`Schemas.producePartitionRequest`), TopicRequest (`Schemas.produceTopicRequest`), ProduceRequest (`Schemas.produceRequest`), PartitionResponse (`Producer.PResp`, `Schemas.producePartitionResponse`), TopicResponse (`Producer.PResp`, `Schemas.produceTopicResponse`), ProduceResponse (`Producer.PResp`, `Schemas.produceResponse`).

**kiel/protocol/request.py**

* `generate_correlation_id` (23-34): `Producer.Producer`.
* `Request (body)` (37-86): `Schemas.Cls`.
* `Request.__init__` (46-52): `Schemas.newRequest`.
* `Request.serialize` (54-86): `Schemas.Req.serialize`, `Schemas.preambleParts`.

**kiel/protocol/response.py**

* `Response (body)` (4-24): `Schemas.Cls`.
* `Response.deserialize` (14-24): `Schemas.Cls.deserialize`.

**kiel/protocol/sync_group.py**

Class bodies: TopicAssignment (`Schemas.topicAssignment`), Assignment (`Schemas.assignment`), MemberAssignment (`Schemas.memberAssignment`), SyncGroupRequest (`Schemas.syncGroupRequest`), SyncGroupResponse (`Schemas.syncGroupResponse`).

**kiel/zookeeper/allocator.py**

* `PartitionAllocator.__init__` (31-63): `Allocator.Alloc`, `Allocator.Alloc.new`, `Allocator.AllocFn`, `Group.Group.new`, `Group.Mate`, `Grouped.GExt`.
* `PartitionAllocator.allocation` (66-70): `Allocator.Alloc.allocation`, `Connect.Grouped.allocatedBy`, `Grouped.GExt`.
* `PartitionAllocator.members_path` (73-77): `Group.Group`, `Names.membersPath`.
* `PartitionAllocator.partition_path` (80-84): `Group.Group`, `Names.partitionPath`.
* `PartitionAllocator.start` (86-118): `Group.GEv`, `Staff.Staff.step`, `Startup.Alloc.start`, `Startup.StartEnv`, `Startup.startAdd`, `Startup.startEnd`, `Startup.startJoin`, `Startup.startParty`.
* `PartitionAllocator.stop` (120-139): `Group.GEv`, `Startup.allocatorStop`.
* `PartitionAllocator.connect` (141-146): `Startup.StartEnv`.
* `PartitionAllocator.handle_connection_change` (148-163): `Group.KState`, `Group.Mate.connectionChange`.
* `PartitionAllocator.on_group_members_change` (165-181): `Allocator.Alloc.onMembers`, `Allocator.pySet`, `Allocator.setEq`, `Connect.ConnectEnv`, `Startup.Alloc.collected`, `Startup.Alloc.phase`.
* `PartitionAllocator.on_partition_change` (183-203): `Allocator.Alloc.onPartitions`, `Allocator.setEq`, `Connect.ConnectEnv`, `Startup.Alloc.collected`, `Startup.Alloc.phase`.
* `PartitionAllocator.add_partitions` (205-226): `Allocator.strInt`, `Connect.Grouped.connect`, `Group.Group.step`, `SharedSet.addPartitions`, `SharedSet.addedItems`, `Staff.Staff.step`, `Startup.StartEnv`.
* `PartitionAllocator.remove_partitions` (228-244): `Group.Group.step`, `SharedSet.removePartitions`, `SharedSet.removedItems`.
* `PartitionAllocator.rebalance` (246-270): `Allocator.Alloc.rebalance`, `Allocator.pySorted`, `Connect.Grouped.allocatedBy`, `Grouped.Grouped.rebalanced`, `Halves.FirstGroupEv.remap`, `Halves.FirstGroupEv.unsync`, `Halves.Grouped.remapped`, `Halves.Grouped.unsynced`.
* `create_attempter` (273-289): `Startup.attempt`.
* `create_attempter.attempt` (280-287): `Startup.attempt`.

**kiel/zookeeper/party.py**

* `Party.__init__` (20-26): `Group.Group`.
* `Party.start` (28-38): `Allocator.Note`, `Group.Group.tell`, `Startup.StartEnv`.
* `Party.start.member_change` (37-38): `Allocator.Note`, `Group.Group.tell`, `Startup.StartEnv`.
* `Party.join` (40-67): `Names.memberPath`, `Party.Zk.create`, `Party.Zk.replace`, `Party.partyJoin`.
* `Party.leave` (69-82): `Names.memberPath`, `Party.Zk.delete`, `Party.partyLeave`.

**kiel/zookeeper/shared_set.py**

* `SharedSet.__init__` (15-20): `Group.Group`.
* `SharedSet.lock_path` (23-27): `Names.lockPath`.
* `SharedSet.start` (29-40): `Allocator.Note`, `Group.Group.tell`, `Startup.StartEnv`.
* `SharedSet.start.set_changed` (36-40): `Allocator.Note`, `Group.Group.tell`, `Startup.StartEnv`.
* `SharedSet.add_items` (42-63): `Json.addHashed`, `SharedSet.SetOp.decision`, `SharedSet.SetStep`, `SharedSet.zkSet`.
* `SharedSet.remove_items` (65-82): `SharedSet.SetOp.decision`, `SharedSet.SetStep`, `SharedSet.zkSet`.
* `SharedSet.serialize` (84-88): `Json.SharedSet.serialize`, `Json.dumps`, `Json.escape`.
* `SharedSet.deserialize` (90-94): `Allocator.Alloc.notify`, `Json.SharedSet.deserialize`, `Json.addHashed`, `Json.hashable`, `Json.loads`, `Json.pyItems`.

## Simplifications

Collected from the comments of the model.

* `Allocator.lean`, `Alloc`: `on_rebalance` is given and does not raise (kiel/clients/grouped.py:53 gives `set.clear`).
* `Asking.lean`, `Ask`: `rest` are those of `cluster.conns` when it began; what becomes of the loop when connections are added or removed meanwhile is the subject of `gatherFrom`.
* `Booting.lean`, `Boot.step`: closing the connection once it has answered (kiel/cluster.py:103) is not shown, as nobody else uses it; nor is the `heal()` that follows (kiel/cluster.py:110), see `Cluster.start`.
* `Client.lean`, `clientSend`: no other coroutine changes the client's state or flag meanwhile.
* `Closing.lean`, `Grouped.close`: `stop` leaves the allocation as it is (leaving the group makes kazoo notify the allocator, which is not waited for).
* `Cluster.lean`, `Cluster.processBrokers`: while this waits for connections, no other coroutine changes `conns`.
* `Cluster.lean`, `Cluster.heal`: the connections' `closing` flags change only by `process_brokers` while this runs (a broker that fails meanwhile shows as an error of `ask`), and no other coroutine heals the same cluster.
* `Connection.lean`, `Conn.abort`: futures run their callbacks on the next iteration of the I/O loop (Tornado's `add_future`), so nothing else happens during the loop.
* `Consumer.lean`, `CCfg`: requests that one call repeats raise all or none. `plain`, for a `GroupedConsumer`: whether the dictionaries of topics that its `partition_allocator` makes are plain ones, as docs/clients/zkgrouped.rst:95-109 has it; those of the default one are `defaultdict`s (kiel/clients/grouped.py:305-307).
* `Consumer.lean`, `fetchRequests`: `int(max_bytes / n)` divides floats, which is exact below 2^53; the field has 32 bits.
* `Consumer.lean`, `Consumer.consume`: no two `consume`s of the same consumer run at the same time, and other threads act only while it waits (`ConsumeEnv.tick`).
* `Equality.lean`, `eqScalar`: a number never equals a float, and objects other than numbers and text are equal if their `str()` is.
* `Equality.lean`, `eqList`: no item is the same object as the one it is compared with (Python does not compare those).
* `FirstConsumes.lean`, `SingleBusy.step`: what `heal()` does, wherever it is called, is an event of its own (`base (.other …)`).
* `FirstGrouped.lean`, `GroupFirst.step`: those of `GroupBusy.step`, other than that about the beginning of `consume`s; what `heal()` does, wherever it is called, is an event of its own (`group (.base (.other …))`).
* `Group.lean`, `Group.step`: no event happens in the middle of another (for that see Verif/Model/SharedSet.lean, Verif/Model/Startup.lean and `partyJoin`), and the allocator function is the default one.
* `GroupOverlap.lean`, `GroupBusy.step`: those of `Busy.step`; the `heal()` at the end of the `send` of a commit is an event of its own (`base (.other …)`, or `healFails`); the coordinator is the same after the `yield` of kiel/clients/grouped.py:243 as before (it is set in `connect()` only).
* `Grouped.lean`, `Grouped.rebalanced`: both at once; `Model/Halves.lean` takes them apart.
* `Halves.lean`, `FirstGroupEv.remap`: it happens between two steps of the consumer's coroutines, not within one.
* `Halves.lean`, `logShare`: what the iterator gives after keys were added does not matter, as that raises.
* `Heals.lean`, `Healing.step`: which metadata a `heal()` gets, from which connection, is up to the environment (see `getMetadata` in Verif/Model/Cluster.lean).
* `Json.lean`, `Json`: objects have text for keys (`dumps` would turn numbers and so on into text).
* `Json.lean`, `scanChar`: an escape for a lone surrogate is refused.
* `Json.lean`, `numberOf`: newer Pythons refuse integers of more than 4300 digits.
* `Json.lean`, `chars16`: lone surrogates, which `surrogatepass` lets pass, are refused.
* `Json.lean`, `decodeDetected`: lone surrogates are refused.
* `Link.lean`, `Link.step`: it does so before anything else happens. (It takes a turn of the I/O loop or two; what happens in between is a later event here.)
* `Overlap.lean`, `Busy.step`: `determine_offsets` and the `heal()` for a topic without partitions (kiel/clients/consumer.py:90-100) are left out, that is a `consume` begins when they are done (`nothing` otherwise); the `heal()` at the end of `send` is an event of its own (`other`, or `healFails`).
* `Py.lean`, `Exc`: exception arguments are dropped, except for the api of `UnhandledResponseError`.
* `SharedSet.lean`, the whole file: it is modelled as that list; for the text see Model/Json.lean. The lock's path (kiel/zookeeper/shared_set.py:23-27) is the set's with `/lock`: one lock for each set.
* `Show.lean`, `showScalar`: what is no plain value where one is expected is not followed.
* `Show.lean`, `showVal`: classes that have the same parts have the same name; an array of arrays (there is none) is shown like an array; text in place of a list (which Python would take for a list of characters) raises.
* `Staff.lean`, `Staff.step`: those of `Group.step` and `GroupFirst.step`; what a consumer is told while it connects are events of their own; the other changes that `FirstGroupEv` leaves open (`other`) are the events of the other kinds here.
* `Startup.lean`, `Alloc.phase`: the steps are as large as the shared attributes allow, except that comparing and assigning, and making both lists, are one step each.
* `Startup.lean`, `Alloc.start`: notifications on kazoo's thread are handled between the steps, not during them.
* `Text.lean`, `pyInt?`: Python also accepts digits and white space of other scripts.
* `Wire.lean`, `varBytes`: `str()` of lists, parts and message sets is not modelled (kiel never passes them to a `String`/`Bytes` field); it is represented as a `TypeError`.
* `Wire.lean`, `render`: an attribute holding an instance of another class than the declared one is not modelled; a value without `render` is an `AttributeError`, a non-list for an array a `TypeError`.
* `Wired.lean`, `Reply`: `api` is that of the request; the class of the response is looked up by it (kiel/connection.py:201-203), cf. `correlation_cls`.

## What is wrong with the code

Found while proving; each has a theorem with a concrete case.

* `Message.render`: `crc > 2**31` should be `>=`; a message whose CRC is 2^31 cannot be sent (C08).
* `snappy.decompress`: the loop stops too early; a last block under 12 bytes is dropped (C10, C11,
  C64).
* `MessageSet.parse`: a cut-off last message is recognised by the end of the whole response, so it
  is an error in all partitions but the last (C12): every fetch can fail for ever, or the message is
  completed with bytes of the next partition and returned so (C119). A message larger than `max_bytes`
  blocks its partition (C119).
* `HeartbeatRequest`, `HeartbeatResponse`, `OffsetCommitV1Request` cannot be used at all (C05).
* Checksums of received messages are not compared (C74).
* `Connection`: after a `StreamClosedError` outstanding requests are never settled (C17), and
  `Client.send` does not heal (C26).
* `Cluster.heal`: a second round replaces the tables by those for the missing topics only (C22); a
  broker that moved keeps its old connection (C73); overlapping heals raise `KeyError` and lose
  connections (C79, C80).
* `Cluster.start`: the first host that accepts a connection and then fails ends the start (C23).
* `Client.send`: the shared flag is cleared after a heal, with it other sends' errors (C78).
* `Producer`: messages of a lost request are kept, never sent again and never given up (C31, C120); a flush that raises
  loses messages (C33); `close` gives up retriable messages (C32) or leaves connections open (C72);
  retried messages are overtaken (C75); an unknown error code has them kept for a request that is
  over (C71); `flush` and `close` do not wait for requests of other calls (C107, C108); a `produce`
  that waits for metadata goes on in a closed producer (C108); messages answered with
  `request_timed_out` or `not_enough_replicas_after_append`, which brokers give after storing them, are
  sent again and stored twice (C109).
* `BaseConsumer`: false values are dropped (C39); an undecodable message at the end of a batch is
  fetched for ever (C40); messages of compressed sets are returned again (C38); a consume that
  raises has moved offsets already (C38, C67); overlapping consumes of a topic return messages twice
  (C76); JSON in UTF-8 with a byte order mark, and most in UTF-16 or UTF-32 without one, is skipped (C115).
* `Cluster.heal`, as `produce` and `consume` use it: never names the topic at hand, so that brokers do
  not create it (C130).
* `SingleConsumer`: `datetime` and `timedelta` starts cannot be sent (C43); offsets that could not
  be determined count as determined (C65); a start is not heeded in topics and partitions that the
  client learns of late (C129).
* `GroupedConsumer`: offset -1 of a new group is adopted (C55); a moved coordinator is never looked
  for (C66); a broker that is down ends the search for it (C53) or a consume (C67); commits of some
  partitions are not retried (C50, C51); a rebalance during a consume is forgotten (C48) or rewinds
  the group (C52) or drops messages whose offsets are committed (C96, C114); a closing consumer still commits (C44).
* `BaseConsumer.name`: host and `id(self)` do not tell processes of a host apart; two consumers with
  one name both consume everything the name is given (C125).
* `PartitionAllocator.members_path`: a group called `a/members` adds a member to group `a` (C126).
* `Cluster.start`: a bootstrap host that is an IPv6 address has it raise `ValueError`, whichever
  hosts follow (C127).
* `PartitionAllocator.rebalance`: the new mapping is visible to the consumer's thread before the
  offsets are marked unknown; a `consume` in between can skip messages, or put the group's offset
  back (C128).
* `PartitionAllocator`: `start` can return before there is an allocation (C60), blocks if connecting
  fails (C62); `remove_partitions` takes no lists (C61); notifications that overlap leave an old
  mapping (C59).
* `SharedSet`, on Python 3: nothing can be written (C57).
* `handle_fetch_response`: an offset that is out of range makes a single consumer start anew in
  all partitions of the topic, so that messages are skipped or repeated (C131); a consumer of a
  group gets the same offset from the coordinator again, and nothing of the topic ever after (C132).
* `GroupedConsumer.determine_offsets`: a group for which nothing was committed never begins: the
  call hangs, or offset -1 is asked for (C133).
* no request has a timeout: a broker that accepts a request and never answers holds up the whole
  `send`, `consume` or `flush`; messages that other brokers delivered to that call are lost, since
  the offsets have advanced (C134).
* `Cluster.process_topics`: the list offered to partitioners is in the order of the latest metadata
  and lacks partitions that are electing a leader, so that a key may move to another partition
  although the topic keeps its partitions (C135).
* `GroupedConsumer.connect` is the only place where partitions are added to the group's: topics and partitions that
  come into being while the group runs are consumed by nobody until some consumer connects anew (C136).
* `BaseConsumer.consume`: a partition whose leader is not in the metadata makes each call for the topic
  raise `KeyError`, without getting the metadata afresh; consumers of a group get there when another
  one connects with newer metadata (C137), or when a partition is deleted, which stays with the group
  for ever (C138).
* `Cluster.heal` with an election for one topic: forgets all the other topics (C22), and a consumer of
  a group then raises `KeyError` for them, for good (C139).
* The same election makes a producer's next `flush` raise and drop what is queued for the other topics
  (C140); and as `flush` reads `cluster.topics[topic]` of a `defaultdict`, the topic is then listed, without
  partitions, so that `produce` takes it for known, never heals, and loses message after message (C141).
* `Connection.close` (and `StreamClosedError`) set `closing` without settling the futures of pending
  requests, and `abort` does nothing once `closing` is set: calls that wait for them never end (C142).
* `Party.join`: can be undone by the old session's end (C58).

## Testing the theorems

`seeded/LOG.jsonl` lists wrong programs: edits of the model as a realistic mistake would make them,
each in a scratch copy, with the theorems that no longer hold. An entry whose edit is marked
`(repaired)` mends a mistake of the code; there the `_false` theorems have to fail. Where an edit
went unnoticed although it broke a claim, the theorem was tightened or added, as the entry says.

## The properties

Per property: how it is modelled and proved, what came of it, and the theorems.

### C01 Fixed-width integers survive the wire or are refused

`Struct.lean`: pack/unpack of signed big-endian integers. Separate spec `Spec.be`. Proof: arithmetic induction on the width.

Status: **proved**. Encoding, decoding, inverse and refusal of out-of-range integers for all four widths.

Theorems: `C01_encode`, `C01_parse`, `C01_parse_inv`, `C01_refused`.

### C02 Strings and byte strings survive the wire

`Wire.lean` renderVar/parseVar over Lean `String` (= valid UTF-8 by construction). Round trip proved outright.

Status: **proved**. Rendering of text, bytes, None and scalars; parsing back; refusal of over-long content.

Theorems: `C02_encode`, `C02_none`, `C02_parse`, `C02_text`, `C02_bytes`, `C02_scalar`, `C02_refused`.

### C03 Every declared structure round-trips

Schemas are an inductive type `Ty`; render/parse are defined by recursion on it; separate denotational spec `Spec.encode`. Proof: mutual induction on the schema.

Status: **proved**. By structural induction over all schemas and values.

Theorems: `C03_encode`, `C03_parse`, `C03_roundtrip`, `C03_attr`, `C03_unambiguous`.

### C04 Serialized requests carry the right preamble

Corollary of C03 on the preamble schema; frame = length ++ payload.

Status: **partial**. C04_preamble: whatever request class and values, what serialize() returns begins with the preamble (C04_frame, C04_written: and is written with its length). C04_C05_requests_partial: every documented request class but HeartbeatRequest and OffsetCommitV1Request can be serialized, with its own encoding after the preamble. C04_false: those cannot be constructed or rendered at all (C05).

Theorems: `C04_written`, `C04_refused`, `C04_preamble`, `C04_false`, `C04_C05_requests_partial`, `C04_frame`, `C04_frame_refused`.

### C05 Every request and response class of the protocol package is usable

Table of all class definitions as written, malformed ones included. Constructible classes: corollary of C03; heartbeat: the negation is proved.

Status: **partial**. False of the code for three classes (heartbeat.py lacks a trailing comma; OffsetCommitV1Request has a malformed parts tuple): the negations are proved; the other 25 classes work as documented.

Theorems: `C04_C05_requests_partial`, `C05_responses_partial`, `C05_false_heartbeat_request`, `C05_false_heartbeat_response`, `C05_false_commit_v1`.

### C06 Parsing never runs backwards or past the buffer

Induction on the schema and on the parse loops' fuel; fuel is proved irrelevant.

Status: **proved**. Bounds for every schema and buffer; termination of the message-set loop against a fuel-free big-step semantics.

Theorems: `C06_bounds`, `C06_bounds_past`, `C06_terminates`.

### C07 Message sets round-trip uncompressed

Induction on the message list; offset arithmetic.

Status: **proved**. Also for whole fetch responses mixing plain and compressed sets.

Theorems: `C07_encode`, `C07_parse`, `C07_fetch`.

### C08 Every message can be rendered with its CRC

CRC-32 is concrete. Exact characterisation: render fails iff the CRC is 2^31; a witness payload is exhibited (the code violates the property).

Status: **partial**. False of the code exactly when the CRC is 2^31 (`>` instead of `>=` in Message.render); the negation is proved with a real JSON message.

Theorems: `C08_crc_partial`, `C08_false`, `C08_exact`, `C08_false_witness`.

### C09 Gzip-compressed message sets round-trip

gzip is a parameter with its law (inverse, magic bytes); corollary of C07 plus `0x8b is not UTF-8`.

Status: **proved**. For every gzip implementation that inverts itself and writes the magic bytes.

Theorems: `C09_roundtrip`, `C09_stored`.

### C10 Snappy framing round-trips

Framing modelled exactly, raw codec a parameter. Exact characterisation: round trip iff the last block compresses to at least 12 bytes (the code violates the property).

Status: **partial**. False of the code: a last block that compresses to fewer than 12 bytes is dropped by decompress (off-by-header loop bound). Exact round trip proved otherwise.

Theorems: `C10_roundtrip_partial`, `C10_false`, `C10_false_witness`, `C10_terminates`, `C10_unavailable`.

### C100 A group that commits before it is rebalanced returns every message exactly once

`CrewRun`: histories of members over the model of `GroupedConsumer`, with the coordinator's offsets. Invariant `CrewInv`: one position per partition, which is the member's offset where the owner has determined it and the coordinator's otherwise, and equal to the coordinator's for topics that do not wait to be committed; the messages returned are an interleaving of the logs up to the positions. Each `consume` is split into determining offsets (Stayed), fetching (Moved, from `fetch_window`) and committing (Kept).

Status: **proved**. C100_exactly_once, C100_committed, C100_all (everything, once the logs are exhausted) and C100_group (a settled group meets the condition on shares). The hypotheses are those of the statement, and: brokers serve messages as they are (no compressed sets: C38_false_twice); the coordinator names the offsets it has, stores nothing but what it is asked to, and does not acknowledge part of a topic; consumes that raise do so before anything was fetched (otherwise C96_false_commit). An example shows that a message is returned twice when the group is rebalanced before the commit. Rebalances take effect at one moment of the consumer's thread; C128 is about those that are seen half done.

Theorems: `C100_exactly_once`, `C100_committed`, `C100_all`, `C100_group`.

### C101 What is produced is consumed by a group, exactly once

`GroupPipeline`: steps of the producer and the logs (`Made`, shared with C99) interleaved with steps of the group (`CrewStep`, shared with C100), served from the logs as they are then. Since logs only grow at their ends, the group's history is also one over the final logs (`crewRun_grow`), to which C100 applies; the producer's side is accounted for as in C99 (`Accounted`). Progress: positions never go back (`crewStep_inv`), and a `consume` that is supplied passes a message (`base_supplied`).

Status: **proved**. C101_pipeline (safety and completeness) and C101_settles (getting there). The hypotheses are those of the statement and of C99 and C100: compressed sets are not served (C38_false_twice), producers' answers are in order (Orderly), the coordinator does not acknowledge part of a topic, consumes that raise do so before anything was fetched; the group's offsets were at the ends of the logs when it all began (hstart).

Theorems: `C101_pipeline`, `C101_settles`.

### C102 A commit covers only what has been returned, although calls overlap

`GroupBusy` (Model/GroupOverlap.lean): the base class's `consume`s under way (`Busy`, of C76) and the commits under way, stepped from one coroutine switch to the next. Invariant `Kept`: on top of `Covered` (of C76), everything that the base class has returned has been returned to the application or is held by a commit under way; numbers and synced topics are as they should be.

Status: **partial**. As stated false of the code: C102_false; commit_offsets, called while a consume of the topic has had the answer of one broker and waits for another's, commits messages that this consume holds. What is true: C102_covered_partial (everything covered has been returned, or is held by a consume that waits, or by one that is committing) for any overlap; C102_returned_partial (autocommit off, no consume of the topic under way when the request is sent: all of it has been returned). Consumes that raise are excluded: their messages are lost. consume_synced_grouped: the model of consumes that begin with the fetches agrees with the one that includes the determining of offsets.

Theorems: `C102_covered_partial`, `C102_returned_partial`, `C102_false`, `consume_synced_grouped`.

### C103 When commit_offsets returns, what had been returned before the call is committed, although calls overlap

Invariant `Due` over the same steps: the topic is still to be committed, every request under way is about it as far as the position in question (or older than the question), and every commit that has been answered will try once more; or the position has been acknowledged. Positions do not go back: `exact_forward`, from the invariant `Exact` of C76.

Status: **partial**. As stated false of the code: C103_false; the answer to an earlier commit drops the topic from those to be committed although a consume has returned more of it since that request was sent, and the next commit_offsets sends nothing about it. What is true: C103_committed_partial, provided that no request about the topic is under way when the clock starts, consumes of one topic do not overlap (else positions go back, C76_false), and the coordinator answers about the topic as a whole; C103_wanted. commit_alone, consume_alone_grouped: the model of overlapping calls agrees with that of single calls. consume_synced_grouped: the model of consumes that begin with the fetches agrees with the one that includes the determining of offsets.

Theorems: `C103_committed_partial`, `C103_wanted`, `C103_false`, `commit_alone`, `consume_synced_grouped`.

### C104 First calls of consume that overlap return an unbroken stretch of each partition

`SingleBusy` (Model/FirstConsumes.lean): the `consume`s that wait for messages (`Busy`, of C76) and those that still determine offsets or wait for the `heal()` for an unknown topic, stepped from one coroutine switch to the next. Invariant `FirstExact`: on top of `Exact` (of C76), a topic's offsets are known exactly from when its `consume` is past determining them, and nothing has been consumed of the others, so that an answer can move where they start (`exact_moved`). The invariant is generic in the account that is kept of messages (`Account`): with `Exact` it gives exactly once, with `AllCovered` that nothing is skipped, also when message sets are compressed.

Status: **partial**. As stated false of the code when first consumes of the same topic overlap: each determines offsets, and the answer to the second moves the position while, or after, the first fetches: messages are skipped (C104_false_skips) or returned twice (C104_false_repeats). What is true: C104_exactly_once_partial, for any overlap of consumes of different topics, first ones and later ones. Consumes that raise while they wait for messages are excluded (C38_false_lost), compressed sets too (C38_false_twice; C104_no_skip_partial: with them nothing is skipped either). consume_alone: the model of overlapping consumes agrees with the one of single calls.

Theorems: `C104_exactly_once_partial`, `C104_no_skip_partial`, `C104_false_skips`, `C104_false_repeats`, `consume_alone`.

### C105 Every call ends once, although calls overlap

The systems of calls (`Sends`, `SingleBusy`, `GroupFirst`, `ProducerBusy`: Model/Sends.lean, FirstConsumes.lean, FirstGrouped.lean, Produces.lean) as watched from outside (`Spec.Watched`): numbered calls, events, endings. Invariant: a number is in at most one place (starting, waiting, committing). `C105_…ends`: induction on the requests that are still out.

Status: **proved**. C105_sends, C105_single, C105_grouped, C105_producer: calls with a number = endings + the one under way, at every point of every course of events. C105_sends_end, C105_single_ends, C105_grouped_ends, C105_producer_ends: from any state, a call under way can be brought to its end by its own events alone, whatever its requests come to. Models: Sends, SingleBusy, GroupFirst, ProducerBusy.

Theorems: `C105_sends`, `C105_single`, `C105_grouped`, `C105_sends_end`, `C105_single_ends`, `C105_grouped_ends`, `C105_producer`, `C105_producer_ends`, `produce_alone`.

### C106 A member of a group returns each message once, although calls overlap

`GroupFirst` (Model/FirstGrouped.lean): `consume`s ask for the group's offsets, heal, ask again, fetch, finish, commit, and end; the invariant of C104 for the fetches (`Exact`), with answers of the coordinator adding the start of partitions that have none, and what is committed put between what is under way and what has been returned; per topic (`ofTopic`), since a `consume` that commits returns later than it finishes. The invariant is generic in the account that is kept of messages (`Account`): with `Exact` it gives exactly once, with `AllCovered` that nothing is skipped, also when message sets are compressed.

Status: **partial**. False as stated: C106_false_repeats (two first consumes of one topic: the answer to the second puts the offset back, and messages are returned again) and C106_false_order (the answers to both are adopted, and messages are returned in the wrong order). C106_exactly_once_partial proves it for every interleaving in which no two consumes of the same topic overlap, answers to requests for offsets are about the topic asked for, and no consume raises that has fetched, or waits for, messages; what consumes under way hold is accounted for. C106_returned_partial: when no call is under way. C106_determined (overlapping consumes of one topic included): a consume waits for messages of a topic only once the offsets are known or the coordinator has reported them without any error. C106_no_skip_partial: with compressed message sets, where a broker may begin before the offset asked for, nothing is skipped (exactly once is false there, C38_false_twice). Model: GroupFirst.

Theorems: `C106_exactly_once_partial`, `C106_returned_partial`, `C106_no_skip_partial`, `C106_determined`, `C106_false_repeats`, `C106_false_order`, `consume_alone_grouped`.

### C107 A flush sees everything through that was accepted before it, although calls overlap

`ProducerBusy` (Model/Produces.lean): numbered calls of `produce`, `flush` and `close`, coroutine switch by coroutine switch. Invariant (`CallsWF`): the correlation ids of outstanding requests are all different, not above the last one drawn, and each send has one request per broker. `UnderWay`: each request of the call is outstanding with its messages kept, or has been seen through; step by step (`underWay_step`).

Status: **partial**. False as stated: C107_false (a flush returns at once when the queue is empty, although another call's request, with a message accepted before, is unanswered). C107_seen_through_partial proves it, for every interleaving, for the messages that were in the queue when the flush began (and the message of a produce that flushes); C107_nothing_partial: a flush that returns at once found an empty queue. Missing: messages in requests of other calls. Model: ProducerBusy.

Theorems: `C107_seen_through_partial`, `C107_nothing_partial`, `C107_false`, `flush_alone`.

### C108 A closed producer is at rest, although calls overlap

`ProducerBusy`. `OnlyClose`: while `close` is under way no other call ever is, since `produce` returns at once; `rest_on`: once it has returned, nothing but returns is seen.

Status: **partial**. False as stated: C108_false_under_way (close returns and closes the connections while a produce's request is outstanding) and C108_false_queues (a produce that waits for metadata while close returns queues and sends its message afterwards, and heals). C108_at_rest_partial proves it for every interleaving in which no call is under way when close is called; C108_accepts_nothing_partial: nothing is accepted after closing as long as no produce was waiting for metadata, whatever else was under way. Model: ProducerBusy.

Theorems: `C108_accepts_nothing_partial`, `C108_at_rest_partial`, `C108_false_under_way`, `C108_false_queues`, `close_alone`.

### C109 No message is stored twice

`ProducerBusy`; the specification (Spec/Stored.lean) follows what brokers read in every request handed to `send`, less what they say they refused. Invariant (`StoredInv`): for outstanding requests this is what the producer keeps for them, and all of it is kept for a request or settled, as a multiset; then `C87_calls`. When the handling of an answer raises midway, only refused partitions have been put back (`handleParts_unrefused`).

Status: **partial**. False as stated: C109_false (messages that a broker has stored before it answered request_timed_out or not_enough_replicas_after_append are sent again, and stored twice). C109_at_most_once_partial proves it for every course in which no answer has one of these two codes; a broker may or may not have stored what is in a request without answer. Model: ProducerBusy.

Theorems: `C109_at_most_once_partial`, `C109_false`.

### C11 Snappy-compressed message sets round-trip

Corollary of C10 and C07 under the same condition; counterexample otherwise.

Status: **partial**. Same exception as C10; C11_false shows which messages are lost, C64_false what that means end to end.

Theorems: `C11_roundtrip_partial`, `C11_false`.

### C110 What is produced is consumed exactly once, although calls overlap

`ProducerBusy`, any of `Busy`, `SingleBusy` and `GroupFirst`, and brokers (Spec/CallsPipeline.lean: `given`, `done`, `logs`). `SiteInv`: `StoredInv` of C109, and of every request that was answered all that it still counts for is stored and settled; `site_run` adds the ledger of C87 and that the logs have gained what is stored. The logs only grow, so that the consumer's course is one against the final logs (`site_reads`), and C76, C104 or C106 applies.

Status: **proved**. C110_exactly_once (consumers whose topics have their offsets), C110_single (whole calls of a SingleConsumer, first ones included), C110_grouped (whole calls of a GroupedConsumer and commits, without rebalances): both parts, by composing the invariants of C109 (producer and brokers), the ledger of C87_calls, and C76, C104 and C106 for the consumer. Model: ProducerBusy with Busy, SingleBusy, GroupFirst; the brokers' logs are in Spec/CallsPipeline.lean.

Theorems: `C110_exactly_once`, `C110_single`, `C110_grouped`.

### C111 JSON written by others is read as what it denotes

`Json.loads` (Model/Json.lean) against a relational grammar (Spec/JsonText.lean) that does not mention it. Completeness by induction on the derivation (`scan_of`), soundness by induction on the fuel (`scan_inv`); dictionaries by `LastWins`. Delivery by C64_received_partial and the specification of the fetch handler.

Status: **proved**. C111_reads and C111_refuses: `json.loads` accepts exactly the grammar of Spec/JsonText.lean and yields the denoted value; C111_delivered: through the wire decoder and the fetch handler; C111_set: shared sets. Left out of grammar and model: escapes for lone surrogates; Python's recursion limit and its limit on the digits of integers are not modelled.

Theorems: `C111_reads`, `C111_refuses`, `C111_delivered`, `C111_set`.

### C112 A group whose members' calls overlap returns every message exactly once

The step function of C106 for each member, a coordinator's table, and rebalances at rest, as the relation FleetRun (Spec/Fleet.lean). Invariant `FleetInv`: each member's history since the last rebalance satisfies C106's `GroupExact`, it has touched only partitions of its share (`Owns`: calls under way ask for, fetch and commit only these), shares are disjoint, and outside of what is synced the coordinator's offset is where the group stands. Windows of successive owners are glued at rebalances.

Status: **proved**. C112_exactly_once, C112_returned and C112_all over FleetRun (Spec/Fleet.lean); C112_false_nothing_waits: with 'no member has anything left to commit' as the condition for rebalancing a message is returned twice, because an answered commit_offsets forgets all that is to be committed, also what a consume has returned meanwhile. Rebalances take effect at one moment of the consumer's thread; C128 is about those that are seen half done.

Theorems: `C112_exactly_once`, `C112_returned`, `C112_all`, `C112_false_nothing_waits`.

### C113 What is produced is consumed exactly once by a group whose members' calls overlap

The sites of C110 (Spec/CallsPipeline.lean) with a Fleet of C112 in the place of the consumer. What a step of the group reads stays true of longer logs (`fleetStep_grows`), so the whole history is one of C112 over the final logs; `site_delivered` of C110 relates these to what was produced.

Status: **proved**. C113_exactly_once and C113_all, over the sites of C110 with the groups of C112. Rebalances take effect at one moment of the consumer's thread; C128 is about those that are seen half done.

Theorems: `C113_exactly_once`, `C113_all`.

### C114 No message before a committed offset is lost to a group whose members' calls overlap

The step function of C106 for each member with rebalances and losses in between, as the relation BandRun (Spec/Band.lean). Invariant `Backed` of a member, relative to what the group has returned or holds: its offsets, and those in requests to be repeated, are backed by messages returned or held, and consumes that wait have their topics synced, so that what they hold will be returned; `member_step` shows that each step keeps this for any larger set of such messages, which glues the members together (`band_inv`).

Status: **proved**. C114_committed, C114_position and C114_returned over BandRun (Spec/Band.lean); C114_false_waits and C114_false_heals: without the condition on rebalances a committed offset covers a message that was dropped. Rebalances take effect at one moment of the consumer's thread; C128 is about those that are seen half done.

Theorems: `C114_committed`, `C114_position`, `C114_returned`, `C114_false_waits`, `C114_false_heals`.

### C115 JSON is read in whichever Unicode encoding it is

CPython's detection of the encoding and its decoders (`decodeDetected`, Model/Json.lean) against encodings defined by what characters are encoded as (Spec/Encodings.lean); decoding inverts encoding both ways (Lemmas/Encodings.lean); JSON begins with ASCII and has no zeros (induction over the grammar of C111), hence the detection is right; bytes of UTF-8 are never FE or FF, and are 0 only for the character 0.

Status: **partial**. C115_marked_partial, C115_unmarked_partial: exactly which of these are read; C115_only: no value is made of anything else; C115_delivered: through the wire decoder and the fetch handler. C115_false_ascii, C115_false_utf8_mark: the two kinds that are skipped. Lone surrogates are left out.

Theorems: `C115_marked_partial`, `C115_unmarked_partial`, `C115_false_ascii`, `C115_false_utf8_mark`, `C115_only`, `C115_delivered`.

### C116 Nothing produced is lost to a group whose members' calls overlap and that is rebalanced meanwhile

The sites of C110 with the groups of C114 as consumers. `site_accounted`: what was accepted, less what is still to be sent, is what has been added to the logs, so once nothing is to be sent every message made is in a log at or after where the group began (`site_stored`); C114 about the logs at the end (`site_band`) then says that it was returned or is held.

Status: **proved**. C116_not_lost and C116_returned over Runs with bandReads (Spec/BandPipeline.lean). Rebalances take effect at one moment of the consumer's thread; C128 is about those that are seen half done.

Theorems: `C116_not_lost`, `C116_returned`.

### C117 Consumers return only what is stored, whatever else happens

Invariant `Sourced`: every value held by a call under way is genuine for the call's topic, and every request that a call waits for is for its topic. Preserved by every event (`busy_sourced`, `fine_step`, `fine_single`), by any change of shares and by replacing members. The logs of a site only grow, so what was genuine stays genuine (`site_reads`), and `site_accounted` says what the logs consist of (`C117_made`).

Status: **proved**. C117_group over WildRun (Spec/Genuine.lean), C117_consumer and C117_single for consumers on their own, C117_made with producers.

Theorems: `C117_group`, `C117_consumer`, `C117_single`, `C117_made`.

### C118 Messages of one partition are consumed in the order in which they were produced

Two orders are put together. `calls_order_step` (C75): what is handed over, then what is queued, is a sublist of what was accepted, whatever raises. `keyed_inv`: correlation ids grow, so the requests for the partition that are stored in the order in which they were sent are a sublist of those handed over, and the log of the partition consists of their messages and others' (`marked`). The consumer's side is C76, C104 and C106: per partition it returns a stretch of the log (`keyed_ordered`).

Status: **proved**. C118_in_order for consumers on their own, C118_single with the first calls of a SingleConsumer, C118_grouped for members of groups. Without the condition on retriable errors it is false already of what is handed over (C75_false).

Theorems: `C118_in_order`, `C118_single`, `C118_grouped`.

### C119 A consumer gets through its partitions although brokers limit the size of what they send

Model: `Consumer.consume` and the parser of fetch responses, joined by `limitedWire`, the bytes a broker sends for a request. `take_entries`: the first bytes of stored entries are whole entries and a part of the next, so that `C12_last_partial` and `C07_fetch` apply (`C119_read`); hence the answers are honest in the sense of C38 (`limited_honest`), and supply a message whenever one fits into the share C36 fixes (`asked_supplied`), so that each takes away from what is ahead, as in C86 (`limited_ahead`). The negations are computed with the parser on actual bytes.

Status: **partial**. False: a message larger than max_bytes blocks its partition for ever (C119_false_large; C119_blocked: always so); with several partitions at one leader, a partition that ends within a message and is not the last one of the answer can make every answer unreadable, for ever (C119_false_cut), or have the rest of the message read from the bytes of the next partition: consume returns a value that was never stored, and the message itself never (C119_false_garbled). C119_catches_up_partial: when none but the last partition of an answer ends within a message, what is returned is stored, each message once and in order; and all of it, if the messages can be deserialized and each has at most an m-th part of max_bytes, with at most m partitions in a request. C119_read is the reading of one answer.

Theorems: `C119_read`, `C119_catches_up_partial`, `C119_blocked`, `C119_false_large`, `C119_false_cut`, `C119_false_garbled`.

### C12 A cut-off trailing message is ignored

Induction on the list and case split on the cut position; true for the last set in the response, negation for others (the code violates the property).

Status: **partial**. Proved for the last message set of the response, any cut; false when another partition follows (C12_false).

Theorems: `C12_last_partial`, `C12_false`.

### C120 A producer keeps no messages but those queued and those of requests still to be answered

Model: `ProducerBusy.step`. `LostAt` says which requests fail at an event, or with the call that raises. `keeps_step`: what is kept after an event is kept for a request awaited then, lost at the event, or lost before; `C120_kept_partial` by induction on the course. Conversely `awaited_kept`: what is awaited is kept, and `unawaited_stays`: what is not awaited is never touched again, hence `C120_never_released`. `C120_false` repeats one failing `produce`, by induction on the number of times.

Status: **partial**. False: what a request held is kept for ever when the request fails; a producer whose calls have all returned and whose queue is empty can keep any number of messages (C120_false; C120_never_released: always so). C120_kept_partial: whatever is kept belongs to a request that is awaited, or to one that failed, or whose call raised. C120_at_rest_partial: with neither, a producer at rest keeps nothing of what it sent.

Theorems: `C120_kept_partial`, `C120_at_rest_partial`, `C120_never_released`, `C120_false`.

### C121 A connection keeps a record of exactly those requests that are still to be answered

Model: `Conn.step`. From the invariants of C14-C17 (`ConnInv`, `OpenInv`): the two tables hold exactly the ids of the requests whose futures are unsettled, the count by a sub-permutation of the indices of unsettled futures. `C121_aborted` and `C121_never_released` by induction on what happens after the connection is closed. `C121_false` uses `C92_waits`.

Status: **partial**. False: produce requests with required_acks=0 are remembered for as long as the connection is healthy (C121_false), and what was outstanding when the broker closed the stream is remembered for ever (C121_never_released, C121_false_closed). C121_unsettled: in every history no settled future is remembered, and none twice. C121_open_partial: an open connection whose outstanding requests have different ids remembers exactly those. C121_aborted: after an abort nothing, ever after.

Theorems: `C121_unsettled`, `C121_open_partial`, `C121_aborted`, `C121_never_released`, `C121_false`, `C121_false_closed`.

### C122 A consumer that has no partitions of a topic gets no messages of it, and no error

Model: `Grouped.consume` with `Grouped.determine`, whose argument `plain` says whether the dictionary of the share adds what it is asked for. `C122_nothing`: an invariant of the search for offsets (`determine_inv`), then `gconsume_cases`. `C122_default_partial` computes the call; `C122_raises` as well, for every environment. `C122_false` is a consumer with topics A and B that consumes C.

Status: **partial**. False: with an allocator that returns plain dictionaries, as docs/clients/zkgrouped.rst describes, consume of a topic that is not in the consumer's share raises a KeyError before anything is sent, every time (C122_false; C122_raises). C122_nothing: whatever the allocator and the answers, nothing is fetched and no messages are returned. C122_default_partial: with the default allocator's dictionaries, or if the topic is listed, a ready consumer returns an empty list. What happens after a rebalance is C66 and C106.

Theorems: `C122_nothing`, `C122_default_partial`, `C122_raises`, `C122_false`, `consume_alone_grouped`.

### C123 Requests and responses can be shown with all their attributes

Model: `showVal`, `showFields`, `showMessage` (Model/Show.lean). Spec/Show.lean says which pieces are to be found in the text, in which order, and what bytes a bytes literal denotes. `showVal_shows` by induction on the class; `parse_showable`: whatever is parsed has all attributes, arrays that are lists and messages with key and value (through nested message sets: `parseSetLoop_entire`, `parseNested_entire`); `shown_showable` is the converse for values that can be serialized. That a literal denotes its bytes: `readByte_showByte`, from a check of all 256 bytes.

Status: **partial**. C123_received and C123_responses: true of all that is read from brokers. False of requests: a MetadataRequest made with topics=None and a message made without a key can be serialized but repr() raises (C123_false). C123_sent_partial: exactly the serializable values in which no array was set to None and all messages have key and value can be shown, in full; of others repr() raises a TypeError or AttributeError. Not modelled: repr() of primitives that are not part of anything (kiel/protocol/primitives.py).

Theorems: `C123_received`, `C123_responses`, `C123_sent_partial`, `C123_false`.

### C124 A message that cannot be keyed or serialized is refused, and no other suffers

`Producer.enqueue` models the evaluation order of `self.unsent[topic].append(Message(key=..., value=...))`: the entry of the topic is made first, so a raising key maker or serializer leaves an entry without messages. The queues after any calls are computed by induction; by C28 and C33 the requests of a flush are a function of the queues of the topics when the partitioner goes by key and partitions, whatever the order of the entries, which gives the comparison with the calls that do not raise only.

Status: **proved**. C124_raises: the exception raised and the state kept; C124_queued: the queues after any sequence of calls, some of which raise; C124_as_if: the next flush after any such sequence, for partitioners that go by key and partitions. What remains of a refused call is an entry of the queue without messages, which changes no request's contents (the order in which requests are built may differ).

Theorems: `C124_raises`, `C124_as_if`, `C124_queued`.

### C125 Consumers of a group are told apart

`consumerName` (Model/Names.lean) over consumers with host, process and address (Spec/Names.lean); the last colon splits a name, as the digits hold none. The consequences are those of C82 with its hypothesis of distinct names proved or, for twins, refuted: what a consumer that is up to date consumes is a function of its name (by C59).

Status: **partial**. False of the code: a consumer is called by its host and its address in memory, id(self), which another process of the host may have as well (forked ones do). Two such consumers are taken for one member: each consumes every partition that member is given (C125_false; for all histories: C125_twins), and either's leave removes both. C125_names: names coincide exactly if host and address do. C125_apart_partial, C125_settled_partial: true if no two processes of a host hold consumers of the group.

Theorems: `C125_names`, `C125_apart_partial`, `C125_settled_partial`, `C125_twins`, `C125_false`.

### C126 Groups are kept apart in ZooKeeper

The paths of Model/Names.lean and the tree of nodes (`Spec.Child`): a node is there if it or one beneath it was made. Splitting at the first slash after the common prefix shows that what is beneath a group's node for members was made by its own consumers.

Status: **partial**. False of the code for group names with a slash: group 'a/members' puts a child into the node that holds the members of group 'a', a member that does not exist and is given partitions (C126_false). C126_members_partial: true for names without one; C126_separate: the nodes themselves are different for any names; C126_one_node: names of consumers are single nodes.

Theorems: `C126_members_partial`, `C126_separate`, `C126_one_node`, `C126_false`.

### C127 Bootstrap hosts are tried in order, at the port that is given with each

Entries are a host and perhaps a port, and the text they are written as (Props/Bootstrap.lean), independent of how the model takes text apart; `Cluster.start` over the texts is shown equal to: find the first address that can be connected to and use its answer, by induction over the hosts. The texts that int() reads are a grammar of their own (Spec/IntText.lean), shown to be what the model reads (Lemmas/IntText.lean). The false theorem shows IPv6 addresses.

Status: **partial**. False of the code for IPv6 addresses (C127_false: '::1', 'fe80::1' and '[::1]:9092' raise ValueError although other hosts follow). For hosts whose names hold no colon the full statement is proved (C127_start_partial); C127_reads: nothing else is taken for a host and a port; C127_taken: any text of a number, with the white space, sign and underscores that int() allows, is taken; C127_refused: an entry that cannot be read has start() raise ValueError as soon as it is reached, whichever hosts follow.

Theorems: `C127_start_partial`, `C127_reads`, `C127_taken`, `C127_refused`, `C127_false`.

### C128 A rebalance takes effect as a whole, whatever calls are under way

Model/Halves.lean takes the two statements of a rebalance apart, as events that may happen between any two steps of overlapping calls (GroupFirst). The partial theorem is an invariant over all stories since the rebalance: whoever considers the topic known, or has been answered, does so because of a request for exactly the new share. The false theorems are concrete courses, computed by the kernel.

Status: **partial**. False of the code: rebalance() first replaces the mapping and then has the synced topics cleared; a consume that runs in between uses the new share with old offsets, or 0. Messages are lost (C128_false_lost) or returned again and the group's offset put back (C128_false_rewinds). Also false for a whole rebalance while a consume of a topic without partitions looks the cluster up (C128_false_healing; C48_false is the case of one that determines offsets). C128_asks_partial: true for whole rebalances at any other moment, for any overlap of calls. C128_half: what a consume in between does, for all states; C128_discarded: it returns nothing if the second half has happened when it ends. C128_unfinished: if the consumer looks up a topic that is not in its new share while rebalance() iterates over that, rebalance() raises a RuntimeError and the second half never happens (C128_false_for_good).

Theorems: `C128_asks_partial`, `C128_half`, `C128_discarded`, `C128_unfinished`, `C128_false_lost`, `C128_false_rewinds`, `C128_false_for_good`, `C128_false_healing`.

### C129 A consumer starts where it is asked to, also in topics and partitions its client learns of late

`Single.consume` with an environment whose `heal()` changes the topics. `Untold`: the consumers, reached by any calls, that no broker has told the start of a partition; invariant: its offset reads 0. The rest follows from what C36 says about the requests.

Status: **partial**. False for whatever the client learns of late (C129_false): the topic counts as synced after its offsets have been asked of no partition at all. C129_unknown: a topic not known at the first call is asked about nowhere and fetched from 0, whatever the start. C129_unconnected: likewise one asked for before connect(), by a call that raises. C129_untold: in all histories, a partition whose start no broker has told is fetched from 0. For topics known at the first call the claim holds: C77_starts.

Theorems: `C129_untold`, `C129_unknown`, `C129_unconnected`, `C129_false`, `C77_starts`.

### C13 Correlation ids never repeat

Counter state machine; induction on the history.

Status: **proved**. Over all sequences of constructions, failed ones included.

Theorems: `C13_increasing`, `C13_seed`, `C13_fits`.

### C130 Topics that do not exist yet are created when they are first used

`Cluster.heal` with two environments that differ only in the answers to requests that name the topic (`SameButFor`); `NotThere`: other answers do not mention it. By induction over the rounds of `healLoop` the names asked for are those of the answer before (C20), so both heal alike, and the topic stays out of the tables (C19).

Status: **partial**. False (C130_false): heal() asks about all topics, and then by name only about those that an answer has mentioned, so the topic is never named. C130_not_asked: what brokers would do if asked about a topic that they do not mention themselves makes no difference to heal(). C130_unknown, C130_produce, C130_consume: such a topic stays unknown, its messages are dropped, and nothing of it is fetched, in every state. A topic that others create is found by the next call: C34_created, C36_unallocated.

Theorems: `C130_not_asked`, `C130_unknown`, `C130_produce`, `C130_consume`, `C130_false`, `C34_created`, `C36_unallocated`.

### C131 An offset that is out of range leaves the other partitions where they are

fetch_spec (what a fetch does to offsets and synced topics) and C77_starts for single consumers; for groups an invariant StandsAt; other topics: consume_untold. `Props/OutOfRange.lean`.

Status: **partial**. False within a topic (C131_false: a message is skipped, or returned twice). C132_single: single consumers ask for the start of all partitions of the topic, and fetch all from there. C132_stalls: consumers of a group return nothing of the topic, though messages of other partitions were fetched. Proved: the partitions of other topics are left where they are, and need not be determined anew (C131_topics_partial).

Theorems: `C131_topics_partial`, `C131_false`, `C132_single`, `C132_stalls`.

### C132 A consumer gets past an offset that is out of range

code 1 unsyncs the topic (fetch_unsynced), then C77_starts; for groups, StandsAt is kept by every call under Stale, by C54_determine and fetch_spec; induction over the calls. `Props/OutOfRange.lean`.

Status: **partial**. Holds for single consumers: C132_noticed, C132_single. False for consumers of a group (C132_false): they ask the coordinator, which reports the same offset again. C132_stalls: while it does, consume returns an empty list and commits nothing; C132_stuck: so do all calls ever after, whatever else happens in between that leaves the partition alone.

Theorems: `C132_noticed`, `C132_single`, `C132_stalls`, `C132_stuck`, `C132_false`, `C77_starts`.

### C133 A group that has committed nothing yet can begin

induction over the rounds of determine_offsets (C54_adopted: an answer with code 3 is retried); C132_stuck for -1; the first round and C36_fetches when all is committed. `Props/Begin.lean`.

Status: **partial**. False (C133_false), in both ways in which a coordinator can say that nothing was committed. C133_hangs: error 3 (offsets kept in ZooKeeper) counts as retriable, so the call never returns, whatever was committed for other partitions. C133_stuck: offset -1 (offsets kept by Kafka) is asked for and refused, and no call ever returns a message of the topic. C133_committed_partial: if offsets of the whole share have been committed, exactly these are asked for.

Theorems: `C133_hangs`, `C133_stuck`, `C133_committed_partial`, `C133_false`, `C132_stuck`.

### C134 A broker that does not answer holds up only its own partitions

Courses of events of overlapping sends (Model/Sends.lean) and of overlapping consumes (Model/FirstConsumes.lean) in which one broker's outcome never comes; invariant: the call is over or still waits for that broker. Witness for the loss of messages; the positive part constructs the events that end a send that does not ask the silent broker.

Status: **partial**. False of the code: there are no timeouts, and send() waits for every broker. C134_send: a send that still waits for a broker neither returns nor heals until that broker answers or is lost, whatever else happens. C134_consume and C134_offsets: likewise a SingleConsumer's consume returns no message. C134_false: messages of the other broker are then passed over: the call that received them never returns, and the next one asks for what comes after. What holds is C134_others_partial: a send that asks the silent broker nothing can end without it.

Theorems: `C134_send`, `C134_others_partial`, `C134_consume`, `C134_offsets`, `C134_false`.

### C135 Messages with the same key go to the same partition

Courses of overlapping produce, flush and close calls (Model/Produces.lean) with a cluster that changes in between. Each step is shown to put what it sends where the partitioner chooses from the list before the step (from C28), and to leave that list alone; induction over the course. What a heal leaves in the list comes from C22. Witnesses with two metadata answers, and with an election during an overlapping heal (Model/Heals.lean).

Status: **partial**. False of the code in two ways. C135_false_order: partitions are offered in the order of the latest metadata, so that the partitioner of the documentation (key modulo length) moves a key when brokers list the same partitions in another order. C135_false_election: while heal() waits for the election of a leader the partition is missing from the list, and a flush by another call moves the key, also with a partitioner that does not mind the order. C135_listed: after a heal that returned, the list is that of the last answer, in its order. C135_same_partial, C135_keys_partial: for every course of overlapping calls in which the partitioner makes no difference between the lists that the client has, each message goes where it chooses, and equal keys go together.

Theorems: `C135_same_partial`, `C135_keys_partial`, `C135_listed`, `C135_false_order`, `C135_false_election`.

### C136 Partitions and topics that come into being are consumed

`Model/Staff.lean` puts the allocators and zookeeper (`Group`), and consumers with their calls under way (`GroupFirst`), together; metadata change at any time. Invariants: what consumers take for their own is what their allocators gave, and that is among what was offered; `C136_never` by induction over executions; `C136_false` from it; the positive part with `C82_settles` and `C61_add_partial`.

Status: **partial**. False (C136_false): partitions are offered to the group in connect() only, so a partition that comes into being later is never asked for, in any continuation without a consumer connecting anew, whatever metadata the consumers have (C136_never). C136_connects_partial: a partition that a connecting consumer finds is, once all have been told, the own of exactly one consumer (Python 2; on Python 3 nothing can be added, C57_python3). C136_asks_partial: a consumer asks for all partitions of its own. C136_begins_partial: and, on the first consume of their topic, for their offsets, of the coordinator that connect() has found.

Theorems: `C136_never`, `C136_connects_partial`, `C136_asks_partial`, `C136_begins_partial`, `C136_false`.

### C137 A consumer of a group that does not know the leader of a partition it is given finds out

The whole group (Model/Staff.lean). By cases on all steps of a consumer: none changes what it knows of leaders, and messages of a topic are asked for only if the leaders of all its partitions of it are known (led_step); by induction over histories nothing of the topic is asked for, and calls raise. Falsity by a group of two consumers, the second of which has newer metadata.

Status: **partial**. False (C137_false): consume looks the leaders up without a check, and heals only for topics without partitions. C137_never: as long as the consumer gets no other metadata and has such a partition, it asks for no messages of the topic, of no partition, whatever else happens. C137_raises: each call raises KeyError, and none heals or leaves a healing to be done. C137_healed_partial: once it has other metadata, for whatever reason, its partitions are asked for. C137_elsewhere: a consume of a topic of which it has no partitions does heal.

Theorems: `C137_never`, `C137_raises`, `C137_healed_partial`, `C137_elsewhere`, `C137_false`.

### C138 Partitions that are gone are given up

The whole group (Model/Staff.lean). No event but remove_partitions takes an item out of the shared set (induction over histories), so C82_settles gives the partition to a member; falsity by a consumer whose topic is deleted. Removal by the application: C61_remove_text_partial and C82_settled.

Status: **partial**. False (C138_false): nothing in the library takes partitions out of the group's. C138_stays: whatever happens, the partition stays, and whenever all consumers have been told what there is, one of them has it, whose calls of consume for the topic raise (C137_raises). C138_taken_out_partial: if the application takes it out (by text: see C61; on Python 2), none has it.

Theorems: `C138_stays`, `C138_taken_out_partial`, `C138_false`.

### C139 A group goes on with other topics while leaders are elected

The whole group (Model/Staff.lean) with Cluster.heal (Model/Cluster.lean) run on metadata and brokers of its own. C22_loses and the agreement of both tables after a heal (C22_last_partial) leave the consumer without leaders of the topic; then C137_never and C137_raises. Connecting: the items of Grouped.connect are those of the table of partitions. Falsity by one consumer of two topics.

Status: **partial**. False (C139_false): the second round of heal asks for the topics under election only, and replaces all that is known. C139_loses: a consumer healed then asks for no messages of any other topic of which it has partitions, until it gets other metadata, and if it has nothing else to do its calls raise KeyError, each time, without healing. C139_brings: a consumer that connects then brings no partition of any other topic into the group. C139_goes_on_partial: with nothing amiss in the metadata, the next call asks for all of its partitions.

Theorems: `C139_loses`, `C139_brings`, `C139_goes_on_partial`, `C139_false`.

### C14 Responses reach the request they answer

Connection as a state machine over futures; invariant over all event lists.

Status: **proved**. Over all event histories, in both directions; plus framing: chunking of the input does not matter.

Theorems: `C14_correlation`, `C14_answered`, `C14_chunks`, `C14_frames`.

### C140 Messages queued for a topic survive elections of other topics' leaders

The producer with overlapping calls (Model/ProducerBusy.lean) and Cluster.heal (Model/Cluster.lean). An invariant of all steps but new metadata: what has no leader gets none, nothing is handed over for it, what is in the table stays. Routing any message of such a topic fails (Placements has no placement for it), so flush raises; drain has then removed at least one entry of the queue: induction on flushes. The partial claim by C28_succeeds and C28_routing over C22_clean_partial.

Status: **partial**. False (C140_false): with an election for another topic, heal forgets the topic, and flush raises and drops its messages. C140_loses, C140_never: after such a heal nothing is sent of any topic that was fine, until the cluster changes. C140_raises: every flush or winding down raises while messages of such a topic are queued, and drops at least one topic's. C140_gone: after as many flushes as there are topics queued the messages are gone. C140_goes_on_partial: with nothing amiss in the metadata at all, the next flush sends everything queued.

Theorems: `C140_never`, `C140_raises`, `C140_gone`, `C140_loses`, `C140_goes_on_partial`, `C140_false`.

### C141 produce looks up a topic of which nothing is known

The same model; cluster.topics is a defaultdict, so routing a message inserts its topic. Induction over histories without new metadata; a table built by process_topics has no topic without partitions (C19_topics). Falsity by a producer of batches that learns of an election.

Status: **partial**. False (C141_false): a flush that fails for want of partitions leaves the topic in the table of topics, without partitions, so that produce takes it for known. C141_hides: how that comes about. C141_stuck: from then on, as long as the cluster does not change, no call of produce for the topic heals or sends; with a full batch each raises. C141_each: message after message is lost. C141_only: only topics with queued messages are affected. C141_fresh_partial: right after a heal, a topic without partitions is looked up.

Theorems: `C141_hides`, `C141_stuck`, `C141_each`, `C141_only`, `C141_fresh_partial`, `C141_false`.

### C142 Calls under way when connections are closed end

Model/Wired.lean: the sends of one client (Model/Sends.lean) over a pool of connections (Model/Connection.lean); what a future has come to is what its send gets. Invariant: futures of a connection that is closed and not read from do not change (frozen_step), so the send's loop gets nothing; induction over courses. The partial claims by induction on what is outstanding, and over C16_abort.

Status: **partial**. False (C142_false): close() and StreamClosedError set the closing flag but leave the futures of requests as they are, and abort() then does nothing. C142_hangs: a call whose outstanding requests are at connections that cluster.stop() closes never ends, whatever happens afterwards. C142_hangs_lost: nor does one whose brokers close the connections. C142_ends_partial: a call whose requests are all settled ends by its own steps. C142_aborted_partial: it would end were the connections aborted.

Theorems: `C142_hangs`, `C142_hangs_lost`, `C142_false`, `C142_ends_partial`, `C142_aborted_partial`.

### C143 A call gets what brokers answered to its own requests, although calls share connections

The same model. Invariant over the course: the futures of the call belong to its own requests (sendAll_waits), an answer in one of them comes from a frame with the request's correlation id that reads as an answer to it (answered_in, on which C14 rests too), results hold only what handlers made of such.

Status: **proved**. C143_connection: the connection of a broker was made for it. C143_results: for every history before, every course of events after, and every number of calls sharing connections.

Theorems: `C143_results`, `C143_connection`.

### C144 A lost connection is noticed by the next call that needs it

Model/Wired.lean. A connection that is closing fails each request at once (sendAll_closed), and a settled future stays as it is (settled_stays). Invariant over the course: the call still has this future to take, or the flag that asks for a heal is set, or a heal has returned since; only a heal that returns clears the flag (flag_step).

Status: **proved**. C144_noticed: for every history before and after. That a heal which returns has closed connections replaced is C73; calls that were waiting for an answer over the lost connection are the subject of C142.

Theorems: `C144_noticed`.

### C145 A call returns once the brokers it asked have answered

Model/Wired.lean. Invariant per request (Ready, ready_step): its future is settled, with an answer as long as the connection is open, or its correlation id leads to it in the connection's tables; requests with other ids leave this so. An answer over an open connection settles it (ready_answered), so nothing the call waits for is missing (answered_replies); what is left are its own steps (C142_ends_partial). The flag that asks for a heal is the client's, and only a heal that returns clears it (C145_held).

Status: **partial**. False of the code (C145_false, C145_held): `heal_cluster` belongs to the client, not to the call, so after another call has lost its connection to some broker, a call whose own brokers have all answered does not return before a heal() has returned; heal() asks brokers for metadata one after the other and without a time limit (kiel/cluster.py:159-167), so that a broker that is silent, not lost, holds it up. What holds, for every history: such a call ends by its own steps and that heal() (C145_ends_partial), and returns by its own steps alone if nobody has asked for a heal (C145_returns_partial). Correlation ids are taken to be different (C13).

Theorems: `C145_ends_partial`, `C145_held`, `C145_returns_partial`, `C145_false`.

### C146 Asking for metadata survives the loss of a broker

Model/Asking.lean: get_metadata() calls over Model/Wired.lean. A future of a connection that is closed and no longer read from stays as it is (ask_stuck_step). For answers: the invariant Ready of C145 through the steps of get_metadata() (ready_ask); while the connection is open its future has no exception, so the loop stays (ask_stays). What is returned: an invariant that traces every future that is waited for back to the event that sent its request, and what settles it to a frame (askedBy). Passing over closed connections: induction over the events, with the connections that come before (Passing).

Status: **partial**. False of the code (C146_hangs, C146_false, C146_raises): when the stream of a connection ends while get_metadata() waits for its answer, the connection is marked as closing but the futures of its requests are not settled (cf. C142), so get_metadata(), the heal() that called it, and the call that waits for this heal() (C146_call) never end, whoever else would answer; when it fails in another way, or the answer cannot be read, get_metadata() raises this error instead of asking another broker (C146_raises); and with C145_held no call of the client returns from then on unless another heal() returns. What holds: connections that were lost before are passed over (C146_passes_partial), NoBrokersError is raised if all were (C146_none_partial), and an answer over an open connection is returned whatever else happens meanwhile (C146_answers_partial), and what is returned is such an answer (C146_answer_partial); whenever the brokers that are asked are heard from or were lost before, get_metadata() comes by what heal() is given by getMetadata in Model/Cluster.lean (C146_agrees_partial). Connections added or removed during the loop are the subject of C88.

Theorems: `C146_hangs`, `C146_answer_partial`, `C146_answers_partial`, `C146_call`, `C146_raises`, `C146_passes_partial`, `C146_none_partial`, `C146_false`, `C146_agrees_partial`.

### C147 Connecting survives the loss of a bootstrap host

Model/Booting.lean: the loop of start() over Model/Connection.lean, step by step. Hanging: a future of a connection that is closed and no longer read from stays as it is (boot_stuck). Answers: the invariant Ready of C145 (booting_open) and the origin of results (answered_in, as for C143). Refusals and the agreement with bootstrap (C147_agrees_partial): induction over the hosts.

Status: **partial**. False of the code (C147_hangs, C147_false, C147_raises, C147_last): if the host that was connected to closes its connection before it has answered, start() never ends; if its stream fails in another way, or what it sends cannot be read, start() raises this error; in neither case another host is tried. What holds: hosts that refuse connections are passed over in order, and NoBrokersError is raised if all do (C147_none_partial); an answer over an open connection is what start() goes on with (C147_answers_partial); whenever the hosts connected to are heard from, start() comes by what Cluster.start is given by bootstrap (C147_agrees_partial). C23 states the same on the level of results of requests.

Theorems: `C147_hangs`, `C147_last`, `C147_answers_partial`, `C147_raises`, `C147_none_partial`, `C147_agrees_partial`, `C147_false`.

### C15 A request's future is settled at most once

Same machine; monotonicity of settled futures.

Status: **proved**. Over all event histories.

Theorems: `C15_once`.

### C16 abort() fails everything outstanding and seals the connection

Same machine; one-step theorem from every state.

Status: **proved**. For histories in which no request object is sent twice (sending one twice orphans its first future).

Theorems: `C16_abort`.

### C17 Losing the broker fails outstanding requests

False for the code: theorem that after a StreamClosedError the pending futures stay pending under every later event list. Partial: other errors do fail them.

Status: **partial**. False of the code, for every outstanding request: StreamClosedError only sets `closing`, so the pending futures are never settled and abort() has become a no-op (C17_hangs). Proved for every other read or write error.

Theorems: `C17_hangs`, `C17_loss_partial`, `C17_false`.

### C18 An unintelligible response aborts the connection

Same machine; case analysis of the read step.

Status: **proved**. For every frame on every reachable open connection; exact error.

Theorems: `C18_unintelligible`.

### C19 The topic and leader tables are consistent with the metadata

Fold over the response; spec by filtering.

Status: **proved**. For every metadata response and every cluster state.

Theorems: `C19_topics`, `C19_leaders`, `C19_known`, `C19_getLeader`.

### C20 Topics needing another look are reported

Same fold; membership characterisation.

Status: **proved**. For every metadata response and every cluster state.

Theorems: `C20_missing`.

### C21 Connections follow the broker list

Fold over brokers with an arbitrary connect oracle.

Status: **proved**. For every metadata response, cluster state and outcome of connecting.

Theorems: `C21_brokers`.

### C22 heal() leaves the cluster in sync with the metadata

heal as a fuelled loop over an arbitrary environment; false for the code (a retry round overwrites the tables), partial: holds when one round suffices, and in general for the last response.

Status: **partial**. False of the code: heal()'s later rounds ask for the missing topics only and then replace the whole tables, losing every other topic (C22_loses, C22_false). Proved: a heal that returns leaves the cluster in sync with the last metadata response it used, and a first round with nothing missing leaves it in sync with that response.

Theorems: `C22_last_partial`, `C22_clean_partial`, `C22_loses`, `C22_false`.

### C23 Any working bootstrap host is enough

start over an arbitrary outcome per host; false for the code (a failing metadata request is not skipped); partial plus exact result.

Status: **partial**. False of the code: a failure of the metadata request on the first reachable host is raised without trying the other hosts (C23_false). Proved when the first reachable host answers, and when no host is reachable.

Theorems: `C23_bootstrap_partial`, `C23_none`, `C23_gives_up`, `C23_false`.

### C24 Metadata is taken from the first connection that answers

Recursion over the connections; exact spec by `find?`.

Status: **proved**. For every set of connections and every pattern of failures.

Theorems: `C24_first`, `C24_none`.

### C25 send() handles every response and isolates failures

send loop over an arbitrary completion list; induction.

Status: **proved**. For every set of requests, order of completion and pattern of failures; C25_overlap with any other sends under way.

Theorems: `C25_results`, `C25_order`, `C25_unhandled`, `C25_overlap`.

### C26 Errors while sending trigger a cluster heal

Same; exact flag characterisation. StreamClosedError is the exception (the code violates the docstring).

Status: **partial**. False of the code for one kind of failure: a request failing with StreamClosedError does not heal (C26_false). Proved: an exact characterisation of when the cluster is healed, for every set of requests, order of completion and pattern of failures; a failing heal leaves the flag set. C26_false_group is a second case, in the requests of a group; what trouble does lead to fresh metadata is C89.

Theorems: `C26_heal_partial`, `C26_heal_fails`, `C26_false`, `C26_false_group`.

### C27 Messages are batched until the batch size is reached

Producer state machine, one-step theorem.

Status: **proved**. For every state and message; the batch counts the messages of all topics.

Theorems: `C27_batching`.

### C28 Messages are routed to the partition leader, in order

Fold over queue; spec by filtering with the partitioner's choices.

Status: **proved**. For every queue, partitioner and cluster view; C28_succeeds shows when the flush gets to send.

Theorems: `C28_routing`, `C28_succeeds`.

### C29 No message is lost or duplicated while the client is running

Permutation invariant over all operation lists with ghost bookkeeping.

Status: **partial**. Conservation is proved over all histories, counting as in flight also the requests whose connection has failed, and excluding flushes that raise; in full it is false of the code (C31, C33). What happens to the messages of failed requests is C87.

Theorems: `C29_conservation_partial`, `C29_distinct`, `C29_false`.

### C30 Retriable failures are retried

One-step theorem on the response handler from every state.

Status: **proved**. For every answer to a request that was sent; C30_proper shows such answers are handled without an exception.

Theorems: `C30_retry`, `C30_flushed`, `C30_proper`.

### C31 A lost connection does not lose messages

False for the code: messages of a lost request are never part of a later request. Partial: they are still held in `sent`.

Status: **partial**. False of the code: when the connection fails before the answer the messages stay in a table nothing reads again (C31_stuck for every history, C31_false).

Theorems: `C31_stuck`, `C31_false`.

### C32 Closing the producer flushes everything

False for the code; partial: holds when all answers are success.

Status: **partial**. False of the code: a retriable answer to the final flush puts the messages back in the queue of a closed producer (C32_false). Proved when all answers report success.

Theorems: `C32_close_partial`, `C32_false`.

### C33 A failing flush keeps the queue

False for the code; witness and partial.

Status: **partial**. False of the code: flush drains the queue while it routes, so a raising partitioner loses the messages (C33_loses in general, C33_false).

Theorems: `C33_loses`, `C33_false`.

### C34 Nothing is queued for unknown topics or while closing

One-step theorem.

Status: **proved**. For every state.

Theorems: `C34_closing`, `C34_unknown`, `C34_created`.

### C35 drain empties its argument exactly once

drain as a machine with interleaved additions; induction.

Status: **proved**. For every collection and every interleaving of additions, of elements that are new (C35_conserved, C35_empties) or not (C35_again, C35_replaced).

Theorems: `C35_conserved`, `C35_again`, `C35_replaced`, `C35_empties`, `C35_order`.

### C36 A consume fetches exactly the allocated partitions

Grouping fold; spec by filter; division bound.

Status: **proved**. For every state, allocation and leader table, with offsets determined or not; C36_fetches shows when a fetch happens, C36_unallocated that nothing is fetched for a topic without allocation, C36_once that each partition is in exactly one request.

Theorems: `C36_requests`, `C36_fetches`, `C36_unallocated`, `C36_determined`, `C36_once`.

### C37 Offsets advance to just after the last delivered message

Fold; exact spec.

Status: **proved**. For every response; C37_others also covers responses whose handling raises.

Theorems: `C37_offsets`, `C37_others`.

### C38 No message is skipped or delivered twice

Broker-log model; invariant over all histories.

Status: **partial**. Exactly-once and in order is proved over all histories of successful consumes, with any batch sizes, errors and lost connections, for logs without compressed sets (C38_exactly_once_partial). With compressed sets nothing is skipped (C38_no_skip), but messages can be returned again and again (C38_false_twice); a consume that raises loses messages (C38_false_lost): both are false of the code.

Theorems: `C38_exactly_once_partial`, `C38_order_partial`, `C38_no_skip`, `C38_false_twice`, `C38_false_lost`.

### C39 Every deserialized message is returned

False (falsy values are filtered); exact characterisation.

Status: **partial**. False of the code for values that are false in Python, which are dropped (C39_false); everything else is delivered, in order.

Theorems: `C39_results_partial`, `C39_false`.

### C40 A message that cannot be deserialized is skipped

False for a trailing poison message; exact characterisation.

Status: **partial**. Proved when a message that can be deserialized follows in the batch; false of the code otherwise: the consumer stays where it is for ever (C40_stuck in general, C40_false).

Theorems: `C40_skipped_partial`, `C40_stuck`, `C40_false`, `C40_tombstones`.

### C41 Fetch errors have the documented effect

Fold; exact characterisation, including the unknown-code KeyError.

Status: **proved**. For every response and state; a code outside the table is a KeyError (C41_unknown).

Theorems: `C41_codes`, `C41_unknown`.

### C42 A single consumer never asks for a negative offset

Invariant over all handler histories.

Status: **proved**. An invariant of every history of a SingleConsumer.

Theorems: `C42_nonneg`.

### C43 Consumption can start at a point in time

False: float timestamps cannot be packed; exact characterisation.

Status: **partial**. Proved for BEGINNING, END, other integers and the default. False of the code for datetime and timedelta: their time is a float, which cannot be packed (C43_float on the wire, C43_raises for every state, C43_false).

Theorems: `C43_requests_partial`, `C43_named`, `C43_float`, `C43_raises`, `C43_false`.

### C44 Offsets are determined before the first fetch and after errors only

consume as a function of an arbitrary environment.

Status: **partial**. For every state, answer and kind of failure of any consumer, except that a closing GroupedConsumer still commits the topic it is asked to consume: C44_false, C44_grouped_closing. See also C65_synced_anyway.

Theorems: `C44_false`, `C44_closing`, `C44_exactly`, `C44_no_offsets`, `C44_raises`, `C44_grouped`, `C44_grouped_closing`, `C44_first`.

### C45 Every partition is allocated to exactly one member

Index arithmetic on the round-robin zip.

Status: **proved**. For every list of members (at least one) and of different partitions of topics without a colon in their names; C45_malformed: other items raise ValueError.

Theorems: `C45_exact`, `C45_exactly_one`, `C45_no_members`, `C45_malformed`.

### C46 Allocation is balanced

Counting argument.

Status: **proved**. For every list of different members and every list of partitions; C46_total ties the count to what is looked up.

Theorems: `C46_balanced`, `C46_total`.

### C47 Members that see the same group agree

Sorting is canonical on sets; corollary of C45.

Status: **proved**. For every pair of sequences of notifications with the same latest members and partitions; notifications handled one after the other (see C59 for overlapping ones).

Theorems: `C47_agree`.

### C48 A rebalance forces offsets to be re-determined

Grouped consume with rebalances at every yield.

Status: **partial**. Proved for rebalances between consumes (C48_next_partial) and while messages are fetched (C48_during); false for one while the group's offsets are fetched, which is forgotten (C48_false).

Theorems: `C48_false`, `C48_next_partial`, `C48_during`.

### C49 Commits carry the consumer's offsets

Exact spec of the request.

Status: **proved**. The first request exactly; the further attempts of the same commit carry the same offsets for a subset of the topics (C49_every).

Theorems: `C49_first`, `C49_consumed`, `C49_every`.

### C50 Failed commits are retried

False: topic is discarded on the first success; witness and partial.

Status: **partial**. False: once one partition of a topic succeeded the others are not retried (C50_dropped, C50_false). Proved for topics of which no partition succeeded.

Theorems: `C50_false`, `C50_retried_partial`, `C50_dropped`.

### C51 Over-long commit metadata is dropped and the commit retried

Fold; exact characterisation.

Status: **partial**. False if the metadata is too large for only some partitions of a topic (C51_false, as C50). Proved otherwise; fatal codes are not retried (C51_fatal), unknown ones raise KeyError (C51_unknown). C51_overlap: the same with any other consumes and commits under way.

Theorems: `C51_false`, `C51_overlap`, `C51_blank_partial`, `C51_kept`, `C51_fatal`, `C51_unknown`.

### C52 A commit never rewinds a partition the consumer has not read

False: default offset 0 is committed after a rebalance; witness and partial.

Status: **partial**. False with a rebalance while topics wait to be committed (C52_false). Proved for every history whose rebalances happen while nothing waits to be committed and no offsets are being fetched.

Theorems: `C52_consume_partial`, `C52_commit_partial`, `C52_false`.

### C53 The coordinator is found if any broker knows it

False: KeyError on a failing broker; witness and partial.

Status: **partial**. False: a broker that is down ends the search with a KeyError (C53_down, C53_false), a fatal answer ends it without a coordinator (C53_fatal). Proved if every broker asked answers.

Theorems: `C53_found_partial`, `C53_down`, `C53_fatal`, `C53_none`, `C53_false`.

### C54 Group offsets are adopted, retried or refused

Fold; exact characterisation.

Status: **proved**. For every answer; a code outside the table is a KeyError (C54_unknown).

Theorems: `C54_adopted`, `C54_fatal`, `C54_unknown`, `C54_determine`.

### C55 A grouped consumer never asks for a negative offset

False: -1 is adopted; witness and partial.

Status: **partial**. False for a group that has never committed: offset -1 is adopted and asked for, for ever (C55_false, C55_false_forever). Proved for coordinators that never answer with a negative offset.

Theorems: `C55_false`, `C55_false_forever`, `C55_nonneg_partial`.

### C56 The shared set behaves like a set under concurrency

Small-step interleaving semantics with a lock; refinement to atomic set operations.

Status: **proved**. For any number of clients, any interleaving, any failing access to zookeeper. kazoo's lock is assumed to exclude; C56_leaky shows that updates are lost if a client loses it with its session.

Theorems: `C56_linearizable`, `C56_quiet`, `C56_leaky`.

### C57 The shared set is written only when it changes

One-step theorem.

Status: **partial**. Proved where text is a byte string (Python 2). On Python 3 kazoo refuses the text that json.dumps makes, so no call that would change the set succeeds: C57_python3 for every call, C57_false.

Theorems: `C57_partial`, `C57_when`, `C57_python3`, `C57_false`.

### C58 Membership follows sessions

Znode state machine over histories.

Status: **partial**. False when the stale session expires between the two accesses of join: C58_lost_race, C58_false. Proved without such interference (C58_join_partial), and for every history of uninterrupted operations (C58_history).

Theorems: `C58_join_partial`, `C58_expire`, `C58_leave`, `C58_false`, `C58_lost_race`, `C58_history`.

### C59 The mapping always reflects the last notification

Invariant over notification lists.

Status: **partial**. Proved for the default allocator and every one that does not raise and gives the consumer an entry, for notifications one after the other. False for other allocator functions (C59_false) and for notifications that overlap on two threads (C59_false_race).

Theorems: `C59_partial`, `C59_default`, `C59_unchanged`, `C59_one_at_a_time`, `C59_false`, `C59_false_race`.

### C60 After start() the consumer has an allocation

False: witness schedule; partial: holds once a rebalance has happened.

Status: **partial**. False for the first consumer of a group: C60_false. C60_exact says when it holds: when a notification handled by then was a change.

Theorems: `C60_exact`, `C60_partial`, `C60_false`.

### C61 Partitions can be added to and removed from the group

add: exact; remove: false for list values (TypeError), partial for text values.

Status: **partial**. remove_partitions raises TypeError for every dictionary with a list of ids: C61_remove, C61_false. add_partitions is proved (where text is a byte string; see C57).

Theorems: `C61_add_partial`, `C61_remove`, `C61_remove_text_partial`, `C61_false`.

### C62 Startup and shutdown stop at the first failure

Fold over steps; exact characterisation.

Status: **partial**. stop is proved (C62_stop), start provided zookeeper is reached. False if connect fails: start then waits for ever (C62_false).

Theorems: `C62_stop`, `C62_start_partial`, `C62_false`.

### C63 Error codes are unambiguous and classified as Kafka does

Whole finite table by kernel decision, lifted.

Status: **proved**. For every code table.

Theorems: `C63_general`, `C63_table`, `C63_codes`.

### C64 End to end: what is produced is what is consumed

Composition of C03, C07, C09, C11.

Status: **partial**. C64_sent: for no compression, gzip and snappy the bytes of a produce request's set hold, by an independent spec of the Kafka format (incl. snappy-java framing), exactly the messages in order. C64_received_partial: whatever plain/gzip/snappy sets a broker serves, the consumer sees exactly the messages they hold. C64_roundtrip_partial: application messages -> set -> any offsets, any re-compression -> handler returns exactly the messages and the offset after the last. Missing: false in general (C64_false, a concrete 32743-byte message lost through a short last snappy block; and checksums equal to 2^31, C08).

Theorems: `C64_sent`, `C64_received_partial`, `C64_roundtrip_partial`, `C64_false`.

### C65 Offsets that could not be determined are asked for again

One-step theorem from every state of a single consumer: which topics count as determined afterwards.

Status: **partial**. False of the code: the topic is marked synced after determine_offsets whether or not offsets were obtained (C65_synced_anyway for every state, C65_false).

Theorems: `C65_synced_anyway`, `C65_false`.

### C66 A consumer finds its group's coordinator again when it moves

`consume` of a grouped consumer with arbitrary answers; induction on the number of rounds shows that the same broker is asked each time.

Status: **partial**. False: C66_stuck proves that consume asks the old coordinator for ever, however many rounds; C66_false is an instance.

Theorems: `C66_false`, `C66_stuck`.

### C67 Losing the coordinator loses no messages

Grouped `consume` and `determine_offsets` with a broker that is gone; one-step theorems and a concrete case.

Status: **partial**. False: KeyError is raised (C67_determine, C67_lost) and the messages just fetched are never returned (C67_false).

Theorems: `C67_false`, `C67_lost`, `C67_determine`.

### C68 Every compression setting that is accepted works

The constructor's check, and the whole flush, for every value of `compression`; python-snappy present or absent is part of the codec.

Status: **partial**. C68_accepted: exactly none, gzip and snappy are accepted. C68_sends_partial: where python-snappy is installed (codec laws hold) compression never makes a flush raise; C69_produce says what is sent. False without python-snappy: C68_unavailable (no flush ever sends anything, and messages are lost when it raises), C68_false.

Theorems: `C68_accepted`, `C68_sends_partial`, `C68_unavailable`, `C68_false`.

### C69 Requests on the wire

For every request the clients make, the bytes `Connection.send` writes, against a byte-level specification (`Spec/Requests.lean`) that shares nothing with the renderer.

Status: **proved**. One theorem per request; C69_written says these are the bytes that Connection.send writes. C69_produce and C69_fetch start from what flush and consume do. For C69_offset the time is an integer; a float (C43_false) cannot be written.

Theorems: `C69_metadata`, `C69_coordinator`, `C69_offset_fetch`, `C69_commit`, `C69_offset`, `C69_fetch`, `C69_produce`, `C69_written`.

### C70 Responses are read as the broker wrote them

Bytes written by the same byte-level specification, parsed by the model of the protocol classes and read as the clients read them.

Status: **proved**. One theorem per response class; fetch responses are C64_received_partial/C07_fetch. Bytes are an independent byte-level spec (Verif/Spec/Requests.lean). Metadata of a committed offset and the host of a coordinator may be null; other strings are not null, as the protocol prescribes.

Theorems: `C70_produce`, `C70_offset`, `C70_commit`, `C70_offset_fetch`, `C70_coordinator`, `C70_metadata`.

### C71 An unknown error code affects only its own partition

Exact effect of every handler on answers in which some code is not in the table; induction on the answers before it.

Status: **partial**. False: C71_false_fetch, C71_false_produce. Exact: C71_fetch, C71_produce, C71_offset, C71_offset_fetch, C71_commit (KeyError; what precedes counts, what follows is ignored; messages fetched before are skipped, messages to be produced again are kept for a request that is over); C71_coordinator holds. Partial: C71_fetch_partial, C71_produce_partial for codes in the table.

Theorems: `C71_fetch`, `C71_fetch_partial`, `C71_produce`, `C71_produce_partial`, `C71_offset`, `C71_offset_fetch`, `C71_commit`, `C71_coordinator`, `C71_false_fetch`, `C71_false_produce`.

### C72 Closing releases every connection

`close` of each client with arbitrary outcomes of the flush and of zookeeper; `Cluster.stop` closes all it knows.

Status: **partial**. C72_single; C72_grouped_partial (exact: closed iff leaving the group and stopping zookeeper succeed); C72_producer_partial (if the final flush does not raise). False otherwise: C72_producer_raises, C72_false (a message for a topic that left the metadata makes close raise IndexError and leaves every connection open).

Theorems: `C72_single`, `C72_grouped_partial`, `C72_producer_partial`, `C72_producer_raises`, `C72_false`.

### C73 Connections after heal()

`heal` over an arbitrary environment; induction on the rounds, tracking where each connection came from.

Status: **partial**. C73_origin, C73_open_partial (brokers listed in all metadata seen end with an open connection), C73_connected_partial (to the listed address, if they had none). False in general: C73_moved/C73_false (a broker at a new address keeps the connection to the old one), C73_relisted (unlisted in one round and listed again in the next: left with a closed connection).

Theorems: `C73_origin`, `C73_open_partial`, `C73_connected_partial`, `C73_moved`, `C73_false`, `C73_relisted`.

### C74 Corrupted messages are not delivered

The parser run on sets encoded by the specification with arbitrary checksums.

Status: **partial**. False: the checksum is never compared. C74_ignored: a set of messages with any checksums is read as the same messages; C74_false.

Theorems: `C74_ignored`, `C74_false`.

### C75 Messages of a partition keep their order

Producer histories with ghost lists of what was accepted and handed over, per topic and partition; induction on the history. For overlapping whole calls (`ProducerBusy`): every event is shown to be a sequence of such steps (`refines_step`), so that every course is a history.

Status: **partial**. C75_order_partial: for every history without a retriable error answer for the partition, what is handed over followed by what is still queued is exactly what was accepted, in order. C75_calls_partial: the same for whole calls of produce, flush and close that overlap in any way, every course of which is shown to be such a history. C75_raising_partial: also when flushes, calls and answers raise, what is handed over followed by what is queued is some of what was accepted, in order. False with retriable answers: C75_false (a message that is retried is overtaken by a later one of the same key).

Theorems: `C75_calls_partial`, `C75_raising_partial`, `C75_order_partial`, `C75_false`.

### C76 Overlapping calls of consume neither repeat nor skip messages

Any number of `consume` calls under way, as a transition system over events; invariant relating offsets, requests under way and what was returned to the broker's log.

Status: **partial**. C76_exactly_once_partial: any interleaving in which no two calls for the same topic overlap; what is returned and held is an interleaving of the logs' windows. C76_no_skip: any interleaving at all, compressed sets included: nothing is skipped. False for overlapping calls for the same topic: C76_false (messages returned twice, offset put back). consume_synced_single: the model of consumes that begin with the fetches agrees with the one that includes the determining of offsets.

Theorems: `C76_exactly_once_partial`, `C76_no_skip`, `C76_false`, `consume_synced_single`.

### C77 A single consumer starts where the brokers say

Exact effect of every offset answer, then composition with grouping by leader and with the fetch requests of the same consume.

Status: **proved**. C77_adopted/C77_fatal/C77_empty: exact effect of every answer (unknown codes: C71_offset). C77_starts: from the answers of any number of leaders to the offsets in the fetch requests of the same consume. What the code does with a retriable answer in the same call is C65.

Theorems: `C77_adopted`, `C77_fatal`, `C77_empty`, `C77_starts`.

### C78 Reported errors lead to a heal although sends overlap

Any number of `send`s under way sharing the client and the flag, as a transition system (`Model/Sends.lean`), shown to agree with the model of a single `send` (`sends_alone`); induction on the course of events. `ProducerHeals.lean`: the flag at every step of `ProducerBusy` (`heal_step`).

Status: **partial**. False as stated (C78_false): the flag is shared, and the heal of one send clears it although another send has set it meanwhile. Proved for each kind of request and any interleaving if no heal is under way when the error is seen (C78_heals_partial); no heal begins unless there was such an error or a send raised (C78_only). In any case no send returns before a heal has returned without raising (C78_healed, also for answers whose handler raises after it has met the error). C78_consumes and C78_flushes tie the models of overlapping consumes and flushes to it. For overlapping whole calls of a producer: C78_producer_partial (no send returns between what calls for a heal and the end of a heal), C78_producer_only (no heal without a cause since the last one ended).

Theorems: `C78_producer_partial`, `C78_producer_only`, `C78_heals_partial`, `C78_healed`, `C78_only`, `C78_consumes`, `C78_flushes`, `C78_false`, `sends_alone`.

### C79 No connection is lost track of

Any number of `heal`s under way over connections as objects; invariant that every open connection is in use.

Status: **partial**. False as stated: two heals under way both connect to a broker, and one connection is lost track of (C79_false); a connection made after stop stays open (C79_false_stop). Proved for heals that come one after the other, with any failures and lost connections (C79_in_use_partial), and that stop then leaves none open (C79_stopped_partial).

Theorems: `C79_in_use_partial`, `C79_stopped_partial`, `C79_false`, `C79_false_stop`.

### C80 Healing raises only for want of brokers

The same transition system; a refinement: an undisturbed round has the effect of `Cluster.sync` of the sequential model.

Status: **partial**. False as stated: a heal that overlaps with another raises a KeyError (C80_false). Proved for heals that come one after the other (C80_raises_partial); an undisturbed round is that of the sequential model (C80_undisturbed_partial, C80_again_partial).

Theorems: `C80_raises_partial`, `C80_undisturbed_partial`, `C80_again_partial`, `C80_false`.

### C81 Equality of protocol structures agrees with their bytes

`eqVal`/`eqFields`: Python's `==` on values of each protocol class; mutual induction over classes, on top of C03.

Status: **partial**. False as stated: bytes that are text are read back as text, which they do not equal (C81_false_read); messages are compared by key and value only, so that sets with different attributes are equal (C81_false_bytes). C81_read_back characterises exactly which values equal what is read back, for all classes (C81_classes); C81_same_bytes_partial proves the second half for structures without message sets; C81_sets says what equality of message sets amounts to.

Theorems: `C81_read_back`, `C81_same_bytes_partial`, `C81_sets`, `C81_false_read`, `C81_false_bytes`, `C81_classes`.

### C82 In a settled group each partition has one consumer

`Verif/Model/Group.lean`: consumers (allocators, sessions, connection states) on one zookeeper, as a transition system. The latest members and partitions a consumer was told are a fold over the history (`told`), so that C59 gives its allocation, the same call of the allocator function for all, and C45 the rest. That a member's node belongs to a consumer is an invariant.

Status: **proved**. Any number of consumers, any events; UpToDate only says what the consumers were last told. C82_untold shows that a consumer not yet told may share a partition. Topic names without colons (see C45).

Theorems: `C82_settled`, `C82_settles`, `C82_untold`.

### C83 The partitions of a lost consumer are taken over

Invariant: without `join`, an expired consumer has no node; then C82 for the others and C45 (every entry is a member's) for the consumer.

Status: **proved**. C83_taken_over, and C83_gives_up for the consumer itself.

Theorems: `C83_gives_up`, `C83_taken_over`.

### C84 A consumer comes back after losing its session

As C83; the negation for every later history, and a concrete one.

Status: **partial**. False: C84_gone (whatever happens, it is not a member again unless join is called, which only start does), C84_false. C84_rejoins_partial: joining again would do.

Theorems: `C84_gone`, `C84_rejoins_partial`, `C84_false`.

### C85 Shared partitions change only while connected

The flag is a function of the last reported state, by induction over the history.

Status: **proved**. After any events; the effect of the calls themselves is C57/C61.

Theorems: `C85_waits`.

### C86 A consumer that keeps consuming catches up

`ConsumedN`: a course of consumes against honest brokers, counting those in which the partition was supplied. The number of messages ahead decreases with each; with none ahead C38_no_skip gives the rest.

Status: **proved**. C86_catches_up for logs with compressed sets (sent whole), C86_in_order without. Messages that are false to Python once deserialized are dropped (C40), so not counted as returned.

Theorems: `C86_catches_up`, `C86_in_order`.

### C87 Messages are never in two places and get lost only in flushes that raise

`Ledger`: histories in which everything may raise. Per step a permutation between what was and what is there, with the losses as a part of the queue that the raising flush found; the requests a raising flush had already built are a sublist of what was routed. `C87_calls`: the same permutation for every step of overlapping calls (`calls_ledger_step`).

Status: **proved**. Complements C29 (which is about histories without exceptions, and says nothing is lost) and C33 (which says when a flush raises). Answers are to requests that were made before. 'Kept for a request' includes requests that have failed (C31) and requests that a raising flush never sent. C87_calls: the same for whole calls of produce, flush and close that overlap at every point where a coroutine yields, from a new producer on (Model/Produces.lean).

Theorems: `C87_accounted`, `C87_calls`.

### C88 Asking for metadata succeeds if a connected broker answers

`gatherMetadata`: the loop with arbitrary changes of the connections at each point where it waits; induction on the brokers left.

Status: **partial**. False as stated: RuntimeError if another heal has added or dropped a connection meanwhile (C88_false); C88_raises: nothing else can be raised. Proved if no connections are added or removed (C88_answers_partial), and as C24 if nothing changes (C88_undisturbed_partial).

Theorems: `C88_undisturbed_partial`, `C88_raises`, `C88_answers_partial`, `C88_false`.

### C89 Trouble that fresh metadata may cure leads to fresh metadata

`clientSend` with the handlers of each client: induction over the outcomes, with the cluster and the flag as invariant; then unfolding of each call.

Status: **proved**. C89_consume, C89_quiet, C89_offsets, C89_flush, C89_group, C89_group_fails; C89_kept for calls that raise; C89_offsets_again, C89_flush_again, C89_fetch_again, C89_group_again: healing that raises is made up for by the next call. Sends that overlap on one client are the subject of C78; closed connections of C26.

Theorems: `C89_offsets_again`, `C89_flush_again`, `C89_fetch_next`, `C89_fetch_again`, `C89_group_again`, `C89_consume`, `C89_quiet`, `C89_offsets`, `C89_flush`, `C89_group`, `C89_group_fails`, `C89_kept`.

### C90 Connecting makes a group consumer ready

`Grouped.connect` composes `Cluster.start`, `Alloc.start` and `determineCoordinator`; the parts of C22, C23, C53, C60, C61 and C62 are put together, with an inversion of the search for the coordinator (induction on its rounds).

Status: **partial**. Proved: C90_order (order of the steps, exceptions), C90_returned (exactly what holds once connect has returned, with notifications during any of its steps), C90_offsets (offsets are determined anew just if the group was rebalanced meanwhile), C90_failed (what a failing step leaves), C90_ready_partial (conditions under which it returns with the consumer ready). False as stated (C90_false, C90_false_coordinator): in a new group the allocation cannot be read yet, and after a fatal answer there is no coordinator; then every consume raises KeyError (C90_stuck).

Theorems: `C90_order`, `C90_returned`, `C90_ready_partial`, `C90_offsets`, `C90_failed`, `C90_false`, `C90_false_coordinator`, `C90_stuck`.

### C91 Healing ends when there is nothing left to wait for

Induction on the rounds of `healLoop`: a settled answer leaves nothing missing (C20, C21); an unreachable broker stays out of the connections and in the missing ones; a topic without leader stays in the missing topics. `NeedsLook` of the specification is antitone in the known brokers.

Status: **proved**. C91_ends and C91_returns give the bound; C91_waits_broker, C91_waits_topic and C91_waits_start show that it is needed: for any number of rounds, heal and start have not returned. A round is one metadata request and its processing.

Theorems: `C91_ends`, `C91_returns`, `C91_waits_broker`, `C91_waits_topic`, `C91_waits_start`.

### C92 Producing without acknowledgements does not wait for answers

Induction on a suffix of the history of a connection, with the effect of sends and of answers to other requests (C14_answered); the witness is a produce request with required_acks=0.

Status: **partial**. False (C92_false): the connection keeps waiting for an answer. C92_waits is the exact behaviour: a request stays outstanding for as long as requests are sent, writes complete and other requests are answered. That flush waits for all its requests is in the model of Client.send.

Theorems: `C92_waits`, `C92_false`.

### C93 JSON messages survive the default serializers

Induction on the value: the text of a value followed by `,`, `]`, `}` or nothing is read back as the value with sorted keys, with fuel at least the length of the text; strings by the inverse of each escape (surrogate pairs included), numbers by the shape of their text. Then the end-to-end argument of C64.

Status: **proved**. json is CPython's, modelled by its documented behaviour: writer and reader are written out character by character (Model/Json.lean). Floats are kept as the text repr gives them; that float(repr(x)) == x is not modelled. Lone surrogates, which Python strings can hold, are left out. C93_delivered has the hypotheses of C64 on sizes and checksums.

Theorems: `C93_json`, `C93_delivered`, `C93_canonical`.

### C94 The shared set's data is read back as the set that was written

The round trip of C93 for lists of what can be in a set, then the decision of C57 on what was read; equality of numbers is a parameter.

Status: **partial**. False as stated: JSON that is no list of strings is not always left alone. C94_false: a string is taken for the set of its characters, an object for the set of its keys, and the next call that changes anything replaces it by a list. C94_malformed_partial: exactly what is left alone; C94_taken: what becomes of the rest. C94_raises: text that is no JSON raises ValueError. Everything else in the statement is proved (C94_read, C94_empty, C94_call, C94_calls), for data with other things than strings in it as well. As far as text can be written at all: on Python 3 kazoo refuses it (C57_false), which is outside this property. C94_call and C94_calls are about calls nobody interferes with; for concurrent calls see C56.

Theorems: `C94_read`, `C94_empty`, `C94_call`, `C94_malformed_partial`, `C94_taken`, `C94_calls`, `C94_raises`, `C94_false`.

### C95 A process can go on sending requests for as long as it lives

Ids of successive requests are consecutive (induction over the requests created); packing the third item of the preamble fails if the id does not fit. The positive part is C04/C05 with C13.

Status: **partial**. False of the code: the counter is never wrapped, so once it reaches 2^31 - 1 every request of every client of the process fails to serialize, for ever (C95_exhausted, C95_send, C95_limit; C95_false is a concrete one). Proved of the code: until then ids are no obstacle (C95_first_partial).

Theorems: `C95_exhausted`, `C95_send`, `C95_limit`, `C95_first_partial`, `C95_false`.

### C96 No message below a committed offset is lost to the group

Two invariants of the group, by induction over its histories: everything below every committed offset and below every offset of every member (steady rules), or of synced and waiting topics (quiet rules), has been returned. A fetch moves an offset only over messages it returns (wide_window); determine_offsets adopts only committed offsets; commits carry only the members' offsets.

Status: **partial**. False of the code: an automatic commit that raises, or a crash between the commit and the return of consume, loses the messages just fetched (C96_false_commit, C96_false_crash); so does a rebalance during a fetch while the topic waits to be committed (C96_false_rebalance). Proved: C96_steady_partial for rebalances at any time except while messages are fetched, C96_quiet_partial for rebalances at any time (also during fetches) while nothing waits to be committed; members may crash at any time other than between an automatic commit and the return of the consume, and consumes may raise before anything is fetched. A consume is one step of the group. Rebalances take effect at one moment of the consumer's thread; C128 is about those that are seen half done.

Theorems: `C96_steady_partial`, `C96_quiet_partial`, `C96_position_partial`, `C96_false_commit`, `C96_false_crash`, `C96_false_rebalance`.

### C97 A connection carries a conversation faithfully, however the bytes are cut

The bytes that have arrived are a prefix of the broker's output, so the frames read are its first answers (induction over the answers; a proper prefix of a frame yields none). The history in bytes is mapped to one of frames (C14_chunks), for which C14_answered and C04_written give the invariant of the conversation by induction.

Status: **proved**. C97_conversation is the claim, from bytes arriving to futures settled; C97_cut: where bytes are cut makes no difference to the connection, for any bytes and any state. Frames with a declared size below 4 are outside the model.

Theorems: `C97_conversation`, `C97_cut`.

### C98 Once the trouble is over, one flush delivers everything

One flush: the answers are handled one after the other (induction over them with C30_retry and C30_proper); the messages put back are collected per broker and partition, and this is a permutation of the placements to be tried again (perm_by_key). Histories by induction, with placements being unique.

Status: **proved**. C98_round: what one flush, all of whose requests are answered, leaves in the queue, exactly; C98_accounted and C98_delivered: histories of such flushes. Requests that fail keep their messages for ever (C31); they are excluded here by the hypothesis that requests are answered.

Theorems: `C98_round`, `C98_accounted`, `C98_delivered`.

### C99 What is produced is consumed, exactly once

`Pipeline`: courses of flushes (stored as acknowledged), other events of the producer, foreign messages, and consumes served from the logs as they are then. What the logs gain is an interleaving, and with the queue a permutation, of what was made (flush_stored, from C28_routing and C98_round); fetches from an earlier log are fetches from the final one, so C38_exactly_once_partial applies to it; interleavings of the same lists are permutations of each other (by counting).

Status: **proved**. C99_pipeline (exactly once) and C99_settles (getting there). Hypotheses: every request of a flush is answered, with code 0 or a retriable one (otherwise messages are lost, C30/C31); brokers store messages as they are (no compressed sets: C38_false_twice); the consumes return and determine no offsets (C38_false_lost).

Theorems: `C99_pipeline`, `C99_settles`.

