{
 "claims": [
  {
   "property": "C01",
   "status": "proved",
   "theorems": [
    "Kiel.C01_encode",
    "Kiel.C01_parse",
    "Kiel.C01_parse_inv",
    "Kiel.C01_refused"
   ],
   "note": "Encoding, decoding, inverse and refusal of out-of-range integers for all four widths."
  },
  {
   "property": "C02",
   "status": "proved",
   "theorems": [
    "Kiel.C02_encode",
    "Kiel.C02_none",
    "Kiel.C02_parse",
    "Kiel.C02_text",
    "Kiel.C02_bytes",
    "Kiel.C02_scalar",
    "Kiel.C02_refused"
   ],
   "note": "Rendering of text, bytes, None and scalars; parsing back; refusal of over-long content."
  },
  {
   "property": "C03",
   "status": "proved",
   "theorems": [
    "Kiel.C03_encode",
    "Kiel.C03_parse",
    "Kiel.C03_roundtrip",
    "Kiel.C03_attr",
    "Kiel.C03_unambiguous"
   ],
   "note": "By structural induction over all schemas and values."
  },
  {
   "property": "C04",
   "status": "partial",
   "theorems": [
    "Kiel.C04_written",
    "Kiel.C04_refused",
    "Kiel.C04_preamble",
    "Kiel.C04_false",
    "Kiel.C04_C05_requests_partial",
    "Kiel.C04_frame",
    "Kiel.C04_frame_refused"
   ],
   "note": "C04_preamble: whatever request class and values, what serialize() returns begins with the preamble (C04_frame, C04_written: and is written with its length). C04_C05_requests_partial: every documented request class but HeartbeatRequest and OffsetCommitV1Request can be serialized, with its own encoding after the preamble. C04_false: those cannot be constructed or rendered at all (C05)."
  },
  {
   "property": "C05",
   "status": "partial",
   "theorems": [
    "Kiel.C04_C05_requests_partial",
    "Kiel.C05_responses_partial",
    "Kiel.C05_false_heartbeat_request",
    "Kiel.C05_false_heartbeat_response",
    "Kiel.C05_false_commit_v1"
   ],
   "note": "False of the code for three classes (heartbeat.py lacks a trailing comma; OffsetCommitV1Request has a malformed parts tuple): the negations are proved; the other 25 classes work as documented."
  },
  {
   "property": "C06",
   "status": "proved",
   "theorems": [
    "Kiel.C06_bounds",
    "Kiel.C06_bounds_past",
    "Kiel.C06_terminates"
   ],
   "note": "Bounds for every schema and buffer; termination of the message-set loop against a fuel-free big-step semantics."
  },
  {
   "property": "C07",
   "status": "proved",
   "theorems": [
    "Kiel.C07_encode",
    "Kiel.C07_parse",
    "Kiel.C07_fetch"
   ],
   "note": "Also for whole fetch responses mixing plain and compressed sets."
  },
  {
   "property": "C08",
   "status": "partial",
   "theorems": [
    "Kiel.C08_crc_partial",
    "Kiel.C08_false",
    "Kiel.C08_exact",
    "Kiel.C08_false_witness"
   ],
   "note": "False of the code exactly when the CRC is 2^31 (`>` instead of `>=` in Message.render); the negation is proved with a real JSON message."
  },
  {
   "property": "C09",
   "status": "proved",
   "theorems": [
    "Kiel.C09_roundtrip",
    "Kiel.C09_stored"
   ],
   "note": "For every gzip implementation that inverts itself and writes the magic bytes."
  },
  {
   "property": "C10",
   "status": "partial",
   "theorems": [
    "Kiel.C10_roundtrip_partial",
    "Kiel.C10_false",
    "Kiel.C10_false_witness",
    "Kiel.C10_terminates",
    "Kiel.C10_unavailable"
   ],
   "note": "False of the code: a last block that compresses to fewer than 12 bytes is dropped by decompress (off-by-header loop bound). Exact round trip proved otherwise."
  },
  {
   "property": "C11",
   "status": "partial",
   "theorems": [
    "Kiel.C11_roundtrip_partial",
    "Kiel.C11_false"
   ],
   "note": "Same exception as C10; C11_false shows which messages are lost, C64_false what that means end to end."
  },
  {
   "property": "C12",
   "status": "partial",
   "theorems": [
    "Kiel.C12_last_partial",
    "Kiel.C12_false"
   ],
   "note": "Proved for the last message set of the response, any cut; false when another partition follows (C12_false)."
  },
  {
   "property": "C13",
   "status": "proved",
   "theorems": [
    "Kiel.C13_increasing",
    "Kiel.C13_seed",
    "Kiel.C13_fits"
   ],
   "note": "Over all sequences of constructions, failed ones included."
  },
  {
   "property": "C14",
   "status": "proved",
   "theorems": [
    "Kiel.C14_correlation",
    "Kiel.C14_answered",
    "Kiel.C14_chunks",
    "Kiel.C14_frames"
   ],
   "note": "Over all event histories, in both directions; plus framing: chunking of the input does not matter."
  },
  {
   "property": "C15",
   "status": "proved",
   "theorems": [
    "Kiel.C15_once"
   ],
   "note": "Over all event histories."
  },
  {
   "property": "C16",
   "status": "proved",
   "theorems": [
    "Kiel.C16_abort"
   ],
   "note": "For histories in which no request object is sent twice (sending one twice orphans its first future)."
  },
  {
   "property": "C17",
   "status": "partial",
   "theorems": [
    "Kiel.C17_hangs",
    "Kiel.C17_loss_partial",
    "Kiel.C17_false"
   ],
   "note": "False of the code, for every outstanding request: StreamClosedError only sets `closing`, so the pending futures are never settled and abort() has become a no-op (C17_hangs). Proved for every other read or write error."
  },
  {
   "property": "C18",
   "status": "proved",
   "theorems": [
    "Kiel.C18_unintelligible"
   ],
   "note": "For every frame on every reachable open connection; exact error."
  },
  {
   "property": "C19",
   "status": "proved",
   "theorems": [
    "Kiel.C19_topics",
    "Kiel.C19_leaders",
    "Kiel.C19_known",
    "Kiel.C19_getLeader"
   ],
   "note": "For every metadata response and every cluster state."
  },
  {
   "property": "C20",
   "status": "proved",
   "theorems": [
    "Kiel.C20_missing"
   ],
   "note": "For every metadata response and every cluster state."
  },
  {
   "property": "C21",
   "status": "proved",
   "theorems": [
    "Kiel.C21_brokers"
   ],
   "note": "For every metadata response, cluster state and outcome of connecting."
  },
  {
   "property": "C22",
   "status": "partial",
   "theorems": [
    "Kiel.C22_last_partial",
    "Kiel.C22_clean_partial",
    "Kiel.C22_loses",
    "Kiel.C22_false"
   ],
   "note": "False of the code: heal()'s later rounds ask for the missing topics only and then replace the whole tables, losing every other topic (C22_loses, C22_false). Proved: a heal that returns leaves the cluster in sync with the last metadata response it used, and a first round with nothing missing leaves it in sync with that response."
  },
  {
   "property": "C23",
   "status": "partial",
   "theorems": [
    "Kiel.C23_bootstrap_partial",
    "Kiel.C23_none",
    "Kiel.C23_gives_up",
    "Kiel.C23_false"
   ],
   "note": "False of the code: a failure of the metadata request on the first reachable host is raised without trying the other hosts (C23_false). Proved when the first reachable host answers, and when no host is reachable."
  },
  {
   "property": "C24",
   "status": "proved",
   "theorems": [
    "Kiel.C24_first",
    "Kiel.C24_none"
   ],
   "note": "For every set of connections and every pattern of failures."
  },
  {
   "property": "C25",
   "status": "proved",
   "theorems": [
    "Kiel.C25_results",
    "Kiel.C25_order",
    "Kiel.C25_unhandled",
    "Kiel.C25_overlap"
   ],
   "note": "For every set of requests, order of completion and pattern of failures; C25_overlap with any other sends under way."
  },
  {
   "property": "C26",
   "status": "partial",
   "theorems": [
    "Kiel.C26_heal_partial",
    "Kiel.C26_heal_fails",
    "Kiel.C26_false",
    "Kiel.C26_false_group"
   ],
   "note": "False of the code for one kind of failure: a request failing with StreamClosedError does not heal (C26_false). Proved: an exact characterisation of when the cluster is healed, for every set of requests, order of completion and pattern of failures; a failing heal leaves the flag set. C26_false_group is a second case, in the requests of a group; what trouble does lead to fresh metadata is C89."
  },
  {
   "property": "C27",
   "status": "proved",
   "theorems": [
    "Kiel.C27_batching"
   ],
   "note": "For every state and message; the batch counts the messages of all topics."
  },
  {
   "property": "C28",
   "status": "proved",
   "theorems": [
    "Kiel.C28_routing",
    "Kiel.C28_succeeds"
   ],
   "note": "For every queue, partitioner and cluster view; C28_succeeds shows when the flush gets to send."
  },
  {
   "property": "C29",
   "status": "partial",
   "theorems": [
    "Kiel.C29_conservation_partial",
    "Kiel.C29_distinct",
    "Kiel.C29_false"
   ],
   "note": "Conservation is proved over all histories, counting as in flight also the requests whose connection has failed, and excluding flushes that raise; in full it is false of the code (C31, C33). What happens to the messages of failed requests is C87."
  },
  {
   "property": "C30",
   "status": "proved",
   "theorems": [
    "Kiel.C30_retry",
    "Kiel.C30_flushed",
    "Kiel.C30_proper"
   ],
   "note": "For every answer to a request that was sent; C30_proper shows such answers are handled without an exception."
  },
  {
   "property": "C31",
   "status": "partial",
   "theorems": [
    "Kiel.C31_stuck",
    "Kiel.C31_false"
   ],
   "note": "False of the code: when the connection fails before the answer the messages stay in a table nothing reads again (C31_stuck for every history, C31_false)."
  },
  {
   "property": "C32",
   "status": "partial",
   "theorems": [
    "Kiel.C32_close_partial",
    "Kiel.C32_false"
   ],
   "note": "False of the code: a retriable answer to the final flush puts the messages back in the queue of a closed producer (C32_false). Proved when all answers report success."
  },
  {
   "property": "C33",
   "status": "partial",
   "theorems": [
    "Kiel.C33_loses",
    "Kiel.C33_false"
   ],
   "note": "False of the code: flush drains the queue while it routes, so a raising partitioner loses the messages (C33_loses in general, C33_false)."
  },
  {
   "property": "C34",
   "status": "proved",
   "theorems": [
    "Kiel.C34_closing",
    "Kiel.C34_unknown",
    "Kiel.C34_created"
   ],
   "note": "For every state."
  },
  {
   "property": "C35",
   "status": "proved",
   "theorems": [
    "Kiel.C35_conserved",
    "Kiel.C35_again",
    "Kiel.C35_replaced",
    "Kiel.C35_empties",
    "Kiel.C35_order"
   ],
   "note": "For every collection and every interleaving of additions, of elements that are new (C35_conserved, C35_empties) or not (C35_again, C35_replaced)."
  },
  {
   "property": "C36",
   "status": "proved",
   "theorems": [
    "Kiel.C36_requests",
    "Kiel.C36_fetches",
    "Kiel.C36_unallocated",
    "Kiel.C36_determined",
    "Kiel.C36_once"
   ],
   "note": "For every state, allocation and leader table, with offsets determined or not; C36_fetches shows when a fetch happens, C36_unallocated that nothing is fetched for a topic without allocation, C36_once that each partition is in exactly one request."
  },
  {
   "property": "C37",
   "status": "proved",
   "theorems": [
    "Kiel.C37_offsets",
    "Kiel.C37_others"
   ],
   "note": "For every response; C37_others also covers responses whose handling raises."
  },
  {
   "property": "C38",
   "status": "partial",
   "theorems": [
    "Kiel.C38_exactly_once_partial",
    "Kiel.C38_order_partial",
    "Kiel.C38_no_skip",
    "Kiel.C38_false_twice",
    "Kiel.C38_false_lost"
   ],
   "note": "Exactly-once and in order is proved over all histories of successful consumes, with any batch sizes, errors and lost connections, for logs without compressed sets (C38_exactly_once_partial). With compressed sets nothing is skipped (C38_no_skip), but messages can be returned again and again (C38_false_twice); a consume that raises loses messages (C38_false_lost): both are false of the code."
  },
  {
   "property": "C39",
   "status": "partial",
   "theorems": [
    "Kiel.C39_results_partial",
    "Kiel.C39_false"
   ],
   "note": "False of the code for values that are false in Python, which are dropped (C39_false); everything else is delivered, in order."
  },
  {
   "property": "C40",
   "status": "partial",
   "theorems": [
    "Kiel.C40_skipped_partial",
    "Kiel.C40_stuck",
    "Kiel.C40_false",
    "Kiel.C40_tombstones"
   ],
   "note": "Proved when a message that can be deserialized follows in the batch; false of the code otherwise: the consumer stays where it is for ever (C40_stuck in general, C40_false)."
  },
  {
   "property": "C41",
   "status": "proved",
   "theorems": [
    "Kiel.C41_codes",
    "Kiel.C41_unknown"
   ],
   "note": "For every response and state; a code outside the table is a KeyError (C41_unknown)."
  },
  {
   "property": "C42",
   "status": "proved",
   "theorems": [
    "Kiel.C42_nonneg"
   ],
   "note": "An invariant of every history of a SingleConsumer."
  },
  {
   "property": "C43",
   "status": "partial",
   "theorems": [
    "Kiel.C43_requests_partial",
    "Kiel.C43_named",
    "Kiel.C43_float",
    "Kiel.C43_raises",
    "Kiel.C43_false"
   ],
   "note": "Proved for BEGINNING, END, other integers and the default. False of the code for datetime and timedelta: their time is a float, which cannot be packed (C43_float on the wire, C43_raises for every state, C43_false)."
  },
  {
   "property": "C44",
   "status": "partial",
   "theorems": [
    "Kiel.C44_false",
    "Kiel.C44_closing",
    "Kiel.C44_exactly",
    "Kiel.C44_no_offsets",
    "Kiel.C44_raises",
    "Kiel.C44_grouped",
    "Kiel.C44_grouped_closing",
    "Kiel.C44_first"
   ],
   "note": "For every state, answer and kind of failure of any consumer, except that a closing GroupedConsumer still commits the topic it is asked to consume: C44_false, C44_grouped_closing. See also C65_synced_anyway."
  },
  {
   "property": "C45",
   "status": "proved",
   "theorems": [
    "Kiel.C45_exact",
    "Kiel.C45_exactly_one",
    "Kiel.C45_no_members",
    "Kiel.C45_malformed"
   ],
   "note": "For every list of members (at least one) and of different partitions of topics without a colon in their names; C45_malformed: other items raise ValueError."
  },
  {
   "property": "C46",
   "status": "proved",
   "theorems": [
    "Kiel.C46_balanced",
    "Kiel.C46_total"
   ],
   "note": "For every list of different members and every list of partitions; C46_total ties the count to what is looked up."
  },
  {
   "property": "C47",
   "status": "proved",
   "theorems": [
    "Kiel.C47_agree"
   ],
   "note": "For every pair of sequences of notifications with the same latest members and partitions; notifications handled one after the other (see C59 for overlapping ones)."
  },
  {
   "property": "C48",
   "status": "partial",
   "theorems": [
    "Kiel.C48_false",
    "Kiel.C48_next_partial",
    "Kiel.C48_during"
   ],
   "note": "Proved for rebalances between consumes (C48_next_partial) and while messages are fetched (C48_during); false for one while the group's offsets are fetched, which is forgotten (C48_false)."
  },
  {
   "property": "C49",
   "status": "proved",
   "theorems": [
    "Kiel.C49_first",
    "Kiel.C49_consumed",
    "Kiel.C49_every"
   ],
   "note": "The first request exactly; the further attempts of the same commit carry the same offsets for a subset of the topics (C49_every)."
  },
  {
   "property": "C50",
   "status": "partial",
   "theorems": [
    "Kiel.C50_false",
    "Kiel.C50_retried_partial",
    "Kiel.C50_dropped"
   ],
   "note": "False: once one partition of a topic succeeded the others are not retried (C50_dropped, C50_false). Proved for topics of which no partition succeeded."
  },
  {
   "property": "C51",
   "status": "partial",
   "theorems": [
    "Kiel.C51_false",
    "Kiel.C51_overlap",
    "Kiel.C51_blank_partial",
    "Kiel.C51_kept",
    "Kiel.C51_fatal",
    "Kiel.C51_unknown"
   ],
   "note": "False if the metadata is too large for only some partitions of a topic (C51_false, as C50). Proved otherwise; fatal codes are not retried (C51_fatal), unknown ones raise KeyError (C51_unknown). C51_overlap: the same with any other consumes and commits under way."
  },
  {
   "property": "C52",
   "status": "partial",
   "theorems": [
    "Kiel.C52_consume_partial",
    "Kiel.C52_commit_partial",
    "Kiel.C52_false"
   ],
   "note": "False with a rebalance while topics wait to be committed (C52_false). Proved for every history whose rebalances happen while nothing waits to be committed and no offsets are being fetched."
  },
  {
   "property": "C53",
   "status": "partial",
   "theorems": [
    "Kiel.C53_found_partial",
    "Kiel.C53_down",
    "Kiel.C53_fatal",
    "Kiel.C53_none",
    "Kiel.C53_false"
   ],
   "note": "False: a broker that is down ends the search with a KeyError (C53_down, C53_false), a fatal answer ends it without a coordinator (C53_fatal). Proved if every broker asked answers."
  },
  {
   "property": "C54",
   "status": "proved",
   "theorems": [
    "Kiel.C54_adopted",
    "Kiel.C54_fatal",
    "Kiel.C54_unknown",
    "Kiel.C54_determine"
   ],
   "note": "For every answer; a code outside the table is a KeyError (C54_unknown)."
  },
  {
   "property": "C55",
   "status": "partial",
   "theorems": [
    "Kiel.C55_false",
    "Kiel.C55_false_forever",
    "Kiel.C55_nonneg_partial"
   ],
   "note": "False for a group that has never committed: offset -1 is adopted and asked for, for ever (C55_false, C55_false_forever). Proved for coordinators that never answer with a negative offset."
  },
  {
   "property": "C56",
   "status": "proved",
   "theorems": [
    "Kiel.C56_linearizable",
    "Kiel.C56_quiet",
    "Kiel.C56_leaky"
   ],
   "note": "For any number of clients, any interleaving, any failing access to zookeeper. kazoo's lock is assumed to exclude; C56_leaky shows that updates are lost if a client loses it with its session."
  },
  {
   "property": "C57",
   "status": "partial",
   "theorems": [
    "Kiel.C57_partial",
    "Kiel.C57_when",
    "Kiel.C57_python3",
    "Kiel.C57_false"
   ],
   "note": "Proved where text is a byte string (Python 2). On Python 3 kazoo refuses the text that json.dumps makes, so no call that would change the set succeeds: C57_python3 for every call, C57_false."
  },
  {
   "property": "C58",
   "status": "partial",
   "theorems": [
    "Kiel.C58_join_partial",
    "Kiel.C58_expire",
    "Kiel.C58_leave",
    "Kiel.C58_false",
    "Kiel.C58_lost_race",
    "Kiel.C58_history"
   ],
   "note": "False when the stale session expires between the two accesses of join: C58_lost_race, C58_false. Proved without such interference (C58_join_partial), and for every history of uninterrupted operations (C58_history)."
  },
  {
   "property": "C59",
   "status": "partial",
   "theorems": [
    "Kiel.C59_partial",
    "Kiel.C59_default",
    "Kiel.C59_unchanged",
    "Kiel.C59_one_at_a_time",
    "Kiel.C59_false",
    "Kiel.C59_false_race"
   ],
   "note": "Proved for the default allocator and every one that does not raise and gives the consumer an entry, for notifications one after the other. False for other allocator functions (C59_false) and for notifications that overlap on two threads (C59_false_race)."
  },
  {
   "property": "C60",
   "status": "partial",
   "theorems": [
    "Kiel.C60_exact",
    "Kiel.C60_partial",
    "Kiel.C60_false"
   ],
   "note": "False for the first consumer of a group: C60_false. C60_exact says when it holds: when a notification handled by then was a change."
  },
  {
   "property": "C61",
   "status": "partial",
   "theorems": [
    "Kiel.C61_add_partial",
    "Kiel.C61_remove",
    "Kiel.C61_remove_text_partial",
    "Kiel.C61_false"
   ],
   "note": "remove_partitions raises TypeError for every dictionary with a list of ids: C61_remove, C61_false. add_partitions is proved (where text is a byte string; see C57)."
  },
  {
   "property": "C62",
   "status": "partial",
   "theorems": [
    "Kiel.C62_stop",
    "Kiel.C62_start_partial",
    "Kiel.C62_false"
   ],
   "note": "stop is proved (C62_stop), start provided zookeeper is reached. False if connect fails: start then waits for ever (C62_false)."
  },
  {
   "property": "C63",
   "status": "proved",
   "theorems": [
    "Kiel.C63_general",
    "Kiel.C63_table",
    "Kiel.C63_codes"
   ],
   "note": "For every code table."
  },
  {
   "property": "C64",
   "status": "partial",
   "theorems": [
    "Kiel.C64_sent",
    "Kiel.C64_received_partial",
    "Kiel.C64_roundtrip_partial",
    "Kiel.C64_false"
   ],
   "note": "C64_sent: for no compression, gzip and snappy the bytes of a produce request's set hold, by an independent spec of the Kafka format (incl. snappy-java framing), exactly the messages in order. C64_received_partial: whatever plain/gzip/snappy sets a broker serves, the consumer sees exactly the messages they hold. C64_roundtrip_partial: application messages -> set -> any offsets, any re-compression -> handler returns exactly the messages and the offset after the last. Missing: false in general (C64_false, a concrete 32743-byte message lost through a short last snappy block; and checksums equal to 2^31, C08)."
  },
  {
   "property": "C65",
   "status": "partial",
   "theorems": [
    "Kiel.C65_synced_anyway",
    "Kiel.C65_false"
   ],
   "note": "False of the code: the topic is marked synced after determine_offsets whether or not offsets were obtained (C65_synced_anyway for every state, C65_false)."
  },
  {
   "property": "C66",
   "status": "partial",
   "theorems": [
    "Kiel.C66_false",
    "Kiel.C66_stuck"
   ],
   "note": "False: C66_stuck proves that consume asks the old coordinator for ever, however many rounds; C66_false is an instance."
  },
  {
   "property": "C67",
   "status": "partial",
   "theorems": [
    "Kiel.C67_false",
    "Kiel.C67_lost",
    "Kiel.C67_determine"
   ],
   "note": "False: KeyError is raised (C67_determine, C67_lost) and the messages just fetched are never returned (C67_false)."
  },
  {
   "property": "C68",
   "status": "partial",
   "theorems": [
    "Kiel.C68_accepted",
    "Kiel.C68_sends_partial",
    "Kiel.C68_unavailable",
    "Kiel.C68_false"
   ],
   "note": "C68_accepted: exactly none, gzip and snappy are accepted. C68_sends_partial: where python-snappy is installed (codec laws hold) compression never makes a flush raise; C69_produce says what is sent. False without python-snappy: C68_unavailable (no flush ever sends anything, and messages are lost when it raises), C68_false."
  },
  {
   "property": "C69",
   "status": "proved",
   "theorems": [
    "Kiel.C69_metadata",
    "Kiel.C69_coordinator",
    "Kiel.C69_offset_fetch",
    "Kiel.C69_commit",
    "Kiel.C69_offset",
    "Kiel.C69_fetch",
    "Kiel.C69_produce",
    "Kiel.C69_written"
   ],
   "note": "One theorem per request; C69_written says these are the bytes that Connection.send writes. C69_produce and C69_fetch start from what flush and consume do. For C69_offset the time is an integer; a float (C43_false) cannot be written."
  },
  {
   "property": "C70",
   "status": "proved",
   "theorems": [
    "Kiel.C70_produce",
    "Kiel.C70_offset",
    "Kiel.C70_commit",
    "Kiel.C70_offset_fetch",
    "Kiel.C70_coordinator",
    "Kiel.C70_metadata"
   ],
   "note": "One theorem per response class; fetch responses are C64_received_partial/C07_fetch. Bytes are an independent byte-level spec (Verif/Spec/Requests.lean). Metadata of a committed offset and the host of a coordinator may be null; other strings are not null, as the protocol prescribes."
  },
  {
   "property": "C71",
   "status": "partial",
   "theorems": [
    "Kiel.C71_fetch",
    "Kiel.C71_fetch_partial",
    "Kiel.C71_produce",
    "Kiel.C71_produce_partial",
    "Kiel.C71_offset",
    "Kiel.C71_offset_fetch",
    "Kiel.C71_commit",
    "Kiel.C71_coordinator",
    "Kiel.C71_false_fetch",
    "Kiel.C71_false_produce"
   ],
   "note": "False: C71_false_fetch, C71_false_produce. Exact: C71_fetch, C71_produce, C71_offset, C71_offset_fetch, C71_commit (KeyError; what precedes counts, what follows is ignored; messages fetched before are skipped, messages to be produced again are kept for a request that is over); C71_coordinator holds. Partial: C71_fetch_partial, C71_produce_partial for codes in the table."
  },
  {
   "property": "C72",
   "status": "partial",
   "theorems": [
    "Kiel.C72_single",
    "Kiel.C72_grouped_partial",
    "Kiel.C72_producer_partial",
    "Kiel.C72_producer_raises",
    "Kiel.C72_false"
   ],
   "note": "C72_single; C72_grouped_partial (exact: closed iff leaving the group and stopping zookeeper succeed); C72_producer_partial (if the final flush does not raise). False otherwise: C72_producer_raises, C72_false (a message for a topic that left the metadata makes close raise IndexError and leaves every connection open)."
  },
  {
   "property": "C73",
   "status": "partial",
   "theorems": [
    "Kiel.C73_origin",
    "Kiel.C73_open_partial",
    "Kiel.C73_connected_partial",
    "Kiel.C73_moved",
    "Kiel.C73_false",
    "Kiel.C73_relisted"
   ],
   "note": "C73_origin, C73_open_partial (brokers listed in all metadata seen end with an open connection), C73_connected_partial (to the listed address, if they had none). False in general: C73_moved/C73_false (a broker at a new address keeps the connection to the old one), C73_relisted (unlisted in one round and listed again in the next: left with a closed connection)."
  },
  {
   "property": "C74",
   "status": "partial",
   "theorems": [
    "Kiel.C74_ignored",
    "Kiel.C74_false"
   ],
   "note": "False: the checksum is never compared. C74_ignored: a set of messages with any checksums is read as the same messages; C74_false."
  },
  {
   "property": "C75",
   "status": "partial",
   "theorems": [
    "Kiel.C75_calls_partial",
    "Kiel.C75_raising_partial",
    "Kiel.C75_order_partial",
    "Kiel.C75_false"
   ],
   "note": "C75_order_partial: for every history without a retriable error answer for the partition, what is handed over followed by what is still queued is exactly what was accepted, in order. C75_calls_partial: the same for whole calls of produce, flush and close that overlap in any way, every course of which is shown to be such a history. C75_raising_partial: also when flushes, calls and answers raise, what is handed over followed by what is queued is some of what was accepted, in order. False with retriable answers: C75_false (a message that is retried is overtaken by a later one of the same key)."
  },
  {
   "property": "C76",
   "status": "partial",
   "theorems": [
    "Kiel.C76_exactly_once_partial",
    "Kiel.C76_no_skip",
    "Kiel.C76_false",
    "Kiel.consume_synced_single"
   ],
   "note": "C76_exactly_once_partial: any interleaving in which no two calls for the same topic overlap; what is returned and held is an interleaving of the logs' windows. C76_no_skip: any interleaving at all, compressed sets included: nothing is skipped. False for overlapping calls for the same topic: C76_false (messages returned twice, offset put back). consume_synced_single: the model of consumes that begin with the fetches agrees with the one that includes the determining of offsets."
  },
  {
   "property": "C77",
   "status": "proved",
   "theorems": [
    "Kiel.C77_adopted",
    "Kiel.C77_fatal",
    "Kiel.C77_empty",
    "Kiel.C77_starts"
   ],
   "note": "C77_adopted/C77_fatal/C77_empty: exact effect of every answer (unknown codes: C71_offset). C77_starts: from the answers of any number of leaders to the offsets in the fetch requests of the same consume. What the code does with a retriable answer in the same call is C65."
  },
  {
   "property": "C78",
   "status": "partial",
   "theorems": [
    "Kiel.C78_producer_partial",
    "Kiel.C78_producer_only",
    "Kiel.C78_heals_partial",
    "Kiel.C78_healed",
    "Kiel.C78_only",
    "Kiel.C78_consumes",
    "Kiel.C78_flushes",
    "Kiel.C78_false",
    "Kiel.sends_alone"
   ],
   "note": "False as stated (C78_false): the flag is shared, and the heal of one send clears it although another send has set it meanwhile. Proved for each kind of request and any interleaving if no heal is under way when the error is seen (C78_heals_partial); no heal begins unless there was such an error or a send raised (C78_only). In any case no send returns before a heal has returned without raising (C78_healed, also for answers whose handler raises after it has met the error). C78_consumes and C78_flushes tie the models of overlapping consumes and flushes to it. For overlapping whole calls of a producer: C78_producer_partial (no send returns between what calls for a heal and the end of a heal), C78_producer_only (no heal without a cause since the last one ended)."
  },
  {
   "property": "C79",
   "status": "partial",
   "theorems": [
    "Kiel.C79_in_use_partial",
    "Kiel.C79_stopped_partial",
    "Kiel.C79_false",
    "Kiel.C79_false_stop"
   ],
   "note": "False as stated: two heals under way both connect to a broker, and one connection is lost track of (C79_false); a connection made after stop stays open (C79_false_stop). Proved for heals that come one after the other, with any failures and lost connections (C79_in_use_partial), and that stop then leaves none open (C79_stopped_partial)."
  },
  {
   "property": "C80",
   "status": "partial",
   "theorems": [
    "Kiel.C80_raises_partial",
    "Kiel.C80_undisturbed_partial",
    "Kiel.C80_again_partial",
    "Kiel.C80_false"
   ],
   "note": "False as stated: a heal that overlaps with another raises a KeyError (C80_false). Proved for heals that come one after the other (C80_raises_partial); an undisturbed round is that of the sequential model (C80_undisturbed_partial, C80_again_partial)."
  },
  {
   "property": "C81",
   "status": "partial",
   "theorems": [
    "Kiel.C81_read_back",
    "Kiel.C81_same_bytes_partial",
    "Kiel.C81_sets",
    "Kiel.C81_false_read",
    "Kiel.C81_false_bytes",
    "Kiel.C81_classes"
   ],
   "note": "False as stated: bytes that are text are read back as text, which they do not equal (C81_false_read); messages are compared by key and value only, so that sets with different attributes are equal (C81_false_bytes). C81_read_back characterises exactly which values equal what is read back, for all classes (C81_classes); C81_same_bytes_partial proves the second half for structures without message sets; C81_sets says what equality of message sets amounts to."
  },
  {
   "property": "C82",
   "status": "proved",
   "theorems": [
    "Kiel.C82_settled",
    "Kiel.C82_settles",
    "Kiel.C82_untold"
   ],
   "note": "Any number of consumers, any events; UpToDate only says what the consumers were last told. C82_untold shows that a consumer not yet told may share a partition. Topic names without colons (see C45)."
  },
  {
   "property": "C83",
   "status": "proved",
   "theorems": [
    "Kiel.C83_gives_up",
    "Kiel.C83_taken_over"
   ],
   "note": "C83_taken_over, and C83_gives_up for the consumer itself."
  },
  {
   "property": "C84",
   "status": "partial",
   "theorems": [
    "Kiel.C84_gone",
    "Kiel.C84_rejoins_partial",
    "Kiel.C84_false"
   ],
   "note": "False: C84_gone (whatever happens, it is not a member again unless join is called, which only start does), C84_false. C84_rejoins_partial: joining again would do."
  },
  {
   "property": "C85",
   "status": "proved",
   "theorems": [
    "Kiel.C85_waits"
   ],
   "note": "After any events; the effect of the calls themselves is C57/C61."
  },
  {
   "property": "C86",
   "status": "proved",
   "theorems": [
    "Kiel.C86_catches_up",
    "Kiel.C86_in_order"
   ],
   "note": "C86_catches_up for logs with compressed sets (sent whole), C86_in_order without. Messages that are false to Python once deserialized are dropped (C40), so not counted as returned."
  },
  {
   "property": "C87",
   "status": "proved",
   "theorems": [
    "Kiel.C87_accounted",
    "Kiel.C87_calls"
   ],
   "note": "Complements C29 (which is about histories without exceptions, and says nothing is lost) and C33 (which says when a flush raises). Answers are to requests that were made before. 'Kept for a request' includes requests that have failed (C31) and requests that a raising flush never sent. C87_calls: the same for whole calls of produce, flush and close that overlap at every point where a coroutine yields, from a new producer on (Model/Produces.lean)."
  },
  {
   "property": "C88",
   "status": "partial",
   "theorems": [
    "Kiel.C88_undisturbed_partial",
    "Kiel.C88_raises",
    "Kiel.C88_answers_partial",
    "Kiel.C88_false"
   ],
   "note": "False as stated: RuntimeError if another heal has added or dropped a connection meanwhile (C88_false); C88_raises: nothing else can be raised. Proved if no connections are added or removed (C88_answers_partial), and as C24 if nothing changes (C88_undisturbed_partial)."
  },
  {
   "property": "C89",
   "status": "proved",
   "theorems": [
    "Kiel.C89_offsets_again",
    "Kiel.C89_flush_again",
    "Kiel.C89_fetch_next",
    "Kiel.C89_fetch_again",
    "Kiel.C89_group_again",
    "Kiel.C89_consume",
    "Kiel.C89_quiet",
    "Kiel.C89_offsets",
    "Kiel.C89_flush",
    "Kiel.C89_group",
    "Kiel.C89_group_fails",
    "Kiel.C89_kept"
   ],
   "note": "C89_consume, C89_quiet, C89_offsets, C89_flush, C89_group, C89_group_fails; C89_kept for calls that raise; C89_offsets_again, C89_flush_again, C89_fetch_again, C89_group_again: healing that raises is made up for by the next call. Sends that overlap on one client are the subject of C78; closed connections of C26."
  },
  {
   "property": "C90",
   "status": "partial",
   "theorems": [
    "Kiel.C90_order",
    "Kiel.C90_returned",
    "Kiel.C90_ready_partial",
    "Kiel.C90_offsets",
    "Kiel.C90_failed",
    "Kiel.C90_false",
    "Kiel.C90_false_coordinator",
    "Kiel.C90_stuck"
   ],
   "note": "Proved: C90_order (order of the steps, exceptions), C90_returned (exactly what holds once connect has returned, with notifications during any of its steps), C90_offsets (offsets are determined anew just if the group was rebalanced meanwhile), C90_failed (what a failing step leaves), C90_ready_partial (conditions under which it returns with the consumer ready). False as stated (C90_false, C90_false_coordinator): in a new group the allocation cannot be read yet, and after a fatal answer there is no coordinator; then every consume raises KeyError (C90_stuck)."
  },
  {
   "property": "C91",
   "status": "proved",
   "theorems": [
    "Kiel.C91_ends",
    "Kiel.C91_returns",
    "Kiel.C91_waits_broker",
    "Kiel.C91_waits_topic",
    "Kiel.C91_waits_start"
   ],
   "note": "C91_ends and C91_returns give the bound; C91_waits_broker, C91_waits_topic and C91_waits_start show that it is needed: for any number of rounds, heal and start have not returned. A round is one metadata request and its processing."
  },
  {
   "property": "C92",
   "status": "partial",
   "theorems": [
    "Kiel.C92_waits",
    "Kiel.C92_false"
   ],
   "note": "False (C92_false): the connection keeps waiting for an answer. C92_waits is the exact behaviour: a request stays outstanding for as long as requests are sent, writes complete and other requests are answered. That flush waits for all its requests is in the model of Client.send."
  },
  {
   "property": "C93",
   "status": "proved",
   "theorems": [
    "Kiel.C93_json",
    "Kiel.C93_delivered",
    "Kiel.C93_canonical"
   ],
   "note": "json is CPython's, modelled by its documented behaviour: writer and reader are written out character by character (Model/Json.lean). Floats are kept as the text repr gives them; that float(repr(x)) == x is not modelled. Lone surrogates, which Python strings can hold, are left out. C93_delivered has the hypotheses of C64 on sizes and checksums."
  },
  {
   "property": "C94",
   "status": "partial",
   "theorems": [
    "Kiel.C94_read",
    "Kiel.C94_empty",
    "Kiel.C94_call",
    "Kiel.C94_malformed_partial",
    "Kiel.C94_taken",
    "Kiel.C94_calls",
    "Kiel.C94_raises",
    "Kiel.C94_false"
   ],
   "note": "False as stated: JSON that is no list of strings is not always left alone. C94_false: a string is taken for the set of its characters, an object for the set of its keys, and the next call that changes anything replaces it by a list. C94_malformed_partial: exactly what is left alone; C94_taken: what becomes of the rest. C94_raises: text that is no JSON raises ValueError. Everything else in the statement is proved (C94_read, C94_empty, C94_call, C94_calls), for data with other things than strings in it as well. As far as text can be written at all: on Python 3 kazoo refuses it (C57_false), which is outside this property. C94_call and C94_calls are about calls nobody interferes with; for concurrent calls see C56."
  },
  {
   "property": "C95",
   "status": "partial",
   "theorems": [
    "Kiel.C95_exhausted",
    "Kiel.C95_send",
    "Kiel.C95_limit",
    "Kiel.C95_first_partial",
    "Kiel.C95_false"
   ],
   "note": "False of the code: the counter is never wrapped, so once it reaches 2^31 - 1 every request of every client of the process fails to serialize, for ever (C95_exhausted, C95_send, C95_limit; C95_false is a concrete one). Proved of the code: until then ids are no obstacle (C95_first_partial)."
  },
  {
   "property": "C96",
   "status": "partial",
   "theorems": [
    "Kiel.C96_steady_partial",
    "Kiel.C96_quiet_partial",
    "Kiel.C96_position_partial",
    "Kiel.C96_false_commit",
    "Kiel.C96_false_crash",
    "Kiel.C96_false_rebalance"
   ],
   "note": "False of the code: an automatic commit that raises, or a crash between the commit and the return of consume, loses the messages just fetched (C96_false_commit, C96_false_crash); so does a rebalance during a fetch while the topic waits to be committed (C96_false_rebalance). Proved: C96_steady_partial for rebalances at any time except while messages are fetched, C96_quiet_partial for rebalances at any time (also during fetches) while nothing waits to be committed; members may crash at any time other than between an automatic commit and the return of the consume, and consumes may raise before anything is fetched. A consume is one step of the group. Rebalances take effect at one moment of the consumer's thread; C128 is about those that are seen half done."
  },
  {
   "property": "C97",
   "status": "proved",
   "theorems": [
    "Kiel.C97_conversation",
    "Kiel.C97_cut"
   ],
   "note": "C97_conversation is the claim, from bytes arriving to futures settled; C97_cut: where bytes are cut makes no difference to the connection, for any bytes and any state. Frames with a declared size below 4 are outside the model."
  },
  {
   "property": "C98",
   "status": "proved",
   "theorems": [
    "Kiel.C98_round",
    "Kiel.C98_accounted",
    "Kiel.C98_delivered"
   ],
   "note": "C98_round: what one flush, all of whose requests are answered, leaves in the queue, exactly; C98_accounted and C98_delivered: histories of such flushes. Requests that fail keep their messages for ever (C31); they are excluded here by the hypothesis that requests are answered."
  },
  {
   "property": "C99",
   "status": "proved",
   "theorems": [
    "Kiel.C99_pipeline",
    "Kiel.C99_settles"
   ],
   "note": "C99_pipeline (exactly once) and C99_settles (getting there). Hypotheses: every request of a flush is answered, with code 0 or a retriable one (otherwise messages are lost, C30/C31); brokers store messages as they are (no compressed sets: C38_false_twice); the consumes return and determine no offsets (C38_false_lost)."
  },
  {
   "property": "C100",
   "status": "proved",
   "theorems": [
    "Kiel.C100_exactly_once",
    "Kiel.C100_committed",
    "Kiel.C100_all",
    "Kiel.C100_group"
   ],
   "note": "C100_exactly_once, C100_committed, C100_all (everything, once the logs are exhausted) and C100_group (a settled group meets the condition on shares). The hypotheses are those of the statement, and: brokers serve messages as they are (no compressed sets: C38_false_twice); the coordinator names the offsets it has, stores nothing but what it is asked to, and does not acknowledge part of a topic; consumes that raise do so before anything was fetched (otherwise C96_false_commit). An example shows that a message is returned twice when the group is rebalanced before the commit. Rebalances take effect at one moment of the consumer's thread; C128 is about those that are seen half done."
  },
  {
   "property": "C101",
   "status": "proved",
   "theorems": [
    "Kiel.C101_pipeline",
    "Kiel.C101_settles"
   ],
   "note": "C101_pipeline (safety and completeness) and C101_settles (getting there). The hypotheses are those of the statement and of C99 and C100: compressed sets are not served (C38_false_twice), producers' answers are in order (Orderly), the coordinator does not acknowledge part of a topic, consumes that raise do so before anything was fetched; the group's offsets were at the ends of the logs when it all began (hstart)."
  },
  {
   "property": "C102",
   "status": "partial",
   "theorems": [
    "Kiel.C102_covered_partial",
    "Kiel.C102_returned_partial",
    "Kiel.C102_false",
    "Kiel.consume_synced_grouped"
   ],
   "note": "As stated false of the code: C102_false; commit_offsets, called while a consume of the topic has had the answer of one broker and waits for another's, commits messages that this consume holds. What is true: C102_covered_partial (everything covered has been returned, or is held by a consume that waits, or by one that is committing) for any overlap; C102_returned_partial (autocommit off, no consume of the topic under way when the request is sent: all of it has been returned). Consumes that raise are excluded: their messages are lost. consume_synced_grouped: the model of consumes that begin with the fetches agrees with the one that includes the determining of offsets."
  },
  {
   "property": "C103",
   "status": "partial",
   "theorems": [
    "Kiel.C103_committed_partial",
    "Kiel.C103_wanted",
    "Kiel.C103_false",
    "Kiel.commit_alone",
    "Kiel.consume_synced_grouped"
   ],
   "note": "As stated false of the code: C103_false; the answer to an earlier commit drops the topic from those to be committed although a consume has returned more of it since that request was sent, and the next commit_offsets sends nothing about it. What is true: C103_committed_partial, provided that no request about the topic is under way when the clock starts, consumes of one topic do not overlap (else positions go back, C76_false), and the coordinator answers about the topic as a whole; C103_wanted. commit_alone, consume_alone_grouped: the model of overlapping calls agrees with that of single calls. consume_synced_grouped: the model of consumes that begin with the fetches agrees with the one that includes the determining of offsets."
  },
  {
   "property": "C104",
   "status": "partial",
   "theorems": [
    "Kiel.C104_exactly_once_partial",
    "Kiel.C104_no_skip_partial",
    "Kiel.C104_false_skips",
    "Kiel.C104_false_repeats",
    "Kiel.consume_alone"
   ],
   "note": "As stated false of the code when first consumes of the same topic overlap: each determines offsets, and the answer to the second moves the position while, or after, the first fetches: messages are skipped (C104_false_skips) or returned twice (C104_false_repeats). What is true: C104_exactly_once_partial, for any overlap of consumes of different topics, first ones and later ones. Consumes that raise while they wait for messages are excluded (C38_false_lost), compressed sets too (C38_false_twice; C104_no_skip_partial: with them nothing is skipped either). consume_alone: the model of overlapping consumes agrees with the one of single calls."
  },
  {
   "property": "C105",
   "status": "proved",
   "theorems": [
    "Kiel.C105_sends",
    "Kiel.C105_single",
    "Kiel.C105_grouped",
    "Kiel.C105_sends_end",
    "Kiel.C105_single_ends",
    "Kiel.C105_grouped_ends",
    "Kiel.C105_producer",
    "Kiel.C105_producer_ends",
    "Kiel.produce_alone"
   ],
   "note": "C105_sends, C105_single, C105_grouped, C105_producer: calls with a number = endings + the one under way, at every point of every course of events. C105_sends_end, C105_single_ends, C105_grouped_ends, C105_producer_ends: from any state, a call under way can be brought to its end by its own events alone, whatever its requests come to. Models: Sends, SingleBusy, GroupFirst, ProducerBusy."
  },
  {
   "property": "C106",
   "status": "partial",
   "theorems": [
    "Kiel.C106_exactly_once_partial",
    "Kiel.C106_returned_partial",
    "Kiel.C106_no_skip_partial",
    "Kiel.C106_determined",
    "Kiel.C106_false_repeats",
    "Kiel.C106_false_order",
    "Kiel.consume_alone_grouped"
   ],
   "note": "False as stated: C106_false_repeats (two first consumes of one topic: the answer to the second puts the offset back, and messages are returned again) and C106_false_order (the answers to both are adopted, and messages are returned in the wrong order). C106_exactly_once_partial proves it for every interleaving in which no two consumes of the same topic overlap, answers to requests for offsets are about the topic asked for, and no consume raises that has fetched, or waits for, messages; what consumes under way hold is accounted for. C106_returned_partial: when no call is under way. C106_determined (overlapping consumes of one topic included): a consume waits for messages of a topic only once the offsets are known or the coordinator has reported them without any error. C106_no_skip_partial: with compressed message sets, where a broker may begin before the offset asked for, nothing is skipped (exactly once is false there, C38_false_twice). Model: GroupFirst."
  },
  {
   "property": "C107",
   "status": "partial",
   "theorems": [
    "Kiel.C107_seen_through_partial",
    "Kiel.C107_nothing_partial",
    "Kiel.C107_false",
    "Kiel.flush_alone"
   ],
   "note": "False as stated: C107_false (a flush returns at once when the queue is empty, although another call's request, with a message accepted before, is unanswered). C107_seen_through_partial proves it, for every interleaving, for the messages that were in the queue when the flush began (and the message of a produce that flushes); C107_nothing_partial: a flush that returns at once found an empty queue. Missing: messages in requests of other calls. Model: ProducerBusy."
  },
  {
   "property": "C108",
   "status": "partial",
   "theorems": [
    "Kiel.C108_accepts_nothing_partial",
    "Kiel.C108_at_rest_partial",
    "Kiel.C108_false_under_way",
    "Kiel.C108_false_queues",
    "Kiel.close_alone"
   ],
   "note": "False as stated: C108_false_under_way (close returns and closes the connections while a produce's request is outstanding) and C108_false_queues (a produce that waits for metadata while close returns queues and sends its message afterwards, and heals). C108_at_rest_partial proves it for every interleaving in which no call is under way when close is called; C108_accepts_nothing_partial: nothing is accepted after closing as long as no produce was waiting for metadata, whatever else was under way. Model: ProducerBusy."
  },
  {
   "property": "C109",
   "status": "partial",
   "theorems": [
    "Kiel.C109_at_most_once_partial",
    "Kiel.C109_false"
   ],
   "note": "False as stated: C109_false (messages that a broker has stored before it answered request_timed_out or not_enough_replicas_after_append are sent again, and stored twice). C109_at_most_once_partial proves it for every course in which no answer has one of these two codes; a broker may or may not have stored what is in a request without answer. Model: ProducerBusy."
  },
  {
   "property": "C110",
   "status": "proved",
   "theorems": [
    "Kiel.C110_exactly_once",
    "Kiel.C110_single",
    "Kiel.C110_grouped"
   ],
   "note": "C110_exactly_once (consumers whose topics have their offsets), C110_single (whole calls of a SingleConsumer, first ones included), C110_grouped (whole calls of a GroupedConsumer and commits, without rebalances): both parts, by composing the invariants of C109 (producer and brokers), the ledger of C87_calls, and C76, C104 and C106 for the consumer. Model: ProducerBusy with Busy, SingleBusy, GroupFirst; the brokers' logs are in Spec/CallsPipeline.lean."
  },
  {
   "property": "C111",
   "status": "proved",
   "theorems": [
    "Kiel.C111_reads",
    "Kiel.C111_refuses",
    "Kiel.C111_delivered",
    "Kiel.C111_set"
   ],
   "note": "C111_reads and C111_refuses: `json.loads` accepts exactly the grammar of Spec/JsonText.lean and yields the denoted value; C111_delivered: through the wire decoder and the fetch handler; C111_set: shared sets. Left out of grammar and model: escapes for lone surrogates; Python's recursion limit and its limit on the digits of integers are not modelled."
  },
  {
   "property": "C112",
   "status": "proved",
   "theorems": [
    "Kiel.C112_exactly_once",
    "Kiel.C112_returned",
    "Kiel.C112_all",
    "Kiel.C112_false_nothing_waits"
   ],
   "note": "C112_exactly_once, C112_returned and C112_all over FleetRun (Spec/Fleet.lean); C112_false_nothing_waits: with 'no member has anything left to commit' as the condition for rebalancing a message is returned twice, because an answered commit_offsets forgets all that is to be committed, also what a consume has returned meanwhile. Rebalances take effect at one moment of the consumer's thread; C128 is about those that are seen half done."
  },
  {
   "property": "C113",
   "status": "proved",
   "theorems": [
    "Kiel.C113_exactly_once",
    "Kiel.C113_all"
   ],
   "note": "C113_exactly_once and C113_all, over the sites of C110 with the groups of C112. Rebalances take effect at one moment of the consumer's thread; C128 is about those that are seen half done."
  },
  {
   "property": "C114",
   "status": "proved",
   "theorems": [
    "Kiel.C114_committed",
    "Kiel.C114_position",
    "Kiel.C114_returned",
    "Kiel.C114_false_waits",
    "Kiel.C114_false_heals"
   ],
   "note": "C114_committed, C114_position and C114_returned over BandRun (Spec/Band.lean); C114_false_waits and C114_false_heals: without the condition on rebalances a committed offset covers a message that was dropped. Rebalances take effect at one moment of the consumer's thread; C128 is about those that are seen half done."
  },
  {
   "property": "C115",
   "status": "partial",
   "theorems": [
    "Kiel.C115_marked_partial",
    "Kiel.C115_unmarked_partial",
    "Kiel.C115_false_ascii",
    "Kiel.C115_false_utf8_mark",
    "Kiel.C115_only",
    "Kiel.C115_delivered"
   ],
   "note": "C115_marked_partial, C115_unmarked_partial: exactly which of these are read; C115_only: no value is made of anything else; C115_delivered: through the wire decoder and the fetch handler. C115_false_ascii, C115_false_utf8_mark: the two kinds that are skipped. Lone surrogates are left out."
  },
  {
   "property": "C116",
   "status": "proved",
   "theorems": [
    "Kiel.C116_not_lost",
    "Kiel.C116_returned"
   ],
   "note": "C116_not_lost and C116_returned over Runs with bandReads (Spec/BandPipeline.lean). Rebalances take effect at one moment of the consumer's thread; C128 is about those that are seen half done."
  },
  {
   "property": "C117",
   "status": "proved",
   "theorems": [
    "Kiel.C117_group",
    "Kiel.C117_consumer",
    "Kiel.C117_single",
    "Kiel.C117_made"
   ],
   "note": "C117_group over WildRun (Spec/Genuine.lean), C117_consumer and C117_single for consumers on their own, C117_made with producers."
  },
  {
   "property": "C118",
   "status": "proved",
   "theorems": [
    "Kiel.C118_in_order",
    "Kiel.C118_single",
    "Kiel.C118_grouped"
   ],
   "note": "C118_in_order for consumers on their own, C118_single with the first calls of a SingleConsumer, C118_grouped for members of groups. Without the condition on retriable errors it is false already of what is handed over (C75_false)."
  },
  {
   "property": "C119",
   "status": "partial",
   "theorems": [
    "Kiel.C119_read",
    "Kiel.C119_catches_up_partial",
    "Kiel.C119_blocked",
    "Kiel.C119_false_large",
    "Kiel.C119_false_cut",
    "Kiel.C119_false_garbled"
   ],
   "note": "False: a message larger than max_bytes blocks its partition for ever (C119_false_large; C119_blocked: always so); with several partitions at one leader, a partition that ends within a message and is not the last one of the answer can make every answer unreadable, for ever (C119_false_cut), or have the rest of the message read from the bytes of the next partition: consume returns a value that was never stored, and the message itself never (C119_false_garbled). C119_catches_up_partial: when none but the last partition of an answer ends within a message, what is returned is stored, each message once and in order; and all of it, if the messages can be deserialized and each has at most an m-th part of max_bytes, with at most m partitions in a request. C119_read is the reading of one answer."
  },
  {
   "property": "C120",
   "status": "partial",
   "theorems": [
    "Kiel.C120_kept_partial",
    "Kiel.C120_at_rest_partial",
    "Kiel.C120_never_released",
    "Kiel.C120_false"
   ],
   "note": "False: what a request held is kept for ever when the request fails; a producer whose calls have all returned and whose queue is empty can keep any number of messages (C120_false; C120_never_released: always so). C120_kept_partial: whatever is kept belongs to a request that is awaited, or to one that failed, or whose call raised. C120_at_rest_partial: with neither, a producer at rest keeps nothing of what it sent."
  },
  {
   "property": "C121",
   "status": "partial",
   "theorems": [
    "Kiel.C121_unsettled",
    "Kiel.C121_open_partial",
    "Kiel.C121_aborted",
    "Kiel.C121_never_released",
    "Kiel.C121_false",
    "Kiel.C121_false_closed"
   ],
   "note": "False: produce requests with required_acks=0 are remembered for as long as the connection is healthy (C121_false), and what was outstanding when the broker closed the stream is remembered for ever (C121_never_released, C121_false_closed). C121_unsettled: in every history no settled future is remembered, and none twice. C121_open_partial: an open connection whose outstanding requests have different ids remembers exactly those. C121_aborted: after an abort nothing, ever after."
  },
  {
   "property": "C122",
   "status": "partial",
   "theorems": [
    "Kiel.C122_nothing",
    "Kiel.C122_default_partial",
    "Kiel.C122_raises",
    "Kiel.C122_false",
    "Kiel.consume_alone_grouped"
   ],
   "note": "False: with an allocator that returns plain dictionaries, as docs/clients/zkgrouped.rst describes, consume of a topic that is not in the consumer's share raises a KeyError before anything is sent, every time (C122_false; C122_raises). C122_nothing: whatever the allocator and the answers, nothing is fetched and no messages are returned. C122_default_partial: with the default allocator's dictionaries, or if the topic is listed, a ready consumer returns an empty list. What happens after a rebalance is C66 and C106."
  },
  {
   "property": "C123",
   "status": "partial",
   "theorems": [
    "Kiel.C123_received",
    "Kiel.C123_responses",
    "Kiel.C123_sent_partial",
    "Kiel.C123_false"
   ],
   "note": "C123_received and C123_responses: true of all that is read from brokers. False of requests: a MetadataRequest made with topics=None and a message made without a key can be serialized but repr() raises (C123_false). C123_sent_partial: exactly the serializable values in which no array was set to None and all messages have key and value can be shown, in full; of others repr() raises a TypeError or AttributeError. Not modelled: repr() of primitives that are not part of anything (kiel/protocol/primitives.py)."
  },
  {
   "property": "C124",
   "status": "proved",
   "theorems": [
    "Kiel.C124_raises",
    "Kiel.C124_as_if",
    "Kiel.C124_queued"
   ],
   "note": "C124_raises: the exception raised and the state kept; C124_queued: the queues after any sequence of calls, some of which raise; C124_as_if: the next flush after any such sequence, for partitioners that go by key and partitions. What remains of a refused call is an entry of the queue without messages, which changes no request's contents (the order in which requests are built may differ)."
  },
  {
   "property": "C125",
   "status": "partial",
   "theorems": [
    "Kiel.C125_names",
    "Kiel.C125_apart_partial",
    "Kiel.C125_settled_partial",
    "Kiel.C125_twins",
    "Kiel.C125_false"
   ],
   "note": "False of the code: a consumer is called by its host and its address in memory, id(self), which another process of the host may have as well (forked ones do). Two such consumers are taken for one member: each consumes every partition that member is given (C125_false; for all histories: C125_twins), and either's leave removes both. C125_names: names coincide exactly if host and address do. C125_apart_partial, C125_settled_partial: true if no two processes of a host hold consumers of the group."
  },
  {
   "property": "C126",
   "status": "partial",
   "theorems": [
    "Kiel.C126_members_partial",
    "Kiel.C126_separate",
    "Kiel.C126_one_node",
    "Kiel.C126_false"
   ],
   "note": "False of the code for group names with a slash: group 'a/members' puts a child into the node that holds the members of group 'a', a member that does not exist and is given partitions (C126_false). C126_members_partial: true for names without one; C126_separate: the nodes themselves are different for any names; C126_one_node: names of consumers are single nodes."
  },
  {
   "property": "C127",
   "status": "partial",
   "theorems": [
    "Kiel.C127_start_partial",
    "Kiel.C127_reads",
    "Kiel.C127_taken",
    "Kiel.C127_refused",
    "Kiel.C127_false"
   ],
   "note": "False of the code for IPv6 addresses (C127_false: '::1', 'fe80::1' and '[::1]:9092' raise ValueError although other hosts follow). For hosts whose names hold no colon the full statement is proved (C127_start_partial); C127_reads: nothing else is taken for a host and a port; C127_taken: any text of a number, with the white space, sign and underscores that int() allows, is taken; C127_refused: an entry that cannot be read has start() raise ValueError as soon as it is reached, whichever hosts follow."
  },
  {
   "property": "C128",
   "status": "partial",
   "theorems": [
    "Kiel.C128_asks_partial",
    "Kiel.C128_half",
    "Kiel.C128_discarded",
    "Kiel.C128_unfinished",
    "Kiel.C128_false_lost",
    "Kiel.C128_false_rewinds",
    "Kiel.C128_false_for_good",
    "Kiel.C128_false_healing"
   ],
   "note": "False of the code: rebalance() first replaces the mapping and then has the synced topics cleared; a consume that runs in between uses the new share with old offsets, or 0. Messages are lost (C128_false_lost) or returned again and the group's offset put back (C128_false_rewinds). Also false for a whole rebalance while a consume of a topic without partitions looks the cluster up (C128_false_healing; C48_false is the case of one that determines offsets). C128_asks_partial: true for whole rebalances at any other moment, for any overlap of calls. C128_half: what a consume in between does, for all states; C128_discarded: it returns nothing if the second half has happened when it ends. C128_unfinished: if the consumer looks up a topic that is not in its new share while rebalance() iterates over that, rebalance() raises a RuntimeError and the second half never happens (C128_false_for_good)."
  },
  {
   "property": "C129",
   "status": "partial",
   "theorems": [
    "Kiel.C129_untold",
    "Kiel.C129_unknown",
    "Kiel.C129_unconnected",
    "Kiel.C129_false",
    "Kiel.C77_starts"
   ],
   "note": "False for whatever the client learns of late (C129_false): the topic counts as synced after its offsets have been asked of no partition at all. C129_unknown: a topic not known at the first call is asked about nowhere and fetched from 0, whatever the start. C129_unconnected: likewise one asked for before connect(), by a call that raises. C129_untold: in all histories, a partition whose start no broker has told is fetched from 0. For topics known at the first call the claim holds: C77_starts."
  },
  {
   "property": "C130",
   "status": "partial",
   "theorems": [
    "Kiel.C130_not_asked",
    "Kiel.C130_unknown",
    "Kiel.C130_produce",
    "Kiel.C130_consume",
    "Kiel.C130_false",
    "Kiel.C34_created",
    "Kiel.C36_unallocated"
   ],
   "note": "False (C130_false): heal() asks about all topics, and then by name only about those that an answer has mentioned, so the topic is never named. C130_not_asked: what brokers would do if asked about a topic that they do not mention themselves makes no difference to heal(). C130_unknown, C130_produce, C130_consume: such a topic stays unknown, its messages are dropped, and nothing of it is fetched, in every state. A topic that others create is found by the next call: C34_created, C36_unallocated."
  },
  {
   "property": "C131",
   "status": "partial",
   "theorems": [
    "Kiel.C131_topics_partial",
    "Kiel.C131_false",
    "Kiel.C132_single",
    "Kiel.C132_stalls"
   ],
   "note": "False within a topic (C131_false: a message is skipped, or returned twice). C132_single: single consumers ask for the start of all partitions of the topic, and fetch all from there. C132_stalls: consumers of a group return nothing of the topic, though messages of other partitions were fetched. Proved: the partitions of other topics are left where they are, and need not be determined anew (C131_topics_partial)."
  },
  {
   "property": "C132",
   "status": "partial",
   "theorems": [
    "Kiel.C132_noticed",
    "Kiel.C132_single",
    "Kiel.C132_stalls",
    "Kiel.C132_stuck",
    "Kiel.C132_false",
    "Kiel.C77_starts"
   ],
   "note": "Holds for single consumers: C132_noticed, C132_single. False for consumers of a group (C132_false): they ask the coordinator, which reports the same offset again. C132_stalls: while it does, consume returns an empty list and commits nothing; C132_stuck: so do all calls ever after, whatever else happens in between that leaves the partition alone."
  },
  {
   "property": "C133",
   "status": "partial",
   "theorems": [
    "Kiel.C133_hangs",
    "Kiel.C133_stuck",
    "Kiel.C133_committed_partial",
    "Kiel.C133_false",
    "Kiel.C132_stuck"
   ],
   "note": "False (C133_false), in both ways in which a coordinator can say that nothing was committed. C133_hangs: error 3 (offsets kept in ZooKeeper) counts as retriable, so the call never returns, whatever was committed for other partitions. C133_stuck: offset -1 (offsets kept by Kafka) is asked for and refused, and no call ever returns a message of the topic. C133_committed_partial: if offsets of the whole share have been committed, exactly these are asked for."
  },
  {
   "property": "C134",
   "status": "partial",
   "theorems": [
    "Kiel.C134_send",
    "Kiel.C134_others_partial",
    "Kiel.C134_consume",
    "Kiel.C134_offsets",
    "Kiel.C134_false"
   ],
   "note": "False of the code: there are no timeouts, and send() waits for every broker. C134_send: a send that still waits for a broker neither returns nor heals until that broker answers or is lost, whatever else happens. C134_consume and C134_offsets: likewise a SingleConsumer's consume returns no message. C134_false: messages of the other broker are then passed over: the call that received them never returns, and the next one asks for what comes after. What holds is C134_others_partial: a send that asks the silent broker nothing can end without it."
  },
  {
   "property": "C135",
   "status": "partial",
   "theorems": [
    "Kiel.C135_same_partial",
    "Kiel.C135_keys_partial",
    "Kiel.C135_listed",
    "Kiel.C135_false_order",
    "Kiel.C135_false_election"
   ],
   "note": "False of the code in two ways. C135_false_order: partitions are offered in the order of the latest metadata, so that the partitioner of the documentation (key modulo length) moves a key when brokers list the same partitions in another order. C135_false_election: while heal() waits for the election of a leader the partition is missing from the list, and a flush by another call moves the key, also with a partitioner that does not mind the order. C135_listed: after a heal that returned, the list is that of the last answer, in its order. C135_same_partial, C135_keys_partial: for every course of overlapping calls in which the partitioner makes no difference between the lists that the client has, each message goes where it chooses, and equal keys go together."
  },
  {
   "property": "C136",
   "status": "partial",
   "theorems": [
    "Kiel.C136_never",
    "Kiel.C136_connects_partial",
    "Kiel.C136_asks_partial",
    "Kiel.C136_begins_partial",
    "Kiel.C136_false"
   ],
   "note": "False (C136_false): partitions are offered to the group in connect() only, so a partition that comes into being later is never asked for, in any continuation without a consumer connecting anew, whatever metadata the consumers have (C136_never). C136_connects_partial: a partition that a connecting consumer finds is, once all have been told, the own of exactly one consumer (Python 2; on Python 3 nothing can be added, C57_python3). C136_asks_partial: a consumer asks for all partitions of its own. C136_begins_partial: and, on the first consume of their topic, for their offsets, of the coordinator that connect() has found."
  },
  {
   "property": "C137",
   "status": "partial",
   "theorems": [
    "Kiel.C137_never",
    "Kiel.C137_raises",
    "Kiel.C137_healed_partial",
    "Kiel.C137_elsewhere",
    "Kiel.C137_false"
   ],
   "note": "False (C137_false): consume looks the leaders up without a check, and heals only for topics without partitions. C137_never: as long as the consumer gets no other metadata and has such a partition, it asks for no messages of the topic, of no partition, whatever else happens. C137_raises: each call raises KeyError, and none heals or leaves a healing to be done. C137_healed_partial: once it has other metadata, for whatever reason, its partitions are asked for. C137_elsewhere: a consume of a topic of which it has no partitions does heal."
  },
  {
   "property": "C138",
   "status": "partial",
   "theorems": [
    "Kiel.C138_stays",
    "Kiel.C138_taken_out_partial",
    "Kiel.C138_false"
   ],
   "note": "False (C138_false): nothing in the library takes partitions out of the group's. C138_stays: whatever happens, the partition stays, and whenever all consumers have been told what there is, one of them has it, whose calls of consume for the topic raise (C137_raises). C138_taken_out_partial: if the application takes it out (by text: see C61; on Python 2), none has it."
  },
  {
   "property": "C139",
   "status": "partial",
   "theorems": [
    "Kiel.C139_loses",
    "Kiel.C139_brings",
    "Kiel.C139_goes_on_partial",
    "Kiel.C139_false"
   ],
   "note": "False (C139_false): the second round of heal asks for the topics under election only, and replaces all that is known. C139_loses: a consumer healed then asks for no messages of any other topic of which it has partitions, until it gets other metadata, and if it has nothing else to do its calls raise KeyError, each time, without healing. C139_brings: a consumer that connects then brings no partition of any other topic into the group. C139_goes_on_partial: with nothing amiss in the metadata, the next call asks for all of its partitions."
  },
  {
   "property": "C140",
   "status": "partial",
   "theorems": [
    "Kiel.C140_never",
    "Kiel.C140_raises",
    "Kiel.C140_gone",
    "Kiel.C140_loses",
    "Kiel.C140_goes_on_partial",
    "Kiel.C140_false"
   ],
   "note": "False (C140_false): with an election for another topic, heal forgets the topic, and flush raises and drops its messages. C140_loses, C140_never: after such a heal nothing is sent of any topic that was fine, until the cluster changes. C140_raises: every flush or winding down raises while messages of such a topic are queued, and drops at least one topic's. C140_gone: after as many flushes as there are topics queued the messages are gone. C140_goes_on_partial: with nothing amiss in the metadata at all, the next flush sends everything queued."
  },
  {
   "property": "C141",
   "status": "partial",
   "theorems": [
    "Kiel.C141_hides",
    "Kiel.C141_stuck",
    "Kiel.C141_each",
    "Kiel.C141_only",
    "Kiel.C141_fresh_partial",
    "Kiel.C141_false"
   ],
   "note": "False (C141_false): a flush that fails for want of partitions leaves the topic in the table of topics, without partitions, so that produce takes it for known. C141_hides: how that comes about. C141_stuck: from then on, as long as the cluster does not change, no call of produce for the topic heals or sends; with a full batch each raises. C141_each: message after message is lost. C141_only: only topics with queued messages are affected. C141_fresh_partial: right after a heal, a topic without partitions is looked up."
  },
  {
   "property": "C142",
   "status": "partial",
   "theorems": [
    "Kiel.C142_hangs",
    "Kiel.C142_hangs_lost",
    "Kiel.C142_false",
    "Kiel.C142_ends_partial",
    "Kiel.C142_aborted_partial"
   ],
   "note": "False (C142_false): close() and StreamClosedError set the closing flag but leave the futures of requests as they are, and abort() then does nothing. C142_hangs: a call whose outstanding requests are at connections that cluster.stop() closes never ends, whatever happens afterwards. C142_hangs_lost: nor does one whose brokers close the connections. C142_ends_partial: a call whose requests are all settled ends by its own steps. C142_aborted_partial: it would end were the connections aborted."
  },
  {
   "property": "C143",
   "status": "proved",
   "theorems": [
    "Kiel.C143_results",
    "Kiel.C143_connection"
   ],
   "note": "C143_connection: the connection of a broker was made for it. C143_results: for every history before, every course of events after, and every number of calls sharing connections."
  },
  {
   "property": "C144",
   "status": "proved",
   "theorems": [
    "Kiel.C144_noticed"
   ],
   "note": "C144_noticed: for every history before and after. That a heal which returns has closed connections replaced is C73; calls that were waiting for an answer over the lost connection are the subject of C142."
  },
  {
   "property": "C145",
   "status": "partial",
   "theorems": [
    "Kiel.C145_ends_partial",
    "Kiel.C145_held",
    "Kiel.C145_returns_partial",
    "Kiel.C145_false"
   ],
   "note": "False of the code (C145_false, C145_held): `heal_cluster` belongs to the client, not to the call, so after another call has lost its connection to some broker, a call whose own brokers have all answered does not return before a heal() has returned; heal() asks brokers for metadata one after the other and without a time limit (kiel/cluster.py:159-167), so that a broker that is silent, not lost, holds it up. What holds, for every history: such a call ends by its own steps and that heal() (C145_ends_partial), and returns by its own steps alone if nobody has asked for a heal (C145_returns_partial). Correlation ids are taken to be different (C13)."
  },
  {
   "property": "C146",
   "status": "partial",
   "theorems": [
    "Kiel.C146_hangs",
    "Kiel.C146_answer_partial",
    "Kiel.C146_answers_partial",
    "Kiel.C146_call",
    "Kiel.C146_raises",
    "Kiel.C146_passes_partial",
    "Kiel.C146_none_partial",
    "Kiel.C146_false",
    "Kiel.C146_agrees_partial"
   ],
   "note": "False of the code (C146_hangs, C146_false, C146_raises): when the stream of a connection ends while get_metadata() waits for its answer, the connection is marked as closing but the futures of its requests are not settled (cf. C142), so get_metadata(), the heal() that called it, and the call that waits for this heal() (C146_call) never end, whoever else would answer; when it fails in another way, or the answer cannot be read, get_metadata() raises this error instead of asking another broker (C146_raises); and with C145_held no call of the client returns from then on unless another heal() returns. What holds: connections that were lost before are passed over (C146_passes_partial), NoBrokersError is raised if all were (C146_none_partial), and an answer over an open connection is returned whatever else happens meanwhile (C146_answers_partial), and what is returned is such an answer (C146_answer_partial); whenever the brokers that are asked are heard from or were lost before, get_metadata() comes by what heal() is given by getMetadata in Model/Cluster.lean (C146_agrees_partial). Connections added or removed during the loop are the subject of C88."
  },
  {
   "property": "C147",
   "status": "partial",
   "theorems": [
    "Kiel.C147_hangs",
    "Kiel.C147_last",
    "Kiel.C147_answers_partial",
    "Kiel.C147_raises",
    "Kiel.C147_none_partial",
    "Kiel.C147_agrees_partial",
    "Kiel.C147_false"
   ],
   "note": "False of the code (C147_hangs, C147_false, C147_raises, C147_last): if the host that was connected to closes its connection before it has answered, start() never ends; if its stream fails in another way, or what it sends cannot be read, start() raises this error; in neither case another host is tried. What holds: hosts that refuse connections are passed over in order, and NoBrokersError is raised if all do (C147_none_partial); an answer over an open connection is what start() goes on with (C147_answers_partial); whenever the hosts connected to are heard from, start() comes by what Cluster.start is given by bootstrap (C147_agrees_partial). C23 states the same on the level of results of requests."
  }
 ]
}