{"id": "C01", "title": "Fixed-width integers survive the wire or are refused", "statement": "Rendering and packing an Int8/16/32/64 gives its big-endian two's-complement encoding of 1/2/4/8 bytes, and parsing those bytes at any position of any buffer gives the same integer and moves the offset by exactly that width. An integer outside the signed range of the width, or a value that is not an integer, is refused with struct.error and never wraps.", "quantifier": "every width, every integer, every buffer prefix and suffix", "why_tests_cant": "there are 2^64 values per width and unboundedly many buffers around them", "anchors": ["kiel/protocol/primitives.py:Primitive.render", "kiel/protocol/primitives.py:Primitive.parse", "kiel/protocol/primitives.py:Int8,Int16,Int32,Int64"]}
{"id": "C02", "title": "Strings and byte strings survive the wire", "statement": "A String (16-bit length) or Bytes (32-bit length) value renders as its length followed by its bytes. Parsed back it is the same text; None comes back as None; a byte string comes back as the same bytes, or as the text they spell when they happen to be valid UTF-8; other scalars come back as their str(). A value too long for the length field is refused with struct.error.", "quantifier": "every text, byte string and scalar, every buffer prefix and suffix", "why_tests_cant": "unbounded values; whether bytes are valid UTF-8 splits the domain in a way no sample covers", "anchors": ["kiel/protocol/primitives.py:VariablePrimitive.render", "kiel/protocol/primitives.py:VariablePrimitive.parse", "kiel/protocol/primitives.py:String,Bytes"]}
{"id": "C03", "title": "Every declared structure round-trips", "statement": "For any class built from the protocol primitives, arrays, nested parts and message sets, and any instance whose scalars fit their fields, render+pack succeeds, yields the Kafka wire encoding (fields in declared order, arrays prefixed with a 32-bit count) and parse returns the same instance and the offset just after it, whatever bytes come before and after.", "quantifier": "every schema (nesting depth unbounded), every instance, every surrounding bytes", "why_tests_cant": "schemas nest and arrays grow without bound", "anchors": ["kiel/protocol/part.py:Part.render", "kiel/protocol/part.py:Part.parse", "kiel/protocol/primitives.py:Array"]}
{"id": "C04", "title": "Serialized requests carry the right preamble", "statement": "serialize() of a request yields api key, api version 0, correlation id, the client id 'kiel', then the request's own encoding; what Connection writes is that preceded by its exact length as a 32-bit integer.", "quantifier": "every request class and instance", "why_tests_cant": "unbounded payloads; a wrong length desynchronises the stream only for some sizes", "anchors": ["kiel/protocol/request.py:Request.serialize", "kiel/connection.py:Connection.send", "kiel/constants.py:API_KEYS"]}
{"id": "C05", "title": "Every request and response class of the protocol package is usable", "statement": "For each api the package defines, a request built from valid field values can be constructed and serialized, and a well-formed response can be deserialized.", "quantifier": "all thirteen apis, all valid field values", "why_tests_cant": "tests build only the classes the clients use", "anchors": ["kiel/protocol/heartbeat.py:HeartbeatRequest.parts", "kiel/protocol/heartbeat.py:HeartbeatResponse.parts", "kiel/protocol/part.py:Part.__init__"]}
{"id": "C06", "title": "Parsing never runs backwards or past the buffer", "statement": "Whenever parse succeeds for any schema on any bytes, the new offset is at least the old one and at most the length of the buffer; it always terminates with a value or an exception.", "quantifier": "every schema, every byte string (hostile ones included), every start offset", "why_tests_cant": "all byte strings", "anchors": ["kiel/protocol/primitives.py:Array.parse", "kiel/protocol/messages.py:MessageSet.parse", "kiel/protocol/part.py:Part.parse"]}
{"id": "C07", "title": "Message sets round-trip uncompressed", "statement": "A set of uncompressed messages renders to size, then per message offset, size and message; parsing returns the same offsets, keys and values in the same order and stops exactly at the end of the set even when more data follows.", "quantifier": "every list of (offset, message), every surrounding bytes", "why_tests_cant": "unbounded lists and values", "anchors": ["kiel/protocol/messages.py:MessageSet.render", "kiel/protocol/messages.py:MessageSet.parse", "kiel/protocol/messages.py:Message"]}
{"id": "C08", "title": "Every message can be rendered with its CRC", "statement": "For every key and value that fit, Message.render succeeds and its first field is the CRC-32 of the remaining bytes as a signed 32-bit integer.", "quantifier": "every key and value", "why_tests_cant": "a failing payload has probability 2^-32 per random message", "anchors": ["kiel/protocol/messages.py:Message.render"]}
{"id": "C09", "title": "Gzip-compressed message sets round-trip", "statement": "Parsing the rendering of MessageSet.compressed(GZIP, msgs) returns the same messages in the same order.", "quantifier": "every list of messages that fits, every gzip implementation that inverts itself and writes the gzip magic bytes", "why_tests_cant": "unbounded payloads, and compressed bytes must never be mistaken for UTF-8 text", "anchors": ["kiel/protocol/messages.py:MessageSet.compressed", "kiel/protocol/messages.py:MessageSet.parse", "kiel/compression/gzip.py"]}
{"id": "C10", "title": "Snappy framing round-trips", "statement": "decompress(compress(data)) == data, whatever the data and however the raw snappy codec compresses each block.", "quantifier": "every byte string (any number of 32 KiB blocks), every raw codec that inverts itself", "why_tests_cant": "the failing inputs depend on the compressed size of the last block only", "anchors": ["kiel/compression/snappy.py:compress", "kiel/compression/snappy.py:decompress"]}
{"id": "C11", "title": "Snappy-compressed message sets round-trip", "statement": "Parsing the rendering of MessageSet.compressed(SNAPPY, msgs) returns the same messages in the same order.", "quantifier": "every list of messages that fits, every raw snappy codec that inverts itself", "why_tests_cant": "unbounded payloads spanning many blocks", "anchors": ["kiel/protocol/messages.py:MessageSet.compressed", "kiel/compression/snappy.py"]}
{"id": "C12", "title": "A cut-off trailing message is ignored", "statement": "When a broker cuts a message set off in the middle of its last message, parsing the fetch response returns exactly the complete messages, and the other partitions of the response are parsed as if nothing happened.", "quantifier": "every list of complete messages, every cut position, every position of the cut set in the response", "why_tests_cant": "every cut position of every message; partitions following the cut set", "anchors": ["kiel/protocol/messages.py:MessageSet.parse", "kiel/protocol/fetch.py:PartitionResponse"]}
{"id": "C13", "title": "Correlation ids never repeat", "statement": "All requests created in a process get pairwise different, strictly increasing correlation ids, starting below 2^24, whatever classes they are; they serialize until the counter leaves the 32-bit range.", "quantifier": "every sequence of request constructions", "why_tests_cant": "unbounded histories", "anchors": ["kiel/protocol/request.py:generate_correlation_id", "kiel/protocol/request.py:last_id"]}
{"id": "C14", "title": "Responses reach the request they answer", "statement": "Whatever order the broker answers in and however sends and reads interleave, a future returned by Connection.send only ever resolves with a response that carried its own correlation id, decoded with the response class of its own api.", "quantifier": "every interleaving of sends, writes, reads, errors, aborts and closes in which no request object is sent again while it is outstanding", "why_tests_cant": "all schedules", "anchors": ["kiel/connection.py:Connection.send", "kiel/connection.py:Connection.read_loop", "kiel/connection.py:Connection.read_message"]}
{"id": "C15", "title": "A request's future is settled at most once", "statement": "Once a future returned by send has a result or an exception it never changes, whatever happens on the connection afterwards.", "quantifier": "every history", "why_tests_cant": "all schedules", "anchors": ["kiel/connection.py:Connection.read_loop", "kiel/connection.py:Connection.abort"]}
{"id": "C16", "title": "abort() fails everything outstanding and seals the connection", "statement": "After abort() on an open connection no future is left pending and every future that was pending has an exception; every later send fails at once with BrokerConnectionError, writing nothing; a second abort changes nothing.", "quantifier": "every connection state reached without sending a request object again while it is outstanding", "why_tests_cant": "any number of outstanding requests", "anchors": ["kiel/connection.py:Connection.abort", "kiel/connection.py:Connection.send"]}
{"id": "C17", "title": "Losing the broker fails outstanding requests", "statement": "When the broker closes the socket, every outstanding future gets an exception, so no caller waits forever.", "quantifier": "every set of outstanding requests and every crash point", "why_tests_cant": "needs all crash points; a hang cannot be observed in finite time", "anchors": ["kiel/connection.py:Connection.socket_error_handling", "kiel/connection.py:Connection.read_loop"]}
{"id": "C18", "title": "An unintelligible response aborts the connection", "statement": "A frame with an unknown correlation id, one that cannot be decoded, or an answer to an api the connection has no response class for, closes the connection and fails every outstanding request with that error.", "quantifier": "every frame, and every connection state reached without sending a request object again while it is outstanding", "why_tests_cant": "all byte strings", "anchors": ["kiel/connection.py:Connection.read_message", "kiel/connection.py:response_classes"]}
{"id": "C19", "title": "The topic and leader tables are consistent with the metadata", "statement": "After metadata has been processed, a topic lists exactly its partitions whose leader is a known connection and not under election, in response order; each listed partition has a leader on record, that leader is the one the metadata gave and is a known connection; nothing else has a leader.", "quantifier": "every metadata response, every set of connections", "why_tests_cant": "unbounded responses", "anchors": ["kiel/cluster.py:Cluster.process_topics", "kiel/cluster.py:Cluster.get_leader"]}
{"id": "C20", "title": "Topics needing another look are reported", "statement": "process_topics returns exactly the names of topics that were flagged replica_not_available or have a partition that is leaderless or led by an unknown broker; unknown topics are not reported.", "quantifier": "every metadata response, every set of connections", "why_tests_cant": "unbounded responses", "anchors": ["kiel/cluster.py:Cluster.process_topics"]}
{"id": "C21", "title": "Connections follow the broker list", "statement": "After process_brokers every broker in the metadata either has a connection or is returned as missing; brokers already connected are not reconnected; every connection whose broker is not in the metadata has been aborted; nothing else is touched.", "quantifier": "every broker list, every previous set of connections, every combination of connect failures", "why_tests_cant": "2^n failure combinations", "anchors": ["kiel/cluster.py:Cluster.process_brokers"]}
{"id": "C22", "title": "heal() leaves the cluster in sync with the metadata", "statement": "When heal() returns, every topic that the metadata reported healthy is known with its partitions and leaders.", "quantifier": "every metadata history, every pattern of failures", "why_tests_cant": "unbounded number of retry rounds", "anchors": ["kiel/cluster.py:Cluster.heal", "kiel/cluster.py:Cluster.process_topics"]}
{"id": "C23", "title": "Any working bootstrap host is enough", "statement": "start() succeeds if at least one bootstrap host can be connected to and answers the metadata request, and raises NoBrokersError if none does.", "quantifier": "every list of hosts, every pattern of failures", "why_tests_cant": "2^n failure patterns at two failure points per host", "anchors": ["kiel/cluster.py:Cluster.start"]}
{"id": "C24", "title": "Metadata is taken from the first connection that answers", "statement": "get_metadata returns the answer of the first connection (in order) that does not fail with a connection error; if all fail so, NoBrokersError; any other error propagates.", "quantifier": "every set of connections and failure pattern", "why_tests_cant": "2^n failure patterns", "anchors": ["kiel/cluster.py:Cluster.get_metadata"]}
{"id": "C25", "title": "send() handles every response and isolates failures", "statement": "Client.send returns exactly one entry per broker that answered, each the result of that response's handler, whatever order answers arrive in; failures of other brokers do not stop it. It returns only once all brokers are settled.", "quantifier": "every set of requests, every completion order, every failure pattern", "why_tests_cant": "n! orders times 2^n failure patterns", "anchors": ["kiel/clients/client.py:Client.send"]}
{"id": "C26", "title": "Errors while sending trigger a cluster heal", "statement": "If any request of a send fails, or a handler asks for it, the cluster is healed before send returns and the flag is cleared; otherwise the cluster is left alone.", "quantifier": "every completion order and failure pattern", "why_tests_cant": "2^n failure patterns", "anchors": ["kiel/clients/client.py:Client.send"]}
{"id": "C27", "title": "Messages are batched until the batch size is reached", "statement": "produce() of a known topic queues the message at the end of the topic's queue; requests are sent exactly when the total number of queued messages has reached batch_size (or batching is off).", "quantifier": "every state and every message", "why_tests_cant": "all histories of queue contents", "anchors": ["kiel/clients/producer.py:Producer.produce", "kiel/clients/producer.py:Producer.unsent_count"]}
{"id": "C28", "title": "Messages are routed to the partition leader, in order", "statement": "A flush puts every queued message into exactly one place: the request for the leader of the partition the partitioner chose for it, under its topic and partition, in queue order; or back in the queue when that leader is not connected.", "quantifier": "every queue, every partitioner, every cluster view", "why_tests_cant": "unbounded queues and arbitrary partitioners", "anchors": ["kiel/clients/producer.py:Producer.flush"]}
{"id": "C29", "title": "No message is lost or duplicated while the client is running", "statement": "At every point of every history each message accepted by produce() is accounted for exactly once: waiting in the queue, in flight in one request, or settled by the broker's answer.", "quantifier": "every interleaving of produce, flush, answers, connection failures and metadata changes", "why_tests_cant": "all histories", "anchors": ["kiel/clients/producer.py:Producer.flush", "kiel/clients/producer.py:Producer.handle_produce_response", "kiel/clients/producer.py:Producer.queue_retries"]}
{"id": "C30", "title": "Retriable failures are retried", "statement": "When the broker answers a partition with a retriable error code, exactly the messages sent for that partition in that request are put back at the end of the topic's queue and a heal is requested; messages of other requests are not affected.", "quantifier": "every answer, every set of outstanding requests", "why_tests_cant": "all interleavings of overlapping flushes", "anchors": ["kiel/clients/producer.py:Producer.handle_produce_response", "kiel/clients/producer.py:Producer.queue_retries"]}
{"id": "C31", "title": "A lost connection does not lose messages", "statement": "When the connection to a broker fails before it answers a produce request, the messages of that request are retried by a later flush.", "quantifier": "every crash point of every broker", "why_tests_cant": "all crash points", "anchors": ["kiel/clients/client.py:Client.send", "kiel/clients/producer.py:Producer.flush"]}
{"id": "C32", "title": "Closing the producer flushes everything", "statement": "close() flushes the unsent messages so that none are lost.", "quantifier": "every queue and every broker answer during the final flush", "why_tests_cant": "all answers", "anchors": ["kiel/clients/producer.py:Producer.wind_down", "kiel/clients/client.py:Client.close"]}
{"id": "C33", "title": "A failing flush keeps the queue", "statement": "If flush raises (a partitioner fails, a topic disappeared from the metadata, a message cannot be compressed), no queued message is lost.", "quantifier": "every queue, every partitioner and cluster view", "why_tests_cant": "all failure points within the loop", "anchors": ["kiel/clients/producer.py:Producer.flush", "kiel/iterables.py:drain"]}
{"id": "C34", "title": "Nothing is queued for unknown topics or while closing", "statement": "produce() on a closing client, or for a topic that is unknown even after refreshing the metadata, queues nothing and sends nothing.", "quantifier": "every state", "why_tests_cant": "all states", "anchors": ["kiel/clients/producer.py:Producer.produce"]}
{"id": "C35", "title": "drain empties its argument exactly once", "statement": "Iterating drain(x) over a list, deque, dict or set yields every element exactly once (deque oldest first, list and dict newest first) and leaves x empty; elements added during the iteration are yielded as well.", "quantifier": "every collection, every interleaving of additions", "why_tests_cant": "unbounded collections and interleavings", "anchors": ["kiel/iterables.py:drain"]}
{"id": "C36", "title": "A consume fetches exactly the allocated partitions", "statement": "consume(topic) sends one fetch request per leader; together they name each allocated partition exactly once, at its leader, at the consumer's current offset, with per-leader byte limits that never add up to more than max_bytes.", "quantifier": "every allocation, leader assignment, offsets and byte limit", "why_tests_cant": "unbounded allocations; integer division", "anchors": ["kiel/clients/consumer.py:BaseConsumer.consume"]}
{"id": "C37", "title": "Offsets advance to just after the last delivered message", "statement": "Handling a fetch response leaves a partition's offset just after its last deserialized message with a non-negative offset, and leaves every other partition and topic untouched.", "quantifier": "every response", "why_tests_cant": "unbounded responses", "anchors": ["kiel/clients/consumer.py:BaseConsumer.deserialize_messages", "kiel/clients/consumer.py:BaseConsumer.handle_fetch_response"]}
{"id": "C38", "title": "No message is skipped or delivered twice", "statement": "Consuming a partition repeatedly from a broker that serves its log in order delivers each deserializable message of the log exactly once and in order, whatever batch sizes, errors and heals happen in between.", "quantifier": "every log, every sequence of fetches with every batch size and error", "why_tests_cant": "unbounded histories", "anchors": ["kiel/clients/consumer.py:BaseConsumer.consume", "kiel/clients/consumer.py:BaseConsumer.deserialize_messages"]}
{"id": "C39", "title": "Every deserialized message is returned", "statement": "consume() returns every message the deserializer produced, in partition order.", "quantifier": "every deserializer and message, falsy values included", "why_tests_cant": "all values", "anchors": ["kiel/clients/consumer.py:BaseConsumer.consume"]}
{"id": "C40", "title": "A message that cannot be deserialized is skipped", "statement": "A poison message does not stop consumption: it is skipped and the following consume continues after it.", "quantifier": "every batch and every set of poison messages", "why_tests_cant": "all positions of poison messages", "anchors": ["kiel/clients/consumer.py:BaseConsumer.deserialize_messages"]}
{"id": "C41", "title": "Fetch errors have the documented effect", "statement": "A retriable code requests a heal, offset_out_of_range makes the next consume re-determine the topic's offsets, other known codes are logged; none of them deliver messages or move offsets, and other partitions of the response are still processed.", "quantifier": "every response and every code", "why_tests_cant": "every combination of codes over any number of partitions", "anchors": ["kiel/clients/consumer.py:BaseConsumer.handle_fetch_response", "kiel/constants.py:ERROR_CODES"]}
{"id": "C42", "title": "A single consumer never asks for a negative offset", "statement": "Every offset a SingleConsumer puts in a fetch request is non-negative, whatever the brokers answered before.", "quantifier": "every history of answers", "why_tests_cant": "all histories", "anchors": ["kiel/clients/single.py:SingleConsumer.handle_offset_response", "kiel/clients/consumer.py:BaseConsumer.deserialize_messages"]}
{"id": "C43", "title": "Consumption can start at a point in time", "statement": "consume(topic, start) with BEGINNING, END, a datetime or a timedelta sends offset requests for that point in time.", "quantifier": "every start value", "why_tests_cant": "all dates", "anchors": ["kiel/clients/single.py:start_to_timestamp", "kiel/clients/single.py:SingleConsumer.determine_offsets", "kiel/protocol/offset.py:PartitionRequest"]}
{"id": "C44", "title": "Offsets are determined before the first fetch and after errors only", "statement": "consume determines offsets exactly when the topic is not marked synced; if that fails fatally it returns an empty list, fetches nothing and tries again next time; a closing consumer does nothing.", "quantifier": "every state and answer", "why_tests_cant": "all histories", "anchors": ["kiel/clients/consumer.py:BaseConsumer.consume", "kiel/clients/single.py:SingleConsumer.handle_offset_response"]}
{"id": "C45", "title": "Every partition is allocated to exactly one member", "statement": "With at least one member the default allocator gives every partition to exactly one member and nothing else to anyone; members and partitions given in the same order always produce the same mapping.", "quantifier": "every member and partition list", "why_tests_cant": "unbounded lists", "anchors": ["kiel/clients/grouped.py:naive_allocator"]}
{"id": "C46", "title": "Allocation is balanced", "statement": "The numbers of partitions given to any two members differ by at most one.", "quantifier": "every member and partition list", "why_tests_cant": "unbounded lists", "anchors": ["kiel/clients/grouped.py:naive_allocator"]}
{"id": "C47", "title": "Members that see the same group agree", "statement": "Consumers that were told the same members and partitions, in whatever order, compute the same mapping, so their allocations are disjoint and together cover every partition.", "quantifier": "every pair of notification orders", "why_tests_cant": "all orders", "anchors": ["kiel/zookeeper/allocator.py:PartitionAllocator.rebalance", "kiel/clients/grouped.py:naive_allocator"]}
{"id": "C48", "title": "A rebalance forces offsets to be re-determined", "statement": "After a rebalance the next consume of any topic fetches the group's committed offsets before fetching messages; a rebalance during a fetch makes that consume return nothing and commit nothing.", "quantifier": "every interleaving of rebalances with consume", "why_tests_cant": "all interleavings", "anchors": ["kiel/clients/grouped.py:GroupedConsumer.consume", "kiel/zookeeper/allocator.py:PartitionAllocator.rebalance"]}
{"id": "C49", "title": "Commits carry the consumer's offsets", "statement": "commit_offsets sends the coordinator, for every consumed topic in the allocation, exactly its allocated partitions with the consumer's current offsets.", "quantifier": "every state", "why_tests_cant": "unbounded allocations", "anchors": ["kiel/clients/grouped.py:GroupedConsumer.commit_offsets"]}
{"id": "C50", "title": "Failed commits are retried", "statement": "A partition whose commit failed with a retriable error is committed again by the retry.", "quantifier": "every combination of per-partition answers", "why_tests_cant": "every combination of codes", "anchors": ["kiel/clients/grouped.py:GroupedConsumer.handle_offset_commit_response", "kiel/clients/grouped.py:GroupedConsumer.commit_offsets"]}
{"id": "C51", "title": "Over-long commit metadata is dropped and the commit retried", "statement": "If the broker says the metadata is too large the same commit is retried with blank metadata; fatal codes are not retried.", "quantifier": "every combination of per-partition answers", "why_tests_cant": "every combination of codes", "anchors": ["kiel/clients/grouped.py:GroupedConsumer.handle_offset_commit_response", "kiel/clients/grouped.py:GroupedConsumer.commit_offsets"]}
{"id": "C52", "title": "A commit never rewinds a partition the consumer has not read", "statement": "commit_offsets only ever commits offsets that the consumer fetched from the group or reached by consuming.", "quantifier": "every interleaving of rebalances, consumes and commits", "why_tests_cant": "all interleavings", "anchors": ["kiel/clients/grouped.py:GroupedConsumer.commit_offsets"]}
{"id": "C53", "title": "The coordinator is found if any broker knows it", "statement": "determine_coordinator tries brokers until one answers; a broker that is down is skipped.", "quantifier": "every broker list, every pattern of failures and retriable answers", "why_tests_cant": "2^n failure patterns, unbounded rounds", "anchors": ["kiel/clients/grouped.py:GroupedConsumer.determine_coordinator"]}
{"id": "C54", "title": "Group offsets are adopted, retried or refused", "statement": "An offset-fetch answer sets exactly the offsets of the partitions answered without error, asks for a retry if some partition had a retriable error, and raises NoOffsetsError on a fatal one.", "quantifier": "every answer", "why_tests_cant": "every combination of codes", "anchors": ["kiel/clients/grouped.py:GroupedConsumer.handle_offset_fetch_response", "kiel/clients/grouped.py:GroupedConsumer.determine_offsets"]}
{"id": "C55", "title": "A grouped consumer never asks for a negative offset", "statement": "Every offset a GroupedConsumer puts in a fetch request is non-negative, also for a group that has never committed.", "quantifier": "every history of answers", "why_tests_cant": "all histories", "anchors": ["kiel/clients/grouped.py:GroupedConsumer.handle_offset_fetch_response"]}
{"id": "C56", "title": "The shared set behaves like a set under concurrency", "statement": "However the adds and removes of any number of clients interleave, every one takes effect atomically: the shared data is the result of applying the completed operations in some order, no update is lost.", "quantifier": "every number of clients and every interleaving of their steps", "why_tests_cant": "all interleavings", "anchors": ["kiel/zookeeper/shared_set.py:SharedSet.add_items", "kiel/zookeeper/shared_set.py:SharedSet.remove_items"]}
{"id": "C57", "title": "The shared set is written only when it changes", "statement": "Adding only present items, or removing only absent ones, writes nothing; any other call writes exactly the union or difference.", "quantifier": "every set content and argument", "why_tests_cant": "all sets", "anchors": ["kiel/zookeeper/shared_set.py:SharedSet.add_items", "kiel/zookeeper/shared_set.py:SharedSet.remove_items"]}
{"id": "C58", "title": "Membership follows sessions", "statement": "After join() the member's node exists and belongs to the caller's session, also when a stale node of an older session was there, so that the old session's expiry does not remove it; leave() removes the node and is harmless when it is gone; a member whose session expires disappears.", "quantifier": "every node state and every history of joins, leaves and expiries", "why_tests_cant": "all histories", "anchors": ["kiel/zookeeper/party.py:Party.join", "kiel/zookeeper/party.py:Party.leave"]}
{"id": "C59", "title": "The mapping always reflects the last notification", "statement": "After any sequence of membership and partition notifications the allocator's mapping is the allocator function applied to the sorted latest members and partitions, and the rebalance callback has run once per actual change.", "quantifier": "every sequence of notifications", "why_tests_cant": "all histories", "anchors": ["kiel/zookeeper/allocator.py:PartitionAllocator.on_group_members_change", "kiel/zookeeper/allocator.py:PartitionAllocator.on_partition_change", "kiel/zookeeper/allocator.py:PartitionAllocator.rebalance"]}
{"id": "C60", "title": "After start() the consumer has an allocation", "statement": "Once the allocator's start() future has resolved without error, reading the allocation does not raise.", "quantifier": "every interleaving of the zookeeper callback thread with start()", "why_tests_cant": "all interleavings", "anchors": ["kiel/zookeeper/allocator.py:PartitionAllocator.start", "kiel/zookeeper/allocator.py:PartitionAllocator.allocation"]}
{"id": "C61", "title": "Partitions can be added to and removed from the group", "statement": "add_partitions and remove_partitions, given a dictionary of topic names to lists of partition ids, add and remove exactly the items '<topic>:<partition>'.", "quantifier": "every dictionary", "why_tests_cant": "unbounded dictionaries", "anchors": ["kiel/zookeeper/allocator.py:PartitionAllocator.add_partitions", "kiel/zookeeper/allocator.py:PartitionAllocator.remove_partitions"]}
{"id": "C62", "title": "Startup and shutdown stop at the first failure", "statement": "start() and stop() run their steps in order, stop at the first step that fails and deliver exactly that exception through the returned future; if none fails the future resolves to None.", "quantifier": "every failure point", "why_tests_cant": "every combination of failing steps", "anchors": ["kiel/zookeeper/allocator.py:create_attempter", "kiel/zookeeper/allocator.py:PartitionAllocator.stop"]}
{"id": "C63", "title": "Error codes are unambiguous and classified as Kafka does", "statement": "Every known error code has its own name, errors.<name> is that code, and errors.retriable holds exactly the codes of the names listed as retriable; 'no error' is not among them.", "quantifier": "the whole table", "why_tests_cant": "a finite table checked completely", "anchors": ["kiel/constants.py:ERROR_CODES", "kiel/constants.py:RETRIABLE_CODES", "kiel/protocol/errors.py"]}
{"id": "C64", "title": "End to end: what is produced is what is consumed", "statement": "Messages put in a produce request, stored by a broker and returned by a fetch response are parsed by the consumer as the same keys and values in the same order, for each compression setting.", "quantifier": "every list of messages, every compression setting, every broker-assigned offsets", "why_tests_cant": "unbounded payloads through the whole encode/decode chain", "anchors": ["kiel/clients/producer.py:Producer.flush", "kiel/protocol/produce.py:PartitionRequest", "kiel/protocol/fetch.py:PartitionResponse", "kiel/protocol/messages.py:MessageSet"]}
{"id": "C65", "title": "Offsets that could not be determined are asked for again", "statement": "If a broker does not answer an offset request, or answers with a retriable error, a SingleConsumer does not fetch the partitions concerned before it has asked for their offsets again.", "quantifier": "every state and every pattern of failures", "why_tests_cant": "the failing partition is fetched from offset 0 only if nothing else set its offset; tests have one broker and no failure in this phase", "anchors": ["kiel/clients/single.py:SingleConsumer.handle_offset_response", "kiel/clients/consumer.py:BaseConsumer.consume"]}
{"id": "C66", "title": "A consumer finds its group's coordinator again when it moves", "statement": "If the broker a GroupedConsumer knows as its coordinator answers that it no longer is, consume finds the new coordinator and goes on.", "quantifier": "every cluster, every answer of the other brokers, any number of rounds", "why_tests_cant": "The mock brokers never move the coordinator; that a retry loop never ends cannot be observed by a test that ends.", "anchors": ["kiel/clients/grouped.py:GroupedConsumer.determine_offsets", "kiel/clients/grouped.py:GroupedConsumer.commit_offsets"]}
{"id": "C67", "title": "Losing the coordinator loses no messages", "statement": "If the coordinator does not answer an offset fetch or a commit, consume does not raise, and every message the consumer fetched is returned by some consume.", "quantifier": "every way a request can fail, every state", "why_tests_cant": "Needs a connection lost at one particular moment, between the fetch and the commit, and a look at what the next consume does.", "anchors": ["kiel/clients/grouped.py:GroupedConsumer.consume", "kiel/clients/grouped.py:GroupedConsumer.commit_offsets", "kiel/clients/client.py:Client.send"]}
{"id": "C68", "title": "Every compression setting that is accepted works", "statement": "A Producer accepts no compression, gzip and snappy and raises ValueError for anything else; with a setting it accepted, flush sends the queued messages.", "quantifier": "every setting, every installation, every queue of messages that fit a request", "why_tests_cant": "Snappy without python-snappy is a property of the installation; the test environment has it installed.", "anchors": ["kiel/clients/producer.py:Producer.__init__", "kiel/protocol/messages.py:MessageSet.compressed", "kiel/compression/snappy.py:compress"]}
{"id": "C69", "title": "Requests on the wire", "statement": "What the clients write to a connection is, byte for byte, the version 0 Kafka request the operation calls for: a metadata, coordinator, offset, offset fetch or offset commit request naming exactly the group, topics, partitions, times and offsets concerned; a fetch request for exactly the partitions the broker leads, at the consumer's offsets and within max_bytes; a produce request whose sets hold exactly the messages placed there, with the configured acknowledgements and timeout.", "quantifier": "all values that fit the fields, all clusters, queues and allocations", "why_tests_cant": "The tests compare attributes of request objects, or bytes of a few fixed requests; never the bytes of what flush or consume sends.", "anchors": ["kiel/clients/producer.py:Producer.flush", "kiel/clients/consumer.py:BaseConsumer.consume", "kiel/clients/single.py:SingleConsumer.determine_offsets", "kiel/clients/grouped.py:GroupedConsumer.commit_offsets", "kiel/protocol/request.py:Request.serialize", "kiel/connection.py:Connection.send"]}
{"id": "C70", "title": "Responses are read as the broker wrote them", "statement": "A response laid out as version 0 of the Kafka protocol prescribes is seen by the clients exactly as written: the same topics and partitions in the same order, with the same error codes, offsets, leaders, hosts and ports, whatever follows it in the buffer.", "quantifier": "all metadata, produce, fetch, offset, offset commit, offset fetch and coordinator responses whose values fit", "why_tests_cant": "The tests parse one fixed byte string per response class, and hand the clients ready-made response objects.", "anchors": ["kiel/protocol/response.py:Response.deserialize", "kiel/protocol/part.py:Part.parse", "kiel/clients/producer.py:Producer.handle_produce_response", "kiel/clients/single.py:SingleConsumer.handle_offset_response", "kiel/clients/grouped.py:GroupedConsumer.handle_offset_fetch_response", "kiel/cluster.py:Cluster.process_topics"]}
{"id": "C71", "title": "An unknown error code affects only its own partition", "statement": "When a response reports an error code the client does not know for one partition, what the response says about the other partitions is handled as usual.", "quantifier": "every response, every code outside the table, every position", "why_tests_cant": "The tests use codes of the table only.", "anchors": ["kiel/clients/consumer.py:BaseConsumer.handle_fetch_response", "kiel/clients/producer.py:Producer.handle_produce_response", "kiel/clients/single.py:SingleConsumer.handle_offset_response", "kiel/clients/grouped.py:GroupedConsumer.handle_offset_commit_response"]}
{"id": "C72", "title": "Closing releases every connection", "statement": "After close() of a Producer, a SingleConsumer or a GroupedConsumer every connection to a broker is closed.", "quantifier": "all client states, all outcomes of the final flush and of leaving the group", "why_tests_cant": "The tests close clients built on mocks whose flush and stop always succeed.", "anchors": ["kiel/clients/client.py:Client.close", "kiel/clients/producer.py:Producer.close", "kiel/clients/grouped.py:GroupedConsumer.close", "kiel/cluster.py:Cluster.stop"]}
{"id": "C73", "title": "Connections after heal()", "statement": "When heal() returns, every broker listed in the metadata it last saw has an open connection, to the host and port listed; any other connection is one that was open before.", "quantifier": "every metadata history, every pattern of connection failures", "why_tests_cant": "The tests check which connections are made for one metadata response; a broker that changes its address, or disappears and comes back within a heal, is never tried.", "anchors": ["kiel/cluster.py:Cluster.heal", "kiel/cluster.py:Cluster.process_brokers"]}
{"id": "C74", "title": "Corrupted messages are not delivered", "statement": "A message whose checksum does not match its content is not delivered to the application.", "quantifier": "every message set, every checksum", "why_tests_cant": "The tests parse intact message sets only.", "anchors": ["kiel/protocol/messages.py:Message.parse", "kiel/protocol/messages.py:MessageSet.parse"]}
{"id": "C75", "title": "Messages of a partition keep their order", "statement": "When partitions are chosen by key, the messages produced for a partition are handed over to the broker in the order in which produce accepted them.", "quantifier": "every history of produces, flushes, answers, failing requests and heals", "why_tests_cant": "The tests produce one or two messages to one partition and never look at their order across flushes.", "anchors": ["kiel/clients/producer.py:Producer.produce", "kiel/clients/producer.py:Producer.flush", "kiel/clients/producer.py:Producer.handle_produce_response"]}
{"id": "C76", "title": "Overlapping calls of consume neither repeat nor skip messages", "statement": "When consume is called again while earlier calls have not returned, the calls together return each message of a partition exactly once.", "quantifier": "every interleaving of calls, answers and returns, any topics, any logs", "why_tests_cant": "The tests wait for each consume before they make the next call.", "anchors": ["kiel/clients/consumer.py:BaseConsumer.consume", "kiel/clients/consumer.py:BaseConsumer.handle_fetch_response", "kiel/clients/client.py:Client.send"]}
{"id": "C77", "title": "A single consumer starts where the brokers say", "statement": "The offsets a SingleConsumer fetches from first are those its leaders report: an answer sets exactly the offsets of the partitions for which it reports one that is not negative, a retriable error makes the offsets be determined again and the cluster be healed, a fatal one raises NoOffsetsError.", "quantifier": "every answer, every state, every number of leaders and partitions", "why_tests_cant": "The tests answer for one partition with one offset or one error.", "anchors": ["kiel/clients/single.py:SingleConsumer.handle_offset_response", "kiel/clients/single.py:SingleConsumer.determine_offsets", "kiel/clients/consumer.py:BaseConsumer.consume"]}
{"id": "C78", "title": "Reported errors lead to a heal although sends overlap", "statement": "After a send of a client has seen an error that calls for healing the cluster, no send of the client returns before a heal has begun that began after the error - whatever other sends of the client are under way; and without such errors no heal begins.", "quantifier": "every number of sends under way and every interleaving of their steps", "why_tests_cant": "the flag is shared by all sends of a client; the outcome depends on how their steps interleave", "anchors": ["kiel/clients/client.py:Client.send"]}
{"id": "C79", "title": "No connection is lost track of", "statement": "At any time, every connection to a broker that was opened by a heal and is open is the one in use for some broker, so that stopping the cluster leaves no connection open.", "quantifier": "every interleaving of heals, connection failures, lost connections and a stop", "why_tests_cant": "needs several heals suspended at the right points", "anchors": ["kiel/cluster.py:Cluster.heal", "kiel/cluster.py:Cluster.process_brokers", "kiel/cluster.py:Cluster.stop"]}
{"id": "C80", "title": "Healing raises only for want of brokers", "statement": "A heal raises no exception other than that of asking for metadata, whatever else happens to the cluster meanwhile; and if nothing else happens, each of its rounds has the effect of a round run in one go.", "quantifier": "every interleaving of heals, connection failures and lost connections", "why_tests_cant": "needs several heals suspended at the right points", "anchors": ["kiel/cluster.py:Cluster.heal", "kiel/cluster.py:Cluster.process_brokers"]}
{"id": "C81", "title": "Equality of protocol structures agrees with their bytes", "statement": "A protocol structure that is written and read back equals the one written, and structures that are equal are written as the same bytes.", "quantifier": "every protocol class, every value its fields can take", "why_tests_cant": "the tests compare a few samples that hold text and lists only", "anchors": ["kiel/protocol/part.py:Part.__eq__", "kiel/protocol/messages.py:MessageSet.__eq__", "kiel/protocol/messages.py:Message.__eq__"]}
{"id": "C82", "title": "In a settled group each partition has one consumer", "statement": "Once every consumer in a group has been told its current members and partitions, each partition of the group is allocated to exactly one of its consumers, and nothing else is allocated.", "quantifier": "every number of consumers, every history of consumers joining, leaving, losing sessions and connections, and of partitions being added and removed, in any interleaving", "why_tests_cant": "the tests use one allocator with its zookeeper parts mocked; several consumers and their histories are never combined", "anchors": ["kiel/zookeeper/allocator.py:PartitionAllocator.rebalance", "kiel/zookeeper/allocator.py:PartitionAllocator.on_group_members_change", "kiel/zookeeper/allocator.py:PartitionAllocator.on_partition_change", "kiel/zookeeper/allocator.py:naive_allocator", "kiel/zookeeper/party.py:Party.join"]}
{"id": "C83", "title": "The partitions of a lost consumer are taken over", "statement": "When the zookeeper session of a consumer expires, then, once everybody concerned has been told, the consumer is allocated nothing and each partition of the group belongs to exactly one of the other consumers.", "quantifier": "every history before and after, any number of consumers, as long as the consumer does not join again", "why_tests_cant": "needs several consumers and expiring sessions", "anchors": ["kiel/zookeeper/allocator.py:PartitionAllocator.rebalance", "kiel/zookeeper/party.py:Party.join"]}
{"id": "C84", "title": "A consumer comes back after losing its session", "statement": "A consumer whose zookeeper session expired is a member of its group again once its connection is re-established.", "quantifier": "every history before and after", "why_tests_cant": "the tests call the connection handler with each state once and look at one flag", "anchors": ["kiel/zookeeper/allocator.py:PartitionAllocator.handle_connection_change", "kiel/zookeeper/allocator.py:PartitionAllocator.start", "kiel/zookeeper/party.py:Party.join"]}
{"id": "C85", "title": "Shared partitions change only while connected", "statement": "A consumer adds partitions to its group, or removes some, only while the last connection state it was told is that it is connected to zookeeper; in any other state the call waits and nothing changes.", "quantifier": "every sequence of connection states and other events", "why_tests_cant": "the tests set the flag by hand", "anchors": ["kiel/zookeeper/allocator.py:PartitionAllocator.add_partitions", "kiel/zookeeper/allocator.py:PartitionAllocator.remove_partitions", "kiel/zookeeper/allocator.py:PartitionAllocator.handle_connection_change", "kiel/events.py:wait_on_event"]}
{"id": "C86", "title": "A consumer that keeps consuming catches up", "statement": "A partition can be supplied with messages at or after its offset in at most as many consumes as there are messages ahead of it that can be deserialized; after that many, each of them has been returned (in order and exactly once if the log holds no compressed sets).", "quantifier": "every log, every way the broker cuts batches, every interleaving with other topics and partitions, failing brokers and skipped rounds included", "why_tests_cant": "the tests consume once or twice from canned responses", "anchors": ["kiel/clients/consumer.py:BaseConsumer.consume", "kiel/clients/consumer.py:BaseConsumer.handle_fetch_response"]}
{"id": "C87", "title": "Messages are never in two places and get lost only in flushes that raise", "statement": "At every point of every history each message accepted by produce() is, exactly once, waiting in the queue, kept for a request, settled by an answer, or lost; and a message that is lost was in the queue when a flush raised. Failing requests and answers whose handling raises lose and duplicate nothing.", "quantifier": "every interleaving of produce, flush, answers, connection failures and metadata changes, including flushes and answers that raise", "why_tests_cant": "needs exceptions in the middle of flushes and of the handling of answers, followed by further use", "anchors": ["kiel/clients/producer.py:Producer.flush", "kiel/clients/producer.py:Producer.handle_produce_response", "kiel/clients/producer.py:Producer.queue_retries"]}
{"id": "C88", "title": "Asking for metadata succeeds if a connected broker answers", "statement": "get_metadata returns a broker's answer if some broker that stays connected answers, whatever other coroutines do to the cluster while it waits; if it raises, then NoBrokersError or the exception of a request.", "quantifier": "every set of connections, every outcome of every request, every change of the connections while it waits", "why_tests_cant": "the tests use one coroutine and fixed connections", "anchors": ["kiel/cluster.py:Cluster.get_metadata", "kiel/cluster.py:Cluster.heal"]}
{"id": "C89", "title": "Trouble that fresh metadata may cure leads to fresh metadata", "statement": "If, during flush, consume, the determination of offsets or of the coordinator, or a commit, a request fails other than by its connection being closed, or is answered with a retriable error code (for the offsets of a group: one other than 'offsets load in progress'), and the call returns, then the cluster has been healed after those answers; so also if flush returns and leaves messages in its queue. Without such trouble, nothing is healed. If the healing itself raises, the next call heals.", "quantifier": "every client, every set of answers and failures in every order, every effect of healing", "why_tests_cant": "the tests trigger single codes on single calls and look at a flag", "anchors": ["kiel/clients/client.py:Client.send", "kiel/clients/consumer.py:BaseConsumer.handle_fetch_response", "kiel/clients/producer.py:Producer.flush", "kiel/clients/grouped.py:GroupedConsumer.handle_offset_commit_response"]}
{"id": "C90", "title": "Connecting makes a group consumer ready", "statement": "connect() of a group consumer starts its cluster, then its allocator, then looks for the coordinator; the first failure is what it raises, and nothing after it is begun. When it returns, the cluster is in sync with metadata from a broker, every partition with a leader (and no other) has been offered to the group, the consumer's share of the partitions can be read, and its coordinator is known.", "quantifier": "every list of hosts, every answer and failure of brokers and zookeeper, every order of zookeeper's notifications", "why_tests_cant": "the tests mock the allocator and all answers; the state right after connect in a new group is never looked at", "anchors": ["kiel/clients/grouped.py:GroupedConsumer.connect", "kiel/clients/client.py:Client.connect", "kiel/zookeeper/allocator.py:PartitionAllocator.start"]}
{"id": "C91", "title": "Healing ends when there is nothing left to wait for", "statement": "heal() is over at most two rounds after the point from which on every listed broker can be connected to and no answer leaves a topic for another look; if some broker can be reached and answers throughout, it then returns, in sync with metadata it saw. As long as a listed broker cannot be connected to, or a topic asked about has a partition without a leader or lacks replicas, it does not return - nor does connect(), even if the client has no use for that topic.", "quantifier": "every sequence of metadata answers, every pattern of connection failures, any number of rounds", "why_tests_cant": "the tests script one or two rounds; that the loop never ends for certain answers cannot be observed by running it", "anchors": ["kiel/cluster.py:Cluster.heal", "kiel/cluster.py:Cluster.start", "kiel/cluster.py:Cluster.process_brokers", "kiel/cluster.py:Cluster.process_topics"]}
{"id": "C92", "title": "Producing without acknowledgements does not wait for answers", "statement": "With required_acks=0, for which brokers send no answer, a produce request is over once it is written: send()'s future is settled, and flush() returns.", "quantifier": "every history of a healthy connection on which the request is not answered", "why_tests_cant": "the tests' connections answer every request, whatever its required_acks", "anchors": ["kiel/connection.py:Connection.send", "kiel/connection.py:Connection.read_loop", "kiel/clients/producer.py:Producer.flush"]}
{"id": "C93", "title": "JSON messages survive the default serializers", "statement": "A message made of None, booleans, integers, finite floats, strings, lists and dictionaries with string keys, produced with the default serializer and returned in a fetch response, is returned by a consumer with the default deserializer as an equal message; messages keep their order. Equal messages whose numbers have the same types are serialized to the same text, in whatever order the entries of their dictionaries were added.", "quantifier": "every such message and list of messages, every key, compression setting and broker-assigned offset", "why_tests_cant": "the tests replace the wire by canned structures; no test passes a message through both serializers, and round trips of a few messages say nothing about escapes, nesting or number formats they do not contain", "anchors": ["kiel/clients/producer.py:Producer.__init__", "kiel/clients/consumer.py:BaseConsumer.__init__"]}
{"id": "C94", "title": "The shared set's data is read back as the set that was written", "statement": "What add_items and remove_items write to the set's node is read by every client as exactly the set they meant to store; a node without data is the empty set; data that is not a list of strings is left alone. Calls one after the other have the effect of the operations on sets.", "quantifier": "every set of strings, every sequence of calls, every text in the node", "why_tests_cant": "the tests mock zookeeper and use two or three ASCII items", "anchors": ["kiel/zookeeper/shared_set.py:SharedSet.serialize", "kiel/zookeeper/shared_set.py:SharedSet.deserialize", "kiel/zookeeper/shared_set.py:SharedSet.add_items", "kiel/zookeeper/shared_set.py:SharedSet.remove_items"]}
{"id": "C95", "title": "A process can go on sending requests for as long as it lives", "statement": "However many requests a process has created, the next one can be serialized and sent: its correlation id fits the four bytes it has on the wire.", "quantifier": "every machine, process id, number and kind of requests", "why_tests_cant": "a test cannot create two billion requests", "anchors": ["kiel/protocol/request.py:generate_correlation_id", "kiel/protocol/request.py:Request.serialize", "kiel/connection.py:Connection.send"]}
{"id": "C96", "title": "No message below a committed offset is lost to the group", "statement": "Every message of a partition between the offset at which the group began and an offset committed by a member has been returned by a consume of some member (unless it cannot be deserialized or is false to Python), however partitions change hands and members fail and are replaced.", "quantifier": "every number of members, every interleaving of their consumes, commits, rebalances, crashes and restarts; every log (compressed sets included), batch size, broker answer and lost connection", "why_tests_cant": "needs histories of several consumers over several rebalances; the tests drive single calls of one consumer against mocks", "anchors": ["kiel/clients/grouped.py:GroupedConsumer.consume", "kiel/clients/grouped.py:GroupedConsumer.commit_offsets", "kiel/clients/grouped.py:GroupedConsumer.determine_offsets", "kiel/clients/consumer.py:BaseConsumer.consume"]}
{"id": "C97", "title": "A connection carries a conversation faithfully, however the bytes are cut", "statement": "Requests with different correlation ids are sent over one connection; the broker answers some of them, in any order, each after it was sent, as documented for its api. However TCP cuts the answers into pieces, and whatever is sent in between: at any time the bytes written are the requests in order, each with its length in front; a request has its answer as result exactly if that answer has completely arrived; every other request is still pending; the connection is open.", "quantifier": "every number and kind of requests, every order of answers, every division of the bytes into pieces, every interleaving of sends and pieces", "why_tests_cant": "the tests feed whole frames, one at a time, for one outstanding request", "anchors": ["kiel/connection.py:Connection.send", "kiel/connection.py:Connection.read_loop", "kiel/connection.py:Connection.read_message"]}
{"id": "C98", "title": "Once the trouble is over, one flush delivers everything", "statement": "However often flushes found leaders unconnected or were answered with retriable errors, and whatever was produced and changed in the cluster in between: every message accepted is in the queue or has been handed over to a connected leader that answered for good, exactly once; and the next flush during which all leaders are connected and no answer is retriable hands over all the rest and leaves nothing queued.", "quantifier": "every history of produce calls, cluster changes and flushes all of whose requests are answered; every partitioner (also random ones), every order of answers, every mixture of error codes", "why_tests_cant": "the tests flush once; retries over several flushes with changing leaders are not exercised", "anchors": ["kiel/clients/producer.py:Producer.flush", "kiel/clients/producer.py:Producer.handle_produce_response", "kiel/clients/producer.py:Producer.queue_retries", "kiel/clients/client.py:Client.send"]}
{"id": "C99", "title": "What is produced is consumed, exactly once", "statement": "A producer and a consumer work side by side against brokers that store what they acknowledge and serve what they have stored; flushes may be refused with retriable errors, leaders lost, fetches fail, and other producers may store messages in between. At any time the consumer has returned only messages that were accepted or stored by others since it began, none more often than it was made; and when the producer's queue is empty and the consumer has nothing ahead, it has returned all of them that can be deserialized and are not false to Python, each exactly once. One flush without trouble and enough fetches get there.", "quantifier": "every interleaving of produce calls, flushes, cluster changes, foreign messages and consume calls; every partitioner, serializer and deserializer; every choice of offsets and batch sizes by the brokers", "why_tests_cant": "the tests exercise the producer and the consumer separately, against canned responses; none sends what a producer wrote to a consumer", "anchors": ["kiel/clients/producer.py:Producer.produce", "kiel/clients/producer.py:Producer.flush", "kiel/clients/consumer.py:BaseConsumer.consume", "kiel/clients/consumer.py:BaseConsumer.handle_fetch_response"]}
{"id": "C100", "title": "A group that commits before it is rebalanced returns every message exactly once", "statement": "The members of a group consume and commit in any interleaving; fetches and commits may fail, coordinators move; the group is rebalanced, with members and shares changing at will, only while no member has anything to commit and such that no two are to consume the same partition (as is the case once all have been told what the group consists of). Then at any time the messages returned by all members together are, partition by partition and in the partition's order, exactly those between the offset at which the group began and the one at which it stands now (without those that cannot be deserialized or are false to Python), each once; and while nothing waits to be committed, it stands at the offset that the coordinator has.", "quantifier": "every number of members, topics and partitions; every interleaving of consumes, commits and rebalances; every batch size, broker answer and lost connection during requests; every partial failure of commits", "why_tests_cant": "needs histories of several consumers over several rebalances with a coordinator that remembers; the tests drive single calls of one consumer against mocks", "anchors": ["kiel/clients/grouped.py:GroupedConsumer.consume", "kiel/clients/grouped.py:GroupedConsumer.commit_offsets", "kiel/clients/grouped.py:GroupedConsumer.determine_offsets", "kiel/clients/grouped.py:GroupedConsumer.handle_offset_commit_response", "kiel/clients/consumer.py:BaseConsumer.consume", "kiel/zookeeper/allocator.py:PartitionAllocator.rebalance"]}
{"id": "C101", "title": "What is produced is consumed by a group, exactly once", "statement": "A producer and the members of a consumer group work at the same time, against brokers that store what they acknowledge and serve what they have stored, while other producers' messages are stored, too. Flushes may be refused with retriable errors, leaders may be lost, fetches and commits may fail, and the group may be rebalanced whenever nothing waits to be committed. At any time the members together have returned only messages that the producer accepted or others stored since the group's offsets were at the ends of the logs, none more often than it was made. Once the producer's queue is empty and nothing lies ahead of where the group stands, they have returned all of them (that can be deserialized and are not false to Python), each exactly once. A single flush without trouble empties the queue, and each consume that is supplied with what lies ahead leaves less ahead, whoever consumes.", "quantifier": "every interleaving of produces, flushes, foreign messages, consumes, commits and rebalances; every number of members, topics, partitions and messages; every batch size and every pattern of retriable failures", "why_tests_cant": "an end-to-end property of producer, brokers and several consumers over time; the tests have no brokers that remember and drive one client at a time", "anchors": ["kiel/clients/producer.py:Producer.produce", "kiel/clients/producer.py:Producer.flush", "kiel/clients/producer.py:Producer.handle_produce_response", "kiel/clients/grouped.py:GroupedConsumer.consume", "kiel/clients/grouped.py:GroupedConsumer.commit_offsets", "kiel/clients/grouped.py:GroupedConsumer.determine_offsets", "kiel/clients/consumer.py:BaseConsumer.consume"]}
{"id": "C102", "title": "A commit covers only what has been returned, although calls overlap", "statement": "With autocommit off, whatever consumes and commit_offsets are under way at the same time: the positions that commit_offsets sends to the coordinator cover only messages that some consume has returned to the application (or that cannot be deserialized or are false to Python); with autocommit on, only those and what the consumes that are committing are about to return.", "quantifier": "every interleaving, at every point where a coroutine yields, of any number of consumes of any topics and of commit_offsets, their answers and failures; every assignment of partitions to brokers and every batch, with compressed sets or without", "why_tests_cant": "the tests never start a second call while one is under way", "anchors": ["kiel/clients/grouped.py:GroupedConsumer.consume", "kiel/clients/grouped.py:GroupedConsumer.commit_offsets", "kiel/clients/grouped.py:GroupedConsumer.handle_offset_commit_response", "kiel/clients/consumer.py:BaseConsumer.handle_fetch_response"]}
{"id": "C103", "title": "When commit_offsets returns, what had been returned before the call is committed, although calls overlap", "statement": "Whatever consumes and other commits are under way at the same time: when a call of commit_offsets returns, the coordinator has acknowledged, for every partition allocated to the consumer of a topic of which a consume had returned messages before that call, a position at least as far as the consumer had got by then (unless it answered with an error that is not to be tried again).", "quantifier": "every interleaving, at every point where a coroutine yields, of any number of consumes of any topics and of commits, their answers, failures and repetitions", "why_tests_cant": "the tests never start a second call while one is under way", "anchors": ["kiel/clients/grouped.py:GroupedConsumer.commit_offsets", "kiel/clients/grouped.py:GroupedConsumer.handle_offset_commit_response", "kiel/clients/grouped.py:GroupedConsumer.consume"]}
{"id": "C104", "title": "First calls of consume that overlap return an unbroken stretch of each partition", "statement": "Whatever calls of consume of one SingleConsumer are under way at the same time, first ones of their topics, which determine where to start, and later ones: the messages returned of each partition are those of its log from the offset the broker reported for it on, each once, in order and without gaps (less those that cannot be deserialized or are false to Python).", "quantifier": "every interleaving, at every point where a coroutine yields, of any number of consumes, their offset requests, answers with success, retriable and other errors, failures, fetches, and heals", "why_tests_cant": "the tests never start a second call while one is under way", "anchors": ["kiel/clients/consumer.py:BaseConsumer.consume", "kiel/clients/single.py:SingleConsumer.determine_offsets", "kiel/clients/single.py:SingleConsumer.handle_offset_response", "kiel/clients/consumer.py:BaseConsumer.handle_fetch_response", "kiel/clients/client.py:Client.send"]}
{"id": "C105", "title": "Every call ends once, although calls overlap", "statement": "Whatever calls are under way at the same time, every call of send, of consume (of either kind of consumer), of commit_offsets, and of produce, flush and close of a producer ends at most once, by returning or by raising, and nothing that happens to other calls ends it or keeps it from ending: once its own requests have been answered or have failed, and heal(), if it calls it, is done, it ends (as long as the coordinator does not ask for another try).", "quantifier": "every interleaving, at every point where a coroutine yields, of any number of calls, and whatever their requests come to", "why_tests_cant": "the tests never start a second call while one is under way", "anchors": ["kiel/clients/client.py:Client.send", "kiel/clients/consumer.py:BaseConsumer.consume", "kiel/clients/single.py:SingleConsumer.determine_offsets", "kiel/clients/grouped.py:GroupedConsumer.consume", "kiel/clients/grouped.py:GroupedConsumer.determine_offsets", "kiel/clients/grouped.py:GroupedConsumer.commit_offsets", "kiel/clients/producer.py:Producer.produce", "kiel/clients/producer.py:Producer.flush", "kiel/clients/client.py:Client.close"]}
{"id": "C106", "title": "A member of a group returns each message once, although calls overlap", "statement": "Whatever calls of consume and commit_offsets of one GroupedConsumer are under way at the same time, while the group is not rebalanced: the messages returned of each partition are those of its log from the group's offset that the coordinator reported on, each once, in order and without gaps (less those that cannot be deserialized or are false to Python).", "quantifier": "every interleaving, at every point where a coroutine yields, of any number of calls of consume (the first ones of their topics and later ones) and of commit_offsets, whatever their requests come to, with and without automatic commits, and all logs", "why_tests_cant": "the tests never start a second call while one is under way", "anchors": ["kiel/clients/grouped.py:GroupedConsumer.consume", "kiel/clients/grouped.py:GroupedConsumer.determine_offsets", "kiel/clients/grouped.py:GroupedConsumer.handle_offset_fetch_response", "kiel/clients/grouped.py:GroupedConsumer.commit_offsets", "kiel/clients/consumer.py:BaseConsumer.consume", "kiel/clients/consumer.py:BaseConsumer.handle_fetch_response", "kiel/clients/client.py:Client.send"]}
{"id": "C107", "title": "A flush sees everything through that was accepted before it, although calls overlap", "statement": "Whatever calls of produce, flush and close of one producer are under way at the same time: when a flush returns, every message accepted before it was called has been answered for, is in the queue again (its leader not being connected, or the answer reporting an error to be retried), or was in a request that failed.", "quantifier": "every interleaving, at every point where a coroutine yields, of any number of calls of produce, flush and close, their answers, failures and heals, and changes of the cluster in between", "why_tests_cant": "the tests never start a second call while one is under way", "anchors": ["kiel/clients/producer.py:Producer.produce", "kiel/clients/producer.py:Producer.flush", "kiel/clients/producer.py:Producer.handle_produce_response", "kiel/clients/client.py:Client.send"]}
{"id": "C108", "title": "A closed producer is at rest, although calls overlap", "statement": "Whatever calls of produce and close of one producer are under way at the same time: when close returns, no request is outstanding and every connection is being closed; from then on nothing is accepted, queued or sent and the cluster is not healed, whatever is produced.", "quantifier": "every interleaving, at every point where a coroutine yields, of close with any number of calls of produce, their answers, failures and heals, and changes of the cluster in between", "why_tests_cant": "the tests never start a second call while one is under way", "anchors": ["kiel/clients/producer.py:Producer.produce", "kiel/clients/producer.py:Producer.wind_down", "kiel/clients/producer.py:Producer.flush", "kiel/clients/client.py:Client.close", "kiel/clients/client.py:Client.send", "kiel/cluster.py:Cluster.stop"]}
{"id": "C109", "title": "No message is stored twice", "statement": "However calls of produce, flush and close overlap, whatever they raise, and whichever requests fail or are left without an answer although a broker received them: the brokers store no message more often than it was accepted.", "quantifier": "every interleaving, at every point where a coroutine yields, of any number of calls of produce, flush and close, every answer, failure and exception, every partitioner and compression, and every choice of the brokers to store or not to store what they gave no answer for", "why_tests_cant": "the brokers of the tests answer each request once, and nothing is counted on their side", "anchors": ["kiel/clients/producer.py:Producer.produce", "kiel/clients/producer.py:Producer.flush", "kiel/clients/producer.py:Producer.handle_produce_response", "kiel/clients/producer.py:Producer.queue_retries", "kiel/clients/client.py:Client.send", "kiel/constants.py:RETRIABLE_CODES"]}
{"id": "C110", "title": "What is produced is consumed exactly once, although calls overlap", "statement": "A producer whose calls of produce, flush and close overlap, and a consumer whose calls of consume overlap, no two for the same topic, and brokers that store each partition of a request at most once, at any time, and answer without an error if it is stored and with an error that says that it is not otherwise, if they answer: at any time the consumer has returned, or will return from the calls under way, only messages accepted by the producer or stored by others meanwhile, none more often than it was made; and once no flush has raised, the producer has nothing queued and no request unanswered, and the consumer has read to the end, it has returned all of them that can be deserialized and are not false to Python, each exactly once.", "quantifier": "every interleaving of the producer's calls, the brokers' storing and answering, other producers' messages and the consumer's calls, every failure, refusal and unanswered request, every partitioner and compression; consumes that do not raise, uncompressed fetches", "why_tests_cant": "the tests have a producer or a consumer, never both, and canned answers", "anchors": ["kiel/clients/producer.py:Producer.produce", "kiel/clients/producer.py:Producer.flush", "kiel/clients/producer.py:Producer.handle_produce_response", "kiel/clients/consumer.py:BaseConsumer.consume", "kiel/clients/consumer.py:BaseConsumer.handle_fetch_response", "kiel/clients/client.py:Client.send"]}
{"id": "C111", "title": "JSON written by others is read as what it denotes", "statement": "From every text that is JSON by RFC 8259 (white space anywhere between tokens, characters as themselves or by any of their escapes, numbers in any notation, members in any order; of several members with the same name the last counts), or that has NaN, Infinity or -Infinity in place of a number, a consumer with the default deserializer makes the value that the text denotes; from any other text (or from a message without value) it makes none. From what a broker serves it returns what the JSON among it denotes, in order. A JSON array that any client wrote to a shared set's node is read as the set of its items; with other text than JSON in the node, add_items and remove_items raise ValueError and leave it as it is. Escapes for lone surrogates aside.", "quantifier": "every text; every served message set, compressed or not; every grammatical derivation", "why_tests_cant": "the tests deserialize what json.dumps wrote, a few short objects", "anchors": ["kiel/clients/consumer.py:BaseConsumer.__init__", "kiel/clients/consumer.py:BaseConsumer.deserialize_messages", "kiel/clients/consumer.py:BaseConsumer.handle_fetch_response", "kiel/zookeeper/shared_set.py:SharedSet.deserialize"]}
{"id": "C112", "title": "A group whose members' calls overlap returns every message exactly once", "statement": "The members of a consumer group call consume (of different topics, within a member) and commit_offsets so that the calls overlap, within a member and between members; the coordinator reports the offsets it has and stores those it is asked to store; brokers serve the logs; no consume raises that has fetched or waits for messages; the group is rebalanced only while no call is under way and the coordinator has the offsets at which the members are, and no two members are assigned the same partition. Then what the members' consumes have returned, followed by what the calls under way have fetched and will return, is an interleaving of the partitions' messages from the group's first offset to the one where the group stands, each once and in order, whoever consumed it (less those that cannot be deserialized or are false to Python). Once no call is under way and the group stands at the ends of the logs, all messages have been returned exactly once. That no member has anything left to commit does not do instead of the coordinator having the offsets.", "quantifier": "every number of members, every interleaving of their calls, every history of rebalances and commits, every log", "why_tests_cant": "the tests run one consumer, one call at a time, against mocked responses", "anchors": ["kiel/clients/grouped.py:GroupedConsumer.consume", "kiel/clients/grouped.py:GroupedConsumer.commit_offsets", "kiel/clients/grouped.py:GroupedConsumer.determine_partition_ids", "kiel/clients/grouped.py:GroupedConsumer.set_offsets", "kiel/clients/grouped.py:GroupedConsumer.determine_offsets", "kiel/clients/consumer.py:BaseConsumer.consume"]}
{"id": "C113", "title": "What is produced is consumed exactly once by a group whose members' calls overlap", "statement": "A producer's calls of produce, flush and close overlap; brokers store requests at any time, once, and answer truthfully or not at all; other producers' messages are stored as well. The members of a consumer group call consume (of different topics, within a member) and commit_offsets, overlapping, and the group is rebalanced while no call of the members is under way and the coordinator has the offsets at which they are; no consume raises that has fetched or waits for messages. Then what the members have returned, together with what their calls under way have fetched and will return, is made of messages accepted by the producer or stored by others since it began, none more often than it was made. If besides no flush raised, the producer has nothing queued or unanswered and nothing is ahead of where the group stands, it is all of them, each exactly once (less those that cannot be deserialized or are false to Python).", "quantifier": "every interleaving of the calls of a producer and any number of group members, every pattern of failures, every history of rebalances", "why_tests_cant": "the tests have neither producer and consumer together, nor groups, nor overlapping calls", "anchors": ["kiel/clients/producer.py:Producer.produce", "kiel/clients/producer.py:Producer.flush", "kiel/clients/producer.py:Producer.close", "kiel/clients/producer.py:Producer.handle_produce_response", "kiel/clients/grouped.py:GroupedConsumer.consume", "kiel/clients/grouped.py:GroupedConsumer.commit_offsets", "kiel/clients/grouped.py:GroupedConsumer.determine_offsets"]}
{"id": "C114", "title": "No message before a committed offset is lost to a group whose members' calls overlap", "statement": "The members of a consumer group call consume (of the same topic or different ones) and commit_offsets so that the calls overlap in any way; the coordinator reports any offset that it was asked to store, early or late; a member is rebalanced at any time while none of its consumes waits for messages or looks the cluster up, whatever other calls are under way and whether or not anything was committed, shares may overlap; a member may be lost while its calls hold no messages; no consume raises that has fetched or waits for messages. Then every message before an offset that any member asked the coordinator to store, or before the offset at which any member is, has been returned by a consume of some member, or is held by a call under way that will return it (unless it cannot be deserialized or is false to Python). Once no call is under way they have all been returned. A rebalance while a consume waits for messages loses messages for good, even with nothing left to commit, and so does one while a consume looks the cluster up.", "quantifier": "every number of members, every interleaving of their calls, every history of rebalances, commits, losses and answers of the coordinator, every log", "why_tests_cant": "the tests have one member and never overlap calls or rebalance during one", "anchors": ["kiel/clients/grouped.py:GroupedConsumer.consume", "kiel/clients/grouped.py:GroupedConsumer.commit_offsets", "kiel/clients/grouped.py:GroupedConsumer.determine_offsets", "kiel/clients/grouped.py:GroupedConsumer.handle_offset_fetch_response", "kiel/clients/grouped.py:GroupedConsumer.allocation", "kiel/clients/consumer.py:BaseConsumer.consume"]}
{"id": "C115", "title": "JSON is read in whichever Unicode encoding it is", "statement": "A message whose value is JSON in UTF-8, UTF-16 or UTF-32, of either byte order, with or without a byte order mark, is read by a consumer with the default deserializer as the value it denotes; of any other bytes no value is made. (False of the code in two ways: the protocol layer turns bytes that are UTF-8 into text before the deserializer sees them, so JSON in UTF-16 or UTF-32 without a mark is skipped whenever its bytes happen to be UTF-8, in particular if it is all ASCII, and UTF-8 with a mark is always skipped; json.loads itself would read both. Everything else is read.)", "quantifier": "every JSON text; every encoding; every byte string; every served message set", "why_tests_cant": "the tests deserialize ASCII text", "anchors": ["kiel/clients/consumer.py:BaseConsumer.__init__", "kiel/clients/consumer.py:BaseConsumer.deserialize_messages", "kiel/protocol/primitives.py:VariablePrimitive.parse"]}
{"id": "C116", "title": "Nothing produced is lost to a group whose members' calls overlap and that is rebalanced meanwhile", "statement": "A producer's calls of produce, flush and close overlap; brokers store requests at any time, once, and answer truthfully or not at all; other producers' messages are stored as well. The members of a consumer group call consume (of the same topic or different ones) and commit_offsets so that the calls overlap in any way; the coordinator reports any offset that it was asked to store; a member is rebalanced at any time while none of its consumes waits for messages or looks the cluster up, and may be lost while its calls hold no messages; no consume raises that has fetched or waits for messages. If no flush raised, the producer has nothing queued or unanswered, and for every partition some member's offset or some offset that a member asked to be stored is past all messages, then every message accepted by the producer or stored by others since it began has been returned by a consume of some member or is held by a call under way that will return it (unless it cannot be deserialized or is false to Python); once no call is under way all have been returned.", "quantifier": "every interleaving of the calls of a producer and any number of group members, every pattern of failures, every history of rebalances, commits, losses and answers of the coordinator", "why_tests_cant": "the tests have one member, mock the producer's and the consumer's brokers apart and never overlap calls or rebalance during one", "anchors": ["kiel/clients/producer.py:Producer.produce", "kiel/clients/producer.py:Producer.flush", "kiel/clients/producer.py:Producer.close", "kiel/clients/producer.py:Producer.handle_produce_response", "kiel/clients/grouped.py:GroupedConsumer.consume", "kiel/clients/grouped.py:GroupedConsumer.commit_offsets", "kiel/clients/grouped.py:GroupedConsumer.determine_offsets"]}
{"id": "C117", "title": "Consumers return only what is stored, whatever else happens", "statement": "Suppose only that a broker answers a fetch with a response about the topic it was asked about and that messages it reports without an error are stored in that topic's logs: any of them, in any order, any number of times, of any partitions, from any offset. Whatever the coordinator and ZooKeeper answer, whatever fails, however calls of consume and commit_offsets overlap, whoever is rebalanced, lost or replaced and whenever, every value returned by consume of a topic (or held by a call under way) is the deserialized value of a message stored for that topic, and is not false to Python. With producers whose calls overlap as well, what a group returns was made by some accepted produce, by another producer, or was stored before.", "quantifier": "every interleaving of calls of any number of members, every history of rebalances, losses, failures and answers (also wrong offsets, duplicates, reordered or repeated answers); custom deserializers", "why_tests_cant": "the tests mock a few well-behaved answers and never overlap calls or change shares while messages are under way", "anchors": ["kiel/clients/consumer.py:BaseConsumer.consume", "kiel/clients/consumer.py:BaseConsumer.handle_fetch_response", "kiel/clients/grouped.py:GroupedConsumer.consume", "kiel/clients/grouped.py:GroupedConsumer.determine_offsets", "kiel/clients/single.py:SingleConsumer.determine_offsets", "kiel/clients/producer.py:Producer.produce"]}
{"id": "C118", "title": "Messages of one partition are consumed in the order in which they were produced", "statement": "When partitions are chosen by key, no answer to the producer reports a retriable error for the partition, and its brokers store the requests for the partition that they do store in the order in which they were sent, then what a consumer returns of the partition (with what its calls under way have fetched) is in order: what was stored before; then some of what the producer accepted for the partition, in the order in which produce accepted it; and between those what others store, in the order in which they do. The producer's calls of produce, flush and close overlap and may raise, requests fail or go unanswered; the consumer's calls overlap too, no two of them for the same topic.", "quantifier": "every interleaving of the producer's calls, the brokers' storing and answering, other producers' messages and the consumer's calls; every key function, serializer, compression and deserializer; consumers on their own, SingleConsumers with their first calls, members of groups with rebalances when no call is under way; consumes that do not raise, uncompressed fetches", "why_tests_cant": "the tests never run a producer and a consumer against the same partition, nor more than one request in flight", "anchors": ["kiel/clients/producer.py:Producer.produce", "kiel/clients/producer.py:Producer.flush", "kiel/clients/producer.py:Producer.handle_produce_response", "kiel/clients/consumer.py:BaseConsumer.consume", "kiel/clients/consumer.py:BaseConsumer.handle_fetch_response", "kiel/clients/single.py:SingleConsumer.determine_offsets", "kiel/clients/grouped.py:GroupedConsumer.consume"]}
{"id": "C119", "title": "A consumer gets through its partitions although brokers limit the size of what they send", "statement": "When brokers send as many of the stored bytes of each partition as the fetch request asks for, cutting off within a message where that falls, then consume returns stored messages only, each once and in order, and after as many answers as there are messages it has returned them all.", "quantifier": "every content of the partitions, division of them among leaders, byte limit, offsets and course of consumes, with requests failing in between", "why_tests_cant": "the tests never serve a message set that is cut off, nor more than one partition from stored bytes", "anchors": ["kiel/clients/consumer.py:BaseConsumer.consume", "kiel/clients/consumer.py:BaseConsumer.handle_fetch_response", "kiel/protocol/messages.py:MessageSet.parse", "kiel/protocol/fetch.py:FetchResponse"]}
{"id": "C120", "title": "A producer keeps no messages but those queued and those of requests still to be answered", "statement": "At every moment the producer holds on to a message only while it is queued or belongs to a request whose answer is still awaited; when none of its calls is under way and its queue is empty, it holds on to none.", "quantifier": "every producer configuration, cluster and course of overlapping produce, flush and close calls, with any requests answered, failing or unwritable", "why_tests_cant": "tests make a handful of calls and look at what is kept after one answer; a leak shows only in the long run", "anchors": ["kiel/clients/producer.py:Producer.flush", "kiel/clients/producer.py:Producer.handle_produce_response", "kiel/clients/client.py:Client.send"]}
{"id": "C121", "title": "A connection keeps a record of exactly those requests that are still to be answered", "statement": "At every moment an open connection remembers the request ids and futures of exactly the requests whose answers are still to come; a request that brokers do not answer is forgotten at some time, and a connection that is lost remembers nothing.", "quantifier": "every history of sends, write completions, answers, errors, aborts and closes of a connection", "why_tests_cant": "tests send one or two requests over one connection; an entry never removed shows only in the long run", "anchors": ["kiel/connection.py:Connection.send", "kiel/connection.py:Connection.read_loop", "kiel/connection.py:Connection.abort", "kiel/connection.py:Connection.socket_error_handling"]}
{"id": "C122", "title": "A consumer that has no partitions of a topic gets no messages of it, and no error", "statement": "A member of a consumer group that has been given no partitions of a topic (there are more members than partitions) can call consume for it: nothing is fetched, and the call returns an empty list, whichever partition allocator the group uses; after a rebalance that gives it partitions it goes on with those.", "quantifier": "every consumer, share, topic, allocator and response of the coordinator and the brokers", "why_tests_cant": "tests use the default allocator and topics of which the consumer has partitions", "anchors": ["kiel/clients/grouped.py:GroupedConsumer.determine_offsets", "kiel/clients/grouped.py:GroupedConsumer.consume", "kiel/clients/consumer.py:BaseConsumer.consume", "kiel/zookeeper/allocator.py:PartitionAllocator.allocation"]}
{"id": "C123", "title": "Requests and responses can be shown with all their attributes", "statement": "repr() of any response that was read from a broker, and of any request that can be serialized, returns text in which all attributes stand with their names and values, in the order of their declaration, down to the keys and values of the messages of message sets; bytes that are not text are shown as literals that denote them.", "quantifier": "every response class and byte string that can be read as one; every request value that can be serialized", "why_tests_cant": "tests call repr() of two messages, a string and an array; a repr() that raises shows when something is logged or debugged", "anchors": ["kiel/protocol/part.py:Part.__repr__", "kiel/protocol/messages.py:MessageSet.__repr__", "kiel/protocol/messages.py:Message.__repr__"]}
{"id": "C124", "title": "A message that cannot be keyed or serialized is refused, and no other suffers", "statement": "produce() of a message for which the key maker or the serializer raises raises that exception; nothing is sent or queued, and nothing that was queued or in flight is lost. Every later flush sends, to each leader, for each topic and partition, the messages it would have sent had that call not been made, in the same order.", "quantifier": "every producer state, every key maker and serializer, every sequence of calls, every partitioner that goes by key and partitions, every cluster view", "why_tests_cant": "tests call produce with the default key maker and messages that can be serialized; a message half-queued would be seen in a later flush only", "anchors": ["kiel/clients/producer.py:Producer.produce", "kiel/clients/producer.py:Producer.flush", "docs/clients/producer.rst"]}
{"id": "C125", "title": "Consumers of a group are told apart", "statement": "No two consumers of a group that exist at the same time have the same name, so that each partition of the group belongs to exactly one of them once all have been told the group's members and partitions.", "quantifier": "every set of consumers on any hosts, in any processes, and every history of their group", "why_tests_cant": "tests construct one consumer; equal names need two processes on a host", "anchors": ["kiel/clients/consumer.py:BaseConsumer.__init__", "kiel/zookeeper/allocator.py:PartitionAllocator.__init__", "kiel/zookeeper/party.py:Party.join", "kiel/zookeeper/party.py:Party.leave"]}
{"id": "C126", "title": "Groups are kept apart in ZooKeeper", "statement": "What the consumers of a group take for its members are exactly its consumers that have joined, and its partitions and its lock are its own, whatever other groups use the same ZooKeeper.", "quantifier": "every set of groups and consumers, every group name", "why_tests_cant": "tests use one group and mock ZooKeeper", "anchors": ["kiel/zookeeper/allocator.py:PartitionAllocator.members_path", "kiel/zookeeper/allocator.py:PartitionAllocator.partition_path", "kiel/zookeeper/shared_set.py:SharedSet.lock_path", "kiel/zookeeper/party.py:Party.join"]}
{"id": "C127", "title": "Bootstrap hosts are tried in order, at the port that is given with each", "statement": "A client that is started tries the bootstrap hosts it was given, in order, each at the port written after its colon and at Kafka's port 9092 when there is none. The first that can be connected to is asked for the metadata, and its answer decides: the client is healed with it, or start() raises the exception of the request. If none can be connected to, start() raises NoBrokersError.", "quantifier": "For all lists of bootstrap hosts (names or addresses), all ports, and all behaviours of hosts when they are connected to and asked.", "why_tests_cant": "Tests start clients with one or two names without colons; that addresses hold colons of their own, and that one entry that cannot be read hides all that follow, shows only when such lists are tried.", "anchors": ["kiel/cluster.py:Cluster.start", "kiel/constants.py:DEFAULT_KAFKA_PORT"]}
{"id": "C128", "title": "A rebalance takes effect as a whole, whatever calls are under way", "statement": "When a group is rebalanced, at any moment and whatever calls of consume and commit_offsets of a consumer are under way, that consumer fetches messages of a topic again only after it has asked the coordinator, since the rebalance, for the group's offsets of exactly its new share of the topic and has been answered; so that nothing is skipped, and no offset committed by others is put back.", "quantifier": "For all interleavings of the steps of overlapping calls with rebalances, also of kazoo's thread, on which rebalances happen, with the thread of the consumer.", "why_tests_cant": "The threads have to be switched between two adjacent statements, or a notification has to arrive while the cluster is looked up for another reason; tests have one thread.", "anchors": ["kiel/zookeeper/allocator.py:PartitionAllocator.rebalance", "kiel/clients/grouped.py:GroupedConsumer.__init__", "kiel/clients/grouped.py:GroupedConsumer.consume", "kiel/clients/consumer.py:BaseConsumer.consume"]}
{"id": "C129", "title": "A consumer starts where it is asked to, also in topics and partitions its client learns of late", "statement": "When consume is called with a start for a topic that the consumer has not consumed before, each partition of the topic is fetched first from the offset that brokers report for that start, also if the client learns of the topic, or of some of its partitions, only during the call or later.", "quantifier": "every consumer state, start value and metadata change", "why_tests_cant": "a test mocks a cluster that knows its topics before the first consume; a topic that appears between two calls, or a call before connect(), takes a broker that changes meanwhile", "anchors": ["kiel/clients/consumer.py:BaseConsumer.consume", "kiel/clients/single.py:SingleConsumer.determine_offsets", "kiel/cluster.py:Cluster.process_topics"]}
{"id": "C130", "title": "Topics that do not exist yet are created when they are first used", "statement": "If brokers create topics that they are asked about (auto.create.topics.enable), then producing to a topic that does not exist, or consuming from it, has it created: brokers are asked about it by name, and once they tell its partitions the messages are queued.", "quantifier": "every topic, client state and behaviour of the brokers", "why_tests_cant": "mocked brokers answer with whatever topics the test lists, whether or not the request names them", "anchors": ["kiel/clients/producer.py:Producer.produce", "kiel/clients/consumer.py:BaseConsumer.consume", "kiel/cluster.py:Cluster.heal"]}
{"id": "C131", "title": "An offset that is out of range leaves the other partitions where they are", "statement": "When a broker answers that the offset asked of one partition is out of range, the other partitions are consumed as if it had not been: their messages that were fetched are returned, and they are fetched next from where they were.", "quantifier": "every consumer state, topic, partition and behaviour of the brokers", "why_tests_cant": "tests of the error mock one partition, and look at the set of topics that are to be determined anew", "anchors": ["kiel/clients/consumer.py:BaseConsumer.handle_fetch_response", "kiel/clients/consumer.py:BaseConsumer.consume", "kiel/clients/single.py:SingleConsumer.determine_offsets", "kiel/clients/grouped.py:GroupedConsumer.consume"]}
{"id": "C132", "title": "A consumer gets past an offset that is out of range", "statement": "When the offset at which a consumer stands in a partition is no longer in the log, later calls of consume fetch the partition from an offset that is, so that its messages are returned again.", "quantifier": "every consumer state, sequence of calls and behaviour of the brokers", "why_tests_cant": "a test mocks the error once; that the same offset is asked for ever after needs a coordinator that keeps it", "anchors": ["kiel/clients/consumer.py:BaseConsumer.handle_fetch_response", "kiel/clients/grouped.py:GroupedConsumer.determine_offsets", "kiel/clients/grouped.py:GroupedConsumer.consume", "kiel/clients/single.py:SingleConsumer.determine_offsets"]}
{"id": "C133", "title": "A group that has committed nothing yet can begin", "statement": "The first consumers of a group, for whose partitions nothing has been committed, return the messages of these partitions from some offset on; what was committed for some partitions is where these begin.", "quantifier": "every consumer of a group, topic, share and answer of the coordinator for partitions without an offset", "why_tests_cant": "tests have the coordinator report an offset for each partition", "anchors": ["kiel/clients/grouped.py:GroupedConsumer.determine_offsets", "kiel/clients/grouped.py:GroupedConsumer.handle_offset_fetch_response", "kiel/clients/consumer.py:BaseConsumer.consume"]}
{"id": "C134", "title": "A broker that does not answer holds up only its own partitions", "statement": "If a broker accepts requests but neither answers them nor closes its connection, calls still return what the other brokers delivered: consume() returns the messages of the partitions the other brokers lead, and send() returns their results.", "quantifier": "for all clients, all sets of brokers, all calls in progress and all interleavings of the events that concern them, for as long as one broker stays silent", "why_tests_cant": "Tests mock every broker's reply; silence has no end that a test could wait for, and the claim ranges over all events that may happen meanwhile.", "anchors": ["kiel/clients/client.py:Client.send", "kiel/connection.py:Connection.send", "kiel/clients/consumer.py:BaseConsumer.consume"]}
{"id": "C135", "title": "Messages with the same key go to the same partition", "statement": "With a partitioner that always makes the same choice for the same key and partitions, messages of a topic with the same key all go to the same partition for as long as the topic keeps its partitions.", "quantifier": "for all partitioners, keys, topics and sequences of metadata, and all interleavings of produce(), flush(), close(), answers and heals", "why_tests_cant": "Whether a key moves depends on which metadata arrives between which flushes, in which order brokers list partitions, and what an overlapping heal() has seen so far.", "anchors": ["kiel/clients/producer.py:Producer.flush", "kiel/cluster.py:Cluster.process_topics", "kiel/cluster.py:Cluster.heal"]}
{"id": "C136", "title": "Partitions and topics that come into being are consumed", "statement": "Once a consumer of a running group has metadata that list a partition (of a topic created, or given more partitions, after the group was started), the partition is given to one of the group's consumers and consumed, without any consumer having to be restarted.", "quantifier": "every group, every history of metadata, of consumers joining and leaving, of calls and answers, in any interleaving", "why_tests_cant": "no test starts a group and then changes the topics; that nobody will ever ask for the partition is a statement about all continuations of all executions of several consumers and zookeeper", "anchors": ["kiel/clients/grouped.py:GroupedConsumer.connect", "kiel/zookeeper/allocator.py:PartitionAllocator.start", "kiel/zookeeper/allocator.py:PartitionAllocator.add_partitions", "kiel/cluster.py:Cluster.heal", "kiel/clients/consumer.py:BaseConsumer.consume"]}
{"id": "C137", "title": "A consumer of a group that does not know the leader of a partition it is given finds out", "statement": "If a consumer of a group is given a partition whose leader its metadata do not name (because the topic or the partition is younger than its metadata, and another consumer has brought it into the group), calling consume for the topic gets the metadata afresh, and the consumer's partitions of the topic are consumed.", "quantifier": "every group, every history of metadata, of rebalances, of calls and answers, in any interleaving", "why_tests_cant": "Tests give a consumer metadata and an allocation that fit each other; that they can come apart, and then stay so for good, takes two consumers that connect at different times, and an argument about all that can follow.", "anchors": ["kiel/clients/consumer.py:BaseConsumer.consume", "kiel/cluster.py:Cluster.get_leader", "kiel/clients/grouped.py:GroupedConsumer.connect", "kiel/zookeeper/allocator.py:PartitionAllocator.rebalance"]}
{"id": "C138", "title": "Partitions that are gone are given up", "statement": "Once a topic or a partition has been deleted, and the consumers of a group have metadata that do not list it any more, none of them takes it for its own, and the others of the topic are consumed.", "quantifier": "every group, every history of metadata, of consumers joining and leaving, of calls and answers, in any interleaving", "why_tests_cant": "Deleting topics is not tested at all; that the partition stays with the group for ever, whoever joins or leaves, is a statement about all histories.", "anchors": ["kiel/zookeeper/allocator.py:PartitionAllocator.add_partitions", "kiel/zookeeper/allocator.py:PartitionAllocator.remove_partitions", "kiel/clients/grouped.py:GroupedConsumer.connect", "kiel/clients/consumer.py:BaseConsumer.consume"]}
{"id": "C139", "title": "A group goes on with other topics while leaders are elected", "statement": "If the metadata report that leaders of some topic are being elected, consumers of a group that are healed or that connect then go on with, or bring into the group, all other topics.", "quantifier": "every group, every history of metadata, of rebalances, of calls and answers, in any interleaving", "why_tests_cant": "Tests of heal look at one topic at a time; the loss of the others, and that no call ever repairs it, takes a second topic, a second round of metadata, and an argument about all calls that can follow.", "anchors": ["kiel/cluster.py:Cluster.heal", "kiel/cluster.py:Cluster.process_topics", "kiel/clients/consumer.py:BaseConsumer.consume", "kiel/clients/grouped.py:GroupedConsumer.connect"]}
{"id": "C140", "title": "Messages queued for a topic survive elections of other topics' leaders", "statement": "Messages that a producer has queued when its metadata are got afresh are sent by the next flush if the metadata report nothing amiss with their topics, whatever they report of other topics.", "quantifier": "every producer, every history of overlapping calls and answers, every metadata and behaviour of brokers", "why_tests_cant": "Tests of heal and of flush are separate; that what heal forgets makes flush raise and drop messages takes batches, two topics, two rounds of metadata, and an argument about all calls that can follow.", "anchors": ["kiel/cluster.py:Cluster.heal", "kiel/cluster.py:Cluster.process_topics", "kiel/clients/producer.py:Producer.flush", "kiel/iterables.py:drain"]}
{"id": "C141", "title": "produce looks up a topic of which nothing is known", "statement": "A call of produce for a topic of which neither a partition nor a leader is known has the metadata got afresh before it queues the message.", "quantifier": "every producer, every history of overlapping calls and answers, every topic and message", "why_tests_cant": "A table that gains a topic by being read is invisible to a test of any single call; that no later call ever gets past it is a statement about all histories.", "anchors": ["kiel/clients/producer.py:Producer.produce", "kiel/clients/producer.py:Producer.flush", "kiel/cluster.py:Cluster.__init__"]}
{"id": "C142", "title": "Calls under way when connections are closed end", "statement": "A call that has requests outstanding when the client closes its connections, or when brokers close them, ends: it returns or raises.", "quantifier": "every history of calls over shared connections, every handler, every behaviour of brokers and of the network, everything that can happen afterwards", "why_tests_cant": "That a call never ends cannot be observed by a test, only that it has not ended yet; it is a statement about everything that can happen later.", "anchors": ["kiel/cluster.py:Cluster.stop", "kiel/connection.py:Connection.close", "kiel/connection.py:Connection.socket_error_handling", "kiel/connection.py:Connection.read_loop", "kiel/clients/client.py:Client.send"]}
{"id": "C143", "title": "A call gets what brokers answered to its own requests, although calls share connections", "statement": "When a call that sent a request to each of several brokers returns, what it has for a broker is what the handler made of a frame that came from the connection to this broker after the call began, with the correlation id of its request and readable as an answer to it; brokers that it has nothing for are those whose request failed. This is so whatever other calls and requests use the same connections meanwhile.", "quantifier": "every number of calls at the same time, every order of requests, answers, failures, new and lost connections, every handler", "why_tests_cant": "Tests run one call at a time over connections that are mocked; interleavings of calls over shared connections are unboundedly many.", "anchors": ["kiel/clients/client.py:Client.send", "kiel/connection.py:Connection.send", "kiel/connection.py:Connection.read_loop", "kiel/connection.py:Connection.read_message", "kiel/cluster.py:Cluster.__getitem__"]}
{"id": "C144", "title": "A lost connection is noticed by the next call that needs it", "statement": "After reading from a broker's connection has failed, in whatever way, the next call that sends a request over this connection gets nothing of this broker, and returns only after the cluster was healed, whatever other calls do meanwhile.", "quantifier": "every history of calls over shared connections, every handler, every behaviour of brokers and of the network", "why_tests_cant": "A test sees one loss at one moment; that none goes unnoticed needs all moments at which a connection can be lost, and all other calls that share it or that heal at the same time.", "anchors": ["kiel/connection.py:Connection.send", "kiel/connection.py:Connection.read_loop", "kiel/connection.py:Connection.socket_error_handling", "kiel/clients/client.py:Client.send"]}
{"id": "C145", "title": "A call returns once the brokers it asked have answered", "statement": "When each broker that a call sent a request to has answered it, the call returns: it does not wait for answers to other calls that share the connections, nor for other brokers, whatever else happens to the client meanwhile.", "quantifier": "every history of calls over shared connections, every order of answers, every behaviour of other brokers and of the network", "why_tests_cant": "A test runs one call, or a few in one order; that a call is never held up by what others wait for is about all interleavings of calls, answers and losses of connections.", "anchors": ["kiel/connection.py:Connection.send", "kiel/connection.py:Connection.read_loop", "kiel/clients/client.py:Client.send"]}
{"id": "C146", "title": "Asking for metadata survives the loss of a broker", "statement": "When the connection to a broker that is asked for metadata is lost, before it is asked or while its answer is awaited, the next broker is asked; the metadata of the first broker that answers are returned, and NoBrokersError is raised only if none is left, whatever other calls do over the same connections.", "quantifier": "every history of calls and requests for metadata over shared connections, every behaviour of brokers and of the network", "why_tests_cant": "A test loses a connection at one moment, usually before the request; the moments that matter are between the request and its answer, with other calls on the same connection.", "anchors": ["kiel/cluster.py:Cluster.get_metadata", "kiel/connection.py:Connection.send", "kiel/connection.py:Connection.read_loop", "kiel/connection.py:Connection.close"]}
{"id": "C147", "title": "Connecting survives the loss of a bootstrap host", "statement": "When a bootstrap host cannot be connected to, or its connection is lost before it has answered, start() goes on with the next one; it goes on with the metadata of the first that answers, and raises NoBrokersError only if none does.", "quantifier": "every list of bootstrap hosts, every behaviour of the hosts and of the network at every point of the exchange", "why_tests_cant": "A test lets a host refuse connections; a host that accepts one and goes away while its answer is awaited is a matter of timing.", "anchors": ["kiel/cluster.py:Cluster.start", "kiel/connection.py:Connection.connect", "kiel/connection.py:Connection.send", "kiel/connection.py:Connection.read_loop"]}
