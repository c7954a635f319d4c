{"id": "C01", "title": "Contiguous lookup finds the neighbour exactly when one is queued", "statement": "For a queue holding pairwise disjoint index ranges, find_contiguous(x) returns a value iff some queued value is immediately adjacent to x; the value returned is a queued value adjacent to x on the side the Position says, it is removed, and nothing else changes.", "quantifier": "every queue content with disjoint ranges, every probe range disjoint from it", "why_tests_cant": "tests probe a handful of four-range queues; the claim is over all contents and probes, and relies on nearest-neighbour search being sufficient", "anchors": ["paladin-core/src/contiguous/queue.rs: ContiguousQueue::find_contiguous", "paladin-core/src/directive/indexed_stream/foldable.rs: Contiguous for TaskOutput"]}
{"id": "C02", "title": "Pairing or queueing conserves values and keeps pairs in order", "statement": "acquire_contiguous_pair_or_queue(x) either returns (l, r) with l ending immediately before r starts, one of them x and the other previously queued and now gone, or queues x; over any sequence of such calls (and dequeues) starting from an empty queue no value is lost or duplicated and no two queued values are ever adjacent.", "quantifier": "every sequence of operations on disjoint ranges", "why_tests_cant": "an invariant over unbounded histories", "anchors": ["paladin-core/src/contiguous/queue.rs: acquire_contiguous_pair_or_queue, queue, dequeue", "paladin-core/src/directive/indexed_stream/foldable.rs: Dispatcher::try_dispatch"]}
{"id": "C03", "title": "Threads sharing a ContiguousQueue never lose or duplicate a value", "statement": "When many threads call acquire_contiguous_pair_or_queue concurrently with values whose keys are distinct, every offered value is at all times in exactly one place: still queued, inside one running call, or in exactly one returned pair.", "quantifier": "every number of threads and every interleaving of the lookup, peek, take, remove and insert steps", "why_tests_cant": "depends on instruction-level interleavings that a test cannot enumerate", "anchors": ["paladin-core/src/contiguous/queue.rs: find_contiguous (AtomicCell::take, SkipMap::remove), queue"]}
{"id": "C04", "title": "Threads sharing a ContiguousQueue never miss a pair", "statement": "When threads concurrently offer values to a ContiguousQueue, once all calls have returned no two adjacent values are both left in the queue.", "quantifier": "every interleaving of concurrent acquire_contiguous_pair_or_queue calls", "why_tests_cant": "a check-then-insert race needs one specific interleaving", "anchors": ["paladin-core/src/contiguous/queue.rs: acquire_contiguous_pair_or_queue"]}
{"id": "C05", "title": "Fold returns an in-order combination of every input exactly once", "statement": "Whenever IndexedStream::fold(m).run returns Ok(v) for a stream whose indices are 0..n-1, in any arrival order and with any completion order of remote combines, v is the value of some binary tree of m.combine calls whose leaves, read left to right, are the n inputs in index order, each exactly once.", "quantifier": "every input length, arrival order, worker completion order and interleaving of stream, dispatch and result handling", "why_tests_cant": "the schedule space is unbounded; tests see a few schedules on one machine", "anchors": ["paladin-core/src/directive/indexed_stream/foldable.rs: f_fold, Dispatcher", "paladin-core/src/contiguous/queue.rs"]}
{"id": "C06", "title": "Fold equals the sequential fold for an associative combine, and empty() on empty input", "statement": "If combine is associative then any Ok result of fold equals combining the inputs left to right in index order; for an empty stream it is m.empty() with no combine executed; for a single element (index 0) it is that element unchanged.", "quantifier": "every associative (possibly partial, non-commutative) combine, every input, every schedule", "why_tests_cant": "an algebraic law over all monoids and schedules", "anchors": ["paladin-core/src/directive/indexed_stream/foldable.rs: f_fold", "paladin-core/src/operation/mod.rs: Monoid"]}
{"id": "C07", "title": "Fold dispatches exactly n-1 combine tasks, each joining two adjacent segments", "statement": "In any completed fold of n >= 1 inputs exactly n-1 combine tasks have been dispatched; at every moment the segments queued, awaiting publication, executing or returned partition the inputs received so far.", "quantifier": "every schedule and input", "why_tests_cant": "a counting invariant over every reachable state", "anchors": ["paladin-core/src/directive/indexed_stream/foldable.rs: Dispatcher::try_dispatch, f_fold"]}
{"id": "C08", "title": "Fold always finishes when every combine succeeds", "statement": "If the input stream ends without error and every dispatched combine eventually returns a value, fold returns; it cannot hang.", "quantifier": "every schedule, in particular every timing of end-of-stream relative to result arrival", "why_tests_cant": "hangs appear only under one relative timing of stream end and last result", "anchors": ["paladin-core/src/directive/indexed_stream/foldable.rs: init, result_processor, resolved_input_size"]}
{"id": "C09", "title": "A failed combine or failed input makes fold fail", "statement": "If the input stream yields an error, or a combine reports an error, fold never returns Ok; the error returned is one that was reported.", "quantifier": "every schedule and every position of the failure", "why_tests_cant": "failure position times schedule is unbounded", "anchors": ["paladin-core/src/directive/indexed_stream/foldable.rs: f_fold", "paladin-core/src/operation/error.rs: FatalStrategy"]}
{"id": "C10", "title": "Fold over an index block is insensitive to the offset and rejects gaps", "statement": "For a stream with distinct indices fold returns the in-order combination when the indices form a contiguous block wherever the block starts; when the indices have a gap fold never returns Ok.", "quantifier": "every set of indices, every schedule", "why_tests_cant": "covers all index sets; hanging cannot be observed by a finite test", "anchors": ["paladin-core/src/directive/indexed_stream/foldable.rs: f_fold (dequeue(&0)), is_final", "paladin-core/src/directive/indexed_stream/mod.rs: IndexedStream::new"]}
{"id": "C11", "title": "Duplicate delivery cannot corrupt a fold result", "statement": "Even if the broker redelivers tasks or results any number of times, in any order, an Ok value returned by fold is still an in-order combination of all inputs.", "quantifier": "every schedule with unbounded duplication of tasks and results", "why_tests_cant": "duplication schedules are unbounded", "anchors": ["paladin-core/src/directive/indexed_stream/foldable.rs: f_fold", "paladin-core/src/queue/amqp.rs: AMQPAcker"]}
{"id": "C12", "title": "A completed map stream holds exactly one output per input", "statement": "Over a broker that delivers each message at most once and keeps the consumer connected: if the stream returned by IndexedStream::map ends with no error item, its items are, in some order, exactly (i, op(x_i)) for every input (i, x_i), once each.", "quantifier": "every input, operation, publish order, worker order and interleaving of sending and receiving", "why_tests_cant": "schedule space unbounded", "anchors": ["paladin-core/src/directive/indexed_stream/functor.rs: f_map", "paladin-core/src/channel/coordinated_channel/coordinated_stream.rs", "paladin-core/src/channel/coordinated_channel/coordinated_publisher.rs"]}
{"id": "C13", "title": "Sorted map output equals the sequential map", "statement": "Over a broker that delivers each message at most once and keeps the consumer connected: IndexedStream::from(xs).map(op) followed by into_values_sorted, when it returns Ok, returns exactly the outputs of op on xs in the original order.", "quantifier": "every input list, every schedule", "why_tests_cant": "all permutations of completion order", "anchors": ["paladin-core/src/directive/indexed_stream/mod.rs: into_values_sorted, from_into_iterator", "paladin-core/src/directive/indexed_stream/functor.rs: f_map"]}
{"id": "C14", "title": "Map never silently drops elements", "statement": "If any task's result never arrives (ignored error, lost message) the mapped stream does not end: it never reports completion with an element missing.", "quantifier": "every schedule and every subset of lost results", "why_tests_cant": "non-termination over all schedules", "anchors": ["paladin-core/src/directive/indexed_stream/functor.rs: f_map", "paladin-core/src/channel/coordinated_channel/coordinated_stream.rs: poll_next", "paladin-core/src/operation/error.rs: FatalStrategy::Ignore"]}
{"id": "C15", "title": "Map surfaces every failure", "statement": "If an operation fails fatally with Terminate, or the input stream fails, or publishing fails, then draining the mapped stream with into_values_sorted never returns Ok.", "quantifier": "every failure position and schedule", "why_tests_cant": "failure position times schedule is unbounded", "anchors": ["paladin-core/src/directive/indexed_stream/functor.rs: f_map", "paladin-core/src/directive/indexed_stream/mod.rs: into_values_sorted", "paladin-core/src/runtime/mod.rs: dispatch_fatal"]}
{"id": "C16", "title": "Map yields each element once under redelivery", "statement": "Even when the broker delivers a task or result more than once, a completed mapped stream has exactly one output per input.", "quantifier": "every schedule with duplicates", "why_tests_cant": "duplicates need a worker crash at a particular point", "anchors": ["paladin-core/src/directive/indexed_stream/functor.rs: f_map", "paladin-core/src/channel/coordinated_channel/coordinated_stream.rs: CoordinatedAcker"]}
{"id": "C17", "title": "Literal map returns the operation's output", "statement": "Literal(x).map(op).run returns Literal(op(x)) when the operation succeeds, an error when it fails, and never the 'No results received' error. It publishes one task. If its stream of results ends before it has received one it never returns.", "quantifier": "every literal, operation and schedule", "why_tests_cant": "over all schedules of publish, close, execute, receive", "anchors": ["paladin-core/src/directive/literal/functor.rs: f_map"]}
{"id": "C18", "title": "A map-then-fold chain equals the sequential program", "statement": "While the map's consumer stays connected (messages may be lost or redelivered), IndexedStream::from(xs).map(op).fold(m).run returning Ok(v) implies v is the in-order combination of op applied to every x, and the sequential fold of the mapped list when combine is associative.", "quantifier": "every input, operation, monoid, and interleaving of the two stages", "why_tests_cant": "pipeline interleavings are unbounded", "anchors": ["paladin-core/src/directive/mod.rs: Map::run, Fold::run", "paladin-core/src/directive/indexed_stream/foldable.rs", "paladin-core/src/directive/indexed_stream/functor.rs"]}
{"id": "C19", "title": "Coordinated receiver ends only after close and after everything published was yielded and acked", "statement": "With sender and receiver driven from one task, the receiver of lease_coordinated_task_channel reports end-of-stream only if the sender was closed or dropped (or the broker's own stream has ended) and every successfully published message has been yielded and acknowledged; after close this is final.", "quantifier": "every history of publish, failed publish, deliver, loss, poll, ack, nack, close, drop, broker stream end", "why_tests_cant": "history invariant", "anchors": ["paladin-core/src/channel/coordinated_channel/coordinated_stream.rs: poll_next", "paladin-core/src/channel/coordinated_channel/coordinated_publisher.rs: publish, close, Drop", "paladin-core/src/channel/coordinated_channel/mod.rs"]}
{"id": "C20", "title": "Coordinated receiver never ends early when sender and receiver run on different threads", "statement": "With the sender publishing then closing on one thread and the receiver polling on another, the receiver never reports end-of-stream while a published message has not been yielded.", "quantifier": "every interleaving of the individual atomic loads and stores", "why_tests_cant": "needs one instruction-level interleaving", "anchors": ["paladin-core/src/channel/coordinated_channel/coordinated_stream.rs: poll_next (num_pending_sends.load before closed.load)", "paladin-core/src/channel/coordinated_channel/coordinated_publisher.rs: publish (closed.load then fetch_add)"]}
{"id": "C21", "title": "Closing the sender terminates the receiver", "statement": "After the sender is closed and every published message has been yielded and acked, the receiver's task observes end-of-stream (it is woken or its next poll returns None).", "quantifier": "every history, including when the receiver is already parked", "why_tests_cant": "lost wake-ups depend on timing", "anchors": ["paladin-core/src/channel/coordinated_channel/coordinated_stream.rs: poll_next, CoordinatedAcker::ack", "paladin-core/src/channel/coordinated_channel/mod.rs: ChannelState::close"]}
{"id": "C22", "title": "Publishing after close is rejected without effect", "statement": "Once close has returned, publish returns the PublisherClosed error and neither sends a message nor changes what the receiver will see; close is idempotent and permanent.", "quantifier": "every history", "why_tests_cant": "history invariant", "anchors": ["paladin-core/src/channel/coordinated_channel/coordinated_publisher.rs: publish, close", "paladin-core/src/channel/coordinated_channel/mod.rs: ChannelState::close"]}
{"id": "C23", "title": "Acknowledgement is idempotent and nack counts like ack", "statement": "Each yielded message decreases the number of outstanding messages exactly once however many times its acker's ack or nack is called and from however many threads.", "quantifier": "every interleaving and repetition of ack and nack", "why_tests_cant": "concurrent double-ack interleavings", "anchors": ["paladin-core/src/channel/coordinated_channel/coordinated_stream.rs: CoordinatedAcker"]}
{"id": "C24", "title": "A failed publish does not keep the receiver open", "statement": "If publishing a message fails, that message does not prevent the receiver from terminating after close.", "quantifier": "every history with publish failures", "why_tests_cant": "needs failure injection at every point", "anchors": ["paladin-core/src/channel/coordinated_channel/coordinated_publisher.rs: publish"]}
{"id": "C25", "title": "Composed acknowledgement is sequential and short-circuits", "statement": "Composed ack (and nack) calls the second acker iff the first succeeded, in that order, and returns the first error; in particular the coordinated channel counts a message as handled only after the broker ack succeeded.", "quantifier": "every pair of ackers and outcomes", "why_tests_cant": "over all outcomes, including the composition used by lease_coordinated_task_channel", "anchors": ["paladin-core/src/acker.rs: ComposedAcker", "paladin-core/src/runtime/mod.rs: lease_coordinated_task_channel"]}
{"id": "C26", "title": "In-memory exactly-once queue delivers each message to exactly one consumer, in order, with no loss", "statement": "On an in-memory ExactlyOnce queue, for any number of publishers and consumers, the messages received by all consumers, in the order they are removed, are a prefix of the messages in the order they were published, and each is received by exactly one consumer.", "quantifier": "every interleaving of push, permit release, permit acquire and pop", "why_tests_cant": "interleavings are unbounded", "anchors": ["paladin-core/src/queue/in_memory.rs: ExactlyOnceQueue, InMemoryConsumer::poll_next"]}
{"id": "C27", "title": "In-memory consumers never panic for lack of a message", "statement": "A consumer that is granted a permit always finds a message: the unreachable! in poll_next cannot fire, and conversely when no operation is half-done every queued message has a permit, free or given to a consumer that was waiting and has been woken, and nobody waits while a permit is free.", "quantifier": "every interleaving, for both exactly-once and broadcast queues", "why_tests_cant": "needs all interleavings", "anchors": ["paladin-core/src/queue/in_memory.rs: InMemoryConsumer::poll_next, publish"]}
{"id": "C28", "title": "In-memory broadcast: every consumer declared before a publish receives it exactly once", "statement": "Every message published to an in-memory Broadcast queue is received exactly once by each consumer whose declaration completed before the publish began, and at most once by any consumer.", "quantifier": "every interleaving of concurrent publishers and declarations, both delivery modes", "why_tests_cant": "concurrent publish/declare interleavings", "anchors": ["paladin-core/src/queue/in_memory.rs: BroadcastQueue::publish, declare_consumer"]}
{"id": "C29", "title": "In-memory broadcast: persistent messages published with no consumer are kept for a later consumer", "statement": "With Persistent delivery, a message whose publish has returned is never lost: it is in the history awaiting the next consumer or has been put in at least one consumer's queue.", "quantifier": "every interleaving of concurrent publishers and declarations", "why_tests_cant": "concurrent publish/declare interleavings", "anchors": ["paladin-core/src/queue/in_memory.rs: BroadcastQueue::publish, declare_consumer, history"]}
{"id": "C30", "title": "In-memory broadcast: the whole backlog is replayed to one new consumer", "statement": "When consumers are declared on a persistent broadcast queue with a backlog, some consumer receives the entire backlog in publication order.", "quantifier": "every interleaving of concurrent declarations", "why_tests_cant": "needs two drains to interleave", "anchors": ["paladin-core/src/queue/in_memory.rs: BroadcastQueue::declare_consumer"]}
{"id": "C31", "title": "Queue declaration is idempotent and queues are isolated by name", "statement": "Declaring an existing in-memory queue returns the same queue (messages published through either handle are consumed through the other) keeping its original options; operations on one name never affect another name's messages; after delete, declare creates a fresh empty queue.", "quantifier": "every history of declare, delete, publish, consume over any names", "why_tests_cant": "history property", "anchors": ["paladin-core/src/queue/in_memory.rs: InMemoryConnection::declare_queue, delete_queue"]}
{"id": "C32", "title": "Retry performs the documented number of attempts", "statement": "Retrying with Immediate or After{max_retries} calls the operation until the first success, at most max_retries+1 times, returns the first success or the last error, reports every error except the returned one to the tracer in order, and sleeps the given duration before every attempt but the first.", "quantifier": "every max_retries and every sequence of outcomes", "why_tests_cant": "unbounded outcome sequences", "anchors": ["paladin-core/src/operation/error.rs: retry_simple, retry_with_strategy"]}
{"id": "C33", "title": "Remote execution makes at most max_retries+2 attempts and turns exhaustion into a fatal error", "statement": "A remotely executed operation whose first attempt fails transiently is attempted again per its first error's strategy; if any attempt succeeds the result is Ok; if all fail the result is a Fatal error carrying the last underlying error and the first error's fatal strategy; a first Fatal error is returned unchanged with no second attempt.", "quantifier": "every strategy and every sequence of outcomes", "why_tests_cant": "unbounded outcome sequences", "anchors": ["paladin-opkind-derive/src/lib.rs: generated __execute", "paladin-core/src/operation/error.rs: OperationError::retry_trace, retry_internal"]}
{"id": "C34", "title": "Fatal errors are never retried", "statement": "Once an attempt of a remotely executed operation fails with a Fatal error, the operation is not executed again and that error's own strategy is honoured.", "quantifier": "every sequence of outcomes", "why_tests_cant": "needs transient-then-fatal sequences", "anchors": ["paladin-core/src/operation/error.rs: retry_internal, retry_simple", "paladin-opkind-derive/src/lib.rs"]}
{"id": "C35", "title": "Exponential retry stops at success or when the backoff gives up", "statement": "With Exponential, the operation is repeated until the first success or until the backoff policy yields no further delay; the result is that success or the last error; a wait is started only if it is due to end within max_duration of the start of retrying; with a positive min_duration the retrying ends after a bounded number of attempts.", "quantifier": "every outcome sequence, every random jitter, every elapsed time", "why_tests_cant": "time and randomness", "anchors": ["paladin-core/src/operation/error.rs: retry_with_strategy, into_backoff"]}
{"id": "C36", "title": "Error conversions preserve error, kind and strategies", "statement": "TransientError and FatalError convert to OperationError and to Err results without losing the error or strategies; into_fatal is idempotent, keeps the underlying error and fatal_strategy(); defaults are Immediate{3} and Terminate.", "quantifier": "every error value", "why_tests_cant": "all values", "anchors": ["paladin-core/src/operation/error.rs: OperationError, TransientError, FatalError, From impls"]}
{"id": "C37", "title": "Wire messages survive the postcard round trip", "statement": "Every task, task result and command encoded with the Postcard serializer and decoded again is identical, whatever bytes and strings it holds, and encodings are self-delimiting so appended bytes do not change the decoded value.", "quantifier": "every routing key, metadata, operation bytes, input bytes, id, error text", "why_tests_cant": "unbounded byte strings", "anchors": ["paladin-core/src/serializer/mod.rs: Serializer::to_bytes, from_bytes", "paladin-core/src/task/mod.rs: AnyTask, AnyTaskOutput, AnyTaskResult", "paladin-core/src/runtime/mod.rs: CommandIpc"]}
{"id": "C38", "title": "Wire messages survive the CBOR round trip", "statement": "Every task, task result and command encoded with the Cbor serializer and decoded again is identical.", "quantifier": "every field value", "why_tests_cant": "unbounded byte strings", "anchors": ["paladin-core/src/serializer/mod.rs: Serializer::to_bytes, from_bytes", "paladin-core/src/task/mod.rs"]}
{"id": "C39", "title": "Task execution is transparent end to end", "statement": "A typed task sent through serialization, remote execution by operation id, and result conversion yields a TaskResult whose metadata equals the task's metadata and whose output equals execute(input), or an Err whose text is the operation error's display text; results go to the task's routing key.", "quantifier": "every operation, input, metadata and serializer with lawful user codecs", "why_tests_cant": "all values", "anchors": ["paladin-core/src/task/mod.rs: as_any_task, remote_execute, into_task_result", "paladin-core/src/operation/mod.rs: execute_as_bytes", "paladin-opkind-derive/src/lib.rs", "paladin-core/src/runtime/mod.rs: dispatch_ok, dispatch_fatal"]}
{"id": "C40", "title": "A panicking operation is contained", "statement": "If an operation panics during execution the worker reports a Fatal error with strategy Terminate instead of crashing or hanging; the panic is never reported as success.", "quantifier": "every operation, input and attempt", "why_tests_cant": "all panic positions", "anchors": ["paladin-opkind-derive/src/lib.rs: generated __execute (catch_unwind, spawn_blocking)"]}
{"id": "C41", "title": "Operation ids dispatch to the operation that created the task", "statement": "A worker built from the same operations executes a received task with the operation type that produced it.", "quantifier": "every number of registered operations and crates", "why_tests_cant": "id wrap-around and multi-crate collisions need hundreds of operations", "anchors": ["paladin-opkind-derive/src/lib.rs: OPERATION_ID_COUNTER", "paladin-core/src/task/mod.rs: remote_execute", "paladin-core/src/lib.rs: OPERATIONS"]}
{"id": "C42", "title": "Worker settles each task exactly once, acking iff execution succeeded", "statement": "For each task the worker takes, if the loop continues it has issued exactly one ack or nack: ack, together with exactly one Ok result published to the task's routing key, iff execution succeeded; nack otherwise.", "quantifier": "every sequence of tasks, outcomes, commands and timings", "why_tests_cant": "unbounded histories", "anchors": ["paladin-core/src/runtime/mod.rs: WorkerRuntime::main_loop, dispatch_ok, dispatch_fatal"]}
{"id": "C43", "title": "A worker never executes tasks of a terminated job within the retention window", "statement": "After a worker has processed an Abort command for a job, or a task of the job failed on it, it starts no further task of that job until at least 60 seconds have passed; the mark is dropped within 120 seconds.", "quantifier": "every history of commands, tasks, clock advances and reaper runs", "why_tests_cant": "time and history", "anchors": ["paladin-core/src/runtime/mod.rs: main_loop (terminated_jobs, reaper, mark_terminated)"]}
{"id": "C44", "title": "Abort-all stops a worker", "statement": "When a worker processes an abort-all command, the task then executing is interrupted and nacked and the worker stops taking tasks.", "quantifier": "every history of commands and tasks", "why_tests_cant": "command coalescing depends on timing", "anchors": ["paladin-core/src/runtime/mod.rs: main_loop (watch channel, ipc_sig_term)"]}
{"id": "C45", "title": "A fatal Terminate error reaches the job's leader and every worker; Ignore sends nothing", "statement": "When execution fails with Terminate the worker publishes exactly one Err result with the error text to the task's routing key and one abort-all command; with Ignore it publishes nothing and continues to serve the job's other tasks.", "quantifier": "every error and history", "why_tests_cant": "all histories", "anchors": ["paladin-core/src/runtime/mod.rs: dispatch_fatal, main_loop", "paladin-core/src/operation/error.rs: FatalStrategy"]}
{"id": "C46", "title": "A worker crash does not lose a task", "statement": "If a worker process crashes at any point while handling a task, then either its result has been published or the task is still unacknowledged (and will be redelivered).", "quantifier": "every crash point and every order of the concurrent ack and publish", "why_tests_cant": "crash points", "anchors": ["paladin-core/src/runtime/mod.rs: main_loop try_join!(acker.ack(), dispatch_ok)"]}
{"id": "C47", "title": "Broadcast over AMQP reaches every consumer", "statement": "A message published on an AMQP channel of type Broadcast is delivered to every consumer of that channel.", "quantifier": "every number of consumers and every broker schedule", "why_tests_cant": "needs a live broker with several consumers", "anchors": ["paladin-core/src/queue/amqp.rs: declare_broadcast, declare_consumer, publish_broadcast"]}
{"id": "C48", "title": "AMQP publish and consume route by queue name", "statement": "On AMQP an ExactlyOnce channel delivers each published message to one consumer of the same name and never to a consumer of another name; delete removes that queue.", "quantifier": "every history of declares, publishes, deletes and consumes on the broker model", "why_tests_cant": "needs a broker", "anchors": ["paladin-core/src/queue/amqp.rs: declare_single, publish_single, delete_queue"]}
{"id": "C49", "title": "An undecodable AMQP message does not block a consumer", "statement": "If a message that cannot be deserialized is delivered to an AMQP consumer, later valid messages are still yielded.", "quantifier": "every message sequence", "why_tests_cant": "needs malformed messages and prefetch limits", "anchors": ["paladin-core/src/queue/amqp.rs: AMQPConsumer::poll_next, basic_qos"]}
{"id": "C50", "title": "Channel types map to the right queue options", "statement": "Channels of every type are declared with the matching syndication mode, persistent delivery and non-durable queues (which expire after 30 minutes on AMQP), identically for senders and receivers. Such declarations do not conflict, and what a name is routed to stays so until the name is released or its queue expires.", "quantifier": "every channel type and option value", "why_tests_cant": "finite but must be consistent between sender and receiver paths", "anchors": ["paladin-core/src/channel/queue.rs: From<ChannelType>", "paladin-core/src/queue/amqp.rs: QueueOptions"]}
{"id": "C51", "title": "Leased result channels are isolated", "statement": "Results routed to one leased channel are received only by that lease's receiver, provided the random identifiers differ; two leases drawing the same identifier share one queue.", "quantifier": "every history of leases and results", "why_tests_cant": "history property", "anchors": ["paladin-core/src/runtime/mod.rs: lease_coordinated_task_channel", "paladin-core/src/channel/queue.rs: issue", "paladin-core/src/common/mod.rs: get_random_routing_key"]}
{"id": "C52", "title": "A lease is released exactly once, on drop", "statement": "Dropping the receiver of a leased channel deletes its queue exactly once and nothing else deletes it; after release no queue with that identifier remains.", "quantifier": "every history, including workers publishing late results", "why_tests_cant": "late results race with release", "anchors": ["paladin-core/src/channel/mod.rs: LeaseGuard", "paladin-core/src/channel/queue.rs: QueueChannel::release, sender"]}
{"id": "C53", "title": "publish_all publishes every item exactly once with bounded concurrency", "statement": "publish_all returns Ok only if the stream ended without error and every item was published exactly once; at no time are more than max_concurrency publishes in flight; on the first error it stops and returns that error.", "quantifier": "every stream, limit, publish outcome and interleaving", "why_tests_cant": "interleavings", "anchors": ["paladin-core/src/queue/publisher.rs: PublisherExt::publish_all"]}
{"id": "C54", "title": "Index assignment of iterators", "statement": "IndexedStream::from numbers items 0,1,2,... in iteration order; try_from_into_iterator numbers positions counting errors; so indices are distinct and into_values_sorted on an unmapped stream is the identity.", "quantifier": "every iterator", "why_tests_cant": "all lists", "anchors": ["paladin-core/src/directive/indexed_stream/mod.rs: from_into_iterator, try_from_into_iterator, into_values_sorted"]}
{"id": "C55", "title": "Index arithmetic is exact below the machine limit", "statement": "For all ranges whose end is below usize::MAX the adjacency and finality tests agree with mathematical adjacency and size; at usize::MAX the addition overflows.", "quantifier": "every pair of 64-bit ranges", "why_tests_cant": "2^128 pairs", "anchors": ["paladin-core/src/directive/indexed_stream/foldable.rs: is_contiguous, is_final"]}
{"id": "C56", "title": "Publisher adapters are transparent", "statement": "With applies its function before the inner publish, does not publish when the function fails, and forwards close; boxing or pinning a publisher or acker does not change its effects.", "quantifier": "every function, publisher and payload", "why_tests_cant": "all values", "anchors": ["paladin-core/src/queue/publisher.rs: With, Box, Pin impls", "paladin-core/src/acker.rs: Box, Arc impls"]}
{"id": "C57", "title": "A drained map stream is never left asleep", "statement": "Whenever the mapped stream is pending and could make progress without new external events, the task polling it has been woken; in particular it does not stay pending after the input ended and every result was acknowledged.", "quantifier": "every poll order chosen by select and every readiness of the input and result streams", "why_tests_cant": "needs a particular poll order", "anchors": ["paladin-core/src/directive/indexed_stream/functor.rs: f_map select", "paladin-core/src/channel/coordinated_channel/coordinated_stream.rs: poll_next", "paladin-core/src/channel/coordinated_channel/coordinated_publisher.rs: close"]}
{"id": "C58", "title": "Map makes progress and answers every input", "statement": "As long as nothing fails outside the operation, map takes only boundedly many steps per input, and when nothing can happen any more without new input every received input has been answered by one output or one error item; if the input has ended the mapped stream has ended.", "quantifier": "every input, operation and interleaving", "why_tests_cant": "liveness over all interleavings", "anchors": ["paladin-core/src/directive/indexed_stream/functor.rs: f_map", "paladin-core/src/channel/coordinated_channel/coordinated_stream.rs: poll_next, ack"]}
{"id": "C59", "title": "User values survive serialization unchanged with either serializer", "statement": "Every value of a serde-derived operation, input, output or metadata type (integers, floats, strings, bytes, options, vectors, tuples, structs, enums, nested arbitrarily) decoded after encoding is identical, for Postcard and for Cbor.", "quantifier": "every such type and every value", "why_tests_cant": "all types and values", "anchors": ["paladin-core/src/serializer/mod.rs: Serializer::to_bytes, from_bytes"]}
{"id": "C60", "title": "A truncated message is never accepted", "statement": "Decoding any proper prefix of an encoded task, result, command or user value fails; it never yields a value.", "quantifier": "every message, every cut", "why_tests_cant": "all messages and cuts", "anchors": ["paladin-core/src/serializer/mod.rs: Serializer::from_bytes"]}
{"id": "C61", "title": "Calls on the in-memory broadcast queue always return", "statement": "publish and declare_consumer on an in-memory Broadcast queue cannot deadlock on the shard locks and cannot run forever: as long as a call is running some running call can take a step, and the running calls together take finitely many steps.", "quantifier": "every interleaving of any number of publishers, declarations and consumers", "why_tests_cant": "deadlocks need particular interleavings", "anchors": ["paladin-core/src/queue/in_memory.rs: BroadcastQueue::publish, declare_consumer"]}
{"id": "C62", "title": "A queued message is given to any consumer that polls", "statement": "When no operation on an in-memory queue is half done and messages are queued, a consumer that polls receives one, whether or not other consumers exist.", "quantifier": "every history of publishes, polls and drops", "why_tests_cant": "depends on the semaphore's waiting list", "anchors": ["paladin-core/src/queue/in_memory.rs: InMemoryConsumer::poll_next"]}
{"id": "C63", "title": "The worker loop does not panic", "statement": "The worker loop never panics by itself: whatever the sequence of tasks and commands, including the end of the command stream, the loop goes on or returns.", "quantifier": "every history of tasks, outcomes and commands", "why_tests_cant": "depends on the order of stream end and deliveries", "anchors": ["paladin-core/src/runtime/mod.rs: main_loop (changed().expect)"]}
{"id": "C64", "title": "Aborting a job interrupts its running task, and nothing else does", "statement": "When a worker processes an Abort command for the job whose task it is executing, that execution is interrupted; Abort commands for other jobs interrupt nothing.", "quantifier": "every history of tasks and commands", "why_tests_cant": "timing of commands relative to executions", "anchors": ["paladin-core/src/runtime/mod.rs: main_loop (ipc_sig_term)"]}
{"id": "C65", "title": "A released AMQP channel does not disturb the others", "statement": "On AMQP, using a channel that another process has released (publishing to it, or asking for a sender or receiver of it) does not disturb the other channels of the process: their consumers go on being delivered messages.", "quantifier": "every history of declarations, publishes, deletions and consumers of any number of processes", "why_tests_cant": "depends on the order in which processes release and use channels, and on how the broker punishes errors", "anchors": ["paladin-core/src/queue/amqp.rs: AMQPConnection (one lapin channel), publish, delete_queue", "paladin-core/src/channel/queue.rs: release"]}
{"id": "C66", "title": "AMQP consumers yield messages in the order they were published", "statement": "An AMQP consumer yields messages in the order in which the broker received them.", "quantifier": "every history of publishers and consumers", "why_tests_cant": "all histories, any number of consumers on a queue", "anchors": ["paladin-core/src/queue/amqp.rs: AMQPConsumer::poll_next"]}
{"id": "C67", "title": "A failed lease leaves no queue behind", "statement": "When lease_coordinated_task_channel fails, or its future is dropped, no queue of its identifier remains.", "quantifier": "every history, every point of failure", "why_tests_cant": "needs a failure between two particular calls to the broker", "anchors": ["paladin-core/src/runtime/mod.rs: lease_coordinated_task_channel", "paladin-core/src/channel/queue.rs: receiver"]}
{"id": "C68", "title": "Jobs that share the workers do not mix", "statement": "Any number of maps and folds run at the same time on one task queue and the same workers. Each of them receives only results of its own tasks and returns what it would return alone: a map yields exactly one output per input of its own stream (if no delivery of its tasks was returned to the queue), a fold an in-order combination of its own input.", "quantifier": "every number of jobs and workers, every interleaving of leaders, deliveries, executions, acknowledgements, results, commands, crashes and redeliveries", "why_tests_cant": "the interleavings of several jobs on several workers are unbounded", "anchors": ["paladin-core/src/runtime/mod.rs: main_loop, get_task_channel, lease_coordinated_task_channel", "paladin-core/src/directive/indexed_stream/functor.rs: f_map", "paladin-core/src/directive/indexed_stream/foldable.rs: f_fold"]}
{"id": "C69", "title": "A task is lost only in listed ways", "statement": "A delivered task ends up neither answered by a result or error nor redeliverable only if its worker rejected it because it held the job for terminated, because an abort-all command interrupted it, because it failed with an error to be ignored, or because the worker died or a broker call failed between acknowledging and publishing. Without these, a job whose operations do not fail loses no task.", "quantifier": "every execution of leaders, broker and workers", "why_tests_cant": "depends on the point at which a worker dies or is interrupted", "anchors": ["paladin-core/src/runtime/mod.rs: main_loop, dispatch_fatal, dispatch_ok"]}
{"id": "C70", "title": "The failure of one job does not harm the others", "statement": "When an operation of one job fails fatally, other jobs whose operations do not fail lose no task.", "quantifier": "every execution without crashes and broker failures", "why_tests_cant": "needs two jobs on one worker pool and a failure at the right time", "anchors": ["paladin-core/src/runtime/mod.rs: dispatch_fatal, main_loop"]}
{"id": "C71", "title": "Jobs served by healthy workers complete", "statement": "Any number of maps and folds run on at least one worker. If no worker dies or is told to stop, no broker call fails and the operations do not fail (nor does serializing their inputs and outputs), then the system comes to rest after finitely many steps, whatever the schedule; at rest a map has yielded one output per input and has ended if its input has, and a fold whose input has ended has returned the combination of its input.", "quantifier": "every number of jobs and workers, every schedule", "why_tests_cant": "needs a termination argument over all schedules", "anchors": ["paladin-core/src/runtime/mod.rs: main_loop", "paladin-core/src/directive/indexed_stream/functor.rs: f_map", "paladin-core/src/directive/indexed_stream/foldable.rs: f_fold"]}
{"id": "C72", "title": "Maps and folds return what the operations computed, through bytes, queues and workers", "statement": "Any number of maps and folds of any registered operations run at the same time; tasks and results travel serialized. If map over xs collected in order returns Ok(vs), then vs has one value per element of xs, in order, each returned by a call of the operation's execute on that element (if no delivery of its tasks was returned to the queue); if fold returns Ok(v), then v is an in-order combination of its input by calls of the monoid's combine, so the left-to-right fold if combine is associative with identity empty. Every message on the task queue carries the routing key and the operation id of the job that published it.", "quantifier": "every operation with matching Serialize and Deserialize, both serializers, every number of jobs and workers, every interleaving, retries, crashes and redeliveries", "why_tests_cant": "composition of serialization, dispatch by id, retries, queues and directives over all interleavings", "anchors": ["paladin-core/src/task/mod.rs: as_any_task, remote_execute, into_task_result", "paladin-core/src/runtime/mod.rs: main_loop, get_task_sender, lease_coordinated_task_channel", "paladin-core/src/serializer/mod.rs: Serializer", "paladin-core/src/directive/indexed_stream/functor.rs: f_map", "paladin-core/src/directive/indexed_stream/foldable.rs: f_fold"]}
{"id": "C73", "title": "When a worker's loop has ended nothing that it started goes on", "statement": "When main_loop has returned or its future was dropped (as when a Runtime with an emulated worker is dropped), the tokio tasks it spawned (the reaper of terminated jobs and the command handler) no longer run, no operation it started is executing, and commands are taken only by workers whose loop runs.", "quantifier": "every number of loops, every history of tasks, failures, commands and drops", "why_tests_cant": "leaked tasks are not visible to a test of the loop's result", "anchors": ["paladin-core/src/runtime/mod.rs: main_loop (reaper, remote_command_sig_term_handler), spawn_emulator, Drop for Runtime", "paladin-opkind-derive/src/lib.rs: spawn_blocking"]}
{"id": "C74", "title": "A job fails only for its own reasons, and failures of its tasks do not go unnoticed", "statement": "Any number of maps and folds run on the same workers. Every error that a map yields or a fold returns is an error of its own leader (input stream, publishing, closing, acknowledging), or carries the text of an error of its own operation on its own inputs (for a fold: on in-order combinations of two neighbouring runs of them), or, for a fold, says that there was a second final result. If no delivery of its tasks is returned to the queue and its result consumer stays connected: once the mapped stream has ended, or fold has returned Ok, every task was answered and every answer read; so after a published error the map yields an error before it ends and the fold does not return Ok, and after a lost task neither ends successfully.", "quantifier": "every number of jobs and workers, every interleaving of leaders, deliveries, executions, failures, commands and crashes", "why_tests_cant": "needs failures at every point of every interleaving of several jobs", "anchors": ["paladin-core/src/runtime/mod.rs: main_loop, dispatch_fatal, dispatch_ok", "paladin-core/src/task/mod.rs: remote_execute, into_task_result", "paladin-core/src/directive/indexed_stream/functor.rs: f_map", "paladin-core/src/directive/indexed_stream/foldable.rs: f_fold"]}
{"id": "C75", "title": "Chained directives return the images of the whole input, in order", "statement": "IndexedStream::from(xs).map(op1)...map(opn), with any number of maps, runs beside any other jobs on any workers. Followed by fold: if it returns Ok(v), there is one image of each element of xs under the operations, applied one after the other, such that v is an in-order combination of these images (empty() for an empty xs), also when tasks are lost or executed several times; it panics only if the leader's connection is gone. Followed by into_values_sorted: if it returns Ok(vs), vs has one such image per element, in order, if no delivery was returned to the queue. If nothing goes wrong, the operations do not fail, and neither workers nor leader can do anything more, the last map has ended with exactly one item per element, and the fold has returned.", "quantifier": "every number of maps, every input, every number of other jobs and workers, every interleaving", "why_tests_cant": "the stages run concurrently: items of one stage are in flight while earlier and later ones are processed by others", "anchors": ["paladin-core/src/directive/mod.rs: Directive, map, fold", "paladin-core/src/directive/indexed_stream/mod.rs: IndexedStream::from, into_values_sorted", "paladin-core/src/directive/indexed_stream/functor.rs: f_map", "paladin-core/src/directive/indexed_stream/foldable.rs: f_fold", "paladin-core/src/runtime/mod.rs: main_loop"]}
{"id": "C76", "title": "The example program computes its input or fails for a stated reason", "statement": "Any number of leaders of examples/hello-world-rabbitmq share a broker and any number of workers. If the computation of a leader returns a string, it is the leader's input: the assert_eq! at the end of main never fails, whatever is lost or redelivered and whenever abort requests arrive. If it returns an error, then the leader's own connection failed, or an abort request hit a task of this leader and the text names the character and the iteration, or a delivery of one of its tasks was returned to the queue. It panics only if the connection is gone. If nothing goes wrong and no abort request is seen, it completes.", "quantifier": "every input below 2^63 bytes, both serializers, every number of leaders and workers, every interleaving", "why_tests_cant": "the composition of the two operations, the wire formats, the queues, the workers and the directives over all interleavings", "anchors": ["examples/hello-world-rabbitmq/ops/src/lib.rs: CharToString, StringConcat", "examples/hello-world-rabbitmq/leader/src/main.rs: main", "paladin-core/src/runtime/mod.rs: main_loop", "paladin-core/src/directive/indexed_stream/functor.rs: f_map", "paladin-core/src/directive/indexed_stream/foldable.rs: f_fold"]}
{"id": "C77", "title": "A worker receives a leader's tasks exactly when their configurations agree", "statement": "Any number of Runtimes and WorkerRuntimes are made with from_config from any configurations. A worker receives tasks of a leader only if both use AMQP with the same address and the same task bus (task_bus_routing_key, or its default), or if it is one of the num_workers (by default three) workers that an in-memory Runtime brings along; every such worker can receive them, with the same serializer it sees the same task, and its result comes back to the lease whose identifier the task carries. Whatever the name of the bus, a task receiver yields tasks only, and a command receiver commands only. Commands reach exactly the workers with the same connection.", "quantifier": "every set of configurations, every order of set-up, every number of leaders and workers", "why_tests_cant": "the configurations and their combinations are unbounded", "anchors": ["paladin-core/src/runtime/mod.rs: Runtime::from_config, spawn_emulator, get_task_sender, get_command_ipc_sender, WorkerRuntime::from_config, get_result_sender, get_command_ipc_receiver", "paladin-core/src/runtime/dynamic_channel.rs: DynamicChannelFactory::from_config", "paladin-core/src/config/mod.rs: Config"]}
{"id": "C78", "title": "A worker survives, and answers, tasks it cannot decode", "statement": "A task message that decodes as a task but whose operation or input bytes the worker's operation rejects is answered by one error, sent to the task's routing key with the text of the rejection, without executing anything or retrying. The worker goes down exactly if it has no operation with the task's id or a deserializer panics. Outputs carry the metadata bytes and serializer of the task unchanged. The leader reads a result as an output exactly if metadata and output can be deserialized, and as an error otherwise.", "quantifier": "all bytes on the task and result queues, all sets of operations of the worker, all codecs (including ones that fail or panic), all serializers and retry environments", "why_tests_cant": "tests use tasks made by the same program; bytes from other programs (another version of the operations, another type behind the same id) are unbounded", "anchors": ["paladin-opkind-derive/src/lib.rs:118-173", "paladin-core/src/task/mod.rs:94-108", "paladin-core/src/task/mod.rs:140-170", "paladin-core/src/runtime/mod.rs:556-605"]}
{"id": "C79", "title": "In one process the jobs run as on a broker, and no wake-up is lost", "statement": "Any number of maps and folds and any number of workers share the in-memory queues of one process. Whatever the interleaving of publishes, semaphore permits, polls and dropped consumers, leaders and workers do only what the system with abstract queues allows, tasks reach the workers in the order of publication, and no consumer panics. So a mapped stream drained in order has one output per input, in order, and a fold that returns Ok has combined exactly its own input in order. When nothing goes wrong and no leader, worker, publisher or woken consumer can do anything more, the jobs are complete, and this is reached after boundedly many steps.", "quantifier": "every number of jobs and workers, every interleaving of pushes, permits, polls, pops and drops", "why_tests_cant": "a lost wake-up needs a particular interleaving of publisher and consumers", "anchors": ["paladin-core/src/queue/in_memory.rs: ExactlyOnceQueue, InMemoryConsumer", "paladin-core/src/runtime/mod.rs: in_memory, spawn_emulator, main_loop", "paladin-core/src/directive/indexed_stream/functor.rs: f_map", "paladin-core/src/directive/indexed_stream/foldable.rs: f_fold"]}
{"id": "C80", "title": "On an AMQP broker the jobs run as with abstract queues, whatever connections and queues are lost", "statement": "Any number of maps and folds and any number of workers, in any number of processes, share an AMQP broker. Whatever is declared, deleted, delivered, cancelled, expired, disconnected and redelivered, leaders and workers do only what the system with abstract queues allows; a task is executed by two workers only if a worker lost its connection. So a fold that returns Ok has combined exactly its own input in order, also after redeliveries, and a mapped stream drained in order has one output per input, in order, if none of its tasks was received twice. When no connection is lost, no queue is lost, workers and nobody else consume from the bus, and no leader, worker or delivery is possible any more, the jobs are complete, and this is reached after boundedly many steps.", "quantifier": "every number of jobs, workers, connections and consumers, every prefetch limit, every interleaving of publishes, deliveries, polls, acknowledgements, disconnections and deletions", "why_tests_cant": "redelivery needs a connection lost at a particular moment; a lost wake-up a particular order of poll and delivery", "anchors": ["paladin-core/src/queue/amqp.rs: publish, declare_consumer, AMQPConsumer, AMQPAcker", "paladin-core/src/runtime/mod.rs: lease, main_loop", "paladin-core/src/directive/indexed_stream/functor.rs: f_map", "paladin-core/src/directive/indexed_stream/foldable.rs: f_fold"]}
{"id": "C81", "title": "Pipelines, and the program hello-world-rabbitmq, give the right answer over bytes on a real broker", "statement": "Leaders and workers exchange serialized tasks and results through an AMQP broker (or the in-memory queues). If IndexedStream::from(xs).map(op1)...map(opN).fold(op) returns Ok, the value is an in-order combination of one output for each element of xs, also if connections are lost, tasks are executed several times and workers stop; into_values_sorted() of the maps returns one output per element, in the order of xs, if no task of the maps was received by two workers (never the case in memory). Every leader of hello-world-rabbitmq that gets an Ok gets its own input back, so its assert_eq! never fails; it panics only if its connection for results is gone; an error is one of its own I/O, of an abort request that hit one of its own characters, or the complaint about a second final result, and then two workers received one of its tasks. When no connection or message is lost, workers consume from the bus, operations do not fail, and neither workers, nor broker, nor this leader can move, the pipeline has returned its value and main ends with Ok(()).", "quantifier": "every number of leaders, maps in a pipeline, workers, connections, every input string, serializer and prefetch limit, every interleaving with losses and redeliveries", "why_tests_cant": "the example is only ever run by hand against one broker, with no lost connection and one leader", "anchors": ["examples/hello-world-rabbitmq/leader/src/main.rs: main", "paladin-core/src/queue/amqp.rs: publish, declare_consumer", "paladin-core/src/directive/indexed_stream/functor.rs: f_map", "paladin-core/src/directive/indexed_stream/foldable.rs: f_fold", "paladin-core/src/runtime/mod.rs: main_loop"]}
{"id": "C82", "title": "An abort request ends the computation it aborts", "statement": "When a leader sends the abort-all command (as hello-world-rabbitmq does when JOB_TIMEOUT is over), the workers set the abort signal that every operation can read, and give up the task they are executing. The operation answers the signal with an error, and the leader's computation returns that error.", "quantifier": "every number of leaders and workers, every moment of the abort, all operations that read the signal", "why_tests_cant": "needs an abort at a particular moment of a task, and a claim about what happens for ever after", "anchors": ["paladin-core/src/runtime/mod.rs: main_loop (abort_worker_execution, sig_term)", "examples/hello-world-rabbitmq/leader/src/main.rs: set_abort_timeout_job", "examples/hello-world-rabbitmq/ops/src/lib.rs: CharToString"]}
{"id": "C83", "title": "The configuration is the one the command line and the environment describe, and one that is accepted can be started", "statement": "A program whose command line is Config (as the worker of hello-world-rabbitmq) gets, for each option, the value on the command line, else that of its environment variable, else the default, whatever the order of the options and the way they are written; it exits if an argument belongs to no option, an option is given twice, a value cannot be read, or the amqp runtime is asked for without an address. The variable of an option on the command line does not matter. Every configuration can be given on the command line, whatever characters it is made of. With a configuration that has been accepted, from_config does not panic.", "quantifier": "all arguments, all environments, all configurations", "why_tests_cant": "arguments and environments are unbounded, and an option interacts with its variable, its default and the other options", "anchors": ["paladin-core/src/config/mod.rs: Config", "paladin-core/src/runtime/dynamic_channel.rs: DynamicChannelFactory::from_config", "examples/hello-world-rabbitmq/worker/src/main.rs: main"]}
{"id": "C84", "title": "Closing a runtime silences that process, frees what it held, and disturbs nobody else", "statement": "After Runtime::close on an AMQP broker a call in progress or begun later through that runtime performs no further broker method and can only end with an error; its receivers are delivered nothing more and yield only what had arrived before, in order; nothing can be acknowledged. What they had not acknowledged goes back to the front of its queue in its old order. Whatever the other processes could do before they can do after, with the same effects. A result queue whose receiver was dropped before the close is deleted.", "quantifier": "every state of every number of processes at the moment of the close, every continuation", "why_tests_cant": "needs a close at a particular moment of other calls, and a claim about every continuation", "anchors": ["paladin-core/src/runtime/mod.rs: Runtime::close", "paladin-core/src/channel/queue.rs: close, release", "paladin-core/src/queue/amqp.rs: close, delete_queue", "examples/hello-world-rabbitmq/leader/src/main.rs: main"]}
{"id": "C85", "title": "Fold works on a bounded number of things at a time, and its back-pressure never deadlocks", "statement": "However long the input is and however slow the broker, a fold has at most ten items and ten results in hand and forty tasks not yet published; with ten items in hand it does not read its input. These limits change no answer: whatever fold returns it could return without them. They never block it: as long as publishes and acknowledgements complete, everything in hand is dealt with after a bounded number of steps.", "quantifier": "every input, every interleaving of items, results, publishes and acknowledgements, every failure", "why_tests_cant": "a deadlock needs three bounded stages to be full at the same time, in one of very many orders", "anchors": ["paladin-core/src/directive/indexed_stream/foldable.rs: f_fold, Dispatcher::try_dispatch, MAX_CONCURRENCY_PER_TASK", "paladin-core/src/queue/publisher.rs: publish_all"]}
{"id": "C86", "title": "A failed job leaves the workers fit for the next one", "statement": "When an operation of one job fails and asks to terminate, that job's directive returns the error; a job started after that, whose operations do not fail, is carried out by the same workers as if nothing had happened: a map ends with a value for each input, a fold returns.", "quantifier": "every sequence of jobs, every number of workers, every interleaving", "why_tests_cant": "needs two jobs in sequence on the same long-lived workers, and a claim about an unbounded wait", "anchors": ["paladin-core/src/runtime/mod.rs: main_loop (ipc_sig_term, select!), dispatch_fatal"]}
{"id": "C87", "title": "Each leader program of hello-world-rabbitmq ends only with its own input or an error of its own, and disturbs workers only through its timeout", "statement": "Any number of leaders of hello-world-rabbitmq, with and without --timeout, run beside any number of workers. A leader exits with success only after connecting, computing exactly its input and closing its runtime; if its map keeps its connection, its assert_eq! never fails, it panics only if its fold loses its connection, and an error it exits with is that of its own connecting, closing, connection or runtime, or of a task of its own delivered twice, never that of an aborted operation. A leader without --timeout sends no abort command; one with --timeout t sends at most one, t seconds or more after it is connected and not after its end. Nobody else sends one. Each command reaches one worker: n commands disturb at most n workers.", "quantifier": "every number of leaders and workers, every input and timeout, every interleaving with losses and redeliveries", "why_tests_cant": "the example is run by hand; whether a timer, a worker and another leader meet at a particular moment is up to the scheduler", "anchors": ["examples/hello-world-rabbitmq/leader/src/main.rs: main, set_abort_timeout_job", "examples/hello-world-rabbitmq/worker/src/main.rs: main", "examples/hello-world-rabbitmq/ops/src/lib.rs: CharToString, StringConcat", "paladin-core/src/runtime/mod.rs: main_loop"]}
{"id": "C88", "title": "Deeply nested values survive serialization with either serializer", "statement": "A value of a recursive type (a list or a tree built with Box or Vec) that is the operation, input or output of a task can be read back after it was serialized, however deep it is nested, with Postcard and with Cbor; a task with such an input is executed, and its result reaches the leader.", "quantifier": "every type, every value, every depth", "why_tests_cant": "values of unbounded depth", "anchors": ["paladin-core/src/serializer/mod.rs: Serializer::to_bytes, from_bytes", "paladin-opkind-derive/src/lib.rs: get_result", "paladin-core/src/task/mod.rs: as_any_task, into_task_result"]}
{"id": "C89", "title": "What survives a restart of the broker", "statement": "When the AMQP broker restarts, exactly the persistent messages of durable queues survive, as the documentation of DeliveryMode and QueueDurability says: such a message is in its queue again even if it had been delivered and not settled, and a process that connects afterwards can consume it. If everybody declares a queue durable, publishes persistent messages and nobody deletes it, no message is ever lost over any number of restarts, and what is published later still arrives, with both syndication modes. The queues of channels are not durable: of those a restart leaves nothing, and every unsettled task and result is lost; and no consumer or call from before the restart is served after it.", "quantifier": "every execution with any number of processes, queues and restarts", "why_tests_cant": "restarts of a real broker at every point of every interleaving", "anchors": ["paladin-core/src/queue/mod.rs: DeliveryMode, QueueDurability", "paladin-core/src/queue/amqp.rs: into_message_properties, into_queue_declare_options, into_declare_arguments", "paladin-core/src/channel/queue.rs: From<ChannelType> for QueueOptions"]}
{"id": "C90", "title": "A process that loses its connection to the broker notices", "statement": "When the connection to the AMQP broker is lost, or the queue a process consumes is deleted, the process is told: a worker's main_loop returns, and a directive returns an error or its result stream yields one; nobody goes on waiting for messages that can no longer come.", "quantifier": "every moment of the loss, every execution before and after it", "why_tests_cant": "whether it is noticed depends on what the process is waiting for at the moment of the loss, and the failure is that nothing happens", "anchors": ["paladin-core/src/queue/amqp.rs: AMQPConsumer::poll_next", "paladin-core/src/channel/coordinated_channel/coordinated_stream.rs: poll_next", "paladin-core/src/runtime/mod.rs: main_loop"]}
{"id": "C91", "title": "A computation that is given up stops", "statement": "When the stream of a map is dropped before its end, or the future of a map or fold (by a timeout around it, say), nothing more is published for it, and the tasks already published that no worker has begun are not executed any more.", "quantifier": "every moment of giving up, every number of jobs and workers, every continuation", "why_tests_cant": "needs a drop at every point of an execution and a claim about what workers do after it", "anchors": ["paladin-core/src/directive/indexed_stream/functor.rs: f_map", "paladin-core/src/directive/indexed_stream/foldable.rs: f_fold", "paladin-core/src/runtime/mod.rs: lease_coordinated_task_channel, main_loop", "paladin-core/src/channel/mod.rs: LeaseGuard"]}
{"id": "C92", "title": "A consumer of an in-memory broadcast queue that is gone is forgotten", "statement": "When the last handle on a consumer of an in-memory broadcast queue has been dropped, the queue keeps no messages for it; and with DeliveryMode::Persistent, a message published when all consumers are gone is kept for the next consumer declared, as the documentation of BroadcastQueue says for a message published when there are no consumers.", "quantifier": "every number of consumers, handles and threads, every interleaving of publish, declare_consumer, poll and drop", "why_tests_cant": "the loss shows only in a consumer that comes later, the memory only in the long run", "anchors": ["paladin-core/src/queue/in_memory.rs: BroadcastQueue::publish, declare_consumer, InMemoryConsumer"]}
{"id": "C93", "title": "A map yields results while its input goes on", "statement": "A poll of the stream of a map returns, however many items its input has ready, and once a result has arrived, polling yields it: results are yielded, and so the user can begin to use them or stop, before the input has ended; an endless input is mapped item by item.", "quantifier": "every input, finite or endless, every interleaving of polls, publishes and arriving results", "why_tests_cant": "the failure is a single poll that does not return; endless inputs cannot be run to their end", "anchors": ["paladin-core/src/directive/indexed_stream/functor.rs: f_map", "paladin-core/src/queue/publisher.rs: PublisherExt::publish_all", "paladin-core/src/queue/in_memory.rs: publish"]}
{"id": "C94", "title": "No task waits for a busy worker while another is idle", "statement": "With several workers on an AMQP broker, a task that no worker has begun is in the bus queue, from where every waiting worker is sent it, or on its way to a worker that waits for it; it is never set aside for a worker that is busy with another task, and never for one that will not take it.", "quantifier": "every number of workers, leaders and tasks, every interleaving, every behaviour of the broker within the prefetch limit of one", "why_tests_cant": "which worker is sent a task is the broker's choice; the windows in which it goes wrong are short or follow an abort", "anchors": ["paladin-core/src/runtime/mod.rs: main_loop", "paladin-core/src/queue/amqp.rs: AMQPConnection::new (basic_qos)", "paladin-core/src/runtime/dynamic_channel.rs: DynamicChannelFactory"]}
{"id": "C95", "title": "No task is executed by two workers at a time, nor again once it has been executed", "statement": "With several workers on an AMQP broker, two workers never execute the same task at the same time, and a task that has been executed and acknowledged is not executed again.", "quantifier": "every number of workers, leaders and tasks, every interleaving, every loss of connections", "why_tests_cant": "needs a connection lost at each point of an execution, and the effects of operations outside the system", "anchors": ["paladin-core/src/runtime/mod.rs: main_loop", "paladin-core/src/queue/amqp.rs: AMQPConsumer, AMQPAcker", "paladin-core/src/channel/mod.rs: ChannelType::ExactlyOnce"]}
{"id": "C96", "title": "A job with few tasks is not held up by the size of another", "statement": "With several jobs in one in-memory runtime, a task is handed to a worker after a number of other tasks that does not depend on how many tasks the other jobs have.", "quantifier": "every number of jobs, workers and tasks, every interleaving", "why_tests_cant": "needs jobs of every size beside each other, and a claim about all continuations", "anchors": ["paladin-core/src/queue/in_memory.rs: InMemoryQueue, InMemoryConsumer", "paladin-core/src/directive/indexed_stream/functor.rs: map", "paladin-core/src/runtime/mod.rs: Runtime::in_memory, get_task_sender"]}
{"id": "C97", "title": "With a single worker results come back in the order of the tasks", "statement": "In an in-memory runtime with one worker, the results of a job reach its leader in the order in which its tasks were published, and a map, or a chain of maps, yields its values in that order, whatever other jobs share the worker; the values come out as `into_values_sorted` would sort them. With two workers this does not hold.", "quantifier": "every number of jobs, tasks and failures, every interleaving of leaders and the worker", "why_tests_cant": "needs every interleaving of publishers, worker and readers; a test sees one", "anchors": ["paladin-core/src/queue/in_memory.rs: InMemoryQueue, InMemoryConsumer", "paladin-core/src/runtime/mod.rs: main_loop, spawn_emulator", "paladin-core/src/directive/indexed_stream/functor.rs: map"]}
