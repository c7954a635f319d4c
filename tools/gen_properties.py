import json
P=[]
def p(title, statement, quantifier, why, anchors):
    P.append(dict(id="C%02d"%(len(P)+1), title=title, statement=statement, quantifier=quantifier, why_tests_cant=why, anchors=anchors))
CQ="paladin-core/src/contiguous/queue.rs"; FO="paladin-core/src/directive/indexed_stream/foldable.rs"; FU="paladin-core/src/directive/indexed_stream/functor.rs"
IS="paladin-core/src/directive/indexed_stream/mod.rs"; LI="paladin-core/src/directive/literal/functor.rs"; DI="paladin-core/src/directive/mod.rs"
CS="paladin-core/src/channel/coordinated_channel/coordinated_stream.rs"; CP="paladin-core/src/channel/coordinated_channel/coordinated_publisher.rs"; CM="paladin-core/src/channel/coordinated_channel/mod.rs"
CH="paladin-core/src/channel/mod.rs"; CHQ="paladin-core/src/channel/queue.rs"; DC="paladin-core/src/runtime/dynamic_channel.rs"; RT="paladin-core/src/runtime/mod.rs"
IM="paladin-core/src/queue/in_memory.rs"; AM="paladin-core/src/queue/amqp.rs"; PU="paladin-core/src/queue/publisher.rs"; AC="paladin-core/src/acker.rs"
ER="paladin-core/src/operation/error.rs"; OP="paladin-core/src/operation/mod.rs"; TA="paladin-core/src/task/mod.rs"; SE="paladin-core/src/serializer/mod.rs"; DE="paladin-opkind-derive/src/lib.rs"
p("Contiguous lookup finds the neighbour exactly when one is queued",
  "For a queue holding pairwise disjoint index ranges, find_contiguous(x) returns a value iff some queued value is immediately adjacent to x; the value returned is a queued value adjacent to x on the side the Position says, it is removed, and nothing else changes.",
  "every queue content with disjoint ranges, every probe range disjoint from it", "tests probe a handful of four-range queues; the claim is over all contents and probes, and relies on nearest-neighbour search being sufficient",
  [CQ+": ContiguousQueue::find_contiguous", FO+": Contiguous for TaskOutput"])
p("Pairing or queueing conserves values and keeps pairs in order",
  "acquire_contiguous_pair_or_queue(x) either returns (l, r) with l ending immediately before r starts, one of them x and the other previously queued and now gone, or queues x; over any sequence of such calls (and dequeues) starting from an empty queue no value is lost or duplicated and no two queued values are ever adjacent.",
  "every sequence of operations on disjoint ranges", "an invariant over unbounded histories",
  [CQ+": acquire_contiguous_pair_or_queue, queue, dequeue", FO+": Dispatcher::try_dispatch"])
p("Threads sharing a ContiguousQueue never lose or duplicate a value",
  "When many threads call acquire_contiguous_pair_or_queue concurrently with values whose keys are distinct, every offered value is at all times in exactly one place: still queued, inside one running call, or in exactly one returned pair.",
  "every number of threads and every interleaving of the lookup, peek, take, remove and insert steps", "depends on instruction-level interleavings that a test cannot enumerate",
  [CQ+": find_contiguous (AtomicCell::take, SkipMap::remove), queue"])
p("Threads sharing a ContiguousQueue never miss a pair",
  "When threads concurrently offer values to a ContiguousQueue, once all calls have returned no two adjacent values are both left in the queue.",
  "every interleaving of concurrent acquire_contiguous_pair_or_queue calls", "a check-then-insert race needs one specific interleaving",
  [CQ+": acquire_contiguous_pair_or_queue"])
p("Fold returns an in-order combination of every input exactly once",
  "Whenever IndexedStream::fold(m).run returns Ok(v) for a stream whose indices are 0..n-1, in any arrival order and with any completion order of remote combines, v is the value of some binary tree of m.combine calls whose leaves, read left to right, are the n inputs in index order, each exactly once.",
  "every input length, arrival order, worker completion order and interleaving of stream, dispatch and result handling", "the schedule space is unbounded; tests see a few schedules on one machine",
  [FO+": f_fold, Dispatcher", CQ])
p("Fold equals the sequential fold for an associative combine, and empty() on empty input",
  "If combine is associative then any Ok result of fold equals combining the inputs left to right in index order; for an empty stream it is m.empty() with no combine executed; for a single element (index 0) it is that element unchanged.",
  "every associative (possibly partial, non-commutative) combine, every input, every schedule", "an algebraic law over all monoids and schedules",
  [FO+": f_fold", OP+": Monoid"])
p("Fold dispatches exactly n-1 combine tasks, each joining two adjacent segments",
  "In any completed fold of n >= 1 inputs exactly n-1 combine tasks have been dispatched; at every moment the segments queued, awaiting publication, executing or returned partition the inputs received so far.",
  "every schedule and input", "a counting invariant over every reachable state",
  [FO+": Dispatcher::try_dispatch, f_fold"])
p("Fold always finishes when every combine succeeds",
  "If the input stream ends without error and every dispatched combine eventually returns a value, fold returns; it cannot hang.",
  "every schedule, in particular every timing of end-of-stream relative to result arrival", "hangs appear only under one relative timing of stream end and last result",
  [FO+": init, result_processor, resolved_input_size"])
p("A failed combine or failed input makes fold fail",
  "If the input stream yields an error, or a combine reports an error, fold never returns Ok; the error returned is one that was reported.",
  "every schedule and every position of the failure", "failure position times schedule is unbounded",
  [FO+": f_fold", ER+": FatalStrategy"])
p("Fold over an index block is insensitive to the offset and rejects gaps",
  "For a stream with distinct indices fold returns the in-order combination when the indices form a contiguous block wherever the block starts; when the indices have a gap fold never returns Ok.",
  "every set of indices, every schedule", "covers all index sets; hanging cannot be observed by a finite test",
  [FO+": f_fold (dequeue(&0)), is_final", IS+": IndexedStream::new"])
p("Duplicate delivery cannot corrupt a fold result",
  "Even if the broker redelivers tasks or results any number of times, in any order, an Ok value returned by fold is still an in-order combination of all inputs.",
  "every schedule with unbounded duplication of tasks and results", "duplication schedules are unbounded",
  [FO+": f_fold", AM+": AMQPAcker"])
p("A completed map stream holds exactly one output per input",
  "Over a broker that delivers each message at most once and keeps the consumer connected: if the stream returned by IndexedStream::map ends with no error item, its items are, in some order, exactly (i, op(x_i)) for every input (i, x_i), once each.",
  "every input, operation, publish order, worker order and interleaving of sending and receiving", "schedule space unbounded",
  [FU+": f_map", CS, CP])
p("Sorted map output equals the sequential map",
  "Over a broker that delivers each message at most once and keeps the consumer connected: IndexedStream::from(xs).map(op) followed by into_values_sorted, when it returns Ok, returns exactly the outputs of op on xs in the original order.",
  "every input list, every schedule", "all permutations of completion order",
  [IS+": into_values_sorted, from_into_iterator", FU+": f_map"])
p("Map never silently drops elements",
  "If any task's result never arrives (ignored error, lost message) the mapped stream does not end: it never reports completion with an element missing.",
  "every schedule and every subset of lost results", "non-termination over all schedules",
  [FU+": f_map", CS+": poll_next", ER+": FatalStrategy::Ignore"])
p("Map surfaces every failure",
  "If an operation fails fatally with Terminate, or the input stream fails, or publishing fails, then draining the mapped stream with into_values_sorted never returns Ok.",
  "every failure position and schedule", "failure position times schedule is unbounded",
  [FU+": f_map", IS+": into_values_sorted", RT+": dispatch_fatal"])
p("Map yields each element once under redelivery",
  "Even when the broker delivers a task or result more than once, a completed mapped stream has exactly one output per input.",
  "every schedule with duplicates", "duplicates need a worker crash at a particular point",
  [FU+": f_map", CS+": CoordinatedAcker"])
p("Literal map returns the operation's output",
  "Literal(x).map(op).run returns Literal(op(x)) when the operation succeeds, an error when it fails, and never the 'No results received' error. It publishes one task. If its stream of results ends before it has received one it never returns.",
  "every literal, operation and schedule", "over all schedules of publish, close, execute, receive",
  [LI+": f_map"])
p("A map-then-fold chain equals the sequential program",
  "While the map's consumer stays connected (messages may be lost or redelivered), IndexedStream::from(xs).map(op).fold(m).run returning Ok(v) implies v is the in-order combination of op applied to every x, and the sequential fold of the mapped list when combine is associative.",
  "every input, operation, monoid, and interleaving of the two stages", "pipeline interleavings are unbounded",
  [DI+": Map::run, Fold::run", FO, FU])
p("Coordinated receiver ends only after close and after everything published was yielded and acked",
  "With sender and receiver driven from one task, the receiver of lease_coordinated_task_channel reports end-of-stream only if the sender was closed or dropped (or the broker's own stream has ended) and every successfully published message has been yielded and acknowledged; after close this is final.",
  "every history of publish, failed publish, deliver, loss, poll, ack, nack, close, drop, broker stream end", "history invariant",
  [CS+": poll_next", CP+": publish, close, Drop", CM])
p("Coordinated receiver never ends early when sender and receiver run on different threads",
  "With the sender publishing then closing on one thread and the receiver polling on another, the receiver never reports end-of-stream while a published message has not been yielded.",
  "every interleaving of the individual atomic loads and stores", "needs one instruction-level interleaving",
  [CS+": poll_next (num_pending_sends.load before closed.load)", CP+": publish (closed.load then fetch_add)"])
p("Closing the sender terminates the receiver",
  "After the sender is closed and every published message has been yielded and acked, the receiver's task observes end-of-stream (it is woken or its next poll returns None).",
  "every history, including when the receiver is already parked", "lost wake-ups depend on timing",
  [CS+": poll_next, CoordinatedAcker::ack", CM+": ChannelState::close"])
p("Publishing after close is rejected without effect",
  "Once close has returned, publish returns the PublisherClosed error and neither sends a message nor changes what the receiver will see; close is idempotent and permanent.",
  "every history", "history invariant",
  [CP+": publish, close", CM+": ChannelState::close"])
p("Acknowledgement is idempotent and nack counts like ack",
  "Each yielded message decreases the number of outstanding messages exactly once however many times its acker's ack or nack is called and from however many threads.",
  "every interleaving and repetition of ack and nack", "concurrent double-ack interleavings",
  [CS+": CoordinatedAcker"])
p("A failed publish does not keep the receiver open",
  "If publishing a message fails, that message does not prevent the receiver from terminating after close.",
  "every history with publish failures", "needs failure injection at every point",
  [CP+": publish"])
p("Composed acknowledgement is sequential and short-circuits",
  "Composed ack (and nack) calls the second acker iff the first succeeded, in that order, and returns the first error; in particular the coordinated channel counts a message as handled only after the broker ack succeeded.",
  "every pair of ackers and outcomes", "over all outcomes, including the composition used by lease_coordinated_task_channel",
  [AC+": ComposedAcker", RT+": lease_coordinated_task_channel"])
p("In-memory exactly-once queue delivers each message to exactly one consumer, in order, with no loss",
  "On an in-memory ExactlyOnce queue, for any number of publishers and consumers, the messages received by all consumers, in the order they are removed, are a prefix of the messages in the order they were published, and each is received by exactly one consumer.",
  "every interleaving of push, permit release, permit acquire and pop", "interleavings are unbounded",
  [IM+": ExactlyOnceQueue, InMemoryConsumer::poll_next"])
p("In-memory consumers never panic for lack of a message",
  "A consumer that is granted a permit always finds a message: the unreachable! in poll_next cannot fire, and conversely when no operation is half-done every queued message has a permit, free or given to a consumer that was waiting and has been woken, and nobody waits while a permit is free.",
  "every interleaving, for both exactly-once and broadcast queues", "needs all interleavings",
  [IM+": InMemoryConsumer::poll_next, publish"])
p("In-memory broadcast: every consumer declared before a publish receives it exactly once",
  "Every message published to an in-memory Broadcast queue is received exactly once by each consumer whose declaration completed before the publish began, and at most once by any consumer.",
  "every interleaving of concurrent publishers and declarations, both delivery modes", "concurrent publish/declare interleavings",
  [IM+": BroadcastQueue::publish, declare_consumer"])
p("In-memory broadcast: persistent messages published with no consumer are kept for a later consumer",
  "With Persistent delivery, a message whose publish has returned is never lost: it is in the history awaiting the next consumer or has been put in at least one consumer's queue.",
  "every interleaving of concurrent publishers and declarations", "concurrent publish/declare interleavings",
  [IM+": BroadcastQueue::publish, declare_consumer, history"])
p("In-memory broadcast: the whole backlog is replayed to one new consumer",
  "When consumers are declared on a persistent broadcast queue with a backlog, some consumer receives the entire backlog in publication order.",
  "every interleaving of concurrent declarations", "needs two drains to interleave",
  [IM+": BroadcastQueue::declare_consumer"])
p("Queue declaration is idempotent and queues are isolated by name",
  "Declaring an existing in-memory queue returns the same queue (messages published through either handle are consumed through the other) keeping its original options; operations on one name never affect another name's messages; after delete, declare creates a fresh empty queue.",
  "every history of declare, delete, publish, consume over any names", "history property",
  [IM+": InMemoryConnection::declare_queue, delete_queue"])
p("Retry performs the documented number of attempts",
  "Retrying with Immediate or After{max_retries} calls the operation until the first success, at most max_retries+1 times, returns the first success or the last error, reports every error except the returned one to the tracer in order, and sleeps the given duration before every attempt but the first.",
  "every max_retries and every sequence of outcomes", "unbounded outcome sequences",
  [ER+": retry_simple, retry_with_strategy"])
p("Remote execution makes at most max_retries+2 attempts and turns exhaustion into a fatal error",
  "A remotely executed operation whose first attempt fails transiently is attempted again per its first error's strategy; if any attempt succeeds the result is Ok; if all fail the result is a Fatal error carrying the last underlying error and the first error's fatal strategy; a first Fatal error is returned unchanged with no second attempt.",
  "every strategy and every sequence of outcomes", "unbounded outcome sequences",
  [DE+": generated __execute", ER+": OperationError::retry_trace, retry_internal"])
p("Fatal errors are never retried",
  "Once an attempt of a remotely executed operation fails with a Fatal error, the operation is not executed again and that error's own strategy is honoured.",
  "every sequence of outcomes", "needs transient-then-fatal sequences",
  [ER+": retry_internal, retry_simple", DE])
p("Exponential retry stops at success or when the backoff gives up",
  "With Exponential, the operation is repeated until the first success or until the backoff policy yields no further delay; the result is that success or the last error; a wait is started only if it is due to end within max_duration of the start of retrying; with a positive min_duration the retrying ends after a bounded number of attempts.",
  "every outcome sequence, every random jitter, every elapsed time", "time and randomness",
  [ER+": retry_with_strategy, into_backoff"])
p("Error conversions preserve error, kind and strategies",
  "TransientError and FatalError convert to OperationError and to Err results without losing the error or strategies; into_fatal is idempotent, keeps the underlying error and fatal_strategy(); defaults are Immediate{3} and Terminate.",
  "every error value", "all values",
  [ER+": OperationError, TransientError, FatalError, From impls"])
p("Wire messages survive the postcard round trip",
  "Every task, task result and command encoded with the Postcard serializer and decoded again is identical, whatever bytes and strings it holds, and encodings are self-delimiting so appended bytes do not change the decoded value.",
  "every routing key, metadata, operation bytes, input bytes, id, error text", "unbounded byte strings",
  [SE+": Serializer::to_bytes, from_bytes", TA+": AnyTask, AnyTaskOutput, AnyTaskResult", RT+": CommandIpc"])
p("Wire messages survive the CBOR round trip",
  "Every task, task result and command encoded with the Cbor serializer and decoded again is identical.",
  "every field value", "unbounded byte strings",
  [SE+": Serializer::to_bytes, from_bytes", TA])
p("Task execution is transparent end to end",
  "A typed task sent through serialization, remote execution by operation id, and result conversion yields a TaskResult whose metadata equals the task's metadata and whose output equals execute(input), or an Err whose text is the operation error's display text; results go to the task's routing key.",
  "every operation, input, metadata and serializer with lawful user codecs", "all values",
  [TA+": as_any_task, remote_execute, into_task_result", OP+": execute_as_bytes", DE, RT+": dispatch_ok, dispatch_fatal"])
p("A panicking operation is contained",
  "If an operation panics during execution the worker reports a Fatal error with strategy Terminate instead of crashing or hanging; the panic is never reported as success.",
  "every operation, input and attempt", "all panic positions",
  [DE+": generated __execute (catch_unwind, spawn_blocking)"])
p("Operation ids dispatch to the operation that created the task",
  "A worker built from the same operations executes a received task with the operation type that produced it.",
  "every number of registered operations and crates", "id wrap-around and multi-crate collisions need hundreds of operations",
  [DE+": OPERATION_ID_COUNTER", TA+": remote_execute", "paladin-core/src/lib.rs: OPERATIONS"])
p("Worker settles each task exactly once, acking iff execution succeeded",
  "For each task the worker takes, if the loop continues it has issued exactly one ack or nack: ack, together with exactly one Ok result published to the task's routing key, iff execution succeeded; nack otherwise.",
  "every sequence of tasks, outcomes, commands and timings", "unbounded histories",
  [RT+": WorkerRuntime::main_loop, dispatch_ok, dispatch_fatal"])
p("A worker never executes tasks of a terminated job within the retention window",
  "After a worker has processed an Abort command for a job, or a task of the job failed on it, it starts no further task of that job until at least 60 seconds have passed; the mark is dropped within 120 seconds.",
  "every history of commands, tasks, clock advances and reaper runs", "time and history",
  [RT+": main_loop (terminated_jobs, reaper, mark_terminated)"])
p("Abort-all stops a worker",
  "When a worker processes an abort-all command, the task then executing is interrupted and nacked and the worker stops taking tasks.",
  "every history of commands and tasks", "command coalescing depends on timing",
  [RT+": main_loop (watch channel, ipc_sig_term)"])
p("A fatal Terminate error reaches the job's leader and every worker; Ignore sends nothing",
  "When execution fails with Terminate the worker publishes exactly one Err result with the error text to the task's routing key and one abort-all command; with Ignore it publishes nothing and continues to serve the job's other tasks.",
  "every error and history", "all histories",
  [RT+": dispatch_fatal, main_loop", ER+": FatalStrategy"])
p("A worker crash does not lose a task",
  "If a worker process crashes at any point while handling a task, then either its result has been published or the task is still unacknowledged (and will be redelivered).",
  "every crash point and every order of the concurrent ack and publish", "crash points",
  [RT+": main_loop try_join!(acker.ack(), dispatch_ok)"])
p("Broadcast over AMQP reaches every consumer",
  "A message published on an AMQP channel of type Broadcast is delivered to every consumer of that channel.",
  "every number of consumers and every broker schedule", "needs a live broker with several consumers",
  [AM+": declare_broadcast, declare_consumer, publish_broadcast"])
p("AMQP publish and consume route by queue name",
  "On AMQP an ExactlyOnce channel delivers each published message to one consumer of the same name and never to a consumer of another name; delete removes that queue.",
  "every history of declares, publishes, deletes and consumes on the broker model", "needs a broker",
  [AM+": declare_single, publish_single, delete_queue"])
p("An undecodable AMQP message does not block a consumer",
  "If a message that cannot be deserialized is delivered to an AMQP consumer, later valid messages are still yielded.",
  "every message sequence", "needs malformed messages and prefetch limits",
  [AM+": AMQPConsumer::poll_next, basic_qos"])
p("Channel types map to the right queue options",
  "Channels of every type are declared with the matching syndication mode, persistent delivery and non-durable queues (which expire after 30 minutes on AMQP), identically for senders and receivers. Such declarations do not conflict, and what a name is routed to stays so until the name is released or its queue expires.",
  "every channel type and option value", "finite but must be consistent between sender and receiver paths",
  [CHQ+": From<ChannelType>", AM+": QueueOptions"])
p("Leased result channels are isolated",
  "Results routed to one leased channel are received only by that lease's receiver, provided the random identifiers differ; two leases drawing the same identifier share one queue.",
  "every history of leases and results", "history property",
  [RT+": lease_coordinated_task_channel", CHQ+": issue", "paladin-core/src/common/mod.rs: get_random_routing_key"])
p("A lease is released exactly once, on drop",
  "Dropping the receiver of a leased channel deletes its queue exactly once and nothing else deletes it; after release no queue with that identifier remains.",
  "every history, including workers publishing late results", "late results race with release",
  [CH+": LeaseGuard", CHQ+": QueueChannel::release, sender"])
p("publish_all publishes every item exactly once with bounded concurrency",
  "publish_all returns Ok only if the stream ended without error and every item was published exactly once; at no time are more than max_concurrency publishes in flight; on the first error it stops and returns that error.",
  "every stream, limit, publish outcome and interleaving", "interleavings",
  [PU+": PublisherExt::publish_all"])
p("Index assignment of iterators",
  "IndexedStream::from numbers items 0,1,2,... in iteration order; try_from_into_iterator numbers positions counting errors; so indices are distinct and into_values_sorted on an unmapped stream is the identity.",
  "every iterator", "all lists",
  [IS+": from_into_iterator, try_from_into_iterator, into_values_sorted"])
p("Index arithmetic is exact below the machine limit",
  "For all ranges whose end is below usize::MAX the adjacency and finality tests agree with mathematical adjacency and size; at usize::MAX the addition overflows.",
  "every pair of 64-bit ranges", "2^128 pairs",
  [FO+": is_contiguous, is_final"])
p("Publisher adapters are transparent",
  "With applies its function before the inner publish, does not publish when the function fails, and forwards close; boxing or pinning a publisher or acker does not change its effects.",
  "every function, publisher and payload", "all values",
  [PU+": With, Box, Pin impls", AC+": Box, Arc impls"])
p("A drained map stream is never left asleep",
  "Whenever the mapped stream is pending and could make progress without new external events, the task polling it has been woken; in particular it does not stay pending after the input ended and every result was acknowledged.",
  "every poll order chosen by select and every readiness of the input and result streams", "needs a particular poll order",
  [FU+": f_map select", CS+": poll_next", CP+": close"])
p("Map makes progress and answers every input",
  "As long as nothing fails outside the operation, map takes only boundedly many steps per input, and when nothing can happen any more without new input every received input has been answered by one output or one error item; if the input has ended the mapped stream has ended.",
  "every input, operation and interleaving", "liveness over all interleavings",
  [FU+": f_map", CS+": poll_next, ack"])
p("User values survive serialization unchanged with either serializer",
  "Every value of a serde-derived operation, input, output or metadata type (integers, floats, strings, bytes, options, vectors, tuples, structs, enums, nested arbitrarily) decoded after encoding is identical, for Postcard and for Cbor.",
  "every such type and every value", "all types and values",
  [SE+": Serializer::to_bytes, from_bytes"])
p("A truncated message is never accepted",
  "Decoding any proper prefix of an encoded task, result, command or user value fails; it never yields a value.",
  "every message, every cut", "all messages and cuts",
  [SE+": Serializer::from_bytes"])
p("Calls on the in-memory broadcast queue always return",
  "publish and declare_consumer on an in-memory Broadcast queue cannot deadlock on the shard locks and cannot run forever: as long as a call is running some running call can take a step, and the running calls together take finitely many steps.",
  "every interleaving of any number of publishers, declarations and consumers", "deadlocks need particular interleavings",
  [IM+": BroadcastQueue::publish, declare_consumer"])
p("A queued message is given to any consumer that polls",
  "When no operation on an in-memory queue is half done and messages are queued, a consumer that polls receives one, whether or not other consumers exist.",
  "every history of publishes, polls and drops", "depends on the semaphore's waiting list",
  [IM+": InMemoryConsumer::poll_next"])
p("The worker loop does not panic",
  "The worker loop never panics by itself: whatever the sequence of tasks and commands, including the end of the command stream, the loop goes on or returns.",
  "every history of tasks, outcomes and commands", "depends on the order of stream end and deliveries",
  [RT+": main_loop (changed().expect)"])
p("Aborting a job interrupts its running task, and nothing else does",
  "When a worker processes an Abort command for the job whose task it is executing, that execution is interrupted; Abort commands for other jobs interrupt nothing.",
  "every history of tasks and commands", "timing of commands relative to executions",
  [RT+": main_loop (ipc_sig_term)"])
p("A released AMQP channel does not disturb the others",
  "On AMQP, using a channel that another process has released (publishing to it, or asking for a sender or receiver of it) does not disturb the other channels of the process: their consumers go on being delivered messages.",
  "every history of declarations, publishes, deletions and consumers of any number of processes", "depends on the order in which processes release and use channels, and on how the broker punishes errors",
  [AM+": AMQPConnection (one lapin channel), publish, delete_queue", CHQ+": release"])
p("AMQP consumers yield messages in the order they were published",
  "An AMQP consumer yields messages in the order in which the broker received them.",
  "every history of publishers and consumers", "all histories, any number of consumers on a queue",
  [AM+": AMQPConsumer::poll_next"])
p("A failed lease leaves no queue behind",
  "When lease_coordinated_task_channel fails, or its future is dropped, no queue of its identifier remains.",
  "every history, every point of failure", "needs a failure between two particular calls to the broker",
  [RT+": lease_coordinated_task_channel", CHQ+": receiver"])
p("Jobs that share the workers do not mix",
  "Any number of maps and folds run at the same time on one task queue and the same workers. Each of them receives only results of its own tasks and returns what it would return alone: a map yields exactly one output per input of its own stream (if no delivery of its tasks was returned to the queue), a fold an in-order combination of its own input.",
  "every number of jobs and workers, every interleaving of leaders, deliveries, executions, acknowledgements, results, commands, crashes and redeliveries", "the interleavings of several jobs on several workers are unbounded",
  [RT+": main_loop, get_task_channel, lease_coordinated_task_channel", FU+": f_map", FO+": f_fold"])
p("A task is lost only in listed ways",
  "A delivered task ends up neither answered by a result or error nor redeliverable only if its worker rejected it because it held the job for terminated, because an abort-all command interrupted it, because it failed with an error to be ignored, or because the worker died or a broker call failed between acknowledging and publishing. Without these, a job whose operations do not fail loses no task.",
  "every execution of leaders, broker and workers", "depends on the point at which a worker dies or is interrupted",
  [RT+": main_loop, dispatch_fatal, dispatch_ok"])
p("The failure of one job does not harm the others",
  "When an operation of one job fails fatally, other jobs whose operations do not fail lose no task.",
  "every execution without crashes and broker failures", "needs two jobs on one worker pool and a failure at the right time",
  [RT+": dispatch_fatal, main_loop"])
p("Jobs served by healthy workers complete",
  "Any number of maps and folds run on at least one worker. If no worker dies or is told to stop, no broker call fails and the operations do not fail (nor does serializing their inputs and outputs), then the system comes to rest after finitely many steps, whatever the schedule; at rest a map has yielded one output per input and has ended if its input has, and a fold whose input has ended has returned the combination of its input.",
  "every number of jobs and workers, every schedule", "needs a termination argument over all schedules",
  [RT+": main_loop", FU+": f_map", FO+": f_fold"])
p("Maps and folds return what the operations computed, through bytes, queues and workers",
  "Any number of maps and folds of any registered operations run at the same time; tasks and results travel serialized. If map over xs collected in order returns Ok(vs), then vs has one value per element of xs, in order, each returned by a call of the operation's execute on that element (if no delivery of its tasks was returned to the queue); if fold returns Ok(v), then v is an in-order combination of its input by calls of the monoid's combine, so the left-to-right fold if combine is associative with identity empty. Every message on the task queue carries the routing key and the operation id of the job that published it.",
  "every operation with matching Serialize and Deserialize, both serializers, every number of jobs and workers, every interleaving, retries, crashes and redeliveries", "composition of serialization, dispatch by id, retries, queues and directives over all interleavings",
  [TA+": as_any_task, remote_execute, into_task_result", RT+": main_loop, get_task_sender, lease_coordinated_task_channel", SE+": Serializer", FU+": f_map", FO+": f_fold"])
p("When a worker's loop has ended nothing that it started goes on",
  "When main_loop has returned or its future was dropped (as when a Runtime with an emulated worker is dropped), the tokio tasks it spawned (the reaper of terminated jobs and the command handler) no longer run, no operation it started is executing, and commands are taken only by workers whose loop runs.",
  "every number of loops, every history of tasks, failures, commands and drops", "leaked tasks are not visible to a test of the loop's result",
  [RT+": main_loop (reaper, remote_command_sig_term_handler), spawn_emulator, Drop for Runtime", DE+": spawn_blocking"])
p("A job fails only for its own reasons, and failures of its tasks do not go unnoticed",
  "Any number of maps and folds run on the same workers. Every error that a map yields or a fold returns is an error of its own leader (input stream, publishing, closing, acknowledging), or carries the text of an error of its own operation on its own inputs (for a fold: on in-order combinations of two neighbouring runs of them), or, for a fold, says that there was a second final result. If no delivery of its tasks is returned to the queue and its result consumer stays connected: once the mapped stream has ended, or fold has returned Ok, every task was answered and every answer read; so after a published error the map yields an error before it ends and the fold does not return Ok, and after a lost task neither ends successfully.",
  "every number of jobs and workers, every interleaving of leaders, deliveries, executions, failures, commands and crashes", "needs failures at every point of every interleaving of several jobs",
  [RT+": main_loop, dispatch_fatal, dispatch_ok", TA+": remote_execute, into_task_result", FU+": f_map", FO+": f_fold"])
EX="examples/hello-world-rabbitmq"
p("Chained directives return the images of the whole input, in order",
  "IndexedStream::from(xs).map(op1)...map(opn), with any number of maps, runs beside any other jobs on any workers. Followed by fold: if it returns Ok(v), there is one image of each element of xs under the operations, applied one after the other, such that v is an in-order combination of these images (empty() for an empty xs), also when tasks are lost or executed several times; it panics only if the leader's connection is gone. Followed by into_values_sorted: if it returns Ok(vs), vs has one such image per element, in order, if no delivery was returned to the queue. If nothing goes wrong, the operations do not fail, and neither workers nor leader can do anything more, the last map has ended with exactly one item per element, and the fold has returned.",
  "every number of maps, every input, every number of other jobs and workers, every interleaving", "the stages run concurrently: items of one stage are in flight while earlier and later ones are processed by others",
  [DI+": Directive, map, fold", IS+": IndexedStream::from, into_values_sorted", FU+": f_map", FO+": f_fold", RT+": main_loop"])
p("The example program computes its input or fails for a stated reason",
  "Any number of leaders of examples/hello-world-rabbitmq share a broker and any number of workers. If the computation of a leader returns a string, it is the leader's input: the assert_eq! at the end of main never fails, whatever is lost or redelivered and whenever abort requests arrive. If it returns an error, then the leader's own connection failed, or an abort request hit a task of this leader and the text names the character and the iteration, or a delivery of one of its tasks was returned to the queue. It panics only if the connection is gone. If nothing goes wrong and no abort request is seen, it completes.",
  "every input below 2^63 bytes, both serializers, every number of leaders and workers, every interleaving", "the composition of the two operations, the wire formats, the queues, the workers and the directives over all interleavings",
  [EX+"/ops/src/lib.rs: CharToString, StringConcat", EX+"/leader/src/main.rs: main", RT+": main_loop", FU+": f_map", FO+": f_fold"])
p("A worker receives a leader's tasks exactly when their configurations agree",
  "Any number of Runtimes and WorkerRuntimes are made with from_config from any configurations. A worker receives tasks of a leader only if both use AMQP with the same address and the same task bus (task_bus_routing_key, or its default), or if it is one of the num_workers (by default three) workers that an in-memory Runtime brings along; every such worker can receive them, with the same serializer it sees the same task, and its result comes back to the lease whose identifier the task carries. Whatever the name of the bus, a task receiver yields tasks only, and a command receiver commands only. Commands reach exactly the workers with the same connection.",
  "every set of configurations, every order of set-up, every number of leaders and workers", "the configurations and their combinations are unbounded",
  [RT+": Runtime::from_config, spawn_emulator, get_task_sender, get_command_ipc_sender, WorkerRuntime::from_config, get_result_sender, get_command_ipc_receiver", "paladin-core/src/runtime/dynamic_channel.rs: DynamicChannelFactory::from_config", "paladin-core/src/config/mod.rs: Config"])
p("A worker survives, and answers, tasks it cannot decode",
  "A task message that decodes as a task but whose operation or input bytes the worker's operation rejects is answered by one error, sent to the task's routing key with the text of the rejection, without executing anything or retrying. The worker goes down exactly if it has no operation with the task's id or a deserializer panics. Outputs carry the metadata bytes and serializer of the task unchanged. The leader reads a result as an output exactly if metadata and output can be deserialized, and as an error otherwise.",
  "all bytes on the task and result queues, all sets of operations of the worker, all codecs (including ones that fail or panic), all serializers and retry environments",
  "tests use tasks made by the same program; bytes from other programs (another version of the operations, another type behind the same id) are unbounded",
  ["paladin-opkind-derive/src/lib.rs:118-173", "paladin-core/src/task/mod.rs:94-108", "paladin-core/src/task/mod.rs:140-170", "paladin-core/src/runtime/mod.rs:556-605"])
p("In one process the jobs run as on a broker, and no wake-up is lost",
  "Any number of maps and folds and any number of workers share the in-memory queues of one process. Whatever the interleaving of publishes, semaphore permits, polls and dropped consumers, leaders and workers do only what the system with abstract queues allows, tasks reach the workers in the order of publication, and no consumer panics. So a mapped stream drained in order has one output per input, in order, and a fold that returns Ok has combined exactly its own input in order. When nothing goes wrong and no leader, worker, publisher or woken consumer can do anything more, the jobs are complete, and this is reached after boundedly many steps.",
  "every number of jobs and workers, every interleaving of pushes, permits, polls, pops and drops", "a lost wake-up needs a particular interleaving of publisher and consumers",
  ["paladin-core/src/queue/in_memory.rs: ExactlyOnceQueue, InMemoryConsumer", RT+": in_memory, spawn_emulator, main_loop", FU+": f_map", FO+": f_fold"])
p("On an AMQP broker the jobs run as with abstract queues, whatever connections and queues are lost",
  "Any number of maps and folds and any number of workers, in any number of processes, share an AMQP broker. Whatever is declared, deleted, delivered, cancelled, expired, disconnected and redelivered, leaders and workers do only what the system with abstract queues allows; a task is executed by two workers only if a worker lost its connection. So a fold that returns Ok has combined exactly its own input in order, also after redeliveries, and a mapped stream drained in order has one output per input, in order, if none of its tasks was received twice. When no connection is lost, no queue is lost, workers and nobody else consume from the bus, and no leader, worker or delivery is possible any more, the jobs are complete, and this is reached after boundedly many steps.",
  "every number of jobs, workers, connections and consumers, every prefetch limit, every interleaving of publishes, deliveries, polls, acknowledgements, disconnections and deletions", "redelivery needs a connection lost at a particular moment; a lost wake-up a particular order of poll and delivery",
  ["paladin-core/src/queue/amqp.rs: publish, declare_consumer, AMQPConsumer, AMQPAcker", RT+": lease, main_loop", FU+": f_map", FO+": f_fold"])
p("Pipelines, and the program hello-world-rabbitmq, give the right answer over bytes on a real broker",
  "Leaders and workers exchange serialized tasks and results through an AMQP broker (or the in-memory queues). If IndexedStream::from(xs).map(op1)...map(opN).fold(op) returns Ok, the value is an in-order combination of one output for each element of xs, also if connections are lost, tasks are executed several times and workers stop; into_values_sorted() of the maps returns one output per element, in the order of xs, if no task of the maps was received by two workers (never the case in memory). Every leader of hello-world-rabbitmq that gets an Ok gets its own input back, so its assert_eq! never fails; it panics only if its connection for results is gone; an error is one of its own I/O, of an abort request that hit one of its own characters, or the complaint about a second final result, and then two workers received one of its tasks. When no connection or message is lost, workers consume from the bus, operations do not fail, and neither workers, nor broker, nor this leader can move, the pipeline has returned its value and main ends with Ok(()).",
  "every number of leaders, maps in a pipeline, workers, connections, every input string, serializer and prefetch limit, every interleaving with losses and redeliveries", "the example is only ever run by hand against one broker, with no lost connection and one leader",
  ["examples/hello-world-rabbitmq/leader/src/main.rs: main", "paladin-core/src/queue/amqp.rs: publish, declare_consumer", FU+": f_map", FO+": f_fold", RT+": main_loop"])
p("An abort request ends the computation it aborts",
  "When a leader sends the abort-all command (as hello-world-rabbitmq does when JOB_TIMEOUT is over), the workers set the abort signal that every operation can read, and give up the task they are executing. The operation answers the signal with an error, and the leader's computation returns that error.",
  "every number of leaders and workers, every moment of the abort, all operations that read the signal", "needs an abort at a particular moment of a task, and a claim about what happens for ever after",
  [RT+": main_loop (abort_worker_execution, sig_term)", "examples/hello-world-rabbitmq/leader/src/main.rs: set_abort_timeout_job", "examples/hello-world-rabbitmq/ops/src/lib.rs: CharToString"])
p("The configuration is the one the command line and the environment describe, and one that is accepted can be started",
  "A program whose command line is Config (as the worker of hello-world-rabbitmq) gets, for each option, the value on the command line, else that of its environment variable, else the default, whatever the order of the options and the way they are written; it exits if an argument belongs to no option, an option is given twice, a value cannot be read, or the amqp runtime is asked for without an address. The variable of an option on the command line does not matter. Every configuration can be given on the command line, whatever characters it is made of. With a configuration that has been accepted, from_config does not panic.",
  "all arguments, all environments, all configurations", "arguments and environments are unbounded, and an option interacts with its variable, its default and the other options",
  ["paladin-core/src/config/mod.rs: Config", "paladin-core/src/runtime/dynamic_channel.rs: DynamicChannelFactory::from_config", "examples/hello-world-rabbitmq/worker/src/main.rs: main"])
p("Closing a runtime silences that process, frees what it held, and disturbs nobody else",
  "After Runtime::close on an AMQP broker a call in progress or begun later through that runtime performs no further broker method and can only end with an error; its receivers are delivered nothing more and yield only what had arrived before, in order; nothing can be acknowledged. What they had not acknowledged goes back to the front of its queue in its old order. Whatever the other processes could do before they can do after, with the same effects. A result queue whose receiver was dropped before the close is deleted.",
  "every state of every number of processes at the moment of the close, every continuation", "needs a close at a particular moment of other calls, and a claim about every continuation",
  [RT+": Runtime::close", "paladin-core/src/channel/queue.rs: close, release", "paladin-core/src/queue/amqp.rs: close, delete_queue", "examples/hello-world-rabbitmq/leader/src/main.rs: main"])
p("Fold works on a bounded number of things at a time, and its back-pressure never deadlocks",
  "However long the input is and however slow the broker, a fold has at most ten items and ten results in hand and forty tasks not yet published; with ten items in hand it does not read its input. These limits change no answer: whatever fold returns it could return without them. They never block it: as long as publishes and acknowledgements complete, everything in hand is dealt with after a bounded number of steps.",
  "every input, every interleaving of items, results, publishes and acknowledgements, every failure", "a deadlock needs three bounded stages to be full at the same time, in one of very many orders",
  [FO+": f_fold, Dispatcher::try_dispatch, MAX_CONCURRENCY_PER_TASK", "paladin-core/src/queue/publisher.rs: publish_all"])
p("A failed job leaves the workers fit for the next one",
  "When an operation of one job fails and asks to terminate, that job's directive returns the error; a job started after that, whose operations do not fail, is carried out by the same workers as if nothing had happened: a map ends with a value for each input, a fold returns.",
  "every sequence of jobs, every number of workers, every interleaving", "needs two jobs in sequence on the same long-lived workers, and a claim about an unbounded wait",
  [RT+": main_loop (ipc_sig_term, select!), dispatch_fatal"])
p("Each leader program of hello-world-rabbitmq ends only with its own input or an error of its own, and disturbs workers only through its timeout",
  "Any number of leaders of hello-world-rabbitmq, with and without --timeout, run beside any number of workers. A leader exits with success only after connecting, computing exactly its input and closing its runtime; if its map keeps its connection, its assert_eq! never fails, it panics only if its fold loses its connection, and an error it exits with is that of its own connecting, closing, connection or runtime, or of a task of its own delivered twice, never that of an aborted operation. A leader without --timeout sends no abort command; one with --timeout t sends at most one, t seconds or more after it is connected and not after its end. Nobody else sends one. Each command reaches one worker: n commands disturb at most n workers.",
  "every number of leaders and workers, every input and timeout, every interleaving with losses and redeliveries", "the example is run by hand; whether a timer, a worker and another leader meet at a particular moment is up to the scheduler",
  ["examples/hello-world-rabbitmq/leader/src/main.rs: main, set_abort_timeout_job", "examples/hello-world-rabbitmq/worker/src/main.rs: main", "examples/hello-world-rabbitmq/ops/src/lib.rs: CharToString, StringConcat", RT+": main_loop"])
p("Deeply nested values survive serialization with either serializer",
  "A value of a recursive type (a list or a tree built with Box or Vec) that is the operation, input or output of a task can be read back after it was serialized, however deep it is nested, with Postcard and with Cbor; a task with such an input is executed, and its result reaches the leader.",
  "every type, every value, every depth", "values of unbounded depth",
  ["paladin-core/src/serializer/mod.rs: Serializer::to_bytes, from_bytes", "paladin-opkind-derive/src/lib.rs: get_result", "paladin-core/src/task/mod.rs: as_any_task, into_task_result"])
p("What survives a restart of the broker",
  "When the AMQP broker restarts, exactly the persistent messages of durable queues survive, as the documentation of DeliveryMode and QueueDurability says: such a message is in its queue again even if it had been delivered and not settled, and a process that connects afterwards can consume it. If everybody declares a queue durable, publishes persistent messages and nobody deletes it, no message is ever lost over any number of restarts, and what is published later still arrives, with both syndication modes. The queues of channels are not durable: of those a restart leaves nothing, and every unsettled task and result is lost; and no consumer or call from before the restart is served after it.",
  "every execution with any number of processes, queues and restarts", "restarts of a real broker at every point of every interleaving",
  ["paladin-core/src/queue/mod.rs: DeliveryMode, QueueDurability", "paladin-core/src/queue/amqp.rs: into_message_properties, into_queue_declare_options, into_declare_arguments", "paladin-core/src/channel/queue.rs: From<ChannelType> for QueueOptions"])
p("A process that loses its connection to the broker notices",
  "When the connection to the AMQP broker is lost, or the queue a process consumes is deleted, the process is told: a worker's main_loop returns, and a directive returns an error or its result stream yields one; nobody goes on waiting for messages that can no longer come.",
  "every moment of the loss, every execution before and after it", "whether it is noticed depends on what the process is waiting for at the moment of the loss, and the failure is that nothing happens",
  ["paladin-core/src/queue/amqp.rs: AMQPConsumer::poll_next", "paladin-core/src/channel/coordinated_channel/coordinated_stream.rs: poll_next", RT+": main_loop"])
p("A computation that is given up stops",
  "When the stream of a map is dropped before its end, or the future of a map or fold (by a timeout around it, say), nothing more is published for it, and the tasks already published that no worker has begun are not executed any more.",
  "every moment of giving up, every number of jobs and workers, every continuation", "needs a drop at every point of an execution and a claim about what workers do after it",
  ["paladin-core/src/directive/indexed_stream/functor.rs: f_map", FO+": f_fold", RT+": lease_coordinated_task_channel, main_loop", "paladin-core/src/channel/mod.rs: LeaseGuard"])

p("A consumer of an in-memory broadcast queue that is gone is forgotten",
  "When the last handle on a consumer of an in-memory broadcast queue has been dropped, the queue keeps no messages for it; and with DeliveryMode::Persistent, a message published when all consumers are gone is kept for the next consumer declared, as the documentation of BroadcastQueue says for a message published when there are no consumers.",
  "every number of consumers, handles and threads, every interleaving of publish, declare_consumer, poll and drop", "the loss shows only in a consumer that comes later, the memory only in the long run",
  ["paladin-core/src/queue/in_memory.rs: BroadcastQueue::publish, declare_consumer, InMemoryConsumer"])

p("A map yields results while its input goes on",
  "A poll of the stream of a map returns, however many items its input has ready, and once a result has arrived, polling yields it: results are yielded, and so the user can begin to use them or stop, before the input has ended; an endless input is mapped item by item.",
  "every input, finite or endless, every interleaving of polls, publishes and arriving results", "the failure is a single poll that does not return; endless inputs cannot be run to their end",
  ["paladin-core/src/directive/indexed_stream/functor.rs: f_map", "paladin-core/src/queue/publisher.rs: PublisherExt::publish_all", "paladin-core/src/queue/in_memory.rs: publish"])

p("No task waits for a busy worker while another is idle",
  "With several workers on an AMQP broker, a task that no worker has begun is in the bus queue, from where every waiting worker is sent it, or on its way to a worker that waits for it; it is never set aside for a worker that is busy with another task, and never for one that will not take it.",
  "every number of workers, leaders and tasks, every interleaving, every behaviour of the broker within the prefetch limit of one", "which worker is sent a task is the broker's choice; the windows in which it goes wrong are short or follow an abort",
  [RT+": main_loop", "paladin-core/src/queue/amqp.rs: AMQPConnection::new (basic_qos)", "paladin-core/src/runtime/dynamic_channel.rs: DynamicChannelFactory"])

p("No task is executed by two workers at a time, nor again once it has been executed",
  "With several workers on an AMQP broker, two workers never execute the same task at the same time, and a task that has been executed and acknowledged is not executed again.",
  "every number of workers, leaders and tasks, every interleaving, every loss of connections", "needs a connection lost at each point of an execution, and the effects of operations outside the system",
  [RT+": main_loop", "paladin-core/src/queue/amqp.rs: AMQPConsumer, AMQPAcker", "paladin-core/src/channel/mod.rs: ChannelType::ExactlyOnce"])

p("A job with few tasks is not held up by the size of another",
  "With several jobs in one in-memory runtime, a task is handed to a worker after a number of other tasks that does not depend on how many tasks the other jobs have.",
  "every number of jobs, workers and tasks, every interleaving", "needs jobs of every size beside each other, and a claim about all continuations",
  ["paladin-core/src/queue/in_memory.rs: InMemoryQueue, InMemoryConsumer", "paladin-core/src/directive/indexed_stream/functor.rs: map", RT+": Runtime::in_memory, get_task_sender"])

p("With a single worker results come back in the order of the tasks",
  "In an in-memory runtime with one worker, the results of a job reach its leader in the order in which its tasks were published, and a map, or a chain of maps, yields its values in that order, whatever other jobs share the worker; the values come out as `into_values_sorted` would sort them. With two workers this does not hold.",
  "every number of jobs, tasks and failures, every interleaving of leaders and the worker", "needs every interleaving of publishers, worker and readers; a test sees one",
  ["paladin-core/src/queue/in_memory.rs: InMemoryQueue, InMemoryConsumer", RT+": main_loop, spawn_emulator", "paladin-core/src/directive/indexed_stream/functor.rs: map"])

with open('/verif/properties.jsonl','w') as f:
    for x in P: f.write(json.dumps(x, ensure_ascii=False)+"\n")
print(len(P))
