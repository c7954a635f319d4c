# Formal model of paladin: design

Source: `/repo` (0xPolygonZero/paladin, pinned). Lean project: `/verif/lean`. Paths below are relative to
`/repo/paladin-core/src` unless they start with `paladin-opkind-derive`.

## Trusted base

* Lean 4.33.0's kernel. No axioms are added; every property theorem depends on at most `propext`,
  `Classical.choice`, `Quot.sound` (the table of axioms per theorem is kept at the end of this file). No `sorry`, `admit`,
  `native_decide`, `bv_decide`.
* The correspondence between the Rust text and the Lean definitions, which is by reading. Every Lean
  definition cites file and lines; simplifications are stated in that comment.
* External behaviour taken as parameters or as modelled steps, never proved. Neither the sources nor the documentation of any dependency were available: what is said below and in the modules about lapin, RabbitMQ, tokio, futures,
  crossbeam, DashMap, postcard, ciborium and clap comes from general knowledge of them and was not checked against the versions in `Cargo.lock`.
  * crossbeam `SkipMap` (`insert`, `remove`, `range`) is linearizable and ordered; `AtomicCell::take` is atomic;
    `SegQueue` is a linearizable FIFO; tokio `Semaphore` counts permits; atomics are sequentially
    consistent at each access (the code uses SeqCst, Acquire, Release and Relaxed; weaker reorderings are not modelled);
  * DashMap entry/iter operations: per-shard locking as described in the module concerned;
  * futures `select`, `try_join`, `try_for_each_concurrent` poll their children in an arbitrary order;
  * the AMQP broker (RabbitMQ) follows the small broker model in `Verif/Model/Amqp.lean`;
  * postcard and ciborium follow the formats and limits modelled in `Verif/Model/Wire.lean`;
  * `clap` 4.5 gives the attributes in `config/mod.rs` the meaning described in `Verif/Model/Cli.lean`;
  * user operations are arbitrary functions; user codecs are assumed lawful (`decode (encode x) = some x`).
* `usize` is unbounded `Nat` except where a module says otherwise (C55 treats 64-bit arithmetic; the pending
  counter of the coordinated channel wraps).

## Layout

`Verif/Model/*` models of code (with citations); `Verif/Spec/*` small specifications independent of the models;
`Verif/Proofs/*` helper lemmas and invariants; `Verif/Props/*` the property theorems and, beside each, a
concrete case meeting its hypotheses. `MANIFEST.json` maps property ids to theorem names.

## Models

| Model | Code | Form |
|---|---|---|
| `Contig` | `contiguous/queue.rs`, `Contiguous for TaskOutput` | association list sorted by key; functions |
| `ContigConc` | same, called from many threads | per-thread program counters, one atomic step each |
| `Fold` | `directive/indexed_stream/foldable.rs` | labelled transition system: item, input error, input end, publish, execute, receive |
| `FoldFine` | the same with `try_for_each_concurrent`, the `mpsc` channel and `publish_all` | `Fold` with the closures that wait |
| `MapS` | `directive/indexed_stream/functor.rs` | transition system over the coordinated channel |
| `Literal` | `directive/literal/functor.rs` | transition system over the coordinated channel |
| `Chain` | `directive/mod.rs`, both stages | product of `MapS` and `Fold` |
| `MapPoll` | `functor.rs` select, wakers | poll-level transition system |
| `Coord` | `channel/coordinated_channel/*` | atomic-step interleavings (counter an integer, equal to the `usize` modulo 2^64), and uninterrupted calls built from them |
| `Acker` | `acker.rs`, composition in `runtime/mod.rs` lease | functions on states |
| `InMem` | `queue/in_memory.rs` queue with semaphore | push/permit/acquire/pop interleavings, tokio's waiting list |
| `Broadcast` | `queue/in_memory.rs` `BroadcastQueue` | publishers and declarations step by step, DashMap shard locks |
| `Connection` | `queue/in_memory.rs` `InMemoryConnection` | functions; refinement of a specification |
| `Retry` | `operation/error.rs` | attempts as a stream of outcomes; trace of events |
| `Wire`, `Messages` | `serializer/mod.rs`, `task/mod.rs`, `CommandIpc`, fold metadata | byte-level postcard and CBOR encoders/decoders for all types serde derives produce (a universe `Ty` of type descriptions) |
| `Exec` | `task/mod.rs`, `operation/mod.rs`, `paladin-opkind-derive/src/lib.rs` | task pipeline over abstract lawful codecs |
| `Worker` | `runtime/mod.rs` main loop | transition system with clock, commands, crash |
| `Amqp` | `queue/amqp.rs` | client calls against a broker model |
| `Restart` | `queue/mod.rs` options, `queue/amqp.rs` 68-115 | `Amqp` with delivery modes and restarts of the broker |
| `Notice` | `queue/amqp.rs` 504-537, `coordinated_stream.rs` 125-159, `runtime/mod.rs` 662-812 | consumers whose connection is lost or which are cancelled, below a worker (`Worker`) and below a directive |
| `MapLong` | `indexed_stream/functor.rs` 40-67, `queue/publisher.rs` 58-74 | the stream of a map with the loop of `publish_all` (`PubAll`) inside each poll |
| `Chan` | `channel/mod.rs`, `channel/queue.rs`, `runtime/mod.rs` lease | lifecycle transition system |
| `PubAll` | `queue/publisher.rs` | adapters; `try_for_each_concurrent` |
| `IdxStream` | `directive/indexed_stream/mod.rs` | functions on lists |
| `Arith` | `foldable.rs` `is_final`, `is_contiguous`: index arithmetic | `UInt64`, checked and wrapping |
| `Adapters` | `queue/publisher.rs`, `acker.rs`: adapters | functions in an arbitrary monad |
| `Life` | `runtime/mod.rs` main loop, emulator, `Drop for Runtime` | what each loop has spawned and left behind |
| `SystemBytes` | the system with messages as bytes (`task/mod.rs`, `runtime/mod.rs`) | instance of `System` with `Exec` and `Wire` |
| `System`, `SystemClients` | leaders, task queue, workers, result queues together (`runtime/mod.rs`) | product of directives (`MapS`, `Fold`), broker and `Worker`s |
| `SystemAmqp` | leaders and workers on `queue/amqp.rs` queues and a broker (`runtime/mod.rs` 131-161, 428-445) | `System` with `Amqp` for the queues |
| `SystemMem` | leaders and workers on `queue/in_memory.rs` queues (`runtime/mod.rs` 164-195) | `System` with `InMem.Chan` for every queue |
| `Setup` | `config/mod.rs`, `runtime/dynamic_channel.rs`, `from_config`s and senders/receivers of `runtime/mod.rs` | transition system over configurations, connections and queue names |
| `Cli` | `config/mod.rs` with its `clap` attributes | total function, arguments and environment to configuration |
| `Hello` | `examples/hello-world-rabbitmq` (`ops/src/lib.rs`, end of `leader/src/main.rs`) | instance of `SystemBytes` |
| `Program` | `examples/hello-world-rabbitmq` (`leader/src/main.rs` 29-79, `worker/src/main.rs`) | transition system: clock, processes with timers, command channel, over `SystemAmqp` |

Not modelled: logging/tracing, TLS and connection set-up, tracing set-up in the example programs,
thread scheduling inside tokio and rayon, memory ordering weaker than sequential consistency, documentation.

## Properties: how each is modelled and proved

* C01, C02: `Contig`; proofs by sortedness and disjointness invariants over arbitrary op lists.
* C03: `ContigConc`; inductive invariant over all interleavings with distinct keys.
* C04: false of the code (check-then-insert race). Witness execution, and a partial theorem: no pair is missed when
  calls do not overlap (the way fold uses the queue).
* C05, C06, C07, C09, C10, C11: `Fold`; the spec is `Eval` (bracketings of a list). Invariant: every live segment
  evaluates its index interval and the segments partition the received items. C10 is false for a one-element stream
  with non-zero index (panic), and when the stream of results ends after two items (`C10_disconnect`); witnesses and partial.
* C08: false when the last result arrives before end-of-stream is observed; witness and partial theorem (a variant
  shows every execution is finite and the only stuck states are finished ones, if the stream's end is seen before the last
  result).
* C12–C16, C58: `MapS`. C14 is false when the consumer stream ends early; C16 is false under redelivery; witnesses and
  partials.
* C17: `Literal`; once the result stream has ended before a result came, the call never returns (`C17_disconnect`). C18: `Chain`, composition of the two transition systems, and stage theorems for longer chains.
* C57: `MapPoll`, poll-level model of `select` with wakers over a sending side and a consumer that keep the waker contract; false (a poll order in which closing wakes
  nobody): witness, exact description of the bad case, partial. `C57_refines`: simulation of `MapPoll` by `MapS` (relation `Core`), message counts against messages.
* C19: `Coord`, calls from one task. C22, C23: `Coord`, also all interleavings. C25: `Acker`. C20 false (two-load race): witness, partial. C21 false for a
  parked receiver: witness, partial. C24 false: witness, partial.
* C26, C27, C62: `InMem` interleavings; C62 false (a message reserved for a woken consumer that is not polled): witness, partial; `C62_reserved`: messages are reserved only for consumers that polled and have neither been served nor dropped since (induction over the trace).
  C28–C30, C61: `Broadcast`; invariants on ids, names, history, each consumer's queue; C61 by a variant and progress. C30 false for concurrent
  declarations: witness, partial.
* C31: `Connection`, simulation.
* C32, C33, C35, C36: `Retry`. C34 false: witness, partial.
* C37, C38, C59, C60: `Wire`; round trips by induction on type descriptions; truncation because decoders never look beyond what they
  consume. C59 false for CBOR and directly nested options: witness, partial; beyond 256 levels of nesting see C88. Floats are bit patterns, with IEEE 754's
  conversions written out (CBOR sends the narrowest of `f16`, `f32`, `f64` that converts back); an `f32` signalling NaN is left out, since Rust's conversions may make it quiet.
* C39, C40: `Exec`, the task pipeline on bytes. C40 false: a panic in a retry takes over the first error's strategy, a panicking
  `Deserialize` or an unknown operation id crashes the worker: witness, partial. C41: false beyond 256 operations and across
  crates: exact condition, witness, partial.
* C42–C46, C63, C64: `Worker`, a labelled transition system of the loop, the command handler and the reaper. C43 false at the
  edges (a repeated Abort does not renew the mark; check and start are not atomic); C44 false (coalesced commands);
  C45 second half false (Ignore marks the job terminated); C46 false (ack and publish are concurrent); C63 false once the
  command stream ends; C64 false (only abort-all interrupts): witnesses, partials.
* C47–C50, C65, C66: `Amqp`, client calls as sequences of broker methods, interleaved with other processes, deliveries, polls, acks, expiry and lost
  connections. Trusted: the broker semantics in `method` (declaration equivalence, routing, prefetch, closing the AMQP channel on an error, requeueing)
  and that lapin wakes a task only when a delivery arrives after the poll that returned `Pending`. Broker restarts: C89. Not modelled: colliding consumer tags, message time-to-live.
  C47 false (one shared queue); C48 false after expiry; C49 false (prefetch window fills up; next message hidden); C65 false for broadcast channels; C66 false
  after requeueing: witnesses, partials. C50 also says that what has been declared lasts until somebody deletes it or it expires (`C50_lasts`), C65 that every error of the broker
  closes the AMQP channel it was raised on (`C65_error_closes`).
* C51, C52, C67: `Chan`, queues as FIFOs with the two ways of reaching them (by handle in memory, by name on AMQP); invariant on names and phases. C52's last
  sentence is false when a late result re-creates the queue; C67 false (no guard exists yet when `declare_consumer` fails): witnesses, partials.
* C53: `PubAll`, poll-level model of `try_for_each_concurrent` (stream answers, publishes that send, resolve and wake, polls in every order). False
  only for the limit 0, which means no limit: witness, partial. C54: `IdxStream`, iterators as arbitrary state machines; `sort_by` is any function that returns a
  sorted permutation. C55: `Arith`, `UInt64` with checked and wrapping addition. C56: `Adapters`, effects are an arbitrary monad.
* C68: `System`, a forward simulation of the whole system by each job alone with an unreliable bag of tasks (`Spec/System.lean`), then C05, C06, C12, C13 for the directive alone. The
  encodings between directive and wire are parameters assumed transparent (`MapFaithful`, `FoldFaithful`). Simplified: deliveries take any message of the queue; a rejected message is
  discarded (lapin's default `requeue = false`); publishing a result is one step; the broker may return an unacknowledged delivery at any time.
* C69: `System`, exact characterization of the steps that lose a delivery, by a case analysis over the worker's steps under an invariant linking deliveries to worker states. C70 false for
  errors that ask for termination: witness, partial. Which commands were sent is expressed on the execution (`commandsSent`).
* C71: `System`; a variant (work left of leaders, queue and workers) bounds the steps without new input; an invariant on healthy workers shows that at rest every task was answered, and then
  C58 and C08 apply to the job alone. Operations need to succeed only on the inputs, and combinations on what can arise from them. False for folds only where C08 is. Inputs that cannot be serialized are excluded by hypothesis; `C71_map_bytes` and `C71_fold_bytes_partial` say what
  is needed when messages are bytes (indices below `2^64`, serializable inputs and outputs).
* C72: `SystemBytes`, the instance of `System` in which tasks and results are the bytes of `AnyTask` and `AnyTaskResult`, executed by `Exec.remoteExec`. Shows that the encodings are
  transparent (`map_faithful`, `fold_faithful`), which discharges the assumption of C68. Assumed of user types: registered under their id, `Deserialize` inverts `Serialize`.
  Undecodable messages and panics of the worker give a fatal error in this model, so it has more executions than the code.
* C73: `Life`, the loops of a process with the tasks they spawn; each loop evolves independently, and an invariant relates what runs to what happened to it. False on every exit but the
  last line of `main_loop`: exact account, witnesses, partial.
* C74: `System` and `SystemBytes`. Provenance of errors by induction over the run; "nothing is left" by counting: tasks sent by the leader = deliveries + queued, results taken = answered
  - published, and a map that ended (fold that returned Ok) has taken as many results as it has sent tasks (`Proofs/SystemCount`, `Proofs/SystemFails`). The text of an error is that of the
  attempt that failed (`Reports`), for executions that end.
* C75: `System` and `SystemBytes`; `Spec/SystemPipe.lean` says that each map reads what the one before has yielded. By induction over the pipeline, with the stage theorems of C18 and, for completion, C71
  (whose hypotheses on operations concern only what reaches them). Missing where C08 is false.
* C76: `Hello`, the instance of `SystemBytes` with the two operations of the example. Composes C74 and C75; `StringConcat` cannot overflow since every value combined is a piece of the input. The abort flag
  is an arbitrary function of the moment of the call and the iteration, so C76 holds whoever sets it; C82 ties it to the flag of the worker's loop, and then its error of an aborted task cannot occur. `Debug for char` is a parameter that prints at most 12 bytes. Completion false
  where C08 is: witness, partial.
* C77: `Setup`. Leaders and workers are made from configurations; messages go to queues (a connection and a name) as bytes. Invariants: every in-memory connection belongs to one leader with its workers or to one worker; every message is in the
  queue its publisher's configuration determines. `Together`, `Near`, `Peers` (the specification) speak about configurations and owners only. Negative: the command channel's name as bus name (witness). How queues deliver is left open here; see C47–C51, C68.
* C78: `Exec`, with arbitrary bytes and codecs instead of lawful ones: case analysis of `workerBytes` and `leaderBytes`. `Rejected` and `Panics` (Spec/Exec) say what the deserializers do.
* C79: `SystemMem`, the product of `System`'s leaders and workers with one `InMem.Chan` (messages and semaphore) per queue. Refinement to `System` (`inv_run`): the invariant relates permits, waiting
  consumers, granted permits and publishers that have pushed but not yet added their permit to the number of messages, so that a popped permit always finds a message. Completion: in a state where no poll, permit,
  pop, leader or worker step is possible, no step of `System` is possible either (`work_quiet`, `lead_quiet`), so C71 applies; termination by a weighted count of owed permits, askers and `System`'s measure.
* C80: `SystemAmqp`, the product of `System`'s leaders and workers with the broker of `Amqp`, whose other steps (declarations, deletions, deliveries, cancellations, lost connections, requeues, expiry) are the
  environment's. Refinement to `System` (`sim_run`): `Rel` relates `System`'s queue to the tasks that some consumer may still yield, its deliveries to the yields of the workers' consumers, and its result queues to the results
  a leader has not received. A requeued message that a worker still holds is returned in `System` only when a second worker receives it, so the redelivery shows in `yielded` (`Redelivered`).
  Completion: `Attended` says which consumers exist and that nothing was lost; sleepers are woken by deliveries (`Alert`); a state at rest here is at rest in `System` (`work_quiet`, `lead_quiet`), so C71 applies.
  Termination: `System`'s measure over what waits (`total`), then messages on their way (`toDo`). Publishing is one step (the channel is not in confirm mode: amqp.rs never calls `confirm_select`).
* C81: no new model: the executions of `SystemAmqp` and `SystemMem` whose clients exchange bytes (`SystemBytes`) and are chained (`Spec/AmqpPipe.lean`: each directive reads what the one before yields). Proved by carrying
  pipelines, stuck states and redeliveries over the refinements of C79 and C80 to the theorems of C75 and C76. The missing case is that of C08.
* C82: no new model: `Worker`, `System` and `Hello`. `Spec/Abort.lean` says that operations read the flag of the worker that runs them (`Truthful`), which the models of the executions leave open. False:
  `main_loop` sets the flag (761-764) in the poll in which the interrupting branch of its `select!` wins, so an execution that sees the flag is abandoned (C82_unseen), its task is rejected and lost (C82_lost,
  with C69), and a map or fold that lost a task never returns (C82_map_hangs, C82_fold_hangs for any operations that fail only on the signal; C82_hangs for the example program; with C74, C75 and C76). What holds: the worker gives up (C82_stops_partial). On an AMQP broker the same, over the refinement of C80, which keeps the place of
  a worker's step in the execution (`sim_at`). On the in-memory queues the same over the refinement of C79, and there without a condition on redeliveries, as there are none (C82_memory_map, C82_memory_fold).
* C83: `Cli`, `clap`'s reading of `Config` as a total function on arguments and variables; the specification is a grammar of command lines and a reading of each field. Proved by equivalence of parser and grammar. False in its
  last sentence: `required_if_eq("runtime", "amqp")` looks only at what the user has given, so the default runtime slips through without an address: witness, exact condition, partial.
* C84: `Amqp`; a close is the label `lose` of the process's connection. Calls and receivers by induction over what follows, comparing with the state at the close; what the others can do by a simulation between the run without and the run with the close. The last sentence is false (`C84_leak`, witness): a release is a spawned task (channel/queue.rs:186-188) that the close overtakes. In memory `close` does nothing (queue/in_memory.rs:86-88).

* C85: `FoldFine`, fold with its limits (items and results in hand, `mpsc` channel with parked senders, publishes under way). Simulation by `Fold` (what is being published counts as waiting, a final result in hand as not
  yet received); invariant: as many senders are parked as the channel holds messages beyond its capacity, each for a closure in hand. C08 is lifted along the simulation; the hang is there too (witness).

* C86: no new model: `Worker`, `System`, `SystemMem`, `SystemAmqp`; `Spec/Aftermath.lean` and `Spec/AftermathAmqp.lean` say which executions come after an abort-all command. False: the watch receiver of each task is a clone of one that has seen nothing (runtime/mod.rs:751), so
  an old command interrupts the next task of every worker that has heard it, however late that is. Such a worker starts at most one more task (C86_last_task), answers none (C86_no_answer), and a later map or fold on such workers
  never returns (C86_later_map, C86_later_fold; in memory C86_memory_map, C86_memory_fold; on a broker C86_broker_no_answer, C86_broker_map, C86_broker_fold, whatever is redelivered; witnesses). `Prompt` excludes the one race that helps the task: an execution that is over in the first poll of the `select!`. What holds: without termination requests no worker hears a command (C86_undisturbed_partial).
* C87: `Program`: each leader of the example is a process (connecting, computing, closing, ended) with a timer task, the clock counts seconds, and the command channel is one queue shared by the workers (C47). Phases, timers and
  command counts are invariants over all executions; `C87_runs` projects an execution to one of `SystemAmqp` and discharges the hypotheses of C81 and C82 about what leaders read. `Reads` says that an operation sees the abort signal
  only if it is set on its worker. The hang of a timed-out leader is C87_hangs with a witness.
* C88: `Wire`: the CBOR decoder carries ciborium's remaining levels of recursion (256 at the start; arrays, maps, tuples, structs and enums take one, options and scalars none). `Ty.levels` of Spec/Wire says how deep a value is
  nested; by induction on types reading back succeeds exactly up to the limit (C88_cbor_partial, C88_cbor_limit). Recursive types have no finite `Ty`; each value lives in an unfolding, and C88_list shows for a list type that bytes and
  outcome do not depend on which. C88_task and C88_result follow such a value through the task pipeline of C39. False for CBOR, so partial; Postcard in full.
* C89: `Restart`, a layer over `Amqp`: the delivery mode of each message is remembered, and a step `restart` breaks all connections, removes what is not durable and returns unsettled deliveries to durable queues. Trusted: that an
  orderly restart of RabbitMQ does this. The invariants of `Amqp` are shown to hold after a restart too (counting messages over all queues and consumers), so C48's accounting holds with restarts (C89_one_place, C89_at_most_once). The
  options of queues, exchanges and messages are traced back to the calls that were made (`Origin`), so that C89_durable, C89_routes and C89_channels speak of calls only. Not modelled: a crash that loses what was not yet written.
* C90: `Notice`. lapin's consumer is a queue of items and a waker; `poll_next` is modelled on it. The worker is the model `Worker` with its deliveries taken from that queue and with calls to the broker possible only while connected; a
  directive is reduced to its counts. False: a process that is waiting sleeps for ever (C90_lost, C90_directive_lost, C90_directive_cancelled), by an invariant over every continuation; one that has a call to make fails in it
  (C90_busy_partial, C90_busy_ends, C90_directive_partial). Trusted, from general knowledge of lapin and unchecked (neither its source nor its documentation is in the sandbox), and the whole finding rests on it: a closed connection queues an error and the end of the stream together and wakes once; a task is polled only
  after a wake (a caller that puts `main_loop` into a `select!` beside other futures polls more often, and then the end is found).
* C91: `System`, with "given up" as: the leader of the job takes no step any more. What dropping does to its result queue is C52, C65 and C67; here only the tasks matter. The tasks of a job are counted over the task queue and the
  deliveries not returned (`owned`), an invariant up to permutation of every step but the leader's own publishes. That everything is executed comes from C69 and C71's lemmas (`steady_idle`); that this point is reached, from the
  measure of `SystemEnds`.
* C92: `Broadcast`, with "gone" as: from some moment on no handle on the consumer takes a message (handles may be dropped or not). That publications begun after a declaration never reach the history is an invariant over the
  publisher's count of the shards: a shard with a consumer in it has been counted as non-empty once it is passed. A later consumer's queue can only be fed by the history, a declaration's buffer or a running publisher, and the
  message is in none of them. The claim is false and its negation is proved for every interleaving. The growth of `seen` is not stated.
* C93: `MapLong` is the stream of a map with the sending side not as one step (as in `MapPoll`, C57) but as the loop of `PubAll` (C53), run inside a poll; results arrive at any moment. `C93_endless` follows from an
  invariant that describes every state of an execution in which the input is always ready and publishing never waits; `C93_returns_partial` from a measure of the steps a poll can still make. The theorems of C57 and C58
  take it for granted that a poll of the sending side returns. How `select` alternates and `try_for_each_concurrent` loops is from general knowledge of futures.
* C94: no new model; over `SystemAmqp`. The invariant `Grasp` says that the broker's account of what a worker holds is exactly the task the worker's loop has in hand, so that the limit of one unsettled message leaves nothing
  for its buffer. `C94_strands`: every step of the system is a run of the broker's model in which a consumer is polled only by its owner (`net_run`), so what is in the buffer of a worker that polls no more stays there.
  That the limit holds per consumer, and that the broker sends a message as soon as it is settled, is from general knowledge of RabbitMQ.
* C95: no new model; over `SystemAmqp`. By the invariant `Single` at most one of the consumers that a message was sent to has its connection: a message is sent again only after it was put back, and it is put back only when the
  connection of the consumer that had it is lost. `C95_done` follows from the account of where each message is (`Amqp.Data`): what is acknowledged is in no queue.
* C96: no new model; over `SystemMem`. `C96_turn_partial` follows from the invariant that the tasks handed out, followed by those waiting, only grow at the end (C79), and from the number of tasks handed out never going down.
  `C96_crowd` is proved by induction on the list: the three steps in which a map publishes an item are possible whenever no publish is under way, and lead back to such a state.
* C97: no new model; over `SystemMem`. Invariant `Ord`: no other worker is busy, the busy worker works on the last delivery, and the results received and waiting are the outcomes of the answered deliveries in order;
  by cases on the effect of each step (`System.Eff`). Invariant `Got`: the values yielded are a sublist of the results received, decoded. `C97_input`: the first inputs were pushed, the following ones are under way (`Pushes`). `C97_publish_all` is over `PubAll`: at most one publish runs at a time
  if none is left running by a poll. That in memory no poll leaves one running is read off `in_memory.rs` 146-151 and 485-491, where nothing is awaited.
  `C53_refines`: simulation of `PubAll` (poll by poll, limit 10) by the sending side of `MapS` (relation `Sends`: publishes that have not handed over their message are in flight, those that have are unconfirmed), one step at a time, so that C97's hypothesis on the order of sending is what `publish_all` does. `C53_realized`: the converse, a poll of `PubAll` per step of `MapS`, so that witnesses over `MapS` are not due to the coarser model. `C97_pipeline`, `C97_unsorted`: chains of maps, by induction over the chain (the values are images of a sublist of the input, in order), with C75 for the number of values. `C97_sequential`: C97 with `C79_map_bytes` (completion, the encodings discharged). `C79_sorted_completes`, `C80_sorted_completes`: the same for `into_values_sorted` with any workers, in memory and over a broker. `C81_memory_sorted_completes`, `C81_sorted_completes`, `C97_chain_sequential`: the same for chains of maps. `C79_sorted_reached`: with the bound of `C79_ends`, a state where the call returns is reached from every healthy one. `C97_bytes`, `C72_memory_map`, `C72_memory_fold`: C97 and C79 for the operations of C72 (`Spec/MemBytes.lean`), whose messages are bytes.

## Axioms per theorem

Output of `#print axioms` for every theorem of MANIFEST.json (`tools/axioms.py`).

| Theorem | Axioms |
|---|---|
| `Paladin.C01_find_contiguous` | propext, Classical.choice, Quot.sound |
| `Paladin.C02_acquire` | propext, Classical.choice, Quot.sound |
| `Paladin.C02_history` | propext, Classical.choice, Quot.sound |
| `Paladin.Conc.C03_conserved` | propext, Classical.choice, Quot.sound |
| `Paladin.Conc.C03_at_rest` | propext, Classical.choice, Quot.sound |
| `Paladin.Conc.C04_missed_pair_witness` | propext, Quot.sound |
| `Paladin.Conc.C04_missed_only_if_overlapping_partial` | propext, Classical.choice, Quot.sound |
| `Paladin.Conc.C04_one_at_a_time_partial` | propext, Classical.choice, Quot.sound |
| `Paladin.Fold.C05_fold_ok` | propext, Classical.choice, Quot.sound |
| `Paladin.Fold.C05_fold_in_order` | propext, Classical.choice, Quot.sound |
| `Paladin.Fold.C06_fold_eq_sequential` | propext, Classical.choice, Quot.sound |
| `Paladin.Fold.C06_fold_monoid` | propext, Classical.choice, Quot.sound |
| `Paladin.Fold.C08_empty` | propext, Classical.choice, Quot.sound |
| `Paladin.Fold.C10_single` | propext, Classical.choice, Quot.sound |
| `Paladin.Fold.C07_combine_count` | propext, Classical.choice, Quot.sound |
| `Paladin.Fold.C07_partition` | propext, Classical.choice, Quot.sound |
| `Paladin.Fold.C08_bounded` | propext, Classical.choice, Quot.sound |
| `Paladin.Fold.C08_completes_partial` | propext, Classical.choice, Quot.sound |
| `Paladin.Fold.C08_can_complete_partial` | propext, Classical.choice, Quot.sound |
| `Paladin.Fold.C08_hang` | propext, Classical.choice, Quot.sound |
| `Paladin.Fold.C08_hang_witness` | propext, Classical.choice, Quot.sound |
| `Paladin.FoldFine.C08_limits_completes_partial` | propext, Classical.choice, Quot.sound |
| `Paladin.FoldFine.FineDemo.C08_limits_hang_witness` | propext, Quot.sound |
| `Paladin.Fold.C09_combine_error` | propext, Classical.choice, Quot.sound |
| `Paladin.Fold.C09_input_error` | propext, Quot.sound |
| `Paladin.Fold.C09_loss_never_ok` | propext, Classical.choice, Quot.sound |
| `Paladin.Fold.C09_error_provenance` | propext, Classical.choice, Quot.sound |
| `Paladin.Fold.C09_error_operands` | propext, Classical.choice, Quot.sound |
| `Paladin.Fold.C10_gap_never_ok` | propext, Classical.choice, Quot.sound |
| `Paladin.Fold.C10_offset_partial` | propext, Classical.choice, Quot.sound |
| `Paladin.Fold.C10_panic` | propext, Classical.choice, Quot.sound |
| `Paladin.Fold.C10_disconnect` | propext, Classical.choice, Quot.sound |
| `Paladin.Fold.C10_single_witness` | propext |
| `Paladin.MapS.C12_map_one_each` | propext, Classical.choice, Quot.sound |
| `Paladin.MapS.C12_map_sound` | propext, Classical.choice, Quot.sound |
| `Paladin.MapS.C13_map_sorted` | propext, Classical.choice, Quot.sound |
| `Paladin.MapS.C13_map_pure` | propext, Classical.choice, Quot.sound |
| `Paladin.MapS.C14_no_silent_drop_partial` | propext, Classical.choice, Quot.sound |
| `Paladin.MapS.C14_disconnect_witness` | propext |
| `Paladin.MapS.C15_failure_surfaces` | propext, Classical.choice, Quot.sound |
| `Paladin.MapS.C15_op_error_surfaces` | propext, Classical.choice, Quot.sound |
| `Paladin.MapS.C15_error_provenance` | propext, Classical.choice, Quot.sound |
| `Paladin.MapS.C16_once_partial` | propext, Classical.choice, Quot.sound |
| `Paladin.MapS.C16_redelivery_partial` | propext, Classical.choice, Quot.sound |
| `Paladin.MapS.C16_redelivery_witness` | propext |
| `Paladin.Lit.C17_literal_map` | propext, Classical.choice, Quot.sound |
| `Paladin.Lit.C17_literal_failure` | propext, Classical.choice, Quot.sound |
| `Paladin.Lit.C17_literal_completes` | propext, Classical.choice, Quot.sound |
| `Paladin.Lit.C17_once` | propext, Classical.choice, Quot.sound |
| `Paladin.Lit.C17_disconnect` | propext, Classical.choice, Quot.sound |
| `Paladin.Chain.C18_map_fold` | propext, Classical.choice, Quot.sound |
| `Paladin.Chain.C18_map_fold_sequential` | propext, Classical.choice, Quot.sound |
| `Paladin.Chain.C18_disconnect_witness` | propext |
| `Paladin.MapS.C18_map_stage` | propext, Classical.choice, Quot.sound |
| `Paladin.Fold.C18_fold_stage` | propext, Classical.choice, Quot.sound |
| `Paladin.Coord.C19_end_means_done` | propext, Classical.choice, Quot.sound |
| `Paladin.Coord.C19_end_is_final` | propext, Classical.choice, Quot.sound |
| `Paladin.Coord.C19_yields_once` | propext, Classical.choice, Quot.sound |
| `Paladin.Coord.C20_early_end_witness` | propext |
| `Paladin.Coord.C20_end_partial` | propext, Classical.choice, Quot.sound |
| `Paladin.Coord.C20_closed_before_partial` | propext, Classical.choice, Quot.sound |
| `Paladin.Coord.C21_close_does_not_wake_witness` | propext |
| `Paladin.Coord.C21_parked_forever` | propext, Classical.choice, Quot.sound |
| `Paladin.Coord.C21_next_poll_partial` | propext, Classical.choice, Quot.sound |
| `Paladin.Coord.C21_woken_partial` | propext, Classical.choice, Quot.sound |
| `Paladin.Coord.C22_rejected` | propext, Classical.choice, Quot.sound |
| `Paladin.Coord.C22_threads` | propext, Classical.choice, Quot.sound |
| `Paladin.Coord.C23_once` | propext, Classical.choice, Quot.sound |
| `Paladin.Coord.C23_calls` | propext, Classical.choice, Quot.sound |
| `Paladin.Coord.C24_failed_publish_blocks` | propext, Classical.choice, Quot.sound |
| `Paladin.Coord.C24_blocks_witness` | propext |
| `Paladin.Coord.C24_sent_failures_partial` | propext, Classical.choice, Quot.sound |
| `Paladin.Acking.C25_sequential` | propext |
| `Paladin.Acking.C25_leased` | propext, Classical.choice, Quot.sound |
| `Paladin.InMem.C26_exactly_once` | propext, Classical.choice, Quot.sound |
| `Paladin.InMem.C27_no_panic` | propext, Classical.choice, Quot.sound |
| `Paladin.InMem.C27_permits` | propext, Classical.choice, Quot.sound |
| `Paladin.InMem.C27_broadcast` | propext, Classical.choice, Quot.sound |
| `Paladin.InMem.C28_at_most_once` | propext, Classical.choice, Quot.sound |
| `Paladin.InMem.C28_delivered` | propext, Classical.choice, Quot.sound |
| `Paladin.InMem.C29_kept` | propext, Classical.choice, Quot.sound |
| `Paladin.InMem.C29_at_rest` | propext, Classical.choice, Quot.sound |
| `Paladin.InMem.C30_split_witness` | propext, Quot.sound |
| `Paladin.InMem.C30_replay_partial` | propext, Classical.choice, Quot.sound |
| `Paladin.Connection.C31_isolated` | propext, Quot.sound |
| `Paladin.Retry.C32_attempts` | propext, Quot.sound |
| `Paladin.Retry.C32_counts` | propext, Quot.sound |
| `Paladin.Retry.C32_deterministic` | propext, Quot.sound |
| `Paladin.Retry.C33_first` | propext, Quot.sound |
| `Paladin.Retry.C33_attempts` | propext, Quot.sound |
| `Paladin.Retry.C33_exponential` | propext, Quot.sound |
| `Paladin.Retry.C33_trace` | propext, Quot.sound |
| `Paladin.Retry.C33_exponential_trace` | propext, Quot.sound |
| `Paladin.Retry.C34_fatal_retried_witness` | propext, Quot.sound |
| `Paladin.Retry.C34_first_fatal_partial` | propext, Quot.sound |
| `Paladin.Retry.C35_exponential` | propext, Quot.sound |
| `Paladin.Retry.C35_terminates` | propext, Quot.sound |
| `Paladin.Retry.C36_transient` | none |
| `Paladin.Retry.C36_fatal` | none |
| `Paladin.Retry.C36_into_fatal` | propext, Quot.sound |
| `Paladin.Retry.C36_exhausted` | propext, Quot.sound |
| `Paladin.Wire.C37_postcard` | propext, Classical.choice, Quot.sound |
| `Paladin.Wire.C37_injective` | propext, Classical.choice, Quot.sound |
| `Paladin.Wire.C38_cbor` | propext, Classical.choice, Quot.sound |
| `Paladin.Exec.C39_transparent` | propext, Classical.choice, Quot.sound |
| `Paladin.Exec.C39_success` | propext, Classical.choice, Quot.sound |
| `Paladin.Exec.C39_sound` | propext, Classical.choice, Quot.sound |
| `Paladin.Exec.C39_derived_lawful` | propext, Classical.choice, Quot.sound |
| `Paladin.Exec.C40_first_panic_partial` | propext, Classical.choice, Quot.sound |
| `Paladin.Exec.C40_contained_partial` | propext, Classical.choice, Quot.sound |
| `Paladin.Exec.C40_witness` | propext, Classical.choice, Quot.sound |
| `Paladin.Exec.C41_possible_iff` | propext, Classical.choice, Quot.sound |
| `Paladin.Exec.C41_one_crate_partial` | propext, Quot.sound |
| `Paladin.Exec.C41_witness` | propext, Classical.choice, Quot.sound |
| `Paladin.Worker.C42_settled` | propext, Classical.choice, Quot.sound |
| `Paladin.Worker.C42_earlier` | propext, Classical.choice, Quot.sound |
| `Paladin.Worker.C42_counts` | propext, Quot.sound |
| `Paladin.Worker.C43_not_started_partial` | propext, Classical.choice, Quot.sound |
| `Paladin.Worker.C43_marked_partial` | propext, Classical.choice, Quot.sound |
| `Paladin.Worker.C43_mark_dropped` | propext, Classical.choice, Quot.sound |
| `Paladin.Worker.C43_witness` | propext, Classical.choice, Quot.sound |
| `Paladin.Worker.C44_coalesced_witness` | propext |
| `Paladin.Worker.C44_signal_partial` | propext, Classical.choice, Quot.sound |
| `Paladin.Worker.C44_stops_partial` | propext, Classical.choice, Quot.sound |
| `Paladin.Worker.C44_state_partial` | propext, Classical.choice, Quot.sound |
| `Paladin.Worker.C44_then_stops_partial` | propext, Quot.sound |
| `Paladin.Worker.C44_flag_partial` | propext, Classical.choice, Quot.sound |
| `Paladin.Worker.C45_published_partial` | propext, Classical.choice, Quot.sound |
| `Paladin.Worker.C45_ignore_witness` | propext |
| `Paladin.Worker.C46_witness` | propext |
| `Paladin.Worker.C46_acked_partial` | propext, Classical.choice, Quot.sound |
| `Paladin.Worker.C46_publish_first_partial` | propext, Classical.choice, Quot.sound |
| `Paladin.Amqp.C47_never_two` | propext, Classical.choice, Quot.sound |
| `Paladin.Amqp.C47_witness` | propext, Classical.choice, Quot.sound |
| `Paladin.Amqp.C47_one_consumer_partial` | propext, Classical.choice, Quot.sound |
| `Paladin.Amqp.C48_same_name` | propext, Classical.choice, Quot.sound |
| `Paladin.Amqp.C48_one_place` | propext, Classical.choice, Quot.sound |
| `Paladin.Amqp.C48_at_most_once` | propext, Classical.choice, Quot.sound |
| `Paladin.Amqp.C48_returned` | propext, Quot.sound |
| `Paladin.Amqp.C48_reaches_partial` | propext, Classical.choice, Quot.sound |
| `Paladin.Amqp.C48_deleted` | propext, Classical.choice, Quot.sound |
| `Paladin.Amqp.C48_deleted_final` | propext, Classical.choice, Quot.sound |
| `Paladin.Amqp.C48_expired_witness` | propext, Quot.sound |
| `Paladin.Amqp.C49_stall` | propext, Classical.choice, Quot.sound |
| `Paladin.Amqp.C49_decodable` | propext, Classical.choice, Quot.sound |
| `Paladin.Amqp.C49_fewer_partial` | propext, Classical.choice, Quot.sound |
| `Paladin.Amqp.C49_witness` | propext, Classical.choice, Quot.sound |
| `Paladin.Amqp.C49_asleep_witness` | propext, Quot.sound |
| `Paladin.Amqp.C50_options` | propext |
| `Paladin.Amqp.C50_same` | none |
| `Paladin.Amqp.C50_no_conflict` | propext, Classical.choice, Quot.sound |
| `Paladin.Amqp.C50_declares` | propext, Classical.choice, Quot.sound |
| `Paladin.Amqp.C50_lasts` | propext, Classical.choice, Quot.sound |
| `Paladin.Chan.C51_own` | propext, Classical.choice, Quot.sound |
| `Paladin.Chan.C51_isolated` | propext, Classical.choice, Quot.sound |
| `Paladin.Chan.C51_once` | propext, Classical.choice, Quot.sound |
| `Paladin.Chan.C51_reaches` | propext, Classical.choice, Quot.sound |
| `Paladin.Chan.C51_shared` | propext, Classical.choice, Quot.sound |
| `Paladin.Chan.C51_same_witness` | propext |
| `Paladin.Chan.C51_fixed` | propext, Classical.choice, Quot.sound |
| `Paladin.Chan.C52_once` | propext, Classical.choice, Quot.sound |
| `Paladin.Chan.C52_only` | propext, Classical.choice, Quot.sound |
| `Paladin.Chan.C52_gone_partial` | propext, Classical.choice, Quot.sound |
| `Paladin.Chan.C52_late` | propext, Classical.choice, Quot.sound |
| `Paladin.Chan.C52_stays` | propext, Classical.choice, Quot.sound |
| `Paladin.Chan.C52_expires` | propext, Classical.choice, Quot.sound |
| `Paladin.Chan.C52_late_witness` | propext |
| `Paladin.Chan.C52_same_witness` | propext |
| `Paladin.Chan.C52_same_memory_witness` | propext |
| `Paladin.PubAll.C53_ok` | propext, Classical.choice, Quot.sound |
| `Paladin.PubAll.C53_at_most_once` | propext, Classical.choice, Quot.sound |
| `Paladin.PubAll.C53_bounded_partial` | propext, Classical.choice, Quot.sound |
| `Paladin.PubAll.C53_zero_witness` | propext |
| `Paladin.PubAll.C53_error_real` | propext, Classical.choice, Quot.sound |
| `Paladin.PubAll.C53_error_kept` | propext, Classical.choice, Quot.sound |
| `Paladin.PubAll.C53_first_error` | propext, Quot.sound |
| `Paladin.PubAll.C53_stops` | propext, Classical.choice, Quot.sound |
| `Paladin.PubAll.C53_not_asleep` | propext, Classical.choice, Quot.sound |
| `Paladin.PubAll.C53_progress` | propext, Classical.choice, Quot.sound |
| `Paladin.PubAll.C53_poll_ends` | propext, Quot.sound |
| `Paladin.PubAll.C53_refines` | propext, Classical.choice, Quot.sound |
| `Paladin.PubAll.C53_realized` | propext, Classical.choice, Quot.sound |
| `Paladin.PubAll.Demo.C53_refines_example` | propext |
| `Paladin.PubAll.Demo.C53_realized_example` | propext, Quot.sound |
| `Paladin.IdxStream.C54_numbered` | propext, Quot.sound |
| `Paladin.IdxStream.C54_try_numbered` | propext, Quot.sound |
| `Paladin.IdxStream.C54_same_end` | propext |
| `Paladin.IdxStream.C54_distinct` | propext, Classical.choice, Quot.sound |
| `Paladin.IdxStream.C54_sorted_id` | propext, Classical.choice, Quot.sound |
| `Paladin.IdxStream.C54_sorted_any` | propext, Classical.choice, Quot.sound |
| `Paladin.IdxStream.C54_sorted_error` | none |
| `Paladin.Arith.C55_contiguous` | propext, Classical.choice, Quot.sound |
| `Paladin.Arith.C55_final` | propext, Classical.choice, Quot.sound |
| `Paladin.Arith.C55_overflow` | propext, Quot.sound |
| `Paladin.Arith.C55_final_overflow` | propext, Quot.sound |
| `Paladin.Arith.C55_model` | propext, Classical.choice, Quot.sound |
| `Paladin.Adapters.C56_with` | propext |
| `Paladin.Adapters.C56_with_with` | propext, Quot.sound |
| `Paladin.Adapters.C56_boxed` | none |
| `Paladin.Adapters.C56_task_sender` | propext |
| `Paladin.Adapters.C56_composed_assoc` | propext, Quot.sound |
| `Paladin.Adapters.C56_composed_unit` | propext, Quot.sound |
| `Paladin.MapPoll.C57_exact` | propext, Classical.choice, Quot.sound |
| `Paladin.MapPoll.C57_end` | propext, Classical.choice, Quot.sound |
| `Paladin.MapPoll.C57_awake_partial` | propext, Classical.choice, Quot.sound |
| `Paladin.MapPoll.C57_witness` | propext |
| `Paladin.MapPoll.C57_refines` | propext, Classical.choice, Quot.sound |
| `Paladin.MapPoll.C57_refines_example` | propext |
| `Paladin.MapS.C58_bounded` | propext, Classical.choice, Quot.sound |
| `Paladin.MapS.C58_progress` | propext, Classical.choice, Quot.sound |
| `Paladin.Wire.C59_postcard` | propext, Classical.choice, Quot.sound |
| `Paladin.Wire.C59_cbor_partial` | propext, Classical.choice, Quot.sound |
| `Paladin.Wire.C59_cbor_witness` | propext, Classical.choice, Quot.sound |
| `Paladin.Wire.C59_floats` | propext, Classical.choice, Quot.sound |
| `Paladin.Wire.C60_truncated` | propext, Classical.choice, Quot.sound |
| `Paladin.Wire.C60_messages` | propext, Classical.choice, Quot.sound |
| `Paladin.InMem.C61_no_deadlock` | propext, Classical.choice, Quot.sound |
| `Paladin.InMem.C61_finite` | propext, Quot.sound |
| `Paladin.InMem.C62_reserved_witness` | propext, Quot.sound |
| `Paladin.InMem.C62_gets_partial` | propext, Classical.choice, Quot.sound |
| `Paladin.InMem.C62_reserved` | propext, Classical.choice, Quot.sound |
| `Paladin.InMem.C62_alone_partial` | propext, Classical.choice, Quot.sound |
| `Paladin.Worker.C63_panic_witness` | propext |
| `Paladin.Worker.C63_no_panic_partial` | propext, Classical.choice, Quot.sound |
| `Paladin.Worker.C64_witness` | propext |
| `Paladin.Worker.C64_only_abort_all_partial` | propext, Classical.choice, Quot.sound |
| `Paladin.Amqp.C65_witness` | propext, Quot.sound |
| `Paladin.Amqp.C65_senders_partial` | propext, Classical.choice, Quot.sound |
| `Paladin.Amqp.C65_error_closes` | propext, Classical.choice, Quot.sound |
| `Paladin.Amqp.C66_in_order_partial` | propext, Classical.choice, Quot.sound |
| `Paladin.Amqp.C66_witness` | propext, Quot.sound |
| `Paladin.Chan.C67_witness` | propext |
| `Paladin.Chan.C67_before_partial` | propext, Quot.sound |
| `Paladin.System.C68_isolation` | propext, Classical.choice, Quot.sound |
| `Paladin.System.C68_map` | propext, Classical.choice, Quot.sound |
| `Paladin.System.C68_map_sorted` | propext, Classical.choice, Quot.sound |
| `Paladin.System.C68_fold` | propext, Classical.choice, Quot.sound |
| `Paladin.System.C68_fold_monoid` | propext, Classical.choice, Quot.sound |
| `Paladin.System.C69_exact` | propext, Classical.choice, Quot.sound |
| `Paladin.System.C69_new` | propext, Classical.choice, Quot.sound |
| `Paladin.System.C69_forever` | propext, Classical.choice, Quot.sound |
| `Paladin.System.C69_calm` | propext, Classical.choice, Quot.sound |
| `Paladin.System.C70_isolated_partial` | propext, Classical.choice, Quot.sound |
| `Paladin.System.Demo.C70_witness` | propext |
| `Paladin.System.C71_map` | propext, Classical.choice, Quot.sound |
| `Paladin.System.C71_map_bytes` | propext, Classical.choice, Quot.sound |
| `Paladin.System.C71_fold_partial` | propext, Classical.choice, Quot.sound |
| `Paladin.System.C71_fold_bytes_partial` | propext, Classical.choice, Quot.sound |
| `Paladin.System.C71_ends` | propext, Classical.choice, Quot.sound |
| `Paladin.System.C72_map` | propext, Classical.choice, Quot.sound |
| `Paladin.System.C72_map_pure` | propext, Classical.choice, Quot.sound |
| `Paladin.System.C72_fold` | propext, Classical.choice, Quot.sound |
| `Paladin.System.C72_fold_monoid` | propext, Classical.choice, Quot.sound |
| `Paladin.System.C72_addressed` | propext, Classical.choice, Quot.sound |
| `Paladin.SystemMem.C72_memory_map` | propext, Classical.choice, Quot.sound |
| `Paladin.SystemMem.C72_memory_fold` | propext, Classical.choice, Quot.sound |
| `Paladin.SystemMem.BytesDemo.C97_bytes_example` | propext, Classical.choice, Quot.sound |
| `Paladin.Life.C73_exact` | propext, Classical.choice, Quot.sound |
| `Paladin.Life.C73_stops_partial` | propext, Classical.choice, Quot.sound |
| `Paladin.Life.C73_commands_partial` | propext, Classical.choice, Quot.sound |
| `Paladin.Life.C73_commands_order` | propext, Classical.choice, Quot.sound |
| `Paladin.Life.C73_emulator` | propext, Classical.choice, Quot.sound |
| `Paladin.Life.C73_emulator_witness` | propext |
| `Paladin.Life.C73_failed_witness` | propext |
| `Paladin.Life.C73_half_witness` | propext |
| `Paladin.Life.C73_interrupted_witness` | propext |
| `Paladin.System.C74_map_own_errors` | propext, Classical.choice, Quot.sound |
| `Paladin.System.C74_fold_own_errors` | propext, Classical.choice, Quot.sound |
| `Paladin.System.C74_map_accounts` | propext, Classical.choice, Quot.sound |
| `Paladin.System.C74_fold_accounts` | propext, Classical.choice, Quot.sound |
| `Paladin.System.C74_map_surfaces` | propext, Classical.choice, Quot.sound |
| `Paladin.System.C74_fold_surfaces` | propext, Classical.choice, Quot.sound |
| `Paladin.System.C74_map_loss` | propext, Classical.choice, Quot.sound |
| `Paladin.System.C74_fold_loss` | propext, Classical.choice, Quot.sound |
| `Paladin.System.C74_map_text` | propext, Classical.choice, Quot.sound |
| `Paladin.System.C74_fold_text` | propext, Classical.choice, Quot.sound |
| `Paladin.System.C75_fold` | propext, Classical.choice, Quot.sound |
| `Paladin.System.C75_sorted` | propext, Classical.choice, Quot.sound |
| `Paladin.System.C75_no_panic` | propext, Classical.choice, Quot.sound |
| `Paladin.System.C75_maps_complete` | propext, Classical.choice, Quot.sound |
| `Paladin.System.C75_fold_complete_partial` | propext, Classical.choice, Quot.sound |
| `Paladin.System.C75_fold_bytes` | propext, Classical.choice, Quot.sound |
| `Paladin.System.C75_sorted_bytes` | propext, Classical.choice, Quot.sound |
| `Paladin.System.C75_fold_complete_bytes_partial` | propext, Classical.choice, Quot.sound |
| `Paladin.Hello.C76_value` | propext, Classical.choice, Quot.sound |
| `Paladin.Hello.C76_assert` | propext, Classical.choice, Quot.sound |
| `Paladin.Hello.C76_ok` | propext, Quot.sound |
| `Paladin.Hello.C76_errors` | propext, Classical.choice, Quot.sound |
| `Paladin.Hello.C76_no_panic` | propext, Classical.choice, Quot.sound |
| `Paladin.Hello.C76_completes_partial` | propext, Classical.choice, Quot.sound |
| `Paladin.Hello.HelloDemo.C76_hang_witness` | propext, Classical.choice, Quot.sound |
| `Paladin.Setup.C77_start` | propext, Quot.sound |
| `Paladin.Setup.C77_default_panics` | none |
| `Paladin.Setup.C77_tasks` | propext, Classical.choice, Quot.sound |
| `Paladin.Setup.C77_value` | propext, Classical.choice, Quot.sound |
| `Paladin.Setup.C77_reaches` | propext, Classical.choice, Quot.sound |
| `Paladin.Setup.C77_results` | propext, Classical.choice, Quot.sound |
| `Paladin.Setup.C77_returns` | propext, Classical.choice, Quot.sound |
| `Paladin.Setup.C77_commands` | propext, Classical.choice, Quot.sound |
| `Paladin.Setup.C77_commands_reach` | propext, Classical.choice, Quot.sound |
| `Paladin.Setup.C77_emulated` | propext, Classical.choice, Quot.sound |
| `Paladin.Setup.C77_in_memory` | propext, Classical.choice, Quot.sound |
| `Paladin.Setup.C77_lonely_worker` | propext, Classical.choice, Quot.sound |
| `Paladin.Setup.SetupDemo.C77_collision_witness` | propext, Quot.sound |
| `Paladin.Exec.C78_crash` | propext, Classical.choice, Quot.sound |
| `Paladin.Exec.C78_rejected` | propext, Classical.choice, Quot.sound |
| `Paladin.Exec.C78_envelope` | propext, Classical.choice, Quot.sound |
| `Paladin.Exec.C78_leader` | propext, Classical.choice, Quot.sound |
| `Paladin.SystemMem.C79_refines` | propext, Classical.choice, Quot.sound |
| `Paladin.SystemMem.C79_map` | propext, Classical.choice, Quot.sound |
| `Paladin.SystemMem.C79_fold` | propext, Classical.choice, Quot.sound |
| `Paladin.SystemMem.C79_order` | propext, Classical.choice, Quot.sound |
| `Paladin.SystemMem.C79_map_completes` | propext, Classical.choice, Quot.sound |
| `Paladin.SystemMem.C79_map_bytes` | propext, Classical.choice, Quot.sound |
| `Paladin.SystemMem.C79_sorted_completes` | propext, Classical.choice, Quot.sound |
| `Paladin.SystemMem.C79_sorted_reached` | propext, Classical.choice, Quot.sound |
| `Paladin.SystemMem.BytesDemo.C79_sorted_reached_example` | propext, Classical.choice, Quot.sound |
| `Paladin.SystemMem.C79_fold_completes_partial` | propext, Classical.choice, Quot.sound |
| `Paladin.SystemMem.C79_ends` | propext, Classical.choice, Quot.sound |
| `Paladin.SystemAmqp.C80_refines` | propext, Classical.choice, Quot.sound |
| `Paladin.SystemAmqp.C80_map` | propext, Classical.choice, Quot.sound |
| `Paladin.SystemAmqp.C80_fold` | propext, Classical.choice, Quot.sound |
| `Paladin.SystemAmqp.C80_map_completes` | propext, Classical.choice, Quot.sound |
| `Paladin.SystemAmqp.C80_sorted_completes` | propext, Classical.choice, Quot.sound |
| `Paladin.SystemAmqp.HelloDemo.C80_sorted_example` | propext, Classical.choice, Quot.sound |
| `Paladin.SystemAmqp.C80_fold_completes_partial` | propext, Classical.choice, Quot.sound |
| `Paladin.SystemAmqp.C80_ends` | propext, Classical.choice, Quot.sound |
| `Paladin.SystemAmqp.C81_fold` | propext, Classical.choice, Quot.sound |
| `Paladin.SystemAmqp.C81_sorted` | propext, Classical.choice, Quot.sound |
| `Paladin.SystemAmqp.C81_sorted_completes` | propext, Classical.choice, Quot.sound |
| `Paladin.SystemAmqp.C81_fold_completes_partial` | propext, Classical.choice, Quot.sound |
| `Paladin.SystemAmqp.C81_hello_value` | propext, Classical.choice, Quot.sound |
| `Paladin.SystemAmqp.C81_hello_assert` | propext, Classical.choice, Quot.sound |
| `Paladin.SystemAmqp.C81_hello_no_panic` | propext, Classical.choice, Quot.sound |
| `Paladin.SystemAmqp.C81_hello_errors` | propext, Classical.choice, Quot.sound |
| `Paladin.SystemAmqp.C81_hello_completes_partial` | propext, Classical.choice, Quot.sound |
| `Paladin.SystemMem.C81_memory_fold` | propext, Classical.choice, Quot.sound |
| `Paladin.SystemMem.C81_memory_sorted` | propext, Classical.choice, Quot.sound |
| `Paladin.SystemMem.C81_memory_completes_partial` | propext, Classical.choice, Quot.sound |
| `Paladin.SystemMem.C81_memory_sorted_completes` | propext, Classical.choice, Quot.sound |
| `Paladin.SystemMem.BytesDemo.C81_memory_sorted_example` | propext, Classical.choice, Quot.sound |
| `Paladin.Worker.C82_stops_partial` | propext, Classical.choice, Quot.sound |
| `Paladin.Worker.C82_unheard` | propext, Classical.choice, Quot.sound |
| `Paladin.Worker.C82_check_dead` | propext, Classical.choice, Quot.sound |
| `Paladin.System.C82_unseen` | propext, Classical.choice, Quot.sound |
| `Paladin.System.C82_lost` | propext, Classical.choice, Quot.sound |
| `Paladin.System.C82_map_hangs` | propext, Classical.choice, Quot.sound |
| `Paladin.System.C82_fold_hangs` | propext, Classical.choice, Quot.sound |
| `Paladin.Hello.C82_errors` | propext, Classical.choice, Quot.sound |
| `Paladin.Hello.C82_hangs` | propext, Classical.choice, Quot.sound |
| `Paladin.Hello.HelloDemo.C82_hang_witness` | propext, Classical.choice, Quot.sound |
| `Paladin.SystemAmqp.C82_broker_unseen` | propext, Classical.choice, Quot.sound |
| `Paladin.SystemAmqp.C82_broker_errors` | propext, Classical.choice, Quot.sound |
| `Paladin.SystemAmqp.C82_broker_hangs` | propext, Classical.choice, Quot.sound |
| `Paladin.SystemAmqp.HelloDemo.C82_broker_hang_witness` | propext, Classical.choice, Quot.sound |
| `Paladin.SystemMem.C82_memory_map` | propext, Classical.choice, Quot.sound |
| `Paladin.SystemMem.C82_memory_fold` | propext, Classical.choice, Quot.sound |
| `Paladin.SystemMem.Demo.C82_memory_hang_witness` | propext, Quot.sound |
| `Paladin.Cli.C83_reads` | propext, Classical.choice, Quot.sound |
| `Paladin.Cli.C83_unambiguous` | propext, Classical.choice, Quot.sound |
| `Paladin.Cli.C83_order` | propext, Classical.choice, Quot.sound |
| `Paladin.Cli.C83_precedence` | propext, Classical.choice, Quot.sound |
| `Paladin.Cli.C83_expressible` | propext, Classical.choice, Quot.sound |
| `Paladin.Cli.C83_panics_iff` | propext, Classical.choice, Quot.sound |
| `Paladin.Cli.C83_no_panic_partial` | propext, Classical.choice, Quot.sound |
| `Paladin.Cli.C83_panic_witness` | propext, Classical.choice, Quot.sound |
| `Paladin.Amqp.C84_calls` | propext, Classical.choice, Quot.sound |
| `Paladin.Amqp.C84_receivers` | propext, Classical.choice, Quot.sound |
| `Paladin.Amqp.C84_returned` | propext, Classical.choice, Quot.sound |
| `Paladin.Amqp.C84_others` | propext, Quot.sound |
| `Paladin.Amqp.C84_released_partial` | propext, Classical.choice, Quot.sound |
| `Paladin.Amqp.C84_leak` | propext, Classical.choice, Quot.sound |
| `Paladin.Amqp.CloseDemo.C84_leak_witness` | propext, Quot.sound |
| `Paladin.FoldFine.C85_refines` | propext, Classical.choice, Quot.sound |
| `Paladin.FoldFine.C85_value` | propext, Classical.choice, Quot.sound |
| `Paladin.FoldFine.C85_bounded` | propext, Classical.choice, Quot.sound |
| `Paladin.FoldFine.C85_not_read` | propext, Quot.sound |
| `Paladin.FoldFine.C85_no_deadlock` | propext, Classical.choice, Quot.sound |
| `Paladin.FoldFine.C85_clears` | propext, Classical.choice, Quot.sound |
| `Paladin.Worker.C86_last_task` | propext, Classical.choice, Quot.sound |
| `Paladin.System.C86_no_answer` | propext, Classical.choice, Quot.sound |
| `Paladin.System.C86_later_map` | propext, Classical.choice, Quot.sound |
| `Paladin.System.C86_later_fold` | propext, Classical.choice, Quot.sound |
| `Paladin.System.C86_undisturbed_partial` | propext, Classical.choice, Quot.sound |
| `Paladin.SystemMem.C86_memory_map` | propext, Classical.choice, Quot.sound |
| `Paladin.SystemMem.C86_memory_fold` | propext, Classical.choice, Quot.sound |
| `Paladin.SystemMem.Demo.C86_witness` | propext, Classical.choice, Quot.sound |
| `Paladin.SystemAmqp.C86_broker_no_answer` | propext, Classical.choice, Quot.sound |
| `Paladin.SystemAmqp.C86_broker_map` | propext, Classical.choice, Quot.sound |
| `Paladin.SystemAmqp.C86_broker_fold` | propext, Classical.choice, Quot.sound |
| `Paladin.SystemAmqp.Demo.C86_broker_witness` | propext, Classical.choice, Quot.sound |
| `Paladin.Program.C87_runs` | propext, Classical.choice, Quot.sound |
| `Paladin.Program.C87_ok` | propext, Classical.choice, Quot.sound |
| `Paladin.Program.C87_assert` | propext, Classical.choice, Quot.sound |
| `Paladin.Program.C87_panic` | propext, Classical.choice, Quot.sound |
| `Paladin.Program.C87_err` | propext, Classical.choice, Quot.sound |
| `Paladin.Program.C87_timer` | propext, Classical.choice, Quot.sound |
| `Paladin.Program.C87_only_timers` | propext, Classical.choice, Quot.sound |
| `Paladin.Program.C87_commands` | propext, Classical.choice, Quot.sound |
| `Paladin.Program.C87_one` | propext, Classical.choice, Quot.sound |
| `Paladin.Program.C87_quiet` | propext, Classical.choice, Quot.sound |
| `Paladin.Program.C87_hangs` | propext, Classical.choice, Quot.sound |
| `Paladin.Program.ProgramDemo.C87_calm_witness` | propext, Classical.choice, Quot.sound |
| `Paladin.Program.ProgramDemo.C87_hang_witness` | propext, Classical.choice, Quot.sound |
| `Paladin.Program.ProgramDemo.C87_hang_case` | propext, Classical.choice, Quot.sound |
| `Paladin.Program.ProgramDemo.C87_panic_witness` | propext, Classical.choice, Quot.sound |
| `Paladin.Wire.C88_postcard` | propext, Classical.choice, Quot.sound |
| `Paladin.Wire.C88_cbor_partial` | propext, Classical.choice, Quot.sound |
| `Paladin.Wire.C88_cbor_limit` | propext, Classical.choice, Quot.sound |
| `Paladin.Wire.C88_list` | propext, Classical.choice, Quot.sound |
| `Paladin.Wire.C88_pair` | propext, Classical.choice, Quot.sound |
| `Paladin.Exec.C88_task` | propext, Classical.choice, Quot.sound |
| `Paladin.Exec.C88_result` | propext, Classical.choice, Quot.sound |
| `Paladin.Restart.C89_restart` | propext, Classical.choice, Quot.sound |
| `Paladin.Restart.C89_one_place` | propext, Classical.choice, Quot.sound |
| `Paladin.Restart.C89_at_most_once` | propext, Classical.choice, Quot.sound |
| `Paladin.Restart.C89_durable` | propext, Classical.choice, Quot.sound |
| `Paladin.Restart.C89_routes` | propext, Classical.choice, Quot.sound |
| `Paladin.Restart.C89_delivered` | propext, Classical.choice, Quot.sound |
| `Paladin.Restart.C89_channels` | propext, Classical.choice, Quot.sound |
| `Paladin.Restart.C89_cut_off` | propext, Classical.choice, Quot.sound |
| `Paladin.Notice.C90_stream` | propext |
| `Paladin.Notice.C90_busy_partial` | propext, Classical.choice, Quot.sound |
| `Paladin.Notice.C90_busy_ends` | propext, Quot.sound |
| `Paladin.Notice.C90_idle` | propext, Quot.sound |
| `Paladin.Notice.C90_lost` | propext, Quot.sound |
| `Paladin.Notice.C90_hears` | propext, Quot.sound |
| `Paladin.Notice.C90_cancelled` | propext, Quot.sound |
| `Paladin.Notice.C90_directive_partial` | propext, Classical.choice, Quot.sound |
| `Paladin.Notice.C90_directive_idle` | propext, Classical.choice, Quot.sound |
| `Paladin.Notice.C90_directive_lost` | propext, Classical.choice, Quot.sound |
| `Paladin.Notice.C90_directive_cancelled` | propext, Classical.choice, Quot.sound |
| `Paladin.System.C91_accounts` | propext, Classical.choice, Quot.sound |
| `Paladin.System.C91_no_more_partial` | propext, Classical.choice, Quot.sound |
| `Paladin.System.C91_still_executed` | propext, Classical.choice, Quot.sound |
| `Paladin.System.C91_comes_to_rest` | propext, Classical.choice, Quot.sound |
| `Paladin.System.Demo.C91_witness` | propext, Quot.sound |
| `Paladin.InMem.C92_collects` | propext, Classical.choice, Quot.sound |
| `Paladin.InMem.C92_backlog` | propext, Classical.choice, Quot.sound |
| `Paladin.InMem.C92_never_kept` | propext, Classical.choice, Quot.sound |
| `Paladin.InMem.C92_newcomer` | propext, Classical.choice, Quot.sound |
| `Paladin.InMem.C92_again_partial` | propext, Classical.choice, Quot.sound |
| `Paladin.InMem.C92_witness` | propext, Quot.sound |
| `Paladin.MapLong.C93_endless` | propext, Classical.choice, Quot.sound |
| `Paladin.MapLong.C93_goes_on` | propext, Classical.choice, Quot.sound |
| `Paladin.MapLong.C93_returns_partial` | propext, Classical.choice, Quot.sound |
| `Paladin.MapLong.C93_no_dead_end` | propext, Classical.choice, Quot.sound |
| `Paladin.MapLong.C93_yields_partial` | propext, Quot.sound |
| `Paladin.MapLong.C93_fair` | propext, Classical.choice, Quot.sound |
| `Paladin.MapLong.Demo.C93_witness` | propext |
| `Paladin.SystemAmqp.C94_busy_partial` | propext, Classical.choice, Quot.sound |
| `Paladin.SystemAmqp.C94_sent` | propext, Classical.choice, Quot.sound |
| `Paladin.SystemAmqp.C94_received` | propext, Classical.choice, Quot.sound |
| `Paladin.SystemAmqp.C94_strands` | propext, Classical.choice, Quot.sound |
| `Paladin.SystemAmqp.Demo.C94_aborted` | propext, Classical.choice, Quot.sound |
| `Paladin.SystemAmqp.Demo.C94_publishing` | propext, Quot.sound |
| `Paladin.SystemAmqp.Demo.C94_witness` | propext, Quot.sound |
| `Paladin.SystemAmqp.C95_alone_partial` | propext, Classical.choice, Quot.sound |
| `Paladin.SystemAmqp.C95_one_partial` | propext, Classical.choice, Quot.sound |
| `Paladin.SystemAmqp.C95_times` | propext, Classical.choice, Quot.sound |
| `Paladin.SystemAmqp.C95_done` | propext, Classical.choice, Quot.sound |
| `Paladin.SystemAmqp.Demo.C95_overlap` | propext, Quot.sound |
| `Paladin.SystemAmqp.Demo.C95_late` | propext, Quot.sound |
| `Paladin.SystemAmqp.Demo.C95_witness` | propext, Quot.sound |
| `Paladin.SystemMem.C96_turn_partial` | propext, Classical.choice, Quot.sound |
| `Paladin.SystemMem.C96_crowd` | propext, Classical.choice, Quot.sound |
| `Paladin.SystemMem.Demo.C96_turn_example` | propext, Quot.sound |
| `Paladin.SystemMem.C97_results` | propext, Classical.choice, Quot.sound |
| `Paladin.SystemMem.C97_map` | propext, Classical.choice, Quot.sound |
| `Paladin.SystemMem.C97_all` | propext, Classical.choice, Quot.sound |
| `Paladin.SystemMem.C97_input` | propext, Classical.choice, Quot.sound |
| `Paladin.SystemMem.C97_bytes` | propext, Classical.choice, Quot.sound |
| `Paladin.SystemMem.Demo.C97_example` | propext, Quot.sound |
| `Paladin.SystemMem.Demo.C97_input_example` | propext, Quot.sound |
| `Paladin.SystemMem.Demo.C97_two` | propext, Quot.sound |
| `Paladin.SystemMem.C97_pipeline` | propext, Classical.choice, Quot.sound |
| `Paladin.SystemMem.C97_unsorted` | propext, Classical.choice, Quot.sound |
| `Paladin.SystemMem.ChainDemo.C97_pipeline_example` | propext, Quot.sound |
| `Paladin.SystemMem.C97_sequential` | propext, Classical.choice, Quot.sound |
| `Paladin.SystemMem.BytesDemo.C97_sequential_example` | propext, Classical.choice, Quot.sound |
| `Paladin.SystemMem.C97_chain_sequential` | propext, Classical.choice, Quot.sound |
| `Paladin.PubAll.C97_publish_all` | propext, Classical.choice, Quot.sound |
| `Paladin.PubAll.C97_publish_example` | propext, Quot.sound |
| `Paladin.PubAll.C97_waits` | propext |
| `Paladin.PubAll.C97_sending` | propext, Classical.choice, Quot.sound |
| `Paladin.PubAll.Demo.C97_sending_example` | propext, Quot.sound |
