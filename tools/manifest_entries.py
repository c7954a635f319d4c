Q = "Paladin"; F = "Paladin.Fold"
c("C01", "proved", q(Q, "C01_find_contiguous"), "Queue of disjoint valid ranges; both directions and the effect on the queue.")
c("C02", "proved", q(Q, "C02_acquire C02_history"), "One call, and every history of calls and dequeues.")
c("C05", "proved", q(F, "C05_fold_ok C05_fold_in_order"), "All executions, also with lost and duplicated messages.")
c("C06", "proved", q(F, "C06_fold_eq_sequential C06_fold_monoid C08_empty C10_single"), "Associative partial combine; monoid; empty and single inputs.")
c("C07", "proved", q(F, "C07_combine_count C07_partition"), "Messages delivered exactly once (with redelivery more combines run).")
c("C08", "partial", q(F, "C08_bounded C08_completes_partial C08_can_complete_partial C08_empty C08_hang C08_hang_witness") + q("Paladin.FoldFine", "C08_limits_completes_partial FineDemo.C08_limits_hang_witness"),
  "False as stated: fold hangs exactly when all n-1 results are received before the end of the input is observed (C08_hang). Completion proved otherwise; also with the limits of C85.")
c("C09", "proved", q(F, "C09_combine_error C09_input_error C09_loss_never_ok C09_error_provenance C09_error_operands"), "Delivery at most once.")
c("C10", "partial", q(F, "C10_gap_never_ok C10_offset_partial C10_single C10_panic C10_disconnect C10_single_witness C05_fold_in_order"),
  "False for a one-element stream whose index is not 0: fold panics. Gap part proved in full; offset part for at least two items.")
c("C11", "proved", q(F, "C05_fold_ok C06_fold_eq_sequential"), "These theorems have no delivery hypothesis: loss and duplication steps are allowed.")
M = "Paladin.MapS"; L = "Paladin.Lit"; CHN = "Paladin.Chain"
c("C12", "proved", q(M, "C12_map_one_each C12_map_sound"), "Messages delivered at most once, consumer stream stays open (see C14, C16 for what happens otherwise).")
c("C13", "proved", q(M, "C13_map_sorted C13_map_pure"), "Same environment as C12.")
c("C14", "partial", q(M, "C14_no_silent_drop_partial C14_disconnect_witness"),
  "Proved while the broker's consumer stream stays open. False otherwise: if it ends while nothing is pending, items published later are dropped silently (witness).")
c("C15", "proved", q(M, "C15_failure_surfaces C15_op_error_surfaces C15_error_provenance"), "Leader-side failures: every execution. Operation errors: at-most-once delivery, consumer stream open.")
c("C16", "partial", q(M, "C16_once_partial C16_redelivery_partial C16_redelivery_witness"),
  "False under redelivery (witness). Proved for at-most-once delivery; under redelivery the number of outputs and their provenance are proved.")
c("C17", "proved", q(L, "C17_literal_map C17_literal_failure C17_literal_completes C17_once C17_disconnect"), "All executions with losses, duplicates and failures.")
c("C18", "proved", q(CHN, "C18_map_fold C18_map_fold_sequential C18_disconnect_witness") + ["Paladin.MapS.C18_map_stage", "Paladin.Fold.C18_fold_stage"],
  "Messages of both stages may be lost or duplicated; the map's consumer stream stays open (needed: witness). Stage theorems give chains of any number of maps.")
CO = "Paladin.Coord"
c("C19", "proved", q(CO, "C19_end_means_done C19_end_is_final C19_yields_once"), "Every history of calls from one task, with losses, failed publishes and broker stream ends.")
c("C20", "partial", q(CO, "C20_early_end_witness C20_end_partial C20_closed_before_partial"),
  "False (two-load race, witness). Proved: everything counted before the first load was yielded and acknowledged; full claim if closed before the first load.")
c("C21", "partial", q(CO, "C21_close_does_not_wake_witness C21_parked_forever C21_next_poll_partial C21_woken_partial"),
  "False for a parked receiver with nothing outstanding (witness and general theorem). Proved: the next poll ends; the last acknowledgement after close wakes it.")
c("C22", "proved", q(CO, "C22_rejected C22_threads"), "One task, and every interleaving of threads.")
c("C23", "proved", q(CO, "C23_once C23_calls"), "Every interleaving of threads.")
c("C24", "partial", q(CO, "C24_failed_publish_blocks C24_blocks_witness C24_sent_failures_partial"),
  "False: a publish that fails before sending keeps the receiver open for ever. Proved for publishes that fail after sending or are rejected.")
c("C25", "proved", q("Paladin.Acking", "C25_sequential C25_leased"), "Every nesting of composed ackers; the composition used by the leased channel.")
c("C58", "proved", q(M, "C58_bounded C58_progress"), "Any oracle for the operation.")
c("C03", "proved", q("Paladin.Conc", "C03_conserved C03_at_rest"), "Every interleaving of atomic steps; lookups may even return stale entries.")
c("C04", "partial", q("Paladin.Conc", "C04_missed_pair_witness C04_missed_only_if_overlapping_partial C04_one_at_a_time_partial"),
  "False (check-then-insert race, witness). Proved: a missed pair needs overlapping calls; none is missed when calls do not overlap.")
R = "Paladin.Retry"
c("C32", "proved", q(R, "C32_attempts C32_counts C32_deterministic"), "Every outcome stream.")
c("C33", "proved", q(R, "C33_first C33_attempts C33_exponential C33_trace C33_exponential_trace"), "All strategies, every outcome stream.")
c("C34", "partial", q(R, "C34_fatal_retried_witness C34_first_fatal_partial"),
  "False: a fatal error of a retry attempt is retried and its strategy replaced (witness). Proved for a fatal first attempt.")
c("C35", "proved", q(R, "C35_exponential C35_terminates"), "Every clock, jitter and interval growth; the backoff crate's arithmetic is a parameter.")
c("C36", "proved", q(R, "C36_transient C36_fatal C36_into_fatal C36_exhausted"), "All error values.")
W = "Paladin.Wire"
c("C37", "proved", q(W, "C37_postcard C37_injective"), "Byte-level encoder and decoder; every field value.")
c("C38", "proved", q(W, "C38_cbor C37_injective"), "Byte-level encoder and decoder; every field value.")
c("C59", "partial", q(W, "C59_postcard C59_cbor_partial C59_cbor_witness C59_floats"),
  "Postcard in full. False for Cbor with directly nested options (witness) and beyond 256 levels of nesting (C88); proved for all other values. Floats are bit patterns; an `f32` signalling NaN is not a value of the model.")
c("C60", "proved", q(W, "C60_truncated C60_messages"), "Both formats, every type that round-trips.")
I = "Paladin.InMem"
c("C26", "proved", q(I, "C26_exactly_once"), "Any number of publishers and consumers, every interleaving.")
c("C27", "proved", q(I, "C27_no_panic C27_permits C27_broadcast"), "Exactly-once and broadcast queues, every interleaving.")
c("C28", "proved", q(I, "C28_at_most_once C28_delivered"), "Every interleaving of publishers and declarations, both delivery modes.")
c("C29", "proved", q(I, "C29_kept C29_at_rest"), "Every interleaving.")
c("C30", "partial", q(I, "C30_split_witness C30_replay_partial"), "False when declarations overlap (witness); proved when they do not.")
c("C31", "proved", ["Paladin.Connection.C31_isolated"], "Refinement of a specification with one queue per name and deletion count, for every kind of queue.")
c("C61", "proved", q(I, "C61_no_deadlock C61_finite"), "Progress and a bound on the steps of running calls.")
c("C62", "partial", q(I, "C62_reserved_witness C62_gets_partial C62_reserved C62_alone_partial"), "False: a woken consumer that is not polled again keeps a message from others (witness). Proved: only consumers that polled and were neither served nor dropped since can do so.")
E = "Paladin.Exec"
c("C39", "proved", q(E, "C39_transparent C39_success C39_sound C39_derived_lawful"), "Byte for byte through both queues; every operation, retry policy and lawful codec.")
c("C40", "partial", q(E, "C40_first_panic_partial C40_contained_partial C40_witness"),
  "False for a panic in a retry (takes over the first error's strategy) and for a panicking Deserialize (witness). Proved for a panic of the first attempt; no panic of execute crashes the worker or is reported as success.")
c("C41", "partial", q(E, "C41_possible_iff C41_one_crate_partial C41_witness"),
  "False for several crates or more than 256 operations, whatever the link order (witness). Proved for one crate with at most 256 operations linked in order; exact condition proved.")
K = "Paladin.Worker"
c("C42", "proved", q(K, "C42_settled C42_earlier C42_counts"), "Every interleaving of the loop, the command handler, the reaper and the environment.")
c("C43", "partial", q(K, "C43_not_started_partial C43_marked_partial C43_mark_dropped C43_witness"),
  "False: a repeated Abort does not renew the mark, and a task already checked is started after the mark (witnesses). Proved for tasks received after a new mark; the upper bound in full, up to timer lag.")
c("C44", "partial", q(K, "C44_coalesced_witness C44_signal_partial C44_stops_partial C44_state_partial C44_then_stops_partial C44_flag_partial"),
  "False: the command is lost if another follows before the task looks, or if one is still marked (witness). Proved when it is the last value on the watch channel.")
c("C45", "partial", q(K, "C45_published_partial C45_ignore_witness"), "Publishing proved in full; false that Ignore leaves the job's other tasks served (witness).")
c("C46", "partial", q(K, "C46_witness C46_acked_partial C46_publish_first_partial"), "False: ack and publish are concurrent (witness). Proved that an acked task has succeeded, and the claim itself if publishing comes first.")
c("C63", "partial", q(K, "C63_panic_witness C63_no_panic_partial"), "False once the command stream has ended (witness); proved before.")
c("C64", "partial", q(K, "C64_witness C64_only_abort_all_partial"), "First half false (witness); second half proved: only abort-all interrupts.")
P = "Paladin.PubAll"
c("C53", "partial", q(P, "C53_ok C53_at_most_once C53_bounded_partial C53_zero_witness C53_error_real C53_error_kept C53_first_error C53_stops C53_not_asleep C53_progress C53_poll_ends C53_refines C53_realized Demo.C53_refines_example Demo.C53_realized_example"),
  "False for the limit 0, which means no limit (witness); proved for every other limit and for none, every interleaving. C53_refines: with the limit of a map, every execution is one of the sending side of the model of map; C53_realized: the other way round, except for errors of the input stream while ten publishes run, which the model of map allows and publish_all does not see.")
c("C54", "proved", q("Paladin.IdxStream", "C54_numbered C54_try_numbered C54_same_end C54_distinct C54_sorted_id C54_sorted_any C54_sorted_error"), "Every iterator, also one that goes on after None.")
c("C55", "proved", q("Paladin.Arith", "C55_contiguous C55_final C55_overflow C55_final_overflow C55_model"), "64-bit arithmetic, exact overflow condition.")
c("C56", "proved", q("Paladin.Adapters", "C56_with C56_with_with C56_boxed C56_task_sender C56_composed_assoc C56_composed_unit"), "Every monad of effects.")
A = "Paladin.Amqp"
c("C47", "partial", q(A, "C47_never_two C47_witness C47_one_consumer_partial"), "False: all consumers of a broadcast channel share one queue (witness; in fact two consumers never yield the same message). Proved that any one of them can.")
c("C48", "partial", q(A, "C48_same_name C48_one_place C48_at_most_once C48_returned C48_reaches_partial C48_deleted C48_deleted_final C48_expired_witness"),
  "Proved for queues that have not expired; false for one idle for 30 minutes (witness).")
c("C49", "partial", q(A, "C49_stall C49_decodable C49_fewer_partial C49_witness C49_asleep_witness"),
  "False: undecodable messages are not acknowledged and fill the prefetch window (witness, and in general); with a larger window they hide the next message. Proved for fewer of them than the limit.")
c("C50", "proved", q(A, "C50_options C50_same C50_no_conflict C50_declares C50_lasts"), "Against the broker model.")
c("C65", "partial", q(A, "C65_witness C65_senders_partial C65_error_closes"), "False for broadcast channels: the broker closes the process's only AMQP channel (witness). Proved for senders of exactly-once channels and releases.")
c("C66", "partial", q(A, "C66_in_order_partial C66_witness"), "False once a message is requeued (witness); proved until then.")
H = "Paladin.Chan"
c("C51", "proved", q(H, "C51_own C51_isolated C51_once C51_reaches C51_shared C51_same_witness C51_fixed"), "In memory and AMQP; with distinct identifiers results also reach the receiver.")
c("C52", "partial", q(H, "C52_once C52_only C52_gone_partial C52_late C52_stays C52_expires C52_late_witness C52_same_witness C52_same_memory_witness"),
  "Last sentence false: a late result makes the queue again, in memory for ever (witness). Proved as long as nobody asks for the queue; the rest proved (AMQP expiry and equal identifiers aside).")
c("C67", "partial", q(H, "C67_witness C67_before_partial"), "False for a failure after the queue was declared (witness); proved before that.")
c("C57", "partial", q("Paladin.MapPoll", "C57_exact C57_end C57_awake_partial C57_witness C57_refines C57_refines_example"),
  "False: map over an input that is pending at first and then ends without items (or after its results were acknowledged) sleeps for ever if that poll looks at the results first (witness). Proved that this is the only case. C57_refines: every poll-by-poll execution is one of the model of map, by numbers of messages.")
Y = "Paladin.System"
c("C68", "proved", q(Y, "C68_isolation C68_map C68_map_sorted C68_fold C68_fold_monoid"), "Whole system; encodings are assumed transparent (C37, C39, C59).")
c("C69", "proved", q(Y, "C69_exact C69_new C69_forever C69_calm"), "Whole system.")
c("C70", "partial", q(Y, "C70_isolated_partial Demo.C70_witness"), "False when the error asks for termination: the worker then sends abort-all, and every worker rejects whatever task it is executing, of any job (witness). Proved for all other failures.")
c("C71", "partial", q(Y, "C71_map C71_map_bytes C71_fold_partial C71_fold_bytes_partial C71_ends"), "Whole system. Proved for maps and for the coming to rest; for folds except when all results arrive before the end of the input is observed, where it is false (C08_hang).")
c("C72", "proved", q(Y, "C72_map C72_map_pure C72_fold C72_fold_monoid C72_addressed") + q("Paladin.SystemMem", "C72_memory_map C72_memory_fold BytesDemo.C97_bytes_example"), "Whole system with messages as bytes; composes C37-C39, C33 and C68.")
c("C73", "partial", q("Paladin.Life", "C73_exact C73_stops_partial C73_commands_partial C73_commands_order C73_emulator C73_emulator_witness C73_failed_witness C73_half_witness C73_interrupted_witness"),
  "False: only the exit at the end of main_loop aborts the tasks, and a blocking operation cannot be cancelled (exact account, witnesses). Proved for loops that return Ok otherwise than by abort-all.")
c("C74", "proved", q(Y, "C74_map_own_errors C74_fold_own_errors C74_map_accounts C74_fold_accounts C74_map_surfaces C74_fold_surfaces C74_map_loss C74_fold_loss C74_map_text C74_fold_text"),
  "Whole system, also with messages as bytes (texts of errors).")
c("C75", "partial", q(Y, "C75_fold C75_sorted C75_no_panic C75_maps_complete C75_fold_complete_partial C75_fold_bytes C75_sorted_bytes C75_fold_complete_bytes_partial"),
  "Whole system, abstract and with messages as bytes. Completion of the fold except when all its results arrive before it sees the end of its input (C08_hang, C76_hang_witness).")
c("C76", "partial", q("Paladin.Hello", "C76_value C76_assert C76_ok C76_errors C76_no_panic C76_completes_partial HelloDemo.C76_hang_witness"),
  "Value, errors and panics proved in full. Completion is false when all results of the fold arrive before it sees the end of its input (witness); proved otherwise.")
c("C77", "partial", q("Paladin.Setup", "C77_start C77_default_panics C77_tasks C77_value C77_reaches C77_results C77_returns C77_commands C77_commands_reach C77_emulated C77_in_memory C77_lonely_worker SetupDemo.C77_collision_witness"),
  "False for a bus that has the name of the command channel (witness); proved otherwise. Config::default() makes from_config panic; with num_workers = Some(0) in memory no task is ever received; aborts cross buses on a broker.")
c("C78", "proved", q(E, "C78_crash C78_rejected C78_envelope C78_leader"), "For all bytes and all codecs.")
c("C79", "partial", q("Paladin.SystemMem", "C79_refines C79_map C79_fold C79_order C79_map_completes C79_map_bytes C79_sorted_completes C79_sorted_reached BytesDemo.C79_sorted_reached_example C79_fold_completes_partial C79_ends"),
  "Proved, except the completion of a fold whose results all arrive before it sees the end of its input (C08_hang).")
c("C80", "partial", q("Paladin.SystemAmqp", "C80_refines C80_map C80_fold C80_map_completes C80_sorted_completes HelloDemo.C80_sorted_example C80_fold_completes_partial C80_ends"),
  "Proved, except the completion of a fold whose results all arrive before it sees the end of its input (C08_hang).")
c("C81", "partial", q("Paladin.SystemAmqp", "C81_fold C81_sorted C81_sorted_completes C81_fold_completes_partial C81_hello_value C81_hello_assert C81_hello_no_panic C81_hello_errors C81_hello_completes_partial") +
  q("Paladin.SystemMem", "C81_memory_fold C81_memory_sorted C81_memory_completes_partial C81_memory_sorted_completes BytesDemo.C81_memory_sorted_example"),
  "Proved, except the completion of a pipeline whose fold sees the end of its input only after all its results came (C08_hang, C76_hang_witness).")
c("C82", "partial", q("Paladin.Worker", "C82_stops_partial C82_unheard C82_check_dead") + q("Paladin.System", "C82_unseen C82_lost C82_map_hangs C82_fold_hangs") + q("Paladin.Hello", "C82_errors C82_hangs HelloDemo.C82_hang_witness") +
  q("Paladin.SystemAmqp", "C82_broker_unseen C82_broker_errors C82_broker_hangs HelloDemo.C82_broker_hang_witness") + q("Paladin.SystemMem", "C82_memory_map C82_memory_fold Demo.C82_memory_hang_witness"),
  "The workers give up their tasks, but the rest is false: the loop sets the signal in the very step that abandons the execution, so no outcome of an operation that saw it is ever published; the task is lost, and the leader waits for ever (witness).")
c("C83", "partial", q("Paladin.Cli", "C83_reads C83_unambiguous C83_order C83_precedence C83_expressible C83_panics_iff C83_no_panic_partial C83_panic_witness"),
  "Proved, except the last sentence: with neither a runtime nor an address the command line is accepted (the requirement does not look at defaults), and from_config panics (exact condition, witness).")
c("C84", "partial", q("Paladin.Amqp", "C84_calls C84_receivers C84_returned C84_others C84_released_partial C84_leak CloseDemo.C84_leak_witness"),
  "Proved, except the last sentence: dropping the receiver only spawns the deletion, and if the close comes first the deletion fails unseen and the queue stays until it expires (C84_leak, witness: the leader of hello-world-rabbitmq).")
c("C85", "proved", q("Paladin.FoldFine", "C85_refines C85_value C85_bounded C85_not_read C85_no_deadlock C85_clears"), "Items, results, channel with parked senders, publishes; the futures mpsc channel is modelled from general knowledge of it, its source is not here.")
c("C86", "partial", q("Paladin.Worker", "C86_last_task") + q("Paladin.System", "C86_no_answer C86_later_map C86_later_fold C86_undisturbed_partial") + q("Paladin.SystemMem", "C86_memory_map C86_memory_fold Demo.C86_witness") + q("Paladin.SystemAmqp", "C86_broker_no_answer C86_broker_map C86_broker_fold Demo.C86_broker_witness"),
  "False: every worker that has heard the abort-all command rejects the next task it starts and stops, so a later map or fold on these workers waits for ever (theorems and witness). Proved for failures that do not ask to terminate.")
c("C87", "proved", q("Paladin.Program", "C87_runs C87_ok C87_assert C87_panic C87_err C87_timer C87_only_timers C87_commands C87_one C87_quiet C87_hangs ProgramDemo.C87_calm_witness ProgramDemo.C87_hang_witness ProgramDemo.C87_hang_case ProgramDemo.C87_panic_witness"),
  "C87_hangs and its witness: a leader whose task was broken off for its own timeout does not end; the claim that the timeout ends it is C82, which is false.")
c("C88", "partial", q("Paladin.Wire", "C88_postcard C88_cbor_partial C88_cbor_limit C88_list C88_pair") + q("Paladin.Exec", "C88_task C88_result"),
  "Postcard in full. False for Cbor: every value nested more than 256 levels deep is written but refused when read (ciborium's recursion limit); proved up to 256 levels, and what becomes of a task with a deeper input or output.")
c("C89", "proved", q("Paladin.Restart", "C89_restart C89_one_place C89_at_most_once C89_durable C89_routes C89_delivered C89_channels C89_cut_off"),
  "What the broker does in an orderly restart is trusted; publisher confirms are not used by the code, and a crash that loses messages not yet on disk is not modelled.")
c("C90", "partial", q("Paladin.Notice", "C90_stream C90_busy_partial C90_busy_ends C90_idle C90_lost C90_hears C90_cancelled C90_directive_partial C90_directive_idle C90_directive_lost C90_directive_cancelled"),
  "False: poll_next turns lapin's error into Pending without asking to be polled again, so a worker waiting for a task and a directive waiting for results sleep for ever; a directive also hides the end of its stream. Proved for processes that still have a call to make. How lapin reports a lost connection (error and end at once, one wake) is assumed from general knowledge and could not be checked here; the negative theorems rest on it.")
c("C91", "partial", q("Paladin.System", "C91_accounts C91_no_more_partial C91_still_executed C91_comes_to_rest Demo.C91_witness"),
  "Nothing more is published (proved). The second half is false: dropping sends no command, so healthy workers execute every task that was published, and publish the results (proved, with a witness).")
c("C92", "partial", q("Paladin.InMem", "C92_collects C92_backlog C92_never_kept C92_newcomer C92_again_partial C92_witness"),
  "False: nothing removes a consumer from the map. Every later message is queued for it for ever, and the map is never empty again, so no message is kept in the history and a consumer with a new name does not receive it (proved for all interleavings, with a witness). What holds: declaring the same name again gives the old queue with all that came in the meantime.")
c("C93", "partial", q("Paladin.MapLong", "C93_endless C93_goes_on C93_returns_partial C93_no_dead_end C93_yields_partial C93_fair Demo.C93_witness"),
  "False where publishing never waits, as on the in-memory runtime, and the input is always ready, as one made from an iterator: the first poll does not return before the input has ended, so nothing is yielded until everything is published, and with an endless input never (proved, with a witness). What holds: with publishes that take longer than the poll, as with a broker, a poll returns after a bounded number of steps, and one that begins when a result is there and returns yields it.")
c("C94", "partial", q("Paladin.SystemAmqp", "C94_busy_partial C94_sent C94_received C94_strands Demo.C94_aborted Demo.C94_publishing Demo.C94_witness"),
  "Proved as long as the busy worker's task is unsettled, and that waiting workers are sent tasks and receive them. False afterwards: a worker that has acknowledged a task but is still publishing the result is sent the next one while another worker waits (witness); and a worker that was aborted is sent one as soon as it has rejected its own: nobody receives it as long as the process keeps its connection (C94_strands, witness).")
c("C95", "partial", q("Paladin.SystemAmqp", "C95_alone_partial C95_one_partial C95_times C95_done Demo.C95_overlap Demo.C95_late Demo.C95_witness"),
  "Proved for workers that have their connections. False otherwise: a worker whose connection is lost goes on executing while the broker gives the task to another one (witness), and it may even begin with a task that was sent to it before and has since been executed and acknowledged by another (witness; that lapin's buffer can still be read then is assumed).")
c("C96", "partial", q("Paladin.SystemMem", "C96_turn_partial C96_crowd Demo.C96_turn_example"),
  "False as stated: all jobs share one task queue, and a map publishes its whole input without waiting for results; for every list, a job of one task can come to wait behind one task for each element, and then does in every continuation (C96_crowd). What holds: a task waits for exactly those published before it, and for none published after it (C96_turn_partial).")
c("C97", "proved", q("Paladin.SystemMem", "C97_results C97_map C97_all C97_input C97_bytes BytesDemo.C97_bytes_example Demo.C97_example Demo.C97_input_example Demo.C97_two C97_pipeline C97_unsorted ChainDemo.C97_pipeline_example C97_sequential BytesDemo.C97_sequential_example C97_chain_sequential") + q("Paladin.PubAll", "C97_publish_all C97_publish_example C97_waits C97_sending Demo.C97_sending_example"),
  "The order is that in which tasks are pushed to the task queue. The model lets the up to ten publishes under way push in any order; C97_input is about executions in which the oldest goes first, as in memory, where publishing does not wait (C97_publish_all, over the model of publish_all). Its executions are executions of the sending side of the model of map, and the oldest goes first in them (C53_refines, C97_sending). C97_pipeline and C97_unsorted: chains of maps. C97_sequential, C97_chain_sequential: with completion (C79_map_bytes), at rest the stream is the one a sequential map yields. C97_two shows two workers overtaking each other, C97_waits publishes that wait.")
