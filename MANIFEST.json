{
 "claims": [
  {
   "property": "C01",
   "status": "proved",
   "theorems": [
    "Paladin.C01_find_contiguous"
   ],
   "note": "Queue of disjoint valid ranges; both directions and the effect on the queue."
  },
  {
   "property": "C02",
   "status": "proved",
   "theorems": [
    "Paladin.C02_acquire",
    "Paladin.C02_history"
   ],
   "note": "One call, and every history of calls and dequeues."
  },
  {
   "property": "C03",
   "status": "proved",
   "theorems": [
    "Paladin.Conc.C03_conserved",
    "Paladin.Conc.C03_at_rest"
   ],
   "note": "Every interleaving of atomic steps; lookups may even return stale entries."
  },
  {
   "property": "C04",
   "status": "partial",
   "theorems": [
    "Paladin.Conc.C04_missed_pair_witness",
    "Paladin.Conc.C04_missed_only_if_overlapping_partial",
    "Paladin.Conc.C04_one_at_a_time_partial"
   ],
   "note": "False (check-then-insert race, witness). Proved: a missed pair needs overlapping calls; none is missed when calls do not overlap."
  },
  {
   "property": "C05",
   "status": "proved",
   "theorems": [
    "Paladin.Fold.C05_fold_ok",
    "Paladin.Fold.C05_fold_in_order"
   ],
   "note": "All executions, also with lost and duplicated messages."
  },
  {
   "property": "C06",
   "status": "proved",
   "theorems": [
    "Paladin.Fold.C06_fold_eq_sequential",
    "Paladin.Fold.C06_fold_monoid",
    "Paladin.Fold.C08_empty",
    "Paladin.Fold.C10_single"
   ],
   "note": "Associative partial combine; monoid; empty and single inputs."
  },
  {
   "property": "C07",
   "status": "proved",
   "theorems": [
    "Paladin.Fold.C07_combine_count",
    "Paladin.Fold.C07_partition"
   ],
   "note": "Messages delivered exactly once (with redelivery more combines run)."
  },
  {
   "property": "C08",
   "status": "partial",
   "theorems": [
    "Paladin.Fold.C08_bounded",
    "Paladin.Fold.C08_completes_partial",
    "Paladin.Fold.C08_can_complete_partial",
    "Paladin.Fold.C08_empty",
    "Paladin.Fold.C08_hang",
    "Paladin.Fold.C08_hang_witness",
    "Paladin.FoldFine.C08_limits_completes_partial",
    "Paladin.FoldFine.FineDemo.C08_limits_hang_witness"
   ],
   "note": "False as stated: fold hangs exactly when all n-1 results are received before the end of the input is observed (C08_hang). Completion proved otherwise; also with the limits of C85."
  },
  {
   "property": "C09",
   "status": "proved",
   "theorems": [
    "Paladin.Fold.C09_combine_error",
    "Paladin.Fold.C09_input_error",
    "Paladin.Fold.C09_loss_never_ok",
    "Paladin.Fold.C09_error_provenance",
    "Paladin.Fold.C09_error_operands"
   ],
   "note": "Delivery at most once."
  },
  {
   "property": "C10",
   "status": "partial",
   "theorems": [
    "Paladin.Fold.C10_gap_never_ok",
    "Paladin.Fold.C10_offset_partial",
    "Paladin.Fold.C10_single",
    "Paladin.Fold.C10_panic",
    "Paladin.Fold.C10_disconnect",
    "Paladin.Fold.C10_single_witness",
    "Paladin.Fold.C05_fold_in_order"
   ],
   "note": "False for a one-element stream whose index is not 0: fold panics. Gap part proved in full; offset part for at least two items."
  },
  {
   "property": "C11",
   "status": "proved",
   "theorems": [
    "Paladin.Fold.C05_fold_ok",
    "Paladin.Fold.C06_fold_eq_sequential"
   ],
   "note": "These theorems have no delivery hypothesis: loss and duplication steps are allowed."
  },
  {
   "property": "C12",
   "status": "proved",
   "theorems": [
    "Paladin.MapS.C12_map_one_each",
    "Paladin.MapS.C12_map_sound"
   ],
   "note": "Messages delivered at most once, consumer stream stays open (see C14, C16 for what happens otherwise)."
  },
  {
   "property": "C13",
   "status": "proved",
   "theorems": [
    "Paladin.MapS.C13_map_sorted",
    "Paladin.MapS.C13_map_pure"
   ],
   "note": "Same environment as C12."
  },
  {
   "property": "C14",
   "status": "partial",
   "theorems": [
    "Paladin.MapS.C14_no_silent_drop_partial",
    "Paladin.MapS.C14_disconnect_witness"
   ],
   "note": "Proved while the broker's consumer stream stays open. False otherwise: if it ends while nothing is pending, items published later are dropped silently (witness)."
  },
  {
   "property": "C15",
   "status": "proved",
   "theorems": [
    "Paladin.MapS.C15_failure_surfaces",
    "Paladin.MapS.C15_op_error_surfaces",
    "Paladin.MapS.C15_error_provenance"
   ],
   "note": "Leader-side failures: every execution. Operation errors: at-most-once delivery, consumer stream open."
  },
  {
   "property": "C16",
   "status": "partial",
   "theorems": [
    "Paladin.MapS.C16_once_partial",
    "Paladin.MapS.C16_redelivery_partial",
    "Paladin.MapS.C16_redelivery_witness"
   ],
   "note": "False under redelivery (witness). Proved for at-most-once delivery; under redelivery the number of outputs and their provenance are proved."
  },
  {
   "property": "C17",
   "status": "proved",
   "theorems": [
    "Paladin.Lit.C17_literal_map",
    "Paladin.Lit.C17_literal_failure",
    "Paladin.Lit.C17_literal_completes",
    "Paladin.Lit.C17_once",
    "Paladin.Lit.C17_disconnect"
   ],
   "note": "All executions with losses, duplicates and failures."
  },
  {
   "property": "C18",
   "status": "proved",
   "theorems": [
    "Paladin.Chain.C18_map_fold",
    "Paladin.Chain.C18_map_fold_sequential",
    "Paladin.Chain.C18_disconnect_witness",
    "Paladin.MapS.C18_map_stage",
    "Paladin.Fold.C18_fold_stage"
   ],
   "note": "Messages of both stages may be lost or duplicated; the map's consumer stream stays open (needed: witness). Stage theorems give chains of any number of maps."
  },
  {
   "property": "C19",
   "status": "proved",
   "theorems": [
    "Paladin.Coord.C19_end_means_done",
    "Paladin.Coord.C19_end_is_final",
    "Paladin.Coord.C19_yields_once"
   ],
   "note": "Every history of calls from one task, with losses, failed publishes and broker stream ends."
  },
  {
   "property": "C20",
   "status": "partial",
   "theorems": [
    "Paladin.Coord.C20_early_end_witness",
    "Paladin.Coord.C20_end_partial",
    "Paladin.Coord.C20_closed_before_partial"
   ],
   "note": "False (two-load race, witness). Proved: everything counted before the first load was yielded and acknowledged; full claim if closed before the first load."
  },
  {
   "property": "C21",
   "status": "partial",
   "theorems": [
    "Paladin.Coord.C21_close_does_not_wake_witness",
    "Paladin.Coord.C21_parked_forever",
    "Paladin.Coord.C21_next_poll_partial",
    "Paladin.Coord.C21_woken_partial"
   ],
   "note": "False for a parked receiver with nothing outstanding (witness and general theorem). Proved: the next poll ends; the last acknowledgement after close wakes it."
  },
  {
   "property": "C22",
   "status": "proved",
   "theorems": [
    "Paladin.Coord.C22_rejected",
    "Paladin.Coord.C22_threads"
   ],
   "note": "One task, and every interleaving of threads."
  },
  {
   "property": "C23",
   "status": "proved",
   "theorems": [
    "Paladin.Coord.C23_once",
    "Paladin.Coord.C23_calls"
   ],
   "note": "Every interleaving of threads."
  },
  {
   "property": "C24",
   "status": "partial",
   "theorems": [
    "Paladin.Coord.C24_failed_publish_blocks",
    "Paladin.Coord.C24_blocks_witness",
    "Paladin.Coord.C24_sent_failures_partial"
   ],
   "note": "False: a publish that fails before sending keeps the receiver open for ever. Proved for publishes that fail after sending or are rejected."
  },
  {
   "property": "C25",
   "status": "proved",
   "theorems": [
    "Paladin.Acking.C25_sequential",
    "Paladin.Acking.C25_leased"
   ],
   "note": "Every nesting of composed ackers; the composition used by the leased channel."
  },
  {
   "property": "C26",
   "status": "proved",
   "theorems": [
    "Paladin.InMem.C26_exactly_once"
   ],
   "note": "Any number of publishers and consumers, every interleaving."
  },
  {
   "property": "C27",
   "status": "proved",
   "theorems": [
    "Paladin.InMem.C27_no_panic",
    "Paladin.InMem.C27_permits",
    "Paladin.InMem.C27_broadcast"
   ],
   "note": "Exactly-once and broadcast queues, every interleaving."
  },
  {
   "property": "C28",
   "status": "proved",
   "theorems": [
    "Paladin.InMem.C28_at_most_once",
    "Paladin.InMem.C28_delivered"
   ],
   "note": "Every interleaving of publishers and declarations, both delivery modes."
  },
  {
   "property": "C29",
   "status": "proved",
   "theorems": [
    "Paladin.InMem.C29_kept",
    "Paladin.InMem.C29_at_rest"
   ],
   "note": "Every interleaving."
  },
  {
   "property": "C30",
   "status": "partial",
   "theorems": [
    "Paladin.InMem.C30_split_witness",
    "Paladin.InMem.C30_replay_partial"
   ],
   "note": "False when declarations overlap (witness); proved when they do not."
  },
  {
   "property": "C31",
   "status": "proved",
   "theorems": [
    "Paladin.Connection.C31_isolated"
   ],
   "note": "Refinement of a specification with one queue per name and deletion count, for every kind of queue."
  },
  {
   "property": "C32",
   "status": "proved",
   "theorems": [
    "Paladin.Retry.C32_attempts",
    "Paladin.Retry.C32_counts",
    "Paladin.Retry.C32_deterministic"
   ],
   "note": "Every outcome stream."
  },
  {
   "property": "C33",
   "status": "proved",
   "theorems": [
    "Paladin.Retry.C33_first",
    "Paladin.Retry.C33_attempts",
    "Paladin.Retry.C33_exponential",
    "Paladin.Retry.C33_trace",
    "Paladin.Retry.C33_exponential_trace"
   ],
   "note": "All strategies, every outcome stream."
  },
  {
   "property": "C34",
   "status": "partial",
   "theorems": [
    "Paladin.Retry.C34_fatal_retried_witness",
    "Paladin.Retry.C34_first_fatal_partial"
   ],
   "note": "False: a fatal error of a retry attempt is retried and its strategy replaced (witness). Proved for a fatal first attempt."
  },
  {
   "property": "C35",
   "status": "proved",
   "theorems": [
    "Paladin.Retry.C35_exponential",
    "Paladin.Retry.C35_terminates"
   ],
   "note": "Every clock, jitter and interval growth; the backoff crate's arithmetic is a parameter."
  },
  {
   "property": "C36",
   "status": "proved",
   "theorems": [
    "Paladin.Retry.C36_transient",
    "Paladin.Retry.C36_fatal",
    "Paladin.Retry.C36_into_fatal",
    "Paladin.Retry.C36_exhausted"
   ],
   "note": "All error values."
  },
  {
   "property": "C37",
   "status": "proved",
   "theorems": [
    "Paladin.Wire.C37_postcard",
    "Paladin.Wire.C37_injective"
   ],
   "note": "Byte-level encoder and decoder; every field value."
  },
  {
   "property": "C38",
   "status": "proved",
   "theorems": [
    "Paladin.Wire.C38_cbor",
    "Paladin.Wire.C37_injective"
   ],
   "note": "Byte-level encoder and decoder; every field value."
  },
  {
   "property": "C39",
   "status": "proved",
   "theorems": [
    "Paladin.Exec.C39_transparent",
    "Paladin.Exec.C39_success",
    "Paladin.Exec.C39_sound",
    "Paladin.Exec.C39_derived_lawful"
   ],
   "note": "Byte for byte through both queues; every operation, retry policy and lawful codec."
  },
  {
   "property": "C40",
   "status": "partial",
   "theorems": [
    "Paladin.Exec.C40_first_panic_partial",
    "Paladin.Exec.C40_contained_partial",
    "Paladin.Exec.C40_witness"
   ],
   "note": "False for a panic in a retry (takes over the first error's strategy) and for a panicking Deserialize (witness). Proved for a panic of the first attempt; no panic of execute crashes the worker or is reported as success."
  },
  {
   "property": "C41",
   "status": "partial",
   "theorems": [
    "Paladin.Exec.C41_possible_iff",
    "Paladin.Exec.C41_one_crate_partial",
    "Paladin.Exec.C41_witness"
   ],
   "note": "False for several crates or more than 256 operations, whatever the link order (witness). Proved for one crate with at most 256 operations linked in order; exact condition proved."
  },
  {
   "property": "C42",
   "status": "proved",
   "theorems": [
    "Paladin.Worker.C42_settled",
    "Paladin.Worker.C42_earlier",
    "Paladin.Worker.C42_counts"
   ],
   "note": "Every interleaving of the loop, the command handler, the reaper and the environment."
  },
  {
   "property": "C43",
   "status": "partial",
   "theorems": [
    "Paladin.Worker.C43_not_started_partial",
    "Paladin.Worker.C43_marked_partial",
    "Paladin.Worker.C43_mark_dropped",
    "Paladin.Worker.C43_witness"
   ],
   "note": "False: a repeated Abort does not renew the mark, and a task already checked is started after the mark (witnesses). Proved for tasks received after a new mark; the upper bound in full, up to timer lag."
  },
  {
   "property": "C44",
   "status": "partial",
   "theorems": [
    "Paladin.Worker.C44_coalesced_witness",
    "Paladin.Worker.C44_signal_partial",
    "Paladin.Worker.C44_stops_partial",
    "Paladin.Worker.C44_state_partial",
    "Paladin.Worker.C44_then_stops_partial",
    "Paladin.Worker.C44_flag_partial"
   ],
   "note": "False: the command is lost if another follows before the task looks, or if one is still marked (witness). Proved when it is the last value on the watch channel."
  },
  {
   "property": "C45",
   "status": "partial",
   "theorems": [
    "Paladin.Worker.C45_published_partial",
    "Paladin.Worker.C45_ignore_witness"
   ],
   "note": "Publishing proved in full; false that Ignore leaves the job's other tasks served (witness)."
  },
  {
   "property": "C46",
   "status": "partial",
   "theorems": [
    "Paladin.Worker.C46_witness",
    "Paladin.Worker.C46_acked_partial",
    "Paladin.Worker.C46_publish_first_partial"
   ],
   "note": "False: ack and publish are concurrent (witness). Proved that an acked task has succeeded, and the claim itself if publishing comes first."
  },
  {
   "property": "C47",
   "status": "partial",
   "theorems": [
    "Paladin.Amqp.C47_never_two",
    "Paladin.Amqp.C47_witness",
    "Paladin.Amqp.C47_one_consumer_partial"
   ],
   "note": "False: all consumers of a broadcast channel share one queue (witness; in fact two consumers never yield the same message). Proved that any one of them can."
  },
  {
   "property": "C48",
   "status": "partial",
   "theorems": [
    "Paladin.Amqp.C48_same_name",
    "Paladin.Amqp.C48_one_place",
    "Paladin.Amqp.C48_at_most_once",
    "Paladin.Amqp.C48_returned",
    "Paladin.Amqp.C48_reaches_partial",
    "Paladin.Amqp.C48_deleted",
    "Paladin.Amqp.C48_deleted_final",
    "Paladin.Amqp.C48_expired_witness"
   ],
   "note": "Proved for queues that have not expired; false for one idle for 30 minutes (witness)."
  },
  {
   "property": "C49",
   "status": "partial",
   "theorems": [
    "Paladin.Amqp.C49_stall",
    "Paladin.Amqp.C49_decodable",
    "Paladin.Amqp.C49_fewer_partial",
    "Paladin.Amqp.C49_witness",
    "Paladin.Amqp.C49_asleep_witness"
   ],
   "note": "False: undecodable messages are not acknowledged and fill the prefetch window (witness, and in general); with a larger window they hide the next message. Proved for fewer of them than the limit."
  },
  {
   "property": "C50",
   "status": "proved",
   "theorems": [
    "Paladin.Amqp.C50_options",
    "Paladin.Amqp.C50_same",
    "Paladin.Amqp.C50_no_conflict",
    "Paladin.Amqp.C50_declares",
    "Paladin.Amqp.C50_lasts"
   ],
   "note": "Against the broker model."
  },
  {
   "property": "C51",
   "status": "proved",
   "theorems": [
    "Paladin.Chan.C51_own",
    "Paladin.Chan.C51_isolated",
    "Paladin.Chan.C51_once",
    "Paladin.Chan.C51_reaches",
    "Paladin.Chan.C51_shared",
    "Paladin.Chan.C51_same_witness",
    "Paladin.Chan.C51_fixed"
   ],
   "note": "In memory and AMQP; with distinct identifiers results also reach the receiver."
  },
  {
   "property": "C52",
   "status": "partial",
   "theorems": [
    "Paladin.Chan.C52_once",
    "Paladin.Chan.C52_only",
    "Paladin.Chan.C52_gone_partial",
    "Paladin.Chan.C52_late",
    "Paladin.Chan.C52_stays",
    "Paladin.Chan.C52_expires",
    "Paladin.Chan.C52_late_witness",
    "Paladin.Chan.C52_same_witness",
    "Paladin.Chan.C52_same_memory_witness"
   ],
   "note": "Last sentence false: a late result makes the queue again, in memory for ever (witness). Proved as long as nobody asks for the queue; the rest proved (AMQP expiry and equal identifiers aside)."
  },
  {
   "property": "C53",
   "status": "partial",
   "theorems": [
    "Paladin.PubAll.C53_ok",
    "Paladin.PubAll.C53_at_most_once",
    "Paladin.PubAll.C53_bounded_partial",
    "Paladin.PubAll.C53_zero_witness",
    "Paladin.PubAll.C53_error_real",
    "Paladin.PubAll.C53_error_kept",
    "Paladin.PubAll.C53_first_error",
    "Paladin.PubAll.C53_stops",
    "Paladin.PubAll.C53_not_asleep",
    "Paladin.PubAll.C53_progress",
    "Paladin.PubAll.C53_poll_ends",
    "Paladin.PubAll.C53_refines",
    "Paladin.PubAll.C53_realized",
    "Paladin.PubAll.Demo.C53_refines_example",
    "Paladin.PubAll.Demo.C53_realized_example"
   ],
   "note": "False for the limit 0, which means no limit (witness); proved for every other limit and for none, every interleaving. C53_refines: with the limit of a map, every execution is one of the sending side of the model of map; C53_realized: the other way round, except for errors of the input stream while ten publishes run, which the model of map allows and publish_all does not see."
  },
  {
   "property": "C54",
   "status": "proved",
   "theorems": [
    "Paladin.IdxStream.C54_numbered",
    "Paladin.IdxStream.C54_try_numbered",
    "Paladin.IdxStream.C54_same_end",
    "Paladin.IdxStream.C54_distinct",
    "Paladin.IdxStream.C54_sorted_id",
    "Paladin.IdxStream.C54_sorted_any",
    "Paladin.IdxStream.C54_sorted_error"
   ],
   "note": "Every iterator, also one that goes on after None."
  },
  {
   "property": "C55",
   "status": "proved",
   "theorems": [
    "Paladin.Arith.C55_contiguous",
    "Paladin.Arith.C55_final",
    "Paladin.Arith.C55_overflow",
    "Paladin.Arith.C55_final_overflow",
    "Paladin.Arith.C55_model"
   ],
   "note": "64-bit arithmetic, exact overflow condition."
  },
  {
   "property": "C56",
   "status": "proved",
   "theorems": [
    "Paladin.Adapters.C56_with",
    "Paladin.Adapters.C56_with_with",
    "Paladin.Adapters.C56_boxed",
    "Paladin.Adapters.C56_task_sender",
    "Paladin.Adapters.C56_composed_assoc",
    "Paladin.Adapters.C56_composed_unit"
   ],
   "note": "Every monad of effects."
  },
  {
   "property": "C57",
   "status": "partial",
   "theorems": [
    "Paladin.MapPoll.C57_exact",
    "Paladin.MapPoll.C57_end",
    "Paladin.MapPoll.C57_awake_partial",
    "Paladin.MapPoll.C57_witness",
    "Paladin.MapPoll.C57_refines",
    "Paladin.MapPoll.C57_refines_example"
   ],
   "note": "False: map over an input that is pending at first and then ends without items (or after its results were acknowledged) sleeps for ever if that poll looks at the results first (witness). Proved that this is the only case. C57_refines: every poll-by-poll execution is one of the model of map, by numbers of messages."
  },
  {
   "property": "C58",
   "status": "proved",
   "theorems": [
    "Paladin.MapS.C58_bounded",
    "Paladin.MapS.C58_progress"
   ],
   "note": "Any oracle for the operation."
  },
  {
   "property": "C59",
   "status": "partial",
   "theorems": [
    "Paladin.Wire.C59_postcard",
    "Paladin.Wire.C59_cbor_partial",
    "Paladin.Wire.C59_cbor_witness",
    "Paladin.Wire.C59_floats"
   ],
   "note": "Postcard in full. False for Cbor with directly nested options (witness) and beyond 256 levels of nesting (C88); proved for all other values. Floats are bit patterns; an `f32` signalling NaN is not a value of the model."
  },
  {
   "property": "C60",
   "status": "proved",
   "theorems": [
    "Paladin.Wire.C60_truncated",
    "Paladin.Wire.C60_messages"
   ],
   "note": "Both formats, every type that round-trips."
  },
  {
   "property": "C61",
   "status": "proved",
   "theorems": [
    "Paladin.InMem.C61_no_deadlock",
    "Paladin.InMem.C61_finite"
   ],
   "note": "Progress and a bound on the steps of running calls."
  },
  {
   "property": "C62",
   "status": "partial",
   "theorems": [
    "Paladin.InMem.C62_reserved_witness",
    "Paladin.InMem.C62_gets_partial",
    "Paladin.InMem.C62_reserved",
    "Paladin.InMem.C62_alone_partial"
   ],
   "note": "False: a woken consumer that is not polled again keeps a message from others (witness). Proved: only consumers that polled and were neither served nor dropped since can do so."
  },
  {
   "property": "C63",
   "status": "partial",
   "theorems": [
    "Paladin.Worker.C63_panic_witness",
    "Paladin.Worker.C63_no_panic_partial"
   ],
   "note": "False once the command stream has ended (witness); proved before."
  },
  {
   "property": "C64",
   "status": "partial",
   "theorems": [
    "Paladin.Worker.C64_witness",
    "Paladin.Worker.C64_only_abort_all_partial"
   ],
   "note": "First half false (witness); second half proved: only abort-all interrupts."
  },
  {
   "property": "C65",
   "status": "partial",
   "theorems": [
    "Paladin.Amqp.C65_witness",
    "Paladin.Amqp.C65_senders_partial",
    "Paladin.Amqp.C65_error_closes"
   ],
   "note": "False for broadcast channels: the broker closes the process's only AMQP channel (witness). Proved for senders of exactly-once channels and releases."
  },
  {
   "property": "C66",
   "status": "partial",
   "theorems": [
    "Paladin.Amqp.C66_in_order_partial",
    "Paladin.Amqp.C66_witness"
   ],
   "note": "False once a message is requeued (witness); proved until then."
  },
  {
   "property": "C67",
   "status": "partial",
   "theorems": [
    "Paladin.Chan.C67_witness",
    "Paladin.Chan.C67_before_partial"
   ],
   "note": "False for a failure after the queue was declared (witness); proved before that."
  },
  {
   "property": "C68",
   "status": "proved",
   "theorems": [
    "Paladin.System.C68_isolation",
    "Paladin.System.C68_map",
    "Paladin.System.C68_map_sorted",
    "Paladin.System.C68_fold",
    "Paladin.System.C68_fold_monoid"
   ],
   "note": "Whole system; encodings are assumed transparent (C37, C39, C59)."
  },
  {
   "property": "C69",
   "status": "proved",
   "theorems": [
    "Paladin.System.C69_exact",
    "Paladin.System.C69_new",
    "Paladin.System.C69_forever",
    "Paladin.System.C69_calm"
   ],
   "note": "Whole system."
  },
  {
   "property": "C70",
   "status": "partial",
   "theorems": [
    "Paladin.System.C70_isolated_partial",
    "Paladin.System.Demo.C70_witness"
   ],
   "note": "False when the error asks for termination: the worker then sends abort-all, and every worker rejects whatever task it is executing, of any job (witness). Proved for all other failures."
  },
  {
   "property": "C71",
   "status": "partial",
   "theorems": [
    "Paladin.System.C71_map",
    "Paladin.System.C71_map_bytes",
    "Paladin.System.C71_fold_partial",
    "Paladin.System.C71_fold_bytes_partial",
    "Paladin.System.C71_ends"
   ],
   "note": "Whole system. Proved for maps and for the coming to rest; for folds except when all results arrive before the end of the input is observed, where it is false (C08_hang)."
  },
  {
   "property": "C72",
   "status": "proved",
   "theorems": [
    "Paladin.System.C72_map",
    "Paladin.System.C72_map_pure",
    "Paladin.System.C72_fold",
    "Paladin.System.C72_fold_monoid",
    "Paladin.System.C72_addressed",
    "Paladin.SystemMem.C72_memory_map",
    "Paladin.SystemMem.C72_memory_fold",
    "Paladin.SystemMem.BytesDemo.C97_bytes_example"
   ],
   "note": "Whole system with messages as bytes; composes C37-C39, C33 and C68."
  },
  {
   "property": "C73",
   "status": "partial",
   "theorems": [
    "Paladin.Life.C73_exact",
    "Paladin.Life.C73_stops_partial",
    "Paladin.Life.C73_commands_partial",
    "Paladin.Life.C73_commands_order",
    "Paladin.Life.C73_emulator",
    "Paladin.Life.C73_emulator_witness",
    "Paladin.Life.C73_failed_witness",
    "Paladin.Life.C73_half_witness",
    "Paladin.Life.C73_interrupted_witness"
   ],
   "note": "False: only the exit at the end of main_loop aborts the tasks, and a blocking operation cannot be cancelled (exact account, witnesses). Proved for loops that return Ok otherwise than by abort-all."
  },
  {
   "property": "C74",
   "status": "proved",
   "theorems": [
    "Paladin.System.C74_map_own_errors",
    "Paladin.System.C74_fold_own_errors",
    "Paladin.System.C74_map_accounts",
    "Paladin.System.C74_fold_accounts",
    "Paladin.System.C74_map_surfaces",
    "Paladin.System.C74_fold_surfaces",
    "Paladin.System.C74_map_loss",
    "Paladin.System.C74_fold_loss",
    "Paladin.System.C74_map_text",
    "Paladin.System.C74_fold_text"
   ],
   "note": "Whole system, also with messages as bytes (texts of errors)."
  },
  {
   "property": "C75",
   "status": "partial",
   "theorems": [
    "Paladin.System.C75_fold",
    "Paladin.System.C75_sorted",
    "Paladin.System.C75_no_panic",
    "Paladin.System.C75_maps_complete",
    "Paladin.System.C75_fold_complete_partial",
    "Paladin.System.C75_fold_bytes",
    "Paladin.System.C75_sorted_bytes",
    "Paladin.System.C75_fold_complete_bytes_partial"
   ],
   "note": "Whole system, abstract and with messages as bytes. Completion of the fold except when all its results arrive before it sees the end of its input (C08_hang, C76_hang_witness)."
  },
  {
   "property": "C76",
   "status": "partial",
   "theorems": [
    "Paladin.Hello.C76_value",
    "Paladin.Hello.C76_assert",
    "Paladin.Hello.C76_ok",
    "Paladin.Hello.C76_errors",
    "Paladin.Hello.C76_no_panic",
    "Paladin.Hello.C76_completes_partial",
    "Paladin.Hello.HelloDemo.C76_hang_witness"
   ],
   "note": "Value, errors and panics proved in full. Completion is false when all results of the fold arrive before it sees the end of its input (witness); proved otherwise."
  },
  {
   "property": "C77",
   "status": "partial",
   "theorems": [
    "Paladin.Setup.C77_start",
    "Paladin.Setup.C77_default_panics",
    "Paladin.Setup.C77_tasks",
    "Paladin.Setup.C77_value",
    "Paladin.Setup.C77_reaches",
    "Paladin.Setup.C77_results",
    "Paladin.Setup.C77_returns",
    "Paladin.Setup.C77_commands",
    "Paladin.Setup.C77_commands_reach",
    "Paladin.Setup.C77_emulated",
    "Paladin.Setup.C77_in_memory",
    "Paladin.Setup.C77_lonely_worker",
    "Paladin.Setup.SetupDemo.C77_collision_witness"
   ],
   "note": "False for a bus that has the name of the command channel (witness); proved otherwise. Config::default() makes from_config panic; with num_workers = Some(0) in memory no task is ever received; aborts cross buses on a broker."
  },
  {
   "property": "C78",
   "status": "proved",
   "theorems": [
    "Paladin.Exec.C78_crash",
    "Paladin.Exec.C78_rejected",
    "Paladin.Exec.C78_envelope",
    "Paladin.Exec.C78_leader"
   ],
   "note": "For all bytes and all codecs."
  },
  {
   "property": "C79",
   "status": "partial",
   "theorems": [
    "Paladin.SystemMem.C79_refines",
    "Paladin.SystemMem.C79_map",
    "Paladin.SystemMem.C79_fold",
    "Paladin.SystemMem.C79_order",
    "Paladin.SystemMem.C79_map_completes",
    "Paladin.SystemMem.C79_map_bytes",
    "Paladin.SystemMem.C79_sorted_completes",
    "Paladin.SystemMem.C79_sorted_reached",
    "Paladin.SystemMem.BytesDemo.C79_sorted_reached_example",
    "Paladin.SystemMem.C79_fold_completes_partial",
    "Paladin.SystemMem.C79_ends"
   ],
   "note": "Proved, except the completion of a fold whose results all arrive before it sees the end of its input (C08_hang)."
  },
  {
   "property": "C80",
   "status": "partial",
   "theorems": [
    "Paladin.SystemAmqp.C80_refines",
    "Paladin.SystemAmqp.C80_map",
    "Paladin.SystemAmqp.C80_fold",
    "Paladin.SystemAmqp.C80_map_completes",
    "Paladin.SystemAmqp.C80_sorted_completes",
    "Paladin.SystemAmqp.HelloDemo.C80_sorted_example",
    "Paladin.SystemAmqp.C80_fold_completes_partial",
    "Paladin.SystemAmqp.C80_ends"
   ],
   "note": "Proved, except the completion of a fold whose results all arrive before it sees the end of its input (C08_hang)."
  },
  {
   "property": "C81",
   "status": "partial",
   "theorems": [
    "Paladin.SystemAmqp.C81_fold",
    "Paladin.SystemAmqp.C81_sorted",
    "Paladin.SystemAmqp.C81_sorted_completes",
    "Paladin.SystemAmqp.C81_fold_completes_partial",
    "Paladin.SystemAmqp.C81_hello_value",
    "Paladin.SystemAmqp.C81_hello_assert",
    "Paladin.SystemAmqp.C81_hello_no_panic",
    "Paladin.SystemAmqp.C81_hello_errors",
    "Paladin.SystemAmqp.C81_hello_completes_partial",
    "Paladin.SystemMem.C81_memory_fold",
    "Paladin.SystemMem.C81_memory_sorted",
    "Paladin.SystemMem.C81_memory_completes_partial",
    "Paladin.SystemMem.C81_memory_sorted_completes",
    "Paladin.SystemMem.BytesDemo.C81_memory_sorted_example"
   ],
   "note": "Proved, except the completion of a pipeline whose fold sees the end of its input only after all its results came (C08_hang, C76_hang_witness)."
  },
  {
   "property": "C82",
   "status": "partial",
   "theorems": [
    "Paladin.Worker.C82_stops_partial",
    "Paladin.Worker.C82_unheard",
    "Paladin.Worker.C82_check_dead",
    "Paladin.System.C82_unseen",
    "Paladin.System.C82_lost",
    "Paladin.System.C82_map_hangs",
    "Paladin.System.C82_fold_hangs",
    "Paladin.Hello.C82_errors",
    "Paladin.Hello.C82_hangs",
    "Paladin.Hello.HelloDemo.C82_hang_witness",
    "Paladin.SystemAmqp.C82_broker_unseen",
    "Paladin.SystemAmqp.C82_broker_errors",
    "Paladin.SystemAmqp.C82_broker_hangs",
    "Paladin.SystemAmqp.HelloDemo.C82_broker_hang_witness",
    "Paladin.SystemMem.C82_memory_map",
    "Paladin.SystemMem.C82_memory_fold",
    "Paladin.SystemMem.Demo.C82_memory_hang_witness"
   ],
   "note": "The workers give up their tasks, but the rest is false: the loop sets the signal in the very step that abandons the execution, so no outcome of an operation that saw it is ever published; the task is lost, and the leader waits for ever (witness)."
  },
  {
   "property": "C83",
   "status": "partial",
   "theorems": [
    "Paladin.Cli.C83_reads",
    "Paladin.Cli.C83_unambiguous",
    "Paladin.Cli.C83_order",
    "Paladin.Cli.C83_precedence",
    "Paladin.Cli.C83_expressible",
    "Paladin.Cli.C83_panics_iff",
    "Paladin.Cli.C83_no_panic_partial",
    "Paladin.Cli.C83_panic_witness"
   ],
   "note": "Proved, except the last sentence: with neither a runtime nor an address the command line is accepted (the requirement does not look at defaults), and from_config panics (exact condition, witness)."
  },
  {
   "property": "C84",
   "status": "partial",
   "theorems": [
    "Paladin.Amqp.C84_calls",
    "Paladin.Amqp.C84_receivers",
    "Paladin.Amqp.C84_returned",
    "Paladin.Amqp.C84_others",
    "Paladin.Amqp.C84_released_partial",
    "Paladin.Amqp.C84_leak",
    "Paladin.Amqp.CloseDemo.C84_leak_witness"
   ],
   "note": "Proved, except the last sentence: dropping the receiver only spawns the deletion, and if the close comes first the deletion fails unseen and the queue stays until it expires (C84_leak, witness: the leader of hello-world-rabbitmq)."
  },
  {
   "property": "C85",
   "status": "proved",
   "theorems": [
    "Paladin.FoldFine.C85_refines",
    "Paladin.FoldFine.C85_value",
    "Paladin.FoldFine.C85_bounded",
    "Paladin.FoldFine.C85_not_read",
    "Paladin.FoldFine.C85_no_deadlock",
    "Paladin.FoldFine.C85_clears"
   ],
   "note": "Items, results, channel with parked senders, publishes; the futures mpsc channel is modelled from general knowledge of it, its source is not here."
  },
  {
   "property": "C86",
   "status": "partial",
   "theorems": [
    "Paladin.Worker.C86_last_task",
    "Paladin.System.C86_no_answer",
    "Paladin.System.C86_later_map",
    "Paladin.System.C86_later_fold",
    "Paladin.System.C86_undisturbed_partial",
    "Paladin.SystemMem.C86_memory_map",
    "Paladin.SystemMem.C86_memory_fold",
    "Paladin.SystemMem.Demo.C86_witness",
    "Paladin.SystemAmqp.C86_broker_no_answer",
    "Paladin.SystemAmqp.C86_broker_map",
    "Paladin.SystemAmqp.C86_broker_fold",
    "Paladin.SystemAmqp.Demo.C86_broker_witness"
   ],
   "note": "False: every worker that has heard the abort-all command rejects the next task it starts and stops, so a later map or fold on these workers waits for ever (theorems and witness). Proved for failures that do not ask to terminate."
  },
  {
   "property": "C87",
   "status": "proved",
   "theorems": [
    "Paladin.Program.C87_runs",
    "Paladin.Program.C87_ok",
    "Paladin.Program.C87_assert",
    "Paladin.Program.C87_panic",
    "Paladin.Program.C87_err",
    "Paladin.Program.C87_timer",
    "Paladin.Program.C87_only_timers",
    "Paladin.Program.C87_commands",
    "Paladin.Program.C87_one",
    "Paladin.Program.C87_quiet",
    "Paladin.Program.C87_hangs",
    "Paladin.Program.ProgramDemo.C87_calm_witness",
    "Paladin.Program.ProgramDemo.C87_hang_witness",
    "Paladin.Program.ProgramDemo.C87_hang_case",
    "Paladin.Program.ProgramDemo.C87_panic_witness"
   ],
   "note": "C87_hangs and its witness: a leader whose task was broken off for its own timeout does not end; the claim that the timeout ends it is C82, which is false."
  },
  {
   "property": "C88",
   "status": "partial",
   "theorems": [
    "Paladin.Wire.C88_postcard",
    "Paladin.Wire.C88_cbor_partial",
    "Paladin.Wire.C88_cbor_limit",
    "Paladin.Wire.C88_list",
    "Paladin.Wire.C88_pair",
    "Paladin.Exec.C88_task",
    "Paladin.Exec.C88_result"
   ],
   "note": "Postcard in full. False for Cbor: every value nested more than 256 levels deep is written but refused when read (ciborium's recursion limit); proved up to 256 levels, and what becomes of a task with a deeper input or output."
  },
  {
   "property": "C89",
   "status": "proved",
   "theorems": [
    "Paladin.Restart.C89_restart",
    "Paladin.Restart.C89_one_place",
    "Paladin.Restart.C89_at_most_once",
    "Paladin.Restart.C89_durable",
    "Paladin.Restart.C89_routes",
    "Paladin.Restart.C89_delivered",
    "Paladin.Restart.C89_channels",
    "Paladin.Restart.C89_cut_off"
   ],
   "note": "What the broker does in an orderly restart is trusted; publisher confirms are not used by the code, and a crash that loses messages not yet on disk is not modelled."
  },
  {
   "property": "C90",
   "status": "partial",
   "theorems": [
    "Paladin.Notice.C90_stream",
    "Paladin.Notice.C90_busy_partial",
    "Paladin.Notice.C90_busy_ends",
    "Paladin.Notice.C90_idle",
    "Paladin.Notice.C90_lost",
    "Paladin.Notice.C90_hears",
    "Paladin.Notice.C90_cancelled",
    "Paladin.Notice.C90_directive_partial",
    "Paladin.Notice.C90_directive_idle",
    "Paladin.Notice.C90_directive_lost",
    "Paladin.Notice.C90_directive_cancelled"
   ],
   "note": "False: poll_next turns lapin's error into Pending without asking to be polled again, so a worker waiting for a task and a directive waiting for results sleep for ever; a directive also hides the end of its stream. Proved for processes that still have a call to make. How lapin reports a lost connection (error and end at once, one wake) is assumed from general knowledge and could not be checked here; the negative theorems rest on it."
  },
  {
   "property": "C91",
   "status": "partial",
   "theorems": [
    "Paladin.System.C91_accounts",
    "Paladin.System.C91_no_more_partial",
    "Paladin.System.C91_still_executed",
    "Paladin.System.C91_comes_to_rest",
    "Paladin.System.Demo.C91_witness"
   ],
   "note": "Nothing more is published (proved). The second half is false: dropping sends no command, so healthy workers execute every task that was published, and publish the results (proved, with a witness)."
  },
  {
   "property": "C92",
   "status": "partial",
   "theorems": [
    "Paladin.InMem.C92_collects",
    "Paladin.InMem.C92_backlog",
    "Paladin.InMem.C92_never_kept",
    "Paladin.InMem.C92_newcomer",
    "Paladin.InMem.C92_again_partial",
    "Paladin.InMem.C92_witness"
   ],
   "note": "False: nothing removes a consumer from the map. Every later message is queued for it for ever, and the map is never empty again, so no message is kept in the history and a consumer with a new name does not receive it (proved for all interleavings, with a witness). What holds: declaring the same name again gives the old queue with all that came in the meantime."
  },
  {
   "property": "C93",
   "status": "partial",
   "theorems": [
    "Paladin.MapLong.C93_endless",
    "Paladin.MapLong.C93_goes_on",
    "Paladin.MapLong.C93_returns_partial",
    "Paladin.MapLong.C93_no_dead_end",
    "Paladin.MapLong.C93_yields_partial",
    "Paladin.MapLong.C93_fair",
    "Paladin.MapLong.Demo.C93_witness"
   ],
   "note": "False where publishing never waits, as on the in-memory runtime, and the input is always ready, as one made from an iterator: the first poll does not return before the input has ended, so nothing is yielded until everything is published, and with an endless input never (proved, with a witness). What holds: with publishes that take longer than the poll, as with a broker, a poll returns after a bounded number of steps, and one that begins when a result is there and returns yields it."
  },
  {
   "property": "C94",
   "status": "partial",
   "theorems": [
    "Paladin.SystemAmqp.C94_busy_partial",
    "Paladin.SystemAmqp.C94_sent",
    "Paladin.SystemAmqp.C94_received",
    "Paladin.SystemAmqp.C94_strands",
    "Paladin.SystemAmqp.Demo.C94_aborted",
    "Paladin.SystemAmqp.Demo.C94_publishing",
    "Paladin.SystemAmqp.Demo.C94_witness"
   ],
   "note": "Proved as long as the busy worker's task is unsettled, and that waiting workers are sent tasks and receive them. False afterwards: a worker that has acknowledged a task but is still publishing the result is sent the next one while another worker waits (witness); and a worker that was aborted is sent one as soon as it has rejected its own: nobody receives it as long as the process keeps its connection (C94_strands, witness)."
  },
  {
   "property": "C95",
   "status": "partial",
   "theorems": [
    "Paladin.SystemAmqp.C95_alone_partial",
    "Paladin.SystemAmqp.C95_one_partial",
    "Paladin.SystemAmqp.C95_times",
    "Paladin.SystemAmqp.C95_done",
    "Paladin.SystemAmqp.Demo.C95_overlap",
    "Paladin.SystemAmqp.Demo.C95_late",
    "Paladin.SystemAmqp.Demo.C95_witness"
   ],
   "note": "Proved for workers that have their connections. False otherwise: a worker whose connection is lost goes on executing while the broker gives the task to another one (witness), and it may even begin with a task that was sent to it before and has since been executed and acknowledged by another (witness; that lapin's buffer can still be read then is assumed)."
  },
  {
   "property": "C96",
   "status": "partial",
   "theorems": [
    "Paladin.SystemMem.C96_turn_partial",
    "Paladin.SystemMem.C96_crowd",
    "Paladin.SystemMem.Demo.C96_turn_example"
   ],
   "note": "False as stated: all jobs share one task queue, and a map publishes its whole input without waiting for results; for every list, a job of one task can come to wait behind one task for each element, and then does in every continuation (C96_crowd). What holds: a task waits for exactly those published before it, and for none published after it (C96_turn_partial)."
  },
  {
   "property": "C97",
   "status": "proved",
   "theorems": [
    "Paladin.SystemMem.C97_results",
    "Paladin.SystemMem.C97_map",
    "Paladin.SystemMem.C97_all",
    "Paladin.SystemMem.C97_input",
    "Paladin.SystemMem.C97_bytes",
    "Paladin.SystemMem.BytesDemo.C97_bytes_example",
    "Paladin.SystemMem.Demo.C97_example",
    "Paladin.SystemMem.Demo.C97_input_example",
    "Paladin.SystemMem.Demo.C97_two",
    "Paladin.SystemMem.C97_pipeline",
    "Paladin.SystemMem.C97_unsorted",
    "Paladin.SystemMem.ChainDemo.C97_pipeline_example",
    "Paladin.SystemMem.C97_sequential",
    "Paladin.SystemMem.BytesDemo.C97_sequential_example",
    "Paladin.SystemMem.C97_chain_sequential",
    "Paladin.PubAll.C97_publish_all",
    "Paladin.PubAll.C97_publish_example",
    "Paladin.PubAll.C97_waits",
    "Paladin.PubAll.C97_sending",
    "Paladin.PubAll.Demo.C97_sending_example"
   ],
   "note": "The order is that in which tasks are pushed to the task queue. The model lets the up to ten publishes under way push in any order; C97_input is about executions in which the oldest goes first, as in memory, where publishing does not wait (C97_publish_all, over the model of publish_all). Its executions are executions of the sending side of the model of map, and the oldest goes first in them (C53_refines, C97_sending). C97_pipeline and C97_unsorted: chains of maps. C97_sequential, C97_chain_sequential: with completion (C79_map_bytes), at rest the stream is the one a sequential map yields. C97_two shows two workers overtaking each other, C97_waits publishes that wait."
  }
 ]
}