{
 "claims": [
  {
   "property": "C01",
   "status": "proved",
   "theorems": [
    "Verif.Crc.crc32_append",
    "Verif.Crc.crc32_chunks",
    "Verif.Crc.crc16_append",
    "Verif.Crc.crc16_chunks"
   ],
   "note": "for every seed, buffer and split into chunks"
  },
  {
   "property": "C02",
   "status": "proved",
   "theorems": [
    "Verif.Crc.crc32_burst",
    "Verif.Crc.crc16_burst",
    "Verif.Crc.crc32_inj",
    "Verif.Crc.crc16_inj",
    "Verif.Crc.crc32_seed_inj",
    "Verif.Crc.crc16_seed_inj",
    "Verif.Crc.crc16_odd_error"
   ],
   "note": "burst detection for every buffer length; also seed injectivity and odd-weight errors for crc16"
  },
  {
   "property": "C03",
   "status": "proved",
   "theorems": [
    "Verif.Timestamp.durationUs_stamp",
    "Verif.Timestamp.lDurationUs_lstamp",
    "Verif.Timestamp.durationUs_shortest",
    "Verif.Timestamp.durationUs_swap",
    "Verif.Timestamp.durationUs_swap_exception",
    "Verif.Timestamp.durationUs_chain",
    "Verif.Timestamp.durationS_stamp"
   ],
   "note": "for all 32/64-bit stamps; swap exception at distance -2^31 shown to be real"
  },
  {
   "property": "C04",
   "status": "partial",
   "theorems": [
    "Verif.Timestamp.timestamp_get_monotone",
    "Verif.Timestamp.timestamp_get_accuracy",
    "Verif.Timestamp.ltimestamp_get_monotone_partial",
    "Verif.Timestamp.ltimestamp_get_not_monotone",
    "Verif.Timestamp.timestamp_drift",
    "Verif.Timestamp.lgetResult_interrupted"
   ],
   "note": "timestamp_get monotone for every interleaving of ticks, ISR and accesses (interrupt never delayed by a whole counter period, uptime < 2^48 us); the 64-bit claim is false (high word never incremented) and proved only for uptimes below 65538 counter periods"
  },
  {
   "property": "C05",
   "status": "partial",
   "theorems": [
    "Verif.MotorCtl.loop_cut_iff",
    "Verif.MotorCtl.loop_reset_zero",
    "Verif.MotorCtl.loop_cut_when_idle_partial",
    "Verif.MotorCtl.loop_cut_when_low_battery",
    "Verif.MotorCtl.loop_driven",
    "Verif.MotorCtl.loop_rearms_after_wrap",
    "Verif.MotorCtl.loop_zero_battery",
    "Verif.MotorCtl.afterLoop_zero",
    "Verif.MotorCtl.timeout_float",
    "Verif.MotorCtl.loopF_eq",
    "Verif.MotorCtl.nearest_exists"
   ],
   "note": "unconditional claim is false: 2^31 us after the last setpoint the motor is driven again (loop_rearms_after_wrap); proved for idle times below 2^31 us, exact condition in loop_cut_iff; a battery reading of exactly 0 V is undefined behaviour; timeout_float and loopF_eq: the comparison done in binary32 (conversion, division and constant rounded) has the same result as the exact one for every elapsed time"
  },
  {
   "property": "C06",
   "status": "proved",
   "theorems": [
    "Verif.Safety.motion_only_after_command",
    "Verif.Safety.servo_writes_zero_after_timeout",
    "Verif.Safety.other_command_ignored",
    "Verif.Safety.idle_until_own_command",
    "Verif.Safety.servo_registers_cleared",
    "Verif.Safety.motion_allowed_for_500ms",
    "Verif.Safety.pump_register_not_zeroed",
    "Verif.Safety.restart_race",
    "Verif.Safety.late_servo_write",
    "Verif.Safety.command_applied"
   ],
   "note": "all interleavings at the granularity of single accesses; 500 ms counted from completion of safety_timer_restart; pumps are cut by the power output, their registers keep the value (shown); race findings included"
  },
  {
   "property": "C07",
   "status": "proved",
   "theorems": [
    "Verif.LruCache.lru_correct",
    "Verif.LruCache.lru_no_leak",
    "Verif.LruCache.capacity_one_loops",
    "Verif.LruCache.capacity_zero_invalid",
    "Verif.LruCache.duplicate_allocation"
   ],
   "note": "Any call sequence; capacity at least 2 (capacity 1 loops forever, shown); lookups/evictions against a history specification when keys are allocated only after a failed get."
  },
  {
   "property": "C08",
   "status": "proved",
   "theorems": [
    "Verif.LruCache.anchor_lookup",
    "Verif.LruCache.known_of_few_others",
    "Verif.LruCache.unknown_anchor",
    "Verif.LruCache.pointer_goes_stale"
   ],
   "note": "Content at the moment of the lookup; the returned pointer is not protected afterwards (pointer_goes_stale)."
  },
  {
   "property": "C09",
   "status": "partial",
   "theorems": [
    "Verif.Trace.print_shows_recent",
    "Verif.Trace.print_shows_recent_user_partial",
    "Verif.Trace.print_reenables",
    "Verif.Trace.timestamp_wraps"
   ],
   "note": "False as stated: printing turns tracing on (print_reenables). Proved when printing only happens while tracing is on, and in general with printing counted as turning tracing on."
  },
  {
   "property": "C10",
   "status": "proved",
   "theorems": [
    "Verif.BusEnum.lookups_correct",
    "Verif.BusEnum.first_id_kept",
    "Verif.BusEnum.id_fe_ambiguous",
    "Verif.BusEnum.duplicate_name"
   ],
   "note": "Registrations of distinct names and discoveries interleaved in any order; ids other than the reserved 0xFF (see C11)."
  },
  {
   "property": "C11",
   "status": "partial",
   "theorems": [
    "Verif.BusEnum.bounded_and_sorted_partial",
    "Verif.BusEnum.add_full",
    "Verif.BusEnum.reserved_id_overflows"
   ],
   "note": "False for discoveries with the reserved id 0xFF: they overrun the id table (reserved_id_overflows, for every capacity). Proved for all other call sequences."
  },
  {
   "property": "C12",
   "status": "proved",
   "theorems": [
    "Verif.MsgBus.Conc.linearizable",
    "Verif.MsgBus.Conc.read_latest",
    "Verif.MsgBus.Conc.every_schedule_has_events"
   ],
   "note": "Reads are linearizable against the sequential topic; readers must ask for at most the buffer size (read_too_long_overruns shows the unchecked over-read)."
  },
  {
   "property": "C13",
   "status": "proved",
   "theorems": [
    "Verif.MsgBus.Conc.oversized_publish",
    "Verif.MsgBus.Conc.publish_result"
   ],
   "note": "In every reachable state of any schedule."
  },
  {
   "property": "C14",
   "status": "proved",
   "theorems": [
    "Verif.MsgBus.Conc.linearizable",
    "Verif.MsgBus.Conc.no_undefined_behaviour",
    "Verif.MsgBus.Conc.idle_holds_nothing",
    "Verif.MsgBus.Conc.no_deadlock",
    "Verif.MsgBus.Conc.every_schedule_has_events"
   ],
   "note": "Any number of threads, single byte and single lock operation steps. Lock and condition variable semantics (mutual exclusion, no spurious wakeup) are assumed."
  },
  {
   "property": "C15",
   "status": "proved",
   "theorems": [
    "Verif.MsgBus.find_latest",
    "Verif.MsgBus.advertise_no_hiding",
    "Verif.MsgBus.foreach_all",
    "Verif.MsgBus.long_name_not_found",
    "Verif.MsgBus.advertise_twice_loops"
   ],
   "note": "Topics initialised and advertised once; names of at most 64 characters (longer names are truncated and not found)."
  },
  {
   "property": "C16",
   "status": "proved",
   "theorems": [
    "Verif.MsgBus.callbacks_once",
    "Verif.MsgBus.after_eq"
   ],
   "note": "Callback records registered once."
  },
  {
   "property": "C17",
   "status": "proved",
   "theorems": [
    "Verif.MsgBus.BusConc.advertisement_not_missed",
    "Verif.MsgBus.BusConc.sleeper_not_advertised",
    "Verif.MsgBus.BusConc.blocking_returns",
    "Verif.MsgBus.BusConc.blocking_result",
    "Verif.MsgBus.BusConc.run_enabled",
    "Verif.MsgBus.Conc.publish_wakes_watcher",
    "Verif.MsgBus.Conc.publish_wakes_reader",
    "Verif.MsgBus.Conc.linearizable",
    "Verif.MsgBus.Conc.no_deadlock"
   ],
   "note": "Safety form: a sleeper is always woken before the advertiser or publisher finishes, and a woken thread that gets the lock returns; fairness of the lock is not modelled. With several publishes before the watcher runs it gets the last topic only (watcher_sees_last_topic)."
  },
  {
   "property": "C18",
   "status": "proved",
   "theorems": [
    "Verif.Param.run_ok",
    "Verif.Param.changed_iff",
    "Verif.Param.changedOf_iff",
    "Verif.Param.contains_changed_iff"
   ],
   "note": "all single-threaded histories; fewer than 2^32 parameters"
  },
  {
   "property": "C19",
   "status": "proved",
   "theorems": [
    "Verif.Param.nsFind_spec",
    "Verif.Param.parFind_spec",
    "Verif.Param.nsFind_sound",
    "Verif.Param.nsFind_iff",
    "Verif.Param.parFind_sound",
    "Verif.Param.parFind_iff",
    "Verif.Param.components_snoc",
    "Verif.Param.latest_parameter",
    "Verif.Param.latest_namespace",
    "Verif.Param.embedded_nul_reads_out_of_bounds"
   ],
   "note": "paths are C strings; a path with an embedded NUL reads out of bounds (witness)"
  },
  {
   "property": "C20",
   "status": "proved",
   "theorems": [
    "Verif.Param.run_ok",
    "Verif.Param.read_last",
    "Verif.Param.get_last",
    "Verif.Param.set_frame",
    "Verif.Param.defined_iff",
    "Verif.Param.string_read_fits",
    "Verif.Param.string_read_zero",
    "Verif.Param.undefined_read_asserts",
    "Verif.Param.wrong_set_asserts",
    "Verif.Param.long_string_truncated",
    "Verif.Param.long_default_asserts"
   ],
   "note": "strings of 65536 characters and more are truncated (witness)"
  },
  {
   "property": "C21",
   "status": "partial",
   "theorems": [
    "Verif.Msgpack.save_load_partial",
    "Verif.Msgpack.save_load_flat_partial",
    "Verif.Msgpack.load_saved",
    "Verif.Msgpack.full_string_refused",
    "Verif.Msgpack.duplicate_names_lost",
    "Verif.Msgpack.nested_error_not_reported",
    "Verif.Msgpack.read_whole"
   ],
   "note": "Saving and loading is proved for every tree whose document fits in the buffer (for trees without sub-namespaces: whenever the write reports success). False in general, with witnesses: a name of a sub-namespace that does not fit is not reported, a string filling its buffer is refused on load, duplicate names are lost."
  },
  {
   "property": "C22",
   "status": "partial",
   "theorems": [
    "Verif.Msgpack.write_complete",
    "Verif.Msgpack.doc_wf",
    "Verif.Msgpack.doc_eq",
    "Verif.Msgpack.error_only_if_too_small",
    "Verif.Msgpack.write_safe",
    "Verif.Msgpack.error_iff_too_small_partial",
    "Verif.Msgpack.nested_error_not_reported",
    "Verif.Msgpack.empty_error_not_reported",
    "Verif.Msgpack.crafted_identifier_escapes"
   ],
   "note": "If the document fits it is written completely and no error is reported; errors are reported only if it does not fit; for a namespace without sub-namespaces they are reported exactly then. With sub-namespaces a failure can go unreported (witness)."
  },
  {
   "property": "C23",
   "status": "partial",
   "theorems": [
    "Verif.CmpMem.read_bounds_partial",
    "Verif.CmpMem.write_bounds_partial",
    "Verif.CmpMem.run_safe_partial",
    "Verif.CmpMem.position_in_buffer_partial",
    "Verif.CmpMem.read_back_partial",
    "Verif.CmpMem.ro_writes_nothing",
    "Verif.CmpMem.pos_is_valid_iff",
    "Verif.CmpMem.overflow_escapes"
   ],
   "note": "Proved for accesses whose end position does not overflow size_t. Without that hypothesis the claim is false: overflow_escapes shows that a length of SIZE_MAX passes the bounds check and the copy runs out of the buffer."
  },
  {
   "property": "C24",
   "status": "partial",
   "theorems": [
    "Verif.Flash.restore_last_save_partial",
    "Verif.Flash.load_last_save_partial",
    "Verif.Flash.save_stored_partial",
    "Verif.Flash.load_restores",
    "Verif.Flash.odd_save_loads",
    "Verif.Flash.odd_save_loses_next",
    "Verif.Flash.second_save_lost",
    "Verif.Flash.too_large_never_ends",
    "Verif.Flash.load_erased"
   ],
   "note": "Proved for documents of even length: after any sequence of saves that fit, load restores the parameter values of the last save. False for odd lengths: the pad byte is programmed one byte too far and destroys the header of the next save (odd_save_loses_next, witness second_save_lost). A tree that never fits makes save recurse for ever (too_large_never_ends)."
  },
  {
   "property": "C25",
   "status": "partial",
   "theorems": [
    "Verif.Flash.crash_safe_partial",
    "Verif.Flash.erase_loses_all",
    "Verif.Flash.save_after_crash_corrupts"
   ],
   "note": "Proved: power loss at any point between two byte programmings of a save that does not erase leaves the last document readable or the new one. False when the save erases (erase_loses_all); and a save after a crash can produce a block with valid CRC and wrong contents (save_after_crash_corrupts)."
  },
  {
   "property": "C26",
   "status": "partial",
   "theorems": [
    "Verif.Flash.save_in_region_partial",
    "Verif.Flash.odd_save_leaves_region"
   ],
   "note": "Proved for documents of even length; false for an odd document that fills the region (odd_save_leaves_region)."
  },
  {
   "property": "C27",
   "status": "partial",
   "theorems": [
    "Verif.Flash.sector_bank1_partial",
    "Verif.Flash.sector_unique",
    "Verif.Flash.sector_bank2_wrong"
   ],
   "note": "Right for every address of bank 1; wrong for every address of bank 2."
  },
  {
   "property": "C28",
   "status": "proved",
   "theorems": [
    "Verif.Raft.vote_once"
   ],
   "note": "Any node, any sequence of arbitrary (also forged) messages, ticks, elections and submitted operations; own candidacy counts as a vote."
  },
  {
   "property": "C29",
   "status": "partial",
   "theorems": [
    "Verif.Raft.term_mono",
    "Verif.Raft.election_new_term",
    "Verif.Raft.step_down_partial",
    "Verif.Raft.no_step_down",
    "Verif.Raft.election_time"
   ],
   "note": "Terms never decrease and elections take place in a new term (all histories, forged messages included). Stepping down on a higher term is proved for AppendEntries requests, granted vote requests and refused votes; the full claim is false: no_step_down is an execution in which a leader ignores a refused vote request of a higher term."
  },
  {
   "property": "C30",
   "status": "partial",
   "theorems": [
    "Verif.Raft.one_leader_partial",
    "Verif.Raft.two_leaders",
    "Verif.Raft.quorum"
   ],
   "note": "Proved for clusters of any size and any loss, delay and reordering, provided no message is duplicated and no vote of an earlier election reaches the candidate of a later one. Without that the claim is false (two_leaders): VoteReply does not check the term."
  },
  {
   "property": "C31",
   "status": "partial",
   "theorems": [
    "Verif.Raft.log_partial",
    "Verif.Raft.log_gap",
    "Verif.Raft.terms_decrease"
   ],
   "note": "Capacity, numbering from 1 without gaps, and terms between 1 and the current term are proved for all executions with loss, delay, reordering and duplication in which operations are submitted to leaders. Terms along a log can decrease (terms_decrease), and operations submitted to a node at term 0 lead to a gap (log_gap)."
  },
  {
   "property": "C32",
   "status": "partial",
   "theorems": [
    "Verif.Raft.apply_step",
    "Verif.Raft.no_bad_access",
    "Verif.Raft.applied_once_partial",
    "Verif.Raft.applied_twice"
   ],
   "note": "Each step applies exactly the entries after the old commit index, in order, from the node's log; no execution reads past a log or an uninitialised variable. At most once holds as long as commit indices do not decrease; they can (applied_twice)."
  },
  {
   "property": "C33",
   "status": "partial",
   "theorems": [
    "Verif.Raft.commit_majority_partial",
    "Verif.Raft.desc_descending",
    "Verif.Raft.commit_without_majority",
    "Verif.Raft.commit_unsorted"
   ],
   "note": "Proved for clusters of odd size (and of two) if the sort really sorts by match index. False for even sizes (commit_without_majority) and with the comparator as written, which compares pointers (commit_unsorted)."
  },
  {
   "property": "C34",
   "status": "proved",
   "theorems": [
    "Verif.Goap.plan_sound"
   ],
   "note": "Every plan returned by Planner::plan can be executed action by action from the initial state and ends in a state that satisfies the goal, fits the path buffer, for every pool size, pool content, number of actions and problem. Signed overflow and null pointers are separate error outcomes."
  },
  {
   "property": "C35",
   "status": "partial",
   "theorems": [
    "Verif.Goap.plan_terminates",
    "Verif.Goap.plan_complete_trail_partial",
    "Verif.Goap.plan_complete_partial",
    "Verif.Goap.pop_min",
    "Verif.Goap.not_shortest",
    "Verif.Goap.too_long",
    "Verif.Goap.collected_goal"
   ],
   "note": "Termination is proved for every pool size. Completeness is proved when the pool has more nodes than there are reachable states and the path buffer is large enough; the full statement is false: with a smaller pool the garbage collection loses states (collected_goal), plans are not shortest (not_shortest) and a plan longer than the buffer is refused although a shorter one exists (too_long)."
  },
  {
   "property": "C36",
   "status": "proved",
   "theorems": [
    "Verif.Dijkstra.shortest",
    "Verif.Dijkstra.unreachable"
   ],
   "note": "Any graph with fewer than 2^31-2 nodes whose edges stay inside of the array. If the end cannot be reached the code follows a null pointer (unreachable). connect's missing bound check is not modelled."
  },
  {
   "property": "C37",
   "status": "proved",
   "theorems": [
    "Verif.Oa.solve_spec",
    "Verif.Oa.process_shortest",
    "Verif.Oa.sides_visible",
    "Verif.Oa.pairs_visible"
   ],
   "note": "The path is a shortest one over the rays the geometry gives, none when there is no path; rays are exactly the visible sides and pairs. The geometric tests (is_crossing_poly, is_in_boundingbox) are parameters."
  },
  {
   "property": "C38",
   "status": "partial",
   "theorems": [
    "Verif.Oa.tables",
    "Verif.Oa.newPoly_refused",
    "Verif.Oa.calcRays_fits_partial",
    "Verif.Oa.calcRays_iff",
    "Verif.Oa.rays_overflow",
    "Verif.Oa.negative_size"
   ],
   "note": "Polygon and point tables never overflow for non-negative sizes. The ray table does overflow (rays_overflow); calcRays_iff gives the exact condition and at most 31 points are always safe."
  },
  {
   "property": "C39",
   "status": "proved",
   "theorems": [
    "Verif.Uwb.frame_round_trip",
    "Verif.Uwb.encapsulate_no_room",
    "Verif.Uwb.decapsulate_short",
    "Verif.Uwb.every_frame"
   ],
   "note": "Every payload that leaves 11 bytes of room; without room the buffer is overrun, and frames shorter than 11 bytes make the sizes wrap."
  },
  {
   "property": "C40",
   "status": "partial",
   "theorems": [
    "Verif.Uwb.timestamp_round_trip",
    "Verif.Uwb.elapsed_partial",
    "Verif.Uwb.elapsed_wrap",
    "Verif.Uwb.elapsed_wrap_witness",
    "Verif.Uwb.sub40_eq"
   ],
   "note": "Round trip proved. The difference is exact without wrap; across a wrap the code is always one tick short (elapsed_wrap), because it adds 2^40-1."
  },
  {
   "property": "C41",
   "status": "proved",
   "theorems": [
    "Verif.Uwb.exchange",
    "Verif.Uwb.propagation_exact",
    "Verif.Uwb.propagation_wrap",
    "Verif.Uwb.propagation_zero"
   ],
   "note": "exchange is the whole three-message protocol through the frames; propagation_exact covers arbitrary delays, propagation_wrap bounds the error when a counter wraps."
  },
  {
   "property": "C42",
   "status": "partial",
   "theorems": [
    "Verif.Uwb.foreign_frame",
    "Verif.Uwb.anchor_ignores",
    "Verif.Uwb.unknown_ignored",
    "Verif.Uwb.reaction_partial",
    "Verif.Uwb.data_delivered",
    "Verif.Uwb.anchorPos_delivered",
    "Verif.Uwb.tagPos_delivered",
    "Verif.Uwb.receive_in_bounds",
    "Verif.Uwb.advertisement_overrun",
    "Verif.Uwb.stale_bytes",
    "Verif.Uwb.position_null"
   ],
   "note": "All parts proved for frames of at least 11 bytes, except that the answer to an initiation request is a broadcast advertisement, not addressed to the sender (reaction)."
  },
  {
   "property": "C43",
   "status": "proved",
   "theorems": [
    "Verif.Filter.limit_spec",
    "Verif.Filter.limit_mono",
    "Verif.Filter.limit_idem",
    "Verif.Filter.limitSym_spec",
    "Verif.Filter.limit_nan",
    "Verif.Filter.limit_any",
    "Verif.Filter.clamp_spec",
    "Verif.Filter.limit_wrong_order"
   ],
   "note": "For any IEEE-like comparison; bounds must be in order and not NaN, NaN inputs pass through."
  },
  {
   "property": "C44",
   "status": "proved",
   "theorems": [
    "Verif.Filter.difference_equation",
    "Verif.Filter.difference_equation_fir"
   ],
   "note": "Exact arithmetic (no rounding), all degrees, coefficients and inputs."
  },
  {
   "property": "C45",
   "status": "partial",
   "theorems": [
    "Verif.Drive.integral_bounded",
    "Verif.Drive.integral_step",
    "Verif.Drive.integral_finite",
    "Verif.Drive.integral_nan",
    "Verif.Drive.run_output",
    "Verif.Drive.contribution_bounded",
    "Verif.Drive.boundedSum_abs",
    "Verif.Drive.integral_sum",
    "Verif.Drive.proportional",
    "Verif.Drive.reset_forgets_partial",
    "Verif.Drive.reset_keeps_error"
   ],
   "note": "Bound in any IEEE-like arithmetic, exact output law over exact arithmetic. Resetting keeps the previous error, so with a derivative gain history is not forgotten (reset_keeps_error); the sign of the output is negative."
  },
  {
   "property": "C46",
   "status": "proved",
   "theorems": [
    "Verif.Quadramp.step",
    "Verif.Quadramp.speed_limited",
    "Verif.Quadramp.acceleration_limited",
    "Verif.Quadramp.finished",
    "Verif.Quadramp.forward",
    "Verif.Quadramp.forward_step",
    "Verif.Quadramp.forward_arrives",
    "Verif.Quadramp.forward_overshoot",
    "Verif.Quadramp.quick_step",
    "Verif.Quadramp.quick_arrives",
    "Verif.Quadramp.stuck_step",
    "Verif.Quadramp.backward_hard_stop",
    "Verif.Quadramp.backward_overshoot",
    "Verif.Quadramp.slow_never_moves",
    "Verif.Quadramp.slow_from_negative",
    "Verif.Quadramp.far_target",
    "Verif.Quadramp.limits_as_set",
    "Verif.Quadramp.finished_iff",
    "Verif.Quadramp.reset_finished"
   ],
   "note": "Exact arithmetic; limits hold for any square root that is not below the true one, arrival for one that is rounded down. A ramp from rest towards a target ahead arrives and passes it by at most an eighth of the acceleration (forward_arrives); with an acceleration not below the speed it arrives from any state in both directions without passing (quick_arrives). Otherwise backward moves brake too late (wrong sign in the ramp), witnesses given."
  },
  {
   "property": "C47",
   "status": "proved",
   "theorems": [
    "Verif.Drive.slew",
    "Verif.Drive.target_reached",
    "Verif.Drive.new_target",
    "Verif.Drive.torque_command",
    "Verif.Drive.trajectory_command",
    "Verif.Drive.voltage_command"
   ],
   "note": "Exact arithmetic."
  },
  {
   "property": "C48",
   "status": "partial",
   "theorems": [
    "Verif.Drive.velocity_limited",
    "Verif.Drive.current_limited",
    "Verif.Drive.cascade_limits_partial",
    "Verif.Drive.cascade_law",
    "Verif.Drive.voltage_not_limited"
   ],
   "note": "Velocity, torque and current in any IEEE-like arithmetic, except that NaN passes. The voltage is not limited by the cascade but where it becomes a duty cycle (C52)."
  },
  {
   "property": "C49",
   "status": "proved",
   "theorems": [
    "Verif.Encoder.periodic_tracks",
    "Verif.Encoder.bounded_tracks",
    "Verif.Encoder.two_tracks",
    "Verif.Encoder.bounded_velocity",
    "Verif.Encoder.periodic_large_step_escapes",
    "Verif.Encoder.periodic_velocity",
    "Verif.Encoder.other_inputs"
   ],
   "note": "additionally needs at most one turn of the working end per sample and a turn of at most 2^30 units (necessity of the former shown); displacement in 32 bits for bounded encoders"
  },
  {
   "property": "C50",
   "status": "partial",
   "theorems": [
    "Verif.Encoder.wheel_tracks_partial",
    "Verif.Encoder.tickDiff_spec",
    "Verif.Encoder.wheel_32768_wrong",
    "Verif.Encoder.wheel_overflow_undefined"
   ],
   "note": "exact tracking while the position fits 32 bits; beyond that the code's signed addition is undefined behaviour, so 'modulo 2^32' does not hold"
  },
  {
   "property": "C51",
   "status": "proved",
   "theorems": [
    "Verif.Encoder.stream_sends_iff",
    "Verif.Encoder.nearbyint_nearest",
    "Verif.Encoder.setPrescaler_nearest"
   ],
   "note": "all histories of prescaler changes, enables and iterations"
  },
  {
   "property": "C52",
   "status": "proved",
   "theorems": [
    "Verif.MotorCtl.motorPwmSet_spec",
    "Verif.MotorCtl.motorPwmSet_nan",
    "Verif.MotorCtl.pwm_range",
    "Verif.MotorCtl.pwm_mean_drive",
    "Verif.MotorCtl.pwm_recharge_once",
    "Verif.MotorCtl.pwm_callbacks_settle"
   ],
   "note": "every duty cycle incl. infinities (floats as exact rationals plus special values); NaN shown undefined"
  },
  {
   "property": "C53",
   "status": "proved",
   "theorems": [
    "Verif.Spi.send_spec",
    "Verif.Spi.send_loopback",
    "Verif.Spi.send_shifter",
    "Verif.Spi.send_in_place"
   ],
   "note": "Any two separate buffers of one memory and any slave, given as a function of everything that happened on the wires. Mode 0 framing per bit. If both buffers are the same, the data is cleared before it is sent (send_in_place)."
  },
  {
   "property": "C54",
   "status": "proved",
   "theorems": [
    "Verif.Base.polarOfWheels_spec",
    "Verif.Base.polar_wheels_polar",
    "Verif.Base.wheels_polar_wheels",
    "Verif.Base.wheels_polar_wheels_rounds",
    "Verif.Base.virtual_encoders",
    "Verif.Base.wheels_commanded",
    "Verif.Base.update_defined",
    "Verif.Base.gain_change_moves"
   ],
   "note": "Exact integers with overflow as a distinct outcome; the odometry jumps when the correction factors change at run time (gain_change_moves)."
  },
  {
   "property": "C55",
   "status": "proved",
   "theorems": [
    "Verif.Base.disabled_zero",
    "Verif.Base.disabled_run",
    "Verif.Base.disable_keeps_output",
    "Verif.Base.enabled_law",
    "Verif.Base.enabled_no_filters",
    "Verif.Base.calls",
    "Verif.Base.angle_error",
    "Verif.Base.distance_error",
    "Verif.Base.cycle_errors"
   ],
   "note": "Generic over the filter functions and their state. cs_disable itself does not change the output until the next cycle (disable_keeps_output)."
  },
  {
   "property": "C56",
   "status": "partial",
   "theorems": [
    "Verif.Base.bd_get_exact",
    "Verif.Base.bd_get_partial",
    "Verif.Base.bd_lost",
    "Verif.Base.bd_disabled",
    "Verif.Base.bd_max",
    "Verif.Base.bd_getMax",
    "Verif.Base.bd_getMax_negative"
   ],
   "note": "False as stated: the 16-bit counter wraps, so blocking is not reported for a while after 65536 errors (bd_lost), and the maximum is returned as a negative number from 2^31 on. Proved exactly in terms of the count modulo 2^16 and in full below 65536 errors."
  },
  {
   "property": "C57",
   "status": "partial",
   "theorems": [
    "Verif.Base.hasEnded_partial",
    "Verif.Base.hasEnded_priority",
    "Verif.Base.finished_spec",
    "Verif.Base.opponent_never",
    "Verif.Base.hasEnded_stops",
    "Verif.Base.hardstop_spec",
    "Verif.Base.hardstop_holds",
    "Verif.Base.gotoXy_finished",
    "Verif.Base.mode_no_angle",
    "Verif.Base.stale_collision"
   ],
   "note": "Opponent and ally reasons are compiled out (USE_MAP 0), so they are never reported (opponent_never); proved for the other reasons. COLLISION can be reported from stale errors of a controller that does not run (stale_collision)."
  },
  {
   "property": "C58",
   "status": "proved",
   "theorems": [
    "Verif.Strategy.effects_conserve",
    "Verif.Strategy.pickup_free",
    "Verif.Strategy.pickup_conserves",
    "Verif.Strategy.play_spec",
    "Verif.Strategy.overwrite",
    "Verif.Strategy.pickup_not_encoded"
   ],
   "note": "Multiset of glasses over all places of the state. The pick-up sets optional fields without marking them present, so the encoded state never shows them (pickup_not_encoded)."
  },
  {
   "property": "C59",
   "status": "proved",
   "theorems": [
    "Verif.Strategy.score_spec",
    "Verif.Strategy.score_range",
    "Verif.Strategy.score_mono",
    "Verif.Strategy.effects_score",
    "Verif.Strategy.effects_points",
    "Verif.Strategy.play_spec"
   ],
   "note": "Rules as a table of points per pair of opposite places in the port."
  },
  {
   "property": "C60",
   "status": "proved",
   "theorems": [
    "Verif.Strategy.plan_always",
    "Verif.Strategy.pass_spec",
    "Verif.Strategy.play_spec",
    "Verif.Strategy.play_score",
    "Verif.Strategy.execute_spec",
    "Verif.Strategy.pickup_never"
   ],
   "note": "For every state, not only those of a match, and any content of the pool; uses Goap.plan_complete_trail_partial with 16 reachable states and at most 5 different states in a row."
  },
  {
   "property": "C61",
   "status": "partial",
   "theorems": [
    "Verif.Motors.run_spec_partial",
    "Verif.Motors.set_get",
    "Verif.Motors.wrong_mode_partial",
    "Verif.Motors.wrong_mode_value",
    "Verif.Motors.last_command",
    "Verif.Motors.disabled_silent",
    "Verif.Motors.timer_ok",
    "Verif.Motors.stream_spec",
    "Verif.Motors.streams_spec"
   ],
   "note": "Proved for all sequences of operations: the last setpoint in the last mode is what is held and sent, a disabled driver sends nothing, and a read in another mode signals an error. Not true: the error is only logged and the value returned all the same (wrong_mode_value)."
  },
  {
   "property": "C62",
   "status": "partial",
   "theorems": [
    "Verif.Motors.run_spec_partial",
    "Verif.Motors.drivers_stay",
    "Verif.Motors.create_ok",
    "Verif.Motors.set_ok",
    "Verif.Motors.long_name_twice",
    "Verif.Motors.enumerator_full",
    "Verif.Motors.actuator_as_motor",
    "Verif.Motors.prepare_spec",
    "Verif.Motors.actuator_set",
    "Verif.Motors.actuator_long_name"
   ],
   "note": "Proved for names of at most 24 characters, as long as there is room in the enumerator when a driver is made (so for the limits of the robot) and no motor command names an actuator; each limit is shown to be needed by a counterexample."
  },
  {
   "property": "C63",
   "status": "proved",
   "theorems": [
    "Verif.Geom.line_point",
    "Verif.Geom.line_none",
    "Verif.Geom.line_same",
    "Verif.Geom.pts2line_spec",
    "Verif.Geom.pts2line_through",
    "Verif.Geom.proj_spec",
    "Verif.Geom.proj_nearest",
    "Verif.Geom.translate_spec"
   ],
   "note": "Exact rational arithmetic instead of float. Lines whose equation is empty (a = b = 0) are excluded from line_none and line_same; for them intersect_line returns 0 and proj_pt_line divides by zero."
  },
  {
   "property": "C64",
   "status": "partial",
   "theorems": [
    "Verif.Geom.segment_sound",
    "Verif.Geom.segment_iff_partial",
    "Verif.Geom.segment_codes",
    "Verif.Geom.segment_iff_false",
    "Verif.Geom.segment_degenerate",
    "Verif.Geom.segment_far"
   ],
   "note": "Exact rational arithmetic. The claim is false in three cases, each with a witness: the first segment strictly inside the second (segment_iff_false), a segment of one point (segment_degenerate) and crossings beyond 2^15 (segment_far). Apart from these it is proved for all segments (segment_iff_partial); whatever is reported is right (segment_sound)."
  },
  {
   "property": "C65",
   "status": "proved",
   "theorems": [
    "Verif.Geom.in_poly_spec",
    "Verif.Geom.boundary_sides",
    "Verif.Geom.in_poly_clockwise",
    "Verif.Geom.in_poly_empty"
   ],
   "note": "Exact rational arithmetic. Strictly convex polygons, vertices in counter-clockwise order, any number of vertices; interior in the topological sense. in_poly_clockwise shows that the order of the vertices matters."
  },
  {
   "property": "C66",
   "status": "proved",
   "theorems": [
    "Verif.Pose.chain_assoc",
    "Verif.Pose.chain_one",
    "Verif.Pose.chain_inverse",
    "Verif.Pose.transform_chain",
    "Verif.Pose.inverse_transform",
    "Verif.Pose.transform_rigid",
    "Verif.Pose.transform_same"
   ],
   "note": "lie_groups.c over the reals. Also: the transforms are exactly the orientation preserving rigid motions, and two poses give the same transform exactly when translations agree and angles agree up to full turns."
  },
  {
   "property": "C67",
   "status": "proved",
   "theorems": [
    "Verif.Ekf.correct_valid",
    "Verif.Ekf.correct_direction",
    "Verif.Ekf.correct_uncorrelated",
    "Verif.Ekf.correct_information",
    "Verif.Ekf.correct_optimal",
    "Verif.Ekf.direction_derivative",
    "Verif.Ekf.measure_valid",
    "Verif.Ekf.wait_spec",
    "Verif.Ekf.measure_isotropic",
    "Verif.Ekf.run_valid",
    "Verif.Ekf.run_published",
    "Verif.Ekf.run_defined",
    "Verif.Ekf.measure_negative"
   ],
   "note": "Exact real arithmetic; ekf.hpp instantiated as in state_estimation.cpp, with the loop of state_estimation_thread.cpp. The only undefined case is an estimate exactly at an anchor; positive variance parameters are a hypothesis, measure_negative shows what happens otherwise."
  },
  {
   "property": "C68",
   "status": "proved",
   "theorems": [
    "Verif.Beacon.conserved",
    "Verif.Beacon.fifo",
    "Verif.Beacon.drain",
    "Verif.Beacon.signals_range",
    "Verif.Beacon.sent_range",
    "Verif.Beacon.angle_negative",
    "Verif.Beacon.udp_conserved",
    "Verif.Beacon.udp_fifo"
   ],
   "note": "All interleavings of interrupts and publisher, and the same for the UDP broadcaster. Angles in exact arithmetic, assuming the last pass of the rotor is less than 36 minutes ago (angle_negative otherwise)."
  },
  {
   "property": "C69",
   "status": "proved",
   "theorems": [
    "Verif.Map.rect_table",
    "Verif.Map.rect_defined",
    "Verif.Map.rect_overflow",
    "Verif.Map.rect_covers",
    "Verif.Map.rect_exact",
    "Verif.Map.rect_collision",
    "Verif.Map.rect_paths",
    "Verif.Map.rect_square",
    "Verif.Map.reset_free",
    "Verif.Map.reset_edge",
    "Verif.Map.opponents_last",
    "Verif.Map.set_opponent",
    "Verif.Map.init_spec",
    "Verif.Map.ally_samples",
    "Verif.Map.ally_inside",
    "Verif.Map.ally_margin_false",
    "Verif.Map.corners_exact",
    "Verif.Map.init_static"
   ],
   "note": "Opponents are the last two sightings. Beyond the claim: a straight path is reported as crossing exactly when the (square) robot would overlap with the obstacle; ally_margin_false shows the ally's polygon is smaller than the sum of both radii."
  },
  {
   "property": "C70",
   "status": "proved",
   "theorems": [
    "Verif.Base.starter_exact",
    "Verif.Base.starter_second",
    "Verif.Base.getTime_spec",
    "Verif.Base.game_time",
    "Verif.Base.not_started",
    "Verif.Base.green_is_yellow"
   ],
   "note": "A read sequence of the starter; time between reads is the 10 ms sleep."
  },
  {
   "property": "C71",
   "status": "partial",
   "theorems": [
    "Verif.Flash.F3.even_writes_partial",
    "Verif.Flash.F3.odd_writes_lose_last",
    "Verif.Flash.F3.odd_document_changed"
   ],
   "note": "Even total length: proved. Odd total length: the last byte is lost, so a saved document with valid CRC holds another value (odd_document_changed)."
  },
  {
   "property": "C72",
   "status": "partial",
   "theorems": [
    "Verif.Raft.different_operations",
    "Verif.Raft.agreement_partial",
    "Verif.Raft.logs_partial",
    "Verif.Raft.logs_grow_partial",
    "Verif.Raft.leader_complete_partial",
    "Verif.Raft.state_machines_partial",
    "Verif.Raft.single_leader_partial",
    "Verif.Raft.orderly_example",
    "Verif.Raft.single_example"
   ],
   "note": "False in general: different_operations is an execution of three nodes, under all the favourable conditions, in which two nodes apply different operations at index 1. Proved for all executions (any loss, duplication, delay, reordering, any order of the peers after sorting) in which operations go to leaders, there is at most one leader at a time and a new leader has every entry any node has: agreement on operations, logs that are beginnings of each other and never lose entries, leaders that have everything applied, and, if no commit index decreases, state machines that go through the same operations. If only one node is ever leader the hypothesis on elections is derived (single_leader_partial)."
  },
  {
   "property": "C73",
   "status": "partial",
   "theorems": [
    "Verif.Filter.meanInt16_partial",
    "Verif.Filter.meanInt16_negative",
    "Verif.Filter.argmin_spec"
   ],
   "note": "argmin proved. The mean is right for sums that are not negative; negative sums give wrong results (meanInt16_negative)."
  },
  {
   "property": "C74",
   "status": "proved",
   "theorems": [
    "Verif.Drive.ramp_limits",
    "Verif.Drive.period_pos",
    "Verif.Drive.position_velocity",
    "Verif.Drive.at_rest",
    "Verif.Drive.ramp_unconfigured"
   ],
   "note": "Exact arithmetic, positive period and acceleration limit; before the limit is configured the ramp divides by zero."
  },
  {
   "property": "C75",
   "status": "partial",
   "theorems": [
    "Verif.Drive.periodicError_spec",
    "Verif.Drive.periodicError_small",
    "Verif.Drive.representative_unique",
    "Verif.Drive.angleDelta_partial",
    "Verif.Drive.angleDelta_wrong"
   ],
   "note": "angle_delta is wrong when the end is more than half a turn before the start; exact arithmetic."
  },
  {
   "property": "C76",
   "status": "proved",
   "theorems": [
    "Verif.Base.gotoDARel_spec",
    "Verif.Base.dRel_spec",
    "Verif.Base.onlyDRel_spec",
    "Verif.Base.aRel_spec",
    "Verif.Base.onlyARel_spec",
    "Verif.Base.dARel_spec",
    "Verif.Base.stop_spec",
    "Verif.Base.hardstop_spec",
    "Verif.Base.dRel_overflow",
    "Verif.Base.inWindow_spec",
    "Verif.Base.inWindow_xy",
    "Verif.Base.nearlyFinished_spec"
   ],
   "note": "Exact rationals for doubles; out of range targets are undefined and excluded by the result being some."
  },
  {
   "property": "C77",
   "status": "proved",
   "theorems": [
    "Verif.Base.modulo_spec",
    "Verif.Base.modulo_defined",
    "Verif.Base.simpleModulo_spec",
    "Verif.Base.simpleModulo_beyond",
    "Verif.Base.conversions",
    "Verif.Base.conversions_fit"
   ],
   "note": "Exact rationals; pi is any positive number."
  },
  {
   "property": "C78",
   "status": "proved",
   "theorems": [
    "Verif.Base.xyTarget_spec",
    "Verif.Base.xyTarget_direction",
    "Verif.Base.xyEvent_spec",
    "Verif.Base.xyRun_spec",
    "Verif.Base.next_kind",
    "Verif.Base.xyEvent_nan",
    "Verif.Base.goto_first"
   ],
   "note": "The polar coordinates of the target (vect2_cart2pol) are arguments; exact rationals."
  },
  {
   "property": "C79",
   "status": "proved",
   "theorems": [
    "Verif.Geom.crossing_one",
    "Verif.Geom.crossing_spec",
    "Verif.Geom.crossing_point",
    "Verif.Geom.crossing_inside_side",
    "Verif.Geom.box_spec"
   ],
   "note": "Exact rational arithmetic. crossing_inside_side is the case of a segment strictly inside a side, reported as 0."
  },
  {
   "property": "C80",
   "status": "proved",
   "theorems": [
    "Verif.Pose.manage_exact",
    "Verif.Pose.manage_frame",
    "Verif.Pose.manage_defined",
    "Verif.Pose.manage_range",
    "Verif.Pose.manage_range_false",
    "Verif.Pose.manage_int",
    "Verif.Pose.manage_split",
    "Verif.Pose.manage_pure",
    "Verif.Pose.run_heading",
    "Verif.Pose.run_frame",
    "Verif.Pose.set_spec",
    "Verif.Pose.manage_unconfigured",
    "Verif.Pose.configured_motion"
   ],
   "note": "Exact real arithmetic, without the centrifugal coefficient (0 in this robot). manage_range_false shows that the heading leaves the range when the robot turns by more than a turn between updates."
  },
  {
   "property": "C81",
   "status": "proved",
   "theorems": [
    "Verif.Param.Conc.no_lost_change",
    "Verif.Param.Conc.read_latest",
    "Verif.Param.Conc.counter_exact",
    "Verif.Param.Conc.counter_range",
    "Verif.Param.Conc.no_overflow",
    "Verif.Param.Conc.contains_exact",
    "Verif.Param.Conc.contains_of_changed",
    "Verif.Param.Conc.no_assertion",
    "Verif.Param.Conc.first_set_race",
    "Verif.Param.Conc.hidden_change",
    "Verif.Param.Conc.negative_count"
   ],
   "note": "Locked sections are atomic steps; p->defined = true outside the lock is its own step. Findings with witnesses: the first set of a parameter without default can make a concurrent get fail an assertion (first_set_race), a completed change can be hidden while another set is in progress (hidden_change), negative counts are taken for changes (negative_count)."
  },
  {
   "property": "C82",
   "status": "proved",
   "theorems": [
    "Verif.Plan.path_convex",
    "Verif.Plan.plan_spec",
    "Verif.Plan.free_safe",
    "Verif.Plan.enable_ignored"
   ],
   "note": "Exact arithmetic in place of float, as for C79; the integral part of the length is that of the exact length. Paths over points other than corners of obstacles are not compared with. The obstacles' robot sizes must be 2 mm to 10 m, positions within 10 m, start and goal within 32 m. The flag enable_opponent does nothing (enable_ignored)."
  },
  {
   "property": "C83",
   "status": "partial",
   "theorems": [
    "Verif.Match.goto_true",
    "Verif.Match.goto_false",
    "Verif.Match.goto_lock",
    "Verif.Match.goto_on_path",
    "Verif.Match.goto_free",
    "Verif.Match.retry_full_partial",
    "Verif.Match.retry_ends",
    "Verif.Match.retry_after_end",
    "Verif.Match.goto_near",
    "Verif.Match.flags_watch",
    "Verif.Match.flags_others"
   ],
   "note": "Programs with commands and questions; the robot, time and map answer anything they can. Missing: no try after the end of the match, which is false (retry_after_end); the robot is not stopped if the caller allows to end near the goal (goto_near)."
  },
  {
   "property": "C84",
   "status": "partial",
   "theorems": [
    "Verif.Match.execute_full",
    "Verif.Match.play_full",
    "Verif.Match.play_better",
    "Verif.Match.begin_canRun",
    "Verif.Match.begin_in_time",
    "Verif.Match.moves_end",
    "Verif.Match.after_timer_partial",
    "Verif.Match.lighthouse_after_end",
    "Verif.Match.move_after_end"
   ],
   "note": "Missing: no movement after one was ended by the end of the match; at the lighthouse there is one (lighthouse_after_end), and a movement that reaches its goal after the end of the match is followed by the next one (move_after_end)."
  },
  {
   "property": "C85",
   "status": "partial",
   "theorems": [
    "Verif.Match.Auto.auto_forward_partial",
    "Verif.Match.Auto.prepare_spec",
    "Verif.Match.Auto.auto_backward"
   ],
   "note": "Ideal world with exact movements. Missing: calibration on the back side, for which it is false (auto_backward)."
  },
  {
   "property": "C86",
   "status": "partial",
   "theorems": [
    "Verif.Ranging.sent_once",
    "Verif.Ranging.calls_entered",
    "Verif.Ranging.wake_one",
    "Verif.Ranging.pending_kept",
    "Verif.Ranging.measured_in_turns",
    "Verif.Ranging.run_bound",
    "Verif.Ranging.all_sent_partial",
    "Verif.Ranging.lost_forever",
    "Verif.Ranging.early_call_hangs",
    "Verif.Ranging.starved",
    "Verif.Ranging.readBuf_inside"
   ],
   "note": "All interleavings. A call made before the thread has registered its listener is never served and hangs with the lock held (early_call_hangs, lost_forever); all_sent_partial therefore assumes no call before the registration."
  },
  {
   "property": "C87",
   "status": "partial",
   "theorems": [
    "Verif.MotorSense.rpm_reading",
    "Verif.MotorSense.rpm_parts",
    "Verif.MotorSense.rpm_position_partial",
    "Verif.MotorSense.rpm_constant",
    "Verif.MotorSense.rpm_velocity_partial",
    "Verif.MotorSense.rpm_velocity_falls",
    "Verif.MotorSense.rpm_race",
    "Verif.MotorSense.rpm_standing",
    "Verif.MotorSense.rpm_infinite",
    "Verif.MotorSense.rpm_never"
   ],
   "note": "All times, with wrap-around of the 32 bit stamps. False for a crossing between reading the time and taking the lock (rpm_race), for wheels that stood for 36 minutes (rpm_standing) and for two crossings in a microsecond (rpm_infinite)."
  },
  {
   "property": "C88",
   "status": "partial",
   "theorems": [
    "Verif.MotorSense.temperature_bounded_partial",
    "Verif.MotorSense.temperature_constant",
    "Verif.MotorSense.reverse_unprotected"
   ],
   "note": "Exact arithmetic, all sequences of currents. False for negative currents, which cool the model (reverse_unprotected)."
  },
  {
   "property": "C89",
   "status": "proved",
   "theorems": [
    "Verif.MotorSense.callback_spec",
    "Verif.MotorSense.recharge_every_fourth",
    "Verif.MotorSense.current_mean",
    "Verif.MotorSense.current_bounds",
    "Verif.MotorSense.voltages"
   ],
   "note": "All buffers; the sums are 32 bit, the mean exact."
  },
  {
   "property": "C90",
   "status": "partial",
   "theorems": [
    "Verif.MotorParams.changes_kept_partial",
    "Verif.MotorParams.pass_follows",
    "Verif.MotorParams.pass_clears",
    "Verif.MotorParams.quiet_pass",
    "Verif.MotorParams.takes_effect_partial",
    "Verif.MotorParams.interpolator_untouched",
    "Verif.MotorParams.interpolator_limit_missing",
    "Verif.MotorParams.computed",
    "Verif.MotorParams.init_computed",
    "Verif.MotorParams.limit_partial",
    "Verif.MotorParams.constant_partial",
    "Verif.MotorParams.constant_lost",
    "Verif.MotorParams.limit_not_updated",
    "Verif.MotorParams.constant_not_updated"
   ],
   "note": "All values, any arithmetic, all interleavings. False for the velocity limit of the interpolator after start (interpolator_limit_missing) and for variables computed from several parameters (constant_lost, limit_not_updated, constant_not_updated)."
  },
  {
   "property": "C91",
   "status": "partial",
   "theorems": [
    "Verif.Msgpack.load_any_partial",
    "Verif.Msgpack.updates_outside",
    "Verif.Msgpack.updates_value",
    "Verif.Msgpack.failure_reported",
    "Verif.Msgpack.error_not_failure",
    "Verif.Msgpack.nul_name_escapes",
    "Verif.Msgpack.crafted_identifier_escapes"
   ],
   "note": "Full statement is false: a name containing a zero, or an identifier of 2^32-1 bytes whose allocation of 0 bytes succeeds, makes the load read outside (nul_name_escapes, crafted_identifier_escapes). Proved for all other bytes, for buffers below 2^32-1 bytes and declared strings of at most 65536 bytes."
  },
  {
   "property": "C92",
   "status": "partial",
   "theorems": [
    "Verif.Ahrs.update_partial",
    "Verif.Ahrs.unit_or_nan",
    "Verif.Ahrs.init_unit",
    "Verif.Ahrs.nan_forever",
    "Verif.Ahrs.imu_gradient",
    "Verif.Ahrs.marg_gradient",
    "Verif.Ahrs.earth_eq",
    "Verif.Ahrs.updateImu_spec",
    "Verif.Ahrs.update_spec",
    "Verif.Ahrs.gyro_spec",
    "Verif.Ahrs.gyro_only_defined",
    "Verif.Ahrs.imu_defined_iff",
    "Verif.Ahrs.marg_defined_iff",
    "Verif.Ahrs.exact_estimate_nan",
    "Verif.Ahrs.flat_board_nan",
    "Verif.Ahrs.reference_halved",
    "Verif.Ahrs.attitude_constant",
    "Verif.Ahrs.calibrate_neg_iff"
   ],
   "note": "The quaternion is a unit or NaN, and each defined update is the claimed one; it is defined exactly when the computed gradient is not zero. False otherwise: an exact estimate, for instance a flat board after init, becomes NaN for good (exact_estimate_nan, flat_board_nan); the thread never calls the filter (attitude_constant); the field is compared with half the reference (reference_halved). In exact arithmetic."
  },
  {
   "property": "C93",
   "status": "partial",
   "theorems": [
    "Verif.Udp.encode_framed",
    "Verif.Udp.encode_succeeds_iff",
    "Verif.Udp.encode_overreads",
    "Verif.Udp.inject_encode",
    "Verif.Udp.inject_framed_safe_partial",
    "Verif.Udp.inject_published",
    "Verif.Udp.inject_others",
    "Verif.Udp.inject_reads_behind",
    "Verif.Udp.inject_overflows",
    "Verif.Udp.one_owner",
    "Verif.Udp.none_leaked",
    "Verif.Udp.in_order",
    "Verif.Udp.all_posted",
    "Verif.Udp.drop_only_full",
    "Verif.Udp.sender_goes_on",
    "Verif.Udp.sender_done"
   ],
   "note": "All but memory safety: encoding copies as many bytes from the topic as the scratch buffer has (encode_overreads); injection trusts the sizes in the bytes (inject_reads_behind; safe if they are right: inject_framed_safe_partial) and has a static buffer of 1024 bytes (inject_overflows). Messages of topics have an arbitrary codec; the two messages of the protocol are modelled by the wire format."
  },
  {
   "property": "C94",
   "status": "partial",
   "theorems": [
    "Verif.Circles.intersect_correct_partial",
    "Verif.Circles.intersect_meets_iff",
    "Verif.Circles.tangent_returns_two",
    "Verif.Circles.same_circle_nan",
    "Verif.Circles.near_missed",
    "Verif.Circles.inside_iff",
    "Verif.Circles.cart_pol_cart",
    "Verif.Circles.pol_cart_pol",
    "Verif.Circles.addPol_spec",
    "Verif.Circles.subPol_spec",
    "Verif.Circles.scalePol_spec",
    "Verif.Circles.scalePol_wrong",
    "Verif.Circles.dist_symm",
    "Verif.Circles.dist_zero_iff",
    "Verif.Circles.dist_triangle",
    "Verif.Circles.angle2_spec",
    "Verif.Circles.angle2_none_iff",
    "Verif.Circles.cart_complex"
   ],
   "note": "Circles: for centres that are apart by 0.00005 the result is 0 or 2 and the points are all common points; otherwise wrong (same_circle_nan, near_missed); circles that touch give 2 (tangent_returns_two). Scaling a polar vector does not set the angle (scalePol_wrong). In exact arithmetic."
  },
  {
   "property": "C95",
   "status": "partial",
   "theorems": [
    "Verif.Curves.turn_by",
    "Verif.Curves.turn_defined",
    "Verif.Curves.aAbs_spec",
    "Verif.Curves.aAbs_defined",
    "Verif.Curves.onlyAAbs_spec",
    "Verif.Curves.turnTo_spec",
    "Verif.Curves.turnToBehind_spec",
    "Verif.Curves.gotoXyRel_spec",
    "Verif.Curves.gotoDARel_spec",
    "Verif.Curves.circleSpeed_spec",
    "Verif.Curves.circleCommand_spec",
    "Verif.Curves.circle_exact",
    "Verif.Curves.circle_stable_partial",
    "Verif.Curves.circle_band",
    "Verif.Curves.circle_ride",
    "Verif.Curves.circle_backward",
    "Verif.Curves.circleSpeed_negative",
    "Verif.Curves.circleRel_spec",
    "Verif.Curves.circleEvent_spec",
    "Verif.Curves.flags_ignored",
    "Verif.Curves.circle_direction",
    "Verif.Curves.aim_spec",
    "Verif.Curves.aim_distance",
    "Verif.Curves.reached_iff",
    "Verif.Curves.lineSpeed_range",
    "Verif.Curves.lineEvent_spec",
    "Verif.Curves.line_defined",
    "Verif.Curves.line_same_point",
    "Verif.Curves.line_straight",
    "Verif.Curves.line_side",
    "Verif.Curves.line_pursuit",
    "Verif.Curves.line_no_advance"
   ],
   "note": "The direction asked for is ignored (flags_ignored, circle_direction), and driving backward the deviation from the circle grows (circle_backward); proved for circles to the left driven forward. Lines with an advance of 0 are not followed (line_no_advance); proved for positive advances. Rides are idealised: the speeds are those commanded."
  },
  {
   "property": "C96",
   "status": "partial",
   "theorems": [
    "Verif.Locks.exclusion",
    "Verif.Locks.readers_share",
    "Verif.Locks.runs_end",
    "Verif.Locks.no_deadlock_without_lines",
    "Verif.Locks.no_deadlock_lines_partial",
    "Verif.Locks.all_finish",
    "Verif.Locks.line_deadlock",
    "Verif.Locks.order_matters"
   ],
   "note": "False when the position is set without robot.lock while a line is managed (line_deadlock). Proved for all calls without lines, and with lines if the position is set only with robot.lock held."
  },
  {
   "property": "C97",
   "status": "partial",
   "theorems": [
    "Verif.Locks.Speed.ramp_either_partial",
    "Verif.Locks.Speed.ramp_any",
    "Verif.Locks.Speed.mode_undone"
   ],
   "note": "False: a round of the loop of control overwrites the speeds (mode_undone), and any mixture can happen (ramp_any). Proved: each value used is that of the mode or that of the loop."
  },
  {
   "property": "C98",
   "status": "proved",
   "theorems": [
    "Verif.Curves.clothoid_ride",
    "Verif.Curves.clitoid_decision",
    "Verif.Curves.ride_exists",
    "Verif.Curves.clitoid_cases",
    "Verif.Curves.clitoid_too_fast",
    "Verif.Curves.clitoid_no_line",
    "Verif.Curves.clitoid_signs"
   ],
   "note": "The ride is a differentiable curve with the commanded speed and ramp of the rate of turn; the bound holds for the truncated series of the code. The restrictions on the angles are necessary: clitoid_signs; the angular speed is not checked: clitoid_too_fast; exactly enough room gives a line without direction: clitoid_no_line."
  },
  {
   "property": "C99",
   "status": "proved",
   "theorems": [
    "Verif.ParamServer.findByIndex_enumerates",
    "Verif.ParamServer.fullName_path",
    "Verif.ParamServer.nameByIndex_finds",
    "Verif.ParamServer.nameByIndex_injective",
    "Verif.ParamServer.motor_table",
    "Verif.ParamServer.motor_names_fit",
    "Verif.ParamServer.beacon_proper",
    "Verif.ParamServer.beacon_distinct",
    "Verif.ParamServer.beacon_plain",
    "Verif.ParamServer.motor_proper"
   ],
   "note": "For names the identifiers must be distinct in their namespace, not empty and without slashes, which is checked for the beacon. Declarations of other threads between two requests may shift indices (not modelled)."
  },
  {
   "property": "C100",
   "status": "partial",
   "theorems": [
    "Verif.ParamServer.assign_unknown",
    "Verif.ParamServer.assign_ignored",
    "Verif.ParamServer.assign_sets",
    "Verif.ParamServer.read_unknown",
    "Verif.ParamServer.read_shows",
    "Verif.ParamServer.set_then_read_partial",
    "Verif.ParamServer.long_string_asserts",
    "Verif.ParamServer.extremes_refused",
    "Verif.ParamServer.strings_cut"
   ],
   "note": "Proved for numbers strictly between the extremes, booleans and short strings. False: the two extreme integers are refused, strings longer than 3 characters are cut when read, strings that do not fit fail an assertion."
  },
  {
   "property": "C101",
   "status": "proved",
   "theorems": [
    "Verif.Config.generates_iff",
    "Verif.Config.generated_compiles",
    "Verif.Config.init_ends",
    "Verif.Config.global_find_iff",
    "Verif.Config.master_find_iff",
    "Verif.Config.find_injective",
    "Verif.Config.master_same",
    "Verif.Config.found_type",
    "Verif.Config.files_agree",
    "Verif.Config.robots_build"
   ],
   "note": "Names: see GoodNames; empty mappings are excluded (NoEmpty), witnesses in Config/Witness.lean. robots_build is by evaluation for the three files."
  },
  {
   "property": "C102",
   "status": "proved",
   "theorems": [
    "Verif.Config.load_all",
    "Verif.Config.load_lookup",
    "Verif.Config.get_after_load",
    "Verif.Config.get_unknown",
    "Verif.Config.get_before_load",
    "Verif.Config.copies_not_notified",
    "Verif.Config.robots_boot",
    "Verif.Config.robots_load",
    "Verif.Config.robots_calls"
   ],
   "note": "Memory allocation succeeds; limits on values in Scalar.fits, with witnesses that they are needed."
  },
  {
   "property": "C103",
   "status": "partial",
   "theorems": [
    "Verif.Servo.Io.settles_partial",
    "Verif.Servo.Io.pulse_seconds",
    "Verif.Servo.Io.run_well",
    "Verif.Servo.Io.other_node",
    "Verif.Servo.Io.set_limits",
    "Verif.Servo.Io.dead_outputs",
    "Verif.Servo.Io.set_and_wait",
    "Verif.Servo.Io.half_is_full",
    "Verif.Servo.Io.one_is_not_full",
    "Verif.Servo.Io.no_pulse",
    "Verif.Servo.Io.below_zero",
    "Verif.Servo.Io.limits_while_moving",
    "Verif.Servo.Io.nan_undefined",
    "Verif.Servo.Io.setPwm_others",
    "Verif.Servo.Io.setPwm_own",
    "Verif.Servo.Io.setPwm_keeps"
   ],
   "note": "False for outputs 2 and 3, whose channels are never enabled (dead_outputs), and for the scale: a position is the pulse in seconds, of which the register keeps 16 bits (settles_partial, half_is_full, one_is_not_full, no_pulse). With an acceleration below the speed the output can pass zero and is then constantly high (below_zero). Setting one channel from the master sets the others to zero (setPwm_others). Exact arithmetic."
  },
  {
   "property": "C104",
   "status": "partial",
   "theorems": [
    "Verif.Servo.Act.settles_partial",
    "Verif.Servo.Act.run_well",
    "Verif.Servo.Act.pumps",
    "Verif.Servo.Act.other_node",
    "Verif.Servo.Act.frozen",
    "Verif.Servo.Act.master_noSpeed",
    "Verif.Servo.Act.master_never_moves",
    "Verif.Servo.Act.default_pulses"
   ],
   "note": "True for commands with limits above zero (settles_partial), but the master sends limits of zero, with which the servos never move and never get a pulse (master_never_moves). Exact arithmetic on the boards, any conversion to half precision that keeps small numbers."
  },
  {
   "property": "C105",
   "status": "partial",
   "theorems": [
    "Verif.Gateway.forward_partial",
    "Verif.Gateway.nothing_else",
    "Verif.Gateway.one_topic",
    "Verif.Gateway.unknown_ignored",
    "Verif.Gateway.wheels_read",
    "Verif.Gateway.distance_names",
    "Verif.Gateway.actuator_names_clash",
    "Verif.Gateway.start_allowed",
    "Verif.Gateway.start_among",
    "Verif.Gateway.robot_actuators",
    "Verif.Gateway.robot_no_distance",
    "Verif.Gateway.failed_measurement",
    "Verif.Gateway.wheels_torn",
    "Verif.Gateway.replace_first",
    "Verif.Gateway.replace_none"
   ],
   "note": "True for all histories within the limits of the tables and for names that are distinct and fit (forward, nothing_else, one_topic, unknown_ignored, wheels_read), and on the robot for its six actuator boards (robot_actuators). Not true for the distance sensors: the robot does not know their boards (robot_no_distance). Left and right wheel positions are read separately (wheels_torn)."
  },
  {
   "property": "C106",
   "status": "partial",
   "theorems": [
    "Verif.Gateway.motor_streams_partial",
    "Verif.Gateway.motor_only",
    "Verif.Gateway.actuator_feedback_confused"
   ],
   "note": "Proved for all sequences of operations in which motor feedback comes from ids that are not those of actuator boards; otherwise the driver of the actuator is overwritten (actuator_feedback_confused)."
  },
  {
   "property": "C107",
   "status": "partial",
   "theorems": [
    "Verif.Panel.lights",
    "Verif.Panel.lit_iff",
    "Verif.Panel.two_states_dark",
    "Verif.Panel.colours_dark",
    "Verif.Panel.ready_iff",
    "Verif.Panel.ready_light_partial",
    "Verif.Panel.ready_lost",
    "Verif.Panel.power_light",
    "Verif.Panel.health_last",
    "Verif.Panel.vanished_lit",
    "Verif.Panel.power_flickers"
   ],
   "note": "LED_POWER: proved after every round (power_light). Lights with a maximum of at least 2 are lit exactly while on (lights, lit_iff), those with two states never (two_states_dark). LED_READY: proved if the lights are opened before the discovery is complete (ready_light_partial); the code opens them later, and then the light can stay dark (ready_lost)."
  },
  {
   "property": "C108",
   "status": "partial",
   "theorems": [
    "Verif.Pressure.messages_partial",
    "Verif.Pressure.read_spec",
    "Verif.Pressure.read_reads",
    "Verif.Pressure.rounds_spec",
    "Verif.Pressure.status_spec",
    "Verif.Pressure.pascal_near",
    "Verif.Pressure.toUint_near",
    "Verif.Pressure.slow_zero",
    "Verif.Pressure.below_undefined",
    "Verif.Pressure.small_is_failure",
    "Verif.Pressure.bit_one_ignored"
   ],
   "note": "Proved for all behaviours of the sensors whose good measurements are not below the result for no pressure by more than 1 Pa; below, the conversion is undefined (below_undefined). A measurement of less than 1 Pa cannot be told from a failure (small_is_failure)."
  },
  {
   "property": "C109",
   "status": "partial",
   "theorems": [
    "Verif.Tof.messages_partial",
    "Verif.Tof.messages_go_on",
    "Verif.Tof.color_spec",
    "Verif.Tof.hangs",
    "Verif.Tof.junk_published",
    "Verif.Tof.lost_clear",
    "Verif.Tof.color_stack"
   ],
   "note": "Proved for all timings while no transfer on the bus fails (messages, messages_go_on, color_spec); with failing transfers the claim is false (junk_published, lost_clear, hangs, color_stack)."
  },
  {
   "property": "C110",
   "status": "partial",
   "theorems": [
    "Verif.Imu.messages_partial",
    "Verif.Imu.no_lost_wakeup",
    "Verif.Imu.messages_go_on",
    "Verif.Imu.says_raw",
    "Verif.Imu.saysMag",
    "Verif.Imu.saysTemp",
    "Verif.Imu.scaled",
    "Verif.Imu.first_mag_missing",
    "Verif.Imu.torn"
   ],
   "note": "Order of rounds, wake-ups and progress are proved for all timings. The values are proved for messages of rounds in which the device did not sample, and for the magnetometer from the second message on; otherwise bytes of two samples are mixed (torn), and the first message has no field (first_mag_missing)."
  },
  {
   "property": "C111",
   "status": "partial",
   "theorems": [
    "Verif.Calib.wheel_calibration_partial",
    "Verif.Calib.wheel_no_distance",
    "Verif.Calib.gain_change_jumps",
    "Verif.Calib.gain_jump_example",
    "Verif.Calib.same_gain_stays",
    "Verif.Calib.track_calibration",
    "Verif.Calib.track_alias",
    "Verif.Calib.track_no_turn",
    "Verif.Calib.changes_kept",
    "Verif.Calib.pass_takes"
   ],
   "note": "Exact arithmetic instead of single precision for the suggested values. The drive (trajectories, alignment at the wall) is not modelled; that the robot is back at the wall, and turned n times, are hypotheses. Taking over new gains moves the odometry of a standing robot (gain_change_jumps)."
  },
  {
   "property": "C112",
   "status": "partial",
   "theorems": [
    "Verif.Radio.rxTimestamp_eq",
    "Verif.Radio.timestampGet_eq",
    "Verif.Radio.sends_when_it_says",
    "Verif.Radio.late_not_sent",
    "Verif.Radio.exchange",
    "Verif.Radio.measurement",
    "Verif.Radio.deaf_waits",
    "Verif.Radio.can_become_deaf",
    "Verif.Radio.late_becomes_deaf",
    "Verif.Radio.frame_thrown_away",
    "Verif.Radio.never_deaf_partial",
    "Verif.Radio.recovers",
    "Verif.Radio.no_frame_twice",
    "Verif.Radio.no_frame_lost_partial",
    "Verif.Radio.frame_handled_partial",
    "Verif.Radio.error_handled_partial"
   ],
   "note": "The device is modelled after its driver's comments and manual. Clocks of equal rate. The radio can become deaf until the next transmission of its own (can_become_deaf, late_becomes_deaf); the partial theorems assume that these two things do not happen, recovers needs no assumption on the past."
  },
  {
   "property": "C113",
   "status": "proved",
   "theorems": [
    "Verif.Radio.flight_between",
    "Verif.Radio.propagation_rates",
    "Verif.Radio.measurement_rates",
    "Verif.Radio.close_is_far",
    "Verif.Radio.leaveTime_floor"
   ],
   "note": "Exact rational time; time stamps of arrival rounded down to whole ticks. Below 4 ticks the difference of the products can wrap and the distance reported is absurd (close_is_far), which is why they are excluded in the statement."
  },
  {
   "property": "C114",
   "status": "proved",
   "theorems": [
    "Verif.Chain.pursues_last",
    "Verif.Chain.cut_iff",
    "Verif.Chain.run_defined",
    "Verif.Chain.takes_sent",
    "Verif.Chain.takes_exact",
    "Verif.Chain.command_arrives",
    "Verif.Chain.disabled_stops",
    "Verif.Chain.kept_alive",
    "Verif.Chain.emergency_stop"
   ],
   "note": "Composition of Motors, Drive and MotorCtl. Cutting is limited to 2^31 us after the last setpoint, as in C05. Frames arrive in order; a setpoint and its time stamp are stored in one step."
  },
  {
   "property": "C115",
   "status": "partial",
   "theorems": [
    "Verif.Upload.sent_iff",
    "Verif.Upload.has_unique",
    "Verif.Upload.upload_defined",
    "Verif.Upload.upload_applies",
    "Verif.Upload.upload_exact_partial",
    "Verif.Upload.upload_completes",
    "Verif.Upload.upload_unknown",
    "Verif.Upload.upload_lost",
    "Verif.Upload.save_unnoticed",
    "Verif.Upload.wheels_applied",
    "Verif.Upload.mistyped_ignored"
   ],
   "note": "The full statement is false: an entry of another type than the parameter (a gain written `20` instead of `20.`) is ignored by the board and the tool ends as if it had been set (mistyped_ignored); a lost save request is not noticed (save_unnoticed). upload_applies states exactly what holds; upload_exact_partial is the full claim for configurations of the right types; wheels_applied is that for the robots' own configuration."
  },
  {
   "property": "C116",
   "status": "partial",
   "theorems": [
    "Verif.Menu.shows_stack",
    "Verif.Menu.back_to_root",
    "Verif.Menu.press_back",
    "Verif.Menu.robot_acyclic",
    "Verif.Menu.robot_depth",
    "Verif.Menu.action_reached",
    "Verif.Menu.action_hidden",
    "Verif.Menu.buttons_apart",
    "Verif.Menu.timer_between_partial",
    "Verif.Menu.timer_race",
    "Verif.Menu.circle"
   ],
   "note": "The part on the timer is false: the thread of the timers is not kept out while the page changes (timer_race); between events it holds (timer_between_partial). Everything else is proved. Without the condition on circles the history is lost (circle); the robot's own pages meet it (robot_acyclic)."
  },
  {
   "property": "C117",
   "status": "proved",
   "theorems": [
    "Verif.Raft.elected",
    "Verif.Raft.progress",
    "Verif.Raft.election_drains",
    "Verif.Raft.rounds_drain",
    "Verif.Raft.progress_possible",
    "Verif.Raft.init_rest"
   ],
   "note": "Operations are submitted between the election and the first heartbeat. Later submissions with the comparator as written can be applied twice (C32: applied_twice), so the theorem does not extend to them. The next heartbeats are sent when the replies to the previous ones have arrived."
  },
  {
   "property": "C118",
   "status": "partial",
   "theorems": [
    "Verif.Opponent.signal_iff",
    "Verif.Opponent.angle_middle",
    "Verif.Opponent.published",
    "Verif.Opponent.distance_short",
    "Verif.Opponent.topic_units",
    "Verif.Opponent.topic_units_witness",
    "Verif.Opponent.not_published",
    "Verif.Opponent.nearer",
    "Verif.Opponent.centre",
    "Verif.Opponent.opponent_covered",
    "Verif.Opponent.margin_configured",
    "Verif.Opponent.round_defined",
    "Verif.Opponent.far_undefined",
    "Verif.Opponent.fresh_iff",
    "Verif.Opponent.fresh_half_hour",
    "Verif.Opponent.fresh_again",
    "Verif.Opponent.stale_round",
    "Verif.Opponent.stale_twice_partial",
    "Verif.Opponent.stale_remains",
    "Verif.Opponent.moves_along",
    "Verif.Opponent.turns_along",
    "Verif.Opponent.ally_obstacle",
    "Verif.Opponent.emulated_angle",
    "Verif.Opponent.emulated_distance"
   ],
   "note": "Proved: direction and distance from every exact signal, cover of the opponent by the obstacle, definedness for bounded values, age. False, with witnesses: x and y of the message (metres added to millimetres), an old signal removes only one of the two obstacles, a signal is recent again after 36 minutes, the obstacle moves with the robot, a signal too short is undefined. Floats are reals."
  },
  {
   "property": "C119",
   "status": "proved",
   "theorems": [
    "Verif.Fat.get_fat_entry",
    "Verif.Fat.put_fat_entry",
    "Verif.Fat.put_fat_reserved",
    "Verif.Fat.refused",
    "Verif.Fat.table_is_map",
    "Verif.Fat.synced_copies"
   ],
   "note": "The layout of the volume (tables within the reserved area, room for all entries, sector numbers below 2^32) is a hypothesis."
  },
  {
   "property": "C120",
   "status": "partial",
   "theorems": [
    "Verif.Fat.failed_write_keeps_partial",
    "Verif.Fat.failed_read_junk",
    "Verif.Fat.failed_read_lies",
    "Verif.Fat.failed_put_destroys",
    "Verif.Fat.failed_copy_unnoticed"
   ],
   "note": "Proved for sectors that cannot be written back. False, with witnesses, for sectors that cannot be read (the window keeps the number of the old sector over whatever the driver left in it; put_fat then even marks it as changed) and for copies that cannot be written (not noticed)."
  },
  {
   "property": "C121",
   "status": "proved",
   "theorems": [
    "Verif.Fat.create_new",
    "Verif.Fat.create_extend",
    "Verif.Fat.create_inside",
    "Verif.Fat.remove_file",
    "Verif.Fat.remove_tail",
    "Verif.Fat.remove_ends",
    "Verif.Fat.create_ends",
    "Verif.Fat.files_entries"
   ],
   "note": "The invariant of every theorem is the hypothesis of the next one, so that sequences of any length are covered."
  },
  {
   "property": "C122",
   "status": "partial",
   "theorems": [
    "Verif.Fat.getfree_right_partial",
    "Verif.Fat.getfree_files_partial",
    "Verif.Fat.free_of_files",
    "Verif.Fat.interrupted_count",
    "Verif.Fat.reserved_counted"
   ],
   "note": "Proved on a disk whose operations succeed, if the two entries before the first cluster are not 0. False, with witnesses: a count that is interrupted by an error is stored as if it were right, and the two reserved entries are counted as clusters."
  },
  {
   "property": "C123",
   "status": "partial",
   "theorems": [
    "Verif.Fat.f_write_overwrites_partial",
    "Verif.Fat.f_read_portion",
    "Verif.Fat.refused_ops",
    "Verif.Fat.performAll_runs",
    "Verif.Fat.aborted_write"
   ],
   "note": "Proved for a disk whose operations succeed, including short writes on a full volume and writes beyond 4 GiB (which write nothing); tables, copies of the table and all sectors of other files are shown to be left alone. False after a disk error: a write of two sectors whose second one fails reports 512 bytes of a file that stays empty (`aborted_write`). The directory entry is not modelled."
  },
  {
   "property": "C124",
   "status": "proved",
   "theorems": [
    "Verif.Fat.f_lseek_moves",
    "Verif.Fat.f_truncate_cuts",
    "Verif.Fat.refused_moves",
    "Verif.Fat.perform_does",
    "Verif.Fat.performAll_runs",
    "Verif.Fat.old_bytes"
   ],
   "note": "What is in the part that a seek has added is left open, as by the library."
  },
  {
   "property": "C125",
   "status": "partial",
   "theorems": [
    "Verif.Fat.f_sync_writes_partial",
    "Verif.Fat.f_sync_idle",
    "Verif.Fat.info_told",
    "Verif.Fat.synced_survives",
    "Verif.Fat.sync_then_open_partial",
    "Verif.Fat.sync_error_forgotten",
    "Verif.Fat.unsynced_lost",
    "Verif.Fat.perform_keeps",
    "Verif.Fat.sync_entry_partial",
    "Verif.Fat.session_partial"
   ],
   "note": "Proved for a disk whose operations succeed. False after an error: an f_sync that failed to write the directory sector has already cleared the mark of the changed file, so the next f_sync reports success while the directory still has the old size (`sync_error_forgotten`). Every operation that makes the directory entry out of date, or leaves bytes in the buffer, sets the mark (`perform_keeps`); from one f_open over any calls and f_sync to the next f_open the file behaves like a list of bytes (`session_partial`), across a loss of the memory if anything was changed."
  },
  {
   "property": "C126",
   "status": "proved",
   "theorems": [
    "Verif.Fat.f_open_reads",
    "Verif.Fat.f_open_overwrites",
    "Verif.Fat.f_open_refused"
   ],
   "note": "The name lookup is not modelled; the entry is given by its position."
  },
  {
   "property": "C127",
   "status": "partial",
   "theorems": [
    "Verif.Fat.create_name_partial",
    "Verif.Fat.create_name_refused_partial",
    "Verif.Fat.create_name_empty",
    "Verif.Fat.show_name_partial",
    "Verif.Fat.shown_opens_partial",
    "Verif.Fat.stored_inj_partial",
    "Verif.Fat.letters_partial",
    "Verif.Fat.table_wrong",
    "Verif.Fat.names_collide",
    "Verif.Fat.dot_accepted",
    "Verif.Fat.bodiless_accepted"
   ],
   "note": "Proved for names without the characters 0x9A, 0x9E and 0xA1 that do not begin with a dot. False for those: the table has wrong large letters for the three (`table_wrong`), so that `\u00a1A` and `!A` are the same file (`names_collide`); `.` and `.TXT` are accepted with a blank body (`dot_accepted`, `bodiless_accepted`)."
  },
  {
   "property": "C128",
   "status": "proved",
   "theorems": [
    "Verif.Fat.find_right",
    "Verif.Fat.create_right",
    "Verif.Fat.unlink_right",
    "Verif.Fat.ask_right",
    "Verif.Fat.directory_is_a_set",
    "Verif.Fat.clusters_apart",
    "Verif.Fat.stale_entry"
   ],
   "note": "Directories whose entries after the end are 0 and whose names are distinct; both are kept by all operations. Without the first, old entries appear again (`stale_entry`)."
  },
  {
   "property": "C129",
   "status": "partial",
   "theorems": [
    "Verif.Fat.mount_right_partial",
    "Verif.Fat.mount_writes_nothing",
    "Verif.Fat.mount_error",
    "Verif.Fat.mounted_ok",
    "Verif.Fat.mounted_root",
    "Verif.Fat.mount_again",
    "Verif.Fat.tables_vanish",
    "Verif.Fat.short_table",
    "Verif.Fat.past_the_end",
    "Verif.Fat.too_many_clusters",
    "Verif.Fat.edge_4085",
    "Verif.Fat.edges",
    "Verif.Fat.root_unchecked",
    "Verif.Fat.junk_mounted"
   ],
   "note": "The code computes sizes with 32 bits that wrap around: volumes whose tables, clusters or last sector do not fit are mounted and then overwrite their tables or other partitions (`tables_vanish`, `short_table`, `past_the_end`, `too_many_clusters`); `mount_right_partial` excludes these by `Fits`."
  },
  {
   "property": "C130",
   "status": "partial",
   "theorems": [
    "Verif.Fat.resolves_unique",
    "Verif.Fat.follow_right_partial",
    "Verif.Fat.refused_partial",
    "Verif.Fat.root_path",
    "Verif.Fat.slash_refused"
   ],
   "note": "The three characters for which the code page is wrong (see the names of files) and names beginning with a dot are left out; disk errors are not in these theorems."
  },
  {
   "property": "C131",
   "status": "partial",
   "theorems": [
    "Verif.Tap.quota_meaning",
    "Verif.Tap.allowed_iff",
    "Verif.Tap.rate_bounded",
    "Verif.Tap.slow_calls_pass",
    "Verif.Tap.one_per_second_passes_nothing",
    "Verif.Tap.clock_set_back"
   ],
   "note": "Exact rationals stand for doubles. The bound needs a clock that is not set back; the code uses the wall clock, and what it does when that is set back is proved as well."
  },
  {
   "property": "C132",
   "status": "partial",
   "theorems": [
    "Verif.Tap.bridge_order",
    "Verif.Tap.stays_alive_partial",
    "Verif.Tap.dead_forever",
    "Verif.Tap.long_frame_ends_adapter",
    "Verif.Tap.on_air_partial",
    "Verif.Tap.too_long_for_radio",
    "Verif.Tap.overruns_buffer",
    "Verif.Tap.from_air",
    "Verif.Tap.over_the_air_partial",
    "Verif.Tap.foreign_not_published",
    "Verif.Tap.relay_in_order",
    "Verif.Tap.read_succeeds",
    "Verif.Tap.calm_all_relayed_partial",
    "Verif.Tap.burst_loses",
    "Verif.Tap.other_topic_hides",
    "Verif.Tap.missed_between_waits",
    "Verif.Tap.repeated",
    "Verif.Tap.disabled_silent",
    "Verif.Tap.end_to_end_partial"
   ],
   "note": "Holds for frames of at most 1012 bytes (1023 for the adapter alone), and the beacon passes on all packets only if each is handled before the next; witnesses show the rest to be false. Loss on the air and the CAN bus itself are not modelled."
  },
  {
   "property": "C133",
   "status": "partial",
   "theorems": [
    "Verif.Studio.fetch_tree",
    "Verif.Studio.edit_shows",
    "Verif.Studio.shown_type",
    "Verif.Studio.typed_partial",
    "Verif.Studio.edit_sets_partial",
    "Verif.Studio.false_sets_true",
    "Verif.Studio.clash_raises",
    "Verif.Studio.edit_none",
    "Verif.Studio.join_split",
    "Verif.Studio.seen_value"
   ],
   "note": "The UAVCAN service on the board (a library outside the repository) is assumed to combine the functions of the parameter server; the conversions of texts to numbers are parameters. False for: the text False for booleans, the two extreme integers, parameters without a value, a lost answer (the tree ends there) and a parameter with the name of a namespace beside it; each is proved."
  },
  {
   "property": "C134",
   "status": "partial",
   "theorems": [
    "Verif.ParamPrint.print_read_partial",
    "Verif.ParamPrint.valuePrint_spec",
    "Verif.ParamPrint.newline_breaks",
    "Verif.ParamPrint.largest_buffer",
    "Verif.ParamPrint.arrayLoop_eq"
   ],
   "note": "Holds for identifiers without colon, newline and leading space, values without newline, and buffers of less than 65535 characters; a value with a newline and a buffer of 65535 characters are proved to fail."
  },
  {
   "property": "C135",
   "status": "partial",
   "theorems": [
    "Verif.Sim.encoders_sent",
    "Verif.Sim.hitl_odometry_partial",
    "Verif.Sim.webots_odometry",
    "Verif.Sim.hitl_heading_wrong",
    "Verif.Sim.drive_law",
    "Verif.Sim.forces_partial",
    "Verif.Sim.clamp_spec",
    "Verif.Sim.force_unlimited",
    "Verif.Sim.voltage_counts",
    "Verif.Sim.webots_speed",
    "Verif.Sim.cups_symmetric",
    "Verif.Sim.cups_clear",
    "Verif.Sim.borders_edges",
    "Verif.Sim.divider_missing"
   ],
   "note": "Encoders, distances, the heading in Webots, the law of driving and the cups hold; the heading in the Box2D simulator, the limit of the force ahead and the middle divider are proved wrong."
  },
  {
   "property": "C136",
   "status": "partial",
   "theorems": [
    "Verif.Fat.unlink_entry",
    "Verif.Fat.unlink_partial",
    "Verif.Fat.verdict_unique",
    "Verif.Fat.bare_names",
    "Verif.Fat.unlink_refused_partial",
    "Verif.Fat.root_undefined"
   ],
   "note": "Proved for names without the letters that `create_name` confuses (C127) and on disks that do not fail; for the path of the root the code reads at a null pointer (`root_undefined`)."
  },
  {
   "property": "C137",
   "status": "partial",
   "theorems": [
    "Verif.Fat.readdir_right",
    "Verif.Fat.list_right",
    "Verif.Fat.found_listed",
    "Verif.Fat.listed_there",
    "Verif.Fat.opendir_partial",
    "Verif.Fat.opendir_root",
    "Verif.Fat.stat_partial",
    "Verif.Fat.stat_root",
    "Verif.Fat.told_name_partial",
    "Verif.Fat.blank_hides",
    "Verif.Fat.show_empty"
   ],
   "note": "Complete if no name consists of blanks only; such a file, which `f_open(\".\")` creates, hides the files after it (`blank_hides`). Names as in C127."
  },
  {
   "property": "C138",
   "status": "partial",
   "theorems": [
    "Verif.Fat.open_entry",
    "Verif.Fat.open_new",
    "Verif.Fat.opening_unique",
    "Verif.Fat.open_path_partial",
    "Verif.Fat.open_root",
    "Verif.Fat.open_refused_partial",
    "Verif.Fat.home_whole"
   ],
   "note": "Partial as paths with letters that create_name takes for others (see C127) are not covered, and reads and writes must not fail. Missing: behaviour with errors of the disk."
  },
  {
   "property": "C139",
   "status": "partial",
   "theorems": [
    "Verif.Fat.make_entry",
    "Verif.Fat.new_dir_usable",
    "Verif.Fat.mkdir_path_partial",
    "Verif.Fat.mkdir_root",
    "Verif.Fat.mkdir_refused_partial",
    "Verif.Fat.register_stale",
    "Verif.Fat.lay_spec",
    "Verif.Fat.inside_bare"
   ],
   "note": "Partial as paths with letters that create_name takes for others (finding of C128/C129) are not covered, and reads and writes must not fail. Missing: behaviour with errors of the disk."
  },
  {
   "property": "C140",
   "status": "partial",
   "theorems": [
    "Verif.Fat.change_spec",
    "Verif.Fat.change_path",
    "Verif.Fat.chmod_partial",
    "Verif.Fat.utime_partial",
    "Verif.Fat.change_root",
    "Verif.Fat.change_refused_partial"
   ],
   "note": "Partial as paths with letters that create_name takes for others (finding of C128/C129) are not covered, and reads and writes must not fail."
  },
  {
   "property": "C141",
   "status": "partial",
   "theorems": [
    "Verif.Fat.rename_entry",
    "Verif.Fat.rename_partial",
    "Verif.Fat.rename_root",
    "Verif.Fat.rename_to_root",
    "Verif.Fat.moved_same",
    "Verif.Fat.rename_into_itself",
    "Verif.Fat.move_entry",
    "Verif.Fat.move_partial",
    "Verif.Fat.rename_below_itself"
   ],
   "note": "False as stated: a directory can be moved into itself or below itself (rename_into_itself, rename_below_itself), after which it cannot be reached and its clusters are lost. rename_partial: old and new name in the same directory. move_partial: any two directories that are apart from each other and from the clusters of the object; a moved directory gets its '..' set, a moved file keeps its data, and nothing else changes. Paths with letters that create_name takes for others are not covered; reads and writes must not fail."
  },
  {
   "property": "C142",
   "status": "partial",
   "theorems": [
    "Verif.Fat.call_partial",
    "Verif.Fat.calls_partial",
    "Verif.Fat.move_volume_partial",
    "Verif.Fat.volume_tree",
    "Verif.Fat.volume_whole",
    "Verif.Fat.volume_joint",
    "Verif.Fat.rename_below_itself",
    "Verif.Fat.rename_loses"
   ],
   "note": "False as stated: f_rename can move a directory below itself (rename_below_itself), after which the volume is not consistent (rename_loses). calls_partial: any number of calls of f_stat, f_opendir, f_chmod, f_utime, f_unlink, f_mkdir, f_open (with all ways to make and empty files) and f_rename (within a directory and to others, except to a path that begins with that of the object), for paths of 8.3 names without the letters that create_name takes for others, if no read or write fails; volume_tree, volume_whole and volume_joint: a consistent volume meets what the theorems on paths (C127-C130, C136-C141) assume. Missing: f_write and f_sync on open files, whose effects are proved (C119-C125) but not put together with this invariant."
  },
  {
   "property": "C143",
   "status": "proved",
   "theorems": [
    "Verif.Mpu.region_protects",
    "Verif.Mpu.null_guarded",
    "Verif.Mpu.init_map",
    "Verif.Mpu.base_rounded",
    "Verif.Mpu.region_wraps",
    "Verif.Mpu.size_wraps"
   ],
   "note": "region_protects for sizes 2^5 to 2^32 and regions 0 to 7; the processor is modelled by the pseudocode of the ARMv7-M architecture with 8 regions. base_rounded, region_wraps and size_wraps show what the code does not check: bases that are not a multiple of the size, region numbers modulo 16, sizes above 32."
  },
  {
   "property": "C144",
   "status": "proved",
   "theorems": [
    "Verif.Gpio.never_undefined",
    "Verif.Gpio.none_lost",
    "Verif.Gpio.reads_own",
    "Verif.Gpio.open_gives",
    "Verif.Gpio.step_owned"
   ],
   "note": "The lines of a chip other than the one asked for, and what libgpiod does within its calls, are not modelled; a chip opened twice gives two handles, as in libgpiod."
  },
  {
   "property": "C145",
   "status": "proved",
   "theorems": [
    "Verif.Uart.write_keeps",
    "Verif.Uart.write_returns",
    "Verif.Uart.read_keeps",
    "Verif.Uart.divider_nearest",
    "Verif.Uart.bits_sampled",
    "Verif.Uart.divider_overflows",
    "Verif.Uart.read_loses"
   ],
   "note": "divider_overflows: what happens above the bound; read_loses: bytes that arrive faster are lost without notice. The flags at initialisation and the clocks of the peripherals are not modelled."
  },
  {
   "property": "C146",
   "status": "proved",
   "theorems": [
    "Verif.ConfigSend.send_all",
    "Verif.ConfigSend.split_same",
    "Verif.ConfigSend.keys_kept",
    "Verif.ConfigSend.keys_from",
    "Verif.ConfigSend.key_lost",
    "Verif.ConfigSend.empty_actuators"
   ],
   "note": "key_lost: without the condition on the keys a value is lost (1 and \"1\"); empty_actuators: with a key actuator that is not a dictionary nothing is sent. Reading the YAML file and the calls themselves are not modelled."
  }
 ]
}