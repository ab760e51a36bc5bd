{"id": "C01", "title": "CRC can be computed in pieces", "statement": "Feeding a buffer to crc32 (or crc16) in consecutive chunks, each call seeded with the previous result, gives the same value as one call on the whole buffer, whatever the seed and however the buffer is cut.", "quantifier": "all seeds, all byte strings, all ways of splitting them", "why_tests_cant": "A test checks a few buffers and split points; the law is about every buffer and every split.", "anchors": ["lib/crc/crc32.c: crc32", "lib/crc/crc16.c: crc16"]}
{"id": "C02", "title": "CRC detects every short burst error", "statement": "If two equally long buffers differ, and every differing bit lies within a window of 32 consecutive bits (16 for crc16) in transmission order, then their checksums for the same seed differ. In particular the checksum is injective on buffers of at most 4 (2) bytes.", "quantifier": "all buffers, all seeds, all error patterns of burst length at most the checksum width", "why_tests_cant": "The number of buffer/error pairs is infinite; a test can only sample error patterns.", "anchors": ["lib/crc/crc32.c: crc32", "lib/crc/crc16.c: crc16"]}
{"id": "C03", "title": "Durations survive timestamp wrap-around", "statement": "timestamp_duration_us applied to the 32-bit timestamps of two instants returns their true signed distance whenever it lies in [-2^31, 2^31), in particular across the 32-bit wrap; swapping the arguments negates the result except at distance exactly -2^31, and a chain of durations telescopes.", "quantifier": "all pairs (and chains) of instants", "why_tests_cant": "2^64 pairs of timestamps, and the interesting ones are those straddling the wrap, which takes 71 minutes to reach on the target.", "anchors": ["lib/timestamp/timestamp.c: timestamp_duration_us, ltimestamp_duration_us"]}
{"id": "C04", "title": "timestamp_get never goes backwards", "statement": "On the STM32 port two successive calls of timestamp_get from thread context never return a decreasing time (as judged by timestamp_duration_us) when less than 2^31 us pass between them, wherever the timer-overflow interrupt falls inside the calls; the 64-bit ltimestamp_get never decreases either.", "quantifier": "all placements of timer ticks and overflow interrupts between the individual reads of the calls", "why_tests_cant": "Depends on where an interrupt lands between two machine instructions; a test cannot enumerate schedules.", "anchors": ["lib/timestamp/timestamp_stm32.c: timestamp_get, ltimestamp_get, timer_read, TIMER_IRQ_NAME handler"]}
{"id": "C05", "title": "Motor is cut when setpoints stop arriving", "statement": "Once more than 0.3 s have passed since the last setpoint update, or whenever the battery is below its low threshold, every run of the control loop drives the motor with 0 V until a new setpoint arrives.", "quantifier": "all histories of setpoint updates and control-loop runs, all idle durations", "why_tests_cant": "The failing histories need an idle time of more than 35 minutes at an exact phase of a 32-bit counter; no unit test waits for that.", "anchors": ["motor-control-firmware/src/control.c: control_loop, control_update_*_setpoint", "lib/timestamp/timestamp.c: timestamp_duration_s"]}
{"id": "C06", "title": "Actuator motion is allowed only shortly after a command", "statement": "After power-up, and whenever 500 ms have elapsed since the last command addressed to the board, the safety module reports motion as disallowed, the board's power output (which feeds the pumps) is off, and the servo loop writes zero pulses; a command addressed to another board never re-enables motion.", "quantifier": "all interleavings of command reception, timer expiry and output loops", "why_tests_cant": "It is a statement about every timing of events, including a timer expiring while a command is being handled.", "anchors": ["actuator-firmware/src/safety.c", "actuator-firmware/src/servo.c", "actuator-firmware/src/pump.c", "actuator-firmware/src/uavcan/Command_handler.cpp"]}
{"id": "C07", "title": "LRU cache evicts exactly the least recently used entry", "statement": "For a cache initialised with at least two entries, after any sequence of allocate/get calls: get finds exactly the keys that are among the most recently used ones fitting in the capacity, returns the entry allocated for that key, and an allocation in a full cache reuses the entry whose last use is oldest; no call loses, duplicates or leaks an entry and none loops forever.", "quantifier": "all capacities, all sequences of allocate and get", "why_tests_cant": "Linked-list surgery bugs show only for particular histories; the space of histories is infinite.", "anchors": ["uwb-beacon-firmware/src/lru_cache.c: lru_cache_init, lru_cache_allocate, lru_cache_get"]}
{"id": "C08", "title": "Anchor position cache remembers the latest position of recent anchors", "statement": "After any sequence of position messages and lookups, looking up an anchor returns the position of its latest message provided fewer than five other anchors were used since; anchors never heard of are never returned.", "quantifier": "all sequences of anchor messages and lookups", "why_tests_cant": "Same as for the LRU cache: quantifies over every history.", "anchors": ["uwb-beacon-firmware/src/anchor_position_cache.c", "uwb-beacon-firmware/src/lru_cache.c"]}
{"id": "C09", "title": "Trace buffer keeps the most recent events in order", "statement": "After any sequence of trace calls since the last clear, printing the trace shows exactly the last min(n, TRACE_BUFFER_SIZE) recorded events, oldest first, with their arguments; events issued while tracing is off are not shown.", "quantifier": "all sequences of trace, clear, on/off and print calls of any length", "why_tests_cant": "Wrap-around correctness must hold after any number of events; a test exercises a few lengths.", "anchors": ["lib/trace/trace.c: trace_push_event, trace_print, trace_clear", "lib/trace/include/trace/trace.h"]}
{"id": "C10", "title": "Bus enumerator lookups agree with what was registered", "statement": "After registering nodes (distinct names) and then any sequence of discovery updates: the CAN id and driver returned for a name are those registered and discovered for it, a CAN id maps back to the name that was discovered with it, unknown names and ids yield the not-found value, and the first CAN id discovered for a name is never overwritten.", "quantifier": "all sets of names (in any registration order), all sequences of discoveries and queries", "why_tests_cant": "Binary search over two incrementally sorted tables: every insertion order and every key must work.", "anchors": ["master-firmware/src/can/bus_enumerator.c"]}
{"id": "C11", "title": "Bus enumerator never overruns its buffers", "statement": "Whatever the sequence of add/update calls, no table ever holds more entries than the buffer it was initialised with and both tables stay sorted; adding to a full table changes nothing.", "quantifier": "all sequences of add and update calls", "why_tests_cant": "Memory-safety over all call histories, including hostile ones such as ids 0xFE/0xFF.", "anchors": ["master-firmware/src/can/bus_enumerator.c: bus_enumerator_add_node, bus_enumerator_update_node_info"]}
{"id": "C12", "title": "A read returns the latest published message", "statement": "messagebus_topic_read returns false exactly when nothing was ever successfully published on the topic, and otherwise copies the first buf_len bytes of the most recent successful publish (padded by whatever older messages left behind it when the latest one was shorter).", "quantifier": "all topics, all interleavings of publishes and reads by any number of threads", "why_tests_cant": "Quantifies over histories and thread schedules.", "anchors": ["lib/msgbus/messagebus.c: messagebus_topic_publish, messagebus_topic_read"]}
{"id": "C13", "title": "Oversized publishes are rejected without side effects", "statement": "Publishing more bytes than the topic's buffer returns false and changes no topic content, no published flag, no counter, and wakes no reader or watcher; a publish that fits returns true.", "quantifier": "all topics, payloads and lengths", "why_tests_cant": "Claims the absence of any effect for every length.", "anchors": ["lib/msgbus/messagebus.c: messagebus_topic_publish"]}
{"id": "C14", "title": "Message bus reads are never torn", "statement": "With any number of threads publishing and reading the same topic concurrently, every read returns bytes that existed together in the topic at one instant: the reads and publishes are linearizable, and each lock acquired by a call is released exactly once by it.", "quantifier": "all schedules of any number of threads at the granularity of single byte copies and lock operations", "why_tests_cant": "Data races are schedule dependent; tests see a handful of schedules.", "anchors": ["lib/msgbus/messagebus.c: messagebus_topic_publish, messagebus_topic_read, messagebus_topic_wait"]}
{"id": "C15", "title": "Topic lookup by name", "statement": "messagebus_find_topic returns the most recently advertised topic with that name and NULL if none was advertised; advertising a topic never hides topics with other names, and iteration visits every advertised topic exactly once.", "quantifier": "all sequences of advertisements and all names (of at most 64 characters)", "why_tests_cant": "Linked-list insertion and name truncation must be right for every history and name.", "anchors": ["lib/msgbus/messagebus.c: messagebus_advertise_topic, messagebus_find_topic, messagebus_foreach"]}
{"id": "C16", "title": "New-topic callbacks fire once per later topic", "statement": "A callback registered on the bus is invoked exactly once for every topic advertised after its registration, in advertisement order, and never for earlier topics.", "quantifier": "all interleavings of registrations and advertisements", "why_tests_cant": "Property of every history.", "anchors": ["lib/msgbus/messagebus.c: messagebus_new_topic_callback_register, messagebus_advertise_topic"]}
{"id": "C17", "title": "Blocking lookup and waits cannot miss their event", "statement": "A thread blocked in messagebus_find_topic_blocking returns once the topic is advertised, whatever the schedule: there is no window in which the advertisement is missed; a watcher waiting on a group is woken by every publish on any watched topic issued after it blocked and obtains a topic of its group.", "quantifier": "all schedules of waiters, advertisers and publishers", "why_tests_cant": "Lost-wakeup bugs are purely schedule dependent.", "anchors": ["lib/msgbus/messagebus.c: messagebus_find_topic_blocking, messagebus_watchgroup_wait, messagebus_topic_publish"]}
{"id": "C18", "title": "Parameter change flags are exact", "statement": "After any single-threaded sequence of declarations, sets, gets and contains-changed queries: a parameter reports changed iff it was set and not read since, and a namespace reports contains-changed iff some parameter anywhere below it does.", "quantifier": "all trees, all sequences of operations", "why_tests_cant": "The counters are maintained incrementally along paths of a tree of arbitrary shape; tests cover small trees.", "anchors": ["lib/parameter/parameter.c: parameter_changed_set, parameter_changed_clear, parameter_namespace_contains_changed"]}
{"id": "C19", "title": "Parameter lookup by path", "statement": "parameter_find (and parameter_namespace_find) with a '/'-separated path of declared identifiers returns exactly the node declared at that path, and NULL when no such path was declared; a node declared later with the same identifier under the same namespace takes precedence.", "quantifier": "all trees, all paths", "why_tests_cant": "String splitting corner cases over all trees and strings.", "anchors": ["lib/parameter/parameter.c: parameter_find, parameter_namespace_find"]}
{"id": "C20", "title": "A parameter read returns the last value written", "statement": "After any sequence of sets, a get of a parameter returns the value of the last set (or the declared default), for scalars, integers, booleans, vectors, variable-length vectors and strings; it never disturbs another parameter, and a parameter is defined iff it had a default or was set.", "quantifier": "all parameter types, all sequences of declarations and sets", "why_tests_cant": "Histories are unbounded.", "anchors": ["lib/parameter/parameter.c: parameter_*_set, parameter_*_get, parameter_*_read"]}
{"id": "C21", "title": "Saved parameters are restored by loading", "statement": "If writing a namespace to a MessagePack buffer reports success, then reading that buffer into a namespace with the same declarations (any current values) gives every defined parameter the value it had when saved and reports no error.", "quantifier": "all parameter trees, all values, all buffers", "why_tests_cant": "Round-trip over every tree shape, identifier length class, value class and string length.", "anchors": ["lib/parameter/parameter_msgpack.c: parameter_msgpack_write, parameter_msgpack_read", "lib/cmp/cmp.c"]}
{"id": "C22", "title": "Serialiser reports success only for a complete document", "statement": "When parameter_msgpack_write_cmp returns without error the buffer contains one complete, well-formed MessagePack document of the subtree; whenever the document does not fit, an error is reported.", "quantifier": "all trees, all buffer sizes", "why_tests_cant": "A failed partial write must be reported for every possible position at which the buffer ends.", "anchors": ["lib/parameter/parameter_msgpack.c: write_subtree, parameter_msgpack_write_cmp", "lib/cmp_mem_access/cmp_mem_access.c"]}
{"id": "C23", "title": "Memory reader/writer never leaves its buffer", "statement": "For any sequence of reads and writes issued through cmp_mem_access, no byte outside [buf, buf+size) is touched, the position never exceeds size, a refused access changes nothing, and reading back what was written from position 0 gives the same bytes.", "quantifier": "all sizes, all sequences of accesses", "why_tests_cant": "Memory safety for all lengths including those where pos+count would overflow.", "anchors": ["lib/cmp_mem_access/cmp_mem_access.c"]}
{"id": "C24", "title": "Loading from flash restores the last saved configuration", "statement": "On a freshly erased region, after any number of parameter_flash_storage_save calls (as long as everything fits), parameter_flash_storage_load restores the tree as it was at the last save.", "quantifier": "all sequences of saves of arbitrary trees into a region", "why_tests_cant": "The block list grows with history and parsing depends on every byte previously written.", "anchors": ["lib/parameter_flash_storage/parameter_flash_storage.c: parameter_flash_storage_save, parameter_flash_storage_load"]}
{"id": "C25", "title": "Power loss during a save never yields a corrupt configuration", "statement": "If power fails at any byte write of a save, a following load either restores the previously saved configuration or the new one completely; never a mixture.", "quantifier": "all crash points, all region contents produced by earlier successful saves", "why_tests_cant": "Needs every crash point of every history on AND-only flash.", "anchors": ["lib/parameter_flash_storage/parameter_flash_storage.c: parameter_flash_storage_save, parameter_flash_storage_block_find_last_used"]}
{"id": "C26", "title": "Saving never writes outside the flash region", "statement": "parameter_flash_storage_save only programs bytes within [dst, dst+dst_len) and only programs bytes of the new block.", "quantifier": "all trees, all region sizes, all earlier contents", "why_tests_cant": "Off-by-one writes are only visible for blocks ending exactly at a boundary.", "anchors": ["lib/parameter_flash_storage/parameter_flash_storage.c: parameter_flash_storage_save"]}
{"id": "C27", "title": "Flash sector numbering", "statement": "flash_addr_to_sector maps each address of the F4 flash to the sector that contains it according to the device's sector layout (4x16K, 1x64K, then 128K, per bank), for every address.", "quantifier": "all flash addresses", "why_tests_cant": "Boundary arithmetic over two million addresses.", "anchors": ["lib/parameter_flash_storage/flash_f4.c: flash_addr_to_sector"]}
{"id": "C28", "title": "Raft nodes vote at most once per term", "statement": "In every execution a node never grants its vote (counting its own candidacy) to two different candidates in the same term.", "quantifier": "all message contents and orders, including duplicated, stale, reordered and forged messages, any number of timeouts", "why_tests_cant": "Safety over all message histories.", "anchors": ["lib/raft/raft.hpp: State::process, State::start_election"]}
{"id": "C29", "title": "Raft terms never decrease", "statement": "A node's current term never decreases and strictly increases when it starts an election; it steps down from leader/candidate whenever it sees a higher term.", "quantifier": "all message histories", "why_tests_cant": "Safety over all message histories.", "anchors": ["lib/raft/raft.hpp: State::process, State::start_election"]}
{"id": "C30", "title": "Raft elects at most one leader per term", "statement": "Two different nodes of a cluster never are leader in the same term.", "quantifier": "all clusters, all executions of the cluster with message loss, delay, reordering (and duplication)", "why_tests_cant": "Election safety is a global property of all interleavings.", "anchors": ["lib/raft/raft.hpp: State::process, State::start_election, State::become_leader"]}
{"id": "C31", "title": "Raft logs are well formed", "statement": "In every execution every node's log has at most its capacity entries, its entries are numbered 1,2,3,... without gaps, and their terms never decrease and never exceed the node's current term.", "quantifier": "all executions of a cluster whose messages are produced by the protocol itself", "why_tests_cant": "Invariant over all executions.", "anchors": ["lib/raft/raft.hpp: Log, State::process, State::tick_heartbeat, State::replicate"]}
{"id": "C32", "title": "Raft applies operations in order and at most once", "statement": "Each node applies log operations in index order, every index at most once, and never an index beyond its log.", "quantifier": "all executions", "why_tests_cant": "Safety over all message histories.", "anchors": ["lib/raft/raft.hpp: State::commit_log_entries, State::process"]}
{"id": "C33", "title": "Raft commits only what a majority stores", "statement": "A leader advances its commit index only up to an index replicated on a majority of the cluster (itself included).", "quantifier": "all cluster sizes, all progress of the followers", "why_tests_cant": "Quorum arithmetic for every cluster size.", "anchors": ["lib/raft/raft.hpp: State::find_safe_index, State::commit_log_entries"]}
{"id": "C34", "title": "GOAP plans are executable and reach the goal", "statement": "If the planner returns a non-negative length, applying the returned actions from the start state in order is possible (each action's can_run holds when reached) and the final state satisfies the goal; the plan has at most path_len actions.", "quantifier": "all action sets, start states, goals, node-pool sizes and repeated calls", "why_tests_cant": "Soundness over all planning problems.", "anchors": ["lib/goap/include/goap/goap.hpp: Planner::plan", "lib/goap/include/goap/goap_internals.hpp"]}
{"id": "C35", "title": "GOAP finds a plan when one exists and always terminates", "statement": "If the set of states reachable from the start is finite and the node pool is large enough to hold one node per generated state, the planner terminates, and returns a plan if and only if some reachable state satisfies the goal.", "quantifier": "all planning problems with finite reachable state space", "why_tests_cant": "Completeness is a statement about all problems.", "anchors": ["lib/goap/include/goap/goap.hpp: Planner::plan"]}
{"id": "C36", "title": "Dijkstra returns a shortest path", "statement": "For any graph and any end node reachable from the start, the path returned follows edges of the graph from start to end and no path of the graph has fewer edges; the returned length is the number of its edges.", "quantifier": "all graphs, all start/end pairs", "why_tests_cant": "Optimality is quantified over all paths of all graphs.", "anchors": ["lib/dijkstra/include/dijkstra/dijkstra.hpp"]}
{"id": "C37", "title": "Obstacle avoidance returns a shortest way-point path", "statement": "Given the visibility rays and their weights, oa's search terminates and, when the destination is connected to the start, yields a chain of rays from start to destination of minimal total weight; it reports failure exactly when no chain exists or the result needs more check points than available.", "quantifier": "all ray sets and weights", "why_tests_cant": "Optimality and termination of a label-correcting search over all graphs.", "anchors": ["lib/aversive/obstacle_avoidance/obstacle_avoidance.c: dijkstra, get_path, oa_process"]}
{"id": "C38", "title": "Obstacle set never exceeds its static buffers", "statement": "Any sequence of oa_reset/oa_new_poly/oa_start_end_points calls keeps the polygon and point tables within their bounds and polygons' point ranges disjoint; computing the rays of the resulting scene stays within the ray table.", "quantifier": "all sequences of calls, all polygon sizes", "why_tests_cant": "Bounds over all call sequences.", "anchors": ["lib/aversive/obstacle_avoidance/obstacle_avoidance.c: oa_new_poly, oa_reset", "lib/aversive/math/geometry/polygon.c: calc_rays"]}
{"id": "C39", "title": "UWB MAC frames round-trip", "statement": "A payload encapsulated with uwb_mac_encapsulate_frame is recovered exactly by uwb_mac_decapsulate_frame together with PAN id, source, destination and sequence number, for every payload.", "quantifier": "all payloads, addresses and sequence numbers", "why_tests_cant": "All byte strings.", "anchors": ["uwb-beacon-firmware/src/uwb_protocol.c: uwb_mac_encapsulate_frame, uwb_mac_decapsulate_frame"]}
{"id": "C40", "title": "40-bit timestamps on the wire", "statement": "The 40-bit integers written into UWB frames are read back unchanged, and the difference of two 40-bit timestamps is the true elapsed time modulo 2^40, including across a wrap of the counter.", "quantifier": "all 40-bit values", "why_tests_cant": "2^80 pairs.", "anchors": ["uwb-beacon-firmware/src/uwb_protocol.c: write_40bit_uint, read_40bit_uint, substract_40bit_int"]}
{"id": "C41", "title": "Double-sided ranging recovers the time of flight", "statement": "When two beacons with arbitrary clock offsets (and equal clock rates) exchange the three ranging messages with time of flight T, and no timer wraps, the distance callback receives exactly T for all reply delays.", "quantifier": "all times of flight, reply delays and clock offsets", "why_tests_cant": "All combinations of delays; overflow only for large ones.", "anchors": ["uwb-beacon-firmware/src/uwb_protocol.c: uwb_process_incoming_frame"]}
{"id": "C42", "title": "UWB frames for someone else are ignored", "statement": "A received frame whose PAN id or destination does not match (and is not broadcast) triggers no callback and no transmission; anchors never answer advertisements; each accepted frame triggers at most one callback or one transmission, addressed to the frame's sender.", "quantifier": "all frames, all handler configurations", "why_tests_cant": "All frame contents.", "anchors": ["uwb-beacon-firmware/src/uwb_protocol.c: uwb_process_incoming_frame"]}
{"id": "C43", "title": "Saturation filters", "statement": "filter_limit_sym/filter_limit and math_clamp_value always return a value within the bounds, return the input when it already is, are monotone and idempotent.", "quantifier": "all inputs and bounds", "why_tests_cant": "All real inputs.", "anchors": ["lib/filter/basic.c", "master-firmware/src/robot_helpers/math_helpers.c"]}
{"id": "C44", "title": "IIR filter realises its difference equation", "statement": "For any coefficients and any input sequence starting from a reset filter, the outputs satisfy y[n] = sum b_k x[n-k] - sum a_k y[n-k].", "quantifier": "all orders, coefficients and input sequences", "why_tests_cant": "All sequences of any length.", "anchors": ["lib/filter/iir.c"]}
{"id": "C45", "title": "PID integrator never winds up", "statement": "Whatever the error sequence, gains and frequency, the PID's accumulated integral contribution stays within the configured limit, resetting makes the controller forget all history, and with zero integral and derivative gains the output is exactly kp times the error.", "quantifier": "all sequences of errors", "why_tests_cant": "All sequences of any length.", "anchors": ["lib/pid/pid.c"]}
{"id": "C46", "title": "Quadramp respects speed and acceleration limits", "statement": "Whatever the target sequence, the ramp's speed never exceeds the configured first-order limits and changes by at most the second-order limits per step, except for the final jump onto a target that is less than 2 units away.", "quantifier": "all target sequences and limits", "why_tests_cant": "All sequences of any length.", "anchors": ["lib/quadramp/quadramp.c: quadramp_do_filter"]}
{"id": "C47", "title": "Velocity setpoints are slew-rate limited", "statement": "In velocity mode each control period changes the velocity setpoint by at most acc_limit*dt, always towards the target without overshooting it, and the target is reached after finitely many periods.", "quantifier": "all targets, limits, initial setpoints", "why_tests_cant": "Induction over time for all real parameters.", "anchors": ["motor-control-firmware/src/setpoint.c: setpoint_compute, setpoint_update_velocity"]}
{"id": "C48", "title": "Motor cascade saturations", "statement": "Whatever the measurements and setpoints, the motor voltage/current/torque/velocity commands produced by the cascade never exceed their configured limits.", "quantifier": "all inputs and all histories of the controller state", "why_tests_cant": "All real inputs, all histories.", "anchors": ["motor-control-firmware/src/pid_cascade.c: pid_cascade_control", "motor-control-firmware/src/motor_pwm.c: motor_pwm_set"]}
{"id": "C49", "title": "Motor encoder feedback tracks the true position", "statement": "As long as the shaft moves less than half a counter turn between samples, the bounded/periodic accumulator equals the true displacement (modulo one revolution for periodic encoders), across any number of 16-bit counter wraps.", "quantifier": "all motion histories", "why_tests_cant": "Wrap-arounds at every phase of the counter.", "anchors": ["motor-control-firmware/src/feedback.c"]}
{"id": "C50", "title": "Wheel encoder tracks the true position", "statement": "As long as a wheel moves by less than 32768 ticks between two readings, the accumulated wheel position differs from the true one only by the initial offset (modulo 2^32), across any number of counter wraps.", "quantifier": "all motion histories", "why_tests_cant": "Wrap-arounds at every phase of the counter.", "anchors": ["wheel-encoder-firmware/src/encoder.c"]}
{"id": "C51", "title": "Telemetry streams are sent at the configured rate", "statement": "An enabled stream is sent exactly once every prescaler control iterations; a disabled stream is never sent; for every requested frequency between spin frequency/65535 and the spin frequency the achieved period is the nearest integer.", "quantifier": "all frequencies and numbers of iterations", "why_tests_cant": "Counter behaviour for all histories.", "anchors": ["motor-control-firmware/src/stream.c"]}
{"id": "C52", "title": "PWM commands stay within the timer range", "statement": "For every duty cycle (any float that is not NaN) the compare values written for the H-bridge lie within [0, period], only one half-bridge is driven above the recharge level and its side is given by the sign.", "quantifier": "all duty cycles, both recharge phases", "why_tests_cant": "All inputs.", "anchors": ["motor-control-firmware/src/motor_pwm.c"]}
{"id": "C53", "title": "Software SPI transfers are faithful", "statement": "softspi_exchange shifts out exactly the bits of the tx buffer, most significant first, and returns exactly the bits presented by the slave; with MISO tied to MOSI it returns the transmitted bytes.", "quantifier": "all buffers, all slave behaviours", "why_tests_cant": "All byte strings and all slave behaviours.", "anchors": ["lib/softspi/softspi.c"]}
{"id": "C54", "title": "Wheel and polar coordinates round-trip", "statement": "Converting (distance, angle) to wheel commands and back is the identity; converting wheel values to polar and back is the identity up to one unit of rounding per wheel; the virtual encoders of the robot system equal the sum of the wheel motions since start.", "quantifier": "all 32-bit values without overflow, all sequences of encoder readings", "why_tests_cant": "All integer pairs, all histories.", "anchors": ["lib/aversive/robot_system/angle_distance.c", "lib/aversive/robot_system/robot_system.c"]}
{"id": "C55", "title": "A disabled control system outputs zero", "statement": "While a control system is disabled its output is 0 and the process receives 0; when enabled it computes correct(filtered consign - filtered feedback) with absent filters acting as the identity.", "quantifier": "all filters, all consigns", "why_tests_cant": "All filter functions.", "anchors": ["lib/aversive/control_system_manager/control_system_manager.c"]}
{"id": "C56", "title": "Blocking detection", "statement": "bd_get reports blocking exactly when the last cpt_thres (non-zero) or more managed errors all exceeded the threshold since the last reset; bd_get_max returns the largest error seen since it was last read.", "quantifier": "all error sequences", "why_tests_cant": "Sequences of any length, including beyond the 16-bit counter.", "anchors": ["lib/aversive/blocking_detection_manager/blocking_detection_manager.cpp"]}
{"id": "C57", "title": "End-of-trajectory reasons are reported by priority", "statement": "trajectory_has_ended returns a reason only if it was requested and its condition holds, and returns 0 only if no requested condition holds.", "quantifier": "all combinations of requested reasons and conditions", "why_tests_cant": "All combinations and states.", "anchors": ["master-firmware/src/robot_helpers/trajectory_helpers.cpp: trajectory_has_ended"]}
{"id": "C58", "title": "Strategy actions conserve glasses", "statement": "Every planned action's effect preserves the multiset of glasses over dispenser, robot and port: no action invents, duplicates or loses a glass when its can_run holds, and can_run of a pick-up forbids overwriting glasses already on board.", "quantifier": "all strategy states", "why_tests_cant": "All states.", "anchors": ["master-firmware/src/strategy/actions_goap.cpp", "master-firmware/src/strategy/state.h"]}
{"id": "C59", "title": "Score is monotone under the robot's actions", "statement": "Planning effects of an action never reduce the estimated score; the score is exactly the sum of the published rules for each element.", "quantifier": "all strategy states", "why_tests_cant": "All states.", "anchors": ["master-firmware/src/strategy/score.cpp", "master-firmware/src/strategy/actions_goap.cpp"]}
{"id": "C60", "title": "Every strategy goal is reachable by the planner", "statement": "From the initial strategy state, for both colours and robots, the planner with its 150-node pool and 10-step paths finds a plan for every goal that is reachable at all.", "quantifier": "all goals, all starting states reachable in a match", "why_tests_cant": "All match states.", "anchors": ["master-firmware/src/strategy.cpp", "master-firmware/src/strategy/goals.cpp"]}
{"id": "C61", "title": "Motor driver setpoints are read back in the right mode", "statement": "After any sequence of setpoint calls, the driver holds exactly the last setpoint in the last mode; reading a setpoint of another mode signals an error instead of returning a reinterpreted value; a disabled driver sends nothing on the bus.", "quantifier": "all sequences of calls", "why_tests_cant": "All histories.", "anchors": ["master-firmware/src/can/motor_driver.c", "master-firmware/src/can/motor_driver_uavcan.cpp"]}
{"id": "C62", "title": "Motor manager creates at most one driver per name", "statement": "After any sequence of create requests at most one driver exists per actuator name, drivers never move or disappear, setting a voltage/velocity/... by name reaches the driver created for that name, and when the buffer is full creation fails without disturbing existing drivers.", "quantifier": "all sequences of create requests and names", "why_tests_cant": "All histories and names.", "anchors": ["master-firmware/src/can/motor_manager.c"]}
{"id": "C63", "title": "Line intersection is correct", "statement": "In exact arithmetic: when intersect_line reports one intersection point, that point is the only one on both lines; it reports none exactly when the lines are parallel and distinct; pts2line passes through both points and proj_pt_line returns the foot of the perpendicular.", "quantifier": "all lines and points", "why_tests_cant": "All real inputs.", "anchors": ["lib/aversive/math/geometry/lines.c"]}
{"id": "C64", "title": "Segment crossing test is correct", "statement": "In exact arithmetic, intersect_segment reports a crossing exactly when the two segments share a point, and the reported point lies on both.", "quantifier": "all segment pairs", "why_tests_cant": "All real inputs, degenerate ones included.", "anchors": ["lib/aversive/math/geometry/lines.c: intersect_segment"]}
{"id": "C65", "title": "Point-in-polygon test is correct for convex polygons", "statement": "In exact arithmetic, for every strictly convex polygon with vertices in counter-clockwise order (as polygon.h requires), is_in_poly returns 1 exactly for interior points, 2 exactly for boundary points, 0 outside.", "quantifier": "all convex polygons, all points", "why_tests_cant": "All polygons of any size.", "anchors": ["lib/aversive/math/geometry/polygon.c: is_in_poly, is_point_in_poly"]}
{"id": "C66", "title": "SE(2) pose algebra", "statement": "In exact arithmetic, pose composition is associative, inverse poses compose to the identity, and transforming a point by a composed pose equals transforming twice.", "quantifier": "all poses and points", "why_tests_cant": "All real inputs.", "anchors": ["master-firmware/src/math/lie_groups.c"]}
{"id": "C67", "title": "EKF covariance stays valid", "statement": "In exact arithmetic, for any sequence of predictions and distance measurements (robot never exactly at an anchor), the position estimator's covariance remains symmetric positive definite and a measurement never increases the variance in any direction.", "quantifier": "all measurement sequences", "why_tests_cant": "All histories over the reals.", "anchors": ["uwb-beacon-firmware/src/ekf.hpp", "uwb-beacon-firmware/src/state_estimation.cpp"]}
{"id": "C68", "title": "Proximity-beacon signals are never leaked", "statement": "For every interleaving of light-sensor interrupts and the publisher, the number of free pool entries plus entries in the mailbox plus entries held by the publisher is constant, so posting to the mailbox never fails; signals are published in order of reception and none is published twice.", "quantifier": "all interleavings", "why_tests_cant": "Schedules.", "anchors": ["proximity-beacon-firmware/src/proximity_beacon.c", "proximity-beacon-firmware/src/proximity_beacon_publisher.cpp", "master-firmware/src/udp_topic_broadcaster.c"]}
{"id": "C69", "title": "Map obstacles stay on the table", "statement": "Every rectangular obstacle placed on the map is a rectangle whose corners lie within the table and which contains every table point of the inflated obstacle; opponents beyond the capacity replace the oldest one.", "quantifier": "all positions and sizes, all sequences of opponent updates", "why_tests_cant": "All inputs and histories.", "anchors": ["master-firmware/src/base/map.c"]}
{"id": "C70", "title": "Match start and end", "statement": "The match starts only after the starter has been armed for a full second and then released; once started the game time increases from zero, and the game-over condition holds exactly from GAME_DURATION on.", "quantifier": "all sequences of starter readings", "why_tests_cant": "All input histories.", "anchors": ["master-firmware/src/strategy.cpp: wait_for_starter", "master-firmware/src/robot_helpers/trajectory_helpers.cpp"]}
{"id": "C71", "title": "STM32F3 flash driver programs what it is given", "statement": "Any sequence of non-empty writes one behind the other, starting at an even address of erased flash and with even total length, programs exactly the bytes given even though the driver only programs half-words; what happens to odd lengths is characterised too.", "quantifier": "all sequences of writes, all alignments of their boundaries", "why_tests_cant": "All ways to cut the data into chunks.", "anchors": ["lib/parameter_flash_storage/flash_f3.c: flash_write", "lib/parameter_flash_storage/parameter_flash_storage.c: parameter_flash_storage_save"]}
{"id": "C72", "title": "Raft state machine safety", "statement": "If two nodes of a cluster have applied an operation at the same log index, it is the same operation.", "quantifier": "all clusters, all executions of a cluster without loss or duplication of messages, with fresh votes and correctly sorted peers", "why_tests_cant": "Executions over several terms.", "anchors": ["lib/raft/raft.hpp: remove_conflicting_entries, process", "lib/raft/raft.hpp: find_safe_index"]}
{"id": "C73", "title": "Mean of integers and smallest value", "statement": "mean_int16 returns the mean of its inputs rounded down; argmin returns the index of a smallest value, ignoring NaN.", "quantifier": "all arrays of up to 65536 16-bit numbers; all arrays of floats", "why_tests_cant": "the sum is converted to an unsigned type before the division, which only shows for some signs", "anchors": ["lib/filter/mean.c: mean_int16", "master-firmware/src/robot_helpers/math_helpers.c: argmin"]}
{"id": "C74", "title": "Position setpoints respect acceleration and velocity limits", "statement": "In position mode the interpolated setpoint accelerates by at most the acceleration limit, its velocity never exceeds the velocity limit by more than one period of acceleration once below it, and a setpoint at rest on its target stays there.", "quantifier": "all targets, limits, periods and starting states, all sequences of targets", "why_tests_cant": "the ramp has four branches whose boundaries depend on products of the inputs", "anchors": ["motor-control-firmware/src/setpoint.c: vel_ramp, setpoint_compute"]}
{"id": "C75", "title": "Angles are reduced to one turn", "statement": "periodic_error returns the representative of its argument modulo a full turn in [-pi, pi]; angle_delta returns the shortest rotation from start to end.", "quantifier": "all angles", "why_tests_cant": "wrong reductions only show for some combinations of signs", "anchors": ["motor-control-firmware/src/pid_cascade.c: periodic_error", "master-firmware/src/robot_helpers/math_helpers.c: angle_delta"]}
{"id": "C76", "title": "Relative trajectory commands set the right targets", "statement": "trajectory_d_rel, only_d_rel, a_rel, only_a_rel, d_a_rel, stop and hardstop set the target of each controller they concern to the current position plus the commanded motion in impulses rounded towards zero, restore the configured speeds and accelerations, cancel the pending event and leave the other controller alone; the windows around the targets are measured in mm and radians.", "quantifier": "all states of the trajectory manager, all distances and angles", "why_tests_cant": "all states and arguments", "anchors": ["lib/aversive/trajectory_manager/trajectory_manager_core.cpp: __trajectory_goto_d_a_rel, trajectory_in_window", "lib/aversive/trajectory_manager/trajectory_manager_utils.cpp: is_robot_in_dist_window, is_robot_in_angle_window"]}
{"id": "C77", "title": "Angles modulo a turn and unit conversions", "statement": "modulo_2pi returns an equivalent angle between -pi and pi for fewer than 2^31 turns; simple_modulo_2pi does so between -3 pi and 3 pi; the conversions between mm, radians and impulses of positions, speeds and accelerations are inverse to each other and consistent with each other.", "quantifier": "all angles, all positive geometries and frequencies", "why_tests_cant": "all real values", "anchors": ["lib/aversive/trajectory_manager/trajectory_manager_utils.cpp: simple_modulo_2pi, modulo_2pi, pos_mm2imp ... acc_imp2rd"]}
{"id": "C78", "title": "Trajectories to a point", "statement": "While the robot goes to a point, the distance speed never exceeds the configured speed and is zero while the robot faces away by more than the start angle; forward-only trajectories never command a backward motion and backward-only ones never a forward one; otherwise the robot never turns by more than 0.52 pi first; the trajectory only ends within the window around the point.", "quantifier": "all positions, targets and sequences of events", "why_tests_cant": "all geometries and histories", "anchors": ["lib/aversive/trajectory_manager/trajectory_manager_core.cpp: trajectory_manager_xy_event, trajectory_manager_manage"]}
{"id": "C79", "title": "Segment against polygon", "statement": "In exact arithmetic, for every strictly convex polygon with vertices in counter-clockwise order and within the supported range, is_crossing_poly returns 1 exactly when the segment meets the interior, 2 exactly when it lies along a side and contains one of its corners, 0 only when no point of the segment is in the polygon (or the segment lies strictly inside a side), and 3 otherwise; the reported point is on the segment and on the boundary unless both ends are inside.", "quantifier": "all convex polygons of any size, all segments", "why_tests_cant": "all polygons and segments, with every touching and degenerate position", "anchors": ["lib/aversive/math/geometry/polygon.c: is_crossing_poly", "lib/aversive/obstacle_avoidance/obstacle_avoidance.c", "master-firmware/src/robot_helpers/trajectory_helpers.cpp"]}
{"id": "C80", "title": "Odometry is exact", "statement": "In exact arithmetic the pose update is exact for wheels at constant speed between two encoder readings: it gives the pose the two-wheeled robot has driven to; the heading after any sequence of readings depends only on the first and the last reading; the update turns and moves together with the frame of reference; the reported heading is within a turn as long as the robot turns by less than a turn between two updates, and the rounded position is the position rounded towards zero.", "quantifier": "all wheel geometries, all sequences of readings", "why_tests_cant": "all real readings and their histories", "anchors": ["lib/aversive/position_manager/position_manager.cpp: position_manage"]}
{"id": "C81", "title": "Change flags of parameters with several threads", "statement": "For every interleaving of threads that set, get and read parameters: no change is lost (the last value stored has been read by a get, or the parameter is marked as changed, or a call in progress will do so), every read returns the value stored last, the counter of a namespace never overflows and is exact whenever no call is in progress, and a changed parameter is announced by contains_changed unless a set is in progress below the namespace.", "quantifier": "all trees, all numbers of threads, all interleavings of their locked sections", "why_tests_cant": "schedules", "anchors": ["lib/parameter/parameter.c: _parameter_changed_set, _parameter_changed_clear, parameter_namespace_contains_changed"]}
{"id": "C82", "title": "Planned paths are free and nearly shortest", "statement": "Whatever the ally and the opponents were reported to do, planning on the map is defined and ends; a path it returns leads from the start to the goal on straight legs that keep the robot on the table and clear of the wall, the distributors, the ramp, the ally and the last two opponents; no other path over corners of the obstacles is shorter by more than 1 mm per leg, and if planning fails there is no path over corners. In general this holds for all strictly convex obstacles.", "quantifier": "all reports, starts, goals and sizes of robots; all strictly convex polygons", "why_tests_cant": "all scenes and histories", "anchors": ["master-firmware/src/strategy_impl/base.cpp: strategy_goto_avoid", "lib/aversive/obstacle_avoidance/obstacle_avoidance.c: oa_process", "lib/aversive/math/geometry/polygon.c: calc_rays, calc_rays_weight", "master-firmware/src/base/map.c"]}
{"id": "C83", "title": "Going somewhere without collisions", "statement": "strategy_goto_avoid commands only the points of the planned path, in order, and the final turn only after the last one was reached; true means that the last point was reached; false means that there was no path or that the last movement was ended by a collision or the end of the match, and that the robot has been stopped; the map is held from the beginning to the end and released exactly once, and the flag of the opponent is restored; strategy_goto_avoid_retry makes at most the given number of further tries and none after success or after the end of the match.", "quantifier": "all maps, positions and goals, all behaviours of robot and time, all points of the execution", "why_tests_cant": "all ends of all movements", "anchors": ["master-firmware/src/strategy_impl/base.cpp: strategy_goto_avoid, strategy_goto_avoid_retry", "master-firmware/src/robot_helpers/trajectory_helpers.cpp: trajectory_wait_for_end"]}
{"id": "C84", "title": "Conduct during a match", "statement": "In every match: an action only begins while the match is not over and its condition holds; it is only recorded as done if its movements were made and those that matter reached their goals; after each movement its end is waited for; once a movement was ended by the end of the match no other one is commanded; the match is not left before its end, and its results (glasses, score, goals) are those of the model of the strategy.", "quantifier": "all behaviours of robot, time and planner, all numbers of rounds, all points of the execution", "why_tests_cant": "all histories of a match", "anchors": ["master-firmware/src/strategy.cpp: strategy_order_play_game", "master-firmware/src/strategy/actions_impl.cpp"]}
{"id": "C85", "title": "Positioning before the match", "statement": "Wherever the robot is placed facing its wall and wherever it believes to be, after strategy_auto_position it stands at the requested position with the requested heading and believes so, for both colours and both calibration sides.", "quantifier": "all starting positions, beliefs and targets, in an ideal world", "why_tests_cant": "all positions", "anchors": ["master-firmware/src/robot_helpers/autoposition.cpp: strategy_auto_position", "master-firmware/src/robot_helpers/trajectory_helpers.cpp: trajectory_align_with_wall"]}
{"id": "C86", "title": "Packets handed to the ranging thread", "statement": "For every interleaving of radio interrupts, timers, measurements and threads that call ranging_send_data_packet: each call's packet is handed to the radio exactly once before the call returns, calls are served one at a time, an event is never lost, and a pending packet is sent after a bounded number of turns of the loop unless radio interrupts keep arriving.", "quantifier": "all interleavings of events and callers", "why_tests_cant": "schedules", "anchors": ["uwb-beacon-firmware/src/ranging_thread.c: ranging_thread, ranging_send_data_packet", "uwb-beacon-firmware/src/uwb_protocol.c"]}
{"id": "C87", "title": "Position from the light barrier", "statement": "The position read is within a turn and exact at constant velocity, the velocity read is that of the last turn or between that of the turn in progress and that of the last turn and never rises between crossings, whenever the barrier is crossed.", "quantifier": "all sequences of crossings and times including overflows of the 32 bit time stamp", "why_tests_cant": "all timings", "anchors": ["motor-control-firmware/src/rpm.c"]}
{"id": "C88", "title": "Thermal protection of the motor", "statement": "If the currents obey the limits returned, the estimated temperature never exceeds the maximum by more than what the largest current adds in one period, for currents of both signs; at constant current it follows the discretised exponential towards the steady state.", "quantifier": "all sequences of currents, all positive thermal parameters", "why_tests_cant": "all histories", "anchors": ["motor-control-firmware/src/motor_protection.c"]}
{"id": "C89", "title": "Analog inputs are averaged", "statement": "Every conversion callback sums exactly the samples of the motor current that are not disturbed by recharging, without access outside the buffer and without overflow, and takes the battery and auxiliary values from their channels; the reported current is the mean of those samples and lies between the least and the largest of them; the charge pump is recharged in every fourth callback.", "quantifier": "all buffers, all sequences of callbacks and readings", "why_tests_cant": "all sample values and histories", "anchors": ["motor-control-firmware/src/analog.c"]}
{"id": "C90", "title": "Parameters take effect", "statement": "For every interleaving of the control loop with threads that set parameters, every variable of the controllers equals what its parameters say or one of those parameters is marked as changed (or being set); after a pass without interference all variables equal what the parameters say.", "quantifier": "all values, all histories of changes, all interleavings of the accesses", "why_tests_cant": "schedules and combinations of changes", "anchors": ["motor-control-firmware/src/control.c: update_parameters, pid_param_update, control_init", "lib/parameter/parameter.c"]}
{"id": "C91", "title": "Loading arbitrary bytes is safe", "statement": "Whatever bytes are loaded into a namespace of a parameter tree, the load ends, reads only within the buffer, and does no more than setting parameters of that namespace to values that have their type and fit their buffer; parameters elsewhere keep their values; a load that fails has called the error callback.", "quantifier": "all byte strings, all trees and their histories, all outcomes of allocations", "why_tests_cant": "malformed documents of any size and nesting", "anchors": ["lib/parameter/parameter_msgpack.c: parameter_msgpack_read, read_namespace, read_parameter, get_vector, discard_msgpack_element", "lib/cmp/cmp.c: cmp_read_object", "lib/parameter/parameter.c: _parameter_find_w_id_len"]}
{"id": "C92", "title": "The attitude estimate stays a rotation", "statement": "After any sequence of measurements the quaternion of the attitude filter is a unit; each update moves it by the measured rotation rate, and by the gain down the gradient of the error between the expected and the measured directions of gravity and magnetic field; the attitude published is that of the filter.", "quantifier": "all sequences of measurements, all gains below the frequency, in exact arithmetic", "why_tests_cant": "all real values and histories; exact coincidences", "anchors": ["uwb-beacon-firmware/src/MadgwickAHRS.c", "uwb-beacon-firmware/src/ahrs_thread.c"]}
{"id": "C93", "title": "Topics broadcast over UDP", "statement": "An encoded topic consists of its header and its message, each preceded by its size, within the given buffer, and encoding it succeeds exactly when the topic was published and everything fits; it reads and writes only the buffers given. Injecting the bytes into a bus publishes the same value in the topic of the same name and changes nothing else, and injecting arbitrary bytes reads only those bytes. For every interleaving of the encoding and the sending thread, every buffer has exactly one owner, none is lost, and the messages leave in order, each once and unchanged; a topic is dropped only while all buffers are in use.", "quantifier": "all topics, buffer sizes, byte strings; all interleavings of the two threads", "why_tests_cant": "schedules, malformed input", "anchors": ["master-firmware/src/msgbus_protobuf.c", "master-firmware/src/udp_topic_broadcaster.c"]}
{"id": "C94", "title": "Circles and polar vectors", "statement": "In exact arithmetic circle_intersect returns the number of common points of two circles and the points; pt_is_inside_circle tests for the open disc; the conversions between polar and cartesian vectors are inverse to each other, and the operations on polar vectors are those on the vectors; distance and angle are those of Euclid.", "quantifier": "all circles, points and vectors", "why_tests_cant": "all real values, degenerate positions", "anchors": ["lib/aversive/math/geometry/circles.c", "lib/aversive/math/vect2/vect2.c"]}
{"id": "C95", "title": "Turns, circles and lines", "statement": "In exact arithmetic: an absolute turn, or a turn towards or away from a point, commands the shortest rotation that gives that heading; going to a point given relative to the robot aims at that point. Going round a circle in the direction asked for with the flags, the speeds are the fastest ones with the ratio of the radius, a robot on the circle stays on it, and one beside it does not get further away; the event ends within two degrees of the angle asked for. On a line the robot aims at a point on the line ahead of it, turns towards the line, never exceeds its speed, drives straight on once it is on the line, and never gets further away from it; the turn at its end is started exactly when the turning point is reached.", "quantifier": "all positions, configurations and targets, all rides in continuous time", "why_tests_cant": "all real values and histories", "anchors": ["lib/aversive/trajectory_manager/trajectory_manager_core.cpp: trajectory_a_abs ... trajectory_goto_xy_rel, circle_get_speed_from_radius, trajectory_manager_circle_event, trajectory_circle_rel, trajectory_manager_line_event, trajectory_line_abs, start_clitoid"]}
{"id": "C96", "title": "Threads of the base do not deadlock", "statement": "Any number of threads that make any calls of the base, of the trajectories, of the map, of the parameters and of the bus never block each other for ever: in every reachable state some thread can go on, until all have finished. A lock held for writing is held by nobody else.", "quantifier": "any number of threads, all sequences of calls, all schedules", "why_tests_cant": "schedules of many threads; the fatal ones have windows of microseconds", "anchors": ["master-firmware/src/base/base_controller.cpp", "master-firmware/src/robot_helpers/trajectory_helpers.cpp", "lib/aversive/trajectory_manager/trajectory_manager_core.cpp", "lib/aversive/position_manager/position_manager.cpp", "master-firmware/src/base/map_server.cpp", "master-firmware/src/strategy_impl/base.cpp"]}
{"id": "C97", "title": "A mode sets the speeds of the trajectory", "statement": "The speeds and accelerations set for a mode (aligning, game) are the ones used by the commands given in that mode.", "quantifier": "all speeds, all interleavings with the loop of control", "why_tests_cant": "depends on the interleaving of two threads", "anchors": ["master-firmware/src/base/base_controller.cpp: base_ctrl_thd", "master-firmware/src/robot_helpers/trajectory_helpers.cpp: trajectory_set_mode_aligning, trajectory_set_mode_game", "lib/aversive/trajectory_manager/trajectory_manager.cpp: trajectory_set_speed, trajectory_set_acc"]}
{"id": "C98", "title": "Clothoids join two lines", "statement": "In exact arithmetic, for a turn of less than 180 degrees with an arc of the same sign: the command is accepted exactly if the arc has the smaller angle, the angular acceleration needed is allowed and there is room before the corner, otherwise nothing changes. A robot that keeps its speed and turns with the rate and the acceleration computed ends with the heading of the second line, on that line, as far behind the corner as it began to turn before it, up to a thousandth of the radius (the truncated series); in between it is on an arc of the radius asked for; the distance commanded is not reached before.", "quantifier": "all positions, headings, angles, radii, distances, configurations, all sequences of events before the turn", "why_tests_cant": "a family of curves with five real parameters; the error of the series is bounded for all of them", "anchors": ["lib/aversive/trajectory_manager/trajectory_manager_core.cpp: calc_clitoid, start_clitoid, trajectory_clitoid, trajectory_manager_line_event"]}
{"id": "C99", "title": "Parameters are enumerated over the bus", "statement": "Counting up the index from 0 gives every parameter of the beacon below the root exactly once and then none; the name given for an index is the path from the root and leads back to that parameter, so different indices have different names. The motor board's table of names lists each of its parameters exactly once and nothing else.", "quantifier": "all parameter trees and their histories, all indices", "why_tests_cant": "trees of any shape; the table of the motor board must match declarations spread over several files", "anchors": ["uwb-beacon-firmware/src/uavcan/parameter_enumeration.cpp", "uwb-beacon-firmware/src/uavcan/parameter_server.cpp: getParamNameByIndex", "motor-control-firmware/src/uavcan/parameter_server.cpp: exposed_parameters"]}
{"id": "C100", "title": "Parameters are set and read over the bus", "statement": "A value of the type of the parameter that it can hold is stored and read back as sent; any other value, and any unknown name, changes nothing; no other parameter is affected; reading shows the value set last or the default.", "quantifier": "all trees and histories, all names and values a client may send", "why_tests_cant": "all values and names", "anchors": ["uwb-beacon-firmware/src/uavcan/parameter_server.cpp: assignParamValue, readParamValue", "motor-control-firmware/src/uavcan/parameter_server.cpp"]}
{"id": "C101", "title": "Configuration files become parameters", "statement": "For every configuration file with values of known types and names that are C identifiers, the code generator succeeds and its output compiles; after config_init there is exactly one parameter for every value of the file, at the path of its keys and of its type, found from global_config and, without the first key, from master_config, and no other. Files for which one build succeeds have values at the same keys and of the same types. The three files of the robots do.", "quantifier": "all configuration files, all paths", "why_tests_cant": "all nested structures and names", "anchors": ["tools/config/parser/parser.py", "tools/config/config_to_c.py", "master-firmware/src/config.c: config_init", "config_order.yaml, config_chaos.yaml, config_simulation.yaml"]}
{"id": "C102", "title": "Loading a configuration file", "statement": "Loading the encoded file into the parameters made from it ends with success and without a message, and every parameter then has the value of the file; config_get_scalar, config_get_integer and config_get_boolean then return what the file says and change no value. With the calls made at the start of the master this holds for the three files of the robots including motors and actuators, and every place of the code that reads the configuration finds its parameter with the right type.", "quantifier": "all configuration files with strings of fewer than 16 bytes and integers of 32 bits; all paths", "why_tests_cant": "all values and structures", "anchors": ["tools/config/config_to_msgpack.py", "master-firmware/src/main.cpp: config_load_from_flash, init_base_motors, init_actuators", "master-firmware/src/config.c: config_get_scalar, config_get_integer, config_get_boolean"]}
{"id": "C103", "title": "Servo outputs of the IO board", "statement": "A message sets the positions of the four servos of the board it is addressed to and of no other; speeds and accelerations that are not above zero leave the limits as they are. With an acceleration not below the speed every output goes to its position without passing it, from wherever it was, and then carries a pulse of the length that the position stands for, as a part of the range of the PWM.", "quantifier": "all sequences of messages and rounds, all positions and limits", "why_tests_cant": "all histories of positions and limits", "anchors": ["can-io-firmware/src/servo.c", "can-io-firmware/src/pwm.c", "can-io-firmware/src/uavcan/ServoPWM_handler.cpp", "master-firmware/src/can/can_io_driver.cpp"]}
{"id": "C104", "title": "Servos, pumps and solenoids of the actuator board", "statement": "A command sets the pumps to their part of the period and the solenoids; the servos go to their positions within the limits of speed and acceleration, without passing them, and are then high for the position's part of the period if motion is allowed and not at all otherwise. The servos follow the positions that the master's actuator drivers are set to.", "quantifier": "all sequences of commands and rounds, all positions, all parameters of the master", "why_tests_cant": "all histories; needs the master and the board together", "anchors": ["actuator-firmware/src/servo.c", "actuator-firmware/src/pump.c", "actuator-firmware/src/uavcan/Command_handler.cpp", "master-firmware/src/can/actuator_driver_uavcan.cpp", "master-firmware/src/can/actuator_driver.c"]}
{"id": "C105", "title": "Messages of the boards become topics", "statement": "Each feedback of an actuator board and each distance of a sensor board that is known by name is published in the topic named after the board; whoever reads the topic gets the last message of that board; there is one topic for a board and no topic for boards never heard; messages of unknown nodes change nothing; the wheel positions read are the last ones sent. On the robot the topics of its six actuator boards and of its distance sensors exist as soon as they were heard.", "quantifier": "all sequences of discoveries, messages, new topics and reads within the limits of the tables", "why_tests_cant": "all histories and names", "anchors": ["master-firmware/src/can/UavcanToMessagebusProxy.hpp", "master-firmware/src/can/sensor_handler.cpp, actuator_handler.cpp, wheel_encoders_handler.cpp", "master-firmware/src/base/rs_port.c", "master-firmware/src/gui/ActuatorPage.h"]}
{"id": "C106", "title": "Feedback of the motors", "statement": "Each stream of each motor driver has the value of the last feedback message of the board discovered under the name of the motor; feedback of one board changes no other driver, no setpoint and no mode.", "quantifier": "all sequences of operations of the motor manager, discoveries and messages", "why_tests_cant": "all histories", "anchors": ["master-firmware/src/can/motor_feedback_streams_handler.cpp", "master-firmware/src/can/motor_driver.c: motor_driver_set_stream_value"]}
{"id": "C107", "title": "Lights of the control panel", "statement": "A light is bright if and only if it is on. LED_READY is on if and only if all boards of the robot were found. After each round of the UAVCAN thread LED_POWER is on if and only if the last status of some node reports missing power.", "quantifier": "all sequences of discoveries, statuses, rounds and switching, all sets of lights present with any maximum", "why_tests_cant": "all histories; depends on the order of the start of two parts", "anchors": ["master-firmware/src/control_panel.cpp", "master-firmware/src/can/uavcan_node.cpp", "master-firmware/src/main.cpp: blink_start, main", "master-firmware/src/can/bus_enumerator.c: bus_enumerator_total_nodes_count, bus_enumerator_discovered_nodes_count"]}
{"id": "C108", "title": "Messages of the actuator board", "statement": "In each round the board publishes, for each of its pressure sensors, the measurement started in that round: the pressure up to 1.02 Pa, or 0 if the sensor reports an error or has not finished; the analog and digital inputs of that round; the sensors are never selected at the same time, and each is asked exactly once per round.", "quantifier": "all behaviours of the sensors (any durations, statuses and results of measurements), all numbers of rounds, all roundings of single precision arithmetic", "why_tests_cant": "all behaviours of two devices on shared wires, bit by bit", "anchors": ["actuator-firmware/src/pressure_sensor.c", "actuator-firmware/src/pressure_sensor_interface.c", "actuator-firmware/src/analog_input.c", "actuator-firmware/src/uavcan/feedback_publisher.cpp"]}
{"id": "C109", "title": "Messages of the sensor board", "statement": "The distances published are the results of the measurements, each once, in order, with the status of the same measurement, and they keep coming as long as measurements end; each channel of a published colour is the number that the sensor gave for it.", "quantifier": "all behaviours of the sensors and of the time they need, all numbers of accesses", "why_tests_cant": "all timings of the device relative to the accesses of the driver", "anchors": ["sensor-firmware/src/vl6180x/vl6180x.c", "sensor-firmware/src/vl6180x/vl6180x_chibios.c", "sensor-firmware/src/TCS3472.c", "sensor-firmware/src/uavcan/DistanceVL6180X_pub.cpp", "sensor-firmware/src/uavcan/ColorRGBC_pub.cpp"]}
{"id": "C110", "title": "Messages of the inertial measurement unit", "statement": "Each round of reading begins with a sample that no earlier round has seen, no wake-up is lost, and the messages keep coming as long as the device samples; a message has what the sample measured: rates in radians per second, acceleration in m/s\u00b2, field in \u00b5T, up to half a step of the converters; the temperature is published in every 101st round.", "quantifier": "all times of samples relative to the accesses of the driver, all measured values within the ranges, all states of the device when the thread starts with an inactive or latched line", "why_tests_cant": "all interleavings of the device, its interrupt line and the thread", "anchors": ["uwb-beacon-firmware/src/mpu9250.c", "uwb-beacon-firmware/src/imu_thread.c", "uwb-beacon-firmware/src/exti.c"]}
{"id": "C111", "title": "Calibration of the odometry", "statement": "With the gains that wheel_calib suggests, the odometry finds the same heading before and after the drive that was used to calibrate, up to 6 + 3|f| impulses, however long the drive was. The track that track_calib suggests after n turns is the true track plus the error of the measured angle divided by n turns, if the angle was off by less than half a turn in total. However other threads set parameters, the control loop loses no change of the gains of the controllers and of the odometry, and a pass that is not interrupted brings all of them into use.", "quantifier": "all drives and encoder values, all gains, tracks and numbers of turns; all interleavings of setting parameters with the loop", "why_tests_cant": "all drives, long ones included; interleavings of threads", "anchors": ["master-firmware/src/commands.cpp: wheel_calib, track_calib", "master-firmware/src/base/base_controller.cpp: base_ctrl_thd", "lib/aversive/robot_system/robot_system.c: rs_update"]}
{"id": "C112", "title": "The radio of the beacon sends when it says and keeps listening", "statement": "A frame leaves exactly when the counter of the radio has the value that is written into the frame, also around the wrap of the counter, if the thread hands it to the radio in time; so a complete measurement, with any offset of the two clocks and any processing times within the delay, reports the time of flight, at most one tick too small and exact if no counter wraps. However interrupts and transmissions interleave, no received frame is processed twice; if no reception ends during the few accesses between reading and clearing the status, no frame is lost except by a transmission, and whenever the ranging thread waits with no event pending, the radio is listening or about to send.", "quantifier": "all counter values, clock offsets, processing times, flight times; all interleavings of thread steps, transmissions, receptions and errors of reception", "why_tests_cant": "interleavings of the radio with the thread; 17-second wraps of a 40-bit counter", "anchors": ["uwb-beacon-firmware/src/decawave_interface.c: uwb_transmit_frame, uwb_timestamp_get, decawave_get_rx_timestamp_u64", "uwb-beacon-firmware/src/decadriver/deca_device.c: dwt_isr, dwt_starttx, dwt_forcetrxoff, dwt_setdelayedtrxtime", "uwb-beacon-firmware/src/ranging_thread.c: ranging_thd, frame_rx_cb"]}
{"id": "C113", "title": "Distance measurement does not depend on the rates of the clocks", "statement": "A complete measurement between a tag and an anchor whose clocks run at different rates, with any offsets and any processing times within the delay, reports the time of flight in ticks of the harmonic mean of the two rates, at most 3.05 ticks too short and 1.05 ticks too long (2.05 and 0.05 if no counter wraps). So the relative error is at most that of the worse clock; the delays, 80000 times longer than the flight, do not enter.", "quantifier": "all rates up to a factor of 2 between them, all offsets, all flight times from 4 to 2^19 ticks (2 cm to 2.4 km), all counter values and processing times", "why_tests_cant": "the error is far below what a test with real clocks sees; rounding and wraps at all alignments", "anchors": ["uwb-beacon-firmware/src/uwb_protocol.c: uwb_process_incoming_frame", "uwb-beacon-firmware/src/decawave_interface.c: uwb_transmit_frame", "uwb-beacon-firmware/doc (asymmetric two-way ranging)"]}
{"id": "C114", "title": "Motor commands from the master to the motors, over a bus that delays and loses", "statement": "For any number of motors and boards, any delays and any losses: a running board pursues exactly the last setpoint it took; what it takes is, in order, part of what the master sent to its node, so no board follows another motor's command; a command that is kept is pursued by the motor's board once the frames sent since a tick are handled, if none of these was lost; the motor of a disabled driver is cut 0.3 s after the last frame for it was handled; a board that takes at least one of any K successive commands within D, with K times the period plus D at most 0.3 s, is never cut (four of five frames may be lost at 50 ms); after an emergency stop nothing drives the motor.", "quantifier": "all executions: all interleavings of commands, discoveries, ticks, deliveries, losses, restarts and passage of time, for all numbers of boards and clock offsets", "why_tests_cant": "needs several boards, lossy bus and hours of interleavings; the absence of cross-talk is a universal statement", "anchors": ["motor-control-firmware/src/uavcan/Velocity_handler.cpp", "motor-control-firmware/src/uavcan/Position_handler.cpp", "motor-control-firmware/src/uavcan/EmergencyStop_handler.cpp", "motor-control-firmware/src/control.c: control_update_velocity_setpoint", "master-firmware/src/can/motor_driver_uavcan.cpp: motor_driver_uavcan_send_setpoint"]}
{"id": "C115", "title": "Uploading a configuration to the motor boards", "statement": "For any nested configuration, any boards and any losses on the bus: if the upload tool ends, every entry of the configuration named a declared parameter of its board, that parameter now has the entry's value, and no other parameter of any board changed; if nothing is lost and the configuration suits the boards, the upload ends and every board is told to save.", "quantifier": "all nested dictionaries, all maps from board names to nodes, all declared parameter trees and histories of the boards, all patterns of lost requests and answers", "why_tests_cant": "The tool has no tests; the boards' server, the tree of parameters and the tool only meet on the robot. Losses and configurations of other shapes than the two checked in never occur in a test.", "anchors": ["tools/motor_config_loader.py:16-152", "motor-control-firmware/src/uavcan/parameter_server.cpp:72-132", "lib/parameter/parameter.c", "config_order.yaml:52-104"]}
{"id": "C116", "title": "The menu of the master's screen", "statement": "For any pages that do not lead in a circle and any sequence of presses: no null or unwritten page pointer is used; the page, its widgets, the title and the back button are those of a stack of visited pages, which is a way from the root along the buttons; back leads to the page one came from, and to the root after finitely many presses, where alone it is disabled; buttons do not overlap; the timer always finds the widgets of the page.", "quantifier": "all sets of pages without circles, all sequences of presses, all interleavings with the timer", "why_tests_cant": "The screen is never run in tests; histories of presses and races with the timer thread cannot be enumerated.", "anchors": ["master-firmware/src/gui/Menu.cpp:4-106", "master-firmware/src/gui/MenuPage.cpp:3-62", "master-firmware/src/gui/Page.h:5-40", "master-firmware/src/gui.cpp:27-69"]}
{"id": "C117", "title": "Raft: an undisturbed cluster makes progress", "statement": "In a cluster at rest of any size from two nodes on, when the timer of a node that knows at least as much as the others runs out and no message is lost, duplicated or so late that another timer runs out: the node is leader once no message is under way; the operations then submitted to it, as many as fit into the log, are in every log, committed and applied once and in order by every node after at most thirteen rounds of heartbeats. This holds for every order of the deliveries and of the peers after sorting, and no step on the way is an error.", "quantifier": "all clusters, all logs of which the candidate's is the longest, all operations, all orders of delivery", "why_tests_cant": "The orders of delivery are factorial in the size of the cluster; the test cases use two or three nodes and one order.", "anchors": ["lib/raft/raft.hpp:225-351", "lib/raft/raft.hpp:353-444", "lib/raft/raft.hpp:464-515"]}
{"id": "C118", "title": "From the beacon's signal to the obstacle", "statement": "A round reflector anywhere outside of the beacon gives a signal from which the published direction is exactly that of its centre relative to the robot (between -\u03c0 and \u03c0) and the published distance that of the tangent points, at most r\u00b2/d too short. The published x and y are the opponent's position. A round of the map server on a signal younger than half a second, with the robot where it was, puts an obstacle on the map that covers every point of the table where the robot would touch the opponent; on an older signal the map has no opponent afterwards. Nothing is undefined.", "quantifier": "all positions, headings, distances, radii, offsets, signals, times and maps", "why_tests_cant": "Trigonometry over continuous positions; the existing tests have a handful of angles and no test of the map server.", "anchors": ["master-firmware/src/robot_helpers/beacon_helpers.cpp:5-26", "master-firmware/src/can/beacon_signal_handler.cpp:14-47", "master-firmware/src/base/map_server.cpp:66-98", "hitl/ProximityBeaconEmulator.cpp:33-44"]}
{"id": "C119", "title": "The file allocation table behind its window", "statement": "With entries of 12, 16 or 32 bits, any sequence of reads and changes of entries, visits of other sectors and synchronisations answers like a map from clusters to values. A change of an entry changes neither another entry, although two entries of 12 bits share a byte and an entry may cross two sectors, nor the reserved bits of an entry of 32 bits, nor any sector outside of the tables. After a synchronisation every copy of the table on the disk is the table. Clusters that the volume does not have are refused.", "quantifier": "all volumes that satisfy the layout, all contents, all sequences of requests, of any length, on a disk whose operations succeed", "why_tests_cant": "Interleavings of a lazily written window with its copies over all sequences and all three formats; there are no tests of the file system.", "anchors": ["lib/fatfs/ff.c:1064-1110", "lib/fatfs/ff.c:1164-1282"]}
{"id": "C120", "title": "Failed operations of the disk do no harm to the table", "statement": "When an operation of the disk fails, the error is reported, and the table and all other sectors stay what they were.", "quantifier": "all volumes, all operations that fail, at any time", "why_tests_cant": "Needs a disk that fails at chosen moments.", "anchors": ["lib/fatfs/ff.c:1064-1110", "lib/fatfs/ff.c:1220-1282"]}
{"id": "C121", "title": "Clusters of files are kept apart", "statement": "In a volume whose used clusters are exactly those of some files, each a chain: a new chain takes the first free cluster after the one taken last, going around the table, and becomes a file of its own; a chain that is stretched gets the first free cluster after its end as its new last cluster; without a free cluster the answer is 0 and nothing changes; inside a chain the next cluster is returned; a removed chain or the removed end of a chain gives back exactly its clusters. All other files, and every sector outside of the tables, stay what they are, and the stored number of free clusters stays right. On any table, also with rings and chains that run into each other, both functions end.", "quantifier": "all volumes that satisfy the layout, all numbers of files and clusters, all tables (for termination), on a disk whose operations succeed", "why_tests_cant": "Unbounded sets of chains over three entry formats; there are no tests of the file system.", "anchors": ["lib/fatfs/ff.c:1287-1338", "lib/fatfs/ff.c:1346-1410", "lib/fatfs/ff.c:3999-4006"]}
{"id": "C122", "title": "The number of free clusters", "statement": "`f_getfree` reports the number of clusters that belong to no file, and a failed count is not used later.", "quantifier": "all volumes that satisfy the layout, all tables", "why_tests_cant": "Needs tables of every size and a disk that fails in the middle of a count.", "anchors": ["lib/fatfs/ff.c:3892-3965"]}
{"id": "C123", "title": "Bytes of an open file", "statement": "An open file behaves like a sequence of bytes with a position: writing puts the bytes of the caller at the position and leaves the others, reading returns the bytes at the position up to the end and leaves the file; the number of bytes reported is the number transferred, and what a call transferred before an error is in the file.", "quantifier": "all volumes that satisfy the layout, all files, positions, lengths below 4 GiB and buffers; cluster sizes 1 to 128 sectors", "why_tests_cant": "Unbounded state: position in the sector, in the cluster, dirty buffer, chains in any order; there are no tests of the file system.", "anchors": ["lib/fatfs/ff.c:3046-3160", "lib/fatfs/ff.c:3168-3306"]}
{"id": "C124", "title": "Position and end of an open file", "statement": "Seeking inside a file only moves the position, in a file that is read not beyond the end; in a file that is written it makes the file longer, keeps its bytes, and falls short only if no cluster of the volume is free. Truncating keeps the bytes before the position and exactly the clusters needed for them; the others become free. Every sequence of reads, writes, seeks and truncations on an open file gives the answers of the same sequence on a list of bytes with a position.", "quantifier": "all volumes that satisfy the layout, all files and offsets below 4 GiB, all sequences of operations, on a disk whose operations succeed", "why_tests_cant": "Sequences of any length on files of any size and chains in any order.", "anchors": ["lib/fatfs/ff.c:3545-3724", "lib/fatfs/ff.c:3972-4028"]}
{"id": "C125", "title": "What a synchronised file leaves on the disk", "statement": "After a successful f_sync everything of the file is on the disk: the entry in the directory has its size and first cluster, the table its chain, the sectors its bytes; a volume that is mounted anew from that disk, whatever the memory held, shows the file with the same bytes. Nothing else of the directory, and no other file, is changed. An f_sync that reports success leaves the file in this state.", "quantifier": "all volumes that satisfy the layout, all open files, directory entries in any sector outside of the tables and the file, all contents of the memory after the restart", "why_tests_cant": "Needs a loss of the memory between the two halves, for every size, chain and state of the buffers.", "anchors": ["lib/fatfs/ff.c:1115-1143", "lib/fatfs/ff.c:1615-1638", "lib/fatfs/ff.c:3312-3385"]}
{"id": "C126", "title": "Opening of existing files", "statement": "f_open of an existing entry gives a file at position 0 with the bytes that the entry describes; with FA_CREATE_ALWAYS the file becomes empty, its clusters free, the other files and the rest of the directory stay. Directories are not opened, files that may only be read not for writing, and FA_CREATE_NEW refuses what exists; a refusal changes nothing.", "quantifier": "all volumes that satisfy the layout, all files and modes, on a disk whose operations succeed", "why_tests_cant": "All combinations of modes, attributes and chains.", "anchors": ["lib/fatfs/ff.c:2905-3042"]}
{"id": "C127", "title": "Names of files", "statement": "A name of the form 8.3 in a path becomes the eleven bytes of the directory: large letters of the code page 1252, body and extension padded with blanks; the slashes before it are skipped, the end of the path is recognised and the rest of the path is left. Everything else is refused. A name that a directory shows is the name in large letters, and opening it leads to the same eleven bytes; two names lead to the same bytes only if they are shown the same.", "quantifier": "all strings of bytes", "why_tests_cant": "256 bytes in each position of names of any length.", "anchors": ["lib/fatfs/ff.c:527-548", "lib/fatfs/ff.c:2111-2149", "lib/fatfs/ff.c:2366-2460"]}
{"id": "C128", "title": "Directories are sets of names", "statement": "Any sequence of looking up, creating and removing names in a directory answers like a set of names: a name is found at its first entry, a created name is found afterwards, a removed one is not, and all other names are found where they were. A new entry goes to the first free one; a full directory grows by a cluster filled with zeros; only the full root of volumes with 12 or 16 bits, a directory of 65536 entries and a volume without a free cluster refuse. Clusters do not share sectors, and the bytes of other files do not change.", "quantifier": "all volumes, directories (root or chain of clusters of any length), contents and sequences of requests of any length, on a disk whose operations succeed", "why_tests_cant": "Directories of all lengths across sectors and clusters, with gaps; there are no tests of the file system.", "anchors": ["lib/fatfs/ff.c:1151-1161", "lib/fatfs/ff.c:1445-1607", "lib/fatfs/ff.c:1833-1901", "lib/fatfs/ff.c:1975-2104"]}
{"id": "C129", "title": "Mounting finds the volume that is there", "statement": "A disk is mounted exactly if its first sector, or that of the first of its four partitions that is a FAT volume, describes a sound volume, and then type, tables, data, root directory and the hints about free clusters are those the boot sector and the information sector describe. What is mounted is laid out as all properties of tables, files and directories need it. Mounting writes nothing; after a restart the same volume is mounted again.", "quantifier": "all disks and boot sectors; nothing written and errors: any disk behaviour; otherwise disks whose operations succeed", "why_tests_cant": "The boot sector alone has some 30 bytes that matter; damaged ones are never tried.", "anchors": ["lib/fatfs/ff.c:2597-2620", "lib/fatfs/ff.c:2682-2820"]}
{"id": "C130", "title": "Paths lead to what the directories say", "statement": "Following a path of names with slashes between them gives what the names lead to in the tree of directories: the entry of the last name (which is then in the window and at the place the object of the directory tells), the directory that has no such name, or nothing if a name before the last is missing or no directory. A path with a name that is not of the form 8.3, or ending with a slash, is refused; the empty path and a single slash are the root. Nothing on the volume is seen to change.", "quantifier": "all volumes whose directories form a tree of chains of clusters, of any size and depth; all paths of names of the form 8.3 (three characters and names beginning with a dot excluded); disks whose operations succeed", "why_tests_cant": "Paths of all depths over all contents of directories; tests open files of the root only.", "anchors": ["lib/fatfs/ff.c:2467-2527"]}
{"id": "C131", "title": "Rate limit of network packets", "statement": "The limiter of the adapter between a network interface and the CAN bus lets a packet pass exactly if there is room: if, counted from the start and from every earlier call on, the packets passed plus one stay below the rate plus the rate times the time since then. With a clock that is not set back the packets that pass in any period are bounded by the rate times the period plus one second's worth, and packets that keep the distance of the rate always pass.", "quantifier": "all rates, all sequences of calls at all times (exact rationals)", "why_tests_cant": "The state depends on the whole history of calls; a test drives one pattern.", "anchors": ["tools/uavcan_ip_interface.py:75-101"]}
{"id": "C132", "title": "Network packets reach the other side", "statement": "Frames of a network interface that pass the rate limit are broadcast on the CAN bus in order and once each; the beacon sends them as radio frames; every other beacon of the network publishes the same data with the address of the sender; what a beacon broadcasts on its CAN bus are packets that arrived, in order; and the adapter there writes them to its interface in order. No frame on the interface ends the adapter.", "quantifier": "all executions of the threads of the adapter and of the beacon, all frames and contents of buffers", "why_tests_cant": "The losses and repetitions need particular interleavings of four threads; frames of more than 1012 bytes need a particular network configuration.", "anchors": ["tools/uavcan_ip_interface.py:104-152", "uwb-beacon-firmware/src/uavcan/data_packet_handler.cpp:9-18", "uwb-beacon-firmware/src/ranging_thread.c:210-247", "uwb-beacon-firmware/src/uavcan/topics_publisher.cpp:42-88"]}
{"id": "C133", "title": "The studio shows and sets the parameters of a board", "statement": "Reading all parameters of a board one index after the other gives a tree in which every parameter is found under the names of its namespaces and its own name with its value, and nothing else. A text typed in for a value names the parameter that is shown there; if the text means a value of its type, the parameter gets this value and the tree shows what is then on the board; if the board refuses, nothing changes.", "quantifier": "all sets of parameters and histories of accesses, all trees that show them, all texts, all conversions of numbers", "why_tests_cant": "The names go through a tree on the board, a text with slashes and a tree in Python; a test has a few names.", "anchors": ["tools/studio/cvra_studio/network/ParameterTree.py:16-122", "tools/studio/cvra_studio/viewers/NestedDict.py:10-20", "tools/studio/cvra_studio/commands/param_tree.py:53-70", "tools/studio/cvra_studio/commands/param_tree.py:85-99", "tools/studio/cvra_studio/commands/param_tree.py:181-189", "uwb-beacon-firmware/src/uavcan/parameter_server.cpp:31-104"]}
{"id": "C134", "title": "The printed parameters can be read again", "statement": "The text that is printed for a tree of parameters, read line by line with two spaces for each level, has every parameter below the namespace once, in the order of the indices, under the names of its namespaces and its own name, with the text of its value; this holds also if there is no memory for some of the values, in whose place there is a warning.", "quantifier": "all sets of parameters and histories of accesses, all formats of numbers, all failures of malloc", "why_tests_cant": "The test prints one tree and compares with one text.", "anchors": ["lib/parameter/parameter_print.c:6-125", "lib/parameter/parameter.c:525-529"]}
{"id": "C135", "title": "The simulated robot agrees with the robot's odometry", "statement": "In both simulators, whatever the physics did, the encoders sent are the ways of the two wheels since the start up to less than one pulse, and with the configuration for simulation the master's distance and heading are those of the simulated robot; the forces are the voltages limited to 8, a free robot moves by the law of two wheels, and the table is the same for both sides.", "quantifier": "all sequences of rounds and movements of the body, all voltages, all states of the master", "why_tests_cant": "The tests drive one robot straight and turn it once; the values of the configuration and of the simulators are in different programs.", "anchors": ["hitl/PhysicsRobot.cpp:22-58", "hitl/main.cpp:35-44", "hitl/main.cpp:46-190", "hitl/main.cpp:244-263", "webot_sim/controllers/uavcan_controller/uavcan_controller.cpp:18-30", "webot_sim/controllers/uavcan_controller/uavcan_controller.cpp:132-145", "config_simulation.yaml:9-13"]}
{"id": "C136", "title": "Removing a file removes exactly it", "statement": "For every path on a consistent volume, `f_unlink` deletes the entry that the path leads to and frees the clusters of that file, and everything else stays: the other names, their clusters and contents; all of this is on the disk afterwards. Read only files and directories with something in them are refused, and with each refusal nothing changes.", "quantifier": "all volumes, directories of any length, paths and files; reads and writes that do not fail", "why_tests_cant": "The tests of the project do not use the file system; a freed cluster too many or too few shows only when the card is full or another file is written.", "anchors": ["lib/fatfs/ff.c:4034-4105", "lib/fatfs/ff.c:1907-1968", "lib/fatfs/ff.c:2062-2104"]}
{"id": "C137", "title": "A directory is listed completely", "statement": "Reading a directory with `f_opendir` and `f_readdir` until an empty name comes gives every file and directory in it, each once, in order, with its name, size, attributes and time, and then stays at the end; `f_stat` tells the same about a path; nothing on the volume changes.", "quantifier": "all volumes and directories of any length, all paths; reads that do not fail", "why_tests_cant": "The tests of the project do not use the file system; the end of a cluster, of the root and of the directory are met only by certain numbers of files.", "anchors": ["lib/fatfs/ff.c:3731-3784", "lib/fatfs/ff.c:3819-3851", "lib/fatfs/ff.c:3858-3886", "lib/fatfs/ff.c:1907-1968", "lib/fatfs/ff.c:2112-2158"]}
{"id": "C138", "title": "f_open by path opens, empties or makes exactly the file the path leads to", "statement": "On a consistent FAT volume, for every path of 8.3 names and every access mode, f_open: opens the existing file with exactly the bytes its clusters hold and the pointer at 0; with FA_CREATE_ALWAYS empties it (entry keeps the name, attributes, size and start cluster 0, its clusters become free, no other cluster changes); makes a missing file if a create mode is given (the name is then found in the right directory with an empty entry, all other names are found where they were, the other files keep their bytes); refuses directories, read only files for writing, existing files with FA_CREATE_NEW and full directories without any visible change; paths that lead nowhere or to the root change nothing.", "quantifier": "all volumes (12, 16, 32 bits), directory trees, paths of 8.3 names, access modes, times, previous contents of the file object", "why_tests_cant": "The outcome depends on the mode, the attributes, the place of the entry, whether the directory must grow and where the window of the cache is; tests create a few files in an empty root.", "anchors": ["lib/fatfs/ff.c:2905-3042", "lib/fatfs/ff.c:1975-2054", "lib/fatfs/ff.c:1615-1638"]}
{"id": "C139", "title": "f_mkdir makes exactly one empty directory, or changes nothing", "statement": "On a consistent FAT volume, for every path of 8.3 names, f_mkdir: replies exist if the path leads to a file or directory (or is the root) and no path if a directory on the way is missing, without any visible change; if the name is missing and there is room it takes one free cluster, lays out the entries '.' (its own cluster) and '..' (the cluster of the directory it is in, 0 for the root) followed by zeros in all of its sectors, and enters the name with the attribute of directories, the time and that cluster; the name is then found there, the new directory can be used as one (nothing is in it), all other names are found where they were, the other files keep their bytes, and everything is on the disk; if no cluster is free or the directory cannot take another entry the reply is denied and the directory, the table and the other files are as before (the cluster taken is given back).", "quantifier": "all volumes (12, 16, 32 bits, all cluster sizes), directory trees, paths of 8.3 names, times, positions and contents of the cached sector", "why_tests_cant": "The code reuses the sector cache as a buffer and leaves it different from the disk (zeros) while it goes on to register the name; whether this does harm depends on where the next access goes. Tests make one directory in an empty root.", "anchors": ["lib/fatfs/ff.c:4111-4191", "lib/fatfs/ff.c:1975-2054", "lib/fatfs/ff.c:1362-1432"]}
{"id": "C140", "title": "f_chmod and f_utime change exactly the fields asked for", "statement": "On a consistent FAT volume, for every path of 8.3 names that leads to a file or directory, f_chmod sets exactly those of the attributes read only, hidden, system and archive that are in the mask to their value, and f_utime sets exactly the time and date; all other bytes of the entry, all other entries, all names, the tables and the contents of all other files stay, and everything is on the disk afterwards. The root gives invalid name; missing names and paths give no file and no path without any visible change. In particular no mask can turn a file into a directory or a label.", "quantifier": "all volumes, directory trees, paths, values, masks, times", "why_tests_cant": "A mask that lets one more bit through turns a file into a directory only for the masks nobody tries.", "anchors": ["lib/fatfs/ff.c:4197-4231", "lib/fatfs/ff.c:4237-4270"]}
{"id": "C141", "title": "f_rename gives the object its new name and changes nothing else", "statement": "On a consistent FAT volume, for all paths of 8.3 names, f_rename: replies no file or no path if the old path leads to nothing, exist if the new one leads to something, no path if the new one has no directory, each time without any visible change; otherwise the object (same clusters, size, kind and times) is found under the new name, the old name is gone, all other entries, names and files are as before and everything is on the disk, or the directory has no room for another entry and nothing changes. The object can always be reached by its new path.", "quantifier": "all volumes, directory trees, pairs of paths", "why_tests_cant": "Which entry is taken, whether the directory grows, where the cached sector is between the two changes: tests rename one file in a short root.", "anchors": ["lib/fatfs/ff.c:4276-4353", "lib/fatfs/ff.c:1975-2104"]}
{"id": "C142", "title": "A consistent FAT volume stays consistent", "statement": "On a consistent FAT volume - the directories are a tree from the root, each file and directory has its own chain of clusters that is long enough, no two share one, all used clusters belong to a chain, each chain is that of a file or directory in the tree (no clusters are lost), all names can be found - each call of the file system (stat, opendir, chmod, utime, unlink, mkdir, open, rename) leaves a consistent volume; so it is consistent after any number of calls.", "quantifier": "all volumes, directory trees, sequences of calls, paths", "why_tests_cant": "An invariant over all sequences of calls; a test checks a few sequences on one volume and none checks the tables afterwards.", "anchors": ["lib/fatfs/ff.c:4034-4106", "lib/fatfs/ff.c:4197-4270", "lib/fatfs/ff.c:3731-3885"]}
{"id": "C143", "title": "Memory regions protect what they were configured for", "statement": "A region set by mpu_configure_region whose base is a multiple of its size holds exactly the 2^len bytes from its base on: where no region with a higher number is in the way, the processor permits exactly the accesses asked for and runs code there only if asked for, and all other addresses are treated as if the region were off. After mpu_init and any number of calls for regions whose number modulo 16 is not 7 no access to the first 32 bytes is permitted to any code; with no other region in use all code can read and write RAM, none in RAM is run, and the rest is as in the default map for privileged code and closed for other code.", "quantifier": "all register contents before, all regions, addresses, sizes, permissions, sequences of calls, accesses", "why_tests_cant": "The tests of the library provoke a fault at a few addresses on hardware by hand; regions overlap for 2^32 addresses and all sequences of calls.", "anchors": ["lib/arm-cortex-tools/mpu.c:18-44", "lib/arm-cortex-tools/mpu.c:46-68", "lib/arm-cortex-tools/include/arm-cortex-tools/mpu.h"]}
{"id": "C144", "title": "Handles of GPIO inputs have one owner", "statement": "Whatever a program does with objects of GpioInput - constructs, opens, moves, assigns (also to itself), reads and destroys them in any order, with any replies of libgpiod - no chip or line is used after it was closed, none is closed twice, no two objects share one, and when all objects are gone all chips are closed and all lines released. open gives an object exactly if libgpiod gives the line; an object reads the level of its line, also after it was moved, and one without a line reads false.", "quantifier": "all sequences of operations on any number of objects, all replies of libgpiod, all levels", "why_tests_cant": "Ownership errors are undefined behaviour and depend on the order of moves and destructions; the class is not tested at all.", "anchors": ["master-firmware/src/gpio_input.cpp:4-49", "master-firmware/src/gpio_input.h:7-49", "master-firmware/src/control_panel.cpp:110-124"]}
{"id": "C145", "title": "The blocking UART sends and receives every byte in order", "statement": "blocking_uart_write and blocking_uart_put: whenever the transmitter takes its bytes, those on the line, in the register and left to write are, in this order, what was there before and the bytes given, and the call returns once the transmitter has taken as many bytes as there are. blocking_uart_read: if at most one byte arrives between two reads of the status, the bytes read are the first ones that arrived, none is lost. blocking_uart_init sets the divider nearest to clock / baud, and with a divider of 16 or more an exact receiver samples each of the 10 bits of a byte within that bit.", "quantifier": "all byte strings, all timings of the transmitter and of arriving bytes, all clocks and baud rates with 2 * clock + baud and 2 * baud below 2^32", "why_tests_cant": "All interleavings with the hardware and all clocks and rates; the driver is not tested.", "anchors": ["motor-control-firmware/src/blocking_uart_driver.c:15-62", "motor-control-firmware/src/blocking_uart_driver.c:64-118"]}
{"id": "C146", "title": "All of the configuration file is sent to the master", "statement": "For every configuration file that is a dictionary in which no two keys of one dictionary are the same text: each value of the file is in one of the updates sent to the master, at its path with the keys as texts; each value in an update was in the file at such a path; all actuators are created before the first update, and each actuator in an update is one of them. Splitting a configuration changes nothing: a value is at a path in one of the parts exactly if it is in the whole.", "quantifier": "all nested dictionaries with keys of any kind, all paths", "why_tests_cant": "Dictionaries of all depths and all keys; the tool is not tested.", "anchors": ["tools/config/config_send.py:13-21", "tools/config/config_send.py:33-45", "tools/config/config_send.py:48-61"]}
