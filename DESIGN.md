# Formal model of cvra/robot-software

Lean 4.33.0 + Mathlib. The code is read as text from `/repo`; nothing is compiled or run.

## Layout

* `lean/Verif/<Component>/Model.lean` – the code, function by function; every definition cites file and lines.
* `lean/Verif/<Component>/Lemmas.lean` – helper lemmas (not part of any claim).
* `lean/Verif/<Component>/Props.lean` – the property theorems, each with an `example` that meets its hypotheses, and
  the refutations (`…_false` / `…_counterexample`) where the code does not have the property.
* `properties.jsonl` – the English properties; `MANIFEST.json` – property → theorem names;
  `seeded/LOG.jsonl` – mutation experiments on the models.

Small components use a single `Model.lean`/`Props.lean` pair without `Lemmas.lean`.

## Trusted base

* Lean's kernel. Theorems may depend only on `propext`, `Classical.choice`, `Quot.sound` (checked with
  `#print axioms`); no axioms of our own, no `sorry`, no `native_decide`, no `bv_decide`.
* The faithfulness of the hand-written models to the cited lines. Simplifications are stated in the comment of each
  definition. The recurring ones:
  * C integers of fixed width are `BitVec n`/`UInt`-like or `Int`/`Nat` with an explicit wrap; signed overflow, out of
    bounds accesses, null dereferences and reads of dead objects are a distinct outcome (`none`/`.ub`).
  * `float`/`double` computations: see "Floating point" below. Where arithmetic is exact, rounding, infinities and
    NaN are **not** modelled, except where stated.
  * Locks: components that are used under a lock are modelled as atomic steps, except where the property is about the
    locking itself (message bus), where the model interleaves single accesses.
  * The C library, ChibiOS, UAVCAN, nanopb, lwIP, Eigen and the compiler are outside the model; the parts used
    are replaced by their documented behaviour.

## Plan per property

| Id | Modelled | Proof |
|----|----------|-------|
| C01 | `crc32`, `crc16` bit loops over `BitVec` | induction over the byte list |
| C02 | same; bit-serial view of the register | linearity over xor, invertibility of the register step, burst = first w bits after a common prefix |
| C03 | `timestamp_duration_us`, `ltimestamp_duration_us` on `BitVec 32/64` | modular arithmetic |
| C04 | timer registers, ISR and the two getters as a step machine with the hardware free to tick between any two accesses | invariant relating the software value to the number of elapsed ticks; refutation for `ltimestamp_get` and for the drift |
| C05 | `control_loop` voltage decision, setpoint-update time stamps | history invariant; the wrap refutes the unconditional claim → partial for idle < 2^31 us |
| C06 | safety timer, servo/pump outputs, command handler, virtual-timer expiry as events | invariant over all event sequences |
| C07 | heap of `next` pointers with the two lists of `lru_cache.c` | refinement to a list ordered by last use; capacity 1 refuted |
| C08 | `anchor_position_cache.c` on top of C07 | refinement to "last position of the 5 most recently used anchors" |
| C09 | ring buffer with write index and count | refinement to the suffix of the event history |
| C10/C11 | the two sorted arrays with their binary searches and insertions | sortedness/permutation invariant, search correctness; 0xFF refutation |
| C12/C13/C15/C16 | topics, bus list, publish/read/advertise/find/callbacks as atomic steps | refinement to histories |
| C14/C17 | threads executing the individual steps of each call (lock, byte copy, flag, broadcast, wait) under arbitrary scheduling | mutual exclusion invariant, linearization; no-lost-wakeup invariant |
| C18/C19/C20 | tree of namespaces and parameters with counters | invariant "counter = number of changed parameters below"; path lookup refinement; last-write refinement |
| C21/C22 | the msgpack encoder/decoder of `cmp.c` (used subset) and the tree walk | round trip by induction over the tree; refutations for the ignored error codes and full-length strings |
| C23 | bounded reader/writer | invariant |
| C24–C26 | flash as a byte array with AND-programming, block format, save as a list of byte programs | parsing invariant of the block chain, every prefix of the program list; refutations for the padding byte and dirty flash |
| C27 | sector arithmetic | `omega` against an independent table of sector start addresses |
| C28–C33 | the whole `raft::State` and a cluster with an adversarial network | history invariants; refutations with explicit traces where the code is wrong |
| C34/C35 | GOAP planner with its node pool | loop invariant (every node is reachable through its parent chain), measure for termination |
| C36 | Dijkstra | standard invariant (labels are distances) |
| C37/C38 | oa tables, label-correcting search, path extraction, calc_rays table use | potential/termination argument; invariant |
| C39–C42 | frame codec, 40-bit helpers, protocol handler | round trips, arithmetic, case analysis |
| C43–C48 | filters, PID, quadramp, setpoint, cascade over an ordered field | algebra, induction over input sequences |
| C49–C52 | encoders, feedback, stream prescaler, PWM | induction over histories |
| C53 | bit-banged SPI against an arbitrary slave | induction over bits |
| C54–C57 | robot system, control system manager, blocking detection, end conditions | algebra / induction / case analysis |
| C58–C60 | strategy state, actions, goals and score | case analysis over symbolic states; planner instance of C34/C35 |
| C61/C62 | motor driver and motor manager | history invariants |
| C63–C66 | geometry and SE(2) over ordered fields / ℝ | algebra |
| C67 | Kalman update with scalar measurement | matrix algebra (positive definiteness) |
| C68 | pool + mailbox as an interleaving model | counting invariant |
| C69/C70 | map rectangles, opponent ring, starter loop, game timer | case analysis, induction over readings |
| C71 | STM32F3 flash driver (half-words) | induction over the writes |
| C72 | Raft cluster | refuted by an execution; invariant by induction for executions with complete hand-over of leadership |
| C73–C75 | mean, argmin, setpoint ramp, angle reductions | algebra |
| C76–C78 | trajectory commands, unit conversions, trajectories to a point | case analysis, induction over events |
| C79 | `is_crossing_poly` | convexity, counting of touched sides |
| C80 | odometry | solution of the differential equation of a two-wheeled robot |
| C81 | change flags of parameters under concurrency | interleaving model, counting invariant |
| C82 | planned paths on the map of the match | composition of C27, C63, C69, C79; induction over reports of robots |
| C83/C84 | `strategy_goto_avoid`, actions and loop of the match as programs that command and ask; all answers | induction over executions; refinement to the model of the strategy |
| C85 | positioning against two walls in an ideal world | algebra |
| C86 | loop of the ranging thread and its callers | interleaving model, accounting invariant, decreasing measure |
| C87–C89 | light barrier, thermal protection, analog inputs | arithmetic modulo 2^32, induction over histories |
| C90 | taking over parameters | programs of single accesses interleaved with other threads; an invariant by induction over the program |
| C91 | loading of arbitrary bytes into parameters | induction over the remaining bytes; footprint of the changes |
| C92 | attitude filter | gradient by calculus, invariant by induction, exact condition of definedness |
| C93 | framing of topics, broadcast | round trip; ownership invariant over interleavings |
| C94 | circles, polar vectors | algebra |
| C95, C98 | turns, circles, lines, clothoids as trajectories | algebra; rides by calculus |
| C96 | lock operations of every function | rank of locks, some thread can go on in every reachable state |
| C97 | speeds of the trajectory | interleavings of two threads |
| C99, C100 | parameters over UAVCAN | recursion over the tree against lists; refinement to histories of `Param` |
| C101, C102 | configuration files | induction over the file; histories of `Param` with the copies made by `config_init`; the condition of the load is evaluated for the three files |
| C103, C104 | servo outputs of two boards, with the commands of the master | invariant over events, decreasing distance of the ramp |
| C105, C106 | messages from the CAN bus to topics and motor drivers | refinement to the history of messages, over `Motors` and `MsgBus` |
| C107 | lights of the control panel | refinement to the set of lights that are on, over `Motors` |
| C108 | pressure sensors and messages of the actuator board | composition of driver, software SPI and devices; error bounds |
| C109 | distance and colour sensors of the sensor board | invariant over the accesses of driver and device; progress |
| C110 | inertial measurement unit of the beacon | invariant over accesses, samples and the interrupt line; progress; error bounds |
| C111 | calibration of gains and track, parameters of the control loop of the base | algebra with error bounds; invariant over interleavings |
| C112 | radio of the beacon: time stamps, delayed transmission, interrupt handling | arithmetic modulo 2^40; invariant over interleavings, witnesses of deadlock |
| C113 | distance measurement with clocks of different rates | algebra with error bounds, from the frames to the reported time |
| C114 | motor commands end to end: master, lossy bus, boards, watchdog | invariants over executions of the composed system |
| C115 | uploading configurations to the motor boards | flattening of the configuration against an inductive specification; the requests extend the boards' histories |
| C116 | menu: history of the pages against a stack | refinement: the pointers of the pages represent a stack |
| C117 | Raft: election and replication complete | invariant over all interleavings, one message under way per peer; the next index goes down until the logs match |
| C118 | Opponent from the signal | exact arcs of directions that hit a disc, uniqueness of arcs modulo full turns; then the map of C69 |
| C119 | Table of the file system | effect of every operation on the bytes as seen through the window, composed over sequences; bit operations as arithmetic |
| C120 | Failed operations of the disk | case analysis; witnesses on a concrete volume |
| C121 | Chains of clusters | induction over chains (which have no repetition because the next cluster is a function) and over the remaining part of the search; number of used clusters as measure |
| C122 | Free clusters | invariant of the walk through the window; counting over permutations |
| C123 | Bytes of an open file | invariant that ties position, cluster, sector buffer and chain together; induction over the turns of the loops; sequences of calls refine a machine over lists of bytes |
| C124 | Position and end of an open file | same invariant; the walk along the chain by induction, from the present cluster or from the first one |
| C125 | What a synchronised file leaves on the disk | composition of the steps of the window (`Shift`), which leave the sectors of the file alone; the remounted volume is any state with the same shape and a clean window |
| C126 | Opening of existing files | the walk over the branches; `remove_file` for the chain of an overwritten file |
| C127 | Names of files | induction over the characters up to the dot and after it; the table by evaluation of all 256 bytes |
| C128 | Directories | invariant of the object of a directory (index, cluster, sector, offset) along the entries; refinement to lists of entries and then to sets of names |
| C129 | Mounting | decision logic outright: the code's tests against the conditions of the format in unbounded numbers; induction over the partitions |
| C130 | Paths | refinement: the loop follows the relation that says where a list of names leads, by induction over the path; the outcome of the relation is unique |
| C131 | Rate limit | the quota is the minimum over all earlier calls of what they leave, by induction over the calls |
| C132 | Network packets | invariants of the two queues and of the relay by induction over executions; the frames through the theorems of `Uwb`; composition |
| C133 | Parameter tree of the studio | lookups after an insertion into nested dictionaries; paths of two parameters never continue each other; composition with the theorems of `ParamServer` |
| C134 | Printed parameters | the printed text is the lines of the tree by induction over the depth; a reader of indented lines is the specification, its stack is the path of the namespace |
| C135 | Simulated robot | encoders as functions of the summed ways by induction over the rounds; composed with the robot system of `Base`; the forces by algebra with a unit vector as heading |
| C136 | Removing files (`Fat`) | the loop of `dir_read` gives the next file; `dir_remove`, `remove_chain` and `sync_fs` composed: the table changes only outside of directories, the rest by the invariants of C122 to C128 |
| C137 | Listing directories (`Fat`) | the listing as takeWhile and filter of the entries; the position of the reader as an invariant, each call gives the head of what is left |
| C138 | f_open by path | follow_path, dir_register and the reset of the entry composed; the outcome per mode is a relation stated on the directory's entries |
| C139 | f_mkdir | create_chain, the layout loop, dir_register and sync_fs composed; a lemma shows that the stale window left by the loop is never read |
| C140 | f_chmod, f_utime | one lemma for any change of an entry in the window that keeps its name, followed by sync_fs; bits one by one |
| C141 | f_rename | follow_path twice, dir_register, the copy of the entry, dir_remove and sync_fs composed on the list of entries |
| C142 | consistent volumes | an invariant over the whole volume, kept by each call by the theorems on the single calls |
| C143 | memory protection | the bit fields of the two registers by arithmetic, the highest region with the address by induction, null pointers by an invariant over the calls |
| C144 | GPIO inputs | ownership as an invariant over all programs; a use after closing is an outcome of its own |
| C145 | blocking UART | conservation of the bytes by induction over the reads of the status register; the divider by integer arithmetic |
| C146 | sending the configuration | lookup by path in nested dictionaries; the comprehension sets the last entry with a key |

Status per property is kept in `MANIFEST.json`; findings are listed at the end of this file.

## What is modelled

Every definition in a `Model.lean` cites its file and lines. Files not listed are not modelled (board support, drivers of chips, USB, shell commands, GUI,
simulators, generated code, ChibiOS, lwIP, FatFS, and the UAVCAN glue, unless named here).

| Component | Code | Arithmetic and level |
|---|---|---|
| `Crc` | lib/crc | bit vectors, bit by bit |
| `Timestamp` | lib/timestamp (timestamp.c, timestamp_stm32.c) | bit vectors; single accesses interleaved with timer and interrupt |
| `MotorCtl` | motor-control-firmware motor_pwm.c, cut-off decision of control.c | `CFloat`: rationals plus ±∞ and NaN, no rounding; the comparison of the timeout also in binary32 (`Float.lean`), with the same result |
| `Encoder` | motor-control-firmware feedback.c, stream.c; wheel-encoder-firmware encoder.c | integers with wrap, rationals |
| `Safety` | actuator-firmware safety.c, servo.c, pump.c, Command_handler.cpp | three activities interleaved access by access |
| `LruCache` | uwb-beacon-firmware lru_cache.c, anchor_position_cache.c | heap of `next` pointers |
| `Trace` | lib/trace | ring buffer |
| `BusEnum` | master-firmware can/bus_enumerator.c | arrays with explicit overflow |
| `MsgBus` | lib/msgbus messagebus.c | sequential (`Bus`) and interleaved by single accesses (`Topic`, `BusConc`) |
| `Param` | lib/parameter parameter.c | heap of namespaces and parameters; change flags and counters interleaved access by access (`Param.Conc`) |
| `CmpMem`, `Msgpack` | lib/cmp_mem_access, lib/parameter parameter_msgpack.c, the used part of lib/cmp | bytes, `size_t` with wrap |
| `Flash` | lib/parameter_flash_storage (F4 and F3 drivers, sector table) | byte array whose bits can only be cleared |
| `Raft` | lib/raft raft.hpp | one node function by function; cluster with an adversarial network |
| `Goap`, `Strategy` | lib/goap; master-firmware strategy.cpp, strategy/ | heap of pool nodes with `next` pointers; whole planner |
| `Dijkstra`, `Oa` | lib/dijkstra; lib/aversive obstacle_avoidance.c, calc_rays | tables; geometry a parameter of the search |
| `Uwb` | uwb-beacon-firmware uwb_protocol.c | bytes of the frame buffer, `uint64_t` with wrap |
| `Filter`, `Drive` | lib/filter, lib/pid, motor-control-firmware pid_cascade.c, setpoint.c, math_helpers.c | arithmetic a parameter (`Num.Arith`), see below |
| `Quadramp` | lib/quadramp | rationals, square root a parameter |
| `Spi` | lib/softspi | memory with overlapping buffers, wires as a trace |
| `Base` | lib/aversive robot_system, control_system_manager, blocking_detection_manager, parts of trajectory_manager; master-firmware base_controller.cpp, trajectory_helpers.cpp, starter | `int32_t` with undefined overflow, rationals, trigonometry a parameter |
| `Beacon` | proximity-beacon-firmware, master-firmware udp_topic_broadcaster.c | pool and mailbox, interleaved kernel calls |
| `Motors` | master-firmware motor_driver.c, motor_manager.c, motor_driver_uavcan.cpp, actuator_driver.c | drivers as step machines |
| `Geom`, `Map` | lib/aversive/math/geometry (vect_base.c, lines.c, polygon.c, discrete_circles.c), master-firmware base/map.c | exact rationals |
| `Plan` | lib/aversive obstacle_avoidance.c on the map of base/map.c, as used by strategy_goto_avoid | `Oa` with the geometry of `Geom` on integer coordinates |
| `Match` | master-firmware strategy_impl/base.cpp, strategy/actions_impl.cpp, loop of strategy.cpp, robot_helpers/autoposition.cpp | programs of commands and questions; answers are those of `Base`, `Plan` and `Strategy` |
| `Ranging` | uwb-beacon-firmware ranging_thread.c: event loop, timers, `ranging_send_data_packet` | kernel calls and events interleaved |
| `MotorSense` | motor-control-firmware rpm.c, motor_protection.c, analog.c | time stamps and samples as bit vectors, `CFloat` |
| `MotorParams` | motor-control-firmware control.c: `control_init`, `update_parameters`, `pid_param_update` | single accesses interleaved with `set`s; arithmetic arbitrary |
| `Ahrs` | uwb-beacon-firmware MadgwickAHRS.c, ahrs_thread.c | exact reals; division by zero is NaN, rounding and underflow not modelled |
| `Udp` | master-firmware msgbus_protobuf.c, udp_topic_broadcaster.c | bytes; any codec for the messages of topics; interleaved kernel calls of two threads |
| `Circles` | lib/aversive math/geometry/circles.c, math/vect2/vect2.c | exact reals |
| `Curves` | lib/aversive trajectory_manager_core.cpp: absolute turns, points relative to the robot, circles, lines, clothoids | exact reals; the geometry is `float` in the code; rides are differentiable curves driven by the commanded speeds |
| `Locks` | the mutexes of base_controller.cpp, trajectory_manager, position_manager, blocking_detection_manager, trajectory_helpers.cpp, map_server.cpp, map.c, strategy_impl/base.cpp, messagebus.c, lib/parameter; the unprotected speeds of the trajectory | lock operations of each function, no data; calls are over-approximated by arbitrary sequences; all topics share one lock, all groups share one; condition variables, priorities and time are not modelled; a reader waits while a writer is queued (Abseil) |
| `ParamServer` | uwb-beacon-firmware uavcan/parameter_enumeration.cpp, parameter_server.cpp; motor-control-firmware uavcan/parameter_server.cpp; the declarations of parameters of both boards | on top of `Param`; the UAVCAN library is outside (names of more than 92 characters, the order of assigning and reading in a request); saving is in `Flash`; enumeration while another thread declares is not modelled |
| `Config` | tools/config/parser/parser.py, config_to_c.py, config_to_msgpack.py; master-firmware config.c, the calls in main.cpp up to `config_load_from_flash` with motor_driver.c `motor_driver_init` and actuator_driver.c `actuator_driver_init`; the three config_*.yaml | on top of `Param` and `Msgpack`; the generated text is its objects and statements, compiling is names and types of objects only; PyYAML and the msgpack library are outside (their output is modelled for the types of values used); keys are strings; an unknown name of the robot leaves the decoder uninitialised and is not modelled |
| `Servo` | can-io-firmware servo.c, pwm.c, ServoPWM_handler.cpp; actuator-firmware servo.c, pwm.c, pump.c, Command_handler.cpp; the messages of master-firmware can_io_driver.cpp and actuator_driver_uavcan.cpp | on top of `Quadramp`; exact rationals, positions may be infinite or NaN; registers of 16 bits; rounds and messages are steps (interleavings in `Safety`) |
| `Gateway` | master-firmware can/UavcanToMessagebusProxy.hpp, sensor_handler.cpp, actuator_handler.cpp, wheel_encoders_handler.cpp, motor_feedback_streams_handler.cpp; the readers rs_port.c and gui/ActuatorPage.h | on top of `Motors`, `BusEnum` and `MsgBus`; handlers are steps (one thread), reads are steps; distances are exact; conversion of 16 bit floats is outside |
| `Panel` | master-firmware control_panel.cpp (lights), the parts of uavcan_node.cpp and main.cpp that switch them | on top of `Motors`; sysfs: negative numbers are rejected; calls are steps although the threads do not synchronise; buttons always read as not pressed in the code |
| `Pressure` | actuator-firmware pressure_sensor.c, pressure_sensor_interface.c, analog_input.c, feedback_publisher.cpp, the loop of node.cpp | on top of `Spi`, bit by bit; devices after the description in pressure_sensor.h, with arbitrary durations, statuses and results; `float` is any rounding with a relative error of 2^-24; the time of the code between two delays is zero |
| `Tof` | sensor-firmware vl6180x.c, vl6180x_chibios.c, `TCS3472_read_color`, DistanceVL6180X_pub.cpp, ColorRGBC_pub.cpp, their calls in main.c and node.cpp | device with the registers used, after the driver's quotations of the data sheet; an access of a register is a step; any transfer may fail; configuration of the colour sensor is not modelled |
| `Imu` | uwb-beacon-firmware mpu9250.c, mpu9250_registers.h, imu_thread.c, exti.c (`imu_cb`) | device after the data sheets, with ranges, interrupt line and access to the magnetometer as configured; samples at any time; exact rationals; a sleep contains a sample; FIFO, filters, rates and time stamps are not modelled |
| `Pose` | master-firmware math/lie_groups.c, lib/aversive position_manager.cpp | exact reals |
| `Ekf` | uwb-beacon-firmware ekf.hpp, state_estimation.cpp, loop of state_estimation_thread.cpp | exact reals, matrices |
| `Calib` | master-firmware commands.cpp (`wheel_calib`, `track_calib`), base_controller.cpp (`base_ctrl_thd`, parameters) | exact rationals; differences of 32 bits as in the code, division by zero separate; encoders, gains and polar coordinates as in `Base`; single accesses to parameters interleaved with other threads; driving and dialogue are not modelled |
| `Radio` | uwb-beacon-firmware decawave_interface.c, decadriver/deca_device.c (`dwt_isr`, `dwt_starttx`, `dwt_forcetrxoff`, `dwt_rxenable`, `dwt_setdelayedtrxtime`), ranging_thread.c (loop, callbacks), exti.c | device after the manual: three status bits, modes off/listening/sending, rising edge of the interrupt line; turning on the receiver leaves a waiting transmission alone; register accesses of one step are one action; no timeouts (disabled), no automatic acknowledgement; contents of frames as in `Uwb`; clocks run at the same rate in `Time`, at any rates in `Drift` |
| `Chain` | motor-control-firmware/src/uavcan/{Velocity,Position,Torque,Voltage,Trajectory,EmergencyStop,Reboot}_handler.cpp, control.c:100-151, motor_driver_uavcan.cpp, uavcan_data_types/cvra/motor/control | frames in order per board, any delay and loss; setpoint and time stamp stored in one step; clocks of equal rate; floats decoded exactly |
| `Upload` | tools/motor_config_loader.py, handleGetSet of the UAVCAN library (as documented, not in the repository) | one request and its answer are one step with three outcomes; an exception in a callback means waiting for ever; map from names to nodes fixed; floats already rounded to 32 bits |
| `Menu` | master-firmware/src/gui/{Menu.cpp, MenuPage.cpp, Page.h}, gui.cpp | widgets of a page are one thing that exists or not; disabled and destroyed buttons send no events; at most one button compares equal; pages other than menus have no successors |
| `Opponent` | `robot_helpers/beacon_helpers.cpp`, `can/beacon_signal_handler.cpp`, `base/map_server.cpp` (loop), `hitl/ProximityBeaconEmulator.cpp` (signal) | floats are reals; bus, locks and threads left out; `map_server.cpp` is not in the present build |
| `Fat` (table) | `lib/fatfs/ff.c`: `sync_window`, `move_window`, `clust2sect`, `get_fat`, `put_fat` | options of `ffconf.h`; a disk is a map from sector numbers to 512 bytes with operations that may fail and leave junk; one volume |
| `Fat` (chains) | `lib/fatfs/ff.c`: `remove_chain`, `create_chain`, counting of `f_getfree` | loops with fuel that is shown to suffice; `_USE_ERASE` 0 |
| `Fat` (files) | `lib/fatfs/ff.c`: `f_read`, `f_write`, `f_lseek`, `f_truncate` | `_FS_TINY` 0, no fast seek; `validate` and the lock left out; a buffer of the caller is a map from positions to bytes |
| `Fat` (entries) | `lib/fatfs/ff.c`: `sync_fs`, `ld_clust`, `st_clust`, `f_sync`, `f_close`, `f_open` of an existing entry | the search for the entry is replaced by its position; `dir_register`, `validate` and the lock left out |
| `Fat` (names) | `lib/fatfs/ff.c`: `ExCvt`, `create_name`, the name of `get_fileinfo` | `_USE_LFN` 0, `_FS_RPATH` 0; the bits for the case of letters left out, they are not used without long names |
| `Fat` (directories) | `lib/fatfs/ff.c`: `dir_sdi`, `dir_next`, `dir_alloc`, `dir_find`, `dir_register`, `dir_remove` | `_USE_LFN` 0, one entry for each name; `f_open`, `f_mkdir`, `f_unlink` only as the sequence of these functions, without attributes, dates and chains of the objects |
| `Fat` (mounting) | `lib/fatfs/ff.c`: `check_fs`, `find_volume` from the search on | one volume, sectors of 512 bytes; without `get_ldnumber`, `disk_status`, `disk_initialize`; fields after a failed call |
| `Fat` (paths) | `lib/fatfs/ff.c`: `follow_path` with `_FS_RPATH` 0 | the path is a list of bytes; what a refused name leaves in `dp->fn` |
| `Tap` (limiter) | `tools/uavcan_ip_interface.py`: `RateLimiter` | exact rationals instead of doubles |
| `Tap` (packets) | `tools/uavcan_ip_interface.py`: threads; `uwb-beacon-firmware/src/uavcan/data_packet_handler.cpp`; `ranging_thread.c`: `frame_rx_cb`, `data_packet_received_cb`; `topics_publisher.cpp`: watcher and data packets | the hand-over from the CAN thread to the ranging thread is in `Ranging`; CAN bus and losses on the air left out |
| `Studio` | `tools/studio/cvra_studio/network/ParameterTree.py`, `viewers/NestedDict.py`: `get`, `set`; `commands/param_tree.py`: `run`, `set_param`, `_param_changed`, `_on_param_change` | threads, locks, drawing and `item_to_path` left out; names and values are texts of bytes; Python's `int` and `float` are parameters |
| `ParamPrint` | `lib/parameter/parameter_print.c` | texts of `%f` and `%d` and results of `malloc` are inputs |
| `Sim` | `hitl/main.cpp`, `hitl/PhysicsRobot.cpp`, `webot_sim/controllers/uavcan_controller/uavcan_controller.cpp` | exact rationals; the physics is arbitrary except for a body that touches nothing; threads and bus left out |
| `Fat.Unlink*` | `lib/fatfs/ff.c` (`dir_read`, `f_unlink`) | the volume is mounted already; what `ld_clust` reads at the null pointer is the outcome `undefined` |
| `Fat.List*` | `lib/fatfs/ff.c` (`get_fileinfo`, `f_opendir`, `f_readdir`, `f_stat`) | valid objects on a mounted volume; the program that lists is the one of the documentation of FatFs |
| `Fat.fOpenPath`, `openNew` | lib/fatfs/ff.c:2905-3042 | mounted volume (`find_volume`, locks, `fp->id` left out); the file object's `dir_ptr` as a position in the window |
| `Fat.fMkdir`, `makeDir`, `layDir` | lib/fatfs/ff.c:4111-4191 | mounted volume (`find_volume`, locks left out) |
| `Fat.fChmod`, `fUtime` | lib/fatfs/ff.c:4197-4270 | mounted volume (`find_volume`, locks left out) |
| `Fat.fRename`, `moveEntry`, `fixParent` | lib/fatfs/ff.c:4276-4353 | mounted volume (`find_volume`, `get_ldnumber`, locks left out) |
| `Mpu` | `lib/arm-cortex-tools/mpu.c` | the registers as 32-bit words, one pair per region; the checks of the processor as in the ARMv7-M architecture with 8 regions, the default map arbitrary; barriers and the kind of fault left out |
| `Gpio` | `master-firmware/src/gpio_input.h`, `gpio_input.cpp` | objects, moves and destructors as they are; libgpiod as the sets of open chips and requested lines, its replies arbitrary |
| `Uart` | `motor-control-firmware/src/blocking_uart_driver.c` | each read of the status register is one step, between them the hardware does anything; 8-bit bytes; frames as exact times |
| `ConfigSend` | `tools/config/config_send.py` | nested dictionaries in order, keys of any type with a function `str`; YAML, RPC and the watching of the file left out |

### Floating point

There are three levels, and each theorem says in its hypotheses or its model which one it is about.

1. `Num.Arith`: addition, multiplication and so on are arbitrary functions; only the IEEE laws of comparison (NaN is unordered, the rest is a linear order) are assumed. What
   is proved here (limits, clamping, bounded integral) holds for `float` as it is, rounding included.
2. Exact arithmetic over ℚ with the special values as separate outcomes (`CFloat`, or `none` at a division by zero).
3. Exact arithmetic over ℚ or ℝ. Here the algorithm is proved, not its rounding errors.

## Findings

Places where the code does not do what its documentation, its name or its callers rely on. Each names the theorem that proves it (in `Verif.<Component>`); those marked
*reading* were found while reading the code and are not the subject of a theorem.

### Safety relevant

* **Motor watchdog re-arms.** 2^31 µs (36 min) after the last setpoint the signed difference of time stamps turns negative and the motor is driven again with the old setpoint
  (`MotorCtl.loop_rearms_after_wrap`). A battery reading of exactly 0 V is a division by zero (`MotorCtl.loop_zero_battery`).
* **Actuator board.** The time-out zeroes the servo registers but not the pump's (`Safety.pump_register_not_zeroed`); a command that is being handled when the timer
  of the previous one expires is accepted but motion stays refused (`Safety.restart_race`); the servo thread can write a stale position after the time-out (`Safety.late_servo_write`).
* **The servos of the actuator boards never move.** The master does not fill in the speed and the acceleration of its commands; they arrive as zero and are the limits of the ramp
  (`Servo.Act.master_never_moves`). The defaults of its positions stand for pulses of 20 to 60 µs (`Servo.Act.default_pulses`). While a board is not known,
  `publish_command` copies variables that were not initialised (*reading*, actuator_driver_uavcan.cpp:14-36).
* **IO board.** Servo outputs 2 and 3 are never enabled, `||` was written for `|` (`Servo.Io.dead_outputs`). A position is not a part of the period but a pulse in seconds of which the register
  keeps 16 bits: half of the range is constantly high, 0.0655 is no pulse (`Servo.Io.half_is_full`, `one_is_not_full`, `no_pulse`). A ramp towards 0 can pass it; the output is then
  constantly high (`Servo.Io.below_zero`). Setting one channel from the master sets the others to 0 (`Servo.Io.setPwm_others`).
* **Distance sensors are not known to the robot.** Only two wheels and six actuators are registered, so distances are never forwarded, and a wait for their topics would never end
  (`Gateway.robot_no_distance`). The status of a measurement is ignored (`Gateway.failed_measurement`).
* **Motor feedback from the id of an actuator board** is written into the actuator's driver as if it were a motor's (`Gateway.actuator_feedback_confused`).
* **The wheel positions are read in two steps**, so the odometry can get a pair that was never sent (`Gateway.wheels_torn`).
* **Emergency stop of the master is never received**: the subscriber is a local variable, destroyed on return (*reading*, emergency_stop_handler.cpp).
* **NaN passes every limit** (`Filter.limit_nan`), reaches the integral of the PID and stays there (`Drive.integral_nan`); in the PWM output
  stage its conversion to an integer is undefined (`MotorCtl.motorPwmSet_nan`).
* **Quadramp braking while moving backwards** has a wrong sign: hard stop from half speed (`Quadramp.backward_hard_stop`) or overshoot (`Quadramp.backward_overshoot`).
  Speed limits below 1 never move from zero (`Quadramp.slow_never_moves`) and move by a whole unit from negative positions (`Quadramp.slow_from_negative`).
* **Blocking detection** is lost for a while after 65536 errors (`Base.bd_lost`), and reports collisions from the stale error of a controller that is switched off
  (`Base.stale_collision`).
* **Collision avoidance is compiled out** (`USE_MAP 0`), so trajectories never end because of an opponent or the ally (`Base.opponent_never`).
* **Ignoring the opponent has no effect**: `enable_opponent` of the map is set but never read, so plans avoid the opponent anyway (`Plan.enable_ignored`).
* **The ally's obstacle** is a square standing on its corner, whose inradius is smaller than the sum of both radii in spite of the factor 1.25 (`Map.ally_margin_false`).

### Memory safety

* Bus enumerator: discovering the reserved id 0xFF writes behind the table (`BusEnum.reserved_id_overflows`).
* `calc_rays` writes behind its table of 500 rays for maps with enough points (`Oa.rays_overflow`, exact condition `Oa.calcRays_iff`); negative polygon sizes are accepted
  (`Oa.negative_size`).
* A long data frame overruns the 1024-byte buffer of the UWB handler (`Uwb.advertisement_overrun`), the payload length is never checked so stale bytes are used
  (`Uwb.stale_bytes`), position callbacks may be null (`Uwb.position_null`).
* `cmp_mem_access` accepts lengths close to `SIZE_MAX` (`CmpMem.overflow_escapes`); a crafted identifier of a MessagePack map reaches it (`Msgpack.crafted_identifier_escapes`).
  So does a name containing a zero (`Msgpack.nul_name_escapes`). Any other bytes are loaded safely (`Msgpack.load_any_partial`).
* Encoding a topic for UDP copies 512 bytes from it, whatever its size (`Udp.encode_overreads`). Injected messages are read by the sizes they contain, beyond their end
  (`Udp.inject_reads_behind`), and written into a static buffer without a check (`Udp.inject_overflows`). Injection is only used in tests.
* Looking up a parameter with an embedded NUL reads out of bounds (`Param.embedded_nul_reads_out_of_bounds`); reading a string into a buffer of size 0 runs out of bounds
  (`Param.string_read_zero`).
* An odd document that fills the flash region is padded with a byte outside of it (`Flash.odd_save_leaves_region`).
* LRU cache: a stored pointer can be reused for another entry (`LruCache.pointer_goes_stale`); capacity 1 loops for ever (`LruCache.capacity_one_loops`).
* Dijkstra dereferences null when the end is unreachable (`Dijkstra.unreachable`).
* A motor command naming an actuator treats the actuator driver as a motor driver (`Motors.actuator_as_motor`).
* Signed overflows (undefined): wheel encoder totals (`Encoder.wheel_overflow_undefined`), relative trajectory commands (`Base.dRel_overflow`), far quadramp targets
  (`Quadramp.far_target`), far obstacles (`Map.rect_overflow`).
* A filter of degree 0 writes `d[-1]` (*reading*, iir.c); `connect` of Dijkstra is unbounded (*reading*).

### Storage of parameters

* Saving a document of odd length destroys the header of the next one, so later saves are lost (`Flash.odd_save_loses_next`, `Flash.second_save_lost`).
* Power loss during a save that erases loses everything (`Flash.erase_loses_all`); a save after a power loss can give a block with valid CRC and wrong contents
  (`Flash.save_after_crash_corrupts`).
* A tree that never fits makes the save recurse for ever (`Flash.too_large_never_ends`).
* All sectors of bank 2 are wrong (`Flash.sector_bank2_wrong`). The F3 driver loses the last byte of odd documents (`Flash.F3.odd_document_changed`).
  The F4 driver never clears `SER` after an erase (*reading*).
* Errors while writing nested namespaces are not reported (`Msgpack.nested_error_not_reported`, `Msgpack.empty_error_not_reported`); strings that fill their buffer are refused
  on load (`Msgpack.full_string_refused`); duplicate names are lost (`Msgpack.duplicate_names_lost`). Long strings are truncated (`Param.long_string_truncated`).

* Parameters under concurrency: the first `set` marks a parameter as changed before it is defined, so a reader that sees the mark runs into the assertion
  (`Param.Conc.first_set_race`); a completed change can be hidden from `contains_changed` for a while (`Param.Conc.hidden_change`), and the counter can be negative
  (`Param.Conc.negative_count`).
* Parameters over the bus: the largest and the smallest integer are refused (`ParamServer.extremes_refused`); strings are read with `sizeof` of a pointer, so that only 3 characters arrive
  (`ParamServer.strings_cut`); a string too long for its buffer is not refused but fails an assertion on the board (`ParamServer.long_string_asserts`).
* Configuration: a mapping with only empty mappings is dropped, an empty one beside values is a type error (`Config.empty_dropped`, `empty_typeError`). Hyphens are replaced in the names of
  numbers, but in those of namespaces and strings only half (`Config.hyphen`), so that the C code does not compile; so do `ns`, C keywords and `x_buffer` beside a string `x`
  (`Config.clashes`). A string of 16 bytes or a section without a namespace ends the load at that place (`Config.long_string`, `unknown_section`).
* `global_config` and `master_config` are copies of namespaces made after the declarations; changes of parameters are counted in the originals only, so
  `parameter_namespace_contains_changed(&master_config)` is always false (`Config.copies_not_notified`). The base uses namespaces found below them, which are originals.
* Before the load, reading a parameter of the configuration fails an assertion (`Config.get_before_load`). `main` starts UAVCAN before the load (main.cpp:147-156), and the callback for
  beacon signals reads `master/beacon/...`: a signal in that time ends the program. An unknown `robot_config` only gives a message, then an uninitialised decoder is used (main.cpp:78-82).

### Distributed algorithms and communication

* Raft: two leaders in one term because vote replies do not check the term (`Raft.two_leaders`); a refused vote request of a higher term does not step down (`Raft.no_step_down`);
  log gap after submitting to a non-leader (`Raft.log_gap`), decreasing terms (`Raft.terms_decrease`); operations applied twice (`Raft.applied_twice`); commits without a
  majority in clusters of even size (`Raft.commit_without_majority`) and with the comparator as written (`Raft.commit_unsorted`); different operations
  applied at the same index (`Raft.different_operations`). What goes wrong there is the election: a node that lacks an entry is elected. As long as every new leader has all
  entries and there is one leader at a time (which may be lost and re-elected, with any behaviour of the network), logs only grow, agree, and the same operations are applied
  (`Raft.agreement_partial`, `logs_partial`, `logs_grow_partial`, `leader_complete_partial`, `state_machines_partial`; `single_leader_partial` if only one node ever leads).
* Message bus: names that do not fit are never found (`MsgBus.long_name_not_found`), advertising twice makes lookups loop (`MsgBus.advertise_twice_loops`).
* UWB: time differences across the 40-bit wrap are one tick short (`Uwb.elapsed_wrap`), and measurements can divide by zero (`Uwb.propagation_zero`).
* `ltimestamp_get` is not monotone (`Timestamp.ltimestamp_get_not_monotone`), the microsecond counter drifts (`Timestamp.timestamp_drift`).
* Wheel encoder: a difference of exactly 32768 is taken as negative (`Encoder.wheel_32768_wrong`).
* Motor manager: long names create several drivers (`Motors.long_name_twice`), a full enumerator leaves drivers unregistered (`Motors.enumerator_full`); reading a setpoint
  in the wrong mode returns the wrong union member (`Motors.wrong_mode_value`); long actuator names are never commanded (`Motors.actuator_long_name`).
* Bus enumerator: id 0xFE is ambiguous (`BusEnum.id_fe_ambiguous`), a name registered twice leaves an entry that is never discovered (`BusEnum.duplicate_name`).
* Beacon angles are negative if the rotor has not passed for 36 minutes (`Beacon.angle_negative`).
* Printing the trace turns tracing back on (`Trace.print_reenables`).
* **Lights of the control panel.** A light with two states is never lit, because one less than the maximum is written (`Panel.two_states_dark`); the yellow and green lights are never
  opened (`Panel.colours_dark`). The lights are opened after the UAVCAN thread was started, so LED_READY stays dark if the last board was found before (`Panel.ready_lost`); a board
  that reported missing power and vanished keeps LED_POWER lit (`Panel.vanished_lit`), which goes off and on again in every round (`Panel.power_flickers`). `led_infos` is used by
  several threads without a lock; `control_panel_button_is_pressed` always returns false, so the loop that selects the colour in strategy_impl would not end (*reading*).
* **Pressure sensors.** The code waits 5 ms, while its header says that a measurement may take 6.2 ms; then the message says 0 (`Pressure.slow_zero`). A result a little below the one
  for no pressure gives a negative number whose conversion to `uint32_t` is undefined (`Pressure.below_undefined`); less than 1 Pa is published as 0, which stands for a
  failure (`Pressure.small_is_failure`). Bit 1 of the status is not checked (`Pressure.bit_one_ignored`). The reset line is common, so that each reading resets both sensors (*reading*).
* **Distance sensor.** A transfer that fails returns what was on the stack, which is published as a distance without error (`Tof.junk_published`). Without the sensor the board never
  gets to start UAVCAN (`Tof.hangs`). If the write that clears the interrupt is lost, the next message has the distance of one measurement and the status of another (`Tof.lost_clear`).
  A colour that could not be read is published all the same (`Tof.color_stack`). Both sensors answer to address 0x29 until the address of the distance sensor was changed, so
  that the colour sensor receives that write too (*reading*).
* **Inertial measurement unit.** The bytes of a value are read one by one while the device may sample: a rate between 3.9 and 4 degrees per second can be published as 0.09
  (`Imu.torn`). The first message has no magnetic field (`Imu.first_mag_missing`). The overflow flag of the magnetometer is read by the device but not by the code (*reading*).
* **Calibration.** The gains multiply the whole counts of the encoders, so taking over new gains makes a standing robot believe that it has moved; after 10 m the calibration of the order robot
  would shift it by about 2 mm (`Calib.gain_change_jumps`, `gain_jump_example`), and the control loop then drives that error. If the track in use is so wrong that the angle is off by whole turns,
  the calibration of the track finds nothing to correct (`Calib.track_alias`). An argument of 0 divides by zero (`Calib.wheel_no_distance`, `track_no_turn`); a negative one makes `wheel_calib` drive
  two thousand million times (*reading*).
* **Deaf beacon.** The ranging thread looks at the radio only after a rising edge of its interrupt line. If a frame arrives between the reading of the status ("frame sent") and the clearing of that
  bit, the line never falls, the frame is never looked at, and the receiver stays off until the thread next sends something by itself (`Radio.can_become_deaf`, `deaf_waits`). It then
  recovers (`recovers`). The same happens if the loop is more than 0.8 ms late to send, as nobody looks at the result of `dwt_starttx`
  (`late_not_sent`, `late_becomes_deaf`). A frame that waits to be looked at is thrown away by a transmission (`frame_thrown_away`).
* **Very close beacons.** If the time of flight, after correction by the antenna delay, is below about 2 ticks (1 cm) or negative (antenna delay set too large), the unsigned difference of the products
  wraps and a distance of 400000 km is reported (`Radio.close_is_far`). From 4 ticks on this cannot happen (`Radio.propagation_rates`).
- **C115** `send_parameter` chooses the type of the request from the type of the YAML value, the board ignores values of another type, and the answer carries the parameter's name all the same: a scalar written without decimal point is silently not set (`mistyped_ignored`). The configurations in the repository are of the right types (`wheels_applied`).
- **C115** `save_parameters` does not wait for the answer, and `main` then stops the thread of the node: a lost save request, or a board that could not save, is not noticed (`save_unnoticed`). A lost request or answer while sending, or a name the board does not know, raises an exception in the other thread, so the tool waits for ever (`upload_lost`, `upload_unknown`).
- **C116** `Menu::on_timer` runs in the thread of the timers, without lock against `switch_to_page`: between the deletion of the container and `on_enter` it sets the text of a label that was destroyed, or was not created yet (`timer_race`).
- **C116** the history is one pointer per page: a menu that leads back to a page already entered would lose the history and make the back button go in a circle (`circle`). The robot has no such menu (`robot_acyclic`). `Page::history_previous` is not initialised, but always written by `enter_page` first (`shows_stack`). From the seventh action on there is no button (`action_hidden`); there are four actions.
* Opponent: `x` and `y` of the published signal add metres to millimetres, so every opponent is published within a few millimetres of the robot (`Opponent.topic_units`).
* Map server: an old signal removes one of the two obstacles per round, and a round happens only when something is published (`Opponent.stale_remains`); the age is taken with 32 bits, so that a signal older than 36 minutes is recent again (`Opponent.fresh_again`); the last signal is combined with the present pose, so the obstacle drives and turns with the robot (`Opponent.moves_along`, `Opponent.turns_along`); a very short signal makes the conversion to `int32_t` undefined (`Opponent.far_undefined`); the ally is never removed (`Opponent.ally_obstacle`).
* Simulator: the beacon's signal starts in the direction of the opponent instead of half a signal before it (`Opponent.emulated_angle`).
* FatFs: after a sector could not be read, the window holds junk under the number of the previous sector: the next entry read from it is wrong without an error (`Fat.failed_read_lies`), and a failed `put_fat` gets the junk written over the previous sector, the table and its copy (`Fat.failed_put_destroys`). A copy of the table that cannot be written is not noticed (`Fat.failed_copy_unnoticed`).
* FatFs: when a disk error interrupts the count of free clusters, the partial number is stored and reported as right by the next call (`Fat.interrupted_count`); with 16 and 32 bits the two entries before the first cluster are counted if they are 0 (`Fat.reserved_counted`).
* FatFs: after a disk error in the middle of `f_write` the count of written bytes includes bytes that are not in the file, because the size is set only at the end of the loop, and the cluster taken for them is lost (`Fat.aborted_write`).
* FatFs: a file stretched by `f_lseek` shows the former bytes of its clusters (`Fat.old_bytes`); the library says so, code that uses it must fill the gap.
* FatFs: `f_sync` clears `FA__WRITTEN` before it knows whether the directory was written; the error is reported once, the next call reports success although the entry on the disk is the old one (`Fat.sync_error_forgotten`). The result of the write of the FSINFO sector is ignored as well (ff.c:1134).
* FatFs: the table of large letters for the code page 1252 has wrong entries for 0x9A, 0x9E and 0xA1 (`Fat.table_wrong`); `¡A` and `!A` name the same file (`Fat.names_collide`). The names `.` and `.TXT` pass the check for empty names, because the position is already 8 after the dot (`Fat.dot_accepted`, `Fat.bodiless_accepted`).
* FatFs: entries after the end of a directory that are not 0 appear again when an entry is created in front of them, since `dir_register` does not mark a new end (`Fat.stale_entry`); `f_unlink` of the root reads the cluster through a null pointer (ff.c:4059-4066; not modelled).
* FatFs: the sizes in the boot sector are multiplied and added with 32 bits: a volume whose two tables of 2^31 sectors need “0” sectors is mounted with its first cluster in its table (`Fat.tables_vanish`), one of 2^30 clusters with a table of 128 entries (`Fat.short_table`), a partition at the end of the numbers with clusters in front of it (`Fat.past_the_end`), and one with more clusters than 28 bits can name (`Fat.too_many_clusters`).
* FatFs: the first cluster of the root directory is not checked (`Fat.root_unchecked`); a partition in sector 0xFFFFFFFF is never read, and what a failed read left in the window is taken for its boot sector (`Fat.junk_mounted`); volumes of exactly 4085 or 65525 clusters are of another type than Microsoft's specification says (`Fat.edge_4085`).
* FatFs: `sub/` and `//` are refused as invalid names although `sub` and `/` are there (`Fat.slash_refused`).
* The rate limiter of the network adapter passes nothing at all with a rate of one per second or less (`Tap.one_per_second_passes_nothing`).
* It uses the wall clock: when that is set back by a second or more, all packets are refused until it has nearly caught up (`Tap.clock_set_back`).
* An Ethernet frame of 1024 bytes or more ends the node thread of the network adapter for good: both directions stop (`Tap.long_frame_ends_adapter`, `Tap.dead_forever`).
* The adapter accepts packets of up to 1023 bytes as fitting a radio frame, but 11 bytes of header and checksum are added: 1013 bytes are not sent, and 1014 to 1023 are written beyond the end of the frame buffer of the beacon (`Tap.too_long_for_radio`, `Tap.overruns_buffer`).
* The beacon loses received packets when two come in quick succession, when a position is published before the watcher has left its wait, or when the packet comes while the watcher is not waiting; and it can broadcast one twice (`Tap.burst_loses`, `Tap.other_topic_hides`, `Tap.missed_between_waits`, `Tap.repeated`).
* In the studio a boolean parameter cannot be set to false by typing `False`: every text but the empty one sets true (`Studio.false_sets_true`).
* A lost answer while the studio reads the parameters of a board ends the tree there, and it is reported as read successfully (last part of `Studio.fetch_tree`).
* A parameter with the name of a namespace beside it makes the studio's thread end with an exception (`Studio.clash_raises`).
* Typing a text for a parameter without a value (a vector, for instance) leaves `None` in the studio's tree; from then on it raises an exception (`Studio.edit_none`).
* `parameter_print` writes strings as they are: a newline (or quote) in a value makes a line that reads as another parameter (`ParamPrint.newline_breaks`).
* `parameter_string_max_len` gives 0 for a buffer of 65535 characters; printing such a parameter copies out of bounds (`ParamPrint.largest_buffer`).
* The Box2D simulator has wheels 212 mm apart, `config_simulation.yaml` says 174 mm (the Webots robot): there the master takes every turn for 22 % more than it is (`Sim.hitl_heading_wrong`).
* `clamp` in hitl/main.cpp returns the value instead of the maximum: the force ahead is not limited, that backwards is (`Sim.force_unlimited`).
* The divider in the middle of the simulated table is at y = 1850 m (hitl/main.cpp:131, `Sim.divider_missing`).
* `create_actuator_adapter` (uavcan_controller.cpp:62-65) enables the sensor before it tests whether there is one.
* `f_unlink("/")` (and `""`): `ld_clust(dj.fs, dir)` reads at the null pointer `dir` before FR_INVALID_NAME is returned (ff.c:4059-4066, `Fat.root_undefined`).
* A file with a name of blanks only, as `f_open(".", FA_CREATE_NEW)` makes it, ends every listing: the files after it are not listed (`Fat.blank_hides`).
- `f_mkdir` (C139) leaves the cache window filled with zeros while `winsect` names the last sector of the new cluster and `wflag` is 0; for clusters of one sector the disk holds the dot entries there. `register_stale` shows that `dir_register` always moves the window away first (the directory has no sector in the new cluster), so the difference is never seen.
- `f_rename` (C141, `rename_into_itself`, `rename_below_itself`): `f_rename("sub", "sub/x")` is not refused. It enters the directory in itself, sets its `..` to itself, removes the entry that led to it and returns FR_OK: the directory and all in it are lost, and their clusters stay in use. The same for a place further below: `f_rename("sub", "sub/d/x")`. The volume is then not consistent (C142, `rename_loses`).
- `f_rename` (C141) needs a free entry even when the name stays in its directory: in a full root of FAT12/16 nothing can be renamed (`Moving.full`). It sets the archive attribute on directories as well.
* `mpu.h` says that the lowest 5 bits of a region's base are ignored; all bits below its size are: 1 KB at 0x20000200 starts at 0x20000000 (`Mpu.base_rounded`; by the architecture the base must be a multiple of the size). Neither that nor region numbers above 7 nor sizes above 2^32 are refused; region 23 replaces the guard for null pointers (`Mpu.region_wraps`, `Mpu.size_wraps`).
* `config_send.py` turns the keys `1` and `"1"` of a dictionary into one: only the last value is sent (`ConfigSend.key_lost`). An empty section `actuator:` raises an exception and nothing is sent (`ConfigSend.empty_actuators`).
* **Topics of actuators.** Two board names can give the same topic (`Gateway.actuator_names_clash`).

### Planning and control

* GOAP plans are not shortest (`Goap.not_shortest`), a plan longer than the buffer hides a shorter one (`Goap.too_long`), the garbage collection loses the goal
  (`Goap.collected_goal`).
* Strategy: picking up glasses is never possible from the initial state (`Strategy.pickup_never`) and is not encoded (`Strategy.pickup_not_encoded`); the green button selects
  yellow (`Base.green_is_yellow`).
* PID: a reset keeps the previous error (`Drive.reset_keeps_error`). The cascade does not limit the voltage (`Drive.voltage_not_limited`). The setpoint ramp divides by zero before the
  acceleration limit is configured (`Drive.ramp_unconfigured`). `angle_delta` is wrong beyond half a turn backwards (`Drive.angleDelta_wrong`).
* `mean_int16` is wrong for negative sums (`Filter.meanInt16_negative`).
* Base: going to a point does not change whether the trajectory counts as finished, until the next cycle (`Base.gotoXy_finished`); a disabled controller holds its last output until the next cycle (`Base.disable_keeps_output`);
  changing correction factors moves the robot's coordinates (`Base.gain_change_moves`); angles beyond 3π are not reduced (`Base.simpleModulo_beyond`); a start angle of 0 gives NaN
  speed (`Base.xyEvent_nan`).
* Geometry: a segment strictly inside another is reported as not crossing (`Geom.segment_iff_false`); so are one-point segments (`Geom.segment_degenerate`) and crossings beyond 2^15
  (`Geom.segment_far`); a clockwise polygon has no inside (`Geom.in_poly_clockwise`), one without vertices contains everything (`Geom.in_poly_empty`).
* A removed opponent has every point of the plane on its edge, according to `is_in_poly` (`Map.reset_edge`); it blocks nothing all the same (`Map.reset_free`).
* Odometry: the heading is brought back by one turn only (`Pose.manage_range_false`); unconfigured dimensions divide by zero (`Pose.manage_unconfigured`).
* Estimator: a negative variance parameter makes the covariance indefinite (`Ekf.measure_negative`); an estimate exactly at an anchor divides by zero (`Ekf.run_defined` gives the condition).
* Going somewhere: `strategy_goto_avoid_retry` commands a new movement after one was ended by the end of the match (`Match.retry_after_end`); if the caller allows to end near the goal,
  `strategy_goto_avoid` returns false and leaves the robot in motion (`Match.goto_near`); the map is locked during the whole motion (`Match.goto_lock`), so that `map_server` cannot
  enter new opponents meanwhile.
* Match: at the lighthouse the robot is commanded 200 mm back after the end of the match was noticed, and the lighthouse counts as turned on although the movement towards it was
  cut off, if only the robot is near the wall (`Match.lighthouse_after_end`); a movement that arrives after the end of the match is followed by the next one (`Match.move_after_end`).
  The coordinates in actions_impl.cpp do not depend on the colour, unlike the starting position (`Match.recipe`, `Match.Auto.prepare_spec`).
* Positioning with the calibration side at the back ends on the wrong half of the table (`Match.Auto.auto_backward`); no configuration uses it.
* Ranging: a packet handed over before the thread has registered its listeners is never sent, and its sender waits for ever holding the lock (`Ranging.early_call_hangs`,
  `Ranging.lost_forever`); radio interrupts have priority and can delay a packet without bound (`Ranging.starved`). The event of the tag position has no handler (*reading*).
* Light barrier: a crossing between reading the time and taking the lock gives a negative position (`MotorSense.rpm_race`); after 36 minutes at rest the old velocity is reported
  again (`MotorSense.rpm_standing`); infinite velocity at the start (`MotorSense.rpm_infinite`). `rpm_barrier_crossing` is only called by tests (*reading*; `MotorSense.rpm_never` says
  what is read then).
* Thermal protection: negative currents cool the model (`MotorSense.reverse_unprotected`). Its call in the control loop is commented out (*reading*).
* Parameters of the motor board: the interpolator never gets the default velocity limit (`MotorParams.interpolator_limit_missing`); changing torque limit and torque constant
  together leaves the old current constant for good (`MotorParams.constant_lost`); changing the torque constant alone leaves the old current limit (`MotorParams.limit_not_updated`);
  changing the transmission leaves the old current constant (`MotorParams.constant_not_updated`).
* Attitude filter: an exact estimate makes the correction zero, and normalising it gives NaN for good (`Ahrs.exact_estimate_nan`); a board that lies flat after a reset meets
  this at the first update (`Ahrs.flat_board_nan`). The reference field is half of the measured one (`Ahrs.reference_halved`). The thread never updates the filter, so the
  attitude published is constant (`Ahrs.attitude_constant`). The calibration can give a negative gain (`Ahrs.calibrate_neg_iff`).
* Circles: circles that touch are said to have two points in common (`Circles.tangent_returns_two`), a circle and itself one, which is NaN (`Circles.same_circle_nan`), and
  circles with nearly the same centre none (`Circles.near_missed`). `vect2_scale_pol` leaves the angle of the result unset (`Circles.scalePol_wrong`).
* Circles as trajectories: the flags for the direction are ignored (`Curves.flags_ignored`), the robot always goes round to the left, backward for negative angles
  (`Curves.circle_direction`); driving backward the correction has the wrong sign and the deviation grows (`Curves.circle_backward`); negative radii give negative speeds
  (`Curves.circleSpeed_negative`).
* Lines: with an advance of 0 a robot on the line is stopped and turned to the direction 0 (`Curves.line_no_advance`); two equal points divide by zero
  (`Curves.line_same_point`).
* Clothoids: the angular speed needed is not compared with the configured one, and may exceed it (`Curves.clitoid_too_fast`); with exactly the room needed the command is accepted
  but the line before the curve has no direction and its first event divides by zero (`Curves.clitoid_no_line`); an arc of the opposite sign is accepted although the rate of turn
  planned for is never reached (`Curves.clitoid_signs`).
* Locks: managing a line reads the position twice, so that a thread that sets the position meanwhile without holding the robot (`autoposition.cpp:40`, `position_set`) stops all
  loops of control for ever (`Locks.line_deadlock`). `trajectory_has_ended` waits for the topic of the beacon while it holds the robot, which stops the loops of control until it is
  advertised (*reading*).
* Speeds: the loop of control overwrites the speeds of the trajectory at each round, so the slow speeds for aligning with a wall last for one round at most
  (`Locks.Speed.mode_undone`); since no lock is taken, a command may use any mixture of both (`Locks.Speed.ramp_any`).
* `map_server_start` passes the address of its parameter to the thread it creates (*reading*).
