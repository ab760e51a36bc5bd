/-!
# Locks of the base

The mutexes taken by the threads of the master firmware that move the robot, as sequences of acquisitions and releases. The data they protect
is not modelled here.

Mutexes are those of Abseil: they can be held by one writer or by several readers, and a reader also waits while a writer is waiting
(`ReaderLock` is not granted while a writer waits). ChibiOS and standard mutexes are only taken as writer.

Condition variables (waiting for a topic) are not modelled.
-/

namespace Verif.Locks

inductive Mode
  | read | write
deriving DecidableEq

/-- One operation of a thread on a lock. -/
inductive Op (L : Type)
  | acq (l : L) (m : Mode)
  | rel (l : L)
deriving DecidableEq

/-- What a thread has still to do, what it holds, and whether it is queued for the lock it wants next. -/
structure Th (L : Type) where
  prog : List (Op L)
  held : List (L × Mode)
  waiting : Bool

abbrev State (L : Type) := List (Th L)

variable {L : Type} [DecidableEq L]

/-- Thread `t` is queued as writer. -/
def Th.waits (t : Th L) (l : L) : Prop := t.waiting = true ∧ t.prog.head? = some (.acq l .write)

/-- The lock can be had now. A thread that already holds the lock is treated like any other. -/
def Free (s : State L) (l : L) : Mode → Prop
  | .write => ∀ t ∈ s, ∀ m, (l, m) ∉ t.held
  | .read => (∀ t ∈ s, (l, Mode.write) ∉ t.held) ∧ ∀ t ∈ s, ¬t.waits l

/-- Steps. `move` steps get on with the program, the others only queue. -/
inductive Step : Bool → State L → State L → Prop
  | acq {s : State L} {i l m p h w} : s[i]? = some ⟨.acq l m :: p, h, w⟩ → Free s l m → Step true s (s.set i ⟨p, (l, m) :: h, false⟩)
  | rel {s : State L} {i l p h w} : s[i]? = some ⟨.rel l :: p, h, w⟩ → l ∈ h.map Prod.fst →
      Step true s (s.set i ⟨p, h.eraseP (fun e => e.1 = l), false⟩)
  | queue {s : State L} {i l m p h} : s[i]? = some ⟨.acq l m :: p, h, false⟩ → ¬Free s l m → Step false s (s.set i ⟨.acq l m :: p, h, true⟩)

inductive Reach (s0 : State L) : State L → Prop
  | init : Reach s0 s0
  | step {s s' b} : Reach s0 s → Step b s s' → Reach s0 s'

/-- Threads that have not started. -/
def start (ps : List (List (Op L))) : State L := ps.map (fun p => ⟨p, [], false⟩)

/-- All threads have finished. -/
def Done (s : State L) : Prop := ∀ t ∈ s, t.prog = []

/-- Nothing can happen any more (but queueing), and some thread has not finished. -/
def Deadlock (s : State L) : Prop := ¬Done s ∧ ∀ s', ¬Step true s s'

/-! ## The code -/

/-- `map_data.map_lock` (map_server.cpp:24), `robot.lock` (base_controller.h:81), `traj.lock_` (trajectory_manager.h:110), `pos.lock_`
(position_manager.h:133), `map.lock` (map.c), those of the two blocking detections, `game_start_time_lock` (trajectory_helpers.cpp:272),
`parameter_lock` (parameter_port.cpp:5), and those of the bus, of a topic and of a group of watchers (messagebus.c). -/
inductive Lock
  | map | robot | traj | pos | mapInner | angleBd | distanceBd | game | param | bus | topic | group
deriving DecidableEq

abbrev Prog := List (Op Lock)

/-- A scope with a lock. -/
def scope (l : Lock) (m : Mode) (body : Prog) : Prog := .acq l m :: body ++ [.rel l]

/-- What a call in the code does with locks, apart from `robot.lock` and `map_data.map_lock`. -/
inductive Part
  | /-- `position_get_*`, position_manager.cpp:227-323, and the conversions of units, trajectory_manager_utils.cpp:173-245 -/ posGet
  | /-- `position_set`, `position_manage`, `position_set_physical_params`, …, :32-121; autoposition.cpp:40, 67 -/ posSet
  | /-- `trajectory_d_rel`, …, `trajectory_stop`, `trajectory_hardstop`, `trajectory_in_window`, trajectory_manager_core.cpp:101-222, 332-360 -/ command
  | /-- `trajectory_goto_xy_abs` and its variants, :224-256, `trajectory_distance_finished` :308-316, `trajectory_get_state`, `trajectory_line_abs` :766-778 -/ trajOnly
  | /-- `trajectory_goto_d_a_rel`, `trajectory_goto_xy_rel`, :258-301, that read the position three times, and `trajectory_clitoid` :1000-1043, that converts
    units up to three times, :830-846 -/ gotoRel (n : Nat)
  | /-- `trajectory_circle_rel` :690-725 -/ circleRel
  | /-- `trajectory_manager_manage` :652-683, for a line if `line` -/ manage (line : Bool)
  | /-- `bd_get`, blocking_detection_manager.cpp:77-81 -/ bdGet (l : Bool)
  | /-- `bd_manage`, `bd_reset`, …, :35-74 -/ bdSet (l : Bool)
  | /-- `trajectory_crosses_obstacle`, trajectory_helpers.cpp:176-207 -/ crosses
  | /-- `trajectory_game_has_ended` and the like, :274-300 -/ game
  | /-- any function of lib/parameter -/ param
  | /-- `messagebus_find_topic`, `messagebus_find_topic_blocking` (without the wait), `messagebus_advertise_topic`, messagebus.c:32-82 -/ find
  | /-- `messagebus_topic_read`, :111-124 -/ topicRead
  | /-- `messagebus_topic_publish`, :85-109, with a number of watchers -/ publish (n : Nat)
  | /-- `messagebus_watchgroup_watch`, :142-156 -/ watch
  | /-- `map_set_ally_obstacle`, `map_update_opponent_obstacle`, map.c:60-126 -/ mapSet

def bd (l : Bool) : Lock := if l then .angleBd else .distanceBd

def Part.ops : Part → Prog
  | .posGet => scope .pos .read []
  | .posSet => scope .pos .write []
  | .command => scope .traj .write (scope .pos .write [])
  | .trajOnly => scope .traj .write []
  | .gotoRel n => scope .traj .write (List.replicate n (scope .pos .read [])).flatten
  | .circleRel => scope .traj .write (scope .pos .read [])
  | .manage false => scope .traj .write (scope .pos .read [])
  | .manage true => scope .traj .write (scope .pos .read (scope .pos .read [] ++ scope .pos .read []))
  | .bdGet l => scope (bd l) .read []
  | .bdSet l => scope (bd l) .write []
  | .crosses => (List.replicate 2 (scope .pos .read [])).flatten ++ scope .traj .write (List.replicate 3 (scope .pos .read [])).flatten
  | .game => scope .game .write []
  | .param => scope .param .write []
  | .find => scope .bus .write []
  | .topicRead => scope .topic .write []
  | .publish n => scope .topic .write ((List.replicate n (scope .group .write [])).flatten)
  | .watch => scope .topic .write (scope .group .write [])
  | .mapSet => scope .mapInner .write []

/-- A part, or a sequence of parts while `robot.lock` is held. -/
inductive Round
  | part (p : Part)
  | robot (ps : List Part)

def Round.ops : Round → Prog
  | .part p => p.ops
  | .robot ps => scope .robot .write (ps.map Part.ops).flatten

/-- A round, or a sequence of rounds while the map is held. -/
inductive Call
  | round (r : Round)
  | map (rs : List Round)

def Call.ops : Call → Prog
  | .round r => r.ops
  | .map rs => scope .map .write (rs.map Round.ops).flatten

/-- A thread that makes the calls one after the other. -/
def thread (cs : List Call) : Prog := (cs.map Call.ops).flatten

/-- One round of `position_manager_thd`, base_controller.cpp:226-238; the three positions are read for the log. -/
def positionRound : Call := .round (.robot [.posSet, .posGet, .posGet, .posGet])

/-- One round of `trajectory_manager_thd`, :246-255. -/
def trajectoryRound (line : Bool) : Call := .round (.robot [.manage line])

/-- One round of `base_ctrl_thd`, :120-217; `changed` are the changes of the two namespaces of parameters. -/
def controlRound (controlChanged odometryChanged : Bool) : Call :=
  .round (.robot ([.bdSet true, .bdSet false, .param] ++
    (if controlChanged then List.replicate 16 .param else []) ++ [.param] ++
    (if odometryChanged then List.replicate 8 .param ++ [.posSet] else []) ++
    [.param, .param, .posGet, .param, .param, .posGet, .param, .param, .posGet, .param, .param, .posGet]))

/-- `trajectory_has_ended`, trajectory_helpers.cpp:64-131, if it gets to the end. -/
def hasEnded : Round :=
  .robot [.trajOnly, .command, .bdGet true, .bdGet false, .find, .topicRead, .posGet, .posGet, .posGet, .posGet, .crosses,
    .find, .topicRead, .crosses, .game]

/-- … if it ends with a collision. -/
def hasCollided : Round := .robot [.trajOnly, .command, .bdGet true, .command, .bdSet false, .bdSet true]

/-- One round of `map_server_thd`, map_server.cpp:66-98. -/
def mapRound : Call := .map [.part .param, .part .param, .part .param, .part .param, .part .topicRead, .part .posGet, .part .posGet, .part .posGet, .part .posGet,
  .part .mapSet, .part .topicRead, .part .mapSet]

/-- `strategy_goto_avoid`, strategy_impl/base.cpp:40-127, for a path of one point whose end is waited for in `n` rounds. -/
def gotoAvoid (n : Nat) : Call := .map ([.part .posGet, .part .posGet, .part .trajOnly] ++ List.replicate n hasEnded ++ [.part .command] ++ [hasEnded])

/-- `beacon_cb`, beacon_signal_handler.cpp. -/
def beaconCall (n : Nat) : List Call := [.round (.part .param), .round (.part .param), .round (.part .posGet), .round (.part .posGet), .round (.part .posGet), .round (.part .posGet),
  .round (.part (.publish n))]

end Verif.Locks
