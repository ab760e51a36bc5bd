import Verif.Base.Model
import Verif.Plan.Model
import Verif.Strategy.Model

/-!
# Playing a match

Models of the functions that move the robot during a match: `strategy_goto_avoid` and `strategy_goto_avoid_retry` (master-firmware/src/strategy_impl/base.cpp), the
actions (master-firmware/src/strategy/actions_impl.cpp), and the loop of the match (master-firmware/src/strategy.cpp:131-201).

They are programs that give commands and ask questions. The robot, the opponents and the time are free to give any answers that the functions which are asked can give
(`Event.Ok`). In particular the base does what it likes between two commands: it may reach its goal or not, collide, stall. Waiting for the end of a trajectory polls
`trajectory_has_ended` (`Verif.Base`); its answer is the state of the robot and the time at the last poll. Other log messages and the lights of the panel are left out, as is
the publishing of the state.
-/

namespace Verif.Match

open Geom (P)
open Base (Mode)
open Strategy (State Goal)

/-! ## Programs -/

/-- What is commanded -/
inductive Cmd where
  /-- `map_server_map_lock_and_get`, `map_server_map_release`, `map_server_enable_opponent` -/
  | lock
  | unlock
  | enableOpponent (b : Bool)
  /-- `trajectory_goto_xy_abs`, `trajectory_goto_forward_xy_abs`, `trajectory_goto_backward_xy_abs` -/
  | gotoXy (p : P)
  | gotoForward (p : P)
  | gotoBackward (p : P)
  /-- `trajectory_a_abs`, in degrees -/
  | turnTo (deg : Int)
  /-- `trajectory_d_rel`, in mm -/
  | forward (mm : Int)
  /-- `trajectory_stop`, `trajectory_hardstop` -/
  | stop
  | hardstop
  /-- `robot.mode = …` -/
  | mode (m : Mode)
  | sleep (ms : Nat)
  /-- The log message at the beginning of an action, actions_impl.cpp:11, 61 and 108. The state is kept for the proofs. -/
  | begin (i : Nat) (s : State)
deriving DecidableEq

/-- The last poll of `trajectory_wait_for_end`: the robot, the time, and the reason that is returned -/
structure Poll where
  robot : Base.Robot
  now : Int
  reason : BitVec 32

/-- What is asked -/
inductive Query where
  /-- `trajectory_wait_for_end` -/
  | wait (flags : BitVec 32)
  /-- `trajectory_game_has_ended` -/
  | ended
  /-- `position_get_y_double` -/
  | y
  /-- `oa_start_end_points`, `oa_process` and `oa_get_path`, on a position that is read before, base.cpp:50-64 -/
  | path (goal : Int × Int)
  /-- `planner.plan`, strategy.cpp:175-177 -/
  | plan (g : Goal) (s : State)

/-- The answers -/
def Query.Ans : Query → Type
  | .wait _ => Poll
  | .ended => Option Int × Int
  | .y => ℚ
  | .path _ => Map.Map × (Int × Int) × Except Oa.Fail (List P)
  | .plan _ _ => List (Option Nat)

inductive Prog (α : Type) where
  | ret (a : α)
  | act (c : Cmd) (k : Prog α)
  | ask (q : Query) (k : q.Ans → Prog α)

def Prog.bind {α β : Type} : Prog α → (α → Prog β) → Prog β
  | .ret a, f => f a
  | .act c k, f => .act c (k.bind f)
  | .ask q k, f => .ask q fun x => (k x).bind f

/-- What can be seen of an execution -/
inductive Event where
  | did (c : Cmd)
  | saw (q : Query) (a : q.Ans)

/-- Executions: what was done and seen, in order, and the result. Execution can be watched until any point; then there is no result. -/
inductive Exec {α : Type} : Prog α → List Event → Option α → Prop
  | cut (p : Prog α) : Exec p [] none
  | ret (a : α) : Exec (.ret a) [] (some a)
  | act {c : Cmd} {k : Prog α} {l : List Event} {r : Option α} : Exec k l r → Exec (.act c k) (.did c :: l) r
  | ask {q : Query} {k : q.Ans → Prog α} {a : q.Ans} {l : List Event} {r : Option α} : Exec (k a) l r → Exec (.ask q k) (.saw q a :: l) r

/-- Enough iterations for any path, see `Plan.plan_spec` -/
def FUEL : Nat := 200 * (200 * 92683 + 1) + 1

/-- Answers that can be given. Waiting returns what `trajectory_has_ended` returned at its last poll (trajectory_helpers.cpp:40-62); whether the game has ended depends on the
start of the game and the time; paths and plans are those of the two planners, on any map and with anything left in the pool of nodes. -/
def Event.Ok : Event → Prop
  | .did _ => True
  | .saw (.wait flags) p => p.reason ≠ 0 ∧ ∃ r', p.robot.hasEnded flags p.now = some (p.reason, r')
  | .saw .ended _ => True
  | .saw .y _ => True
  | .saw (.path goal) (m, start, r) => Plan.plan m start goal FUEL = .ok r
  | .saw (.plan g s) path => ∃ pool r, Goap.plan Strategy.SPACE_SIZE g.problem Strategy.MAX_PATH_LEN (Strategy.SPACE_SIZE + 2) pool s = .ok r ∧ path = r.path

/-! ## strategy_impl/base.cpp -/

open Base (GOAL_REACHED COLLISION OPPONENT_NEAR TIMER ALLY_NEAR NEAR_GOAL)

/-- `TRAJ_FLAGS_ALL`, `TRAJ_FLAGS_ALL_IGNORE_OPPONENT`, `TRAJ_FLAGS_SHORT_DISTANCE`, trajectory_helpers.h:30-34 -/
def FLAGS_ALL : BitVec 32 := GOAL_REACHED ||| COLLISION ||| OPPONENT_NEAR ||| TIMER ||| ALLY_NEAR
def FLAGS_ALL_IGNORE_OPPONENT : BitVec 32 := GOAL_REACHED ||| COLLISION ||| TIMER ||| ALLY_NEAR
def FLAGS_SHORT_DISTANCE : BitVec 32 := GOAL_REACHED ||| COLLISION ||| TIMER

/-- `strategy_stop_robot`, `strategy_hardstop_robot`, base.cpp:22-38, followed by `k` -/
def halt {α : Type} (c : Cmd) (k : Prog α) : Prog α :=
  .act c <| .act (.sleep 200) <| .act (.mode .free) <| .act (.sleep 200) <| .act (.mode .angleDistance) k

/-- The waypoints, base.cpp:74-90: the reason of the last end -/
def follow (flags : BitVec 32) : List P → BitVec 32 → Prog (BitVec 32)
  | [], reason => .ret reason
  | p :: l, _ =>
    .act (.gotoXy p) <| .ask (.wait (if l = [] then flags else flags ||| NEAR_GOAL)) fun e =>
      if e.reason ≠ GOAL_REACHED ∧ e.reason ≠ NEAR_GOAL then .ret e.reason else follow flags l e.reason

/-- How the path ended, base.cpp:92-122 -/
def finish (deg : Int) (reason : BitVec 32) : Prog Bool :=
  if reason = GOAL_REACHED then
    .act (.sleep 200) <| .act (.turnTo deg) <| .ask (.wait GOAL_REACHED) fun _ => .act .unlock <| .ret true
  else if reason = OPPONENT_NEAR then
    halt .hardstop <| .act (.sleep 100) <| halt .hardstop <| .act .unlock <| .ret false
  else if reason = COLLISION then halt .hardstop <| .act .unlock <| .ret false
  else if reason = ALLY_NEAR then halt .hardstop <| .act .unlock <| .ret false
  else if reason = TIMER then halt .stop <| .act .unlock <| .ret false
  else .act .unlock <| .ret false

/-- `oa_get_path`: the number of points is 0 or negative if there is no path, obstacle_avoidance.c:121-196 -/
def points : Except Oa.Fail (List P) → List P
  | .ok l => l
  | .error _ => []

/-- base.cpp:44-60: the flag is cleared and set again -/
def dangerous {α : Type} (flags : BitVec 32) (b : Bool) (k : Prog α) : Prog α :=
  if flags = FLAGS_ALL_IGNORE_OPPONENT then .act (.enableOpponent b) k else k

/-- `strategy_goto_avoid`, base.cpp:40-123 -/
def gotoAvoid (goal : Int × Int) (deg : Int) (flags : BitVec 32) : Prog Bool :=
  .act .lock <| dangerous flags false <| .ask (.path goal) fun (_, _, r) => dangerous flags true <|
    if points r = [] then halt .stop <| .act .unlock <| .ret false
    else (follow flags (points r) 0).bind (finish deg)

/-- `strategy_goto_avoid_retry`, base.cpp:125-143, as long as it makes at most `fuel` tries; `counter` does not overflow before. -/
def retry (goal : Int × Int) (deg : Int) (flags : BitVec 32) (retries : Int) : Nat → Int → Prog (Option Bool)
  | 0, _ => .ret none
  | fuel + 1, counter =>
    (gotoAvoid goal deg flags).bind fun finished =>
      if 0 ≤ retries ∧ retries < counter + 1 then .ret (some finished)
      else if finished then .ret (some finished)
      else retry goal deg flags retries fuel (counter + 1)

/-! ## strategy/actions_impl.cpp -/

/-- A movement that must reach its goal, for example actions_impl.cpp:17-22: if not, the action fails. -/
def must (c : Cmd) (s : State) (k : Prog (State × Bool)) : Prog (State × Bool) :=
  .act c <| .ask (.wait FLAGS_ALL) fun e => if e.reason ≠ GOAL_REACHED then .ret (s, false) else k

/-- `EnableLighthouse::execute`, actions_impl.cpp:8-56 -/
def lighthouse (s : State) : Prog (State × Bool) :=
  must (.gotoForward ⟨525, 300⟩) s <| must (.gotoBackward ⟨225, 400⟩) s <| must (.turnTo (-90)) s <|
    .act (.forward 300) <| .ask (.wait FLAGS_SHORT_DISTANCE) fun _ => .ask .y fun (y : ℚ) =>
      if y > 150 then .ret (s, false)
      else .act (.forward (-200)) <| .ask (.wait FLAGS_SHORT_DISTANCE) fun _ => .ret ({ s with lighthouse := true }, true)

/-- `RaiseWindsock::execute`, actions_impl.cpp:58-104 -/
def windsock (second : Bool) (s : State) : Prog (State × Bool) :=
  let x : ℚ := if second then 2365 else 2770
  must (.gotoXy ⟨x - 100, 1500⟩) s <| must (.gotoXy ⟨x - 100, 2000 - 150⟩) s <| must (.turnTo 0) s <| must (.forward 200) s <|
    .ret (if second then { s with windsock1 := true } else { s with windsock0 := true }, true)

/-- `BackwardReefPickup::execute`, actions_impl.cpp:106-153 -/
def pickup (s : State) : Prog (State × Bool) :=
  must (.gotoXy ⟨500, 1525⟩) s <| must (.turnTo 0) s <| .act (.sleep 500) <| must (.forward (-300)) s <| .act (.sleep 400) <|
    let s : State := { s with
      robot := { s.robot with
        backLeft := { s.robot.backLeft with val := s.ourDispenser.g0 }
        backCenter := { s.robot.backCenter with val := s.ourDispenser.g1 }
        backRight := { s.robot.backRight with val := s.ourDispenser.g2 } }
      ourDispenser := { s.ourDispenser with g0 := .unknown, g1 := .unknown, g2 := .unknown } }
    must (.forward 100) s <| .ret (s, true)

/-- The actions in the order of `strategy_get_actions`, strategy.cpp:120-129 -/
def execute (i : Nat) (s : State) : Prog (State × Bool) :=
  .act (.begin i s) <| match i with
    | 0 => lighthouse s
    | 1 => windsock false s
    | 2 => windsock true s
    | _ => pickup s

/-! ## strategy.cpp -/

/-- `trajectory_game_has_ended` -/
def ended {α : Type} (k : Bool → Prog α) : Prog α := .ask .ended fun (start, now) => k (Base.gameHasEnded start now)

/-- The actions of a plan, strategy.cpp:178-187. A plan has no null pointers (`Strategy.plan_always`); here they are skipped. -/
def perform : List (Option Nat) → State → Prog State
  | [], s => .ret s
  | none :: l, s => perform l s
  | some i :: l, s => (execute i s).bind fun (s, ok) => if !ok then .ret s else ended fun e => if e then .ret s else perform l s

/-- One goal after the other, strategy.cpp:174-191 -/
def passes : List Goal → State → Prog State
  | [], s => .ret s
  | g :: gs, s => .ask (.plan g s) fun path => (perform path s).bind fun s => ended fun e => if e then .ret s else passes gs s

/-- The loop, strategy.cpp:173-192, as long as it makes at most `fuel` rounds -/
def rounds : Nat → State → Prog (Option State)
  | 0, _ => .ret none
  | fuel + 1, s => ended fun e => if e then .ret (some s) else (passes [.lighthouseEnabled, .windsocksUp] s).bind (rounds fuel)

/-- `strategy_order_play_game` after the start, strategy.cpp:164-200 -/
def play (fuel : Nat) (s : State) : Prog (Option State) :=
  (rounds fuel s).bind fun r => .ret (r.map fun s => { s with robot := { s.robot with flagsDeployed := { s.robot.flagsDeployed with val := true } } })

end Verif.Match
