import Verif.Goap.Model

/-!
# Strategy of the match

Models of the state, actions and goals the robot plans with (`master-firmware/protobuf/strategy.proto`, `master-firmware/src/strategy/`), of the score, and of the
loop that plays the match (`master-firmware/src/strategy.cpp:131-203`) on top of the planner of `Verif.Goap`.

`operator==` of the state (state.cpp:12-15) compares the bytes of a packed struct without padding, which is equality of the fields. Glasses have one of the three values of
the enumeration. What an action does to the robot is left open: it succeeds or fails.
-/

namespace Verif.Strategy

open Goap (Action Problem Heap)

/-- `GlassColor`, strategy.proto:10-14 -/
inductive Glass where
  | unknown | red | green
deriving DecidableEq, Repr

/-- An optional field of a nanopb message -/
structure Opt (α : Type) where
  has : Bool
  val : α
deriving DecidableEq

/-- `RobotState`, strategy.proto:38-49 -/
structure RobotState where
  frontLeft : Opt Glass
  frontCenter : Opt Glass
  frontRight : Opt Glass
  backLeft : Opt Glass
  backCenter : Opt Glass
  backRight : Opt Glass
  flagsDeployed : Opt Bool
deriving DecidableEq

/-- `DispenserState`, strategy.proto:51-56 -/
structure Dispenser where
  g0 : Glass
  g1 : Glass
  g2 : Glass
  g3 : Glass
  g4 : Glass
deriving DecidableEq

/-- An array of six glasses, strategy.proto:58-73 -/
structure Six where
  g0 : Glass
  g1 : Glass
  g2 : Glass
  g3 : Glass
  g4 : Glass
  g5 : Glass
deriving DecidableEq

def Dispenser.toList (d : Dispenser) : List Glass := [d.g0, d.g1, d.g2, d.g3, d.g4]
def Six.toList (d : Six) : List Glass := [d.g0, d.g1, d.g2, d.g3, d.g4, d.g5]

/-- `StrategyState`, strategy.proto:16-36 -/
structure State where
  robot : RobotState
  ourDispenser : Dispenser
  sharedNear : Dispenser
  sharedFar : Dispenser
  table : Six
  windsock0 : Bool
  windsock1 : Bool
  lighthouse : Bool
  greenLine : Six
  redLine : Six
deriving DecidableEq

/-- `initial_state`, state.cpp:5-10: everything zero -/
def initial : State :=
  let o : Opt Glass := ⟨false, .unknown⟩
  let d : Dispenser := ⟨.unknown, .unknown, .unknown, .unknown, .unknown⟩
  let x : Six := ⟨.unknown, .unknown, .unknown, .unknown, .unknown, .unknown⟩
  ⟨⟨o, o, o, o, o, o, ⟨false, false⟩⟩, d, d, d, x, false, false, false, x, x⟩

/-! ## Actions, actions_goap.cpp -/

/-- `EnableLighthouse`, actions_goap.cpp:11-20 -/
def enableLighthouse : Action State where
  canRun := fun _ => true
  effects := fun s => { s with lighthouse := true }

/-- `RaiseWindsock`, actions_goap.cpp:22-36, with index 0 and 1 -/
def raiseWindsock0 : Action State where
  canRun := fun s => !s.windsock0
  effects := fun s => { s with windsock0 := true }

def raiseWindsock1 : Action State where
  canRun := fun s => !s.windsock1
  effects := fun s => { s with windsock1 := true }

/-- `BackwardReefPickup`, actions_goap.cpp:38-67. Only the values of the optional fields are set. -/
def pickup : Action State where
  canRun := fun s =>
    if s.robot.backCenter.val ≠ .unknown ∨ s.robot.backLeft.val ≠ .unknown ∨ s.robot.backRight.val ≠ .unknown then false
    else if s.ourDispenser.g0 = .unknown ∧ s.ourDispenser.g1 = .unknown ∧ s.ourDispenser.g2 = .unknown then false
    else true
  effects := fun s =>
    { s with
      robot := { s.robot with
        backLeft := { s.robot.backLeft with val := s.ourDispenser.g0 }
        backCenter := { s.robot.backCenter with val := s.ourDispenser.g1 }
        backRight := { s.robot.backRight with val := s.ourDispenser.g2 } }
      ourDispenser := { s.ourDispenser with g0 := .unknown, g1 := .unknown, g2 := .unknown } }

/-- `strategy_get_actions`, strategy.cpp:120-129 -/
def actions : List (Action State) := [enableLighthouse, raiseWindsock0, raiseWindsock1, pickup]

/-! ## Goals, goals.cpp -/

/-- `goap::Distance().shouldBeTrue`, goap.hpp:164-190 -/
def shouldBeTrue (d : Int) (b : Bool) : Int := d + (if b then 0 else 1)

inductive Goal where
  | lighthouseEnabled | windsocksUp
deriving DecidableEq

/-- `distance_to`, goals.cpp:4-14 -/
def Goal.dist : Goal → State → Int
  | .lighthouseEnabled, s => shouldBeTrue 0 s.lighthouse
  | .windsocksUp, s => shouldBeTrue (shouldBeTrue 0 s.windsock0) s.windsock1

/-- The planning problem of a goal; `is_reached` is goap.hpp:38-41. -/
def Goal.problem (g : Goal) : Problem State where
  acts := actions
  reached := fun s => g.dist s == 0
  dist := g.dist

/-! ## Score, score.cpp -/

/-- `compute_windsocks`, score.cpp:3-14 -/
def scoreWindsocks (s : State) : Int :=
  if s.windsock0 && s.windsock1 then 15 else if s.windsock0 || s.windsock1 then 5 else 0

/-- `compute_lighthouse`, score.cpp:16-31 -/
def scoreLighthouse (s : State) (main : Bool) : Int :=
  let score := 0
  let score := if main then score + 2 else score
  if s.lighthouse then score + 13 else score

/-- `compute_flags`, score.cpp:33-44 -/
def scoreFlags (s : State) (main : Bool) : Int := if !main then 0 else if s.robot.flagsDeployed.val then 10 else 0

/-- One iteration of `compute_port`, score.cpp:51-75 -/
def scorePair (score : Int) (p : Glass × Glass) : Int :=
  let (green, red) := p
  let score := if green ≠ .unknown then score + 1 else score
  let score := if red ≠ .unknown then score + 1 else score
  let score := if green = .green then score + 1 else score
  let score := if red = .red then score + 1 else score
  if red = .red ∧ green = .green then score + 2 else score

/-- `compute_port`, score.cpp:46-78 -/
def scorePort (s : State) : Int := (s.greenLine.toList.zip s.redLine.toList).foldl scorePair 0

/-- `compute_score`, score.cpp:80-90 -/
def score (s : State) (main : Bool) : Int := 0 + scoreWindsocks s + scoreLighthouse s main + scoreFlags s main + scorePort s

/-! ## Playing, strategy.cpp:131-203 and actions_impl.cpp -/

/-- How executing an action ends: it fails before or after changing the state, or it succeeds. -/
inductive Outcome where
  | failed | failedLate | success
deriving DecidableEq

/-- `execute`, actions_impl.cpp. Only the pickup can fail after changing the state (lines 139-150); the other actions set the state and return true (lines 50-55 and
101-103). -/
def execute (i : Nat) (o : Outcome) (s : State) : State × Bool :=
  match i, o with
  | _, .failed => (s, false)
  | 0, _ => ({ s with lighthouse := true }, true)
  | 1, _ => ({ s with windsock0 := true }, true)
  | 2, _ => ({ s with windsock1 := true }, true)
  | _, o =>
    ({ s with
      robot := { s.robot with
        backLeft := { s.robot.backLeft with val := s.ourDispenser.g0 }
        backCenter := { s.robot.backCenter with val := s.ourDispenser.g1 }
        backRight := { s.robot.backRight with val := s.ourDispenser.g2 } }
      ourDispenser := { s.ourDispenser with g0 := .unknown, g1 := .unknown, g2 := .unknown } }, o == .success)

/-- The loop over the plan, strategy.cpp:178-187: for each action how it ends, and whether the game has ended afterwards. If the list of endings is too short the
actions fail. Null pointers do not occur in plans, see `plan_always`; here they are skipped. -/
def runPath : List (Option Nat) → List (Outcome × Bool) → State → State
  | some i :: path, (o, ended) :: os, s =>
    let (s, ok) := execute i o s
    if !ok then s else if ended then s else runPath path os s
  | none :: path, _ :: os, s => runPath path os s
  | _, _, s => s

def SPACE_SIZE : Nat := 150
def MAX_PATH_LEN : Int := 10

/-- Planning and executing for one goal, strategy.cpp:174-188. The pool holds what earlier plans left. -/
def pass (g : Goal) (pool : Heap State) (os : List (Outcome × Bool)) (s : State) : Option State :=
  match Goap.plan SPACE_SIZE g.problem MAX_PATH_LEN (SPACE_SIZE + 2) pool s with
  | .error _ => none
  | .ok r => some (runPath r.path os s)

/-- The match: any number of passes, and the flags at the end, strategy.cpp:173-200 -/
def play : List (Goal × Heap State × List (Outcome × Bool)) → State → Option State
  | [], s => some { s with robot := { s.robot with flagsDeployed := { s.robot.flagsDeployed with val := true } } }
  | (g, pool, os) :: l, s =>
    match pass g pool os s with
    | none => none
    | some s => play l s

/-- What `pb_encode` writes for an optional field: nothing if `has` is false -/
def Opt.encoded {α : Type} (o : Opt α) : Option α := if o.has then some o.val else none

end Verif.Strategy
