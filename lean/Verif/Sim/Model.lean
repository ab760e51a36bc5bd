import Verif.Base.Model

/-!
# The simulated robot: wheels and encoders of the two simulators

hitl/main.cpp and hitl/PhysicsRobot.cpp (physics by Box2D), webot_sim/controllers/uavcan_controller/uavcan_controller.cpp (physics by Webots). Floats are exact
rationals. The physics itself is not modelled: what a round of it does to the body is arbitrary, except in `Body.free`, which is the law of Box2D for a body
that touches nothing. The threads and the bus are left out: a round gets the voltages and gives the encoders.
-/

namespace Verif.Sim

open Base (Wheels i32)
open Quadramp (toI32)

/-- `clamp`, hitl/main.cpp:35-44 -/
def clamp (min val max : ℚ) : ℚ :=
  if val > max then val
  else if val < min then min
  else val

/-- The body of the robot, a `b2Body`: the unit vector of its heading, its velocity and angular velocity, mass and inertia, and the force and torque of this round.
Its box is symmetric, so its centre of mass is its position. -/
structure Body where
  c : ℚ
  s : ℚ
  vx : ℚ
  vy : ℚ
  w : ℚ
  mass : ℚ
  inertia : ℚ
  fx : ℚ := 0
  fy : ℚ := 0
  torque : ℚ := 0
deriving DecidableEq

/-- `b2Body::GetWorldVector` -/
def Body.world (b : Body) (x y : ℚ) : ℚ × ℚ := (b.c * x - b.s * y, b.s * x + b.c * y)

/-- `b2Body::GetLocalVector` -/
def Body.loc (b : Body) (x y : ℚ) : ℚ × ℚ := (b.c * x + b.s * y, -b.s * x + b.c * y)

/-- `b2Body::ApplyForce`; the point is given from the centre of mass. -/
def Body.applyForce (b : Body) (f p : ℚ × ℚ) : Body :=
  { b with fx := b.fx + f.1, fy := b.fy + f.2, torque := b.torque + (p.1 * f.2 - p.2 * f.1) }

/-- `b2Body::ApplyLinearImpulse` at the centre of mass -/
def Body.applyImpulse (b : Body) (i : ℚ × ℚ) : Body :=
  { b with vx := b.vx + i.1 / b.mass, vy := b.vy + i.2 / b.mass }

/-- `PhysicsRobot::ApplyWheelbaseForces`, PhysicsRobot.cpp:22-39 -/
def Body.wheelForces (b : Body) (size left right : ℚ) : Body :=
  let leftPos := b.world 0 (size / 2)
  let rightPos := b.world 0 (-size / 2)
  let leftForce := b.world left 0
  let rightForce := b.world right 0
  let b1 := (b.applyForce leftForce leftPos).applyForce rightForce rightPos
  let n := b1.world 0 1
  let k := n.1 * b1.vx + n.2 * b1.vy
  b1.applyImpulse (b1.mass * -(k * n.1), b1.mass * -(k * n.2))

/-- What `b2World::Step` does to the velocities of a body that touches nothing (no gravity, no damping, main.cpp:201-202) -/
def Body.free (b : Body) (dt : ℚ) : Body :=
  { b with vx := b.vx + dt * (b.fx / b.mass), vy := b.vy + dt * (b.fy / b.mass), w := b.w + dt * (b.torque / b.inertia), fx := 0, fy := 0, torque := 0 }

/-- `PhysicsRobot`, PhysicsRobot.h:6-10, without the body -/
structure Robot where
  size : ℚ
  ppm : ℚ
  left : ℚ := 0
  right : ℚ := 0
deriving DecidableEq

/-- `PhysicsRobot::AccumulateWheelEncoders`, PhysicsRobot.cpp:41-52 -/
def Robot.accumulate (r : Robot) (dt : ℚ) (b : Body) : Robot :=
  let v := (b.loc b.vx b.vy).1
  let r := { r with left := r.left + v * dt, right := r.right + v * dt }
  { r with left := r.left - 1 / 2 * r.size * b.w * dt, right := r.right + 1 / 2 * r.size * b.w * dt }

/-- `PhysicsRobot::GetWheelEncoders`, PhysicsRobot.cpp:54-58; `none`: outside of `int`, undefined -/
def Robot.encoders (r : Robot) : Option (Int × Int) :=
  (toI32 (1000 * r.ppm * r.left)).bind fun l => (toI32 (1000 * r.ppm * r.right)).bind fun rt => some (l, rt)

/-- The forces of a round, main.cpp:249-252: from the voltages of the left and the right motor -/
def forces (left right : ℚ) : ℚ × ℚ := (clamp (-8) (-left) 8, clamp (-8) right 8)

/-- The end of a round, main.cpp:259-263: `b` is the body after the step of the physics. -/
def Robot.round (r : Robot) (b : Body) : Robot × Option Wheels :=
  let r := r.accumulate (1 / 100) b
  (r, r.encoders.bind fun e => (i32 (-e.1)).map fun l => ⟨l, e.2⟩)

/-- The rounds one after the other: the robot and what the last one sent -/
def Robot.rounds (r : Robot) : List Body → Robot × Option Wheels
  | [] => (r, some ⟨0, 0⟩)
  | [b] => r.round b
  | b :: bs => (r.round b).1.rounds bs

/-- The robot of the simulator, main.cpp:207-212 -/
def hitl : Robot := { size := 212 / 1000, ppm := 162 }

/-- The speed given to a motor in Webots: `update_speed`, uavcan_controller.cpp:18-30 -/
def webotsSpeed (voltage direction : ℚ) : ℚ :=
  let speed := voltage / 10 * 10
  let speed := min (max speed (-10)) 10
  speed * (99 / 100) * direction

/-- The encoders in Webots, uavcan_controller.cpp:132-145: from the angles of the wheels -/
def webotsEncoders (left right : ℚ) : Option Wheels :=
  let leftpos := -left
  let pulsePerRadian := 37 * 162 / 2
  (toI32 (leftpos * pulsePerRadian)).bind fun l => (toI32 (right * pulsePerRadian)).bind fun r => some ⟨l, r⟩

/-! ## The table -/

/-- A static box: centre and half sizes, `makeBorders`, main.cpp:46-140 -/
structure Box where
  x : ℚ
  y : ℚ
  hx : ℚ
  hy : ℚ
deriving DecidableEq

def borders : List Box :=
  [⟨1 / 2 * 3, -1 / 10, 1 / 2 * 3, 1 / 10⟩,
   ⟨1 / 2 * 3, 2 + 1 / 10, 1 / 2 * 3, 1 / 10⟩,
   ⟨-1 / 10, 1 / 2 * 2, 1 / 10, 1 / 2 * 2⟩,
   ⟨3 + 1 / 10, 1 / 2 * 2, 1 / 10, 1 / 2 * 2⟩]

/-- Lines 101-139 -/
def dividers : List Box :=
  [⟨9 / 10, 1925 / 1000, 22 / 1000 / 2, 75 / 1000⟩,
   ⟨21 / 10, 1925 / 1000, 22 / 1000 / 2, 75 / 1000⟩,
   ⟨15 / 10, 1850, 22 / 1000 / 2, 150 / 1000⟩]

inductive Color where
  | green
  | red
deriving DecidableEq

structure Cup where
  color : Color
  x : ℚ
  y : ℚ
deriving DecidableEq

/-- `symmetry`, main.cpp:164-175 -/
def symmetry (init : Cup) : Cup :=
  { color := if init.color = .red then .green else .red, x := 3 - init.x, y := init.y }

/-- `cup_init` at first, main.cpp:149-162 -/
def cupInit : List Cup :=
  [⟨.green, 3 / 10, 4 / 10⟩, ⟨.red, 3 / 10, 12 / 10⟩, ⟨.red, 45 / 100, 51 / 100⟩, ⟨.green, 45 / 100, 108 / 100⟩,
   ⟨.green, 67 / 100, 1 / 10⟩, ⟨.red, 95 / 100, 4 / 10⟩, ⟨.green, 11 / 10, 8 / 10⟩, ⟨.red, 127 / 100, 12 / 10⟩,
   ⟨.red, 1065 / 1000, 165 / 100⟩, ⟨.green, 1335 / 1000, 165 / 100⟩, ⟨.green, 1005 / 1000, 1955 / 1000⟩, ⟨.red, 1395 / 1000, 1955 / 1000⟩]

/-- `create_cups`, main.cpp:142-190 -/
def cups (init : List Cup) : List Cup := init ++ init.map symmetry

/-- `PhysicsCup::radius`, PhysicsCup.h -/
def cupRadius : ℚ := 36 / 1000

end Verif.Sim
