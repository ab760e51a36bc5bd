import Verif.Motors.Model
import Verif.MotorCtl.Model
import Verif.Drive.Model

/-!
# Motor commands from the master to the motor boards

The master (`Motors`), a bus that may delay and lose, and any number of motor boards, each with the interpolator of `Drive` and the watchdog of `MotorCtl`:
motor-control-firmware/src/uavcan/{Velocity,Position,Torque,Voltage,Trajectory,EmergencyStop,Reboot}_handler.cpp and the setpoint functions of control.c.

Simplifications: a board sees the frames of the bus in their order, after any delay, and may miss any of them. Storing a setpoint and its time stamp is one step (`MotorCtl`
separates them). Floats are decoded to exact numbers by an arbitrary function `val`; NaN and infinities are not considered. All boards' clocks run at the rate of the master's,
with any offset.
-/

namespace Verif.Chain

open Motors (F Msg)

/-- Frames of the bus: the four setpoint messages, Trajectory, EmergencyStop and Reboot, uavcan_data_types/cvra/… -/
inductive Frame where
  | set (m : Msg)
  | traj (node : Nat) (pos vel acc torque : ℚ)
  | stop
  | reboot (mode : BitVec 8)
deriving DecidableEq

/-- The node id of the setpoint messages is `uint7`, which saturates (motor/control/*.uavcan). -/
def wire (m : Msg) : Frame := .set { m with node := min m.node 127 }

inductive Run where
  | app
  /-- in the bootloader, which starts the application by itself (`true`) or not -/
  | loader (auto : Bool)
deriving DecidableEq

/-- A motor board: its node id, `setpoint_interpolation`, `last_setpoint_update`, `low_batt_th` and the measured position, velocity and kind of axis of control.c:43-95, the offset
of its clock, whether the application runs, and the frames not yet handled. -/
structure Board where
  node : Nat
  off : Nat
  run : Run
  ip : Drive.Ip
  last : BitVec 32
  lowBatt : ℚ
  pos : ℚ
  vel : ℚ
  periodic : Bool
  inbox : List Frame

/-- `control_init`, control.c:300-330, at instant `now` of the master's clock: the watchdog starts, the interpolator is in torque mode with torque zero. The bus is empty for it. -/
def Board.boot (b : Board) (now : Nat) : Board :=
  { b with run := .app, ip := b.ip.init, last := MotorCtl.stampAt (now + b.off), lowBatt := 5, inbox := [] }

/-- `control_update_…_setpoint`, control.c:100-151: the interpolator and the time stamp -/
def Board.store (b : Board) (now : Nat) (ip : Drive.Ip) : Board := { b with ip := ip, last := MotorCtl.stampAt (now + b.off) }

/-- The four handlers {Velocity,Position,Torque,Voltage}_handler.cpp, after the comparison of the node ids -/
def Board.setpoint (val : F → ℚ) (b : Board) (now : Nat) (mode : Motors.Mode) (v : F) : Board :=
  match mode with
  | .velocity => b.store now (b.ip.updateVelocity (val v) b.vel)
  | .position => b.store now (b.ip.updatePosition (val v) b.pos b.vel b.periodic)
  | .torque => b.store now (b.ip.updateTorque (val v))
  | .voltage => b.store now (b.ip.updateVoltage (val v))
  | .disabled => b

/-- `reboot_system`: the application ends, with its pending frames. -/
def Board.reboot (b : Board) (auto : Bool) : Board := { b with run := .loader auto, inbox := [] }

/-- All handlers; the second component says whether a setpoint was taken. `Reboot_handler` ignores unknown modes. There is no message for `disabled`. -/
def Board.handle (val : F → ℚ) (now : Nat) (b : Board) : Frame → Board × Bool
  | .set m => if m.node = b.node ∧ m.mode ≠ .disabled then (b.setpoint val now m.mode m.value, true) else (b, false)
  | .traj n pos vel acc torque => if n = b.node then (b.store now (b.ip.updateTrajectory pos vel acc torque), true) else (b, false)
  | .stop => (b.reboot false, false)
  | .reboot k => if k = 0 then (b.reboot true, false) else if k = 1 then (b.reboot true, false) else if k = 2 then (b.reboot false, false) else (b, false)

/-- A frame on the bus, for one board -/
def Board.hear (b : Board) (fs : List Frame) : Board := if b.run = .app then { b with inbox := b.inbox ++ fs } else b

/-- What the control loop does to the motor (control.c:433-454, `MotorCtl.loop`); nothing drives it while the application does not run. -/
def Board.drive (b : Board) (now : Nat) (batt cascade : ℚ) : Option MotorCtl.Out :=
  if b.run = .app then
    some (MotorCtl.loop ⟨now + b.off, b.last, b.lowBatt, if b.ip.mode = .volt then .volt else .other, b.ip.voltage⟩ batt cascade)
  else none

structure Sys where
  now : Nat
  mgr : Motors.Mgr
  boards : List Board

inductive Ev where
  | advance (us : Nat)
  /-- an operation of the master; the timer sends -/
  | op (o : Motors.Op)
  /-- a frame of another node of the bus -/
  | frame (f : Frame)
  /-- board `i` handles its next frame, or misses it -/
  | deliver (i : Nat)
  | lose (i : Nat)
  /-- board `i`'s control loop runs: new measurements, and the interpolator moves on (`Drive.Ip.compute` changes its position and velocity only) -/
  | measure (i : Nat) (pos vel : ℚ) (periodic : Bool) (ipPos ipVel : ℚ)
  | param (i : Nat) (lowBatt : ℚ)
  /-- the bootloader of board `i` starts the application -/
  | boot (i : Nat)

/-- What can be observed: board `i` took a setpoint, or started, at some time. -/
inductive Obs where
  | took (i t : Nat) (f : Frame)
  | booted (i t : Nat)
deriving DecidableEq

/-- Board `i` handles the frame at the head of its inbox. -/
def deliver (val : F → ℚ) (s : Sys) (i : Nat) : Sys × List Obs :=
  match s.boards[i]? with
  | none => (s, [])
  | some b =>
    match b.inbox with
    | [] => (s, [])
    | f :: fs =>
      let r := { b with inbox := fs }.handle val s.now f
      ({ s with boards := s.boards.set i r.1 }, if r.2 then [.took i s.now f] else [])

def boot (s : Sys) (i : Nat) : Sys × List Obs :=
  match s.boards[i]? with
  | none => (s, [])
  | some b => if b.run = .loader true then ({ s with boards := s.boards.set i (b.boot s.now) }, [.booted i s.now]) else (s, [])

def step (val : F → ℚ) (s : Sys) : Ev → Except Motors.Err (Sys × List Obs)
  | .advance us => .ok ({ s with now := s.now + us }, [])
  | .op o =>
    match Motors.step s.mgr o with
    | .error e => .error e
    | .ok (m, ms) => .ok ({ s with mgr := m, boards := s.boards.map (·.hear (ms.map wire)) }, [])
  | .frame f => .ok ({ s with boards := s.boards.map (·.hear [f]) }, [])
  | .deliver i => .ok (deliver val s i)
  | .lose i => .ok ({ s with boards := s.boards.modify i fun b => { b with inbox := b.inbox.tail } }, [])
  | .measure i p v per ip iv =>
    .ok ({ s with boards := s.boards.modify i fun b => { b with pos := p, vel := v, periodic := per, ip := { b.ip with pos := ip, vel := iv } } }, [])
  | .param i th => .ok ({ s with boards := s.boards.modify i fun b => { b with lowBatt := th } }, [])
  | .boot i => .ok (boot s i)

def run (val : F → ℚ) (s : Sys) : List Ev → Except Motors.Err (Sys × List Obs)
  | [] => .ok (s, [])
  | e :: es =>
    match step val s e with
    | .error e => .error e
    | .ok (s1, a) =>
      match run val s1 es with
      | .error e => .error e
      | .ok (s2, b) => .ok (s2, a ++ b)

/-- The start: the master with empty tables, and boards that have just started, of the given node ids and clocks. Limits of the master as in main.cpp:128-139. -/
def start (cap enCap now : Nat) (ids : List (Nat × Nat)) : Sys :=
  ⟨now, Motors.init cap enCap, ids.map fun p =>
    Board.boot ⟨p.1, p.2, .app, ⟨.torque, 0, 0, 0, 0, 0, 0, 0, 0, 0, false⟩, 0, 5, 0, 0, false, []⟩ now⟩

end Verif.Chain
