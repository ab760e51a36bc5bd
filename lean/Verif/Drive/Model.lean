import Mathlib.Data.Rat.Floor
import Verif.Filter.Model

/-!
# Motor controller

Model of `lib/pid/pid.c`, of `motor-control-firmware/src/pid_cascade.c` and of `motor-control-firmware/src/setpoint.c`, and of `angle_delta`
(`master-firmware/src/robot_helpers/math_helpers.c`). The PID and the cascade take their arithmetic as a parameter. The setpoint interpolation is modelled in
exact arithmetic; divisions by zero, which give infinities or NaN there, are a separate outcome, and which sign a zero has is a parameter.
-/

namespace Verif.Drive

open Num Filter

variable {F : Type}

/-! ## PID -/

/-- `pid_ctrl_t`, lib/pid/include/pid/pid.h -/
structure Pid (F : Type) where
  kp : F
  ki : F
  kd : F
  integrator : F
  previousError : F
  integratorLimit : F
  frequency : F
deriving DecidableEq

/-- `pid_init`, pid.c:5-12 -/
def Pid.init (A : Arith F) (one inf : F) : Pid F := ⟨one, A.zero, A.zero, A.zero, A.zero, inf, one⟩

/-- pid.c:41-47 -/
def Pid.integrate (A : Arith F) (p : Pid F) (error : F) : F :=
  let i := A.add p.integrator error
  if A.lt p.integratorLimit i then p.integratorLimit
  else if A.lt i (A.neg p.integratorLimit) then A.neg p.integratorLimit
  else i

/-- `pid_process`, pid.c:38-55 -/
def Pid.process (A : Arith F) (p : Pid F) (error : F) : F × Pid F :=
  let i := p.integrate A error
  let output := A.mul (A.neg p.kp) error
  let output := A.add output (A.div (A.mul (A.neg p.ki) i) p.frequency)
  let output := A.add output (A.mul (A.mul (A.neg p.kd) (A.sub error p.previousError)) p.frequency)
  (output, { p with integrator := i, previousError := error })

/-- `pid_reset_integral`, pid.c:62-65: the previous error is kept. -/
def Pid.resetIntegral (A : Arith F) (p : Pid F) : Pid F := { p with integrator := A.zero }

/-- `pid_set_gains`, `pid_set_integral_limit`, `pid_set_frequency`, pid.c:14-19, 57-60 and 67-70 -/
def Pid.setGains (p : Pid F) (kp ki kd : F) : Pid F := { p with kp := kp, ki := ki, kd := kd }
def Pid.setLimit (p : Pid F) (max : F) : Pid F := { p with integratorLimit := max }
def Pid.setFrequency (p : Pid F) (f : F) : Pid F := { p with frequency := f }

/-- Outputs for a sequence of errors -/
def Pid.run (A : Arith F) (p : Pid F) : List F → List F × Pid F
  | [] => ([], p)
  | e :: es =>
    let (y, p) := p.process A e
    let (ys, p) := p.run A es
    (y :: ys, p)

/-! ## Angles -/

/-- Integral part: rounding towards zero -/
def trunc (q : ℚ) : Int := if 0 ≤ q then ⌊q⌋ else ⌈q⌉

/-- `fmod` -/
def fmod (x m : ℚ) : ℚ := x - m * trunc (x / m)

/-- `periodic_error`, pid_cascade.c:5-15, for any value of `M_PI` -/
def periodicError (pi : ℚ) (err : ℚ) : ℚ :=
  let err := fmod err (2 * pi)
  if err > pi then err - 2 * pi
  else if err < -pi then err + 2 * pi
  else err

/-- `angle_delta`, math_helpers.c:7-17 -/
def angleDelta (pi : ℚ) (start stop : ℚ) : ℚ :=
  let res := fmod (stop - start + pi) (2 * pi) - pi
  let conj := 2 * pi - res
  if |res| < |conj| then res else conj

/-! ## Cascade -/

/-- `struct setpoint_s`, setpoint.h:32-38 -/
structure Setpts (F : Type) where
  posEnabled : Bool
  velEnabled : Bool
  position : F
  velocity : F
  torque : F
deriving DecidableEq

/-- `struct pid_cascade_s`, pid_cascade.h:12-42, without the fields that are not used by `pid_cascade_control` -/
structure Cascade (F : Type) where
  currentPid : Pid F
  velocityPid : Pid F
  positionPid : Pid F
  currentConstant : F
  velocityLimit : F
  torqueLimit : F
  currentLimit : F
  setpts : Setpts F
  periodic : Bool
  position : F
  velocity : F
  current : F
  motorVoltage : F
  positionSetpoint : F
  positionError : F
  positionOut : F
  velocitySetpoint : F
  velocityError : F
  velocityOut : F
  currentSetpoint : F
  currentError : F

/-- The position controller, pid_cascade.c:19-33; `perr` is `periodic_error`. -/
def Cascade.positionStep (A : Arith F) (perr : F → F) (c : Cascade F) : F × Cascade F :=
  if c.setpts.posEnabled then
    let e := A.sub c.position c.setpts.position
    let e := if c.periodic then perr e else e
    let (v, pid) := c.positionPid.process A e
    (v, { c with positionSetpoint := c.setpts.position, positionError := e, positionPid := pid, positionOut := v })
  else (A.zero, { c with positionPid := c.positionPid.resetIntegral A })

/-- The velocity controller, pid_cascade.c:35-47 -/
def Cascade.velocityStep (A : Arith F) (posVel : F) (c : Cascade F) : F × Cascade F :=
  if c.setpts.velEnabled then
    let v := limitSym A (A.add c.setpts.velocity posVel) c.velocityLimit
    let e := A.sub c.velocity v
    let (t, pid) := c.velocityPid.process A e
    (t, { c with velocitySetpoint := v, velocityError := e, velocityPid := pid, velocityOut := t })
  else (A.zero, { c with velocityPid := c.velocityPid.resetIntegral A })

/-- The torque limit, pid_cascade.c:50-51 -/
def Cascade.torque (A : Arith F) (velTorque : F) (c : Cascade F) : F := limitSym A (A.add velTorque c.setpts.torque) c.torqueLimit

/-- The current controller, pid_cascade.c:52-56 -/
def Cascade.currentStep (A : Arith F) (torque : F) (c : Cascade F) : Cascade F :=
  let i := limitSym A (A.mul torque c.currentConstant) c.currentLimit
  let e := A.sub c.current i
  let (u, pid) := c.currentPid.process A e
  { c with currentSetpoint := i, currentError := e, currentPid := pid, motorVoltage := u }

/-- `pid_cascade_control`, pid_cascade.c:17-57 -/
def Cascade.control (A : Arith F) (perr : F → F) (c : Cascade F) : Cascade F :=
  let (v, c) := c.positionStep A perr
  let (t, c) := c.velocityStep A v
  c.currentStep A (c.torque A t)

/-! ## Setpoints -/

/-- `SETPT_MODE_…`, setpoint.h:11-15 -/
inductive Mode where
  | pos
  | vel
  | torque
  | traj
  | volt
deriving DecidableEq

/-- `setpoint_interpolator_t`, setpoint.h:17-30, without the timestamp of the trajectory mode -/
structure Ip where
  mode : Mode
  targetPos : ℚ
  targetVel : ℚ
  voltage : ℚ
  torque : ℚ
  pos : ℚ
  vel : ℚ
  trajAcc : ℚ
  accLimit : ℚ
  velLimit : ℚ
  periodic : Bool
deriving DecidableEq

/-- `copysignf(1.0, x)`; `z` is the sign of `x` if it is zero. -/
def sign (z : Bool) (x : ℚ) : ℚ := if x < 0 then -1 else if x = 0 ∧ z = true then -1 else 1

/-- `vel_ramp`, setpoint.c:17-45; none is a division by zero. -/
def velRamp (pi : ℚ) (z : Bool × Bool) (pos vel target dt maxVel maxAcc : ℚ) (periodic : Bool) : Option ℚ :=
  if maxAcc = 0 ∨ dt = 0 then none
  else
    let breaking := vel * vel / 2 / maxAcc
    let error := if periodic then periodicError pi (pos - target) else pos - target
    let s := sign z.1 error
    some (if s ≠ sign z.2 vel then
      if |error| ≤ breaking ∨ |error| ≤ maxAcc * dt * dt / 2 then -limitSym exact (vel / dt) maxAcc
      else if |vel| ≥ maxVel then 0
      else -s * maxAcc
    else
      if |error| ≤ maxAcc * dt * dt / 2 then -limitSym exact (vel / dt) maxAcc
      else -s * maxAcc)

/-- `pos_setpt_interpolation`, `vel_setpt_interpolation`, setpoint.c:6-14 -/
def posInterp (pos vel acc dt : ℚ) : ℚ := pos + vel * dt + acc / 2 * dt * dt
def velInterp (vel acc dt : ℚ) : ℚ := vel + acc * dt

/-- `setpoint_init`, setpoint.c:47-53 -/
def Ip.init (ip : Ip) : Ip := { ip with mode := .torque, torque := 0, accLimit := 0, velLimit := 0 }

/-- `setpoint_update_position`, setpoint.c:66-82 -/
def Ip.updatePosition (ip : Ip) (pos curPos curVel : ℚ) (periodic : Bool) : Ip :=
  let ip := if ip.mode = .torque then { ip with pos := curPos, vel := curVel } else ip
  let ip := if ip.mode = .vel then { ip with pos := curPos } else ip
  { ip with mode := .pos, targetPos := pos, periodic := periodic }

/-- `setpoint_update_velocity`, setpoint.c:84-93 -/
def Ip.updateVelocity (ip : Ip) (vel curVel : ℚ) : Ip :=
  let ip := if ip.mode = .torque then { ip with vel := curVel } else ip
  { ip with mode := .vel, targetVel := vel }

/-- `setpoint_update_torque`, `setpoint_update_voltage`, setpoint.c:95-99 and 116-120 -/
def Ip.updateTorque (ip : Ip) (t : ℚ) : Ip := { ip with mode := .torque, torque := t }
def Ip.updateVoltage (ip : Ip) (u : ℚ) : Ip := { ip with mode := .volt, voltage := u }

/-- `setpoint_update_trajectory`, setpoint.c:101-114 -/
def Ip.updateTrajectory (ip : Ip) (pos vel acc torque : ℚ) : Ip := { ip with mode := .traj, pos := pos, vel := vel, trajAcc := acc, torque := torque }

/-- `setpoint_compute`, setpoint.c:122-177; `ipdt` is the time since the last trajectory point; none is a division by zero. -/
def Ip.compute (pi : ℚ) (z : Bool × Bool) (ip : Ip) (sp : Setpts ℚ) (dt ipdt : ℚ) : Option (Ip × Setpts ℚ) :=
  match ip.mode with
  | .traj => some (ip, ⟨true, true, posInterp ip.pos ip.vel ip.trajAcc ipdt, velInterp ip.vel ip.trajAcc ipdt, ip.torque⟩)
  | .torque => some (ip, { sp with posEnabled := false, velEnabled := false, torque := ip.torque })
  | .vel =>
    let v := ip.vel + limitSym exact (ip.targetVel - ip.vel) (dt * ip.accLimit)
    some ({ ip with vel := v }, { sp with posEnabled := false, velEnabled := true, velocity := v, torque := 0 })
  | .pos =>
    match velRamp pi z ip.pos ip.vel ip.targetPos dt ip.velLimit ip.accLimit ip.periodic with
    | none => none
    | some acc =>
      let p := posInterp ip.pos ip.vel acc dt
      let v := velInterp ip.vel acc dt
      some ({ ip with pos := p, vel := v }, ⟨true, true, p, v, 0⟩)
  | .volt => some (ip, sp)

end Verif.Drive
