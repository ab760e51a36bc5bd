import Verif.Common.CFloat
import Verif.Timestamp.Model

/-!
# Motor board: PWM output stage and control-loop watchdog

motor-control-firmware/src/motor_pwm.c and the decision of motor-control-firmware/src/control.c that
cuts the motor. `float` is `CFloat` (exact rationals plus the special values).
-/

namespace Verif.MotorCtl

open CFloat

/-! ## motor_pwm.c -/

/-- `PWM_PERIOD`, motor-control-firmware/src/motor_pwm.c:6. -/
def pwmPeriod : Int := 2880

/-- `DIRECTION_DC_RECHARGE`, motor-control-firmware/src/motor_pwm.c:12 (`0.75 * PWM_PERIOD`). -/
def dirRecharge : Int := 2160

/-- `POWR_DC_RECHARGE_CORRECTION`, motor-control-firmware/src/motor_pwm.c:13. -/
def rechargeCorrection : Int := pwmPeriod - dirRecharge

/-- `motor_pwm_set`, motor-control-firmware/src/motor_pwm.c:88-97: the new `power_pwm`; `none` is the
undefined conversion of NaN to an integer. (`0.95` is taken exactly.) -/
def motorPwmSet (dc : CFloat) : Option Int :=
  let dc := if lt (fin (95/100)) dc then fin (95/100)
    else if lt dc (fin (-95/100)) then fin (-95/100) else dc
  match dc with
  | fin q => toInt32 (fin (q * pwmPeriod))
  | x => toInt32 x

/-- The two timer compare registers, the recharge flag and whether the periodic callback stays
enabled. -/
structure PwmRegs where
  dir : Int
  pow : Int
  rechargeFlag : Bool
  notify : Bool
deriving DecidableEq, Repr

/-- `pwm_counter_reset`, motor-control-firmware/src/motor_pwm.c:33-67. -/
def pwmCounterReset (powerPwm : Int) (r : PwmRegs) : PwmRegs :=
  if powerPwm ≥ 0 then
    { dir := 0, pow := powerPwm, rechargeFlag := false, notify := false }
  else
    let rev := pwmPeriod + powerPwm
    if r.rechargeFlag then
      let rev := rev - rechargeCorrection
      { r with dir := dirRecharge, pow := if rev < 0 then 0 else rev, rechargeFlag := false }
    else
      { dir := pwmPeriod, pow := rev, rechargeFlag := false, notify := false }

/-- `motor_pwm_trigger_update_from_isr`, motor-control-firmware/src/motor_pwm.c:112-118. -/
def pwmTrigger (recharge : Bool) (r : PwmRegs) : PwmRegs :=
  { r with rechargeFlag := recharge, notify := true }

/-! ## control.c -/

/-- `enum setpoint mode`, only as far as the loop distinguishes it (control.c:449). -/
inductive Mode where
  | volt
  | other
deriving DecidableEq, Repr

/-- The variables of control.c the decision depends on. `now` is the current value of the
microsecond clock, unbounded (ghost); the code only sees its 32-bit stamp. -/
structure Ctrl where
  now : Nat
  /-- `last_setpoint_update`, control.c:92 -/
  last : BitVec 32
  /-- `low_batt_th`, control.c:94 (a parameter, may be changed at run time) -/
  lowBattTh : ℚ
  /-- `setpoint_interpolation.setpt_mode` -/
  mode : Mode
  /-- `setpoint_interpolation.setpt_voltage` -/
  volt : ℚ
deriving DecidableEq, Repr

/-- The 32-bit value returned by `timestamp_get` at instant `now`. -/
def stampAt (now : Nat) : BitVec 32 := BitVec.ofNat 32 now

/-- `control_init`, motor-control-firmware/src/control.c:300-320, executed at instant `t0`. -/
def initAt (t0 : Nat) : Ctrl := ⟨t0, stampAt t0, 5, .other, 0⟩

/-- What can happen: time passes; a setpoint function stores its setpoint (first half of
control.c:100-151); the same function then stores the time stamp (second half, the control loop may
run in between); the low-battery parameter changes (control.c:362-364). -/
inductive Ev where
  | advance (us : Nat)
  /-- position, velocity, torque or trajectory setpoint stored -/
  | store
  | storeVoltage (v : ℚ)
  /-- `last_setpoint_update = timestamp_get()` -/
  | stamp
  | setLowBatt (th : ℚ)
deriving DecidableEq, Repr

def step (s : Ctrl) : Ev → Ctrl
  | .advance us => { s with now := s.now + us }
  | .store => { s with mode := .other }
  | .storeVoltage v => { s with mode := .volt, volt := v }
  | .stamp => { s with last := stampAt s.now }
  | .setLowBatt th => { s with lowBattTh := th }

def run (s : Ctrl) (es : List Ev) : Ctrl := es.foldl step s

/-- `DEFAULT_CTRL_TIMEOUT`, control.c:20, in seconds (`0.3f` taken as 3/10). -/
def ctrlTimeout : ℚ := 3/10

/-- What the loop does to the motor: voltage requested from `set_motor_voltage`, whether the PID
integrators are reset, and the resulting `power_pwm` (`none`: undefined behaviour). -/
structure Out where
  volt : ℚ
  reset : Bool
  pwm : Option Int
deriving DecidableEq, Repr

/-- `set_motor_voltage`, control.c:218-222. -/
def setMotorVoltage (u : ℚ) (batt : ℚ) : Option Int := motorPwmSet (divFin u (fin batt))

/-- One run of the loop body, control.c:433-454. `batt` is the measured battery voltage, `cascade`
the voltage computed by `pid_cascade_control` (arbitrary). -/
def loop (s : Ctrl) (batt cascade : ℚ) : Out :=
  let now := stampAt s.now
  if batt < s.lowBattTh ∨ Timestamp.durationS s.last now > ctrlTimeout then
    ⟨0, true, setMotorVoltage 0 batt⟩
  else
    let u := if s.mode = .volt then s.volt else cascade
    ⟨u, false, setMotorVoltage u batt⟩

/-- The statement after the loop when termination was requested, control.c:460. -/
def afterLoop (batt : ℚ) : Out := ⟨0, false, setMotorVoltage 0 batt⟩

end Verif.MotorCtl
