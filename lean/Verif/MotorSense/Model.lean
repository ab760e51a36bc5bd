import Verif.Common.CFloat
import Verif.Timestamp.Model
import Verif.MotorCtl.Model

/-!
# Motor board: light barrier, thermal protection, analog inputs

motor-control-firmware/src/rpm.c, motor_protection.c and analog.c. Angles are in turns: the factor
`2 * M_PI` of rpm.c is left out.
-/

namespace Verif.MotorSense

open CFloat

/-! ## rpm.c -/

/-- `last_last_crossing` and `last_crossing`, rpm.c:5-6. -/
structure Rpm where
  lastLast : BitVec 32
  last : BitVec 32
deriving DecidableEq, Repr

/-- Static variables start at zero. -/
def Rpm.init : Rpm := ⟨0, 0⟩

/-- `rpm_barrier_crossing`, rpm.c:8-12. -/
def Rpm.crossing (r : Rpm) (t : BitVec 32) : Rpm := ⟨r.last, t⟩

/-- `get_period`, rpm.c:14-20. -/
def Rpm.period (r : Rpm) : ℚ := Timestamp.durationS r.lastLast r.last

/-- `rpm_get_velocity_and_position`, rpm.c:57-75, for a time stamp `t` obtained before (:59) and the
variables read under the lock (:60-63): velocity and position in turns. -/
def Rpm.get (r : Rpm) (t : BitVec 32) : CFloat × CFloat :=
  let dt := Timestamp.durationS r.last t
  let period := r.period
  if dt < period then (divFin 1 (fin period), divFin dt (fin period))
  else (divFin 1 (fin dt), fin 0)

/-- `rpm_get_position`, rpm.c:22-37. -/
def Rpm.getPosition (r : Rpm) (t : BitVec 32) : CFloat :=
  let dt := Timestamp.durationS r.last t
  let period := r.period
  if dt < period then divFin dt (fin period) else fin 0

/-- `rpm_get_velocity`, rpm.c:39-55. -/
def Rpm.getVelocity (r : Rpm) (t : BitVec 32) : CFloat :=
  let dt := Timestamp.durationS r.last t
  let period := r.period
  if dt < period then divFin 1 (fin period) else divFin 1 (fin dt)

/-! ## motor_protection.c -/

/-- `motor_protection_t`, motor_protection.h, with finite parameters. -/
structure Prot where
  t : ℚ
  tAmbient : ℚ
  tMax : ℚ
  rTh : ℚ
  cTh : ℚ
  gain : ℚ
deriving DecidableEq, Repr

/-- `motor_protection_init`, motor_protection.c:6-14. -/
def Prot.init (tMax rTh cTh gain : ℚ) : Prot := ⟨25, 25, tMax, rTh, cTh, gain⟩

/-- `motor_protection_update`, motor_protection.c:16-27: new state and current limit. -/
def Prot.update (p : Prot) (current dt : ℚ) : Prot × CFloat :=
  let pIn := current * p.gain
  let pOut := (p.t - p.tAmbient) / p.rTh
  let t := p.t + (pIn - pOut) * dt / p.cTh
  ({ p with t := t }, if t ≥ p.tMax then divFin pOut (fin p.gain) else posInf)

/-! ## analog.c -/

/-- Samples per call, analog.c:12 and the depth passed to `adcConvert` (half of the buffer). -/
def nSamples : Nat := 243
/-- `ADC_NB_CHANNELS`, analog.c:11. -/
def nChannels : Nat := 4
/-- `PWM_RECHARGE_COUNTDOWN_RELOAD`, analog.c:14. -/
def reload : Int := 4
/-- `IGNORE_NB_SAMPLES_WHEN_RECHARGING`, analog.c:15. -/
def ignored : Nat := 111

/-- The static variables of analog.c:19-22 and :46. -/
structure Analog where
  accu : Int
  nb : Int
  battery : Int
  aux : Int
  countdown : Int
deriving DecidableEq, Repr

def Analog.init : Analog := ⟨0, 1, 0, 0, 0⟩

/-- The loop of analog.c:75-77 from index `i`, `uint32_t` arithmetic; `none` when it reads outside of
the samples. `k` bounds the number of iterations. -/
def sumFrom (s : List (BitVec 16)) (n : Nat) : Nat → Nat → BitVec 32 → Option (BitVec 32)
  | 0, _, acc => some acc
  | k + 1, i, acc =>
    if i < n * nChannels then
      match s[i + 1]? with
      | none => none
      | some x => sumFrom s n k (i + nChannels) (acc + x.setWidth 32)
    else some acc

/-- `adc_callback`, analog.c:42-91, for the samples of `n` conversions: the new variables and the
argument of `motor_pwm_trigger_update_from_isr`. -/
def Analog.callback (a : Analog) (s : List (BitVec 16)) (n : Nat) : Option (Analog × Bool) := do
  let recharge := decide (a.countdown = 0)
  let c := if a.countdown = 0 then reload else a.countdown
  let ignore := decide (c = reload - 1)
  let c := c - 1
  let i := if ignore then ignored * nChannels else 0
  let nb : Int := if ignore then (n : Int) - ignored else n
  let acc ← sumFrom s n n i 0
  let s0 ← s[0]?
  let s2 ← s[2]?
  let s3 ← s[3]?
  return (⟨acc.toInt, nb, s3.toNat, s0.toNat + s2.toNat, c⟩, recharge)

/-- `ADC_TO_AMPS`, analog.c:8 (the decimal constant). -/
def adcToAmps : ℚ := 1611328125 / 1000000000000

/-- `ADC_TO_VOLTS`, analog.c:9 (the decimal constant). -/
def adcToVolts : ℚ := 5281575521 / 1000000000000

/-- `analog_get_motor_current`, analog.c:29-36. -/
def Analog.current (a : Analog) : CFloat :=
  match divFin a.accu (fin a.nb) with
  | fin x => fin (-(x - 2048) * adcToAmps)
  | x => x

/-- `analog_get_battery_voltage`, analog.c:24-27. -/
def Analog.batteryVoltage (a : Analog) : ℚ := a.battery * adcToVolts

/-- `analog_get_auxiliary`, analog.c:38-41. -/
def Analog.auxiliary (a : Analog) : ℚ := a.aux / 8192

end Verif.MotorSense
