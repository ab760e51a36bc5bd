import Mathlib.Data.Rat.Floor

/-!
# Encoders and telemetry streams

motor-control-firmware/src/feedback.c, wheel-encoder-firmware/src/encoder.c,
motor-control-firmware/src/stream.c.
-/

namespace Verif.Encoder

/-- Signed 32-bit range. -/
def isInt32 (x : Int) : Prop := -2^31 ≤ x ∧ x < 2^31

instance (x : Int) : Decidable (isInt32 x) := inferInstanceAs (Decidable (_ ∧ _))

/-! ## feedback.c -/

/-- `struct encoder_s`, motor-control-firmware/src/feedback.h. -/
structure Enc where
  acc : Int
  prev : BitVec 16
  p : BitVec 16
  q : BitVec 16
  ticksPerRev : BitVec 32
deriving DecidableEq, Repr

/-- `compute_delta_accumulator_periodic`, feedback.c:5-10 (the product of an `int16_t` and a
`uint16_t` fits an `int32_t`). -/
def deltaPeriodic (enc prev p : BitVec 16) : Int := (enc - prev).toInt * (p.toNat : Int)

/-- `compute_delta_accumulator_bounded`, feedback.c:12-16. -/
def deltaBounded (enc prev : BitVec 16) : Int := (enc - prev).toInt

/-- `periodic_accumulator_overflow`, feedback.c:18-29. The comparison is done in `int32_t`
(undefined, `none`, if the product overflows); the correction is done in `uint32_t` and converted
back. -/
def accumulatorOverflow (acc : Int) (ticks : BitVec 32) (q : BitVec 16) : Option Int :=
  let lim : Int := ticks.toInt * (q.toNat : Int)
  if ¬ isInt32 lim then none
  else
    let turn : BitVec 32 := ticks * q.setWidth 32
    if acc ≥ lim then some (BitVec.ofInt 32 acc - turn).toInt
    else if acc < 0 then some (BitVec.ofInt 32 acc + turn).toInt
    else some acc

/-- Accumulation of a periodic encoder, feedback.c:86-95 (also :141-150 and :152-161). Signed
overflow of the addition is undefined. -/
def stepPeriodic (e : Enc) (input : BitVec 16) : Option (Enc × Int) :=
  let d := deltaPeriodic input e.prev e.p
  if isInt32 (e.acc + d) then
    (accumulatorOverflow (e.acc + d) e.ticksPerRev e.q).map
      fun a => ({ e with acc := a, prev := input }, d)
  else none

/-- Accumulation of a bounded encoder, feedback.c:115-119. -/
def stepBounded (e : Enc) (input : BitVec 16) : Option (Enc × Int) :=
  let d := deltaBounded input e.prev
  if isInt32 (e.acc + d) then some ({ e with acc := e.acc + d, prev := input }, d) else none

/-- `compute_encoder_position_periodic`, feedback.c:31-36, in turns (factor `2π` left out), exact. -/
def positionPeriodic (e : Enc) : ℚ := e.acc / e.ticksPerRev.toNat / e.q.toNat

/-- `compute_encoder_position_bounded`, feedback.c:38-44, in turns, exact. -/
def positionBounded (e : Enc) : ℚ := e.acc / e.ticksPerRev.toNat * e.p.toNat / e.q.toNat

/-- `compute_encoder_velocity_periodic`, feedback.c:46-52, in turns per second, exact. -/
def velocityPeriodic (d : Int) (e : Enc) (dt : ℚ) : ℚ := d / e.ticksPerRev.toNat / e.q.toNat / dt

/-- `compute_encoder_velocity_bounded`, feedback.c:54-61. -/
def velocityBounded (d : Int) (e : Enc) (dt : ℚ) : ℚ :=
  d / e.ticksPerRev.toNat * e.p.toNat / e.q.toNat / dt

/-- `enum feedback_input_selection`, feedback.h. -/
inductive Sel where
  | rpm | primaryPeriodic | primaryBounded | twoPeriodic | potentiometer
deriving DecidableEq, Repr

/-- `struct feedback_s`, feedback.h. Angles are in turns for encoders. -/
structure Feedback where
  sel : Sel
  position : ℚ
  velocity : ℚ
  periodic : Bool
  primary : Enc
  secondary : Enc
  gain : ℚ
  zero : ℚ
  phase : ℚ
deriving DecidableEq, Repr

/-- The inputs of one call, feedback.h. `rpmVel`/`rpmPos` stand for the result of
`rpm_get_velocity_and_position`. -/
structure Inputs where
  pot : ℚ
  primary : BitVec 16
  secondary : BitVec 16
  dt : ℚ
  rpmVel : ℚ
  rpmPos : ℚ
deriving DecidableEq, Repr

/-- `feedback_compute`, feedback.c:63-193. -/
def feedbackCompute (f : Feedback) (i : Inputs) : Option Feedback :=
  match f.sel with
  | .rpm => some { f with velocity := i.rpmVel, position := i.rpmPos - f.phase, periodic := true }
  | .primaryPeriodic => do
    let (e, d) ← stepPeriodic f.primary i.primary
    some { f with primary := e, position := positionPeriodic e,
                  velocity := velocityPeriodic d e i.dt, periodic := true }
  | .primaryBounded => do
    let (e, d) ← stepBounded f.primary i.primary
    some { f with primary := e, position := positionBounded e,
                  velocity := velocityBounded d e i.dt, periodic := false }
  | .twoPeriodic => do
    let (e, d) ← stepPeriodic f.primary i.primary
    let (e2, _) ← stepPeriodic f.secondary i.secondary
    some { f with primary := e, secondary := e2, position := positionPeriodic e2,
                  velocity := velocityPeriodic d e i.dt, periodic := true }
  | .potentiometer =>
    let pos := f.gain * i.pot - f.zero
    some { f with velocity := (pos - f.position) / i.dt, position := pos, periodic := false }

/-! ## wheel-encoder-firmware/src/encoder.c -/

/-- `encoder_tick_diff`, wheel-encoder-firmware/src/encoder.c:77-94, in `uint32_t` arithmetic with a
two's complement conversion of the result. -/
def tickDiff (old new : BitVec 32) : Int :=
  if old < new then
    if new - old ≤ 32767#32 then (new - old).toInt else (-(65536#32 - (new - old))).toInt
  else if new < old then
    if old - new ≤ 32767#32 then (-(old - new)).toInt else (65536#32 - (old - new)).toInt
  else 0

/-- `left_encoder_prev`/`left_encoder_value` (and the right ones), encoder.c:12-13. -/
structure Wheel where
  prev : BitVec 32
  value : Int
deriving DecidableEq, Repr

/-- `encoder_init`, encoder.c:44-47. -/
def wheelInit (raw : BitVec 16) : Wheel := ⟨raw.setWidth 32, raw.toNat⟩

/-- `encoder_get_left`/`encoder_get_right`, encoder.c:15-29; the timer count is 16 bits wide
(`ARR = 0xFFFF`, :63). Signed overflow of the sum is undefined. -/
def wheelGet (w : Wheel) (raw : BitVec 16) : Option Wheel :=
  let new : BitVec 32 := raw.setWidth 32
  let v := w.value + tickDiff w.prev new
  if isInt32 v then some ⟨new, v⟩ else none

/-! ## stream.c -/

/-- `stream_config_t`, motor-control-firmware/src/stream.h. -/
structure Stream where
  enabled : Bool
  prescaler : BitVec 16
  counter : BitVec 16
deriving DecidableEq, Repr

/-- `nearbyint` in the default rounding mode: to nearest, ties to even. -/
def nearbyint (x : ℚ) : Int :=
  let f := ⌊x⌋
  if x - f < 1/2 then f
  else if 1/2 < x - f then f + 1
  else if f % 2 = 0 then f else f + 1

/-- `stream_set_prescaler`, stream.c:4-8. Converting a value outside `uint16_t` (or the result of a
division by zero) is undefined: `none`. -/
def setPrescaler (s : Stream) (freq spin : ℚ) : Option Stream :=
  if freq = 0 then none
  else
    let n := nearbyint (spin / freq)
    if 0 ≤ n ∧ n < 65536 then
      some { s with prescaler := BitVec.ofInt 16 n, counter := BitVec.ofInt 16 n }
    else none

/-- `stream_enable`, stream.c:10-13. -/
def streamEnable (s : Stream) (b : Bool) : Stream := { s with enabled := b }

/-- `stream_should_send`, stream.c:15-28. -/
def shouldSend (s : Stream) : Stream × Bool :=
  if s.enabled then
    let c := s.counter - 1#16
    if c = 0#16 then ({ s with counter := s.prescaler }, true) else ({ s with counter := c }, false)
  else (s, false)

end Verif.Encoder
