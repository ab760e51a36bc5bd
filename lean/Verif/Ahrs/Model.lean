import Mathlib.Analysis.Real.Sqrt

/-!
# Attitude filter

Model of `uwb-beacon-firmware/src/MadgwickAHRS.c` and of the uses of it in `ahrs_thread.c`, in exact real arithmetic.

`none` stands for a quaternion of which all components are NaN. It arises where the code multiplies zeros by
`1 / sqrtf(0)`, that is by infinity; NaN stays NaN in every later update. Rounding, and squares that underflow to
zero although the value is not zero, are not modelled.
-/

namespace Verif.Ahrs

structure Quat where
  w : ℝ
  x : ℝ
  y : ℝ
  z : ℝ

structure Vec where
  x : ℝ
  y : ℝ
  z : ℝ

/-- `madgwick_filter_t`, MadgwickAHRS.h:20-24. -/
structure Filter where
  q : Option Quat
  beta : ℝ
  freq : ℝ

/-- `madgwick_filter_init`, MadgwickAHRS.c:18-27. -/
noncomputable def init : Filter := { q := some ⟨1, 0, 0, 0⟩, beta := 1 / 10, freq := 250 }

/-- `madgwick_filter_set_gain`, :31-34. -/
def setGain (f : Filter) (b : ℝ) : Filter := { f with beta := b }

/-- `madgwick_filter_set_sample_frequency`, :36-39. -/
def setFreq (f : Filter) (x : ℝ) : Filter := { f with freq := x }

/-- `invSqrt`, :226-243, the branch that is compiled: `1 / sqrtf(x)`. `none` is infinity or NaN. -/
noncomputable def invSqrt (x : ℝ) : Option ℝ := if x ≤ 0 then none else some (1 / Real.sqrt x)

/-- `recipNorm = invSqrt(…); s0 *= recipNorm; …`, :120-124, :195-199, and the same for the quaternion :140-145, :215-220. -/
noncomputable def normalise (s : Quat) : Option Quat := do
  let r ← invSqrt (s.w * s.w + s.x * s.x + s.y * s.y + s.z * s.z)
  some ⟨s.w * r, s.x * r, s.y * r, s.z * r⟩

/-- The same for a measurement, :74-83, :170-173. -/
noncomputable def normaliseVec (a : Vec) : Option Vec := do
  let r ← invSqrt (a.x * a.x + a.y * a.y + a.z * a.z)
  some ⟨a.x * r, a.y * r, a.z * r⟩

/-- Rate of change from the gyroscope, :66-69, :162-165. -/
noncomputable def qDot (q : Quat) (g : Vec) : Quat :=
  ⟨0.5 * (-q.x * g.x - q.y * g.y - q.z * g.z), 0.5 * (q.w * g.x + q.y * g.z - q.z * g.y),
    0.5 * (q.w * g.y - q.x * g.z + q.z * g.x), 0.5 * (q.w * g.z + q.x * g.y - q.y * g.x)⟩

/-- Corrective step without magnetometer, :176-194. -/
def stepImu (q : Quat) (a : Vec) : Quat :=
  let _2q0 := 2 * q.w
  let _2q1 := 2 * q.x
  let _2q2 := 2 * q.y
  let _2q3 := 2 * q.z
  let _4q0 := 4 * q.w
  let _4q1 := 4 * q.x
  let _4q2 := 4 * q.y
  let _8q1 := 8 * q.x
  let _8q2 := 8 * q.y
  let q0q0 := q.w * q.w
  let q1q1 := q.x * q.x
  let q2q2 := q.y * q.y
  let q3q3 := q.z * q.z
  ⟨_4q0 * q2q2 + _2q2 * a.x + _4q0 * q1q1 - _2q1 * a.y,
    _4q1 * q3q3 - _2q3 * a.x + 4 * q0q0 * q.x - _2q0 * a.y - _4q1 + _8q1 * q1q1 + _8q1 * q2q2 + _4q1 * a.z,
    4 * q0q0 * q.y + _2q0 * a.x + _4q2 * q3q3 - _2q3 * a.y - _4q2 + _8q2 * q1q1 + _8q2 * q2q2 + _4q2 * a.z,
    4 * q1q1 * q.z - _2q1 * a.x + 4 * q2q2 * q.z - _2q2 * a.y⟩

/-- `hx` and `hy`, and `_2bz`, :86-111. -/
def earth (q : Quat) (m : Vec) : Vec :=
  let _2q0mx := 2 * q.w * m.x
  let _2q0my := 2 * q.w * m.y
  let _2q0mz := 2 * q.w * m.z
  let _2q1mx := 2 * q.x * m.x
  let _2q1 := 2 * q.x
  let _2q2 := 2 * q.y
  let q0q0 := q.w * q.w
  let q1q1 := q.x * q.x
  let q2q2 := q.y * q.y
  let q3q3 := q.z * q.z
  ⟨m.x * q0q0 - _2q0my * q.z + _2q0mz * q.y + m.x * q1q1 + _2q1 * m.y * q.y + _2q1 * m.z * q.z - m.x * q2q2 - m.x * q3q3,
    _2q0mx * q.z + m.y * q0q0 - _2q0mz * q.x + _2q1mx * q.y - m.y * q1q1 + m.y * q2q2 + _2q2 * m.z * q.z - m.y * q3q3,
    -_2q0mx * q.y + _2q0my * q.x + m.z * q0q0 + _2q1mx * q.z - m.z * q1q1 + _2q2 * m.y * q.z - m.z * q2q2 + m.z * q3q3⟩

/-- Corrective step with magnetometer, :86-119; `_2bx` and `_2bz` are arguments. -/
noncomputable def stepMarg (q : Quat) (a m : Vec) (_2bx _2bz : ℝ) : Quat :=
  let _2q0 := 2 * q.w
  let _2q1 := 2 * q.x
  let _2q2 := 2 * q.y
  let _2q3 := 2 * q.z
  let _2q0q2 := 2 * q.w * q.y
  let _2q2q3 := 2 * q.y * q.z
  let q0q1 := q.w * q.x
  let q0q2 := q.w * q.y
  let q0q3 := q.w * q.z
  let q1q1 := q.x * q.x
  let q1q2 := q.x * q.y
  let q1q3 := q.x * q.z
  let q2q2 := q.y * q.y
  let q2q3 := q.y * q.z
  let q3q3 := q.z * q.z
  let _4bx := 2 * _2bx
  let _4bz := 2 * _2bz
  ⟨-_2q2 * (2 * q1q3 - _2q0q2 - a.x) + _2q1 * (2 * q0q1 + _2q2q3 - a.y) - _2bz * q.y * (_2bx * (0.5 - q2q2 - q3q3) + _2bz * (q1q3 - q0q2) - m.x) + (-_2bx * q.z + _2bz * q.x) * (_2bx * (q1q2 - q0q3) + _2bz * (q0q1 + q2q3) - m.y) + _2bx * q.y * (_2bx * (q0q2 + q1q3) + _2bz * (0.5 - q1q1 - q2q2) - m.z),
    _2q3 * (2 * q1q3 - _2q0q2 - a.x) + _2q0 * (2 * q0q1 + _2q2q3 - a.y) - 4 * q.x * (1 - 2 * q1q1 - 2 * q2q2 - a.z) + _2bz * q.z * (_2bx * (0.5 - q2q2 - q3q3) + _2bz * (q1q3 - q0q2) - m.x) + (_2bx * q.y + _2bz * q.w) * (_2bx * (q1q2 - q0q3) + _2bz * (q0q1 + q2q3) - m.y) + (_2bx * q.z - _4bz * q.x) * (_2bx * (q0q2 + q1q3) + _2bz * (0.5 - q1q1 - q2q2) - m.z),
    -_2q0 * (2 * q1q3 - _2q0q2 - a.x) + _2q3 * (2 * q0q1 + _2q2q3 - a.y) - 4 * q.y * (1 - 2 * q1q1 - 2 * q2q2 - a.z) + (-_4bx * q.y - _2bz * q.w) * (_2bx * (0.5 - q2q2 - q3q3) + _2bz * (q1q3 - q0q2) - m.x) + (_2bx * q.x + _2bz * q.z) * (_2bx * (q1q2 - q0q3) + _2bz * (q0q1 + q2q3) - m.y) + (_2bx * q.w - _4bz * q.y) * (_2bx * (q0q2 + q1q3) + _2bz * (0.5 - q1q1 - q2q2) - m.z),
    _2q1 * (2 * q1q3 - _2q0q2 - a.x) + _2q2 * (2 * q0q1 + _2q2q3 - a.y) + (-_4bx * q.z + _2bz * q.x) * (_2bx * (0.5 - q2q2 - q3q3) + _2bz * (q1q3 - q0q2) - m.x) + (-_2bx * q.w + _2bz * q.y) * (_2bx * (q1q2 - q0q3) + _2bz * (q0q1 + q2q3) - m.y) + _2bx * q.x * (_2bx * (q0q2 + q1q3) + _2bz * (0.5 - q1q1 - q2q2) - m.z)⟩

/-- `qDot1 -= f->beta * s0; …`, :127-130, :202-205. -/
def feedback (d s : Quat) (beta : ℝ) : Quat :=
  ⟨d.w - beta * s.w, d.x - beta * s.x, d.y - beta * s.y, d.z - beta * s.z⟩

/-- `f->q[0] += qDot1 * (1.0f / f->sample_frequency); …`, :134-137, :209-212; `none` for the frequency 0. -/
noncomputable def integrate (q d : Quat) (freq : ℝ) : Option Quat :=
  if freq = 0 then none
  else some ⟨q.w + d.w * (1 / freq), q.x + d.x * (1 / freq), q.y + d.y * (1 / freq), q.z + d.z * (1 / freq)⟩

/-- `(ax == 0.0f) && (ay == 0.0f) && (az == 0.0f)` -/
def Vec.isZero (a : Vec) : Prop := a.x = 0 ∧ a.y = 0 ∧ a.z = 0

open Classical in
/-- `madgwick_filter_updateIMU`, :148-221, on the quaternion. -/
noncomputable def updateImu (q : Quat) (beta freq : ℝ) (g a : Vec) : Option Quat := do
  let d := qDot q g
  let d ← if ¬ a.isZero then do
      let a ← normaliseVec a
      let s ← normalise (stepImu q a)
      some (feedback d s beta)
    else some d
  let q ← integrate q d freq
  normalise q

open Classical in
/-- `madgwick_filter_update`, :41-146, on the quaternion. -/
noncomputable def update (q : Quat) (beta freq : ℝ) (g a m : Vec) : Option Quat :=
  if m.isZero then updateImu q beta freq g a
  else do
    let d := qDot q g
    let d ← if ¬ a.isZero then do
        let a ← normaliseVec a
        let m ← normaliseVec m
        let h := earth q m
        let s ← normalise (stepMarg q a m (Real.sqrt (h.x * h.x + h.y * h.y)) h.z)
        some (feedback d s beta)
      else some d
    let q ← integrate q d freq
    normalise q

/-- The functions on the filter. -/
noncomputable def Filter.update (f : Filter) (g a m : Vec) : Filter :=
  { f with q := f.q.bind (fun q => Ahrs.update q f.beta f.freq g a m) }

noncomputable def Filter.updateImu (f : Filter) (g a : Vec) : Filter :=
  { f with q := f.q.bind (fun q => Ahrs.updateImu q f.beta f.freq g a) }

/-! ## The thread -/

structure ImuMsg where
  gyro : Vec
  acc : Vec
  mag : Vec
  timestamp : BitVec 32

structure AttitudeMsg where
  q : Option Quat
  timestamp : BitVec 32

/-- State when the loop of `ahrs_thd` is entered, ahrs_thread.c:39-44; `beta` is the value of the parameter. -/
noncomputable def threadInit (beta : ℝ) : Filter := setFreq (setGain init beta) 250

/-- One round of the loop, ahrs_thread.c:46-64: the new value of the parameter if it has changed, and the message. There is
no call of the filter. -/
def threadStep (f : Filter) (changed : Option ℝ) (imu : ImuMsg) : Filter × AttitudeMsg :=
  let f := match changed with
    | some b => setGain f b
    | none => f
  (f, ⟨f.q, imu.timestamp⟩)

/-- `ahrs_calibrate_gyro`, ahrs_thread.c:74-104: the new gain, from `N = 1000` measurements. -/
noncomputable def calibrate (l : List Vec) : ℝ :=
  let n : ℝ := 1000
  let s := l.foldl (fun (s : Vec) g => (⟨s.x + g.x / n, s.y + g.y / n, s.z + g.z / n⟩ : Vec)) ⟨0, 0, 0⟩
  Real.sqrt (3 / 4) * (s.x + s.y + s.z) / 3

end Verif.Ahrs
