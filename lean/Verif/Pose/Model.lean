import Mathlib.Analysis.SpecialFunctions.Trigonometric.Basic
import Mathlib.Analysis.SpecialFunctions.Trigonometric.Deriv

/-!
# Poses

master-firmware/src/math/lie_groups.c and lib/aversive/position_manager/position_manager.cpp. The code computes with `float` and `double`; the model computes exactly, with real numbers.
-/

namespace Verif.Pose

noncomputable section

/-- `point_t`, `vect_t` -/
structure Pt where
  x : ℝ
  y : ℝ

/-- `se2_t`, lie_groups.h:11-29 (`so2_t` is its angle) -/
structure Se2 where
  angle : ℝ
  t : Pt

/-- `so2_rotate`, lie_groups.c:11-22 -/
def rotate (angle : ℝ) (p : Pt) : Pt := ⟨Real.cos angle * p.x - Real.sin angle * p.y, Real.sin angle * p.x + Real.cos angle * p.y⟩

/-- `so2_inverse_rotate`, lie_groups.c:24-27 -/
def inverseRotate (angle : ℝ) (p : Pt) : Pt := rotate (-angle) p

/-- `se2_create_xya`, lie_groups.c:29-44 -/
def Se2.xya (x y angle : ℝ) : Se2 := ⟨angle, ⟨x, y⟩⟩

/-- `se2_transform`, lie_groups.c:46-54 -/
def Se2.transform (s : Se2) (p : Pt) : Pt := ⟨(rotate s.angle p).x + s.t.x, (rotate s.angle p).y + s.t.y⟩

/-- `se2_inverse_transform`, lie_groups.c:56-64 -/
def Se2.inverseTransform (s : Se2) (p : Pt) : Pt := inverseRotate s.angle ⟨p.x - s.t.x, p.y - s.t.y⟩

/-- `se2_chain`, lie_groups.c:66-77 -/
def Se2.chain (l r : Se2) : Se2 := ⟨l.angle + r.angle, ⟨(l.transform r.t).x, (l.transform r.t).y⟩⟩

/-- `se2_inverse`, lie_groups.c:79-90 -/
def Se2.inverse (s : Se2) : Se2 := ⟨-s.angle, ⟨-(inverseRotate s.angle s.t).x, -(inverseRotate s.angle s.t).y⟩⟩

/-! ## Odometry, position_manager.cpp -/

/-- `struct robot_position`, position_manager.h:132-144. `encoders` are the distance and the angle read from `robot_system` (`rs_get_ext_*` or `rs_get_mot_*`); `int` is `pos_s16`, `rs` tells whether the robot system is attached. -/
structure Pos where
  x : ℝ
  y : ℝ
  a : ℝ
  int : Int × Int × Int
  prevDistance : Int
  prevAngle : Int
  track : ℝ
  imp : ℝ
  coef : ℝ
  rs : Bool

/-- `position_init`, position_manager.cpp:32-45 -/
def Pos.init : Pos := ⟨0, 0, 0, (0, 0, 0), 0, 0, 0, 0, 0, false⟩

/-- Conversion of a `double` to `int16_t`: truncation; `none` if the value does not fit (undefined) -/
def i16 (v : ℝ) : Option Int :=
  let z := if 0 ≤ v then ⌊v⌋ else -⌊-v⌋
  if -32768 ≤ z ∧ z ≤ 32767 then some z else none

/-- `int32_t` -/
def i32 (x : Int) : Option Int := if -2147483648 ≤ x ∧ x ≤ 2147483647 then some x else none

/-- `position_set`, position_manager.cpp:48-57 (`x`, `y` are `int16_t`) -/
def Pos.set (p : Pos) (x y : Int) (deg : ℝ) : Option Pos := do
  let a ← i16 deg
  some { p with a := deg * Real.pi / 180, x := x, y := y, int := (x, y, a) }

/-- `position_set_physical_params`, position_manager.cpp:83-88 -/
def Pos.setParams (p : Pos) (track imp : ℝ) : Pos := { p with track := track, imp := imp }

/-- `position_set_related_robot_system` with a robot system, position_manager.cpp:72-76 -/
def Pos.attach (p : Pos) : Pos := { p with rs := true }

/-- `position_use_ext`, `position_use_mot`, position_manager.cpp:90-112; `none`: the missing robot system is read (null pointer) -/
def Pos.use (p : Pos) (distance angle : Int) : Option Pos := if p.rs then some { p with prevDistance := distance, prevAngle := angle } else none

/-- The angle is brought back by one turn at most, lines 177-181 -/
def wrap (a : ℝ) : ℝ := if a < -Real.pi then a + Real.pi * 2 else if a > Real.pi then a - Real.pi * 2 else a

/-- Lines 159-207: the new x, y and a. `d` and `g` are the differences of distance and angle. -/
def Pos.move (p : Pos) (d g : Int) : ℝ × ℝ × ℝ :=
  if g = 0 then (p.x + Real.cos p.a * (d / p.imp), p.y + Real.sin p.a * (d / p.imp), p.a)
  else
    let r := d * p.track / (g * 2)
    let arc := 2 * g / (p.track * p.imp)
    let x := p.x + r * (-Real.sin p.a + Real.sin (p.a + arc))
    let y := p.y + r * (Real.cos p.a - Real.cos (p.a + arc))
    let a := wrap (p.a + arc)
    if p.coef ≠ 0 ∧ r ≠ 0 then
      let k := (d : ℝ) * d / r * p.coef
      (x + k * Real.sin a, y - k * Real.cos a, a)
    else (x, y, a)

/-- `position_manage`, position_manager.cpp:119-222. `none`: overflow of the differences, division by zero (track or impulsions not configured), or a position that does not fit in 16 bits. -/
def Pos.manage (p : Pos) (distance angle : Int) : Option Pos := if p.rs = false then some p else do
  let d ← i32 (distance - p.prevDistance)
  let g ← i32 (angle - p.prevAngle)
  if p.imp = 0 ∨ p.track = 0 then none
  else
    let m := p.move d g
    let ix ← i16 m.1
    let iy ← i16 m.2.1
    let ia ← i16 (m.2.2 * (360 / (Real.pi * 2)))
    some { p with x := m.1, y := m.2.1, a := m.2.2, int := (ix, iy, ia), prevDistance := distance, prevAngle := angle }

/-- The calls of the odometry loop, base_controller.cpp:230, between two changes of the parameters -/
def Pos.run (p : Pos) : List (Int × Int) → Option Pos
  | [] => some p
  | e :: l => do
    let q ← p.manage e.1 e.2
    q.run l

end

end Verif.Pose
