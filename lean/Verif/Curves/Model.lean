import Mathlib.Analysis.SpecialFunctions.Complex.Arg
import Mathlib.Analysis.SpecialFunctions.Trigonometric.Basic
import Mathlib.Analysis.Real.Sqrt

/-!
# Circles, lines and clothoids as trajectories

Model of the rest of `lib/aversive/trajectory_manager/trajectory_manager_core.cpp`, in exact real arithmetic, with the lines and vectors of
`lib/aversive/math/geometry` it uses (those are `float` in the code).

Divisions by zero, which give infinities or NaN, and conversions to `int32_t` out of range, which are undefined, are separate outcomes.
-/

namespace Verif.Curves

/-- Conversion of a `double` to `int32_t`: towards zero, `none` out of range. -/
noncomputable def toI32 (q : ℝ) : Option Int :=
  let k := if 0 ≤ q then ⌊q⌋ else ⌈q⌉
  if -2 ^ 31 ≤ k ∧ k < 2 ^ 31 then some k else none

/-- Signed 32-bit arithmetic. -/
def i32 (x : Int) : Option Int := if -2 ^ 31 ≤ x ∧ x < 2 ^ 31 then some x else none

/-- `simple_modulo_2pi`, trajectory_manager_utils.cpp:93-101. -/
noncomputable def simpleModulo (a : ℝ) : ℝ :=
  if a < -Real.pi then a + 2 * Real.pi else if Real.pi < a then a - 2 * Real.pi else a

/-- `RAD` -/
noncomputable def rad (deg : ℝ) : ℝ := deg * Real.pi / 180

/-! ## Geometry -/

/-- `point_t`, `vect_t`, vect_base.h:37-48. -/
structure P where
  x : ℝ
  y : ℝ

/-- `line_t`: `a x + b y + c = 0`. -/
structure Line where
  a : ℝ
  b : ℝ
  c : ℝ

inductive Cross where
  | none
  | point (p : P)
  | same

/-- `intersect_line`, lines.c:47-112; that of `Geom` over the reals. -/
noncomputable def intersectLine (l1 l2 : Line) : Cross :=
  if (l1.a = 0 ∧ l1.b = 0) ∨ (l2.a = 0 ∧ l2.b = 0) then .none
  else if l1.a = 0 then
    if l2.a = 0 then
      if l1.b * l2.c = l2.b * l1.c then .same else .none
    else .point ⟨-(l2.b * (-l1.c) + l2.c * l1.b) / (l2.a * l1.b), -l1.c / l1.b⟩
  else if l1.b = 0 then
    if l2.b = 0 then
      if l1.a * l2.c = l2.a * l1.c then .same else .none
    else .point ⟨-l1.c / l1.a, -(l2.a * (-l1.c) + l2.c * l1.a) / (l2.b * l1.a)⟩
  else if l2.a * l1.b - l1.a * l2.b = 0 then
    if l1.a * l2.c = l2.a * l1.c then .same else .none
  else
    let tmp1 := l1.a * l2.c - l1.c * l2.a
    let tmp2 := l2.a * l1.b - l1.a * l2.b
    .point ⟨-(l1.b * tmp1 + l1.c * tmp2) / (l1.a * tmp2), tmp1 / tmp2⟩

/-- `pts2line`, lines.c:114-129. -/
def pts2line (p1 p2 : P) : Line :=
  let a := -(p2.y - p1.y)
  let b := p2.x - p1.x
  ⟨a, b, -(a * p1.x + b * p1.y)⟩

/-- `proj_pt_line`, lines.c:131-141; `none` when it divides by zero. -/
noncomputable def projPtLine (p : P) (l : Line) : Option P :=
  let a := l.b
  let b := -l.a
  let c := -a * p.x - b * p.y
  let d := l.a * b - a * l.b
  if d = 0 then none else some ⟨(l.b * c - b * l.c) / d, (a * l.c - l.a * c) / d⟩

/-- `line_translate`, lines.c:248-251. -/
def lineTranslate (l : Line) (v : P) : Line := { l with c := l.c - (l.a * v.x + l.b * v.y) }

/-- `pt_norm`, vect_base.c:78-83, and `xy_norm` :71-76. -/
noncomputable def ptNorm (p q : P) : ℝ := Real.sqrt ((q.x - p.x) * (q.x - p.x) + (q.y - p.y) * (q.y - p.y))

/-- `vect_rot_trigo`, vect_base.c:91-98. -/
def rotTrigo (v : P) : P := ⟨-v.y, v.x⟩

/-- `vect_rot_retro`, vect_base.c:100-107. -/
def rotRetro (v : P) : P := ⟨v.y, -v.x⟩

/-- `vect_resize`, vect_base.c:120-126; `none` when it divides by zero. -/
noncomputable def resize (v : P) (l : ℝ) : Option P :=
  let old := Real.sqrt (v.x * v.x + v.y * v.y)
  if old = 0 then none else some ⟨v.x * l / old, v.y * l / old⟩

/-- Length and direction of a vector: `vect2_cart2pol`, vect2.c:18-26. -/
noncomputable def polar (v : P) : ℝ × ℝ := (Real.sqrt (v.x * v.x + v.y * v.y), Complex.arg ⟨v.x, v.y⟩)

/-! ## State -/

/-- The configuration: `distance_imp_per_mm`, `track_mm`, `cs_hz`, `d_speed`, `a_speed`, `d_acc`, `a_acc`, `a_start_rad`. -/
structure Cfg where
  k : ℝ
  track : ℝ
  hz : ℝ
  dSpeed : ℝ
  aSpeed : ℝ
  dAcc : ℝ
  aAcc : ℝ
  aStart : ℝ

/-- What the event functions read of the robot: position in mm and radians, and the encoders in impulses. -/
structure Robot where
  x : ℝ
  y : ℝ
  a : ℝ
  dist : Int
  ang : Int

/-- `struct circle_target`, trajectory_manager.h:83-93. -/
structure CircleTarget where
  center : P
  radius : ℝ
  destAngle : Int
  destDistance : Int
  flags : Nat

/-- `struct line_target`, trajectory_manager.h:96-107. -/
structure LineTarget where
  line : Line
  angle : ℝ
  advance : ℝ
  turn : P
  aa : ℝ
  va : ℝ
  alpha : ℝ
  r : ℝ

/-- The states concerned, trajectory_manager.h:46-80; `other` is any other state. -/
inductive Mode
  | other | angle | xyStart | circle | line | clitoidLine | clitoidCurve
deriving DecidableEq

/-- `union … target`, trajectory_manager.h:116-121: only the member written last is there. -/
inductive Target
  | circle (c : CircleTarget)
  | line (l : LineTarget)
  | pol (d a : Int)
  | /-- only the angle was written -/ polA (a : Int)
  | cart (p : P)

/-- `struct trajectory` with the speeds and accelerations of the two ramps and the consigns of the two controllers. -/
structure Traj where
  cfg : Cfg
  scheduled : Bool
  mode : Mode
  target : Target
  qSpeed : ℝ × ℝ
  qAcc : ℝ × ℝ
  consD : Int
  consA : Int

/-- `set_quadramp_speed`, trajectory_manager_utils.cpp:43-50. -/
def Traj.setSpeed (t : Traj) (d a : ℝ) : Traj := { t with qSpeed := (|d|, |a|) }

/-- `set_quadramp_acc`, trajectory_manager_utils.cpp:69-76. -/
def Traj.setAcc (t : Traj) (d a : ℝ) : Traj := { t with qAcc := (|d|, |a|) }

/-- `delete_event`, trajectory_manager_utils.cpp:79-84. -/
def Traj.deleteEvent (t : Traj) : Traj :=
  { (t.setSpeed t.cfg.dSpeed t.cfg.aSpeed).setAcc t.cfg.dAcc t.cfg.aAcc with scheduled := false }

/-! ## Absolute turns, and points relative to the robot -/

/-- `modulo_2pi`, trajectory_manager_utils.cpp:104-108. -/
noncomputable def modulo (a : ℝ) : Option ℝ := do
  let n ← toI32 (a / (2 * Real.pi))
  some (simpleModulo (a - n * (2 * Real.pi)))

/-- The new consign in angle, :78-85. -/
noncomputable def Traj.angleConsign (t : Traj) (rob : Robot) (a : ℝ) : Option Int := do
  let ca ← toI32 (a * t.cfg.k * t.cfg.track / 2)
  i32 (ca + rob.ang)

/-- `__trajectory_goto_d_a_rel` with `RUNNING_A` and `UPDATE_A | UPDATE_D | RESET_D`, :71-99. -/
noncomputable def Traj.turn (t : Traj) (rob : Robot) (a : ℝ) : Option Traj := do
  let t := t.deleteEvent
  let ca ← t.angleConsign rob a
  some { t with target := .pol rob.dist ca, consD := rob.dist, consA := ca, mode := .angle }

/-- `trajectory_a_abs`, :124-135. -/
noncomputable def Traj.aAbs (t : Traj) (rob : Robot) (deg : ℝ) : Option Traj := do
  let a ← modulo (rad deg - rob.a)
  t.turn rob a

/-- `trajectory_only_a_abs`, :175-185. -/
noncomputable def Traj.onlyAAbs (t : Traj) (rob : Robot) (deg : ℝ) : Option Traj := do
  let a ← modulo (rad deg - rob.a)
  let t := t.deleteEvent
  let ca ← t.angleConsign rob a
  some { t with target := .polA ca, consA := ca, mode := .angle }

/-- `trajectory_turnto_xy`, :137-150. -/
noncomputable def Traj.turnTo (t : Traj) (rob : Robot) (x y : ℝ) : Option Traj :=
  t.turn rob (simpleModulo (Complex.arg ⟨x - rob.x, y - rob.y⟩ - rob.a))

/-- `trajectory_turnto_xy_behind`, :152-165. -/
noncomputable def Traj.turnToBehind (t : Traj) (rob : Robot) (x y : ℝ) : Option Traj := do
  let a ← modulo (Complex.arg ⟨x - rob.x, y - rob.y⟩ - rob.a + Real.pi)
  t.turn rob a

/-- A trajectory to a point, as in :271-276 and :296-301. -/
def Traj.toPoint (t : Traj) (p : P) : Traj :=
  { t.deleteEvent with target := .cart p, mode := .xyStart, scheduled := true }

/-- `trajectory_goto_d_a_rel`, :258-276. -/
noncomputable def Traj.gotoDARel (t : Traj) (rob : Robot) (d deg : ℝ) : Traj :=
  let theta := rad deg + rob.a
  t.toPoint ⟨d * Real.cos theta + rob.x, d * Real.sin theta + rob.y⟩

/-- `trajectory_goto_xy_rel`, :278-302. -/
noncomputable def Traj.gotoXyRel (t : Traj) (rob : Robot) (x y : ℝ) : Traj :=
  let p := polar ⟨x, y⟩
  let theta := p.2 + rob.a
  t.toPoint ⟨p.1 * Real.cos theta + rob.x, p.1 * Real.sin theta + rob.y⟩

/-! ## Circles -/

/-- A radius that was computed: a number, infinite, or neither. -/
inductive Radius
  | fin (r : ℝ) | inf | bad

/-- `circle_get_speed_from_radius`, trajectory_manager_core.cpp:499-519: speeds in distance and angle. -/
noncomputable def circleSpeed (c : Cfg) : Radius → Option (ℝ × ℝ)
  | .fin radius =>
    if c.track = 0 then none
    else
      let coef := 2 * radius / c.track
      if c.aSpeed * coef < c.dSpeed then some (c.aSpeed * coef, c.aSpeed)
      else if coef = 0 then none
      else some (c.dSpeed, c.dSpeed / coef)
  | .inf => if c.track ≤ 0 ∨ c.aSpeed < 0 then none else some (c.dSpeed, 0)
  | .bad => none

/-- `angle_to_center_rad`, :544-554, for the direction `theta` of the centre: 0 if it is exactly to the left. -/
noncomputable def angleToCenter (theta a : ℝ) : ℝ := simpleModulo (simpleModulo (theta - a) - Real.pi / 2)

/-- The limits :555-560. -/
noncomputable def clamp (x : ℝ) : ℝ :=
  let x := if x > 0.5 then 0.5 else x
  if x < -0.5 then -0.5 else x

/-- `radius / (coef_p * coef_d)`, :547-563. -/
noncomputable def wanted (radius r phi : ℝ) : Radius :=
  if radius = 0 then if r = 0 then .bad else .fin 0
  else
    let coefP := r / radius
    let coefD := Real.exp (5 * clamp phi)
    if coefP = 0 then if 0 < radius then .inf else .bad
    else .fin (radius / (coefP * coefD))

/-- Speeds in a position, :522-566. -/
noncomputable def circleCommand (c : Cfg) (ct : CircleTarget) (x y a : ℝ) : Option (ℝ × ℝ) :=
  let pl := polar ⟨ct.center.x - x, ct.center.y - y⟩
  circleSpeed c (wanted ct.radius pl.1 (angleToCenter pl.2 a))

/-- `trajectory_manager_circle_event`, :522-587. -/
noncomputable def Traj.circleEvent (t : Traj) (ct : CircleTarget) (rob : Robot) : Option Traj := do
  let sp ← circleCommand t.cfg ct rob.x rob.y rob.a
  let t := t.setSpeed sp.1 sp.2
  let diff ← i32 (ct.destAngle - rob.ang)
  if t.cfg.k = 0 ∨ t.cfg.track = 0 then none
  else
    let a : ℝ := (diff : ℝ) / t.cfg.k / t.cfg.track * 2
    let t := if |a| < rad 2 then t.deleteEvent else t
    some { t with consA := ct.destAngle, consD := ct.destDistance }

/-- `trajectory_circle_rel`, :690-725. -/
noncomputable def Traj.circleRel (t : Traj) (rob : Robot) (x y radius relDeg : ℝ) (flags : Nat) : Option Traj := do
  let t := t.deleteEvent
  let da := rad relDeg * t.cfg.k * t.cfg.track / 2
  let dd := rad relDeg * t.cfg.k * radius
  let destA ← toI32 (rob.ang + da)
  let destD ← toI32 (rob.dist + dd)
  some { t with target := .circle ⟨⟨x, y⟩, radius, destA, destD, flags⟩, mode := .circle, scheduled := true }

/-! ## Lines -/

/-- `__trajectory_line_abs`, :738-763; what the line target contained before stays in the other fields. -/
noncomputable def lineOf (old : LineTarget) (p1 p2 : P) (advance : ℝ) : LineTarget :=
  { old with line := pts2line p1 p2, angle := Complex.arg ⟨p2.x - p1.x, p2.y - p1.y⟩, advance := advance }

/-- `trajectory_line_abs`, :766-778. The fields of the clothoid are whatever was in the union: they are not read in this state. -/
noncomputable def Traj.lineAbs (t : Traj) (old : LineTarget) (p1 p2 : P) (advance : ℝ) : Traj :=
  { t.deleteEvent with target := .line (lineOf old p1 p2 advance), mode := .line, scheduled := true }

/-- The point that is aimed at, and the projection of the robot on the line, :601-613. -/
noncomputable def aim (l : LineTarget) (x y : ℝ) : Option (P × P) := do
  let proj ← projPtLine ⟨x, y⟩ l.line
  let dist := ptNorm ⟨x, y⟩ proj
  let advance := if dist > l.advance then 0 else l.advance - dist
  some (⟨proj.x + advance * Real.cos l.angle, proj.y + advance * Real.sin l.angle⟩, proj)

/-- `__trajectory_goto_d_a_rel` with `UPDATE_A | UPDATE_D`, :71-99. -/
noncomputable def Traj.gotoDA (t : Traj) (rob : Robot) (d a : ℝ) : Option Traj := do
  let t := t.deleteEvent
  let ca ← toI32 (a * t.cfg.k * t.cfg.track / 2)
  let ca ← i32 (ca + rob.ang)
  let cd ← toI32 (d * t.cfg.k)
  let cd ← i32 (cd + rob.dist)
  some { t with target := .pol cd ca, consD := cd, consA := ca, mode := .other }

/-- `start_clitoid`, :956-977. -/
noncomputable def Traj.startClitoid (t : Traj) (l : LineTarget) (rob : Robot) : Option Traj := do
  let t := t.deleteEvent
  let d := |l.r * l.alpha| * 3
  let t ← t.gotoDA rob d l.alpha
  let t := t.setAcc t.cfg.dAcc l.aa
  let t := t.setSpeed t.cfg.dSpeed l.va
  some { t with mode := .clitoidCurve }

/-- "we reached dest", :645-648. -/
noncomputable def reached (l : LineTarget) (proj : P) : Prop :=
  ptNorm proj l.turn < ptNorm ⟨proj.x + Real.cos l.angle, proj.y + Real.sin l.angle⟩ l.turn

/-- The limit of the speed by the angle to the point aimed at, :621-629. -/
noncomputable def Traj.limitSpeed (t : Traj) (theta : ℝ) : Option Traj :=
  if |theta| > t.cfg.aStart then some (t.setSpeed 0 t.cfg.aSpeed)
  else if t.cfg.aStart = 0 then none
  else
    let coef := (t.cfg.aStart - |theta|) / t.cfg.aStart
    some (t.setSpeed (t.cfg.dSpeed * coef) t.cfg.aSpeed)

open Classical in
/-- `trajectory_manager_line_event`, :590-649. -/
noncomputable def Traj.lineEvent (t : Traj) (l : LineTarget) (rob : Robot) : Option Traj := do
  let (target, proj) ← aim l rob.x rob.y
  let pl := polar ⟨target.x - rob.x, target.y - rob.y⟩
  let theta := simpleModulo (pl.2 - rob.a)
  let t ← t.limitSpeed theta
  let cd ← toI32 (pl.1 * t.cfg.k)
  let cd ← i32 (cd + rob.dist)
  let ca ← toI32 (theta * (t.cfg.k * t.cfg.track / 2) / 1.1)
  let ca ← i32 (ca + rob.ang)
  let t := { t with consA := ca, consD := cd }
  if t.mode = .clitoidLine ∧ reached l proj then t.startClitoid l rob else some t

/-- `trajectory_manager_manage`, :652-683, for the states modelled here: trajectories to a point are in `Base`. The second case is a target that does not belong to the state,
which no function here produces. -/
noncomputable def Traj.manage (t : Traj) (rob : Robot) : Option Traj :=
  if t.scheduled then
    match t.mode, t.target with
    | .circle, .circle c => t.circleEvent c rob
    | .circle, _ => none
    | .line, .line l => t.lineEvent l rob
    | .clitoidLine, .line l => t.lineEvent l rob
    | .line, _ => none
    | .clitoidLine, _ => none
    | _, _ => some t
  else some t

/-! ## Clothoids -/

/-- Results of `calc_clitoid`: -1, a division by zero, or 0 with the results. -/
inductive Calc
  | refused
  | undefined
  | ok (aa va remain : ℝ)

/-- The series :871-882, for the length `L` and the parameter `A`. -/
noncomputable def seriesX (L A : ℝ) : ℝ :=
  L - L ^ 5 / (40 * A ^ 4) + L ^ 9 / (3456 * A ^ 8) - L ^ 13 / (599040 * A ^ 12)

noncomputable def seriesY (L A : ℝ) : ℝ :=
  L ^ 3 / (6 * A ^ 2) - L ^ 7 / (336 * A ^ 6) + L ^ 11 / (42240 * A ^ 10) - L ^ 15 / (9676800 * A ^ 14)

/-- The geometric part of `calc_clitoid`, :855-946: the remaining distance. -/
noncomputable def geometry (x y a alpha beta R vd t D : ℝ) : Option (Option ℝ) := do
  let robot : P := ⟨x, y⟩
  let intersect : P := ⟨x + Real.cos a * D, y + Real.sin a * D⟩
  let line1 := pts2line robot intersect
  let pt2 : P := ⟨intersect.x + Real.cos (a + alpha), intersect.y + Real.sin (a + alpha)⟩
  let line2 := pts2line intersect pt2
  let L := vd * t
  let A := R * Real.sqrt |alpha - beta|
  let xm := seriesX L A
  let ym := seriesY L A
  let tau := (alpha - beta) / 2
  let d := ym + R * Real.cos tau
  let v : P := ⟨intersect.x - robot.x, intersect.y - robot.y⟩
  let v ← resize (if alpha > 0 then rotTrigo v else rotRetro v) d
  let line1i := lineTranslate line1 v
  let v : P := ⟨intersect.x - pt2.x, intersect.y - pt2.y⟩
  let v ← resize (if alpha < 0 then rotTrigo v else rotRetro v) d
  let line2i := lineTranslate line2 v
  match intersectLine line1i line2i with
  | .point center =>
    let m : P := if alpha < 0 then
        ⟨center.x + Real.cos (a + Real.pi / 2 + tau) * R, center.y + Real.sin (a + Real.pi / 2 + tau) * R⟩
      else ⟨center.x + Real.cos (a - Real.pi / 2 + tau) * R, center.y + Real.sin (a - Real.pi / 2 + tau) * R⟩
    let proj ← projPtLine m line1
    let remain := D - (ptNorm proj intersect + xm)
    if remain < 0 then some none else some (some remain)
  | _ => some none

/-- `speed_imp2mm`, `speed_rd2imp`, `acc_rd2imp`, trajectory_manager_utils.cpp:191-239. -/
noncomputable def Cfg.speedImp2mm (c : Cfg) (v : ℝ) : ℝ := v * c.hz / c.k
noncomputable def Cfg.speedRd2imp (c : Cfg) (v : ℝ) : ℝ := v * (c.k * c.track / (2 * c.hz))
noncomputable def Cfg.accRd2imp (c : Cfg) (v : ℝ) : ℝ := v * (c.k * c.track / (2 * c.hz * c.hz))

/-- `calc_clitoid`, :798-953. -/
noncomputable def calcClitoid (c : Cfg) (x y a alphaDeg betaDeg R vd amax D : ℝ) : Calc :=
  if |alphaDeg| ≤ |betaDeg| then .refused
  else if c.k = 0 ∨ c.hz = 0 ∨ R = 0 ∨ vd = 0 then .undefined
  else
    let v := c.speedImp2mm vd
    let vaRd := v / R
    let va := c.speedRd2imp vaRd
    let alpha := rad alphaDeg
    let beta := rad betaDeg
    let t := |(alpha - beta) * R / v|
    let aaRd := vaRd / t
    let aa := c.accRd2imp aaRd
    if aa > amax then .refused
    else match geometry x y a alpha beta R v t D with
      | none => .undefined
      | some none => .refused
      | some (some remain) => .ok aa va remain

/-- `trajectory_clitoid`, :1000-1045; the result is the return value and the state, `none` if it is undefined. -/
noncomputable def Traj.clitoid (t : Traj) (x y aDeg advance alphaDeg betaDeg R D : ℝ) : Option (Int × Traj) :=
  let a := rad aDeg
  match calcClitoid t.cfg x y a alphaDeg betaDeg R t.cfg.dSpeed t.cfg.aAcc D with
  | .undefined => none
  | .refused => some (-1, t)
  | .ok aa va remain =>
    let turn : P := ⟨x + Real.cos a * remain, y + Real.sin a * remain⟩
    let l : LineTarget := ⟨⟨0, 0, 0⟩, 0, 0, turn, aa, va, rad alphaDeg, R⟩
    some (0, { t.deleteEvent with target := .line (lineOf l ⟨x, y⟩ turn advance), mode := .clitoidLine, scheduled := true })

end Verif.Curves
