import Mathlib.Data.Rat.Defs
import Mathlib.Algebra.Order.Field.Rat
import Mathlib.Tactic.Linarith
import Mathlib.Tactic.Ring
import Mathlib.Tactic.NormNum

/-!
# Positioning before the match (C85)

Model of `strategy_auto_position` (master-firmware/src/robot_helpers/autoposition.cpp:9-59) with `trajectory_align_with_wall` (trajectory_helpers.cpp:128-144), and of its use
(master-firmware/src/strategy.cpp:140-153), in an ideal world: movements are exact, and a robot that touches a wall with its calibration side stands perpendicular to it. The
functions only see the believed position of the robot; the world also has the real one. Speeds, modes and the thresholds of the detection of collisions are left out.
-/

namespace Verif.Match.Auto

inductive Color where
  | blue | yellow
deriving DecidableEq

/-- `MIRROR_X`, `MIRROR_A`, strategy/color.h:17-18 -/
def mirrorX (c : Color) (x : ℚ) : ℚ := if c = .yellow then x else 3000 - x
def mirrorA (c : Color) (a : Int) : Int := if c = .yellow then a else 180 - a

/-- A position in mm and a heading in degrees -/
structure Pose where
  x : ℚ
  y : ℚ
  a : Int
deriving DecidableEq

/-- The robot where it is, and where it believes to be -/
structure World where
  real : Pose
  believed : Pose
deriving DecidableEq

/-- Cosine and sine of the headings: any values, but correct for multiples of 90 degrees (`Exact`) -/
abbrev Dirs := Int → ℚ × ℚ

structure Exact (u : Dirs) : Prop where
  e : ∀ a : Int, a % 360 = 0 → u a = (1, 0)
  n : ∀ a : Int, a % 360 = 90 → u a = (0, 1)
  w : ∀ a : Int, a % 360 = 180 → u a = (-1, 0)
  s : ∀ a : Int, a % 360 = 270 → u a = (0, -1)

/-- Driving `d` mm -/
def Pose.drive (u : Dirs) (p : Pose) (d : ℚ) : Pose := { p with x := p.x + d * (u p.a).1, y := p.y + d * (u p.a).2 }

/-- `trajectory_d_rel` and waiting until it has reached its goal -/
def World.dRel (u : Dirs) (w : World) (d : ℚ) : World := ⟨w.real.drive u d, w.believed.drive u d⟩

/-- `trajectory_a_abs`, `trajectory_only_a_abs` and waiting: the robot turns by the difference from its believed heading. -/
def World.aAbs (w : World) (deg : Int) : World := ⟨{ w.real with a := w.real.a + (deg - w.believed.a) }, { w.believed with a := deg }⟩

/-- The distance to the wall that a robot meets which drives forwards (`dir` = 1) or backwards (-1), with its border `len` from its centre. The table is 3000 mm by 2000 mm. Other than
perpendicular to a wall the robot does not drive here. -/
def toWall (dir len : ℚ) (p : Pose) : Option ℚ :=
  let a := if dir < 0 then p.a + 180 else p.a
  if a % 360 = 0 then some (3000 - len - p.x)
  else if a % 360 = 90 then some (2000 - len - p.y)
  else if a % 360 = 180 then some (p.x - len)
  else if a % 360 = 270 then some (p.y - len)
  else none

/-- `trajectory_align_with_wall`, trajectory_helpers.cpp:128-144: drive 2000 mm in the direction of the calibration, until there is a collision. If there is no wall on the way, it waits
forever: `none`. -/
def World.align (u : Dirs) (dir len : ℚ) (w : World) : Option World :=
  match toWall dir len w.real with
  | none => none
  | some d => if 0 ≤ d ∧ d < 2000 then some (w.dRel u (dir * d)) else none

/-- `strategy_auto_position`, autoposition.cpp:9-59 -/
def autoPosition (u : Dirs) (dir len : ℚ) (x y : ℚ) (heading : Int) (c : Color) (w : World) : Option World :=
  match w.align u dir len with
  | none => none
  | some w =>
    let w : World := { w with believed := ⟨mirrorX c len, 0, mirrorA c (if dir < 0 then 0 else 180)⟩ }
    let w := w.dRel u (-dir * (mirrorX c x - len))
    match (w.aAbs (mirrorA c (-90))).align u dir len with
    | none => none
    | some w =>
      let w : World := { w with believed := { w.believed with y := len } }
      let w := w.dRel u (-dir * (y - len))
      some (w.aAbs heading)

/-- Positioning before the match, strategy.cpp:145-148 -/
def prepare (u : Dirs) (dir len : ℚ) (c : Color) (w : World) : Option World :=
  (autoPosition u dir len (mirrorX c 250) 450 (mirrorA c (-90)) c w).map fun w => w.aAbs (mirrorA c 180)

/-! ## Properties -/

theorem mirrorX_mirrorX (c : Color) (x : ℚ) : mirrorX c (mirrorX c x) = x := by
  unfold mirrorX
  split
  · rfl
  · linarith

/-- The robot stands with its calibration side (front if `dir` = 1, back if -1) towards the wall on its own side (the left one for yellow), less than 2 m from this wall and from the
wall at y = 0. -/
structure Placed (c : Color) (dir len : ℚ) (p : Pose) : Prop where
  facing : p.a % 360 = (mirrorA c (if dir < 0 then 0 else 180)) % 360
  x : len ≤ mirrorX c p.x ∧ mirrorX c p.x < 2000 + len
  y : len ≤ p.y ∧ p.y < 2000 + len

/-- C85: with the calibration on the front side (as in all configurations), for both colours: wherever the robot is placed and wherever it believes to be, afterwards it stands at the
requested position with the requested heading, and believes so. Missing for the full property: the calibration on the back side, where this is false, see `auto_backward`. -/
theorem auto_forward_partial {u : Dirs} (hu : Exact u) (len : ℚ) (x y : ℚ) (heading : Int) (c : Color) (w : World) (h : Placed c 1 len w.real) :
    ∃ a, autoPosition u 1 len x y heading c w = some ⟨⟨x, y, a⟩, ⟨x, y, heading⟩⟩ ∧ a % 360 = heading % 360 := by
  obtain ⟨⟨rx, ry, ra⟩, ⟨bx, by', ba⟩⟩ := w
  obtain ⟨hf, ⟨hx1, hx2⟩, hy1, hy2⟩ := h
  have h10 : ¬ (1 : ℚ) < 0 := by norm_num
  simp only [if_neg h10] at hf hx1 hx2 hy1 hy2
  cases c with
  | yellow =>
    simp only [mirrorX, mirrorA, if_true] at hf hx1 hx2
    have e1 : toWall 1 len ⟨rx, ry, ra⟩ = some (rx - len) := by
      simp only [toWall, if_neg h10]
      rw [if_neg (by omega), if_neg (by omega), if_pos (by omega)]
    have e2 : ∀ px, toWall 1 len ⟨px, ry, ra + (-90 - 180)⟩ = some (ry - len) := by
      intro px
      simp only [toWall, if_neg h10]
      rw [if_neg (by omega), if_neg (by omega), if_neg (by omega), if_pos (by omega)]
    refine ⟨ra + (-90 - 180) + (heading - -90), ?_, by omega⟩
    simp only [autoPosition, World.align, e1]
    rw [if_pos ⟨by linarith, by linarith⟩]
    simp only [World.dRel, Pose.drive, World.aAbs, mirrorA, mirrorX, if_true, if_neg h10]
    rw [hu.w ra (by omega), hu.w 180 (by omega)]
    simp only
    rw [show ry + 1 * (rx - len) * 0 + -1 * (x - len) * 0 = ry by ring, e2]
    simp only
    rw [if_pos ⟨by linarith, by linarith⟩]
    simp only
    rw [hu.s (ra + (-90 - 180)) (by omega), hu.s (-90) (by omega)]
    simp only
    congr 3 <;> ring
  | blue =>
    simp only [mirrorX, mirrorA, reduceCtorEq, if_false] at hf hx1 hx2
    have e1 : toWall 1 len ⟨rx, ry, ra⟩ = some (3000 - len - rx) := by
      simp only [toWall, if_neg h10]
      rw [if_pos (by omega)]
    have e2 : ∀ px, toWall 1 len ⟨px, ry, ra + (180 - -90 - (180 - 180))⟩ = some (ry - len) := by
      intro px
      simp only [toWall, if_neg h10]
      rw [if_neg (by omega), if_neg (by omega), if_neg (by omega), if_pos (by omega)]
    refine ⟨ra + (180 - -90 - (180 - 180)) + (heading - (180 - -90)), ?_, by omega⟩
    simp only [autoPosition, World.align, e1]
    rw [if_pos ⟨by linarith, by linarith⟩]
    simp only [World.dRel, Pose.drive, World.aAbs, mirrorA, mirrorX, reduceCtorEq, if_false, if_neg h10]
    rw [hu.e ra (by omega), hu.e (180 - 180) (by omega)]
    simp only
    rw [show ry + 1 * (3000 - len - rx) * 0 + -1 * (3000 - x - len) * 0 = ry by ring, e2]
    simp only
    rw [if_pos ⟨by linarith, by linarith⟩]
    simp only
    rw [hu.s (ra + (180 - -90 - (180 - 180))) (by omega), hu.s (180 - -90) (by omega)]
    simp only
    congr 3 <;> ring

/-- C85: before the match, the robot is positioned 250 mm from the wall on its side, 450 mm from the lower one, with its front towards its wall. The positions for the two colours are mirror
images. -/
theorem prepare_spec {u : Dirs} (hu : Exact u) (len : ℚ) (c : Color) (w : World) (h : Placed c 1 len w.real) :
    ∃ a, prepare u 1 len c w = some ⟨⟨mirrorX c 250, 450, a⟩, ⟨mirrorX c 250, 450, mirrorA c 180⟩⟩ ∧ a % 360 = mirrorA c 180 % 360 := by
  obtain ⟨a, h1, h2⟩ := auto_forward_partial hu len (mirrorX c 250) 450 (mirrorA c (-90)) c w h
  refine ⟨a + (mirrorA c 180 - mirrorA c (-90)), ?_, by omega⟩
  unfold prepare
  rw [h1]
  rfl

/-- C85, backward calibration: the robot turns its front to the lower wall, so it backs into the upper one, but sets its position as if it had touched the lower one. It ends up on the other
half of the table, and believes to be off the table. -/
theorem auto_backward {u : Dirs} (hu : Exact u) (len : ℚ) (x y : ℚ) (heading : Int) (w : World) (h : Placed .yellow (-1) len w.real) (hw : w.real.y ≤ 2000 - len ∧ -len < w.real.y) :
    ∃ a, autoPosition u (-1) len x y heading .yellow w = some ⟨⟨x, 2000 - y, a⟩, ⟨x, 2 * len - y, heading⟩⟩ := by
  obtain ⟨⟨rx, ry, ra⟩, ⟨bx, by', ba⟩⟩ := w
  obtain ⟨hf, ⟨hx1, hx2⟩, hy1, hy2⟩ := h
  have h10 : (-1 : ℚ) < 0 := by norm_num
  simp only [if_pos h10] at hf hx1 hx2 hy1 hy2 hw
  simp only [mirrorX, mirrorA, if_true] at hf hx1 hx2
  have e1 : toWall (-1) len ⟨rx, ry, ra⟩ = some (rx - len) := by
    simp only [toWall, if_pos h10]
    rw [if_neg (by omega), if_neg (by omega), if_pos (by omega)]
  have e2 : ∀ px, toWall (-1) len ⟨px, ry, ra + (-90 - 0)⟩ = some (2000 - len - ry) := by
    intro px
    simp only [toWall, if_pos h10]
    rw [if_neg (by omega), if_pos (by omega)]
  refine ⟨ra + (-90 - 0) + (heading - -90), ?_⟩
  simp only [autoPosition, World.align, e1]
  rw [if_pos ⟨by linarith, by linarith⟩]
  simp only [World.dRel, Pose.drive, World.aAbs, mirrorA, mirrorX, if_true, if_pos h10]
  rw [hu.e ra (by omega), hu.e 0 (by omega)]
  simp only
  rw [show ry + -1 * (rx - len) * 0 + - -1 * (x - len) * 0 = ry by ring, e2]
  simp only
  rw [if_pos ⟨by linarith, by linarith⟩]
  simp only
  rw [hu.s (ra + (-90 - 0)) (by omega), hu.s (-90) (by omega)]
  simp only
  congr 3 <;> ring

/-- Directions that are exact where required -/
def axes : Dirs := fun a => if a % 360 = 0 then (1, 0) else if a % 360 = 90 then (0, 1) else if a % 360 = 180 then (-1, 0) else if a % 360 = 270 then (0, -1) else (0, 0)

theorem axes_exact : Exact axes := by
  constructor
  · intro a h; unfold axes; rw [if_pos h]
  · intro a h; unfold axes; rw [if_neg (by omega), if_pos h]
  · intro a h; unfold axes; rw [if_neg (by omega), if_neg (by omega), if_pos h]
  · intro a h; unfold axes; rw [if_neg (by omega), if_neg (by omega), if_neg (by omega), if_pos h]

/-- The hypotheses are met: robots of 135 mm, placed by hand. -/
example : Placed .yellow 1 135 ⟨300, 500, 180⟩ := ⟨by decide, by constructor <;> norm_num [mirrorX], by constructor <;> norm_num⟩
example : Placed .blue 1 135 ⟨2700, 500, 0⟩ := ⟨by decide, by decide +kernel, by constructor <;> norm_num⟩
example : Placed .yellow (-1) 135 ⟨300, 500, 0⟩ := ⟨by decide, by constructor <;> norm_num [mirrorX], by constructor <;> norm_num⟩

example : prepare axes 1 135 .blue ⟨⟨2700, 500, 0⟩, ⟨0, 0, 77⟩⟩ = some ⟨⟨2750, 450, 0⟩, ⟨2750, 450, 0⟩⟩ := by
  decide +kernel

end Verif.Match.Auto
