import Verif.Geom.Model
import Verif.Oa.Model
import Mathlib.Analysis.SpecialFunctions.Trigonometric.Basic

/-!
# The map

master-firmware/src/base/map.c, with `math_clamp_value` and `math_point_is_in_square` (robot_helpers/math_helpers.c). Points of polygons are those of `Verif.Geom`; all coordinates computed here are integers of at most 3000, which `float` represents exactly. `none` is an overflow of `int` or `int32_t` (both have 32 bits), or a polygon that could not be allocated and is written to. The lock is left out.
-/

namespace Verif.Map

open Geom (P)

def i32 (x : Int) : Option Int := if -2147483648 ≤ x ∧ x ≤ 2147483647 then some x else none

/-- `MAP_SIZE_X_MM`, `MAP_SIZE_Y_MM`, map.h:12-13 -/
def sizeX : Int := 3000
def sizeY : Int := 2000

/-- `math_clamp_value`, math_helpers.c:26-35 -/
def clamp (value min max : Int) : Int := if value < min then min else if value > max then max else value

/-- `TABLE_POINT_X`, `TABLE_POINT_Y`, map.c:8-9 -/
def tableX (x : Int) : Int := clamp x 0 sizeX
def tableY (y : Int) : Int := clamp y 0 sizeY

/-- The four points set by lines 85-95 and 102-112: right, bottom, top and left side -/
def corners (r b t l : Int) : List P := [⟨r, b⟩, ⟨r, t⟩, ⟨l, t⟩, ⟨l, b⟩]

/-- `map_set_rectangular_obstacle`, map.c:83-96 (each of the eight computations overflows like one of these) -/
def rect (cx cy sx sy robot : Int) : Option (List P) := do
  let wx ← i32 (sx + robot)
  let wy ← i32 (sy + robot)
  let r ← i32 (cx + wx.tdiv 2)
  let b ← i32 (cy - wy.tdiv 2)
  let t ← i32 (cy + wy.tdiv 2)
  let l ← i32 (cx - wx.tdiv 2)
  some (corners (tableX r) (tableY b) (tableY t) (tableX l))

/-- `map_set_rectangular_obstacle_from_corners`, map.c:98-113 -/
def rectCorners (blx bly trx try' robot : Int) : Option (List P) := do
  let r ← i32 (trx + robot.tdiv 2)
  let b ← i32 (bly - robot.tdiv 2)
  let t ← i32 (try' + robot.tdiv 2)
  let l ← i32 (blx - robot.tdiv 2)
  some (corners (tableX r) (tableY b) (tableY t) (tableX l))

/-- Point `i` of `discretize_circle`, discrete_circles.c:11-17, in exact arithmetic -/
noncomputable def sample (x y r offset : ℝ) (samples i : Nat) : ℝ × ℝ :=
  (x + r * Real.cos (i * (2 * Real.pi / samples) + offset), y + r * Real.sin (i * (2 * Real.pi / samples) + offset))

/-- The ally's polygon: `discretize_circle` (discrete_circles.c:5-20) with 4 samples and no offset. The cosines and sines of 0, π/2, π and 3π/2 are taken exactly (theorem `ally_samples`). -/
def diamond (x y r : ℚ) : List P := [⟨x + r, y⟩, ⟨x, y + r⟩, ⟨x - r, y⟩, ⟨x, y - r⟩]

/-- `map_set_ally_obstacle`, map.c:60-69 -/
def ally (x y size robot : Int) : Option (List P) := do
  let s ← i32 (robot + size)
  some (diamond x y (5 / 4 * s / 2))

/-- `struct _map`, map.h:19-33. The polygons are in the order of their allocation. -/
structure Map where
  ally : List P
  opponents : List P × List P
  last : Nat
  wall : Option (List P)
  distributors : List P × List P
  ramp : List P
  oa : Oa.Scene
  box : Int × Int × Int × Int
  enableOpponent : Bool

/-- `oa_new_poly`: `none` when there is no room (the code would write through a null pointer) -/
def new (s : Oa.Scene) (size : Int) : Option Oa.Scene :=
  match s.newPoly size with
  | .ok (some _, s) => some s
  | _ => none

/-- `map_init`, map.c:20-58 -/
def Map.init (robot : Int) (enableWall : Bool) : Option Map := do
  let x2 ← i32 (sizeX - robot.tdiv 2)
  let y2 ← i32 (sizeY - robot.tdiv 2)
  let s ← new .init 4
  let al ← Verif.Map.ally 0 0 0 0
  let s ← new s 4
  let o1 ← rect 0 0 0 0 0
  let s ← new s 4
  let o2 ← rect 0 0 0 0 0
  let (s, wall) ← if enableWall then do
      let s ← new s 4
      let w ← rect 1500 1450 40 200 robot
      some (s, some w)
    else some (s, none)
  let s ← new s 4
  let s ← new s 4
  let d1 ← rectCorners 450 1543 1050 1578 robot
  let d2 ← rectCorners 1950 1543 2550 1578 robot
  let s ← new s 4
  let ramp ← rectCorners 450 1578 2550 2000 robot
  some ⟨al, (o1, o2), 0, wall, (d1, d2), ramp, s, (robot.tdiv 2, robot.tdiv 2, x2, y2), true⟩

/-- `map_set_opponent_obstacle`, map.c:71-76; `none` also for an index outside of the array -/
def Map.setOpponent (m : Map) (index : Nat) (x y size robot : Int) : Option Map := do
  let p ← rect x y size size robot
  if index = 0 then some { m with opponents := (p, m.opponents.2) }
  else if index = 1 then some { m with opponents := (m.opponents.1, p) }
  else none

/-- `map_get_opponent_obstacle`, map.c:78-81 -/
def Map.getOpponent (m : Map) (index : Nat) : Option (List P) :=
  if index = 0 then some m.opponents.1 else if index = 1 then some m.opponents.2 else none

/-- `map_update_opponent_obstacle`, map.c:115-126 -/
def Map.updateOpponent (m : Map) (x y size robot : Int) : Option Map := do
  let m ← m.setOpponent m.last x y size robot
  let last := (m.last + 1) % 256
  some { m with last := if last ≥ 2 then 0 else last }

/-- `map_set_ally_obstacle` on the map -/
def Map.setAlly (m : Map) (x y size robot : Int) : Option Map := do
  let p ← Verif.Map.ally x y size robot
  some { m with ally := p }

/-- `math_point_is_in_square`, math_helpers.c:19-24 -/
def inSquare (pol : List P) (x y : Int) : Bool := Geom.isInPoly ⟨x, y⟩ pol == 1

end Verif.Map
