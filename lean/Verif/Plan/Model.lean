import Verif.Map.Model
import Mathlib.Data.Nat.Sqrt
import Mathlib.Data.Rat.Floor

/-!
# Planning a path among obstacles

`oa_process` (`Verif.Oa`) with the points of the obstacles in place of its abstract geometry: visibility is decided by `is_crossing_poly` and
`is_in_boundingbox` (`Verif.Geom`). Then the calls of `strategy_goto_avoid` (master-firmware/src/strategy_impl/base.cpp:51-64) that compute a path on the map
(`Verif.Map`). Coordinates are rational numbers and computed exactly, as in `Verif.Geom`.
-/

namespace Verif.Plan

open Geom (P)
open Oa (Vertex)

/-- `polys[v.1].pts[v.2]`; vertices that do not exist are not used -/
def pt (ps : List (List P)) (v : Vertex) : P := (ps.getD v.1 []).getD v.2 ⟨0, 0⟩

/-- The integral part of `vect_norm` of the difference, polygon.c:329-331 and vect_base.c:78-81, the square root being exact -/
def norm (a b : P) : Nat := Nat.sqrt ⌊(a.x - b.x) ^ 2 + (a.y - b.y) ^ 2⌋.toNat

/-- What `calc_rays` and `calc_rays_weight` (polygon.c:220-334) compute from the points of all polygons, the first of which is the end and the start -/
def geo (ps : List (List P)) (box : ℚ × ℚ × ℚ × ℚ) : Oa.Geometry where
  inBox v := Geom.isInBox box.1 box.2.1 box.2.2.1 box.2.2.2 (pt ps v)
  crossed u v k := (Geom.isCrossingPoly (pt ps u) (pt ps v) ⟨0, 0⟩ (ps.getD k [])).1 == 1
  norm u v := norm (pt ps u) (pt ps v)

/-- The obstacles of the map in the order of their allocation, map.c:31-54 -/
def obstacles (m : Map.Map) : List (List P) := [m.ally, m.opponents.1, m.opponents.2] ++ m.wall.toList ++ [m.distributors.1, m.distributors.2, m.ramp]

/-- All polygons after `oa_start_end_points`, obstacle_avoidance.c:91-119: the first has the end and the start -/
def polys (m : Map.Map) (start goal : Int × Int) : List (List P) := [⟨goal.1, goal.2⟩, ⟨start.1, start.2⟩] :: obstacles m

/-- base.cpp:51-64: `oa_start_end_points`, `oa_process` and `oa_get_path`. The start is the position converted to integers. -/
def plan (m : Map.Map) (start goal : Int × Int) (fuel : Nat) : Except Oa.Err (Except Oa.Fail (List P)) :=
  match Oa.process m.oa (geo (polys m start goal) (m.box.1, m.box.2.1, m.box.2.2.1, m.box.2.2.2)) fuel with
  | .error e => .error e
  | .ok (.error e) => .ok (.error e)
  | .ok (.ok l) => .ok (.ok (l.map (pt (polys m start goal))))

end Verif.Plan
