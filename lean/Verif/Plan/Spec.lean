import Verif.Plan.Model
import Verif.Geom.Spec
import Mathlib.Analysis.Real.Sqrt

/-!
# Planning: what is required
-/

namespace Verif.Plan

open Geom

/-- In a rectangle given by its left, lower, right and upper side -/
def InBox (box : ℚ × ℚ × ℚ × ℚ) (p : P) : Prop := (box.1 ≤ p.x ∧ p.x ≤ box.2.2.1) ∧ (box.2.1 ≤ p.y ∧ p.y ≤ box.2.2.2)

/-- The straight way between two points: both are in the box, and it stays out of some areas. -/
def Free (box : ℚ × ℚ × ℚ × ℚ) (areas : List (P → Prop)) (a b : P) : Prop := InBox box a ∧ InBox box b ∧ ∀ R ∈ areas, ∀ m, InSeg m a b → ¬R m

/-- Each element with the next one -/
def legs {α : Type} : List α → List (α × α)
  | a :: b :: l => (a, b) :: legs (b :: l)
  | _ => []

/-- Distance of two points -/
noncomputable def dist (a b : P) : ℝ := Real.sqrt (((a.x : ℝ) - b.x) ^ 2 + ((a.y : ℝ) - b.y) ^ 2)

/-- Length of a polygonal path -/
noncomputable def length (l : List P) : ℝ := ((legs l).map fun e => dist e.1 e.2).sum

/-- A path from the second to the first point of the first polygon, over any of the points, along free ways. The points are given by the number of their polygon
and their number in it. -/
structure Route (ps : List (List P)) (box : ℚ × ℚ × ℚ × ℚ) (areas : List (P → Prop)) (q : List (Nat × Nat)) : Prop where
  start : q.head? = some (0, 1)
  goal : q.getLast? = some (0, 0)
  exist : ∀ v ∈ q, ∃ pol, ps[v.1]? = some pol ∧ v.2 < pol.length
  free : ∀ e ∈ legs q, e.1 ≠ e.2 ∧ Free box areas (pt ps e.1) (pt ps e.2)

/-! ## On the table -/

/-- Closer than `h` to a rectangle, in both directions -/
def near (h x1 y1 x2 y2 : Int) (p : P) : Prop := ((x1 - h : ℚ) < p.x ∧ p.x < (x2 + h : ℚ)) ∧ ((y1 - h : ℚ) < p.y ∧ p.y < (y2 + h : ℚ))

/-- Some robot: where it is and the sum of its size and that of ours -/
structure Robot where
  x : Int
  y : Int
  sizes : Int

/-- Closer to an opponent than half the sizes, in both directions -/
def Robot.around (o : Robot) : P → Prop := near (o.sizes / 2) o.x o.y o.x o.y

/-- Closer to the ally than 1.25 times half the sizes, the distances in both directions added -/
def Robot.allied (o : Robot) (p : P) : Prop := |p.x - o.x| + |p.y - o.y| < 5 / 4 * o.sizes / 2

/-- Everything there is on the table that one must not run into. The fixed obstacles are the wall of the balances, two distributors and the ramp. -/
def table (robot : Int) (wall : Bool) (ally newest older : Robot) : List (P → Prop) :=
  [ally.allied, newest.around, older.around] ++ (if wall then [near (robot / 2) 1480 1350 1520 1550] else []) ++
    [near (robot / 2) 450 1543 1050 1578, near (robot / 2) 1950 1543 2550 1578, near (robot / 2) 450 1578 2550 2000]

/-- What is reported while the robot runs: `map_update_opponent_obstacle` and `map_set_ally_obstacle` -/
inductive Report where
  | opponent (x y size robot : Int)
  | ally (x y size robot : Int)

/-- Positions at most 10 m away, sizes up to 10 m and not negligible; or the report that nobody is seen, map_server.cpp:81 and 93 -/
def Report.Fair : Report → Prop
  | .opponent x y size robot => ((-10000 ≤ x ∧ x ≤ 10000) ∧ (-10000 ≤ y ∧ y ≤ 10000) ∧ (0 ≤ size ∧ size ≤ 10000) ∧ (0 ≤ robot ∧ robot ≤ 10000) ∧ 2 ≤ size + robot) ∨
      (x = 0 ∧ y = 0 ∧ size = 0 ∧ robot = 0)
  | .ally x y size robot => ((-10000 ≤ x ∧ x ≤ 10000) ∧ (-10000 ≤ y ∧ y ≤ 10000) ∧ (0 ≤ size ∧ size ≤ 10000) ∧ (0 ≤ robot ∧ robot ≤ 10000) ∧ 0 < size + robot) ∨
      (x = 0 ∧ y = 0 ∧ size = 0 ∧ robot = 0)

def Report.run (m : Map.Map) : Report → Option Map.Map
  | .opponent x y size robot => m.updateOpponent x y size robot
  | .ally x y size robot => m.setAlly x y size robot

def runAll : Map.Map → List Report → Option Map.Map
  | m, [] => some m
  | m, r :: rs => (r.run m).bind fun m => runAll m rs

/-- Where the ally was reported, in order; at first nobody was seen -/
def allies (rs : List Report) : List Robot :=
  ⟨0, 0, 0⟩ :: rs.filterMap fun r => match r with | .ally x y size robot => some ⟨x, y, robot + size⟩ | .opponent .. => none

/-- Where opponents were reported -/
def opponents (rs : List Report) : List Robot :=
  [⟨0, 0, 0⟩, ⟨0, 0, 0⟩] ++ rs.filterMap fun r => match r with | .opponent x y size robot => some ⟨x, y, size + robot⟩ | .ally .. => none

/-- The last report about the ally, and the last two about opponents -/
def ally (rs : List Report) : Robot := (allies rs).reverse.getD 0 ⟨0, 0, 0⟩
def newest (rs : List Report) : Robot := (opponents rs).reverse.getD 0 ⟨0, 0, 0⟩
def older (rs : List Report) : Robot := (opponents rs).reverse.getD 1 ⟨0, 0, 0⟩

end Verif.Plan
