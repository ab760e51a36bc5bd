import Mathlib.Analysis.SpecialFunctions.Trigonometric.Basic
import Mathlib.Analysis.SpecialFunctions.Trigonometric.Deriv

/-!
# What a pose and a movement are, independently of the code
-/

namespace Verif.Pose.Spec

/-- A rigid motion of the plane: it keeps the distances and the orientation -/
structure Rigid (f : ℝ × ℝ → ℝ × ℝ) : Prop where
  distance : ∀ p q, ((f p).1 - (f q).1) ^ 2 + ((f p).2 - (f q).2) ^ 2 = (p.1 - q.1) ^ 2 + (p.2 - q.2) ^ 2
  orientation : ∀ p q r, ((f q).1 - (f p).1) * ((f r).2 - (f p).2) - ((f q).2 - (f p).2) * ((f r).1 - (f p).1)
      = (q.1 - p.1) * (r.2 - p.2) - (q.2 - p.2) * (r.1 - p.1)

/-- The same heading: equal up to full turns -/
def SameAngle (a b : ℝ) : Prop := ∃ k : Int, a = b + k * (2 * Real.pi)

/-- A robot on two wheels, `track` apart, drives from (x0, y0) with heading a0 for one unit of time; the left wheel travels `l` and the right wheel `r`, both at constant speed. `X`, `Y`, `A` is the pose over time: the robot moves along its heading with the mean of the two speeds, and turns with their difference divided by the track. -/
structure Drive (track l r x0 y0 a0 : ℝ) (X Y A : ℝ → ℝ) : Prop where
  x0 : X 0 = x0
  y0 : Y 0 = y0
  a0 : A 0 = a0
  x : ∀ t, HasDerivAt X ((l + r) / 2 * Real.cos (A t)) t
  y : ∀ t, HasDerivAt Y ((l + r) / 2 * Real.sin (A t)) t
  a : ∀ t, HasDerivAt A ((r - l) / track) t

end Verif.Pose.Spec
