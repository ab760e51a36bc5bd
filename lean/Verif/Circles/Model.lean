import Mathlib.Analysis.SpecialFunctions.Complex.Arg
import Mathlib.Analysis.SpecialFunctions.Trigonometric.Inverse
import Mathlib.Analysis.Real.Sqrt

/-!
# Circles and plane vectors

Model of `lib/aversive/math/geometry/circles.c` and `lib/aversive/math/vect2/vect2.c` in exact real arithmetic.
-/

namespace Verif.Circles

structure Pt where
  x : ℝ
  y : ℝ

/-- `circle_t`, circles.h:37-41. -/
structure Circle where
  x : ℝ
  y : ℝ
  r : ℝ

/-- `pt_is_inside_circle`, circles.c:33-42. -/
noncomputable def inside (p : Pt) (c : Circle) : Nat :=
  let vx := p.x - c.x
  let vy := p.y - c.y
  if vx * vx + vy * vy < c.r * c.r then 1 else 0

/-- Results of `circle_intersect`; the points are dummies for the result 0. -/
inductive Res
  | /-- 0 -/ none
  | /-- 1 -/ one (p : Pt)
  | /-- 1, with NaN as point -/ oneNan
  | /-- 2 -/ two (p1 p2 : Pt)

def sq (x : ℝ) : ℝ := x * x

/-- `circle_intersect`, circles.c:96-132, after the computation of `a`, `b` and `c`. In the special case the quotient by `2a` is NaN
for `0 / 0`, so that `e < 0` is false and the point is NaN; it is infinite for `x / 0`, so that `e` is below zero. -/
noncomputable def solve (c1 : Circle) (r2 a b c : ℝ) : Res :=
  let d := sq (2 * a * c) - 4 * (sq a + sq b) * (sq c - sq b * sq c1.r)
  if d < 0 then .none
  else if |b| < 0.0001 then
    if a = 0 then
      if 2 * c - sq a = 0 then .oneNan else .none
    else
      let e := sq r2 - sq ((2 * c - sq a) / (2 * a))
      if e < 0 then .none
      else .one ⟨(2 * a * c - Real.sqrt d) / (2 * (sq a + sq b)) + c1.x, Real.sqrt e + c1.y⟩
  else
    let x1 := (2 * a * c - Real.sqrt d) / (2 * (sq a + sq b))
    let y1 := (c - a * x1) / b
    let x2 := (2 * a * c + Real.sqrt d) / (2 * (sq a + sq b))
    let y2 := (c - a * x2) / b
    .two ⟨x1 + c1.x, y1 + c1.y⟩ ⟨x2 + c1.x, y2 + c1.y⟩

/-- `circle_intersect`, circles.c:82-95. -/
noncomputable def core (c1 c2 : Circle) : Res :=
  let dx := c2.x - c1.x
  let dy := c2.y - c1.y
  solve c1 c2.r (2 * dx) (2 * dy) (sq dx + sq dy - sq c2.r + sq c1.r)

def Circle.swap (c : Circle) : Circle := ⟨c.y, c.x, c.r⟩

def Pt.swap (p : Pt) : Pt := ⟨p.y, p.x⟩

def Res.swap : Res → Res
  | .none => .none
  | .one p => .one p.swap
  | .oneNan => .oneNan
  | .two p q => .two p.swap q.swap

/-- `circle_intersect`, circles.c:54-80. The recursive call never recurs: for it the distance in `y` is the larger one. -/
noncomputable def intersect (c1 c2 : Circle) : Res :=
  if |c1.y - c2.y| < |c1.x - c2.x| then (core c1.swap c2.swap).swap else core c1 c2

/-! ## vect2.c -/

structure Pol where
  r : ℝ
  theta : ℝ

/-- `vect2_pol2cart`, vect2.c:7-15. -/
noncomputable def pol2cart (v : Pol) : Pt := ⟨v.r * Real.cos v.theta, v.r * Real.sin v.theta⟩

/-- `atan2(y, x)`; the sign of zeros is not modelled. -/
noncomputable def atan2 (y x : ℝ) : ℝ := Complex.arg ⟨x, y⟩

/-- `vect2_cart2pol`, vect2.c:18-26. -/
noncomputable def cart2pol (v : Pt) : Pol := ⟨Real.sqrt (v.x * v.x + v.y * v.y), atan2 v.y v.x⟩

/-- `vect2_add_cart`, vect2.c:45-49. -/
def addCart (u v : Pt) : Pt := ⟨u.x + v.x, u.y + v.y⟩

/-- `vect2_sub_cart`, vect2.c:68-72. -/
def subCart (u v : Pt) : Pt := ⟨u.x - v.x, u.y - v.y⟩

/-- `vect2_add_pol`, vect2.c:29-42. -/
noncomputable def addPol (u v : Pol) : Pol := cart2pol (addCart (pol2cart u) (pol2cart v))

/-- `vect2_sub_pol`, vect2.c:52-65. -/
noncomputable def subPol (u v : Pol) : Pol := cart2pol (subCart (pol2cart u) (pol2cart v))

/-- `vect2_scale_cart`, vect2.c:75-79. -/
def scaleCart (v : Pt) (alpha : ℝ) : Pt := ⟨alpha * v.x, alpha * v.y⟩

/-- `vect2_scale_pol`, vect2.c:82-85; `old` is what the result contained before. -/
def scalePol (v : Pol) (alpha : ℝ) (old : Pol) : Pol := { old with r := alpha * v.r }

/-- `vect2_norm_cart`, vect2.c:88-91. -/
noncomputable def normCart (v : Pt) : ℝ := Real.sqrt (v.x * v.x + v.y * v.y)

/-- `vect2_dist_cart`, vect2.c:94-100. -/
noncomputable def distCart (u v : Pt) : ℝ := normCart (subCart u v)

/-- `vect2_dot_product_cart`, vect2.c:103-106. -/
def dotCart (u v : Pt) : ℝ := u.x * v.x + u.y * v.y

/-- `vect2_angle_2vec_rad_cart`, vect2.c:109-115; `none` is NaN, from the division by zero. -/
noncomputable def angle2 (u v : Pt) : Option ℝ :=
  if normCart u * normCart v = 0 then none else some (Real.arccos (dotCart u v / (normCart u * normCart v)))

end Verif.Circles
