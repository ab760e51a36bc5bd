import Mathlib.Data.Rat.Defs
import Mathlib.Algebra.Order.Field.Rat

/-!
# Plane geometry

lib/aversive/math/geometry: vect_base.c, lines.c, polygon.c. The code computes with `float`; the model computes exactly, with rational numbers. So what is proved here is that the
algorithms are right, apart from rounding, infinities and NaN. Divisions by zero (in C an infinity or NaN) are excluded by the code's own tests, except in `proj_pt_line`, where
the model returns `none`.
-/

namespace Verif.Geom

/-- `point_t`, `vect_t`, vect_base.h:36-47 -/
structure P where
  x : ℚ
  y : ℚ
deriving DecidableEq

/-- `line_t`, lines.h:35-39 -/
structure Line where
  a : ℚ
  b : ℚ
  c : ℚ
deriving DecidableEq

/-- The vector from `p` to `q`, written out in the code -/
def P.sub (q p : P) : P := ⟨q.x - p.x, q.y - p.y⟩

/-- `vect_pscal`, `vect_pvect`, vect_base.c:28-37 -/
def pscal (v w : P) : ℚ := v.x * w.x + v.y * w.y
def pvect (v w : P) : ℚ := v.x * w.y - v.y * w.x

/-- `vect_pscal_sign`, `vect_pvect_sign`, vect_base.c:40-61 -/
def sign (z : ℚ) : Int := if z = 0 then 0 else if z > 0 then 1 else -1
def pscalSign (v w : P) : Int := sign (pscal v w)
def pvectSign (v w : P) : Int := sign (pvect v w)

/-- Result of `intersect_line`: 0, 1 with the point, 2 -/
inductive Cross where
  | none
  | point (p : P)
  | same
deriving DecidableEq

/-- `intersect_line`, lines.c:47-112 -/
def intersectLine (l1 l2 : Line) : Cross :=
  if (l1.a = 0 ∧ l1.b = 0) ∨ (l2.a = 0 ∧ l2.b = 0) then .none
  else if l1.a = 0 then
    if l2.a = 0 then
      if l1.b * l2.c = l2.b * l1.c then .same else .none
    else .point ⟨-(l2.b * (-l1.c) + l2.c * l1.b) / (l2.a * l1.b), -l1.c / l1.b⟩
  else if l1.b = 0 then
    if l2.b = 0 then
      if l1.a * l2.c = l2.a * l1.c then .same else .none
    else .point ⟨-l1.c / l1.a, -(l2.a * (-l1.c) + l2.c * l1.a) / (l2.b * l1.a)⟩
  else if l2.a * l1.b - l1.a * l2.b = 0 then
    if l1.a * l2.c = l2.a * l1.c then .same else .none
  else
    let tmp1 := l1.a * l2.c - l1.c * l2.a
    let tmp2 := l2.a * l1.b - l1.a * l2.b
    .point ⟨-(l1.b * tmp1 + l1.c * tmp2) / (l1.a * tmp2), tmp1 / tmp2⟩

/-- `pts2line`, lines.c:114-129 -/
def pts2line (p1 p2 : P) : Line :=
  let a := -(p2.y - p1.y)
  let b := p2.x - p1.x
  ⟨a, b, -(a * p1.x + b * p1.y)⟩

/-- `proj_pt_line`, lines.c:131-141; `none` when it divides by zero -/
def projPtLine (p : P) (l : Line) : Option P :=
  let a := l.b
  let b := -l.a
  let c := -a * p.x - b * p.y
  let d := l.a * b - a * l.b
  if d = 0 then none else some ⟨(l.b * c - b * l.c) / d, (a * l.c - l.a * c) / d⟩

/-- `line_translate`, lines.c:248-251 -/
def lineTranslate (l : Line) (v : P) : Line := { l with c := l.c - (l.a * v.x + l.b * v.y) }

def absQ (z : ℚ) : ℚ := if z < 0 then -z else z

/-- `intersect_segment`, lines.c:152-247; the result and `*p`, which is meaningful if the result is not 0 -/
def intersectSegment (s1 s2 t1 t2 : P) : Nat × P :=
  match intersectLine (pts2line s1 s2) (pts2line t1 t2) with
  | .none => (0, ⟨0, 0⟩)
  | .same =>
    if pscalSign (t1.sub s1) (t1.sub s2) ≤ 0 then (3, t1)
    else if pscalSign (t2.sub s1) (t2.sub s2) ≤ 0 then (3, t2)
    else (0, t2)
  | .point p =>
    if s1.x = t1.x ∧ s1.y = t1.y then (2, s1)
    else if s1.x = t2.x ∧ s1.y = t2.y then (2, s1)
    else if s2.x = t1.x ∧ s2.y = t1.y then (2, s2)
    else if s2.x = t2.x ∧ s2.y = t2.y then (2, s2)
    else if absQ p.x > 32768 ∨ absQ p.y > 32768 then (0, p)
    else
      let u1 := pscalSign (p.sub s1) (p.sub s2)
      let u2 := pscalSign (p.sub t1) (p.sub t2)
      if u1 > 0 ∨ u2 > 0 then (0, p)
      else if u1 = 0 ∨ u2 = 0 then (2, p)
      else (1, p)

/-! ## Polygons, polygon.c -/

/-- Vertex `i` -/
def vtx (pol : List P) (i : Nat) : P := pol.getD i ⟨0, 0⟩

/-- The sides: `i` and `(i + 1) % pol->l`, polygon.c:82-83 and 132-133 -/
def sides (pol : List P) : List (P × P) := (List.range pol.length).map fun i => (vtx pol i, vtx pol ((i + 1) % pol.length))

/-- The loop of lines 82-95 -/
def inPolyLoop (p : P) : List (P × P) → Nat → Nat
  | [], ret => ret
  | (a, b) :: es, ret =>
    let z := pvectSign (b.sub p) (a.sub p)
    if z > 0 then 0 else if z = 0 then inPolyLoop p es 2 else inPolyLoop p es ret

/-- `is_in_poly`, polygon.c:67-98 -/
def isInPoly (p : P) (pol : List P) : Nat := if pol.any (fun q => decide (p.x = q.x ∧ p.y = q.y)) then 2 else inPolyLoop p (sides pol) 1

/-- The loop of `is_crossing_poly`, polygon.c:132-165: `inl` is a return, `inr` the value of `cpt`; `ip` is `*intersect_pt` -/
def crossLoop (p1 p2 : P) : List (P × P) → Nat → P → (Nat × P) ⊕ (Nat × P)
  | [], cpt, ip => .inr (cpt, ip)
  | (a, b) :: es, cpt, ip =>
    match intersectSegment p1 p2 a b with
    | (1, p) => .inl (1, p)
    | (2, p) => crossLoop p1 p2 es (cpt + 1) p
    | (3, p) => .inl (2, p)
    | (_, _) => crossLoop p1 p2 es cpt ip

/-- `is_crossing_poly`, polygon.c:116-202 -/
def isCrossingPoly (p1 p2 : P) (ip : P) (pol : List P) : Nat × P :=
  match crossLoop p1 p2 (sides pol) 0 ip with
  | .inl r => r
  | .inr (cpt, ip) =>
    if cpt = 3 ∨ cpt = 4 then (1, ip)
    else
      let ret1 := isInPoly p1 pol
      let ret2 := isInPoly p2 pol
      if cpt = 0 then if ret1 = 1 ∨ ret2 = 1 then (1, ip) else (0, ip)
      else if cpt = 1 then if ret1 = 1 ∨ ret2 = 1 then (1, ip) else (3, ip)
      else if cpt = 2 then
        if ret1 = 1 ∨ ret2 = 1 then (1, ip) else if ret1 = 0 ∨ ret2 = 0 then (3, ip) else (1, ip)
      else (1, ip)

/-- `is_in_boundingbox`, polygon.c:54-60 -/
def isInBox (x1 y1 x2 y2 : ℚ) (p : P) : Bool := decide (p.x ≥ x1 ∧ p.x ≤ x2 ∧ p.y ≥ y1 ∧ p.y ≤ y2)

end Verif.Geom
