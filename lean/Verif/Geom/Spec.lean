import Verif.Geom.Model

/-!
# What the geometry functions should compute

Definitions independent of the functions of `Verif.Geom.Model`; only the types of points and lines are shared.
-/

namespace Verif.Geom

/-- The line `a x + b y + c = 0` -/
def OnLine (p : P) (l : Line) : Prop := l.a * p.x + l.b * p.y + l.c = 0

/-- Not the empty equation -/
def Proper (l : Line) : Prop := ¬(l.a = 0 ∧ l.b = 0)

/-- The point at parameter `t` on the line from `a` to `b` -/
def at' (a b : P) (t : ℚ) : P := ⟨a.x + t * (b.x - a.x), a.y + t * (b.y - a.y)⟩

/-- The closed segment -/
def InSeg (p a b : P) : Prop := ∃ t : ℚ, 0 ≤ t ∧ t ≤ 1 ∧ p = at' a b t

/-- The segment without its ends -/
def InOpenSeg (p a b : P) : Prop := ∃ t : ℚ, 0 < t ∧ t < 1 ∧ p = at' a b t

/-- Squared distance -/
def dist2 (p q : P) : ℚ := (q.x - p.x) * (q.x - p.x) + (q.y - p.y) * (q.y - p.y)

/-- Twice the signed area of the triangle: positive when `a`, `b`, `c` turn counter-clockwise -/
def turn (a b c : P) : ℚ := (b.x - a.x) * (c.y - a.y) - (b.y - a.y) * (c.x - a.x)

/-- The supported range of coordinates -/
def InRange (p : P) : Prop := -32768 ≤ p.x ∧ p.x ≤ 32768 ∧ -32768 ≤ p.y ∧ p.y ≤ 32768

/-- A strictly convex polygon, vertices in counter-clockwise order: every vertex is to the left of every side it is not an end of -/
def Convex (pol : List P) : Prop :=
  3 ≤ pol.length ∧
    ∀ (i k : Nat) (hi : i < pol.length) (hk : k < pol.length) (hj : (i + 1) % pol.length < pol.length), k ≠ i → k ≠ (i + 1) % pol.length → 0 < turn pol[i] pol[(i + 1) % pol.length] pol[k]

/-- The convex hull of the vertices: what the polygon covers -/
inductive Hull (pol : List P) : P → Prop
  | vertex {p : P} : p ∈ pol → Hull pol p
  | seg {p a b : P} : Hull pol a → Hull pol b → InSeg p a b → Hull pol p

/-- Some square around the point is covered -/
def Interior (pol : List P) (p : P) : Prop := ∃ ε : ℚ, 0 < ε ∧ ∀ q : P, p.x - ε ≤ q.x → q.x ≤ p.x + ε → p.y - ε ≤ q.y → q.y ≤ p.y + ε → Hull pol q

/-- A side of the polygon, from each vertex to the next, and from the last to the first -/
def Side (pol : List P) (a b : P) : Prop := ∃ (i : Nat) (hi : i < pol.length) (hj : (i + 1) % pol.length < pol.length), a = pol[i] ∧ b = pol[(i + 1) % pol.length]

/-- Covered, but no square around it is -/
def Boundary (pol : List P) (p : P) : Prop := Hull pol p ∧ ¬Interior pol p

end Verif.Geom
