/-!
# Obstacle avoidance

Model of `lib/aversive/obstacle_avoidance/obstacle_avoidance.c` and of `calc_rays` (`lib/aversive/math/geometry/polygon.c:220-315`). A vertex is a pair of the
number of a polygon and the number of a point in it, as in the ray table. `pts` of a polygon is the index of its first point in `points`, and the tables
`valid`, `pweight`, `p` and `pt` are indexed by the position in `points` (macro `GET_PT`, obstacle_avoidance.c:37). Writing behind the ray table and signed
overflow are errors.

The geometry is a parameter here: whether a point is inside of the bounding box, whether a polygon crosses a segment (`is_crossing_poly` returns 1), and the
length of a ray, of which `calc_rays_weight` (polygon.c:323-334) stores the integral part plus one. Coordinates of points are left out.
-/

namespace Verif.Oa

inductive Err where
  | overflow
  | bounds
  | fuel
deriving DecidableEq

def intMax : Nat := 2147483647

/-- `MAX_POLY`, `MAX_PTS`, `MAX_CHKPOINTS` and the size of `rays`, obstacle_avoidance.h:66-69 and 110 -/
def maxPoly : Nat := 20
def maxPts : Nat := 200
def maxChkpoints : Nat := 100
def raysSize : Nat := 2000

/-! ## The set of obstacles -/

/-- `poly_t`, polygon.h; `pts` as index of the first point -/
structure Poly where
  pts : Int
  l : Int
deriving DecidableEq

/-- The part of `struct obstacle_avoidance` that describes the obstacles, obstacle_avoidance.h:97-107; `cur_poly_idx` is the length of `polys`. -/
structure Scene where
  polys : List Poly
  curPt : Int
deriving DecidableEq

/-- `oa_init`, obstacle_avoidance.c:68-80: one polygon with the end and the start -/
def Scene.init : Scene := ⟨[⟨0, 2⟩], 2⟩

/-- `oa_new_poly`, obstacle_avoidance.c:125-141: the number of the new polygon, or none. A negative size is not refused. -/
def Scene.newPoly (s : Scene) (size : Int) : Except Err (Option Nat × Scene) :=
  if s.curPt + size > intMax ∨ s.curPt + size < -(intMax : Int) - 1 then .error .overflow
  else if s.curPt + size > maxPts then .ok (none, s)
  else if s.polys.length + 1 > maxPoly then .ok (none, s)
  else .ok (some s.polys.length, ⟨s.polys ++ [⟨s.curPt, size⟩], s.curPt + size⟩)

/-! ## Rays -/

/-- Number of the polygon, number of the point. -/
abbrev Vertex := Nat × Nat

/-- Four entries of `rays` and the entry of `weight` -/
structure Ray where
  a : Vertex
  b : Vertex
  w : Nat
deriving DecidableEq

/-- What `calc_rays` finds out about the points of the scene. -/
structure Geometry where
  inBox : Vertex → Bool
  crossed : Vertex → Vertex → Nat → Bool
  norm : Vertex → Vertex → Nat

/-- Stores a ray, polygon.c:266-269 and 304-307. -/
def push (rays : List (Vertex × Vertex)) (r : Vertex × Vertex) : Except Err (List (Vertex × Vertex)) :=
  if 4 * rays.length + 4 > raysSize then .error .bounds else .ok (rays ++ [r])

def pushAll : List (Vertex × Vertex) → List (Vertex × Vertex) → Except Err (List (Vertex × Vertex))
  | rays, [] => .ok rays
  | rays, r :: rs =>
    match push rays r with
    | .error e => .error e
    | .ok rays => pushAll rays rs

/-- The sides of polygons that are visible, in the order of the loops polygon.c:235-272. `ls` are the numbers of points of the polygons. -/
def innerRays (g : Geometry) (ls : List Nat) : List (Vertex × Vertex) :=
  (List.range ls.length).flatMap fun i =>
    let l := ls.getD i 0
    (List.range l).filterMap fun ii =>
      let n := (ii + 1) % l
      if g.inBox (i, ii) && g.inBox (i, n) && (List.range ls.length).all (fun index => index == 0 || index == i || !g.crossed (i, ii) (i, n) index)
      then some ((i, ii), (i, n)) else none

/-- The visible pairs of points of different polygons, in the order of the loops polygon.c:278-312. -/
def interRays (g : Geometry) (ls : List Nat) : List (Vertex × Vertex) :=
  (List.range (ls.length - 1)).flatMap fun i =>
    (List.range (ls.getD i 0)).flatMap fun pt1 =>
      if g.inBox (i, pt1) then
        (List.range ls.length).flatMap fun ii =>
          if i < ii then
            (List.range (ls.getD ii 0)).filterMap fun pt2 =>
              if g.inBox (ii, pt2) && (List.range ls.length).all (fun index => index == 0 || !g.crossed (i, pt1) (ii, pt2) index)
              then some ((i, pt1), (ii, pt2)) else none
          else []
      else []

/-- `calc_rays`, polygon.c:220-315 -/
def calcRays (g : Geometry) (ls : List Nat) : Except Err (List (Vertex × Vertex)) := pushAll [] (innerRays g ls ++ interRays g ls)

/-- `calc_rays_weight`, polygon.c:323-334; the conversion of the length to an integer is part of `norm`. -/
def withWeights (g : Geometry) (rays : List (Vertex × Vertex)) : List Ray := rays.map fun r => ⟨r.1, r.2, g.norm r.1 r.2 + 1⟩

/-! ## The search -/

/-- `valid`, `pweight`, `p` and `pt`, obstacle_avoidance.h:100-103 -/
structure St where
  valid : Nat → Nat
  pweight : Nat → Nat
  p : Nat → Nat
  pt : Nat → Nat

def upd {α : Type} (f : Nat → α) (i : Nat) (x : α) : Nat → α := fun j => if j = i then x else f j

/-- The end point, from which the search starts, and the start point, obstacle_avoidance.c:91-111 and 316-317 -/
def origin : Vertex := (0, 0)
def begin' : Vertex := (0, 1)

/-- `oa_reset`, obstacle_avoidance.c:50-63, and the first assignment of `dijkstra`, line 247. The weight of the end, which `__oa_start_end_points` sets to 1,
is back to 0 here. -/
def St.init (idx : Vertex → Nat) : St := ⟨upd (fun _ => 0) (idx origin) 2, fun _ => 0, fun _ => 0, fun _ => 0⟩

/-- obstacle_avoidance.c:279-289: a ray of weight `w` from `cur` to `z`; the flag tells that `finish` is cleared. -/
def relax1 (idx : Vertex → Nat) (cur z : Vertex) (w : Nat) (st : St) : Except Err (St × Bool) :=
  if st.pweight (idx cur) + w > intMax then .error .overflow
  else if st.pweight (idx z) ≠ 0 ∧ st.pweight (idx cur) + w ≥ st.pweight (idx z) then .ok (st, false)
  else .ok (⟨upd (upd st.valid (idx z) 2) (idx cur) 1, upd st.pweight (idx z) (st.pweight (idx cur) + w), upd st.p (idx z) cur.1, upd st.pt (idx z) cur.2⟩, true)

/-- The two iterations of the loop over the rays that belong to one ray, obstacle_avoidance.c:264-302. -/
def relaxRay (idx : Vertex → Nat) (cur : Vertex) (r : Ray) (st : St) : Except Err (St × Bool) :=
  match (if cur = r.a then relax1 idx cur r.b r.w st else .ok (st, false)) with
  | .error e => .error e
  | .ok (st, x) =>
    match (if cur = r.b then relax1 idx cur r.a r.w st else .ok (st, false)) with
    | .error e => .error e
    | .ok (st, y) => .ok (st, x || y)

def relaxAll (idx : Vertex → Nat) (cur : Vertex) : List Ray → St → Except Err (St × Bool)
  | [], st => .ok (st, false)
  | r :: rs, st =>
    match relaxRay idx cur r st with
    | .error e => .error e
    | .ok (st, x) =>
      match relaxAll idx cur rs st with
      | .error e => .error e
      | .ok (st, y) => .ok (st, x || y)

/-- One pass over all points, obstacle_avoidance.c:252-304. -/
def pass (idx : Vertex → Nat) (rays : List Ray) : List Vertex → St → Except Err (St × Bool)
  | [], st => .ok (st, false)
  | v :: vs, st =>
    match (if st.valid (idx v) ≠ 2 then .ok (st, false) else relaxAll idx v rays st) with
    | .error e => .error e
    | .ok (st, x) =>
      match pass idx rays vs st with
      | .error e => .error e
      | .ok (st, y) => .ok (st, x || y)

/-- `while (!finish)`, obstacle_avoidance.c:249-305 -/
def search (idx : Vertex → Nat) (rays : List Ray) (pts : List Vertex) : Nat → St → Except Err St
  | 0, _ => .error .fuel
  | f + 1, st =>
    match pass idx rays pts st with
    | .error e => .error e
    | .ok (st, false) => .ok st
    | .ok (st, true) => search idx rays pts f st

/-- What `get_path` returns instead of a length: -1 and -2. -/
inductive Fail where
  | tooLong
  | invalid
deriving DecidableEq

/-- `get_path`, obstacle_avoidance.c:309-340, from a vertex on, with so many free entries in `res`: the vertices that are stored. -/
def getPath (idx : Vertex → Nat) (st : St) : Nat → Vertex → Except Fail (List Vertex)
  | rem, v =>
    if v = origin then .ok []
    else
      match rem with
      | 0 => .error .tooLong
      | rem + 1 =>
        if st.valid (idx v) = 0 then .error .invalid
        else
          match getPath idx st rem (st.p (idx v), st.pt (idx v)) with
          | .error e => .error e
          | .ok l => .ok ((st.p (idx v), st.pt (idx v)) :: l)

/-- The points in the order of the loops obstacle_avoidance.c:252-253 -/
def points (ls : List Nat) : List Vertex := (List.range ls.length).flatMap fun p => (List.range (ls.getD p 0)).map fun t => (p, t)

/-- The rest of `oa_process`, obstacle_avoidance.c:377-383, for the given rays -/
def solve (idx : Vertex → Nat) (rays : List Ray) (pts : List Vertex) (fuel : Nat) : Except Err (Except Fail (List Vertex)) :=
  match search idx rays pts fuel (St.init idx) with
  | .error e => .error e
  | .ok st => .ok (getPath idx st maxChkpoints begin')

/-- Number of points of each polygon -/
def Scene.sizes (s : Scene) : List Nat := s.polys.map fun p => p.l.toNat

/-- `GET_PT` -/
def Scene.idx (s : Scene) (v : Vertex) : Nat :=
  match s.polys[v.1]? with
  | some p => p.pts.toNat + v.2
  | none => 0

/-- `oa_process`, obstacle_avoidance.c:343-384 -/
def process (s : Scene) (g : Geometry) (fuel : Nat) : Except Err (Except Fail (List Vertex)) :=
  match calcRays g s.sizes with
  | .error e => .error e
  | .ok rays => solve s.idx (withWeights g rays) (points s.sizes) fuel

end Verif.Oa
