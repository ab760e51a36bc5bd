import Verif.Map.Border
import Mathlib.Tactic.NormNum
import Mathlib.Tactic.LinearCombination

/-!
# C69: obstacles on the map
-/

namespace Verif.Map

open Geom

/-! ## Rectangles -/

/-- On the table -/
def OnTable (p : P) : Prop := (0 ≤ p.x ∧ p.x ≤ 3000) ∧ (0 ≤ p.y ∧ p.y ≤ 2000)

/-- Strictly inside of the table -/
def InsideTable (p : P) : Prop := (0 < p.x ∧ p.x < 3000) ∧ (0 < p.y ∧ p.y < 2000)

theorem corners_table (r b t l : Int) : ∀ v ∈ corners (tableX r) (tableY b) (tableY t) (tableX l), OnTable v := by
  have mX : ∀ v, (0 : ℚ) ≤ tableX v ∧ (tableX v : ℚ) ≤ 3000 := fun v => ⟨by exact_mod_cast (clamp_mem v (by decide : (0 : Int) ≤ sizeX)).1, by exact_mod_cast (clamp_mem v (by decide : (0 : Int) ≤ sizeX)).2⟩
  have mY : ∀ v, (0 : ℚ) ≤ tableY v ∧ (tableY v : ℚ) ≤ 2000 := fun v => ⟨by exact_mod_cast (clamp_mem v (by decide : (0 : Int) ≤ sizeY)).1, by exact_mod_cast (clamp_mem v (by decide : (0 : Int) ≤ sizeY)).2⟩
  intro v hv
  simp only [corners, List.mem_cons, List.not_mem_nil, or_false] at hv
  rcases hv with rfl | rfl | rfl | rfl
  · exact ⟨mX r, mY b⟩
  · exact ⟨mX r, mY t⟩
  · exact ⟨mX l, mY t⟩
  · exact ⟨mX l, mY b⟩

/-- C69: an obstacle is a rectangle with sides along the axes, all of whose corners are on the table; and so is one given by its corners. -/
theorem rect_table (cx cy sx sy robot : Int) (pol : List P) (h : rect cx cy sx sy robot = some pol ∨ rectCorners cx cy sx sy robot = some pol) :
    (∃ r b t l : ℚ, pol = [⟨r, b⟩, ⟨r, t⟩, ⟨l, t⟩, ⟨l, b⟩]) ∧ ∀ v ∈ pol, OnTable v := by
  rcases h with h | h
  · rw [rect_eq h]
    exact ⟨⟨_, _, _, _, rfl⟩, corners_table _ _ _ _⟩
  · rw [rectCorners_eq h]
    exact ⟨⟨_, _, _, _, rfl⟩, corners_table _ _ _ _⟩

/-- C69: no overflow for positions and sizes up to a kilometre. -/
theorem rect_defined (cx cy sx sy robot : Int) (h1 : -1000000 ≤ cx ∧ cx ≤ 1000000) (h2 : -1000000 ≤ cy ∧ cy ≤ 1000000)
    (h3 : 0 ≤ sx ∧ sx ≤ 1000000) (h4 : 0 ≤ sy ∧ sy ≤ 1000000) (h5 : 0 ≤ robot ∧ robot ≤ 1000000) : (rect cx cy sx sy robot).isSome := by
  rw [rect_of (by omega) (by omega) (by omega) (by omega) (by omega)]
  rfl

/-- C69: far away positions overflow (undefined behaviour). -/
theorem rect_overflow : rect 2147483647 0 200 200 200 = none := by decide

/-- C69: the rectangle contains every point of the table, with whole coordinates, that is covered by the obstacle made larger by half the robot on each side. -/
theorem rect_covers (cx cy sx sy robot : Int) (pol : List P) (h : rect cx cy sx sy robot = some pol) (hx : 0 ≤ sx + robot) (hy : 0 ≤ sy + robot)
    (x y : Int) (ht : OnTable ⟨x, y⟩) (h1 : 2 * (x - cx) ≤ sx + robot) (h2 : 2 * (cx - x) ≤ sx + robot) (h3 : 2 * (y - cy) ≤ sy + robot) (h4 : 2 * (cy - y) ≤ sy + robot) :
    Hull pol ⟨x, y⟩ := by
  rw [rect_eq h, corners_box]
  have e1 : (sx + robot).tdiv 2 = (sx + robot) / 2 := Int.tdiv_eq_ediv_of_nonneg hx
  have e2 : (sy + robot).tdiv 2 = (sy + robot) / 2 := Int.tdiv_eq_ediv_of_nonneg hy
  rw [e1, e2]
  unfold OnTable at ht
  dsimp only at ht
  have tx : 0 ≤ x ∧ x ≤ 3000 := ⟨by exact_mod_cast ht.1.1, by exact_mod_cast ht.1.2⟩
  have ty : 0 ≤ y ∧ y ≤ 2000 := ⟨by exact_mod_cast ht.2.1, by exact_mod_cast ht.2.2⟩
  have a1 : tableX (cx - (sx + robot) / 2) ≤ x := by unfold tableX clamp sizeX; repeat' split
                                                     all_goals omega
  have a2 : x ≤ tableX (cx + (sx + robot) / 2) := by unfold tableX clamp sizeX; repeat' split
                                                     all_goals omega
  have a3 : tableY (cy - (sy + robot) / 2) ≤ y := by unfold tableY clamp sizeY; repeat' split
                                                     all_goals omega
  have a4 : y ≤ tableY (cy + (sy + robot) / 2) := by unfold tableY clamp sizeY; repeat' split
                                                     all_goals omega
  have c1 : (tableX (cx - (sx + robot) / 2) : ℚ) ≤ x := by exact_mod_cast a1
  have c2 : (x : ℚ) ≤ tableX (cx + (sx + robot) / 2) := by exact_mod_cast a2
  have c3 : (tableY (cy - (sy + robot) / 2) : ℚ) ≤ y := by exact_mod_cast a3
  have c4 : (y : ℚ) ≤ tableY (cy + (sy + robot) / 2) := by exact_mod_cast a4
  rw [hull_box (le_trans c1 c2) (le_trans c3 c4)]
  exact ⟨⟨c1, c2⟩, ⟨c3, c4⟩⟩

/-- A rectangle cut at the borders of the table, if it meets the table -/
theorem clamped_exact (L R B T : Int) (hx : L ≤ R) (hy : B ≤ T) (m1 : 0 ≤ R) (m2 : L ≤ 3000) (m3 : 0 ≤ T) (m4 : B ≤ 2000) (p : P) :
    Hull (corners (tableX R) (tableY B) (tableY T) (tableX L)) p ↔ OnTable p ∧ ((L : ℚ) ≤ p.x ∧ p.x ≤ R) ∧ ((B : ℚ) ≤ p.y ∧ p.y ≤ T) := by
  rw [corners_box]
  have l1 : (tableX L : ℚ) ≤ tableX R := by exact_mod_cast clamp_le 0 sizeX hx (by decide)
  have l2 : (tableY B : ℚ) ≤ tableY T := by exact_mod_cast clamp_le 0 sizeY hy (by decide)
  rw [hull_box l1 l2]
  have lo : ∀ (v hi : Int) (x : ℚ), 0 ≤ hi → v ≤ hi → ((clamp v 0 hi : ℚ) ≤ x ↔ 0 ≤ x ∧ (v : ℚ) ≤ x) := by
    intro v hi x hh hv
    unfold clamp
    split
    · rename_i h'
      have : (v : ℚ) < 0 := by exact_mod_cast h'
      constructor
      · intro h''; simp at h''; exact ⟨h'', by linarith⟩
      · rintro ⟨h'', _⟩; simpa using h''
    · split
      · omega
      · rename_i h' _
        have : (0 : ℚ) ≤ v := by exact_mod_cast not_lt.mp h'
        constructor
        · intro h''; exact ⟨by linarith, h''⟩
        · rintro ⟨_, h''⟩; exact h''
  have up : ∀ (v hi : Int) (x : ℚ), 0 ≤ v → (x ≤ (clamp v 0 hi : ℚ) ↔ x ≤ hi ∧ x ≤ (v : ℚ)) := by
    intro v hi x hv
    unfold clamp
    split
    · omega
    · split
      · rename_i h'
        have : (hi : ℚ) < v := by exact_mod_cast h'
        constructor
        · intro h''; exact ⟨h'', by linarith⟩
        · rintro ⟨h'', _⟩; exact h''
      · rename_i h'
        have : (v : ℚ) ≤ hi := by exact_mod_cast not_lt.mp h'
        constructor
        · intro h''; exact ⟨by linarith, h''⟩
        · rintro ⟨_, h''⟩; exact h''
  unfold tableX tableY OnTable
  rw [lo _ sizeX _ (by decide) m2, up _ sizeX _ m1, lo _ sizeY _ (by decide) m4, up _ sizeY _ m3]
  unfold sizeX sizeY
  push_cast
  constructor
  · rintro ⟨⟨⟨a, b⟩, ⟨c, d⟩⟩, ⟨⟨e, f⟩, ⟨g, i⟩⟩⟩
    exact ⟨⟨⟨a, c⟩, ⟨e, g⟩⟩, ⟨b, d⟩, ⟨f, i⟩⟩
  · rintro ⟨⟨⟨a, c⟩, ⟨e, g⟩⟩, ⟨b, d⟩, ⟨f, i⟩⟩
    exact ⟨⟨⟨a, b⟩, ⟨c, d⟩⟩, ⟨⟨e, f⟩, ⟨g, i⟩⟩⟩

/-- C69: it covers nothing more, unless the obstacle is entirely off the table. -/
theorem rect_exact (cx cy sx sy robot : Int) (pol : List P) (h : rect cx cy sx sy robot = some pol) (hx : 0 ≤ sx + robot) (hy : 0 ≤ sy + robot)
    (m1 : 0 ≤ cx + (sx + robot) / 2) (m2 : cx - (sx + robot) / 2 ≤ 3000) (m3 : 0 ≤ cy + (sy + robot) / 2) (m4 : cy - (sy + robot) / 2 ≤ 2000) (p : P) :
    Hull pol p ↔ OnTable p ∧ ((cx : ℚ) - ((sx + robot) / 2 : Int) ≤ p.x ∧ p.x ≤ (cx : ℚ) + ((sx + robot) / 2 : Int)) ∧ ((cy : ℚ) - ((sy + robot) / 2 : Int) ≤ p.y ∧ p.y ≤ (cy : ℚ) + ((sy + robot) / 2 : Int)) := by
  rw [rect_eq h]
  have e1 : (sx + robot).tdiv 2 = (sx + robot) / 2 := Int.tdiv_eq_ediv_of_nonneg hx
  have e2 : (sy + robot).tdiv 2 = (sy + robot) / 2 := Int.tdiv_eq_ediv_of_nonneg hy
  rw [e1, e2, clamped_exact _ _ _ _ (by omega) (by omega) m1 m2 m3 m4]
  push_cast [Int.cast_sub, Int.cast_add]
  rfl

/-- C69: the same for an obstacle given by its corners. -/
theorem corners_exact (blx bly trx try' robot : Int) (pol : List P) (h : rectCorners blx bly trx try' robot = some pol) (hr : 0 ≤ robot) (hx : blx ≤ trx) (hy : bly ≤ try')
    (m1 : 0 ≤ trx + robot / 2) (m2 : blx - robot / 2 ≤ 3000) (m3 : 0 ≤ try' + robot / 2) (m4 : bly - robot / 2 ≤ 2000) (p : P) :
    Hull pol p ↔ OnTable p ∧ ((blx : ℚ) - (robot / 2 : Int) ≤ p.x ∧ p.x ≤ (trx : ℚ) + (robot / 2 : Int)) ∧ ((bly : ℚ) - (robot / 2 : Int) ≤ p.y ∧ p.y ≤ (try' : ℚ) + (robot / 2 : Int)) := by
  rw [rectCorners_eq h]
  have e1 : robot.tdiv 2 = robot / 2 := Int.tdiv_eq_ediv_of_nonneg hr
  rw [e1, clamped_exact _ _ _ _ (by omega) (by omega) m1 m2 m3 m4]
  push_cast [Int.cast_sub, Int.cast_add]
  rfl

/-- C69: a straight path on the table is reported as crossing the obstacle exactly when the robot, taken as a square of even size that keeps its orientation and moves with its centre on the path, would overlap with the obstacle at some point. The obstacle can be anywhere, on or off the table. -/
theorem rect_collision (cx cy sx sy robot : Int) (pol : List P) (h : rect cx cy sx sy robot = some pol) (hr : 0 < robot) (hsx : 0 < sx) (hsy : 0 < sy)
    (ex : (sx + robot) % 2 = 0) (ey : (sy + robot) % 2 = 0) (p1 p2 ip : P) (h1 : InsideTable p1) (h2 : InsideTable p2) :
    (isCrossingPoly p1 p2 ip pol).1 = 1 ↔
      ∃ m, InSeg m p1 p2 ∧ ∃ q : P, (|q.x - m.x| < robot / 2 ∧ |q.y - m.y| < robot / 2) ∧ (|q.x - cx| < sx / 2 ∧ |q.y - cy| < sy / 2) := by
  rw [rect_eq h]
  have e1 : (sx + robot).tdiv 2 = (sx + robot) / 2 := Int.tdiv_eq_ediv_of_nonneg (by omega)
  have e2 : (sy + robot).tdiv 2 = (sy + robot) / 2 := Int.tdiv_eq_ediv_of_nonneg (by omega)
  rw [e1, e2, clamped_crossing _ _ _ _ (by omega) (by omega) p1 p2 ip h1 h2]
  have q1 : (((sx + robot) / 2 : Int) : ℚ) = (sx + robot : ℚ) / 2 := by
    have : ((sx + robot) / 2) * 2 = sx + robot := by omega
    have : (((sx + robot) / 2 : Int) : ℚ) * 2 = sx + robot := by exact_mod_cast this
    linarith
  have q2 : (((sy + robot) / 2 : Int) : ℚ) = (sy + robot : ℚ) / 2 := by
    have : ((sy + robot) / 2) * 2 = sy + robot := by omega
    have : (((sy + robot) / 2 : Int) : ℚ) * 2 = sy + robot := by exact_mod_cast this
    linarith
  -- two open intervals meet exactly when their centres are closer than the sum of their half lengths
  have meet : ∀ c m a b : ℚ, 0 < a → 0 < b → (c - (a + b) / 2 < m ∧ m < c + (a + b) / 2 ↔ ∃ q : ℚ, |q - m| < b / 2 ∧ |q - c| < a / 2) := by
    intro c m a b ha hb
    constructor
    · rintro ⟨h1, h2⟩
      refine ⟨(a * m + b * c) / (a + b), ?_, ?_⟩
      · have hs : 0 < a + b := by linarith
        have : (a * m + b * c) / (a + b) - m = b * (c - m) / (a + b) := by field_simp; ring
        rw [this, abs_lt]
        constructor
        · rw [lt_div_iff₀ hs]; nlinarith
        · rw [div_lt_iff₀ hs]; nlinarith
      · have hs : 0 < a + b := by linarith
        have : (a * m + b * c) / (a + b) - c = a * (m - c) / (a + b) := by field_simp; ring
        rw [this, abs_lt]
        constructor
        · rw [lt_div_iff₀ hs]; nlinarith
        · rw [div_lt_iff₀ hs]; nlinarith
    · rintro ⟨q, h1, h2⟩
      rw [abs_lt] at h1 h2
      constructor <;> linarith [h1.1, h1.2, h2.1, h2.2]
  have hr' : (0 : ℚ) < robot := by exact_mod_cast hr
  have hsx' : (0 : ℚ) < sx := by exact_mod_cast hsx
  have hsy' : (0 : ℚ) < sy := by exact_mod_cast hsy
  push_cast [Int.cast_sub, Int.cast_add]
  constructor
  · rintro ⟨m, hm, hx, hy⟩
    rw [q1] at hx
    rw [q2] at hy
    obtain ⟨qx, a, b⟩ := (meet cx m.x sx robot hsx' hr').mp hx
    obtain ⟨qy, c, d⟩ := (meet cy m.y sy robot hsy' hr').mp hy
    exact ⟨m, hm, ⟨qx, qy⟩, ⟨a, c⟩, ⟨b, d⟩⟩
  · rintro ⟨m, hm, q, ⟨a, c⟩, ⟨b, d⟩⟩
    refine ⟨m, hm, ?_, ?_⟩
    · rw [q1]; exact (meet cx m.x sx robot hsx' hr').mpr ⟨q.x, a, b⟩
    · rw [q2]; exact (meet cy m.y sy robot hsy' hr').mpr ⟨q.y, c, d⟩

/-- C69: for odd sizes half a millimetre is lost: the path is reported as crossing exactly when it meets the inflated obstacle with the half size rounded down. -/
theorem rect_paths (cx cy sx sy robot : Int) (pol : List P) (h : rect cx cy sx sy robot = some pol) (hx : 2 ≤ sx + robot) (hy : 2 ≤ sy + robot)
    (p1 p2 ip : P) (h1 : InsideTable p1) (h2 : InsideTable p2) :
    (isCrossingPoly p1 p2 ip pol).1 = 1 ↔ ∃ m, InSeg m p1 p2 ∧ |m.x - cx| < ((sx + robot) / 2 : Int) ∧ |m.y - cy| < ((sy + robot) / 2 : Int) := by
  rw [rect_eq h]
  have e1 : (sx + robot).tdiv 2 = (sx + robot) / 2 := Int.tdiv_eq_ediv_of_nonneg (by omega)
  have e2 : (sy + robot).tdiv 2 = (sy + robot) / 2 := Int.tdiv_eq_ediv_of_nonneg (by omega)
  rw [e1, e2, clamped_crossing _ _ _ _ (by omega) (by omega) p1 p2 ip h1 h2]
  push_cast [Int.cast_sub, Int.cast_add]
  constructor
  · rintro ⟨m, hm, ha, hb⟩
    exact ⟨m, hm, abs_lt.mpr ⟨by linarith [ha.1], by linarith [ha.2]⟩, abs_lt.mpr ⟨by linarith [hb.1], by linarith [hb.2]⟩⟩
  · rintro ⟨m, hm, ha, hb⟩
    rw [abs_lt] at ha hb
    exact ⟨m, hm, ⟨by linarith [ha.1], by linarith [ha.2]⟩, ⟨by linarith [hb.1], by linarith [hb.2]⟩⟩

/-- C69: the test whether the robot's (integer) position is inside of the obstacle, for an obstacle that covers some area of the table. -/
theorem rect_square (cx cy sx sy robot : Int) (pol : List P) (h : rect cx cy sx sy robot = some pol) (hx : 2 ≤ sx + robot) (hy : 2 ≤ sy + robot)
    (m1 : 0 < cx + (sx + robot) / 2) (m2 : cx - (sx + robot) / 2 < 3000) (m3 : 0 < cy + (sy + robot) / 2) (m4 : cy - (sy + robot) / 2 < 2000) (x y : Int) :
    inSquare pol x y = true ↔ (0 < x ∧ x < 3000 ∧ 0 < y ∧ y < 2000) ∧ |x - cx| < (sx + robot) / 2 ∧ |y - cy| < (sy + robot) / 2 := by
  rw [rect_eq h, corners_box]
  have e1 : (sx + robot).tdiv 2 = (sx + robot) / 2 := Int.tdiv_eq_ediv_of_nonneg (by omega)
  have e2 : (sy + robot).tdiv 2 = (sy + robot) / 2 := Int.tdiv_eq_ediv_of_nonneg (by omega)
  rw [e1, e2]
  have w1 : 1 ≤ (sx + robot) / 2 := by omega
  have w2 : 1 ≤ (sy + robot) / 2 := by omega
  generalize (sx + robot) / 2 = hx' at *
  generalize (sy + robot) / 2 = hy' at *
  have l1 : tableX (cx - hx') < tableX (cx + hx') := by unfold tableX clamp sizeX; repeat' split
                                                        all_goals omega
  have l2 : tableY (cy - hy') < tableY (cy + hy') := by unfold tableY clamp sizeY; repeat' split
                                                        all_goals omega
  have l1' : (tableX (cx - hx') : ℚ) < tableX (cx + hx') := by exact_mod_cast l1
  have l2' : (tableY (cy - hy') : ℚ) < tableY (cy + hy') := by exact_mod_cast l2
  unfold inSquare
  rw [beq_iff_eq, (in_poly_spec _ (convex_box l1' l2') _).1, interior_box (le_of_lt l1') (le_of_lt l2')]
  simp only [Int.cast_lt]
  rw [abs_lt, abs_lt]
  unfold tableX tableY clamp sizeX sizeY at *
  constructor
  · intro hh
    repeat' split at hh
    all_goals omega
  · intro hh
    repeat' split
    all_goals omega

/-- C69: a removed opponent (position and sizes zero) blocks nothing: no path crosses it, and no position is inside. -/
theorem reset_free : ∃ pol, rect 0 0 0 0 0 = some pol ∧ (∀ p1 p2 ip, (isCrossingPoly p1 p2 ip pol).1 ≠ 1) ∧ ∀ x y, inSquare pol x y = false := by
  refine ⟨_, rfl, fun p1 p2 ip => ?_, fun x y => ?_⟩
  · refine crossing_degenerate p1 p2 ip ⟨0, 0⟩ _ ?_ ?_
    · decide +kernel
    · intro e he hne
      have : ∀ e ∈ sides (corners (tableX (0 + 0)) (tableY (0 - 0)) (tableY (0 + 0)) (tableX (0 - 0))), e.1 = e.2 := by decide +kernel
      exact absurd (this e he) hne
  · unfold inSquare
    rw [beq_eq_false_iff_ne]
    exact isInPoly_degenerate _ ⟨0, 0⟩ _ (by decide +kernel)

/-- C69: but for such a polygon `is_in_poly` says that every other point is on its edge. -/
theorem reset_edge (p : P) : isInPoly p (corners 0 0 0 0) = 2 := by
  have hs : sides (corners 0 0 0 0) = [(⟨0, 0⟩, ⟨0, 0⟩), (⟨0, 0⟩, ⟨0, 0⟩), (⟨0, 0⟩, ⟨0, 0⟩), (⟨0, 0⟩, ⟨0, 0⟩)] := by decide +kernel
  unfold isInPoly
  split
  · rfl
  · rw [hs]
    have hz : pvectSign ((⟨0, 0⟩ : P).sub p) ((⟨0, 0⟩ : P).sub p) = 0 := pvect_self _
    simp [inPolyLoop, hz]

/-! ## Opponents -/

/-- A sighting: position and sizes -/
structure Sight where
  x : Int
  y : Int
  size : Int
  robot : Int

/-- The rectangle of a sighting -/
def Sight.rect (s : Sight) : Option (List P) := Verif.Map.rect s.x s.y s.size s.size s.robot

/-- A sequence of sightings -/
def updates (m : Map) : List Sight → Option Map
  | [] => some m
  | s :: l => (m.updateOpponent s.x s.y s.size s.robot).bind fun m => updates m l

theorem update_step {m m' : Map} {s : Sight} (h : m.updateOpponent s.x s.y s.size s.robot = some m') (hl : m.last < 2) :
    ∃ p, s.rect = some p ∧ m'.last = 1 - m.last ∧ m'.getOpponent m.last = some p ∧ m'.getOpponent (1 - m.last) = m.getOpponent (1 - m.last)
      ∧ m' = { m with opponents := m'.opponents, last := m'.last } := by
  unfold Map.updateOpponent Map.setOpponent at h
  simp only [Option.bind_eq_bind, Option.bind_eq_some_iff] at h
  obtain ⟨m1, ⟨p, hp, h1⟩, h2⟩ := h
  refine ⟨p, hp, ?_⟩
  have hm' := (Option.some.inj h2).symm
  have hc : m.last = 0 ∨ m.last = 1 := by omega
  rcases hc with hc | hc
  · rw [hc, if_pos rfl] at h1
    have e := (Option.some.inj h1).symm
    subst e hm'
    simp [Map.getOpponent, hc]
  · rw [hc, if_neg (by decide), if_pos rfl] at h1
    have e := (Option.some.inj h1).symm
    subst e hm'
    simp [Map.getOpponent, hc]

/-- C69: after any number of sightings, the map holds the last two of them: the newest one replaced the oldest one. (The map starts with two removed opponents; nothing else in the map changes.) -/
theorem opponents_last (m m' : Map) (hl : m.last < 2) (l : List Sight) (h : updates m l = some m') :
    m'.last < 2 ∧ m' = { m with opponents := m'.opponents, last := m'.last } ∧
    [m'.getOpponent m'.last, m'.getOpponent (1 - m'.last)] = ([m.getOpponent m.last, m.getOpponent (1 - m.last)] ++ l.map Sight.rect).drop l.length := by
  induction l generalizing m with
  | nil =>
    have e := Option.some.inj h
    subst e
    exact ⟨hl, rfl, rfl⟩
  | cons s l ih =>
    unfold updates at h
    rw [Option.bind_eq_some_iff] at h
    obtain ⟨m1, h1, h2⟩ := h
    obtain ⟨p, hp, a1, a2, a3, a4⟩ := update_step h1 hl
    obtain ⟨b1, b2, b3⟩ := ih m1 (by omega) h2
    refine ⟨b1, ?_, ?_⟩
    · rw [b2, a4]
    · rw [b3]
      have e1 : 1 - m1.last = m.last := by omega
      rw [e1, a2, a1, a3, ← hp]
      simp only [List.map_cons, List.length_cons, List.cons_append, List.nil_append, List.drop_succ_cons]

/-- Two sightings fill the map; the third one replaces the first -/
example : ∃ m m', Map.init 300 true = some m ∧ updates m [⟨500, 500, 250, 300⟩, ⟨1000, 1000, 250, 300⟩, ⟨2000, 500, 250, 300⟩] = some m' ∧
    m'.getOpponent 0 = rect 2000 500 250 250 300 ∧ m'.getOpponent 1 = rect 1000 1000 250 250 300 := ⟨_, _, rfl, rfl, rfl, rfl⟩

/-- C69: setting the obstacle of one opponent leaves the other one. -/
theorem set_opponent (m m' : Map) (i : Nat) (x y size robot : Int) (h : m.setOpponent i x y size robot = some m') :
    i < 2 ∧ m'.getOpponent i = rect x y size size robot ∧ (∀ j, j ≠ i → m'.getOpponent j = m.getOpponent j) ∧ m' = { m with opponents := m'.opponents } := by
  unfold Map.setOpponent at h
  simp only [Option.bind_eq_bind, Option.bind_eq_some_iff] at h
  obtain ⟨p, hp, h1⟩ := h
  rw [hp]
  by_cases hi : i = 0
  · rw [if_pos hi] at h1
    have e := (Option.some.inj h1).symm
    subst e hi
    refine ⟨by decide, rfl, fun j hj => ?_, rfl⟩
    unfold Map.getOpponent
    rw [if_neg hj, if_neg hj]
  · rw [if_neg hi] at h1
    by_cases hi1 : i = 1
    · rw [if_pos hi1] at h1
      have e := (Option.some.inj h1).symm
      subst e hi1
      refine ⟨by decide, rfl, fun j hj => ?_, rfl⟩
      unfold Map.getOpponent
      by_cases h0 : j = 0
      · rw [if_pos h0, if_pos h0]
      · rw [if_neg h0, if_neg h0, if_neg hj, if_neg hj]
    · rw [if_neg hi1] at h1
      cases h1

/-! ## The initial map -/

/-- C69: the map can be built for every robot up to a kilometre: all polygons fit into the tables of the obstacle avoidance, all static obstacles are on the table, the opponents are removed, and the box for the robot's centre is the table without half a robot at each border. -/
theorem init_spec (robot : Int) (hr : 0 ≤ robot ∧ robot ≤ 1000000) (wall : Bool) : ∃ m, Map.init robot wall = some m ∧
    m.last = 0 ∧ m.getOpponent 0 = rect 0 0 0 0 0 ∧ m.getOpponent 1 = rect 0 0 0 0 0 ∧
    m.oa.sizes = [2, 4, 4, 4] ++ (if wall then [4] else []) ++ [4, 4, 4] ∧
    m.wall.isSome = wall ∧ (∀ w ∈ m.wall.toList ++ [m.distributors.1, m.distributors.2, m.ramp], ∀ v ∈ w, OnTable v) ∧
    m.box = (robot / 2, robot / 2, 3000 - robot / 2, 2000 - robot / 2) ∧ m.enableOpponent = true := by
  have e1 : robot.tdiv 2 = robot / 2 := Int.tdiv_eq_ediv_of_nonneg hr.1
  unfold Map.init
  rw [e1, i32_of (by unfold sizeX; omega), i32_of (by unfold sizeY; omega), rect_of (by omega) (by omega) (by omega) (by omega) (by omega),
    rectCorners_of (blx := 450) (bly := 1543) (by omega) (by omega) (by omega) (by omega) (by omega),
    rectCorners_of (blx := 1950) (bly := 1543) (by omega) (by omega) (by omega) (by omega) (by omega),
    rectCorners_of (blx := 450) (bly := 1578) (by omega) (by omega) (by omega) (by omega) (by omega),
    rect_of (cx := 1500) (cy := 1450) (sx := 40) (sy := 200) (by omega) (by omega) (by omega) (by omega) (by omega)]
  cases wall with
  | true =>
    refine ⟨_, rfl, rfl, rfl, rfl, rfl, rfl, ?_, rfl, rfl⟩
    intro w hw
    simp only [Option.toList_some, List.cons_append, List.nil_append, List.mem_cons, List.not_mem_nil, or_false] at hw
    rcases hw with rfl | rfl | rfl | rfl <;> exact corners_table _ _ _ _
  | false =>
    refine ⟨_, rfl, rfl, rfl, rfl, rfl, rfl, ?_, rfl, rfl⟩
    intro w hw
    simp only [Option.toList_none, List.nil_append, List.mem_cons, List.not_mem_nil, or_false] at hw
    rcases hw with rfl | rfl | rfl <;> exact corners_table _ _ _ _

/-- The points of the table within `half` of a rectangle, along both axes -/
def Near (half : Int) (x1 y1 x2 y2 : ℚ) (p : P) : Prop := OnTable p ∧ (x1 - half ≤ p.x ∧ p.x ≤ x2 + half) ∧ (y1 - half ≤ p.y ∧ p.y ≤ y2 + half)

/-- C69: the static obstacles of the map cover exactly the distributors, the ramp and the wall, made larger by half the robot. -/
theorem init_static (robot : Int) (hr : 0 ≤ robot ∧ robot ≤ 1000000) (wall : Bool) (m : Map) (h : Map.init robot wall = some m) (p : P) :
    (Hull m.distributors.1 p ↔ Near (robot / 2) 450 1543 1050 1578 p) ∧ (Hull m.distributors.2 p ↔ Near (robot / 2) 1950 1543 2550 1578 p) ∧
    (Hull m.ramp p ↔ Near (robot / 2) 450 1578 2550 2000 p) ∧ (∀ w, m.wall = some w → (Hull w p ↔ Near (robot / 2) 1480 1350 1520 1550 p)) := by
  have e1 : robot.tdiv 2 = robot / 2 := Int.tdiv_eq_ediv_of_nonneg hr.1
  have r1 := rectCorners_of (blx := 450) (bly := 1543) (trx := 1050) (try' := 1578) (robot := robot) (by omega) (by omega) (by omega) (by omega) (by omega)
  have r2 := rectCorners_of (blx := 1950) (bly := 1543) (trx := 2550) (try' := 1578) (robot := robot) (by omega) (by omega) (by omega) (by omega) (by omega)
  have r3 := rectCorners_of (blx := 450) (bly := 1578) (trx := 2550) (try' := 2000) (robot := robot) (by omega) (by omega) (by omega) (by omega) (by omega)
  have r4 := rect_of (cx := 1500) (cy := 1450) (sx := 40) (sy := 200) (robot := robot) (by omega) (by omega) (by omega) (by omega) (by omega)
  have c1 := corners_exact _ _ _ _ _ _ r1 hr.1 (by omega) (by omega) (by omega) (by omega) (by omega) (by omega) p
  have c2 := corners_exact _ _ _ _ _ _ r2 hr.1 (by omega) (by omega) (by omega) (by omega) (by omega) (by omega) p
  have c3 := corners_exact _ _ _ _ _ _ r3 hr.1 (by omega) (by omega) (by omega) (by omega) (by omega) (by omega) p
  have c4 := rect_exact _ _ _ _ _ _ r4 (by omega) (by omega) (by omega) (by omega) (by omega) (by omega) p
  unfold Map.init at h
  rw [e1, i32_of (by unfold sizeX; omega), i32_of (by unfold sizeY; omega), rect_of (cx := 0) (by omega) (by omega) (by omega) (by omega) (by omega), r1, r2, r3, r4] at h
  rw [show (40 + robot) / 2 = 20 + robot / 2 by omega, show (200 + robot) / 2 = 100 + robot / 2 by omega] at c4
  push_cast at c1 c2 c3 c4
  have c4' : Hull _ p ↔ Near (robot / 2) 1480 1350 1520 1550 p := c4.trans ⟨fun ⟨a, b, c⟩ => ⟨a, ⟨by linarith [b.1], by linarith [b.2]⟩, ⟨by linarith [c.1], by linarith [c.2]⟩⟩,
    fun ⟨a, b, c⟩ => ⟨a, ⟨by linarith [b.1], by linarith [b.2]⟩, ⟨by linarith [c.1], by linarith [c.2]⟩⟩⟩
  cases wall with
  | true =>
    have e := (Option.some.inj h).symm
    subst e
    refine ⟨c1, c2, c3, fun w hw => ?_⟩
    have e := (Option.some.inj hw).symm
    subst e
    exact c4'
  | false =>
    have e := (Option.some.inj h).symm
    subst e
    exact ⟨c1, c2, c3, fun w hw => by cases hw⟩

/-! ## The ally -/

/-- C69: the sampled points are on the circle, at equal angles; with four samples they are the points used for the ally. -/
theorem ally_samples (x y r offset : ℝ) (n i : Nat) :
    ((sample x y r offset n i).1 - x) ^ 2 + ((sample x y r offset n i).2 - y) ^ 2 = r ^ 2 ∧
    sample x y r offset n 0 = (x + r * Real.cos offset, y + r * Real.sin offset) ∧
    (0 < n → ∀ j, sample x y r offset n (j + n) = sample x y r offset n j) ∧
    [sample x y r 0 4 0, sample x y r 0 4 1, sample x y r 0 4 2, sample x y r 0 4 3] = [(x + r, y), (x, y + r), (x - r, y), (x, y - r)] := by
  refine ⟨?_, ?_, ?_, ?_⟩
  · unfold sample
    simp only
    linear_combination r ^ 2 * Real.sin_sq_add_cos_sq (i * (2 * Real.pi / n) + offset)
  · unfold sample
    simp
  · intro hn j
    unfold sample
    have hn' : (n : ℝ) ≠ 0 := by exact_mod_cast Nat.pos_iff_ne_zero.mp hn
    have e : ((j + n : Nat) : ℝ) * (2 * Real.pi / n) + offset = (j * (2 * Real.pi / n) + offset) + 2 * Real.pi := by
      push_cast
      field_simp
      ring
    rw [e, Real.cos_add_two_pi, Real.sin_add_two_pi]
  · unfold sample
    have e1 : ((1 : Nat) : ℝ) * (2 * Real.pi / (4 : Nat)) + 0 = Real.pi / 2 := by push_cast; ring
    have e2 : ((2 : Nat) : ℝ) * (2 * Real.pi / (4 : Nat)) + 0 = Real.pi := by push_cast; ring
    have e3 : ((3 : Nat) : ℝ) * (2 * Real.pi / (4 : Nat)) + 0 = Real.pi + Real.pi / 2 := by push_cast; ring
    have e0 : ((0 : Nat) : ℝ) * (2 * Real.pi / (4 : Nat)) + 0 = 0 := by push_cast; ring
    rw [e0, e1, e2, e3, Real.cos_zero, Real.sin_zero, Real.cos_pi_div_two, Real.sin_pi_div_two, Real.cos_pi, Real.sin_pi, Real.cos_add, Real.sin_add,
      Real.cos_pi_div_two, Real.sin_pi_div_two, Real.cos_pi, Real.sin_pi]
    simp [sub_eq_add_neg]

/-- C69: the ally's polygon is convex, and its inside is where the distances along the two axes add up to less than 1.25 times the half sizes of both robots. -/
theorem ally_inside (x y size robot : Int) (pol : List P) (h : ally x y size robot = some pol) (hs : 0 < robot + size) (p : P) :
    isInPoly p pol = 1 ↔ |p.x - x| + |p.y - y| < 5 / 4 * ((robot + size : Int) : ℚ) / 2 := by
  unfold ally at h
  simp only [Option.bind_eq_bind, Option.bind_eq_some_iff] at h
  obtain ⟨s, h1, h2⟩ := h
  have es : s = robot + size := by
    unfold i32 at h1
    split at h1
    · exact (Option.some.inj h1).symm
    · cases h1
  subst es
  rw [← Option.some.inj h2]
  have hr : (0 : ℚ) < 5 / 4 * ((robot + size : Int) : ℚ) / 2 := by
    have : (0 : ℚ) < ((robot + size : Int) : ℚ) := by exact_mod_cast hs
    linarith
  generalize 5 / 4 * ((robot + size : Int) : ℚ) / 2 = r at hr
  generalize (x : ℚ) = cx
  generalize (y : ℚ) = cy
  have hsides : sides (diamond cx cy r) = [(⟨cx + r, cy⟩, ⟨cx, cy + r⟩), (⟨cx, cy + r⟩, ⟨cx - r, cy⟩), (⟨cx - r, cy⟩, ⟨cx, cy - r⟩), (⟨cx, cy - r⟩, ⟨cx + r, cy⟩)] := by
    simp [sides, diamond, vtx, List.range_succ]
  have neg : ∀ (z : ℚ), (¬(Geom.sign z > 0) ∧ ¬(Geom.sign z = 0)) ↔ z < 0 := by
    intro z
    unfold Geom.sign
    rcases lt_trichotomy z 0 with h | h | h
    · rw [if_neg (ne_of_lt h), if_neg (not_lt.mpr (le_of_lt h))]
      exact ⟨fun _ => h, fun _ => by decide⟩
    · rw [if_pos h]
      constructor
      · rintro ⟨_, h'⟩; exact absurd rfl h'
      · intro h'; linarith
    · rw [if_neg (ne_of_gt h), if_pos h]
      constructor
      · rintro ⟨h', _⟩; exact absurd (by decide) h'
      · intro h'; linarith
  have loop1 : ∀ a b es, inPolyLoop p ((a, b) :: es) 1 = 1 ↔ pvect (b.sub p) (a.sub p) < 0 ∧ inPolyLoop p es 1 = 1 := by
    intro a b es
    have hn := neg (pvect (b.sub p) (a.sub p))
    rw [inPolyLoop]
    unfold pvectSign
    by_cases h1 : Geom.sign (pvect (b.sub p) (a.sub p)) > 0
    · rw [if_pos h1]
      constructor
      · intro h; exact absurd h (by decide)
      · rintro ⟨h, _⟩; exact absurd h1 (hn.mpr h).1
    · rw [if_neg h1]
      by_cases h2 : Geom.sign (pvect (b.sub p) (a.sub p)) = 0
      · rw [if_pos h2]
        constructor
        · intro h; exact absurd h (inPolyLoop_two p es)
        · rintro ⟨h, _⟩; exact absurd h2 (hn.mpr h).2
      · rw [if_neg h2]
        exact ⟨fun h => ⟨hn.mp ⟨h1, h2⟩, h⟩, fun h => h.2⟩
  have pv : ∀ a b c : ℚ, (0 < r) → (r * c < 0 ↔ c < 0) := fun _ _ c hr => by
    constructor
    · intro h; nlinarith
    · intro h; nlinarith
  have habs : |p.x - cx| + |p.y - cy| < r ↔ ((p.x - cx) + (p.y - cy) < r ∧ -(p.x - cx) + (p.y - cy) < r ∧ -(p.x - cx) - (p.y - cy) < r ∧ (p.x - cx) - (p.y - cy) < r) := by
    generalize p.x - cx = u
    generalize p.y - cy = v
    constructor
    · intro h
      have := le_abs_self u
      have := neg_le_abs u
      have := le_abs_self v
      have := neg_le_abs v
      refine ⟨?_, ?_, ?_, ?_⟩ <;> linarith
    · rintro ⟨h1, h2, h3, h4⟩
      rcases abs_cases u with ⟨e1, _⟩ | ⟨e1, _⟩ <;> rcases abs_cases v with ⟨e2, _⟩ | ⟨e2, _⟩ <;> rw [e1, e2] <;> linarith
  have hall : inPolyLoop p (sides (diamond cx cy r)) 1 = 1 ↔ |p.x - cx| + |p.y - cy| < r := by
    rw [hsides, loop1, loop1, loop1, loop1, habs]
    have c1 : pvect ((⟨cx, cy + r⟩ : P).sub p) ((⟨cx + r, cy⟩ : P).sub p) = r * ((p.x - cx) + (p.y - cy) - r) := by simp only [pvect, P.sub]; ring
    have c2 : pvect ((⟨cx - r, cy⟩ : P).sub p) ((⟨cx, cy + r⟩ : P).sub p) = r * (-(p.x - cx) + (p.y - cy) - r) := by simp only [pvect, P.sub]; ring
    have c3 : pvect ((⟨cx, cy - r⟩ : P).sub p) ((⟨cx - r, cy⟩ : P).sub p) = r * (-(p.x - cx) - (p.y - cy) - r) := by simp only [pvect, P.sub]; ring
    have c4 : pvect ((⟨cx + r, cy⟩ : P).sub p) ((⟨cx, cy - r⟩ : P).sub p) = r * ((p.x - cx) - (p.y - cy) - r) := by simp only [pvect, P.sub]; ring
    rw [c1, c2, c3, c4, pv 0 0 _ hr, pv 0 0 _ hr, pv 0 0 _ hr, pv 0 0 _ hr, sub_neg, sub_neg, sub_neg, sub_neg]
    exact ⟨fun ⟨a, b, c, d, _⟩ => ⟨a, b, c, d⟩, fun ⟨a, b, c, d⟩ => ⟨a, b, c, d, rfl⟩⟩
  unfold isInPoly
  split
  · rename_i hv
    constructor
    · intro h; exact absurd h (by decide)
    · intro h
      exfalso
      simp only [diamond, List.any_cons, List.any_nil, Bool.or_false, Bool.or_eq_true, decide_eq_true_eq] at hv
      rw [habs] at h
      obtain ⟨h1, h2, h3, h4⟩ := h
      rcases hv with ⟨a, b⟩ | ⟨a, b⟩ | ⟨a, b⟩ | ⟨a, b⟩ <;> rw [a, b] at h1 h2 h3 h4 <;> linarith
  · exact hall

/-- C69: so the margin for the ally does not cover the sum of the radii in all directions: two round robots with radius 150 mm collide at a distance below 300 mm, but a position 190 mm to the side and 190 mm ahead of the ally (269 mm away) is not inside the ally's polygon. -/
theorem ally_margin_false : ∃ pol, ally 1000 1000 300 300 = some pol ∧ isInPoly ⟨1190, 1190⟩ pol ≠ 1 ∧ ((1190 : ℚ) - 1000) ^ 2 + (1190 - 1000) ^ 2 < (150 + 150) ^ 2 := by
  refine ⟨_, rfl, ?_, by norm_num⟩
  rw [Ne, ally_inside 1000 1000 300 300 _ rfl (by decide)]
  norm_num [abs_of_pos]

/-- An obstacle in the corner of the table: a square of 100 mm at (0, 0) and a robot of 200 mm -/
example : rect 0 0 100 100 200 = some [⟨150, 0⟩, ⟨150, 150⟩, ⟨0, 150⟩, ⟨0, 0⟩] := by decide +kernel

/-- The robot of 200 mm passes the obstacle at a distance of 151 mm of the centres, but not at 149 mm -/
example : ∃ pol, rect 1000 1000 100 100 200 = some pol ∧ (isCrossingPoly ⟨500, 1151⟩ ⟨1500, 1151⟩ ⟨0, 0⟩ pol).1 = 0 ∧ (isCrossingPoly ⟨500, 1149⟩ ⟨1500, 1149⟩ ⟨0, 0⟩ pol).1 = 1 :=
  ⟨_, rfl, by decide +kernel, by decide +kernel⟩

end Verif.Map
