import Verif.Geom.Result

/-!
# Properties of the geometry functions

The specification is in `Verif.Geom.Spec`.
-/

namespace Verif.Geom

/-! ## C63: lines -/

/-- When `intersect_line` reports one point, it is on both lines and is the only one -/
theorem line_point (l1 l2 : Line) (p : P) (h : intersectLine l1 l2 = .point p) : OnLine p l1 ∧ OnLine p l2 ∧ ∀ q, OnLine q l1 → OnLine q l2 → q = p := by
  obtain ⟨h1, h2, hd⟩ := intersectLine_point h
  exact ⟨h1, h2, fun q q1 q2 => meet_unique hd q1 q2 h1 h2⟩

example : intersectLine ⟨1, 1, -3⟩ ⟨1, -1, -1⟩ = .point ⟨2, 1⟩ := by decide +kernel
example : intersectLine ⟨0, 2, -4⟩ ⟨3, 1, 1⟩ = .point ⟨-1, 2⟩ := by decide +kernel

/-- It reports none exactly when no point is on both -/
theorem line_none (l1 l2 : Line) (h1 : Proper l1) (h2 : Proper l2) : intersectLine l1 l2 = .none ↔ ¬∃ q, OnLine q l1 ∧ OnLine q l2 := by
  constructor
  · rintro h ⟨q, q1, q2⟩
    obtain ⟨hd, h' | h'⟩ := intersectLine_par h1 h2 (fun p e => by rw [h] at e; cases e)
    · rw [h] at h'; cases h'.1
    · exact h'.2 (par_common hd q1 q2)
  · intro h
    obtain ⟨hd, h' | h'⟩ := intersectLine_par h1 h2 (fun p e => by
      obtain ⟨a, b, _⟩ := intersectLine_point e
      exact h ⟨p, a, b⟩)
    · obtain ⟨p, hp⟩ := exists_point h1
      exact absurd ⟨p, hp, same_points h1 hd h'.2.1 h'.2.2 hp⟩ h
    · exact h'.1

/-- It reports "same" exactly when the lines have the same points -/
theorem line_same (l1 l2 : Line) (h1 : Proper l1) (h2 : Proper l2) : intersectLine l1 l2 = .same ↔ ∀ q, OnLine q l1 ↔ OnLine q l2 := by
  constructor
  · intro h q
    obtain ⟨hd, h' | h'⟩ := intersectLine_par h1 h2 (fun p e => by rw [h] at e; cases e)
    · exact ⟨fun hq => same_points h1 hd h'.2.1 h'.2.2 hq, fun hq => same_points h2 (by linarith) (by linarith) (by linarith) hq⟩
    · rw [h] at h'; cases h'.1
  · intro h
    obtain ⟨p, hp⟩ := exists_point h1
    cases e : intersectLine l1 l2 with
    | none => exact absurd ⟨p, hp, (h p).1 hp⟩ ((line_none l1 l2 h1 h2).1 e)
    | same => rfl
    | point q =>
      -- a second point of the first line
      obtain ⟨_, _, hu⟩ := line_point l1 l2 q e
      have e1 := hu p hp ((h p).1 hp)
      have hp' : OnLine ⟨p.x + l1.b, p.y - l1.a⟩ l1 := by unfold OnLine at *; linear_combination hp
      have e2 := hu _ hp' ((h _).1 hp')
      have e3 := e2.trans e1.symm
      have ex := congrArg P.x e3
      have ey := congrArg P.y e3
      simp only at ex ey
      exact absurd ⟨by linarith, by linarith⟩ h1

example : Proper ⟨1, 1, -3⟩ ∧ Proper ⟨2, 2, 5⟩ ∧ intersectLine ⟨1, 1, -3⟩ ⟨2, 2, 5⟩ = .none := by
  refine ⟨fun h => ?_, fun h => ?_, by decide +kernel⟩
  · exact absurd h.1 (by decide +kernel)
  · exact absurd h.1 (by decide +kernel)
example : intersectLine ⟨1, 1, -3⟩ ⟨2, 2, -6⟩ = .same := by decide +kernel

/-- `pts2line`: the line through two different points has exactly the points between and beyond them -/
theorem pts2line_spec (a b : P) (h : a ≠ b) (p : P) : OnLine p (pts2line a b) ↔ ∃ t, p = at' a b t := by
  rw [onLine_turn]
  exact ⟨on_at h, fun ⟨t, e⟩ => by rw [e]; exact turn_at t⟩

theorem pts2line_through (a b : P) : OnLine a (pts2line a b) ∧ OnLine b (pts2line a b) := ⟨onLine_left a b, onLine_right a b⟩

example : OnLine ⟨2, 3⟩ (pts2line ⟨0, 1⟩ ⟨1, 2⟩) := by
  have : (pts2line ⟨0, 1⟩ ⟨1, 2⟩).a * 2 + (pts2line ⟨0, 1⟩ ⟨1, 2⟩).b * 3 + (pts2line ⟨0, 1⟩ ⟨1, 2⟩).c = 0 := by decide +kernel
  exact this

/-- `proj_pt_line`: the result is on the line, and no point of the line is nearer; only the empty equation divides by zero -/
theorem proj_spec (p : P) (l : Line) : (Proper l → ∃ q, projPtLine p l = some q) ∧ (¬Proper l → projPtLine p l = none) ∧
    ∀ q, projPtLine p l = some q → OnLine q l ∧ ∀ r, OnLine r l → dist2 p r = dist2 p q + dist2 q r := by
  have hd : l.a * -l.a - l.b * l.b = 0 ↔ ¬Proper l := by
    unfold Proper
    constructor
    · intro h hh
      have a := mul_self_nonneg l.a
      have b := mul_self_nonneg l.b
      exact hh ⟨mul_self_eq_zero.1 (by linarith), mul_self_eq_zero.1 (by linarith)⟩
    · intro h
      obtain ⟨a, b⟩ := Classical.not_not.1 h
      rw [a, b]; ring
  refine ⟨fun h => ?_, fun h => ?_, fun q h => ?_⟩
  · unfold projPtLine
    dsimp only
    rw [if_neg (fun e => hd.1 e h)]
    exact ⟨_, rfl⟩
  · unfold projPtLine
    dsimp only
    rw [if_pos (hd.2 h)]
  · unfold projPtLine at h
    dsimp only at h
    by_cases e : l.a * -l.a - l.b * l.b = 0
    · rw [if_pos e] at h; cases h
    · rw [if_neg e] at h
      cases h
      generalize hD : l.a * -l.a - l.b * l.b = D at *
      have hx : ∀ u v : ℚ, OnLine ⟨u / D, v / D⟩ l ↔ l.a * u + l.b * v + l.c * D = 0 := by
        intro u v
        unfold OnLine
        have : l.a * (u / D) + l.b * (v / D) + l.c = (l.a * u + l.b * v + l.c * D) / D := by field_simp
        dsimp only
        rw [this, div_eq_zero_iff]
        exact ⟨fun h => h.resolve_right e, Or.inl⟩
      have on : OnLine ⟨(l.b * (-l.b * p.x - -l.a * p.y) - -l.a * l.c) / D, (l.b * l.c - l.a * (-l.b * p.x - -l.a * p.y)) / D⟩ l := by
        rw [hx, ← hD]; ring
      refine ⟨on, fun r hr => ?_⟩
      -- the difference is twice the scalar product of (foot - p) and (r - foot), which is zero
      have dx : (l.b * (-l.b * p.x - -l.a * p.y) - -l.a * l.c) / D - p.x = l.a * ((l.a * p.x + l.b * p.y + l.c) / D) := by
        field_simp; rw [← hD]; ring
      have dy : (l.b * l.c - l.a * (-l.b * p.x - -l.a * p.y)) / D - p.y = l.b * ((l.a * p.x + l.b * p.y + l.c) / D) := by
        field_simp; rw [← hD]; ring
      unfold OnLine at on hr
      dsimp only at on
      simp only [dist2]
      generalize (l.b * (-l.b * p.x - -l.a * p.y) - -l.a * l.c) / D = u at *
      generalize (l.b * l.c - l.a * (-l.b * p.x - -l.a * p.y)) / D = v at *
      generalize (l.a * p.x + l.b * p.y + l.c) / D = k at *
      have : (u - p.x) * (r.x - u) + (v - p.y) * (r.y - v) = 0 := by
        rw [dx, dy]; linear_combination k * hr - k * on
      linear_combination 2 * this

example : projPtLine ⟨3, 1⟩ ⟨1, -1, 0⟩ = some ⟨2, 2⟩ := by decide +kernel

/-- So the foot is the nearest point -/
theorem proj_nearest (p q r : P) (l : Line) (h : projPtLine p l = some q) (hr : OnLine r l) : dist2 p q ≤ dist2 p r := by
  have := ((proj_spec p l).2.2 q h).2 r hr
  have a := mul_self_nonneg (r.x - q.x)
  have b := mul_self_nonneg (r.y - q.y)
  unfold dist2 at *
  linarith

/-- `line_translate` moves every point of the line by the vector -/
theorem translate_spec (l : Line) (v p : P) : OnLine ⟨p.x + v.x, p.y + v.y⟩ (lineTranslate l v) ↔ OnLine p l := by
  simp only [OnLine, lineTranslate]
  constructor <;> intro h <;> linear_combination h

example : OnLine ⟨2, 2⟩ ⟨1, -1, 0⟩ ∧ lineTranslate ⟨1, -1, 0⟩ ⟨1, 2⟩ = ⟨1, -1, 1⟩ ∧ OnLine ⟨3, 4⟩ ⟨1, -1, 1⟩ := by
  unfold OnLine; decide +kernel

/-! ## C64: segments -/

/-- Whatever is reported is on both segments -/
theorem segment_sound (s1 s2 t1 t2 : P) (hs : s1 ≠ s2) (ht : t1 ≠ t2) (h : (intersectSegment s1 s2 t1 t2).1 ≠ 0) :
    InSeg (intersectSegment s1 s2 t1 t2).2 s1 s2 ∧ InSeg (intersectSegment s1 s2 t1 t2).2 t1 t2 := seg_sound hs ht h

/-- A crossing is reported exactly when the segments share a point, except when the first lies strictly inside the second. One of the segments must be in the supported range. -/
theorem segment_iff_partial (s1 s2 t1 t2 : P) (hs : s1 ≠ s2) (ht : t1 ≠ t2) (hr : (InRange s1 ∧ InRange s2) ∨ (InRange t1 ∧ InRange t2)) :
    (intersectSegment s1 s2 t1 t2).1 ≠ 0 ↔ (∃ q, InSeg q s1 s2 ∧ InSeg q t1 t2) ∧ ¬(InOpenSeg s1 t1 t2 ∧ InOpenSeg s2 t1 t2) := by
  constructor
  · intro h
    exact ⟨⟨_, seg_sound hs ht h⟩, fun hn => h (seg_inside hs ht hn.1 hn.2)⟩
  · rintro ⟨⟨q, q1, q2⟩, hn⟩
    refine seg_complete hs ht q1 q2 ?_ hn
    rcases hr with ⟨a, b⟩ | ⟨a, b⟩
    · exact inRange_seg q1 a b
    · exact inRange_seg q2 a b

/-- What the results mean -/
theorem segment_codes (s1 s2 t1 t2 : P) (hs : s1 ≠ s2) (ht : t1 ≠ t2) :
    ((intersectSegment s1 s2 t1 t2).1 = 3 ↔ (turn s1 s2 t1 = 0 ∧ turn s1 s2 t2 = 0) ∧ (InSeg t1 s1 s2 ∨ InSeg t2 s1 s2)) ∧
    ((intersectSegment s1 s2 t1 t2).1 = 1 → InOpenSeg (intersectSegment s1 s2 t1 t2).2 s1 s2 ∧ InOpenSeg (intersectSegment s1 s2 t1 t2).2 t1 t2) ∧
    ((intersectSegment s1 s2 t1 t2).1 = 2 → (intersectSegment s1 s2 t1 t2).2 ∈ [s1, s2, t1, t2]) ∧
    ((intersectSegment s1 s2 t1 t2).1 = 1 ∨ (intersectSegment s1 s2 t1 t2).1 = 2 → ∀ q, InSeg q s1 s2 → InSeg q t1 t2 → q = (intersectSegment s1 s2 t1 t2).2) ∧
    (intersectSegment s1 s2 t1 t2).1 ≤ 3 := by
  refine ⟨seg_three hs ht, fun h => ?_, fun h => ?_, fun h q q1 q2 => ?_, seg_le hs ht⟩
  · obtain ⟨_, n1, n2, n3, n4⟩ := seg_one hs ht h
    obtain ⟨a, b⟩ := seg_sound hs ht (by rw [h]; decide)
    exact ⟨inSeg_open a n1 n2, inSeg_open b n3 n4⟩
  · have := (seg_two hs ht h).2
    simp only [List.mem_cons, List.not_mem_nil, or_false]
    exact this
  · obtain ⟨a, b⟩ := seg_sound hs ht (fun e => by rw [e] at h; rcases h with h | h <;> cases h)
    have hc : ¬Collinear s1 s2 t1 t2 := by
      rcases h with h | h
      · exact (seg_one hs ht h).1
      · exact (seg_two hs ht h).1
    refine Classical.byContradiction (fun hne => hc ?_)
    exact collinear_of_two hs ht hne (inSeg_turn q1) (inSeg_turn q2) (inSeg_turn a) (inSeg_turn b)

example : intersectSegment ⟨0, 0⟩ ⟨4, 4⟩ ⟨0, 4⟩ ⟨4, 0⟩ = (1, ⟨2, 2⟩) := by decide +kernel
example : intersectSegment ⟨0, 0⟩ ⟨2, 2⟩ ⟨0, 4⟩ ⟨4, 0⟩ = (2, ⟨2, 2⟩) := by decide +kernel
example : intersectSegment ⟨0, 0⟩ ⟨3, 0⟩ ⟨2, 0⟩ ⟨5, 0⟩ = (3, ⟨2, 0⟩) := by decide +kernel
example : intersectSegment ⟨0, 0⟩ ⟨1, 1⟩ ⟨0, 4⟩ ⟨4, 0⟩ = (0, ⟨2, 2⟩) := by decide +kernel
example : (⟨0, 0⟩ : P) ≠ ⟨4, 4⟩ ∧ (⟨0, 4⟩ : P) ≠ ⟨4, 0⟩ := by decide +kernel

/-- Full claim, false: the results are not symmetric, a segment strictly inside the other is reported as not crossing it -/
theorem segment_iff_false : ∃ s1 s2 t1 t2 : P, s1 ≠ s2 ∧ t1 ≠ t2 ∧ (intersectSegment s1 s2 t1 t2).1 = 0 ∧ (intersectSegment t1 t2 s1 s2).1 = 3 ∧ ∃ q, InSeg q s1 s2 ∧ InSeg q t1 t2 :=
  ⟨⟨1, 0⟩, ⟨2, 0⟩, ⟨0, 0⟩, ⟨4, 0⟩, by decide +kernel, by decide +kernel, by decide +kernel, by decide +kernel, ⟨1, 0⟩, inSeg_left _ _, 1 / 4, by decide +kernel, by decide +kernel, by decide +kernel⟩

/-- A segment of one point is reported as crossing nothing -/
theorem segment_degenerate (s t1 t2 : P) : (intersectSegment s s t1 t2).1 = 0 := by
  unfold intersectSegment intersectLine
  have : (pts2line s s).a = 0 ∧ (pts2line s s).b = 0 := by
    simp only [pts2line]; exact ⟨by ring, by ring⟩
  rw [if_pos (Or.inl this)]

/-- Crossings beyond the range are not reported -/
theorem segment_far : ∃ s1 s2 t1 t2 : P, (intersectSegment s1 s2 t1 t2).1 = 0 ∧ ∃ q, InSeg q s1 s2 ∧ InSeg q t1 t2 :=
  ⟨⟨39999, 0⟩, ⟨40001, 0⟩, ⟨40000, -1⟩, ⟨40000, 1⟩, by decide +kernel, ⟨40000, 0⟩, ⟨1 / 2, by decide +kernel, by decide +kernel, by decide +kernel⟩, ⟨1 / 2, by decide +kernel, by decide +kernel, by decide +kernel⟩⟩

/-! ## C65: points and polygons -/

/-- For a convex polygon with its vertices in counter-clockwise order: 1 inside, 2 on the boundary, 0 outside -/
theorem in_poly_spec (pol : List P) (hc : Convex pol) (p : P) :
    (isInPoly p pol = 1 ↔ Interior pol p) ∧ (isInPoly p pol = 2 ↔ Boundary pol p) ∧ (isInPoly p pol = 0 ↔ ¬Hull pol p) := inPoly_iff hc p

/-- The boundary consists of the sides -/
theorem boundary_sides (pol : List P) (hc : Convex pol) (p : P) : Boundary pol p ↔ ∃ a b, Side pol a b ∧ InSeg p a b := by
  rw [boundary_iff hc]
  constructor
  · rintro ⟨i, hi, h⟩
    exact ⟨_, _, side_iff.2 ⟨i, hi, rfl, rfl⟩, h⟩
  · rintro ⟨a, b, hs, h⟩
    obtain ⟨i, hi, rfl, rfl⟩ := side_iff.1 hs
    exact ⟨i, hi, h⟩

/-- A square, counter-clockwise -/
def square : List P := [⟨0, 0⟩, ⟨10, 0⟩, ⟨10, 10⟩, ⟨0, 10⟩]

theorem square_convex : Convex square := by
  refine ⟨by decide, fun i k hi hk hj h1 h2 => ?_⟩
  have : ∀ i, i < square.length → ∀ k, k < square.length → k ≠ i → k ≠ (i + 1) % square.length → 0 < turn (vtx square i) (vtx square ((i + 1) % square.length)) (vtx square k) := by decide +kernel
  have h := this i hi k hk h1 h2
  rw [vtx_eq hi, vtx_eq hk, vtx_eq hj] at h
  exact h

example : isInPoly ⟨5, 5⟩ square = 1 ∧ isInPoly ⟨10, 5⟩ square = 2 ∧ isInPoly ⟨10, 10⟩ square = 2 ∧ isInPoly ⟨11, 5⟩ square = 0 := by decide +kernel

/-- With the vertices in clockwise order inner points are reported as outside -/
theorem in_poly_clockwise : ∃ p, Interior square p ∧ isInPoly p square.reverse = 0 := by
  refine ⟨⟨5, 5⟩, (in_poly_spec square square_convex ⟨5, 5⟩).1.1 (by decide +kernel), by decide +kernel⟩

/-- A polygon without vertices contains everything -/
theorem in_poly_empty (p : P) : isInPoly p [] = 1 := rfl

/-! ## C79: segments and polygons -/

/-- The segment meets the interior exactly when the result is 1 (this is the test the obstacle avoidance uses) -/
theorem crossing_one (pol : List P) (hc : Convex pol) (hr : ∀ v ∈ pol, InRange v) (p1 p2 ip : P) : (isCrossingPoly p1 p2 ip pol).1 = 1 ↔ ∃ m, InSeg m p1 p2 ∧ Interior pol m := by
  by_cases hp : p1 = p2
  · subst hp
    have zero : ∀ j, j < pol.length → cd pol p1 p1 j = 0 := fun j _ => segment_degenerate _ _ _
    have ht : touches p1 p1 pol = 0 := by
      unfold touches
      rw [List.countP_eq_zero]
      intro j hj
      have := zero j (List.mem_range.1 hj)
      simp [this]
    obtain ⟨_, Rin, _, _, _, R0, _⟩ := cross_rest ip (fun j hj => Or.inl (zero j hj))
    by_cases h : Interior pol p1
    · exact ⟨fun _ => ⟨p1, inSeg_left _ _, h⟩, fun _ => Rin (Or.inl ((inPoly_iff hc p1).1.2 h))⟩
    · have n : isInPoly p1 pol ≠ 1 := fun e => h ((inPoly_iff hc p1).1.1 e)
      refine ⟨(fun e => by rw [R0 ht n n] at e; cases e), ?_⟩
      rintro ⟨m, ⟨t, _, _, e⟩, hm⟩
      have : m = p1 := by rw [e]; apply P.ext' <;> simp only [at'] <;> ring
      rw [this] at hm
      exact absurd hm h
  · constructor
    · intro h
      refine Classical.byContradiction (fun hno => ?_)
      by_cases hins : ∃ i, i < pol.length ∧ InOpenSeg p1 (vtx pol i) (vtx pol (nx pol.length i)) ∧ InOpenSeg p2 (vtx pol i) (vtx pol (nx pol.length i))
      · obtain ⟨i, hi, a, b⟩ := hins
        rw [inside_zero hc hp ip hi a b] at h; cases h
      by_cases h3 : ∃ i, i < pol.length ∧ cd pol p1 p2 i = 3
      · rw [side_three hc hr hp ip h3] at h; cases h
      · obtain ⟨a, b⟩ := no_interior hc hr hp ip hno (fun i hi e => h3 ⟨i, hi, e⟩) hins
        by_cases hq : ∃ q, InSeg q p1 p2 ∧ Hull pol q
        · rw [a hq] at h; cases h
        · rw [b hq] at h; cases h
    · rintro ⟨m, hm, hint⟩
      exact meets_interior hc hr hp ip hm hint

/-- All four results for a segment with two different ends -/
theorem crossing_spec (pol : List P) (hc : Convex pol) (hr : ∀ v ∈ pol, InRange v) (p1 p2 ip : P) (hp : p1 ≠ p2) :
    ((isCrossingPoly p1 p2 ip pol).1 = 0 ↔ (¬∃ q, InSeg q p1 p2 ∧ Hull pol q) ∨ ∃ a b, Side pol a b ∧ InOpenSeg p1 a b ∧ InOpenSeg p2 a b) ∧
    ((isCrossingPoly p1 p2 ip pol).1 = 2 ↔ ∃ a b, Side pol a b ∧ (turn p1 p2 a = 0 ∧ turn p1 p2 b = 0) ∧ (InSeg a p1 p2 ∨ InSeg b p1 p2)) ∧
    (isCrossingPoly p1 p2 ip pol).1 ≤ 3 := by
  have side3 : (∃ a b, Side pol a b ∧ (turn p1 p2 a = 0 ∧ turn p1 p2 b = 0) ∧ (InSeg a p1 p2 ∨ InSeg b p1 p2)) ↔ ∃ i, i < pol.length ∧ cd pol p1 p2 i = 3 := by
    constructor
    · rintro ⟨a, b, hs, h⟩
      obtain ⟨i, hi, rfl, rfl⟩ := side_iff.1 hs
      exact ⟨i, hi, (seg_three hp (side_ne hc hi)).2 h⟩
    · rintro ⟨i, hi, h⟩
      exact ⟨_, _, side_iff.2 ⟨i, hi, rfl, rfl⟩, (seg_three hp (side_ne hc hi)).1 h⟩
  have sidei : (∃ a b, Side pol a b ∧ InOpenSeg p1 a b ∧ InOpenSeg p2 a b) ↔ ∃ i, i < pol.length ∧ InOpenSeg p1 (vtx pol i) (vtx pol (nx pol.length i)) ∧ InOpenSeg p2 (vtx pol i) (vtx pol (nx pol.length i)) := by
    constructor
    · rintro ⟨a, b, hs, h⟩
      obtain ⟨i, hi, rfl, rfl⟩ := side_iff.1 hs
      exact ⟨i, hi, h⟩
    · rintro ⟨i, hi, h⟩
      exact ⟨_, _, side_iff.2 ⟨i, hi, rfl, rfl⟩, h⟩
  rw [side3, sidei]
  by_cases hins : ∃ i, i < pol.length ∧ InOpenSeg p1 (vtx pol i) (vtx pol (nx pol.length i)) ∧ InOpenSeg p2 (vtx pol i) (vtx pol (nx pol.length i))
  · obtain ⟨i, hi, a, b⟩ := hins
    have e := inside_zero hc hp ip hi a b
    refine ⟨⟨fun _ => Or.inr ⟨i, hi, a, b⟩, fun _ => e⟩, ⟨(fun h => by rw [e] at h; cases h), fun h => ?_⟩, by omega⟩
    rw [side_three hc hr hp ip h] at e; cases e
  by_cases hint : ∃ m, InSeg m p1 p2 ∧ Interior pol m
  · have e := (crossing_one pol hc hr p1 p2 ip).2 hint
    obtain ⟨m, hm, hi⟩ := hint
    refine ⟨⟨(fun h => by rw [e] at h; cases h), fun h => ?_⟩, ⟨(fun h => by rw [e] at h; cases h), fun h => ?_⟩, by omega⟩
    · rcases h with h | h
      · exact absurd ⟨m, hm, interior_hull hi⟩ h
      · exact absurd h hins
    · rw [side_three hc hr hp ip h] at e; cases e
  by_cases h3 : ∃ i, i < pol.length ∧ cd pol p1 p2 i = 3
  · have e := side_three hc hr hp ip h3
    refine ⟨⟨(fun h => by rw [e] at h; cases h), fun h => ?_⟩, ⟨fun _ => h3, fun _ => e⟩, by omega⟩
    rcases h with h | h
    · obtain ⟨i, hi, h3⟩ := h3
      rcases ((seg_three hp (side_ne hc hi)).1 h3).2 with h' | h'
      · exact absurd ⟨_, h', .vertex (vtx_mem hi)⟩ h
      · exact absurd ⟨_, h', .vertex (vtx_mem (nx_lt hi))⟩ h
    · exact absurd h hins
  · obtain ⟨a, b⟩ := no_interior hc hr hp ip hint (fun i hi e => h3 ⟨i, hi, e⟩) hins
    by_cases hq : ∃ q, InSeg q p1 p2 ∧ Hull pol q
    · have e := a hq
      refine ⟨⟨(fun h => by rw [e] at h; cases h), fun h => ?_⟩, ⟨(fun h => by rw [e] at h; cases h), fun h => absurd h h3⟩, by omega⟩
      rcases h with h | h
      · exact absurd hq h
      · exact absurd h hins
    · have e := b hq
      exact ⟨⟨fun _ => Or.inl hq, fun _ => e⟩, ⟨(fun h => by rw [e] at h; cases h), fun h => absurd h h3⟩, by omega⟩

/-- The reported point is on the segment and on the boundary, unless both ends are inside -/
theorem crossing_point (pol : List P) (hc : Convex pol) (hr : ∀ v ∈ pol, InRange v) (p1 p2 ip : P) (hp : p1 ≠ p2) (h : (isCrossingPoly p1 p2 ip pol).1 ≠ 0) :
    (InSeg (isCrossingPoly p1 p2 ip pol).2 p1 p2 ∧ Boundary pol (isCrossingPoly p1 p2 ip pol).2) ∨ (Interior pol p1 ∧ Interior pol p2) := by
  have pt : ∀ i, i < pol.length → cd pol p1 p2 i ≠ 0 → (isCrossingPoly p1 p2 ip pol).2 = (intersectSegment p1 p2 (vtx pol i) (vtx pol (nx pol.length i))).2 →
      InSeg (isCrossingPoly p1 p2 ip pol).2 p1 p2 ∧ Boundary pol (isCrossingPoly p1 p2 ip pol).2 := by
    intro i hi hne e
    obtain ⟨a, b⟩ := seg_sound hp (side_ne hc hi) hne
    rw [e]; exact ⟨a, (boundary_iff hc).2 ⟨i, hi, b⟩⟩
  by_cases hret : ∃ i, i < pol.length ∧ (cd pol p1 p2 i = 1 ∨ cd pol p1 p2 i = 3)
  · obtain ⟨i, hi, e, h'⟩ := cross_return hc hp ip hret
    refine Or.inl (pt i hi ?_ e)
    rcases h' with ⟨h', _⟩ | ⟨h', _⟩ <;> rw [h'] <;> decide
  have h02 : ∀ i, i < pol.length → cd pol p1 p2 i = 0 ∨ cd pol p1 p2 i = 2 := fun i hi => by
    have := cd_le hc hp hi
    have n1 : cd pol p1 p2 i ≠ 1 := fun h => hret ⟨i, hi, Or.inl h⟩
    have n3 : cd pol p1 p2 i ≠ 3 := fun h => hret ⟨i, hi, Or.inr h⟩
    omega
  obtain ⟨_, _, _, _, _, R0, Rp⟩ := cross_rest ip h02
  rcases Rp with ⟨_, ht⟩ | ⟨i, hi, h2, e⟩
  · -- no side is touched
    have no : ∀ i, i < pol.length → cd pol p1 p2 i = 0 := fun i hi => by
      refine (h02 i hi).resolve_right (fun h2 => ?_)
      have : 0 < touches p1 p2 pol := List.countP_pos_iff.2 ⟨i, List.mem_range.2 hi, decide_eq_true h2⟩
      omega
    have hin : isInPoly p1 pol = 1 ∨ isInPoly p2 pol = 1 := by
      refine Classical.byContradiction (fun hno => h (R0 ht (fun e => hno (Or.inl e)) (fun e => hno (Or.inr e))))
    -- one end inside, the other not: a side would be touched
    have both : ∀ a b, InSeg a p1 p2 → InSeg b p1 p2 → Interior pol a → Interior pol b := by
      intro a b ha hb hint
      refine Classical.byContradiction (fun hb' => ?_)
      obtain ⟨s, s0, s1, hbd⟩ := leave hc hb' hint
      have hs : InSeg (at' b a s) p1 p2 := inSeg_trans hb ha ⟨s, s0, le_of_lt s1, rfl⟩
      obtain ⟨i, hi, hside⟩ := (boundary_iff hc).1 hbd
      exact seg_complete hp (side_ne hc hi) hs hside (hull_range hc hr hbd.1) (not_inside_of_not_col hc hp hi (not_col hc hp ha hint hi)) (no i hi)
    refine Or.inr ?_
    rcases hin with e | e
    · have h1 := (inPoly_iff hc p1).1.1 e
      exact ⟨h1, both p1 p2 (inSeg_left _ _) (inSeg_right _ _) h1⟩
    · have h2 := (inPoly_iff hc p2).1.1 e
      exact ⟨both p2 p1 (inSeg_right _ _) (inSeg_left _ _) h2, h2⟩
  · exact Or.inl (pt i hi (by rw [h2]; decide) e)

theorem square_range : ∀ v ∈ square, InRange v := by
  intro v hv
  simp only [square, List.mem_cons, List.not_mem_nil, or_false] at hv
  rcases hv with rfl | rfl | rfl | rfl <;> (unfold InRange; decide +kernel)

/-- Through the square; along a side; touching a corner; away; inside; through two corners -/
example : (isCrossingPoly ⟨-5, 5⟩ ⟨15, 6⟩ ⟨0, 0⟩ square).1 = 1 ∧ (isCrossingPoly ⟨-5, 0⟩ ⟨15, 0⟩ ⟨0, 0⟩ square).1 = 2 ∧ (isCrossingPoly ⟨-5, 5⟩ ⟨5, -5⟩ ⟨9, 9⟩ square) = (3, ⟨0, 0⟩) ∧
    (isCrossingPoly ⟨-5, 4⟩ ⟨4, -5⟩ ⟨0, 0⟩ square).1 = 0 ∧ (isCrossingPoly ⟨1, 1⟩ ⟨2, 3⟩ ⟨0, 0⟩ square).1 = 1 ∧ (isCrossingPoly ⟨-1, -1⟩ ⟨11, 11⟩ ⟨0, 0⟩ square).1 = 1 := by decide +kernel

/-- A segment that touches the polygon along the inner part of a side is reported as not touching it -/
theorem crossing_inside_side : ∃ p1 p2 : P, Hull square p1 ∧ Hull square p2 ∧ (isCrossingPoly p1 p2 ⟨0, 0⟩ square).1 = 0 := by
  have h : ∀ p, isInPoly p square = 2 → Hull square p := fun p hp => ((in_poly_spec square square_convex p).2.1.1 hp).1
  exact ⟨⟨2, 0⟩, ⟨8, 0⟩, h _ (by decide +kernel), h _ (by decide +kernel), by decide +kernel⟩

/-- The bounding box test -/
theorem box_spec (x1 y1 x2 y2 : ℚ) (p : P) : isInBox x1 y1 x2 y2 p = true ↔ (x1 ≤ p.x ∧ p.x ≤ x2) ∧ (y1 ≤ p.y ∧ p.y ≤ y2) := by
  unfold isInBox
  rw [decide_eq_true_eq]
  constructor
  · rintro ⟨a, b, c, d⟩; exact ⟨⟨a, b⟩, ⟨c, d⟩⟩
  · rintro ⟨⟨a, b⟩, ⟨c, d⟩⟩; exact ⟨a, b, c, d⟩

example : isInBox 0 0 100 100 ⟨100, 0⟩ = true ∧ isInBox 0 0 100 100 ⟨101, 0⟩ = false := by decide +kernel

end Verif.Geom
