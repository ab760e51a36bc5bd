import Verif.Curves.Lemmas

/-! Lemmas on clothoids: the geometry of `calc_clitoid` and the series. -/

namespace Verif.Curves

open Real

/-! ## Lines that cross -/

/-- The point is on the line. -/
def Line.On (l : Line) (p : P) : Prop := l.a * p.x + l.b * p.y + l.c = 0

theorem on_unique {l1 l2 : Line} (hd : l2.a * l1.b - l1.a * l2.b ≠ 0) {p q : P} (hp1 : l1.On p) (hp2 : l2.On p) (hq1 : l1.On q) (hq2 : l2.On q) : p = q := by
  obtain ⟨px, py⟩ := p
  obtain ⟨qx, qy⟩ := q
  simp only [Line.On] at *
  have h1 : (l2.a * l1.b - l1.a * l2.b) * (px - qx) = 0 := by linear_combination l1.b * (hp2 - hq2) - l2.b * (hp1 - hq1)
  have h2 : (l2.a * l1.b - l1.a * l2.b) * (py - qy) = 0 := by linear_combination l2.a * (hp1 - hq1) - l1.a * (hp2 - hq2)
  have h1 := (mul_eq_zero.1 h1).resolve_left hd
  have h2 := (mul_eq_zero.1 h2).resolve_left hd
  rw [show px = qx by linarith, show py = qy by linarith]

theorem intersect_point {l1 l2 : Line} (hd : l2.a * l1.b - l1.a * l2.b ≠ 0) {p : P} (h1 : l1.On p) (h2 : l2.On p) : intersectLine l1 l2 = .point p := by
  have hne : ¬((l1.a = 0 ∧ l1.b = 0) ∨ (l2.a = 0 ∧ l2.b = 0)) := by
    rintro (⟨h, h'⟩ | ⟨h, h'⟩) <;> exact hd (by rw [h, h']; ring)
  have key : ∀ q, l1.On q → l2.On q → Cross.point q = Cross.point p := fun q a b => by rw [on_unique hd a b h1 h2]
  unfold intersectLine
  rw [if_neg hne]
  by_cases ha : l1.a = 0
  · rw [if_pos ha]
    have hb : l1.b ≠ 0 := fun hb => hd (by rw [ha, hb]; ring)
    have hc : l2.a ≠ 0 := fun hc => hd (by rw [ha, hc]; ring)
    rw [if_neg hc]
    refine key _ ?_ ?_
    · simp only [Line.On]; rw [ha]; field_simp; ring
    · simp only [Line.On]; field_simp; ring
  · rw [if_neg ha]
    by_cases hb : l1.b = 0
    · rw [if_pos hb]
      have hc : l2.b ≠ 0 := fun hc => hd (by rw [hb, hc]; ring)
      rw [if_neg hc]
      refine key _ ?_ ?_
      · simp only [Line.On]; rw [hb]; field_simp; ring
      · simp only [Line.On]; field_simp; ring
    · rw [if_neg hb, if_neg hd]
      refine key _ ?_ ?_
      · simp only [Line.On]
        generalize l2.a * l1.b - l1.a * l2.b = e at hd ⊢
        field_simp
        ring
      · simp only [Line.On]; field_simp; ring

theorem intersect_none {l1 l2 : Line} (hd : l2.a * l1.b - l1.a * l2.b = 0) : ∀ p, intersectLine l1 l2 ≠ .point p := by
  intro p
  unfold intersectLine
  by_cases hne : (l1.a = 0 ∧ l1.b = 0) ∨ (l2.a = 0 ∧ l2.b = 0)
  · rw [if_pos hne]; simp
  · rw [if_neg hne]
    by_cases ha : l1.a = 0
    · rw [if_pos ha]
      have hb : l1.b ≠ 0 := fun hb => hne (.inl ⟨ha, hb⟩)
      have hc : l2.a = 0 := by
        rw [ha, zero_mul, sub_zero] at hd
        exact (mul_eq_zero.1 hd).resolve_right hb
      rw [if_pos hc]
      split <;> simp
    · rw [if_neg ha]
      by_cases hb : l1.b = 0
      · rw [if_pos hb]
        have hc : l2.b = 0 := by
          rw [hb, mul_zero, zero_sub, neg_eq_zero] at hd
          exact (mul_eq_zero.1 hd).resolve_left ha
        rw [if_pos hc]
        split <;> simp
      · rw [if_neg hb, if_pos hd]
        split <;> simp

theorem proj_point {p q : P} {l : Line} (hl : l.a * l.a + l.b * l.b ≠ 0) (hq : l.On q) (hpq : l.b * (p.x - q.x) - l.a * (p.y - q.y) = 0) : projPtLine p l = some q := by
  have hd : l.a * (-l.a) - l.b * l.b ≠ 0 := fun h => hl (by linarith)
  obtain ⟨qx, qy⟩ := q
  simp only [Line.On] at hq hpq
  simp only [projPtLine, if_neg hd, Option.some.injEq, P.mk.injEq]
  constructor
  · rw [div_eq_iff hd]; linear_combination (-l.b) * hpq - (-l.a) * hq
  · rw [div_eq_iff hd]; linear_combination l.b * hq + l.a * hpq

theorem ptNorm_along (p : P) (s c sn : ℝ) (h : c * c + sn * sn = 1) : ptNorm ⟨p.x + s * c, p.y + s * sn⟩ p = |s| := by
  simp only [ptNorm]
  have : (p.x - (p.x + s * c)) * (p.x - (p.x + s * c)) + (p.y - (p.y + s * sn)) * (p.y - (p.y + s * sn)) = s * s := by
    linear_combination s * s * h
  rw [this, Real.sqrt_mul_self_eq_abs]

theorem resize_eq {c sn k l : ℝ} (h : c * c + sn * sn = 1) (hk : 0 < k) : resize ⟨k * c, k * sn⟩ l = some ⟨l * c, l * sn⟩ := by
  have h1 : k * c * (k * c) + k * sn * (k * sn) = k * k := by linear_combination k * k * h
  simp only [resize, h1, Real.sqrt_mul_self hk.le, if_neg hk.ne', Option.some.injEq, P.mk.injEq]
  constructor <;> field_simp

/-! ## `geometry` in closed form -/

/-- 1 to the left, -1 to the right. -/
noncomputable def side (alpha : ℝ) : ℝ := if alpha < 0 then -1 else 1

theorem geometry_eq {x y a alpha beta R v t D : ℝ} (hD : 0 < D) (hs : sin alpha ≠ 0) (ha : alpha ≠ 0) :
    let L := v * t
    let A := R * sqrt |alpha - beta|
    let tau := (alpha - beta) / 2
    let d := seriesY L A + R * cos tau
    let o := side alpha * R * sin tau - side alpha * d * ((1 - cos alpha) / sin alpha)
    let remain := D - (|o| + seriesX L A)
    geometry x y a alpha beta R v t D = some (if remain < 0 then none else some remain) := by
  intro L A tau d o remain
  have hcs : cos a * cos a + sin a * sin a = 1 := by have := Real.cos_sq_add_sin_sq a; nlinarith
  have hcs2 : cos (a + alpha) * cos (a + alpha) + sin (a + alpha) * sin (a + alpha) = 1 := by have := Real.cos_sq_add_sin_sq (a + alpha); nlinarith
  have e1 : (if alpha > 0 then rotTrigo ⟨x + cos a * D - x, y + sin a * D - y⟩ else rotRetro ⟨x + cos a * D - x, y + sin a * D - y⟩) =
      (⟨D * (side alpha * (-sin a)), D * (side alpha * cos a)⟩ : P) := by
    simp only [side]
    rcases lt_or_gt_of_ne ha with h | h
    · rw [if_neg (not_lt.2 h.le), if_pos h]; simp only [rotRetro, P.mk.injEq]; constructor <;> ring
    · rw [if_pos h, if_neg (not_lt.2 h.le)]; simp only [rotTrigo, P.mk.injEq]; constructor <;> ring
  have hside : side alpha * side alpha = 1 := by simp only [side]; split <;> norm_num
  have r1 : resize (⟨D * (side alpha * (-sin a)), D * (side alpha * cos a)⟩ : P) d = some ⟨d * (side alpha * (-sin a)), d * (side alpha * cos a)⟩ :=
    resize_eq (by linear_combination (sin a * sin a + cos a * cos a) * hside + hcs) hD
  have e2 : (if alpha < 0 then rotTrigo ⟨x + cos a * D - (x + cos a * D + cos (a + alpha)), y + sin a * D - (y + sin a * D + sin (a + alpha))⟩
      else rotRetro ⟨x + cos a * D - (x + cos a * D + cos (a + alpha)), y + sin a * D - (y + sin a * D + sin (a + alpha))⟩) =
      (⟨1 * (side alpha * (-sin (a + alpha))), 1 * (side alpha * cos (a + alpha))⟩ : P) := by
    simp only [side]
    rcases lt_or_gt_of_ne ha with h | h
    · rw [if_pos h, if_pos h]; simp only [rotTrigo, P.mk.injEq]; constructor <;> ring
    · rw [if_neg (not_lt.2 h.le), if_neg (not_lt.2 h.le)]; simp only [rotRetro, P.mk.injEq]; constructor <;> ring
  have r2 : resize (⟨1 * (side alpha * (-sin (a + alpha))), 1 * (side alpha * cos (a + alpha))⟩ : P) d =
      some ⟨d * (side alpha * (-sin (a + alpha))), d * (side alpha * cos (a + alpha))⟩ :=
    resize_eq (by linear_combination (sin (a + alpha) * sin (a + alpha) + cos (a + alpha) * cos (a + alpha)) * hside + hcs2) one_pos
  let T := (1 - cos alpha) / sin alpha
  have hT : T * sin alpha = 1 - cos alpha := div_mul_cancel₀ _ hs
  have hca : cos (a + alpha) = cos a * cos alpha - sin a * sin alpha := Real.cos_add a alpha
  have hsa : sin (a + alpha) = sin a * cos alpha + cos a * sin alpha := Real.sin_add a alpha
  have hcal : cos alpha * cos alpha + sin alpha * sin alpha = 1 := by have := Real.cos_sq_add_sin_sq alpha; nlinarith
  let center : P := ⟨x + cos a * D - side alpha * d * T * cos a + side alpha * d * (-sin a), y + sin a * D - side alpha * d * T * sin a + side alpha * d * cos a⟩
  have hline1 : pts2line ⟨x, y⟩ ⟨x + cos a * D, y + sin a * D⟩ = ⟨-(sin a * D), cos a * D, -(-(sin a * D) * x + cos a * D * y)⟩ := by
    simp only [pts2line, Line.mk.injEq]
    refine ⟨by ring, by ring, by ring⟩
  have hline2 : pts2line ⟨x + cos a * D, y + sin a * D⟩ ⟨x + cos a * D + cos (a + alpha), y + sin a * D + sin (a + alpha)⟩ =
      ⟨-sin (a + alpha), cos (a + alpha), -(-sin (a + alpha) * (x + cos a * D) + cos (a + alpha) * (y + sin a * D))⟩ := by
    simp only [pts2line, Line.mk.injEq]
    refine ⟨by ring, by ring, by ring⟩
  have hint : intersectLine (lineTranslate (pts2line ⟨x, y⟩ ⟨x + cos a * D, y + sin a * D⟩) ⟨d * (side alpha * (-sin a)), d * (side alpha * cos a)⟩)
      (lineTranslate (pts2line ⟨x + cos a * D, y + sin a * D⟩ ⟨x + cos a * D + cos (a + alpha), y + sin a * D + sin (a + alpha)⟩)
        ⟨d * (side alpha * (-sin (a + alpha))), d * (side alpha * cos (a + alpha))⟩) = .point center := by
    rw [hline1, hline2]
    refine intersect_point ?_ ?_ ?_
    · simp only [lineTranslate]
      have : -sin (a + alpha) * (cos a * D) - -(sin a * D) * cos (a + alpha) = -(D * sin alpha) := by
        rw [hca, hsa]; linear_combination -(D * sin alpha) * hcs
      rw [this]
      exact neg_ne_zero.2 (mul_ne_zero hD.ne' hs)
    · simp only [lineTranslate, Line.On, center]
      ring
    · simp only [lineTranslate, Line.On, center]
      rw [hca, hsa]
      linear_combination (-side alpha * d * (cos alpha * cos alpha + sin alpha * sin alpha) + side alpha * d * cos alpha + side alpha * d * T * sin alpha) * hcs
        - side alpha * d * hcal + side alpha * d * hT
  have hm : (if alpha < 0 then (⟨center.x + cos (a + π / 2 + tau) * R, center.y + sin (a + π / 2 + tau) * R⟩ : P)
      else ⟨center.x + cos (a - π / 2 + tau) * R, center.y + sin (a - π / 2 + tau) * R⟩) =
      ⟨center.x + side alpha * R * (sin tau * cos a + cos tau * sin a), center.y + side alpha * R * (sin tau * sin a - cos tau * cos a)⟩ := by
    have c1 : cos (a + π / 2 + tau) = -(sin a * cos tau + cos a * sin tau) := by
      rw [show a + π / 2 + tau = (a + tau) + π / 2 by ring, Real.cos_add_pi_div_two, Real.sin_add]
    have s1 : sin (a + π / 2 + tau) = cos a * cos tau - sin a * sin tau := by
      rw [show a + π / 2 + tau = (a + tau) + π / 2 by ring, Real.sin_add_pi_div_two, Real.cos_add]
    have c2 : cos (a - π / 2 + tau) = sin a * cos tau + cos a * sin tau := by
      rw [show a - π / 2 + tau = (a + tau) - π / 2 by ring, Real.cos_sub_pi_div_two, Real.sin_add]
    have s2 : sin (a - π / 2 + tau) = -(cos a * cos tau - sin a * sin tau) := by
      rw [show a - π / 2 + tau = (a + tau) - π / 2 by ring, Real.sin_sub_pi_div_two, Real.cos_add]
    simp only [side]
    rcases lt_or_gt_of_ne ha with h | h
    · rw [if_pos h, if_pos h, c1, s1]; simp only [P.mk.injEq]; constructor <;> ring
    · rw [if_neg (not_lt.2 h.le), if_neg (not_lt.2 h.le), c2, s2]; simp only [P.mk.injEq]; constructor <;> ring
  have hproj : projPtLine ⟨center.x + side alpha * R * (sin tau * cos a + cos tau * sin a), center.y + side alpha * R * (sin tau * sin a - cos tau * cos a)⟩
      (pts2line ⟨x, y⟩ ⟨x + cos a * D, y + sin a * D⟩) = some ⟨x + cos a * D + o * cos a, y + sin a * D + o * sin a⟩ := by
    rw [hline1]
    refine proj_point ?_ ?_ ?_
    · simp only
      have : -(sin a * D) * -(sin a * D) + cos a * D * (cos a * D) = D * D := by linear_combination D * D * hcs
      rw [this]
      exact (mul_pos hD hD).ne'
    · simp only [Line.On]; ring
    · simp only [center, o]
      show cos a * D * (_ - (x + cos a * D + (side alpha * R * sin tau - side alpha * d * T) * cos a)) -
        -(sin a * D) * (_ - (y + sin a * D + (side alpha * R * sin tau - side alpha * d * T) * sin a)) = 0
      ring
  have hnorm : ptNorm ⟨x + cos a * D + o * cos a, y + sin a * D + o * sin a⟩ ⟨x + cos a * D, y + sin a * D⟩ = |o| :=
    ptNorm_along ⟨x + cos a * D, y + sin a * D⟩ o (cos a) (sin a) hcs
  unfold geometry
  simp only [e1, e2]
  show Option.bind (resize _ d) _ = _
  rw [r1]
  show Option.bind (resize _ d) _ = _
  rw [r2]
  simp only [Option.bind_some, hint]
  show Option.bind (projPtLine (if alpha < 0 then _ else _) _) _ = _
  rw [hm, hproj]
  simp only [Option.bind_some, hnorm]
  show (if remain < 0 then some none else some (some remain)) = _
  split <;> rfl

end Verif.Curves
