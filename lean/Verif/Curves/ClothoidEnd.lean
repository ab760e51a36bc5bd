import Verif.Curves.ClothoidRide
import Mathlib.Analysis.Real.Pi.Bounds
import Mathlib.Tactic.Positivity
import Mathlib.Tactic.NormNum

/-! Lemmas on clothoids: the geometry of `calc_clitoid` meets the ride. -/

namespace Verif.Curves

open Real

/-- The length of a sum of two vectors given in two frames. -/
theorem norm_frames {a b e1 e2 e3 e4 dx dy : ℝ} (hx : dx = e1 * cos a - e2 * sin a + e3 * cos b - e4 * sin b) (hy : dy = e1 * sin a + e2 * cos a + e3 * sin b + e4 * cos b) :
    sqrt (dx ^ 2 + dy ^ 2) ≤ |e1| + |e2| + |e3| + |e4| := by
  have hr := Real.sqrt_nonneg (dx ^ 2 + dy ^ 2)
  have hrr : sqrt (dx ^ 2 + dy ^ 2) * sqrt (dx ^ 2 + dy ^ 2) = dx ^ 2 + dy ^ 2 := Real.mul_self_sqrt (by positivity)
  have key : ∀ (e c s : ℝ), c ^ 2 + s ^ 2 = 1 → e * (dx * c + dy * s) ≤ |e| * sqrt (dx ^ 2 + dy ^ 2) := by
    intro e c s h
    have : |dx * c + dy * s| ≤ sqrt (dx ^ 2 + dy ^ 2) := by
      apply Real.abs_le_sqrt
      nlinarith [sq_nonneg (dx * s - dy * c)]
    calc e * (dx * c + dy * s) ≤ |e * (dx * c + dy * s)| := le_abs_self _
      _ = |e| * |dx * c + dy * s| := abs_mul _ _
      _ ≤ _ := mul_le_mul_of_nonneg_left this (abs_nonneg e)
  have h1 := key e1 (cos a) (sin a) (Real.cos_sq_add_sin_sq a)
  have h2 := key e2 (-sin a) (cos a) (by rw [neg_sq, add_comm]; exact Real.cos_sq_add_sin_sq a)
  have h3 := key e3 (cos b) (sin b) (Real.cos_sq_add_sin_sq b)
  have h4 := key e4 (-sin b) (cos b) (by rw [neg_sq, add_comm]; exact Real.cos_sq_add_sin_sq b)
  have e : dx ^ 2 + dy ^ 2 = e1 * (dx * cos a + dy * sin a) + e2 * (dx * -sin a + dy * cos a) + e3 * (dx * cos b + dy * sin b) + e4 * (dx * -sin b + dy * cos b) := by
    linear_combination dx * hx + dy * hy
  generalize sqrt (dx ^ 2 + dy ^ 2) = r at *
  rcases hr.eq_or_lt with h | h
  · rw [← h]; positivity
  · have : r * r ≤ r * (|e1| + |e2| + |e3| + |e4|) := by rw [hrr, e]; linarith
    exact le_of_mul_le_mul_left this h

/-- The distance of the corner is not negative. -/
theorem offset_le {A theta Y R : ℝ} (hA0 : 0 < A) (hA : A < π) (ht0 : 0 ≤ theta) (ht : theta ≤ A) (hY : 0 ≤ Y) (hR : 0 ≤ R) :
    R * sin (theta / 2) - (Y + R * cos (theta / 2)) * ((1 - cos A) / sin A) ≤ 0 := by
  have hs : 0 < sin A := Real.sin_pos_of_pos_of_lt_pi hA0 hA
  have hc : 0 ≤ 1 - cos A := by linarith [Real.cos_le_one A]
  have h1 : cos (A - theta / 2) ≤ cos (theta / 2) := Real.cos_le_cos_of_nonneg_of_le_pi (by linarith) (by linarith) (by linarith)
  rw [Real.cos_sub] at h1
  have h2 : 0 ≤ Y * ((1 - cos A) / sin A) := mul_nonneg hY (div_nonneg hc hs.le)
  have h3 : sin (theta / 2) ≤ cos (theta / 2) * ((1 - cos A) / sin A) := by
    rw [← mul_div_assoc, le_div_iff₀ hs]
    linarith
  have h4 := mul_le_mul_of_nonneg_left h3 hR
  linarith

theorem series_nonneg {theta K : ℝ} (hK : 0 ≤ K) (h0 : 0 ≤ theta) (h : theta ≤ 4) :
    0 ≤ K * (theta / 6 - theta ^ 3 / 336 + theta ^ 5 / 42240 - theta ^ 7 / 9676800) := by
  refine mul_nonneg hK ?_
  have h1 : 0 ≤ theta * (1 / 6 - theta ^ 2 / 336) := mul_nonneg h0 (by nlinarith)
  have h2 : 0 ≤ theta ^ 5 * (1 / 42240 - theta ^ 2 / 9676800) := mul_nonneg (by positivity) (by nlinarith)
  nlinarith

theorem series_pos {theta K : ℝ} (hK : 0 < K) (h0 : 0 ≤ theta) (h : theta ≤ 3.15) :
    0 < K * (1 - theta ^ 2 / 40 + theta ^ 4 / 3456 - theta ^ 6 / 599040) := by
  refine mul_pos hK ?_
  have h1 : theta ^ 2 ≤ 10 := by nlinarith
  have h4 : 0 ≤ theta ^ 4 * (1 / 3456 - theta ^ 2 / 599040) := mul_nonneg (by positivity) (by linarith)
  nlinarith

theorem error_le {R theta : ℝ} (hR : 0 ≤ R) (h0 : 0 ≤ theta) (h : theta ≤ π) :
    2 * (R * theta ^ 9 / 175472640 + R * theta ^ 10 / 3530096640) ≤ R / 1000 := by
  have hp : theta ≤ 3.15 := h.trans Real.pi_lt_d2.le
  have h9 : theta ^ 9 ≤ 3.15 ^ 9 := pow_le_pow_left₀ h0 hp 9
  have h10 : theta ^ 10 ≤ 3.15 ^ 10 := pow_le_pow_left₀ h0 hp 10
  have a9 := mul_le_mul_of_nonneg_left h9 hR
  have a10 := mul_le_mul_of_nonneg_left h10 hR
  norm_num at a9 a10 ⊢
  linarith

/-- Along the ride, where it ends compared with the two tangents. -/
theorem curve_end {V w q alpha T R theta Y o : ℝ} {x y h : ℝ → ℝ} (hw : 0 < w) (hq : 0 < q) (hR : 0 < R) (hV : V = R * w) (hT : T = |alpha| / w + w / q)
    (hθ : w * (w / q) = theta) (hθ0 : 0 < theta) (hth : theta ≤ |alpha|) (hs : sin alpha ≠ 0) (r : CurveRide V w q alpha T x y h) {X : ℝ}
    (hX : X = V * (w / q - q ^ 2 * (w / q) ^ 5 / 40 + q ^ 4 * (w / q) ^ 9 / 3456 - q ^ 6 * (w / q) ^ 13 / 599040))
    (hY : Y = V * (q * (w / q) ^ 3 / 6 - q ^ 3 * (w / q) ^ 7 / 336 + q ^ 5 * (w / q) ^ 11 / 42240 - q ^ 7 * (w / q) ^ 15 / 9676800))
    (ho : o = R * sin (theta / 2) - side alpha * (Y + R * cos (theta / 2)) * ((1 - cos alpha) / sin alpha)) :
    h T = h 0 + alpha ∧
    sqrt ((x T - (x 0 + (X - o) * (cos (h 0) + cos (h 0 + alpha)))) ^ 2 + (y T - (y 0 + (X - o) * (sin (h 0) + sin (h 0 + alpha)))) ^ 2) ≤
      2 * (R * theta ^ 9 / 175472640 + R * theta ^ 10 / 3530096640) := by
  have hVp : 0 < V := by rw [hV]; exact mul_pos hR hw
  obtain ⟨e1, e2, e3, e4, b1, b2, b3, b4, hx, hy⟩ := ride_end hVp hw hq hT (by rw [hθ]; exact hth) r hX hY rfl rfl
  have hend := (heading hw hq hT (by rw [hθ]; exact hth) r).2.2.2.2.2
  refine ⟨hend, ?_⟩
  have hqb : q * (w / q) = w := mul_div_cancel₀ _ hq.ne'
  have E1 : V * q ^ 8 * (w / q) ^ 17 / 175472640 = R * theta ^ 9 / 175472640 := by
    rw [hV, ← hθ]
    have : R * w * q ^ 8 * (w / q) ^ 17 = R * (w * (w / q)) * (q * (w / q) * (w / q)) ^ 8 := by ring
    rw [this, hqb]; ring
  have E2 : V * q ^ 9 * (w / q) ^ 19 / 3530096640 = R * theta ^ 10 / 3530096640 := by
    rw [hV, ← hθ]
    have : R * w * q ^ 9 * (w / q) ^ 19 = R * (w * (w / q)) * (q * (w / q) * (w / q)) ^ 9 := by ring
    rw [this, hqb]; ring
  rw [E1] at b1 b3
  rw [E2] at b2 b4
  have hVw : V / w = R := by rw [hV]; field_simp
  rw [hVw, hθ] at hx hy
  have hcos : cos (side alpha * (theta / 2)) = cos (theta / 2) := cos_side _ _
  have hsin : sin (side alpha * (theta / 2)) = side alpha * sin (theta / 2) := sin_side _ _
  have hσ2 := side_sq alpha
  generalize h 0 = a at *
  generalize side alpha = σ at *
  rw [Real.sin_sub, Real.cos_sub, Real.sin_add a (σ * _), Real.cos_add a (σ * _), hcos, hsin] at *
  let Tn := (1 - cos alpha) / sin alpha
  have hTn : Tn * sin alpha = 1 - cos alpha := div_mul_cancel₀ _ hs
  have hcal : cos alpha * cos alpha + sin alpha * sin alpha = 1 := by linear_combination Real.cos_sq_add_sin_sq alpha
  have hca : cos (a + alpha) = cos a * cos alpha - sin a * sin alpha := Real.cos_add a alpha
  have hsa : sin (a + alpha) = sin a * cos alpha + cos a * sin alpha := Real.sin_add a alpha
  have hTc : Tn * (1 + cos alpha) = sin alpha := by
    have : sin alpha * (Tn * (1 + cos alpha)) = sin alpha * sin alpha := by linear_combination (1 + cos alpha) * hTn - hcal
    exact mul_left_cancel₀ hs this
  -- the difference of the normals is along the sum of the directions
  have k1 : sin (a + alpha) - sin a = Tn * (cos a + cos (a + alpha)) := by
    rw [hca, hsa]; linear_combination (-(cos a)) * hTc + sin a * hTn
  have k2 : cos a - cos (a + alpha) = Tn * (sin a + sin (a + alpha)) := by
    rw [hca, hsa]; linear_combination (-(sin a)) * hTc - cos a * hTn
  refine (norm_frames (a := a) (b := a + alpha) (e1 := e1) (e2 := e2) (e3 := e3) (e4 := e4) ?_ ?_).trans (by linarith)
  · rw [ho]
    show x T - (x 0 + (X - (R * sin (theta / 2) - σ * (Y + R * cos (theta / 2)) * Tn)) * _) = _
    linear_combination hx + (-(R * sin (theta / 2) * (cos a + cos (a + alpha)))) * hσ2 + σ * (Y + R * cos (theta / 2)) * k1
  · rw [ho]
    show y T - (y 0 + (X - (R * sin (theta / 2) - σ * (Y + R * cos (theta / 2)) * Tn)) * _) = _
    linear_combination hy + (-(R * sin (theta / 2) * (sin a + sin (a + alpha)))) * hσ2 + σ * (Y + R * cos (theta / 2)) * k2

end Verif.Curves
