import Verif.Curves.ClothoidLemmas

/-! Lemmas on clothoids: Taylor bounds, and rides with constant speed whose rate of turn goes up, stays and goes down. -/

namespace Verif.Curves

open Real Set

/-! ## Bounds by integration -/

theorem bound_step {f g : ℝ → ℝ} {b c : ℝ} (n : ℕ) (hf : ∀ u, 0 ≤ u → u ≤ b → HasDerivAt f (g u) u) (h0 : f 0 = 0)
    (hg : ∀ u, 0 ≤ u → u ≤ b → |g u| ≤ c * u ^ n) : ∀ u, 0 ≤ u → u ≤ b → |f u| ≤ c * u ^ (n + 1) / (n + 1) := by
  intro u hu hub
  have hB : ∀ x : ℝ, HasDerivAt (fun x : ℝ => c * x ^ (n + 1) / (n + 1)) (c * x ^ n) x := by
    intro x
    refine (((hasDerivAt_pow (n + 1) x).const_mul c).div_const (n + 1 : ℝ)).congr_deriv ?_
    have : (n + 1 : ℝ) ≠ 0 := by positivity
    push_cast
    field_simp
  have := image_norm_le_of_norm_deriv_right_le_deriv_boundary (f := f) (f' := g) (a := 0) (b := b) (B := fun x : ℝ => c * x ^ (n + 1) / (n + 1)) (B' := fun x => c * x ^ n)
    (fun x hx => (hf x hx.1 hx.2).continuousAt.continuousWithinAt)
    (fun x hx => (hf x hx.1 hx.2.le).hasDerivWithinAt) (by simp [h0]) hB (fun x hx => by simpa using hg x hx.1 hx.2.le) ⟨hu, hub⟩
  simpa using this

theorem same_deriv {f g : ℝ → ℝ} {r : ℝ → ℝ} {p b : ℝ} (hf : ∀ t, p ≤ t → t ≤ b → HasDerivAt f (r t) t) (hg : ∀ t, p ≤ t → t ≤ b → HasDerivAt g (r t) t) :
    ∀ t, p ≤ t → t ≤ b → f t - g t = f p - g p := by
  intro t h1 h2
  have hd : ∀ s, p ≤ s → s ≤ b → HasDerivAt (fun s => f s - g s) 0 s := fun s h1 h2 => ((hf s h1 h2).sub (hg s h1 h2)).congr_deriv (by ring)
  exact constant_of_has_deriv_right_zero (f := fun s => f s - g s) (a := p) (b := b)
    (fun x hx => (hd x hx.1 hx.2).continuousAt.continuousWithinAt) (fun x hx => (hd x hx.1 hx.2.le).hasDerivWithinAt) t ⟨h1, h2⟩

/-! ## Sine and cosine -/

theorem taylor (u : ℝ) (hu : 0 ≤ u) :
    |cos u - (1 - u ^ 2 / 2 + u ^ 4 / 24 - u ^ 6 / 720)| ≤ u ^ 8 / 40320 ∧
    |sin u - (u - u ^ 3 / 6 + u ^ 5 / 120 - u ^ 7 / 5040)| ≤ u ^ 9 / 362880 := by
  have s1 : ∀ v, 0 ≤ v → v ≤ u → |sin v| ≤ v ^ 1 := by
    intro v h1 h2
    have := bound_step (f := sin) (g := cos) (c := 1) (b := u) 0 (fun x _ _ => hasDerivAt_sin x) sin_zero (fun x _ _ => by simpa using abs_cos_le_one x) v h1 h2
    refine this.trans (le_of_eq ?_); norm_num
  have c2 : ∀ v, 0 ≤ v → v ≤ u → |1 - cos v| ≤ v ^ 2 / 2 := by
    intro v h1 h2
    have := bound_step (f := fun v => 1 - cos v) (g := sin) (c := 1) (b := u) 1
      (fun x _ _ => ((hasDerivAt_cos x).const_sub 1).congr_deriv (by ring)) (by simp) (fun x h1 h2 => by simpa using s1 x h1 h2) v h1 h2
    refine this.trans (le_of_eq ?_); norm_num
  have s3 : ∀ v, 0 ≤ v → v ≤ u → |v - sin v| ≤ v ^ 3 / 6 := by
    intro v h1 h2
    have := bound_step (f := fun v => v - sin v) (g := fun v => 1 - cos v) (c := 1 / 2) (b := u) 2
      (fun x _ _ => ((hasDerivAt_id x).sub (hasDerivAt_sin x)).congr_deriv (by ring)) (by simp) (fun x h1 h2 => (c2 x h1 h2).trans (le_of_eq (by ring))) v h1 h2
    refine this.trans (le_of_eq ?_); norm_num; ring
  have c4 : ∀ v, 0 ≤ v → v ≤ u → |cos v - 1 + v ^ 2 / 2| ≤ v ^ 4 / 24 := by
    intro v h1 h2
    have := bound_step (f := fun v => cos v - 1 + v ^ 2 / 2) (g := fun v => v - sin v) (c := 1 / 6) (b := u) 3
      (fun x _ _ => (((hasDerivAt_cos x).sub_const 1).add ((hasDerivAt_pow 2 x).div_const 2)).congr_deriv (by push_cast; ring)) (by simp)
      (fun x h1 h2 => (s3 x h1 h2).trans (le_of_eq (by ring))) v h1 h2
    refine this.trans (le_of_eq ?_); norm_num; ring
  have s5 : ∀ v, 0 ≤ v → v ≤ u → |sin v - v + v ^ 3 / 6| ≤ v ^ 5 / 120 := by
    intro v h1 h2
    have := bound_step (f := fun v => sin v - v + v ^ 3 / 6) (g := fun v => cos v - 1 + v ^ 2 / 2) (c := 1 / 24) (b := u) 4
      (fun x _ _ => (((hasDerivAt_sin x).sub (hasDerivAt_id x)).add ((hasDerivAt_pow 3 x).div_const 6)).congr_deriv (by push_cast; ring)) (by simp)
      (fun x h1 h2 => (c4 x h1 h2).trans (le_of_eq (by ring))) v h1 h2
    refine this.trans (le_of_eq ?_); norm_num; ring
  have c6 : ∀ v, 0 ≤ v → v ≤ u → |1 - v ^ 2 / 2 + v ^ 4 / 24 - cos v| ≤ v ^ 6 / 720 := by
    intro v h1 h2
    have := bound_step (f := fun v => 1 - v ^ 2 / 2 + v ^ 4 / 24 - cos v) (g := fun v => sin v - v + v ^ 3 / 6) (c := 1 / 120) (b := u) 5
      (fun x _ _ => (((((hasDerivAt_pow 2 x).div_const 2).const_sub 1).add ((hasDerivAt_pow 4 x).div_const 24)).sub (hasDerivAt_cos x)).congr_deriv (by push_cast; ring)) (by simp)
      (fun x h1 h2 => (s5 x h1 h2).trans (le_of_eq (by ring))) v h1 h2
    refine this.trans (le_of_eq ?_); norm_num; ring
  have s7 : ∀ v, 0 ≤ v → v ≤ u → |v - v ^ 3 / 6 + v ^ 5 / 120 - sin v| ≤ v ^ 7 / 5040 := by
    intro v h1 h2
    have := bound_step (f := fun v => v - v ^ 3 / 6 + v ^ 5 / 120 - sin v) (g := fun v => 1 - v ^ 2 / 2 + v ^ 4 / 24 - cos v) (c := 1 / 720) (b := u) 6
      (fun x _ _ => ((((hasDerivAt_id x).sub ((hasDerivAt_pow 3 x).div_const 6)).add ((hasDerivAt_pow 5 x).div_const 120)).sub (hasDerivAt_sin x)).congr_deriv (by push_cast; ring)) (by simp)
      (fun x h1 h2 => (c6 x h1 h2).trans (le_of_eq (by ring))) v h1 h2
    refine this.trans (le_of_eq ?_); norm_num; ring
  have c8 : ∀ v, 0 ≤ v → v ≤ u → |cos v - (1 - v ^ 2 / 2 + v ^ 4 / 24 - v ^ 6 / 720)| ≤ v ^ 8 / 40320 := by
    intro v h1 h2
    have := bound_step (f := fun v => cos v - (1 - v ^ 2 / 2 + v ^ 4 / 24 - v ^ 6 / 720)) (g := fun v => v - v ^ 3 / 6 + v ^ 5 / 120 - sin v) (c := 1 / 5040) (b := u) 7
      (fun x _ _ => ((hasDerivAt_cos x).sub (((((hasDerivAt_pow 2 x).div_const 2).const_sub 1).add ((hasDerivAt_pow 4 x).div_const 24)).sub
        ((hasDerivAt_pow 6 x).div_const 720))).congr_deriv (by push_cast; ring)) (by simp)
      (fun x h1 h2 => (s7 x h1 h2).trans (le_of_eq (by ring))) v h1 h2
    refine this.trans (le_of_eq ?_); norm_num; ring
  have s9 : ∀ v, 0 ≤ v → v ≤ u → |sin v - (v - v ^ 3 / 6 + v ^ 5 / 120 - v ^ 7 / 5040)| ≤ v ^ 9 / 362880 := by
    intro v h1 h2
    have := bound_step (f := fun v => sin v - (v - v ^ 3 / 6 + v ^ 5 / 120 - v ^ 7 / 5040)) (g := fun v => cos v - (1 - v ^ 2 / 2 + v ^ 4 / 24 - v ^ 6 / 720)) (c := 1 / 40320) (b := u) 8
      (fun x _ _ => ((hasDerivAt_sin x).sub ((((hasDerivAt_id x).sub ((hasDerivAt_pow 3 x).div_const 6)).add ((hasDerivAt_pow 5 x).div_const 120)).sub
        ((hasDerivAt_pow 7 x).div_const 5040))).congr_deriv (by push_cast; ring)) (by simp)
      (fun x h1 h2 => (c8 x h1 h2).trans (le_of_eq (by ring))) v h1 h2
    refine this.trans (le_of_eq ?_); norm_num; ring
  exact ⟨c8 u hu le_rfl, s9 u hu le_rfl⟩

/-! ## One clothoid -/

theorem clothoid_cos {f : ℝ → ℝ} {V q b : ℝ} (hV : 0 ≤ V) (hq : 0 ≤ q) (hb : 0 ≤ b) (hf : ∀ t, 0 ≤ t → t ≤ b → HasDerivAt f (V * cos (q * t ^ 2 / 2)) t) :
    |f b - f 0 - V * (b - q ^ 2 * b ^ 5 / 40 + q ^ 4 * b ^ 9 / 3456 - q ^ 6 * b ^ 13 / 599040)| ≤ V * q ^ 8 * b ^ 17 / 175472640 := by
  have := bound_step (f := fun t => f t - f 0 - V * (t - q ^ 2 * t ^ 5 / 40 + q ^ 4 * t ^ 9 / 3456 - q ^ 6 * t ^ 13 / 599040))
    (g := fun t => V * (cos (q * t ^ 2 / 2) - (1 - (q * t ^ 2 / 2) ^ 2 / 2 + (q * t ^ 2 / 2) ^ 4 / 24 - (q * t ^ 2 / 2) ^ 6 / 720)))
    (b := b) (c := V * q ^ 8 / 10321920) 16
    (fun t h1 h2 => (((hf t h1 h2).sub_const (f 0)).sub
      ((((((hasDerivAt_id t).sub (((hasDerivAt_pow 5 t).const_mul (q ^ 2)).div_const 40)).add (((hasDerivAt_pow 9 t).const_mul (q ^ 4)).div_const 3456)).sub
        (((hasDerivAt_pow 13 t).const_mul (q ^ 6)).div_const 599040))).const_mul V)).congr_deriv (by push_cast; ring)) (by simp)
    (fun t h1 h2 => by
      have hu : 0 ≤ q * t ^ 2 / 2 := by positivity
      rw [abs_mul, abs_of_nonneg hV]
      refine (mul_le_mul_of_nonneg_left (taylor _ hu).1 hV).trans (le_of_eq ?_)
      ring) b hb le_rfl
  refine this.trans (le_of_eq ?_)
  norm_num
  ring

theorem clothoid_sin {f : ℝ → ℝ} {V q b : ℝ} (hV : 0 ≤ V) (hq : 0 ≤ q) (hb : 0 ≤ b) (hf : ∀ t, 0 ≤ t → t ≤ b → HasDerivAt f (V * sin (q * t ^ 2 / 2)) t) :
    |f b - f 0 - V * (q * b ^ 3 / 6 - q ^ 3 * b ^ 7 / 336 + q ^ 5 * b ^ 11 / 42240 - q ^ 7 * b ^ 15 / 9676800)| ≤ V * q ^ 9 * b ^ 19 / 3530096640 := by
  have := bound_step (f := fun t => f t - f 0 - V * (q * t ^ 3 / 6 - q ^ 3 * t ^ 7 / 336 + q ^ 5 * t ^ 11 / 42240 - q ^ 7 * t ^ 15 / 9676800))
    (g := fun t => V * (sin (q * t ^ 2 / 2) - (q * t ^ 2 / 2 - (q * t ^ 2 / 2) ^ 3 / 6 + (q * t ^ 2 / 2) ^ 5 / 120 - (q * t ^ 2 / 2) ^ 7 / 5040)))
    (b := b) (c := V * q ^ 9 / 185794560) 18
    (fun t h1 h2 => (((hf t h1 h2).sub_const (f 0)).sub
      (((((((hasDerivAt_pow 3 t).const_mul q).div_const 6).sub (((hasDerivAt_pow 7 t).const_mul (q ^ 3)).div_const 336)).add
        (((hasDerivAt_pow 11 t).const_mul (q ^ 5)).div_const 42240)).sub (((hasDerivAt_pow 15 t).const_mul (q ^ 7)).div_const 9676800)).const_mul V)).congr_deriv
          (by push_cast; ring)) (by simp)
    (fun t h1 h2 => by
      have hu : 0 ≤ q * t ^ 2 / 2 := by positivity
      rw [abs_mul, abs_of_nonneg hV]
      refine (mul_le_mul_of_nonneg_left (taylor _ hu).2 hV).trans (le_of_eq ?_)
      ring) b hb le_rfl
  refine this.trans (le_of_eq ?_)
  norm_num
  ring

/-- The series of the code are those of the clothoid whose curvature grows by `1 / A²` per length. -/
theorem series_eq {V q b A : ℝ} (hV : V ≠ 0) (hA : A ^ 2 * q = V ^ 2) (hA0 : A ≠ 0) :
    seriesX (V * b) A = V * (b - q ^ 2 * b ^ 5 / 40 + q ^ 4 * b ^ 9 / 3456 - q ^ 6 * b ^ 13 / 599040) ∧
    seriesY (V * b) A = V * (q * b ^ 3 / 6 - q ^ 3 * b ^ 7 / 336 + q ^ 5 * b ^ 11 / 42240 - q ^ 7 * b ^ 15 / 9676800) := by
  have hq : q = V ^ 2 / A ^ 2 := by field_simp; linarith
  subst hq
  simp only [seriesX, seriesY]
  constructor <;> field_simp

/-! ## Up, constant, down -/

/-- A ride with the constant speed `V` that turns by `alpha`: its rate of turn grows with the acceleration `q` up to `w`, and comes back to zero at `T` in the same way. -/
structure CurveRide (V w q alpha T : ℝ) (x y h : ℝ → ℝ) : Prop where
  dx : ∀ t, 0 ≤ t → t ≤ T → HasDerivAt x (V * cos (h t)) t
  dy : ∀ t, 0 ≤ t → t ≤ T → HasDerivAt y (V * sin (h t)) t
  dh : ∀ t, 0 ≤ t → t ≤ T → HasDerivAt h (side alpha * min (q * t) (min w (q * (T - t)))) t

theorem side_sq (alpha : ℝ) : side alpha * side alpha = 1 := by simp only [side]; split <;> norm_num

theorem abs_side (alpha : ℝ) : |side alpha| = 1 := by simp only [side]; split <;> simp

theorem side_abs (alpha : ℝ) : side alpha * |alpha| = alpha := by
  simp only [side]
  split
  · rename_i h; rw [abs_of_neg h]; ring
  · rename_i h; rw [abs_of_nonneg (not_lt.1 h)]; ring

theorem cos_side (alpha u : ℝ) : cos (side alpha * u) = cos u := by
  simp only [side]
  split
  · rw [neg_one_mul, cos_neg]
  · rw [one_mul]

theorem sin_side (alpha u : ℝ) : sin (side alpha * u) = side alpha * sin u := by
  simp only [side]
  split
  · rw [neg_one_mul, sin_neg]; ring
  · rw [one_mul, one_mul]

theorem heading {V w q alpha T : ℝ} {x y h : ℝ → ℝ} (hw : 0 < w) (hq : 0 < q) (hT : T = |alpha| / w + w / q) (hth : w * (w / q) ≤ |alpha|)
    (r : CurveRide V w q alpha T x y h) :
    (∀ t, 0 ≤ t → t ≤ w / q → h t = h 0 + side alpha * (q * t ^ 2 / 2)) ∧
    (∀ t, w / q ≤ t → t ≤ T - w / q → HasDerivAt h (side alpha * w) t) ∧
    h (w / q) = h 0 + side alpha * (w * (w / q) / 2) ∧
    h (T - w / q) = h 0 + alpha - side alpha * (w * (w / q) / 2) ∧
    (∀ t, T - w / q ≤ t → t ≤ T → h t = h 0 + alpha - side alpha * (q * (T - t) ^ 2 / 2)) ∧ h T = h 0 + alpha := by
  have ht1 : 0 < w / q := div_pos hw hq
  have hqt : q * (w / q) = w := mul_div_cancel₀ _ hq.ne'
  have hle : w / q ≤ |alpha| / w := by rw [le_div_iff₀ hw]; linarith
  have hT2 : w / q ≤ T - w / q := by rw [hT]; linarith
  have hwT : w * (T - 2 * (w / q)) = |alpha| - w * (w / q) := by
    have : w * (|alpha| / w) = |alpha| := mul_div_cancel₀ _ hw.ne'
    rw [hT]; linear_combination this
  generalize w / q = b at *
  have p1 : ∀ t, 0 ≤ t → t ≤ b → h t = h 0 + side alpha * (q * t ^ 2 / 2) := by
    intro t h1 h2
    have := same_deriv (f := h) (g := fun t => side alpha * (q * t ^ 2 / 2)) (r := fun t => side alpha * (q * t)) (p := 0) (b := b)
      (fun t h1 h2 => (r.dh t h1 (by linarith)).congr_deriv (by
        have e1 : q * t ≤ w := by rw [← hqt]; exact mul_le_mul_of_nonneg_left h2 hq.le
        have e2 : q * t ≤ q * (T - t) := mul_le_mul_of_nonneg_left (by linarith) hq.le
        rw [min_eq_left (le_min e1 e2)]))
      (fun t _ _ => (((((hasDerivAt_pow 2 t).const_mul q).div_const 2)).const_mul (side alpha)).congr_deriv (by push_cast; ring)) t h1 h2
    linear_combination this
  have d2 : ∀ t, b ≤ t → t ≤ T - b → HasDerivAt h (side alpha * w) t := by
    intro t h1 h2
    refine (r.dh t (by linarith) (by linarith)).congr_deriv ?_
    have e1 : w ≤ q * t := by rw [← hqt]; exact mul_le_mul_of_nonneg_left h1 hq.le
    have e2 : w ≤ q * (T - t) := by rw [← hqt]; exact mul_le_mul_of_nonneg_left (by linarith) hq.le
    rw [min_eq_left e2, min_eq_right e1]
  have e1 : h b = h 0 + side alpha * (w * b / 2) := by
    rw [p1 b ht1.le le_rfl, ← hqt]; ring
  have e2 : h (T - b) = h 0 + alpha - side alpha * (w * b / 2) := by
    have := same_deriv (f := h) (g := fun t => side alpha * (w * t)) (r := fun _ => side alpha * w) (p := b) (b := T - b) d2
      (fun t _ _ => (((hasDerivAt_id t).const_mul w).const_mul (side alpha)).congr_deriv (by ring)) (T - b) hT2 le_rfl
    have hs := side_abs alpha
    linear_combination this + e1 + side alpha * hwT + hs
  have p3 : ∀ t, T - b ≤ t → t ≤ T → h t = h 0 + alpha - side alpha * (q * (T - t) ^ 2 / 2) := by
    intro t h1 h2
    have := same_deriv (f := h) (g := fun t => -(side alpha * (q * (T - t) ^ 2 / 2))) (r := fun t => side alpha * (q * (T - t))) (p := T - b) (b := T)
      (fun t h1 h2 => (r.dh t (by linarith) (by linarith)).congr_deriv (by
        have e1 : q * (T - t) ≤ w := by rw [← hqt]; exact mul_le_mul_of_nonneg_left (by linarith) hq.le
        have e2 : q * (T - t) ≤ q * t := mul_le_mul_of_nonneg_left (by linarith) hq.le
        rw [min_eq_right e1, min_eq_right e2]))
      (fun t _ _ => ((((((hasDerivAt_id t).const_sub T).pow 2).const_mul q).div_const 2).const_mul (side alpha)).neg.congr_deriv (by simp only [id]; push_cast; ring)) t h1 h2
    have e : q * (T - (T - b)) ^ 2 / 2 = w * b / 2 := by rw [← hqt]; ring
    linear_combination this + e2 + side alpha * e
  refine ⟨p1, d2, e1, e2, p3, ?_⟩
  rw [p3 T (by linarith) le_rfl]; ring

/-- Where such a ride ends, up to four small errors. -/
theorem ride_end {V w q alpha T : ℝ} {x y h : ℝ → ℝ} (hV : 0 < V) (hw : 0 < w) (hq : 0 < q) (hT : T = |alpha| / w + w / q) (hth : w * (w / q) ≤ |alpha|)
    (r : CurveRide V w q alpha T x y h) {X Y εx εy : ℝ}
    (hX : X = V * (w / q - q ^ 2 * (w / q) ^ 5 / 40 + q ^ 4 * (w / q) ^ 9 / 3456 - q ^ 6 * (w / q) ^ 13 / 599040))
    (hY : Y = V * (q * (w / q) ^ 3 / 6 - q ^ 3 * (w / q) ^ 7 / 336 + q ^ 5 * (w / q) ^ 11 / 42240 - q ^ 7 * (w / q) ^ 15 / 9676800))
    (hεx : εx = V * q ^ 8 * (w / q) ^ 17 / 175472640) (hεy : εy = V * q ^ 9 * (w / q) ^ 19 / 3530096640) :
    ∃ e1 e2 e3 e4 : ℝ, |e1| ≤ εx ∧ |e2| ≤ εy ∧ |e3| ≤ εx ∧ |e4| ≤ εy ∧
      x T - x 0 = (X + e1) * cos (h 0) - (side alpha * Y + e2) * sin (h 0) +
        side alpha * (V / w) * (sin (h 0 + alpha - side alpha * (w * (w / q) / 2)) - sin (h 0 + side alpha * (w * (w / q) / 2))) +
        (X + e3) * cos (h 0 + alpha) - (-side alpha * Y + e4) * sin (h 0 + alpha) ∧
      y T - y 0 = (X + e1) * sin (h 0) + (side alpha * Y + e2) * cos (h 0) -
        side alpha * (V / w) * (cos (h 0 + alpha - side alpha * (w * (w / q) / 2)) - cos (h 0 + side alpha * (w * (w / q) / 2))) +
        (X + e3) * sin (h 0 + alpha) + (-side alpha * Y + e4) * cos (h 0 + alpha) := by
  obtain ⟨p1, d2, v1, v2, p3, vT⟩ := heading hw hq hT hth r
  have ht1 : 0 < w / q := div_pos hw hq
  have hle : w / q ≤ |alpha| / w := by rw [le_div_iff₀ hw]; linarith
  have hT2 : w / q ≤ T - w / q := by rw [hT]; linarith
  generalize w / q = b at *
  generalize ha : h 0 = a at *
  generalize hσ : side alpha = σ at *
  have hσ2 : σ * σ = 1 := by rw [← hσ]; exact side_sq alpha
  have hcs : cos a * cos a + sin a * sin a = 1 := by have := Real.cos_sq_add_sin_sq a; nlinarith
  have hcs2 : cos (a + alpha) * cos (a + alpha) + sin (a + alpha) * sin (a + alpha) = 1 := by have := Real.cos_sq_add_sin_sq (a + alpha); nlinarith
  -- first clothoid
  have c1 := clothoid_cos (f := fun t => x t * cos a + y t * sin a) hV.le hq.le ht1.le (fun t h1 h2 => by
    refine (((r.dx t h1 (by linarith)).mul_const (cos a)).add ((r.dy t h1 (by linarith)).mul_const (sin a))).congr_deriv ?_
    rw [p1 t h1 h2]
    have : cos (q * t ^ 2 / 2) = cos ((a + σ * (q * t ^ 2 / 2)) - a) := by rw [add_sub_cancel_left, ← hσ, cos_side]
    rw [this, Real.cos_sub]; ring)
  have s1 := clothoid_sin (f := fun t => σ * (-(x t * sin a) + y t * cos a)) hV.le hq.le ht1.le (fun t h1 h2 => by
    refine ((((r.dx t h1 (by linarith)).mul_const (sin a)).neg.add ((r.dy t h1 (by linarith)).mul_const (cos a))).const_mul σ).congr_deriv ?_
    rw [p1 t h1 h2]
    have h3 : σ * sin (q * t ^ 2 / 2) = sin ((a + σ * (q * t ^ 2 / 2)) - a) := by rw [add_sub_cancel_left, ← hσ, sin_side]
    rw [Real.sin_sub] at h3
    linear_combination (-(σ * V)) * h3 + V * sin (q * t ^ 2 / 2) * hσ2)
  -- arc
  have hRw : V / w * w = V := div_mul_cancel₀ _ hw.ne'
  have ax := same_deriv (f := x) (g := fun t => σ * (V / w) * sin (h t)) (r := fun t => V * cos (h t)) (p := b) (b := T - b)
    (fun t h1 h2 => r.dx t (by linarith) (by linarith))
    (fun t h1 h2 => (((d2 t h1 h2).sin).const_mul (σ * (V / w))).congr_deriv (by linear_combination (σ * σ * cos (h t)) * hRw + V * cos (h t) * hσ2)) (T - b) hT2 le_rfl
  have ay := same_deriv (f := y) (g := fun t => -(σ * (V / w) * cos (h t))) (r := fun t => V * sin (h t)) (p := b) (b := T - b)
    (fun t h1 h2 => r.dy t (by linarith) (by linarith))
    (fun t h1 h2 => ((((d2 t h1 h2).cos).const_mul (σ * (V / w))).neg).congr_deriv (by linear_combination (σ * σ * sin (h t)) * hRw + V * sin (h t) * hσ2)) (T - b) hT2 le_rfl
  -- second clothoid, backwards
  have rx : ∀ t, 0 ≤ t → t ≤ b → HasDerivAt (fun t => x (T - t)) (-(V * cos (h (T - t)))) t := by
    intro t h1 h2
    exact ((r.dx (T - t) (by linarith) (by linarith)).comp t ((hasDerivAt_id t).const_sub T)).congr_deriv (by ring)
  have ry : ∀ t, 0 ≤ t → t ≤ b → HasDerivAt (fun t => y (T - t)) (-(V * sin (h (T - t)))) t := by
    intro t h1 h2
    exact ((r.dy (T - t) (by linarith) (by linarith)).comp t ((hasDerivAt_id t).const_sub T)).congr_deriv (by ring)
  have c3 := clothoid_cos (f := fun t => -(x (T - t) * cos (a + alpha) + y (T - t) * sin (a + alpha))) hV.le hq.le ht1.le (fun t h1 h2 => by
    refine (((rx t h1 h2).mul_const (cos (a + alpha))).add ((ry t h1 h2).mul_const (sin (a + alpha)))).neg.congr_deriv ?_
    rw [p3 (T - t) (by linarith) (by linarith)]
    have h3 : cos (q * t ^ 2 / 2) = cos ((a + alpha) - (a + alpha - σ * (q * (T - (T - t)) ^ 2 / 2))) := by
      rw [sub_sub_cancel, sub_sub_cancel, ← hσ, cos_side]
    rw [Real.cos_sub (a + alpha)] at h3
    linear_combination (-V) * h3)
  have s3 := clothoid_sin (f := fun t => σ * (-(x (T - t) * sin (a + alpha)) + y (T - t) * cos (a + alpha))) hV.le hq.le ht1.le (fun t h1 h2 => by
    refine ((((rx t h1 h2).mul_const (sin (a + alpha))).neg.add ((ry t h1 h2).mul_const (cos (a + alpha)))).const_mul σ).congr_deriv ?_
    rw [p3 (T - t) (by linarith) (by linarith)]
    have h3 : σ * sin (q * t ^ 2 / 2) = sin ((a + alpha) - (a + alpha - σ * (q * (T - (T - t)) ^ 2 / 2))) := by
      rw [sub_sub_cancel, sub_sub_cancel, ← hσ, sin_side]
    rw [Real.sin_sub (a + alpha)] at h3
    linear_combination (-(σ * V)) * h3 + V * sin (q * t ^ 2 / 2) * hσ2)
  simp only [sub_zero, sub_self] at c1 s1 c3 s3 ax ay
  rw [← hX, ← hεx] at c1 c3
  rw [← hY, ← hεy] at s1 s3
  rw [v1, v2] at ax ay
  have hσa : |σ| = 1 := by rw [← hσ]; exact abs_side alpha
  generalize h 0 = a' at *
  generalize sin (a + alpha - σ * (w * b / 2)) = k1 at *
  generalize sin (a + σ * (w * b / 2)) = k2 at *
  generalize cos (a + alpha - σ * (w * b / 2)) = k3 at *
  generalize cos (a + σ * (w * b / 2)) = k4 at *
  generalize cos (a + alpha) = cb at *
  generalize sin (a + alpha) = sb at *
  generalize cos a = ca at *
  generalize sin a = sa at *
  generalize x (T - b) = x2 at *
  generalize y (T - b) = y2 at *
  generalize V / w = R at *
  clear r p1 p3 d2 rx ry hX hY hεx hεy
  refine ⟨_, σ * (σ * (-(x b * sa) + y b * ca) - σ * (-(x 0 * sa) + y 0 * ca) - Y), _,
    -(σ * (σ * (-(x2 * sb) + y2 * cb) - σ * (-(x T * sb) + y T * cb) - Y)), c1, ?_, c3, ?_, ?_, ?_⟩
  · rw [abs_mul, hσa, one_mul]; exact s1
  · rw [abs_neg, abs_mul, hσa, one_mul]; exact s3
  · linear_combination ax + (-(x b - x 0)) * hcs - (x T - x2) * hcs2 + (sa * (-(x b - x 0) * sa + (y b - y 0) * ca) + sb * (-(x T - x2) * sb + (y T - y2) * cb)) * hσ2
  · linear_combination ay + (-(y b - y 0)) * hcs - (y T - y2) * hcs2 - (ca * (-(x b - x 0) * sa + (y b - y 0) * ca) + cb * (-(x T - x2) * sb + (y T - y2) * cb)) * hσ2

end Verif.Curves
