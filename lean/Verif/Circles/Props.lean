import Verif.Circles.Model
import Mathlib.Tactic.Linarith
import Mathlib.Tactic.Ring
import Mathlib.Tactic.NormNum
import Mathlib.Tactic.FieldSimp
import Mathlib.Tactic.LinearCombination

/-! # Circles and plane vectors: what is proved (C94) -/

namespace Verif.Circles

/-! ## Specification -/

/-- The point is on the circle. -/
def On (p : Pt) (c : Circle) : Prop := (p.x - c.x) ^ 2 + (p.y - c.y) ^ 2 = c.r ^ 2

def Common (p : Pt) (c1 c2 : Circle) : Prop := On p c1 ∧ On p c2

/-- The centres are apart by `0.00005` at least in one direction. -/
def Apart (c1 c2 : Circle) : Prop := 0.00005 ≤ |c1.x - c2.x| ∨ 0.00005 ≤ |c1.y - c2.y|

/-- What the result should be: no point in common, or exactly the points returned. -/
def Correct (r : Res) (c1 c2 : Circle) : Prop :=
  match r with
  | .none => ∀ p, ¬ Common p c1 c2
  | .two p q => ∀ s, Common s c1 c2 ↔ s = p ∨ s = q
  | _ => False

/-! ## Intersection -/

/-- A quadratic equation and its solutions. -/
theorem quadratic {A B C x : ℝ} (hA : 0 < A) (hd : 0 ≤ B ^ 2 - 4 * A * C) :
    A * x ^ 2 - B * x + C = 0 ↔ x = (B - Real.sqrt (B ^ 2 - 4 * A * C)) / (2 * A) ∨
      x = (B + Real.sqrt (B ^ 2 - 4 * A * C)) / (2 * A) := by
  have hs := Real.mul_self_sqrt hd
  generalize Real.sqrt (B ^ 2 - 4 * A * C) = s at *
  rw [eq_div_iff (by positivity), eq_div_iff (by positivity)]
  constructor
  · intro h
    have : (x * (2 * A) - (B - s)) * (x * (2 * A) - (B + s)) = 0 := by linear_combination 4 * A * h - hs
    rcases mul_eq_zero.1 this with h | h
    · left; linarith
    · right; linarith
  · rintro (h | h)
    · have : 4 * A * (A * x ^ 2 - B * x + C) = 0 := by
        linear_combination hs + (x * (2 * A) - (B + s)) * h
      have := (mul_eq_zero.1 this).resolve_left (by positivity)
      exact this
    · have : 4 * A * (A * x ^ 2 - B * x + C) = 0 := by
        linear_combination hs + (x * (2 * A) - (B - s)) * h
      have := (mul_eq_zero.1 this).resolve_left (by positivity)
      exact this

theorem quadratic_none {A B C x : ℝ} (hA : 0 < A) (hd : B ^ 2 - 4 * A * C < 0) : A * x ^ 2 - B * x + C ≠ 0 := by
  intro h
  have : B ^ 2 - 4 * A * C = (2 * A * x - B) ^ 2 - 4 * A * (A * x ^ 2 - B * x + C) := by ring
  rw [h] at this
  nlinarith [sq_nonneg (2 * A * x - B)]

/-- Common points, relative to the first centre: on the radical line, and the equation for `x`. -/
theorem common_iff {c1 c2 : Circle} (hb : c2.y - c1.y ≠ 0) (x y : ℝ) :
    Common ⟨x + c1.x, y + c1.y⟩ c1 c2 ↔
      (let a := 2 * (c2.x - c1.x)
       let b := 2 * (c2.y - c1.y)
       let c := (c2.x - c1.x) ^ 2 + (c2.y - c1.y) ^ 2 - c2.r ^ 2 + c1.r ^ 2
       y = (c - a * x) / b ∧ (a ^ 2 + b ^ 2) * x ^ 2 - 2 * a * c * x + (c ^ 2 - b ^ 2 * c1.r ^ 2) = 0) := by
  unfold Common On
  simp only
  generalize hX : c2.x - c1.x = dx
  generalize hY : c2.y - c1.y = dy at *
  have e1 : x + c1.x - c2.x = x - dx := by rw [← hX]; ring
  have e2 : y + c1.y - c2.y = y - dy := by rw [← hY]; ring
  rw [e1, e2]
  have hb2 : (2 * dy) ≠ 0 := mul_ne_zero (by norm_num) hb
  rw [eq_div_iff hb2]
  constructor
  · rintro ⟨h1, h2⟩
    have hl : y * (2 * dy) = dx ^ 2 + dy ^ 2 - c2.r ^ 2 + c1.r ^ 2 - 2 * dx * x := by linear_combination h1 - h2
    refine ⟨hl, ?_⟩
    linear_combination (4 * dy ^ 2) * h1 - (y * (2 * dy) + (dx ^ 2 + dy ^ 2 - c2.r ^ 2 + c1.r ^ 2 - 2 * dx * x)) * hl
  · rintro ⟨hl, hq⟩
    have h1 : 4 * dy ^ 2 * (x ^ 2 + y ^ 2 - c1.r ^ 2) = 0 := by
      linear_combination hq + (y * (2 * dy) + (dx ^ 2 + dy ^ 2 - c2.r ^ 2 + c1.r ^ 2 - 2 * dx * x)) * hl
    have h1 := (mul_eq_zero.1 h1).resolve_left (by positivity)
    refine ⟨by linear_combination h1, by linear_combination h1 - hl⟩

theorem core_correct {c1 c2 : Circle} (h : 0.00005 ≤ |c1.y - c2.y|) : Correct (core c1 c2) c1 c2 := by
  have hb : c2.y - c1.y ≠ 0 := by
    intro e
    rw [abs_sub_comm, e, abs_zero] at h
    norm_num at h
  have key := fun x y => common_iff (c1 := c1) (c2 := c2) hb x y
  have cov : ∀ s : Pt, s = ⟨(s.x - c1.x) + c1.x, (s.y - c1.y) + c1.y⟩ := by intro s; simp
  simp only at key
  have hbb : ¬ |2 * (c2.y - c1.y)| < 0.0001 := by
    rw [abs_mul, abs_two, abs_sub_comm]
    intro hlt
    norm_num at h hlt
    linarith
  have hb0 : 2 * (c2.y - c1.y) ≠ 0 := mul_ne_zero (by norm_num) hb
  have hc' : (c2.x - c1.x) ^ 2 + (c2.y - c1.y) ^ 2 - c2.r ^ 2 + c1.r ^ 2 =
      sq (c2.x - c1.x) + sq (c2.y - c1.y) - sq c2.r + sq c1.r := by simp only [sq]; ring
  rw [hc'] at key
  show Correct (solve c1 c2.r (2 * (c2.x - c1.x)) (2 * (c2.y - c1.y))
    (sq (c2.x - c1.x) + sq (c2.y - c1.y) - sq c2.r + sq c1.r)) c1 c2
  generalize sq (c2.x - c1.x) + sq (c2.y - c1.y) - sq c2.r + sq c1.r = c at *
  generalize ha : 2 * (c2.x - c1.x) = a at *
  generalize hbe : 2 * (c2.y - c1.y) = b at *
  have hA : 0 < a ^ 2 + b ^ 2 := by positivity
  have hd : sq (2 * a * c) - 4 * (sq a + sq b) * (sq c - sq b * sq c1.r) =
      (2 * a * c) ^ 2 - 4 * (a ^ 2 + b ^ 2) * (c ^ 2 - b ^ 2 * c1.r ^ 2) := by simp only [sq]; ring
  have hab : sq a + sq b = a ^ 2 + b ^ 2 := by simp only [sq]; ring
  unfold solve
  simp only
  rw [hd, hab]
  by_cases hneg : (2 * a * c) ^ 2 - 4 * (a ^ 2 + b ^ 2) * (c ^ 2 - b ^ 2 * c1.r ^ 2) < 0
  · rw [if_pos hneg]
    intro s hs
    rw [cov s, key] at hs
    exact quadratic_none hA hneg hs.2
  · rw [if_neg hneg, if_neg hbb]
    intro s
    have hq := fun x => quadratic (x := x) hA (le_of_not_gt hneg)
    generalize Real.sqrt ((2 * a * c) ^ 2 - 4 * (a ^ 2 + b ^ 2) * (c ^ 2 - b ^ 2 * c1.r ^ 2)) = w at *
    have hk := key (s.x - c1.x) (s.y - c1.y)
    rw [← cov s, hq] at hk
    rw [hk]
    obtain ⟨sx, sy⟩ := s
    simp only [Pt.mk.injEq, ← sub_eq_iff_eq_add]
    constructor
    · rintro ⟨hy, hx | hx⟩
      · left; exact ⟨hx, by rw [hy, hx]⟩
      · right; exact ⟨hx, by rw [hy, hx]⟩
    · rintro (⟨hx, hy⟩ | ⟨hx, hy⟩)
      · exact ⟨by rw [hy, hx], Or.inl hx⟩
      · exact ⟨by rw [hy, hx], Or.inr hx⟩

theorem common_swap (p : Pt) (c1 c2 : Circle) : Common p.swap c1.swap c2.swap ↔ Common p c1 c2 := by
  simp only [Common, On, Pt.swap, Circle.swap]
  constructor
  · rintro ⟨h1, h2⟩; exact ⟨by linarith, by linarith⟩
  · rintro ⟨h1, h2⟩; exact ⟨by linarith, by linarith⟩

theorem swap_swap (p : Pt) : p.swap.swap = p := rfl

theorem correct_swap {r : Res} {c1 c2 : Circle} (h : Correct r c1.swap c2.swap) : Correct r.swap c1 c2 := by
  cases r with
  | none => intro p hp; exact h p.swap ((common_swap p c1 c2).2 hp)
  | one p => exact h
  | oneNan => exact h
  | two p q =>
    intro s
    rw [← common_swap, h s.swap]
    constructor
    · rintro (e | e)
      · left; rw [← e, swap_swap]
      · right; rw [← e, swap_swap]
    · rintro (e | e)
      · left; rw [e, swap_swap]
      · right; rw [e, swap_swap]

/-- C94, as far as it holds: for circles whose centres are apart, 0 is returned exactly when they do not meet, and otherwise 2,
with all common points. Missing: circles with nearly the same centre, and the result 1 for circles that touch. -/
theorem intersect_correct_partial {c1 c2 : Circle} (h : Apart c1 c2) : Correct (intersect c1 c2) c1 c2 := by
  unfold intersect
  by_cases hs : |c1.y - c2.y| < |c1.x - c2.x|
  · rw [if_pos hs]
    apply correct_swap
    apply core_correct
    show 0.00005 ≤ |c1.x - c2.x|
    rcases h with h | h
    · exact h
    · exact le_trans h hs.le
  · rw [if_neg hs]
    apply core_correct
    rcases h with h | h
    · exact le_trans h (le_of_not_gt hs)
    · exact h

/-- The result does not depend on the order of the axes. -/
theorem intersect_meets_iff {c1 c2 : Circle} (h : Apart c1 c2) :
    (∃ p q, intersect c1 c2 = .two p q) ↔ ∃ s, Common s c1 c2 := by
  have hc := intersect_correct_partial h
  cases e : intersect c1 c2 with
  | none =>
    rw [e] at hc
    exact ⟨(fun ⟨_, _, h⟩ => by cases h), fun ⟨s, hs⟩ => absurd hs (hc s)⟩
  | one p => rw [e] at hc; exact hc.elim
  | oneNan => rw [e] at hc; exact hc.elim
  | two p q =>
    rw [e] at hc
    exact ⟨fun _ => ⟨p, (hc p).2 (Or.inl rfl)⟩, fun _ => ⟨p, q, rfl⟩⟩

/-- Finding: circles that touch have one common point, but the result is 2; the documentation says 1. -/
theorem tangent_returns_two : ∃ p, intersect ⟨0, 0, 1⟩ ⟨0, 2, 1⟩ = .two p p := by
  have hap : Apart ⟨0, 0, 1⟩ ⟨0, 2, 1⟩ := by right; norm_num
  have hpt : ∀ s, Common s ⟨0, 0, 1⟩ ⟨0, 2, 1⟩ → s = ⟨0, 1⟩ := by
    rintro ⟨x, y⟩ ⟨h1, h2⟩
    simp only [On] at h1 h2
    have hy : y = 1 := by linarith
    subst hy
    have hx : x ^ 2 = 0 := by linarith
    rw [Pt.mk.injEq]
    exact ⟨by simpa using hx, rfl⟩
  obtain ⟨p, q, e⟩ := (intersect_meets_iff hap).2 ⟨⟨0, 1⟩, by simp only [Common, On]; norm_num⟩
  have hc := intersect_correct_partial hap
  rw [e] at hc
  have h1 := hpt p ((hc p).2 (Or.inl rfl))
  have h2 := hpt q ((hc q).2 (Or.inr rfl))
  exact ⟨p, by rw [e, h1, h2]⟩

/-- Finding: a circle and itself give 1, with NaN as point. -/
theorem same_circle_nan (c : Circle) : intersect c c = .oneNan := by
  unfold intersect
  rw [if_neg (by simp)]
  unfold core solve
  simp only [sub_self, mul_zero, sq]
  rw [if_neg (by norm_num), if_pos (by norm_num), if_pos trivial, if_pos (by ring)]

theorem solve_near {c1 : Circle} {r2 a b c : ℝ} (h1 : ¬ sq (2 * a * c) - 4 * (sq a + sq b) * (sq c - sq b * sq c1.r) < 0)
    (h2 : |b| < 0.0001) (h3 : a = 0) (h4 : 2 * c - sq a ≠ 0) : solve c1 r2 a b c = .none := by
  unfold solve
  simp only
  rw [if_neg h1, if_pos h2, if_pos h3, if_neg h4]

theorem solve_far {c1 : Circle} {r2 a b c : ℝ} (h : sq (2 * a * c) - 4 * (sq a + sq b) * (sq c - sq b * sq c1.r) < 0) :
    solve c1 r2 a b c = .none := by
  unfold solve
  simp only
  rw [if_pos h]

/-- Finding: two circles whose centres are close together are reported not to meet although they do. -/
theorem near_missed : ∃ c1 c2 : Circle, intersect c1 c2 = .none ∧ ∃ p, Common p c1 c2 := by
  refine ⟨⟨0, 0, 1⟩, ⟨0, 0.00002, 1⟩, ?_, ⟨Real.sqrt (1 - 0.00001 ^ 2), 0.00001⟩, ?_⟩
  · unfold intersect
    rw [if_neg (by norm_num)]
    apply solve_near
    · simp only [sq]; norm_num
    · rw [abs_of_pos] <;> norm_num
    · norm_num
    · simp only [sq]; norm_num
  · simp only [Common, On, sub_zero]
    rw [Real.sq_sqrt (by norm_num)]
    constructor <;> norm_num

/-- C94: inside means closer than the radius; the circle itself is outside. -/
theorem inside_iff (p : Pt) {c : Circle} (hr : 0 ≤ c.r) :
    inside p c = 1 ↔ Real.sqrt ((p.x - c.x) ^ 2 + (p.y - c.y) ^ 2) < c.r := by
  unfold inside
  rw [Real.sqrt_lt (by positivity) hr]
  simp only [← pow_two]
  by_cases h : (p.x - c.x) ^ 2 + (p.y - c.y) ^ 2 < c.r ^ 2
  · rw [if_pos h]; simp [h]
  · rw [if_neg h]; simp [h]

/-! ## Vectors -/

theorem norm_complex (x y : ℝ) : ‖(⟨x, y⟩ : ℂ)‖ = Real.sqrt (x * x + y * y) := by
  rw [Complex.norm_def, Complex.normSq_mk]

/-- C94: converting to polar coordinates and back is the identity. -/
theorem cart_pol_cart (v : Pt) : pol2cart (cart2pol v) = v := by
  obtain ⟨x, y⟩ := v
  have h1 := Complex.norm_mul_cos_arg (⟨x, y⟩ : ℂ)
  have h2 := Complex.norm_mul_sin_arg (⟨x, y⟩ : ℂ)
  rw [norm_complex] at h1 h2
  simp only [pol2cart, cart2pol, atan2, Pt.mk.injEq]
  exact ⟨h1, h2⟩

/-- C94: so is the other way round, for positive lengths and angles in `(-π, π]`. -/
theorem pol_cart_pol {v : Pol} (hr : 0 < v.r) (h1 : -Real.pi < v.theta) (h2 : v.theta ≤ Real.pi) : cart2pol (pol2cart v) = v := by
  obtain ⟨r, t⟩ := v
  simp only at hr h1 h2
  have hn : Real.sqrt (r * Real.cos t * (r * Real.cos t) + r * Real.sin t * (r * Real.sin t)) = r := by
    rw [show r * Real.cos t * (r * Real.cos t) + r * Real.sin t * (r * Real.sin t) = r * r by
      have := Real.sin_sq_add_cos_sq t
      linear_combination r ^ 2 * this]
    exact Real.sqrt_mul_self hr.le
  have ha : Complex.arg ⟨r * Real.cos t, r * Real.sin t⟩ = t := by
    have := Complex.arg_mul_cos_add_sin_mul_I hr ⟨h1, h2⟩
    have e : (⟨r * Real.cos t, r * Real.sin t⟩ : ℂ) = ↑r * (Complex.cos ↑t + Complex.sin ↑t * Complex.I) := by
      apply Complex.ext <;> simp [Complex.cos_ofReal_re, Complex.sin_ofReal_re, Complex.cos_ofReal_im, Complex.sin_ofReal_im]
    rw [e, this]
  simp only [cart2pol, pol2cart, atan2, hn, ha]

/-- C94: sums and differences of polar vectors are those of the vectors. -/
theorem addPol_spec (u v : Pol) : pol2cart (addPol u v) = ⟨(pol2cart u).x + (pol2cart v).x, (pol2cart u).y + (pol2cart v).y⟩ := cart_pol_cart _

theorem subPol_spec (u v : Pol) : pol2cart (subPol u v) = ⟨(pol2cart u).x - (pol2cart v).x, (pol2cart u).y - (pol2cart v).y⟩ := cart_pol_cart _

/-- C94: sums, differences and multiples are those of the plane, given by complex numbers. -/
theorem cart_complex (u v : Pt) (a : ℝ) : (⟨(addCart u v).x, (addCart u v).y⟩ : ℂ) = ⟨u.x, u.y⟩ + ⟨v.x, v.y⟩ ∧ (⟨(subCart u v).x, (subCart u v).y⟩ : ℂ) = ⟨u.x, u.y⟩ - ⟨v.x, v.y⟩ ∧
    (⟨(scaleCart u a).x, (scaleCart u a).y⟩ : ℂ) = a * ⟨u.x, u.y⟩ := by
  refine ⟨rfl, ?_, ?_⟩ <;> apply Complex.ext <;> simp [subCart, scaleCart]

/-- Finding: scaling a polar vector leaves its angle as it was in the result. It is right only if the result had the angle of
the vector. -/
theorem scalePol_theta (v : Pol) (alpha : ℝ) (old : Pol) : (scalePol v alpha old).theta = old.theta := rfl

theorem scalePol_spec (v : Pol) (alpha : ℝ) (old : Pol) (h : old.theta = v.theta) :
    pol2cart (scalePol v alpha old) = scaleCart (pol2cart v) alpha := by
  simp only [pol2cart, scalePol, scaleCart, h, Pt.mk.injEq]
  exact ⟨by ring, by ring⟩

theorem scalePol_wrong : ∃ (v old : Pol) (alpha : ℝ), pol2cart (scalePol v alpha old) ≠ scaleCart (pol2cart v) alpha := by
  refine ⟨⟨1, 0⟩, ⟨0, Real.pi⟩, 1, ?_⟩
  simp only [pol2cart, scalePol, scaleCart, ne_eq, Pt.mk.injEq, Real.cos_zero, Real.cos_pi]
  norm_num

/-- C94: the distance is that of Euclid: it is symmetric, zero exactly for equal vectors, and satisfies the triangle inequality. -/
theorem dist_symm (u v : Pt) : distCart u v = distCart v u := by
  unfold distCart normCart subCart
  congr 1
  ring

theorem dist_zero_iff (u v : Pt) : distCart u v = 0 ↔ u = v := by
  obtain ⟨a, b⟩ := u
  obtain ⟨c, d⟩ := v
  simp only [distCart, normCart, subCart, Pt.mk.injEq]
  rw [Real.sqrt_eq_zero (by nlinarith [mul_self_nonneg (a - c), mul_self_nonneg (b - d)])]
  constructor
  · intro h
    have h1 := mul_self_nonneg (a - c)
    have h2 := mul_self_nonneg (b - d)
    exact ⟨by have := mul_self_eq_zero.1 (show (a - c) * (a - c) = 0 by linarith); linarith,
      by have := mul_self_eq_zero.1 (show (b - d) * (b - d) = 0 by linarith); linarith⟩
  · rintro ⟨h1, h2⟩
    rw [h1, h2]; ring

theorem dist_triangle (u v w : Pt) : distCart u w ≤ distCart u v + distCart v w := by
  have h := norm_add_le (⟨u.x - v.x, u.y - v.y⟩ : ℂ) ⟨v.x - w.x, v.y - w.y⟩
  have e : (⟨u.x - v.x, u.y - v.y⟩ : ℂ) + ⟨v.x - w.x, v.y - w.y⟩ = ⟨u.x - w.x, u.y - w.y⟩ := by
    apply Complex.ext <;> simp
  rw [e, norm_complex, norm_complex, norm_complex] at h
  exact h

theorem dot_sq_le (u v : Pt) : |dotCart u v| ≤ normCart u * normCart v := by
  unfold dotCart normCart
  rw [← Real.sqrt_mul (by nlinarith [mul_self_nonneg u.x, mul_self_nonneg u.y])]
  apply Real.abs_le_sqrt
  nlinarith [sq_nonneg (u.x * v.y - u.y * v.x)]

/-- C94: the angle between two vectors is between 0 and `π`, and its cosine is that of the vectors; it is NaN exactly if one of
them is zero. -/
theorem angle2_spec {u v : Pt} {t : ℝ} (h : angle2 u v = some t) :
    0 ≤ t ∧ t ≤ Real.pi ∧ normCart u * normCart v * Real.cos t = dotCart u v := by
  unfold angle2 at h
  by_cases h0 : normCart u * normCart v = 0
  · rw [if_pos h0] at h; cases h
  · rw [if_neg h0] at h
    cases h
    have hp : 0 < normCart u * normCart v :=
      lt_of_le_of_ne (mul_nonneg (Real.sqrt_nonneg _) (Real.sqrt_nonneg _)) (Ne.symm h0)
    obtain ⟨h1, h2⟩ := abs_le.1 (dot_sq_le u v)
    refine ⟨Real.arccos_nonneg _, Real.arccos_le_pi _, ?_⟩
    rw [Real.cos_arccos]
    · exact mul_div_cancel₀ _ h0
    · rw [le_div_iff₀ hp]; linarith
    · rw [div_le_iff₀ hp]; linarith

theorem angle2_none_iff (u v : Pt) : angle2 u v = none ↔ u = ⟨0, 0⟩ ∨ v = ⟨0, 0⟩ := by
  have z : ∀ w : Pt, normCart w = 0 ↔ w = ⟨0, 0⟩ := by
    intro w
    have := dist_zero_iff w ⟨0, 0⟩
    simpa [distCart, subCart] using this
  unfold angle2
  by_cases h0 : normCart u * normCart v = 0
  · rw [if_pos h0]
    rw [mul_eq_zero, z, z] at h0
    simp [h0]
  · rw [if_neg h0]
    rw [mul_eq_zero, z, z] at h0
    simp [h0]

/-! ## Examples -/

/-- Two circles that cross, with a larger distance in `x`. -/
example : Apart ⟨1, 1, 5⟩ ⟨7, 1, 5⟩ ∧ Common ⟨4, 5⟩ ⟨1, 1, 5⟩ ⟨7, 1, 5⟩ ∧ Common ⟨4, -3⟩ ⟨1, 1, 5⟩ ⟨7, 1, 5⟩ := by
  refine ⟨Or.inl (by norm_num), ?_, ?_⟩ <;> simp only [Common, On] <;> norm_num

/-- Two circles that do not meet. -/
example : Apart ⟨0, 0, 1⟩ ⟨0, 10, 2⟩ ∧ intersect ⟨0, 0, 1⟩ ⟨0, 10, 2⟩ = .none := by
  refine ⟨Or.inr (by norm_num), ?_⟩
  unfold intersect
  rw [if_neg (by norm_num)]
  apply solve_far
  simp only [sq]
  norm_num

example : inside ⟨1, 1⟩ ⟨0, 0, 2⟩ = 1 ∧ inside ⟨0, 2⟩ ⟨0, 0, 2⟩ = 0 := by
  unfold inside
  constructor
  · simp only; rw [if_pos (by norm_num)]
  · simp only; rw [if_neg (by norm_num)]

example : ∃ t, angle2 ⟨1, 0⟩ ⟨0, 2⟩ = some t := by
  cases h : angle2 ⟨1, 0⟩ ⟨0, 2⟩ with
  | none => rw [angle2_none_iff] at h; norm_num at h
  | some t => exact ⟨t, rfl⟩

end Verif.Circles
