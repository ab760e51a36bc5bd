import Verif.Curves.Model
import Mathlib.Analysis.SpecialFunctions.Pow.Deriv
import Mathlib.Analysis.SpecialFunctions.Trigonometric.Deriv
import Mathlib.Analysis.Calculus.MeanValue
import Mathlib.Tactic.Linarith
import Mathlib.Tactic.Ring
import Mathlib.Tactic.FieldSimp
import Mathlib.Tactic.LinearCombination
import Mathlib.Tactic.Positivity

namespace Verif.Curves

open Real

theorem pi_pos' : 0 < π := Real.pi_pos

/-! ## Conversions -/

theorem toI32_spec {q : ℝ} {k : Int} (h : toI32 q = some k) : |(k : ℝ) - q| < 1 ∧ (0 ≤ q → 0 ≤ k ∧ (k : ℝ) ≤ q) ∧ (q ≤ 0 → k ≤ 0 ∧ q ≤ (k : ℝ)) := by
  simp only [toI32] at h
  by_cases h0 : 0 ≤ q
  · simp only [if_pos h0] at h
    split at h
    · injection h with h
      subst h
      have h1 := Int.floor_le q
      have h2 := Int.lt_floor_add_one q
      have h3 : 0 ≤ ⌊q⌋ := Int.floor_nonneg.mpr h0
      refine ⟨by rw [abs_lt]; constructor <;> linarith, fun _ => ⟨h3, h1⟩, fun h => ?_⟩
      have : q = 0 := le_antisymm h h0
      subst this
      simp
    · cases h
  · simp only [if_neg h0] at h
    split at h
    · injection h with h
      subst h
      have h0 : q < 0 := not_le.mp h0
      have h1 := Int.le_ceil q
      have h2 := Int.ceil_lt_add_one q
      have h3 : ⌈q⌉ ≤ 0 := Int.ceil_le.mpr (by simpa using h0.le)
      exact ⟨by rw [abs_lt]; constructor <;> linarith, fun h => absurd h (not_le.mpr h0), fun _ => ⟨h3, h1⟩⟩
    · cases h

theorem toI32_defined {q : ℝ} (hq : |q| ≤ 2 ^ 30 - 2) : ∃ k, toI32 q = some k ∧ |k| ≤ 2 ^ 30 - 1 := by
  have hq := abs_le.mp hq
  simp only [toI32]
  by_cases h0 : 0 ≤ q
  · simp only [if_pos h0]
    have f1 : 0 ≤ ⌊q⌋ := Int.floor_nonneg.mpr h0
    have f2 : ⌊q⌋ ≤ 2 ^ 30 - 2 := by
      have := (Int.floor_le q).trans hq.2
      exact_mod_cast this
    exact ⟨⌊q⌋, if_pos ⟨by omega, by omega⟩, by rw [abs_of_nonneg f1]; omega⟩
  · simp only [if_neg h0]
    have f1 : ⌈q⌉ ≤ 0 := Int.ceil_le.mpr (by push_cast; linarith)
    have f2 : -(2 ^ 30 - 2) ≤ ⌈q⌉ := by
      have := hq.1.trans (Int.le_ceil q)
      exact_mod_cast this
    exact ⟨⌈q⌉, if_pos ⟨by omega, by omega⟩, by rw [abs_of_nonpos f1]; omega⟩

theorem i32_defined {a b : Int} (h1 : |a| ≤ 2 ^ 30 - 1) (h2 : |b| ≤ 2 ^ 30) : i32 (a + b) = some (a + b) := by
  have h1 := abs_le.mp h1
  have h2 := abs_le.mp h2
  simp only [i32]
  exact if_pos ⟨by omega, by omega⟩

theorem i32_some {x y : Int} (h : i32 x = some y) : y = x := by
  simp only [i32] at h
  split at h
  · injection h with h; exact h.symm
  · cases h

/-! ## Angles -/

theorem simpleModulo_eq (a : ℝ) : ∃ n : ℤ, simpleModulo a = a + n * (2 * π) := by
  simp only [simpleModulo]
  split
  · exact ⟨1, by push_cast; ring⟩
  · split
    · exact ⟨-1, by push_cast; ring⟩
    · exact ⟨0, by push_cast; ring⟩

theorem simpleModulo_range {a : ℝ} (h1 : -(3 * π) ≤ a) (h2 : a ≤ 3 * π) : -π ≤ simpleModulo a ∧ simpleModulo a ≤ π := by
  have := Real.pi_pos
  simp only [simpleModulo]
  split
  · constructor <;> linarith
  · split
    · constructor <;> linarith
    · constructor <;> linarith

theorem cos_add_turns (a : ℝ) (n : ℤ) : cos (a + n * (2 * π)) = cos a := Real.cos_add_int_mul_two_pi a n
theorem sin_add_turns (a : ℝ) (n : ℤ) : sin (a + n * (2 * π)) = sin a := Real.sin_add_int_mul_two_pi a n

theorem cos_modulo (a : ℝ) : cos (simpleModulo a) = cos a := by
  obtain ⟨n, h⟩ := simpleModulo_eq a
  rw [h, cos_add_turns]

theorem sin_modulo (a : ℝ) : sin (simpleModulo a) = sin a := by
  obtain ⟨n, h⟩ := simpleModulo_eq a
  rw [h, sin_add_turns]

/-! ## Polar coordinates -/

theorem norm_eq (x y : ℝ) : ‖(⟨x, y⟩ : ℂ)‖ = sqrt (x * x + y * y) := by
  rw [Complex.norm_def, Complex.normSq_mk]

theorem polar_x (v : P) : (polar v).1 * cos (polar v).2 = v.x := by
  simp only [polar]
  rw [← norm_eq, Complex.norm_mul_cos_arg]

theorem polar_y (v : P) : (polar v).1 * sin (polar v).2 = v.y := by
  simp only [polar]
  rw [← norm_eq, Complex.norm_mul_sin_arg]

theorem polar_range (v : P) : -π < (polar v).2 ∧ (polar v).2 ≤ π := ⟨Complex.neg_pi_lt_arg _, Complex.arg_le_pi _⟩

theorem polar_nonneg (v : P) : 0 ≤ (polar v).1 := Real.sqrt_nonneg _

theorem polar_sq (v : P) : (polar v).1 * (polar v).1 = v.x * v.x + v.y * v.y :=
  Real.mul_self_sqrt (by nlinarith [mul_self_nonneg v.x, mul_self_nonneg v.y])

/-! ## The angle to the centre -/

theorem angleToCenter_range {theta a : ℝ} (h1 : -π < theta) (h2 : theta ≤ π) (h3 : -π ≤ a) (h4 : a ≤ π) :
    -π ≤ angleToCenter theta a ∧ angleToCenter theta a ≤ π := by
  have := Real.pi_pos
  obtain ⟨h5, h6⟩ := simpleModulo_range (a := theta - a) (by linarith) (by linarith)
  exact simpleModulo_range (by linarith) (by linarith)

theorem sin_angleToCenter (theta a : ℝ) : sin (angleToCenter theta a) = -cos (theta - a) := by
  simp only [angleToCenter]
  rw [sin_modulo, Real.sin_sub_pi_div_two, cos_modulo]

theorem cos_angleToCenter (theta a : ℝ) : cos (angleToCenter theta a) = sin (theta - a) := by
  simp only [angleToCenter]
  rw [cos_modulo, Real.cos_sub_pi_div_two, sin_modulo]

theorem clamp_pos {x : ℝ} : 0 < clamp x ↔ 0 < x := by
  simp only [clamp]
  split
  · split <;> constructor <;> intro <;> linarith
  · split
    · constructor <;> intro <;> linarith
    · rfl

theorem clamp_neg {x : ℝ} : clamp x < 0 ↔ x < 0 := by
  simp only [clamp]
  split
  · split <;> constructor <;> intro <;> linarith
  · split
    · constructor <;> intro <;> linarith
    · rfl

theorem clamp_zero : clamp 0 = 0 := by simp only [clamp]; norm_num

theorem clamp_range (x : ℝ) : -0.5 ≤ clamp x ∧ clamp x ≤ 0.5 := by
  simp only [clamp]
  by_cases h : x > 0.5
  · simp only [if_pos h]; norm_num
  · simp only [if_neg h]
    split
    · norm_num
    · constructor <;> linarith

theorem modulo_spec {a δ : ℝ} (h : modulo a = some δ) : -π ≤ δ ∧ δ ≤ π ∧ ∃ n : ℤ, δ = a + n * (2 * π) := by
  have hp := Real.pi_pos
  simp only [modulo, Option.bind_eq_bind, Option.bind_eq_some_iff, Option.some.injEq] at h
  obtain ⟨n, hn, hδ⟩ := h
  have h1 := abs_lt.mp (toI32_spec hn).1
  have e1 : a = a / (2 * π) * (2 * π) := by field_simp
  have r : -(3 * π) ≤ a - n * (2 * π) ∧ a - n * (2 * π) ≤ 3 * π := by
    rw [e1, ← sub_mul]
    constructor <;> nlinarith
  have hr := simpleModulo_range r.1 r.2
  obtain ⟨m, hm⟩ := simpleModulo_eq (a - n * (2 * π))
  rw [hδ] at hr hm
  exact ⟨hr.1, hr.2, m - n, by push_cast; rw [hm]; ring⟩

theorem consign_spec {t : Traj} {rob : Robot} {a : ℝ} {ca : Int} (h : t.angleConsign rob a = some ca) :
    |((ca - rob.ang : Int) : ℝ) - a * t.cfg.k * t.cfg.track / 2| < 1 := by
  simp only [Traj.angleConsign, Option.bind_eq_bind, Option.bind_eq_some_iff] at h
  obtain ⟨k, hk, h⟩ := h
  have h := i32_some h
  rw [show ca - rob.ang = k by omega]
  exact (toI32_spec hk).1

theorem turn_spec {t t' : Traj} {rob : Robot} {a : ℝ} (h : t.turn rob a = some t') :
    |((t'.consA - rob.ang : Int) : ℝ) - a * t.cfg.k * t.cfg.track / 2| < 1 ∧
      t'.consD = rob.dist ∧ t'.target = .pol t'.consD t'.consA ∧ t'.scheduled = false := by
  simp only [Traj.turn, Option.bind_eq_bind, Option.bind_eq_some_iff, Option.some.injEq] at h
  obtain ⟨ca, hca, rfl⟩ := h
  exact ⟨consign_spec hca, rfl, rfl, rfl⟩

end Verif.Curves
