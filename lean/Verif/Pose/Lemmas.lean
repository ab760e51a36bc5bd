import Verif.Pose.Model
import Verif.Pose.Spec
import Mathlib.Analysis.Calculus.MeanValue
import Mathlib.Tactic.LinearCombination
import Mathlib.Tactic.FieldSimp

namespace Verif.Pose

open Spec

theorem eq_of_deriv {f g : ℝ → ℝ} {d : ℝ → ℝ} (hf : ∀ t, HasDerivAt f (d t) t) (hg : ∀ t, HasDerivAt g (d t) t) (h0 : f 0 = g 0) (t : ℝ) : f t = g t := by
  have h : ∀ t, HasDerivAt (fun s => f s - g s) 0 t := fun t => by
    have := (hf t).sub (hg t)
    rw [sub_self] at this
    exact this
  have hc := is_const_of_deriv_eq_zero (f := fun s => f s - g s) (fun t => (h t).differentiableAt) (fun t => (h t).deriv) t 0
  rw [h0, sub_self] at hc
  exact sub_eq_zero.mp hc

/-- The solution of the driving equations -/
theorem drive_solution {track l r x0 y0 a0 : ℝ} {X Y A : ℝ → ℝ} (h : Drive track l r x0 y0 a0 X Y A) :
    (∀ t, A t = a0 + (r - l) / track * t) ∧
    ((r - l) / track = 0 → ∀ t, X t = x0 + (l + r) / 2 * Real.cos a0 * t ∧ Y t = y0 + (l + r) / 2 * Real.sin a0 * t) ∧
    ((r - l) / track ≠ 0 → ∀ t, X t = x0 + (l + r) / 2 / ((r - l) / track) * (Real.sin (a0 + (r - l) / track * t) - Real.sin a0)
      ∧ Y t = y0 + (l + r) / 2 / ((r - l) / track) * (Real.cos a0 - Real.cos (a0 + (r - l) / track * t))) := by
  obtain ⟨hx0, hy0, ha0, hx, hy, ha⟩ := h
  revert hx hy ha
  generalize (r - l) / track = w
  generalize (l + r) / 2 = v
  intro hx hy ha
  have hlin : ∀ c k t : ℝ, HasDerivAt (fun t => c + k * t) k t := fun c k t => by
    have := ((hasDerivAt_id t).const_mul k).const_add c
    rw [mul_one] at this
    exact this
  have hA : ∀ t, A t = a0 + w * t := fun t =>
    eq_of_deriv ha (hlin a0 w) (by rw [ha0, mul_zero, add_zero]) t
  refine ⟨hA, fun hw t => ⟨?_, ?_⟩, fun hw t => ⟨?_, ?_⟩⟩
  · refine eq_of_deriv (g := fun t => x0 + v * Real.cos a0 * t) hx (fun t => ?_) (by simp [hx0]) t
    have := hlin x0 (v * Real.cos a0) t
    rw [hA, hw, zero_mul, add_zero]
    exact this
  · refine eq_of_deriv (g := fun t => y0 + v * Real.sin a0 * t) hy (fun t => ?_) (by simp [hy0]) t
    have := hlin y0 (v * Real.sin a0) t
    rw [hA, hw, zero_mul, add_zero]
    exact this
  · refine eq_of_deriv (g := fun t => x0 + v / w * (Real.sin (a0 + w * t) - Real.sin a0)) hx (fun t => ?_) (by simp [hx0]) t
    have h1 : HasDerivAt (fun t => Real.sin (a0 + w * t)) (Real.cos (a0 + w * t) * w) t := (hlin a0 w t).sin
    have h2 := ((h1.sub_const (Real.sin a0)).const_mul (v / w)).const_add x0
    rw [hA]
    have e : v * Real.cos (a0 + w * t) = v / w * (Real.cos (a0 + w * t) * w) := by
      rw [div_mul_eq_mul_div, eq_div_iff hw]
      ring
    rw [e]
    exact h2
  · refine eq_of_deriv (g := fun t => y0 + v / w * (Real.cos a0 - Real.cos (a0 + w * t))) hy (fun t => ?_) (by simp [hy0]) t
    have h1 : HasDerivAt (fun t => Real.cos (a0 + w * t)) (-Real.sin (a0 + w * t) * w) t := (hlin a0 w t).cos
    have h2 := ((h1.const_sub (Real.cos a0)).const_mul (v / w)).const_add y0
    rw [hA]
    have e : v * Real.sin (a0 + w * t) = v / w * (-(-Real.sin (a0 + w * t) * w)) := by
      rw [div_mul_eq_mul_div, eq_div_iff hw]
      ring
    rw [e]
    exact h2

/-- The driving equations have a solution -/
theorem drive_exists (track l r x0 y0 a0 : ℝ) : ∃ X Y A, Drive track l r x0 y0 a0 X Y A := by
  have hlin : ∀ c k t : ℝ, HasDerivAt (fun t => c + k * t) k t := fun c k t => by
    have := ((hasDerivAt_id t).const_mul k).const_add c
    rw [mul_one] at this
    exact this
  rcases eq_or_ne ((r - l) / track) 0 with hw | hw
  · refine ⟨fun t => x0 + (l + r) / 2 * Real.cos a0 * t, fun t => y0 + (l + r) / 2 * Real.sin a0 * t, fun t => a0 + 0 * t, ?_, ?_, ?_, ?_, ?_, ?_⟩
    · simp
    · simp
    · simp
    · intro t
      simp only [zero_mul, add_zero]
      exact hlin _ _ t
    · intro t
      simp only [zero_mul, add_zero]
      exact hlin _ _ t
    · intro t
      rw [hw]
      exact hlin _ _ t
  · generalize hv : (l + r) / 2 = v
    generalize hw' : (r - l) / track = w at hw
    refine ⟨fun t => x0 + v / w * (Real.sin (a0 + w * t) - Real.sin a0), fun t => y0 + v / w * (Real.cos a0 - Real.cos (a0 + w * t)), fun t => a0 + w * t, ?_, ?_, ?_, ?_, ?_, ?_⟩
    · simp
    · simp
    · simp
    · intro t
      have h1 : HasDerivAt (fun t => Real.sin (a0 + w * t)) (Real.cos (a0 + w * t) * w) t := (hlin a0 w t).sin
      have h2 := ((h1.sub_const (Real.sin a0)).const_mul (v / w)).const_add x0
      rw [hv]
      have e : v * Real.cos (a0 + w * t) = v / w * (Real.cos (a0 + w * t) * w) := by
        rw [div_mul_eq_mul_div, eq_div_iff hw]
        ring
      rw [e]
      exact h2
    · intro t
      have h1 : HasDerivAt (fun t => Real.cos (a0 + w * t)) (-Real.sin (a0 + w * t) * w) t := (hlin a0 w t).cos
      have h2 := ((h1.const_sub (Real.cos a0)).const_mul (v / w)).const_add y0
      rw [hv]
      have e : v * Real.sin (a0 + w * t) = v / w * (-(-Real.sin (a0 + w * t) * w)) := by
        rw [div_mul_eq_mul_div, eq_div_iff hw]
        ring
      rw [e]
      exact h2
    · intro t
      rw [hw']
      exact hlin _ _ t

theorem sameAngle_refl (a : ℝ) : SameAngle a a := ⟨0, by push_cast; ring⟩

theorem sameAngle_trans {a b c : ℝ} (h1 : SameAngle a b) (h2 : SameAngle b c) : SameAngle a c := by
  obtain ⟨k, hk⟩ := h1
  obtain ⟨m, hm⟩ := h2
  exact ⟨k + m, by push_cast; rw [hk, hm]; ring⟩

theorem sameAngle_symm {a b : ℝ} (h1 : SameAngle a b) : SameAngle b a := by
  obtain ⟨k, hk⟩ := h1
  exact ⟨-k, by push_cast; rw [hk]; ring⟩

theorem sameAngle_add {a b c d : ℝ} (h1 : SameAngle a b) (h2 : SameAngle c d) : SameAngle (a + c) (b + d) := by
  obtain ⟨k, hk⟩ := h1
  obtain ⟨m, hm⟩ := h2
  exact ⟨k + m, by push_cast; rw [hk, hm]; ring⟩

theorem sameAngle_cos {a b : ℝ} (h : SameAngle a b) : Real.cos a = Real.cos b := by
  obtain ⟨k, hk⟩ := h
  rw [hk, Real.cos_add_int_mul_two_pi]

theorem sameAngle_sin {a b : ℝ} (h : SameAngle a b) : Real.sin a = Real.sin b := by
  obtain ⟨k, hk⟩ := h
  rw [hk, Real.sin_add_int_mul_two_pi]

theorem wrap_same (a : ℝ) : SameAngle (wrap a) a := by
  unfold wrap
  split
  · exact ⟨1, by push_cast; ring⟩
  · split
    · exact ⟨-1, by push_cast; ring⟩
    · exact sameAngle_refl a

theorem i16_some {v : ℝ} {z : Int} (h : i16 v = some z) :
    (0 ≤ v → (z : ℝ) ≤ v ∧ v < z + 1) ∧ (v < 0 → (z : ℝ) - 1 < v ∧ v ≤ z) ∧ -32768 ≤ z ∧ z ≤ 32767 := by
  unfold i16 at h
  dsimp only at h
  by_cases hr : -32768 ≤ (if 0 ≤ v then ⌊v⌋ else -⌊-v⌋) ∧ (if 0 ≤ v then ⌊v⌋ else -⌊-v⌋) ≤ 32767
  case neg => rw [if_neg hr] at h; cases h
  case pos =>
    rw [if_pos hr] at h
    have e := Option.some.inj h
    rw [e] at hr
    refine ⟨fun hv => ?_, fun hv => ?_, hr.1, hr.2⟩
    · rw [if_pos hv] at e
      rw [← e]
      exact ⟨Int.floor_le v, Int.lt_floor_add_one v⟩
    · rw [if_neg (not_le.mpr hv)] at e
      rw [← e]
      push_cast
      have h1 := Int.floor_le (-v)
      have h2 := Int.lt_floor_add_one (-v)
      constructor <;> linarith

theorem i16_isSome (v : ℝ) : (i16 v).isSome ↔ -32769 < v ∧ v < 32768 := by
  unfold i16
  simp only
  by_cases hv : 0 ≤ v
  · rw [if_pos hv]
    have h1 := Int.floor_nonneg.mpr hv
    have h2 : ⌊v⌋ ≤ 32767 ↔ v < 32768 := by
      rw [show (32767 : Int) = 32768 - 1 from rfl, Int.le_sub_one_iff, Int.floor_lt]
      norm_num
    split
    · rename_i h
      simp only [Option.isSome_some, true_iff]
      exact ⟨by linarith, h2.mp h.2⟩
    · rename_i h
      simp only [Option.isSome_none, Bool.false_eq_true, false_iff, not_and]
      intro _ h4
      exact h ⟨by omega, h2.mpr h4⟩
  · rw [if_neg hv]
    have hv' := not_le.mp hv
    have h1 : 0 ≤ ⌊-v⌋ := Int.floor_nonneg.mpr (by linarith)
    have h2 : ⌊-v⌋ ≤ 32768 ↔ -32769 < v := by
      rw [show (32768 : Int) = 32769 - 1 from rfl, Int.le_sub_one_iff, Int.floor_lt]
      push_cast
      constructor <;> intro h <;> linarith
    split
    · rename_i h
      simp only [Option.isSome_some, true_iff]
      exact ⟨h2.mp (by omega), by linarith⟩
    · rename_i h
      simp only [Option.isSome_none, Bool.false_eq_true, false_iff, not_and]
      intro h4 _
      have := h2.mpr h4
      exact h ⟨by omega, by omega⟩

end Verif.Pose
