import Verif.Opponent.Spec
import Mathlib.Analysis.SpecialFunctions.Trigonometric.Inverse
import Mathlib.Algebra.Order.ToIntervalMod
import Mathlib.Tactic.Linarith
import Mathlib.Tactic.LinearCombination
import Mathlib.Tactic.Ring
import Mathlib.Tactic.FieldSimp
import Mathlib.Tactic.Positivity

namespace Verif.Opponent

open Real Spec

theorem hits_iff_cos {b : ℝ × ℝ} {d β r φ : ℝ} (hr : 0 < r) (hd : r < d) :
    Hits b (b.1 + d * cos β, b.2 + d * sin β) r φ ↔ 0 ≤ cos (φ - β) ∧ d * |sin (φ - β)| ≤ r := by
  have key : ∀ t, (b.1 + t * cos φ - (b.1 + d * cos β)) ^ 2 + (b.2 + t * sin φ - (b.2 + d * sin β)) ^ 2
      = (t - d * cos (φ - β)) ^ 2 + (d * sin (φ - β)) ^ 2 := by
    intro t
    have e := cos_sub φ β
    have f := sin_sq_add_cos_sq (φ - β)
    have g := sin_sq_add_cos_sq φ
    have h := sin_sq_add_cos_sq β
    linear_combination (2 * t * d) * e - d ^ 2 * f + t ^ 2 * g + d ^ 2 * h
  unfold Hits
  simp only [key]
  constructor
  · rintro ⟨t, ht, h⟩
    constructor
    · by_contra hc
      have hc := not_le.mp hc
      have f := sin_sq_add_cos_sq (φ - β)
      have : (t - d * cos (φ - β)) ^ 2 ≥ (d * cos (φ - β)) ^ 2 := by
        have : 0 ≤ t * (t - 2 * (d * cos (φ - β))) := by
          apply mul_nonneg ht
          have : d * cos (φ - β) ≤ 0 := mul_nonpos_of_nonneg_of_nonpos (by linarith) hc.le
          linarith
        nlinarith
      have : d ^ 2 ≤ r ^ 2 := by nlinarith
      nlinarith
    · have : (d * |sin (φ - β)|) ^ 2 ≤ r ^ 2 := by
        rw [mul_pow, sq_abs]
        nlinarith [sq_nonneg (t - d * cos (φ - β))]
      exact abs_le_of_sq_le_sq' this hr.le |>.2
  · rintro ⟨hc, hs⟩
    refine ⟨d * cos (φ - β), mul_nonneg (by linarith) hc, ?_⟩
    have h0 : 0 ≤ d * |sin (φ - β)| := mul_nonneg (by linarith) (abs_nonneg _)
    have : (d * |sin (φ - β)|) ^ 2 ≤ r ^ 2 := by nlinarith
    rw [mul_pow, sq_abs] at this
    linarith [show (d * cos (φ - β) - d * cos (φ - β)) ^ 2 = 0 by ring, mul_pow d (sin (φ - β)) 2]

/-- The directions in which the reflector is seen: an arc of the half width `arcsin (r / d)` around its direction -/
theorem hits_iff {b : ℝ × ℝ} {d β r φ : ℝ} (hr : 0 < r) (hd : r < d) :
    Hits b (b.1 + d * cos β, b.2 + d * sin β) r φ ↔ ∃ k : Int, |φ - β + k * (2 * π)| ≤ arcsin (r / d) := by
  have hd0 : 0 < d := by linarith
  have hq : 0 < r / d ∧ r / d < 1 := ⟨div_pos hr hd0, (div_lt_one hd0).mpr hd⟩
  have hα : sin (arcsin (r / d)) = r / d := sin_arcsin (by linarith [hq.1]) hq.2.le
  have hα0 : 0 < arcsin (r / d) := arcsin_pos.mpr hq.1
  have hα1 : arcsin (r / d) < π / 2 := arcsin_lt_pi_div_two.mpr hq.2
  rw [hits_iff_cos hr hd]
  have hs : ∀ x, d * |sin x| ≤ r ↔ |sin x| ≤ r / d := fun x => by rw [le_div_iff₀ hd0, mul_comm]
  rw [hs]
  constructor
  · rintro ⟨hc, hsn⟩
    obtain ⟨k, hk⟩ : ∃ k : Int, |φ - β + k * (2 * π)| ≤ π := by
      refine ⟨-⌊(φ - β + π) / (2 * π)⌋, ?_⟩
      have hp : (0 : ℝ) < 2 * π := by positivity
      have h1 := Int.floor_le ((φ - β + π) / (2 * π))
      have h2 := Int.lt_floor_add_one ((φ - β + π) / (2 * π))
      rw [le_div_iff₀ hp] at h1
      rw [div_lt_iff₀ hp] at h2
      rw [abs_le]
      push_cast
      constructor <;> nlinarith
    refine ⟨k, ?_⟩
    have ec : cos (φ - β + k * (2 * π)) = cos (φ - β) := cos_add_int_mul_two_pi _ _
    have es : sin (φ - β + k * (2 * π)) = sin (φ - β) := sin_add_int_mul_two_pi _ _
    rw [← ec] at hc
    rw [← es] at hsn
    generalize φ - β + k * (2 * π) = δ at *
    have hh : |δ| ≤ π / 2 := by
      by_contra hn
      have hn := not_le.mp hn
      have : cos |δ| < 0 := cos_neg_of_pi_div_two_lt_of_lt hn (by linarith [pi_pos])
      rw [cos_abs] at this
      linarith
    have hsa : sin |δ| ≤ sin (arcsin (r / d)) := by
      rw [hα]
      refine le_trans ?_ hsn
      rcases abs_choice δ with h | h
      · rw [h]; exact le_abs_self _
      · rw [h, sin_neg]; exact neg_le_abs _
    by_contra hn
    have hn := not_le.mp hn
    have := sin_lt_sin_of_lt_of_le_pi_div_two (by linarith) hh hn
    linarith
  · rintro ⟨k, hk⟩
    have ec : cos (φ - β + k * (2 * π)) = cos (φ - β) := cos_add_int_mul_two_pi _ _
    have es : sin (φ - β + k * (2 * π)) = sin (φ - β) := sin_add_int_mul_two_pi _ _
    rw [← ec, ← es]
    generalize φ - β + k * (2 * π) = δ at *
    obtain ⟨h1, h2⟩ := abs_le.mp hk
    refine ⟨cos_nonneg_of_mem_Icc ⟨by linarith, by linarith⟩, ?_⟩
    rw [abs_le, ← hα]
    constructor
    · rw [← sin_neg]
      exact sin_le_sin_of_le_of_le_pi_div_two (by linarith) (by linarith) h1
    · exact sin_le_sin_of_le_of_le_pi_div_two (by linarith) (by linarith) h2

/-- Two arcs, less than a full turn, with the same points are the same. -/
theorem arc_unique {s l s' l' : ℝ} (h : 0 ≤ l ∧ l < 2 * π) (h' : 0 ≤ l' ∧ l' < 2 * π)
    (he : ∀ x, (∃ k : Int, s ≤ x + k * (2 * π) ∧ x + k * (2 * π) ≤ s + l) ↔ ∃ k : Int, s' ≤ x + k * (2 * π) ∧ x + k * (2 * π) ≤ s' + l') :
    l = l' ∧ SameAngle s s' := by
  have hp := pi_pos
  obtain ⟨k, hk1, hk2⟩ := (he s).mp ⟨0, by push_cast; linarith, by push_cast; linarith [h.1]⟩
  -- no point of the arc just below the start
  have hs : s + k * (2 * π) = s' := by
    by_contra hne
    have hlt : s' < s + k * (2 * π) := lt_of_le_of_ne hk1 (Ne.symm hne)
    obtain ⟨ε, h0, h1, h2⟩ : ∃ ε, 0 < ε ∧ ε ≤ s + k * (2 * π) - s' ∧ ε < 2 * π - l :=
      ⟨min (s + k * (2 * π) - s') ((2 * π - l) / 2), lt_min (by linarith) (by linarith [h.2]), min_le_left _ _,
        lt_of_le_of_lt (min_le_right _ _) (by linarith [h.2])⟩
    obtain ⟨j, hj1, hj2⟩ := (he (s - ε)).mpr ⟨k, by linarith, by linarith⟩
    have : (1 : ℝ) ≤ j := by
      have : (0 : ℝ) < j * (2 * π) := by linarith
      have : (0 : ℝ) < j := by
        by_contra hn
        have := mul_nonpos_of_nonpos_of_nonneg (not_lt.mp hn) (by linarith : (0 : ℝ) ≤ 2 * π)
        linarith
      have : (0 : Int) < j := by exact_mod_cast this
      exact_mod_cast this
    have : 1 * (2 * π) ≤ (j : ℝ) * (2 * π) := mul_le_mul_of_nonneg_right this (by linarith)
    linarith
  refine ⟨?_, ⟨-k, by push_cast; linarith⟩⟩
  rcases lt_trichotomy l l' with hl | hl | hl
  · exfalso
    obtain ⟨ε, h0, h1, h2⟩ : ∃ ε, 0 < ε ∧ ε ≤ l' - l ∧ ε < 2 * π - l :=
      ⟨min (l' - l) ((2 * π - l) / 2), lt_min (by linarith) (by linarith [h.2]), min_le_left _ _,
        lt_of_le_of_lt (min_le_right _ _) (by linarith [h.2])⟩
    obtain ⟨j, hj1, hj2⟩ := (he (s + l + ε)).mpr ⟨k, by linarith, by linarith⟩
    have : (j : ℝ) ≤ -1 := by
      have : (j : ℝ) * (2 * π) < 0 := by linarith
      have : (j : ℝ) < 0 := by
        by_contra hn
        have := mul_nonneg (not_lt.mp hn) (by linarith : (0 : ℝ) ≤ 2 * π)
        linarith
      have : j < 0 := by exact_mod_cast this
      have : j ≤ -1 := by omega
      exact_mod_cast this
    have : (j : ℝ) * (2 * π) ≤ -1 * (2 * π) := mul_le_mul_of_nonneg_right this (by linarith)
    linarith
  · exact hl
  · exfalso
    obtain ⟨ε, h0, h1, h2⟩ : ∃ ε, 0 < ε ∧ ε ≤ l - l' ∧ ε < 2 * π - l' :=
      ⟨min (l - l') ((2 * π - l') / 2), lt_min (by linarith) (by linarith [h'.2]), min_le_left _ _,
        lt_of_le_of_lt (min_le_right _ _) (by linarith [h'.2])⟩
    obtain ⟨j, hj1, hj2⟩ := (he (s' + l' + ε)).mp ⟨-k, by push_cast; linarith, by push_cast; linarith⟩
    have : (j : ℝ) ≤ -1 := by
      have : (j : ℝ) * (2 * π) < 0 := by linarith
      have : (j : ℝ) < 0 := by
        by_contra hn
        have := mul_nonneg (not_lt.mp hn) (by linarith : (0 : ℝ) ≤ 2 * π)
        linarith
      have : j < 0 := by exact_mod_cast this
      have : j ≤ -1 := by omega
      exact_mod_cast this
    have : (j : ℝ) * (2 * π) ≤ -1 * (2 * π) := mul_le_mul_of_nonneg_right this (by linarith)
    linarith

/-- What the signal of a reflector is -/
theorem signal_eq {b : ℝ × ℝ} {d β r zero start length : ℝ} (hr : 0 < r) (hd : r < d)
    (h : Signal b (b.1 + d * cos β, b.2 + d * sin β) r zero start length) :
    length = 2 * arcsin (r / d) ∧ SameAngle start (β - zero - arcsin (r / d)) := by
  have hd0 : 0 < d := by linarith
  have hα0 : 0 < arcsin (r / d) := arcsin_pos.mpr (div_pos hr hd0)
  have hα1 : arcsin (r / d) < π / 2 := arcsin_lt_pi_div_two.mpr ((div_lt_one hd0).mpr hd)
  refine arc_unique (s' := β - zero - arcsin (r / d)) (l' := 2 * arcsin (r / d)) h.range ⟨by linarith, by linarith⟩ (fun x => ?_)
  have e := h.lit (x + zero)
  rw [show x + zero - zero = x by ring] at e
  rw [← e, hits_iff hr hd]
  constructor
  · rintro ⟨k, hk⟩
    obtain ⟨h1, h2⟩ := abs_le.mp hk
    exact ⟨k, by linarith, by linarith⟩
  · rintro ⟨k, h1, h2⟩
    exact ⟨k, abs_le.mpr ⟨by linarith, by linarith⟩⟩

end Verif.Opponent
