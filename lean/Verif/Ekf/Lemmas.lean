import Verif.Ekf.Model
import Verif.Ekf.Spec
import Mathlib.LinearAlgebra.Matrix.DotProduct
import Mathlib.Tactic.Linarith
import Mathlib.Tactic.Ring
import Mathlib.Tactic.FieldSimp
import Mathlib.Tactic.Positivity
import Mathlib.Tactic.LinearCombination

namespace Verif.Ekf

open Matrix Spec

variable {n : Type} [Fintype n] [DecidableEq n]

theorem variance_eq (C : Matrix n n ℝ) (v : n → ℝ) : variance C v = v ⬝ᵥ (C *ᵥ v) := by
  simp only [variance, dotProduct, mulVec, Finset.mul_sum]
  exact Finset.sum_congr rfl fun i _ => Finset.sum_congr rfl fun j _ => by ring

theorem dot_symm {C : Matrix n n ℝ} (h : ∀ i j, C i j = C j i) (u v : n → ℝ) : u ⬝ᵥ (C *ᵥ v) = v ⬝ᵥ (C *ᵥ u) := by
  have ht : Cᵀ = C := by ext i j; exact h j i
  rw [dotProduct_mulVec, ← mulVec_transpose, ht, dotProduct_comm]

/-- The covariance after a correction -/
noncomputable def corrected (C : Matrix n n ℝ) (H : n → ℝ) (S : ℝ) : Matrix n n ℝ := (1 - vecMulVec (S⁻¹ • (C *ᵥ H)) H) * C

theorem corrected_mulVec (C : Matrix n n ℝ) (H : n → ℝ) (S : ℝ) (v : n → ℝ) :
    corrected C H S *ᵥ v = C *ᵥ v - ((H ⬝ᵥ (C *ᵥ v)) * S⁻¹) • (C *ᵥ H) := by
  unfold corrected
  rw [← mulVec_mulVec, sub_mulVec, one_mulVec, vecMulVec_mulVec]
  congr 1
  ext i
  simp only [Pi.smul_apply, smul_eq_mul, MulOpposite.smul_eq_mul_unop, MulOpposite.unop_op]
  ring

theorem corrected_dot (C : Matrix n n ℝ) (H : n → ℝ) (S : ℝ) (u v : n → ℝ) :
    u ⬝ᵥ (corrected C H S *ᵥ v) = u ⬝ᵥ (C *ᵥ v) - (u ⬝ᵥ (C *ᵥ H)) * (H ⬝ᵥ (C *ᵥ v)) / S := by
  rw [corrected_mulVec, dotProduct_sub, dotProduct_smul, smul_eq_mul]
  ring

theorem corrected_symm {C : Matrix n n ℝ} (h : ∀ i j, C i j = C j i) (H : n → ℝ) (S : ℝ) (i j : n) :
    corrected C H S i j = corrected C H S j i := by
  have key : ∀ i j, corrected C H S i j = Pi.single i 1 ⬝ᵥ (corrected C H S *ᵥ Pi.single j 1) := fun i j => by
    rw [mulVec_single_one, single_dotProduct, one_mul]
    rfl
  rw [key, key, corrected_dot, corrected_dot, dot_symm h (Pi.single i 1) (Pi.single j 1), dot_symm h (Pi.single i 1) H, dot_symm h H (Pi.single j 1), mul_comm]

theorem pos_of_valid {C : Matrix n n ℝ} (h : Valid C) (v : n → ℝ) : 0 ≤ v ⬝ᵥ (C *ᵥ v) := by
  by_cases hv : v = 0
  · rw [hv, zero_dotProduct]
  · rw [← variance_eq]
    exact le_of_lt (h.pos v hv)

/-- Cauchy–Schwarz -/
theorem cauchy {C : Matrix n n ℝ} (h : Valid C) (u v : n → ℝ) : (u ⬝ᵥ (C *ᵥ v)) ^ 2 ≤ (u ⬝ᵥ (C *ᵥ u)) * (v ⬝ᵥ (C *ᵥ v)) := by
  by_cases hu : u = 0
  · rw [hu, zero_dotProduct, zero_dotProduct]; simp
  · have hs : 0 < u ⬝ᵥ (C *ᵥ u) := by rw [← variance_eq]; exact h.pos u hu
    have hp := pos_of_valid h ((u ⬝ᵥ (C *ᵥ u)) • v - (u ⬝ᵥ (C *ᵥ v)) • u)
    have e : ((u ⬝ᵥ (C *ᵥ u)) • v - (u ⬝ᵥ (C *ᵥ v)) • u) ⬝ᵥ (C *ᵥ ((u ⬝ᵥ (C *ᵥ u)) • v - (u ⬝ᵥ (C *ᵥ v)) • u))
        = (u ⬝ᵥ (C *ᵥ u)) * ((u ⬝ᵥ (C *ᵥ u)) * (v ⬝ᵥ (C *ᵥ v)) - (u ⬝ᵥ (C *ᵥ v)) ^ 2) := by
      rw [mulVec_sub, mulVec_smul, mulVec_smul, dotProduct_sub, sub_dotProduct, sub_dotProduct]
      simp only [smul_dotProduct, dotProduct_smul, smul_eq_mul]
      rw [dot_symm h.symm v u]
      ring
    rw [e] at hp
    have := nonneg_of_mul_nonneg_right hp hs
    linarith

theorem innovation_pos {C : Matrix n n ℝ} (h : Valid C) (H : n → ℝ) {Q : ℝ} (hQ : 0 < Q) : 0 < H ⬝ᵥ (C *ᵥ H) + Q := by
  have := pos_of_valid h H
  linarith

theorem corrected_valid {C : Matrix n n ℝ} (h : Valid C) (H : n → ℝ) {Q : ℝ} (hQ : 0 < Q) : Valid (corrected C H (H ⬝ᵥ (C *ᵥ H) + Q)) := by
  refine ⟨corrected_symm h.symm H _, fun v hv => ?_⟩
  have hS := innovation_pos h H hQ
  rw [variance_eq, corrected_dot, dot_symm h.symm v H, sub_pos, div_lt_iff₀ hS]
  have ha : 0 < v ⬝ᵥ (C *ᵥ v) := by rw [← variance_eq]; exact h.pos v hv
  have hc := cauchy h H v
  nlinarith

theorem corrected_le {C : Matrix n n ℝ} (h : Valid C) (H : n → ℝ) {Q : ℝ} (hQ : 0 < Q) (v : n → ℝ) :
    variance (corrected C H (H ⬝ᵥ (C *ᵥ H) + Q)) v ≤ variance C v := by
  have hS := innovation_pos h H hQ
  rw [variance_eq, variance_eq, corrected_dot, dot_symm h.symm v H]
  have : 0 ≤ (H ⬝ᵥ (C *ᵥ v)) * (H ⬝ᵥ (C *ᵥ v)) / (H ⬝ᵥ (C *ᵥ H) + Q) := div_nonneg (mul_self_nonneg _) (le_of_lt hS)
  linarith

/-- The correction for a valid covariance -/
theorem correct_eq {e : Est n} (hv : Valid e.cov) (h : (n → ℝ) → ℝ) (H : (n → ℝ) → (n → ℝ)) {Q : ℝ} (hQ : 0 < Q) (z : ℝ) :
    e.correct h H Q z = some ⟨e.mu + (z - h e.mu) • ((H e.mu ⬝ᵥ (e.cov *ᵥ H e.mu) + Q)⁻¹ • (e.cov *ᵥ H e.mu)), corrected e.cov (H e.mu) (H e.mu ⬝ᵥ (e.cov *ᵥ H e.mu) + Q)⟩ := by
  unfold Est.correct
  dsimp only
  rw [if_neg (ne_of_gt (innovation_pos hv (H e.mu) hQ))]
  rfl

theorem norm_sq (v : n → ℝ) : norm v ^ 2 = v ⬝ᵥ v := by
  unfold norm
  exact Real.sq_sqrt (by simp only [dotProduct]; exact Finset.sum_nonneg fun i _ => mul_self_nonneg _)

theorem norm_eq_zero {v : n → ℝ} : norm v = 0 ↔ v = 0 := by
  have h := norm_sq v
  constructor
  · intro h0
    rw [h0] at h
    rw [← dotProduct_self_eq_zero]
    linarith
  · rintro rfl
    simp [norm]

theorem direction_unit {anchor mu : Fin 3 → ℝ} (h : norm (mu - anchor) ≠ 0) : direction anchor mu ⬝ᵥ direction anchor mu = 1 := by
  unfold direction
  rw [smul_dotProduct, dotProduct_smul, smul_eq_mul, smul_eq_mul, ← norm_sq]
  field_simp

theorem wait_cov (e : Est (Fin 3)) (q : ℝ) : (e.wait q).cov = e.cov + q • 1 ∧ (e.wait q).mu = e.mu := by
  unfold Est.wait Est.predict
  simp

theorem wait_variance (e : Est (Fin 3)) (q : ℝ) (v : Fin 3 → ℝ) : variance (e.wait q).cov v = variance e.cov v + q * (v ⬝ᵥ v) := by
  rw [(wait_cov e q).1, variance_eq, variance_eq, add_mulVec, smul_mulVec, one_mulVec, dotProduct_add, dotProduct_smul, smul_eq_mul]

theorem measure_some {e e' : Est (Fin 3)} {a : Fin 3 → ℝ} {q z : ℝ} (hv : Valid e.cov) (hq : 0 < q) (h : e.measure a q z = some e') :
    norm (e.mu - a) ≠ 0 ∧
    e' = ⟨e.mu + (z - distance a e.mu) • ((direction a e.mu ⬝ᵥ (e.cov *ᵥ direction a e.mu) + q)⁻¹ • (e.cov *ᵥ direction a e.mu)),
      corrected e.cov (direction a e.mu) (direction a e.mu ⬝ᵥ (e.cov *ᵥ direction a e.mu) + q)⟩ := by
  unfold Est.measure at h
  by_cases hn : norm (e.mu - a) = 0
  · rw [if_pos hn] at h; cases h
  · rw [if_neg hn, correct_eq hv _ _ hq] at h
    exact ⟨hn, (Option.some.inj h).symm⟩

theorem wait_valid {e : Est (Fin 3)} (hv : Valid e.cov) {q : ℝ} (hq : 0 ≤ q) : Valid (e.wait q).cov := by
  constructor
  · intro i j
    rw [(wait_cov e q).1]
    simp only [Matrix.add_apply, Matrix.smul_apply]
    rw [hv.symm i j, Matrix.one_apply, Matrix.one_apply]
    by_cases h : i = j
    · rw [if_pos h, if_pos h.symm]
    · rw [if_neg h, if_neg (fun h' => h h'.symm)]
  · intro v hv0
    rw [wait_variance]
    have h1 := hv.pos v hv0
    have h2 : 0 ≤ v ⬝ᵥ v := by rw [← norm_sq]; exact sq_nonneg _
    have := mul_nonneg hq h2
    linarith

theorem one_valid : Valid (1 : Matrix (Fin 3) (Fin 3) ℝ) := by
  constructor
  · intro i j
    rw [Matrix.one_apply, Matrix.one_apply]
    by_cases h : i = j
    · rw [if_pos h, if_pos h.symm]
    · rw [if_neg h, if_neg (fun h' => h h'.symm)]
  · intro v hv
    rw [variance_eq, one_mulVec, ← norm_sq]
    have : norm v ≠ 0 := fun h => hv (norm_eq_zero.mp h)
    positivity

end Verif.Ekf
