import Mathlib.Data.Real.Basic
import Mathlib.LinearAlgebra.Matrix.Defs
import Mathlib.Algebra.BigOperators.Group.Finset.Basic

/-!
# What a covariance is, independently of the filter
-/

namespace Verif.Ekf.Spec

/-- The variance of the position along the vector `v`, according to the covariance `C` -/
def variance [Fintype n] (C : Matrix n n ℝ) (v : n → ℝ) : ℝ := ∑ i, ∑ j, v i * C i j * v j

/-- A covariance is symmetric, and the variance along each vector is positive -/
structure Valid [Fintype n] (C : Matrix n n ℝ) : Prop where
  symm : ∀ i j, C i j = C j i
  pos : ∀ v, v ≠ 0 → 0 < variance C v

end Verif.Ekf.Spec
