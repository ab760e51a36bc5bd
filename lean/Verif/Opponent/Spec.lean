import Mathlib.Analysis.SpecialFunctions.Trigonometric.Basic

/-!
# What a rotating beam of light sees of a round reflector, independently of the code
-/

namespace Verif.Opponent.Spec

open Real

/-- The same angle: equal up to full turns -/
def SameAngle (a b : ℝ) : Prop := ∃ k : Int, a = b + k * (2 * π)

/-- The beam from `b` in the direction `φ` meets the disc with centre `c` and radius `r`. -/
def Hits (b c : ℝ × ℝ) (r φ : ℝ) : Prop := ∃ t : ℝ, 0 ≤ t ∧ (b.1 + t * cos φ - c.1) ^ 2 + (b.2 + t * sin φ - c.2) ^ 2 ≤ r ^ 2

/-- A turn of the beam, whose angle is counted from `zero`, was lit from `start` over `length`, and not elsewhere. -/
structure Signal (b c : ℝ × ℝ) (r zero start length : ℝ) : Prop where
  range : 0 ≤ length ∧ length < 2 * π
  lit : ∀ φ, Hits b c r φ ↔ ∃ k : Int, start ≤ φ - zero + k * (2 * π) ∧ φ - zero + k * (2 * π) ≤ start + length

end Verif.Opponent.Spec
