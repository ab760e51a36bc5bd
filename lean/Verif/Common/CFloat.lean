import Mathlib.Data.Rat.Floor

/-!
# Floating-point values as far as the models need them

A C `float` is either finite, and then taken to be an exact rational (rounding is not modelled), or
one of the special values. The two zeros are not distinguished; a zero divisor is taken to be `+0`.
-/

namespace Verif

/-- A C floating-point value without rounding. -/
inductive CFloat where
  | fin (q : ℚ)
  | posInf
  | negInf
  | nan
deriving DecidableEq, Repr

namespace CFloat

/-- `a < b` (false if one of them is NaN). -/
def lt : CFloat → CFloat → Bool
  | fin a, fin b => decide (a < b)
  | fin _, posInf => true
  | negInf, fin _ => true
  | negInf, posInf => true
  | _, _ => false

/-- `a / b` for a finite non-special `a`. -/
def divFin (a : ℚ) : CFloat → CFloat
  | fin b => if b = 0 then (if a = 0 then nan else if 0 < a then posInf else negInf) else fin (a / b)
  | posInf => fin 0
  | negInf => fin 0
  | nan => nan

/-- Truncation towards zero, as in a C conversion to an integer type. -/
def trunc (q : ℚ) : Int := if 0 ≤ q then ⌊q⌋ else -⌊-q⌋

/-- `(int32_t)a`: undefined behaviour (`none`) for NaN, infinities and values out of range. -/
def toInt32 : CFloat → Option Int
  | fin q => if -2^31 ≤ trunc q ∧ trunc q < 2^31 then some (trunc q) else none
  | _ => none

/-- `(uint32_t)a`: undefined behaviour (`none`) for NaN, infinities and values out of range. -/
def toUInt32 : CFloat → Option Int
  | fin q => if 0 ≤ trunc q ∧ trunc q < 2^32 then some (trunc q) else none
  | _ => none

theorem trunc_nonneg {q : ℚ} (h : 0 ≤ q) : 0 ≤ trunc q := by
  rw [trunc, if_pos h]; exact Int.floor_nonneg.mpr h

theorem trunc_nonpos {q : ℚ} (h : q ≤ 0) : trunc q ≤ 0 := by
  unfold trunc
  split
  · have : q = 0 := le_antisymm h ‹_›
    simp [this]
  · have := Int.floor_nonneg.mpr (show (0:ℚ) ≤ -q by linarith)
    omega

theorem trunc_le_of_le {q : ℚ} {n : Int} (hn : 0 ≤ n) (h : q ≤ n) : trunc q ≤ n := by
  unfold trunc
  split
  · have := Int.floor_le q
    exact_mod_cast this.trans h
  · have := Int.floor_nonneg.mpr (show (0:ℚ) ≤ -q by linarith)
    omega

theorem trunc_neg (q : ℚ) : trunc (-q) = - trunc q := by
  unfold trunc
  rcases lt_trichotomy q 0 with h | h | h
  · rw [if_pos (by linarith), if_neg (by linarith)]; omega
  · simp [h]
  · rw [if_neg (by linarith), if_pos (by linarith), neg_neg]

theorem le_trunc_of_le {q : ℚ} {n : Int} (hn : n ≤ 0) (h : (n:ℚ) ≤ q) : n ≤ trunc q := by
  have := trunc_le_of_le (q := -q) (n := -n) (by omega) (by push_cast; linarith)
  rw [trunc_neg] at this
  omega

theorem trunc_lower {q : ℚ} (h : 0 ≤ q) : (trunc q : ℚ) ≤ q ∧ q < trunc q + 1 := by
  rw [trunc, if_pos h]; exact ⟨Int.floor_le q, Int.lt_floor_add_one q⟩

theorem trunc_upper {q : ℚ} (h : q ≤ 0) : q ≤ trunc q ∧ (trunc q : ℚ) - 1 < q := by
  have := trunc_lower (q := -q) (by linarith)
  rw [trunc_neg] at this
  push_cast at this
  constructor <;> linarith

theorem trunc_intCast (n : Int) : trunc n = n := by
  unfold trunc
  split
  · simp
  · rw [← Int.cast_neg, Int.floor_intCast]; omega

end CFloat

end Verif
