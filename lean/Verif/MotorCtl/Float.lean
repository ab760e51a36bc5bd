import Verif.MotorCtl.Props
import Mathlib.Data.Set.Finite.Lemmas
import Mathlib.Data.Finite.Prod
import Mathlib.Data.Int.Interval
import Mathlib.Order.Interval.Set.Defs
import Mathlib.Order.Interval.Finset.Basic
/-!
# The command timeout computed in binary32

`Model.lean` takes the elapsed time and the 0.3 s timeout as exact numbers. The board computes
`(float)(int32_t)us / 1000000.f` (lib/timestamp/timestamp.c:8-11) and compares it with the
`float` nearest to 0.3 (control.c:20, 95, 435). Here the computation is done with the rounding of
IEEE 754 binary32, and the comparison is shown to have the same result as the exact one for every
elapsed time: the watchdog is exact to the microsecond.
-/
namespace Verif.MotorCtl

/-- The finite numbers of binary32: 24-bit significands, exponents -149 to 104 (subnormals
included). -/
def IsF32 (x : ℚ) : Prop := ∃ m e : Int, |m| < 2^24 ∧ -149 ≤ e ∧ e ≤ 104 ∧ x = m * (2 : ℚ) ^ e

/-- A rounding to nearest, ties broken in any way. Restricted to numbers in the finite range it
is what every conversion and division of the board's FPU does. -/
def Nearest (rnd : ℚ → ℚ) : Prop := ∀ x, IsF32 (rnd x) ∧ ∀ f, IsF32 f → |rnd x - x| ≤ |f - x|

/-- `timestamp_duration_s`, lib/timestamp/timestamp.c:8-11: conversion of the 32-bit difference to
`float`, then division by `1000000.f`, each rounded. -/
def durationF (rnd : ℚ → ℚ) (t1 t2 : BitVec 32) : ℚ :=
  rnd (rnd (Timestamp.durationUs t1 t2) / rnd 1000000)

/-- The loop body of control.c:433-454 with the comparison of line 435 done in binary32. -/
def loopF (rnd : ℚ → ℚ) (s : Ctrl) (batt cascade : ℚ) : Out :=
  let now := stampAt s.now
  if batt < s.lowBattTh ∨ durationF rnd s.last now > rnd (3/10) then
    ⟨0, true, setMotorVoltage 0 batt⟩
  else
    let u := if s.mode = .volt then s.volt else cascade
    ⟨u, false, setMotorVoltage u batt⟩

theorem Nearest.fix {rnd : ℚ → ℚ} (h : Nearest rnd) {x : ℚ} (hx : IsF32 x) : rnd x = x := by
  have := (h x).2 x hx
  simp only [sub_self, abs_zero] at this
  have := abs_nonpos_iff.mp this
  linarith

theorem Nearest.mono {rnd : ℚ → ℚ} (h : Nearest rnd) {x y : ℚ} (hxy : x ≤ y) : rnd x ≤ rnd y := by
  rcases hxy.lt_or_eq with hlt | rfl
  · by_contra hc
    have hc : rnd y < rnd x := not_le.mp hc
    have h1 := (h x).2 _ (h y).1
    have h2 := (h y).2 _ (h x).1
    rw [← sq_le_sq] at h1 h2
    nlinarith
  · exact le_rfl

theorem isF32_int (z : Int) (h : |z| < 2^24) : IsF32 z := ⟨z, 0, h, by decide, by decide, by simp⟩

/-- Two neighbouring `float`s lie strictly between 0.3 and 0.300001. -/
theorem isF32_a : IsF32 (10066330 / 33554432) :=
  ⟨10066330, -25, by decide, by decide, by decide, by norm_num⟩
theorem isF32_b : IsF32 (10066331 / 33554432) :=
  ⟨10066331, -25, by decide, by decide, by decide, by norm_num⟩

/-- C05: the comparison of the timeout done in binary32, with a rounding of the conversion, of the
quotient and of the constant, is the comparison of the exact number of microseconds with 300000,
for every 32-bit difference. -/
theorem timeout_float (rnd : ℚ → ℚ) (h : Nearest rnd) (t1 t2 : BitVec 32) :
    durationF rnd t1 t2 > rnd (3/10) ↔ Timestamp.durationUs t1 t2 > 300000 := by
  unfold durationF
  generalize Timestamp.durationUs t1 t2 = u
  have hm : rnd 1000000 = 1000000 := by
    have := h.fix (isF32_int 1000000 (by decide)); simpa using this
  have hk : rnd (300000 : ℚ) = 300000 := by
    have := h.fix (isF32_int 300000 (by decide)); simpa using this
  have hk1 : rnd (300001 : ℚ) = 300001 := by
    have := h.fix (isF32_int 300001 (by decide)); simpa using this
  rw [hm]
  constructor
  · intro hgt
    by_contra hle
    have hle : u ≤ 300000 := by omega
    have h1 : rnd (u : ℚ) ≤ 300000 := by
      rw [← hk]; exact h.mono (by exact_mod_cast hle)
    have h2 : rnd (rnd (u : ℚ) / 1000000) ≤ rnd (3/10) := h.mono (by
      rw [div_le_iff₀ (by norm_num)]; linarith)
    exact absurd hgt (not_lt.mpr h2)
  · intro hgt
    have hge : 300001 ≤ u := hgt
    have h1 : 300001 ≤ rnd (u : ℚ) := by
      rw [← hk1]; exact h.mono (by exact_mod_cast hge)
    have h2 : rnd (10066331 / 33554432) ≤ rnd (rnd (u : ℚ) / 1000000) := h.mono (by
      rw [le_div_iff₀ (by norm_num)]; linarith)
    have h3 : rnd (3/10) ≤ rnd (10066330 / 33554432) := h.mono (by norm_num)
    rw [h.fix isF32_b] at h2
    rw [h.fix isF32_a] at h3
    show rnd (3/10) < _
    linarith

/-- C05: the exact comparison of the model. -/
theorem timeout_exact (t1 t2 : BitVec 32) :
    Timestamp.durationS t1 t2 > ctrlTimeout ↔ Timestamp.durationUs t1 t2 > 300000 := by
  unfold Timestamp.durationS ctrlTimeout
  rw [gt_iff_lt, lt_div_iff₀ (by norm_num)]
  constructor
  · intro h
    have h' := lt_of_eq_of_lt (show ((300000 : Int) : ℚ) = 3 / 10 * 1000000 by norm_num) h
    exact Int.cast_lt.mp h'
  · intro h
    have : ((300000 : Int) : ℚ) < (Timestamp.durationUs t1 t2 : ℚ) := by exact_mod_cast h
    refine lt_of_eq_of_lt ?_ this
    norm_num

/-- C05: the loop with the timeout computed in binary32 is the loop of the model, in every state
and for every reading. All the theorems about `loop` hold for `loopF`. -/
theorem loopF_eq (rnd : ℚ → ℚ) (h : Nearest rnd) (s : Ctrl) (batt cascade : ℚ) :
    loopF rnd s batt cascade = loop s batt cascade := by
  unfold loopF loop
  simp only [timeout_float rnd h, timeout_exact]

theorem finite_f32 : {x | IsF32 x}.Finite := by
  have : {x | IsF32 x} ⊆ (fun p : Int × Int => (p.1 : ℚ) * (2 : ℚ) ^ p.2) ''
      ((Set.Icc (-2^24) (2^24)) ×ˢ (Set.Icc (-149) 104)) := by
    rintro x ⟨m, e, hm, h1, h2, rfl⟩
    have := abs_lt.mp hm
    exact ⟨(m, e), ⟨⟨by omega, by omega⟩, h1, h2⟩, rfl⟩
  exact Set.Finite.subset (((Set.finite_Icc _ _).prod (Set.finite_Icc _ _)).image _) this

/-- Roundings to nearest exist: the hypothesis of the theorems above can be met. -/
theorem nearest_exists : ∃ rnd, Nearest rnd := by
  have : ∀ x : ℚ, ∃ r, IsF32 r ∧ ∀ f, IsF32 f → |r - x| ≤ |f - x| := by
    intro x
    obtain ⟨r, hr, hmin⟩ := Set.exists_min_image {x | IsF32 x} (fun r => |r - x|) finite_f32
      ⟨0, by simpa using isF32_int 0 (by decide)⟩
    exact ⟨r, hr, hmin⟩
  choose rnd hr using this
  exact ⟨rnd, hr⟩

/-- A loop that ran 300001 us after a setpoint is cut, one that ran after 300000 us is not, whatever
the rounding. -/
example (rnd : ℚ → ℚ) (h : Nearest rnd) :
    (loopF rnd (run (initAt 0) [.stamp, .advance 300001]) 12 5).reset = true ∧
    (loopF rnd (run (initAt 0) [.stamp, .advance 300000]) 12 5).reset = false := by
  rw [loopF_eq rnd h, loopF_eq rnd h]
  constructor
  · rw [loop_cut_iff]; right; decide
  · rw [Bool.eq_false_iff, Ne, loop_cut_iff]
    simp only [threshold, sinceUpdate]
    norm_num

end Verif.MotorCtl
