import Verif.Radio.Time
import Mathlib.Data.Rat.Floor
import Mathlib.Algebra.Order.Field.Rat
import Mathlib.Tactic.Linarith
import Mathlib.Tactic.Ring
import Mathlib.Tactic.FieldSimp
import Mathlib.Tactic.Positivity
import Mathlib.Tactic.NormNum

/-!
# The radio of the beacon: measurements with clocks that run at different rates (C113)

The counters of the anchor and the tag count `α` and `β` ticks in a unit of time. A frame leaves exactly when the counter of the sender has the value asked for; the time
of arrival is the value that the counter of the receiver has then, without fraction.
-/

namespace Verif.Radio

open Uwb

/-- The counter at a time: `rate` ticks per unit of time, `off` at time 0 -/
def Reads (rate off : ℚ) (c : Nat) (τ : ℚ) : Prop := (c : ℤ) = ⌊rate * τ + off⌋

/-- The time of flight in ticks of a clock whose rate is the harmonic mean of the two rates -/
def flight (α β T : ℚ) : ℚ := 2 * α * β / (α + β) * T

theorem flight_between {α β T : ℚ} (hα : 0 < α) (hβ : 0 < β) (hT : 0 ≤ T) : min α β * T ≤ flight α β T ∧ flight α β T ≤ max α β * T := by
  have hs : 0 < α + β := by linarith
  unfold flight
  constructor
  · refine mul_le_mul_of_nonneg_right ?_ hT
    rw [le_div_iff₀ hs]
    rcases le_total α β with h | h
    · rw [min_eq_left h]; nlinarith
    · rw [min_eq_right h]; nlinarith
  · refine mul_le_mul_of_nonneg_right ?_ hT
    rw [div_le_iff₀ hs]
    rcases le_total α β with h | h
    · rw [max_eq_right h]; nlinarith
    · rw [max_eq_left h]; nlinarith

/-- The quotient of the protocol with errors of the four durations -/
theorem quotient_error {r0 r1 p0 p1 R0 R1 P0 P1 lo hi h : ℚ} (hr0 : 0 ≤ r0) (hr1 : 0 ≤ r1) (hp0 : 0 ≤ p0) (hp1 : 0 ≤ p1)
    (l1 : 1 ≤ lo) (l2 : lo ≤ 2) (u1 : 0 ≤ hi) (u2 : hi ≤ 1)
    (e0 : r0 - lo ≤ R0 ∧ R0 ≤ r0) (e1 : r1 - lo ≤ R1 ∧ R1 ≤ r1) (f0 : p0 - hi ≤ P0 ∧ P0 ≤ p0 + 1) (f1 : p1 - hi ≤ P1 ∧ P1 ≤ p1 + 1)
    (hn : r0 * r1 - p0 * p1 = h * (r0 + r1 + p0 + p1)) (h0 : 0 ≤ h) (hh : h ≤ 2 ^ 19) (hS : 2 ^ 26 ≤ R0 + R1 + P0 + P1) :
    (h - lo - 1 / 20) * (R0 + R1 + P0 + P1) ≤ R0 * R1 - P0 * P1 ∧ R0 * R1 - P0 * P1 ≤ (h + hi + 1 / 20) * (R0 + R1 + P0 + P1) := by
  obtain ⟨a0, b0⟩ := e0
  obtain ⟨a1, b1⟩ := e1
  obtain ⟨c0, d0⟩ := f0
  obtain ⟨c1, d1⟩ := f1
  -- the errors
  obtain ⟨x0, rfl⟩ : ∃ x, R0 = r0 + x := ⟨R0 - r0, by ring⟩
  obtain ⟨x1, rfl⟩ : ∃ x, R1 = r1 + x := ⟨R1 - r1, by ring⟩
  obtain ⟨y0, rfl⟩ : ∃ x, P0 = p0 + x := ⟨P0 - p0, by ring⟩
  obtain ⟨y1, rfl⟩ : ∃ x, P1 = p1 + x := ⟨P1 - p1, by ring⟩
  have x0l : -lo ≤ x0 := by linarith
  have x1l : -lo ≤ x1 := by linarith
  have x0u : x0 ≤ 0 := by linarith
  have x1u : x1 ≤ 0 := by linarith
  have y0l : -hi ≤ y0 := by linarith
  have y1l : -hi ≤ y1 := by linarith
  have y0u : y0 ≤ 1 := by linarith
  have y1u : y1 ≤ 1 := by linarith
  have q1 : -lo * r1 ≤ x0 * r1 := mul_le_mul_of_nonneg_right x0l hr1
  have q2 : -lo * r0 ≤ x1 * r0 := mul_le_mul_of_nonneg_right x1l hr0
  have q3 : x0 * r1 ≤ 0 := mul_nonpos_of_nonpos_of_nonneg x0u hr1
  have q4 : x1 * r0 ≤ 0 := mul_nonpos_of_nonpos_of_nonneg x1u hr0
  have q5 : y0 * p1 ≤ 1 * p1 := mul_le_mul_of_nonneg_right y0u hp1
  have q6 : y1 * p0 ≤ 1 * p0 := mul_le_mul_of_nonneg_right y1u hp0
  have q7 : -hi * p1 ≤ y0 * p1 := mul_le_mul_of_nonneg_right y0l hp1
  have q8 : -hi * p0 ≤ y1 * p0 := mul_le_mul_of_nonneg_right y1l hp0
  have z1 : 0 ≤ x0 * x1 := mul_nonneg_of_nonpos_of_nonpos x0u x1u
  have z2 : x0 * x1 ≤ 4 := by
    have : x0 * x1 ≤ x0 * (-2) := mul_le_mul_of_nonpos_left (by linarith) x0u
    linarith
  have z3 : |y0 * y1| ≤ 1 := by
    rw [abs_mul]
    exact mul_le_one₀ (abs_le.mpr ⟨by linarith, y0u⟩) (abs_nonneg _) (abs_le.mpr ⟨by linarith, y1u⟩)
  obtain ⟨z4, z5⟩ := abs_le.mp z3
  have w1 : 0 ≤ (lo - 1) * p1 := mul_nonneg (by linarith) hp1
  have w2 : 0 ≤ (lo - 1) * p0 := mul_nonneg (by linarith) hp0
  have w3 : 0 ≤ hi * r0 := mul_nonneg u1 hr0
  have w4 : 0 ≤ hi * r1 := mul_nonneg u1 hr1
  have v1 : h * (x0 + x1 + y0 + y1) ≤ h * 2 := mul_le_mul_of_nonneg_left (by linarith) h0
  have v2 : h * (-6) ≤ h * (x0 + x1 + y0 + y1) := mul_le_mul_of_nonneg_left (by linarith) h0
  have t2 : lo * (-6) ≤ lo * (x0 + x1 + y0 + y1) := mul_le_mul_of_nonneg_left (by linarith) (by linarith)
  have t3 : hi * (-6) ≤ hi * (x0 + x1 + y0 + y1) := mul_le_mul_of_nonneg_left (by linarith) u1
  constructor
  · linarith
  · linarith

/-- What the durations are, with `W = 0` if no counter wraps and `W = 1` otherwise -/
theorem propagation_rates {α β oA oB T τ1 τ2 τ3 : ℚ} {a1 b1 b2 a2 a3 b3 W : Nat} (hα : 0 < α) (hβ : 0 < β) (k1 : α ≤ 2 * β) (k2 : β ≤ 2 * α) (hT : 0 < T)
    (h1 : α * τ1 + oA = a1) (h2 : Reads β oB b1 (τ1 + T)) (h3 : β * τ2 + oB = b2) (h4 : Reads α oA a2 (τ2 + T)) (h5 : α * τ3 + oA = a3)
    (h6 : Reads β oB b3 (τ3 + T)) (d1 : b1 + 52428034 ≤ b2 ∧ b2 ≤ b1 + 52428800) (d2 : a2 + 52428034 ≤ a3 ∧ a3 ≤ a2 + 52428800)
    (m1 : 4 ≤ flight α β T) (m2 : flight α β T ≤ 2 ^ 19)
    (hW : W = 1 ∨ W = 0 ∧ a3 / 2 ^ 40 = a1 / 2 ^ 40 ∧ b3 / 2 ^ 40 = b1 / 2 ^ 40) :
    ∃ t : Nat, propagation (a1 % 2 ^ 40) (b1 % 2 ^ 40) (b2 % 2 ^ 40) (a2 % 2 ^ 40) (a3 % 2 ^ 40) (b3 % 2 ^ 40) = .ok t ∧
      flight α β T - 2 - W - 1 / 20 < t ∧ (t : ℚ) ≤ flight α β T + W + 1 / 20 := by
  have hs : 0 < α + β := by linarith
  -- the true durations
  obtain ⟨D1, hD1⟩ : ∃ D, τ2 = τ1 + T + D := ⟨τ2 - τ1 - T, by ring⟩
  obtain ⟨D2, hD2⟩ : ∃ D, τ3 = τ2 + T + D := ⟨τ3 - τ2 - T, by ring⟩
  have hn : (α * (2 * T + D1)) * (β * (2 * T + D2)) - (β * D1) * (α * D2) =
      flight α β T * (α * (2 * T + D1) + β * (2 * T + D2) + β * D1 + α * D2) := by
    unfold flight; field_simp; ring
  have hαT : 2 * (α * T) ≤ 3 * flight α β T := by
    unfold flight
    rw [div_mul_eq_mul_div, mul_div_assoc', le_div_iff₀ hs]
    have : 0 ≤ α * T * (2 * β - α) := mul_nonneg (mul_pos hα hT).le (by linarith)
    have : 0 < α * T * β := mul_pos (mul_pos hα hT) hβ
    nlinarith
  have hβT : 2 * (β * T) ≤ 3 * flight α β T := by
    unfold flight
    rw [div_mul_eq_mul_div, mul_div_assoc', le_div_iff₀ hs]
    have : 0 ≤ β * T * (2 * α - β) := mul_nonneg (mul_pos hβ hT).le (by linarith)
    have : 0 < β * T * α := mul_pos (mul_pos hβ hT) hα
    nlinarith
  generalize flight α β T = h at *
  -- what the counters say
  unfold Reads at h2 h4 h6
  have g1 : (b1 : ℚ) ≤ β * (τ1 + T) + oB ∧ β * (τ1 + T) + oB < b1 + 1 := by
    have l := Int.floor_le (β * (τ1 + T) + oB); have u := Int.lt_floor_add_one (β * (τ1 + T) + oB)
    rw [← h2] at l u; exact ⟨by exact_mod_cast l, by exact_mod_cast u⟩
  have g2 : (a2 : ℚ) ≤ α * (τ2 + T) + oA ∧ α * (τ2 + T) + oA < a2 + 1 := by
    have l := Int.floor_le (α * (τ2 + T) + oA); have u := Int.lt_floor_add_one (α * (τ2 + T) + oA)
    rw [← h4] at l u; exact ⟨by exact_mod_cast l, by exact_mod_cast u⟩
  have g3 : (b3 : ℚ) ≤ β * (τ3 + T) + oB ∧ β * (τ3 + T) + oB < b3 + 1 := by
    have l := Int.floor_le (β * (τ3 + T) + oB); have u := Int.lt_floor_add_one (β * (τ3 + T) + oB)
    rw [← h6] at l u; exact ⟨by exact_mod_cast l, by exact_mod_cast u⟩
  have q1 : ((b1 + 52428034 : Nat) : ℚ) ≤ b2 := Nat.cast_le.mpr d1.1
  have q2 : (b2 : ℚ) ≤ ((b1 + 52428800 : Nat) : ℚ) := Nat.cast_le.mpr d1.2
  have q3 : ((a2 + 52428034 : Nat) : ℚ) ≤ a3 := Nat.cast_le.mpr d2.1
  have q4 : (a3 : ℚ) ≤ ((a2 + 52428800 : Nat) : ℚ) := Nat.cast_le.mpr d2.2
  push_cast at q1 q2 q3 q4
  -- durations and differences
  have E0 : α * (2 * T + D1) - 1 < (a2 : ℚ) - a1 ∧ (a2 : ℚ) - a1 ≤ α * (2 * T + D1) := by
    rw [← h1, show α * (2 * T + D1) = α * (τ2 + T) - α * τ1 by rw [hD1]; ring]
    constructor <;> linarith [g2.1, g2.2]
  have E1 : β * (2 * T + D2) - 1 < (b3 : ℚ) - b2 ∧ (b3 : ℚ) - b2 ≤ β * (2 * T + D2) := by
    rw [← h3, show β * (2 * T + D2) = β * (τ3 + T) - β * τ2 by rw [hD2]; ring]
    constructor <;> linarith [g3.1, g3.2]
  have F0 : β * D1 ≤ (b2 : ℚ) - b1 ∧ (b2 : ℚ) - b1 < β * D1 + 1 := by
    rw [← h3, show β * D1 = β * τ2 - β * (τ1 + T) by rw [hD1]; ring]
    constructor <;> linarith [g1.1, g1.2]
  have F1 : α * D2 ≤ (a3 : ℚ) - a2 ∧ (a3 : ℚ) - a2 < α * D2 + 1 := by
    rw [← h5, show α * D2 = α * τ3 - α * (τ2 + T) by rw [hD2]; ring]
    constructor <;> linarith [g2.1, g2.2]
  have D1pos : 0 < D1 := by
    by_contra hc
    have : β * D1 ≤ 0 := mul_nonpos_of_nonneg_of_nonpos hβ.le (not_lt.mp hc)
    linarith [F0.2]
  have D2pos : 0 < D2 := by
    by_contra hc
    have : α * D2 ≤ 0 := mul_nonpos_of_nonneg_of_nonpos hα.le (not_lt.mp hc)
    linarith [F1.2]
  have B0 : α * (2 * T + D1) ≤ 2 ^ 27 - 1 := by
    have : α * D1 ≤ 2 * β * D1 := mul_le_mul_of_nonneg_right k1 D1pos.le
    linarith [F0.1]
  have B1 : β * (2 * T + D2) ≤ 2 ^ 27 - 1 := by
    have : β * D2 ≤ 2 * α * D2 := mul_le_mul_of_nonneg_right k2 D2pos.le
    linarith [F1.1]
  have A0 : 2 * β * D1 - β * D1 - α * D1 * 2 ≤ 0 := by
    have : β * D1 ≤ 2 * α * D1 := mul_le_mul_of_nonneg_right k2 D1pos.le
    linarith
  have A1 : 2 * α * D2 - α * D2 - β * D2 * 2 ≤ 0 := by
    have : α * D2 ≤ 2 * β * D2 := mul_le_mul_of_nonneg_right k1 D2pos.le
    linarith
  have pT : 0 < α * T := mul_pos hα hT
  have pT' : 0 < β * T := mul_pos hβ hT
  -- in natural numbers
  have n1 : a1 < a2 := by
    have : (a1 : ℚ) < a2 := by linarith [E0.1, F0.2]
    exact_mod_cast this
  have n2 : b2 < b3 := by
    have : (b2 : ℚ) < b3 := by linarith [E1.1, F1.2]
    exact_mod_cast this
  have n3 : a2 < a1 + 2 ^ 27 := by
    have : (a2 : ℚ) < ((a1 + 2 ^ 27 : Nat) : ℚ) := by push_cast; linarith [E0.2]
    exact Nat.cast_lt.mp this
  have n4 : b3 < b2 + 2 ^ 27 := by
    have : (b3 : ℚ) < ((b2 + 2 ^ 27 : Nat) : ℚ) := by push_cast; linarith [E1.2]
    exact Nat.cast_lt.mp this
  have r0 := (sub40_mod (s := a1) (e := a2) (by omega) (by omega)).1
  have r1 := (sub40_mod (s := b2) (e := b3) (by omega) (by omega)).1
  have p0 := (sub40_mod (s := b1) (e := b2) (by omega) (by omega)).1
  have p1 := (sub40_mod (s := a2) (e := a3) (by omega) (by omega)).1
  have ha := wraps (s := a1) (m := a2) (e := a3) (by omega) (by omega) (by omega)
  have hb := wraps (s := b1) (m := b2) (e := b3) (by omega) (by omega) (by omega)
  obtain ⟨R0, hR0, R0l, R0u⟩ : ∃ R, sub40 (a2 % 2 ^ 40) (a1 % 2 ^ 40) = R ∧ a2 ≤ R + a1 + W ∧ R + a1 ≤ a2 := ⟨_, r0, by omega, by omega⟩
  obtain ⟨R1, hR1, R1l, R1u⟩ : ∃ R, sub40 (b3 % 2 ^ 40) (b2 % 2 ^ 40) = R ∧ b3 ≤ R + b2 + W ∧ R + b2 ≤ b3 := ⟨_, r1, by omega, by omega⟩
  obtain ⟨P0, hP0, P0l, P0u⟩ : ∃ R, sub40 (b2 % 2 ^ 40) (b1 % 2 ^ 40) = R ∧ b2 ≤ R + b1 + W ∧ R + b1 ≤ b2 := ⟨_, p0, by omega, by omega⟩
  obtain ⟨P1, hP1, P1l, P1u⟩ : ∃ R, sub40 (a3 % 2 ^ 40) (a2 % 2 ^ 40) = R ∧ a3 ≤ R + a2 + W ∧ R + a2 ≤ a3 := ⟨_, p1, by omega, by omega⟩
  have hW1 : W ≤ 1 := by omega
  clear r0 r1 p0 p1 ha hb
  have R0l' : (a2 : ℚ) ≤ R0 + a1 + W := by exact_mod_cast R0l
  have R0u' : (R0 : ℚ) + a1 ≤ a2 := by exact_mod_cast R0u
  have R1l' : (b3 : ℚ) ≤ R1 + b2 + W := by exact_mod_cast R1l
  have R1u' : (R1 : ℚ) + b2 ≤ b3 := by exact_mod_cast R1u
  have P0l' : (b2 : ℚ) ≤ P0 + b1 + W := by exact_mod_cast P0l
  have P0u' : (P0 : ℚ) + b1 ≤ b2 := by exact_mod_cast P0u
  have P1l' : (a3 : ℚ) ≤ P1 + a2 + W := by exact_mod_cast P1l
  have P1u' : (P1 : ℚ) + a2 ≤ a3 := by exact_mod_cast P1u
  have W0 : (0 : ℚ) ≤ W := Nat.cast_nonneg _
  have W1 : (W : ℚ) ≤ 1 := by exact_mod_cast hW1
  have hSn : 2 ^ 26 ≤ R0 + R1 + P0 + P1 := by omega
  have hS : (2 ^ 26 : ℚ) ≤ R0 + R1 + P0 + P1 := by exact_mod_cast hSn
  obtain ⟨lo, hi⟩ := quotient_error (r0 := α * (2 * T + D1)) (r1 := β * (2 * T + D2)) (p0 := β * D1) (p1 := α * D2) (R0 := R0) (R1 := R1) (P0 := P0) (P1 := P1)
    (lo := 1 + W) (hi := W) (h := h) (by positivity) (by positivity) (by positivity) (by positivity) (by linarith) (by linarith) W0 W1
    ⟨by linarith [E0.1], by linarith [E0.2]⟩ ⟨by linarith [E1.1], by linarith [E1.2]⟩ ⟨by linarith [F0.1], by linarith [F0.2]⟩
    ⟨by linarith [F1.1], by linarith [F1.2]⟩ hn (by linarith) m2 hS
  have hle : P0 * P1 ≤ R0 * R1 := by
    have : (0 : ℚ) ≤ (h - (1 + W) - 1 / 20) * (R0 + R1 + P0 + P1) := mul_nonneg (by linarith) (by linarith)
    have : (P0 : ℚ) * P1 ≤ R0 * R1 := by linarith
    exact_mod_cast this
  have hfit : R0 * R1 < 2 ^ 64 := by
    have : R0 * R1 ≤ 2 ^ 27 * 2 ^ 27 := Nat.mul_le_mul (by omega) (by omega)
    omega
  have hSpos : 0 < R0 + R1 + P0 + P1 := by omega
  obtain ⟨t, ht⟩ : ∃ t, t = (R0 * R1 - P0 * P1) / (R0 + R1 + P0 + P1) := ⟨_, rfl⟩
  have t1 : t * (R0 + R1 + P0 + P1) ≤ R0 * R1 - P0 * P1 := ht ▸ Nat.div_mul_le_self _ _
  have t2 : R0 * R1 - P0 * P1 < (t + 1) * (R0 + R1 + P0 + P1) := by
    rw [ht]; exact (Nat.div_lt_iff_lt_mul hSpos).mp (Nat.lt_succ_self _)
  have t1' : t * (R0 + R1 + P0 + P1) + P0 * P1 ≤ R0 * R1 := by omega
  have t2' : R0 * R1 < (t + 1) * (R0 + R1 + P0 + P1) + P0 * P1 := by omega
  refine ⟨t, ?_, ?_, ?_⟩
  · unfold propagation
    simp only [hR0, hR1, hP0, hP1]
    exact quotient hfit (by omega) t1' t2'
  · have c : (R0 : ℚ) * R1 < (t + 1) * (R0 + R1 + P0 + P1) + P0 * P1 := by exact_mod_cast t2'
    by_contra hc
    have : ((t : ℚ) + 1) * (R0 + R1 + P0 + P1) ≤ (h - (1 + W) - 1 / 20) * (R0 + R1 + P0 + P1) :=
      mul_le_mul_of_nonneg_right (by linarith) (by linarith)
    linarith
  · have c : (t : ℚ) * (R0 + R1 + P0 + P1) + P0 * P1 ≤ R0 * R1 := by exact_mod_cast t1'
    by_contra hc
    have : (h + W + 1 / 20) * (R0 + R1 + P0 + P1) < (t : ℚ) * (R0 + R1 + P0 + P1) :=
      mul_lt_mul_of_pos_right (by linarith) (by linarith)
    linarith

/-- C113, a complete measurement as in `measurement`, with clocks of the rates `α` and `β` (up to a factor of 2 between them), any offsets, and any processing times
within the delay. The tag reports the time of flight in ticks, less than 3.05 ticks too short and at most 1.05 ticks too long (2.05 and 0.05 if no counter
wraps), whatever the delays: the rates matter only in what a tick is. A tick is 15.65 ps, or 4.7 mm. -/
theorem measurement_rates (anchor tag : Handler) (hpan : anchor.pan = tag.pan) (htag : tag.isAnchor = false) (hcb : tag.ranging = true)
    (buf rest0 rest1 rest2 rest3 : List Uwb.Byte) (hb : 11 ≤ buf.length) (hr0 : 5 ≤ rest0.length) (hr1 : 10 ≤ rest1.length) (hr2 : 10 ≤ rest2.length)
    (count p q p0 p1 p2 n1 n2 n3 : Nat) (α β oA oB T : ℚ) (hα : 0 < α) (hβ : 0 < β) (k1 : α ≤ 2 * β) (k2 : β ≤ 2 * α) (hT : 0 < T)
    (m1 : 4 ≤ flight α β T) (m2 : flight α β T ≤ 2 ^ 19)
    (hp : p ≤ 52428034) (h0 : p0 ≤ 52428034) (h1 : p1 ≤ 52428034) (h2 : p2 ≤ 52428034) :
    ∃ ts0 f0 c0, initiate tag buf anchor.address (timestampGet count) = .ok [.transmit ts0 f0] ∧ transmitAt (count + p) ts0 = some c0 ∧
    ∀ (τ0 : ℚ) (a0 : Nat), β * τ0 + oB = c0 → Reads α oA a0 (τ0 + T) →
    ∃ ts1 f1 c1, receive anchor (f0 ++ rest0) f0.length (rxTimestamp (rxBytes a0)) (timestampGet (a0 + q)) = .ok [.transmit ts1 f1] ∧
      transmitAt (a0 + q + p0) ts1 = some c1 ∧
    ∀ (τ1 : ℚ) (b1 : Nat), α * τ1 + oA = c1 → Reads β oB b1 (τ1 + T) →
    ∃ ts2 f2 c2, receive tag (f1 ++ rest1) f1.length (rxTimestamp (rxBytes b1)) n1 = .ok [.transmit ts2 f2] ∧ transmitAt (b1 + p1) ts2 = some c2 ∧
    ∀ (τ2 : ℚ) (a2 : Nat), β * τ2 + oB = c2 → Reads α oA a2 (τ2 + T) →
    ∃ ts3 f3 c3, receive anchor (f2 ++ rest2) f2.length (rxTimestamp (rxBytes a2)) n2 = .ok [.transmit ts3 f3] ∧ transmitAt (a2 + p2) ts3 = some c3 ∧
    ∀ (τ3 : ℚ) (b3 : Nat), α * τ3 + oA = c3 → Reads β oB b3 (τ3 + T) →
    ∃ t : Nat, receive tag (f3 ++ rest3) f3.length (rxTimestamp (rxBytes b3)) n3 = .ok [.ranging anchor.address t] ∧
      (flight α β T - 3 - 1 / 20 < t ∧ (t : ℚ) ≤ flight α β T + 1 + 1 / 20) ∧
      (c3 / 2 ^ 40 = c1 / 2 ^ 40 → b3 / 2 ^ 40 = b1 / 2 ^ 40 → flight α β T - 2 - 1 / 20 < t ∧ (t : ℚ) ≤ flight α β T + 1 / 20) := by
  obtain ⟨c0, d0, -, -, -⟩ := sends_when_it_says (count := count) (p := p) (.inr rfl) hp
  refine ⟨later (timestampGet count), macFrame tag.pan tag.address anchor.address 5 [], c0, initiate_eq tag buf anchor.address _ hb, d0, ?_⟩
  intro τ0 a0 _ _
  obtain ⟨after, ha, e⟩ := receive_frame anchor (0x41, 0x88) (0, 0) tag.pan tag.address anchor.address 5 [] rest0 (rxTimestamp (rxBytes a0)) (timestampGet (a0 + q))
    (by decide) ⟨hpan.symm, .inl rfl⟩
  rw [dispatch_5 _ _ _ _ _ _ rfl] at e
  rw [macFrame_length, macFrame_any, e]
  obtain ⟨c1, d1, mm1, -, -⟩ := sends_when_it_says (count := a0 + q) (p := p0) (.inr rfl) h0
  refine ⟨later (timestampGet (a0 + q)), macFrame anchor.pan anchor.address broadcast 0 (bytes40 (later (timestampGet (a0 + q)))), c1,
    sendAdvertisement_eq anchor _ _ (by simp; omega), d1, ?_⟩
  intro τ1 b1 g1 g2
  rw [rxTimestamp_eq]
  obtain ⟨c2, d2, mm2, l2, u2⟩ := sends_when_it_says (count := b1) (p := p1) (.inl rfl) h1
  refine ⟨later (b1 % 2 ^ 40), macFrame anchor.pan tag.address anchor.address 1
      (bytes40 (later (timestampGet (a0 + q))) ++ bytes40 (b1 % 2 ^ 40) ++ bytes40 (later (b1 % 2 ^ 40))), c2, ?_, d2, ?_⟩
  · rw [macFrame_length, hpan]
    exact receive_advertisement tag anchor.address broadcast (bytes40 (later (timestampGet (a0 + q)))) rest1 (b1 % 2 ^ 40) n1 htag rfl hr1 (.inr rfl)
  intro τ2 a2 g3 g4
  rw [rxTimestamp_eq]
  obtain ⟨c3, d3, mm3, l3, u3⟩ := sends_when_it_says (count := a2) (p := p2) (.inl rfl) h2
  refine ⟨later (a2 % 2 ^ 40), macFrame anchor.pan anchor.address tag.address 2
      (bytes40 (later (timestampGet (a0 + q))) ++ bytes40 (b1 % 2 ^ 40) ++ bytes40 (later (b1 % 2 ^ 40)) ++ bytes40 (a2 % 2 ^ 40) ++ bytes40 (later (a2 % 2 ^ 40))),
    c3, ?_, d3, ?_⟩
  · rw [macFrame_length]
    exact receive_reply anchor tag.address anchor.address _ rest2 (a2 % 2 ^ 40) n2 rfl hr2 (.inl rfl)
  intro τ3 b3 g5 g6
  rw [rxTimestamp_eq]
  obtain ⟨t, ht, lo, hi⟩ := propagation_rates (W := 1) hα hβ k1 k2 hT g1 g2 g3 g4 g5 g6 ⟨l2, u2⟩ ⟨l3, u3⟩ m1 m2 (.inl rfl)
  have hex : c3 / 2 ^ 40 = c1 / 2 ^ 40 → b3 / 2 ^ 40 = b1 / 2 ^ 40 → flight α β T - 2 - 1 / 20 < t ∧ (t : ℚ) ≤ flight α β T + 1 / 20 := by
    intro ha hb'
    obtain ⟨t', ht', lo', hi'⟩ := propagation_rates (W := 0) hα hβ k1 k2 hT g1 g2 g3 g4 g5 g6 ⟨l2, u2⟩ ⟨l3, u3⟩ m1 m2 (.inr ⟨rfl, ha, hb'⟩)
    rw [ht] at ht'
    obtain rfl := Except.ok.inj ht'
    rw [Nat.cast_zero] at lo' hi'
    constructor <;> linarith
  rw [Nat.cast_one] at lo hi
  rw [macFrame_length]
  refine ⟨t, ?_, ⟨by linarith, hi⟩, hex⟩
  rw [hpan]
  refine receive_finalization tag anchor.address tag.address _ _ _ _ _ rest3 (b3 % 2 ^ 40) n3 (.inl rfl) hcb ?_
  rw [mm1, mm2, mm3] at ht
  rw [Nat.mod_eq_of_lt (later_lt _), Nat.mod_eq_of_lt (later_lt _), Nat.mod_eq_of_lt (later_lt _), Nat.mod_eq_of_lt (Nat.mod_lt _ (by decide)),
    Nat.mod_eq_of_lt (Nat.mod_lt _ (by decide))]
  exact ht

/-- The hypotheses can be met: 3 m, clocks that differ by 40 millionths. -/
example : (4 : ℚ) ≤ flight 1 (1 + 4 / 10 ^ 5) 640 ∧ flight 1 (1 + 4 / 10 ^ 5) 640 ≤ 2 ^ 19 ∧ flight 1 (1 + 4 / 10 ^ 5) 640 - 640 < 13 / 1000 := by
  norm_num [flight]

/-- Finding: with clocks of the same rate and a tenth of a tick of flight (0.5 mm, or more with an antenna delay that is set too large), rounding makes the product of
the delays larger than that of the rounds, the difference wraps, and the result is 2^64 / (4 · UWB_DELAY), more than 400000 km. -/
theorem close_is_far : ∃ t, propagation 0 0 52428800 52428799 104857599 104857599 = .ok t ∧ 2 ^ 36 < t ∧
    Reads 1 (1 / 2) 0 (0 + 1 / 10) ∧ Reads 1 0 52428799 (52428799 + 1 / 2 + 1 / 10) ∧ Reads 1 (1 / 2) 104857599 (104857599 + 1 / 10) := by
  refine ⟨_, rfl, by decide +kernel, ?_, ?_, ?_⟩ <;> unfold Reads <;> symm <;> rw [Int.floor_eq_iff] <;> norm_num

end Verif.Radio
