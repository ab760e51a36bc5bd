import Mathlib.Analysis.SpecialFunctions.Sqrt
import Mathlib.LinearAlgebra.Matrix.NonsingularInverse

/-!
# The position estimator of the UWB beacon

uwb-beacon-firmware/src/ekf.hpp, state_estimation.cpp and the loop of state_estimation_thread.cpp. The code computes with `float`; the model computes exactly, with real numbers. The filter is generic in the dimension of the state; its measurement variance `Q` has the type of a measurement (a column), so that it only fits measurements of dimension 1.
-/

namespace Verif.Ekf

open Matrix

noncomputable section

/-- A state and its covariance -/
structure Est (n : Type) where
  mu : n → ℝ
  cov : Matrix n n ℝ

/-- `Predictor::predict`, ekf.hpp:46-53: `g` is the state update, `G` its Jacobian (taken at the updated state), `R` the process noise -/
def Est.predict [Fintype n] (e : Est n) (g : (n → ℝ) → (n → ℝ)) (G : (n → ℝ) → Matrix n n ℝ) (R : Matrix n n ℝ) : Est n :=
  let mu := g e.mu
  ⟨mu, G mu * e.cov * (G mu)ᵀ + R⟩

/-- `Corrector::correct` for a measurement of dimension 1, ekf.hpp:80-88: `h` is the measurement function, `H` its Jacobian (a row), `Q` the variance, `z` the measurement. `none`: the innovation variance is zero and its inverse is not a number. -/
def Est.correct [Fintype n] [DecidableEq n] (e : Est n) (h : (n → ℝ) → ℝ) (H : (n → ℝ) → (n → ℝ)) (Q z : ℝ) : Option (Est n) :=
  let Hm := H e.mu
  let S := Hm ⬝ᵥ (e.cov *ᵥ Hm) + Q
  if S = 0 then none
  else
    let K := S⁻¹ • (e.cov *ᵥ Hm)
    some ⟨e.mu + (z - h e.mu) • K, (1 - vecMulVec K Hm) * e.cov⟩

/-- `norm()` -/
def norm [Fintype n] (v : n → ℝ) : ℝ := Real.sqrt (v ⬝ᵥ v)

/-- `UWBOnlyModel::h`, state_estimation.cpp:12-16 -/
def distance (anchor mu : Fin 3 → ℝ) : ℝ := norm (mu - anchor)

/-- `UWBOnlyModel::H`, state_estimation.cpp:18-22 (where `dst` is not zero, see `measure`) -/
def direction (anchor mu : Fin 3 → ℝ) : Fin 3 → ℝ := (1 / norm (mu - anchor)) • (mu - anchor)

/-- `processDistanceMeasurement`, state_estimation.cpp:52-59. `none`: the estimate is exactly at the anchor, where line 21 divides by zero. -/
def Est.measure (e : Est (Fin 3)) (anchor : Fin 3 → ℝ) (variance z : ℝ) : Option (Est (Fin 3)) :=
  if norm (e.mu - anchor) = 0 then none
  else e.correct (distance anchor) (direction anchor) variance z

/-- `RadioPositionEstimator::predict`, state_estimation.cpp:61-67 with `IdentityPredictor`, 25-30, and the default `g` and `G`, ekf.hpp:32-44 -/
def Est.wait (e : Est (Fin 3)) (variance : ℝ) : Est (Fin 3) :=
  e.predict (fun s => s) (fun _ => 1) (variance • 1)

/-- `RadioPositionEstimator()`, state_estimation.cpp:32-38 -/
def Est.init : Est (Fin 3) := ⟨![1, 1, -1/2], 1⟩

/-- A message of the loop, state_estimation_thread.cpp:63-106: a range with the position of its anchor (if the cache knows it) and the parameter `range_variance`, or an IMU message with the parameter `process_variance` -/
inductive Msg where
  | range (range : ℝ) (anchor : Option (Fin 3 → ℝ)) (variance : ℝ)
  | imu (variance : ℝ)

/-- One turn of the loop, state_estimation_thread.cpp:63-106 -/
def Est.step (e : Est (Fin 3)) : Msg → Option (Est (Fin 3))
  | .range r anchor variance =>
    if r > 1000 then some e
    else
      match anchor with
      | none => some e
      | some a => e.measure a variance r
  | .imu variance => some (e.wait variance)

/-- The loop -/
def Est.run (e : Est (Fin 3)) : List Msg → Option (Est (Fin 3))
  | [] => some e
  | m :: l => (e.step m).bind fun e => e.run l

end

end Verif.Ekf
