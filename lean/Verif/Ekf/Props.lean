import Verif.Ekf.Lemmas
import Mathlib.Tactic.NormNum
import Mathlib.Analysis.Calculus.Deriv.Add
import Mathlib.Analysis.Calculus.Deriv.Mul
import Mathlib.Analysis.Calculus.Deriv.Pow

/-!
# C67: the position estimator
-/

namespace Verif.Ekf

open Matrix Spec

variable {n : Type} [Fintype n] [DecidableEq n]

/-- C67: a correction with a positive measurement variance is always defined, gives a valid covariance, and does not increase the variance along any vector. For every dimension, every measurement function and every Jacobian. -/
theorem correct_valid (e : Est n) (hv : Valid e.cov) (h : (n → ℝ) → ℝ) (H : (n → ℝ) → (n → ℝ)) (Q : ℝ) (hQ : 0 < Q) (z : ℝ) :
    ∃ e', e.correct h H Q z = some e' ∧ Valid e'.cov ∧ ∀ v, variance e'.cov v ≤ variance e.cov v :=
  ⟨_, correct_eq hv h H hQ z, corrected_valid hv _ hQ, corrected_le hv _ hQ⟩

/-- C67: along the gradient `H` of the measurement, the new variance is the parallel sum of the previous variance and the measurement variance; it is smaller than both. -/
theorem correct_direction (e e' : Est n) (hv : Valid e.cov) (h : (n → ℝ) → ℝ) (H : (n → ℝ) → (n → ℝ)) (Q : ℝ) (hQ : 0 < Q) (z : ℝ)
    (hc : e.correct h H Q z = some e') (hH : H e.mu ≠ 0) :
    1 / variance e'.cov (H e.mu) = 1 / variance e.cov (H e.mu) + 1 / Q ∧
    variance e'.cov (H e.mu) < variance e.cov (H e.mu) ∧ variance e'.cov (H e.mu) < Q := by
  rw [correct_eq hv _ _ hQ] at hc
  have ec := (Option.some.inj hc).symm
  subst ec
  have hs : 0 < variance e.cov (H e.mu) := hv.pos _ hH
  have hk : variance (corrected e.cov (H e.mu) (H e.mu ⬝ᵥ (e.cov *ᵥ H e.mu) + Q)) (H e.mu) = variance e.cov (H e.mu) * Q / (variance e.cov (H e.mu) + Q) := by
    rw [variance_eq, corrected_dot, ← variance_eq]
    field_simp
    ring
  simp only
  rw [hk]
  refine ⟨?_, ?_, ?_⟩
  · field_simp
    ring
  · rw [div_lt_iff₀ (by linarith)]
    nlinarith
  · rw [div_lt_iff₀ (by linarith)]
    nlinarith

/-- C67: nothing is learnt about what is not correlated with the measurement. -/
theorem correct_uncorrelated (e e' : Est n) (hv : Valid e.cov) (h : (n → ℝ) → ℝ) (H : (n → ℝ) → (n → ℝ)) (Q : ℝ) (hQ : 0 < Q) (z : ℝ)
    (hc : e.correct h H Q z = some e') (v : n → ℝ) (hu : ∑ i, ∑ j, v i * e.cov i j * H e.mu j = 0) :
    variance e'.cov v = variance e.cov v ∧ ∑ i, v i * e'.mu i = ∑ i, v i * e.mu i := by
  rw [correct_eq hv _ _ hQ] at hc
  have ec := (Option.some.inj hc).symm
  subst ec
  have hu' : v ⬝ᵥ (e.cov *ᵥ H e.mu) = 0 := by
    rw [← hu]
    simp only [dotProduct, mulVec, Finset.mul_sum]
    exact Finset.sum_congr rfl fun i _ => Finset.sum_congr rfl fun j _ => by ring
  constructor
  · rw [variance_eq, variance_eq, corrected_dot, hu', zero_mul, zero_div, sub_zero]
  · show v ⬝ᵥ (e.mu + (z - h e.mu) • _) = v ⬝ᵥ e.mu
    rw [dotProduct_add, dotProduct_smul, dotProduct_smul, hu', smul_zero, smul_zero, add_zero]

/-- C67: the information adds up: the inverse of the new covariance is the inverse of the previous one plus the information `H Hᵀ / Q` of the measurement. -/
theorem correct_information (e e' : Est n) (hv : Valid e.cov) (h : (n → ℝ) → ℝ) (H : (n → ℝ) → (n → ℝ)) (Q : ℝ) (hQ : 0 < Q) (z : ℝ)
    (hc : e.correct h H Q z = some e') (P : Matrix n n ℝ) (hP : e.cov * P = 1) :
    e'.cov * (P + (1 / Q) • vecMulVec (H e.mu) (H e.mu)) = 1 := by
  rw [correct_eq hv _ _ hQ] at hc
  have ec := (Option.some.inj hc).symm
  subst ec
  have hS := innovation_pos hv (H e.mu) hQ
  apply Matrix.ext_of_mulVec_single
  intro i
  generalize (Pi.single i 1 : n → ℝ) = v
  rw [← mulVec_mulVec, one_mulVec, add_mulVec, smul_mulVec, vecMulVec_mulVec]
  simp only
  rw [corrected_mulVec, mulVec_add, mulVec_mulVec, hP, one_mulVec, mulVec_smul]
  have e1 : e.cov *ᵥ (MulOpposite.op (H e.mu ⬝ᵥ v) • H e.mu) = (H e.mu ⬝ᵥ v) • (e.cov *ᵥ H e.mu) := by
    rw [← mulVec_smul]
    congr 1
    ext j
    simp only [Pi.smul_apply, smul_eq_mul, MulOpposite.smul_eq_mul_unop, MulOpposite.unop_op]
    ring
  rw [e1, dotProduct_add, dotProduct_smul, dotProduct_smul]
  ext j
  simp only [Pi.add_apply, Pi.sub_apply, Pi.smul_apply, smul_eq_mul]
  generalize H e.mu ⬝ᵥ (e.cov *ᵥ H e.mu) = s at hS ⊢
  generalize H e.mu ⬝ᵥ v = b
  have hS' := ne_of_gt hS
  have hQ' := ne_of_gt hQ
  field_simp
  ring

/-- C67: the corrected estimate is the best one: it is the only minimum of the squared deviation from the previous estimate, weighted by the inverse of its covariance, plus the squared deviation from the (linearised) measurement, weighted by the inverse of its variance. -/
theorem correct_optimal (e e' : Est n) (hv : Valid e.cov) (h : (n → ℝ) → ℝ) (H : (n → ℝ) → (n → ℝ)) (Q : ℝ) (hQ : 0 < Q) (z : ℝ)
    (hc : e.correct h H Q z = some e') (P : Matrix n n ℝ) (hP : P * e.cov = 1) (x : n → ℝ) (hx : x ≠ e'.mu) :
    variance P (e'.mu - e.mu) + (z - (h e.mu + ∑ i, H e.mu i * (e'.mu i - e.mu i))) ^ 2 / Q
      < variance P (x - e.mu) + (z - (h e.mu + ∑ i, H e.mu i * (x i - e.mu i))) ^ 2 / Q := by
  rw [correct_eq hv _ _ hQ] at hc
  have ec := (Option.some.inj hc).symm
  have hS := innovation_pos hv (H e.mu) hQ
  have hCP : e.cov * P = 1 := mul_eq_one_comm.mp hP
  -- `P` is symmetric
  have hPs : ∀ i j, P i j = P j i := by
    have ht : e.covᵀ = e.cov := by ext i j; exact hv.symm j i
    have : Pᵀ = P := by
      calc Pᵀ = Pᵀ * (e.cov * P) := by rw [hCP, Matrix.mul_one]
        _ = (Pᵀ * e.covᵀ) * P := by rw [ht, Matrix.mul_assoc]
        _ = (e.cov * P)ᵀ * P := by rw [transpose_mul]
        _ = P := by rw [hCP, transpose_one, Matrix.one_mul]
    intro i j
    rw [← congrFun (congrFun this j) i]
    rfl
  generalize hd : x - e'.mu = d
  have hd0 : d ≠ 0 := fun h0 => hx (sub_eq_zero.mp (hd.trans h0))
  generalize hk : e'.mu - e.mu = k
  have hxk : x - e.mu = k + d := by rw [← hk, ← hd]; abel
  have hkv : k = (z - h e.mu) • ((H e.mu ⬝ᵥ (e.cov *ᵥ H e.mu) + Q)⁻¹ • (e.cov *ᵥ H e.mu)) := by
    rw [← hk, ec]
    simp
  have s1 : ∑ i, H e.mu i * (e'.mu i - e.mu i) = H e.mu ⬝ᵥ k := by rw [← hk]; rfl
  have s2 : ∑ i, H e.mu i * (x i - e.mu i) = H e.mu ⬝ᵥ k + H e.mu ⬝ᵥ d := by rw [← dotProduct_add, ← hxk]; rfl
  rw [s1, s2, hxk, variance_eq, variance_eq]
  -- the weighted deviation of `d`
  have hdP : 0 < d ⬝ᵥ (P *ᵥ d) := by
    have hne : P *ᵥ d ≠ 0 := by
      intro h0
      apply hd0
      have : e.cov *ᵥ (P *ᵥ d) = e.cov *ᵥ 0 := by rw [h0]
      rwa [mulVec_mulVec, hCP, one_mulVec, mulVec_zero] at this
    have h1 := hv.pos _ hne
    rw [variance_eq, mulVec_mulVec, hCP, one_mulVec, dotProduct_comm] at h1
    exact h1
  have hPk : P *ᵥ k = ((z - h e.mu) * (H e.mu ⬝ᵥ (e.cov *ᵥ H e.mu) + Q)⁻¹) • H e.mu := by
    rw [hkv, smul_smul, mulVec_smul, mulVec_mulVec, hP, one_mulVec]
  have hHk : H e.mu ⬝ᵥ k = (z - h e.mu) * (H e.mu ⬝ᵥ (e.cov *ᵥ H e.mu) + Q)⁻¹ * (H e.mu ⬝ᵥ (e.cov *ᵥ H e.mu)) := by
    rw [hkv, smul_smul, dotProduct_smul, smul_eq_mul]
  have hcross : k ⬝ᵥ (P *ᵥ d) = (z - h e.mu) * (H e.mu ⬝ᵥ (e.cov *ᵥ H e.mu) + Q)⁻¹ * (H e.mu ⬝ᵥ d) := by
    rw [dot_symm hPs, hPk, dotProduct_smul, smul_eq_mul, dotProduct_comm d]
  have hexp : (k + d) ⬝ᵥ (P *ᵥ (k + d)) = k ⬝ᵥ (P *ᵥ k) + 2 * (k ⬝ᵥ (P *ᵥ d)) + d ⬝ᵥ (P *ᵥ d) := by
    rw [mulVec_add, dotProduct_add, add_dotProduct, add_dotProduct, dot_symm hPs d k]
    ring
  rw [hexp, hcross, hHk]
  generalize H e.mu ⬝ᵥ (e.cov *ᵥ H e.mu) = s at hS ⊢
  generalize H e.mu ⬝ᵥ d = b
  generalize d ⬝ᵥ (P *ᵥ d) = w at hdP ⊢
  generalize k ⬝ᵥ (P *ᵥ k) = y
  have hS' := ne_of_gt hS
  have hQ' := ne_of_gt hQ
  have key : y + 2 * ((z - h e.mu) * (s + Q)⁻¹ * b) + w + (z - (h e.mu + ((z - h e.mu) * (s + Q)⁻¹ * s + b))) ^ 2 / Q
      = (y + (z - (h e.mu + (z - h e.mu) * (s + Q)⁻¹ * s)) ^ 2 / Q) + (w + b ^ 2 / Q) := by
    field_simp
    ring
  rw [key]
  have : 0 ≤ b ^ 2 / Q := div_nonneg (sq_nonneg _) (le_of_lt hQ)
  linarith

/-! ## The distance to an anchor -/

/-- C67: the Jacobian used by the filter is the derivative of the distance, in every direction, and has length 1. -/
theorem direction_derivative (anchor mu v : Fin 3 → ℝ) (h : mu ≠ anchor) :
    HasDerivAt (fun t : ℝ => distance anchor (mu + t • v)) (∑ i, direction anchor mu i * v i) 0 ∧ ∑ i, direction anchor mu i ^ 2 = 1 := by
  have hn : norm (mu - anchor) ≠ 0 := fun h0 => h (sub_eq_zero.mp (norm_eq_zero.mp h0))
  constructor
  · have ef : (fun t : ℝ => distance anchor (mu + t • v)) = fun t => Real.sqrt ((mu - anchor) ⬝ᵥ (mu - anchor) + 2 * ((mu - anchor) ⬝ᵥ v) * t + (v ⬝ᵥ v) * t ^ 2) := by
      funext t
      unfold distance norm
      congr 1
      have : mu + t • v - anchor = (mu - anchor) + t • v := by abel
      rw [this, dotProduct_add, add_dotProduct, add_dotProduct]
      simp only [smul_dotProduct, dotProduct_smul, smul_eq_mul]
      rw [dotProduct_comm v (mu - anchor)]
      ring
    rw [ef]
    have hp : (mu - anchor) ⬝ᵥ (mu - anchor) ≠ 0 := by
      rw [← norm_sq]; exact pow_ne_zero 2 hn
    have h1 : HasDerivAt (fun t : ℝ => (mu - anchor) ⬝ᵥ (mu - anchor) + 2 * ((mu - anchor) ⬝ᵥ v) * t + (v ⬝ᵥ v) * t ^ 2) (2 * ((mu - anchor) ⬝ᵥ v)) 0 := by
      have a := ((hasDerivAt_id (0 : ℝ)).const_mul (2 * ((mu - anchor) ⬝ᵥ v))).const_add ((mu - anchor) ⬝ᵥ (mu - anchor))
      have b := (hasDerivAt_pow 2 (0 : ℝ)).const_mul (v ⬝ᵥ v)
      have c := a.add b
      simp only [mul_one, ne_eq, OfNat.ofNat_ne_zero, not_false_eq_true, zero_pow, mul_zero, add_zero, Nat.add_one_sub_one, pow_one] at c
      exact c
    have h2 := h1.sqrt (by simpa using hp)
    convert h2 using 1
    simp only [mul_zero, add_zero, ne_eq, OfNat.ofNat_ne_zero, not_false_eq_true, zero_pow]
    show direction anchor mu ⬝ᵥ v = _
    unfold direction
    rw [smul_dotProduct, smul_eq_mul]
    show 1 / norm (mu - anchor) * _ = 2 * _ / (2 * norm (mu - anchor))
    field_simp
  · rw [← direction_unit hn]
    exact Finset.sum_congr rfl fun i _ => by ring

/-- C67: a distance measurement fails exactly when the estimate is at the anchor (division by zero); otherwise the covariance stays valid and no variance increases, and the variance towards the anchor falls below the measurement variance. -/
theorem measure_valid (e : Est (Fin 3)) (hv : Valid e.cov) (anchor : Fin 3 → ℝ) (q z : ℝ) (hq : 0 < q) :
    (e.measure anchor q z = none ↔ e.mu = anchor) ∧
    ∀ e', e.measure anchor q z = some e' → Valid e'.cov ∧ (∀ v, variance e'.cov v ≤ variance e.cov v) ∧
      variance e'.cov (direction anchor e.mu) < q := by
  constructor
  · unfold Est.measure
    by_cases hn : norm (e.mu - anchor) = 0
    · rw [if_pos hn]
      exact ⟨fun _ => sub_eq_zero.mp (norm_eq_zero.mp hn), fun _ => rfl⟩
    · rw [if_neg hn, correct_eq hv _ _ hq]
      constructor
      · intro h; cases h
      · intro h
        exact absurd (norm_eq_zero.mpr (sub_eq_zero.mpr h)) hn
  · intro e' he
    obtain ⟨hn, ee⟩ := measure_some hv hq he
    have hc : e.correct (distance anchor) (direction anchor) q z = some e' := by
      unfold Est.measure at he
      rwa [if_neg hn] at he
    refine ⟨?_, ?_, (correct_direction e e' hv _ _ q hq z hc ?_).2.2⟩
    · rw [ee]; exact corrected_valid hv _ hq
    · rw [ee]; exact corrected_le hv _ hq
    · intro h0
      have := direction_unit hn
      rw [h0, zero_dotProduct] at this
      exact zero_ne_one this

/-- C67: a prediction keeps the estimate and the validity, and adds the process variance in every direction. -/
theorem wait_spec (e : Est (Fin 3)) (hv : Valid e.cov) (q : ℝ) (hq : 0 ≤ q) :
    (e.wait q).mu = e.mu ∧ Valid (e.wait q).cov ∧ ∀ v, variance (e.wait q).cov v = variance e.cov v + q * ∑ i, v i ^ 2 := by
  refine ⟨(wait_cov e q).2, wait_valid hv hq, fun v => ?_⟩
  rw [wait_variance]
  congr 2
  exact Finset.sum_congr rfl fun i _ => by ring

/-- C67: with an equal variance in all directions (as at the start), a measurement moves the estimate straight from or towards the anchor; the distance becomes a mean of the previous distance and the measured one, weighted by the variances. -/
theorem measure_isotropic (e e' : Est (Fin 3)) (c : ℝ) (hc : 0 < c) (he : e.cov = c • 1) (anchor : Fin 3 → ℝ) (q z : ℝ) (hq : 0 < q) (hz : 0 ≤ z)
    (h : e.measure anchor q z = some e') :
    e'.mu - anchor = ((q * distance anchor e.mu + c * z) / (q + c) / distance anchor e.mu) • (e.mu - anchor) ∧
    distance anchor e'.mu = (q * distance anchor e.mu + c * z) / (q + c) := by
  have hv : Valid e.cov := by
    have := wait_valid (e := ⟨e.mu, 0 • 1⟩) (q := c)
    constructor
    · intro i j
      rw [he]
      simp only [Matrix.smul_apply]
      rw [one_valid.symm]
    · intro v hv0
      rw [he, variance_eq, smul_mulVec, dotProduct_smul, ← variance_eq, smul_eq_mul]
      exact mul_pos hc (one_valid.pos v hv0)
  obtain ⟨hn, ee⟩ := measure_some hv hq h
  have hd : 0 < distance anchor e.mu := by
    unfold distance
    rcases lt_or_eq_of_le (Real.sqrt_nonneg ((e.mu - anchor) ⬝ᵥ (e.mu - anchor))) with h1 | h1
    · exact h1
    · exact absurd h1.symm hn
  have hmu : e'.mu - anchor = ((q * distance anchor e.mu + c * z) / (q + c) / distance anchor e.mu) • (e.mu - anchor) := by
    rw [ee, he]
    simp only [smul_mulVec, one_mulVec, dotProduct_smul, direction_unit hn]
    ext i
    simp only [Pi.sub_apply, Pi.add_apply, Pi.smul_apply, smul_eq_mul, direction]
    show e.mu i + (z - distance anchor e.mu) * ((c * 1 + q)⁻¹ * (c * (1 / distance anchor e.mu * (e.mu i - anchor i)))) - anchor i = _
    have : c * 1 + q ≠ 0 := by linarith
    have : q + c ≠ 0 := by linarith
    field_simp
    ring
  refine ⟨hmu, ?_⟩
  have hk : 0 ≤ (q * distance anchor e.mu + c * z) / (q + c) := by positivity
  show norm (e'.mu - anchor) = _
  have h2 := norm_sq (e'.mu - anchor)
  rw [hmu, smul_dotProduct, dotProduct_smul, ← norm_sq, smul_eq_mul, smul_eq_mul] at h2
  rw [← hmu] at h2
  have h3 : norm (e'.mu - anchor) ^ 2 = ((q * distance anchor e.mu + c * z) / (q + c)) ^ 2 := by
    rw [h2]
    show _ * (_ * distance anchor e.mu ^ 2) = _
    field_simp
  have h4 : 0 ≤ norm (e'.mu - anchor) := Real.sqrt_nonneg _
  rw [← abs_of_nonneg h4, ← abs_of_nonneg hk]
  exact (sq_eq_sq_iff_abs_eq_abs _ _).mp h3

/-! ## All executions -/

/-- The parameters of a message are variances -/
def Msg.Sane : Msg → Prop
  | .range _ _ q => 0 < q
  | .imu q => 0 ≤ q

/-- The sum of the process variances of the messages -/
noncomputable def added : List Msg → ℝ
  | [] => 0
  | .imu q :: l => q + added l
  | .range _ _ _ :: l => added l

theorem step_valid {e e' : Est (Fin 3)} (hv : Valid e.cov) {m : Msg} (hm : m.Sane) (h : e.step m = some e') :
    Valid e'.cov ∧ ∀ v, variance e'.cov v ≤ variance e.cov v + added [m] * (v ⬝ᵥ v) := by
  cases m with
  | imu q =>
    have e1 := (Option.some.inj h).symm
    subst e1
    exact ⟨wait_valid hv hm, fun v => by rw [wait_variance]; simp [added]⟩
  | range r a q =>
    have hsame : ∀ v, variance e.cov v ≤ variance e.cov v + added [.range r a q] * (v ⬝ᵥ v) := fun v => by simp [added]
    by_cases hr : r > 1000
    · unfold Est.step at h
      simp only [if_pos hr] at h
      have e1 := (Option.some.inj h).symm
      subst e1
      exact ⟨hv, hsame⟩
    · cases a with
      | none =>
        unfold Est.step at h
        simp only [if_neg hr] at h
        have e1 := (Option.some.inj h).symm
        subst e1
        exact ⟨hv, hsame⟩
      | some a =>
        unfold Est.step at h
        simp only [if_neg hr] at h
        obtain ⟨_, ee⟩ := measure_some hv hm h
        rw [ee]
        exact ⟨corrected_valid hv _ hm, fun v => le_trans (corrected_le hv _ hm v) (hsame v)⟩

/-- C67: through any sequence of messages, the covariance stays valid, and along each vector the variance stays at most the initial one plus the process variances added since. -/
theorem run_valid (e e' : Est (Fin 3)) (hv : Valid e.cov) (l : List Msg) (hl : ∀ m ∈ l, m.Sane) (h : e.run l = some e') :
    Valid e'.cov ∧ ∀ v, variance e'.cov v ≤ variance e.cov v + added l * ∑ i, v i ^ 2 := by
  induction l generalizing e with
  | nil =>
    have e1 := (Option.some.inj h).symm
    subst e1
    exact ⟨hv, fun v => by simp [added]⟩
  | cons m l ih =>
    unfold Est.run at h
    cases hs : e.step m with
    | none => rw [hs] at h; cases h
    | some e1 =>
      rw [hs] at h
      obtain ⟨h1, h2⟩ := step_valid hv (hl m (List.mem_cons_self)) hs
      obtain ⟨h3, h4⟩ := ih e1 h1 (fun m hm => hl m (List.mem_cons_of_mem _ hm)) h
      refine ⟨h3, fun v => ?_⟩
      have hvv : v ⬝ᵥ v = ∑ i, v i ^ 2 := Finset.sum_congr rfl fun i _ => by ring
      have ha : added (m :: l) = added [m] + added l := by cases m <;> simp [added]
      have := h2 v
      have := h4 v
      rw [ha]
      rw [hvv] at *
      linarith

/-- C67: from the start, the published variances are positive, and at most 1 plus the process variances added. -/
theorem run_published (e' : Est (Fin 3)) (l : List Msg) (hl : ∀ m ∈ l, m.Sane) (h : Est.init.run l = some e') (i : Fin 3) :
    0 < e'.cov i i ∧ e'.cov i i ≤ 1 + added l := by
  obtain ⟨h1, h2⟩ := run_valid Est.init e' one_valid l hl h
  have hi : ∀ C : Matrix (Fin 3) (Fin 3) ℝ, variance C (Pi.single i 1) = C i i := fun C => by
    rw [variance_eq, mulVec_single_one, single_dotProduct, one_mul]
    rfl
  have hs : ∑ j, (Pi.single i (1 : ℝ) : Fin 3 → ℝ) j ^ 2 = 1 := by
    have : (Pi.single i (1 : ℝ) : Fin 3 → ℝ) ⬝ᵥ Pi.single i 1 = 1 := by rw [single_dotProduct, Pi.single_eq_same, one_mul]
    refine Eq.trans ?_ this
    exact Finset.sum_congr rfl fun j _ => by ring
  constructor
  · rw [← hi e'.cov]
    exact h1.pos _ (by
      intro h0
      have := congrFun h0 i
      rw [Pi.single_eq_same] at this
      exact one_ne_zero this)
  · have := h2 (Pi.single i 1)
    rw [hi, hi, hs] at this
    have e1 : Est.init.cov i i = 1 := by simp [Est.init]
    rw [e1] at this
    linarith

/-- C67: the estimator fails only by dividing by zero at an anchor: if the messages `l` worked and `m` does not, then the estimate is exactly at the anchor of `m`. -/
theorem run_defined (e e1 : Est (Fin 3)) (hv : Valid e.cov) (l : List Msg) (m : Msg) (hl : ∀ m' ∈ l ++ [m], m'.Sane) (h : e.run l = some e1) :
    e1.step m = none ↔ ∃ r q, m = .range r (some e1.mu) q ∧ r ≤ 1000 := by
  obtain ⟨hv1, _⟩ := run_valid e e1 hv l (fun m' h' => hl m' (List.mem_append_left _ h')) h
  have hm := hl m (List.mem_append_right _ (List.mem_singleton_self m))
  cases m with
  | imu q =>
    constructor
    · intro h; cases h
    · rintro ⟨r, q, h, _⟩; cases h
  | range r a q =>
    unfold Est.step
    by_cases hr : r > 1000
    · simp only [if_pos hr]
      constructor
      · intro h; cases h
      · rintro ⟨r', q', h, h'⟩
        simp only [Msg.range.injEq] at h
        rw [h.1] at hr
        linarith
    · simp only [if_neg hr]
      cases a with
      | none =>
        constructor
        · intro h; cases h
        · rintro ⟨r', q', h, h'⟩; cases h
      | some a =>
        simp only
        rw [(measure_valid e1 hv1 a q r hm).1]
        constructor
        · rintro rfl
          exact ⟨r, q, rfl, not_lt.mp hr⟩
        · rintro ⟨r', q', h, _⟩
          simp only [Msg.range.injEq, Option.some.injEq] at h
          exact h.2.1.symm

/-- C67: with a negative measurement variance (the parameters are not checked), the covariance is lost. -/
theorem measure_negative : ∃ e e' : Est (Fin 3), ∃ a : Fin 3 → ℝ, ∃ z : ℝ, Valid e.cov ∧ e.measure a (-1/2) z = some e' ∧ ¬ Valid e'.cov := by
  have hn : norm ((![1, 0, 0] : Fin 3 → ℝ) - 0) = 1 := by
    unfold norm
    simp [dotProduct, Fin.sum_univ_three]
  have hdir : direction 0 ![1, 0, 0] = ![1, 0, 0] := by
    unfold direction
    rw [hn, sub_zero, div_one, one_smul]
  have hS : direction 0 ![1, 0, 0] ⬝ᵥ ((1 : Matrix (Fin 3) (Fin 3) ℝ) *ᵥ direction 0 ![1, 0, 0]) + (-1/2) = 1/2 := by
    rw [hdir, one_mulVec]
    simp [dotProduct, Fin.sum_univ_three]
    norm_num
  refine ⟨⟨![1, 0, 0], 1⟩, ⟨![1, 0, 0] + (0 - distance 0 ![1, 0, 0]) • ((1/2 : ℝ)⁻¹ • ((1 : Matrix (Fin 3) (Fin 3) ℝ) *ᵥ direction 0 ![1, 0, 0])), corrected 1 (direction 0 ![1, 0, 0]) (1/2)⟩, 0, 0, one_valid, ?_, ?_⟩
  · unfold Est.measure
    simp only
    rw [if_neg (by rw [hn]; norm_num)]
    unfold Est.correct
    simp only
    rw [hS, if_neg (by norm_num)]
    rfl
  · intro hv
    have := hv.pos ![1, 0, 0] (by
      intro h0
      have := congrFun h0 0
      simp at this)
    rw [variance_eq, corrected_dot, hdir, one_mulVec] at this
    simp [dotProduct, Fin.sum_univ_three] at this

/-- From the start, a measurement of 2 m by an anchor at (1, 1, 1/2), 1 m above the estimate -/
example : ∃ e', Est.init.run [.imu 0, .range 2 (some ![1, 1, 1/2]) 1] = some e' ∧ distance ![1, 1, 1/2] e'.mu = 3/2 := by
  have hn : norm ((Est.init.wait 0).mu - ![1, 1, 1/2]) = 1 := by
    rw [(wait_cov _ _).2]
    unfold norm Est.init
    simp [dotProduct, Fin.sum_univ_three]
    norm_num
  have hv : Valid (Est.init.wait 0).cov := wait_valid one_valid le_rfl
  have hd : (Est.init.wait 0).measure ![1, 1, 1/2] 1 2 ≠ none := by
    rw [Ne, (measure_valid _ hv ![1, 1, 1/2] 1 2 one_pos).1]
    intro h
    rw [h, sub_self] at hn
    simp [norm] at hn
  cases hm : (Est.init.wait 0).measure ![1, 1, 1/2] 1 2 with
  | none => exact absurd hm hd
  | some e' =>
    refine ⟨e', ?_, ?_⟩
    · show (((Est.init.wait 0).step (.range 2 (some ![1, 1, 1/2]) 1)).bind fun e => e.run []) = some e'
      unfold Est.step
      simp only
      rw [if_neg (by norm_num), hm]
      rfl
    · have := (measure_isotropic (Est.init.wait 0) e' 1 one_pos (by rw [(wait_cov _ _).1]; simp [Est.init]) ![1, 1, 1/2] 1 2 one_pos (by norm_num) hm).2
      rw [this]
      show (1 * norm ((Est.init.wait 0).mu - ![1, 1, 1/2]) + 1 * 2) / (1 + 1) = 3/2
      rw [hn]
      norm_num

end Verif.Ekf
