import Mathlib.Tactic.Ring
import Mathlib.Tactic.FieldSimp
import Mathlib.Tactic.Positivity
import Verif.Filter.Props
import Verif.Drive.Model

/-!
# Motor controller: properties
-/

namespace Verif.Drive

open Num Filter

variable {F : Type}

/-! ## C45: PID -/

/-- What the owner of a PID may do between changes of the limit -/
inductive PidOp (F : Type) where
  | process (e : F)
  | reset
  | gains (kp ki kd : F)
  | frequency (f : F)

def Pid.op (A : Arith F) (p : Pid F) : PidOp F → Pid F
  | .process e => (p.process A e).2
  | .reset => p.resetIntegral A
  | .gains kp ki kd => p.setGains kp ki kd
  | .frequency f => p.setFrequency f

/-- One step brings any integrator into the limits, unless it is NaN. -/
theorem integral_step {A : Arith F} (C : A.Cmp) (p : Pid F) (e : F) (hl : A.Le A.zero p.integratorLimit) :
    A.nan (p.process A e).2.integrator = true ∨
    A.Le (A.neg p.integratorLimit) (p.process A e).2.integrator ∧ A.Le (p.process A e).2.integrator p.integratorLimit :=
  limit_any C (A.add p.integrator e) (hl.neg_self C)

/-- C45: in any arithmetic with IEEE comparisons, the integral stays within the limit (or is NaN), whatever is done with the controller. -/
theorem integral_bounded {A : Arith F} (C : A.Cmp) (p : Pid F) (hl : A.Le A.zero p.integratorLimit)
    (hi : A.Le (A.neg p.integratorLimit) p.integrator ∧ A.Le p.integrator p.integratorLimit) (ops : List (PidOp F)) :
    A.nan (ops.foldl (Pid.op A) p).integrator = true ∨
    A.Le (A.neg p.integratorLimit) (ops.foldl (Pid.op A) p).integrator ∧ A.Le (ops.foldl (Pid.op A) p).integrator p.integratorLimit := by
  have hl0 : A.Le (A.neg p.integratorLimit) A.zero := by
    have h1 : A.Le (A.neg p.integratorLimit) (A.neg A.zero) :=
      ⟨by rw [C.neg_nan]; exact hl.2.1, by rw [C.neg_nan]; exact C.zero_num, by rw [C.neg_lt]; exact hl.2.2⟩
    exact h1.trans C ⟨by rw [C.neg_nan]; exact C.zero_num, C.zero_num, C.neg_zero.1⟩
  have key : ∀ (ops : List (PidOp F)) (q : Pid F), q.integratorLimit = p.integratorLimit →
      (A.nan q.integrator = true ∨ A.Le (A.neg p.integratorLimit) q.integrator ∧ A.Le q.integrator p.integratorLimit) →
      A.nan (ops.foldl (Pid.op A) q).integrator = true ∨
      A.Le (A.neg p.integratorLimit) (ops.foldl (Pid.op A) q).integrator ∧ A.Le (ops.foldl (Pid.op A) q).integrator p.integratorLimit := by
    intro ops
    induction ops with
    | nil => intro q _ h; exact h
    | cons o ops ih =>
      intro q hq h
      rw [List.foldl_cons]
      cases o with
      | process e =>
        refine ih _ hq ?_
        have := integral_step C q e (by rw [hq]; exact hl)
        rw [hq] at this
        exact this
      | reset => exact ih _ hq (.inr ⟨hl0, hl⟩)
      | gains kp ki kd => exact ih _ hq h
      | frequency f => exact ih _ hq h
  exact key ops p rfl (.inr hi)

example : ext.Le ext.zero (Ext.fin 3) := ⟨rfl, rfl, by decide +kernel⟩

/-- With infinities and NaN: for a finite limit and errors that are not NaN, the integral is never NaN. -/
theorem integral_finite (p : Pid Ext) (l i : ℚ) (hl : p.integratorLimit = .fin l) (h0 : 0 ≤ l) (hi : p.integrator = .fin i) (e : Ext) (he : e ≠ .nan) :
    ∃ j : ℚ, (p.process ext e).2.integrator = .fin j ∧ -l ≤ j ∧ j ≤ l := by
  have hc : ∀ x : Ext, x ≠ .nan → ∃ j : ℚ, limit ext x (.fin (-l)) (.fin l) = .fin j ∧ -l ≤ j ∧ j ≤ l := by
    intro x hx
    cases x with
    | nan => exact absurd rfl hx
    | ninf => exact ⟨-l, by simp [limit, ext, Ext.lt], le_refl _, by linarith⟩
    | pinf => exact ⟨l, by simp [limit, ext, Ext.lt], by linarith, le_refl _⟩
    | fin q =>
      by_cases h1 : l < q
      · exact ⟨l, by simp [limit, ext, Ext.lt, h1], by linarith, le_refl _⟩
      · by_cases h2 : q < -l
        · exact ⟨-l, by simp [limit, ext, Ext.lt, h1, h2], le_refl _, by linarith⟩
        · exact ⟨q, by simp [limit, ext, Ext.lt, h1, h2], by linarith, by linarith⟩
  have hs : (p.process ext e).2.integrator = limit ext (Ext.add p.integrator e) (Ext.neg p.integratorLimit) p.integratorLimit := rfl
  rw [hs, hl, hi]
  refine hc _ ?_
  cases e <;> first | exact absurd rfl he | (intro h; cases h)

/-- With the limit a new controller has (infinity), two infinite errors make the integral NaN for good. -/
theorem integral_nan : ((Pid.init ext (.fin 1) .pinf).run ext [.pinf, .ninf, .fin 0, .fin 1]).2.integrator = .nan := by decide +kernel

/-- The integral of the specification: the sum of the errors, brought back into `[-l, l]` after every term -/
def boundedSum (l : ℚ) (es : List ℚ) (i : ℚ) : ℚ := es.foldl (fun i e => max (-l) (min l (i + e))) i

theorem limit_exact (v l : ℚ) (hl : 0 ≤ l) : limitSym exact v l = max (-l) (min l v) := by
  unfold limitSym limit
  simp only [exact, decide_eq_true_eq]
  by_cases h1 : l < v
  · rw [if_pos h1, min_eq_left h1.le, max_eq_right (by linarith)]
  · rw [if_neg h1]
    by_cases h2 : v < -l
    · rw [if_pos h2, min_eq_right (by linarith), max_eq_left h2.le]
    · rw [if_neg h2, min_eq_right (by linarith), max_eq_right (by linarith)]

theorem limit_abs (v l : ℚ) (hl : 0 ≤ l) : |limitSym exact v l| ≤ l := by
  rw [limit_exact v l hl, abs_le]
  exact ⟨le_max_left _ _, max_le (by linarith) (min_le_left _ _)⟩

theorem process_integrator (p : Pid ℚ) (e : ℚ) (hl : 0 ≤ p.integratorLimit) :
    (p.process exact e).2.integrator = max (-p.integratorLimit) (min p.integratorLimit (p.integrator + e)) :=
  limit_exact (p.integrator + e) _ hl

/-- C45 in exact arithmetic: the output after any sequence of errors -/
theorem run_output (p : Pid ℚ) (hl : 0 ≤ p.integratorLimit) (es : List ℚ) (n : Nat) (hn : n < es.length) :
    (p.run exact es).1[n]? = some (-(p.kp * es[n]) - p.ki * boundedSum p.integratorLimit (es.take (n + 1)) p.integrator / p.frequency
      - p.kd * (es[n] - (p.previousError :: es)[n]'(by simp; omega)) * p.frequency) := by
  induction es generalizing p n with
  | nil => cases hn
  | cons e es ih =>
    have hr : (p.run exact (e :: es)).1 = (p.process exact e).1 :: ((p.process exact e).2.run exact es).1 := rfl
    rw [hr]
    cases n with
    | zero =>
      simp only [List.getElem?_cons_zero, List.getElem_cons_zero, Nat.zero_add, List.take_succ_cons, List.take_zero, Option.some.injEq]
      have hI : boundedSum p.integratorLimit [e] p.integrator = (p.process exact e).2.integrator := (process_integrator p e hl).symm
      rw [hI]
      show -p.kp * e + -p.ki * p.integrate exact e / p.frequency + -p.kd * (e - p.previousError) * p.frequency = _
      show _ = -(p.kp * e) - p.ki * p.integrate exact e / p.frequency - p.kd * (e - p.previousError) * p.frequency
      ring
    | succ n =>
      have hn' : n < es.length := by simpa using hn
      have := ih (p.process exact e).2 hl n hn'
      simp only [List.getElem?_cons_succ, List.getElem_cons_succ, List.take_succ_cons]
      rw [this]
      have hb : boundedSum p.integratorLimit (e :: es.take (n + 1)) p.integrator
          = boundedSum p.integratorLimit (es.take (n + 1)) (p.process exact e).2.integrator := by
        rw [process_integrator p e hl]; rfl
      rw [hb]
      rfl

theorem boundedSum_abs (l : ℚ) (hl : 0 ≤ l) (es : List ℚ) (i : ℚ) (hi : |i| ≤ l) : |boundedSum l es i| ≤ l := by
  induction es generalizing i with
  | nil => exact hi
  | cons e es ih =>
    refine ih _ ?_
    rw [abs_le]
    exact ⟨le_max_left _ _, max_le (by linarith) (min_le_left _ _)⟩

/-- C45: the contribution of the integral to the output is bounded. -/
theorem contribution_bounded (p : Pid ℚ) (hl : 0 ≤ p.integratorLimit) (e : ℚ) (hki : 0 ≤ p.ki) (hf : 0 < p.frequency) :
    |(p.process exact e).1 - (-(p.kp * e) - p.kd * (e - p.previousError) * p.frequency)| ≤ p.ki * p.integratorLimit / p.frequency := by
  have e1 : (p.process exact e).1 - (-(p.kp * e) - p.kd * (e - p.previousError) * p.frequency) = -(p.ki * (p.process exact e).2.integrator / p.frequency) := by
    show -p.kp * e + -p.ki * p.integrate exact e / p.frequency + -p.kd * (e - p.previousError) * p.frequency - _ = -(p.ki * p.integrate exact e / p.frequency)
    ring
  rw [e1, abs_neg, abs_div, abs_mul, abs_of_nonneg hki, abs_of_pos hf]
  have : |(p.process exact e).2.integrator| ≤ p.integratorLimit := limit_abs (p.integrator + e) _ hl
  exact div_le_div_of_nonneg_right (mul_le_mul_of_nonneg_left this hki) hf.le

/-- C45: as long as the sums stay within the limit, the integral is the sum of the errors. -/
theorem integral_sum (l : ℚ) (es : List ℚ) (i : ℚ) (h : ∀ n ≤ es.length, |i + (es.take n).sum| ≤ l) : boundedSum l es i = i + es.sum := by
  induction es generalizing i with
  | nil => simp [boundedSum]
  | cons e es ih =>
    have h1 := h 1 (by simp)
    simp only [List.take_succ_cons, List.take_zero, List.sum_cons, List.sum_nil, add_zero] at h1
    rw [abs_le] at h1
    have hc : max (-l) (min l (i + e)) = i + e := by rw [min_eq_right h1.2, max_eq_right h1.1]
    show boundedSum l es (max (-l) (min l (i + e))) = _
    rw [hc, ih (i + e) (fun n hn => ?_)]
    · rw [List.sum_cons]; ring
    · have := h (n + 1) (by simpa using hn)
      rw [List.take_succ_cons, List.sum_cons, ← add_assoc] at this
      exact this

/-- C45: without integral and derivative gain the output is proportional to the error, with the opposite sign: the controller takes the error as measurement
minus setpoint. -/
theorem proportional (p : Pid ℚ) (hi : p.ki = 0) (hd : p.kd = 0) (e : ℚ) : (p.process exact e).1 = -(p.kp * e) := by
  show -p.kp * e + -p.ki * p.integrate exact e / p.frequency + -p.kd * (e - p.previousError) * p.frequency = _
  rw [hi, hd]; ring

/-- C45, resetting: with no derivative gain, a reset controller behaves like one which was never used. Missing: with a derivative gain it does not, see
`reset_keeps_error`. -/
theorem reset_forgets_partial (p q : Pid ℚ) (hl : 0 ≤ p.integratorLimit) (hp : p.kp = q.kp) (hi : p.ki = q.ki) (hd : p.kd = 0) (hdq : q.kd = 0)
    (hlim : p.integratorLimit = q.integratorLimit) (hf : p.frequency = q.frequency) (es : List ℚ) :
    ((p.resetIntegral exact).run exact es).1 = ((q.resetIntegral exact).run exact es).1 := by
  apply List.ext_getElem?
  have hlen : ∀ (es : List ℚ) (p : Pid ℚ), (p.run exact es).1.length = es.length := by
    intro es
    induction es with
    | nil => intro p; rfl
    | cons e es ih => intro p; show ((p.process exact e).2.run exact es).1.length + 1 = _; rw [ih]; rfl
  intro n
  by_cases hn : n < es.length
  · rw [run_output (p.resetIntegral exact) hl es n hn, run_output (q.resetIntegral exact) (by rw [hlim] at hl; exact hl) es n hn]
    simp only [Pid.resetIntegral, hp, hi, hd, hdq, hlim, hf]
    ring_nf
  · rw [List.getElem?_eq_none (by rw [hlen]; omega), List.getElem?_eq_none (by rw [hlen]; omega)]

/-- Resetting keeps the previous error, so that the next derivative term depends on the time before the reset. -/
theorem reset_keeps_error : ∃ p : Pid ℚ, 0 ≤ p.integratorLimit ∧
    (((p.process exact 5).2.resetIntegral exact).process exact 0).1 ≠ (((p.process exact 0).2.resetIntegral exact).process exact 0).1 :=
  ⟨⟨1, 0, 1, 0, 0, 10, 1⟩, by decide +kernel, by decide +kernel⟩

example : (Pid.run exact ⟨2, 1, 1, 0, 0, 3, 1⟩ [1, 2, 4]).1 = [-4, -8, -13] := by decide +kernel

/-! ## C48: cascade -/

/-- C48, velocity: with velocity control enabled, the velocity setpoint is within the limit or NaN, in any arithmetic and any state. -/
theorem velocity_limited {A : Arith F} (C : A.Cmp) (perr : F → F) (c : Cascade F) (hv : c.setpts.velEnabled = true) (hl : A.Le A.zero c.velocityLimit) :
    A.nan (c.control A perr).velocitySetpoint = true ∨
    A.Le (A.neg c.velocityLimit) (c.control A perr).velocitySetpoint ∧ A.Le (c.control A perr).velocitySetpoint c.velocityLimit := by
  have e : ∃ x, (c.control A perr).velocitySetpoint = limitSym A x c.velocityLimit := by
    unfold Cascade.control Cascade.positionStep Cascade.velocityStep Cascade.currentStep
    by_cases hp : c.setpts.posEnabled = true
    · exact ⟨_, by simp only [hp, hv, if_true]; rfl⟩
    · exact ⟨_, by simp only [hp, hv, if_true, if_false, Bool.false_eq_true]; rfl⟩
  obtain ⟨x, hx⟩ := e
  rw [hx]
  exact limit_any C x (hl.neg_self C)

/-- C48, torque and current: the current setpoint comes from a torque within the torque limit, and is within the current limit (or NaN). -/
theorem current_limited {A : Arith F} (C : A.Cmp) (perr : F → F) (c : Cascade F) (ht : A.Le A.zero c.torqueLimit) (hc : A.Le A.zero c.currentLimit) :
    (∃ t, (A.nan t = true ∨ A.Le (A.neg c.torqueLimit) t ∧ A.Le t c.torqueLimit) ∧
      (c.control A perr).currentSetpoint = limitSym A (A.mul t c.currentConstant) c.currentLimit) ∧
    (A.nan (c.control A perr).currentSetpoint = true ∨
      A.Le (A.neg c.currentLimit) (c.control A perr).currentSetpoint ∧ A.Le (c.control A perr).currentSetpoint c.currentLimit) := by
  have e : ∃ x, (c.control A perr).currentSetpoint = limitSym A (A.mul (limitSym A x c.torqueLimit) c.currentConstant) c.currentLimit := by
    unfold Cascade.control Cascade.positionStep Cascade.velocityStep Cascade.currentStep Cascade.torque
    by_cases hp : c.setpts.posEnabled = true <;> by_cases hv : c.setpts.velEnabled = true <;>
      exact ⟨_, by simp only [hp, hv, if_true, if_false, Bool.false_eq_true]; rfl⟩
  obtain ⟨x, hx⟩ := e
  rw [hx]
  exact ⟨⟨_, limit_any C x (ht.neg_self C), rfl⟩, limit_any C _ (hc.neg_self C)⟩

/-- C48 in exact arithmetic Missing: the voltage is not limited here (`voltage_not_limited`). -/
theorem cascade_limits_partial (perr : ℚ → ℚ) (c : Cascade ℚ) (hv : 0 ≤ c.velocityLimit) (ht : 0 ≤ c.torqueLimit) (hc : 0 ≤ c.currentLimit) :
    (c.setpts.velEnabled = true → |(c.control exact perr).velocitySetpoint| ≤ c.velocityLimit) ∧
    |(c.control exact perr).currentSetpoint| ≤ c.currentLimit ∧
    |(c.control exact perr).currentSetpoint| ≤ c.torqueLimit * |c.currentConstant| := by
  obtain ⟨⟨t, h1, h2⟩, h3⟩ := current_limited exact_cmp perr c (exact_le.mpr ht) (exact_le.mpr hc)
  simp only [exact_le, show ∀ x : ℚ, exact.nan x = false from fun _ => rfl, Bool.false_eq_true, false_or,
    show ∀ x : ℚ, exact.neg x = -x from fun _ => rfl] at h1 h3
  refine ⟨fun h => ?_, abs_le.mpr h3, ?_⟩
  · have := velocity_limited exact_cmp perr c h (exact_le.mpr hv)
    simp only [exact_le, show ∀ x : ℚ, exact.nan x = false from fun _ => rfl, Bool.false_eq_true, false_or,
      show ∀ x : ℚ, exact.neg x = -x from fun _ => rfl] at this
    exact abs_le.mpr this
  · have h4 : |t * c.currentConstant| ≤ c.torqueLimit * |c.currentConstant| := by
      rw [abs_mul]; exact mul_le_mul_of_nonneg_right (abs_le.mpr h1) (abs_nonneg _)
    rw [h2, show exact.mul t c.currentConstant = t * c.currentConstant from rfl, limit_exact _ _ hc]
    rw [abs_le] at h4 ⊢
    have hn : 0 ≤ c.torqueLimit * |c.currentConstant| := mul_nonneg ht (abs_nonneg _)
    refine ⟨?_, max_le (by linarith) ((min_le_right _ _).trans h4.2)⟩
    rcases le_total c.currentLimit (t * c.currentConstant) with h | h
    · exact (le_trans (by linarith) (le_min hc (hc.trans h))).trans (le_max_right _ _)
    · rw [min_eq_right h]; exact h4.1.trans (le_max_right _ _)

/-- What the cascade should do with proportional gains: speed from the position error, torque from the speed error, voltage from the current error, each
limited -/
def pLaw (perr : ℚ → ℚ) (c : Cascade ℚ) : ℚ :=
  let lim (l x : ℚ) := max (-l) (min l x)
  let e := c.setpts.position - c.position
  let v := c.setpts.velocity + if c.setpts.posEnabled then c.positionPid.kp * (if c.periodic then -perr (-e) else e) else 0
  let t := c.setpts.torque + if c.setpts.velEnabled then c.velocityPid.kp * (lim c.velocityLimit v - c.velocity) else 0
  c.currentPid.kp * (lim c.currentLimit (lim c.torqueLimit t * c.currentConstant) - c.current)

/-- C48: the voltage with proportional gains -/
theorem cascade_law (perr : ℚ → ℚ) (c : Cascade ℚ) (hv : 0 ≤ c.velocityLimit) (ht : 0 ≤ c.torqueLimit) (hc : 0 ≤ c.currentLimit)
    (h1 : c.positionPid.ki = 0 ∧ c.positionPid.kd = 0) (h2 : c.velocityPid.ki = 0 ∧ c.velocityPid.kd = 0) (h3 : c.currentPid.ki = 0 ∧ c.currentPid.kd = 0) :
    (c.control exact perr).motorVoltage = pLaw perr c := by
  have e0 : ∀ c : Cascade ℚ, c.currentPid.ki = 0 ∧ c.currentPid.kd = 0 → 0 ≤ c.currentLimit → ∀ t,
      (c.currentStep exact t).motorVoltage = c.currentPid.kp * (max (-c.currentLimit) (min c.currentLimit (t * c.currentConstant)) - c.current) := by
    intro c h hc t
    show (c.currentPid.process exact (c.current - limitSym exact (t * c.currentConstant) c.currentLimit)).1 = _
    rw [proportional _ h.1 h.2, limit_exact _ _ hc]; ring
  have e1 : ∀ c : Cascade ℚ, c.velocityPid.ki = 0 ∧ c.velocityPid.kd = 0 → 0 ≤ c.velocityLimit → ∀ v,
      (c.velocityStep exact v).1
        = if c.setpts.velEnabled then c.velocityPid.kp * (max (-c.velocityLimit) (min c.velocityLimit (c.setpts.velocity + v)) - c.velocity) else 0 := by
    intro c h hc v
    unfold Cascade.velocityStep
    by_cases hve : c.setpts.velEnabled = true
    · rw [if_pos hve, if_pos hve]
      show (c.velocityPid.process exact (c.velocity - limitSym exact (c.setpts.velocity + v) c.velocityLimit)).1 = _
      rw [proportional _ h.1 h.2, limit_exact _ _ hc]; ring
    · rw [if_neg hve, if_neg hve]; rfl
  have e2 : (c.positionStep exact perr).1
      = if c.setpts.posEnabled then c.positionPid.kp * (if c.periodic then -perr (-(c.setpts.position - c.position)) else c.setpts.position - c.position) else 0 := by
    unfold Cascade.positionStep
    by_cases hp : c.setpts.posEnabled = true
    · rw [if_pos hp, if_pos hp]
      show (c.positionPid.process exact (if c.periodic = true then perr (c.position - c.setpts.position) else c.position - c.setpts.position)).1 = _
      rw [proportional _ h1.1 h1.2, neg_sub]
      by_cases hper : c.periodic = true
      · rw [if_pos hper, if_pos hper]; ring
      · rw [if_neg hper, if_neg hper]; ring
    · rw [if_neg hp, if_neg hp]; rfl
  have f1 : ∀ c : Cascade ℚ, ∃ pid b d f, (c.positionStep exact perr).2
      = { c with positionSetpoint := b, positionError := d, positionPid := pid, positionOut := f } := by
    intro c
    unfold Cascade.positionStep
    split
    · exact ⟨_, _, _, _, rfl⟩
    · exact ⟨_, _, _, _, rfl⟩
  have f2 : ∀ (c : Cascade ℚ) v, ∃ pid b d f, (c.velocityStep exact v).2
      = { c with velocitySetpoint := b, velocityError := d, velocityPid := pid, velocityOut := f } := by
    intro c v
    unfold Cascade.velocityStep
    split
    · exact ⟨_, _, _, _, rfl⟩
    · exact ⟨_, _, _, _, rfl⟩
  have ec : c.control exact perr
      = ((c.positionStep exact perr).2.velocityStep exact (c.positionStep exact perr).1).2.currentStep exact
          (((c.positionStep exact perr).2.velocityStep exact (c.positionStep exact perr).1).2.torque exact
            ((c.positionStep exact perr).2.velocityStep exact (c.positionStep exact perr).1).1) := rfl
  rw [ec]
  obtain ⟨pid, b, d, f, hc1⟩ := f1 c
  obtain ⟨pid', b', d', f', hc2⟩ := f2 (c.positionStep exact perr).2 (c.positionStep exact perr).1
  rw [hc2]
  have hv1 := e1 (c.positionStep exact perr).2 (by rw [hc1]; exact h2) (by rw [hc1]; exact hv) (c.positionStep exact perr).1
  rw [hv1, e2, hc1]
  rw [e0]
  · unfold Cascade.torque pLaw
    rw [limit_exact _ _ ht]
    show _ * (max _ (min _ (max _ (min _ (_ + _)) * _)) - _) = _
    dsimp only
    rw [add_comm (a := c.setpts.torque)]
  · exact h3
  · exact hc

/-- The voltage itself is not limited by the cascade; this is done where it is turned into a duty cycle (C52). -/
theorem voltage_not_limited : ∃ c : Cascade ℚ, c.velocityLimit = 1 ∧ c.torqueLimit = 1 ∧ c.currentLimit = 1 ∧ (c.control exact id).motorVoltage = 1000 :=
  ⟨⟨⟨1000, 0, 0, 0, 0, 1, 1⟩, ⟨1, 0, 0, 0, 0, 1, 1⟩, ⟨1, 0, 0, 0, 0, 1, 1⟩, 1, 1, 1, 1, ⟨true, true, 5, 0, 0⟩, false, 0, 0, 0, 0, 0, 0, 0, 0, 0, 0, 0, 0⟩,
    rfl, rfl, rfl, by decide +kernel⟩

/-! ## C75: angles -/

theorem fmod_spec (x m : ℚ) (hm : 0 < m) : (∃ k : Int, fmod x m = x + m * k) ∧ |fmod x m| < m ∧ (0 ≤ x → 0 ≤ fmod x m) ∧ (x ≤ 0 → fmod x m ≤ 0) := by
  unfold fmod trunc
  have hx : m * (x / m) = x := by field_simp
  by_cases h : 0 ≤ x
  · have hd : 0 ≤ x / m := div_nonneg h hm.le
    rw [if_pos hd]
    have h1 := mul_le_mul_of_nonneg_left (Int.floor_le (x / m)) hm.le
    have h2 := mul_lt_mul_of_pos_left (Int.lt_floor_add_one (x / m)) hm
    rw [hx] at h1 h2
    rw [mul_add, mul_one] at h2
    refine ⟨⟨-⌊x / m⌋, by push_cast; ring⟩, abs_lt.mpr ⟨by linarith, by linarith⟩, fun _ => by linarith, fun h0 => ?_⟩
    have : x = 0 := le_antisymm h0 h
    subst this
    simp
  · have hd : x / m < 0 := div_neg_of_neg_of_pos (by linarith) hm
    rw [if_neg (by linarith)]
    have h1 := mul_le_mul_of_nonneg_left (Int.le_ceil (x / m)) hm.le
    have h2 := mul_lt_mul_of_pos_left (Int.ceil_lt_add_one (x / m)) hm
    rw [hx] at h1
    rw [mul_add, mul_one, hx] at h2
    exact ⟨⟨-⌈x / m⌉, by push_cast; ring⟩, abs_lt.mpr ⟨by linarith, by linarith⟩, fun h0 => absurd h0 h, fun _ => by linarith⟩

/-- C75: `periodic_error` returns the representative modulo a turn in [-π, π]. -/
theorem periodicError_spec (pi : ℚ) (hpi : 0 < pi) (x : ℚ) :
    |periodicError pi x| ≤ pi ∧ ∃ k : Int, periodicError pi x = x + 2 * pi * k := by
  obtain ⟨⟨k, hk⟩, hlt, -, -⟩ := fmod_spec x (2 * pi) (by linarith)
  rw [abs_lt] at hlt
  unfold periodicError
  simp only
  by_cases h1 : fmod x (2 * pi) > pi
  · rw [if_pos h1]
    exact ⟨abs_le.mpr ⟨by linarith, by linarith⟩, k - 1, by rw [hk]; push_cast; ring⟩
  · rw [if_neg h1]
    by_cases h2 : fmod x (2 * pi) < -pi
    · rw [if_pos h2]
      exact ⟨abs_le.mpr ⟨by linarith, by linarith⟩, k + 1, by rw [hk]; push_cast; ring⟩
    · rw [if_neg h2]
      exact ⟨abs_le.mpr ⟨by linarith, by linarith⟩, k, hk⟩

/-- Two representatives modulo a turn that are both less than half a turn are equal. -/
theorem representative_unique (pi : ℚ) (hpi : 0 < pi) {a b : ℚ} (ha : |a| < pi) (hb : |b| ≤ pi) (k : Int) (h : a = b + 2 * pi * k) : a = b := by
  rw [abs_lt] at ha
  rw [abs_le] at hb
  have h1 : (k : ℚ) < 1 := by
    refine lt_of_mul_lt_mul_left (a := 2 * pi) ?_ (by linarith)
    linarith
  have h2 : (-1 : ℚ) < k := by
    refine lt_of_mul_lt_mul_left (a := 2 * pi) ?_ (by linarith)
    linarith
  have h1' : k < 1 := by exact_mod_cast h1
  have h2' : -1 < k := by exact_mod_cast h2
  have : k = 0 := by omega
  subst this
  simpa using h

/-- An error of less than half a turn is not changed. -/
theorem periodicError_small (pi : ℚ) (hpi : 0 < pi) {x : ℚ} (hx : |x| < pi) : periodicError pi x = x := by
  obtain ⟨h1, k, hk⟩ := periodicError_spec pi hpi x
  exact (representative_unique pi hpi hx h1 (-k) (by rw [hk]; push_cast; ring)).symm

/-- C75, `angle_delta`: if the end is not more than half a turn before the start, the result is the shortest rotation to the end. Missing: ends further before
the start, see `angleDelta_wrong`. -/
theorem angleDelta_partial (pi : ℚ) (hpi : 0 < pi) (start stop : ℚ) (h : -pi ≤ stop - start) :
    |angleDelta pi start stop| ≤ pi ∧ ∃ k : Int, start + angleDelta pi start stop = stop + 2 * pi * k := by
  obtain ⟨⟨k, hk⟩, hlt, hp, -⟩ := fmod_spec (stop - start + pi) (2 * pi) (by linarith)
  have h0 := hp (by linarith)
  rw [abs_lt] at hlt
  have e : angleDelta pi start stop = fmod (stop - start + pi) (2 * pi) - pi := by
    unfold angleDelta
    simp only
    rw [if_pos]
    rw [abs_of_pos (a := 2 * pi - _) (by linarith), abs_lt]
    exact ⟨by linarith, by linarith⟩
  rw [e]
  exact ⟨abs_le.mpr ⟨by linarith, by linarith⟩, k, by rw [hk]; ring⟩

/-- If the end is more than half a turn before the start, the result is always more than half a turn (unless they are opposite). -/
theorem angleDelta_wrong (pi : ℚ) (hpi : 0 < pi) (start stop : ℚ) (h : stop - start < -pi) :
    angleDelta pi start stop ≤ -pi ∧ (angleDelta pi start stop = -pi → ∃ k : Int, stop = start + pi + 2 * pi * k) := by
  obtain ⟨⟨k, hk⟩, hlt, -, hn⟩ := fmod_spec (stop - start + pi) (2 * pi) (by linarith)
  have h0 := hn (by linarith)
  rw [abs_lt] at hlt
  have e : angleDelta pi start stop = fmod (stop - start + pi) (2 * pi) - pi := by
    unfold angleDelta
    simp only
    rw [if_pos]
    rw [abs_of_pos (a := 2 * pi - _) (by linarith), abs_lt]
    exact ⟨by linarith, by linarith⟩
  rw [e]
  refine ⟨by linarith, fun h1 => ⟨-k - 1, ?_⟩⟩
  have h2 : fmod (stop - start + pi) (2 * pi) = 0 := by linarith
  rw [hk] at h2
  push_cast
  linarith

/-- From 3 to -3 (with 3.14 for π) the turn should be 0.28; `angle_delta` returns -6. -/
example : angleDelta 3.14 3 (-3) = -6 ∧ periodicError 3.14 (-3 - 3) = 0.28 := by decide +kernel
example : angleDelta 3.14 (-3) 3 = -0.28 := by decide +kernel

/-! ## C47: velocity setpoints -/

theorem towards (v t l : ℚ) (hl : 0 ≤ l) :
    |limitSym exact (t - v) l| ≤ l ∧ min v t ≤ v + limitSym exact (t - v) l ∧ v + limitSym exact (t - v) l ≤ max v t ∧
    |t - (v + limitSym exact (t - v) l)| = max 0 (|t - v| - l) := by
  refine ⟨limit_abs _ _ hl, ?_⟩
  rw [limit_exact _ _ hl]
  rcases le_total (t - v) l with h1 | h1
  · rw [min_eq_right h1]
    rcases le_total (t - v) (-l) with h2 | h2
    · rw [max_eq_left h2, min_eq_right (by linarith : t ≤ v), max_eq_left (by linarith : t ≤ v), abs_of_nonpos (by linarith : t - v ≤ 0),
        max_eq_right (by linarith), abs_of_nonpos (by linarith)]
      exact ⟨by linarith, by linarith, by linarith⟩
    · rw [max_eq_right h2]
      have h3 : |t - v| ≤ l := abs_le.mpr ⟨h2, h1⟩
      rw [max_eq_left (by linarith : |t - v| - l ≤ 0), show v + (t - v) = t by ring, sub_self, abs_zero]
      exact ⟨min_le_right _ _, le_max_right _ _, rfl⟩
  · rw [min_eq_left h1, max_eq_right (by linarith : -l ≤ l), min_eq_left (by linarith : v ≤ t), max_eq_right (by linarith : v ≤ t),
      abs_of_nonneg (by linarith : 0 ≤ t - v), max_eq_right (by linarith), abs_of_nonneg (by linarith)]
    exact ⟨by linarith, by linarith, by linarith⟩

/-- C47: one control period in velocity mode -/
theorem slew (pi : ℚ) (z : Bool × Bool) (ip : Ip) (sp : Setpts ℚ) (dt ipdt : ℚ) (hm : ip.mode = .vel) (hl : 0 ≤ dt * ip.accLimit) :
    ∃ v, ip.compute pi z sp dt ipdt = some ({ ip with vel := v }, { sp with posEnabled := false, velEnabled := true, velocity := v, torque := 0 }) ∧
      |v - ip.vel| ≤ dt * ip.accLimit ∧ min ip.vel ip.targetVel ≤ v ∧ v ≤ max ip.vel ip.targetVel ∧
      |ip.targetVel - v| = max 0 (|ip.targetVel - ip.vel| - dt * ip.accLimit) := by
  obtain ⟨h1, h2, h3, h4⟩ := towards ip.vel ip.targetVel (dt * ip.accLimit) hl
  refine ⟨ip.vel + limitSym exact (ip.targetVel - ip.vel) (dt * ip.accLimit), ?_, ?_, h2, h3, h4⟩
  · unfold Ip.compute
    rw [hm]
  · rw [show ip.vel + limitSym exact (ip.targetVel - ip.vel) (dt * ip.accLimit) - ip.vel = limitSym exact (ip.targetVel - ip.vel) (dt * ip.accLimit) by ring]
    exact h1

/-- Control periods of the given lengths -/
def Ip.periods (pi : ℚ) (ip : Ip) (sp : Setpts ℚ) : List (ℚ × ℚ × Bool × Bool) → Option (Ip × Setpts ℚ)
  | [] => some (ip, sp)
  | (dt, ipdt, z) :: rest =>
    match ip.compute pi z sp dt ipdt with
    | none => none
    | some (ip, sp) => ip.periods pi sp rest

/-- C47: the target velocity is reached when the periods add up to the change divided by the acceleration limit; until then the distance shrinks by
`acc_limit * dt` per period. -/
theorem target_reached (pi : ℚ) (ip : Ip) (sp : Setpts ℚ) (ts : List (ℚ × ℚ × Bool × Bool)) (hm : ip.mode = .vel) (ha : 0 ≤ ip.accLimit)
    (hts : ∀ t ∈ ts, 0 ≤ t.1) :
    ∃ v sp', ip.periods pi sp ts = some ({ ip with vel := v }, sp') ∧ (ts ≠ [] → sp'.velocity = v ∧ sp'.velEnabled = true ∧ sp'.posEnabled = false) ∧
      |ip.targetVel - v| = max 0 (|ip.targetVel - ip.vel| - (ts.map (·.1)).sum * ip.accLimit) := by
  induction ts generalizing ip sp with
  | nil =>
    refine ⟨ip.vel, sp, rfl, fun h => absurd rfl h, ?_⟩
    rw [List.map_nil, List.sum_nil, zero_mul, sub_zero, max_eq_right (abs_nonneg _)]
  | cons t ts ih =>
    obtain ⟨dt, ipdt, z⟩ := t
    have hdt : 0 ≤ dt := hts _ List.mem_cons_self
    obtain ⟨v, h1, -, -, -, h5⟩ := slew pi z ip sp dt ipdt hm (mul_nonneg hdt ha)
    obtain ⟨v', sp', g1, g2, g3⟩ := ih { ip with vel := v } { sp with posEnabled := false, velEnabled := true, velocity := v, torque := 0 } hm ha
      (fun t ht => hts t (List.mem_cons_of_mem _ ht))
    refine ⟨v', sp', ?_, fun _ => ?_, ?_⟩
    · show (match ip.compute pi z sp dt ipdt with | none => none | some (ip, sp) => ip.periods pi sp ts) = _
      rw [h1]
      exact g1
    · cases ts with
      | nil =>
        cases g1
        exact ⟨rfl, rfl, rfl⟩
      | cons a b => exact g2 (List.cons_ne_nil _ _)
    · simp only at g3
      rw [g3, h5, List.map_cons, List.sum_cons, add_mul]
      have hs : 0 ≤ (ts.map (·.1)).sum * ip.accLimit := by
        refine mul_nonneg (List.sum_nonneg ?_) ha
        intro x hx
        obtain ⟨t, ht, rfl⟩ := List.mem_map.mp hx
        exact hts t (List.mem_cons_of_mem _ ht)
      rcases le_total (|ip.targetVel - ip.vel|) (dt * ip.accLimit) with h | h
      · rw [max_eq_left (a := 0) (b := |ip.targetVel - ip.vel| - dt * ip.accLimit) (by linarith), max_eq_left (by linarith), max_eq_left (by linarith)]
      · rw [max_eq_right (a := 0) (b := |ip.targetVel - ip.vel| - dt * ip.accLimit) (by linarith)]
        congr 1; ring

/-- C47: a new target does not make the setpoint jump, except after torque mode, when it starts from the measured velocity. -/
theorem new_target (ip : Ip) (v cur : ℚ) :
    (ip.updateVelocity v cur).mode = .vel ∧ (ip.updateVelocity v cur).targetVel = v ∧
    (ip.updateVelocity v cur).vel = (if ip.mode = .torque then cur else ip.vel) := by
  unfold Ip.updateVelocity
  by_cases h : ip.mode = .torque <;> simp [h]

/-- C47: a torque is given to the motor as it is, with both loops off. -/
theorem torque_command (pi : ℚ) (z : Bool × Bool) (ip : Ip) (sp : Setpts ℚ) (t dt ipdt : ℚ) :
    ∃ ip' sp', (ip.updateTorque t).compute pi z sp dt ipdt = some (ip', sp') ∧ sp'.torque = t ∧ sp'.posEnabled = false ∧ sp'.velEnabled = false ∧ ip'.mode = .torque ∧ ip'.torque = t :=
  ⟨_, _, rfl, rfl, rfl, rfl, rfl, rfl⟩

/-- C47: after a point of a trajectory the motor follows the parabola through it: at time `s` after the point, position, velocity and torque are those of constant acceleration. -/
theorem trajectory_command (pi : ℚ) (z : Bool × Bool) (ip : Ip) (sp : Setpts ℚ) (x v a t dt s : ℚ) :
    ∃ ip' sp', (ip.updateTrajectory x v a t).compute pi z sp dt s = some (ip', sp') ∧ sp'.position = x + v * s + a * s ^ 2 / 2 ∧ sp'.velocity = v + a * s ∧ sp'.torque = t ∧ sp'.posEnabled = true ∧
      sp'.velEnabled = true ∧ ip' = ip.updateTrajectory x v a t := by
  refine ⟨_, _, rfl, ?_, rfl, rfl, rfl, rfl, rfl⟩
  show x + v * s + a / 2 * s * s = _
  ring

/-- C47: in voltage mode the setpoints of the loops are left alone and the voltage is kept. -/
theorem voltage_command (pi : ℚ) (z : Bool × Bool) (ip : Ip) (sp : Setpts ℚ) (u dt ipdt : ℚ) :
    ∃ ip', (ip.updateVoltage u).compute pi z sp dt ipdt = some (ip', sp) ∧ ip'.mode = .volt ∧ ip'.voltage = u :=
  ⟨_, rfl, rfl, rfl⟩

/-- After voltage mode the setpoint starts from where it was before, not from the measured velocity. -/
example (ip : Ip) (v cur : ℚ) : ((ip.updateVoltage 3).updateVelocity v cur).vel = ip.vel := rfl

/-! ## C74: position setpoints -/

theorem sign_cases (z : Bool) (x : ℚ) : sign z x = 1 ∧ 0 ≤ x ∨ sign z x = -1 ∧ x ≤ 0 := by
  unfold sign
  by_cases h : x < 0
  · rw [if_pos h]; exact .inr ⟨rfl, h.le⟩
  · rw [if_neg h]
    by_cases h2 : x = 0 ∧ z = true
    · rw [if_pos h2]; exact .inr ⟨rfl, h2.1.le⟩
    · rw [if_neg h2]; exact .inl ⟨rfl, by linarith⟩

/-- Braking with at most `a` brings the velocity closer to zero. -/
theorem brake (v dt a : ℚ) (hdt : 0 < dt) (ha : 0 ≤ a) : |-limitSym exact (v / dt) a| ≤ a ∧ |v + -limitSym exact (v / dt) a * dt| ≤ |v| := by
  refine ⟨by rw [abs_neg]; exact limit_abs _ _ ha, ?_⟩
  have hv : v / dt * dt = v := by field_simp
  have e : limitSym exact (v / dt) a * dt = max (-(a * dt)) (min (a * dt) v) := by
    rw [limit_exact _ _ ha, max_mul_of_nonneg _ _ hdt.le, min_mul_of_nonneg _ _ hdt.le, hv, neg_mul]
  rw [neg_mul, e]
  have had : 0 ≤ a * dt := mul_nonneg ha hdt.le
  rcases le_total 0 v with h | h
  · rw [abs_of_nonneg h, max_eq_right (le_trans (by linarith) (le_min had h))]
    rw [abs_le]
    exact ⟨by linarith [min_le_right (a * dt) v], by linarith [le_min had h]⟩
  · rw [abs_of_nonpos h, min_eq_right (by linarith), abs_le]
    have h1 : max (-(a * dt)) v ≤ 0 := max_le (by linarith) h
    exact ⟨by linarith, by linarith [le_max_right (-(a * dt)) v]⟩

/-- C74: the acceleration of the ramp and the velocity after it -/
theorem ramp_limits (pi : ℚ) (z : Bool × Bool) (pos vel target dt maxVel maxAcc : ℚ) (per : Bool) (hdt : 0 < dt) (ha : 0 < maxAcc)
    (hmv : 0 ≤ maxVel) :
    ∃ acc, velRamp pi z pos vel target dt maxVel maxAcc per = some acc ∧ |acc| ≤ maxAcc ∧ |vel + acc * dt| ≤ max |vel| (maxVel + maxAcc * dt) := by
  have had : 0 < maxAcc * dt := mul_pos ha hdt
  unfold velRamp
  rw [if_neg (by rintro (h | h) <;> linarith)]
  refine ⟨_, rfl, ?_⟩
  have hb := brake vel dt maxAcc hdt ha.le
  have hb' : |-limitSym exact (vel / dt) maxAcc| ≤ maxAcc ∧ |vel + -limitSym exact (vel / dt) maxAcc * dt| ≤ max |vel| (maxVel + maxAcc * dt) :=
    ⟨hb.1, hb.2.trans (le_max_left _ _)⟩
  generalize hE : (if per = true then periodicError pi (pos - target) else pos - target) = err
  by_cases hs : sign z.1 err ≠ sign z.2 vel
  · rw [if_pos hs]
    by_cases h1 : |err| ≤ vel * vel / 2 / maxAcc ∨ |err| ≤ maxAcc * dt * dt / 2
    · rw [if_pos h1]; exact hb'
    · rw [if_neg h1]
      by_cases h2 : |vel| ≥ maxVel
      · rw [if_pos h2]
        simp only [abs_zero, zero_mul, add_zero]
        exact ⟨ha.le, le_max_left _ _⟩
      · rw [if_neg h2]
        have hv : |vel| < maxVel := by linarith
        rw [abs_lt] at hv
        refine ⟨?_, ?_⟩
        · rcases sign_cases z.1 err with ⟨h, -⟩ | ⟨h, -⟩ <;> rw [h] <;> simp [abs_of_pos ha]
        · refine le_trans ?_ (le_max_right _ _)
          rw [abs_le]
          rcases sign_cases z.1 err with ⟨h, -⟩ | ⟨h, -⟩ <;> rw [h] <;> constructor <;> linarith
  · rw [if_neg hs]
    by_cases h1 : |err| ≤ maxAcc * dt * dt / 2
    · rw [if_pos h1]; exact hb'
    · rw [if_neg h1]
      have hs' : sign z.1 err = sign z.2 vel := Classical.byContradiction hs
      rw [hs']
      refine ⟨?_, ?_⟩
      · rcases sign_cases z.2 vel with ⟨h, -⟩ | ⟨h, -⟩ <;> rw [h] <;> simp [abs_of_pos ha]
      · rw [abs_le]
        rcases sign_cases z.2 vel with ⟨h, hp⟩ | ⟨h, hp⟩ <;> rw [h]
        · rw [abs_of_nonneg hp]
          constructor
          · linarith [le_max_right vel (maxVel + maxAcc * dt)]
          · linarith [le_max_left vel (maxVel + maxAcc * dt)]
        · rw [abs_of_nonpos hp]
          constructor
          · linarith [le_max_left (-vel) (maxVel + maxAcc * dt)]
          · linarith [le_max_right (-vel) (maxVel + maxAcc * dt)]

/-- What happens in position mode: a control period or a new target -/
inductive PosEv where
  | period (ipdt : ℚ) (z : Bool × Bool)
  | target (pos curPos curVel : ℚ) (periodic : Bool)

def PosEv.step (pi dt : ℚ) (s : Ip × Setpts ℚ) : PosEv → Option (Ip × Setpts ℚ)
  | .period ipdt z => s.1.compute pi z s.2 dt ipdt
  | .target pos p v per => some (s.1.updatePosition pos p v per, s.2)

def PosEv.run (pi dt : ℚ) : Ip × Setpts ℚ → List PosEv → Option (Ip × Setpts ℚ)
  | s, [] => some s
  | s, e :: es => match e.step pi dt s with
    | none => none
    | some s => PosEv.run pi dt s es

/-- C74: one control period in position mode is uniformly accelerated motion, with an acceleration within the limit. -/
theorem period_pos (pi : ℚ) (z : Bool × Bool) (ip : Ip) (sp : Setpts ℚ) (dt ipdt : ℚ) (hm : ip.mode = .pos) (hdt : 0 < dt) (ha : 0 < ip.accLimit)
    (hv : 0 ≤ ip.velLimit) :
    ∃ acc, |acc| ≤ ip.accLimit ∧ |ip.vel + acc * dt| ≤ max |ip.vel| (ip.velLimit + ip.accLimit * dt) ∧
      ip.compute pi z sp dt ipdt
        = some ({ ip with pos := ip.pos + ip.vel * dt + acc * dt ^ 2 / 2, vel := ip.vel + acc * dt },
            ⟨true, true, ip.pos + ip.vel * dt + acc * dt ^ 2 / 2, ip.vel + acc * dt, 0⟩) := by
  obtain ⟨acc, h1, h2, h3⟩ := ramp_limits pi z ip.pos ip.vel ip.targetPos dt ip.velLimit ip.accLimit ip.periodic hdt ha hv
  refine ⟨acc, h2, h3, ?_⟩
  unfold Ip.compute
  rw [hm]
  simp only [h1]
  have e1 : posInterp ip.pos ip.vel acc dt = ip.pos + ip.vel * dt + acc * dt ^ 2 / 2 := by unfold posInterp; ring
  have e2 : velInterp ip.vel acc dt = ip.vel + acc * dt := rfl
  rw [e1, e2]

/-- C74: in position mode, over any sequence of periods and new targets, the velocity never exceeds the limit by more than one period of acceleration, or what
it was at first. -/
theorem position_velocity (pi dt : ℚ) (hdt : 0 < dt) (ip : Ip) (sp : Setpts ℚ) (hm : ip.mode = .pos) (ha : 0 < ip.accLimit) (hv : 0 ≤ ip.velLimit)
    (es : List PosEv) :
    ∃ ip' sp', PosEv.run pi dt (ip, sp) es = some (ip', sp') ∧ ip'.mode = .pos ∧ |ip'.vel| ≤ max |ip.vel| (ip.velLimit + ip.accLimit * dt) := by
  induction es generalizing ip sp with
  | nil => exact ⟨ip, sp, rfl, hm, le_max_left _ _⟩
  | cons e es ih =>
    cases e with
    | period ipdt z =>
      obtain ⟨acc, -, h2, h3⟩ := period_pos pi z ip sp dt ipdt hm hdt ha hv
      obtain ⟨ip', sp', g1, g2, g3⟩ := ih
        { ip with pos := ip.pos + ip.vel * dt + acc * dt ^ 2 / 2, vel := ip.vel + acc * dt }
        ⟨true, true, ip.pos + ip.vel * dt + acc * dt ^ 2 / 2, ip.vel + acc * dt, 0⟩ hm ha hv
      refine ⟨ip', sp', ?_, g2, g3.trans (max_le h2 (le_max_right _ _))⟩
      show (match ip.compute pi z sp dt ipdt with | none => none | some s => PosEv.run pi dt s es) = _
      rw [h3]
      exact g1
    | target p cp cv per =>
      have hu : ip.updatePosition p cp cv per = { ip with mode := .pos, targetPos := p, periodic := per } := by
        unfold Ip.updatePosition
        simp [hm]
      obtain ⟨ip', sp', g1, g2, g3⟩ := ih { ip with mode := .pos, targetPos := p, periodic := per } sp rfl ha hv
      refine ⟨ip', sp', ?_, g2, g3⟩
      show PosEv.run pi dt (ip.updatePosition p cp cv per, sp) es = _
      rw [hu]
      exact g1

/-- C74: a setpoint at rest on its target stays there (for a periodic actuator: on its target modulo a turn). -/
theorem at_rest (pi : ℚ) (hpi : 0 < pi) (z : Bool × Bool) (ip : Ip) (sp : Setpts ℚ) (dt ipdt : ℚ) (hm : ip.mode = .pos) (hdt : 0 < dt) (ha : 0 < ip.accLimit)
    (hv : ip.vel = 0) (ht : ip.pos = ip.targetPos ∨ ip.periodic = true ∧ ∃ k : Int, ip.pos = ip.targetPos + 2 * pi * k) :
    ip.compute pi z sp dt ipdt = some (ip, ⟨true, true, ip.pos, 0, 0⟩) := by
  have he : (if ip.periodic = true then periodicError pi (ip.pos - ip.targetPos) else ip.pos - ip.targetPos) = 0 := by
    have hper : ∀ k : Int, periodicError pi (2 * pi * k) = 0 := by
      intro k
      obtain ⟨h1, j, hj⟩ := periodicError_spec pi hpi (2 * pi * k)
      refine (representative_unique pi hpi (a := 0) (by simpa using hpi) h1 (-(j + k)) ?_).symm
      rw [hj]; push_cast; ring
    by_cases hp : ip.periodic = true
    · rw [if_pos hp]
      rcases ht with h | ⟨-, k, hk⟩
      · have := hper 0
        rw [h, sub_self]
        simpa using this
      · rw [hk, show ip.targetPos + 2 * pi * k - ip.targetPos = 2 * pi * k by ring]
        exact hper k
    · rw [if_neg hp]
      rcases ht with h | ⟨h, -⟩
      · rw [h, sub_self]
      · exact absurd h hp
  have hr : velRamp pi z ip.pos ip.vel ip.targetPos dt ip.velLimit ip.accLimit ip.periodic = some 0 := by
    unfold velRamp
    rw [if_neg (by rintro (h | h) <;> linarith)]
    dsimp only
    rw [he, hv]
    have h0 : |(0 : ℚ)| ≤ ip.accLimit * dt * dt / 2 := by rw [abs_zero]; positivity
    have h1 : -limitSym exact (0 / dt) ip.accLimit = 0 := by
      rw [limit_exact _ _ ha.le, zero_div, min_eq_right ha.le, max_eq_right (by linarith), neg_zero]
    rw [if_pos (Or.inr h0), if_pos h0, h1]
    simp
  unfold Ip.compute
  rw [hm]
  simp only [hr]
  have e1 : posInterp ip.pos ip.vel 0 dt = ip.pos := by unfold posInterp; rw [hv]; ring
  have e2 : velInterp ip.vel 0 dt = 0 := by unfold velInterp; rw [hv]; ring
  rw [e1, e2]
  obtain ⟨mode, tp, tv, u, t, p, v, ta, al, vl, per⟩ := ip
  simp only at hm hv
  subst hm hv
  rfl

/-- Before the acceleration limit is configured it is zero, and the ramp divides by zero. -/
theorem ramp_unconfigured (pi : ℚ) (z : Bool × Bool) (ip : Ip) (sp : Setpts ℚ) (dt ipdt p cp cv : ℚ) (per : Bool) :
    (ip.init.updatePosition p cp cv per).compute pi z sp dt ipdt = none := by
  unfold Ip.compute velRamp Ip.updatePosition Ip.init
  simp

example : ∃ s, PosEv.run 3 1 (⟨.pos, 10, 0, 0, 0, 0, 0, 0, 1, 2, false⟩, ⟨false, false, 0, 0, 0⟩)
    (List.replicate 4 (.period 0 (false, false))) = some s ∧ s.1.vel = 2 := ⟨_, rfl, by decide +kernel⟩

end Verif.Drive
