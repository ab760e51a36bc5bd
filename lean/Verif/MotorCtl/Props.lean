import Verif.MotorCtl.Model
import Mathlib.Data.List.Induction

/-!
# Motor PWM and watchdog properties (C52, C05)
-/

namespace Verif.MotorCtl

open CFloat

/-! ## C52: PWM -/

theorem motorPwmSet_fin (q : ℚ) :
    motorPwmSet (fin q) = toInt32 (fin ((max (-95/100) (min (95/100) q)) * pwmPeriod)) := by
  unfold motorPwmSet lt
  simp only [decide_eq_true_eq]
  by_cases h1 : (95/100 : ℚ) < q
  · have : max (-95/100 : ℚ) (min (95/100) q) = 95/100 := by
      rw [min_eq_left h1.le, max_eq_right (by norm_num)]
    rw [this, if_pos h1]
  · by_cases h2 : q < (-95/100 : ℚ)
    · have : max (-95/100 : ℚ) (min (95/100) q) = -95/100 := by
        rw [min_eq_right (by linarith), max_eq_left h2.le]
      rw [this, if_neg h1, if_pos h2]
    · have : max (-95/100 : ℚ) (min (95/100) q) = q := by
        rw [min_eq_right (by linarith), max_eq_right (by linarith)]
      rw [this, if_neg h1, if_neg h2]

theorem trunc_scaled_bounds {q : ℚ} (h1 : -95/100 ≤ q) (h2 : q ≤ 95/100) :
    -2736 ≤ trunc (q * pwmPeriod) ∧ trunc (q * pwmPeriod) ≤ 2736 := by
  unfold pwmPeriod
  constructor
  · exact le_trunc_of_le (by norm_num) (by push_cast; linarith)
  · exact trunc_le_of_le (by norm_num) (by push_cast; linarith)

/-- Specification of the duty cycle the stage should produce: the command limited to ±95 %. -/
def clampDuty : CFloat → ℚ
  | fin q => max (-95/100) (min (95/100) q)
  | posInf => 95/100
  | negInf => -95/100
  | nan => 0

theorem clampDuty_bounds (dc : CFloat) : -95/100 ≤ clampDuty dc ∧ clampDuty dc ≤ 95/100 := by
  cases dc <;> simp [clampDuty] <;> norm_num

/-- C52: for every duty cycle other than NaN, `power_pwm` is defined and is the limited duty cycle
in timer ticks, rounded towards zero. -/
theorem motorPwmSet_spec (dc : CFloat) (h : dc ≠ nan) :
    motorPwmSet dc = some (trunc (clampDuty dc * 2880)) := by
  have key : ∀ q : ℚ, -95/100 ≤ q → q ≤ 95/100 →
      toInt32 (fin (q * pwmPeriod)) = some (trunc (q * 2880)) := by
    intro q h1 h2
    obtain ⟨a, b⟩ := trunc_scaled_bounds h1 h2
    unfold toInt32
    simp only
    rw [if_pos ⟨by omega, by omega⟩]
    simp [pwmPeriod]
  cases dc with
  | fin q =>
    rw [motorPwmSet_fin]
    exact key _ (clampDuty_bounds (fin q)).1 (clampDuty_bounds (fin q)).2
  | posInf => exact key (95/100) (by norm_num) (by norm_num)
  | negInf => exact key (-95/100) (by norm_num) (by norm_num)
  | nan => exact absurd rfl h

example : motorPwmSet posInf = some 2736 := by
  rw [motorPwmSet_spec _ (by decide)]; simp [clampDuty, trunc]; norm_num

/-- NaN is not caught by the two comparisons; its conversion is undefined. -/
theorem motorPwmSet_nan : motorPwmSet nan = none := rfl

/-- C52: for every duty cycle other than NaN, whatever the previous register contents and in both
recharge phases: both compare values lie within `[0, period]`; a non-negative command leaves the
direction side fully low and pulses only the power side; a command of at least one negative tick
holds the direction side high (or at the recharge level) and pulses the power side below it. -/
theorem pwm_range (dc : CFloat) (h : dc ≠ nan) (r : PwmRegs) :
    ∃ p, motorPwmSet dc = some p ∧
      let r' := pwmCounterReset p r
      (0 ≤ r'.dir ∧ r'.dir ≤ 2880) ∧ (0 ≤ r'.pow ∧ r'.pow ≤ 2880) ∧
      (0 ≤ clampDuty dc → r'.dir = 0 ∧ r'.pow ≤ 2736) ∧
      (clampDuty dc ≤ -1/2880 → r'.dir = (if r.rechargeFlag then 2160 else 2880) ∧ r'.pow < r'.dir) := by
  refine ⟨_, motorPwmSet_spec dc h, ?_⟩
  obtain ⟨b1, b2⟩ := clampDuty_bounds dc
  have hb := trunc_scaled_bounds b1 b2
  have e : clampDuty dc * (pwmPeriod : ℚ) = clampDuty dc * 2880 := by simp [pwmPeriod]
  rw [e] at hb
  generalize hp : trunc (clampDuty dc * 2880) = p at hb
  have hpos : 0 ≤ clampDuty dc → 0 ≤ p := fun h0 => hp ▸ trunc_nonneg (by linarith)
  have hneg : clampDuty dc ≤ -1/2880 → p ≤ -1 := by
    intro h0
    have := (trunc_upper (q := clampDuty dc * 2880) (by linarith)).2
    rw [hp] at this
    have : (p : ℚ) < 0 := by linarith
    have : p < 0 := by exact_mod_cast this
    omega
  unfold pwmCounterReset pwmPeriod dirRecharge rechargeCorrection pwmPeriod dirRecharge
  by_cases h0 : p ≥ 0
  · rw [if_pos h0]
    refine ⟨by simp, ⟨h0, by simp only; omega⟩, fun _ => ⟨rfl, by simp only; omega⟩, fun hh => ?_⟩
    have := hneg hh; omega
  · rw [if_neg h0]
    cases r.rechargeFlag with
    | true =>
      simp only [if_true]
      refine ⟨by simp, ?_, fun hh => absurd (hpos hh) h0, fun _ => ⟨trivial, ?_⟩⟩ <;> split <;> omega
    | false =>
      simp only [Bool.false_eq_true, if_false]
      exact ⟨by simp, by omega, fun hh => absurd (hpos hh) h0, fun _ => ⟨trivial, by omega⟩⟩

/-- Specification: mean differential bridge voltage over one PWM period, in ticks (share of time the
power side is high minus share of time the direction side is high). -/
def meanDrive (r : PwmRegs) : Int := r.pow - r.dir

/-- C52: the bridge's mean drive is exactly the commanded `power_pwm` in normal cycles, and in
recharge cycles too as long as the command is at least `-2160` ticks; below that a recharge cycle
delivers `-2160`. -/
theorem pwm_mean_drive (p : Int) (h1 : -2736 ≤ p) (h2 : p ≤ 2736) (r : PwmRegs) :
    meanDrive (pwmCounterReset p r) =
      (if p < 0 ∧ r.rechargeFlag then max p (-2160) else p) := by
  unfold meanDrive pwmCounterReset pwmPeriod dirRecharge rechargeCorrection pwmPeriod dirRecharge
  by_cases h0 : p ≥ 0
  · have : ¬ p < 0 := by omega
    simp [h0, this]
  · have h0' : p < 0 := by omega
    cases hr : r.rechargeFlag with
    | true => simp [h0, h0']; split <;> omega
    | false => simp [h0]

/-- C52: at most one recharge cycle per trigger: after any callback the recharge flag is clear. -/
theorem pwm_recharge_once (p : Int) (r : PwmRegs) : (pwmCounterReset p r).rechargeFlag = false := by
  unfold pwmCounterReset; simp only; split
  · rfl
  · split <;> rfl

/-- The PWM timer over one period: its callback runs only while notifications are on (:33-67 is called by the driver then). -/
def pwmPeriodEnd (p : Int) (r : PwmRegs) : PwmRegs := if r.notify then pwmCounterReset p r else r

/-- C52: a trigger switches the callback on, and it keeps running until it has written the non-recharge values: after two
periods the notification is off and the registers hold the normal values for the current command; and if the trigger
asks for a recharge while the motor is driven backwards, the first of the two periods is a recharge. -/
theorem pwm_callbacks_settle (p : Int) (r : PwmRegs) (rc : Bool) :
    let r1 := pwmPeriodEnd p (pwmTrigger rc r)
    let r2 := pwmPeriodEnd p r1
    r2.notify = false ∧ meanDrive r2 = p ∧ (rc = true → p < 0 → r1.dir = dirRecharge) ∧
      (r1.dir = dirRecharge → rc = true ∧ p < 0) := by
  have h : ∀ r : PwmRegs, r.rechargeFlag = false →
      (pwmCounterReset p r).notify = false ∧ meanDrive (pwmCounterReset p r) = p := by
    intro r hr
    unfold meanDrive pwmCounterReset pwmPeriod
    by_cases h0 : p ≥ 0 <;> simp [h0, hr]
  have h1 : pwmPeriodEnd p (pwmTrigger rc r) = pwmCounterReset p (pwmTrigger rc r) := rfl
  intro r1 r2
  have e1 : r1 = pwmCounterReset p (pwmTrigger rc r) := h1
  refine ⟨?_, ?_, ?_, ?_⟩
  · show (pwmPeriodEnd p r1).notify = false
    unfold pwmPeriodEnd
    by_cases hn : r1.notify = true
    · rw [if_pos hn, e1]; exact (h _ (pwm_recharge_once p _)).1
    · rw [if_neg hn]; simpa using hn
  · show meanDrive (pwmPeriodEnd p r1) = p
    unfold pwmPeriodEnd
    by_cases hn : r1.notify = true
    · rw [if_pos hn, e1]; exact (h _ (pwm_recharge_once p _)).2
    · rw [if_neg hn]
      rw [e1] at hn ⊢
      by_cases hp : p ≥ 0
      · unfold meanDrive pwmCounterReset pwmPeriod; simp [hp]
      · cases rc with
        | false => exact (h (pwmTrigger false r) rfl).2
        | true => exfalso; apply hn; simp [pwmCounterReset, pwmTrigger, hp]
  · intro hr hp
    rw [e1, hr]
    simp [pwmCounterReset, pwmTrigger, Int.not_le.mpr hp]
  · intro hd
    rw [e1] at hd
    unfold pwmCounterReset pwmTrigger dirRecharge pwmPeriod at hd
    by_cases hp : p ≥ 0
    · simp [hp] at hd
    · cases rc with
      | false => simp [hp] at hd
      | true => exact ⟨rfl, by omega⟩

/-! ## C05: watchdog -/

/-- Specification: microseconds elapsed since the last completed setpoint update (or since
`control_init`), computed from the history alone. -/
def sinceUpdate (es : List Ev) : Nat :=
  es.foldl (fun acc e => match e with
    | .advance us => acc + us
    | .stamp => 0
    | _ => acc) 0

/-- Specification: the low-battery threshold in force. -/
def threshold (es : List Ev) : ℚ :=
  es.foldl (fun acc e => match e with
    | .setLowBatt th => th
    | _ => acc) 5

theorem run_now_last (t0 : Nat) (es : List Ev) :
    ∃ l, (run (initAt t0) es).last = stampAt l ∧ (run (initAt t0) es).now = l + sinceUpdate es ∧
      (run (initAt t0) es).lowBattTh = threshold es := by
  induction es using List.reverseRecOn with
  | nil => exact ⟨t0, rfl, rfl, rfl⟩
  | append_singleton es e ih =>
    obtain ⟨l, h1, h2, h3⟩ := ih
    unfold run sinceUpdate threshold at *
    simp only [List.foldl_append, List.foldl_cons, List.foldl_nil]
    cases e with
    | advance us => exact ⟨l, h1, by simp only [step, h2]; omega, h3⟩
    | store => exact ⟨l, h1, h2, h3⟩
    | storeVoltage v => exact ⟨l, h1, h2, h3⟩
    | stamp => exact ⟨_, rfl, rfl, h3⟩
    | setLowBatt th => exact ⟨l, h1, h2, rfl⟩

theorem durationUs_stampAt (l d : Nat) :
    Timestamp.durationUs (stampAt l) (stampAt (l + d)) =
      if d % 2^32 < 2^31 then ((d % 2^32 : Nat) : Int) else (d % 2^32 : Nat) - 2^32 := by
  unfold Timestamp.durationUs stampAt
  rw [BitVec.toInt_eq_toNat_cond, BitVec.toNat_sub, BitVec.toNat_ofNat, BitVec.toNat_ofNat]
  have : (2 ^ 32 - l % 2 ^ 32 + (l + d) % 2 ^ 32) % 2 ^ 32 = d % 2^32 := by omega
  rw [this]
  split <;> split <;> omega

theorem timeout_iff (l d : Nat) :
    Timestamp.durationS (stampAt l) (stampAt (l + d)) > ctrlTimeout ↔
      300000 < d % 2^32 ∧ d % 2^32 < 2^31 := by
  unfold Timestamp.durationS ctrlTimeout
  rw [gt_iff_lt, lt_div_iff₀ (by norm_num), durationUs_stampAt]
  constructor
  · intro h
    have : (300000 : Int) < if d % 2^32 < 2^31 then ((d % 2^32 : Nat) : Int) else (d % 2^32 : Nat) - 2^32 := by
      have h' := lt_of_eq_of_lt (show ((300000 : Int) : ℚ) = 3 / 10 * 1000000 by norm_num) h
      exact Int.cast_lt.mp h'
    split at this <;> omega
  · rintro ⟨h1, h2⟩
    rw [if_pos h2]
    have : ((300000 : Int) : ℚ) < ((d % 2^32 : Nat) : Int) := by
      exact_mod_cast h1
    refine lt_of_eq_of_lt ?_ this
    norm_num

/-- C05, exact: after any history, a run of the loop cuts the motor (0 V and PID integrators reset)
iff the battery is below the threshold in force or the elapsed time since the last setpoint, reduced
modulo 2^32 us, lies strictly between 0.3 s and 2^31 us. Otherwise it drives what was computed. -/
theorem loop_cut_iff (t0 : Nat) (es : List Ev) (batt cascade : ℚ) :
    (loop (run (initAt t0) es) batt cascade).reset = true ↔
      batt < threshold es ∨ (300000 < sinceUpdate es % 2^32 ∧ sinceUpdate es % 2^32 < 2^31) := by
  obtain ⟨l, h1, h2, h3⟩ := run_now_last t0 es
  unfold loop
  simp only [h1, h2, h3, timeout_iff]
  split <;> simp_all

/-- C05: a cut run of the loop writes 0 V, and (for any non-zero battery reading) zero PWM. -/
theorem loop_reset_zero (s : Ctrl) (batt cascade : ℚ)
    (h : (loop s batt cascade).reset = true) (hb : batt ≠ 0) :
    (loop s batt cascade).volt = 0 ∧ (loop s batt cascade).pwm = some 0 := by
  unfold loop at *
  simp only at *
  split at h
  · rw [if_pos ‹_›]
    refine ⟨rfl, ?_⟩
    simp only [setMotorVoltage, divFin, if_neg hb, zero_div]
    rw [motorPwmSet_spec _ (by simp)]
    simp [clampDuty, trunc]
    norm_num
  · simp at h

/-- C05 (partial): once more than 0.3 s, but less than 2^31 us (35.8 minutes), have passed since the
last setpoint update, every run of the control loop drives the motor with 0 V and zero PWM, whatever
the history, the mode and the cascade output. The restriction to 2^31 us is necessary, see
`loop_rearms_after_wrap`. The battery reading must not be exactly 0, see `loop_zero_battery`. -/
theorem loop_cut_when_idle_partial (t0 : Nat) (es : List Ev) (batt cascade : ℚ) (hb : batt ≠ 0)
    (h1 : 300000 < sinceUpdate es) (h2 : sinceUpdate es < 2^31) :
    (loop (run (initAt t0) es) batt cascade).volt = 0 ∧
    (loop (run (initAt t0) es) batt cascade).pwm = some 0 := by
  apply loop_reset_zero _ _ _ _ hb
  rw [loop_cut_iff]
  right
  have : sinceUpdate es % 2^32 = sinceUpdate es := Nat.mod_eq_of_lt (by omega)
  omega

example : 300000 < sinceUpdate [.stamp, .advance 200000, .storeVoltage 12, .advance 200000] ∧
    sinceUpdate [.stamp, .advance 200000, .storeVoltage 12, .advance 200000] < 2^31 := by decide

/-- C05: whenever the battery is below its low threshold every run of the loop drives 0 V. -/
theorem loop_cut_when_low_battery (t0 : Nat) (es : List Ev) (batt cascade : ℚ) (hb : batt ≠ 0)
    (h : batt < threshold es) :
    (loop (run (initAt t0) es) batt cascade).volt = 0 ∧
    (loop (run (initAt t0) es) batt cascade).pwm = some 0 :=
  loop_reset_zero _ _ _ ((loop_cut_iff t0 es batt cascade).mpr (Or.inl h)) hb

example : (4 : ℚ) < threshold [.stamp, .advance 3] := by simp [threshold]; norm_num

/-- C05: within 0.3 s of a setpoint, with enough battery, the motor is driven with the voltage
setpoint or the cascade output (the watchdog does not cut spuriously). -/
theorem loop_driven (t0 : Nat) (es : List Ev) (batt cascade : ℚ)
    (h : threshold es ≤ batt) (ht : sinceUpdate es ≤ 300000) :
    (loop (run (initAt t0) es) batt cascade).volt =
      if (run (initAt t0) es).mode = .volt then (run (initAt t0) es).volt else cascade := by
  have hr : (loop (run (initAt t0) es) batt cascade).reset ≠ true := by
    rw [Ne, loop_cut_iff]
    have : sinceUpdate es % 2^32 = sinceUpdate es := Nat.mod_eq_of_lt (by omega)
    rw [this]
    rintro (h' | h')
    · linarith
    · omega
  unfold loop at *
  simp only at *
  split at hr
  · simp at hr
  · rw [if_neg ‹_›]

/-- C05: false as stated. 2^31 us (35.8 minutes) after the last setpoint the 32-bit duration turns
negative, and the loop drives the motor again although no setpoint has arrived: here with the
voltage set 36 minutes before. -/
theorem loop_rearms_after_wrap :
    sinceUpdate [.storeVoltage 12, .stamp, .advance (2^31)] = 2^31 ∧
    (loop (run (initAt 0) [.storeVoltage 12, .stamp, .advance (2^31)]) 16 0).volt = 12 ∧
    (loop (run (initAt 0) [.storeVoltage 12, .stamp, .advance (2^31)]) 16 0).pwm = some 2160 := by
  have hr : (loop (run (initAt 0) [.storeVoltage 12, .stamp, .advance (2^31)]) 16 0).reset ≠ true := by
    rw [Ne, loop_cut_iff]
    simp [threshold, sinceUpdate]
    norm_num
  have h : loop (run (initAt 0) [.storeVoltage 12, .stamp, .advance (2^31)]) 16 0 =
      ⟨12, false, setMotorVoltage 12 16⟩ := by
    unfold loop at *
    simp only at *
    split at hr
    · simp at hr
    · rw [if_neg ‹_›]; rfl
  refine ⟨rfl, by rw [h], ?_⟩
  rw [h]
  simp only [setMotorVoltage, divFin]
  rw [if_neg (by norm_num), motorPwmSet_spec _ (by simp)]
  have : clampDuty (fin (12/16)) * 2880 = ((2160 : Int) : ℚ) := by
    simp only [clampDuty]; norm_num
  rw [this, trunc_intCast]

/-- Finding: with a battery reading of exactly 0 V (board powered by the bus only) the cut branch
computes 0/0, and the NaN reaches the undefined float-to-integer conversion of `motor_pwm_set`. -/
theorem loop_zero_battery (t0 : Nat) (es : List Ev) (cascade : ℚ) (h : 0 < threshold es) :
    (loop (run (initAt t0) es) 0 cascade).pwm = none := by
  have hr := (loop_cut_iff t0 es 0 cascade).mpr (Or.inl h)
  unfold loop at *
  simp only at *
  split at hr
  · rw [if_pos ‹_›]; simp [setMotorVoltage, divFin, motorPwmSet_nan]
  · simp at hr

/-- Leaving the loop (control_stop) drives zero. -/
theorem afterLoop_zero (batt : ℚ) (hb : batt ≠ 0) : (afterLoop batt).pwm = some 0 := by
  simp only [afterLoop, setMotorVoltage, divFin, if_neg hb, zero_div]
  rw [motorPwmSet_spec _ (by simp)]
  simp [clampDuty, trunc]
  norm_num

end Verif.MotorCtl
