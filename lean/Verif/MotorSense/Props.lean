import Verif.MotorSense.Model
import Verif.Timestamp.Props
import Mathlib.Tactic.Linarith
import Mathlib.Tactic.FieldSimp
import Mathlib.Tactic.Ring
import Mathlib.Tactic.NormNum
import Mathlib.Tactic.Positivity
import Mathlib.Tactic.LinearCombination

/-! # Motor board: light barrier, thermal protection, analog inputs: properties -/

namespace Verif.MotorSense

open CFloat Timestamp

/-! ## Light barrier -/

theorem durationS_stamp {a b : Int} (h1 : -2^31 ≤ b - a) (h2 : b - a < 2^31) :
    durationS (stamp a) (stamp b) = ((b - a : Int) : ℚ) / 1000000 := by
  unfold durationS; rw [durationUs_stamp a b h1 h2]

theorem crossing_twice (r : Rpm) (a b : BitVec 32) : (r.crossing a).crossing b = ⟨a, b⟩ := rfl

/-- The last two crossings of the barrier were at the instants `a < b` (microseconds) and the time `t` is
read after the second: during the next period the wheel is taken to go on at the mean velocity of the
last turn, afterwards the velocity is one turn per time since the last crossing. -/
theorem rpm_reading {a b t : Int} (hab : a < b) (hp : b - a < 2^31) (hbt : b ≤ t) (ht : t - b < 2^31) :
    (⟨stamp a, stamp b⟩ : Rpm).get (stamp t) =
      if t - b < b - a then (fin (1000000 / (b - a)), fin ((t - b) / (b - a)))
      else (fin (1000000 / (t - b)), fin 0) := by
  unfold Rpm.get Rpm.period
  simp only [durationS_stamp (show -2^31 ≤ t - b by omega) ht,
    durationS_stamp (show -2^31 ≤ b - a by omega) hp]
  have hP : (0 : ℚ) < ((b - a : Int) : ℚ) := by exact_mod_cast (by omega : (0 : Int) < b - a)
  have hP' : ((b - a : Int) : ℚ) / 1000000 ≠ 0 := by positivity
  by_cases h : t - b < b - a
  · rw [if_pos h, if_pos (by
      have : ((t - b : Int) : ℚ) < ((b - a : Int) : ℚ) := by exact_mod_cast h
      linarith)]
    simp only [divFin, if_neg hP']
    push_cast at hP ⊢
    have : (b : ℚ) - a ≠ 0 := by linarith
    congr 2 <;> field_simp
  · rw [if_neg h, if_neg (by
      have : ((b - a : Int) : ℚ) ≤ ((t - b : Int) : ℚ) := by exact_mod_cast (by omega : b - a ≤ t - b)
      linarith)]
    have hD : (0 : ℚ) < ((t - b : Int) : ℚ) := by exact_mod_cast (by omega : (0 : Int) < t - b)
    have hD' : ((t - b : Int) : ℚ) / 1000000 ≠ 0 := by positivity
    simp only [divFin, if_neg hD']
    push_cast at hD ⊢
    have : (t : ℚ) - b ≠ 0 := by linarith
    congr 2; field_simp

/-- The single getters return the parts of the combined one. -/
theorem rpm_parts (r : Rpm) (t : BitVec 32) :
    r.get t = (r.getVelocity t, r.getPosition t) := by
  unfold Rpm.get Rpm.getVelocity Rpm.getPosition
  simp only
  split <;> rfl

/-- The position is within a turn. -/
theorem rpm_position_partial {a b t : Int} (hab : a < b) (hp : b - a < 2^31) (hbt : b ≤ t) (ht : t - b < 2^31) :
    ∃ x : ℚ, (⟨stamp a, stamp b⟩ : Rpm).getPosition (stamp t) = fin x ∧ 0 ≤ x ∧ x < 1 := by
  have h := rpm_reading hab hp hbt ht
  rw [rpm_parts] at h
  have hb : (0 : ℚ) < b - a := by exact_mod_cast (by omega : (0 : Int) < b - a)
  have h0 : (0 : ℚ) ≤ t - b := by exact_mod_cast (by omega : (0 : Int) ≤ t - b)
  split at h
  · next hlt =>
    have h1 : (t : ℚ) - b < b - a := by exact_mod_cast hlt
    exact ⟨_, congrArg Prod.snd h, by positivity, (div_lt_one hb).mpr h1⟩
  · exact ⟨0, congrArg Prod.snd h, le_refl _, by norm_num⟩

/-- A wheel turning at constant velocity, one turn in `T` microseconds: its angle since the last crossing at
the instant `b`, in turns, is `(t - b) / T`. Until the next crossing position and velocity are exact. -/
theorem rpm_constant {T b t : Int} (hT : 0 < T) (hp : T < 2^31) (hbt : b ≤ t) (ht : t < b + T) :
    (⟨stamp (b - T), stamp b⟩ : Rpm).get (stamp t) = (fin (1000000 / T), fin ((t - b) / T)) := by
  have h := rpm_reading (a := b - T) (b := b) (t := t) (by omega) (by omega) hbt (by omega)
  rw [if_pos (by omega)] at h
  rw [h]
  push_cast
  congr 2 <;> congr 1 <;> ring

/-- The next crossing is at `c`, after the reading: the velocity read is either the mean velocity of the last turn,
or it lies between the mean velocity of the turn in progress and that of the last one. -/
theorem rpm_velocity_partial {a b t c : Int} (hab : a < b) (hp : b - a < 2^31) (hbt : b ≤ t) (ht : t - b < 2^31)
    (hc : t < c) :
    ∃ v : ℚ, (⟨stamp a, stamp b⟩ : Rpm).getVelocity (stamp t) = fin v ∧
      (v = 1000000 / (b - a) ∨ (1000000 / (c - b) < v ∧ v ≤ 1000000 / (b - a))) := by
  have h := rpm_reading hab hp hbt ht
  rw [rpm_parts] at h
  have hb : (0 : ℚ) < b - a := by exact_mod_cast (by omega : (0 : Int) < b - a)
  split at h
  · exact ⟨_, congrArg Prod.fst h, Or.inl rfl⟩
  · next hlt =>
    have h1 : (b : ℚ) - a ≤ t - b := by exact_mod_cast (by omega : b - a ≤ t - b)
    have h2 : (t : ℚ) - b < c - b := by
      have : (t : ℚ) < c := by exact_mod_cast hc
      linarith
    refine ⟨_, congrArg Prod.fst h, Or.inr ⟨?_, ?_⟩⟩
    · exact div_lt_div_of_pos_left (by norm_num) (by linarith) h2
    · exact div_le_div_of_nonneg_left (by norm_num) hb h1

/-- The velocity never rises between two crossings. -/
theorem rpm_velocity_falls {a b t t' : Int} (hab : a < b) (hp : b - a < 2^31) (hbt : b ≤ t) (htt : t ≤ t')
    (ht : t' - b < 2^31) :
    ∃ v v' : ℚ, (⟨stamp a, stamp b⟩ : Rpm).getVelocity (stamp t) = fin v ∧
      (⟨stamp a, stamp b⟩ : Rpm).getVelocity (stamp t') = fin v' ∧ v' ≤ v := by
  have h := rpm_reading hab hp hbt (by omega)
  have h' := rpm_reading hab hp (hbt.trans htt) ht
  rw [rpm_parts] at h h'
  have hb : (0 : ℚ) < b - a := by exact_mod_cast (by omega : (0 : Int) < b - a)
  by_cases h1 : t - b < b - a
  · rw [if_pos h1] at h
    by_cases h2 : t' - b < b - a
    · rw [if_pos h2] at h'
      exact ⟨_, _, congrArg Prod.fst h, congrArg Prod.fst h', le_refl _⟩
    · rw [if_neg h2] at h'
      have h3 : (b : ℚ) - a ≤ t' - b := by exact_mod_cast (by omega : b - a ≤ t' - b)
      exact ⟨_, _, congrArg Prod.fst h, congrArg Prod.fst h', div_le_div_of_nonneg_left (by norm_num) hb h3⟩
  · rw [if_neg h1] at h
    rw [if_neg (by omega)] at h'
    have h3 : (0 : ℚ) < t - b := by exact_mod_cast (by omega : (0 : Int) < t - b)
    have h4 : (t : ℚ) - b ≤ t' - b := by
      have : (t : ℚ) ≤ t' := by exact_mod_cast htt
      linarith
    exact ⟨_, _, congrArg Prod.fst h, congrArg Prod.fst h', div_le_div_of_nonneg_left (by norm_num) h3 h4⟩

/-- A crossing between reading the time and taking the lock gives a negative position. -/
theorem rpm_race {a b t : Int} (hab : a < b) (hp : b - a < 2^31) (htb : t < b) (ht : b - t ≤ 2^31) :
    ∃ x : ℚ, (⟨stamp a, stamp b⟩ : Rpm).getPosition (stamp t) = fin x ∧ x = (t - b) / (b - a) ∧ x < 0 := by
  have hP : (0 : ℚ) < ((b - a : Int) : ℚ) := by exact_mod_cast (by omega : (0 : Int) < b - a)
  have hD : ((t - b : Int) : ℚ) < 0 := by exact_mod_cast (by omega : t - b < (0 : Int))
  have hP' : ((b - a : Int) : ℚ) / 1000000 ≠ 0 := by positivity
  unfold Rpm.getPosition Rpm.period
  simp only [durationS_stamp (show -2^31 ≤ t - b by omega) (show t - b < 2^31 by omega),
    durationS_stamp (show -2^31 ≤ b - a by omega) hp]
  rw [if_pos (by linarith)]
  simp only [divFin, if_neg hP']
  refine ⟨_, rfl, ?_, ?_⟩
  · push_cast at hP ⊢
    have : (b : ℚ) - a ≠ 0 := by linarith
    field_simp
  · exact div_neg_of_neg_of_pos (by linarith) (by positivity)

example : (⟨stamp 0, stamp 100000⟩ : Rpm).getPosition (stamp 99990) = fin (-1/10000) := by decide +kernel

/-- A wheel that has been standing still for 36 minutes is reported as turning again. -/
theorem rpm_standing : (⟨stamp 0, stamp 100000⟩ : Rpm).getVelocity (stamp (100000 + 2^31 - 1)) = fin (1000000 / 2147483647) ∧
    (⟨stamp 0, stamp 100000⟩ : Rpm).getVelocity (stamp (100000 + 2^31)) = fin 10 := by
  decide +kernel

/-- Two crossings at the same microsecond, or a reading at time zero before any crossing: infinite velocity. -/
theorem rpm_infinite : (⟨stamp 5, stamp 5⟩ : Rpm).getVelocity (stamp 5) = posInf ∧
    Rpm.init.getVelocity (stamp 0) = posInf := by
  decide +kernel

/-- Without any crossing the velocity is one turn since the start of the clock. -/
theorem rpm_never {t : Int} (h0 : 0 < t) (ht : t < 2^31) :
    Rpm.init.get (stamp t) = (fin (1000000 / t), fin 0) := by
  have hz : (0 : BitVec 32) = stamp 0 := by decide
  unfold Rpm.get Rpm.period Rpm.init
  simp only [hz, durationS_stamp (show -2^31 ≤ t - 0 by omega) (show t - 0 < 2^31 by omega),
    durationS_stamp (show (-2^31 : Int) ≤ 0 - 0 by omega) (show (0 - 0 : Int) < 2^31 by omega)]
  have hT : (0 : ℚ) < (t : ℚ) := by exact_mod_cast h0
  rw [if_neg (by push_cast; simp; positivity)]
  push_cast
  simp only [divFin, sub_zero]
  rw [if_neg (by positivity)]
  congr 2; field_simp

example : (⟨stamp 0, stamp 100000⟩ : Rpm).get (stamp 150000) = (fin 10, fin (1/2)) := by decide +kernel

/-! ## Thermal protection -/

/-- Physical parameters. -/
structure Prot.Ok (p : Prot) (dt : ℚ) : Prop where
  r : 0 < p.rTh
  c : 0 < p.cTh
  gain : 0 < p.gain
  pos : 0 < dt
  /-- the period is not longer than the thermal time constant -/
  slow : dt ≤ p.rTh * p.cTh

/-- The temperatures and limits for a sequence of currents. -/
def Prot.run (p : Prot) (dt : ℚ) : List ℚ → List (ℚ × CFloat)
  | [] => []
  | i :: is => (((p.update i dt).1).t, (p.update i dt).2) :: Prot.run (p.update i dt).1 dt is

theorem update_t (p : Prot) (i dt : ℚ) :
    (p.update i dt).1.t = p.t + (i * p.gain - (p.t - p.tAmbient) / p.rTh) * dt / p.cTh := rfl

/-- `v ≤ limit` for a limit as returned. -/
def Within (i : ℚ) : CFloat → Prop
  | .fin l => i ≤ l
  | .posInf => True
  | _ => False

/-- Each current respects the limit returned by the previous update (`limit` before the first). -/
def Obeys (p : Prot) (dt : ℚ) : CFloat → List ℚ → Prop
  | _, [] => True
  | l, i :: is => Within i l ∧ Obeys (p.update i dt).1 dt (p.update i dt).2 is

theorem heat_step {t i amb r c g dt imax : ℚ} (hr : 0 < r) (hc : 0 < c) (hg : 0 < g) (hdt : 0 < dt)
    (hs : dt ≤ r * c) (hi : i ≤ imax) :
    t + (i * g - (t - amb) / r) * dt / c ≤ max t amb + imax * g * dt / c := by
  have e : t + (i * g - (t - amb) / r) * dt / c =
      (1 - dt / (r * c)) * t + dt / (r * c) * amb + i * g * dt / c := by
    field_simp; ring
  rw [e]
  have h1 : 0 ≤ dt / (r * c) := by positivity
  have h2 : dt / (r * c) ≤ 1 := by rw [div_le_one (by positivity)]; exact hs
  have h3 : i * g * dt / c ≤ imax * g * dt / c := by gcongr
  have h4 := mul_le_mul_of_nonneg_left (le_max_left t amb) (by linarith : 0 ≤ 1 - dt / (r * c))
  have h5 := mul_le_mul_of_nonneg_left (le_max_right t amb) h1
  nlinarith

theorem cool_step {t t0 i amb r c g dt : ℚ} (hr : 0 < r) (hc : 0 < c) (hg : 0 < g) (hdt : 0 < dt)
    (hs : dt ≤ r * c) (hi : i ≤ (t0 - amb) / r / g) :
    t + (i * g - (t - amb) / r) * dt / c ≤ max t0 t := by
  have h1 : i * g ≤ (t0 - amb) / r := by
    rw [le_div_iff₀ hg] at hi; exact hi
  have h2 : (i * g - (t - amb) / r) * dt / c ≤ ((t0 - amb) / r - (t - amb) / r) * dt / c := by
    gcongr
  have e : t + ((t0 - amb) / r - (t - amb) / r) * dt / c = (1 - dt / (r * c)) * t + dt / (r * c) * t0 := by
    field_simp; ring
  have h3 : 0 ≤ dt / (r * c) := by positivity
  have h4 : dt / (r * c) ≤ 1 := by rw [div_le_one (by positivity)]; exact hs
  have h5 := mul_le_mul_of_nonneg_left (le_max_right t0 t) (by linarith : 0 ≤ 1 - dt / (r * c))
  have h6 := mul_le_mul_of_nonneg_left (le_max_left t0 t) h3
  nlinarith

/-- If the currents never exceed `imax` and obey the limits returned, the temperature of the model never exceeds the
maximum by more than what `imax` can add in a single period. Missing: negative currents, for which it is false (`reverse_unprotected`). -/
theorem temperature_bounded_partial (p : Prot) (dt imax : ℚ) (hp : p.Ok dt) (hamb : p.tAmbient ≤ p.tMax)
    (ht : p.t ≤ p.tMax) (himax : 0 ≤ imax) (is : List ℚ) (hi : ∀ i ∈ is, i ≤ imax) (ho : Obeys p dt posInf is) :
    ∀ x ∈ Prot.run p dt is, x.1 ≤ p.tMax + imax * p.gain * dt / p.cTh := by
  obtain ⟨hr, hc, hg, hdt, hs⟩ := hp
  have hB : 0 ≤ imax * p.gain * dt / p.cTh := by positivity
  -- generalise: the limit is either none with t ≤ tMax, or the equilibrium of a bounded temperature
  suffices h : ∀ (is : List ℚ) (q : Prot) (l : CFloat), q.tAmbient = p.tAmbient → q.tMax = p.tMax → q.rTh = p.rTh →
      q.cTh = p.cTh → q.gain = p.gain → q.t ≤ p.tMax + imax * p.gain * dt / p.cTh →
      ((q.t ≤ p.tMax) ∨ ∃ t0, t0 ≤ p.tMax + imax * p.gain * dt / p.cTh ∧
        l = fin ((t0 - p.tAmbient) / p.rTh / p.gain)) → (∀ i ∈ is, i ≤ imax) → Obeys q dt l is →
      ∀ x ∈ Prot.run q dt is, x.1 ≤ p.tMax + imax * p.gain * dt / p.cTh by
    exact h is p posInf rfl rfl rfl rfl rfl (by linarith) (Or.inl ht) hi ho
  intro is
  induction is with
  | nil => intro q l _ _ _ _ _ _ _ _ _ x hx; cases hx
  | cons i is ih =>
    intro q l e1 e2 e3 e4 e5 hq hl hi ho x hx
    have hnew : (q.update i dt).1.t ≤ p.tMax + imax * p.gain * dt / p.cTh := by
      rw [update_t, e1, e3, e4, e5]
      rcases hl with hl | ⟨t0, h0, rfl⟩
      · refine (heat_step hr hc hg hdt hs (hi i (List.mem_cons_self ..))).trans ?_
        have : max q.t p.tAmbient ≤ p.tMax := max_le hl hamb
        linarith
      · refine (cool_step hr hc hg hdt hs ho.1).trans (max_le h0 hq)
    rcases List.mem_cons.mp hx with rfl | hx
    · exact hnew
    · refine ih (q.update i dt).1 (q.update i dt).2 e1 e2 e3 e4 e5 hnew ?_
        (fun j hj => hi j (List.mem_cons_of_mem _ hj)) ho.2 x hx
      by_cases hm : (q.update i dt).1.t ≥ q.tMax
      · refine Or.inr ⟨q.t, hq, ?_⟩
        show (if _ ≥ q.tMax then _ else _) = _
        rw [if_pos (by rw [update_t] at hm; exact hm)]
        simp only [divFin]
        rw [if_neg (by rw [e5]; exact hg.ne'), e1, e3, e5]
      · exact Or.inl (by rw [e2] at hm; linarith)

/-- At constant current the model is the discretised exponential towards the equilibrium temperature. -/
theorem temperature_constant (p : Prot) (dt i : ℚ) (hp : p.Ok dt) (n : Nat) :
    ((fun q : Prot => (q.update i dt).1)^[n] p).t =
      p.tAmbient + p.rTh * p.gain * i +
        (p.t - p.tAmbient - p.rTh * p.gain * i) * (1 - dt / (p.rTh * p.cTh)) ^ n := by
  obtain ⟨hr, hc, hg, hdt, hs⟩ := hp
  have hpar : ∀ n, ((fun q : Prot => (q.update i dt).1)^[n] p).tAmbient = p.tAmbient ∧
      ((fun q : Prot => (q.update i dt).1)^[n] p).rTh = p.rTh ∧
      ((fun q : Prot => (q.update i dt).1)^[n] p).cTh = p.cTh ∧
      ((fun q : Prot => (q.update i dt).1)^[n] p).gain = p.gain := by
    intro n
    induction n with
    | zero => exact ⟨rfl, rfl, rfl, rfl⟩
    | succ n ih => rw [Function.iterate_succ_apply']; exact ih
  induction n with
  | zero => simp
  | succ n ih =>
    rw [Function.iterate_succ_apply', update_t, (hpar n).1, (hpar n).2.1, (hpar n).2.2.1, (hpar n).2.2.2, ih, pow_succ]
    have := hr.ne'; have := hc.ne'
    field_simp
    ring

/-- The sign of the current counts: however strong the current in reverse, the model never gets warmer than at the
start and no limit is ever returned. -/
theorem reverse_unprotected (p : Prot) (dt : ℚ) (hp : p.Ok dt) (hamb : p.tAmbient < p.tMax) (ht : p.t ≤ p.tAmbient)
    (is : List ℚ) (hi : ∀ i ∈ is, i ≤ 0) : ∀ x ∈ Prot.run p dt is, x.1 ≤ p.tAmbient ∧ x.2 = posInf := by
  obtain ⟨hr, hc, hg, hdt, hs⟩ := hp
  induction is generalizing p with
  | nil => intro x hx; cases hx
  | cons i is ih =>
    intro x hx
    have hnew : (p.update i dt).1.t ≤ p.tAmbient := by
      rw [update_t]
      have := heat_step (t := p.t) (amb := p.tAmbient) hr hc hg hdt hs (hi i (List.mem_cons_self ..))
      rw [max_eq_right ht] at this
      simpa using this
    rcases List.mem_cons.mp hx with rfl | hx
    · refine ⟨hnew, ?_⟩
      show (if _ ≥ p.tMax then _ else _) = _
      rw [if_neg]
      have : (p.update i dt).1.t < p.tMax := by linarith
      exact not_le.mpr this
    · exact ih (p.update i dt).1 hamb hnew (fun j hj => hi j (List.mem_cons_of_mem _ hj)) hr hc hg hs x hx

def exProt : Prot := Prot.init 100 10 20 3

example : exProt.Ok (1/2) := ⟨by norm_num [exProt, Prot.init], by norm_num [exProt, Prot.init],
  by norm_num [exProt, Prot.init], by norm_num, by norm_num [exProt, Prot.init]⟩

/-- Full current until the limit is reached, then no more than allowed. -/
example : Obeys exProt (1/2) posInf [500, 500, 500, 2] ∧
    (Prot.run exProt (1/2) [500, 500, 500]) =
      [(125/2, posInf), (3197/32, posInf), (137218984375/1000000000, fin (2496875/1000000))] := by
  simp only [Obeys, Prot.run, Prot.update, exProt, Prot.init, Within, divFin]
  norm_num [Within]

/-! ## Analog inputs -/

/-- The samples of the motor current used in one call: the second channel of each conversion, from conversion
number `first` on. -/
def currents (s : List (BitVec 16)) (first : Nat) : List Nat :=
  (List.range (nSamples - first)).map fun j => (s.getD (4 * (first + j) + 1) 0).toNat

theorem sumFrom_eq (s : List (BitVec 16)) (hs : s.length = 4 * nSamples) :
    ∀ (m j k : Nat) (acc : BitVec 32), j + m = nSamples → m ≤ k →
      sumFrom s nSamples k (4 * j) acc = some (acc + BitVec.ofNat 32 (currents s j).sum) := by
  intro m
  induction m with
  | zero =>
    intro j k acc hj hk
    have hj : j = nSamples := by omega
    subst hj
    have h0 : currents s nSamples = [] := by simp [currents]
    rw [h0]
    cases k with
    | zero => simp [sumFrom]
    | succ k => simp [sumFrom, nChannels, Nat.mul_comm]
  | succ m ih =>
    intro j k acc hj hk
    obtain ⟨k, rfl⟩ : ∃ k', k = k' + 1 := ⟨k - 1, by omega⟩
    rw [sumFrom, if_pos (by simp only [nChannels]; omega)]
    have hlt : 4 * j + 1 < s.length := by omega
    rw [List.getElem?_eq_getElem hlt]
    simp only
    rw [show 4 * j + nChannels = 4 * (j + 1) by simp only [nChannels]; omega, ih (j + 1) k _ (by omega) (by omega)]
    have hc : currents s j = (s[4 * j + 1]'hlt).toNat :: currents s (j + 1) := by
      have : nSamples - j = (nSamples - (j + 1)) + 1 := by omega
      simp only [currents, this, List.range_succ_eq_map, List.map_cons, List.map_map]
      congr 1
      · simp [List.getD_eq_getElem?_getD, hlt]
      · apply List.map_congr_left
        intro x _
        simp only [Function.comp]
        congr 3; omega
    rw [hc, List.sum_cons]
    congr 1
    apply BitVec.eq_of_toNat_eq
    simp [BitVec.toNat_add]
    omega

theorem sum_bound (l : List Nat) (b : Nat) (h : ∀ x ∈ l, x ≤ b) : l.sum ≤ l.length * b := by
  induction l with
  | nil => simp
  | cons a l ih =>
    have h1 := ih fun x hx => h x (List.mem_cons_of_mem _ hx)
    have h2 := h a (List.mem_cons_self ..)
    simp only [List.sum_cons, List.length_cons]
    have : (l.length + 1) * b = l.length * b + b := by ring
    omega

theorem currents_length (s : List (BitVec 16)) (j : Nat) : (currents s j).length = nSamples - j := by
  simp [currents]

/-- The conversion from which on samples are used in the call with this value of the countdown. -/
def firstUsed (countdown : Int) : Nat := if countdown = 3 then 111 else 0

/-- One call with a full buffer: no access outside of it, no overflow; the stored sum and number are those of exactly
the samples used. -/
theorem callback_spec (a : Analog) (hc : 0 ≤ a.countdown ∧ a.countdown ≤ 3) (s : List (BitVec 16))
    (hs : s.length = 4 * nSamples) :
    ∃ a', a.callback s nSamples = some (a', decide (a.countdown = 0)) ∧
      a'.accu = ((currents s (firstUsed a.countdown)).sum : Int) ∧
      a'.nb = ((currents s (firstUsed a.countdown)).length : Int) ∧ 0 < a'.nb ∧
      a'.battery = (s.getD 3 0).toNat ∧ a'.aux = (s.getD 0 0).toNat + (s.getD 2 0).toNat ∧
      a'.countdown = (if a.countdown = 0 then 3 else a.countdown - 1) := by
  have hlen : ∀ i, i < 4 → ∃ x, s[i]? = some x ∧ s.getD i 0 = x := by
    intro i hi
    have hlt : i < s.length := by rw [hs]; simp only [nSamples]; omega
    exact ⟨s[i], List.getElem?_eq_getElem hlt, by simp [List.getD_eq_getElem?_getD, hlt]⟩
  obtain ⟨s0, e0, g0⟩ := hlen 0 (by omega)
  obtain ⟨s2, e2, g2⟩ := hlen 2 (by omega)
  obtain ⟨s3, e3, g3⟩ := hlen 3 (by omega)
  have hmain : ∀ j, j ≤ nSamples → sumFrom s nSamples nSamples (4 * j) 0 =
      some (BitVec.ofNat 32 (currents s j).sum) ∧ (BitVec.ofNat 32 (currents s j).sum).toInt = ((currents s j).sum : Int) := by
    intro j hj
    refine ⟨?_, ?_⟩
    · rw [sumFrom_eq s hs (nSamples - j) j nSamples 0 (by omega) (by omega)]; simp
    · have hb : (currents s j).sum ≤ (nSamples - j) * 65535 := by
        rw [← currents_length s j]
        refine sum_bound _ _ fun x hx => ?_
        simp only [currents, List.mem_map] at hx
        obtain ⟨_, _, rfl⟩ := hx
        have := (s.getD (4 * (j + ‹Nat›) + 1) 0).isLt
        omega
      have hb' : (currents s j).sum < 2^31 := by
        have : (nSamples - j) * 65535 ≤ 243 * 65535 := Nat.mul_le_mul_right _ (by simp only [nSamples]; omega)
        omega
      rw [BitVec.toInt_eq_toNat_of_lt (by simp; omega)]
      simp; omega
  unfold Analog.callback
  simp only [e0, e2, e3, bind, Option.bind, pure]
  by_cases h3 : a.countdown = 3
  · have hf : firstUsed a.countdown = 111 := by simp [firstUsed, h3]
    have hne : ¬ a.countdown = 0 := by omega
    have hi : decide ((if a.countdown = 0 then reload else a.countdown) = reload - 1) = true := by
      rw [if_neg hne, h3]; rfl
    obtain ⟨m1, m2⟩ := hmain 111 (by simp [nSamples])
    simp only [hi, if_true, hf]
    rw [show ignored * nChannels = 4 * 111 from rfl, m1]
    generalize BitVec.ofNat 32 (currents s 111).sum = w at m2
    dsimp only
    refine ⟨_, rfl, m2, ?_, ?_, ?_, ?_, ?_⟩
    · rw [currents_length]; simp [nSamples, ignored]
    · show (0 : Int) < (nSamples : Int) - (ignored : Int); decide
    · rw [g3]
    · rw [g0, g2]
    · simp only [if_neg hne]
  · have hf : firstUsed a.countdown = 0 := by simp [firstUsed, h3]
    have hi : decide ((if a.countdown = 0 then reload else a.countdown) = reload - 1) = false := by
      rw [decide_eq_false_iff_not]
      by_cases h0 : a.countdown = 0
      · rw [if_pos h0]; decide
      · rw [if_neg h0]; show ¬ a.countdown = 3; exact h3
    obtain ⟨m1, m2⟩ := hmain 0 (by simp [nSamples])
    simp only [hi, hf]
    simp only [Nat.mul_zero] at m1
    simp only [Bool.false_eq_true, if_false, m1]
    generalize BitVec.ofNat 32 (currents s 0).sum = w at m2
    refine ⟨_, rfl, m2, ?_, ?_, ?_, ?_, ?_⟩
    · rw [currents_length]; simp
    · show (0 : Int) < (nSamples : Int); decide
    · rw [g3]
    · rw [g0, g2]
    · show (if a.countdown = 0 then reload else a.countdown) - 1 = _
      split <;> rfl

example : (Analog.init.callback (List.replicate 972 100#16) nSamples).map (fun x => (x.1.accu, x.1.nb, x.2)) =
    some (24300, 243, true) := by decide +kernel

/-- The state after a sequence of calls, with what was passed to the PWM in each. -/
def calls (a : Analog) : List (List (BitVec 16)) → Option (Analog × List Bool)
  | [] => some (a, [])
  | s :: l => do
    let (a, b) ← a.callback s nSamples
    let (a, bs) ← calls a l
    return (a, b :: bs)

/-- The value of the countdown after `n` calls. -/
def countdownAt (n : Nat) : Int := if n % 4 = 0 then 0 else 4 - n % 4

/-- Whatever the samples: call number `k` triggers a recharge of the charge pump exactly if `k` is divisible by 4, the
call after it and no other one ignores its first 111 samples. -/
theorem recharge_every_fourth (l : List (List (BitVec 16))) (hl : ∀ s ∈ l, s.length = 4 * nSamples) :
    ∃ a bs, calls Analog.init l = some (a, bs) ∧ bs = (List.range l.length).map (fun k => decide (k % 4 = 0)) ∧
      a.countdown = countdownAt l.length ∧
      ∀ s l', l = l' ++ [s] → a.accu = ((currents s (if l'.length % 4 = 1 then 111 else 0)).sum : Int) ∧
        a.nb = ((currents s (if l'.length % 4 = 1 then 111 else 0)).length : Int) := by
  suffices h : ∀ (l : List (List (BitVec 16))) (a : Analog) (n : Nat), (∀ s ∈ l, s.length = 4 * nSamples) →
      a.countdown = countdownAt n → ∃ a' bs, calls a l = some (a', bs) ∧
        bs = (List.range l.length).map (fun k => decide ((n + k) % 4 = 0)) ∧ a'.countdown = countdownAt (n + l.length) ∧
        ∀ s l', l = l' ++ [s] → a'.accu = ((currents s (if (n + l'.length) % 4 = 1 then 111 else 0)).sum : Int) ∧
          a'.nb = ((currents s (if (n + l'.length) % 4 = 1 then 111 else 0)).length : Int) by
    have := h l Analog.init 0 hl rfl
    simpa using this
  intro l
  induction l with
  | nil =>
    intro a n _ ha
    refine ⟨a, [], rfl, rfl, ha, ?_⟩
    intro s l' h
    simp at h
  | cons s l ih =>
    intro a n hl ha
    have hr : 0 ≤ a.countdown ∧ a.countdown ≤ 3 := by
      rw [ha]; unfold countdownAt; split <;> omega
    obtain ⟨a1, h1, h2, h3, _, _, _, h7⟩ := callback_spec a hr s (hl s (List.mem_cons_self ..))
    have hc1 : a1.countdown = countdownAt (n + 1) := by
      rw [h7, ha]; unfold countdownAt; split <;> split <;> omega
    obtain ⟨a2, bs, g1, g2, g3, g4⟩ := ih a1 (n + 1) (fun s hs => hl s (List.mem_cons_of_mem _ hs)) hc1
    refine ⟨a2, decide (a.countdown = 0) :: bs, ?_, ?_, ?_, ?_⟩
    · simp only [calls, h1, g1, bind, Option.bind, pure]
    · rw [g2]
      simp only [List.length_cons, List.range_succ_eq_map, List.map_cons, List.map_map, Nat.add_zero]
      congr 1
      · rw [ha]; unfold countdownAt; congr 1; apply propext; split <;> omega
      · apply List.map_congr_left
        intro k _
        simp only [Function.comp]; congr 2; omega
    · rw [g3]; congr 1; simp only [List.length_cons]; omega
    · intro s' l' he
      cases l' with
      | nil =>
        simp at he
        obtain ⟨rfl, rfl⟩ := he
        simp [calls] at g1
        obtain ⟨rfl, _⟩ := g1
        have hf : firstUsed a.countdown = if (n + ([] : List (List (BitVec 16))).length) % 4 = 1 then 111 else 0 := by
          unfold firstUsed; rw [ha]; unfold countdownAt; simp only [List.length_nil, Nat.add_zero]
          by_cases h : n % 4 = 1
          · rw [if_pos h, if_neg (show ¬ n % 4 = 0 by omega), if_pos (by omega)]
          · rw [if_neg h, if_neg]; split <;> omega
        rw [← hf]; exact ⟨h2, h3⟩
      | cons x l' =>
        simp at he
        obtain ⟨rfl, he⟩ := he
        have := g4 s' l' he
        have e : n + 1 + l'.length = n + (s :: l').length := by simp only [List.length_cons]; omega
        rw [e] at this; exact this

/-- The motor current is the mean of the samples used, centred and scaled. -/
theorem current_mean (a : Analog) (l : List Nat) (hl : l ≠ []) (h1 : a.accu = (l.sum : Int)) (h2 : a.nb = (l.length : Int)) :
    a.current = fin ((2048 - (l.sum : ℚ) / l.length) * adcToAmps) := by
  unfold Analog.current
  have hn : (l.length : ℚ) ≠ 0 := by
    have := List.length_pos_iff.mpr hl
    exact_mod_cast this.ne'
  rw [h1, h2]
  simp only [divFin, Int.cast_natCast, if_neg hn]
  congr 1; ring

/-- With samples of 12 bits the current is between -3.3 A and 3.3 A. -/
theorem current_bounds (a : Analog) (l : List Nat) (hl : l ≠ []) (h1 : a.accu = (l.sum : Int)) (h2 : a.nb = (l.length : Int))
    (hs : ∀ x ∈ l, x < 4096) : ∃ i : ℚ, a.current = fin i ∧ -33/10 ≤ i ∧ i ≤ 33/10 := by
  refine ⟨_, current_mean a l hl h1 h2, ?_⟩
  have hn : (0 : ℚ) < l.length := by exact_mod_cast List.length_pos_iff.mpr hl
  have hb : (l.sum : ℚ) ≤ l.length * 4095 := by
    exact_mod_cast sum_bound l 4095 fun x hx => by have := hs x hx; omega
  have h3 : (l.sum : ℚ) / l.length ≤ 4095 := by rw [div_le_iff₀ hn]; linarith
  have h4 : (0 : ℚ) ≤ (l.sum : ℚ) / l.length := by positivity
  unfold adcToAmps
  constructor <;> nlinarith

/-- The voltage of the battery: the fourth channel, for a converter of 12 bits with 3.3 V behind a divider of 100 kΩ and
18 kΩ (the comment in analog.c:9), up to less than two microvolts; the auxiliary input is the mean of the first
and the third channel as a fraction of the whole range. -/
theorem voltages (a : Analog) (hc : 0 ≤ a.countdown ∧ a.countdown ≤ 3) (s : List (BitVec 16)) (hs : s.length = 4 * nSamples)
    (hx : ∀ x ∈ s, x.toNat < 4096) :
    ∃ a' r, a.callback s nSamples = some (a', r) ∧
      |a'.batteryVoltage - (s.getD 3 0).toNat * (33 / 10 / 4096) / (18 / (100 + 18))| ≤ 2 / 1000000 ∧
      a'.auxiliary * 4096 = ((s.getD 0 0).toNat + (s.getD 2 0).toNat) / 2 ∧ 0 ≤ a'.auxiliary ∧ a'.auxiliary < 1 := by
  obtain ⟨a', h1, -, -, -, hb, ha, -⟩ := callback_spec a hc s hs
  have hlt : ∀ i, (s.getD i 0).toNat < 4096 := by
    intro i
    rw [List.getD_eq_getElem?_getD]
    cases h : s[i]? with
    | none => decide
    | some x => exact hx x (List.mem_of_getElem? h)
  have h0 : ((s.getD 0 0).toNat : ℚ) ≤ 4095 := by exact_mod_cast Nat.lt_succ_iff.mp (hlt 0)
  have h2 : ((s.getD 2 0).toNat : ℚ) ≤ 4095 := by exact_mod_cast Nat.lt_succ_iff.mp (hlt 2)
  have h3 : ((s.getD 3 0).toNat : ℚ) ≤ 4095 := by exact_mod_cast Nat.lt_succ_iff.mp (hlt 3)
  have p0 : (0 : ℚ) ≤ ((s.getD 0 0).toNat : ℚ) := by positivity
  have p2 : (0 : ℚ) ≤ ((s.getD 2 0).toNat : ℚ) := by positivity
  have p3 : (0 : ℚ) ≤ ((s.getD 3 0).toNat : ℚ) := by positivity
  refine ⟨a', _, h1, ?_⟩
  unfold Analog.batteryVoltage adcToVolts Analog.auxiliary
  rw [hb, ha]
  generalize (s.getD 0 0).toNat = x0 at *
  generalize (s.getD 2 0).toNat = x2 at *
  generalize (s.getD 3 0).toNat = x3 at *
  rw [abs_le]
  push_cast
  refine ⟨⟨?_, ?_⟩, ?_, ?_, ?_⟩ <;> linarith

/-- Samples as `voltages` wants them. -/
example : (List.replicate (4 * nSamples) (2000 : BitVec 16)).length = 4 * nSamples ∧
    ∀ x ∈ List.replicate (4 * nSamples) (2000 : BitVec 16), x.toNat < 4096 :=
  ⟨List.length_replicate .., fun x hx => by rw [List.eq_of_mem_replicate hx]; decide⟩

end Verif.MotorSense
