import Verif.Encoder.Model
import Mathlib.Tactic.Ring
import Mathlib.Tactic.Linarith
import Mathlib.Data.List.Induction

/-!
# Encoder and stream properties (C49, C50, C51)
-/

namespace Verif.Encoder

/-- Specification: reading of a 16-bit hardware counter for a true position `x` (in ticks). -/
def counter16 (x : Int) : BitVec 16 := BitVec.ofInt 16 x

/-- Specification: every movement between successive positions satisfies `b`. -/
def Moves (b : Int → Prop) : Int → List Int → Prop
  | _, [] => True
  | x, y :: ys => b (y - x) ∧ Moves b y ys

theorem counter16_sub {a b : Int} (h1 : -2^15 ≤ b - a) (h2 : b - a < 2^15) :
    (counter16 b - counter16 a).toInt = b - a := by
  unfold counter16
  rw [BitVec.toInt_sub, BitVec.toInt_ofInt, BitVec.toInt_ofInt, Int.sub_bmod_bmod,
    Int.bmod_sub_bmod, Int.bmod_eq_of_le (by omega) (by omega)]

/-! ## C49: motor encoders -/

/-- One turn of the working end, in accumulator units. -/
def turn (e : Enc) : Int := (e.ticksPerRev.toNat : Int) * e.q.toNat

/-- Configuration the periodic accumulator can work with. -/
def GoodConfig (e : Enc) : Prop := 0 < turn e ∧ turn e ≤ 2^30 ∧ e.ticksPerRev.toNat < 2^31

theorem stepPeriodic_spec (e : Enc) (a x y : Int) (hc : GoodConfig e) (hp : e.prev = counter16 x)
    (ha : e.acc = a % turn e) (h1 : -2^15 ≤ y - x) (h2 : y - x < 2^15)
    (h3 : |(y - x) * e.p.toNat| ≤ turn e) :
    stepPeriodic e (counter16 y) =
      some ({ e with acc := (a + e.p.toNat * (y - x)) % turn e, prev := counter16 y },
        e.p.toNat * (y - x)) := by
  obtain ⟨c1, c2, c3⟩ := hc
  have hd : deltaPeriodic (counter16 y) e.prev e.p = e.p.toNat * (y - x) := by
    unfold deltaPeriodic; rw [hp, counter16_sub h1 h2]; ring
  rw [mul_comm] at h3
  rw [abs_le] at h3
  have b1 := Int.emod_nonneg a (ne_of_gt c1)
  have b2 := Int.emod_lt_of_pos a c1
  unfold stepPeriodic
  simp only [hd, ha]
  generalize hD : (e.p.toNat : Int) * (y - x) = D at *
  rw [if_pos ⟨by omega, by omega⟩]
  have ht : e.ticksPerRev.toInt * (e.q.toNat : Int) = turn e := by
    unfold turn; rw [BitVec.toInt_eq_toNat_of_lt (by omega)]
  have hturn : (e.ticksPerRev * e.q.setWidth 32) = BitVec.ofInt 32 (turn e) := by
    unfold turn
    rw [← Nat.cast_mul, BitVec.ofInt_natCast]
    apply BitVec.eq_of_toNat_eq
    simp [BitVec.toNat_mul]
  have hemod : (a + D) % turn e = (a % turn e + D) % turn e := by
    rw [Int.emod_add_emod]
  unfold accumulatorOverflow
  rw [ht, hturn, if_neg (by simp [isInt32]; omega), hemod]
  generalize a % turn e = r at *
  generalize turn e = M at *
  simp only
  by_cases g1 : r + D ≥ M
  · rw [if_pos g1]
    have : (BitVec.ofInt 32 (r + D) - BitVec.ofInt 32 M).toInt = r + D - M := by
      rw [BitVec.toInt_sub, BitVec.toInt_ofInt, BitVec.toInt_ofInt, Int.sub_bmod_bmod,
        Int.bmod_sub_bmod, Int.bmod_eq_of_le (by omega) (by omega)]
    rw [this, Option.map_some]
    have : (r + D) % M = r + D - M := by
      rw [← Int.sub_emod_right, Int.emod_eq_of_lt (by omega) (by omega)]
    rw [this]
  · rw [if_neg g1]
    by_cases g2 : r + D < 0
    · rw [if_pos g2]
      have : (BitVec.ofInt 32 (r + D) + BitVec.ofInt 32 M).toInt = r + D + M := by
        rw [BitVec.toInt_add, BitVec.toInt_ofInt, BitVec.toInt_ofInt, Int.add_bmod_bmod,
          Int.bmod_add_bmod, Int.bmod_eq_of_le (by omega) (by omega)]
      rw [this, Option.map_some]
      have : (r + D) % M = r + D + M := by
        rw [← Int.add_emod_right, Int.emod_eq_of_lt (by omega) (by omega)]
      rw [this]
    · rw [if_neg g2, Option.map_some, Int.emod_eq_of_lt (by omega) (by omega)]

/-- A sample of the true world at one control period. -/
structure Sample where
  /-- true positions of the two encoder shafts, in ticks -/
  x1 : Int
  x2 : Int
  pot : ℚ
  dt : ℚ

/-- What the hardware shows of it. -/
def Sample.inputs (s : Sample) : Inputs := ⟨s.pot, counter16 s.x1, counter16 s.x2, s.dt, 0, 0⟩

def runFeedback (f : Feedback) (ss : List Sample) : Option Feedback :=
  ss.foldlM (fun f s => feedbackCompute f s.inputs) f

/-- Motion between two samples: less than half a counter turn, and at most one turn of the working
end. -/
def SmallStep (e : Enc) (d : Int) : Prop := -2^15 ≤ d ∧ d < 2^15 ∧ |d * e.p.toNat| ≤ turn e

/-- C49, periodic encoder: as long as the shaft moves less than half a counter turn (and at most one
turn of the working end) between samples, the accumulator always is the true displacement times `p`,
modulo one turn of the working end, whatever the number of counter wraps, and the reported position
is that angle. -/
theorem periodic_tracks (f : Feedback) (x0 : Int) (ss : List Sample)
    (hsel : f.sel = .primaryPeriodic) (hc : GoodConfig f.primary)
    (hp : f.primary.prev = counter16 x0) (ha : f.primary.acc = 0)
    (hm : Moves (SmallStep f.primary) x0 (ss.map Sample.x1)) (hne : ss ≠ []) :
    ∃ f', runFeedback f ss = some f' ∧
      f'.primary.acc = (f.primary.p.toNat * ((ss.getLast hne).x1 - x0)) % turn f.primary ∧
      f'.position = (f'.primary.acc : ℚ) / turn f.primary ∧ f'.periodic = true := by
  have key : ∀ (ss : List Sample) (hne : ss ≠ []) (f0 : Feedback) (x : Int),
      f0.sel = .primaryPeriodic → f0.primary.p = f.primary.p → f0.primary.q = f.primary.q →
      f0.primary.ticksPerRev = f.primary.ticksPerRev → f0.primary.prev = counter16 x →
      f0.primary.acc = (f.primary.p.toNat * (x - x0)) % turn f.primary →
      Moves (SmallStep f.primary) x (ss.map Sample.x1) →
      ∃ f', runFeedback f0 ss = some f' ∧
        f'.primary.acc = (f.primary.p.toNat * ((ss.getLast hne).x1 - x0)) % turn f.primary ∧
        f'.position = (f'.primary.acc : ℚ) / turn f.primary ∧ f'.periodic = true := by
    intro ss
    induction ss with
    | nil => intro h; exact absurd rfl h
    | cons s ss ih =>
      intro _ f0 x s0 s1 s2 s3 s4 s5 hm
      have et : turn f0.primary = turn f.primary := by unfold turn; rw [s2, s3]
      obtain ⟨⟨m1, m2, m3⟩, m4⟩ := hm
      have hstep := stepPeriodic_spec f0.primary (f.primary.p.toNat * (x - x0)) x s.x1
        (by unfold GoodConfig at *; rw [et, s3]; exact hc) s4 (by rw [s5, et]) m1 m2
        (by rw [et, s1]; exact m3)
      have hadd : (f.primary.p.toNat : Int) * (x - x0) + f0.primary.p.toNat * (s.x1 - x) =
          f.primary.p.toNat * (s.x1 - x0) := by rw [s1]; ring
      rw [hadd, et] at hstep
      have hf : ∃ f1, feedbackCompute f0 s.inputs = some f1 ∧ f1.sel = .primaryPeriodic ∧
          f1.primary = { f0.primary with acc := (f.primary.p.toNat * (s.x1 - x0)) % turn f.primary, prev := counter16 s.x1 } ∧
          f1.position = (f1.primary.acc : ℚ) / turn f.primary ∧ f1.periodic = true := by
        refine ⟨_, by simp only [feedbackCompute, s0, Sample.inputs, hstep]; rfl, ?_⟩
        refine ⟨rfl, rfl, ?_, rfl⟩
        simp only [positionPeriodic, turn, s2, s3]
        push_cast
        rw [div_div]
      obtain ⟨f1, g0, g1, g2, g3, g4⟩ := hf
      unfold runFeedback at *
      rw [List.foldlM_cons, g0]
      by_cases hss : ss = []
      · subst hss
        refine ⟨f1, rfl, ?_, g3, g4⟩
        rw [g2]; rfl
      · obtain ⟨f', k⟩ := ih hss f1 s.x1 g1 (by rw [g2]; exact s1) (by rw [g2]; exact s2)
          (by rw [g2]; exact s3) (by rw [g2]) (by rw [g2]) m4
        rw [List.getLast_cons hss]
        exact ⟨f', k⟩
  exact key ss hne f x0 hsel rfl rfl rfl hp (by rw [ha]; simp) hm

/-- C49, bounded encoder: as long as the shaft moves less than half a counter turn between samples
and the true displacement fits 32 bits, the accumulator equals the true displacement exactly. -/
theorem bounded_tracks (f : Feedback) (x0 : Int) (ss : List Sample)
    (hsel : f.sel = .primaryBounded) (hp : f.primary.prev = counter16 x0) (ha : f.primary.acc = 0)
    (hm : Moves (fun d => -2^15 ≤ d ∧ d < 2^15) x0 (ss.map Sample.x1))
    (hr : ∀ s ∈ ss, isInt32 (s.x1 - x0)) (hne : ss ≠ []) :
    ∃ f', runFeedback f ss = some f' ∧ f'.primary.acc = (ss.getLast hne).x1 - x0 ∧
      f'.position = (f'.primary.acc : ℚ) / f.primary.ticksPerRev.toNat * f.primary.p.toNat / f.primary.q.toNat ∧
      f'.periodic = false := by
  have key : ∀ (ss : List Sample) (hne : ss ≠ []) (f0 : Feedback) (x : Int),
      f0.sel = .primaryBounded → f0.primary.p = f.primary.p → f0.primary.q = f.primary.q →
      f0.primary.ticksPerRev = f.primary.ticksPerRev → f0.primary.prev = counter16 x →
      f0.primary.acc = x - x0 →
      Moves (fun d => -2^15 ≤ d ∧ d < 2^15) x (ss.map Sample.x1) →
      (∀ s ∈ ss, isInt32 (s.x1 - x0)) →
      ∃ f', runFeedback f0 ss = some f' ∧ f'.primary.acc = (ss.getLast hne).x1 - x0 ∧
        f'.position = (f'.primary.acc : ℚ) / f.primary.ticksPerRev.toNat * f.primary.p.toNat / f.primary.q.toNat ∧
        f'.periodic = false := by
    intro ss
    induction ss with
    | nil => intro h; exact absurd rfl h
    | cons s ss ih =>
      intro _ f0 x s0 s1 s2 s3 s4 s5 hm hr
      obtain ⟨⟨m1, m2⟩, m4⟩ := hm
      have hd : deltaBounded (counter16 s.x1) f0.primary.prev = s.x1 - x := by
        unfold deltaBounded; rw [s4, counter16_sub m1 m2]
      have hs := hr s (by simp)
      have hstep : stepBounded f0.primary (counter16 s.x1) =
          some ({ f0.primary with acc := s.x1 - x0, prev := counter16 s.x1 }, s.x1 - x) := by
        unfold stepBounded
        simp only [hd, s5, show x - x0 + (s.x1 - x) = s.x1 - x0 by omega, if_pos hs]
      have hf : ∃ f1, feedbackCompute f0 s.inputs = some f1 ∧ f1.sel = .primaryBounded ∧
          f1.primary = { f0.primary with acc := s.x1 - x0, prev := counter16 s.x1 } ∧
          f1.position = (f1.primary.acc : ℚ) / f.primary.ticksPerRev.toNat * f.primary.p.toNat / f.primary.q.toNat ∧
          f1.periodic = false := by
        refine ⟨_, by simp only [feedbackCompute, s0, Sample.inputs, hstep]; rfl, ?_⟩
        refine ⟨rfl, rfl, ?_, rfl⟩
        simp only [positionBounded, s1, s2, s3]
      obtain ⟨f1, g0, g1, g2, g3, g4⟩ := hf
      unfold runFeedback at *
      rw [List.foldlM_cons, g0]
      by_cases hss : ss = []
      · subst hss
        refine ⟨f1, rfl, ?_, g3, g4⟩
        rw [g2]; rfl
      · obtain ⟨f', k⟩ := ih hss f1 s.x1 g1 (by rw [g2]; exact s1) (by rw [g2]; exact s2)
          (by rw [g2]; exact s3) (by rw [g2]) (by rw [g2]) m4 (fun s' hs' => hr s' (by simp [hs']))
        rw [List.getLast_cons hss]
        exact ⟨f', k⟩
  exact key ss hne f x0 hsel rfl rfl rfl hp (by rw [ha]; simp) hm hr

/-- C49, two periodic encoders: the position comes from the second encoder, tracked exactly as in
the single-encoder case; both accumulators are tracked. -/
theorem two_tracks (f : Feedback) (x0 y0 : Int) (ss : List Sample)
    (hsel : f.sel = .twoPeriodic) (hc : GoodConfig f.primary) (hc2 : GoodConfig f.secondary)
    (hp : f.primary.prev = counter16 x0) (ha : f.primary.acc = 0)
    (hp2 : f.secondary.prev = counter16 y0) (ha2 : f.secondary.acc = 0)
    (hm : Moves (SmallStep f.primary) x0 (ss.map Sample.x1))
    (hm2 : Moves (SmallStep f.secondary) y0 (ss.map Sample.x2)) (hne : ss ≠ []) :
    ∃ f', runFeedback f ss = some f' ∧
      f'.primary.acc = (f.primary.p.toNat * ((ss.getLast hne).x1 - x0)) % turn f.primary ∧
      f'.secondary.acc = (f.secondary.p.toNat * ((ss.getLast hne).x2 - y0)) % turn f.secondary ∧
      f'.position = (f'.secondary.acc : ℚ) / turn f.secondary ∧ f'.periodic = true := by
  have key : ∀ (ss : List Sample) (hne : ss ≠ []) (f0 : Feedback) (x y : Int),
      f0.sel = .twoPeriodic → f0.primary.p = f.primary.p → f0.primary.q = f.primary.q →
      f0.primary.ticksPerRev = f.primary.ticksPerRev → f0.primary.prev = counter16 x →
      f0.primary.acc = (f.primary.p.toNat * (x - x0)) % turn f.primary →
      f0.secondary.p = f.secondary.p → f0.secondary.q = f.secondary.q →
      f0.secondary.ticksPerRev = f.secondary.ticksPerRev → f0.secondary.prev = counter16 y →
      f0.secondary.acc = (f.secondary.p.toNat * (y - y0)) % turn f.secondary →
      Moves (SmallStep f.primary) x (ss.map Sample.x1) →
      Moves (SmallStep f.secondary) y (ss.map Sample.x2) →
      ∃ f', runFeedback f0 ss = some f' ∧
        f'.primary.acc = (f.primary.p.toNat * ((ss.getLast hne).x1 - x0)) % turn f.primary ∧
        f'.secondary.acc = (f.secondary.p.toNat * ((ss.getLast hne).x2 - y0)) % turn f.secondary ∧
        f'.position = (f'.secondary.acc : ℚ) / turn f.secondary ∧ f'.periodic = true := by
    intro ss
    induction ss with
    | nil => intro h; exact absurd rfl h
    | cons s ss ih =>
      intro _ f0 x y s0 s1 s2 s3 s4 s5 t1 t2 t3 t4 t5 hm hn
      have et : turn f0.primary = turn f.primary := by unfold turn; rw [s2, s3]
      have et2 : turn f0.secondary = turn f.secondary := by unfold turn; rw [t2, t3]
      obtain ⟨⟨m1, m2, m3⟩, m4⟩ := hm
      obtain ⟨⟨n1, n2, n3⟩, n4⟩ := hn
      have hstep := stepPeriodic_spec f0.primary (f.primary.p.toNat * (x - x0)) x s.x1
        (by unfold GoodConfig at *; rw [et, s3]; exact hc) s4 (by rw [s5, et]) m1 m2
        (by rw [et, s1]; exact m3)
      have hadd : (f.primary.p.toNat : Int) * (x - x0) + f0.primary.p.toNat * (s.x1 - x) =
          f.primary.p.toNat * (s.x1 - x0) := by rw [s1]; ring
      rw [hadd, et] at hstep
      have hstep2 := stepPeriodic_spec f0.secondary (f.secondary.p.toNat * (y - y0)) y s.x2
        (by unfold GoodConfig at *; rw [et2, t3]; exact hc2) t4 (by rw [t5, et2]) n1 n2
        (by rw [et2, t1]; exact n3)
      have hadd2 : (f.secondary.p.toNat : Int) * (y - y0) + f0.secondary.p.toNat * (s.x2 - y) =
          f.secondary.p.toNat * (s.x2 - y0) := by rw [t1]; ring
      rw [hadd2, et2] at hstep2
      have hf : ∃ f1, feedbackCompute f0 s.inputs = some f1 ∧ f1.sel = .twoPeriodic ∧
          f1.primary = { f0.primary with acc := (f.primary.p.toNat * (s.x1 - x0)) % turn f.primary, prev := counter16 s.x1 } ∧
          f1.secondary = { f0.secondary with acc := (f.secondary.p.toNat * (s.x2 - y0)) % turn f.secondary, prev := counter16 s.x2 } ∧
          f1.position = (f1.secondary.acc : ℚ) / turn f.secondary ∧ f1.periodic = true := by
        refine ⟨_, by simp only [feedbackCompute, s0, Sample.inputs, hstep, hstep2]; rfl, ?_⟩
        refine ⟨rfl, rfl, rfl, ?_, rfl⟩
        simp only [positionPeriodic, turn, t2, t3]
        push_cast
        rw [div_div]
      obtain ⟨f1, g0, g1, g2, g2', g3, g4⟩ := hf
      unfold runFeedback at *
      rw [List.foldlM_cons, g0]
      by_cases hss : ss = []
      · subst hss
        refine ⟨f1, rfl, ?_, ?_, g3, g4⟩
        · rw [g2]; rfl
        · rw [g2']; rfl
      · obtain ⟨f', k⟩ := ih hss f1 s.x1 s.x2 g1 (by rw [g2]; exact s1) (by rw [g2]; exact s2)
          (by rw [g2]; exact s3) (by rw [g2]) (by rw [g2]) (by rw [g2']; exact t1)
          (by rw [g2']; exact t2) (by rw [g2']; exact t3) (by rw [g2']) (by rw [g2']) m4 n4
        rw [List.getLast_cons hss]
        exact ⟨f', k⟩
  exact key ss hne f x0 y0 hsel rfl rfl rfl hp (by rw [ha]; simp) rfl rfl rfl hp2
    (by rw [ha2]; simp) hm hm2

/-- C49: the reported velocity is the true displacement of the last sample times the transmission
ratio, per period. -/
theorem bounded_velocity (f : Feedback) (x : Int) (s : Sample) (f' : Feedback)
    (hsel : f.sel = .primaryBounded) (hp : f.primary.prev = counter16 x)
    (h1 : -2^15 ≤ s.x1 - x) (h2 : s.x1 - x < 2^15) (h : feedbackCompute f s.inputs = some f') :
    f'.velocity = ((s.x1 - x : Int) : ℚ) / f.primary.ticksPerRev.toNat * f.primary.p.toNat /
      f.primary.q.toNat / s.dt := by
  simp only [feedbackCompute, hsel, Sample.inputs] at h
  cases hst : stepBounded f.primary (counter16 s.x1) with
  | none => simp [hst] at h
  | some r =>
    simp only [hst, Option.bind_eq_bind, Option.bind_some, Option.some.injEq] at h
    have hr : r.2 = s.x1 - x ∧ r.1.p = f.primary.p ∧ r.1.q = f.primary.q ∧
        r.1.ticksPerRev = f.primary.ticksPerRev := by
      unfold stepBounded at hst
      simp only at hst
      split at hst
      · rw [← Option.some.inj hst]
        exact ⟨by simp only [deltaBounded, hp, counter16_sub h1 h2], rfl, rfl, rfl⟩
      · simp at hst
    rw [← h]
    simp only [velocityBounded, hr]

/-- What `stepPeriodic` leaves as it is, and its increment. -/
theorem stepPeriodic_keeps (e e' : Enc) (x y d : Int) (hp : e.prev = counter16 x) (h1 : -2^15 ≤ y - x) (h2 : y - x < 2^15) (h : stepPeriodic e (counter16 y) = some (e', d)) :
    d = (y - x) * e.p.toNat ∧ e'.q = e.q ∧ e'.ticksPerRev = e.ticksPerRev := by
  unfold stepPeriodic at h
  simp only at h
  split at h
  · cases ha : accumulatorOverflow (e.acc + deltaPeriodic (counter16 y) e.prev e.p) e.ticksPerRev e.q with
    | none => rw [ha] at h; cases h
    | some a =>
      rw [ha] at h
      cases h
      exact ⟨by unfold deltaPeriodic; rw [hp, counter16_sub h1 h2], rfl, rfl⟩
  · cases h

/-- C49: the velocity of periodic encoders (one or two) is the true displacement of the primary one during the last sample times the transmission ratio, per period. -/
theorem periodic_velocity (f : Feedback) (x : Int) (s : Sample) (f' : Feedback)
    (hsel : f.sel = .primaryPeriodic ∨ f.sel = .twoPeriodic) (hp : f.primary.prev = counter16 x)
    (h1 : -2^15 ≤ s.x1 - x) (h2 : s.x1 - x < 2^15) (h : feedbackCompute f s.inputs = some f') :
    f'.velocity = ((s.x1 - x : Int) : ℚ) * f.primary.p.toNat / f.primary.ticksPerRev.toNat / f.primary.q.toNat / s.dt := by
  have key : ∀ e d, stepPeriodic f.primary (counter16 s.x1) = some (e, d) → velocityPeriodic d e s.dt = ((s.x1 - x : Int) : ℚ) * f.primary.p.toNat / f.primary.ticksPerRev.toNat / f.primary.q.toNat / s.dt := by
    intro e d hst
    obtain ⟨k1, k2, k3⟩ := stepPeriodic_keeps _ _ _ _ _ hp h1 h2 hst
    rw [velocityPeriodic, k1, k2, k3]
    push_cast
    rfl
  rcases hsel with hsel | hsel <;> simp only [feedbackCompute, hsel, Sample.inputs] at h <;> cases hst : stepPeriodic f.primary (counter16 s.x1) with
  | none => simp [hst] at h
  | some r =>
    first
      | (simp only [hst, Option.bind_eq_bind, Option.bind_some, Option.some.injEq] at h
         rw [← h]
         exact key _ _ hst)
      | (cases hst2 : stepPeriodic f.secondary (counter16 s.x2) with
         | none => simp [hst, hst2] at h
         | some r2 =>
           simp only [hst, hst2, Option.bind_eq_bind, Option.bind_some, Option.some.injEq] at h
           rw [← h]
           exact key _ _ hst)

/-- C49: with a light barrier, velocity and position are those of the barrier, the position from the phase on; with a potentiometer, the position is its value scaled from the zero on and the velocity the change of
the position per period. -/
theorem other_inputs (f : Feedback) (i : Inputs) :
    (f.sel = .rpm → ∃ f', feedbackCompute f i = some f' ∧ f'.velocity = i.rpmVel ∧ f'.position + f.phase = i.rpmPos ∧ f'.periodic = true ∧ f'.phase = f.phase) ∧
    (f.sel = .potentiometer → ∃ f', feedbackCompute f i = some f' ∧ f'.position + f.zero = f.gain * i.pot ∧ (i.dt ≠ 0 → f'.velocity * i.dt = f'.position - f.position) ∧ f'.periodic = false) := by
  constructor
  · intro h
    refine ⟨{ f with velocity := i.rpmVel, position := i.rpmPos - f.phase, periodic := true }, by simp only [feedbackCompute, h], rfl, ?_, rfl, rfl⟩
    ring
  · intro h
    refine ⟨{ f with velocity := (f.gain * i.pot - f.zero - f.position) / i.dt, position := f.gain * i.pot - f.zero, periodic := false }, by simp only [feedbackCompute, h], ?_, ?_, rfl⟩
    · ring
    · intro hd
      exact div_mul_cancel₀ _ hd

example : (feedbackCompute ⟨.potentiometer, 1, 0, true, ⟨0, 0, 1, 1, 1024⟩, ⟨0, 0, 1, 1, 1024⟩, 2, 1, 0⟩ ⟨3, 0, 0, 1 / 2, 0, 0⟩).map (fun f => (f.position, f.velocity, f.periodic)) = some (5, 8, false) := by decide +kernel

/-- A periodic encoder with 1024 ticks, p/q = 3/2, moving across the 16-bit wrap. -/
example : GoodConfig ⟨0, counter16 65000, 3, 2, 1024⟩ ∧
    Moves (SmallStep ⟨0, counter16 65000, 3, 2, 1024⟩) 65000 [65400, 65900, 65300] := by
  simp [GoodConfig, Moves, SmallStep, turn]

/-- Why the step must not exceed one turn of the working end: the accumulator is corrected only once
per call, so a larger step leaves it outside `[0, turn)`. -/
theorem periodic_large_step_escapes :
    (stepPeriodic ⟨0, counter16 0, 3, 1, 1024⟩ (counter16 1000)).map (fun r => r.1.acc) = some 1976 := by
  decide

/-! ## C50: wheel encoders -/

theorem tickDiff_spec (a b : BitVec 16) :
    tickDiff (a.setWidth 32) (b.setWidth 32) =
      let d := (b.toNat : Int) - a.toNat
      if d > 32767 then d - 65536 else if d < -32767 then d + 65536 else d := by
  have ha := a.isLt
  have hb := b.isLt
  unfold tickDiff
  simp only [BitVec.lt_def, BitVec.le_def, BitVec.toNat_sub, BitVec.toNat_setWidth,
    BitVec.toInt_eq_toNat_cond, BitVec.toNat_neg, BitVec.toNat_ofNat]
  have e1 : a.toNat % 2^32 = a.toNat := Nat.mod_eq_of_lt (by omega)
  have e2 : b.toNat % 2^32 = b.toNat := Nat.mod_eq_of_lt (by omega)
  rw [e1, e2]
  generalize a.toNat = x at *
  generalize b.toNat = y at *
  split
  · have : (2 ^ 32 - x + y) % 2 ^ 32 = y - x := by omega
    rw [this]
    split <;> grind
  · split
    · have : (2 ^ 32 - y + x) % 2 ^ 32 = x - y := by omega
      rw [this]
      split <;> grind
    · grind

theorem tickDiff_counter (x y : Int) (h1 : -32767 ≤ y - x) (h2 : y - x ≤ 32767) :
    tickDiff ((counter16 x).setWidth 32) ((counter16 y).setWidth 32) = y - x := by
  rw [tickDiff_spec]
  unfold counter16
  simp only [BitVec.toNat_ofInt]
  grind

/-- C50: as long as a wheel moves by less than 32768 ticks between readings, and the position
counted from the first raw reading fits 32 bits, the returned value is the true position minus the
constant initial offset, across any number of counter wraps. Missing: beyond 32 bits, where the addition is undefined (`wheel_overflow_undefined`). -/
theorem wheel_tracks_partial (x0 : Int) (xs : List Int)
    (hm : Moves (fun d => -32768 < d ∧ d < 32768) x0 xs)
    (hr : ∀ x ∈ xs, isInt32 (x - x0 + (counter16 x0).toNat)) :
    ∃ w, xs.foldlM (fun w x => wheelGet w (counter16 x)) (wheelInit (counter16 x0)) = some w ∧
      w.value = (x0 :: xs).getLast (by simp) - x0 + (counter16 x0).toNat := by
  have key : ∀ (xs : List Int) (x : Int) (w : Wheel), w.prev = (counter16 x).setWidth 32 →
      w.value = x - x0 + (counter16 x0).toNat →
      Moves (fun d => -32768 < d ∧ d < 32768) x xs →
      (∀ x ∈ xs, isInt32 (x - x0 + (counter16 x0).toNat)) →
      ∃ w', xs.foldlM (fun w x => wheelGet w (counter16 x)) w = some w' ∧
        w'.value = (x :: xs).getLast (by simp) - x0 + (counter16 x0).toNat := by
    intro xs
    induction xs with
    | nil => intro x w _ h2 _ _; exact ⟨w, rfl, by simpa using h2⟩
    | cons y ys ih =>
      intro x w h1 h2 hm hr
      obtain ⟨⟨a, b⟩, hm⟩ := hm
      have hy := hr y (by simp)
      have : wheelGet w (counter16 y) =
          some ⟨(counter16 y).setWidth 32, y - x0 + (counter16 x0).toNat⟩ := by
        unfold wheelGet
        simp only [h1, h2, tickDiff_counter x y (by omega) (by omega)]
        have : x - x0 + ((counter16 x0).toNat : Int) + (y - x) = y - x0 + (counter16 x0).toNat := by omega
        simp only [this, if_pos hy]
      rw [List.foldlM_cons, this, List.getLast_cons (by simp)]
      exact ih y _ rfl rfl hm (fun z hz => hr z (by simp [hz]))
  exact key xs x0 _ rfl (by simp [wheelInit]) hm hr

example : Moves (fun d => -32768 < d ∧ d < 32768) 60000 [70000, 100000, 120000, 90000] ∧
    ∀ x ∈ [70000, 100000, 120000, 90000], isInt32 (x - 60000 + (counter16 60000).toNat) := by
  simp [Moves, isInt32, counter16]

/-- The bound 32767 is sharp: a movement of exactly 32768 ticks from counter value 0 is counted in
the wrong direction. -/
theorem wheel_32768_wrong :
    tickDiff ((counter16 0).setWidth 32) ((counter16 32768).setWidth 32) = -32768 := by decide

/-- The claim "modulo 2^32" does not hold: beyond 2^31 the signed addition overflows (undefined). -/
theorem wheel_overflow_undefined : wheelGet ⟨0, 2^31 - 1⟩ 1 = none := by decide

/-! ## C51: streams -/

inductive SEv where
  /-- a successful `stream_set_prescaler` to `n` -/
  | setPrescaler (n : BitVec 16)
  | enable (b : Bool)
  /-- one control iteration calling `stream_should_send` -/
  | iter
deriving DecidableEq, Repr

/-- Machine state and whether the last event sent. -/
def sstep (s : Stream) : SEv → Stream × Bool
  | .setPrescaler n => ({ s with prescaler := n, counter := n }, false)
  | .enable b => (streamEnable s b, false)
  | .iter => shouldSend s

def srun (s : Stream) (es : List SEv) : Stream := es.foldl (fun s e => (sstep s e).1) s

/-- Specification: prescaler in force, enabled or not, and number of enabled iterations since it was
set; read off the history. -/
def sspec (es : List SEv) : BitVec 16 × Bool × Nat :=
  es.foldl (fun (p, en, k) e => match e with
    | .setPrescaler n => (n, en, 0)
    | .enable b => (p, b, k)
    | .iter => (p, en, if en then k + 1 else k)) (0, false, 0)

/-- Number of iterations per message: the prescaler, or 65536 if it is 0. -/
def reload (p : BitVec 16) : Nat := if p = 0 then 65536 else p.toNat

theorem srun_inv (es : List SEv) :
    let s := srun ⟨false, 0, 0⟩ es
    s.prescaler = (sspec es).1 ∧ s.enabled = (sspec es).2.1 ∧
    s.counter = BitVec.ofNat 16 (reload (sspec es).1 - (sspec es).2.2 % reload (sspec es).1) := by
  induction es using List.reverseRecOn with
  | nil => decide
  | append_singleton es e ih =>
    simp only at *
    unfold srun sspec at *
    simp only [List.foldl_append, List.foldl_cons, List.foldl_nil]
    generalize List.foldl (fun s e => (sstep s e).1) ⟨false, 0, 0⟩ es = s at *
    generalize List.foldl _ _ es = t at *
    obtain ⟨p, en, k⟩ := t
    obtain ⟨h1, h2, h3⟩ := ih
    simp only at h1 h2 h3
    cases e with
    | setPrescaler n =>
      refine ⟨rfl, h2, ?_⟩
      simp only [sstep, Nat.zero_mod, Nat.sub_zero]
      unfold reload
      split
      · next h => rw [h]; rfl
      · simp
    | enable b => exact ⟨h1, rfl, h3⟩
    | iter =>
      simp only [sstep, shouldSend]
      rw [h2]
      cases en with
      | false => simpa [h2] using ⟨h1, h3⟩
      | true =>
        simp only [if_true]
        have hR : 0 < reload p ∧ reload p ≤ 65536 := by
          unfold reload; split
          · omega
          · next h =>
            have := p.isLt
            have : p.toNat ≠ 0 := fun h' => h (BitVec.eq_of_toNat_eq (by simpa using h'))
            omega
        have hm := Nat.mod_lt k hR.1
        have hk1 : (k + 1) % reload p = if k % reload p + 1 = reload p then 0 else k % reload p + 1 := by
          rw [Nat.add_mod]
          split
          · next h =>
            rcases Nat.lt_or_ge 1 (reload p) with h1 | h1
            · rw [Nat.mod_eq_of_lt h1, h, Nat.mod_self]
            · have : reload p = 1 := by omega
              rw [this]; omega
          · next h =>
            rw [Nat.mod_eq_of_lt (show 1 < reload p by omega), Nat.mod_eq_of_lt (by omega)]
        have hc : s.counter - 1#16 = BitVec.ofNat 16 (reload p - k % reload p - 1) := by
          rw [h3]
          apply BitVec.eq_of_toNat_eq
          simp only [BitVec.toNat_sub, BitVec.toNat_ofNat]
          omega
        rw [hc]
        by_cases hz : k % reload p + 1 = reload p
        · rw [if_pos (by apply BitVec.eq_of_toNat_eq; simp; omega)]
          refine ⟨h1, rfl, ?_⟩
          rw [hk1, if_pos hz, Nat.sub_zero]
          simp only [h1]
          unfold reload
          split
          · next h => rw [h]; rfl
          · simp
        · rw [if_neg (by
            intro h'
            have := congrArg BitVec.toNat h'
            simp at this
            omega)]
          refine ⟨h1, rfl, ?_⟩
          rw [hk1, if_neg hz]
          simp only
          congr 1

/-- C51: after any history of prescaler changes, enables and iterations, an iteration sends iff the
stream is enabled and the number of enabled iterations since the prescaler was set (this one
included) is a multiple of the prescaler; a prescaler of 0 acts as 65536. -/
theorem stream_sends_iff (es : List SEv) :
    (sstep (srun ⟨false, 0, 0⟩ es) .iter).2 = true ↔
      (sspec es).2.1 = true ∧ ((sspec es).2.2 + 1) % reload (sspec es).1 = 0 := by
  obtain ⟨h1, h2, h3⟩ := srun_inv es
  generalize srun ⟨false, 0, 0⟩ es = s at *
  generalize sspec es = t at *
  obtain ⟨p, en, k⟩ := t
  simp only at *
  simp only [sstep, shouldSend]
  rw [h2]
  cases en with
  | false => simp
  | true =>
    have hR : 0 < reload p ∧ reload p ≤ 65536 := by
      unfold reload; split
      · omega
      · next h =>
        have := p.isLt
        have : p.toNat ≠ 0 := fun h' => h (BitVec.eq_of_toNat_eq (by simpa using h'))
        omega
    have hm := Nat.mod_lt k hR.1
    have hk1 : (k + 1) % reload p = if k % reload p + 1 = reload p then 0 else k % reload p + 1 := by
      rw [Nat.add_mod]
      split
      · next h =>
        rcases Nat.lt_or_ge 1 (reload p) with h1 | h1
        · rw [Nat.mod_eq_of_lt h1, h, Nat.mod_self]
        · have : reload p = 1 := by omega
          rw [this]; omega
      · next h =>
        rw [Nat.mod_eq_of_lt (show 1 < reload p by omega), Nat.mod_eq_of_lt (by omega)]
    have hc : (s.counter - 1#16 = 0#16) ↔ k % reload p + 1 = reload p := by
      rw [h3]
      constructor
      · intro h'
        have := congrArg BitVec.toNat h'
        simp only [BitVec.toNat_sub, BitVec.toNat_ofNat] at this
        omega
      · intro h'
        apply BitVec.eq_of_toNat_eq
        simp only [BitVec.toNat_sub, BitVec.toNat_ofNat]
        omega
    simp only [if_true, true_and]
    rw [hk1]
    by_cases hz : k % reload p + 1 = reload p
    · rw [if_pos (hc.mpr hz), if_pos hz]; simp
    · rw [if_neg (fun h => hz (hc.mp h)), if_neg hz]; simp

example : (sspec [.setPrescaler 3, .iter, .enable true, .iter, .iter]) = (3, true, 2) ∧
    (sstep (srun ⟨false, 0, 0⟩ [.setPrescaler 3, .iter, .enable true, .iter, .iter]) .iter).2 = true := by
  decide

/-- C51: `nearbyint` picks a nearest integer. -/
theorem nearbyint_nearest (x : ℚ) (m : Int) : |x - nearbyint x| ≤ |x - m| := by
  have h1 := Int.floor_le x
  have h2 := Int.lt_floor_add_one x
  unfold nearbyint
  simp only
  generalize ⌊x⌋ = f at *
  have hm : m ≤ f ∨ f + 1 ≤ m := by omega
  have hm' : (m : ℚ) ≤ f ∨ (f : ℚ) + 1 ≤ m := by
    rcases hm with h | h
    · left; exact_mod_cast h
    · right; exact_mod_cast h
  have d1 : |x - (f:ℚ)| = x - f := abs_of_nonneg (by linarith)
  have d2 : |x - ((f + 1 : Int):ℚ)| = f + 1 - x := by
    rw [abs_of_nonpos (by push_cast; linarith)]; push_cast; ring
  have e : (x - f ≤ |x - m| ∨ f + 1 - x ≤ |x - m|) ∧
      ((m:ℚ) ≤ f → x - f ≤ |x - m|) ∧ ((f:ℚ) + 1 ≤ m → f + 1 - x ≤ |x - m|) := by
    refine ⟨?_, ?_, ?_⟩
    · rcases hm' with h | h
      · left; have := le_abs_self (x - m); linarith
      · right; have := neg_abs_le (x - m); linarith
    · intro h; have := le_abs_self (x - m); linarith
    · intro h; have := neg_abs_le (x - m); linarith
  split
  · rw [d1]; rcases hm' with h | h
    · exact e.2.1 h
    · have := e.2.2 h; linarith
  · split
    · rw [d2]; rcases hm' with h | h
      · have := e.2.1 h; linarith
      · exact e.2.2 h
    · have : x - f = 1/2 := le_antisymm (by linarith) (by linarith)
      split
      · rw [d1]; rcases hm' with h | h
        · exact e.2.1 h
        · have := e.2.2 h; linarith
      · rw [d2]; rcases hm' with h | h
        · have := e.2.1 h; linarith
        · exact e.2.2 h

/-- C51: for every requested frequency between `spin/65535` and `spin` the prescaler is defined, lies
in 1..65535, and is an integer nearest to `spin/freq`. -/
theorem setPrescaler_nearest (s : Stream) (freq spin : ℚ) (hs : 0 < spin)
    (h1 : spin / 65535 ≤ freq) (h2 : freq ≤ spin) :
    ∃ n : Nat, 1 ≤ n ∧ n ≤ 65535 ∧ (∀ m : Int, |spin / freq - n| ≤ |spin / freq - m|) ∧
      setPrescaler s freq spin =
        some { s with prescaler := BitVec.ofNat 16 n, counter := BitVec.ofNat 16 n } := by
  have hf : 0 < freq := lt_of_lt_of_le (by positivity) h1
  have b1 : 1 ≤ spin / freq := by rw [le_div_iff₀ hf]; linarith
  have b2 : spin / freq ≤ 65535 := by
    rw [div_le_iff₀ hf]; rw [div_le_iff₀ (by norm_num)] at h1; linarith
  have near := nearbyint_nearest (spin / freq)
  generalize hx : spin / freq = x at *
  have n1 : 1 ≤ nearbyint x := by
    by_contra hlt
    have : (nearbyint x : ℚ) ≤ 0 := by exact_mod_cast (by omega : nearbyint x ≤ 0)
    have h3 := near 1
    rw [abs_of_nonneg (by linarith), abs_of_nonneg (by push_cast; linarith)] at h3
    push_cast at h3; linarith
  have n2 : nearbyint x ≤ 65535 := by
    by_contra hlt
    have : (65536 : ℚ) ≤ nearbyint x := by exact_mod_cast (by omega : 65536 ≤ nearbyint x)
    have h3 := near 65535
    rw [abs_of_nonpos (by linarith), abs_of_nonpos (by push_cast; linarith)] at h3
    push_cast at h3; linarith
  obtain ⟨n, hn⟩ := Int.eq_ofNat_of_zero_le (show 0 ≤ nearbyint x by omega)
  refine ⟨n, by omega, by omega, ?_, ?_⟩
  · intro m
    have := near m
    rw [hn] at this
    exact_mod_cast this
  · unfold setPrescaler
    rw [if_neg hf.ne', hx]
    simp only
    rw [if_pos ⟨by omega, by omega⟩, hn]
    simp

example : ∃ freq spin : ℚ, 0 < spin ∧ spin / 65535 ≤ freq ∧ freq ≤ spin := ⟨10, 1000, by norm_num⟩

end Verif.Encoder
