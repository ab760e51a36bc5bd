import Verif.Ahrs.Model
import Mathlib.Analysis.Calculus.Deriv.Add
import Mathlib.Analysis.Calculus.Deriv.Mul
import Mathlib.Analysis.Calculus.Deriv.Pow
import Mathlib.Tactic.Linarith
import Mathlib.Tactic.Ring
import Mathlib.Tactic.NormNum
import Mathlib.Tactic.FieldSimp
import Mathlib.Tactic.LinearCombination

/-! # Attitude filter: what is proved (C92) -/

namespace Verif.Ahrs

/-! ## Specification -/

/-- Product of Hamilton. -/
def hmul (p q : Quat) : Quat :=
  ⟨p.w * q.w - p.x * q.x - p.y * q.y - p.z * q.z, p.w * q.x + p.x * q.w + p.y * q.z - p.z * q.y,
    p.w * q.y - p.x * q.z + p.y * q.w + p.z * q.x, p.w * q.z + p.x * q.y - p.y * q.x + p.z * q.w⟩

def conj (q : Quat) : Quat := ⟨q.w, -q.x, -q.y, -q.z⟩

def pureQ (v : Vec) : Quat := ⟨0, v.x, v.y, v.z⟩

def vecPart (q : Quat) : Vec := ⟨q.x, q.y, q.z⟩

/-- A vector of the board, seen from the earth. -/
def toEarth (q : Quat) (v : Vec) : Vec := vecPart (hmul (hmul q (pureQ v)) (conj q))

/-- A vector of the earth, seen from the board. -/
def toBoard (q : Quat) (v : Vec) : Vec := vecPart (hmul (hmul (conj q) (pureQ v)) q)

def dot (p q : Quat) : ℝ := p.w * q.w + p.x * q.x + p.y * q.y + p.z * q.z

def IsUnit (q : Quat) : Prop := dot q q = 1

def vdot (u v : Vec) : ℝ := u.x * v.x + u.y * v.y + u.z * v.z

def Vec.sub (u v : Vec) : Vec := ⟨u.x - v.x, u.y - v.y, u.z - v.z⟩

def Vec.smul (k : ℝ) (v : Vec) : Vec := ⟨k * v.x, k * v.y, k * v.z⟩

/-- Direction of gravity expected by the board. It is `toBoard q (0, 0, 1)` for units, written with the terms that the
author of the filter chose; the gradient depends on this choice. -/
def gravity (q : Quat) : Vec :=
  ⟨2 * (q.x * q.z - q.w * q.y), 2 * (q.w * q.x + q.y * q.z), 1 - 2 * q.x ^ 2 - 2 * q.y ^ 2⟩

/-- The same for a field `(bx, 0, bz)`. -/
def field (q : Quat) (bx bz : ℝ) : Vec :=
  ⟨bx * (1 - 2 * q.y ^ 2 - 2 * q.z ^ 2) + 2 * bz * (q.x * q.z - q.w * q.y),
    2 * bx * (q.x * q.y - q.w * q.z) + 2 * bz * (q.w * q.x + q.y * q.z),
    2 * bx * (q.w * q.y + q.x * q.z) + bz * (1 - 2 * q.x ^ 2 - 2 * q.y ^ 2)⟩

/-- Half the squared distance. -/
noncomputable def halfSq (u v : Vec) : ℝ := ((u.x - v.x) ^ 2 + (u.y - v.y) ^ 2 + (u.z - v.z) ^ 2) / 2

theorem gravity_eq {q : Quat} (h : IsUnit q) : gravity q = toBoard q ⟨0, 0, 1⟩ := by
  simp only [IsUnit, dot] at h
  simp only [gravity, toBoard, vecPart, hmul, pureQ, conj, Vec.mk.injEq]
  refine ⟨by ring, by ring, by linear_combination -h⟩

theorem field_eq {q : Quat} (h : IsUnit q) (bx bz : ℝ) : field q bx bz = toBoard q ⟨bx, 0, bz⟩ := by
  simp only [IsUnit, dot] at h
  simp only [field, toBoard, vecPart, hmul, pureQ, conj, Vec.mk.injEq]
  refine ⟨by linear_combination -bx * h, by ring, by linear_combination -bz * h⟩

/-- Going to the earth and back is the identity for units, so the two are inverse. -/
theorem toBoard_toEarth {q : Quat} (h : IsUnit q) (v : Vec) : toBoard q (toEarth q v) = v := by
  simp only [IsUnit, dot] at h
  obtain ⟨w, x, y, z⟩ := q
  obtain ⟨a, b, c⟩ := v
  simp only at h
  have e : (w * w + x * x + y * y + z * z) ^ 2 = 1 := by rw [h]; norm_num
  simp only [toBoard, toEarth, vecPart, hmul, pureQ, conj, Vec.mk.injEq]
  refine ⟨by linear_combination a * e, by linear_combination b * e, by linear_combination c * e⟩

/-! ## Gyroscope -/

/-- The rate of the quaternion is `q ω / 2`. -/
theorem qDot_eq (q : Quat) (g : Vec) :
    qDot q g = ⟨(hmul q (pureQ g)).w / 2, (hmul q (pureQ g)).x / 2, (hmul q (pureQ g)).y / 2, (hmul q (pureQ g)).z / 2⟩ := by
  simp only [qDot, hmul, pureQ, Quat.mk.injEq]
  refine ⟨by ring, by ring, by ring, by ring⟩

/-- It is orthogonal to the quaternion. -/
theorem qDot_orthogonal (q : Quat) (g : Vec) : dot q (qDot q g) = 0 := by
  simp only [dot, qDot]; ring

/-! ## The corrective step is a gradient -/

/-- The quaternion with one component replaced. -/
def setAt (q : Quat) (i : Fin 4) (t : ℝ) : Quat :=
  match i with
  | 0 => { q with w := t }
  | 1 => { q with x := t }
  | 2 => { q with y := t }
  | 3 => { q with z := t }

def at' (q : Quat) (i : Fin 4) : ℝ :=
  match i with
  | 0 => q.w
  | 1 => q.x
  | 2 => q.y
  | 3 => q.z

theorem quad_deriv (a b c t : ℝ) : HasDerivAt (fun t => a * t ^ 2 + b * t + c) (2 * a * t + b) t := by
  have h := (((hasDerivAt_pow 2 t).const_mul a).add ((hasDerivAt_id t).const_mul b)).add_const c
  refine (h.congr_deriv ?_)
  simp; ring

theorem half_sum_deriv {f g h : ℝ → ℝ} {f' g' h' t : ℝ} (x y z : ℝ) (hf : HasDerivAt f f' t) (hg : HasDerivAt g g' t)
    (hh : HasDerivAt h h' t) :
    HasDerivAt (fun t => ((f t - x) ^ 2 + (g t - y) ^ 2 + (h t - z) ^ 2) / 2)
      ((f t - x) * f' + (g t - y) * g' + (h t - z) * h') t := by
  have e := ((((hf.sub_const x).pow 2).add ((hg.sub_const y).pow 2)).add ((hh.sub_const z).pow 2)).div_const 2
  refine (e.congr_deriv ?_)
  simp; ring

theorem quad_fun {f : ℝ → ℝ} (a b c t d : ℝ) (e : ∀ t, f t = a * t ^ 2 + b * t + c) (hd : d = 2 * a * t + b) :
    HasDerivAt f d t := by
  rw [show f = fun t => a * t ^ 2 + b * t + c from funext e, hd]
  exact quad_deriv a b c t

/-- Partial derivatives of the expected gravity. -/
def dGravity (q : Quat) (i : Fin 4) : Vec :=
  match i with
  | 0 => ⟨-2 * q.y, 2 * q.x, 0⟩
  | 1 => ⟨2 * q.z, 2 * q.w, -4 * q.x⟩
  | 2 => ⟨-2 * q.w, 2 * q.z, -4 * q.y⟩
  | 3 => ⟨2 * q.x, 2 * q.y, 0⟩

def dField (q : Quat) (bx bz : ℝ) (i : Fin 4) : Vec :=
  match i with
  | 0 => ⟨-2 * bz * q.y, -2 * bx * q.z + 2 * bz * q.x, 2 * bx * q.y⟩
  | 1 => ⟨2 * bz * q.z, 2 * bx * q.y + 2 * bz * q.w, 2 * bx * q.z - 4 * bz * q.x⟩
  | 2 => ⟨-4 * bx * q.y - 2 * bz * q.w, 2 * bx * q.x + 2 * bz * q.z, 2 * bx * q.w - 4 * bz * q.y⟩
  | 3 => ⟨-4 * bx * q.z + 2 * bz * q.x, -2 * bx * q.w + 2 * bz * q.y, 2 * bx * q.x⟩

theorem gravity_deriv (q : Quat) (a : Vec) (i : Fin 4) :
    HasDerivAt (fun t => halfSq (gravity (setAt q i t)) a) (vdot ((gravity q).sub a) (dGravity q i)) (at' q i) := by
  have hq : setAt q i (at' q i) = q := by match i with | 0 => rfl | 1 => rfl | 2 => rfl | 3 => rfl
  have key : ∀ f' g' h', HasDerivAt (fun t => (gravity (setAt q i t)).x) f' (at' q i) →
      HasDerivAt (fun t => (gravity (setAt q i t)).y) g' (at' q i) →
      HasDerivAt (fun t => (gravity (setAt q i t)).z) h' (at' q i) → dGravity q i = ⟨f', g', h'⟩ →
      HasDerivAt (fun t => halfSq (gravity (setAt q i t)) a) (vdot ((gravity q).sub a) (dGravity q i)) (at' q i) := by
    intro f' g' h' hf hg hh e
    have := half_sum_deriv a.x a.y a.z hf hg hh
    rw [hq] at this
    rw [e]
    exact this
  match i with
  | 0 =>
    refine key _ _ _ (quad_fun 0 (-2 * q.y) (2 * q.x * q.z) _ (-2 * q.y) (fun t => ?_) ?_)
      (quad_fun 0 (2 * q.x) (2 * q.y * q.z) _ (2 * q.x) (fun t => ?_) ?_)
      (quad_fun 0 0 (1 - 2 * q.x ^ 2 - 2 * q.y ^ 2) _ 0 (fun t => ?_) ?_) rfl <;>
      simp only [gravity, setAt, at'] <;> ring
  | 1 =>
    refine key _ _ _ (quad_fun 0 (2 * q.z) (-2 * q.w * q.y) _ (2 * q.z) (fun t => ?_) ?_)
      (quad_fun 0 (2 * q.w) (2 * q.y * q.z) _ (2 * q.w) (fun t => ?_) ?_)
      (quad_fun (-2) 0 (1 - 2 * q.y ^ 2) _ (-4 * q.x) (fun t => ?_) ?_) rfl <;>
      simp only [gravity, setAt, at'] <;> ring
  | 2 =>
    refine key _ _ _ (quad_fun 0 (-2 * q.w) (2 * q.x * q.z) _ (-2 * q.w) (fun t => ?_) ?_)
      (quad_fun 0 (2 * q.z) (2 * q.w * q.x) _ (2 * q.z) (fun t => ?_) ?_)
      (quad_fun (-2) 0 (1 - 2 * q.x ^ 2) _ (-4 * q.y) (fun t => ?_) ?_) rfl <;>
      simp only [gravity, setAt, at'] <;> ring
  | 3 =>
    refine key _ _ _ (quad_fun 0 (2 * q.x) (-2 * q.w * q.y) _ (2 * q.x) (fun t => ?_) ?_)
      (quad_fun 0 (2 * q.y) (2 * q.w * q.x) _ (2 * q.y) (fun t => ?_) ?_)
      (quad_fun 0 0 (1 - 2 * q.x ^ 2 - 2 * q.y ^ 2) _ 0 (fun t => ?_) ?_) rfl <;>
      simp only [gravity, setAt, at'] <;> ring

theorem field_deriv (q : Quat) (m : Vec) (bx bz : ℝ) (i : Fin 4) :
    HasDerivAt (fun t => halfSq (field (setAt q i t) bx bz) m) (vdot ((field q bx bz).sub m) (dField q bx bz i)) (at' q i) := by
  have hq : setAt q i (at' q i) = q := by match i with | 0 => rfl | 1 => rfl | 2 => rfl | 3 => rfl
  have key : ∀ f' g' h', HasDerivAt (fun t => (field (setAt q i t) bx bz).x) f' (at' q i) →
      HasDerivAt (fun t => (field (setAt q i t) bx bz).y) g' (at' q i) →
      HasDerivAt (fun t => (field (setAt q i t) bx bz).z) h' (at' q i) → dField q bx bz i = ⟨f', g', h'⟩ →
      HasDerivAt (fun t => halfSq (field (setAt q i t) bx bz) m) (vdot ((field q bx bz).sub m) (dField q bx bz i)) (at' q i) := by
    intro f' g' h' hf hg hh e
    have := half_sum_deriv m.x m.y m.z hf hg hh
    rw [hq] at this
    rw [e]
    exact this
  match i with
  | 0 =>
    refine key _ _ _ (quad_fun 0 (-2 * bz * q.y) (field (setAt q 0 0) bx bz).x _ (-2 * bz * q.y) (fun t => ?_) ?_)
      (quad_fun 0 (-2 * bx * q.z + 2 * bz * q.x) (field (setAt q 0 0) bx bz).y _ (-2 * bx * q.z + 2 * bz * q.x) (fun t => ?_) ?_)
      (quad_fun 0 (2 * bx * q.y) (field (setAt q 0 0) bx bz).z _ (2 * bx * q.y) (fun t => ?_) ?_) rfl <;>
      simp only [field, setAt, at'] <;> ring
  | 1 =>
    refine key _ _ _ (quad_fun 0 (2 * bz * q.z) (field (setAt q 1 0) bx bz).x _ (2 * bz * q.z) (fun t => ?_) ?_)
      (quad_fun 0 (2 * bx * q.y + 2 * bz * q.w) (field (setAt q 1 0) bx bz).y _ (2 * bx * q.y + 2 * bz * q.w) (fun t => ?_) ?_)
      (quad_fun (-2 * bz) (2 * bx * q.z) (field (setAt q 1 0) bx bz).z _ (2 * bx * q.z - 4 * bz * q.x) (fun t => ?_) ?_) rfl <;>
      simp only [field, setAt, at'] <;> ring
  | 2 =>
    refine key _ _ _ (quad_fun (-2 * bx) (-2 * bz * q.w) (field (setAt q 2 0) bx bz).x _ (-4 * bx * q.y - 2 * bz * q.w) (fun t => ?_) ?_)
      (quad_fun 0 (2 * bx * q.x + 2 * bz * q.z) (field (setAt q 2 0) bx bz).y _ (2 * bx * q.x + 2 * bz * q.z) (fun t => ?_) ?_)
      (quad_fun (-2 * bz) (2 * bx * q.w) (field (setAt q 2 0) bx bz).z _ (2 * bx * q.w - 4 * bz * q.y) (fun t => ?_) ?_) rfl <;>
      simp only [field, setAt, at'] <;> ring
  | 3 =>
    refine key _ _ _ (quad_fun (-2 * bx) (2 * bz * q.x) (field (setAt q 3 0) bx bz).x _ (-4 * bx * q.z + 2 * bz * q.x) (fun t => ?_) ?_)
      (quad_fun 0 (-2 * bx * q.w + 2 * bz * q.y) (field (setAt q 3 0) bx bz).y _ (-2 * bx * q.w + 2 * bz * q.y) (fun t => ?_) ?_)
      (quad_fun 0 (2 * bx * q.x) (field (setAt q 3 0) bx bz).z _ (2 * bx * q.x) (fun t => ?_) ?_) rfl <;>
      simp only [field, setAt, at'] <;> ring

theorem stepImu_eq (q : Quat) (a : Vec) (i : Fin 4) : at' (stepImu q a) i = vdot ((gravity q).sub a) (dGravity q i) := by
  match i with
  | 0 => simp only [at', stepImu, vdot, Vec.sub, gravity, dGravity]; ring
  | 1 => simp only [at', stepImu, vdot, Vec.sub, gravity, dGravity]; ring
  | 2 => simp only [at', stepImu, vdot, Vec.sub, gravity, dGravity]; ring
  | 3 => simp only [at', stepImu, vdot, Vec.sub, gravity, dGravity]; ring

theorem stepMarg_eq (q : Quat) (a m : Vec) (u v : ℝ) (i : Fin 4) :
    at' (stepMarg q a m u v) i = vdot ((gravity q).sub a) (dGravity q i) +
      vdot ((field q (u / 2) (v / 2)).sub m) (dField q (u / 2) (v / 2) i) := by
  match i with
  | 0 => simp only [at', stepMarg, vdot, Vec.sub, gravity, dGravity, field, dField]; ring
  | 1 => simp only [at', stepMarg, vdot, Vec.sub, gravity, dGravity, field, dField]; ring
  | 2 => simp only [at', stepMarg, vdot, Vec.sub, gravity, dGravity, field, dField]; ring
  | 3 => simp only [at', stepMarg, vdot, Vec.sub, gravity, dGravity, field, dField]; ring

/-- C92: without magnetometer, the corrective step is the gradient of half the squared distance between the expected and
the measured direction of gravity. -/
theorem imu_gradient (q : Quat) (a : Vec) (i : Fin 4) :
    HasDerivAt (fun t => halfSq (gravity (setAt q i t)) a) (at' (stepImu q a) i) (at' q i) := by
  rw [stepImu_eq]; exact gravity_deriv q a i

/-- C92: with magnetometer, it is the gradient of the sum of the two halves of squared distances, where the expected field
is that of the reference `(u / 2, 0, v / 2)`; the reference is held constant. -/
theorem marg_gradient (q : Quat) (a m : Vec) (u v : ℝ) (i : Fin 4) :
    HasDerivAt (fun t => halfSq (gravity (setAt q i t)) a + halfSq (field (setAt q i t) (u / 2) (v / 2)) m)
      (at' (stepMarg q a m u v) i) (at' q i) := by
  rw [stepMarg_eq]; exact (gravity_deriv q a i).add (field_deriv q m _ _ i)

/-- C92: `h` is the measured field seen from the earth. -/
theorem earth_eq (q : Quat) (m : Vec) : earth q m = toEarth q m := by
  simp only [earth, toEarth, vecPart, hmul, pureQ, conj, Vec.mk.injEq]
  refine ⟨by ring, by ring, by ring⟩

/-- Finding: the reference field used is half of the measured one. When the estimate agrees with the measurement of a
field towards the north, the expected field is not the measured one but half of it. -/
theorem reference_halved {q : Quat} (h : IsUnit q) (m : Vec) (north : (toEarth q m).y = 0) (pos : 0 ≤ (toEarth q m).x) :
    field q (Real.sqrt ((earth q m).x * (earth q m).x + (earth q m).y * (earth q m).y) / 2) ((earth q m).z / 2) =
      m.smul (1 / 2) := by
  rw [earth_eq, north, mul_zero, add_zero, Real.sqrt_mul_self pos, field_eq h]
  have e := toBoard_toEarth h m
  generalize toEarth q m = k at *
  obtain ⟨kx, ky, kz⟩ := k
  simp only at north
  subst north
  rw [← e]
  simp only [toBoard, vecPart, hmul, pureQ, conj, Vec.smul, Vec.mk.injEq]
  refine ⟨by ring, by ring, by ring⟩

/-! ## Units -/

theorem invSqrt_some {x r : ℝ} (h : invSqrt x = some r) : 0 < x ∧ 0 < r ∧ r * r * x = 1 := by
  unfold invSqrt at h
  by_cases hx : x ≤ 0
  · rw [if_pos hx] at h; cases h
  · rw [if_neg hx] at h
    have hx' : 0 < x := lt_of_not_ge hx
    cases h
    have hs := Real.sqrt_pos.2 hx'
    refine ⟨hx', by positivity, ?_⟩
    have e := Real.mul_self_sqrt hx'.le
    generalize Real.sqrt x = s at *
    subst e
    field_simp

theorem normalise_some {s t : Quat} (h : normalise s = some t) : IsUnit t ∧ 0 < dot s s ∧ ∃ r : ℝ, 0 < r ∧
    t = ⟨s.w * r, s.x * r, s.y * r, s.z * r⟩ := by
  unfold normalise at h
  cases e : invSqrt (s.w * s.w + s.x * s.x + s.y * s.y + s.z * s.z) with
  | none => rw [e] at h; cases h
  | some r =>
    rw [e] at h
    obtain ⟨h1, h2, h3⟩ := invSqrt_some e
    have h4 : t = ⟨s.w * r, s.x * r, s.y * r, s.z * r⟩ := by cases h; rfl
    refine ⟨?_, h1, r, h2, h4⟩
    subst h4
    simp only [IsUnit, dot]
    linear_combination h3

theorem normalise_defined {s : Quat} (h : 0 < dot s s) : ∃ t, normalise s = some t := by
  unfold normalise invSqrt
  rw [if_neg (by simp only [dot] at h; linarith)]
  exact ⟨_, rfl⟩

theorem normalise_zero {s : Quat} (h : dot s s = 0) : normalise s = none := by
  unfold normalise invSqrt
  rw [if_pos (by simp only [dot] at h; linarith)]
  rfl

theorem normaliseVec_some {a b : Vec} (h : normaliseVec a = some b) :
    vdot b b = 1 ∧ ∃ r : ℝ, 0 < r ∧ b = ⟨a.x * r, a.y * r, a.z * r⟩ := by
  unfold normaliseVec at h
  cases e : invSqrt (a.x * a.x + a.y * a.y + a.z * a.z) with
  | none => rw [e] at h; cases h
  | some r =>
    rw [e] at h
    obtain ⟨h1, h2, h3⟩ := invSqrt_some e
    have h4 : b = ⟨a.x * r, a.y * r, a.z * r⟩ := by cases h; rfl
    refine ⟨?_, r, h2, h4⟩
    subst h4
    simp only [vdot]
    linear_combination h3

theorem normaliseVec_defined {a : Vec} (h : ¬ a.isZero) : ∃ b, normaliseVec a = some b := by
  have h0 : 0 < a.x * a.x + a.y * a.y + a.z * a.z := by
    apply lt_of_not_ge
    intro hn
    apply h
    have e1 := mul_self_nonneg a.x
    have e2 := mul_self_nonneg a.y
    have e3 := mul_self_nonneg a.z
    exact ⟨mul_self_eq_zero.1 (by linarith), mul_self_eq_zero.1 (by linarith), mul_self_eq_zero.1 (by linarith)⟩
  unfold normaliseVec invSqrt
  rw [if_neg (by linarith)]
  exact ⟨_, rfl⟩

theorem updateImu_unit {q q' : Quat} {beta freq : ℝ} {g a : Vec} (h : updateImu q beta freq g a = some q') : IsUnit q' := by
  unfold updateImu at h
  by_cases ha : ¬ a.isZero
  · rw [if_pos ha] at h
    simp only [Option.bind_eq_bind, Option.bind_eq_some_iff] at h
    obtain ⟨_, _, _, _, _, _, _, _, h⟩ := h
    exact (normalise_some h).1
  · rw [if_neg ha] at h
    simp only [Option.bind_eq_bind, Option.bind_eq_some_iff] at h
    obtain ⟨_, _, _, _, h⟩ := h
    exact (normalise_some h).1

theorem update_unit {q q' : Quat} {beta freq : ℝ} {g a m : Vec} (h : update q beta freq g a m = some q') : IsUnit q' := by
  unfold update at h
  by_cases hm : m.isZero
  · rw [if_pos hm] at h; exact updateImu_unit h
  · rw [if_neg hm] at h
    by_cases ha : ¬ a.isZero
    · rw [if_pos ha] at h
      simp only [Option.bind_eq_bind, Option.bind_eq_some_iff] at h
      obtain ⟨_, _, _, _, _, _, _, _, _, _, h⟩ := h
      exact (normalise_some h).1
    · rw [if_neg ha] at h
      simp only [Option.bind_eq_bind, Option.bind_eq_some_iff] at h
      obtain ⟨_, _, _, _, h⟩ := h
      exact (normalise_some h).1

/-- A sequence of measurements. -/
noncomputable def runFilter (f : Filter) : List (Vec × Vec × Vec) → Filter
  | [] => f
  | (g, a, m) :: l => runFilter (f.update g a m) l

/-- C92: after any sequence of measurements the quaternion is a unit or NaN. -/
theorem unit_or_nan {f : Filter} (h : ∀ q, f.q = some q → IsUnit q) (l : List (Vec × Vec × Vec)) :
    ∀ q, (runFilter f l).q = some q → IsUnit q := by
  induction l generalizing f with
  | nil => exact h
  | cons e l ih =>
    obtain ⟨g, a, m⟩ := e
    apply ih
    intro q hq
    simp only [Filter.update, Option.bind_eq_some_iff] at hq
    obtain ⟨_, _, hq⟩ := hq
    exact update_unit hq

theorem init_unit : ∀ q, init.q = some q → IsUnit q := by
  intro q h
  cases h
  simp only [IsUnit, dot]; norm_num

/-- C92: NaN is never left. -/
theorem nan_forever {f : Filter} (h : f.q = none) (l : List (Vec × Vec × Vec)) : (runFilter f l).q = none := by
  induction l generalizing f with
  | nil => exact h
  | cons e l ih => obtain ⟨g, a, m⟩ := e; exact ih (by simp only [Filter.update, h, Option.bind_none])

/-! ## When it is defined -/

/-- The step of a unit by a rate orthogonal to it and a correction of length `beta` stays away from zero. -/
theorem integrate_pos {q d s : Quat} {beta freq : ℝ} (hq : IsUnit q) (hd : dot q d = 0) (hs : IsUnit s) (hf : 0 < freq)
    (hb : |beta| < freq) : ∃ t, integrate q (feedback d s beta) freq = some t ∧ 0 < dot t t := by
  unfold integrate
  rw [if_neg hf.ne']
  refine ⟨_, rfl, ?_⟩
  simp only [IsUnit, dot] at hq hd hs
  have hk : (1 / freq) * freq = 1 := by field_simp
  have hk0 : 0 < 1 / freq := by positivity
  generalize 1 / freq = k at *
  -- with p = q + k d, |p|² = 1 + k² |d|² ≥ 1, and t = p - k β s
  obtain ⟨b1, b2⟩ := abs_lt.1 hb
  have hkb : (k * beta) ^ 2 < 1 := by
    have e1 : k * beta < 1 := by nlinarith
    have e2 : -1 < k * beta := by nlinarith
    nlinarith
  obtain ⟨qw, qx, qy, qz⟩ := q
  obtain ⟨dw, dx, dy, dz⟩ := d
  obtain ⟨sw, sx, sy, sz⟩ := s
  simp only [feedback, dot] at *
  generalize hc : k * beta = c at *
  have hp : 1 ≤ (qw + k * dw) ^ 2 + (qx + k * dx) ^ 2 + (qy + k * dy) ^ 2 + (qz + k * dz) ^ 2 := by
    have : (qw + k * dw) ^ 2 + (qx + k * dx) ^ 2 + (qy + k * dy) ^ 2 + (qz + k * dz) ^ 2 =
        1 + k ^ 2 * (dw ^ 2 + dx ^ 2 + dy ^ 2 + dz ^ 2) := by linear_combination hq + 2 * k * hd
    rw [this]
    have : 0 ≤ k ^ 2 * (dw ^ 2 + dx ^ 2 + dy ^ 2 + dz ^ 2) := by positivity
    linarith
  have e0 : ∀ a b c' : ℝ, a + (b - beta * c') * k = a + k * b - c * c' := by intro a b c'; rw [← hc]; ring
  rw [e0, e0, e0, e0]
  generalize qw + k * dw = pw at *
  generalize qx + k * dx = px at *
  generalize qy + k * dy = py at *
  generalize qz + k * dz = pz at *
  apply lt_of_not_ge
  intro hn
  have z1 := mul_self_nonneg (pw - c * sw)
  have z2 := mul_self_nonneg (px - c * sx)
  have z3 := mul_self_nonneg (py - c * sy)
  have z4 := mul_self_nonneg (pz - c * sz)
  have y1 : pw - c * sw = 0 := mul_self_eq_zero.1 (by linarith)
  have y2 : px - c * sx = 0 := mul_self_eq_zero.1 (by linarith)
  have y3 : py - c * sy = 0 := mul_self_eq_zero.1 (by linarith)
  have y4 : pz - c * sz = 0 := mul_self_eq_zero.1 (by linarith)
  have : pw ^ 2 + px ^ 2 + py ^ 2 + pz ^ 2 = c ^ 2 := by
    rw [show pw = c * sw by linarith, show px = c * sx by linarith, show py = c * sy by linarith,
      show pz = c * sz by linarith]
    linear_combination c ^ 2 * hs
  linarith

/-- The correction that is computed for the measurement. -/
noncomputable def correction (q : Quat) (a m : Vec) : Quat :=
  stepMarg q a m (Real.sqrt ((earth q m).x * (earth q m).x + (earth q m).y * (earth q m).y)) (earth q m).z

/-- C92: without measurement of gravity the update is always defined. -/
theorem gyro_only_defined {q : Quat} {beta freq : ℝ} {g a m : Vec} (hq : IsUnit q) (ha : a.isZero) (hf : 0 < freq) :
    ∃ q', update q beta freq g a m = some q' := by
  obtain ⟨t, e, ht⟩ := integrate_pos (beta := 0) hq (qDot_orthogonal q g) hq hf (by simpa using hf)
  obtain ⟨q', hq'⟩ := normalise_defined ht
  have e0 : feedback (qDot q g) q 0 = qDot q g := by simp [feedback]
  rw [e0] at e
  refine ⟨q', ?_⟩
  unfold update
  by_cases hm : m.isZero
  · rw [if_pos hm]
    unfold updateImu
    rw [if_neg (not_not.2 ha)]
    simp only [Option.bind_eq_bind, Option.bind_some, e, hq']
  · rw [if_neg hm, if_neg (not_not.2 ha)]
    simp only [Option.bind_eq_bind, Option.bind_some, e, hq']

/-- C92: without magnetometer, the update of a unit is defined iff the correction is not zero. -/
theorem imu_defined_iff {q : Quat} {beta freq : ℝ} {g a : Vec} (hq : IsUnit q) (ha : ¬ a.isZero) (hf : 0 < freq)
    (hb : |beta| < freq) : (∃ q', updateImu q beta freq g a = some q') ↔
      ∀ u, normaliseVec a = some u → dot (stepImu q u) (stepImu q u) ≠ 0 := by
  obtain ⟨u, hu⟩ := normaliseVec_defined ha
  have nn : 0 ≤ dot (stepImu q u) (stepImu q u) := by
    generalize stepImu q u = s
    simp only [dot]
    have := mul_self_nonneg s.w
    have := mul_self_nonneg s.x
    have := mul_self_nonneg s.y
    have := mul_self_nonneg s.z
    linarith
  unfold updateImu
  rw [if_pos ha, hu]
  constructor
  · rintro ⟨q', h⟩ u' hu' hz
    cases hu'
    rw [Option.bind_eq_bind, Option.bind_some, normalise_zero hz] at h
    cases h
  · intro h
    obtain ⟨s, hs⟩ := normalise_defined (lt_of_le_of_ne nn (Ne.symm (h u rfl)))
    obtain ⟨t, e, ht⟩ := integrate_pos (beta := beta) hq (qDot_orthogonal q g) (normalise_some hs).1 hf hb
    obtain ⟨q', hq'⟩ := normalise_defined ht
    exact ⟨q', by simp only [Option.bind_eq_bind, Option.bind_some, hs, e, hq']⟩

/-- C92: with magnetometer, the same. -/
theorem marg_defined_iff {q : Quat} {beta freq : ℝ} {g a m : Vec} (hq : IsUnit q) (ha : ¬ a.isZero) (hm : ¬ m.isZero)
    (hf : 0 < freq) (hb : |beta| < freq) : (∃ q', update q beta freq g a m = some q') ↔
      ∀ u v, normaliseVec a = some u → normaliseVec m = some v → dot (correction q u v) (correction q u v) ≠ 0 := by
  obtain ⟨u, hu⟩ := normaliseVec_defined ha
  obtain ⟨v, hv⟩ := normaliseVec_defined hm
  have nn : 0 ≤ dot (correction q u v) (correction q u v) := by
    generalize correction q u v = s
    simp only [dot]
    have := mul_self_nonneg s.w
    have := mul_self_nonneg s.x
    have := mul_self_nonneg s.y
    have := mul_self_nonneg s.z
    linarith
  unfold update
  rw [if_neg hm, if_pos ha, hu, hv]
  simp only [Option.bind_eq_bind, Option.bind_some]
  constructor
  · rintro ⟨q', h⟩ u' v' hu' hv' hz
    cases hu'
    cases hv'
    have := normalise_zero hz
    unfold correction at this
    rw [this] at h
    cases h
  · intro h
    obtain ⟨s, hs⟩ := normalise_defined (lt_of_le_of_ne nn (Ne.symm (h u v rfl rfl)))
    obtain ⟨t, e, ht⟩ := integrate_pos (beta := beta) hq (qDot_orthogonal q g) (normalise_some hs).1 hf hb
    obtain ⟨q', hq'⟩ := normalise_defined ht
    unfold correction at hs
    exact ⟨q', by simp only [Option.bind_some, hs, e, hq']⟩

/-- Finding: whenever the estimate is exact, that is when the measured gravity is in the expected direction, the next
update without magnetometer replaces the quaternion by NaN. -/
theorem exact_estimate_nan {q : Quat} {beta freq : ℝ} {g a : Vec} (hq : IsUnit q) {k : ℝ} (hk : 0 < k)
    (ha : a = (toBoard q ⟨0, 0, 1⟩).smul k) : updateImu q beta freq g a = none := by
  have gu : vdot (gravity q) (gravity q) = 1 := by
    simp only [IsUnit, dot] at hq
    simp only [vdot, gravity]
    linear_combination (4 * (q.x ^ 2 + q.y ^ 2)) * hq
  rw [← gravity_eq hq] at ha
  have hz : ¬ a.isZero := by
    rintro ⟨z1, z2, z3⟩
    subst ha
    simp only [Vec.smul] at z1 z2 z3
    have w1 := (mul_eq_zero.1 z1).resolve_left hk.ne'
    have w2 := (mul_eq_zero.1 z2).resolve_left hk.ne'
    have w3 := (mul_eq_zero.1 z3).resolve_left hk.ne'
    simp only [vdot, w1, w2, w3] at gu
    norm_num at gu
  obtain ⟨u, hu⟩ := normaliseVec_defined hz
  obtain ⟨h1, r, hr, h2⟩ := normaliseVec_some hu
  have hu' : u = gravity q := by
    subst ha
    subst h2
    generalize gravity q = v at *
    obtain ⟨x, y, z⟩ := v
    simp only [vdot, Vec.smul] at h1 gu
    have hkr : (k * r) ^ 2 = 1 := by linear_combination h1 - (k * r) ^ 2 * gu
    have hkr1 : k * r = 1 := by
      have : 0 < k * r := by positivity
      nlinarith
    simp only [Vec.smul, Vec.mk.injEq]
    refine ⟨by linear_combination x * hkr1, by linear_combination y * hkr1, by linear_combination z * hkr1⟩
  have hz' : ∀ i, at' (stepImu q u) i = 0 := by
    intro i
    rw [stepImu_eq, hu']
    simp [vdot, Vec.sub]
  have hn : normalise (stepImu q u) = none := by
    apply normalise_zero
    have e0 := hz' 0
    have e1 := hz' 1
    have e2 := hz' 2
    have e3 := hz' 3
    simp only [at'] at e0 e1 e2 e3
    simp only [dot, e0, e1, e2, e3]
    norm_num
  unfold updateImu
  rw [if_pos hz, hu, Option.bind_eq_bind, Option.bind_some, hn]
  rfl

/-- Finding: a board that lies flat, or upside down, loses its attitude with the first update after `init`, and never gets
it back. -/
theorem flat_board_nan (g : Vec) {z : ℝ} (hz : z ≠ 0) (l : List (Vec × Vec × Vec)) :
    (runFilter init ((g, ⟨0, 0, z⟩, ⟨0, 0, 0⟩) :: l)).q = none := by
  show (runFilter (init.update g ⟨0, 0, z⟩ ⟨0, 0, 0⟩) l).q = none
  apply nan_forever
  have hn : ¬ (⟨0, 0, z⟩ : Vec).isZero := fun h => hz h.2.2
  simp only [Filter.update, init, Option.bind_some]
  unfold update
  rw [if_pos ⟨rfl, rfl, rfl⟩]
  unfold updateImu
  obtain ⟨u, hu⟩ := normaliseVec_defined hn
  obtain ⟨_, r, _, h2⟩ := normaliseVec_some hu
  rw [if_pos hn, hu, Option.bind_eq_bind, Option.bind_some, normalise_zero]
  · rfl
  · subst h2
    simp only [stepImu, dot]
    norm_num

/-- C92: the conclusion for all executions, as far as it holds: from a unit, with a gain below the frequency, every
update of which the correction is not zero gives a unit. What is missing is `exact_estimate_nan`. -/
theorem update_partial {f : Filter} {q : Quat} (h : f.q = some q) (hq : IsUnit q) (hf : 0 < f.freq) (hb : |f.beta| < f.freq)
    (g a m : Vec)
    (h1 : ¬ a.isZero → m.isZero → ∀ u, normaliseVec a = some u → dot (stepImu q u) (stepImu q u) ≠ 0)
    (h2 : ¬ a.isZero → ¬ m.isZero → ∀ u v, normaliseVec a = some u → normaliseVec m = some v →
      dot (correction q u v) (correction q u v) ≠ 0) : ∃ q', (f.update g a m).q = some q' ∧ IsUnit q' := by
  have : ∃ q', update q f.beta f.freq g a m = some q' := by
    by_cases ha : a.isZero
    · exact gyro_only_defined hq ha hf
    · by_cases hm : m.isZero
      · obtain ⟨q', e⟩ := (imu_defined_iff (g := g) hq ha hf hb).2 (h1 ha hm)
        refine ⟨q', ?_⟩
        unfold update
        rw [if_pos hm, e]
      · exact (marg_defined_iff (g := g) hq ha hm hf hb).2 (h2 ha hm)
  obtain ⟨q', e⟩ := this
  exact ⟨q', by simp only [Filter.update, h, Option.bind_some, e], update_unit e⟩

/-! ## The update as a whole -/

theorem integrate_some {q d t : Quat} {freq : ℝ} (h : integrate q d freq = some t) :
    freq ≠ 0 ∧ ∀ i, at' t i = at' q i + at' d i / freq := by
  unfold integrate at h
  by_cases hf : freq = 0
  · rw [if_pos hf] at h; cases h
  · rw [if_neg hf] at h
    cases h
    refine ⟨hf, fun i => ?_⟩
    match i with
    | 0 => simp only [at']; ring
    | 1 => simp only [at']; ring
    | 2 => simp only [at']; ring
    | 3 => simp only [at']; ring

theorem normalise_at {s t : Quat} (h : normalise s = some t) :
    ∃ r : ℝ, 0 < r ∧ r ^ 2 * dot s s = 1 ∧ ∀ i, at' t i = r * at' s i := by
  obtain ⟨h1, _, r, hr, e⟩ := normalise_some h
  refine ⟨r, hr, ?_, fun i => ?_⟩
  · subst e
    simp only [IsUnit, dot] at h1 ⊢
    linear_combination h1
  · subst e
    match i with
    | 0 => simp only [at']; ring
    | 1 => simp only [at']; ring
    | 2 => simp only [at']; ring
    | 3 => simp only [at']; ring

theorem normaliseVec_dir {a b : Vec} (h : normaliseVec a = some b) : vdot b b = 1 ∧ ∃ r : ℝ, 0 < r ∧ b = a.smul r := by
  obtain ⟨h1, r, hr, e⟩ := normaliseVec_some h
  refine ⟨h1, r, hr, ?_⟩
  rw [e]
  simp only [Vec.smul, Vec.mk.injEq]
  exact ⟨mul_comm _ _, mul_comm _ _, mul_comm _ _⟩

theorem feedback_at (d s : Quat) (beta : ℝ) (i : Fin 4) : at' (feedback d s beta) i = at' d i - beta * at' s i := by
  match i with | 0 => rfl | 1 => rfl | 2 => rfl | 3 => rfl

theorem qDot_at (q : Quat) (g : Vec) (i : Fin 4) : at' (qDot q g) i = at' (hmul q (pureQ g)) i / 2 := by
  rw [qDot_eq]
  match i with | 0 => rfl | 1 => rfl | 2 => rfl | 3 => rfl

/-- `q'` has the direction of `q + d / freq`, and is a unit. -/
def Moves (q q' : Quat) (freq : ℝ) (d : Fin 4 → ℝ) : Prop :=
  IsUnit q' ∧ ∃ k : ℝ, 0 < k ∧ ∀ i, at' q' i = k * (at' q i + d i / freq)

/-- `e` has partial derivatives `s` at `q`. -/
def Gradient (e : Quat → ℝ) (q s : Quat) : Prop := ∀ i, HasDerivAt (fun t => e (setAt q i t)) (at' s i) (at' q i)

/-- C92: the update without magnetometer moves the quaternion by the rate of the gyroscope, and by `beta` down the
gradient of the error of gravity. -/
theorem updateImu_spec {q q' : Quat} {beta freq : ℝ} {g a : Vec} (ha : ¬ a.isZero)
    (h : updateImu q beta freq g a = some q') : ∃ (u : Vec) (s : Quat) (c r : ℝ), 0 < c ∧ u = a.smul c ∧ vdot u u = 1 ∧
      Gradient (fun q => halfSq (gravity q) u) q s ∧ 0 < r ∧ r ^ 2 * dot s s = 1 ∧
      Moves q q' freq (fun i => at' (hmul q (pureQ g)) i / 2 - beta * (r * at' s i)) := by
  unfold updateImu at h
  rw [if_pos ha] at h
  simp only [Option.bind_eq_bind, Option.bind_eq_some_iff] at h
  obtain ⟨u, hu, s, hs, d, hd, t, ht, h⟩ := h
  obtain ⟨hu1, c, hc, hu2⟩ := normaliseVec_dir hu
  obtain ⟨r, hr, hr2, hs2⟩ := normalise_at hs
  obtain ⟨k, hk, _, hq⟩ := normalise_at h
  refine ⟨u, stepImu q u, c, r, hc, hu2, hu1, imu_gradient q u, hr, hr2, (normalise_some h).1, k, hk, fun i => ?_⟩
  cases hd
  rw [hq, (integrate_some ht).2, feedback_at, hs2, qDot_at]

/-- C92: with magnetometer, down the gradient of the sum of the errors of gravity and of half the field. -/
theorem update_spec {q q' : Quat} {beta freq : ℝ} {g a m : Vec} (ha : ¬ a.isZero) (hm : ¬ m.isZero)
    (h : update q beta freq g a m = some q') : ∃ (u v : Vec) (s : Quat) (c c' r : ℝ), 0 < c ∧ u = a.smul c ∧ vdot u u = 1 ∧
      0 < c' ∧ v = m.smul c' ∧ vdot v v = 1 ∧
      (let b := toEarth q v
       Gradient (fun q => halfSq (gravity q) u + halfSq (field q (Real.sqrt (b.x * b.x + b.y * b.y) / 2) (b.z / 2)) v) q s) ∧
      0 < r ∧ r ^ 2 * dot s s = 1 ∧ Moves q q' freq (fun i => at' (hmul q (pureQ g)) i / 2 - beta * (r * at' s i)) := by
  unfold update at h
  rw [if_neg hm, if_pos ha] at h
  simp only [Option.bind_eq_bind, Option.bind_eq_some_iff] at h
  obtain ⟨u, hu, v, hv, s, hs, d, hd, t, ht, h⟩ := h
  obtain ⟨hu1, c, hc, hu2⟩ := normaliseVec_dir hu
  obtain ⟨hv1, c', hc', hv2⟩ := normaliseVec_dir hv
  obtain ⟨r, hr, hr2, hs2⟩ := normalise_at hs
  obtain ⟨k, hk, _, hq⟩ := normalise_at h
  refine ⟨u, v, _, c, c', r, hc, hu2, hu1, hc', hv2, hv1, ?_, hr, hr2, (normalise_some h).1, k, hk, fun i => ?_⟩
  · rw [earth_eq]
    exact marg_gradient q u v _ _
  · cases hd
    rw [hq, (integrate_some ht).2, feedback_at, hs2, qDot_at]

/-- C92: without gravity, by the rate of the gyroscope only. -/
theorem gyro_spec {q q' : Quat} {beta freq : ℝ} {g a m : Vec} (ha : a.isZero) (h : update q beta freq g a m = some q') :
    Moves q q' freq (fun i => at' (hmul q (pureQ g)) i / 2) := by
  have key : ∃ t, integrate q (qDot q g) freq = some t ∧ normalise t = some q' := by
    unfold update at h
    by_cases hm : m.isZero
    · rw [if_pos hm] at h
      unfold updateImu at h
      rw [if_neg (not_not.2 ha)] at h
      simpa only [Option.bind_eq_bind, Option.bind_some, Option.bind_eq_some_iff] using h
    · rw [if_neg hm, if_neg (not_not.2 ha)] at h
      simpa only [Option.bind_eq_bind, Option.bind_some, Option.bind_eq_some_iff] using h
  obtain ⟨t, ht, hn⟩ := key
  obtain ⟨k, hk, _, hq⟩ := normalise_at hn
  refine ⟨(normalise_some hn).1, k, hk, fun i => ?_⟩
  rw [hq, (integrate_some ht).2, qDot_at]

/-- An update without field is the update without magnetometer. -/
theorem update_no_field {q : Quat} {beta freq : ℝ} {g a m : Vec} (hm : m.isZero) :
    update q beta freq g a m = updateImu q beta freq g a := by
  unfold update; rw [if_pos hm]

/-! ## The thread -/

noncomputable def runThread (f : Filter) : List (Option ℝ × ImuMsg) → Filter × List AttitudeMsg
  | [] => (f, [])
  | (c, imu) :: l =>
    let r := threadStep f c imu
    let s := runThread r.1 l
    (s.1, r.2 :: s.2)

/-- Finding: the attitude that is published never changes, whatever the sensors measure. -/
theorem attitude_constant (beta : ℝ) (l : List (Option ℝ × ImuMsg)) :
    (runThread (threadInit beta) l).2 = l.map (fun e => ⟨some ⟨1, 0, 0, 0⟩, e.2.timestamp⟩) := by
  suffices ∀ f : Filter, f.q = some ⟨1, 0, 0, 0⟩ →
      (runThread f l).2 = l.map (fun e => ⟨some ⟨1, 0, 0, 0⟩, e.2.timestamp⟩) from this _ rfl
  induction l with
  | nil => intro _ _; rfl
  | cons e l ih =>
    obtain ⟨c, imu⟩ := e
    intro f hf
    have hq : (threadStep f c imu).1.q = some ⟨1, 0, 0, 0⟩ := by cases c <;> exact hf
    have hm : (threadStep f c imu).2 = ⟨some ⟨1, 0, 0, 0⟩, imu.timestamp⟩ := by
      cases c
      · show (⟨f.q, imu.timestamp⟩ : AttitudeMsg) = _; rw [hf]
      · show (⟨f.q, imu.timestamp⟩ : AttitudeMsg) = _; rw [hf]
    simp only [runThread, List.map_cons, hm, ih _ hq]

/-- The gain that was set last, and the frequency of the sensor. -/
theorem thread_gain (beta : ℝ) (l : List (Option ℝ × ImuMsg)) :
    (runThread (threadInit beta) l).1.beta = ((l.filterMap (·.1)).getLast?).getD beta ∧ (runThread (threadInit beta) l).1.freq = 250 := by
  suffices ∀ f : Filter, f.freq = 250 → (runThread f l).1.beta = ((l.filterMap (·.1)).getLast?).getD f.beta ∧ (runThread f l).1.freq = 250 from this _ rfl
  induction l with
  | nil => intro f hf; exact ⟨rfl, hf⟩
  | cons e l ih =>
    obtain ⟨c, imu⟩ := e
    intro f hf
    cases c with
    | none => exact ih f hf
    | some b =>
      obtain ⟨h1, h2⟩ := ih (setGain f b) hf
      refine ⟨?_, h2⟩
      show (runThread (setGain f b) l).1.beta = _
      rw [h1]
      simp only [List.filterMap_cons]
      cases h : l.filterMap (·.1) with
      | nil => rfl
      | cons a l' =>
        rw [List.getLast?_cons_cons]
        cases h' : (a :: l').getLast? with
        | none => simp at h'
        | some v => rfl

/-- The gain after calibration, from the sum of all components. -/
theorem calibrate_eq (l : List Vec) :
    calibrate l = Real.sqrt (3 / 4) * (l.map (fun g => g.x + g.y + g.z)).sum / 3000 := by
  have key : ∀ (s : Vec),
      let r := l.foldl (fun (s : Vec) g => (⟨s.x + g.x / 1000, s.y + g.y / 1000, s.z + g.z / 1000⟩ : Vec)) s
      r.x + r.y + r.z = s.x + s.y + s.z + (l.map (fun g => g.x + g.y + g.z)).sum / 1000 := by
    induction l with
    | nil => intro s; simp
    | cons g l ih =>
      intro s
      have := ih ⟨s.x + g.x / 1000, s.y + g.y / 1000, s.z + g.z / 1000⟩
      simp only [List.foldl_cons, List.map_cons, List.sum_cons] at this ⊢
      rw [this]
      ring
  have := key ⟨0, 0, 0⟩
  simp only at this
  unfold calibrate
  simp only
  rw [this]
  ring

/-- Finding: the calibration sets a negative gain when the sum of the biases is negative. The correction then goes up the
gradient. -/
theorem calibrate_neg_iff (l : List Vec) : calibrate l < 0 ↔ (l.map (fun g => g.x + g.y + g.z)).sum < 0 := by
  rw [calibrate_eq]
  have h : 0 < Real.sqrt (3 / 4) := Real.sqrt_pos.2 (by norm_num)
  generalize (l.map (fun g => g.x + g.y + g.z)).sum = s
  constructor
  · intro hn
    apply lt_of_not_ge
    intro hs
    have : 0 ≤ Real.sqrt (3 / 4) * s / 3000 := by positivity
    linarith
  · intro hs
    have : Real.sqrt (3 / 4) * s < 0 := mul_neg_of_pos_of_neg h hs
    linarith

/-! ## Examples -/

/-- A measurement of gravity across the board after `init` satisfies the hypotheses of `update_partial`. -/
example : ∃ q', (init.update ⟨1, 2, 3⟩ ⟨1, 0, 0⟩ ⟨0, 0, 0⟩).q = some q' ∧ IsUnit q' := by
  refine update_partial (q := ⟨1, 0, 0, 0⟩) rfl (init_unit _ rfl) (by simp only [init]; norm_num) ?_ _ _ _ ?_ ?_
  · simp only [init]; rw [abs_of_pos] <;> norm_num
  · intro _ _ u hu
    obtain ⟨h1, r, hr, h2⟩ := normaliseVec_some hu
    subst h2
    simp only [stepImu, dot]
    norm_num
    exact hr.ne'
  · intro _ h; exact absurd ⟨rfl, rfl, rfl⟩ h

/-- A unit that is not the initial one, and the measurement that makes its update fail. -/
example : updateImu ⟨3 / 5, 4 / 5, 0, 0⟩ (1 / 10) 250 ⟨1, 2, 3⟩ ⟨0, 96 / 10, -28 / 10⟩ = none := by
  refine exact_estimate_nan (k := 10) ?_ (by norm_num) ?_
  · simp only [IsUnit, dot]; norm_num
  · simp only [toBoard, vecPart, hmul, pureQ, conj, Vec.smul, Vec.mk.injEq]
    refine ⟨by norm_num, by norm_num, by norm_num⟩

/-- A field towards the north and down. -/
example : IsUnit ⟨1, 0, 0, 0⟩ ∧ (toEarth ⟨1, 0, 0, 0⟩ ⟨3, 0, 4⟩).y = 0 ∧ 0 ≤ (toEarth ⟨1, 0, 0, 0⟩ ⟨3, 0, 4⟩).x := by
  simp only [IsUnit, dot, toEarth, vecPart, hmul, pureQ, conj]; norm_num

example : calibrate [⟨-1, 0, 0⟩] < 0 := by rw [calibrate_neg_iff]; norm_num

end Verif.Ahrs
