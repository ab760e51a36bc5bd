import Verif.Pose.Odometry
import Mathlib.Analysis.SpecialFunctions.Complex.Arg
import Mathlib.Analysis.Real.Pi.Bounds

/-!
# C66 and C80: poses and odometry
-/

namespace Verif.Pose

open Spec

@[ext] theorem Pt.ext' {p q : Pt} (hx : p.x = q.x) (hy : p.y = q.y) : p = q := by
  cases p; cases q; simp only at hx hy; rw [hx, hy]

theorem Se2.ext' {p q : Se2} (ha : p.angle = q.angle) (hx : p.t.x = q.t.x) (hy : p.t.y = q.t.y) : p = q := by
  cases p; cases q; simp only at ha hx hy; rw [ha, Pt.ext' hx hy]

/-- C66: chaining poses is associative. -/
theorem chain_assoc (a b c : Se2) : (a.chain b).chain c = a.chain (b.chain c) := by
  apply Se2.ext'
  · simp only [Se2.chain, add_assoc]
  · simp only [Se2.chain, Se2.transform, rotate, Real.cos_add, Real.sin_add]; ring
  · simp only [Se2.chain, Se2.transform, rotate, Real.cos_add, Real.sin_add]; ring

/-- C66: the pose at the origin is neutral. -/
theorem chain_one (a : Se2) : a.chain (.xya 0 0 0) = a ∧ (Se2.xya 0 0 0).chain a = a := by
  constructor <;> apply Se2.ext' <;> simp [Se2.chain, Se2.transform, rotate, Se2.xya]

/-- C66: a pose and its inverse cancel out, on both sides. -/
theorem chain_inverse (a : Se2) : a.chain a.inverse = .xya 0 0 0 ∧ a.inverse.chain a = .xya 0 0 0 := by
  have h := Real.sin_sq_add_cos_sq a.angle
  refine ⟨Se2.ext' ?_ ?_ ?_, Se2.ext' ?_ ?_ ?_⟩
  · simp only [Se2.chain, Se2.inverse, Se2.xya, add_neg_cancel]
  · simp only [Se2.chain, Se2.inverse, Se2.xya, Se2.transform, rotate, inverseRotate, Real.cos_neg, Real.sin_neg]
    linear_combination -a.t.x * h
  · simp only [Se2.chain, Se2.inverse, Se2.xya, Se2.transform, rotate, inverseRotate, Real.cos_neg, Real.sin_neg]
    linear_combination -a.t.y * h
  · simp only [Se2.chain, Se2.inverse, Se2.xya, neg_add_cancel]
  · simp only [Se2.chain, Se2.inverse, Se2.xya, Se2.transform, rotate, inverseRotate, Real.cos_neg, Real.sin_neg]
    ring
  · simp only [Se2.chain, Se2.inverse, Se2.xya, Se2.transform, rotate, inverseRotate, Real.cos_neg, Real.sin_neg]
    ring

/-- C66: transforming by chained poses is transforming twice. -/
theorem transform_chain (a b : Se2) (p : Pt) : (a.chain b).transform p = a.transform (b.transform p) := by
  apply Pt.ext'
  · simp only [Se2.chain, Se2.transform, rotate, Real.cos_add, Real.sin_add]; ring
  · simp only [Se2.chain, Se2.transform, rotate, Real.cos_add, Real.sin_add]; ring

/-- C66: the inverse transformation is the transformation by the inverse pose, and it undoes the transformation. -/
theorem inverse_transform (a : Se2) (p : Pt) :
    a.inverseTransform p = a.inverse.transform p ∧ a.inverseTransform (a.transform p) = p ∧ a.transform (a.inverseTransform p) = p := by
  have h := Real.sin_sq_add_cos_sq a.angle
  refine ⟨Pt.ext' ?_ ?_, Pt.ext' ?_ ?_, Pt.ext' ?_ ?_⟩
  · simp only [Se2.inverse, Se2.inverseTransform, Se2.transform, rotate, inverseRotate]; ring
  · simp only [Se2.inverse, Se2.inverseTransform, Se2.transform, rotate, inverseRotate]; ring
  · simp only [Se2.inverseTransform, Se2.transform, rotate, inverseRotate, Real.cos_neg, Real.sin_neg]
    linear_combination p.x * h
  · simp only [Se2.inverseTransform, Se2.transform, rotate, inverseRotate, Real.cos_neg, Real.sin_neg]
    linear_combination p.y * h
  · simp only [Se2.inverseTransform, Se2.transform, rotate, inverseRotate, Real.cos_neg, Real.sin_neg]
    linear_combination (p.x - a.t.x) * h
  · simp only [Se2.inverseTransform, Se2.transform, rotate, inverseRotate, Real.cos_neg, Real.sin_neg]
    linear_combination (p.y - a.t.y) * h

/-- C66: the transformations are the rigid motions of the plane: each one keeps distances and orientation, and each map that does is one of them. -/
theorem transform_rigid (f : ℝ × ℝ → ℝ × ℝ) :
    Rigid f ↔ ∃ s : Se2, ∀ p, f p = ((s.transform ⟨p.1, p.2⟩).x, (s.transform ⟨p.1, p.2⟩).y) := by
  constructor
  · intro h
    generalize hu : f (0, 0) = u
    generalize hv : f (1, 0) = v
    have h1 := h.distance (1, 0) (0, 0)
    rw [hu, hv] at h1
    simp only at h1
    -- an angle with the cosine and sine of the image of the first axis
    obtain ⟨θ, hc, hs⟩ : ∃ θ, Real.cos θ = v.1 - u.1 ∧ Real.sin θ = v.2 - u.2 := by
      have hn : ‖(⟨v.1 - u.1, v.2 - u.2⟩ : ℂ)‖ = 1 := by
        have : ‖(⟨v.1 - u.1, v.2 - u.2⟩ : ℂ)‖ ^ 2 = 1 := by
          rw [← Complex.normSq_eq_norm_sq, Complex.normSq_mk]
          linear_combination h1
        have h0 := norm_nonneg (⟨v.1 - u.1, v.2 - u.2⟩ : ℂ)
        nlinarith
      refine ⟨Complex.arg ⟨v.1 - u.1, v.2 - u.2⟩, ?_, ?_⟩
      · rw [Complex.cos_arg (by intro e; rw [e, norm_zero] at hn; exact zero_ne_one hn), hn, div_one]
      · rw [Complex.sin_arg, hn, div_one]
    refine ⟨⟨θ, ⟨u.1, u.2⟩⟩, fun p => ?_⟩
    have h2 := h.distance p (0, 0)
    have h3 := h.distance p (1, 0)
    have h4 := h.orientation (0, 0) (1, 0) p
    rw [hu] at h2 h4
    rw [hv] at h3 h4
    simp only [Se2.transform, rotate]
    rw [hc, hs]
    simp only at h1 h2 h3 h4
    -- the components along the image axes
    have hdot : ((f p).1 - u.1) * (v.1 - u.1) + ((f p).2 - u.2) * (v.2 - u.2) = p.1 := by linear_combination (h2 - h3 + h1) / 2
    have hcr : (v.1 - u.1) * ((f p).2 - u.2) - (v.2 - u.2) * ((f p).1 - u.1) = p.2 := by linear_combination h4
    refine Prod.ext ?_ ?_
    · simp only
      linear_combination (v.1 - u.1) * hdot - (v.2 - u.2) * hcr - ((f p).1 - u.1) * h1
    · simp only
      linear_combination (v.2 - u.2) * hdot + (v.1 - u.1) * hcr - ((f p).2 - u.2) * h1
  · rintro ⟨s, hs⟩
    have h := Real.sin_sq_add_cos_sq s.angle
    refine ⟨fun p q => ?_, fun p q r => ?_⟩
    · rw [hs, hs]
      simp only [Se2.transform, rotate]
      linear_combination ((p.1 - q.1) ^ 2 + (p.2 - q.2) ^ 2) * h
    · rw [hs, hs, hs]
      simp only [Se2.transform, rotate]
      linear_combination ((q.1 - p.1) * (r.2 - p.2) - (q.2 - p.2) * (r.1 - p.1)) * h

/-- C66: two poses transform alike exactly when they have the same position and the same heading. -/
theorem transform_same (a b : Se2) : (∀ p, a.transform p = b.transform p) ↔ a.t = b.t ∧ SameAngle a.angle b.angle := by
  constructor
  · intro h
    have h0 := h ⟨0, 0⟩
    have h1 := h ⟨1, 0⟩
    simp only [Se2.transform, rotate, mul_zero, sub_zero, zero_add, mul_one, add_zero, Pt.mk.injEq] at h0 h1
    refine ⟨Pt.ext' h0.1 h0.2, ?_⟩
    have hc : Real.cos a.angle = Real.cos b.angle := by linarith [h0.1, h1.1]
    have hs : Real.sin a.angle = Real.sin b.angle := by linarith [h0.2, h1.2]
    have hd : Real.cos (a.angle - b.angle) = 1 := by
      rw [Real.cos_sub, hc, hs]
      linear_combination Real.sin_sq_add_cos_sq b.angle
    obtain ⟨k, hk⟩ := (Real.cos_eq_one_iff _).mp hd
    exact ⟨k, by linarith⟩
  · rintro ⟨ht, ha⟩ p
    simp only [Se2.transform, rotate, sameAngle_cos ha, sameAngle_sin ha, ht]

/-- A quarter turn at (1, 2) sends (3, 4) to (-3, 5) -/
example : (Se2.xya 1 2 (Real.pi / 2)).transform ⟨3, 4⟩ = ⟨-3, 5⟩ := by
  apply Pt.ext' <;> simp [Se2.transform, rotate, Se2.xya] <;> norm_num

/-- Translations do not commute with rotations -/
example : (Se2.xya 1 0 0).chain (.xya 0 0 Real.pi) ≠ (Se2.xya 0 0 Real.pi).chain (.xya 1 0 0) := by
  intro h
  have := congrArg (·.t.x) h
  simp [Se2.chain, Se2.transform, rotate, Se2.xya] at this
  norm_num at this

/-! ## Odometry -/

/-- C80: the update of the pose is exact for wheels turning at constant speed between two readings: it is the end of the curve that a robot on two wheels follows, whatever the movement. -/
theorem manage_exact (p q : Pos) (D A : Int) (h : p.manage D A = some q) (hrs : p.rs = true) (hc : p.coef = 0) :
    (∃ X Y Φ, Drive p.track (((D - p.prevDistance : Int) - (A - p.prevAngle : Int)) / p.imp) (((D - p.prevDistance : Int) + (A - p.prevAngle : Int)) / p.imp) p.x p.y p.a X Y Φ) ∧
    ∀ X Y Φ, Drive p.track (((D - p.prevDistance : Int) - (A - p.prevAngle : Int)) / p.imp) (((D - p.prevDistance : Int) + (A - p.prevAngle : Int)) / p.imp) p.x p.y p.a X Y Φ →
      q.x = X 1 ∧ q.y = Y 1 ∧ SameAngle q.a (Φ 1) := by
  refine ⟨drive_exists _ _ _ _ _ _, fun X Y Φ hd => ?_⟩
  obtain ⟨h1, h2, h3, _⟩ := manage_inv h hrs
  obtain ⟨e1, e2, _, e3⟩ := move_drive p (D - p.prevDistance) (A - p.prevAngle) hc h1 h2 hd
  rw [← h3] at e1 e2 e3
  exact ⟨e1, e2, e3⟩

/-- C80: the parameters stay and the readings are remembered; without a robot system nothing happens. -/
theorem manage_frame (p q : Pos) (D A : Int) (h : p.manage D A = some q) :
    q.track = p.track ∧ q.imp = p.imp ∧ q.coef = p.coef ∧ q.rs = p.rs ∧ (p.rs = true → q.prevDistance = D ∧ q.prevAngle = A) ∧ (p.rs = false → q = p) := by
  cases hrs : p.rs with
  | true =>
    obtain ⟨_, _, _, _, _, _, h1, h2, h3, h4, h5, h6, _⟩ := manage_inv h hrs
    exact ⟨h3, h4, h5, h6, fun _ => ⟨h1, h2⟩, fun h => by cases h⟩
  | false =>
    unfold Pos.manage at h
    rw [if_pos hrs] at h
    have e := (Option.some.inj h).symm
    subst e
    exact ⟨rfl, rfl, rfl, hrs, (fun h => by cases h), fun _ => rfl⟩

/-- C80: the update is defined exactly when the differences fit in 32 bits, the robot's dimensions are configured, and the end of the movement (heading in degrees included) fits in 16 bits. -/
theorem manage_defined (p : Pos) (D A : Int) (hrs : p.rs = true) (hc : p.coef = 0) (X Y Φ : ℝ → ℝ)
    (hd : Drive p.track (((D - p.prevDistance : Int) - (A - p.prevAngle : Int)) / p.imp) (((D - p.prevDistance : Int) + (A - p.prevAngle : Int)) / p.imp) p.x p.y p.a X Y Φ)
    (ha : -Real.pi ≤ p.a ∧ p.a ≤ Real.pi) (ht : p.imp ≠ 0 → p.track ≠ 0 → -(2 * Real.pi) ≤ Φ 1 - Φ 0 ∧ Φ 1 - Φ 0 ≤ 2 * Real.pi) :
    (p.manage D A).isSome ↔
      (-2147483648 ≤ D - p.prevDistance ∧ D - p.prevDistance ≤ 2147483647) ∧ (-2147483648 ≤ A - p.prevAngle ∧ A - p.prevAngle ≤ 2147483647)
      ∧ p.imp ≠ 0 ∧ p.track ≠ 0 ∧ (-32769 < X 1 ∧ X 1 < 32768) ∧ (-32769 < Y 1 ∧ Y 1 < 32768) := by
  rw [manage_isSome p D A hrs]
  constructor
  · rintro ⟨h1, h2, h3, h4, h5, h6, _⟩
    obtain ⟨e1, e2, _, _⟩ := move_drive p (D - p.prevDistance) (A - p.prevAngle) hc h3 h4 hd
    rw [e1, i16_isSome] at h5
    rw [e2, i16_isSome] at h6
    exact ⟨h1, h2, h3, h4, h5, h6⟩
  · rintro ⟨h1, h2, h3, h4, h5, h6⟩
    obtain ⟨e1, e2, e4, _⟩ := move_drive p (D - p.prevDistance) (A - p.prevAngle) hc h3 h4 hd
    have ht := ht h3 h4
    rw [e4, hd.a0, add_sub_cancel_left] at ht
    refine ⟨h1, h2, h3, h4, by rw [e1, i16_isSome]; exact h5, by rw [e2, i16_isSome]; exact h6, ?_⟩
    rw [i16_isSome]
    have hpi := Real.pi_pos
    have hr : -Real.pi ≤ (p.move (D - p.prevDistance) (A - p.prevAngle)).2.2 ∧ (p.move (D - p.prevDistance) (A - p.prevAngle)).2.2 ≤ Real.pi := by
      by_cases hg : A - p.prevAngle = 0
      · rw [hg, move_straight]
        exact ha
      · rw [move_arc p hg hc]
        simp only [wrap]
        split
        · constructor <;> linarith
        · split <;> constructor <;> linarith
    generalize (p.move (D - p.prevDistance) (A - p.prevAngle)).2.2 = b at hr
    have e : b * (360 / (Real.pi * 2)) = 180 * (b / Real.pi) := by ring
    rw [e]
    have hb1 : -1 ≤ b / Real.pi := by rw [le_div_iff₀ hpi]; linarith
    have hb2 : b / Real.pi ≤ 1 := by rw [div_le_iff₀ hpi]; linarith
    constructor <;> linarith

/-- C80: the heading stays within half a turn, as long as no single update turns by more than a full turn. -/
theorem manage_range (p q : Pos) (D A : Int) (h : p.manage D A = some q) (hc : p.coef = 0) (ha : -Real.pi ≤ p.a ∧ p.a ≤ Real.pi)
    (ht : |2 * ((A : ℝ) - p.prevAngle)| ≤ 2 * Real.pi * |p.track * p.imp|) : -Real.pi ≤ q.a ∧ q.a ≤ Real.pi := by
  cases hrs : p.rs with
  | false => rw [(manage_frame p q D A h).2.2.2.2.2 hrs]; exact ha
  | true =>
    obtain ⟨h1, h2, h3, _⟩ := manage_inv h hrs
    have e := congrArg (·.2.2) h3
    simp only at e
    rw [e]
    by_cases hg : A - p.prevAngle = 0
    · rw [hg, move_straight]
      exact ha
    · rw [move_arc p hg hc]
      have harc : |p.arc (A - p.prevAngle)| ≤ 2 * Real.pi := by
        unfold Pos.arc
        rw [abs_div, div_le_iff₀ (abs_pos.mpr (mul_ne_zero h2 h1))]
        push_cast
        exact ht
      have := abs_le.mp harc
      simp only [wrap]
      split
      · constructor <;> linarith
      · split <;> constructor <;> linarith

/-- C80: an update by more than a full turn can leave the heading out of range: it is brought back by one turn only. -/
theorem manage_range_false : ∃ p q : Pos, ∃ D A : Int, p.manage D A = some q ∧ p.coef = 0 ∧ (-Real.pi ≤ p.a ∧ p.a ≤ Real.pi) ∧ Real.pi < q.a := by
  have hpi := Real.pi_pos
  have hp3 := Real.pi_gt_three
  have hp4 := Real.pi_lt_d2
  have hm : (⟨0, 0, 0, (0, 0, 0), 0, 0, 1, 1, 0, true⟩ : Pos).move 0 7 = (0, 0, 14 - Real.pi * 2) := by
    rw [move_arc _ (by decide) rfl]
    have ea : (⟨0, 0, 0, (0, 0, 0), 0, 0, 1, 1, 0, true⟩ : Pos).arc 7 = 14 := by
      simp only [Pos.arc]; norm_num
    rw [ea]
    simp only [wrap]
    rw [if_neg (by linarith), if_pos (by linarith)]
    refine Prod.ext ?_ (Prod.ext ?_ ?_) <;> simp
  have hs : ((⟨0, 0, 0, (0, 0, 0), 0, 0, 1, 1, 0, true⟩ : Pos).manage 0 7).isSome := by
    rw [manage_isSome _ _ _ rfl]
    refine ⟨by decide, by decide, one_ne_zero, one_ne_zero, ?_, ?_, ?_⟩
    · show (i16 ((⟨0, 0, 0, (0, 0, 0), 0, 0, 1, 1, 0, true⟩ : Pos).move 0 7).1).isSome
      rw [hm, i16_isSome]; norm_num
    · show (i16 ((⟨0, 0, 0, (0, 0, 0), 0, 0, 1, 1, 0, true⟩ : Pos).move 0 7).2.1).isSome
      rw [hm, i16_isSome]; norm_num
    · show (i16 (((⟨0, 0, 0, (0, 0, 0), 0, 0, 1, 1, 0, true⟩ : Pos).move 0 7).2.2 * _)).isSome
      rw [hm, i16_isSome]
      have e : (14 - Real.pi * 2) * (360 / (Real.pi * 2)) = 180 * (14 / Real.pi) - 360 := by field_simp; ring
      simp only
      rw [e]
      have hb1 : 0 ≤ 14 / Real.pi := by positivity
      have hb2 : 14 / Real.pi ≤ 5 := by rw [div_le_iff₀ hpi]; linarith
      constructor <;> linarith
  obtain ⟨q, hq⟩ := Option.isSome_iff_exists.mp hs
  obtain ⟨_, _, h3, _⟩ := manage_inv hq rfl
  refine ⟨_, q, 0, 7, hq, rfl, ⟨?_, ?_⟩, ?_⟩
  · show -Real.pi ≤ 0
    linarith
  · show 0 ≤ Real.pi
    linarith
  · have h3' : (q.x, q.y, q.a) = (⟨0, 0, 0, (0, 0, 0), 0, 0, 1, 1, 0, true⟩ : Pos).move 0 7 := h3
    rw [hm] at h3'
    have e := congrArg (·.2.2) h3'
    simp only at e
    rw [e]
    linarith [Real.pi_lt_d2]

/-- C80: the whole numbers are the position rounded towards zero, and the heading in degrees rounded towards zero. -/
theorem manage_int (p q : Pos) (D A : Int) (h : p.manage D A = some q) (hrs : p.rs = true) :
    ∀ v z, (v, z) ∈ [(q.x, q.int.1), (q.y, q.int.2.1), (q.a / Real.pi * 180, q.int.2.2)] →
      |v - (z : ℝ)| < 1 ∧ |(z : ℝ)| ≤ |v| := by
  obtain ⟨_, _, _, hx, hy, ha, _⟩ := manage_inv h hrs
  have key : ∀ v z, i16 v = some z → |v - (z : ℝ)| < 1 ∧ |(z : ℝ)| ≤ |v| := by
    intro v z hz
    obtain ⟨h1, h2, _, _⟩ := i16_some hz
    rcases le_or_gt 0 v with hv | hv
    · obtain ⟨h3, h4⟩ := h1 hv
      have hz0 : (0 : ℝ) ≤ z := by
        have : (-1 : ℝ) < z := by linarith
        have : -1 < z := by exact_mod_cast this
        have : 0 ≤ z := by omega
        exact_mod_cast this
      rw [abs_of_nonneg hv, abs_of_nonneg hz0]
      exact ⟨abs_lt.mpr ⟨by linarith, by linarith⟩, h3⟩
    · obtain ⟨h3, h4⟩ := h2 hv
      have hz0 : (z : ℝ) ≤ 0 := by
        have : (z : ℝ) < 1 := by linarith
        have : z < 1 := by exact_mod_cast this
        have : z ≤ 0 := by omega
        exact_mod_cast this
      rw [abs_of_neg hv, abs_of_nonpos hz0]
      exact ⟨abs_lt.mpr ⟨by linarith, by linarith⟩, by linarith⟩
  intro v z hm
  simp only [List.mem_cons, List.not_mem_nil, or_false, Prod.mk.injEq] at hm
  rcases hm with ⟨rfl, rfl⟩ | ⟨rfl, rfl⟩ | ⟨rfl, rfl⟩
  · exact key _ _ hx
  · exact key _ _ hy
  · refine key _ _ ?_
    rw [← ha]
    congr 1
    ring

/-- C80: a reading in the middle of a movement with constant curvature makes no difference: reading twice or once gives the same pose. -/
theorem manage_split (p q r s : Pos) (D A D' A' : Int) (hrs : p.rs = true) (hc : p.coef = 0)
    (h1 : p.manage D A = some q) (h2 : q.manage D' A' = some r) (h3 : p.manage D' A' = some s)
    (hk : (D - p.prevDistance) * (A' - A) = (D' - D) * (A - p.prevAngle)) :
    r.x = s.x ∧ r.y = s.y ∧ SameAngle r.a s.a := by
  obtain ⟨i1, i2, e1, _, _, _, e2, e3, e4, e5, e6, e7, _⟩ := manage_inv h1 hrs
  obtain ⟨_, _, f1, _⟩ := manage_inv h2 e7
  obtain ⟨_, _, g1, _⟩ := manage_inv h3 hrs
  rw [e2, e3] at f1
  obtain ⟨m1, m2, m3⟩ := move_split p (D - p.prevDistance) (A - p.prevAngle) (D' - D) (A' - A) hc i1 i2 hk q e1 e5 e4 e6
  have ed : D - p.prevDistance + (D' - D) = D' - p.prevDistance := by omega
  have eg : A - p.prevAngle + (A' - A) = A' - p.prevAngle := by omega
  rw [ed, eg, ← g1, ← f1] at m1 m2 m3
  exact ⟨m1, m2, m3⟩

/-- C80: turning on the spot keeps the position, and driving with equal wheels keeps the heading. -/
theorem manage_pure (p q : Pos) (D A : Int) (h : p.manage D A = some q) (hrs : p.rs = true) (hc : p.coef = 0) :
    (D = p.prevDistance → q.x = p.x ∧ q.y = p.y) ∧
    (A = p.prevAngle → q.a = p.a ∧ (q.x - p.x) * Real.sin p.a = (q.y - p.y) * Real.cos p.a
      ∧ (q.x - p.x) * Real.cos p.a + (q.y - p.y) * Real.sin p.a = ((D : ℝ) - p.prevDistance) / p.imp) := by
  obtain ⟨h1, h2, h3, _⟩ := manage_inv h hrs
  constructor
  · rintro rfl
    rw [Int.sub_self] at h3
    by_cases hg : A - p.prevAngle = 0
    · rw [hg, move_straight] at h3
      simp only [Int.cast_zero, zero_div, mul_zero, add_zero, Prod.mk.injEq] at h3
      exact ⟨h3.1, h3.2.1⟩
    · rw [move_arc p hg hc] at h3
      simp only [Int.cast_zero, zero_mul, zero_div, add_zero, Prod.mk.injEq] at h3
      exact ⟨h3.1, h3.2.1⟩
  · rintro rfl
    rw [Int.sub_self, move_straight] at h3
    simp only [Prod.mk.injEq] at h3
    refine ⟨h3.2.2, ?_, ?_⟩
    · rw [h3.1, h3.2.1]; ring
    · rw [h3.1, h3.2.1]
      push_cast
      linear_combination ((D : ℝ) - p.prevDistance) / p.imp * Real.sin_sq_add_cos_sq p.a

/-- C80: over any number of updates, the heading depends only on the first and the last reading: it does not drift. -/
theorem run_heading (p q : Pos) (l : List (Int × Int)) (h : p.run l = some q) (hrs : p.rs = true) (hc : p.coef = 0) :
    SameAngle q.a (p.a + 2 * ((q.prevAngle : ℝ) - p.prevAngle) / (p.track * p.imp)) ∧
    (q.prevDistance, q.prevAngle) = (l.getLast?.getD (p.prevDistance, p.prevAngle)) := by
  induction l generalizing p with
  | nil =>
    have e := Option.some.inj h
    subst e
    exact ⟨by rw [sub_self, mul_zero, zero_div, add_zero]; exact sameAngle_refl _, rfl⟩
  | cons e l ih =>
    unfold Pos.run at h
    cases hm : p.manage e.1 e.2 with
    | none => rw [hm] at h; cases h
    | some m =>
      rw [hm] at h
      replace h : m.run l = some q := h
      obtain ⟨i1, i2, e1, _, _, _, e2, e3, e4, e5, e6, e7, _⟩ := manage_inv hm hrs
      obtain ⟨i3, i4⟩ := ih m h e7 (by rw [e6]; exact hc)
      constructor
      · have ha : SameAngle m.a (p.a + p.arc (e.2 - p.prevAngle)) := by
          have := congrArg (·.2.2) e1
          simp only at this
          rw [this]
          exact move_heading p _ _ hc
        refine sameAngle_trans i3 ?_
        rw [e3, e4, e5]
        have hs := sameAngle_add ha (sameAngle_refl (2 * ((q.prevAngle : ℝ) - e.2) / (p.track * p.imp)))
        refine sameAngle_trans hs ⟨0, ?_⟩
        unfold Pos.arc
        push_cast
        ring
      · rw [i4, e2, e3]
        cases l with
        | nil => rfl
        | cons x l =>
          rw [List.getLast?_cons_cons]
          cases hl : (x :: l).getLast? with
          | none => rw [List.getLast?_eq_none_iff] at hl; cases hl
          | some v => rfl

/-- C80: the path does not depend on the frame of reference: starting from a moved and turned pose, every later pose is moved and turned in the same way. -/
theorem run_frame (p p' q q' : Pos) (s : Se2) (l : List (Int × Int)) (h : p.run l = some q) (h' : p'.run l = some q')
    (hrs : p.rs = true) (hrs' : p'.rs = true) (hc : p.coef = 0) (hc' : p'.coef = 0) (hi : p'.imp = p.imp) (ht : p'.track = p.track)
    (hd : p'.prevDistance = p.prevDistance) (hg : p'.prevAngle = p.prevAngle)
    (hpos : (⟨p'.x, p'.y⟩ : Pt) = s.transform ⟨p.x, p.y⟩) (ha : SameAngle p'.a (s.angle + p.a)) :
    (⟨q'.x, q'.y⟩ : Pt) = s.transform ⟨q.x, q.y⟩ ∧ SameAngle q'.a (s.angle + q.a) := by
  induction l generalizing p p' with
  | nil =>
    have e := Option.some.inj h
    have e' := Option.some.inj h'
    subst e e'
    exact ⟨hpos, ha⟩
  | cons e l ih =>
    unfold Pos.run at h h'
    cases hm : p.manage e.1 e.2 with
    | none => rw [hm] at h; cases h
    | some m =>
      cases hm' : p'.manage e.1 e.2 with
      | none => rw [hm'] at h'; cases h'
      | some m' =>
        rw [hm] at h
        rw [hm'] at h'
        obtain ⟨_, _, e1, _, _, _, e2, e3, e4, e5, e6, e7, _⟩ := manage_inv hm hrs
        obtain ⟨_, _, f1, _, _, _, f2, f3, f4, f5, f6, f7, _⟩ := manage_inv hm' hrs'
        have hf := move_frame p p' s (e.1 - p.prevDistance) (e.2 - p.prevAngle) hc hc' hi ht hpos ha
        rw [hd, hg] at f1
        rw [← e1, ← f1] at hf
        exact ih m m' h h' e7 f7 (by rw [e6]; exact hc) (by rw [f6]; exact hc') (by rw [f5, e5]; exact hi) (by rw [f4, e4]; exact ht)
          (by rw [f2, e2]) (by rw [f3, e3]) hf.1 hf.2

/-- C80: setting the position gives the pose asked for, and keeps the readings: the next update starts from it. -/
theorem set_spec (p q : Pos) (x y : Int) (deg : ℝ) (h : p.set x y deg = some q) :
    q.x = x ∧ q.y = y ∧ q.a / Real.pi * 180 = deg ∧ q.int.1 = x ∧ q.int.2.1 = y
    ∧ q.prevDistance = p.prevDistance ∧ q.prevAngle = p.prevAngle ∧ q.track = p.track ∧ q.imp = p.imp ∧ q.coef = p.coef ∧ q.rs = p.rs := by
  unfold Pos.set at h
  cases hz : i16 deg with
  | none => rw [hz] at h; cases h
  | some z =>
    rw [hz] at h
    have e := Option.some.inj h
    subst e
    have hpi := Real.pi_ne_zero
    refine ⟨rfl, rfl, ?_, rfl, rfl, rfl, rfl, rfl, rfl, rfl, rfl⟩
    show deg * Real.pi / 180 / Real.pi * 180 = deg
    field_simp

/-- C80: before the robot's dimensions are configured, an update divides by zero. -/
theorem manage_unconfigured (D A : Int) : Pos.init.attach.manage D A = none := by
  cases h : Pos.init.attach.manage D A with
  | none => rfl
  | some q => exact absurd rfl (manage_inv h rfl).1

/-- A robot with 100 impulsions per millimetre and a track of 200 mm: 50000 impulsions forward are 500 mm; the whole computation is defined -/
example : ∃ q, (⟨200, 1000, 0, (200, 1000, 0), 7, 3, 200, 100, 0, true⟩ : Pos).manage 50007 3 = some q ∧ q.x = 700 ∧ q.y = 1000 ∧ q.a = 0 := by
  have hm : (⟨200, 1000, 0, (200, 1000, 0), 7, 3, 200, 100, 0, true⟩ : Pos).move 50000 0 = (700, 1000, 0) := by
    rw [move_straight]
    refine Prod.ext ?_ (Prod.ext ?_ ?_) <;> simp
    norm_num
  have hs : ((⟨200, 1000, 0, (200, 1000, 0), 7, 3, 200, 100, 0, true⟩ : Pos).manage 50007 3).isSome := by
    rw [manage_isSome _ _ _ rfl]
    refine ⟨by decide, by decide, ?_, ?_, ?_, ?_, ?_⟩
    · simp
    · simp
    · show (i16 ((⟨200, 1000, 0, (200, 1000, 0), 7, 3, 200, 100, 0, true⟩ : Pos).move 50000 0).1).isSome
      rw [hm, i16_isSome]; norm_num
    · show (i16 ((⟨200, 1000, 0, (200, 1000, 0), 7, 3, 200, 100, 0, true⟩ : Pos).move 50000 0).2.1).isSome
      rw [hm, i16_isSome]; norm_num
    · show (i16 (((⟨200, 1000, 0, (200, 1000, 0), 7, 3, 200, 100, 0, true⟩ : Pos).move 50000 0).2.2 * _)).isSome
      rw [hm, i16_isSome]; norm_num
  obtain ⟨q, hq⟩ := Option.isSome_iff_exists.mp hs
  obtain ⟨_, _, h3, _⟩ := manage_inv hq rfl
  have h3' : (q.x, q.y, q.a) = (⟨200, 1000, 0, (200, 1000, 0), 7, 3, 200, 100, 0, true⟩ : Pos).move 50000 0 := h3
  rw [hm] at h3'
  simp only [Prod.mk.injEq] at h3'
  exact ⟨q, hq, h3'.1, h3'.2.1, h3'.2.2⟩

/-- C80, from the calls of the user: after the track and the impulsions per millimetre are set and the encoders are chosen at the readings `D` and `A`, a straight
drive of `d` impulsions moves by `d / imp` along the heading, and a turn on the spot by `g` impulsions turns by `2 g / (track * imp)`. -/
theorem configured_motion (p p' q : Pos) (track imp : ℝ) (D A d g : Int) (hc : p.coef = 0)
    (hu : (p.setParams track imp).attach.use D A = some p') (h : p'.manage (D + d) (A + g) = some q) :
    (g = 0 → q.a = p.a ∧ q.x = p.x + Real.cos p.a * (d / imp) ∧ q.y = p.y + Real.sin p.a * (d / imp)) ∧
    (d = 0 → g ≠ 0 → q.x = p.x ∧ q.y = p.y ∧ q.a = wrap (p.a + 2 * g / (track * imp))) := by
  simp only [Pos.use, Pos.attach, if_true, Option.some.injEq] at hu
  subst hu
  obtain ⟨_, _, h3, _⟩ := manage_inv h rfl
  have e1 : D + d - D = d := by omega
  have e2 : A + g - A = g := by omega
  simp only [Pos.setParams] at h3
  rw [e1, e2] at h3
  constructor
  · rintro rfl
    rw [move_straight] at h3
    simp only [Prod.mk.injEq] at h3
    exact ⟨h3.2.2, h3.1, h3.2.1⟩
  · rintro rfl hg
    simp only [Pos.move, if_neg hg, hc, ne_eq, not_true_eq_false, false_and, if_false, Int.cast_zero, zero_mul, zero_div, add_zero, Prod.mk.injEq] at h3
    exact ⟨h3.1, h3.2.1, h3.2.2⟩

end Verif.Pose
