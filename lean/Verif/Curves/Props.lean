import Verif.Curves.Lemmas
import Mathlib.Analysis.Real.Pi.Bounds

/-!
# Circles and lines: properties (C95)
-/

namespace Verif.Curves

open Real

/-! ## Turns -/

/-- What a turn by the angle `δ` commands: the consign in angle is that of the encoder plus the angle in impulses, rounded towards zero, that
in distance is the encoder. -/
structure TurnsBy (t t' : Traj) (rob : Robot) (δ : ℝ) : Prop where
  angle : |((t'.consA - rob.ang : Int) : ℝ) - δ * t.cfg.k * t.cfg.track / 2| < 1
  distance : t'.consD = rob.dist
  target : t'.target = .pol t'.consD t'.consA
  event : t'.scheduled = false
  speed : t'.qSpeed = (|t.cfg.dSpeed|, |t.cfg.aSpeed|)

theorem turn_by {t t' : Traj} {rob : Robot} {a : ℝ} (h : t.turn rob a = some t') : TurnsBy t t' rob a := by
  have hs := turn_spec h
  simp only [Traj.turn, Option.bind_eq_bind, Option.bind_eq_some_iff, Option.some.injEq] at h
  obtain ⟨ca, hca, rfl⟩ := h
  exact ⟨hs.1, hs.2.1, hs.2.2.1, hs.2.2.2, rfl⟩

theorem consign_defined {t : Traj} {rob : Robot} {a : ℝ} (ha : |a| ≤ π) (hg : |rob.ang| ≤ 2 ^ 30) (hw : |t.cfg.k * t.cfg.track| ≤ 2 ^ 29) :
    ∃ ca, t.angleConsign rob a = some ca := by
  obtain ⟨k, h1, h2⟩ := toI32_defined (q := a * t.cfg.k * t.cfg.track / 2) (by
    rw [show a * t.cfg.k * t.cfg.track / 2 = a * (t.cfg.k * t.cfg.track) / 2 by ring, abs_div, abs_mul]
    have e1 : |a| ≤ 3.15 := ha.trans Real.pi_lt_d2.le
    have e3 := mul_le_mul e1 hw (abs_nonneg _) (by norm_num)
    rw [show |(2 : ℝ)| = 2 from abs_of_pos (by norm_num)]
    have : |a| * |t.cfg.k * t.cfg.track| / 2 ≤ 3.15 * 2 ^ 29 / 2 := div_le_div_of_nonneg_right e3 (by norm_num)
    calc _ ≤ _ := this
      _ ≤ 2 ^ 30 - 2 := by norm_num)
  exact ⟨_, by simp only [Traj.angleConsign, h1, Option.bind_eq_bind, Option.bind_some]; exact i32_defined h2 hg⟩

/-- Turns are defined for encoders and geometries within range. -/
theorem turn_defined {t : Traj} {rob : Robot} {a : ℝ} (ha : |a| ≤ π) (hg : |rob.ang| ≤ 2 ^ 30) (hw : |t.cfg.k * t.cfg.track| ≤ 2 ^ 29) :
    ∃ t', t.turn rob a = some t' := by
  obtain ⟨ca, h⟩ := consign_defined (t := t.deleteEvent) ha hg hw
  exact ⟨_, by simp only [Traj.turn, h, Option.bind_eq_bind, Option.bind_some]; rfl⟩

theorem aAbs_defined {t : Traj} {rob : Robot} {deg : ℝ} (hd : |rad deg - rob.a| ≤ 2 ^ 30 - 2) (hg : |rob.ang| ≤ 2 ^ 30) (hw : |t.cfg.k * t.cfg.track| ≤ 2 ^ 29) :
    ∃ t', t.aAbs rob deg = some t' := by
  have hp := Real.pi_gt_three
  obtain ⟨k, h1, h2⟩ := toI32_defined (q := (rad deg - rob.a) / (2 * π)) (by
    rw [abs_div, abs_of_pos (by linarith : 0 < 2 * π), div_le_iff₀ (by linarith)]
    nlinarith)
  have hm : modulo (rad deg - rob.a) = some (simpleModulo (rad deg - rob.a - k * (2 * π))) := by
    simp only [modulo, h1, Option.bind_eq_bind, Option.bind_some]
  obtain ⟨m1, m2, _⟩ := modulo_spec hm
  obtain ⟨t', h⟩ := turn_defined (t := t) (abs_le.mpr ⟨m1, m2⟩) hg hw
  exact ⟨t', by simp only [Traj.aAbs, hm, Option.bind_eq_bind, Option.bind_some]; exact h⟩

/-- A turn to an absolute heading turns by the smallest angle that leads there. -/
theorem aAbs_spec {t t' : Traj} {rob : Robot} {deg : ℝ} (h : t.aAbs rob deg = some t') :
    ∃ δ : ℝ, -π ≤ δ ∧ δ ≤ π ∧ (∃ n : ℤ, rob.a + δ = rad deg + n * (2 * π)) ∧ TurnsBy t t' rob δ := by
  simp only [Traj.aAbs, Option.bind_eq_bind, Option.bind_eq_some_iff] at h
  obtain ⟨δ, hδ, h⟩ := h
  obtain ⟨h1, h2, n, h3⟩ := modulo_spec hδ
  exact ⟨δ, h1, h2, ⟨n, by rw [h3]; ring⟩, turn_by h⟩

/-- The same without the distance, which stays as it was. -/
theorem onlyAAbs_spec {t t' : Traj} {rob : Robot} {deg : ℝ} (h : t.onlyAAbs rob deg = some t') :
    ∃ δ : ℝ, -π ≤ δ ∧ δ ≤ π ∧ (∃ n : ℤ, rob.a + δ = rad deg + n * (2 * π)) ∧
      |((t'.consA - rob.ang : Int) : ℝ) - δ * t.cfg.k * t.cfg.track / 2| < 1 ∧ t'.consD = t.consD ∧ t'.scheduled = false := by
  simp only [Traj.onlyAAbs, Option.bind_eq_bind, Option.bind_eq_some_iff, Option.some.injEq] at h
  obtain ⟨δ, hδ, ca, hca, rfl⟩ := h
  obtain ⟨h1, h2, n, h3⟩ := modulo_spec hδ
  exact ⟨δ, h1, h2, ⟨n, by rw [h3]; ring⟩, consign_spec hca, rfl, rfl⟩

/-- A turn to a point turns by the smallest angle after which the point is ahead. -/
theorem turnTo_spec {t t' : Traj} {rob : Robot} {x y : ℝ} (ha : -π ≤ rob.a) (hb : rob.a ≤ π) (h : t.turnTo rob x y = some t') :
    ∃ δ r : ℝ, -π ≤ δ ∧ δ ≤ π ∧ 0 ≤ r ∧ x = rob.x + r * cos (rob.a + δ) ∧ y = rob.y + r * sin (rob.a + δ) ∧ TurnsBy t t' rob δ := by
  have hp := Real.pi_pos
  simp only [Traj.turnTo] at h
  have hr := polar_range ⟨x - rob.x, y - rob.y⟩
  have hx := polar_x ⟨x - rob.x, y - rob.y⟩
  have hy := polar_y ⟨x - rob.x, y - rob.y⟩
  have hn := polar_nonneg ⟨x - rob.x, y - rob.y⟩
  have e : Complex.arg ⟨x - rob.x, y - rob.y⟩ = (polar ⟨x - rob.x, y - rob.y⟩).2 := rfl
  rw [e] at h
  generalize polar ⟨x - rob.x, y - rob.y⟩ = pl at *
  have h1 := simpleModulo_range (a := pl.2 - rob.a) (by linarith [hr.1]) (by linarith [hr.2])
  obtain ⟨n, h2⟩ := simpleModulo_eq (pl.2 - rob.a)
  have h3 : rob.a + simpleModulo (pl.2 - rob.a) = pl.2 + n * (2 * π) := by rw [h2]; ring
  refine ⟨_, pl.1, h1.1, h1.2, hn, ?_, ?_, turn_by h⟩
  · rw [h3, cos_add_turns, hx]; ring
  · rw [h3, sin_add_turns, hy]; ring

/-- … and the other one by the smallest angle after which it is behind. -/
theorem turnToBehind_spec {t t' : Traj} {rob : Robot} {x y : ℝ} (h : t.turnToBehind rob x y = some t') :
    ∃ δ r : ℝ, -π ≤ δ ∧ δ ≤ π ∧ 0 ≤ r ∧ x = rob.x - r * cos (rob.a + δ) ∧ y = rob.y - r * sin (rob.a + δ) ∧ TurnsBy t t' rob δ := by
  simp only [Traj.turnToBehind, Option.bind_eq_bind, Option.bind_eq_some_iff] at h
  obtain ⟨δ, hδ, h⟩ := h
  have hx := polar_x ⟨x - rob.x, y - rob.y⟩
  have hy := polar_y ⟨x - rob.x, y - rob.y⟩
  have hn := polar_nonneg ⟨x - rob.x, y - rob.y⟩
  have e : Complex.arg ⟨x - rob.x, y - rob.y⟩ = (polar ⟨x - rob.x, y - rob.y⟩).2 := rfl
  rw [e] at hδ
  generalize polar ⟨x - rob.x, y - rob.y⟩ = pl at *
  obtain ⟨h1, h2, n, h3⟩ := modulo_spec hδ
  have h4 : rob.a + δ = pl.2 + π + n * (2 * π) := by rw [h3]; ring
  refine ⟨δ, pl.1, h1, h2, hn, ?_, ?_, turn_by h⟩
  · rw [h4, cos_add_turns, Real.cos_add_pi]; linarith
  · rw [h4, sin_add_turns, Real.sin_add_pi]; linarith

/-- Points relative to the robot: `x` ahead and `y` to the left. -/
theorem gotoXyRel_spec (t : Traj) (rob : Robot) (x y : ℝ) : ∃ p, (t.gotoXyRel rob x y).target = .cart p ∧
    (t.gotoXyRel rob x y).mode = .xyStart ∧ (t.gotoXyRel rob x y).scheduled = true ∧
    (p.x - rob.x) * cos rob.a + (p.y - rob.y) * sin rob.a = x ∧ -(p.x - rob.x) * sin rob.a + (p.y - rob.y) * cos rob.a = y := by
  have hx := polar_x ⟨x, y⟩
  have hy := polar_y ⟨x, y⟩
  simp only at hx hy
  refine ⟨_, rfl, rfl, rfl, ?_, ?_⟩
  · simp only
    generalize polar ⟨x, y⟩ = pl at *
    have : cos (pl.2 + rob.a) * cos rob.a + sin (pl.2 + rob.a) * sin rob.a = cos pl.2 := by
      rw [← Real.cos_sub]; congr 1; ring
    linear_combination pl.1 * this + hx
  · simp only
    generalize polar ⟨x, y⟩ = pl at *
    have : sin (pl.2 + rob.a) * cos rob.a - cos (pl.2 + rob.a) * sin rob.a = sin pl.2 := by
      rw [← Real.sin_sub]; congr 1; ring
    linear_combination pl.1 * this + hy

/-- At a distance and an angle from the heading. -/
theorem gotoDARel_spec (t : Traj) (rob : Robot) (d deg : ℝ) : ∃ p, (t.gotoDARel rob d deg).target = .cart p ∧
    (t.gotoDARel rob d deg).mode = .xyStart ∧ (t.gotoDARel rob d deg).scheduled = true ∧
    (p.x - rob.x) * cos rob.a + (p.y - rob.y) * sin rob.a = d * cos (rad deg) ∧
    -(p.x - rob.x) * sin rob.a + (p.y - rob.y) * cos rob.a = d * sin (rad deg) := by
  refine ⟨_, rfl, rfl, rfl, ?_, ?_⟩
  · rw [show rad deg = (rad deg + rob.a) - rob.a by ring, Real.cos_sub]
    simp only [sub_add_cancel]
    ring
  · rw [show rad deg = (rad deg + rob.a) - rob.a by ring, Real.sin_sub]
    simp only [sub_add_cancel]
    ring

/-! ## Speeds on a circle -/

/-- The speeds for a radius: the ratio belongs to the radius, none exceeds the configured one, and there are no higher ones. -/
theorem circleSpeed_spec {c : Cfg} {ρ : ℝ} (ht : 0 < c.track) (hd : 0 < c.dSpeed) (ha : 0 < c.aSpeed) (hρ : 0 < ρ) :
    ∃ d a, circleSpeed c (.fin ρ) = some (d, a) ∧ 0 < d ∧ d ≤ c.dSpeed ∧ 0 < a ∧ a ≤ c.aSpeed ∧ d * c.track = 2 * ρ * a ∧
      ∀ d' a', d' ≤ c.dSpeed → a' ≤ c.aSpeed → d' * c.track = 2 * ρ * a' → d' ≤ d ∧ a' ≤ a := by
  have hc : 0 < 2 * ρ / c.track := by positivity
  have ec : 2 * ρ / c.track * c.track = 2 * ρ := by field_simp
  simp only [circleSpeed, if_neg ht.ne']
  generalize 2 * ρ / c.track = coef at *
  by_cases h : c.aSpeed * coef < c.dSpeed
  · rw [if_pos h]
    refine ⟨_, _, rfl, by positivity, h.le, ha, le_refl _, by rw [← ec]; ring, fun d' a' h1 h2 h3 => ⟨?_, h2⟩⟩
    rw [← ec] at h3
    have : d' = coef * a' := by
      have : (d' - coef * a') * c.track = 0 := by linarith
      rcases mul_eq_zero.mp this with h | h
      · linarith
      · exact absurd h ht.ne'
    rw [this]; nlinarith
  · rw [if_neg h, if_neg hc.ne']
    refine ⟨_, _, rfl, hd, le_refl _, by positivity, by rw [div_le_iff₀ hc]; linarith, by rw [← ec]; field_simp, fun d' a' h1 h2 h3 => ⟨h1, ?_⟩⟩
    rw [← ec] at h3
    have : d' = coef * a' := by
      have : (d' - coef * a') * c.track = 0 := by linarith
      rcases mul_eq_zero.mp this with h | h
      · linarith
      · exact absurd h ht.ne'
    rw [le_div_iff₀ hc]; linarith

example : ∃ c : Cfg, 0 < c.track ∧ 0 < c.dSpeed ∧ 0 < c.aSpeed ∧ circleSpeed c (.fin 50) = some (20, 40) :=
  ⟨⟨1, 200, 50, 100, 40, 1, 1, 1⟩, by norm_num, by norm_num, by norm_num, by simp only [circleSpeed]; norm_num⟩

/-- A negative radius is not a circle to the right: the speed in distance exceeds the configured one. -/
theorem circleSpeed_negative : ∃ c : Cfg, 0 < c.track ∧ 0 < c.dSpeed ∧ 0 < c.aSpeed ∧ ∃ s, circleSpeed c (.fin (-1000)) = some s ∧ c.dSpeed < |s.1| :=
  ⟨⟨1, 200, 50, 100, 40, 1, 1, 1⟩, by norm_num, by norm_num, by norm_num, (-400, 40), by simp only [circleSpeed]; norm_num, by norm_num⟩

/-- The speeds in any position, for a positive radius `R`: at the distance `r` from the centre and for the angle `φ` by which the centre is ahead of the
left (in the sense of turning left), the robot drives on a radius of `R² / (r e^{5φ})`, `φ` limited to half a radian; straight on in the centre. -/
theorem circleCommand_spec {c : Cfg} {ct : CircleTarget} (ht : 0 < c.track) (hd : 0 < c.dSpeed) (ha : 0 < c.aSpeed) (hR : 0 < ct.radius) (x y a : ℝ) :
    ∃ d w, circleCommand c ct x y a = some (d, w) ∧ 0 < d ∧ d ≤ c.dSpeed ∧ 0 ≤ w ∧ w ≤ c.aSpeed ∧
      d * c.track * ((polar ⟨ct.center.x - x, ct.center.y - y⟩).1 * exp (5 * clamp (angleToCenter (polar ⟨ct.center.x - x, ct.center.y - y⟩).2 a))) =
        2 * ct.radius ^ 2 * w := by
  simp only [circleCommand]
  have hn := polar_nonneg ⟨ct.center.x - x, ct.center.y - y⟩
  generalize polar ⟨ct.center.x - x, ct.center.y - y⟩ = pl at *
  generalize angleToCenter pl.2 a = φ
  have he := Real.exp_pos (5 * clamp φ)
  generalize hE : exp (5 * clamp φ) = e at *
  simp only [wanted, if_neg hR.ne', hE]
  by_cases h0 : pl.1 = 0
  · rw [h0, zero_div, if_pos rfl, if_pos hR]
    refine ⟨c.dSpeed, 0, ?_, hd, le_refl _, le_refl _, ha.le, by ring⟩
    simp only [circleSpeed]
    rw [if_neg (by rintro (h | h) <;> linarith)]
  · have hpos : 0 < pl.1 := lt_of_le_of_ne hn (Ne.symm h0)
    have h1 : pl.1 / ct.radius ≠ 0 := (by positivity : 0 < pl.1 / ct.radius).ne'
    rw [if_neg h1]
    obtain ⟨d, w, e1, e2, e3, e4, e5, e6, _⟩ := circleSpeed_spec ht hd ha (show 0 < ct.radius / (pl.1 / ct.radius * e) by positivity)
    refine ⟨d, w, e1, e2, e3, e4.le, e5, ?_⟩
    have : ct.radius / (pl.1 / ct.radius * e) = ct.radius ^ 2 / (pl.1 * e) := by field_simp
    rw [this] at e6
    rw [mul_comm d, mul_comm c.track] at *
    have h2 : pl.1 * e ≠ 0 := by positivity
    field_simp at e6
    linarith

/-- On the circle, with the centre to the left, the robot drives exactly on the circle. -/
theorem circle_exact {c : Cfg} {ct : CircleTarget} (ht : 0 < c.track) (hd : 0 < c.dSpeed) (ha : 0 < c.aSpeed) (hR : 0 < ct.radius) {x y a : ℝ}
    (h1 : -π ≤ a) (h2 : a ≤ π) (hx : ct.center.x = x - ct.radius * sin a) (hy : ct.center.y = y + ct.radius * cos a) :
    ∃ d w, circleCommand c ct x y a = some (d, w) ∧ 0 < d ∧ 0 < w ∧ d * c.track = 2 * ct.radius * w := by
  have hp := Real.pi_pos
  obtain ⟨d, w, e1, e2, e3, e4, e5, e6⟩ := circleCommand_spec ht hd ha hR x y a
  have hv : (⟨ct.center.x - x, ct.center.y - y⟩ : P) = ⟨-ct.radius * sin a, ct.radius * cos a⟩ := by
    rw [hx, hy]; congr 1 <;> ring
  rw [hv] at e6
  have sq := Real.sin_sq_add_cos_sq a
  have hr : (polar ⟨-ct.radius * sin a, ct.radius * cos a⟩).1 = ct.radius := by
    simp only [polar]
    rw [show -ct.radius * sin a * (-ct.radius * sin a) + ct.radius * cos a * (ct.radius * cos a) = ct.radius * ct.radius by
      linear_combination ct.radius * ct.radius * sq]
    exact Real.sqrt_mul_self hR.le
  have px := polar_x ⟨-ct.radius * sin a, ct.radius * cos a⟩
  have py := polar_y ⟨-ct.radius * sin a, ct.radius * cos a⟩
  have pr := polar_range ⟨-ct.radius * sin a, ct.radius * cos a⟩
  rw [hr] at e6 px py
  simp only at px py
  generalize (polar ⟨-ct.radius * sin a, ct.radius * cos a⟩).2 = θ at *
  have cx : cos θ = -sin a := by
    have : ct.radius * (cos θ + sin a) = 0 := by linarith
    rcases mul_eq_zero.mp this with h | h
    · exact absurd h hR.ne'
    · linarith
  have cy : sin θ = cos a := by
    have : ct.radius * (sin θ - cos a) = 0 := by linarith
    rcases mul_eq_zero.mp this with h | h
    · exact absurd h hR.ne'
    · linarith
  have s0 : sin (angleToCenter θ a) = 0 := by
    rw [sin_angleToCenter, Real.cos_sub, cx, cy]; ring
  have c1 : cos (angleToCenter θ a) = 1 := by
    rw [cos_angleToCenter, Real.sin_sub, cx, cy]; linarith [Real.sin_sq_add_cos_sq a]
  have rg := angleToCenter_range pr.1 pr.2 h1 h2
  have z : angleToCenter θ a = 0 := by
    generalize angleToCenter θ a = φ at *
    rcases lt_trichotomy φ 0 with h | h | h
    · rcases rg.1.lt_or_eq with h' | h'
      · have := Real.sin_neg_of_neg_of_neg_pi_lt h h'
        linarith
      · rw [← h', Real.cos_neg, Real.cos_pi] at c1; norm_num at c1
    · exact h
    · rcases rg.2.lt_or_eq with h' | h'
      · have := Real.sin_pos_of_pos_of_lt_pi h h'
        linarith
      · rw [h', Real.cos_pi] at c1; norm_num at c1
  rw [z, clamp_zero, mul_zero, Real.exp_zero, mul_one] at e6
  have e7 : d * c.track = 2 * ct.radius * w := by
    have : ct.radius * (d * c.track - 2 * ct.radius * w) = 0 := by linarith
    rcases mul_eq_zero.mp this with h | h
    · exact absurd h hR.ne'
    · linarith
  refine ⟨d, w, e1, e2, ?_, e7⟩
  rcases e4.lt_or_eq with h | h
  · exact h
  · have : 0 < d * c.track := by positivity
    rw [e7, ← h] at this
    linarith

/-! ## Motion along a circle -/

/-- Deviation from the circle: the component of the vector to the centre to the left of the robot, and the distance from the centre. -/
noncomputable def deviation (R : ℝ) (center : P) (x y a : ℝ) : ℝ :=
  2 / 3 - (-(center.x - x) * sin a + (center.y - y) * cos a) / R +
    ((center.x - x) * (center.x - x) + (center.y - y) * (center.y - y)) ^ (3 / 2 : ℝ) / (3 * R ^ 3)

theorem rpow_three_halves {s r : ℝ} (hr : 0 ≤ r) (h : r * r = s) : s ^ (3 / 2 : ℝ) = r ^ 3 ∧ s ^ (1 / 2 : ℝ) = r := by
  subst h
  have h1 : (r * r) ^ (1 / 2 : ℝ) = r := by
    rw [← Real.sqrt_eq_rpow]; exact Real.sqrt_mul_self hr
  refine ⟨?_, h1⟩
  rw [show (3 / 2 : ℝ) = 1 / 2 * (3 : ℕ) by norm_num, Real.rpow_mul (mul_self_nonneg r), h1, Real.rpow_natCast]

/-- In terms of the relative distance `ρ` from the centre and the error `φ` of the heading: zero exactly on the circle with the centre to the left. -/
theorem deviation_eq {R : ℝ} (hR : 0 < R) (center : P) (x y a : ℝ) :
    let ρ := ptNorm ⟨x, y⟩ center / R
    let φ := angleToCenter (polar ⟨center.x - x, center.y - y⟩).2 a
    deviation R center x y a = (ρ - 1) ^ 2 * (ρ + 2) / 3 + ρ * (1 - cos φ) := by
  intro ρ φ
  have hx := polar_x ⟨center.x - x, center.y - y⟩
  have hy := polar_y ⟨center.x - x, center.y - y⟩
  have hn := polar_nonneg ⟨center.x - x, center.y - y⟩
  have hs := polar_sq ⟨center.x - x, center.y - y⟩
  have hρ : ρ = (polar ⟨center.x - x, center.y - y⟩).1 / R := rfl
  have hφ : cos φ = sin ((polar ⟨center.x - x, center.y - y⟩).2 - a) := cos_angleToCenter _ _
  rw [hφ, Real.sin_sub, hρ, deviation, (rpow_three_halves hn hs).1]
  simp only at hx hy
  generalize polar ⟨center.x - x, center.y - y⟩ = pl at *
  rw [← hx, ← hy]
  field_simp
  ring

/-- A ride with the commands for the circle: at every time the robot moves with speeds in the ratio of the commanded ones, forward for positive `lam` and
backward for negative. The heading the position manager knows is between -pi and pi. -/
def Ride (c : Cfg) (ct : CircleTarget) (x y a lam : ℝ → ℝ) : Prop :=
  ∀ t, ∃ d w p : ℝ, ∃ n : ℤ, -π ≤ p ∧ p ≤ π ∧ a t = p + n * (2 * π) ∧ circleCommand c ct (x t) (y t) p = some (d, w) ∧
    HasDerivAt x (lam t * (d / c.k) * cos (a t)) t ∧ HasDerivAt y (lam t * (d / c.k) * sin (a t)) t ∧
    HasDerivAt a (lam t * (2 * w / (c.k * c.track))) t

theorem ride_deriv {c : Cfg} {ct : CircleTarget} {x y a lam : ℝ → ℝ} (hk : 0 < c.k) (ht : 0 < c.track) (hd : 0 < c.dSpeed) (ha : 0 < c.aSpeed)
    (hR : 0 < ct.radius) (h : Ride c ct x y a lam) (t : ℝ) :
    ∃ g, g ≤ 0 ∧ HasDerivAt (fun t => deviation ct.radius ct.center (x t) (y t) (a t)) (lam t * g) t := by
  obtain ⟨d, w, p, n, p1, p2, hp, hc, hx, hy, hw⟩ := h t
  obtain ⟨d', w', e1, e2, e3, e4, e5, e6⟩ := circleCommand_spec ht hd ha hR (x t) (y t) p
  rw [hc] at e1
  injection e1 with e1
  injection e1 with e1 e1'
  subst e1 e1'
  have px := polar_x ⟨ct.center.x - x t, ct.center.y - y t⟩
  have py := polar_y ⟨ct.center.x - x t, ct.center.y - y t⟩
  have pn := polar_nonneg ⟨ct.center.x - x t, ct.center.y - y t⟩
  have ps := polar_sq ⟨ct.center.x - x t, ct.center.y - y t⟩
  have pr := polar_range ⟨ct.center.x - x t, ct.center.y - y t⟩
  have p32 := rpow_three_halves pn ps
  simp only at px py ps p32
  have sg := sin_angleToCenter (polar ⟨ct.center.x - x t, ct.center.y - y t⟩).2 p
  have rg := angleToCenter_range pr.1 pr.2 p1 p2
  have hcos : cos (a t) = cos p := by rw [hp, cos_add_turns]
  have hsin : sin (a t) = sin p := by rw [hp, sin_add_turns]
  generalize polar ⟨ct.center.x - x t, ct.center.y - y t⟩ = pl at *
  rw [Real.cos_sub] at sg
  generalize angleToCenter pl.2 p = φ at *
  -- the derivative
  have D : HasDerivAt (fun t => deviation ct.radius ct.center (x t) (y t) (a t))
      (lam t * (-(d / c.k) * pl.1 ^ 2 / ct.radius ^ 3 * (sin φ * (exp (5 * clamp φ) - 1)))) t := by
    have dx := (hx.const_sub ct.center.x)
    have dy := (hy.const_sub ct.center.y)
    have d1 := ((dx.neg.mul hw.sin).add (dy.mul hw.cos)).div_const ct.radius
    have d2 := (((dx.mul dx).add (dy.mul dy)).rpow_const (p := (3 / 2 : ℝ)) (Or.inr (by norm_num))).div_const (3 * ct.radius ^ 3)
    have d3 := ((d1.const_sub (2 / 3)).add d2)
    refine d3.congr_deriv ?_
    simp only [Pi.neg_apply, Pi.add_apply, Pi.mul_apply]
    rw [show (3 / 2 - 1 : ℝ) = 1 / 2 by norm_num, p32.2]
    have hwe : w = d * c.track * (pl.1 * exp (5 * clamp φ)) / (2 * ct.radius ^ 2) := by
      field_simp; linarith
    rw [hwe, hcos, hsin, sg]
    generalize exp (5 * clamp φ) = E
    rw [← px, ← py]
    field_simp
    ring
  refine ⟨_, ?_, D⟩
  have key : 0 ≤ sin φ * (exp (5 * clamp φ) - 1) := by
    rcases lt_trichotomy φ 0 with h | h | h
    · have s1 : sin φ ≤ 0 := Real.sin_nonpos_of_nonpos_of_neg_pi_le h.le rg.1
      have s2 : exp (5 * clamp φ) ≤ 1 := by
        rw [← Real.exp_zero]
        exact Real.exp_le_exp.mpr (by linarith [clamp_neg.mpr h])
      nlinarith
    · rw [h, Real.sin_zero, zero_mul]
    · have s1 : 0 ≤ sin φ := Real.sin_nonneg_of_nonneg_of_le_pi h.le rg.2
      have s2 : 1 ≤ exp (5 * clamp φ) := by
        rw [← Real.exp_zero]
        exact Real.exp_le_exp.mpr (by linarith [clamp_pos.mpr h])
      nlinarith
  have h0 : 0 ≤ d / c.k * pl.1 ^ 2 / ct.radius ^ 3 := by positivity
  have h1 := mul_nonneg h0 key
  calc _ = -(d / c.k * pl.1 ^ 2 / ct.radius ^ 3 * (sin φ * (exp (5 * clamp φ) - 1))) := by ring
    _ ≤ 0 := by linarith

/-- Driving forward, the deviation from the circle never grows. Missing: circles to the right and driving backward, for which it is false (`circle_backward`, `circle_direction`). -/
theorem circle_stable_partial {c : Cfg} {ct : CircleTarget} {x y a lam : ℝ → ℝ} (hk : 0 < c.k) (ht : 0 < c.track) (hd : 0 < c.dSpeed) (ha : 0 < c.aSpeed)
    (hR : 0 < ct.radius) (h : Ride c ct x y a lam) (hl : ∀ t, 0 ≤ lam t) :
    Antitone (fun t => deviation ct.radius ct.center (x t) (y t) (a t)) := by
  have hdv := fun t => ride_deriv hk ht hd ha hR h t
  refine antitone_of_deriv_nonpos (fun t => ?_) (fun t => ?_)
  · obtain ⟨g, _, hg⟩ := hdv t
    exact hg.differentiableAt
  · obtain ⟨g, g0, hg⟩ := hdv t
    rw [hg.deriv]
    nlinarith [hl t]

/-- Driving backward, it never shrinks: the correction has the wrong sign. -/
theorem circle_backward {c : Cfg} {ct : CircleTarget} {x y a lam : ℝ → ℝ} (hk : 0 < c.k) (ht : 0 < c.track) (hd : 0 < c.dSpeed) (ha : 0 < c.aSpeed)
    (hR : 0 < ct.radius) (h : Ride c ct x y a lam) (hl : ∀ t, lam t ≤ 0) :
    Monotone (fun t => deviation ct.radius ct.center (x t) (y t) (a t)) := by
  have hdv := fun t => ride_deriv hk ht hd ha hR h t
  refine monotone_of_deriv_nonneg (fun t => ?_) (fun t => ?_)
  · obtain ⟨g, _, hg⟩ := hdv t
    exact hg.differentiableAt
  · obtain ⟨g, g0, hg⟩ := hdv t
    rw [hg.deriv]
    nlinarith [hl t]

/-- So a robot that starts on the circle with an error `φ` of its heading stays within a band around it. -/
theorem circle_band {c : Cfg} {ct : CircleTarget} {x y a lam : ℝ → ℝ} (hk : 0 < c.k) (ht : 0 < c.track) (hd : 0 < c.dSpeed) (ha : 0 < c.aSpeed)
    (hR : 0 < ct.radius) (h : Ride c ct x y a lam) (hl : ∀ t, 0 ≤ lam t) {t0 t : ℝ} (ht0 : t0 ≤ t) :
    (ptNorm ⟨x t, y t⟩ ct.center - ct.radius) ^ 2 ≤ 3 / 2 * ct.radius ^ 2 * deviation ct.radius ct.center (x t0) (y t0) (a t0) := by
  have h1 : deviation ct.radius ct.center (x t) (y t) (a t) ≤ deviation ct.radius ct.center (x t0) (y t0) (a t0) := circle_stable_partial hk ht hd ha hR h hl ht0
  have h2 := deviation_eq hR ct.center (x t) (y t) (a t)
  simp only at h2
  have hr : 0 ≤ ptNorm ⟨x t, y t⟩ ct.center / ct.radius := div_nonneg (Real.sqrt_nonneg _) hR.le
  have h3 : ptNorm ⟨x t, y t⟩ ct.center = ptNorm ⟨x t, y t⟩ ct.center / ct.radius * ct.radius := by field_simp
  have hc := Real.cos_le_one (angleToCenter (polar ⟨ct.center.x - x t, ct.center.y - y t⟩).2 (a t))
  generalize angleToCenter (polar ⟨ct.center.x - x t, ct.center.y - y t⟩).2 (a t) = φ at *
  rw [h3]
  generalize ptNorm ⟨x t, y t⟩ ct.center / ct.radius = ρ at *
  have h4 : (ρ - 1) ^ 2 * 2 / 3 ≤ deviation ct.radius ct.center (x t0) (y t0) (a t0) := by
    refine le_trans ?_ h1
    rw [h2]
    nlinarith [mul_nonneg hr (sq_nonneg (ρ - 1)), mul_nonneg hr (sub_nonneg.mpr hc)]
  have : (ρ * ct.radius - ct.radius) ^ 2 = (ρ - 1) ^ 2 * ct.radius ^ 2 := by ring
  rw [this]
  nlinarith [sq_nonneg ct.radius]

/-- Every heading is known between -pi and pi. -/
theorem exists_wrapped (a : ℝ) : ∃ p : ℝ, ∃ n : ℤ, -π ≤ p ∧ p ≤ π ∧ a = p + n * (2 * π) := by
  have hp := Real.pi_pos
  refine ⟨a - round (a / (2 * π)) * (2 * π), round (a / (2 * π)), ?_, ?_, by ring⟩
  all_goals
    have h := abs_le.mp (abs_sub_round (a / (2 * π)))
    have e : a = a / (2 * π) * (2 * π) := by field_simp
    generalize a / (2 * π) = q at *
    rw [e, ← sub_mul]
    nlinarith [h.1, h.2]

/-- The circle itself is a ride: the robot goes round at constant speed. (The hypotheses of `circle_stable_partial` can be met, and a robot without deviation stays on
the circle.) -/
theorem circle_ride {c : Cfg} (hk : 0 < c.k) (ht : 0 < c.track) (hd : 0 < c.dSpeed) (ha : 0 < c.aSpeed) (R : ℝ) (hR : 0 < R) :
    ∃ lam : ℝ → ℝ, (∀ t, 0 < lam t) ∧ Ride c ⟨⟨0, 0⟩, R, 0, 0, 0⟩ (fun t => R * sin t) (fun t => -R * cos t) (fun t => t) lam := by
  have key : ∀ t : ℝ, ∃ lam : ℝ, 0 < lam ∧ ∃ d w p : ℝ, ∃ n : ℤ, -π ≤ p ∧ p ≤ π ∧ t = p + n * (2 * π) ∧
      circleCommand c ⟨⟨0, 0⟩, R, 0, 0, 0⟩ (R * sin t) (-R * cos t) p = some (d, w) ∧
      HasDerivAt (fun t => R * sin t) (lam * (d / c.k) * cos t) t ∧ HasDerivAt (fun t => -R * cos t) (lam * (d / c.k) * sin t) t ∧
      HasDerivAt (fun t => t) (lam * (2 * w / (c.k * c.track))) t := by
    intro t
    obtain ⟨p, n, h1, h2, h3⟩ := exists_wrapped t
    have hs : sin t = sin p := by rw [h3, sin_add_turns]
    have hc : cos t = cos p := by rw [h3, cos_add_turns]
    obtain ⟨d, w, e1, e2, e3, e4⟩ := circle_exact (ct := ⟨⟨0, 0⟩, R, 0, 0, 0⟩) ht hd ha hR (x := R * sin t) (y := -R * cos t) h1 h2
      (by simp only [hs]; ring) (by simp only [hc]; ring)
    simp only at e4
    refine ⟨c.k * c.track / (2 * w), by positivity, d, w, p, n, h1, h2, h3, e1, ?_, ?_, ?_⟩
    · refine ((Real.hasDerivAt_sin t).const_mul R).congr_deriv ?_
      field_simp
      linear_combination -cos t * e4
    · refine ((Real.hasDerivAt_cos t).const_mul (-R)).congr_deriv ?_
      field_simp
      linear_combination -sin t * e4
    · refine (hasDerivAt_id t).congr_deriv ?_
      field_simp
  choose lam hpos h using key
  exact ⟨lam, hpos, h⟩

/-! ## The command and the event -/

/-- `trajectory_circle_rel` asks for the angle, and for the arc of the circle that belongs to it. -/
theorem circleRel_spec {t t' : Traj} {rob : Robot} {x y radius deg : ℝ} {flags : Nat} (h : t.circleRel rob x y radius deg flags = some t') :
    ∃ ct, t'.target = .circle ct ∧ t'.mode = .circle ∧ t'.scheduled = true ∧ ct.center = ⟨x, y⟩ ∧ ct.radius = radius ∧
      |(ct.destAngle : ℝ) - (rob.ang + rad deg * t.cfg.track / 2 * t.cfg.k)| < 1 ∧
      |(ct.destDistance : ℝ) - (rob.dist + rad deg * radius * t.cfg.k)| < 1 := by
  simp only [Traj.circleRel, Option.bind_eq_bind, Option.bind_eq_some_iff, Option.some.injEq] at h
  obtain ⟨da, hda, dd, hdd, rfl⟩ := h
  refine ⟨_, rfl, rfl, rfl, rfl, rfl, ?_, ?_⟩
  · have := (toI32_spec hda).1
    simp only [Traj.deleteEvent, Traj.setAcc, Traj.setSpeed] at this
    rwa [show rad deg * t.cfg.k * t.cfg.track / 2 = rad deg * t.cfg.track / 2 * t.cfg.k by ring] at this
  · have := (toI32_spec hdd).1
    simp only [Traj.deleteEvent, Traj.setAcc, Traj.setSpeed] at this
    rwa [show rad deg * t.cfg.k * radius = rad deg * radius * t.cfg.k by ring] at this

/-- Every event sets the consigns of the end of the arc; it ends the trajectory exactly when less than two degrees remain, and restores the configured
speeds then; otherwise the speeds are those of `circleCommand`. -/
theorem circleEvent_spec {t t' : Traj} {ct : CircleTarget} {rob : Robot} (h : t.circleEvent ct rob = some t') :
    t'.consA = ct.destAngle ∧ t'.consD = ct.destDistance ∧ t'.mode = t.mode ∧ t'.target = t.target ∧
      ∃ s, circleCommand t.cfg ct rob.x rob.y rob.a = some s ∧
        ((|((ct.destAngle - rob.ang : Int) : ℝ) / t.cfg.k / t.cfg.track * 2| < 2 * (π / 180) ∧ t'.scheduled = false ∧
            t'.qSpeed = (|t.cfg.dSpeed|, |t.cfg.aSpeed|)) ∨
          (2 * (π / 180) ≤ |((ct.destAngle - rob.ang : Int) : ℝ) / t.cfg.k / t.cfg.track * 2| ∧ t'.scheduled = t.scheduled ∧
            t'.qSpeed = (|s.1|, |s.2|))) := by
  simp only [Traj.circleEvent, Option.bind_eq_bind, Option.bind_eq_some_iff] at h
  obtain ⟨s, hs, diff, hdiff, h⟩ := h
  have hdiff := i32_some hdiff
  subst hdiff
  split at h
  · cases h
  · injection h with h
    have e2 : rad 2 = 2 * (π / 180) := by rw [rad]; ring
    rw [e2] at h
    by_cases hlt : |((ct.destAngle - rob.ang : Int) : ℝ) / t.cfg.k / t.cfg.track * 2| < 2 * (π / 180)
    · have h' : (if |((ct.destAngle - rob.ang : Int) : ℝ) / (t.setSpeed s.1 s.2).cfg.k / (t.setSpeed s.1 s.2).cfg.track * 2| < 2 * (π / 180) then
          (t.setSpeed s.1 s.2).deleteEvent else t.setSpeed s.1 s.2) = (t.setSpeed s.1 s.2).deleteEvent := if_pos hlt
      rw [h'] at h
      subst h
      exact ⟨rfl, rfl, rfl, rfl, s, hs, Or.inl ⟨hlt, rfl, rfl⟩⟩
    · have h' : (if |((ct.destAngle - rob.ang : Int) : ℝ) / (t.setSpeed s.1 s.2).cfg.k / (t.setSpeed s.1 s.2).cfg.track * 2| < 2 * (π / 180) then
          (t.setSpeed s.1 s.2).deleteEvent else t.setSpeed s.1 s.2) = t.setSpeed s.1 s.2 := if_neg hlt
      rw [h'] at h
      subst h
      exact ⟨rfl, rfl, rfl, rfl, s, hs, Or.inr ⟨not_lt.mp hlt, rfl, rfl⟩⟩

/-- What the controllers see. -/
def Traj.output (t : Traj) : (ℝ × ℝ) × (ℝ × ℝ) × Int × Int × Bool := (t.qSpeed, t.qAcc, t.consD, t.consA, t.scheduled)

theorem event_flags (cfg : Cfg) (sch : Bool) (m : Mode) (T T' : Target) (qs qa : ℝ × ℝ) (cd ca : Int) (c : P) (r : ℝ) (da dd : Int) (f g : Nat) (rob : Robot) :
    ((Traj.mk cfg sch m T qs qa cd ca).circleEvent ⟨c, r, da, dd, f⟩ rob).map Traj.output =
      ((Traj.mk cfg sch m T' qs qa cd ca).circleEvent ⟨c, r, da, dd, g⟩ rob).map Traj.output := by
  unfold Traj.circleEvent
  show Option.map _ (Option.bind (circleCommand cfg ⟨c, r, da, dd, f⟩ rob.x rob.y rob.a) _) = Option.map _ (Option.bind (circleCommand cfg ⟨c, r, da, dd, f⟩ rob.x rob.y rob.a) _)
  cases circleCommand cfg ⟨c, r, da, dd, f⟩ rob.x rob.y rob.a with
  | none => rfl
  | some s =>
    show Option.map _ (Option.bind (i32 (da - rob.ang)) _) = Option.map _ (Option.bind (i32 (da - rob.ang)) _)
    cases i32 (da - rob.ang) with
    | none => rfl
    | some diff =>
      show Option.map _ (ite (cfg.k = 0 ∨ cfg.track = 0) _ _) = Option.map _ (ite (cfg.k = 0 ∨ cfg.track = 0) _ _)
      by_cases h : cfg.k = 0 ∨ cfg.track = 0
      · rw [if_pos h, if_pos h]
      · rw [if_neg h, if_neg h]
        have e : ∀ U : Target, ∀ A : Traj, A = (Traj.mk cfg sch m U qs qa cd ca).setSpeed s.1 s.2 →
            (if |(diff : ℝ) / ((Traj.mk cfg sch m U qs qa cd ca).setSpeed s.1 s.2).cfg.k / ((Traj.mk cfg sch m U qs qa cd ca).setSpeed s.1 s.2).cfg.track * 2| < rad 2 then
              A.deleteEvent else A) = (if |(diff : ℝ) / cfg.k / cfg.track * 2| < rad 2 then A.deleteEvent else A) := fun _ _ _ => rfl
        rw [e T _ rfl, e T' _ rfl]
        by_cases h2 : |(diff : ℝ) / cfg.k / cfg.track * 2| < rad 2
        · rw [if_pos h2, if_pos h2]; rfl
        · rw [if_neg h2, if_neg h2]; rfl

/-- The direction of rotation and the direction of motion that are asked for with the flags are ignored. -/
theorem flags_ignored (t : Traj) (rob rob' : Robot) (x y radius deg : ℝ) (f g : Nat) :
    ((t.circleRel rob x y radius deg f).bind (·.manage rob')).map Traj.output = ((t.circleRel rob x y radius deg g).bind (·.manage rob')).map Traj.output := by
  simp only [Traj.circleRel, Option.bind_eq_bind]
  cases toI32 (rob.ang + rad deg * t.deleteEvent.cfg.k * t.deleteEvent.cfg.track / 2) with
  | none => rfl
  | some da =>
    cases toI32 (rob.dist + rad deg * t.deleteEvent.cfg.k * radius) with
    | none => rfl
    | some dd => exact event_flags _ _ _ _ _ _ _ _ _ _ _ _ _ _ _ _

/-- For any flags the robot goes round to the left: forward for positive angles, backward for negative ones. -/
theorem circle_direction {t t' : Traj} {rob : Robot} {x y radius deg : ℝ} {flags : Nat} (hk : 0 < t.cfg.k) (ht : 0 < t.cfg.track) (hR : 0 < radius)
    (h : t.circleRel rob x y radius deg flags = some t') : ∃ ct, t'.target = .circle ct ∧
      (0 ≤ deg → (rob.ang : ℝ) - 1 < ct.destAngle ∧ (rob.dist : ℝ) - 1 < ct.destDistance) ∧
      (deg ≤ 0 → (ct.destAngle : ℝ) < rob.ang + 1 ∧ (ct.destDistance : ℝ) < rob.dist + 1) := by
  obtain ⟨ct, h1, _, _, _, _, h2, h3⟩ := circleRel_spec h
  have h2 := abs_lt.mp h2
  have h3 := abs_lt.mp h3
  have hp := Real.pi_pos
  refine ⟨ct, h1, fun hd => ?_, fun hd => ?_⟩
  · have hr : 0 ≤ rad deg := by simp only [rad]; positivity
    have e1 : 0 ≤ rad deg * t.cfg.track / 2 * t.cfg.k := by positivity
    have e2 : 0 ≤ rad deg * radius * t.cfg.k := by positivity
    constructor <;> linarith
  · have hr : 0 ≤ -rad deg := by simp only [rad]; nlinarith
    have e1 : 0 ≤ -rad deg * t.cfg.track / 2 * t.cfg.k := by positivity
    have e2 : 0 ≤ -rad deg * radius * t.cfg.k := by positivity
    constructor <;> nlinarith

end Verif.Curves
