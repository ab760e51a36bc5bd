import Verif.Curves.ClothoidEnd
import Mathlib.MeasureTheory.Integral.IntervalIntegral.FundThmCalculus

/-!
# Clothoids: properties (C98)
-/

namespace Verif.Curves

open Real

/-! ## The command and the events until the curve starts -/

/-- Events of the trajectory manager, one for each position of the robot. -/
noncomputable def events (t : Traj) : List Robot → Option Traj
  | [] => some t
  | rob :: l => (t.manage rob).bind fun t => events t l

/-- How far a point is ahead of the turning point, along the line. -/
noncomputable def ahead (l : LineTarget) (p : P) : ℝ := (p.x - l.turn.x) * cos l.angle + (p.y - l.turn.y) * sin l.angle

/-- The turning point counts as reached from half a millimetre before it. -/
theorem reached_iff_ahead (l : LineTarget) (p : P) : reached l p ↔ -(1 / 2) < ahead l p := by
  have h := Real.cos_sq_add_sin_sq l.angle
  simp only [reached, ptNorm, ahead]
  rw [Real.sqrt_lt_sqrt_iff (by nlinarith [sq_nonneg (l.turn.x - p.x), sq_nonneg (l.turn.y - p.y)])]
  constructor <;> intro h' <;> nlinarith

/-- The curve has been started for the target `l` at one of the events, with the robot not before the turning point: the ramps are set, and the consigns are three times the length of an arc and the whole turn. -/
def Started (robs : List Robot) (l : LineTarget) (t : Traj) : Prop :=
  t.mode = .clitoidCurve ∧ t.scheduled = false ∧ t.qSpeed = (|t.cfg.dSpeed|, |l.va|) ∧ t.qAcc = (|t.cfg.dAcc|, |l.aa|) ∧
    ∃ rob ∈ robs, (∃ target proj, aim l rob.x rob.y = some (target, proj) ∧ -(1 / 2) < ahead l proj) ∧ |(t.consD - rob.dist : ℝ) - 3 * |l.r * l.alpha| * t.cfg.k| < 1 ∧ |(t.consA - rob.ang : ℝ) - l.alpha * t.cfg.track / 2 * t.cfg.k| < 1

/-- The line before the curve is being followed. -/
def Following (l : LineTarget) (t : Traj) : Prop := t.mode = .clitoidLine ∧ t.scheduled = true ∧ t.target = .line l

theorem limitSpeed_keeps {t t' : Traj} {theta : ℝ} (h : t.limitSpeed theta = some t') :
    t'.cfg = t.cfg ∧ t'.mode = t.mode ∧ t'.scheduled = t.scheduled ∧ t'.target = t.target := by
  unfold Traj.limitSpeed at h
  by_cases h1 : |theta| > t.cfg.aStart
  · rw [if_pos h1] at h; injection h with h; subst h; exact ⟨rfl, rfl, rfl, rfl⟩
  · rw [if_neg h1] at h
    by_cases h2 : t.cfg.aStart = 0
    · rw [if_pos h2] at h; cases h
    · rw [if_neg h2] at h; injection h with h; subst h; exact ⟨rfl, rfl, rfl, rfl⟩

theorem Started.mono {robs robs' : List Robot} {l : LineTarget} {t : Traj} (hs : ∀ r ∈ robs, r ∈ robs') (h : Started robs l t) : Started robs' l t := by
  obtain ⟨h1, h2, h3, h4, rob, hr, h5⟩ := h
  exact ⟨h1, h2, h3, h4, rob, hs rob hr, h5⟩

theorem manage_keeps {t t' : Traj} {robs : List Robot} {l : LineTarget} {rob : Robot} (hi : Following l t ∨ Started robs l t) (h : t.manage rob = some t') :
    t'.cfg = t.cfg ∧ (Following l t' ∨ Started (rob :: robs) l t') := by
  unfold Traj.manage at h
  rcases hi with ⟨hm, hs, ht⟩ | hi
  · rw [if_pos hs, hm, ht] at h
    simp only [Traj.lineEvent, Option.bind_eq_bind, Option.bind_eq_some_iff] at h
    obtain ⟨⟨target, proj⟩, ha, t1, h1, cd, hcd, cd', hcd', ca, hca, ca', hca', h⟩ := h
    obtain ⟨k1, k2, k3, k4⟩ := limitSpeed_keeps h1
    by_cases hr : t1.mode = .clitoidLine ∧ reached l proj
    · rw [if_pos hr] at h
      simp only [Traj.startClitoid, Traj.gotoDA, Option.bind_eq_bind, Option.bind_eq_some_iff, Option.some.injEq] at h
      obtain ⟨t2, ⟨a1, ha1, a2, ha2, d1, hd1, d2, hd2, rfl⟩, rfl⟩ := h
      refine ⟨k1, .inr ⟨rfl, rfl, rfl, rfl, rob, List.mem_cons_self, ⟨target, proj, ha, (reached_iff_ahead l proj).1 hr.2⟩, ?_, ?_⟩⟩
      · have e2 := (toI32_spec hd1).1
        have hd2 := i32_some hd2
        simp only [Traj.deleteEvent, Traj.setAcc, Traj.setSpeed, k1] at e2 ⊢
        subst hd2
        push_cast
        rwa [add_sub_cancel_right, mul_comm 3]
      · have e1 := (toI32_spec ha1).1
        have ha2 := i32_some ha2
        simp only [Traj.deleteEvent, Traj.setAcc, Traj.setSpeed, k1] at e1 ⊢
        subst ha2
        push_cast
        rwa [add_sub_cancel_right, show l.alpha * t.cfg.track / 2 * t.cfg.k = l.alpha * t.cfg.k * t.cfg.track / 2 by ring]
    · rw [if_neg hr] at h
      injection h with h
      subst h
      exact ⟨k1, .inl ⟨k2.trans hm, k3.trans hs, k4.trans ht⟩⟩
  · rw [hi.2.1, if_neg (by simp)] at h
    injection h with h
    subst h
    exact ⟨rfl, .inr (hi.mono fun r hr => List.mem_cons_of_mem _ hr)⟩

theorem events_keep {l : LineTarget} : ∀ {robs robs' : List Robot} {t t' : Traj}, Following l t ∨ Started robs' l t → events t robs = some t' →
    t'.cfg = t.cfg ∧ (Following l t' ∨ Started (robs ++ robs') l t')
  | [], robs', t, t', hi, h => by simp only [events, Option.some.injEq] at h; subst h; exact ⟨rfl, hi⟩
  | rob :: robs, robs', t, t', hi, h => by
    simp only [events, Option.bind_eq_some_iff] at h
    obtain ⟨t1, h1, h2⟩ := h
    obtain ⟨k1, k2⟩ := manage_keeps hi h1
    obtain ⟨k3, k4⟩ := events_keep k2 h2
    refine ⟨k3.trans k1, k4.imp_right fun h => h.mono fun r hr => ?_⟩
    simp only [List.mem_append, List.mem_cons] at hr ⊢
    tauto

/-- What the command does: it is refused and nothing changes, or the line up to the turning point is followed, with the results for the curve kept for later. -/
theorem clitoid_cases {t t' : Traj} {x y aDeg advance alphaDeg betaDeg R D : ℝ} {code : Int} (h : t.clitoid x y aDeg advance alphaDeg betaDeg R D = some (code, t')) :
    (code = -1 ∧ t' = t ∧ calcClitoid t.cfg x y (rad aDeg) alphaDeg betaDeg R t.cfg.dSpeed t.cfg.aAcc D = .refused) ∨
    (code = 0 ∧ ∃ l remain, calcClitoid t.cfg x y (rad aDeg) alphaDeg betaDeg R t.cfg.dSpeed t.cfg.aAcc D = .ok l.aa l.va remain ∧
      Following l t' ∧ t'.cfg = t.cfg ∧ l.turn = ⟨x + cos (rad aDeg) * remain, y + sin (rad aDeg) * remain⟩ ∧ l.alpha = rad alphaDeg ∧ l.r = R ∧
      l.line = pts2line ⟨x, y⟩ l.turn ∧ l.angle = Complex.arg ⟨l.turn.x - x, l.turn.y - y⟩ ∧ l.advance = advance) := by
  unfold Traj.clitoid at h
  cases hc : calcClitoid t.cfg x y (rad aDeg) alphaDeg betaDeg R t.cfg.dSpeed t.cfg.aAcc D with
  | undefined => simp only [hc] at h; cases h
  | refused =>
    simp only [hc, Option.some.injEq, Prod.mk.injEq] at h
    exact .inl ⟨h.1.symm, h.2.symm, rfl⟩
  | ok aa va remain =>
    simp only [hc, Option.some.injEq, Prod.mk.injEq] at h
    obtain ⟨rfl, rfl⟩ := h
    exact .inr ⟨rfl, _, remain, rfl, ⟨rfl, rfl, rfl⟩, rfl, rfl, rfl, rfl, rfl, rfl, rfl⟩

/-! ## The numbers -/

theorem rad_abs (d : ℝ) : |rad d| = rad |d| := by
  simp only [rad, abs_div, abs_mul, abs_of_pos Real.pi_pos]
  norm_num

theorem rad_lt {a b : ℝ} : rad a < rad b ↔ a < b := by
  have := Real.pi_pos
  simp only [rad]
  constructor
  · intro h
    by_contra hn
    have := mul_le_mul_of_nonneg_right (not_lt.1 hn) Real.pi_pos.le
    linarith
  · intro h
    have := mul_lt_mul_of_pos_right h Real.pi_pos
    linarith

theorem rad_zero : rad 0 = 0 := by simp [rad]

theorem rad_180 : rad 180 = π := by simp only [rad]; ring

/-- The angle that is turned with a growing or falling rate. -/
theorem theta_eq {alphaDeg betaDeg : ℝ} (hab : |betaDeg| < |alphaDeg|) (hsign : 0 ≤ betaDeg * alphaDeg) :
    |rad alphaDeg - rad betaDeg| = |rad alphaDeg| - |rad betaDeg| ∧ rad alphaDeg - rad betaDeg = side (rad alphaDeg) * |rad alphaDeg - rad betaDeg| := by
  have hpi := Real.pi_pos
  rcases lt_or_ge alphaDeg 0 with h | h
  · have hb : betaDeg ≤ 0 := by by_contra hn; nlinarith [not_le.1 hn]
    have ha' : rad alphaDeg < 0 := by rw [← rad_zero]; exact rad_lt.2 h
    have hb' : rad betaDeg ≤ 0 := by rw [← rad_zero]; exact not_lt.1 fun hh => not_lt.2 hb (rad_lt.1 hh)
    have hlt : rad alphaDeg - rad betaDeg < 0 := by
      rw [abs_of_neg h, abs_of_nonpos hb] at hab
      have := rad_lt.2 (show alphaDeg < betaDeg by linarith)
      linarith
    rw [abs_of_neg hlt, abs_of_neg ha', abs_of_nonpos hb', side, if_pos ha']
    constructor <;> ring
  · have h : 0 < alphaDeg := by
      rcases h.lt_or_eq with h | h
      · exact h
      · rw [← h, abs_zero] at hab; exact absurd (abs_nonneg betaDeg) (not_le.2 hab)
    have hb : 0 ≤ betaDeg := by by_contra hn; nlinarith [not_le.1 hn]
    have ha' : 0 < rad alphaDeg := by rw [← rad_zero]; exact rad_lt.2 h
    have hb' : 0 ≤ rad betaDeg := by rw [← rad_zero]; exact not_lt.1 fun hh => not_lt.2 hb (rad_lt.1 hh)
    have hlt : 0 < rad alphaDeg - rad betaDeg := by
      rw [abs_of_pos h, abs_of_nonneg hb] at hab
      have := rad_lt.2 hab
      linarith
    rw [abs_of_pos hlt, abs_of_pos ha', abs_of_nonneg hb', side, if_neg (not_lt.2 ha'.le)]
    constructor <;> ring

/-- An accepted command, for positive constants: the rates are those of the radius and of the angle, and the acceleration is allowed. -/
theorem calc_ok {c : Cfg} {x y a alphaDeg betaDeg R vd amax D aa va remain : ℝ} (hk : 0 < c.k) (hhz : 0 < c.hz) (htr : 0 < c.track) (hR : 0 < R) (hv : 0 < vd)
    (h : calcClitoid c x y a alphaDeg betaDeg R vd amax D = .ok aa va remain) :
    let V := vd * c.hz / c.k
    let theta := |rad alphaDeg - rad betaDeg|
    |betaDeg| < |alphaDeg| ∧ aa ≤ amax ∧ 0 < theta ∧ 0 < va ∧ 0 < aa ∧ va * (2 * c.hz / (c.k * c.track)) = V / R ∧
      aa * (2 * c.hz ^ 2 / (c.k * c.track)) = (V / R) ^ 2 / theta ∧
      geometry x y a (rad alphaDeg) (rad betaDeg) R V (theta * R / V) D = some (some remain) := by
  intro V theta
  have hV : 0 < V := by positivity
  unfold calcClitoid at h
  by_cases hab : |alphaDeg| ≤ |betaDeg|
  · rw [if_pos hab] at h; cases h
  have hab' := not_le.1 hab
  have hn : ¬(c.k = 0 ∨ c.hz = 0 ∨ R = 0 ∨ vd = 0) := by
    rintro (h | h | h | h)
    exacts [hk.ne' h, hhz.ne' h, hR.ne' h, hv.ne' h]
  rw [if_neg hab, if_neg hn] at h
  simp only [] at h
  have et : |(rad alphaDeg - rad betaDeg) * R / c.speedImp2mm vd| = theta * R / V := by
    show |(rad alphaDeg - rad betaDeg) * R / V| = _
    rw [abs_div, abs_mul, abs_of_pos hR, abs_of_pos hV]
  have hth : 0 < theta := by
    refine abs_pos.2 fun h0 => ?_
    have : rad alphaDeg = rad betaDeg := by linarith
    have h1 : rad |alphaDeg| = rad |betaDeg| := by rw [← rad_abs, ← rad_abs, this]
    have h2 := rad_lt.2 hab'
    linarith
  rw [et] at h
  have ev : c.speedImp2mm vd = V := rfl
  rw [ev] at h
  by_cases hg : c.accRd2imp (V / R / (theta * R / V)) > amax
  · rw [if_pos hg] at h; cases h
  rw [if_neg hg] at h
  cases hgeo : geometry x y a (rad alphaDeg) (rad betaDeg) R V (theta * R / V) D with
  | none => rw [hgeo] at h; cases h
  | some g =>
    cases g with
    | none => rw [hgeo] at h; cases h
    | some rem =>
      rw [hgeo] at h
      simp only [Calc.ok.injEq] at h
      obtain ⟨rfl, rfl, rfl⟩ := h
      refine ⟨hab', not_lt.1 hg, hth, ?_, ?_, ?_, ?_, rfl⟩
      · simp only [Cfg.speedRd2imp]; positivity
      · simp only [Cfg.accRd2imp]; positivity
      · simp only [Cfg.speedRd2imp]; field_simp
      · simp only [Cfg.accRd2imp]; field_simp

/-! ## The ride -/

/-- **C98.** After an accepted command and the events up to the start of the curve, the robot keeps its speed `V` and turns by `alpha`, with the rate and the acceleration that the ramp was
given. Then it ends with the heading `a + alpha`, and on the second tangent of the corner, as far behind it as it had started to turn before it, up to an error that is less
than a thousandth of the radius. In between it turns by `beta` on an arc of radius `R`; the acceleration is not higher than the configured one. The curve starts at an event with the robot not more than half a millimetre before the turning
point. The angle commanded at that event is the turn, and
the distance commanded is not reached on the curve: at its end there is at least the length of an arc left. -/
theorem clothoid_ride {t t' t2 : Traj} {x y aDeg advance alphaDeg betaDeg R D : ℝ} {robs : List Robot}
    (hk : 0 < t.cfg.k) (hhz : 0 < t.cfg.hz) (htr : 0 < t.cfg.track) (hd : 0 < t.cfg.dSpeed) (hR : 0 < R) (hD : 0 < D) (hα : |alphaDeg| < 180) (hsign : 0 ≤ betaDeg * alphaDeg)
    (h : t.clitoid x y aDeg advance alphaDeg betaDeg R D = some (0, t')) (he : events t' robs = some t2) (hm : t2.mode = .clitoidCurve)
    {V w q T : ℝ} (hV : V = t2.qSpeed.1 * t.cfg.hz / t.cfg.k) (hw : w = t2.qSpeed.2 * (2 * t.cfg.hz / (t.cfg.k * t.cfg.track)))
    (hq : q = t2.qAcc.2 * (2 * t.cfg.hz ^ 2 / (t.cfg.k * t.cfg.track))) (hT : T = |rad alphaDeg| / w + w / q) :
    ∃ l, t'.target = .line l ∧ l.alpha = rad alphaDeg ∧ l.r = R ∧ t2.qAcc.2 ≤ t.cfg.aAcc ∧ w = V / R ∧ w * (T - 2 * (w / q)) = |rad betaDeg| ∧
      (∃ rob ∈ robs, (∃ target proj, aim l rob.x rob.y = some (target, proj) ∧ -(1 / 2) < ahead l proj) ∧ (V * T + R * |rad alphaDeg|) * t.cfg.k < t2.consD - rob.dist + 1 ∧ |(t2.consA - rob.ang : ℝ) - rad alphaDeg * t.cfg.track / 2 * t.cfg.k| < 1) ∧
      ∃ s, 0 < s ∧ s ≤ D ∧ l.turn = ⟨x + (D - s) * cos (rad aDeg), y + (D - s) * sin (rad aDeg)⟩ ∧
        ∀ xs ys hs : ℝ → ℝ, CurveRide V w q (rad alphaDeg) T xs ys hs → xs 0 = l.turn.x → ys 0 = l.turn.y → hs 0 = rad aDeg →
          hs T = rad aDeg + rad alphaDeg ∧
          sqrt ((xs T - (x + D * cos (rad aDeg) + s * cos (rad aDeg + rad alphaDeg))) ^ 2 + (ys T - (y + D * sin (rad aDeg) + s * sin (rad aDeg + rad alphaDeg))) ^ 2) ≤
            2 * (R * |rad alphaDeg - rad betaDeg| ^ 9 / 175472640 + R * |rad alphaDeg - rad betaDeg| ^ 10 / 3530096640) ∧
          sqrt ((xs T - (x + D * cos (rad aDeg) + s * cos (rad aDeg + rad alphaDeg))) ^ 2 + (ys T - (y + D * sin (rad aDeg) + s * sin (rad aDeg + rad alphaDeg))) ^ 2) ≤ R / 1000 := by
  rcases clitoid_cases h with ⟨h0, _⟩ | ⟨_, l, remain, hc, hf, hcfg, hturn, hla, hlr, _⟩
  · cases h0
  obtain ⟨hcfg2, hst⟩ := events_keep (robs' := []) (.inl hf) he
  rw [List.append_nil] at hst
  have hst : Started robs l t2 := by
    rcases hst with hst | hst
    · rw [hst.1] at hm; cases hm
    · exact hst
  rw [hcfg] at hcfg2
  obtain ⟨hab, hamax, hth0, hva, haa, e1, e2, hgeo⟩ := calc_ok hk hhz htr hR hd hc
  obtain ⟨-, -, hqs, hqa, rob, hrob, hah, hcd, hca⟩ := hst
  rw [hcfg2, hlr, hla] at hcd
  rw [hcfg2, hla] at hca
  rw [hqs, hcfg2, abs_of_pos hd] at hV
  rw [hqs, abs_of_pos hva, e1, ← hV] at hw
  rw [hqa, abs_of_pos haa, e2, ← hV] at hq
  rw [← hV] at hgeo
  obtain ⟨t1, t2'⟩ := theta_eq hab hsign
  have hVp : 0 < V := by rw [hV]; positivity
  have hap : 0 < |rad alphaDeg| := by
    rw [rad_abs, ← rad_zero]; exact rad_lt.2 (lt_of_le_of_lt (abs_nonneg _) hab)
  have haπ : |rad alphaDeg| < π := by rw [rad_abs, ← rad_180]; exact rad_lt.2 hα
  have hα0 : rad alphaDeg ≠ 0 := abs_pos.1 hap
  have hαle : |rad alphaDeg - rad betaDeg| ≤ |rad alphaDeg| := by rw [t1]; linarith [abs_nonneg (rad betaDeg)]
  have hsp : 0 < sin |rad alphaDeg| := Real.sin_pos_of_pos_of_lt_pi hap haπ
  have hss := side_abs (rad alphaDeg)
  have hsin : sin (rad alphaDeg) = side (rad alphaDeg) * sin |rad alphaDeg| := by rw [← sin_side, hss]
  have hcos : cos (rad alphaDeg) = cos |rad alphaDeg| := by rw [Real.cos_abs]
  have hσ2 := side_sq (rad alphaDeg)
  have hs0 : sin (rad alphaDeg) ≠ 0 := by
    rw [hsin]
    refine mul_ne_zero (fun h0 => ?_) hsp.ne'
    rw [h0] at hσ2; norm_num at hσ2
  have hgeo' := geometry_eq (x := x) (y := y) (a := rad aDeg) (beta := rad betaDeg) (R := R) (v := V) (t := |rad alphaDeg - rad betaDeg| * R / V) hD hs0 hα0
  simp only [] at hgeo'
  rw [hgeo'] at hgeo
  generalize hθ : |rad alphaDeg - rad betaDeg| = theta at *
  generalize hα' : rad alphaDeg = alpha at *
  generalize rad betaDeg = beta at *
  have hwp : 0 < w := by rw [hw]; positivity
  have hqp : 0 < q := by rw [hq, ← hw]; positivity
  have hwq : w / q = theta * R / V := by rw [hq, hw]; field_simp
  have hww : w * (w / q) = theta := by rw [hwq, hw]; field_simp
  have hVR : V = R * w := by rw [hw]; field_simp
  have hA : (R * sqrt theta) ^ 2 * q = V ^ 2 := by
    rw [mul_pow, Real.sq_sqrt hth0.le, hq]; field_simp
  obtain ⟨sx, sy⟩ := series_eq (b := w / q) hVp.ne' hA (mul_ne_zero hR.ne' (Real.sqrt_ne_zero'.2 hth0))
  rw [← hwq, sx, sy] at hgeo
  have htau : cos ((alpha - beta) / 2) = cos (theta / 2) ∧ side alpha * sin ((alpha - beta) / 2) = sin (theta / 2) := by
    rw [t2', mul_div_assoc, cos_side, sin_side]
    exact ⟨rfl, by rw [← mul_assoc, hσ2, one_mul]⟩
  generalize hY : V * (q * (w / q) ^ 3 / 6 - q ^ 3 * (w / q) ^ 7 / 336 + q ^ 5 * (w / q) ^ 11 / 42240 - q ^ 7 * (w / q) ^ 15 / 9676800) = Y at *
  generalize hX : V * (w / q - q ^ 2 * (w / q) ^ 5 / 40 + q ^ 4 * (w / q) ^ 9 / 3456 - q ^ 6 * (w / q) ^ 13 / 599040) = X at *
  have hYθ : Y = (V * (w / q)) * (theta / 6 - theta ^ 3 / 336 + theta ^ 5 / 42240 - theta ^ 7 / 9676800) := by
    have hqb : q * (w / q) ^ 2 = theta := by rw [sq, ← mul_assoc, mul_div_cancel₀ _ hqp.ne', hww]
    rw [← hY, ← hqb]; ring
  have hXθ : X = (V * (w / q)) * (1 - theta ^ 2 / 40 + theta ^ 4 / 3456 - theta ^ 6 / 599040) := by
    have hqb : q * (w / q) ^ 2 = theta := by rw [sq, ← mul_assoc, mul_div_cancel₀ _ hqp.ne', hww]
    rw [← hX, ← hqb]; ring
  have hVb : 0 < V * (w / q) := by positivity
  have hπ := Real.pi_lt_d2
  have hY0 : 0 ≤ Y := by rw [hYθ]; exact series_nonneg hVb.le hth0.le (by linarith)
  have hX0 : 0 < X := by
    rw [hXθ]; exact series_pos hVb hth0.le (by linarith)
  rw [htau.1] at hgeo
  generalize ho : side alpha * R * sin ((alpha - beta) / 2) - side alpha * (Y + R * cos (theta / 2)) * ((1 - cos alpha) / sin alpha) = o at *
  have ho1 : o = R * sin (theta / 2) - side alpha * (Y + R * cos (theta / 2)) * ((1 - cos alpha) / sin alpha) := by
    rw [← ho, ← htau.2]; ring
  have ho2 : side alpha * ((1 - cos alpha) / sin alpha) = (1 - cos |alpha|) / sin |alpha| := by
    rw [hsin, hcos]
    have hsn : side alpha ≠ 0 := fun h0 => by rw [h0] at hσ2; norm_num at hσ2
    field_simp
  have ho0 : o ≤ 0 := by
    have := offset_le hap haπ hth0.le hαle hY0 hR.le
    rw [← ho2] at this
    rw [ho1]; linarith
  rw [abs_of_nonpos ho0] at hgeo
  by_cases hrem : D - (-o + X) < 0
  · rw [if_pos hrem] at hgeo; cases hgeo
  rw [if_neg hrem] at hgeo
  simp only [Option.some.injEq] at hgeo
  have hwT : w * (T - 2 * (w / q)) = |alpha| - theta := by
    rw [hT]
    have : w * (|alpha| / w) = |alpha| := mul_div_cancel₀ _ hwp.ne'
    linear_combination this - hww
  refine ⟨l, hf.2.2, hla, hlr, ?_, hw, ?_, ?_, X - o, by linarith, by linarith, ?_, ?_⟩
  · rw [hqa, abs_of_pos haa]; exact hamax
  · rw [hwT]; linarith
  · refine ⟨rob, hrob, hah, ?_, hca⟩
    rw [abs_mul, abs_of_pos hR] at hcd
    have hcd := (abs_lt.1 hcd).1
    have h1 : w * T = |alpha| + theta := by linear_combination hwT + 2 * hww
    have h2 : V * T = R * (|alpha| + theta) := by rw [hVR, ← h1]; ring
    rw [h2]
    have := mul_le_mul_of_nonneg_left hαle hR.le
    have h3 : (R * (|alpha| + theta) + R * |alpha|) * t.cfg.k ≤ 3 * (R * |alpha|) * t.cfg.k := mul_le_mul_of_nonneg_right (by linarith) hk.le
    linarith
  · rw [hturn, ← hgeo, P.mk.injEq]; constructor <;> ring
  · intro xs ys hs r hx0 hy0 hh0
    have hend := curve_end hwp hqp hR hVR hT hww hth0 hαle hs0 r hX.symm hY.symm ho1
    rw [hx0, hy0, hh0, hturn] at hend
    have ex : x + cos (rad aDeg) * remain + (X - o) * (cos (rad aDeg) + cos (rad aDeg + alpha)) = x + D * cos (rad aDeg) + (X - o) * cos (rad aDeg + alpha) := by rw [← hgeo]; ring
    have ey : y + sin (rad aDeg) * remain + (X - o) * (sin (rad aDeg) + sin (rad aDeg + alpha)) = y + D * sin (rad aDeg) + (X - o) * sin (rad aDeg + alpha) := by rw [← hgeo]; ring
    simp only [] at hend
    rw [ex, ey] at hend
    exact ⟨hend.1, hend.2, hend.2.trans (error_le hR.le hth0.le (by linarith))⟩

/-- Such rides exist, from any position and heading. -/
theorem ride_exists (V w q alpha T x0 y0 h0 : ℝ) : ∃ xs ys hs : ℝ → ℝ, CurveRide V w q alpha T xs ys hs ∧ xs 0 = x0 ∧ ys 0 = y0 ∧ hs 0 = h0 := by
  have key : ∀ (f : ℝ → ℝ) (c : ℝ), Continuous f → ∃ F : ℝ → ℝ, F 0 = c ∧ ∀ t, HasDerivAt F (f t) t := by
    intro f c hf
    refine ⟨fun t => c + ∫ u in (0 : ℝ)..t, f u, by simp, fun t => ?_⟩
    exact (intervalIntegral.integral_hasDerivAt_right (hf.intervalIntegrable _ _) (hf.stronglyMeasurableAtFilter _ _) hf.continuousAt).const_add c
  obtain ⟨hs, h1, h2⟩ := key (fun t => side alpha * min (q * t) (min w (q * (T - t)))) h0 (by fun_prop)
  have hc : Continuous hs := continuous_iff_continuousAt.2 fun t => (h2 t).continuousAt
  obtain ⟨xs, x1, x2⟩ := key (fun t => V * cos (hs t)) x0 (by fun_prop)
  obtain ⟨ys, y1, y2⟩ := key (fun t => V * sin (hs t)) y0 (by fun_prop)
  exact ⟨xs, ys, hs, ⟨fun t _ _ => x2 t, fun t _ _ => y2 t, fun t _ _ => h2 t⟩, x1, y1, h1⟩

/-! ## Which commands are accepted -/

/-- The angle that is turned on the two clothoids together. -/
noncomputable def onClothoids (alphaDeg betaDeg : ℝ) : ℝ := |rad alphaDeg - rad betaDeg|

/-- The angular acceleration needed, in impulses. -/
noncomputable def needed (c : Cfg) (alphaDeg betaDeg R : ℝ) : ℝ :=
  (c.dSpeed * c.hz / c.k / R) ^ 2 / onClothoids alphaDeg betaDeg * (c.k * c.track) / (2 * c.hz ^ 2)

/-- **C98.** For positive constants, a turn of less than 180 degrees, and angles of the same sign: the length of the tangents depends on the angles and the radius only, and the
command is accepted exactly if the arc has the smaller angle, the acceleration is allowed, and there is room for the tangent before the corner. Otherwise it is refused and
nothing changes. -/
theorem clitoid_decision {alphaDeg betaDeg R : ℝ} (hR : 0 < R) (hα : |alphaDeg| < 180) (hsign : 0 ≤ betaDeg * alphaDeg) :
    ∃ s, 0 ≤ s ∧ (|betaDeg| < |alphaDeg| → 0 < s) ∧ ∀ (t : Traj) (x y aDeg advance D : ℝ), 0 < t.cfg.k → 0 < t.cfg.hz → 0 < t.cfg.track → 0 < t.cfg.dSpeed → 0 < D →
      if |betaDeg| < |alphaDeg| ∧ needed t.cfg alphaDeg betaDeg R ≤ t.cfg.aAcc ∧ s ≤ D then
        ∃ t' l, t.clitoid x y aDeg advance alphaDeg betaDeg R D = some (0, t') ∧ Following l t' ∧ l.turn = ⟨x + (D - s) * cos (rad aDeg), y + (D - s) * sin (rad aDeg)⟩
      else t.clitoid x y aDeg advance alphaDeg betaDeg R D = some (-1, t) := by
  by_cases hab : |betaDeg| < |alphaDeg|
  swap
  · refine ⟨0, le_rfl, fun h => absurd h hab, fun t x y aDeg advance D _ _ _ _ _ => ?_⟩
    rw [if_neg (fun h => hab h.1)]
    simp only [Traj.clitoid, calcClitoid, if_pos (not_lt.1 hab)]
  obtain ⟨t1, t2⟩ := theta_eq hab hsign
  have hap : 0 < |rad alphaDeg| := by
    rw [rad_abs, ← rad_zero]; exact rad_lt.2 (lt_of_le_of_lt (abs_nonneg _) hab)
  have haπ : |rad alphaDeg| < π := by rw [rad_abs, ← rad_180]; exact rad_lt.2 hα
  have hα0 : rad alphaDeg ≠ 0 := abs_pos.1 hap
  have hth0 : 0 < |rad alphaDeg - rad betaDeg| := by
    rw [t1, rad_abs, rad_abs]; have := rad_lt.2 hab; linarith
  have hsp : 0 < sin |rad alphaDeg| := Real.sin_pos_of_pos_of_lt_pi hap haπ
  have hs0 : sin (rad alphaDeg) ≠ 0 := by
    rw [← side_abs (rad alphaDeg), sin_side]
    refine mul_ne_zero (fun h0 => ?_) hsp.ne'
    have hσ2 := side_sq (rad alphaDeg)
    rw [h0] at hσ2; norm_num at hσ2
  have hαle : |rad alphaDeg - rad betaDeg| ≤ |rad alphaDeg| := by rw [t1]; linarith [abs_nonneg (rad betaDeg)]
  have hsq := Real.sqrt_pos.2 hth0
  have hL : ∀ V : ℝ, 0 < V → V * (|rad alphaDeg - rad betaDeg| * R / V) = |rad alphaDeg - rad betaDeg| * R := fun V hV => by field_simp
  refine ⟨|side (rad alphaDeg) * R * sin ((rad alphaDeg - rad betaDeg) / 2) - side (rad alphaDeg) *
      (seriesY (|rad alphaDeg - rad betaDeg| * R) (R * sqrt |rad alphaDeg - rad betaDeg|) + R * cos ((rad alphaDeg - rad betaDeg) / 2)) * ((1 - cos (rad alphaDeg)) / sin (rad alphaDeg))| +
      seriesX (|rad alphaDeg - rad betaDeg| * R) (R * sqrt |rad alphaDeg - rad betaDeg|), ?_, ?_, fun t x y aDeg advance D hk hhz htr hd hD => ?_⟩
  on_goal 2 => intro _
  iterate 2
    first | refine (add_pos_of_nonneg_of_pos (abs_nonneg _) ?_).le | refine add_pos_of_nonneg_of_pos (abs_nonneg _) ?_
    have hA : (R * sqrt |rad alphaDeg - rad betaDeg|) ^ 2 * 1 = (R * sqrt |rad alphaDeg - rad betaDeg|) ^ 2 := mul_one _
    have hA0 : R * sqrt |rad alphaDeg - rad betaDeg| ≠ 0 := (mul_pos hR hsq).ne'
    have := (series_eq (b := sqrt |rad alphaDeg - rad betaDeg|) (q := 1) hA0 hA hA0).1
    rw [show R * sqrt |rad alphaDeg - rad betaDeg| * sqrt |rad alphaDeg - rad betaDeg| = |rad alphaDeg - rad betaDeg| * R by
      rw [mul_assoc, Real.mul_self_sqrt hth0.le]; ring] at this
    rw [this]
    have hp := series_pos (K := R * sqrt |rad alphaDeg - rad betaDeg| * sqrt |rad alphaDeg - rad betaDeg|) (theta := |rad alphaDeg - rad betaDeg|) (by positivity) hth0.le
      (by linarith [Real.pi_lt_d2])
    have e : R * sqrt |rad alphaDeg - rad betaDeg| * sqrt |rad alphaDeg - rad betaDeg| *
        (1 - |rad alphaDeg - rad betaDeg| ^ 2 / 40 + |rad alphaDeg - rad betaDeg| ^ 4 / 3456 - |rad alphaDeg - rad betaDeg| ^ 6 / 599040) =
        R * sqrt |rad alphaDeg - rad betaDeg| * (sqrt |rad alphaDeg - rad betaDeg| - 1 ^ 2 * sqrt |rad alphaDeg - rad betaDeg| ^ 5 / 40 +
          1 ^ 4 * sqrt |rad alphaDeg - rad betaDeg| ^ 9 / 3456 - 1 ^ 6 * sqrt |rad alphaDeg - rad betaDeg| ^ 13 / 599040) := by
      have h2 := Real.sq_sqrt hth0.le
      generalize sqrt |rad alphaDeg - rad betaDeg| = r at h2 ⊢
      rw [← h2]; ring
    rw [← e]; exact hp
  · have hn : ¬(t.cfg.k = 0 ∨ t.cfg.hz = 0 ∨ R = 0 ∨ t.cfg.dSpeed = 0) := by
      rintro (h | h | h | h)
      exacts [hk.ne' h, hhz.ne' h, hR.ne' h, hd.ne' h]
    have hV : 0 < t.cfg.dSpeed * t.cfg.hz / t.cfg.k := by positivity
    have hacc : t.cfg.accRd2imp (t.cfg.speedImp2mm t.cfg.dSpeed / R / |(rad alphaDeg - rad betaDeg) * R / t.cfg.speedImp2mm t.cfg.dSpeed|) = needed t.cfg alphaDeg betaDeg R := by
      rw [show t.cfg.speedImp2mm t.cfg.dSpeed = t.cfg.dSpeed * t.cfg.hz / t.cfg.k from rfl, abs_div, abs_mul, abs_of_pos hR, abs_of_pos hV, needed, onClothoids]
      simp only [Cfg.accRd2imp]
      field_simp
    have hV' : 0 < t.cfg.speedImp2mm t.cfg.dSpeed := hV
    have hgeo := geometry_eq (x := x) (y := y) (a := rad aDeg) (beta := rad betaDeg) (R := R) (v := t.cfg.speedImp2mm t.cfg.dSpeed)
      (t := |(rad alphaDeg - rad betaDeg) * R / t.cfg.speedImp2mm t.cfg.dSpeed|) hD hs0 hα0
    simp only [] at hgeo
    have hLL : t.cfg.speedImp2mm t.cfg.dSpeed * |(rad alphaDeg - rad betaDeg) * R / t.cfg.speedImp2mm t.cfg.dSpeed| = |rad alphaDeg - rad betaDeg| * R := by
      rw [abs_div, abs_mul, abs_of_pos hR, abs_of_pos hV', hL _ hV']
    rw [hLL] at hgeo
    simp only [Traj.clitoid, calcClitoid, if_neg (not_le.2 hab), if_neg hn]
    rw [hacc, hgeo]
    generalize |side (rad alphaDeg) * R * sin ((rad alphaDeg - rad betaDeg) / 2) - side (rad alphaDeg) *
      (seriesY (|rad alphaDeg - rad betaDeg| * R) (R * sqrt |rad alphaDeg - rad betaDeg|) + R * cos ((rad alphaDeg - rad betaDeg) / 2)) * ((1 - cos (rad alphaDeg)) / sin (rad alphaDeg))| +
      seriesX (|rad alphaDeg - rad betaDeg| * R) (R * sqrt |rad alphaDeg - rad betaDeg|) = s
    by_cases ha : needed t.cfg alphaDeg betaDeg R ≤ t.cfg.aAcc
    · rw [if_neg (not_lt.2 ha)]
      by_cases hs : s ≤ D
      · rw [if_pos ⟨hab, ha, hs⟩, if_neg (not_lt.2 (sub_nonneg.2 hs))]
        exact ⟨_, _, rfl, ⟨rfl, rfl, rfl⟩, by simp only [lineOf, P.mk.injEq]; constructor <;> ring⟩
      · rw [if_neg (fun h => hs h.2.2), if_pos (by linarith)]
    · rw [if_neg (fun h => ha h.2.1), if_pos (not_le.1 ha)]

/-! ## What the code does not check -/

/-- A configuration. -/
noncomputable def cfg0 : Cfg := ⟨100, 200, 100, 1000, 1, 10, 1000, 1⟩

noncomputable def traj0 : Traj := ⟨cfg0, false, .other, .polA 0, (0, 0), (0, 0), 0, 0⟩

theorem accepted0 : needed cfg0 90 45 200 ≤ cfg0.aAcc := by
  have h := Real.pi_gt_three
  have e : onClothoids 90 45 = π / 4 := by
    simp only [onClothoids, rad]
    rw [show 90 * π / 180 - 45 * π / 180 = π / 4 by ring, abs_of_pos (by positivity)]
  simp only [needed, e, cfg0]
  rw [div_le_iff₀ (by norm_num), div_mul_eq_mul_div, div_le_iff₀ (by positivity)]
  norm_num
  linarith

/-- The rate of turn is not limited by the configured angular speed: here it is exceeded. -/
theorem clitoid_too_fast : ∃ (D : ℝ) (t' : Traj) (l : LineTarget), traj0.clitoid 0 0 0 10 90 45 200 D = some (0, t') ∧ Following l t' ∧ traj0.cfg.aSpeed < l.va := by
  obtain ⟨s, hs0, -, hs⟩ := clitoid_decision (alphaDeg := 90) (betaDeg := 45) (R := 200) (by norm_num) (by norm_num) (by norm_num)
  have := hs traj0 0 0 0 10 (s + 1) (by norm_num [traj0, cfg0]) (by norm_num [traj0, cfg0]) (by norm_num [traj0, cfg0]) (by norm_num [traj0, cfg0]) (by linarith)
  rw [if_pos ⟨by norm_num, accepted0, by linarith⟩] at this
  obtain ⟨t', l, h1, h2, -⟩ := this
  refine ⟨_, t', l, h1, h2, ?_⟩
  rcases clitoid_cases h1 with ⟨h0, _⟩ | ⟨_, l', remain, hc, hf, -⟩
  · cases h0
  have hl : l' = l := by have := hf.2.2.symm.trans h2.2.2; injection this
  subst hl
  obtain ⟨-, -, -, -, -, e, -⟩ := calc_ok (by norm_num [traj0, cfg0]) (by norm_num [traj0, cfg0]) (by norm_num [traj0, cfg0]) (by norm_num) (by norm_num [traj0, cfg0]) hc
  norm_num [traj0, cfg0] at e ⊢
  linarith

/-- If there is exactly the room needed, the command is accepted, but the line to follow has no direction and its first event is undefined. -/
theorem clitoid_no_line {alphaDeg betaDeg R : ℝ} (hR : 0 < R) (hα : |alphaDeg| < 180) (hsign : 0 ≤ betaDeg * alphaDeg) (hab : |betaDeg| < |alphaDeg|) {t : Traj}
    (hk : 0 < t.cfg.k) (hhz : 0 < t.cfg.hz) (htr : 0 < t.cfg.track) (hd : 0 < t.cfg.dSpeed) (hn : needed t.cfg alphaDeg betaDeg R ≤ t.cfg.aAcc) :
    ∃ D, 0 < D ∧ ∀ x y aDeg advance, ∃ t', t.clitoid x y aDeg advance alphaDeg betaDeg R D = some (0, t') ∧ ∀ rob, t'.manage rob = none := by
  obtain ⟨s, -, hs0, hs⟩ := clitoid_decision hR hα hsign
  have hp := hs0 hab
  refine ⟨s, hp, fun x y aDeg advance => ?_⟩
  have := hs t x y aDeg advance s hk hhz htr hd hp
  rw [if_pos ⟨hab, hn, le_rfl⟩] at this
  obtain ⟨t', l, h1, h2, h3⟩ := this
  refine ⟨t', h1, fun rob => ?_⟩
  rcases clitoid_cases h1 with ⟨h0, _⟩ | ⟨_, l', remain, hc, hf, -, -, -, -, hline, -⟩
  · cases h0
  have hl : l' = l := by have := hf.2.2.symm.trans h2.2.2; injection this
  subst hl
  unfold Traj.manage
  rw [if_pos hf.2.1, hf.1, hf.2.2]
  simp only [sub_self, zero_mul, add_zero] at h3
  simp only [Traj.lineEvent, aim, hline, h3, pts2line, projPtLine, sub_self, neg_zero, zero_mul, mul_zero, if_pos, Option.bind_eq_bind, Option.bind_none]

/-- For angles of different signs the two clothoids alone turn by more than the whole turn: the rate of turn planned for is not reached. -/
theorem clitoid_signs {t t' : Traj} {x y aDeg advance alphaDeg betaDeg R D : ℝ} (hk : 0 < t.cfg.k) (hhz : 0 < t.cfg.hz) (htr : 0 < t.cfg.track) (hd : 0 < t.cfg.dSpeed) (hR : 0 < R)
    (hsign : betaDeg * alphaDeg < 0) (h : t.clitoid x y aDeg advance alphaDeg betaDeg R D = some (0, t')) :
    ∃ l w q, t'.target = .line l ∧ w = l.va * (2 * t.cfg.hz / (t.cfg.k * t.cfg.track)) ∧ q = l.aa * (2 * t.cfg.hz ^ 2 / (t.cfg.k * t.cfg.track)) ∧ |rad alphaDeg| < w * (w / q) := by
  rcases clitoid_cases h with ⟨h0, _⟩ | ⟨_, l, remain, hc, hf, -⟩
  · cases h0
  obtain ⟨-, -, hth0, hva, haa, e1, e2, -⟩ := calc_ok hk hhz htr hR hd hc
  refine ⟨l, _, _, hf.2.2, rfl, rfl, ?_⟩
  rw [e1, e2]
  have hV : 0 < t.cfg.dSpeed * t.cfg.hz / t.cfg.k := by positivity
  generalize t.cfg.dSpeed * t.cfg.hz / t.cfg.k = V at *
  have : V / R * (V / R / ((V / R) ^ 2 / |rad alphaDeg - rad betaDeg|)) = |rad alphaDeg - rad betaDeg| := by field_simp
  rw [this]
  rcases lt_or_ge alphaDeg 0 with ha | ha
  · have hb : 0 < betaDeg := by by_contra hn; nlinarith [not_lt.1 hn]
    have h1 := rad_lt.2 ha
    have h2 := rad_lt.2 hb
    rw [rad_zero] at h1 h2
    rw [abs_of_neg h1, abs_of_neg (by linarith)]; linarith
  · have ha : 0 < alphaDeg := by
      rcases ha.lt_or_eq with ha | ha
      · exact ha
      · rw [← ha, mul_zero] at hsign; exact absurd hsign (lt_irrefl _)
    have hb : betaDeg < 0 := by by_contra hn; nlinarith [not_lt.1 hn]
    have h1 := rad_lt.2 ha
    have h2 := rad_lt.2 hb
    rw [rad_zero] at h1 h2
    rw [abs_of_pos h1, abs_of_pos (by linarith)]; linarith

/-- A command that is accepted and whose curve starts at the first event: the assumptions of `clothoid_ride` can be met. -/
example : ∃ (D : ℝ) (t' t2 : Traj) (rob : Robot), 0 < D ∧ traj0.clitoid 0 0 0 10 90 45 200 D = some (0, t') ∧ events t' [rob] = some t2 ∧ t2.mode = .clitoidCurve := by
  obtain ⟨s, hs0, -, hs⟩ := clitoid_decision (alphaDeg := 90) (betaDeg := 45) (R := 200) (by norm_num) (by norm_num) (by norm_num)
  have := hs traj0 0 0 0 10 (s + 1) (by norm_num [traj0, cfg0]) (by norm_num [traj0, cfg0]) (by norm_num [traj0, cfg0]) (by norm_num [traj0, cfg0]) (by linarith)
  rw [if_pos ⟨by norm_num, accepted0, by linarith⟩] at this
  obtain ⟨t', l, h1, h2, h3⟩ := this
  rcases clitoid_cases h1 with ⟨h0, _⟩ | ⟨_, l', remain, hc, hf, hcfg, -, hla, hlr, hline, hang, hadv⟩
  · cases h0
  have hl : l' = l := by have := hf.2.2.symm.trans h2.2.2; injection this
  subst hl
  simp only [rad_zero, Real.cos_zero, Real.sin_zero, add_sub_cancel_left, mul_one, mul_zero, add_zero, zero_add] at h3
  rw [h3] at hline hang
  simp only [sub_zero] at hang
  have harg : Complex.arg ⟨1, 0⟩ = 0 := Complex.arg_ofReal_of_nonneg (x := 1) (by norm_num)
  have harg10 : Complex.arg ⟨10, 0⟩ = 0 := Complex.arg_ofReal_of_nonneg (x := 10) (by norm_num)
  rw [harg] at hang
  have hpi := Real.pi_pos
  have hpi4 := Real.pi_lt_d2
  have haim : aim l' 1 0 = some (⟨11, 0⟩, ⟨1, 0⟩) := by
    simp only [aim, hline, hang, hadv, pts2line, projPtLine, ptNorm, Real.cos_zero, Real.sin_zero, Option.bind_eq_bind]
    norm_num
  have hth : simpleModulo (0 - 0) = 0 := by simp only [simpleModulo]; rw [if_neg (by linarith), if_neg (by linarith)]; ring
  have hr : reached l' ⟨1, 0⟩ := by
    simp only [reached, h3, hang, ptNorm, Real.cos_zero, Real.sin_zero]
    norm_num
  obtain ⟨a1, ha1, ba1⟩ := toI32_defined (q := rad 90 * 100 * 200 / 2) (by
    simp only [rad]; rw [abs_of_pos (by positivity)]; norm_num; linarith)
  obtain ⟨d1, hd1, bd1⟩ := toI32_defined (q := |200 * rad 90| * 3 * 100) (by
    simp only [rad]; rw [abs_of_pos (by positivity), abs_of_pos (by positivity)]; norm_num; linarith)
  obtain ⟨a2, ha2, ba2⟩ := toI32_defined (q := (0 : ℝ) * (100 * 200 / 2) / 1.1) (by norm_num)
  obtain ⟨d2, hd2, bd2⟩ := toI32_defined (q := (10 : ℝ) * 100) (by norm_num)
  have hi : ∀ k : Int, |k| ≤ 2 ^ 30 - 1 → i32 (k + 0) = some (k + 0) := fun k hk => by
    have := abs_le.mp hk
    simp only [i32]; rw [if_pos (by constructor <;> omega)]
  have hcfg' : t'.cfg = cfg0 := hcfg
  have hlim : t'.limitSpeed 0 = some (t'.setSpeed (t'.cfg.dSpeed * ((t'.cfg.aStart - |(0 : ℝ)|) / t'.cfg.aStart)) t'.cfg.aSpeed) := by
    unfold Traj.limitSpeed
    rw [if_neg (by rw [hcfg']; norm_num [cfg0]), if_neg (by rw [hcfg']; norm_num [cfg0])]
  have hth0 : simpleModulo 0 = 0 := by rw [sub_zero] at hth; exact hth
  have e10 : sqrt ((10 : ℝ) * 10 + 0 * 0) = 10 := by rw [zero_mul, add_zero]; exact Real.sqrt_mul_self (by norm_num)
  have hstart : ∃ t2, events t' [⟨1, 0, 0, 0, 0⟩] = some t2 ∧ t2.mode = .clitoidCurve := by
    simp only [events]
    unfold Traj.manage
    rw [if_pos hf.2.1, hf.1, hf.2.2]
    simp only [Traj.lineEvent, haim, Option.bind_eq_bind, Option.bind_some, polar, show (11 : ℝ) - 1 = 10 by norm_num, sub_zero, harg10, hth0, hlim, e10, Traj.setSpeed, hcfg']
    simp only [cfg0, hd2, ha2, hi _ bd2, hi _ ba2, Option.bind_some, hf.1, hr, and_self, if_true]
    simp only [Traj.startClitoid, Traj.gotoDA, Traj.deleteEvent, Traj.setAcc, Traj.setSpeed, hla, hlr, ha1, hd1, hi _ ba1, hi _ bd1, Option.bind_eq_bind, Option.bind_some]
    exact ⟨_, rfl, rfl⟩
  obtain ⟨t2, h4, h5⟩ := hstart
  exact ⟨s + 1, t', t2, _, by linarith, h1, h4, h5⟩

end Verif.Curves
