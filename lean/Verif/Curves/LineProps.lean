import Verif.Curves.Lemmas
import Mathlib.Tactic.FieldSimp
import Mathlib.Analysis.Real.Pi.Bounds
import Mathlib.Tactic.LinearCombination
import Mathlib.Analysis.Calculus.MeanValue
import Mathlib.Analysis.Calculus.Deriv.Mul
import Mathlib.Analysis.Calculus.Deriv.Pow

/-!
# Lines: properties (C95)
-/

namespace Verif.Curves

open Real

/-- The direction of a line through two different points. -/
theorem direction {p1 p2 : P} (h : p1 ≠ p2) (old : LineTarget) (adv : ℝ) :
    ∃ n, 0 < n ∧ p2.x - p1.x = n * cos (lineOf old p1 p2 adv).angle ∧ p2.y - p1.y = n * sin (lineOf old p1 p2 adv).angle := by
  have hx := polar_x ⟨p2.x - p1.x, p2.y - p1.y⟩
  have hy := polar_y ⟨p2.x - p1.x, p2.y - p1.y⟩
  have hn := polar_nonneg ⟨p2.x - p1.x, p2.y - p1.y⟩
  refine ⟨(polar ⟨p2.x - p1.x, p2.y - p1.y⟩).1, ?_, hx.symm, hy.symm⟩
  rcases hn.lt_or_eq with hn | hn
  · exact hn
  · exfalso
    rw [← hn, zero_mul] at hx hy
    simp only at hx hy
    apply h
    cases p1; cases p2
    simp only [P.mk.injEq]
    constructor <;> linarith

/-- Position along the line through `p1` in direction `al`, and to the left of it. -/
noncomputable def along (p1 : P) (al : ℝ) (x y : ℝ) : ℝ := (x - p1.x) * cos al + (y - p1.y) * sin al
noncomputable def beside (p1 : P) (al : ℝ) (x y : ℝ) : ℝ := -(x - p1.x) * sin al + (y - p1.y) * cos al

/-- The point aimed at is on the line, ahead of the robot by what remains of the advance after its distance from the line. -/
theorem aim_spec {p1 p2 : P} (h : p1 ≠ p2) (old : LineTarget) (adv x y : ℝ) :
    ∃ target proj, aim (lineOf old p1 p2 adv) x y = some (target, proj) ∧
      along p1 (lineOf old p1 p2 adv).angle proj.x proj.y = along p1 (lineOf old p1 p2 adv).angle x y ∧
      beside p1 (lineOf old p1 p2 adv).angle proj.x proj.y = 0 ∧
      beside p1 (lineOf old p1 p2 adv).angle target.x target.y = 0 ∧
      along p1 (lineOf old p1 p2 adv).angle target.x target.y =
        along p1 (lineOf old p1 p2 adv).angle x y + max 0 (adv - |beside p1 (lineOf old p1 p2 adv).angle x y|) := by
  obtain ⟨n, hn, ex, ey⟩ := direction h old adv
  have hl : (lineOf old p1 p2 adv).line = pts2line p1 p2 := rfl
  have hadv : (lineOf old p1 p2 adv).advance = adv := rfl
  simp only [aim, hl, hadv]
  generalize (lineOf old p1 p2 adv).angle = al at *
  have sq := Real.sin_sq_add_cos_sq al
  have hc : cos al ^ 2 = 1 - sin al ^ 2 := by linarith
  have hpr : projPtLine ⟨x, y⟩ (pts2line p1 p2) = some ⟨p1.x + along p1 al x y * cos al, p1.y + along p1 al x y * sin al⟩ := by
    have hne : -(n * sin al) * (n * sin al) - n * cos al * (n * cos al) = -n ^ 2 := by linear_combination -n ^ 2 * sq
    have e : projPtLine ⟨x, y⟩ (pts2line p1 p2) = if -(n * sin al) * (n * sin al) - n * cos al * (n * cos al) = 0 then none else
        some ⟨(n * cos al * (-(n * cos al) * x - n * sin al * y) - n * sin al * (-(-(n * sin al) * p1.x + n * cos al * p1.y))) / (-(n * sin al) * (n * sin al) - n * cos al * (n * cos al)),
          (n * cos al * (-(-(n * sin al) * p1.x + n * cos al * p1.y)) - -(n * sin al) * (-(n * cos al) * x - n * sin al * y)) / (-(n * sin al) * (n * sin al) - n * cos al * (n * cos al))⟩ := by
      simp only [projPtLine, pts2line, ex, ey, neg_neg]
    rw [e, hne]
    have h0 : -n ^ 2 ≠ 0 := by
      have : 0 < n ^ 2 := by positivity
      linarith
    rw [if_neg h0]
    simp only [along, Option.some.injEq, P.mk.injEq]
    constructor
    · rw [div_eq_iff h0]
      linear_combination (-n ^ 2 * p1.x) * sq
    · rw [div_eq_iff h0]
      linear_combination (-n ^ 2 * p1.y) * sq
  have hd : ptNorm ⟨x, y⟩ ⟨p1.x + along p1 al x y * cos al, p1.y + along p1 al x y * sin al⟩ = |beside p1 al x y| := by
    simp only [ptNorm]
    rw [← Real.sqrt_mul_self_eq_abs]
    congr 1
    simp only [along, beside]
    linear_combination ((x - p1.x) ^ 2 * (cos al ^ 2 - 1 - sin al ^ 2 + sin al ^ 2) + (y - p1.y) ^ 2 * (sin al ^ 2 - 1) + 2 * (x - p1.x) * (y - p1.y) * sin al * cos al) * sq
  have hm : (if |beside p1 al x y| > adv then 0 else adv - |beside p1 al x y|) = max 0 (adv - |beside p1 al x y|) := by
    split
    · rw [max_eq_left (by linarith)]
    · rw [max_eq_right (by linarith)]
  refine ⟨_, _, by rw [hpr]; simp only [Option.bind_eq_bind, Option.bind_some, hd, hm]; rfl, ?_, ?_, ?_, ?_⟩ <;>
    generalize max 0 (adv - |beside p1 al x y|) = m
  · simp only [along]
    linear_combination ((x - p1.x) * cos al + (y - p1.y) * sin al) * sq
  · simp only [along, beside]; ring
  · simp only [along, beside]; ring
  · simp only [along]
    linear_combination ((x - p1.x) * cos al + (y - p1.y) * sin al + m) * sq

/-- The robot's distance and direction to the point aimed at, in the frame of the line. -/
theorem aim_vector {p1 p2 : P} (h : p1 ≠ p2) (old : LineTarget) (adv x y : ℝ) :
    ∃ target proj, aim (lineOf old p1 p2 adv) x y = some (target, proj) ∧
      let al := (lineOf old p1 p2 adv).angle
      let off := beside p1 al x y
      target.x - x = max 0 (adv - |off|) * cos al + off * sin al ∧ target.y - y = max 0 (adv - |off|) * sin al - off * cos al := by
  obtain ⟨target, proj, e, -, -, h3, h4⟩ := aim_spec h old adv x y
  refine ⟨target, proj, e, ?_⟩
  generalize (lineOf old p1 p2 adv).angle = al at *
  generalize hm : max 0 (adv - |beside p1 al x y|) = m at *
  have sq := Real.sin_sq_add_cos_sq al
  simp only [along, beside] at *
  constructor
  · linear_combination cos al * h4 - sin al * h3 - (target.x - x) * sq - cos al * hm
  · linear_combination sin al * h4 + cos al * h3 - (target.y - y) * sq - sin al * hm

/-- The point aimed at is never further than the advance, or than the line if that is further. -/
theorem aim_distance {p1 p2 : P} (h : p1 ≠ p2) (old : LineTarget) (adv x y : ℝ) :
    ∃ target proj, aim (lineOf old p1 p2 adv) x y = some (target, proj) ∧
      |beside p1 (lineOf old p1 p2 adv).angle x y| ≤ ptNorm ⟨x, y⟩ target ∧
      ptNorm ⟨x, y⟩ target ≤ max adv |beside p1 (lineOf old p1 p2 adv).angle x y| := by
  obtain ⟨target, proj, e, h1, h2⟩ := aim_vector h old adv x y
  refine ⟨target, proj, e, ?_⟩
  generalize (lineOf old p1 p2 adv).angle = al at *
  have sq := Real.sin_sq_add_cos_sq al
  have hd : ptNorm ⟨x, y⟩ target = sqrt (max 0 (adv - |beside p1 al x y|) ^ 2 + beside p1 al x y ^ 2) := by
    simp only [ptNorm, h1, h2]
    congr 1
    generalize max 0 (adv - |beside p1 al x y|) = m
    linear_combination (m ^ 2 + beside p1 al x y ^ 2) * sq
  rw [hd]
  generalize beside p1 al x y = off
  have h0 := abs_nonneg off
  constructor
  · rw [← Real.sqrt_sq_eq_abs]
    exact Real.sqrt_le_sqrt (by nlinarith [sq_nonneg (max 0 (adv - |off|))])
  · rw [← sq_abs off]
    refine Real.sqrt_le_iff.mpr ⟨le_trans h0 (le_max_right _ _), ?_⟩
    rcases le_total adv |off| with hle | hle
    · rw [max_eq_left (by linarith), max_eq_right hle]; nlinarith
    · rw [max_eq_right (by linarith), max_eq_left hle]; nlinarith

/-- Exactly on the line and along it, the robot aims straight ahead. -/
theorem aim_exact {p1 p2 : P} (h : p1 ≠ p2) (old : LineTarget) {adv x y : ℝ} (hadv : 0 < adv)
    (hon : beside p1 (lineOf old p1 p2 adv).angle x y = 0) :
    ∃ target proj, aim (lineOf old p1 p2 adv) x y = some (target, proj) ∧
      polar ⟨target.x - x, target.y - y⟩ = (adv, (lineOf old p1 p2 adv).angle) := by
  obtain ⟨target, proj, e, h1, h2⟩ := aim_vector h old adv x y
  refine ⟨target, proj, e, ?_⟩
  have hr1 : -π < (lineOf old p1 p2 adv).angle := Complex.neg_pi_lt_arg _
  have hr2 : (lineOf old p1 p2 adv).angle ≤ π := Complex.arg_le_pi _
  simp only [hon, abs_zero, sub_zero, zero_mul, add_zero, max_eq_right hadv.le] at h1 h2
  generalize (lineOf old p1 p2 adv).angle = al at *
  have sq := Real.sin_sq_add_cos_sq al
  rw [h1, h2]
  simp only [polar, Prod.mk.injEq]
  constructor
  · rw [show adv * cos al * (adv * cos al) + adv * sin al * (adv * sin al) = adv * adv by linear_combination adv ^ 2 * sq]
    exact Real.sqrt_mul_self hadv.le
  · have := Complex.arg_mul_cos_add_sin_mul_I hadv (θ := al) ⟨hr1, hr2⟩
    refine Eq.trans ?_ this
    congr 1
    apply Complex.ext <;> simp [Complex.cos_ofReal_re, Complex.sin_ofReal_re, Complex.cos_ofReal_im, Complex.sin_ofReal_im]

/-- Without advance, a robot on the line has no direction to go to: the code takes the direction 0, whatever the line is. -/
theorem aim_no_advance {p1 p2 : P} (h : p1 ≠ p2) (old : LineTarget) {adv x y : ℝ} (hadv : adv ≤ 0)
    (hon : beside p1 (lineOf old p1 p2 adv).angle x y = 0) :
    ∃ target proj, aim (lineOf old p1 p2 adv) x y = some (target, proj) ∧ polar ⟨target.x - x, target.y - y⟩ = (0, 0) := by
  obtain ⟨target, proj, e, h1, h2⟩ := aim_vector h old adv x y
  refine ⟨target, proj, e, ?_⟩
  simp only [hon, abs_zero, sub_zero, zero_mul, add_zero, max_eq_left hadv] at h1 h2
  rw [h1, h2]
  simp only [polar, mul_zero, add_zero, Real.sqrt_zero]
  have : (⟨0, 0⟩ : ℂ) = 0 := rfl
  rw [this, Complex.arg_zero]

/-- The turning point counts as reached exactly from half a millimetre before it on. -/
theorem reached_iff (l : LineTarget) (proj : P) :
    reached l proj ↔ -(1 / 2) < (proj.x - l.turn.x) * cos l.angle + (proj.y - l.turn.y) * sin l.angle := by
  have sq := Real.sin_sq_add_cos_sq l.angle
  simp only [reached, ptNorm]
  rw [Real.sqrt_lt_sqrt_iff (by nlinarith [mul_self_nonneg (l.turn.x - proj.x), mul_self_nonneg (l.turn.y - proj.y)])]
  generalize cos l.angle = c at *
  generalize sin l.angle = s at *
  constructor <;> intro h <;> nlinarith

/-! ## The event -/

/-- The speed that is commanded: full if the robot looks at the point aimed at, less with the angle, none beyond `a_start`. -/
noncomputable def lineSpeed (c : Cfg) (theta : ℝ) : ℝ := if |theta| > c.aStart then 0 else |c.dSpeed| * (1 - |theta| / c.aStart)

theorem lineSpeed_range {c : Cfg} (theta : ℝ) (h : 0 < c.aStart) : 0 ≤ lineSpeed c theta ∧ lineSpeed c theta ≤ |c.dSpeed| := by
  have h0 := abs_nonneg c.dSpeed
  simp only [lineSpeed]
  split
  · exact ⟨le_refl _, h0⟩
  · rename_i hle
    have h1 : |theta| / c.aStart ≤ 1 := by rw [div_le_one h]; linarith
    have h2 : 0 ≤ |theta| / c.aStart := by positivity
    constructor <;> nlinarith

/-- One event on a line: speeds and consigns from the angle and the distance to the point aimed at; the clothoid is started in its state only, and
exactly when the turning point is reached. -/
theorem lineEvent_spec {t t' : Traj} {l : LineTarget} {rob : Robot} (hs : 0 < t.cfg.aStart) (h : t.lineEvent l rob = some t') :
    ∃ target proj theta, aim l rob.x rob.y = some (target, proj) ∧
      theta = simpleModulo (Complex.arg ⟨target.x - rob.x, target.y - rob.y⟩ - rob.a) ∧
      ((¬(t.mode = .clitoidLine ∧ reached l proj) ∧ t'.qSpeed = (lineSpeed t.cfg theta, |t.cfg.aSpeed|) ∧ t'.mode = t.mode ∧ t'.scheduled = t.scheduled ∧
          t'.target = t.target ∧ |(t'.consD : ℝ) - (rob.dist + ptNorm ⟨rob.x, rob.y⟩ target * t.cfg.k)| < 1 ∧
          |(t'.consA : ℝ) - (rob.ang + theta / 1.1 * t.cfg.track / 2 * t.cfg.k)| < 1) ∨
        (t.mode = .clitoidLine ∧ reached l proj ∧ t'.mode = .clitoidCurve ∧ t'.scheduled = false ∧
          t'.qSpeed = (|t.cfg.dSpeed|, |l.va|) ∧ t'.qAcc = (|t.cfg.dAcc|, |l.aa|) ∧
          |(t'.consD : ℝ) - (rob.dist + 3 * |l.r * l.alpha| * t.cfg.k)| < 1 ∧
          |(t'.consA : ℝ) - (rob.ang + l.alpha * t.cfg.track / 2 * t.cfg.k)| < 1)) := by
  simp only [Traj.lineEvent, Option.bind_eq_bind, Option.bind_eq_some_iff] at h
  obtain ⟨⟨target, proj⟩, ha, t1, h1, cd, hcd, cd', hcd', ca, hca, ca', hca', h⟩ := h
  have hcd' := i32_some hcd'
  have hca' := i32_some hca'
  subst hcd' hca'
  refine ⟨target, proj, _, ha, rfl, ?_⟩
  simp only [polar] at h1 hcd hca
  generalize simpleModulo (Complex.arg ⟨target.x - rob.x, target.y - rob.y⟩ - rob.a) = theta at *
  have ht1 : t1 = { t with qSpeed := (lineSpeed t.cfg theta, |t.cfg.aSpeed|) } := by
    simp only [lineSpeed]
    unfold Traj.limitSpeed at h1
    by_cases hgt : |theta| > t.cfg.aStart
    · rw [if_pos hgt] at h1
      injection h1 with h1
      rw [if_pos hgt, ← h1, Traj.setSpeed, abs_zero]
    · rw [if_neg hgt, if_neg hs.ne'] at h1
      injection h1 with h1
      rw [if_neg hgt, ← h1, Traj.setSpeed, abs_mul, abs_of_nonneg (a := (t.cfg.aStart - |theta|) / t.cfg.aStart) (div_nonneg (by linarith) hs.le)]
      congr 3
      field_simp
  subst ht1
  by_cases hr : t.mode = .clitoidLine ∧ reached l proj
  · right
    rw [if_pos hr] at h
    refine ⟨hr.1, hr.2, ?_⟩
    simp only [Traj.startClitoid, Traj.gotoDA, Option.bind_eq_bind, Option.bind_eq_some_iff, Option.some.injEq] at h
    obtain ⟨t2, ⟨a1, ha1, a2, ha2, d1, hd1, d2, hd2, rfl⟩, rfl⟩ := h
    have ha2 := i32_some ha2
    have hd2 := i32_some hd2
    subst ha2 hd2
    have e1 := (toI32_spec ha1).1
    have e2 := (toI32_spec hd1).1
    simp only [Traj.deleteEvent, Traj.setAcc, Traj.setSpeed] at e1 e2
    refine ⟨rfl, rfl, rfl, rfl, ?_, ?_⟩
    · simp only [Traj.setAcc, Traj.setSpeed]
      push_cast
      rw [show |l.r * l.alpha| * 3 = 3 * |l.r * l.alpha| by ring] at e2
      rwa [show (d1 : ℝ) + rob.dist - (rob.dist + 3 * |l.r * l.alpha| * t.cfg.k) = d1 - 3 * |l.r * l.alpha| * t.cfg.k by ring]
    · simp only [Traj.setAcc, Traj.setSpeed]
      push_cast
      rwa [show (a1 : ℝ) + rob.ang - (rob.ang + l.alpha * t.cfg.track / 2 * t.cfg.k) = a1 - l.alpha * t.cfg.k * t.cfg.track / 2 by ring]
  · left
    rw [if_neg hr] at h
    injection h with h
    subst h
    have e1 := (toI32_spec hca).1
    have e2 := (toI32_spec hcd).1
    simp only at e1 e2
    refine ⟨hr, rfl, rfl, rfl, rfl, ?_, ?_⟩
    · push_cast
      simp only [ptNorm]
      rwa [show (cd : ℝ) + rob.dist - (rob.dist + sqrt ((target.x - rob.x) * (target.x - rob.x) + (target.y - rob.y) * (target.y - rob.y)) * t.cfg.k) =
        cd - sqrt ((target.x - rob.x) * (target.x - rob.x) + (target.y - rob.y) * (target.y - rob.y)) * t.cfg.k by ring]
    · push_cast
      rwa [show (ca : ℝ) + rob.ang - (rob.ang + theta / 1.1 * t.cfg.track / 2 * t.cfg.k) = ca - theta * (t.cfg.k * t.cfg.track / 2) / 1.1 by ring]

/-- A command to follow a line and the next event. -/
theorem line_manage (t : Traj) (old : LineTarget) (p1 p2 : P) (adv : ℝ) (rob : Robot) :
    (t.lineAbs old p1 p2 adv).manage rob = (t.lineAbs old p1 p2 adv).lineEvent (lineOf old p1 p2 adv) rob := rfl

/-- The arithmetic is defined for two different points and a position not too far away. -/
theorem line_defined (t : Traj) {p1 p2 : P} (h : p1 ≠ p2) (old : LineTarget) {adv : ℝ} {rob : Robot} (hs : 0 < t.cfg.aStart)
    (ha : |rob.a| ≤ π) (hd : |rob.dist| ≤ 2 ^ 30) (hg : |rob.ang| ≤ 2 ^ 30)
    (hk : |max adv |beside p1 (lineOf old p1 p2 adv).angle rob.x rob.y| * t.cfg.k| ≤ 2 ^ 29) (hw : |t.cfg.k * t.cfg.track| ≤ 2 ^ 29) :
    ∃ t', (t.lineAbs old p1 p2 adv).manage rob = some t' := by
  have hpi := Real.pi_pos
  obtain ⟨target, proj, e, h1, h2⟩ := aim_distance h old adv rob.x rob.y
  rw [line_manage]
  have hth := simpleModulo_range (a := Complex.arg ⟨target.x - rob.x, target.y - rob.y⟩ - rob.a)
    (by linarith [Complex.neg_pi_lt_arg ⟨target.x - rob.x, target.y - rob.y⟩, (abs_le.mp ha).2])
    (by linarith [Complex.arg_le_pi ⟨target.x - rob.x, target.y - rob.y⟩, (abs_le.mp ha).1])
  simp only [Traj.lineEvent, e, polar, Option.bind_eq_bind, Option.bind_some]
  generalize simpleModulo (Complex.arg ⟨target.x - rob.x, target.y - rob.y⟩ - rob.a) = theta at *
  have hL : ∃ q, (t.lineAbs old p1 p2 adv).limitSpeed theta = some { t.lineAbs old p1 p2 adv with qSpeed := q } := by
    unfold Traj.limitSpeed
    have hs' : (t.lineAbs old p1 p2 adv).cfg.aStart ≠ 0 := hs.ne'
    by_cases hgt : |theta| > (t.lineAbs old p1 p2 adv).cfg.aStart
    · rw [if_pos hgt]; exact ⟨_, rfl⟩
    · rw [if_neg hgt, if_neg hs']; exact ⟨_, rfl⟩
  obtain ⟨q, hL⟩ := hL
  rw [hL]
  simp only [Option.bind_some]
  have hn : (0 : ℝ) ≤ sqrt ((target.x - rob.x) * (target.x - rob.x) + (target.y - rob.y) * (target.y - rob.y)) := Real.sqrt_nonneg _
  simp only [ptNorm] at h2
  generalize sqrt ((target.x - rob.x) * (target.x - rob.x) + (target.y - rob.y) * (target.y - rob.y)) = D at *
  generalize max adv |beside p1 (lineOf old p1 p2 adv).angle rob.x rob.y| = M at *
  have hcfg : (t.lineAbs old p1 p2 adv).cfg = t.cfg := rfl
  rw [hcfg]
  obtain ⟨cd, hcd, bcd⟩ := toI32_defined (q := D * t.cfg.k) (by
    rw [abs_mul] at hk ⊢
    rw [abs_of_nonneg hn]
    have : D * |t.cfg.k| ≤ |M| * |t.cfg.k| :=
      mul_le_mul_of_nonneg_right (h2.trans (le_abs_self _)) (abs_nonneg _)
    calc _ ≤ _ := this
      _ ≤ 2 ^ 29 := hk
      _ ≤ 2 ^ 30 - 2 := by norm_num)
  obtain ⟨ca, hca, bca⟩ := toI32_defined (q := theta * (t.cfg.k * t.cfg.track / 2) / 1.1) (by
    have e1 : |theta| ≤ 3.15 := (abs_le.mpr hth).trans Real.pi_lt_d2.le
    have e2 : |theta * (t.cfg.k * t.cfg.track / 2) / 1.1| = |theta| * |t.cfg.k * t.cfg.track| / 2.2 := by
      rw [abs_div, abs_mul, abs_div]
      norm_num
      ring
    rw [e2]
    have e3 := mul_le_mul e1 hw (abs_nonneg _) (by norm_num)
    have : |theta| * |t.cfg.k * t.cfg.track| / 2.2 ≤ 3.15 * 2 ^ 29 / 2.2 := div_le_div_of_nonneg_right e3 (by norm_num)
    calc _ ≤ _ := this
      _ ≤ 2 ^ 30 - 2 := by norm_num)
  rw [hcd, hca]
  simp only [Option.bind_some]
  rw [i32_defined bcd hd, i32_defined bca hg]
  simp only [Option.bind_some]
  refine ⟨_, if_neg ?_⟩
  rintro ⟨hm, _⟩
  exact absurd hm (by simp [Traj.lineAbs])

/-- The same point twice gives no line: the first event divides by zero. -/
theorem line_same_point (t : Traj) (old : LineTarget) (p : P) (adv : ℝ) (rob : Robot) : (t.lineAbs old p p adv).manage rob = none := by
  rw [line_manage]
  have : aim (lineOf old p p adv) rob.x rob.y = none := by
    simp only [aim, lineOf, projPtLine, pts2line, sub_self, neg_zero, mul_zero, zero_mul, if_true]
    rfl
  simp only [Traj.lineEvent, this]
  rfl

/-- On the line and along it, the robot drives straight on at full speed. -/
theorem line_straight {t t' : Traj} {p1 p2 : P} (h : p1 ≠ p2) {old : LineTarget} {adv : ℝ} (hadv : 0 < adv) {rob : Robot} (hs : 0 < t.cfg.aStart)
    (hon : beside p1 (lineOf old p1 p2 adv).angle rob.x rob.y = 0) (ha : rob.a = (lineOf old p1 p2 adv).angle)
    (hm : (t.lineAbs old p1 p2 adv).manage rob = some t') :
    t'.qSpeed = (|t.cfg.dSpeed|, |t.cfg.aSpeed|) ∧ t'.consA = rob.ang ∧ |(t'.consD : ℝ) - (rob.dist + adv * t.cfg.k)| < 1 ∧ t'.scheduled = true := by
  rw [line_manage] at hm
  obtain ⟨target, proj, theta, e1, e2, e3⟩ := lineEvent_spec (by exact hs) hm
  obtain ⟨target', proj', e4, e5⟩ := aim_exact h old hadv hon
  rw [e4] at e1
  injection e1 with e1
  injection e1 with e1 e1'
  subst e1 e1'
  have hpi := Real.pi_pos
  rcases e3 with ⟨_, f1, f2, f3, _, f5, f6⟩ | ⟨f1, _⟩
  · simp only [polar, Prod.mk.injEq] at e5
    rw [e5.2, ha, sub_self] at e2
    have ht : theta = 0 := by
      rw [e2, simpleModulo, if_neg (by linarith), if_neg (by linarith)]
    subst ht
    refine ⟨?_, ?_, ?_, f3⟩
    · rw [f1]
      have : lineSpeed t.cfg 0 = |t.cfg.dSpeed| := by
        simp only [lineSpeed, abs_zero, zero_div, sub_zero, mul_one]
        exact if_neg (by linarith)
      exact Prod.ext this rfl
    · simp only [zero_div, zero_mul, add_zero] at f6
      have : |t'.consA - rob.ang| < 1 := by exact_mod_cast f6
      rw [Int.abs_lt_one_iff] at this
      omega
    · have hpn : ptNorm ⟨rob.x, rob.y⟩ target' = adv := e5.1
      rw [hpn] at f5
      exact f5
  · cases f1

/-- Along the line but beside it, the robot turns towards the line. -/
theorem line_side {p1 p2 : P} (h : p1 ≠ p2) (old : LineTarget) (adv x y : ℝ) :
    ∃ target proj theta, aim (lineOf old p1 p2 adv) x y = some (target, proj) ∧
      theta = simpleModulo (Complex.arg ⟨target.x - x, target.y - y⟩ - (lineOf old p1 p2 adv).angle) ∧
      (0 < beside p1 (lineOf old p1 p2 adv).angle x y → -π < theta ∧ theta < 0) ∧ (beside p1 (lineOf old p1 p2 adv).angle x y < 0 → 0 < theta ∧ theta < π) := by
  obtain ⟨target, proj, e, h1, h2⟩ := aim_vector h old adv x y
  refine ⟨target, proj, _, e, rfl, ?_⟩
  have hr1 : -π < (lineOf old p1 p2 adv).angle := Complex.neg_pi_lt_arg _
  have hr2 : (lineOf old p1 p2 adv).angle ≤ π := Complex.arg_le_pi _
  generalize (lineOf old p1 p2 adv).angle = al at *
  have hpi := Real.pi_pos
  have hx := polar_x ⟨target.x - x, target.y - y⟩
  have hy := polar_y ⟨target.x - x, target.y - y⟩
  have hn := polar_nonneg ⟨target.x - x, target.y - y⟩
  have hr := polar_range ⟨target.x - x, target.y - y⟩
  have hpo : (polar ⟨target.x - x, target.y - y⟩).2 = Complex.arg ⟨target.x - x, target.y - y⟩ := rfl
  rw [hpo] at hx hy hr
  simp only at hx hy
  generalize (polar ⟨target.x - x, target.y - y⟩).1 = D at *
  generalize Complex.arg ⟨target.x - x, target.y - y⟩ = ph at *
  have hm := simpleModulo_range (a := ph - al) (by linarith) (by linarith)
  have hsin : D * sin (simpleModulo (ph - al)) = -beside p1 al x y := by
    rw [sin_modulo, Real.sin_sub]
    have sq := Real.sin_sq_add_cos_sq al
    rw [h1] at hx
    rw [h2] at hy
    linear_combination cos al * hy - sin al * hx - beside p1 al x y * sq
  generalize simpleModulo (ph - al) = theta at *
  constructor <;> intro hb
  · have hs : sin theta < 0 := by
      by_contra hc
      have := mul_nonneg hn (not_lt.mp hc)
      linarith
    refine ⟨?_, ?_⟩
    · rcases hm.1.lt_or_eq with h | h
      · exact h
      · rw [← h, Real.sin_neg, Real.sin_pi] at hs; linarith
    · by_contra hc
      linarith [Real.sin_nonneg_of_nonneg_of_le_pi (not_lt.mp hc) hm.2]
  · have hs : 0 < sin theta := by
      by_contra hc
      have := mul_nonpos_of_nonneg_of_nonpos hn (not_lt.mp hc)
      linarith
    refine ⟨?_, ?_⟩
    · by_contra hc
      linarith [Real.sin_nonpos_of_nonpos_of_neg_pi_le (not_lt.mp hc) hm.1]
    · rcases hm.2.lt_or_eq with h | h
      · exact h
      · rw [h, Real.sin_pi] at hs; linarith

/-- A robot that drives forward towards the point aimed at never gets further away from the line. -/
theorem line_pursuit {p1 p2 : P} (h : p1 ≠ p2) (old : LineTarget) (adv : ℝ) {x y v : ℝ → ℝ} (hv : ∀ t, 0 ≤ v t)
    (hr : ∀ t, ∃ target proj, aim (lineOf old p1 p2 adv) (x t) (y t) = some (target, proj) ∧
      HasDerivAt x (v t * cos (Complex.arg ⟨target.x - x t, target.y - y t⟩)) t ∧ HasDerivAt y (v t * sin (Complex.arg ⟨target.x - x t, target.y - y t⟩)) t) :
    Antitone (fun t => beside p1 (lineOf old p1 p2 adv).angle (x t) (y t) ^ 2) := by
  have key : ∀ t, ∃ g, g ≤ 0 ∧ HasDerivAt (fun t => beside p1 (lineOf old p1 p2 adv).angle (x t) (y t) ^ 2) g t := by
    intro t
    obtain ⟨target, proj, e, hx, hy⟩ := hr t
    obtain ⟨target', proj', e', h1, h2⟩ := aim_vector h old adv (x t) (y t)
    rw [e] at e'
    injection e' with e'
    injection e' with e1 e2
    subst e1 e2
    generalize (lineOf old p1 p2 adv).angle = al at *
    have px := polar_x ⟨target.x - x t, target.y - y t⟩
    have py := polar_y ⟨target.x - x t, target.y - y t⟩
    have hn := polar_nonneg ⟨target.x - x t, target.y - y t⟩
    have hpo : (polar ⟨target.x - x t, target.y - y t⟩).2 = Complex.arg ⟨target.x - x t, target.y - y t⟩ := rfl
    rw [hpo] at px py
    simp only at px py
    generalize (polar ⟨target.x - x t, target.y - y t⟩).1 = D at *
    generalize Complex.arg ⟨target.x - x t, target.y - y t⟩ = ph at *
    have hb : HasDerivAt (fun t => beside p1 al (x t) (y t)) (-(v t * cos ph) * sin al + v t * sin ph * cos al) t := by
      simp only [beside]
      exact (((hx.sub_const p1.x).neg).mul_const (sin al)).add ((hy.sub_const p1.y).mul_const (cos al))
    have hs : D * sin (ph - al) = -beside p1 al (x t) (y t) := by
      rw [Real.sin_sub]
      have sq := Real.sin_sq_add_cos_sq al
      rw [h1] at px
      rw [h2] at py
      linear_combination cos al * py - sin al * px - beside p1 al (x t) (y t) * sq
    refine ⟨_, ?_, hb.pow 2⟩
    have e3 : -(v t * cos ph) * sin al + v t * sin ph * cos al = v t * sin (ph - al) := by rw [Real.sin_sub]; ring
    rw [e3]
    generalize beside p1 al (x t) (y t) = b at *
    rcases hn.lt_or_eq with hD | hD
    · have e4 : b * sin (ph - al) ≤ 0 := by
        have : D * (b * sin (ph - al)) ≤ 0 := by
          rw [show D * (b * sin (ph - al)) = b * (D * sin (ph - al)) by ring, hs]
          nlinarith [sq_nonneg b]
        by_contra hc
        have := mul_pos hD (not_le.mp hc)
        linarith
      have e5 := mul_nonneg (hv t) (neg_nonneg.mpr e4)
      simp only [Nat.add_one_sub_one, Nat.cast_ofNat, pow_one]
      nlinarith
    · have hb0 : b = 0 := by rw [← hD, zero_mul] at hs; linarith
      subst hb0
      simp
  refine antitone_of_deriv_nonpos (fun t => ?_) (fun t => ?_)
  · obtain ⟨g, _, hg⟩ := key t
    exact hg.differentiableAt
  · obtain ⟨g, g0, hg⟩ := key t
    rw [hg.deriv]
    exact g0

/-- Finding: without advance, a robot on the line and along it is stopped and turned to the direction 0, whatever the direction of the line is. -/
theorem line_no_advance {t t' : Traj} {p1 p2 : P} (h : p1 ≠ p2) {old : LineTarget} {rob : Robot} (hs : 0 < t.cfg.aStart)
    (hon : beside p1 (lineOf old p1 p2 0).angle rob.x rob.y = 0) (ha : rob.a = (lineOf old p1 p2 0).angle)
    (hm : (t.lineAbs old p1 p2 0).manage rob = some t') :
    t'.consD = rob.dist ∧ |(t'.consA : ℝ) - (rob.ang - rob.a / 1.1 * t.cfg.track / 2 * t.cfg.k)| < 1 := by
  rw [line_manage] at hm
  obtain ⟨target, proj, theta, e1, e2, e3⟩ := lineEvent_spec (by exact hs) hm
  obtain ⟨target', proj', e4, e5⟩ := aim_no_advance h old (le_refl (0 : ℝ)) hon
  rw [e4] at e1
  injection e1 with e1
  injection e1 with e1 e1'
  subst e1 e1'
  have hr1 : -π < rob.a := ha ▸ Complex.neg_pi_lt_arg _
  have hr2 : rob.a ≤ π := ha ▸ Complex.arg_le_pi _
  simp only [polar, Prod.mk.injEq] at e5
  rcases e3 with ⟨_, _, _, _, _, f5, f6⟩ | ⟨f1, _⟩
  · have hpn : ptNorm ⟨rob.x, rob.y⟩ target' = 0 := e5.1
    rw [hpn, zero_mul, add_zero] at f5
    rw [e5.2, zero_sub, simpleModulo, if_neg (by linarith), if_neg (by linarith)] at e2
    refine ⟨?_, ?_⟩
    · have : |t'.consD - rob.dist| < 1 := by exact_mod_cast f5
      rw [Int.abs_lt_one_iff] at this
      omega
    · rw [e2] at f6
      convert f6 using 2
      simp only [Traj.lineAbs, Traj.deleteEvent, Traj.setAcc, Traj.setSpeed]
      ring
  · cases f1

/-- An example that meets the hypotheses of the theorems above. -/
example : ∃ (t t' : Traj) (old : LineTarget), (t.lineAbs old ⟨0, 0⟩ ⟨1, 0⟩ 100).manage ⟨0, 0, 0, 0, 0⟩ = some t' ∧ 0 < t.cfg.aStart ∧
    (lineOf old ⟨0, 0⟩ ⟨1, 0⟩ 100).angle = 0 ∧ beside ⟨0, 0⟩ 0 0 0 = 0 := by
  have ha : ∀ old : LineTarget, (lineOf old ⟨0, 0⟩ ⟨1, 0⟩ 100).angle = 0 := by
    intro old
    simp only [lineOf, sub_zero]
    exact Complex.arg_ofReal_of_nonneg zero_le_one
  obtain ⟨t', h⟩ := line_defined ⟨⟨10, 100, 100, 1, 1, 1, 1, 1⟩, false, .other, .pol 0 0, (0, 0), (0, 0), 0, 0⟩ (p1 := ⟨0, 0⟩) (p2 := ⟨1, 0⟩) (by simp)
    ⟨⟨0, 0, 0⟩, 0, 0, ⟨0, 0⟩, 0, 0, 0, 0⟩ (adv := 100) (rob := ⟨0, 0, 0, 0, 0⟩) (by norm_num) (by simp [Real.pi_pos.le]) (by simp) (by simp)
    (by rw [ha]; simp [beside]; norm_num) (by norm_num)
  exact ⟨_, t', _, h, by norm_num, ha _, by simp [beside]⟩

end Verif.Curves
