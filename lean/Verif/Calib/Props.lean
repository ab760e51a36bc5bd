import Verif.Calib.Lemmas

/-!
# Calibration of the odometry: what is proved (C111)
-/

namespace Verif.Calib

open Base

/-! ## Gains of the wheels -/

/-- C111. The robot starts at the wall with encoders `e0` and comes back to the wall, after any drive, with encoders `e1`. With the suggested gains, any odometry
that sees the same encoders at the wall (and anything in between) finds the same heading at both times, up to rounding: the difference is less than
`6 + 3 |f|` impulses, however long the drive was. Missing: the drive to the wall, which is a hypothesis here. -/
theorem wheel_calibration_partial {rs r0 r1 : Rs} {e0 e1 : Wheels} {es : List Wheels} {g : ℚ × ℚ} {f : ℚ}
    (hi : rs.ignoreGain = false) (h0 : rs.update e0 = some r0) (h1 : run r0 (es ++ [e1]) = some r1)
    (hc : wheelGains r0.virtualEncoders r1.virtualEncoders rs.gain = some (some g))
    (hf : f = ((r0.virtualEncoders.angle - r1.virtualEncoders.angle : Int) : ℚ) / ((r0.virtualEncoders.distance - r1.virtualEncoders.distance : Int) : ℚ))
    {q q0 q1 : Rs} {es' : List Wheels} (hq : q.ignoreGain = false) (hg : q.gain = g) (k0 : q.update e0 = some q0)
    (k1 : run q0 (es' ++ [e1]) = some q1) :
    |((q0.virtualEncoders.angle - q1.virtualEncoders.angle : Int) : ℚ)| < 6 + 3 * |f| := by
  obtain ⟨a1, a2, a3, a4, a5, a6⟩ := update_spec hi h0
  obtain ⟨-, -, b3, b4, b5, b6⟩ := run_spec es e1 a1 h1
  obtain ⟨c1, c2, c3, c4, c5, c6⟩ := update_spec hq k0
  obtain ⟨-, -, d3, d4, d5, d6⟩ := run_spec es' e1 c1 k1
  rw [a2] at b5 b6
  rw [c2] at d5 d6
  unfold wheelGains at hc
  cases ha : i32 (r0.virtualEncoders.angle - r1.virtualEncoders.angle) with
  | none => rw [ha] at hc; cases hc
  | some da =>
    cases hd : i32 (r0.virtualEncoders.distance - r1.virtualEncoders.distance) with
    | none => rw [ha, hd] at hc; cases hc
    | some dd =>
      rw [ha, hd] at hc
      dsimp only at hc
      have ea := i32_eq ha
      have ed := i32_eq hd
      by_cases hz : dd = 0
      · rw [if_pos hz] at hc
        cases hc
      · rw [if_neg hz] at hc
        have hc := Option.some.inj (Option.some.inj hc)
        rw [← ea, ← ed] at hf
        rw [← hf] at hc
        have hz' : (dd : ℚ) ≠ 0 := by exact_mod_cast hz
        have hfd : f * dd = da := by rw [hf]; field_simp
        have pa : (da : ℚ) = r0.pextPrev.angle - r1.pextPrev.angle := by
          have : da = r0.pextPrev.angle - r1.pextPrev.angle := by omega
          exact_mod_cast this
        have pd : (dd : ℚ) = r0.pextPrev.distance - r1.pextPrev.distance := by
          have : dd = r0.pextPrev.distance - r1.pextPrev.distance := by omega
          exact_mod_cast this
        have pq : ((q0.virtualEncoders.angle - q1.virtualEncoders.angle : Int) : ℚ) = q0.pextPrev.angle - q1.pextPrev.angle := by
          have : q0.virtualEncoders.angle - q1.virtualEncoders.angle = q0.pextPrev.angle - q1.pextPrev.angle := by omega
          exact_mod_cast this
        rw [pq]
        rw [hg, ← hc] at c5 d5
        have x0 : exactAngle ((1 + f) * rs.gain.1, (1 - f) * rs.gain.2) e0 = exactAngle rs.gain e0 - f * exactDistance rs.gain e0 := by
          unfold exactAngle exactDistance; dsimp only; ring
        have x1 : exactAngle ((1 + f) * rs.gain.1, (1 - f) * rs.gain.2) e1 = exactAngle rs.gain e1 - f * exactDistance rs.gain e1 := by
          unfold exactAngle exactDistance; dsimp only; ring
        rw [x0] at c5
        rw [x1] at d5
        generalize exactAngle rs.gain e0 = u0 at *
        generalize exactAngle rs.gain e1 = u1 at *
        generalize exactDistance rs.gain e0 = v0 at *
        generalize exactDistance rs.gain e1 = v1 at *
        have hη : |(v0 - v1) - dd| < 3 := by
          rw [abs_lt] at a6 b6 ⊢
          constructor <;> linarith
        have hε : |(u0 - u1) - da| < 3 := by
          rw [abs_lt] at a5 b5 ⊢
          constructor <;> linarith
        have hm : |f * ((v0 - v1) - dd)| ≤ 3 * |f| := by
          rw [abs_mul, mul_comm]
          exact mul_le_mul_of_nonneg_right hη.le (abs_nonneg f)
        have hm' : f * ((v0 - v1) - dd) = f * v0 - f * v1 - da := by rw [← hfd]; ring
        rw [hm'] at hm
        rw [abs_le] at hm
        rw [abs_lt] at c5 d5 hε ⊢
        constructor <;> linarith

/-- The hypotheses can be met: gains of 1, on the way the left wheel makes 4000 and the right wheel 4040 steps. -/
def rsExample : Rs := { Rs.init with gain := (1, 1) }

example : ∃ r0 r1 g, rsExample.update ⟨100, 100⟩ = some r0 ∧ run r0 ([⟨2000, 2100⟩] ++ [⟨4100, 4140⟩]) = some r1 ∧
    wheelGains r0.virtualEncoders r1.virtualEncoders rsExample.gain = some (some g) ∧ g = (1 + 20 / 4020, 1 - 20 / 4020) ∧
    ∃ q0 q1, ({ rsExample with gain := g } : Rs).update ⟨100, 100⟩ = some q0 ∧ run q0 ([] ++ [⟨4100, 4140⟩]) = some q1 :=
  ⟨⟨false, (1, 1), ⟨0, 0⟩, ⟨100, 0⟩, ⟨100, 0⟩, ⟨100, 100⟩, ⟨0, 0⟩⟩, ⟨false, (1, 1), ⟨0, 0⟩, ⟨4120, 20⟩, ⟨4120, 20⟩, ⟨4100, 4140⟩, ⟨0, 0⟩⟩,
    (1 + 20 / 4020, 1 - 20 / 4020), by decide +kernel, by decide +kernel, by decide +kernel, rfl,
    ⟨false, (1 + 20 / 4020, 1 - 20 / 4020), ⟨0, 0⟩, ⟨99, 0⟩, ⟨99, 0⟩, ⟨100, 99⟩, ⟨0, 0⟩⟩,
    ⟨false, (1 + 20 / 4020, 1 - 20 / 4020), ⟨0, 0⟩, ⟨4119, 0⟩, ⟨4119, 0⟩, ⟨4120, 4119⟩, ⟨0, 0⟩⟩, by decide +kernel, by decide +kernel⟩

/-- Without a drive (`wheel_calib 0`, or encoders that do not count) there is nothing to divide by. -/
theorem wheel_no_distance (p q : Polar) (g : ℚ × ℚ) (a : Int) (h : i32 (p.angle - q.angle) = some a) (hd : p.distance = q.distance) :
    wheelGains p q g = some none := by
  unfold wheelGains
  rw [h, hd]
  simp [i32]

/-- Finding: the gains are applied to the whole count of the encoders, so a change of the gains moves the odometry of a robot that stands still: the virtual angle
jumps by half of the difference of counts times changes of the gains (up to rounding), the virtual distance by half of their sum. -/
theorem gain_change_jumps {rs r q : Rs} {e : Wheels} (hi : rs.ignoreGain = false) (h : rs.update e = some r) (g : ℚ × ℚ)
    (hq : (setGains r g).update e = some q) :
    |((q.virtualEncoders.angle - r.virtualEncoders.angle : Int) : ℚ) - (e.right * (g.2 - rs.gain.2) - e.left * (g.1 - rs.gain.1)) / 2| < 3 ∧
    |((q.virtualEncoders.distance - r.virtualEncoders.distance : Int) : ℚ) - (e.right * (g.2 - rs.gain.2) + e.left * (g.1 - rs.gain.1)) / 2| < 3 := by
  obtain ⟨a1, a2, a3, a4, a5, a6⟩ := update_spec hi h
  obtain ⟨-, -, c3, c4, c5, c6⟩ := update_spec (rs := setGains r g) a1 hq
  dsimp only [setGains] at c3 c4 c5 c6
  have p1 : ((q.virtualEncoders.angle - r.virtualEncoders.angle : Int) : ℚ) = q.pextPrev.angle - r.pextPrev.angle := by
    have : q.virtualEncoders.angle - r.virtualEncoders.angle = q.pextPrev.angle - r.pextPrev.angle := by omega
    exact_mod_cast this
  have p2 : ((q.virtualEncoders.distance - r.virtualEncoders.distance : Int) : ℚ) = q.pextPrev.distance - r.pextPrev.distance := by
    have : q.virtualEncoders.distance - r.virtualEncoders.distance = q.pextPrev.distance - r.pextPrev.distance := by omega
    exact_mod_cast this
  rw [p1, p2]
  unfold exactAngle at a5 c5
  unfold exactDistance at a6 c6
  rw [abs_lt] at a5 a6 c5 c6
  constructor
  · rw [abs_lt]; constructor <;> linarith
  · rw [abs_lt]; constructor <;> linarith

/-- The order robot (162.97 steps per mm) after 10 m, with the calibrated gain of the left wheel changed from 1 to 1.00038814: it thinks that it has moved by about 2 mm
(and turned by as much) without having moved. -/
theorem gain_jump_example : ∃ r q, rsExample.update ⟨1629746, 1629746⟩ = some r ∧
    (setGains r (1 + 38814 / 100000000, 1)).update ⟨1629746, 1629746⟩ = some q ∧
    q.virtualEncoders = ⟨r.virtualEncoders.distance + 316, r.virtualEncoders.angle - 316⟩ :=
  ⟨⟨false, (1, 1), ⟨0, 0⟩, ⟨1629746, 0⟩, ⟨1629746, 0⟩, ⟨1629746, 1629746⟩, ⟨0, 0⟩⟩,
    ⟨false, (1 + 38814 / 100000000, 1), ⟨0, 0⟩, ⟨1630062, -316⟩, ⟨1630062, -316⟩, ⟨1630378, 1629746⟩, ⟨0, 0⟩⟩,
    by decide +kernel, by decide +kernel, by decide +kernel⟩

/-- With unchanged gains a robot that stands still stays where it is. -/
theorem same_gain_stays {rs r q : Rs} {e : Wheels} (h : rs.update e = some r) (hq : r.update e = some q) :
    q.virtualEncoders = r.virtualEncoders := by
  unfold Rs.update at h hq
  cases hw : rs.gains e with
  | none => rw [hw] at h; cases h
  | some w =>
    rw [hw] at h
    dsimp only at h
    cases hp : polarOfWheels w with
    | none => rw [hp] at h; cases h
    | some p =>
      rw [hp] at h
      dsimp only at h
      cases h1 : i32 (p.angle - rs.pextPrev.angle) with
      | none => rw [h1] at h; cases h
      | some da =>
        cases h2 : i32 (p.distance - rs.pextPrev.distance) with
        | none => rw [h1, h2] at h; cases h
        | some dd =>
          rw [h1, h2] at h
          dsimp only at h
          cases h3 : i32 (rs.virtualEncoders.angle + da) with
          | none => rw [h3] at h; cases h
          | some a =>
            cases h4 : i32 (rs.virtualEncoders.distance + dd) with
            | none => rw [h3, h4] at h; cases h
            | some d =>
              rw [h3, h4] at h
              obtain rfl := Option.some.inj h
              have hw' : Rs.gains { rs with virtualEncoders := ⟨d, a⟩, pextPrev := p, wextPrev := w } e = some w := hw
              rw [hw'] at hq
              dsimp only at hq
              rw [hp] at hq
              dsimp only at hq
              rw [Int.sub_self, Int.sub_self] at hq
              have z : i32 0 = some 0 := rfl
              rw [z] at hq
              dsimp only at hq
              rw [Int.add_zero, Int.add_zero] at hq
              cases k3 : i32 a with
              | none => rw [k3] at hq; cases hq
              | some a' =>
                cases k4 : i32 d with
                | none => rw [k3, k4] at hq; cases hq
                | some d' =>
                  rw [k3, k4] at hq
                  obtain rfl := Option.some.inj hq
                  rw [i32_eq k3, i32_eq k4]

/-! ## Track -/

/-- C111. If the robot has turned `n` times between the two visits to the wall, its true track is `T`, and the virtual angle is off by `e` impulses (rounding,
alignment), the suggested track is `T + e / (π n i)`: right up to an error that shrinks with the number of turns. The track in use must be close enough for
the angle measured to be off by less than half a turn in total; see `track_alias`. -/
theorem track_calibration (pi imp track T e : ℚ) (hpi : 0 < pi) (hi : 0 < imp) (ht : 0 < track) (n : Int) (hn : 0 < n) (start stop : Int)
    (hturn : ((stop - start : Int) : ℚ) = 2 * pi * n * (T / 2) * imp + e)
    (hclose : |2 * pi * n * (T - track) / 2 * imp + e| < pi * (imp * track / 2)) :
    trackCalib pi imp track n start stop = some (T + e / (pi * n * imp)) := by
  have hn' : (0 : ℚ) < n := by exact_mod_cast hn
  have hn1 : (1 : ℚ) ≤ n := by exact_mod_cast hn
  have hit : 0 < imp * track := mul_pos hi ht
  have hit2 : 0 < imp * track / 2 := by linarith
  unfold trackCalib
  rw [if_neg (ne_of_gt hit)]
  dsimp only
  have h2 : 2 * pi * (n : ℚ) ≠ 0 := by positivity
  rw [if_neg h2]
  have hx : posImp2rd imp track stop - posImp2rd imp track start = (2 * pi * n * (T / 2) * imp + e) / (imp * track / 2) := by
    rw [← hturn]; unfold posImp2rd; push_cast; ring
  rw [hx]
  generalize hX : (2 * pi * n * (T / 2) * imp + e) / (imp * track / 2) = X
  have hXm : X * (imp * track / 2) = 2 * pi * n * (T / 2) * imp + e := by rw [← hX]; field_simp
  have hd : |X - 2 * pi * n| < pi := by
    have : 2 * pi * n * (T - track) / 2 * imp + e = (X - 2 * pi * n) * (imp * track / 2) := by
      rw [sub_mul, hXm]; ring
    rw [this, abs_mul, abs_of_pos hit2] at hclose
    exact lt_of_mul_lt_mul_right hclose hit2.le
  rw [abs_lt] at hd
  have hpn : pi ≤ pi * n := by
    have := mul_le_mul_of_nonneg_left hn1 hpi.le
    linarith
  obtain ⟨hle, k, hk⟩ := Drive.angleDelta_partial pi hpi 0 X (by linarith)
  rw [zero_add] at hk
  rw [abs_le] at hle
  have hk' : k = -n := by
    have e1 : -(2 * pi) < 2 * pi * ((k + n : Int) : ℚ) := by push_cast; rw [mul_add]; linarith
    have e2 : 2 * pi * ((k + n : Int) : ℚ) < 2 * pi := by push_cast; rw [mul_add]; linarith
    have h2p : 0 < 2 * pi := by linarith
    have e3 : ((k + n : Int) : ℚ) < 1 := by
      by_contra h
      have := mul_le_mul_of_nonneg_left (not_lt.mp h) h2p.le
      linarith
    have e4 : (-1 : ℚ) < ((k + n : Int) : ℚ) := by
      by_contra h
      have := mul_le_mul_of_nonneg_left (not_lt.mp h) h2p.le
      linarith
    have e5 : k + n < 1 := by exact_mod_cast e3
    have e6 : -1 < k + n := by exact_mod_cast e4
    omega
  rw [hk, hk']
  congr 1
  have hX' : track * X * imp = 2 * pi * n * T * imp + 2 * e := by linarith
  have hpn0 : pi * n * imp ≠ 0 := by positivity
  push_cast
  have : track * (1 + (X + 2 * pi * -(n : ℚ)) / (2 * pi * n)) = track * X * imp / (2 * (pi * n * imp)) := by
    field_simp
    ring
  rw [this, hX']
  field_simp

/-- The hypotheses can be met (with π = 22/7): a true track of 203 mm, 202 in use, 7 turns, 100 impulses per mm, off by 3 impulses. -/
example : ((446603 - 0 : Int) : ℚ) = 2 * (22 / 7) * (7 : Int) * (203 / 2) * 100 + 3 ∧
    |2 * (22 / 7) * ((7 : Int) : ℚ) * (203 - 202) / 2 * 100 + 3| < 22 / 7 * (100 * 202 / 2) := by
  constructor <;> norm_num [abs_of_pos]

/-- Finding: if the track in use is so wrong that the angle is off by whole turns, the calibration finds nothing to correct. -/
theorem track_alias (pi imp track : ℚ) (hpi : 0 < pi) (hi : 0 < imp) (ht : 0 < track) (n m : Int) (hn : 0 < n) (hm : 0 ≤ n + m) (start stop : Int)
    (hturn : ((stop - start : Int) : ℚ) = 2 * pi * n * ((track * (1 + m / n)) / 2) * imp) :
    trackCalib pi imp track n start stop = some track := by
  have hn' : (0 : ℚ) < n := by exact_mod_cast hn
  have hit : 0 < imp * track := mul_pos hi ht
  have hm' : (0 : ℚ) ≤ n + m := by exact_mod_cast hm
  unfold trackCalib
  rw [if_neg (ne_of_gt hit)]
  dsimp only
  have h2 : 2 * pi * (n : ℚ) ≠ 0 := by positivity
  rw [if_neg h2]
  have hx : posImp2rd imp track stop - posImp2rd imp track start = 2 * pi * (n + m) := by
    have : posImp2rd imp track stop - posImp2rd imp track start = ((stop - start : Int) : ℚ) / (imp * track / 2) := by
      unfold posImp2rd; push_cast; ring
    rw [this, hturn]
    field_simp
  rw [hx]
  have hp : 0 ≤ 2 * pi * ((n : ℚ) + m) := by positivity
  obtain ⟨hle, k, hk⟩ := Drive.angleDelta_partial pi hpi 0 (2 * pi * (n + m)) (by linarith)
  rw [zero_add] at hk
  have hz : n + m + k = 0 := by
    have e : Drive.angleDelta pi 0 (2 * pi * (n + m)) = 2 * pi * ((n + m + k : Int) : ℚ) := by rw [hk]; push_cast; ring
    rw [e, abs_le] at hle
    have h2p : 0 < 2 * pi := by linarith
    have e3 : ((n + m + k : Int) : ℚ) < 1 := by
      by_contra h
      have := mul_le_mul_of_nonneg_left (not_lt.mp h) h2p.le
      linarith [hle.2]
    have e4 : (-1 : ℚ) < ((n + m + k : Int) : ℚ) := by
      by_contra h
      have := mul_le_mul_of_nonneg_left (not_lt.mp h) h2p.le
      linarith [hle.1]
    have e5 : n + m + k < 1 := by exact_mod_cast e3
    have e6 : -1 < n + m + k := by exact_mod_cast e4
    omega
  have e : Drive.angleDelta pi 0 (2 * pi * (n + m)) = 0 := by
    have : Drive.angleDelta pi 0 (2 * pi * (n + m)) = 2 * pi * ((n + m + k : Int) : ℚ) := by rw [hk]; push_cast; ring
    rw [this, hz]
    simp
  rw [e]
  simp

/-- The hypotheses can be met, far from the truth: 10 turns, 200 mm in use, 220 mm in truth (π = 22/7). -/
example : ((4840000 - 0 : Int) : ℚ) = 2 * (22 / 7) * (10 : Int) * ((200 * (1 + (1 : Int) / (10 : Int))) / 2) * 700 := by
  norm_num

/-- `track_calib 0`: division by zero -/
theorem track_no_turn (pi imp track : ℚ) (start stop : Int) : trackCalib pi imp track 0 start stop = none := by
  unfold trackCalib
  split
  · rfl
  · simp

/-! ## Parameters -/

variable {F : Type}

/-- A parameter is in use, or its change is marked or about to be marked. -/
def Follows (x : Par) (s : State F) : Prop := s.changed x = true ∨ 0 < s.setting x ∨ s.use x = s.val x

/-- C111. However other threads set parameters, between two bodies of the loop every parameter is in use or will be looked at. -/
theorem changes_kept {s s' : State F} {ts : List (List Par × List Ins)} (x : Par) (h0 : Follows x s)
    (hs : Steps (⟨[], pass⟩, s) (⟨[], ts⟩, s')) : Follows x s' := by
  have h : ∀ c d : Pc × State F, Kept x c.1 c.2 → Steps c d → Kept x d.1 d.2 := by
    intro c d hk hs
    induction hs with
    | refl => exact hk
    | tail _ h ih => exact kept_step ih h
  exact (h (⟨[], pass⟩, s) (⟨[], ts⟩, s') ⟨rfl, pass_ok x, h0⟩ hs).2.2

theorem run_quiet_val (l : List Ins) (s : State F) : (runBody l s).val = s.val := by
  induction l generalizing s with
  | nil => rfl
  | cons i l ih => exact (ih (i.act s)).trans (act_val s i)

/-- Which marks are left after a body -/
theorem run_changed (x : Par) (l : List Ins) (s : State F) : (runBody l s).changed x = (s.changed x && !l.contains (.clear x)) := by
  induction l generalizing s with
  | nil => simp [runBody]
  | cons i l ih =>
    have : runBody (i :: l) s = runBody l (i.act s) := rfl
    rw [this, ih]
    cases i with
    | clear y =>
      by_cases hy : x = y
      · subst hy
        simp [Ins.act, upd_same]
      · have : (Ins.clear x == Ins.clear y) = false := by simpa using hy
        simp only [Ins.act, List.contains_cons, this, Bool.false_or]
        rw [upd_other _ _ hy]
    | read y => simp [Ins.act]
    | apply y => simp [Ins.act]

/-- C111. A pass that nobody interrupts brings every parameter into use, and leaves no mark. -/
theorem pass_takes (s : State F) (h0 : ∀ x, Follows x s) (hq : ∀ x, s.setting x = 0) (x : Par) :
    (quiet pass s).use x = s.val x ∧ (quiet pass s).changed x = false := by
  have hf : ∀ x, s.changed x = true ∨ s.use x = s.val x := by
    intro x
    rcases h0 x with h | h | h
    · exact Or.inl h
    · rw [hq x] at h; omega
    · exact Or.inr h
  -- what one body does
  have key : ∀ (ps : List Par) (b : List Ins) (s : State F) (x : Par), (∀ x, s.changed x = true ∨ s.use x = s.val x) →
      ((x ∈ ps → b.contains (.clear x) = true ∧ (src x b (1, 0)).2 = 2) ∧ (x ∉ ps → b.contains (.clear x) = false ∧ (src x b (1, 0)).2 = 0)) →
      ((if ps.any s.changed then runBody b s else s).changed x = true ∨
        (if ps.any s.changed then runBody b s else s).use x = (if ps.any s.changed then runBody b s else s).val x) ∧
      (if ps.any s.changed then runBody b s else s).val = s.val ∧
      (x ∈ ps → (if ps.any s.changed then runBody b s else s).changed x = false) ∧
      (s.changed x = false → (if ps.any s.changed then runBody b s else s).changed x = false) := by
    intro ps b s x hf hb
    by_cases ha : ps.any s.changed = true
    · rw [if_pos ha, run_quiet_val, run_changed, use_run]
      refine ⟨?_, rfl, ?_, ?_⟩
      · by_cases hx : x ∈ ps
        · rw [(hb.1 hx).2]; exact Or.inr rfl
        · rw [(hb.2 hx).2, (hb.2 hx).1]
          rcases hf x with h | h
          · left; simp [h]
          · exact Or.inr h
      · intro hx; rw [(hb.1 hx).1]; simp
      · intro h; rw [h]; rfl
    · rw [if_neg ha]
      refine ⟨hf x, rfl, ?_, fun h => h⟩
      intro hx
      cases hc : s.changed x with
      | false => rfl
      | true => exact absurd (List.any_eq_true.mpr ⟨x, hx, hc⟩) ha
  have b1 : ∀ x, (x ∈ (pass.head!).1 → controlBody.contains (.clear x) = true ∧ (src x controlBody (1, 0)).2 = 2) ∧
      (x ∉ (pass.head!).1 → controlBody.contains (.clear x) = false ∧ (src x controlBody (1, 0)).2 = 0) := by
    intro x; cases x <;> decide
  have b2 : ∀ x, (x ∈ (pass.getLast!).1 → odometryBody.contains (.clear x) = true ∧ (src x odometryBody (1, 0)).2 = 2) ∧
      (x ∉ (pass.getLast!).1 → odometryBody.contains (.clear x) = false ∧ (src x odometryBody (1, 0)).2 = 0) := by
    intro x; cases x <;> decide
  have all : ∀ x, x ∈ (pass.head!).1 ∨ x ∈ (pass.getLast!).1 := by intro x; cases x <;> decide
  have e : quiet pass s = (let s1 := if (pass.head!).1.any s.changed then runBody controlBody s else s
      if (pass.getLast!).1.any s1.changed then runBody odometryBody s1 else s1) := rfl
  rw [e]
  dsimp only
  have k1 := fun x => key (pass.head!).1 controlBody s x hf (b1 x)
  generalize (if (pass.head!).1.any s.changed then runBody controlBody s else s) = s1 at k1 ⊢
  have k2 := key (pass.getLast!).1 odometryBody s1 x (fun x => (k1 x).1) (b2 x)
  generalize (if (pass.getLast!).1.any s1.changed then runBody odometryBody s1 else s1) = s2 at k2 ⊢
  have hc : s2.changed x = false := by
    rcases all x with h | h
    · exact k2.2.2.2 ((k1 x).2.2.1 h)
    · exact k2.2.2.1 h
  refine ⟨?_, hc⟩
  rcases k2.1 with h | h
  · rw [hc] at h; cases h
  · rw [h, k2.2.1, (k1 x).2.1]

/-- The state after `robot_init` (base_controller.cpp:47-58) satisfies the hypotheses: the odometry has been read, the gains of the controllers are those of `pid_init`
but all parameters are marked. -/
example (val : Par → F) (one zero infinity : F) (x : Par) :
    Follows x (⟨val, fun x => decide (x ∉ [Par.left, .right, .track, .ticks]), fun _ => 0, val,
      fun x => match x with
        | .angleKp | .distanceKp => one
        | .angleILimit | .distanceILimit => infinity
        | .angleKi | .angleKd | .distanceKi | .distanceKd => zero
        | x => val x⟩ : State F) := by
  cases x <;> first | exact Or.inl rfl | exact Or.inr (Or.inr rfl)

end Verif.Calib
