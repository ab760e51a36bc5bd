import Mathlib.Tactic.Linarith
import Mathlib.Tactic.Ring
import Mathlib.Tactic.FieldSimp
import Verif.Base.Props

/-!
# Commands to the base: properties
-/

namespace Verif.Base

open Quadramp (toI32 Qr)

/-! ## C76: relative commands -/

/-- What a relative command does: the position it starts from, and for each coordinate the impulses to move by; none leaves the coordinate alone. -/
structure Command (t t' : Traj) (d a : Option Int) : Prop where
  unscheduled : t'.scheduled = false
  distance : match d with
    | none => t'.csd = t.csd ∧ t'.pol.distance = t.pol.distance
    | some d => t'.csd = { t.csd with consign := t.rs.virtualEncoders.distance + d } ∧ t'.pol.distance = t.rs.virtualEncoders.distance + d
  angle : match a with
    | none => t'.csa = t.csa ∧ t'.pol.angle = t.pol.angle
    | some a => t'.csa = { t.csa with consign := t.rs.virtualEncoders.angle + a } ∧ t'.pol.angle = t.rs.virtualEncoders.angle + a
  robot : t'.rs = t.rs
  speeds : t'.qd.firstPos = |t.dSpeed| ∧ t'.qd.firstNeg = |t.dSpeed| ∧ t'.qa.firstPos = |t.aSpeed| ∧ t'.qa.firstNeg = |t.aSpeed| ∧
    t'.qd.secondPos = |t.dAcc| ∧ t'.qd.secondNeg = |t.dAcc| ∧ t'.qa.secondPos = |t.aAcc| ∧ t'.qa.secondNeg = |t.aAcc|

/-- The impulses of an update -/
def Upd.Is : Upd → Option Int → Prop
  | .none, n => n = Option.none
  | .reset, n => n = Option.some 0
  | .move q, n => ∃ k, n = Option.some k ∧ toI32 q = some k

theorem gotoDARel_spec {t t' : Traj} {s : TState} {d a : Upd} (h : t.gotoDARel s d a = some t') :
    ∃ kd ka, Command t t' kd ka ∧ t'.state = s ∧ d.Is kd ∧ a.Is ka := by
  have c : ∀ {u : Upd} {cur v : Int}, u.consign cur = some v → ∃ k, u.Is k ∧ ∀ j, k = some j → v = cur + j := by
    intro u cur v h
    cases u with
    | none => exact ⟨Option.none, rfl, fun j hj => by cases hj⟩
    | reset =>
      obtain ⟨rfl, -⟩ := i32_eq.mp h
      exact ⟨some 0, rfl, fun j hj => by cases hj; omega⟩
    | move q =>
      unfold Upd.consign at h
      simp only at h
      split at h
      · cases h
      · rename_i k hk
        obtain ⟨rfl, -⟩ := i32_eq.mp h
        exact ⟨some k, ⟨k, rfl, hk⟩, fun j hj => by cases hj; omega⟩
  unfold Traj.gotoDARel at h
  simp only at h
  split at h
  · cases h
  · rename_i ac hac
    obtain ⟨ka, ha, ha'⟩ := c hac
    split at h
    · cases h
    · rename_i dc hdc
      obtain ⟨kd, hd, hd'⟩ := c hdc
      refine ⟨kd, ka, ?_⟩
      have ed : t.deleteEvent.rs = t.rs := rfl
      cases h
      cases a with
      | none =>
        cases ha
        cases d with
        | none => cases hd; exact ⟨⟨rfl, ⟨rfl, rfl⟩, ⟨rfl, rfl⟩, rfl, ⟨rfl, rfl, rfl, rfl, rfl, rfl, rfl, rfl⟩⟩, rfl, rfl, rfl⟩
        | reset =>
          cases hd
          have := hd' 0 rfl
          subst this
          exact ⟨⟨rfl, ⟨rfl, rfl⟩, ⟨rfl, rfl⟩, rfl, ⟨rfl, rfl, rfl, rfl, rfl, rfl, rfl, rfl⟩⟩, rfl, rfl, rfl⟩
        | move q =>
          obtain ⟨k, rfl, hk⟩ := hd
          have := hd' k rfl
          subst this
          exact ⟨⟨rfl, ⟨rfl, rfl⟩, ⟨rfl, rfl⟩, rfl, ⟨rfl, rfl, rfl, rfl, rfl, rfl, rfl, rfl⟩⟩, rfl, ⟨k, rfl, hk⟩, rfl⟩
      | reset =>
        cases ha
        have := ha' 0 rfl
        subst this
        cases d with
        | none => cases hd; exact ⟨⟨rfl, ⟨rfl, rfl⟩, ⟨rfl, rfl⟩, rfl, ⟨rfl, rfl, rfl, rfl, rfl, rfl, rfl, rfl⟩⟩, rfl, rfl, rfl⟩
        | reset =>
          cases hd
          have := hd' 0 rfl
          subst this
          exact ⟨⟨rfl, ⟨rfl, rfl⟩, ⟨rfl, rfl⟩, rfl, ⟨rfl, rfl, rfl, rfl, rfl, rfl, rfl, rfl⟩⟩, rfl, rfl, rfl⟩
        | move q =>
          obtain ⟨k, rfl, hk⟩ := hd
          have := hd' k rfl
          subst this
          exact ⟨⟨rfl, ⟨rfl, rfl⟩, ⟨rfl, rfl⟩, rfl, ⟨rfl, rfl, rfl, rfl, rfl, rfl, rfl, rfl⟩⟩, rfl, ⟨k, rfl, hk⟩, rfl⟩
      | move p =>
        obtain ⟨j, rfl, hj⟩ := ha
        have := ha' j rfl
        subst this
        cases d with
        | none => cases hd; exact ⟨⟨rfl, ⟨rfl, rfl⟩, ⟨rfl, rfl⟩, rfl, ⟨rfl, rfl, rfl, rfl, rfl, rfl, rfl, rfl⟩⟩, rfl, rfl, ⟨j, rfl, hj⟩⟩
        | reset =>
          cases hd
          have := hd' 0 rfl
          subst this
          exact ⟨⟨rfl, ⟨rfl, rfl⟩, ⟨rfl, rfl⟩, rfl, ⟨rfl, rfl, rfl, rfl, rfl, rfl, rfl, rfl⟩⟩, rfl, rfl, ⟨j, rfl, hj⟩⟩
        | move q =>
          obtain ⟨k, rfl, hk⟩ := hd
          have := hd' k rfl
          subst this
          exact ⟨⟨rfl, ⟨rfl, rfl⟩, ⟨rfl, rfl⟩, rfl, ⟨rfl, rfl, rfl, rfl, rfl, rfl, rfl, rfl⟩⟩, rfl, ⟨k, rfl, hk⟩, ⟨j, rfl, hj⟩⟩

/-- A number of impulses for a length or an angle: the exact number rounded towards zero -/
def Impulses (k : Int) (q : ℚ) : Prop := |(k : ℚ) - q| < 1 ∧ (0 ≤ q → 0 ≤ k ∧ (k : ℚ) ≤ q) ∧ (q ≤ 0 → k ≤ 0 ∧ q ≤ (k : ℚ))

theorem toI32_impulses {q : ℚ} {k : Int} (h : toI32 q = some k) : Impulses k q := by
  unfold toI32 at h
  dsimp only at h
  by_cases hr : -2 ^ 31 ≤ (if 0 ≤ q then ⌊q⌋ else ⌈q⌉) ∧ (if 0 ≤ q then ⌊q⌋ else ⌈q⌉) < 2 ^ 31
  · rw [if_pos hr] at h
    cases h
    by_cases h0 : 0 ≤ q
    · rw [if_pos h0]
      have h1 := Int.floor_le q
      have h2 := Int.lt_floor_add_one q
      refine ⟨by rw [abs_lt]; constructor <;> linarith, fun _ => ⟨Int.floor_nonneg.mpr h0, h1⟩, fun hq => ?_⟩
      have : q = 0 := le_antisymm hq h0
      subst this
      simp
    · rw [if_neg h0]
      have h1 := Int.le_ceil q
      have h2 := Int.ceil_lt_add_one q
      refine ⟨by rw [abs_lt]; constructor <;> linarith, fun hq => absurd hq h0, fun hq => ⟨?_, h1⟩⟩
      exact Int.ceil_le.mpr (by push_cast; exact hq)
  · rw [if_neg hr] at h
    cases h

/-- C76: `trajectory_d_rel` moves by the distance and holds the angle at which the robot is. -/
theorem dRel_spec {t t' : Traj} {mm : ℚ} (h : t.dRel mm = some t') :
    ∃ k, Command t t' (some k) (some 0) ∧ t'.state = .d ∧ Impulses k (mm * t.impPerMm) := by
  obtain ⟨kd, ka, h1, h2, ⟨k, rfl, h3⟩, rfl⟩ := gotoDARel_spec h
  exact ⟨k, h1, h2, toI32_impulses h3⟩

/-- C76: `trajectory_only_d_rel` moves by the distance and leaves the angle controller alone. -/
theorem onlyDRel_spec {t t' : Traj} {mm : ℚ} (h : t.onlyDRel mm = some t') :
    ∃ k, Command t t' (some k) none ∧ t'.state = .d ∧ Impulses k (mm * t.impPerMm) := by
  obtain ⟨kd, ka, h1, h2, ⟨k, rfl, h3⟩, rfl⟩ := gotoDARel_spec h
  exact ⟨k, h1, h2, toI32_impulses h3⟩

/-- C76: `trajectory_a_rel` turns by the angle on the spot: one radian is half a track of each wheel. -/
theorem aRel_spec {t t' : Traj} {rad : ℚ} (h : t.aRel rad = some t') :
    ∃ k, Command t t' (some 0) (some k) ∧ t'.state = .a ∧ Impulses k (rad * (t.track / 2) * t.impPerMm) := by
  obtain ⟨kd, ka, h1, h2, rfl, ⟨k, rfl, h3⟩⟩ := gotoDARel_spec h
  refine ⟨k, h1, h2, ?_⟩
  have := toI32_impulses h3
  unfold Traj.angleImp at this
  rw [show rad * (t.track / 2) * t.impPerMm = rad * t.impPerMm * t.track / 2 by ring]
  exact this

/-- C76: `trajectory_only_a_rel` -/
theorem onlyARel_spec {t t' : Traj} {rad : ℚ} (h : t.onlyARel rad = some t') :
    ∃ k, Command t t' none (some k) ∧ t'.state = .a ∧ Impulses k (rad * (t.track / 2) * t.impPerMm) := by
  obtain ⟨kd, ka, h1, h2, rfl, ⟨k, rfl, h3⟩⟩ := gotoDARel_spec h
  refine ⟨k, h1, h2, ?_⟩
  have := toI32_impulses h3
  unfold Traj.angleImp at this
  rw [show rad * (t.track / 2) * t.impPerMm = rad * t.impPerMm * t.track / 2 by ring]
  exact this

/-- C76: `trajectory_d_a_rel` -/
theorem dARel_spec {t t' : Traj} {mm rad : ℚ} (h : t.dARel mm rad = some t') :
    ∃ k j, Command t t' (some k) (some j) ∧ t'.state = .ad ∧ Impulses k (mm * t.impPerMm) ∧ Impulses j (rad * (t.track / 2) * t.impPerMm) := by
  obtain ⟨kd, ka, h1, h2, ⟨k, rfl, h3⟩, ⟨j, rfl, h4⟩⟩ := gotoDARel_spec h
  refine ⟨k, j, h1, h2, toI32_impulses h3, ?_⟩
  have := toI32_impulses h4
  unfold Traj.angleImp at this
  rw [show rad * (t.track / 2) * t.impPerMm = rad * t.impPerMm * t.track / 2 by ring]
  exact this

/-- C76: `trajectory_stop` and `trajectory_hardstop` make the current position the target; the hard stop ends the ramps at once, the stop lets them run out. -/
theorem stop_spec {t t' : Traj} (h : t.stop = some t') :
    Command t t' (some 0) (some 0) ∧ t'.state = .ready ∧ t'.qd.out = t.qd.out ∧ t'.qd.var = t.qd.var ∧ t'.qa.out = t.qa.out ∧ t'.qa.var = t.qa.var := by
  obtain ⟨kd, ka, h1, h2, rfl, rfl⟩ := gotoDARel_spec h
  refine ⟨h1, h2, ?_⟩
  unfold Traj.stop Traj.gotoDARel at h
  simp only at h
  split at h
  · cases h
  · split at h
    · cases h
    · cases h; exact ⟨rfl, rfl, rfl, rfl⟩

/-- A robot for the examples: 100 impulses per mm, a track of 200 mm, and the virtual encoders at 500 and 70 -/
def sample : Traj where
  state := .ready
  scheduled := false
  pol := ⟨0, 0⟩
  cart := (0, 0)
  dWin := 10
  aWin := 1 / 10
  aStart := 1 / 2
  dSpeed := 6
  aSpeed := -3
  dAcc := 1
  aAcc := 1
  impPerMm := 100
  track := 200
  pos := (0, 0)
  qd := Qr.init
  qa := Qr.init
  csd := Cs.init
  csa := Cs.init
  rs := { Rs.init with virtualEncoders := ⟨500, 70⟩ }

example : (sample.dRel (1/3)).map (fun t => (t.csd.consign, t.csa.consign, t.pol, t.qa.firstPos)) = some (533, 70, ⟨533, 70⟩, 3) := by decide +kernel
example : (sample.aRel (1/2)).map (fun t => (t.csd.consign, t.csa.consign)) = some (500, 5070) := by decide +kernel
example : (sample.onlyARel (1/2)).map (fun t => (t.csd.consign, t.csa.consign)) = some (0, 5070) := by decide +kernel

/-- C76: a command to move by more than the range of the encoders is undefined. -/
theorem dRel_overflow : sample.dRel 30000000 = none := by decide +kernel

/-! ### Windows -/

/-- C76: in the states of relative commands, `trajectory_in_window` holds exactly if the robot is closer to the targets than the windows, in mm and radians. -/
theorem inWindow_spec (t : Traj) (dw aw : ℚ) (hi : 0 < t.impPerMm) (ht : 0 < t.track) :
    let dmm := ((t.pol.distance : ℚ) - t.rs.virtualEncoders.distance) / t.impPerMm
    let arad := ((t.pol.angle : ℚ) - t.rs.virtualEncoders.angle) / (t.impPerMm * (t.track / 2))
    (t.state = .d → (t.inWindow dw aw = true ↔ |dmm| < dw)) ∧ (t.state = .a → (t.inWindow dw aw = true ↔ |arad| < aw)) ∧
    (t.state = .ad → (t.inWindow dw aw = true ↔ |dmm| < dw ∧ |arad| < aw)) ∧
    (t.state = .ready → t.inWindow dw aw = false) := by
  intro dmm arad
  have hd : t.inDistWindow dw = true ↔ |dmm| < dw := by
    unfold Traj.inDistWindow
    rw [decide_eq_true_iff, show |dmm| = |(t.pol.distance : ℚ) - t.rs.virtualEncoders.distance| / t.impPerMm by rw [abs_div, abs_of_pos hi]]
  have ha : t.inAngleWindow aw = true ↔ |arad| < aw := by
    unfold Traj.inAngleWindow
    rw [decide_eq_true_iff, show arad = ((t.pol.angle : ℚ) - t.rs.virtualEncoders.angle) / t.impPerMm / t.track * 2 by
      have h1 := hi.ne'; have h2 := ht.ne'
      show _ / _ = _
      field_simp]
  unfold Traj.inWindow
  refine ⟨fun h => ?_, fun h => ?_, fun h => ?_, fun h => ?_⟩
  · rw [h]; exact hd
  · rw [h]; exact ha
  · rw [h]; simp only [Bool.and_eq_true]; rw [hd, ha]
  · rw [h]

/-- C76: going to a point, the window is the disc around it. -/
theorem inWindow_xy (t : Traj) (dw aw : ℚ) (h : t.state = .xyAngleOk ∨ t.state = .xyFAngleOk ∨ t.state = .xyBAngleOk) :
    t.inWindow dw aw = true ↔ 0 < dw ∧ (t.pos.1 - t.cart.1) ^ 2 + (t.pos.2 - t.cart.2) ^ 2 < dw ^ 2 := by
  have : t.inWindow dw aw = t.inXyWindow dw := by
    unfold Traj.inWindow
    rcases h with h | h | h <;> rw [h]
  rw [this]
  unfold Traj.inXyWindow
  rw [decide_eq_true_iff, sq, sq, sq]

/-- C76: the goal is near, for `trajectory_nearly_finished`, by the configured windows. -/
theorem nearlyFinished_spec (t : Traj) (hi : 0 < t.impPerMm) (ht : 0 < t.track) :
    let dmm := ((t.pol.distance : ℚ) - t.rs.virtualEncoders.distance) / t.impPerMm
    let arad := ((t.pol.angle : ℚ) - t.rs.virtualEncoders.angle) / (t.impPerMm * (t.track / 2))
    (t.state = .d → (t.nearlyFinished = true ↔ |dmm| < t.dWin)) ∧ (t.state = .a → (t.nearlyFinished = true ↔ |arad| < t.aWin)) ∧
    (t.state = .ad → (t.nearlyFinished = true ↔ |dmm| < t.dWin ∧ |arad| < t.aWin)) := by
  obtain ⟨h1, h2, h3, _⟩ := inWindow_spec t t.dWin t.aWin hi ht
  exact ⟨h1, h2, h3⟩

/-! ## C77: angles and units -/

/-- C77: `modulo_2pi` gives the same angle between -π and π, whatever the number of turns. -/
theorem modulo_spec {pi a r : ℚ} (hp : 0 < pi) (h : modulo pi a = some r) : -pi ≤ r ∧ r ≤ pi ∧ ∃ k : Int, a = r + k * (2 * pi) := by
  unfold modulo at h
  split at h
  · cases h
  · rename_i k hk
    cases h
    obtain ⟨h1, -, -⟩ := toI32_impulses hk
    rw [abs_lt] at h1
    have h2 : (2 * pi) * (a / (2 * pi)) = a := by field_simp
    have h3 : -(2 * pi) < a - k * (2 * pi) ∧ a - k * (2 * pi) < 2 * pi := by constructor <;> nlinarith
    generalize hb : a - k * (2 * pi) = b at h3
    have hab : a = b + k * (2 * pi) := by linarith
    unfold simpleModulo
    by_cases hlt : b < -pi
    · rw [if_pos hlt]
      exact ⟨by linarith, by linarith, k - 1, by push_cast; linarith⟩
    · rw [if_neg hlt]
      by_cases hgt : pi < b
      · rw [if_pos hgt]
        exact ⟨by linarith, by linarith, k + 1, by push_cast; linarith⟩
      · rw [if_neg hgt]
        exact ⟨by linarith, by linarith, k, hab⟩

/-- C77: it is defined for fewer than 2^31 turns. -/
theorem modulo_defined {pi a : ℚ} (hp : 0 < pi) (h : |a| < 2147483648 * (2 * pi)) : ∃ r, modulo pi a = some r := by
  have h2 : (2 * pi) * (a / (2 * pi)) = a := by field_simp
  rw [abs_lt] at h
  have hb : -2147483648 < a / (2 * pi) ∧ a / (2 * pi) < 2147483648 := by
    constructor
    · rw [lt_div_iff₀ (by linarith)]; linarith
    · rw [div_lt_iff₀ (by linarith)]; linarith
  unfold modulo toI32
  dsimp only
  generalize a / (2 * pi) = q at hb
  have : -2 ^ 31 ≤ (if 0 ≤ q then ⌊q⌋ else ⌈q⌉) ∧ (if 0 ≤ q then ⌊q⌋ else ⌈q⌉) < 2 ^ 31 := by
    by_cases h0 : 0 ≤ q
    · rw [if_pos h0]
      have := Int.floor_nonneg.mpr h0
      exact ⟨by omega, Int.floor_lt.mpr (by push_cast; linarith)⟩
    · rw [if_neg h0]
      have h1 : (-2147483648 : Int) ≤ ⌈q⌉ := by
        have := Int.le_ceil q
        have : ((-2147483648 : Int) : ℚ) < (⌈q⌉ : ℚ) := by push_cast; linarith
        exact le_of_lt (by exact_mod_cast this)
      have h3 : ⌈q⌉ ≤ 0 := Int.ceil_le.mpr (by push_cast; linarith)
      exact ⟨by omega, by omega⟩
  rw [if_pos this]
  exact ⟨_, rfl⟩

/-- C77: `simple_modulo_2pi` does this for the angles between -3π and 3π, and leaves those between -π and π. -/
theorem simpleModulo_spec {pi a : ℚ} (hp : 0 < pi) (h : |a| ≤ 3 * pi) :
    -pi ≤ simpleModulo pi a ∧ simpleModulo pi a ≤ pi ∧ (∃ k : Int, a = simpleModulo pi a + k * (2 * pi)) ∧ (|a| ≤ pi → simpleModulo pi a = a) := by
  rw [abs_le] at h
  unfold simpleModulo
  by_cases hlt : a < -pi
  · rw [if_pos hlt]
    exact ⟨by linarith, by linarith, ⟨-1, by push_cast; linarith⟩, fun h => by rw [abs_le] at h; linarith⟩
  · rw [if_neg hlt]
    by_cases hgt : pi < a
    · rw [if_pos hgt]
      exact ⟨by linarith, by linarith, ⟨1, by push_cast; linarith⟩, fun h => by rw [abs_le] at h; linarith⟩
    · rw [if_neg hgt]
      exact ⟨by linarith, by linarith, ⟨0, by push_cast; linarith⟩, fun _ => rfl⟩

/-- Beyond, it is not. -/
theorem simpleModulo_beyond : ¬ simpleModulo 3 10 ≤ 3 := by decide +kernel

example : modulo (314/100) 100 = some (100 - 16 * (628/100)) := by decide +kernel

/-- C77: the conversions between mm, radians and impulses are inverse to each other, for positions, speeds and accelerations. -/
theorem conversions {i tr hz : ℚ} (hi : i ≠ 0) (ht : tr ≠ 0) (hh : hz ≠ 0) (x : ℚ) :
    posImp2mm i (posMm2imp i x) = x ∧ posMm2imp i (posImp2mm i x) = x ∧
    speedImp2mm i hz (speedMm2imp i hz x) = x ∧ speedMm2imp i hz (speedImp2mm i hz x) = x ∧
    accImp2mm i hz (accMm2imp i hz x) = x ∧ accMm2imp i hz (accImp2mm i hz x) = x ∧
    posImp2rd i tr (posRd2imp i tr x) = x ∧ posRd2imp i tr (posImp2rd i tr x) = x ∧
    speedImp2rd i tr hz (speedRd2imp i tr hz x) = x ∧ speedRd2imp i tr hz (speedImp2rd i tr hz x) = x ∧
    accImp2rd i tr hz (accRd2imp i tr hz x) = x ∧ accRd2imp i tr hz (accImp2rd i tr hz x) = x := by
  unfold posImp2mm posMm2imp speedImp2mm speedMm2imp accImp2mm accMm2imp posImp2rd posRd2imp speedImp2rd speedRd2imp accImp2rd accRd2imp
  refine ⟨?_, ?_, ?_, ?_, ?_, ?_, ?_, ?_, ?_, ?_, ?_, ?_⟩ <;> field_simp

/-- C77: they fit together: a constant speed covers in a second (`hz` cycles) the converted distance; a constant acceleration gives in a second the converted speed,
and the angles are distances at half the track from the centre. -/
theorem conversions_fit {i tr hz : ℚ} (ht : tr ≠ 0) (hh : hz ≠ 0) (x : ℚ) :
    hz * speedMm2imp i hz x = posMm2imp i x ∧ hz * accMm2imp i hz x = speedMm2imp i hz x ∧
    hz * speedRd2imp i tr hz x = posRd2imp i tr x ∧ hz * accRd2imp i tr hz x = speedRd2imp i tr hz x ∧ posRd2imp i tr x = posMm2imp i (x * tr / 2) := by
  unfold speedMm2imp posMm2imp accMm2imp speedRd2imp posRd2imp accRd2imp
  refine ⟨?_, ?_, ?_, ?_, ?_⟩ <;> field_simp

/-! ## C78: going to a point -/

theorem xyTarget_spec {pi r theta a : ℚ} {s : TState} (hp : 0 < pi) (ht : |theta| ≤ pi) (ha : |a| ≤ pi) :
    |(xyTarget pi s r theta a).2| ≤ pi ∧
    (((xyTarget pi s r theta a).1 = r ∧ ∃ k : Int, theta - a = (xyTarget pi s r theta a).2 + k * (2 * pi)) ∨
     ((xyTarget pi s r theta a).1 = -r ∧ ∃ k : Int, theta - a + pi = (xyTarget pi s r theta a).2 + k * (2 * pi))) := by
  rw [abs_le] at ht ha
  obtain ⟨h1, h2, ⟨k, hk⟩, -⟩ := simpleModulo_spec (a := theta - a) hp (by rw [abs_le]; constructor <;> linarith)
  obtain ⟨h3, h4, ⟨j, hj⟩, -⟩ := simpleModulo_spec (a := simpleModulo pi (theta - a) + pi) hp (by rw [abs_le]; constructor <;> linarith)
  have fwd : |(r, simpleModulo pi (theta - a)).2| ≤ pi ∧ ((((r, simpleModulo pi (theta - a)) : ℚ × ℚ).1 = r ∧ ∃ k : Int, theta - a = ((r, simpleModulo pi (theta - a)) : ℚ × ℚ).2 + k * (2 * pi)) ∨
      (((r, simpleModulo pi (theta - a)) : ℚ × ℚ).1 = -r ∧ ∃ k : Int, theta - a + pi = ((r, simpleModulo pi (theta - a)) : ℚ × ℚ).2 + k * (2 * pi))) :=
    ⟨by rw [abs_le]; exact ⟨h1, h2⟩, .inl ⟨rfl, k, hk⟩⟩
  have bwd : |(-r, simpleModulo pi (simpleModulo pi (theta - a) + pi)).2| ≤ pi ∧
      ((((-r, simpleModulo pi (simpleModulo pi (theta - a) + pi)) : ℚ × ℚ).1 = r ∧ ∃ k : Int, theta - a = ((-r, simpleModulo pi (simpleModulo pi (theta - a) + pi)) : ℚ × ℚ).2 + k * (2 * pi)) ∨
      (((-r, simpleModulo pi (simpleModulo pi (theta - a) + pi)) : ℚ × ℚ).1 = -r ∧ ∃ k : Int, theta - a + pi = ((-r, simpleModulo pi (simpleModulo pi (theta - a) + pi)) : ℚ × ℚ).2 + k * (2 * pi))) :=
    ⟨by rw [abs_le]; exact ⟨h3, h4⟩, .inr ⟨rfl, k + j, by push_cast; show _ = simpleModulo pi (simpleModulo pi (theta - a) + pi) + _; linarith⟩⟩
  have both : ∀ c : Prop, [Decidable c] → (fun p : ℚ × ℚ => |p.2| ≤ pi ∧ ((p.1 = r ∧ ∃ k : Int, theta - a = p.2 + k * (2 * pi)) ∨ (p.1 = -r ∧ ∃ k : Int, theta - a + pi = p.2 + k * (2 * pi))))
      (if c then (-r, simpleModulo pi (simpleModulo pi (theta - a) + pi)) else (r, simpleModulo pi (theta - a))) := by
    intro c _
    by_cases h : c
    · rw [if_pos h]; exact bwd
    · rw [if_neg h]; exact fwd
  cases s <;> first | exact fwd | exact bwd | exact both _

/-- C78: going forward to a point the distance is never negative, going backward never positive; if both are allowed the robot turns by at most 93.6°. -/
theorem xyTarget_direction {pi r theta a : ℚ} (hp : 0 < pi) (hr : 0 ≤ r) (ht : |theta| ≤ pi) (ha : |a| ≤ pi) (s : TState) :
    (s ∈ [TState.xyFStart, .xyFAngle, .xyFAngleOk] → 0 ≤ (xyTarget pi s r theta a).1) ∧
    (s ∈ [TState.xyBStart, .xyBAngle, .xyBAngleOk] → (xyTarget pi s r theta a).1 ≤ 0) ∧
    (s ∈ [TState.xyStart, .xyAngle, .xyAngleOk] → |(xyTarget pi s r theta a).2| ≤ 52 / 100 * pi) := by
  refine ⟨fun hs => ?_, fun hs => ?_, fun hs => ?_⟩
  · simp only [List.mem_cons, List.not_mem_nil, or_false] at hs
    rcases hs with rfl | rfl | rfl <;> exact hr
  · simp only [List.mem_cons, List.not_mem_nil, or_false] at hs
    rcases hs with rfl | rfl | rfl <;> exact neg_nonpos.mpr hr
  · rw [abs_le] at ht ha
    obtain ⟨h1, h2, -, -⟩ := simpleModulo_spec (a := theta - a) hp (by rw [abs_le]; constructor <;> linarith)
    have key : |(if simpleModulo pi (theta - a) > 52 / 100 * pi ∨ simpleModulo pi (theta - a) < -(52 / 100) * pi
        then (-r, simpleModulo pi (simpleModulo pi (theta - a) + pi)) else (r, simpleModulo pi (theta - a)) : ℚ × ℚ).2| ≤ 52 / 100 * pi := by
      generalize simpleModulo pi (theta - a) = b at h1 h2
      split
      · rename_i hb
        show |simpleModulo pi (b + pi)| ≤ _
        unfold simpleModulo
        rcases hb with hb | hb
        · rw [if_neg (by linarith), if_pos (by linarith), abs_le]; constructor <;> linarith
        · rw [if_neg (by linarith), if_neg (by linarith), abs_le]; constructor <;> linarith
      · rename_i hb
        have hb' : ¬ b > 52 / 100 * pi ∧ ¬ b < -(52 / 100) * pi := not_or.mp hb
        show |b| ≤ _
        rw [abs_le]
        constructor <;> linarith [hb'.1, hb'.2]
    simp only [List.mem_cons, List.not_mem_nil, or_false] at hs
    rcases hs with rfl | rfl | rfl <;> exact key

/-- C78: one event of a trajectory to a point. The speed set is between 0 and the configured one, and 0 while the robot faces away by more than `a_start`. The state goes
from the start to the preliminary turn to the movement, in the same direction. The trajectory ends only within the window around the target, with the configured speed
set again; moving, it does end there. The targets sent to the controllers are the distance, and the angle times 2 / 2.2. -/
theorem xyEvent_spec {pi : ℚ} {t t' : Traj} {r theta a : ℚ} (hs : 0 < t.aStart) (hk : t.state.kind ≠ none) (hsch : t.scheduled = true)
    (h : t.xyEvent pi r theta a = some t') :
    let target := xyTarget pi t.state r theta a
    let near := 0 < t.dWin ∧ (t.pos.1 - t.cart.1) ^ 2 + (t.pos.2 - t.cart.2) ^ 2 < t.dWin ^ 2
    (0 ≤ t'.qd.firstPos ∧ t'.qd.firstPos ≤ |t.dSpeed| ∧ t'.qd.firstNeg = t'.qd.firstPos) ∧
    (t.aStart < |target.2| → t'.scheduled = true → t'.qd.firstPos = 0) ∧
    (t'.state = t.state ∨ t'.state = t.state.next) ∧
    (t'.scheduled = false → near ∧ t'.qd.firstPos = |t.dSpeed|) ∧
    (t.state.kind = some 2 → near → t'.scheduled = false) ∧
    (∃ k, Impulses k (target.1 * t.impPerMm) ∧ t'.csd.consign = t.rs.virtualEncoders.distance + k) ∧
    (∃ k, Impulses k (target.2 * (t.track / 2) * t.impPerMm * (2 / (22 / 10))) ∧ t'.csa.consign = t.rs.virtualEncoders.angle + k) := by
  intro target near
  unfold Traj.xyEvent at h
  rw [if_neg hk] at h
  simp only at h
  split at h
  · rename_i speed dc ac hsp hdc hac
    split at h
    · rename_i dc' ac' hdc' hac'
      obtain ⟨rfl, -⟩ := i32_eq.mp hdc'
      obtain ⟨rfl, -⟩ := i32_eq.mp hac'
      have hspeed : |speed| ≤ |t.dSpeed| ∧ (t.aStart < |target.2| → speed = 0) := by
        by_cases hgt : |target.2| > t.aStart
        · rw [if_pos hgt] at hsp
          cases hsp
          exact ⟨by rw [abs_zero]; exact abs_nonneg _, fun _ => rfl⟩
        · rw [if_neg hgt, if_neg hs.ne'] at hsp
          cases hsp
          refine ⟨?_, fun h => absurd h hgt⟩
          rw [abs_mul]
          have h0 : 0 ≤ (t.aStart - |target.2|) / t.aStart := div_nonneg (by linarith [not_lt.mp hgt]) hs.le
          have h1 : (t.aStart - |target.2|) / t.aStart ≤ 1 := by
            rw [div_le_one hs]
            linarith [abs_nonneg target.2]
          rw [abs_of_nonneg h0]
          exact mul_le_of_le_one_right (abs_nonneg _) h1
      have hnear : (t.setSpeed speed t.aSpeed).inXyWindow t.dWin = true ↔ near := by
        show decide (_ ∧ _) = true ↔ _
        rw [decide_eq_true_iff]
        show 0 < t.dWin ∧ (t.pos.1 - t.cart.1) * (t.pos.1 - t.cart.1) + (t.pos.2 - t.cart.2) * (t.pos.2 - t.cart.2) < t.dWin * t.dWin ↔ _
        rw [← sq, ← sq, ← sq]
      have hcd : ∃ k, Impulses k (target.1 * t.impPerMm) ∧ dc + t.rs.virtualEncoders.distance = t.rs.virtualEncoders.distance + k :=
        ⟨dc, toI32_impulses hdc, by omega⟩
      have hca : ∃ k, Impulses k (target.2 * (t.track / 2) * t.impPerMm * (2 / (22 / 10))) ∧ ac + t.rs.virtualEncoders.angle = t.rs.virtualEncoders.angle + k := by
        refine ⟨ac, ?_, by omega⟩
        have := toI32_impulses hac
        rw [show target.2 * (t.track / 2) * t.impPerMm * (2 / (22 / 10)) = target.2 * t.impPerMm * t.track / (22 / 10) by ring]
        exact this
      cases h
      have a1 : 0 ≤ |speed| := abs_nonneg _
      have a2 : 0 ≤ |t.dSpeed| := abs_nonneg _
      have e1 : (t.setSpeed speed t.aSpeed).state.kind = t.state.kind := rfl
      cases hkk : t.state.kind with
      | none => exact absurd hkk hk
      | some n =>
        have hn : n = 0 ∨ n = 1 ∨ n = 2 := by omega
        rcases hn with rfl | rfl | rfl
        · rw [e1, hkk]
          exact ⟨⟨a1, hspeed.1, rfl⟩, fun hh _ => by show |speed| = 0; rw [hspeed.2 hh, abs_zero], .inr rfl, (fun hh => by have hh : t.scheduled = false := hh; rw [hsch] at hh; cases hh),
            (fun hh => by cases hh), hcd, hca⟩
        · rw [e1, hkk]
          simp only
          by_cases hq : (t.setSpeed speed t.aSpeed).qd.firstPos ≠ 0
          · rw [if_pos hq]
            by_cases hw : (t.setSpeed speed t.aSpeed).inXyWindow t.dWin = true
            · have hw' : (t.setSpeed speed t.aSpeed).inXyWindow (t.setSpeed speed t.aSpeed).dWin = true := hw
              rw [if_pos hw']
              exact ⟨⟨a2, le_refl _, rfl⟩, (fun _ hh => by cases hh), .inr rfl, fun _ => ⟨hnear.mp hw, rfl⟩, (fun hh => by cases hh), hcd, hca⟩
            · have hw' : ¬ (t.setSpeed speed t.aSpeed).inXyWindow (t.setSpeed speed t.aSpeed).dWin = true := hw
              rw [if_neg hw']
              exact ⟨⟨a1, hspeed.1, rfl⟩, fun hh _ => by show |speed| = 0; rw [hspeed.2 hh, abs_zero], .inr rfl, (fun hh => by have hh : t.scheduled = false := hh; rw [hsch] at hh; cases hh),
                (fun hh => by cases hh), hcd, hca⟩
          · rw [if_neg hq]
            exact ⟨⟨a1, hspeed.1, rfl⟩, fun hh _ => by show |speed| = 0; rw [hspeed.2 hh, abs_zero], .inl rfl, (fun hh => by have hh : t.scheduled = false := hh; rw [hsch] at hh; cases hh),
              (fun hh => by cases hh), hcd, hca⟩
        · rw [e1, hkk]
          simp only
          by_cases hw : (t.setSpeed speed t.aSpeed).inXyWindow t.dWin = true
          · have hw' : (t.setSpeed speed t.aSpeed).inXyWindow (t.setSpeed speed t.aSpeed).dWin = true := hw
            rw [if_pos hw']
            exact ⟨⟨a2, le_refl _, rfl⟩, (fun _ hh => by cases hh), .inl rfl, fun _ => ⟨hnear.mp hw, rfl⟩, fun _ _ => rfl, hcd, hca⟩
          · have hw' : ¬ (t.setSpeed speed t.aSpeed).inXyWindow (t.setSpeed speed t.aSpeed).dWin = true := hw
            rw [if_neg hw']
            exact ⟨⟨a1, hspeed.1, rfl⟩, fun hh _ => by show |speed| = 0; rw [hspeed.2 hh, abs_zero], .inl rfl, (fun hh => by have hh : t.scheduled = false := hh; rw [hsch] at hh; cases hh),
              fun _ hn => absurd (hnear.mpr hn) hw, hcd, hca⟩
    · cases h
  · cases h

theorem xyEvent_frame {pi : ℚ} {t t' : Traj} {r theta a : ℚ} (hk : t.state.kind ≠ none) (h : t.xyEvent pi r theta a = some t') :
    t'.dSpeed = t.dSpeed ∧ t'.cart = t.cart ∧ t'.rs = t.rs ∧ t'.aStart = t.aStart := by
  unfold Traj.xyEvent at h
  rw [if_neg hk] at h
  simp only at h
  split at h
  · split at h
    · cases h
      split
      · exact ⟨rfl, rfl, rfl, rfl⟩
      · split
        · split <;> exact ⟨rfl, rfl, rfl, rfl⟩
        · exact ⟨rfl, rfl, rfl, rfl⟩
      · split <;> exact ⟨rfl, rfl, rfl, rfl⟩
    · cases h
  · cases h

/-- C78: a state of a trajectory to a point is followed by another one of the same direction, or the end of the preliminary turn is reached. -/
theorem next_kind (s : TState) (h : s.kind = some 0 ∨ s.kind = some 1) :
    s.next.kind = (if s.kind = some 0 then some 1 else some 2) ∧
    (s ∈ [TState.xyFStart, .xyFAngle] ↔ s.next ∈ [TState.xyFAngle, .xyFAngleOk]) ∧ (s ∈ [TState.xyBStart, .xyBAngle] ↔ s.next ∈ [TState.xyBAngle, .xyBAngleOk]) := by
  revert h
  cases s <;> decide

/-- The direction of a trajectory to a point -/
def TState.family : TState → Option (Fin 3)
  | .xyStart | .xyAngle | .xyAngleOk => some 0
  | .xyFStart | .xyFAngle | .xyFAngleOk => some 1
  | .xyBStart | .xyBAngle | .xyBAngleOk => some 2
  | _ => none

/-- The trajectory manager over time: before each event the robot is at some position with some values of the encoders, and the controllers may have changed -/
def xyRun (pi : ℚ) (t : Traj) : List (((ℚ × ℚ) × Rs × Cs × Cs) × (ℚ × ℚ × ℚ)) → Option Traj
  | [] => some t
  | ((pos, rs, csd, csa), (r, theta, a)) :: l =>
    match ({ t with pos, rs, csd, csa } : Traj).manageXy pi r theta a with
    | none => none
    | some t' => xyRun pi t' l

/-- C78: from `trajectory_goto_xy_abs` and its variants on, whatever the robot does, the direction stays as commanded and the speed set never exceeds the configured
one; the state is never one of the other kinds of trajectories. -/
theorem xyRun_spec {pi : ℚ} {t t' : Traj} {l : List (((ℚ × ℚ) × Rs × Cs × Cs) × (ℚ × ℚ × ℚ))} (hs : 0 < t.aStart) (hk : t.state.family ≠ none)
    (hq : t.qd.firstPos ≤ |t.dSpeed|) (h : xyRun pi t l = some t') :
    t'.state.family = t.state.family ∧ t'.qd.firstPos ≤ |t.dSpeed| ∧ t'.cart = t.cart ∧ t'.dSpeed = t.dSpeed := by
  induction l generalizing t with
  | nil => cases h; exact ⟨rfl, hq, rfl, rfl⟩
  | cons e l ih =>
    obtain ⟨⟨pos, rs, csd, csa⟩, r, theta, a⟩ := e
    unfold xyRun at h
    split at h
    · cases h
    · rename_i t1 h1
      unfold Traj.manageXy at h1
      split at h1
      · rename_i hc
        obtain ⟨hsch, hkind⟩ := hc
        obtain ⟨⟨-, b1, -⟩, -, b2, -, -, -, -⟩ := xyEvent_spec (t := { t with pos, rs, csd, csa }) hs hkind hsch h1
        have fr := xyEvent_frame hkind h1
        have hf : t1.state.family = t.state.family := by
          rcases b2 with e | e
          · rw [e]
          · rw [e]
            show t.state.next.family = t.state.family
            cases t.state <;> rfl
        obtain ⟨i1, i2, i3, i4⟩ := ih (t := t1) (by rw [fr.2.2.2]; exact hs) (by rw [hf]; exact hk) (by rw [fr.1]; exact b1) h
        exact ⟨by rw [i1, hf], by rw [fr.1] at i2; exact i2, by rw [i3, fr.2.1], by rw [i4, fr.1]⟩
      · cases h1
        exact ih (t := { t with pos, rs, csd, csa }) hs hk hq h

/-- C78: a command to go to a point takes effect with the next event: the controllers get the distance and the angle to be covered, and the trajectory can end only in the
window around the point of the command. -/
theorem goto_first {pi : ℚ} {t t' : Traj} {s : TState} {x y : ℚ} {pos : ℚ × ℚ} {rs : Rs} {csd csa : Cs} {r theta a : ℚ} (hs : 0 < t.aStart) (hk : s.kind = some 0)
    (h : ({ t.gotoXy s x y with pos, rs, csd, csa } : Traj).manageXy pi r theta a = some t') :
    t'.cart = (x, y) ∧ (t'.state = s ∨ t'.state = s.next) ∧ (t'.scheduled = false → 0 < t.dWin ∧ (pos.1 - x) ^ 2 + (pos.2 - y) ^ 2 < t.dWin ^ 2) ∧
    (∃ k, Impulses k ((xyTarget pi s r theta a).1 * t.impPerMm) ∧ t'.csd.consign = rs.virtualEncoders.distance + k) ∧
    (∃ k, Impulses k ((xyTarget pi s r theta a).2 * (t.track / 2) * t.impPerMm * (2 / (22 / 10))) ∧ t'.csa.consign = rs.virtualEncoders.angle + k) := by
  have hk' : ({ t.gotoXy s x y with pos, rs, csd, csa } : Traj).state.kind ≠ none := by
    show s.kind ≠ none
    rw [hk]
    nofun
  unfold Traj.manageXy at h
  rw [if_pos ⟨rfl, hk'⟩] at h
  obtain ⟨-, -, b2, b3, -, b5, b6⟩ := xyEvent_spec (t := { t.gotoXy s x y with pos, rs, csd, csa }) hs hk' rfl h
  obtain ⟨-, f2, -, -⟩ := xyEvent_frame (t := { t.gotoXy s x y with pos, rs, csd, csa }) hk' h
  exact ⟨f2, b2, fun hf => (b3 hf).1, b5, b6⟩

/-- C78: with `a_start` zero the speed can become 0 / 0, not a number. -/
theorem xyEvent_nan : ({ sample with state := .xyStart, scheduled := true, aStart := 0 }).xyEvent (314/100) 10 0 0 = none := by decide +kernel

example : (({ sample with state := .xyAngle, scheduled := true, cart := (100, 0) } : Traj).xyEvent (314/100) 100 (1/4) 0).map
    (fun t : Traj => (t.state, t.scheduled, t.qd.firstPos, t.csd.consign, t.csa.consign)) = some (.xyAngleOk, true, 3, 10500, 70 + 2272) := by decide +kernel

example : ∃ t', ({ sample.gotoXy .xyStart 100 50 with pos := (0, 0), rs := sample.rs, csd := sample.csd, csa := sample.csa } : Traj).manageXy (314/100) 100 (1/4) 0 = some t' ∧
    t'.cart = (100, 50) :=
  match h : ({ sample.gotoXy .xyStart 100 50 with pos := (0, 0), rs := sample.rs, csd := sample.csd, csa := sample.csa } : Traj).manageXy (314/100) 100 (1/4) 0 with
  | some t' => ⟨t', rfl, (goto_first (by decide +kernel) rfl h).1⟩
  | none => absurd (congrArg Option.isSome h) (by decide +kernel)

/-- Controllers that give the error as output -/
def unit : Pids Unit := ⟨fun _ e => some ((), e), fun _ e => some ((), e)⟩

def base : Base Unit := ⟨{ traj := { sample with rs := { sample.rs with gain := (1, 1) }, csa := { sample.csa with enabled := true }, csd := { sample.csd with enabled := true } }, angleBd := .init, distanceBd := .init, gameStart := none }, .angleDistance, (), ()⟩

/-- The hypotheses of `cycle_errors` hold for a round in which the wheels have moved. -/
example : ∃ b', base.cycle (fun x => x) unit ⟨100, 60⟩ = some b' ∧ b'.robot.traj.csd.error = b'.robot.traj.csd.filteredConsign - 80 :=
  match h : base.cycle (fun x => x) unit ⟨100, 60⟩ with
  | some b' => ⟨b', rfl, by
      obtain ⟨w, p, h1, h2, _, h4⟩ := cycle_errors rfl rfl rfl h
      have e1 : base.robot.traj.rs.gains ⟨100, 60⟩ = some ⟨100, 60⟩ := by decide +kernel
      rw [e1] at h1
      cases h1
      have e2 : polarOfWheels ⟨100, 60⟩ = some ⟨80, -20⟩ := by decide +kernel
      rw [e2] at h2
      cases h2
      exact h4⟩
  | none => absurd (congrArg Option.isSome h) (by decide +kernel)

end Verif.Base
