import Verif.Sim.Model
import Verif.Base.Props
import Verif.Quadramp.Props
import Mathlib.Tactic.Linarith
import Mathlib.Tactic.Ring
import Mathlib.Tactic.NormNum
import Mathlib.Tactic.FieldSimp
import Mathlib.Tactic.LinearCombination

/-!
# What the simulated robot does: property C135
-/

namespace Verif.Sim

open Base (Wheels Rs RsOp)
open Quadramp (toI32)

/-! ## Specification -/

namespace Spec

/-- The distance (m) along the heading -/
def forward (dt : ℚ) : List Body → ℚ
  | [] => 0
  | b :: bs => (b.vx * b.c + b.vy * b.s) * dt + forward dt bs

/-- The angle (rad) turned -/
def turned (dt : ℚ) : List Body → ℚ
  | [] => 0
  | b :: bs => b.w * dt + turned dt bs

/-- The direction of the heading is a unit vector. -/
def Upright (b : Body) : Prop := b.c ^ 2 + b.s ^ 2 = 1

/-- The speed along the heading, and to its left -/
def ahead (b : Body) : ℚ := b.vx * b.c + b.vy * b.s
def aside (b : Body) : ℚ := b.vy * b.c - b.vx * b.s

/-- Two points are nearer than `d`. -/
def near (x y x' y' d : ℚ) : Prop := (x - x') ^ 2 + (y - y') ^ 2 < d ^ 2

/-- The other colour -/
def other : Color → Color
  | .green => .red
  | .red => .green

end Spec

open Spec

/-! ## Encoders -/

theorem rounds_state (r : Robot) (bs : List Body) : (r.rounds bs).1.left = r.left + (forward (1 / 100) bs - r.size / 2 * turned (1 / 100) bs) ∧
    (r.rounds bs).1.right = r.right + (forward (1 / 100) bs + r.size / 2 * turned (1 / 100) bs) ∧ (r.rounds bs).1.size = r.size ∧ (r.rounds bs).1.ppm = r.ppm := by
  induction bs generalizing r with
  | nil => exact ⟨by simp only [Robot.rounds, forward, turned]; ring, by simp only [Robot.rounds, forward, turned]; ring, rfl, rfl⟩
  | cons b bs ih =>
    have h1 : (r.round b).1.left = r.left + ((b.vx * b.c + b.vy * b.s) * (1 / 100) - r.size / 2 * (b.w * (1 / 100))) := by
      simp only [Robot.round, Robot.accumulate, Body.loc]; ring
    have h2 : (r.round b).1.right = r.right + ((b.vx * b.c + b.vy * b.s) * (1 / 100) + r.size / 2 * (b.w * (1 / 100))) := by
      simp only [Robot.round, Robot.accumulate, Body.loc]; ring
    cases bs with
    | nil =>
      simp only [Robot.rounds, forward, turned]
      refine ⟨by rw [h1]; ring, by rw [h2]; ring, rfl, rfl⟩
    | cons b' bs =>
      obtain ⟨i1, i2, i3, i4⟩ := ih (r.round b).1
      have e : r.rounds (b :: b' :: bs) = (r.round b).1.rounds (b' :: bs) := rfl
      have hs : (r.round b).1.size = r.size := rfl
      rw [e, i1, i2, i3, i4, h1, h2, hs]
      refine ⟨?_, ?_, rfl, rfl⟩
      · simp only [forward, turned]; ring
      · simp only [forward, turned]; ring

theorem rounds_sent (r : Robot) (b : Body) (bs : List Body) :
    (r.rounds (b :: bs)).2 = (r.rounds (b :: bs)).1.encoders.bind fun e => (Base.i32 (-e.1)).map fun l => ⟨l, e.2⟩ := by
  induction bs generalizing r b with
  | nil => rfl
  | cons b' bs ih => exact ih (r.round b).1 b'

/-- C135: after any rounds, whatever the physics did, the encoders sent are the ways of the two wheels since the start, up to less than one pulse: rounding does not
add up. The left one counts backwards. -/
theorem encoders_sent {r : Robot} {bs : List Body} {w : Wheels} (hl : r.left = 0) (hr : r.right = 0) (h : (r.rounds bs).2 = some w) :
    |(-w.left : ℚ) - 1000 * r.ppm * (forward (1 / 100) bs - r.size / 2 * turned (1 / 100) bs)| < 1 ∧
    |(w.right : ℚ) - 1000 * r.ppm * (forward (1 / 100) bs + r.size / 2 * turned (1 / 100) bs)| < 1 := by
  cases bs with
  | nil =>
    cases h
    simp [forward, turned]
  | cons b bs =>
    rw [rounds_sent] at h
    obtain ⟨s1, s2, -, s4⟩ := rounds_state r (b :: bs)
    rw [hl, zero_add] at s1
    rw [hr, zero_add] at s2
    rw [← s1, ← s2]
    generalize (r.rounds (b :: bs)).1 = q at h s4
    unfold Robot.encoders at h
    rw [s4] at h
    cases e1 : toI32 (1000 * r.ppm * q.left) with
    | none => rw [e1] at h; cases h
    | some l =>
      cases e2 : toI32 (1000 * r.ppm * q.right) with
      | none => rw [e1, e2] at h; cases h
      | some rt =>
        rw [e1, e2] at h
        simp only [Option.bind_some] at h
        cases e3 : Base.i32 (-l) with
        | none => rw [e3] at h; cases h
        | some l' =>
          rw [e3] at h
          cases h
          obtain ⟨rfl, -⟩ := Base.i32_eq.mp e3
          dsimp only
          push_cast
          rw [neg_neg]
          exact ⟨(Quadramp.toI32_spec e1).1, (Quadramp.toI32_spec e2).1⟩

example : (hitl.rounds [{ c := 1, s := 0, vx := 1 / 2, vy := 0, w := 1, mass := 4, inertia := 1 }, { c := 1, s := 0, vx := 1 / 2, vy := 0, w := 0, mass := 4, inertia := 1 }]).2 =
    some ⟨-1448, 1791⟩ := by decide +kernel

/-! ## The odometry of the master in the simulation -/

/-- The sign that the left encoder gets in the simulation (config_simulation.yaml:12-13) undoes that of the simulators, so the virtual encoders of the master are
the ways in pulses. -/
theorem known {ops : List RsOp} {rs rs' : Rs} {w : Wheels} {d a : ℚ} (h : Rs.init.run ops = some rs) (hi : rs.ignoreGain = false) (hg : rs.gain = (-1, 1))
    (hl : |(-w.left : ℚ) - (d - a)| < 1) (hr : |(w.right : ℚ) - (d + a)| < 1) (hu : rs.update w = some rs') :
    |(rs'.virtualEncoders.distance : ℚ) - d| < 3 / 2 ∧ |(rs'.virtualEncoders.angle : ℚ) - a| < 3 / 2 := by
  obtain ⟨inv, hgain, -⟩ := Base.update_inv (Base.run_reads rs ops h).1 hu
  have hp := Base.polarOfWheels_spec inv.polar
  rw [← inv.enc] at hp
  rw [Base.gains_spec, hi, hg] at hgain
  simp only [Bool.false_eq_true, if_false] at hgain
  have h1 := (Quadramp.toI32_spec hgain.1).2.2.2 (-w.left) (by push_cast; ring)
  have h2 := (Quadramp.toI32_spec hgain.2).2.2.2 w.right (by push_cast; ring)
  rw [h1, h2] at hp
  generalize rs'.virtualEncoders = p at hp ⊢
  have k1 : -1 ≤ 2 * p.distance - (w.right + -w.left) ∧ 2 * p.distance - (w.right + -w.left) ≤ 1 := by omega
  have k2 : -1 ≤ 2 * p.angle - (w.right - -w.left) ∧ 2 * p.angle - (w.right - -w.left) ≤ 1 := by omega
  have q1 : (-1 : ℚ) ≤ 2 * p.distance - (w.right + -w.left) := by exact_mod_cast k1.1
  have q2 : 2 * (p.distance : ℚ) - (w.right + -w.left) ≤ 1 := by exact_mod_cast k1.2
  have q3 : (-1 : ℚ) ≤ 2 * p.angle - (w.right - -w.left) := by exact_mod_cast k2.1
  have q4 : 2 * (p.angle : ℚ) - (w.right - -w.left) ≤ 1 := by exact_mod_cast k2.2
  rw [abs_lt] at hl hr ⊢
  rw [abs_lt]
  refine ⟨⟨?_, ?_⟩, ?_, ?_⟩ <;> linarith [hl.1, hl.2, hr.1, hr.2]

/-- The heading that belongs to the virtual encoder of the angle (in `Verif.Base`, `angleImp`): rad, for a track in mm -/
def heading (ppm track : ℚ) (a : Int) : ℚ := a / (ppm * track / 2)

/-- C135: in the Box2D simulator the master knows the distance up to less than 1.5 pulses (0.01 mm) at any time. Its heading would be right with a track of 212 mm; the
track of config_simulation.yaml:11 is 174 mm, so it takes the robot's turns for 212/174 of what they are. -/
theorem hitl_odometry_partial {ops : List RsOp} {rs rs' : Rs} {w : Wheels} {bs : List Body} (h : Rs.init.run ops = some rs) (hi : rs.ignoreGain = false)
    (hg : rs.gain = (-1, 1)) (hs : (hitl.rounds bs).2 = some w) (hu : rs.update w = some rs') :
    |(rs'.virtualEncoders.distance : ℚ) / 162 - 1000 * forward (1 / 100) bs| < 1 / 100 ∧
    (∀ track : ℚ, 0 < track → |heading 162 track rs'.virtualEncoders.angle - 212 / track * turned (1 / 100) bs| < 2 / 100 / track) := by
  obtain ⟨e1, e2⟩ := encoders_sent (r := hitl) rfl rfl hs
  obtain ⟨k1, k2⟩ := known (d := 1000 * hitl.ppm * forward (1 / 100) bs) (a := 1000 * hitl.ppm * (hitl.size / 2 * turned (1 / 100) bs)) h hi hg
    (by rw [← mul_sub]; exact e1) (by rw [← mul_add]; exact e2) hu
  generalize forward (1 / 100) bs = f at k1 ⊢
  generalize turned (1 / 100) bs = t at k2 ⊢
  have c1 : hitl.ppm = 162 := rfl
  have c2 : hitl.size = 212 / 1000 := rfl
  rw [c1] at k1 k2
  rw [c2] at k2
  constructor
  · rw [abs_lt] at k1 ⊢
    constructor <;> linarith [k1.1, k1.2]
  · intro track ht
    unfold heading
    have e : (rs'.virtualEncoders.angle : ℚ) / (162 * track / 2) - 212 / track * t = ((rs'.virtualEncoders.angle : ℚ) - 1000 * 162 * (212 / 1000 / 2 * t)) / (81 * track) := by
      field_simp; ring
    rw [e, abs_div, abs_of_pos (by linarith : 0 < 81 * track), div_lt_div_iff₀ (by linarith) ht]
    nlinarith

/-- C135: in Webots the wheels are 87 mm from the middle (Robot2021.proto) and have a diameter of 37 mm. If they roll, the master knows distance and heading with
the track of the configuration. -/
theorem webots_odometry {ops : List RsOp} {rs rs' : Rs} {w : Wheels} {left right d φ : ℚ} (h : Rs.init.run ops = some rs) (hi : rs.ignoreGain = false)
    (hg : rs.gain = (-1, 1)) (rollsL : 37 / 2 * left = d - 87 * φ) (rollsR : 37 / 2 * right = d + 87 * φ) (hs : webotsEncoders left right = some w)
    (hu : rs.update w = some rs') :
    |(rs'.virtualEncoders.distance : ℚ) / 162 - d| < 1 / 100 ∧ |heading 162 174 rs'.virtualEncoders.angle - φ| < 2 / 100 / 174 := by
  unfold webotsEncoders at hs
  dsimp only at hs
  obtain ⟨l, e1, hs⟩ := Option.bind_eq_some_iff.mp hs
  obtain ⟨r, e2, hs⟩ := Option.bind_eq_some_iff.mp hs
  cases hs
  have s1 := abs_lt.mp (Quadramp.toI32_spec e1).1
  have s2 := abs_lt.mp (Quadramp.toI32_spec e2).1
  obtain ⟨k1, k2⟩ := known (d := 162 * d) (a := 162 * (87 * φ)) h hi hg (w := ⟨l, r⟩) (abs_lt.mpr ⟨by dsimp only; linarith [s1.1, s1.2], by dsimp only; linarith [s1.1, s1.2]⟩)
    (abs_lt.mpr ⟨by dsimp only; linarith [s2.1, s2.2], by dsimp only; linarith [s2.1, s2.2]⟩) hu
  rw [abs_lt] at k1 k2 ⊢
  unfold heading
  rw [abs_lt]
  refine ⟨⟨?_, ?_⟩, ?_, ?_⟩ <;> linarith [k1.1, k1.2, k2.1, k2.2]

example : (37 / 2 * 1 : ℚ) = 111 / 2 - 87 * (37 / 87) ∧ (37 / 2 * 5 : ℚ) = 111 / 2 + 87 * (37 / 87) ∧ webotsEncoders 1 5 = some ⟨-2997, 14985⟩ ∧
    (({ Rs.init with gain := (-1, 1) } : Rs).update ⟨-2997, 14985⟩).isSome = true :=
  ⟨by norm_num, by norm_num, by decide +kernel, by decide +kernel⟩

/-- The robot turns on the spot with 1 rad/s for one second, in the Box2D simulator. -/
def turning : List Body := List.replicate 100 { c := 1, s := 0, vx := 0, vy := 0, w := 1, mass := 4, inertia := 1 }

/-- C135 is false for the heading in the Box2D simulator: after one radian the master believes more than 1.2. -/
theorem hitl_heading_wrong : ∃ w rs rs', turned (1 / 100) turning = 1 ∧ (hitl.rounds turning).2 = some w ∧ Rs.init.run [.setGains false (-1) 1] = some rs ∧ rs.update w = some rs' ∧
    12 / 10 < heading 162 174 rs'.virtualEncoders.angle := by
  refine ⟨⟨17172, 17172⟩, { Rs.init with gain := (-1, 1) }, { Rs.init with gain := (-1, 1), virtualEncoders := ⟨0, 17172⟩, pextPrev := ⟨0, 17172⟩, wextPrev := ⟨-17172, 17172⟩ },
    by decide +kernel, by decide +kernel, rfl, by decide +kernel, by decide +kernel⟩

/-! ## Forces -/

/-- C135: the law of a robot with two wheels. After the forces of a round, a robot that touches nothing has no speed to the side, its speed ahead has changed by the sum of
the forces, its turning by their difference with the half track as lever. -/
theorem drive_law {b : Body} {size left right dt : ℚ} (hu : Upright b) (hm : b.mass ≠ 0) (hf : b.fx = 0 ∧ b.fy = 0 ∧ b.torque = 0) :
    let b' := (b.wheelForces size left right).free dt
    aside b' = 0 ∧ ahead b' = ahead b + dt * ((left + right) / b.mass) ∧ b'.w = b.w + dt * ((right - left) * (size / 2) / b.inertia) ∧
      b'.c = b.c ∧ b'.s = b.s ∧ b'.mass = b.mass ∧ b'.inertia = b.inertia ∧ b'.fx = 0 ∧ b'.fy = 0 ∧ b'.torque = 0 := by
  obtain ⟨h1, h2, h3⟩ := hf
  unfold Upright at hu
  have e1 : ∀ x : ℚ, b.mass * x / b.mass = x := fun x => by field_simp
  intro b'
  refine ⟨?_, ?_, ?_, rfl, rfl, rfl, rfl, rfl, rfl, rfl⟩
  · simp only [b', aside, Body.free, Body.wheelForces, Body.applyForce, Body.applyImpulse, Body.world, e1, h1, h2]
    linear_combination -(b.vy * b.c - b.vx * b.s) * hu
  · simp only [b', ahead, Body.free, Body.wheelForces, Body.applyForce, Body.applyImpulse, Body.world, e1, h1, h2]
    linear_combination (dt * ((left + right) / b.mass)) * hu
  · simp only [b', Body.free, Body.wheelForces, Body.applyForce, Body.applyImpulse, Body.world, h3]
    congr 2
    congr 1
    linear_combination ((right - left) * (size / 2)) * hu

example : Upright { c := 3 / 5, s := 4 / 5, vx := 1, vy := 2, w := 1, mass := 4, inertia := 1 } ∧
    aside { c := 3 / 5, s := 4 / 5, vx := 1, vy := 2, w := 1, mass := 4, inertia := 1 } = 2 / 5 := by
  constructor
  · unfold Upright; norm_num
  · unfold aside; norm_num

/-- C135 as far as it holds: voltages up to 8 V in the direction of driving ahead. The force is the voltage within ±8, the left one reversed. -/
theorem forces_partial {left right : ℚ} (hl : -8 ≤ left) (hr : right ≤ 8) : forces left right = (max (-8) (min (-left) 8), max (-8) (min right 8)) := by
  have key : ∀ v : ℚ, v ≤ 8 → clamp (-8) v 8 = max (-8) (min v 8) := by
    intro v hv
    unfold clamp
    rw [if_neg (by linarith), min_eq_left hv]
    split
    · rw [max_eq_left (by linarith)]
    · rw [max_eq_right (by linarith)]
  unfold forces
  rw [key _ (by linarith), key _ hr]

/-- What is written: above the maximum nothing is limited. -/
theorem clamp_spec (lo v hi : ℚ) (h : lo ≤ hi) : clamp lo v hi = max lo v := by
  unfold clamp
  split
  · rw [max_eq_right (by linarith)]
  · split
    · rw [max_eq_left (by linarith)]
    · rw [max_eq_right (by linarith)]

/-- C135 is false for the forces: backwards they are at most 8, ahead they are the voltage, whatever it is. -/
theorem force_unlimited (F : ℚ) (h : 8 < F) : forces (-F) F = (F, F) ∧ forces F (-F) = (-8, -8) := by
  unfold forces
  rw [clamp_spec _ _ _ (by norm_num), clamp_spec _ _ _ (by norm_num), clamp_spec _ _ _ (by norm_num), neg_neg,
    max_eq_right (by linarith), max_eq_left (by linarith)]
  exact ⟨rfl, rfl⟩

/-- C135: in both simulators a positive voltage makes the wheel's encoder count up: the left wheel is driven backwards and its encoder counts backwards. -/
theorem voltage_counts {u t : ℚ} (hu : 0 < u) (ht : 0 ≤ t) :
    (forces u u).1 < 0 ∧ 0 < (forces u u).2 ∧ webotsSpeed u (-1) < 0 ∧ 0 < webotsSpeed u 1 ∧
      ∀ w, webotsEncoders (t * webotsSpeed u (-1)) (t * webotsSpeed u 1) = some w → 0 ≤ w.left ∧ 0 ≤ w.right := by
  unfold forces
  rw [clamp_spec _ _ _ (by norm_num), clamp_spec _ _ _ (by norm_num)]
  have e : u / 10 * 10 = u := by ring
  have p : 0 < min (max u (-10)) 10 := lt_min (lt_max_of_lt_left hu) (by norm_num)
  have q1 : webotsSpeed u (-1) < 0 := by
    unfold webotsSpeed
    dsimp only
    rw [e]
    linarith
  have q2 : 0 < webotsSpeed u 1 := by
    unfold webotsSpeed
    dsimp only
    rw [e]
    linarith
  refine ⟨max_lt (by norm_num) (by linarith), lt_max_of_lt_right hu, q1, q2, fun w hw => ?_⟩
  unfold webotsEncoders at hw
  dsimp only at hw
  obtain ⟨l, e1, hw⟩ := Option.bind_eq_some_iff.mp hw
  obtain ⟨r, e2, hw⟩ := Option.bind_eq_some_iff.mp hw
  cases hw
  have m1 : 0 ≤ t * -webotsSpeed u (-1) := mul_nonneg ht (by linarith)
  have m2 : 0 ≤ t * webotsSpeed u 1 := mul_nonneg ht (by linarith)
  exact ⟨(Quadramp.toI32_spec e1).2.1 (by linarith), (Quadramp.toI32_spec e2).2.1 (by linarith)⟩

/-- C135: in Webots the speed of a wheel is 0.99 of the voltage, limited to 9.9 rad/s. -/
theorem webots_speed (u : ℚ) : |webotsSpeed u 1| ≤ 99 / 10 ∧ webotsSpeed u (-1) = -webotsSpeed u 1 ∧ webotsSpeed (-u) 1 = -webotsSpeed u 1 ∧
    (|u| ≤ 10 → webotsSpeed u 1 = 99 / 100 * u) ∧ (10 ≤ u → webotsSpeed u 1 = 99 / 10) := by
  have e : u / 10 * 10 = u := by ring
  have e' : -u / 10 * 10 = -u := by ring
  unfold webotsSpeed
  dsimp only
  rw [e, e']
  refine ⟨?_, by ring, ?_, ?_, ?_⟩
  · rw [abs_le]
    have h1 : min (max u (-10)) 10 ≤ 10 := min_le_right _ _
    have h2 : -10 ≤ min (max u (-10)) 10 := le_min (le_max_right _ _) (by norm_num)
    constructor <;> linarith
  · rcases le_total u (-10) with h | h
    · rw [max_eq_right h, max_eq_left (by linarith : -10 ≤ -u), min_eq_left (by norm_num : (-10 : ℚ) ≤ 10), min_eq_right (by linarith : (10 : ℚ) ≤ -u)]; ring
    · rcases le_total u 10 with h' | h'
      · rw [max_eq_left h, max_eq_left (by linarith), min_eq_left h', min_eq_left (by linarith)]; ring
      · rw [max_eq_left h, max_eq_right (by linarith), min_eq_right h', min_eq_left (by norm_num)]; ring
  · intro h
    obtain ⟨h1, h2⟩ := abs_le.mp h
    rw [max_eq_left h1, min_eq_left h2]; ring
  · intro h
    rw [max_eq_left (by linarith), min_eq_right h]; ring

/-! ## The table -/

theorem symmetry_spec (c : Cup) : (symmetry c).color = other c.color ∧ (symmetry c).x = 3 - c.x ∧ (symmetry c).y = c.y := by
  cases c with
  | mk k x y => cases k <;> exact ⟨rfl, rfl, rfl⟩

theorem symmetry_symmetry (c : Cup) : symmetry (symmetry c) = c := by
  cases c with
  | mk k x y => cases k <;> simp [symmetry]

/-- C135: both sides find the same table: mirrored and with the colours exchanged, the cups are the same cups; there are as many of each colour. -/
theorem cups_symmetric (init : List Cup) : ((cups init).map symmetry).Perm (cups init) ∧
    ((cups init).filter (·.color = .red)).length = ((cups init).filter (·.color = .green)).length := by
  have hid : (init.map symmetry).map symmetry = init := by
    rw [List.map_map]
    exact (List.map_congr_left (fun c _ => symmetry_symmetry c)).trans (List.map_id _)
  constructor
  · unfold cups
    rw [List.map_append, hid]
    exact List.perm_append_comm
  · unfold cups
    rw [List.filter_append, List.filter_append, List.length_append, List.length_append]
    clear hid
    induction init with
    | nil => rfl
    | cons c l ih =>
      have h1 := (symmetry_spec c).1
      cases hc : c.color <;> rw [hc] at h1 <;> simp only [other] at h1 <;>
        simp only [List.map_cons, List.filter_cons, hc, h1, decide_true, decide_false, if_true, reduceCtorEq, Bool.false_eq_true, if_false, List.length_cons] <;> omega

/-- C135: at the start the 24 cups are on the table, clear of each other, of the borders and of the dividers at its edge. -/
theorem cups_clear : (cups cupInit).length = 24 ∧
    (∀ c ∈ cups cupInit, cupRadius < c.x ∧ c.x < 3 - cupRadius ∧ cupRadius < c.y ∧ c.y < 2 - cupRadius) ∧
    (cups cupInit).Pairwise (fun c d => ¬ near c.x c.y d.x d.y (2 * cupRadius)) ∧
    (∀ c ∈ cups cupInit, ∀ b ∈ dividers, b.hx + cupRadius < |c.x - b.x| ∨ b.hy + cupRadius < |c.y - b.y|) := by
  have hn : ∀ a b c d e : ℚ, near a b c d e ↔ (a - c) ^ 2 + (b - d) ^ 2 < e ^ 2 := fun _ _ _ _ _ => Iff.rfl
  simp only [hn]
  refine ⟨by decide +kernel, by decide +kernel, by decide +kernel, by decide +kernel⟩

/-- C135: nothing leaves the table without meeting a border: the four borders are the strips along its edges. -/
theorem borders_edges (x y : ℚ) : (∃ b ∈ borders, |x - b.x| ≤ b.hx ∧ |y - b.y| ≤ b.hy) ↔
    (0 ≤ x ∧ x ≤ 3 ∧ (-2 / 10 ≤ y ∧ y ≤ 0 ∨ 2 ≤ y ∧ y ≤ 22 / 10)) ∨ (0 ≤ y ∧ y ≤ 2 ∧ (-2 / 10 ≤ x ∧ x ≤ 0 ∨ 3 ≤ x ∧ x ≤ 32 / 10)) := by
  simp only [borders, List.mem_cons, List.not_mem_nil, or_false, exists_eq_or_imp, exists_eq_left, abs_le]
  constructor
  · rintro (⟨⟨h1, h2⟩, h3, h4⟩ | ⟨⟨h1, h2⟩, h3, h4⟩ | ⟨⟨h1, h2⟩, h3, h4⟩ | ⟨⟨h1, h2⟩, h3, h4⟩)
    · exact Or.inl ⟨by linarith, by linarith, Or.inl ⟨by linarith, by linarith⟩⟩
    · exact Or.inl ⟨by linarith, by linarith, Or.inr ⟨by linarith, by linarith⟩⟩
    · exact Or.inr ⟨by linarith, by linarith, Or.inl ⟨by linarith, by linarith⟩⟩
    · exact Or.inr ⟨by linarith, by linarith, Or.inr ⟨by linarith, by linarith⟩⟩
  · rintro (⟨h1, h2, ⟨h3, h4⟩ | ⟨h3, h4⟩⟩ | ⟨h1, h2, ⟨h3, h4⟩ | ⟨h3, h4⟩⟩)
    · exact Or.inl ⟨⟨by linarith, by linarith⟩, by linarith, by linarith⟩
    · exact Or.inr (Or.inl ⟨⟨by linarith, by linarith⟩, by linarith, by linarith⟩)
    · exact Or.inr (Or.inr (Or.inl ⟨⟨by linarith, by linarith⟩, by linarith, by linarith⟩))
    · exact Or.inr (Or.inr (Or.inr ⟨⟨by linarith, by linarith⟩, by linarith, by linarith⟩))

/-- The divider in the middle is not on the table: its position is given in mm (main.cpp:131). -/
theorem divider_missing : ∃ b ∈ dividers, b.x = 3 / 2 ∧ ∀ x y : ℚ, |x - b.x| ≤ b.hx → |y - b.y| ≤ b.hy → 1800 < y := by
  refine ⟨⟨15 / 10, 1850, 22 / 1000 / 2, 150 / 1000⟩, by simp [dividers], by norm_num, fun x y _ hy => ?_⟩
  dsimp only at hy
  linarith [(abs_le.mp hy).1]

end Verif.Sim
