import Mathlib.Data.List.Induction
import Verif.Base.Model

/-!
# The wheeled base of the robot: properties
-/

namespace Verif.Base

open Quadramp (toI32 Qr)

theorem i32_eq {x y : Int} : i32 x = some y ↔ y = x ∧ -2147483648 ≤ x ∧ x < 2147483648 := by
  unfold i32
  constructor
  · intro h
    split at h
    · rename_i hx; cases h; exact ⟨rfl, hx.1, hx.2⟩
    · cases h
  · rintro ⟨rfl, h1, h2⟩
    exact if_pos ⟨h1, h2⟩

theorem i32_some {x : Int} (h1 : -2147483648 ≤ x) (h2 : x < 2147483648) : i32 x = some x := i32_eq.mpr ⟨rfl, h1, h2⟩

theorem i32_none {x : Int} : i32 x = none ↔ ¬ (-2147483648 ≤ x ∧ x < 2147483648) := by
  unfold i32
  constructor
  · intro h
    split at h
    · cases h
    · rename_i hx; exact hx
  · intro h; exact if_neg h

theorem tdiv2 (x : Int) : x.tdiv 2 = if 0 ≤ x then x / 2 else -((-x) / 2) := by
  split
  · rename_i h; exact Int.tdiv_eq_ediv_of_nonneg h
  · rename_i h
    have : x = -(-x) := by omega
    rw [this, Int.neg_tdiv, Int.tdiv_eq_ediv_of_nonneg (by omega), ← this]

/-! ## C54: wheels and polar coordinates -/

/-- Distance and angle are the half sum and the half difference of the wheels, rounded towards zero. -/
theorem polarOfWheels_spec {w : Wheels} {p : Polar} (h : polarOfWheels w = some p) :
    (w.right + w.left = 2 * p.distance ∨ (w.right + w.left = 2 * p.distance + 1 ∧ 0 ≤ p.distance) ∨ (w.right + w.left = 2 * p.distance - 1 ∧ p.distance ≤ 0)) ∧
    (w.right - w.left = 2 * p.angle ∨ (w.right - w.left = 2 * p.angle + 1 ∧ 0 ≤ p.angle) ∨ (w.right - w.left = 2 * p.angle - 1 ∧ p.angle ≤ 0)) := by
  unfold polarOfWheels at h
  split at h
  · rename_i s d hs hd
    obtain ⟨rfl, _, _⟩ := i32_eq.mp hs
    obtain ⟨rfl, _, _⟩ := i32_eq.mp hd
    cases h
    simp only [tdiv2]
    constructor
    · by_cases hh : 0 ≤ w.right + w.left
      · rw [if_pos hh]; omega
      · rw [if_neg hh]; omega
    · by_cases hh : 0 ≤ w.right - w.left
      · rw [if_pos hh]; omega
      · rw [if_neg hh]; omega
  · cases h

theorem polarOfWheels_ok {w : Wheels} : (∃ p, polarOfWheels w = some p) ↔
    -2147483648 ≤ w.right + w.left ∧ w.right + w.left < 2147483648 ∧ -2147483648 ≤ w.right - w.left ∧ w.right - w.left < 2147483648 := by
  constructor
  · rintro ⟨p, h⟩
    unfold polarOfWheels at h
    split at h
    · rename_i s d hs hd
      obtain ⟨rfl, _, _⟩ := i32_eq.mp hs
      obtain ⟨rfl, _, _⟩ := i32_eq.mp hd
      omega
    · cases h
  · rintro ⟨h1, h2, h3, h4⟩
    unfold polarOfWheels
    rw [i32_some h1 h2, i32_some h3 h4]
    exact ⟨_, rfl⟩

theorem wheelsOfPolar_eq {p : Polar} {w : Wheels} (h : wheelsOfPolar p = some w) : w.left = p.distance - p.angle ∧ w.right = p.distance + p.angle := by
  unfold wheelsOfPolar at h
  split at h
  · rename_i s d hs hd
    obtain ⟨rfl, _, _⟩ := i32_eq.mp hs
    obtain ⟨rfl, _, _⟩ := i32_eq.mp hd
    cases h
    exact ⟨rfl, rfl⟩
  · cases h

/-- C54: polar coordinates to wheels and back is the identity; with twice the distance or angle out of range the way back is undefined, never wrong. -/
theorem polar_wheels_polar {p : Polar} {w : Wheels} (h : wheelsOfPolar p = some w) :
    (∀ p', polarOfWheels w = some p' → p' = p) ∧
    (-1073741824 ≤ p.distance → p.distance < 1073741824 → -1073741824 ≤ p.angle → p.angle < 1073741824 → polarOfWheels w = some p) := by
  obtain ⟨h1, h2⟩ := wheelsOfPolar_eq h
  have key : ∀ p', polarOfWheels w = some p' → p' = p := by
    intro p' hp
    have := polarOfWheels_spec hp
    rw [h1, h2] at this
    obtain ⟨d, a⟩ := p
    obtain ⟨d', a'⟩ := p'
    simp only at this
    have e1 : d' = d := by omega
    have e2 : a' = a := by omega
    rw [e1, e2]
  refine ⟨key, fun a1 a2 a3 a4 => ?_⟩
  obtain ⟨p', hp⟩ := polarOfWheels_ok.mpr (show -2147483648 ≤ w.right + w.left ∧ _ by rw [h1, h2]; omega)
  rw [hp, key p' hp]

example : ∃ w, wheelsOfPolar ⟨1000, -37⟩ = some w ∧ polarOfWheels w = some ⟨1000, -37⟩ := ⟨_, rfl, by decide⟩

/-- C54: wheels to polar coordinates and back is defined and changes each wheel by at most one; nothing changes if the sum of the wheels is even. -/
theorem wheels_polar_wheels {w : Wheels} {p : Polar} (h : polarOfWheels w = some p) :
    ∃ w', wheelsOfPolar p = some w' ∧ (w.left - 1 ≤ w'.left ∧ w'.left ≤ w.left + 1) ∧ (w.right - 1 ≤ w'.right ∧ w'.right ≤ w.right + 1) ∧
      ((w.left + w.right) % 2 = 0 → w' = w) := by
  have hs := polarOfWheels_spec h
  have ho := polarOfWheels_ok.mp ⟨p, h⟩
  have : wheelsOfPolar p = some ⟨p.distance - p.angle, p.distance + p.angle⟩ := by
    unfold wheelsOfPolar
    rw [i32_some (by omega) (by omega), i32_some (by omega) (by omega)]
  refine ⟨_, this, ⟨by simp only; omega, by simp only; omega⟩, ⟨by simp only; omega, by simp only; omega⟩, fun he => ?_⟩
  obtain ⟨l, r⟩ := w
  simp only at hs he
  have e1 : p.distance - p.angle = l := by omega
  have e2 : p.distance + p.angle = r := by omega
  rw [e1, e2]

/-- The bound is reached. -/
theorem wheels_polar_wheels_rounds : ∃ p w', polarOfWheels ⟨1, 2⟩ = some p ∧ wheelsOfPolar p = some w' ∧ w' = ⟨1, 1⟩ := ⟨_, _, rfl, rfl, rfl⟩

/-! ### The robot system -/

/-- What can be done with a robot system -/
inductive RsOp where
  | update (enc : Wheels)
  | setAngle (a : Int)
  | setDistance (d : Int)
  | setGains (ignore : Bool) (left right : ℚ)

def Rs.op (rs : Rs) : RsOp → Option Rs
  | .update enc => rs.update enc
  | .setAngle a => rs.setAngle a
  | .setDistance d => rs.setDistance d
  | .setGains i l r => some { rs with ignoreGain := i, gain := (l, r) }

def Rs.run (rs : Rs) : List RsOp → Option Rs
  | [] => some rs
  | o :: os => match rs.op o with
    | none => none
    | some rs => rs.run os

/-- The last values of the encoders, with the gains that held when they were read; the encoders are at zero before. -/
inductive Reads : Bool × ℚ × ℚ → List RsOp → Bool × ℚ × ℚ → Wheels → Prop
  | nil (g) : Reads g [] g ⟨0, 0⟩
  | gains {g ops g' w} (i l r) (h : Reads g ops g' w) : Reads g (ops ++ [.setGains i l r]) (i, l, r) w
  | angle {g ops g' w} (a) (h : Reads g ops g' w) : Reads g (ops ++ [.setAngle a]) g' w
  | distance {g ops g' w} (d) (h : Reads g ops g' w) : Reads g (ops ++ [.setDistance d]) g' w
  /-- a value is scaled and rounded towards zero -/
  | update {g ops i l r w} (enc w' : Wheels) (h : Reads g ops (i, l, r) w)
      (hw : if i then w' = enc else toI32 (enc.left * l) = some w'.left ∧ toI32 (enc.right * r) = some w'.right) : Reads g (ops ++ [.update enc]) (i, l, r) w'

theorem run_append (rs : Rs) (os : List RsOp) (o : RsOp) : rs.run (os ++ [o]) = (rs.run os).bind (·.op o) := by
  induction os generalizing rs with
  | nil =>
    show (match rs.op o with | none => none | some rs => rs.run []) = rs.op o
    cases rs.op o <;> rfl
  | cons p os ih =>
    show (match rs.op p with | none => none | some rs => rs.run (os ++ [o])) = (match rs.op p with | none => none | some rs => rs.run os).bind _
    cases rs.op p with
    | none => rfl
    | some rs => exact ih rs

structure RsInv (rs : Rs) : Prop where
  enc : rs.virtualEncoders = rs.pextPrev
  polar : polarOfWheels rs.wextPrev = some rs.pextPrev
  pwm : wheelsOfPolar rs.virtualPwm = some rs.pwm

theorem rsInv_init : RsInv Rs.init := ⟨rfl, rfl, rfl⟩

theorem update_inv {rs rs' : Rs} {enc : Wheels} (hi : RsInv rs) (h : rs.update enc = some rs') :
    RsInv rs' ∧ rs.gains enc = some rs'.wextPrev ∧ rs'.gain = rs.gain ∧ rs'.ignoreGain = rs.ignoreGain ∧ rs'.virtualPwm = rs.virtualPwm ∧ rs'.pwm = rs.pwm := by
  unfold Rs.update at h
  split at h
  · cases h
  · rename_i wext hw
    split at h
    · cases h
    · rename_i pext hp
      split at h
      · rename_i da dd ha hd
        split at h
        · rename_i a d ha' hd'
          cases h
          obtain ⟨rfl, _, _⟩ := i32_eq.mp ha
          obtain ⟨rfl, _, _⟩ := i32_eq.mp hd
          obtain ⟨rfl, _, _⟩ := i32_eq.mp ha'
          obtain ⟨rfl, _, _⟩ := i32_eq.mp hd'
          refine ⟨⟨?_, hp, hi.pwm⟩, hw, rfl, rfl, rfl, rfl⟩
          show Polar.mk _ _ = pext
          rw [hi.enc]
          obtain ⟨d, a⟩ := pext
          simp only [Polar.mk.injEq]
          omega
        · cases h
      · cases h

theorem setAngle_inv {rs rs' : Rs} {a : Int} (hi : RsInv rs) (h : rs.setAngle a = some rs') :
    RsInv rs' ∧ rs'.virtualPwm = ⟨rs.virtualPwm.distance, a⟩ ∧ rs'.wextPrev = rs.wextPrev ∧ rs'.gain = rs.gain ∧ rs'.ignoreGain = rs.ignoreGain ∧
      rs'.virtualEncoders = rs.virtualEncoders ∧ rs'.pextPrev = rs.pextPrev := by
  unfold Rs.setAngle at h
  split at h
  · cases h
  · rename_i w hw
    cases h
    exact ⟨⟨hi.enc, hi.polar, hw⟩, rfl, rfl, rfl, rfl, rfl, rfl⟩

theorem setDistance_inv {rs rs' : Rs} {d : Int} (hi : RsInv rs) (h : rs.setDistance d = some rs') :
    RsInv rs' ∧ rs'.virtualPwm = ⟨d, rs.virtualPwm.angle⟩ ∧ rs'.wextPrev = rs.wextPrev ∧ rs'.gain = rs.gain ∧ rs'.ignoreGain = rs.ignoreGain ∧
      rs'.virtualEncoders = rs.virtualEncoders ∧ rs'.pextPrev = rs.pextPrev := by
  unfold Rs.setDistance at h
  split at h
  · cases h
  · rename_i w hw
    cases h
    exact ⟨⟨hi.enc, hi.polar, hw⟩, rfl, rfl, rfl, rfl, rfl, rfl⟩

theorem gains_spec {rs : Rs} {enc w : Wheels} : rs.gains enc = some w ↔
    if rs.ignoreGain then w = enc else toI32 (enc.left * rs.gain.1) = some w.left ∧ toI32 (enc.right * rs.gain.2) = some w.right := by
  unfold Rs.gains
  cases rs.ignoreGain with
  | true => simp only [if_true, Option.some.injEq]; exact ⟨Eq.symm, Eq.symm⟩
  | false =>
    simp only [Bool.false_eq_true, if_false]
    constructor
    · intro h
      split at h
      · rename_i l r hl hr; cases h; exact ⟨hl, hr⟩
      · cases h
    · rintro ⟨h1, h2⟩
      rw [h1, h2]

theorem run_reads (rs : Rs) (ops : List RsOp) (h0 : Rs.init.run ops = some rs) :
    RsInv rs ∧ Reads (false, 0, 0) ops (rs.ignoreGain, rs.gain.1, rs.gain.2) rs.wextPrev := by
  induction ops using List.reverseRecOn generalizing rs with
  | nil => cases h0; exact ⟨rsInv_init, .nil _⟩
  | append_singleton ops o ih =>
    rw [run_append] at h0
    cases h1 : Rs.init.run ops with
    | none => rw [h1] at h0; cases h0
    | some rs1 =>
      rw [h1] at h0
      obtain ⟨hi, hr⟩ := ih rs1 h1
      cases o with
      | update enc =>
        obtain ⟨a1, a2, a3, a4, -⟩ := update_inv hi h0
        rw [a3, a4]
        exact ⟨a1, .update enc _ hr (gains_spec.mp a2)⟩
      | setAngle a =>
        obtain ⟨a1, a2, a3, a4, a5, -⟩ := setAngle_inv hi h0
        rw [a3, a4, a5]
        exact ⟨a1, .angle a hr⟩
      | setDistance a =>
        obtain ⟨a1, a2, a3, a4, a5, -⟩ := setDistance_inv hi h0
        rw [a3, a4, a5]
        exact ⟨a1, .distance a hr⟩
      | setGains i l r =>
        cases h0
        exact ⟨⟨hi.enc, hi.polar, hi.pwm⟩, .gains i l r hr⟩

/-- C54: whatever was done with a robot system, its virtual encoders are the half sum and the half difference of what the (scaled) encoders have counted since
zero, up to one half: the rounding does not accumulate. -/
theorem virtual_encoders {ops : List RsOp} {rs : Rs} (h : Rs.init.run ops = some rs) :
    ∃ g w, Reads (false, 0, 0) ops g w ∧ |2 * rs.virtualEncoders.distance - (w.right + w.left)| ≤ 1 ∧ |2 * rs.virtualEncoders.angle - (w.right - w.left)| ≤ 1 := by
  obtain ⟨hi, hr⟩ := run_reads rs ops h
  refine ⟨_, _, hr, ?_⟩
  have := polarOfWheels_spec hi.polar
  rw [hi.enc, abs_le, abs_le]
  omega

/-- C54: the wheels always receive the last commands of distance and angle. -/
theorem wheels_commanded {ops : List RsOp} {rs : Rs} (h : Rs.init.run ops = some rs) :
    rs.pwm.left = rs.virtualPwm.distance - rs.virtualPwm.angle ∧ rs.pwm.right = rs.virtualPwm.distance + rs.virtualPwm.angle :=
  wheelsOfPolar_eq (run_reads rs ops h).1.pwm

/-- An update only fails if the scaled encoders, their sum or their difference are out of range. -/
theorem update_defined {ops : List RsOp} {rs : Rs} (h : Rs.init.run ops = some rs) {enc w : Wheels} (hg : rs.gains enc = some w)
    (hp : -2147483648 ≤ w.right + w.left ∧ w.right + w.left < 2147483648 ∧ -2147483648 ≤ w.right - w.left ∧ w.right - w.left < 2147483648) :
    ∃ rs', rs.update enc = some rs' := by
  obtain ⟨hi, -⟩ := run_reads rs ops h
  obtain ⟨p, hp'⟩ := polarOfWheels_ok.mpr hp
  have h1 := polarOfWheels_spec hp'
  have h2 := polarOfWheels_spec hi.polar
  have h3 := polarOfWheels_ok.mp ⟨_, hi.polar⟩
  unfold Rs.update
  rw [hg]
  simp only
  rw [hp']
  simp only
  rw [i32_some (by omega) (by omega), i32_some (by omega) (by omega)]
  simp only
  rw [hi.enc, i32_some (by omega) (by omega), i32_some (by omega) (by omega)]
  exact ⟨_, rfl⟩

example : (Rs.init.run [.setGains false 1 2, .update ⟨10, 7⟩, .setAngle 3, .update ⟨100, 51⟩, .setDistance 8]).map
    (fun rs => (rs.virtualEncoders, rs.pwm)) = some (⟨101, 1⟩, ⟨5, 11⟩) := by decide +kernel

/-- A change of the correction factor while running moves the robot in its own view: the encoders stand still, the virtual ones do not. -/
theorem gain_change_moves : ∃ rs1 rs2, Rs.init.run [.setGains false 1 1, .update ⟨10000, 10000⟩] = some rs1 ∧
    Rs.init.run [.setGains false 1 1, .update ⟨10000, 10000⟩, .setGains false (101/100) (101/100), .update ⟨10000, 10000⟩] = some rs2 ∧
    rs1.virtualEncoders.distance = 10000 ∧ rs2.virtualEncoders.distance = 10100 := by
  have h1 : (Rs.init.run [.setGains false 1 1, .update ⟨10000, 10000⟩]).map (·.virtualEncoders.distance) = some 10000 := by decide +kernel
  have h2 : (Rs.init.run [.setGains false 1 1, .update ⟨10000, 10000⟩, .setGains false (101/100) (101/100), .update ⟨10000, 10000⟩]).map
    (·.virtualEncoders.distance) = some 10100 := by decide +kernel
  obtain ⟨r1, e1, f1⟩ := Option.map_eq_some_iff.mp h1
  obtain ⟨r2, e2, f2⟩ := Option.map_eq_some_iff.mp h2
  exact ⟨r1, r2, e1, e2, f1, f2⟩

/-! ## C55: control systems -/

variable {W : Type}

/-- C55: a disabled control system sends 0 to the process and outputs 0, calls nothing else, and its other values stay. -/
theorem disabled_zero {fns : CsFns W} {cs cs' : Cs} {w w' : W} {c : Int} (hd : cs.enabled = false) (h : cs.doProcess fns w c = some (cs', w')) :
    cs'.out = 0 ∧ (∀ f, fns.processIn = some f → f w 0 = some w') ∧ (fns.processIn = none → w' = w) ∧
    cs'.enabled = false ∧ cs'.consign = cs.consign ∧ cs'.error = cs.error ∧ cs'.filteredConsign = cs.filteredConsign := by
  unfold Cs.doProcess at h
  rw [hd] at h
  simp only [Bool.false_eq_true, if_false] at h
  split at h
  · cases h
  · rename_i w1 hw
    cases h
    refine ⟨rfl, fun f hf => ?_, fun hn => ?_, rfl, rfl, rfl, rfl⟩
    · rw [hf] at hw; exact hw
    · rw [hn] at hw; cases hw; rfl

/-- Commands to a control system -/
inductive CsOp where
  | manage
  | setConsign (v : Int)
  | enable
  | disable

def Cs.op (fns : CsFns W) (s : Cs × W) : CsOp → Option (Cs × W)
  | .manage => s.1.manage fns s.2
  | .setConsign v => some (s.1.setConsign v, s.2)
  | .enable => some (s.1.enable, s.2)
  | .disable => some (s.1.disable, s.2)

def Cs.run (fns : CsFns W) (s : Cs × W) : List CsOp → Option (Cs × W)
  | [] => some s
  | o :: os => match Cs.op fns s o with
    | none => none
    | some s => Cs.run fns s os

theorem disabled_stays {fns : CsFns W} {ops : List CsOp} (he : ∀ o ∈ ops, o ≠ .enable) {cs cs' : Cs} {w w' : W} (hd : cs.enabled = false)
    (h : Cs.run fns (cs, w) ops = some (cs', w')) : cs'.enabled = false ∧ (cs.out = 0 ∨ CsOp.manage ∈ ops → cs'.out = 0) := by
  induction ops generalizing cs w with
  | nil =>
    cases h
    exact ⟨hd, fun h => h.resolve_right (fun h => by cases h)⟩
  | cons o ops ih =>
    unfold Cs.run at h
    have he' : ∀ o ∈ ops, o ≠ .enable := fun o ho => he o (List.mem_cons_of_mem _ ho)
    cases o with
    | manage =>
      cases hm : Cs.op fns (cs, w) .manage with
      | none => rw [hm] at h; cases h
      | some s =>
        obtain ⟨cs1, w1⟩ := s
        rw [hm] at h
        obtain ⟨h1, -, -, h4, -⟩ := disabled_zero hd hm
        obtain ⟨a1, a2⟩ := ih he' h4 h
        exact ⟨a1, fun _ => a2 (.inl h1)⟩
    | setConsign v =>
      obtain ⟨a1, a2⟩ := ih he' (cs := cs.setConsign v) hd h
      refine ⟨a1, fun hh => a2 ?_⟩
      rcases hh with hh | hh
      · exact .inl hh
      · rcases List.mem_cons.mp hh with hh | hh
        · cases hh
        · exact .inr hh
    | enable => exact absurd rfl (he _ (List.mem_cons_self ..))
    | disable =>
      obtain ⟨a1, a2⟩ := ih he' (cs := cs.disable) rfl h
      refine ⟨a1, fun hh => a2 ?_⟩
      rcases hh with hh | hh
      · exact .inl hh
      · rcases List.mem_cons.mp hh with hh | hh
        · cases hh
        · exact .inr hh

/-- C55: from the first cycle after it was disabled until it is enabled again, the output of a control system is 0. -/
theorem disabled_run {fns : CsFns W} {ops : List CsOp} (he : ∀ o ∈ ops, o ≠ .enable) {cs cs' : Cs} {w w' : W} (hm : CsOp.manage ∈ ops)
    (h : Cs.run fns (cs, w) (.disable :: ops) = some (cs', w')) : cs'.out = 0 := by
  exact (disabled_stays he (cs := cs.disable) rfl h).2 (.inr hm)

/-- Disabling alone changes no output: the process keeps the last one until the next cycle. -/
theorem disable_keeps_output (cs : Cs) : cs.disable.out = cs.out := rfl

/-- What a filter computes, if it changes nothing and cannot fail -/
def Computes (f : Option (W → Int → Option (W × Int))) (g : Int → Int) : Prop := match f with
  | none => ∀ v, g v = v
  | some f => ∀ w v, f w v = some (w, g v)

/-- C55: an enabled control system outputs the corrected difference of the filtered consign and the filtered feedback, where a filter that is absent is the
identity; this is what the process receives. -/
theorem enabled_law {fns : CsFns W} {cs : Cs} {w : W} {c fb : Int} (he : cs.enabled = true) {gc gf gk go : Int → Int}
    (hc : Computes fns.consignFilter gc) (hf : Computes fns.feedbackFilter gf) (hk : Computes fns.correctFilter gk) (ho : Computes fns.outputFilter go)
    (hfb : ∀ w, ∃ po, safeOut fns.processOut w = some (w, po) ∧ po = fb)
    (hr : -2147483648 ≤ gc c - gf fb ∧ gc c - gf fb < 2147483648) :
    cs.doProcess fns w c = (safeIn fns.processIn w (go (gk (gc c - gf fb)))).map fun w =>
      ({ consign := c, filteredConsign := gc c, filteredFeedback := gf fb, error := gc c - gf fb, out := go (gk (gc c - gf fb)), enabled := true }, w) := by
  have key : ∀ {f : Option (W → Int → Option (W × Int))} {g : Int → Int}, Computes f g → ∀ w v, safeFilter f w v = some (w, g v) := by
    intro f g h w v
    unfold Computes at h
    cases f with
    | none => simp only at h; rw [h v]; rfl
    | some f => exact h w v
  unfold Cs.doProcess
  rw [he]
  simp only [if_true, key hc]
  obtain ⟨po, h1, rfl⟩ := hfb w
  rw [h1]
  simp only [key hf]
  rw [i32_some hr.1 hr.2]
  simp only [key hk, key ho]
  cases safeIn fns.processIn w (go (gk (gc c - gf po))) <;> rfl

/-- C55: without any filters the output is the difference of consign and feedback. -/
theorem enabled_no_filters {p : W → Int → Option W} {cs : Cs} {w : W} {c fb : Int} (he : cs.enabled = true) (hr : -2147483648 ≤ c - fb ∧ c - fb < 2147483648) :
    cs.doProcess { processOut := some fun w => some (w, fb), processIn := some p } w c = (p w (c - fb)).map fun w =>
      ({ consign := c, filteredConsign := c, filteredFeedback := fb, error := c - fb, out := c - fb, enabled := true }, w) :=
  enabled_law (gc := id) (gf := id) (gk := id) (go := id) he (fun _ => rfl) (fun _ => rfl) (fun _ => rfl) (fun _ => rfl) (fun _ => ⟨fb, rfl, rfl⟩) hr

/-- The calls of the functions of a control system -/
inductive Call where
  | consign (v : Int)
  | read
  | feedback (v : Int)
  | correct (v : Int)
  | output (v : Int)
  | write (v : Int)
deriving DecidableEq

/-- Functions that record their calls; their results depend on everything called before. -/
def recording (r : List Call → Int) : CsFns (List Call) where
  consignFilter := some fun w v => some (w ++ [.consign v], r (w ++ [.consign v]))
  processOut := some fun w => some (w ++ [.read], r (w ++ [.read]))
  feedbackFilter := some fun w v => some (w ++ [.feedback v], r (w ++ [.feedback v]))
  correctFilter := some fun w v => some (w ++ [.correct v], r (w ++ [.correct v]))
  outputFilter := some fun w v => some (w ++ [.output v], r (w ++ [.output v]))
  processIn := some fun w v => some (w ++ [.write v])

/-- C55: each function is called once, in this order, with the result of the one before. -/
theorem calls {r : List Call → Int} {cs cs' : Cs} {w w' : List Call} {c : Int} (he : cs.enabled = true) (h : cs.doProcess (recording r) w c = some (cs', w')) :
    ∃ po fb k o : Int, w' = w ++ [.consign c, .read, .feedback po, .correct (cs'.filteredConsign - fb), .output k, .write o] ∧
      cs'.filteredConsign = r (w ++ [.consign c]) ∧ po = r (w ++ [.consign c, .read]) ∧ fb = r (w ++ [.consign c, .read, .feedback po]) ∧
      k = r (w ++ [.consign c, .read, .feedback po, .correct (cs'.filteredConsign - fb)]) ∧
      o = r (w ++ [.consign c, .read, .feedback po, .correct (cs'.filteredConsign - fb), .output k]) ∧
      cs'.out = o ∧ cs'.error = cs'.filteredConsign - fb ∧ cs'.filteredFeedback = fb ∧ cs'.consign = c := by
  unfold Cs.doProcess at h
  rw [he] at h
  simp only [recording, safeFilter, safeOut, safeIn, if_true, List.append_assoc, List.cons_append, List.nil_append] at h
  split at h
  · cases h
  · rename_i err herr
    obtain ⟨rfl, -⟩ := i32_eq.mp herr
    cases h
    exact ⟨_, _, _, _, rfl, rfl, rfl, rfl, rfl, rfl, rfl, rfl, rfl, rfl⟩

example : (Cs.init.doProcess (recording fun l => l.length) [] 7).map (·.2) =
    some [.consign 7, .read, .feedback 2, .correct (-2), .output 4, .write 5] := by decide

/-! ## C56: blocking detection -/

/-- What can be done with a blocking detection whose thresholds are set -/
inductive BdOp where
  | manage (err : BitVec 32)
  | reset
  | getMax

def Bd.op (bd : Bd) : BdOp → Bd
  | .manage e => bd.manage e
  | .reset => bd.reset
  | .getMax => bd.getMax.2

def Bd.run (bd : Bd) (ops : List BdOp) : Bd := ops.foldl Bd.op bd

/-- The errors managed since the last reset, the last one first -/
def sinceReset (ops : List BdOp) : List (BitVec 32) :=
  (ops.reverse.takeWhile fun o => match o with | .reset => false | _ => true).filterMap fun o => match o with | .manage e => some e | _ => none

/-- How many of the last managed errors exceeded the threshold since the last reset -/
def streak (thres : BitVec 32) (ops : List BdOp) : Nat := ((sinceReset ops).takeWhile fun e => decide (thres < e)).length

theorem streak_manage (t : BitVec 32) (ops : List BdOp) (e : BitVec 32) :
    streak t (ops ++ [.manage e]) = if t < e then streak t ops + 1 else 0 := by
  have h1 : sinceReset (ops ++ [.manage e]) = e :: sinceReset ops := by
    unfold sinceReset; rw [List.reverse_append]; rfl
  unfold streak
  rw [h1, List.takeWhile_cons]
  by_cases h : t < e
  · rw [if_pos h, if_pos (decide_eq_true h)]; rfl
  · rw [if_neg h, if_neg (by simpa using h)]; rfl

theorem streak_getMax (t : BitVec 32) (ops : List BdOp) : streak t (ops ++ [.getMax]) = streak t ops := by
  have h1 : sinceReset (ops ++ [.getMax]) = sinceReset ops := by unfold sinceReset; rw [List.reverse_append]; rfl
  unfold streak
  rw [h1]

theorem streak_reset (t : BitVec 32) (ops : List BdOp) : streak t (ops ++ [.reset]) = 0 := by
  have h1 : sinceReset (ops ++ [.reset]) = [] := by unfold sinceReset; rw [List.reverse_append]; rfl
  unfold streak
  rw [h1]; rfl

theorem manage_eq (bd : Bd) (ht : bd.errThres ≠ 0) (e : BitVec 32) :
    bd.manage e = ⟨bd.cptThres, if bd.errThres < e then bd.cpt + 1 else 0, bd.errThres, if bd.errMax < e then e else bd.errMax⟩ := by
  unfold Bd.manage
  rw [if_neg ht]
  by_cases h1 : bd.errMax < e <;> by_cases h2 : bd.errThres < e <;> simp only [h1, h2, if_true, if_false]

theorem bd_cpt {bd : Bd} (h0 : bd.cpt = 0) (ht : bd.errThres ≠ 0) (ops : List BdOp) :
    (bd.run ops).cpt = BitVec.ofNat 16 (streak bd.errThres ops) ∧ (bd.run ops).errThres = bd.errThres ∧ (bd.run ops).cptThres = bd.cptThres := by
  induction ops using List.reverseRecOn with
  | nil => exact ⟨h0, rfl, rfl⟩
  | append_singleton ops o ih =>
    obtain ⟨i1, i2, i3⟩ := ih
    have hr : bd.run (ops ++ [o]) = (bd.run ops).op o := by unfold Bd.run; rw [List.foldl_append]; rfl
    rw [hr]
    generalize bd.run ops = b at i1 i2 i3
    cases o with
    | manage e =>
      rw [streak_manage]
      show (b.manage e).cpt = _ ∧ (b.manage e).errThres = _ ∧ (b.manage e).cptThres = _
      rw [manage_eq b (by rw [i2]; exact ht)]
      refine ⟨?_, i2, i3⟩
      simp only [i2]
      by_cases he : bd.errThres < e
      · rw [if_pos he, if_pos he, BitVec.ofNat_add, i1]; rfl
      · rw [if_neg he, if_neg he]; rfl
    | reset => rw [streak_reset]; exact ⟨rfl, i2, i3⟩
    | getMax => rw [streak_getMax]; exact ⟨i1, i2, i3⟩

/-- C56, exactly what the code does: the number of errors in a row is only known modulo 2^16. -/
theorem bd_get_exact {bd : Bd} (h0 : bd.cpt = 0) (ht : bd.errThres ≠ 0) (ops : List BdOp) :
    (bd.run ops).get = true ↔ bd.cptThres ≠ 0 ∧ bd.cptThres.toNat ≤ streak bd.errThres ops % 65536 := by
  obtain ⟨h1, h2, h3⟩ := bd_cpt h0 ht ops
  unfold Bd.get
  rw [decide_eq_true_iff, h1, h3, BitVec.le_def, BitVec.toNat_ofNat]

/-- C56: blocking is reported exactly if the last `cpt_thres` errors, or more, exceeded the threshold since the last reset. Missing for the full property: rows of
65536 errors and more (about 18 minutes at 60 Hz), for which it is false, see `bd_lost`. -/
theorem bd_get_partial {bd : Bd} (h0 : bd.cpt = 0) (ht : bd.errThres ≠ 0) (ops : List BdOp) (hs : streak bd.errThres ops < 65536) :
    (bd.run ops).get = true ↔ bd.cptThres ≠ 0 ∧ bd.cptThres.toNat ≤ streak bd.errThres ops := by
  rw [bd_get_exact h0 ht, Nat.mod_eq_of_lt hs]

theorem streak_replicate (t e : BitVec 32) (h : t < e) (n : Nat) : streak t (List.replicate n (.manage e)) = n := by
  induction n with
  | zero => rfl
  | succ n ih => rw [List.replicate_succ', streak_manage, if_pos h, ih]

/-- The full property is false: after 65536 blocked cycles in a row no blocking is reported. -/
theorem bd_lost : ∃ ops : List BdOp, streak 15000#32 ops = 65536 ∧ ((Bd.init.setThresholds 15000#32 1#16).run ops).get = false := by
  refine ⟨List.replicate 65536 (.manage 20000#32), streak_replicate _ _ (by decide) _, ?_⟩
  rw [← Bool.not_eq_true, bd_get_exact rfl (by decide)]
  rw [show (Bd.init.setThresholds 15000#32 1#16).errThres = 15000#32 from rfl, streak_replicate _ _ (by decide)]
  rintro ⟨-, h⟩
  exact absurd h (by decide)

/-- A threshold of 0 disables the detection; the counter does not change. -/
theorem bd_disabled (bd : Bd) (h : bd.errThres = 0) (e : BitVec 32) : bd.manage e = bd := by
  unfold Bd.manage
  rw [if_pos h]

example : ((Bd.init.setThresholds 15000#32 2#16).run [.manage 20000#32, .getMax, .manage 15001#32]).get = true := by decide
example : ((Bd.init.setThresholds 15000#32 2#16).run [.manage 20000#32, .reset, .manage 15001#32]).get = false := by decide

/-- The errors managed since the maximum was last read -/
def sinceMax (ops : List BdOp) : List (BitVec 32) :=
  (ops.reverse.takeWhile fun o => match o with | .getMax => false | _ => true).filterMap fun o => match o with | .manage e => some e | _ => none

/-- C56: `err_max` is the largest of the errors since it was last read, 0 without any. -/
theorem bd_max {bd : Bd} (h0 : bd.errMax = 0) (ht : bd.errThres ≠ 0) (ops : List BdOp) :
    (∀ e ∈ sinceMax ops, e.toNat ≤ (bd.run ops).errMax.toNat) ∧ ((bd.run ops).errMax ∈ sinceMax ops ∨ (bd.run ops).errMax = 0) := by
  have hthr : ∀ ops, (bd.run ops).errThres = bd.errThres := by
    intro ops
    induction ops using List.reverseRecOn with
    | nil => rfl
    | append_singleton ops o ih =>
      have hr : bd.run (ops ++ [o]) = (bd.run ops).op o := by unfold Bd.run; rw [List.foldl_append]; rfl
      rw [hr, ← ih]
      cases o with
      | manage e =>
        show ((bd.run ops).manage e).errThres = _
        rw [manage_eq _ (by rw [ih]; exact ht)]
      | reset => rfl
      | getMax => rfl
  induction ops using List.reverseRecOn with
  | nil => exact ⟨(fun e he => by cases he), .inr h0⟩
  | append_singleton ops o ih =>
    have hr : bd.run (ops ++ [o]) = (bd.run ops).op o := by unfold Bd.run; rw [List.foldl_append]; rfl
    have hth := hthr ops
    rw [hr]
    generalize bd.run ops = b at ih hth
    cases o with
    | manage e =>
      have hs : sinceMax (ops ++ [.manage e]) = e :: sinceMax ops := by unfold sinceMax; rw [List.reverse_append]; rfl
      have hm : (b.op (.manage e)).errMax = if b.errMax < e then e else b.errMax := by
        show (b.manage e).errMax = _
        rw [manage_eq _ (by rw [hth]; exact ht)]
      rw [hs, hm]
      by_cases hlt : b.errMax < e
      · rw [if_pos hlt]
        have hn := BitVec.lt_def.mp hlt
        refine ⟨fun x hx => ?_, .inl (List.mem_cons_self ..)⟩
        rcases List.mem_cons.mp hx with rfl | hx
        · exact Nat.le_refl _
        · exact Nat.le_of_lt (Nat.lt_of_le_of_lt (ih.1 x hx) hn)
      · rw [if_neg hlt]
        have hn : ¬ b.errMax.toNat < e.toNat := fun h => hlt (BitVec.lt_def.mpr h)
        refine ⟨fun x hx => ?_, ?_⟩
        · rcases List.mem_cons.mp hx with rfl | hx
          · omega
          · exact ih.1 x hx
        · exact ih.2.imp (List.mem_cons_of_mem _) id
    | reset =>
      have hs : sinceMax (ops ++ [.reset]) = sinceMax ops := by unfold sinceMax; rw [List.reverse_append]; rfl
      rw [hs]; exact ih
    | getMax =>
      have hs : sinceMax (ops ++ [.getMax]) = [] := by unfold sinceMax; rw [List.reverse_append]; rfl
      rw [hs]; exact ⟨(fun e he => by cases he), .inr rfl⟩

/-- C56: `bd_get_max` returns the maximum, if it fits an `int32_t`, and starts a new one. -/
theorem bd_getMax {bd : Bd} (h : bd.errMax.toNat < 2147483648) : bd.getMax.1 = bd.errMax.toNat ∧ bd.getMax.2.errMax = 0 := by
  refine ⟨?_, rfl⟩
  show bd.errMax.toInt = _
  rw [BitVec.toInt_eq_toNat_cond]
  rw [if_pos (by omega)]

/-- Errors from 2^31 on come out negative. -/
theorem bd_getMax_negative : ((Bd.init.setThresholds 1#32 1#16).manage 0x80000000#32).getMax.1 = -2147483648 := by decide

/-! ## C57: end of trajectories -/

/-- The conditions of the reasons -/
def Robot.Holds (r : Robot) (now : Int) (reason : BitVec 32) : Prop :=
  (reason = GOAL_REACHED ∧ r.traj.finished = true) ∨
  (reason = NEAR_GOAL ∧ r.traj.nearlyFinished = true) ∨
  (reason = COLLISION ∧ (r.angleBd.get = true ∨ r.distanceBd.get = true)) ∨
  (reason = TIMER ∧ ∃ s, r.gameStart = some s ∧ 100 ≤ getTime (some s) now)

/-- C57: the condition of the goal: both ramps have reached their targets, on the curve of a clitoid only that of the angle. -/
theorem finished_spec (t : Traj) :
    t.finished = true ↔ t.csa.filteredConsign = t.csa.consign ∧ (t.state = .clitoidCurve ∨ t.csd.filteredConsign = t.csd.consign) := by
  unfold Traj.finished
  rw [Bool.and_eq_true, decide_eq_true_iff]
  by_cases h : t.state = .clitoidCurve
  · rw [if_pos h]
    exact ⟨fun h' => ⟨h'.2.symm, .inl h⟩, fun h' => ⟨rfl, h'.1.symm⟩⟩
  · rw [if_neg h, decide_eq_true_iff]
    exact ⟨fun h' => ⟨h'.2.symm, .inr h'.1.symm⟩, fun h' => ⟨(h'.2.resolve_left h).symm, h'.1.symm⟩⟩

theorem gameHasEnded_iff (start : Option Int) (now : Int) : gameHasEnded start now = true ↔ ∃ s, start = some s ∧ 100 ≤ getTime (some s) now := by
  unfold gameHasEnded
  rw [decide_eq_true_iff]
  cases start with
  | none => exact ⟨fun h => absurd h (show ¬ (100 : Int) ≤ 0 by decide), fun ⟨_, h, _⟩ => by cases h⟩
  | some s => exact ⟨fun h => ⟨s, rfl, h⟩, fun ⟨_, h, h'⟩ => by cases h; exact h'⟩

theorem and_reason {w r : BitVec 32} (h : w &&& r ≠ 0) : w &&& r ≠ 0 ∧ r ≠ 0 := ⟨h, fun h0 => h (by rw [h0]; simp)⟩

/-- C57: a reason that is reported was requested and holds, and nothing else than hard stop and reset of the blocking detections happened; without a reason no
requested condition holds. Missing for the full property: the reasons of an opponent or ally nearby, which are compiled out, see `opponent_never`. -/
theorem hasEnded_partial {r r' : Robot} {watched reason : BitVec 32} {now : Int} (h : r.hasEnded watched now = some (reason, r')) :
    (reason ≠ 0 → watched &&& reason ≠ 0 ∧ r.Holds now reason) ∧
    (reason = 0 → r' = r ∧ ∀ x, watched &&& x ≠ 0 → ¬ r.Holds now x) := by
  unfold Robot.hasEnded at h
  split at h
  · rename_i hc; cases h
    exact ⟨fun _ => ⟨hc.1, .inl ⟨rfl, hc.2⟩⟩, fun h => absurd h (by decide)⟩
  · rename_i h1
    split at h
    · rename_i hc; cases h
      exact ⟨fun _ => ⟨hc.1, .inr (.inl ⟨rfl, hc.2⟩)⟩, fun h => absurd h (by decide)⟩
    · rename_i h2
      split at h
      · rename_i hc
        split at h
        · cases h
        · cases h
          exact ⟨fun _ => ⟨hc.1, .inr (.inr (.inl ⟨rfl, hc.2⟩))⟩, fun h => absurd h (by decide)⟩
      · rename_i h3
        split at h
        · rename_i hc
          split at h
          · cases h
          · cases h
            exact ⟨fun _ => ⟨hc.1, .inr (.inr (.inr ⟨rfl, (gameHasEnded_iff _ _).mp hc.2⟩))⟩, fun h => absurd h (by decide)⟩
        · rename_i h4
          cases h
          refine ⟨fun h => absurd rfl h, fun _ => ⟨rfl, fun x hx hh => ?_⟩⟩
          rcases hh with ⟨rfl, hh⟩ | ⟨rfl, hh⟩ | ⟨rfl, hh⟩ | ⟨rfl, hh⟩
          · exact h1 ⟨hx, hh⟩
          · exact h2 ⟨hx, hh⟩
          · exact h3 ⟨hx, hh⟩
          · exact h4 ⟨hx, (gameHasEnded_iff _ _).mpr hh⟩

/-- C57: of several requested conditions the goal is reported first, then its neighbourhood, then a collision, then the end of the match. -/
theorem hasEnded_priority {r r' : Robot} {watched reason : BitVec 32} {now : Int} (h : r.hasEnded watched now = some (reason, r')) :
    (reason = NEAR_GOAL → ¬ (watched &&& GOAL_REACHED ≠ 0 ∧ r.Holds now GOAL_REACHED)) ∧
    (reason = COLLISION → ∀ x ∈ [GOAL_REACHED, NEAR_GOAL], ¬ (watched &&& x ≠ 0 ∧ r.Holds now x)) ∧
    (reason = TIMER → ∀ x ∈ [GOAL_REACHED, NEAR_GOAL, COLLISION], ¬ (watched &&& x ≠ 0 ∧ r.Holds now x)) := by
  have holds : (∀ {x}, r.Holds now x → x = GOAL_REACHED → r.traj.finished = true) ∧ (∀ {x}, r.Holds now x → x = NEAR_GOAL → r.traj.nearlyFinished = true) ∧
      (∀ {x}, r.Holds now x → x = COLLISION → r.angleBd.get = true ∨ r.distanceBd.get = true) := by
    refine ⟨fun {x} hx he => ?_, fun {x} hx he => ?_, fun {x} hx he => ?_⟩ <;>
    · subst he
      rcases hx with ⟨h1, h2⟩ | ⟨h1, h2⟩ | ⟨h1, h2⟩ | ⟨h1, h2⟩ <;> first | exact h2 | exact absurd h1 (by decide)
  obtain ⟨g, n, c⟩ := holds
  unfold Robot.hasEnded at h
  split at h
  · cases h; exact ⟨fun h => absurd h (by decide), fun h => absurd h (by decide), fun h => absurd h (by decide)⟩
  · rename_i h1
    have k1 : ¬ (watched &&& GOAL_REACHED ≠ 0 ∧ r.Holds now GOAL_REACHED) := fun ⟨a, b⟩ => h1 ⟨a, g b rfl⟩
    split at h
    · cases h; exact ⟨fun _ => k1, fun h => absurd h (by decide), fun h => absurd h (by decide)⟩
    · rename_i h2
      have k2 : ¬ (watched &&& NEAR_GOAL ≠ 0 ∧ r.Holds now NEAR_GOAL) := fun ⟨a, b⟩ => h2 ⟨a, n b rfl⟩
      split at h
      · split at h
        · cases h
        · cases h
          refine ⟨fun h => absurd h (by decide), fun _ x hx => ?_, fun h => absurd h (by decide)⟩
          simp only [List.mem_cons, List.not_mem_nil, or_false] at hx
          rcases hx with rfl | rfl
          · exact k1
          · exact k2
      · rename_i h3
        have k3 : ¬ (watched &&& COLLISION ≠ 0 ∧ r.Holds now COLLISION) := fun ⟨a, b⟩ => h3 ⟨a, c b rfl⟩
        split at h
        · split at h
          · cases h
          · cases h
            refine ⟨fun h => absurd h (by decide), fun h => absurd h (by decide), fun _ x hx => ?_⟩
            simp only [List.mem_cons, List.not_mem_nil, or_false] at hx
            rcases hx with rfl | rfl | rfl
            · exact k1
            · exact k2
            · exact k3
        · cases h; exact ⟨fun h => absurd h (by decide), fun h => absurd h (by decide), fun h => absurd h (by decide)⟩

/-- The full property is false: a requested opponent or ally is never reported, in whatever state. -/
theorem opponent_never {r r' : Robot} {watched reason : BitVec 32} {now : Int} (h : r.hasEnded watched now = some (reason, r')) :
    reason ≠ OPPONENT_NEAR ∧ reason ≠ ALLY_NEAR := by
  by_cases h0 : reason = 0
  · subst h0; exact ⟨by decide, by decide⟩
  · rcases ((hasEnded_partial h).1 h0).2 with ⟨rfl, -⟩ | ⟨rfl, -⟩ | ⟨rfl, -⟩ | ⟨rfl, -⟩ <;> exact ⟨by decide, by decide⟩

/-- A target reached before: `finished` compares values that a command to go to a point does not change, it only changes with the next cycle of the trajectory
and control loops. -/
theorem gotoXy_finished (t : Traj) (s : TState) (x y : ℚ) (h : t.state ≠ .clitoidCurve) (hs : s ≠ .clitoidCurve) : (t.gotoXy s x y).finished = t.finished := by
  unfold Traj.finished Traj.gotoXy
  simp only [if_neg h, if_neg hs]
  rfl

/-! ### Hard stop -/

theorem hardstop_spec {t t' : Traj} (h : t.hardstop = some t') :
    t'.state = .ready ∧ t'.scheduled = false ∧ t'.rs = t.rs ∧
    t'.csd.consign = t.rs.virtualEncoders.distance ∧ t'.csa.consign = t.rs.virtualEncoders.angle ∧
    t'.qd.out = t.rs.virtualEncoders.distance ∧ t'.qd.var = 0 ∧ t'.qa.out = t.rs.virtualEncoders.angle ∧ t'.qa.var = 0 ∧
    t'.csd.enabled = t.csd.enabled ∧ t'.csa.enabled = t.csa.enabled := by
  unfold Traj.hardstop Traj.gotoDARel at h
  simp only [Upd.consign, Int.zero_add] at h
  cases ha : i32 t.deleteEvent.rs.virtualEncoders.angle with
  | none => simp only [ha] at h; cases h
  | some a =>
    simp only [ha] at h
    cases hd : i32 t.deleteEvent.rs.virtualEncoders.distance with
    | none => simp only [hd] at h; cases h
    | some d =>
      simp only [hd] at h
      cases h
      obtain ⟨rfl, -⟩ := i32_eq.mp ha
      obtain ⟨rfl, -⟩ := i32_eq.mp hd
      exact ⟨rfl, rfl, rfl, rfl, rfl, rfl, rfl, rfl, rfl, rfl, rfl⟩

/-- C57: after a collision or the end of the match the robot was stopped where it is, and the blocking detections start again after a collision. -/
theorem hasEnded_stops {r r' : Robot} {watched reason : BitVec 32} {now : Int} (h : r.hasEnded watched now = some (reason, r')) :
    ((reason = COLLISION ∨ reason = TIMER) → r.traj.hardstop = some r'.traj) ∧ (reason = COLLISION → r'.angleBd.get = false ∧ r'.distanceBd.get = false) ∧
    (reason ≠ COLLISION → r'.angleBd = r.angleBd ∧ r'.distanceBd = r.distanceBd) ∧ ((reason = GOAL_REACHED ∨ reason = NEAR_GOAL) → r' = r) := by
  have bd : ∀ b : Bd, b.reset.get = false := by
    intro b
    unfold Bd.get Bd.reset
    rw [decide_eq_false_iff_not]
    rintro ⟨h1, h2⟩
    apply h1
    apply BitVec.eq_of_toNat_eq
    have := BitVec.le_def.mp h2
    have z : (0 : BitVec 16).toNat = 0 := rfl
    rw [z] at this ⊢
    omega
  unfold Robot.hasEnded at h
  split at h
  · cases h; exact ⟨fun h => absurd h (by decide), fun h => absurd h (by decide), fun _ => ⟨rfl, rfl⟩, fun _ => rfl⟩
  · split at h
    · cases h; exact ⟨fun h => absurd h (by decide), fun h => absurd h (by decide), fun _ => ⟨rfl, rfl⟩, fun _ => rfl⟩
    · split at h
      · split at h
        · cases h
        · rename_i t ht
          cases h
          exact ⟨fun _ => ht, fun _ => ⟨bd _, bd _⟩, fun h => absurd rfl h, fun h => absurd h (by decide)⟩
      · split at h
        · split at h
          · cases h
          · rename_i t ht
            cases h
            exact ⟨fun _ => ht, fun h => absurd h (by decide), fun _ => ⟨rfl, rfl⟩, fun h => absurd h (by decide)⟩
        · cases h; exact ⟨fun h => absurd h (by decide), fun h => absurd h (by decide), fun _ => ⟨rfl, rfl⟩, fun h => absurd h (by decide)⟩

variable {P : Type}

/-- A controller whose ramp stands at its consign stays there: this is what `hardstop` establishes. -/
structure Still (cs : Cs) (q : Qr) : Prop where
  at_ : q.out = cs.consign
  enabled : cs.enabled = true

theorem qrFilter_still {sqrt : ℚ → ℚ} {e : Env P} {c : Int} (h : e.qr.out = c) :
    qrFilter sqrt e c = some ({ e with qr := { e.qr with var := 0, out := c, inp := c } }, c) := by
  unfold qrFilter Qr.filter
  subst h
  simp only [sub_self, abs_zero]
  rw [if_pos (by norm_num)]

theorem manage_still {sqrt : ℚ → ℚ} {fns : CsFns (Env P)} (hf : fns.consignFilter = some (qrFilter sqrt)) {cs cs' : Cs} {e e' : Env P} (hs : Still cs e.qr)
    (hq : ∀ f, fns.correctFilter = some f → ∀ e v e' o, f e v = some (e', o) → e'.qr = e.qr) (hq1 : fns.feedbackFilter = none) (hq2 : fns.outputFilter = none)
    (hq3 : ∀ f, fns.processOut = some f → ∀ e e' o, f e = some (e', o) → e'.qr = e.qr)
    (hq4 : ∀ f, fns.processIn = some f → ∀ e v e', f e v = some e' → e'.qr = e.qr)
    (h : cs.manage fns e = some (cs', e')) :
    Still cs' e'.qr ∧ cs'.consign = cs.consign ∧ cs'.filteredConsign = cs.consign := by
  unfold Cs.manage Cs.doProcess at h
  rw [hs.enabled, hf, hq1, hq2] at h
  simp only [if_true, safeFilter, qrFilter_still hs.at_] at h
  split at h
  · cases h
  · rename_i w po hpo
    have k1 : w.qr.out = cs.consign := by
      unfold safeOut at hpo
      split at hpo
      · rename_i f hf'; rw [hq3 f hf' _ _ _ hpo]
      · cases hpo; rfl
    split at h
    · cases h
    · rename_i err herr
      split at h
      · cases h
      · rename_i w2 out hc
        have k2 : w2.qr.out = cs.consign := by
          split at hc
          · rename_i f hf'; rw [hq f hf' _ _ _ _ hc]; exact k1
          · cases hc; exact k1
        split at h
        · cases h
        · rename_i w3 hin
          have k3 : w3.qr.out = cs.consign := by
            unfold safeIn at hin
            split at hin
            · rename_i f hf'; rw [hq4 f hf' _ _ _ hin]; exact k2
            · cases hin; exact k2
          cases h
          exact ⟨⟨k3, rfl⟩, rfl, rfl⟩

theorem angle_still {sqrt : ℚ → ℚ} {pids : Pids P} {cs cs' : Cs} {e e' : Env P} (hs : Still cs e.qr) (h : cs.manage (angleFns sqrt pids) e = some (cs', e')) :
    Still cs' e'.qr ∧ cs'.consign = cs.consign ∧ cs'.filteredConsign = cs.consign := by
  refine manage_still rfl hs ?_ rfl rfl ?_ ?_ h
  · intro f hf e v e' o h
    cases hf
    obtain ⟨⟨p, o'⟩, h1, h2⟩ := Option.map_eq_some_iff.mp h
    cases h2; rfl
  · intro f hf e e' o h
    cases hf; cases h; rfl
  · intro f hf e v e' h
    cases hf
    obtain ⟨p, h1, h2⟩ := Option.map_eq_some_iff.mp h
    cases h2; rfl

theorem distance_still {sqrt : ℚ → ℚ} {pids : Pids P} {cs cs' : Cs} {e e' : Env P} (hs : Still cs e.qr) (h : cs.manage (distanceFns sqrt pids) e = some (cs', e')) :
    Still cs' e'.qr ∧ cs'.consign = cs.consign ∧ cs'.filteredConsign = cs.consign := by
  refine manage_still rfl hs ?_ rfl rfl ?_ ?_ h
  · intro f hf e v e' o h
    cases hf
    obtain ⟨⟨p, o'⟩, h1, h2⟩ := Option.map_eq_some_iff.mp h
    cases h2; rfl
  · intro f hf e e' o h
    cases hf; cases h; rfl
  · intro f hf e v e' h
    cases hf
    obtain ⟨p, h1, h2⟩ := Option.map_eq_some_iff.mp h
    cases h2; rfl

/-- C55: each of the two loops of the base compares its ramp with its own coordinate, as the encoders gave it in this round. -/
theorem angle_error {sqrt : ℚ → ℚ} {pids : Pids P} {b b' : Base P} (hm : b.mode = .angleDistance ∨ b.mode = .angleOnly) (he : b.robot.traj.csa.enabled = true)
    (h : b.angle sqrt pids = some b') :
    b'.robot.traj.csa.error = b'.robot.traj.csa.filteredConsign - b.robot.traj.rs.pextPrev.angle ∧ b'.robot.traj.csd = b.robot.traj.csd ∧
      b'.robot.traj.rs.pextPrev = b.robot.traj.rs.pextPrev := by
  unfold Base.angle at h
  dsimp only at h
  rw [if_pos hm] at h
  split at h
  · cases h
  · rename_i cs e hc
    cases h
    unfold Cs.manage Cs.doProcess at hc
    rw [he, if_pos rfl] at hc
    simp only [angleFns, safeFilter, safeOut, safeIn] at hc
    cases h1 : qrFilter sqrt (⟨b.robot.traj.qa, b.robot.traj.rs, b.anglePid⟩ : Env P) b.robot.traj.csa.consign with
    | none => rw [h1] at hc; cases hc
    | some q =>
      obtain ⟨e1, fc⟩ := q
      have r1 : e1.rs = b.robot.traj.rs := by
        unfold qrFilter at h1
        split at h1
        · cases h1
        · cases h1; rfl
      rw [h1] at hc
      dsimp only at hc
      cases h2 : i32 (fc - e1.rs.pextPrev.angle) with
      | none => rw [h2] at hc; cases hc
      | some err =>
        have h2' : err = fc - e1.rs.pextPrev.angle := by
          unfold i32 at h2
          split at h2
          · exact (Option.some.inj h2).symm
          · cases h2
        rw [h2] at hc
        dsimp only at hc
        cases h3 : pids.angle e1.pid err with
        | none => rw [h3] at hc; cases hc
        | some q =>
          obtain ⟨p, o⟩ := q
          rw [h3] at hc
          dsimp only [Option.map_some] at hc
          cases h4 : e1.rs.setAngle o with
          | none => rw [h4] at hc; cases hc
          | some rs =>
            rw [h4] at hc
            cases hc
            refine ⟨by show err = _; rw [h2', r1], rfl, ?_⟩
            show rs.pextPrev = _
            unfold Rs.setAngle at h4
            split at h4
            · cases h4
            · cases h4
              rw [r1]

theorem distance_error {sqrt : ℚ → ℚ} {pids : Pids P} {b b' : Base P} (hm : b.mode = .angleDistance ∨ b.mode = .distanceOnly) (he : b.robot.traj.csd.enabled = true)
    (h : b.distance sqrt pids = some b') :
    b'.robot.traj.csd.error = b'.robot.traj.csd.filteredConsign - b.robot.traj.rs.pextPrev.distance ∧ b'.robot.traj.csa = b.robot.traj.csa := by
  unfold Base.distance at h
  dsimp only at h
  rw [if_pos hm] at h
  split at h
  · cases h
  · rename_i cs e hc
    cases h
    unfold Cs.manage Cs.doProcess at hc
    rw [he, if_pos rfl] at hc
    simp only [distanceFns, safeFilter, safeOut, safeIn] at hc
    cases h1 : qrFilter sqrt (⟨b.robot.traj.qd, b.robot.traj.rs, b.distancePid⟩ : Env P) b.robot.traj.csd.consign with
    | none => rw [h1] at hc; cases hc
    | some q =>
      obtain ⟨e1, fc⟩ := q
      have r1 : e1.rs = b.robot.traj.rs := by
        unfold qrFilter at h1
        split at h1
        · cases h1
        · cases h1; rfl
      rw [h1] at hc
      dsimp only at hc
      cases h2 : i32 (fc - e1.rs.pextPrev.distance) with
      | none => rw [h2] at hc; cases hc
      | some err =>
        have h2' : err = fc - e1.rs.pextPrev.distance := by
          unfold i32 at h2
          split at h2
          · exact (Option.some.inj h2).symm
          · cases h2
        rw [h2] at hc
        dsimp only at hc
        cases h3 : pids.distance e1.pid err with
        | none => rw [h3] at hc; cases hc
        | some q =>
          obtain ⟨p, o⟩ := q
          rw [h3] at hc
          dsimp only [Option.map_some] at hc
          cases h4 : e1.rs.setDistance o with
          | none => rw [h4] at hc; cases hc
          | some rs =>
            rw [h4] at hc
            cases hc
            exact ⟨by show err = _; rw [h2', r1], rfl⟩

/-- C55: the errors after a round, in the mode that controls both coordinates: the polar coordinates of the wheels, after the gains, subtracted from the ramps. -/
theorem cycle_errors {sqrt : ℚ → ℚ} {pids : Pids P} {b b' : Base P} {enc : Wheels} (hm : b.mode = .angleDistance) (ha : b.robot.traj.csa.enabled = true)
    (hd : b.robot.traj.csd.enabled = true) (h : b.cycle sqrt pids enc = some b') :
    ∃ w p, b.robot.traj.rs.gains enc = some w ∧ polarOfWheels w = some p ∧
      b'.robot.traj.csa.error = b'.robot.traj.csa.filteredConsign - p.angle ∧ b'.robot.traj.csd.error = b'.robot.traj.csd.filteredConsign - p.distance := by
  unfold Base.cycle at h
  split at h
  · cases h
  · rename_i rs hrs
    have hp : ∃ w p, b.robot.traj.rs.gains enc = some w ∧ polarOfWheels w = some p ∧ rs.pextPrev = p := by
      unfold Rs.update at hrs
      split at hrs
      · cases hrs
      · rename_i w hw
        split at hrs
        · cases hrs
        · rename_i p hp
          split at hrs
          · split at hrs
            · cases hrs
              exact ⟨w, p, hw, hp, rfl⟩
            · cases hrs
          · cases hrs
    obtain ⟨w, p, h1, h2, h3⟩ := hp
    refine ⟨w, p, h1, h2, ?_⟩
    dsimp only at h
    rw [if_neg (by rw [hm]; nofun)] at h
    split at h
    · cases h
    · rename_i b2 hb2
      split at h
      · cases h
        obtain ⟨b1, hb1, hb2⟩ := Option.bind_eq_some_iff.mp hb2
        obtain ⟨q1, q2, q3⟩ := angle_error (b := { b with robot := { b.robot with traj := { b.robot.traj with rs := rs } } }) (.inl hm) ha hb1
        have hm1 : b1.mode = .angleDistance := by
          unfold Base.angle at hb1
          dsimp only at hb1
          rw [if_pos (.inl hm)] at hb1
          split at hb1
          · cases hb1
          · cases hb1
            exact hm
        obtain ⟨r1, r2⟩ := distance_error (.inl hm1) (by rw [q2]; exact hd) hb2
        rw [q3] at r1
        show b2.robot.traj.csa.error = b2.robot.traj.csa.filteredConsign - p.angle ∧ b2.robot.traj.csd.error = b2.robot.traj.csd.filteredConsign - p.distance
        rw [r2, ← h3]
        exact ⟨q1, r1⟩
      · cases h

/-- The base holds a position: both ramps stand at their consigns. -/
def Base.Holding (b : Base P) (d a : Int) : Prop :=
  Still b.robot.traj.csd b.robot.traj.qd ∧ Still b.robot.traj.csa b.robot.traj.qa ∧ b.robot.traj.csd.consign = d ∧ b.robot.traj.csa.consign = a

theorem angle_holding {sqrt : ℚ → ℚ} {pids : Pids P} {b b' : Base P} {d a : Int} (hh : b.Holding d a) (h : b.angle sqrt pids = some b') :
    b'.Holding d a ∧ b'.mode = b.mode ∧ (b.mode = .angleDistance ∨ b.mode = .angleOnly → b'.robot.traj.csa.filteredConsign = a) ∧
    b'.robot.traj.csd = b.robot.traj.csd := by
  unfold Base.angle at h
  simp only at h
  split at h
  · split at h
    · cases h
    · rename_i cs e hm
      cases h
      obtain ⟨h1, h2, h3⟩ := angle_still (e := ⟨b.robot.traj.qa, b.robot.traj.rs, b.anglePid⟩) hh.2.1 hm
      exact ⟨⟨hh.1, h1, hh.2.2.1, h2.trans hh.2.2.2⟩, rfl, fun _ => h3.trans hh.2.2.2, rfl⟩
  · rename_i hmode
    split at h
    · cases h
    · cases h
      exact ⟨hh, rfl, fun h => absurd h hmode, rfl⟩

theorem distance_holding {sqrt : ℚ → ℚ} {pids : Pids P} {b b' : Base P} {d a : Int} (hh : b.Holding d a) (h : b.distance sqrt pids = some b') :
    b'.Holding d a ∧ b'.mode = b.mode ∧ (b.mode = .angleDistance ∨ b.mode = .distanceOnly → b'.robot.traj.csd.filteredConsign = d) ∧
    b'.robot.traj.csa = b.robot.traj.csa := by
  unfold Base.distance at h
  simp only at h
  split at h
  · split at h
    · cases h
    · rename_i cs e hm
      cases h
      obtain ⟨h1, h2, h3⟩ := distance_still (e := ⟨b.robot.traj.qd, b.robot.traj.rs, b.distancePid⟩) hh.1 hm
      exact ⟨⟨h1, hh.2.1, h2.trans hh.2.2.1, hh.2.2.2⟩, rfl, fun _ => h3.trans hh.2.2.1, rfl⟩
  · rename_i hmode
    split at h
    · cases h
    · cases h
      exact ⟨hh, rfl, fun h => absurd h hmode, rfl⟩

/-- What a cycle consists of -/
theorem cycle_cases {sqrt : ℚ → ℚ} {pids : Pids P} {b b' : Base P} {enc : Wheels} (h : b.cycle sqrt pids enc = some b') :
    ∃ rs b0 ea ed, b.robot.traj.rs.update enc = some rs ∧
      (if b.mode = .setPwm then b0 = { b with robot := { b.robot with traj := { b.robot.traj with rs := rs } } }
        else ∃ b1, Base.angle sqrt pids { b with robot := { b.robot with traj := { b.robot.traj with rs := rs } } } = some b1 ∧ b1.distance sqrt pids = some b0) ∧
      absErr b0.robot.traj.csa.error = some ea ∧ absErr b0.robot.traj.csd.error = some ed ∧
      b' = { b0 with robot := { b0.robot with angleBd := b0.robot.angleBd.manage ea, distanceBd := b0.robot.distanceBd.manage ed } } := by
  unfold Base.cycle at h
  split at h
  · cases h
  · rename_i rs hrs
    simp only at h
    split at h
    · cases h
    · rename_i b0 hb0
      split at h
      · rename_i ea ed hea hed
        cases h
        refine ⟨rs, b0, ea, ed, hrs, ?_, hea, hed, rfl⟩
        by_cases hm : b.mode = .setPwm
        · rw [if_pos hm] at hb0 ⊢
          exact (Option.some.inj hb0).symm
        · rw [if_neg hm] at hb0 ⊢
          exact Option.bind_eq_some_iff.mp hb0
      · cases h

theorem cycle_holding {sqrt : ℚ → ℚ} {pids : Pids P} {b b' : Base P} {d a : Int} {enc : Wheels} (hh : b.Holding d a) (h : b.cycle sqrt pids enc = some b') :
    b'.Holding d a ∧ b'.mode = b.mode ∧ (b.mode = .angleDistance → b'.robot.traj.csa.filteredConsign = a ∧ b'.robot.traj.csd.filteredConsign = d) := by
  obtain ⟨rs, b0, ea, ed, -, hb, -, -, rfl⟩ := cycle_cases h
  by_cases hm : b.mode = .setPwm
  · rw [if_pos hm] at hb
    subst hb
    exact ⟨hh, rfl, fun h => absurd (hm.symm.trans h) (by decide)⟩
  · rw [if_neg hm] at hb
    obtain ⟨b1, h1, h2⟩ := hb
    obtain ⟨k1, k2, k3, k4⟩ := angle_holding (d := d) (a := a) (b := { b with robot := { b.robot with traj := { b.robot.traj with rs := rs } } }) hh h1
    obtain ⟨l1, l2, l3, l4⟩ := distance_holding k1 h2
    refine ⟨l1, l2.trans k2, fun hmode => ⟨?_, l3 (.inl (k2.trans hmode))⟩⟩
    show b0.robot.traj.csa.filteredConsign = a
    rw [l4]
    exact k3 (.inl hmode)

/-- Cycles with the given values of the encoders -/
def Base.run (sqrt : ℚ → ℚ) (pids : Pids P) (b : Base P) : List Wheels → Option (Base P)
  | [] => some b
  | e :: es => match b.cycle sqrt pids e with
    | none => none
    | some b => b.run sqrt pids es

/-- C57: after a hard stop the controllers hold the position at which the robot was stopped, for any number of cycles and whatever happens to the robot. -/
theorem hardstop_holds {sqrt : ℚ → ℚ} {pids : Pids P} {b b' : Base P} {t : Traj} (ht : b.robot.traj.hardstop = some t)
    (he : b.robot.traj.csd.enabled = true ∧ b.robot.traj.csa.enabled = true) (hm : b.mode = .angleDistance) {es : List Wheels} (hes : es ≠ [])
    (h : Base.run sqrt pids { b with robot := { b.robot with traj := t } } es = some b') :
    b'.robot.traj.csd.filteredConsign = b.robot.traj.rs.virtualEncoders.distance ∧ b'.robot.traj.csa.filteredConsign = b.robot.traj.rs.virtualEncoders.angle := by
  obtain ⟨-, -, -, a4, a5, a6, a7, a8, a9, a10, a11⟩ := hardstop_spec ht
  have h0 : ({ b with robot := { b.robot with traj := t } } : Base P).Holding b.robot.traj.rs.virtualEncoders.distance b.robot.traj.rs.virtualEncoders.angle :=
    ⟨⟨a6.trans a4.symm, a10.trans he.1⟩, ⟨a8.trans a5.symm, a11.trans he.2⟩, a4, a5⟩
  have hm0 : ({ b with robot := { b.robot with traj := t } } : Base P).mode = .angleDistance := hm
  generalize ({ b with robot := { b.robot with traj := t } } : Base P) = c at h h0 hm0
  generalize b.robot.traj.rs.virtualEncoders.distance = d at h0 ⊢
  generalize b.robot.traj.rs.virtualEncoders.angle = a at h0 ⊢
  clear a4 a5 a6 a7 a8 a9 a10 a11 ht he hm
  induction es generalizing c with
  | nil => exact absurd rfl hes
  | cons e es ih =>
    unfold Base.run at h
    cases hc : c.cycle sqrt pids e with
    | none => rw [hc] at h; cases h
    | some c1 =>
      rw [hc] at h
      obtain ⟨k1, k2, k3⟩ := cycle_holding h0 hc
      cases es with
      | nil =>
        cases h
        exact (k3 hm0).symm
      | cons e' es' => exact ih (by simp) c1 h (k2.trans hm0) k1

/-! ### Modes -/

theorem manage_error_kept {sqrt : ℚ → ℚ} {pids : Pids P} {b b' : Base P} (hm : ¬ (b.mode = .angleDistance ∨ b.mode = .angleOnly)) (h : b.angle sqrt pids = some b') :
    b'.robot.traj.csa = b.robot.traj.csa ∧ b'.mode = b.mode ∧ b'.robot.angleBd = b.robot.angleBd ∧ b'.robot.traj.rs.virtualPwm.angle = 0 := by
  unfold Base.angle at h
  simp only [if_neg hm] at h
  split at h
  · cases h
  · rename_i rs hrs
    cases h
    refine ⟨rfl, rfl, rfl, ?_⟩
    unfold Rs.setAngle at hrs
    split at hrs
    · cases hrs
    · cases hrs; rfl

theorem distance_keeps {sqrt : ℚ → ℚ} {pids : Pids P} {b b' : Base P} (h : b.distance sqrt pids = some b') :
    b'.robot.traj.csa = b.robot.traj.csa ∧ b'.mode = b.mode ∧ b'.robot.angleBd = b.robot.angleBd ∧ b'.robot.traj.rs.virtualPwm.angle = b.robot.traj.rs.virtualPwm.angle := by
  have setD : ∀ {rs rs' : Rs} {v}, rs.setDistance v = some rs' → rs'.virtualPwm.angle = rs.virtualPwm.angle := by
    intro rs rs' v h
    unfold Rs.setDistance at h
    split at h
    · cases h
    · cases h; rfl
  unfold Base.distance at h
  simp only at h
  split at h
  · split at h
    · cases h
    · rename_i cs e hm
      cases h
      refine ⟨rfl, rfl, rfl, ?_⟩
      show e.rs.virtualPwm.angle = _
      unfold Cs.manage Cs.doProcess at hm
      split at hm
      · simp only [distanceFns, safeFilter, safeOut, safeIn] at hm
        split at hm
        · cases hm
        · rename_i w fc hq
          have e1 : w.rs = b.robot.traj.rs := by
            unfold qrFilter at hq
            split at hq
            · cases hq
            · cases hq; rfl
          split at hm
          · cases hm
          · split at hm
            · cases hm
            · rename_i w2 o hp
              have e2 : w2.rs = w.rs := by
                obtain ⟨⟨p, o'⟩, h1, h2⟩ := Option.map_eq_some_iff.mp hp
                cases h2; rfl
              split at hm
              · cases hm
              · rename_i w3 hin
                obtain ⟨rs, h1, h2⟩ := Option.map_eq_some_iff.mp hin
                cases h2
                cases hm
                show rs.virtualPwm.angle = _
                rw [setD h1, e2, e1]
      · simp only [distanceFns, safeIn] at hm
        split at hm
        · cases hm
        · rename_i w3 hin
          obtain ⟨rs, h1, h2⟩ := Option.map_eq_some_iff.mp hin
          cases h2
          cases hm
          exact setD h1
  · split at h
    · cases h
    · rename_i rs hrs
      cases h
      exact ⟨rfl, rfl, rfl, setD hrs⟩

/-- In the modes without angle control the wheels get no angle command. -/
theorem mode_no_angle {sqrt : ℚ → ℚ} {pids : Pids P} {b b' : Base P} {enc : Wheels}
    (hm : b.mode ≠ .angleDistance ∧ b.mode ≠ .angleOnly ∧ b.mode ≠ .setPwm) (h : b.cycle sqrt pids enc = some b') :
    b'.robot.traj.rs.virtualPwm.angle = 0 := by
  obtain ⟨rs, b0, ea, ed, -, hb, -, -, rfl⟩ := cycle_cases h
  rw [if_neg hm.2.2] at hb
  obtain ⟨b1, h1, h2⟩ := hb
  have k := manage_error_kept (b := { b with robot := { b.robot with traj := { b.robot.traj with rs := rs } } }) (fun h => h.elim hm.1 hm.2.1) h1
  have l := distance_keeps h2
  show b0.robot.traj.rs.virtualPwm.angle = 0
  rw [l.2.2.2, k.2.2.2]

/-- The blocking detection of a controller that does not run keeps using its last error: a large error at the change of the mode is reported as a collision in every
cycle, although the angle is not controlled. -/
theorem stale_collision {sqrt : ℚ → ℚ} {pids : Pids P} {b b' : Base P} {enc : Wheels} (hm : b.mode = .distanceOnly) (h : b.cycle sqrt pids enc = some b')
    (hb : b.robot.angleBd.errThres = 15000#32 ∧ b.robot.angleBd.cptThres = 1#16 ∧ b.robot.angleBd.cpt = 0) (he : 15000 < b.robot.traj.csa.error ∧ b.robot.traj.csa.error < 2147483648) :
    b'.robot.angleBd.get = true ∧ b'.robot.traj.csa.error = b.robot.traj.csa.error := by
  obtain ⟨rs, b0, ea, ed, -, hb', hea, -, rfl⟩ := cycle_cases h
  rw [if_neg (by rw [hm]; decide)] at hb'
  obtain ⟨b1, h1, h2⟩ := hb'
  have k := manage_error_kept (b := { b with robot := { b.robot with traj := { b.robot.traj with rs := rs } } }) (by rw [show ({ b with robot := { b.robot with traj := { b.robot.traj with rs := rs } } } : Base P).mode = _ from hm]; decide) h1
  have l := distance_keeps h2
  have e1 : b0.robot.traj.csa.error = b.robot.traj.csa.error := by rw [l.1, k.1]
  have e2 : b0.robot.angleBd = b.robot.angleBd := by rw [l.2.2.1, k.2.2.1]
  refine ⟨?_, e1⟩
  show (b0.robot.angleBd.manage ea).get = true
  rw [e1] at hea
  unfold absErr at hea
  rw [if_neg (by omega), i32_some (by omega) he.2] at hea
  have hea' : ea = BitVec.ofInt 32 b.robot.traj.csa.error := (Option.some.inj hea).symm
  have hlt : (15000#32) < ea := by
    rw [BitVec.lt_def, hea', BitVec.toNat_ofInt]
    have : b.robot.traj.csa.error % ((2 ^ 32 : Nat) : Int) = b.robot.traj.csa.error := by omega
    rw [this]
    simp only [BitVec.toNat_ofNat]
    omega
  rw [e2]
  obtain ⟨⟨ct, c, et, em⟩, hbd⟩ : ∃ x, b.robot.angleBd = x := ⟨_, rfl⟩
  rw [hbd] at hb ⊢
  obtain ⟨rfl, rfl, rfl⟩ := hb
  rw [manage_eq _ (show (15000#32 : BitVec 32) ≠ 0 by decide)]
  simp only [if_pos hlt]
  rfl

/-! ## C70: start and end of the match -/

/-- The last read is true, the 101 before it false. -/
def Released (reads : List Bool) : Prop := ∃ l, reads = l ++ List.replicate 101 false ++ [true]

/-- How many reads in a row were false at the end -/
def falses (reads : List Bool) : Nat := (reads.reverse.takeWhile (· = false)).length

theorem falses_false (r : List Bool) : falses (r ++ [false]) = falses r + 1 := by unfold falses; rw [List.reverse_append]; rfl
theorem falses_true (r : List Bool) : falses (r ++ [true]) = 0 := by unfold falses; rw [List.reverse_append]; rfl

theorem falses_le (r : List Bool) : ∀ n, n ≤ falses r ↔ ∃ l, r = l ++ List.replicate n false := by
  induction r using List.reverseRecOn with
  | nil =>
    intro n
    constructor
    · intro h
      have : n = 0 := by unfold falses at h; simp at h; exact h
      subst this; exact ⟨[], rfl⟩
    · rintro ⟨l, h⟩
      have := congrArg List.length h
      simp at this
      omega
  | append_singleton r b ih =>
    intro n
    cases n with
    | zero => exact ⟨fun _ => ⟨r ++ [b], by simp⟩, fun _ => Nat.zero_le _⟩
    | succ n =>
      cases b with
      | true =>
        rw [falses_true]
        constructor
        · intro h; omega
        · rintro ⟨l, h⟩
          rw [List.replicate_succ', ← List.append_assoc] at h
          have := (List.append_inj' h rfl).2
          cases this
      | false =>
        rw [falses_false]
        constructor
        · intro h
          obtain ⟨l, hl⟩ := (ih n).mp (by omega)
          exact ⟨l, by rw [hl, List.replicate_succ', List.append_assoc]⟩
        · rintro ⟨l, h⟩
          rw [List.replicate_succ', ← List.append_assoc] at h
          have := (ih n).mpr ⟨l, (List.append_inj' h rfl).1⟩
          omega

theorem starter_state (reads : List Bool) (hn : ∀ p, p <+: reads → ¬ Released p) :
    Starter.run .waiting reads = if falses reads = 0 then .waiting else .armed (10 * (falses reads - 1)) := by
  induction reads using List.reverseRecOn with
  | nil => rfl
  | append_singleton r b ih =>
    have h := ih fun p hp => hn p (hp.trans (List.prefix_append _ _))
    have hr : Starter.run .waiting (r ++ [b]) = (Starter.run .waiting r).step b := by unfold Starter.run; rw [List.foldl_append]; rfl
    rw [hr, h]
    cases b with
    | false =>
      rw [falses_false]
      by_cases h0 : falses r = 0
      · rw [if_pos h0, if_neg (by omega), h0]; rfl
      · rw [if_neg h0, if_neg (by omega)]
        show Starter.armed _ = _
        congr 1; omega
    | true =>
      rw [falses_true, if_pos rfl]
      by_cases h0 : falses r = 0
      · rw [if_pos h0]; rfl
      · rw [if_neg h0]
        show (if 1000 ≤ 10 * (falses r - 1) then Starter.started else .waiting) = _
        rw [if_neg]
        intro hc
        obtain ⟨l, hl⟩ := (falses_le r 101).mp (by omega)
        exact hn _ (List.prefix_refl _) ⟨l, by rw [hl]⟩

/-- C70: the match starts exactly when the starter is released after at least 101 reads in a row at which it was armed. -/
theorem starter_exact (reads : List Bool) : Starter.run .waiting reads = .started ↔ ∃ p, p <+: reads ∧ Released p := by
  constructor
  · intro h
    apply Classical.byContradiction
    intro hn
    rw [starter_state reads fun p hp hr => hn ⟨p, hp, hr⟩] at h
    split at h <;> cases h
  · rintro ⟨p, ⟨q, rfl⟩, l, rfl⟩
    have stay : ∀ q, Starter.run .started q = .started := by
      intro q
      induction q with
      | nil => rfl
      | cons b q ih => exact ih
    have app : ∀ (s : Starter) (a b : List Bool), s.run (a ++ b) = (s.run a).run b := fun s a b => by unfold Starter.run; rw [List.foldl_append]
    have armed : ∀ n ms, Starter.run (.armed ms) (List.replicate n false) = .armed (ms + 10 * n) := by
      intro n
      induction n with
      | zero => intro ms; rfl
      | succ n ih =>
        intro ms
        show Starter.run (.armed (ms + 10)) (List.replicate n false) = _
        rw [ih]; congr 1; omega
    rw [app, app, app]
    have key : ∀ s : Starter, Starter.run (Starter.run s (List.replicate 101 false)) [true] = .started := by
      intro s
      cases s with
      | waiting =>
        rw [show (101 : Nat) = 100 + 1 from rfl, List.replicate_succ]
        show Starter.run (Starter.run (.armed 0) (List.replicate 100 false)) [true] = _
        rw [armed]; rfl
      | armed ms =>
        rw [armed]
        have h : 1000 ≤ ms + 10 * 101 := by omega
        generalize ms + 10 * 101 = m at h
        exact if_pos h
      | started => rw [stay, stay]
    rw [key, stay]

/-- Times (in ms) of the reads: after a read that is followed by a sleep, the next one is at least 10 ms later. -/
inductive Timed : Starter → List (Nat × Bool) → Prop
  | nil (s) : Timed s []
  | one (s e) : Timed s [e]
  | cons {s t b t' b' l} (h : t ≤ t') (hs : s.sleeps b = true → t + 10 ≤ t') (hl : Timed (s.step b) ((t', b') :: l)) : Timed s ((t, b) :: (t', b') :: l)

theorem timed_append {s : Starter} {pre l : List (Nat × Bool)} (h : Timed s (pre ++ l)) : Timed (s.run (pre.map (·.2))) l := by
  induction pre generalizing s with
  | nil => exact h
  | cons e pre ih =>
    cases hp : pre ++ l with
    | nil =>
      have : l = [] := (List.append_eq_nil_iff.mp hp).2
      subst this; exact .nil _
    | cons e' r =>
      rw [List.cons_append, hp] at h
      cases h with
      | cons h1 h2 h3 =>
        rw [← hp] at h3
        exact ih h3

theorem timed_armed {ms : Nat} {run : List (Nat × Bool)} {t t0 : Nat} {b b0 : Bool} {post : List (Nat × Bool)}
    (h : Timed (.armed ms) (((t0, b0) :: run) ++ (t, b) :: post)) (hf : ∀ x ∈ (t0, b0) :: run, x.2 = false) : t0 + 10 * (run.length + 1) ≤ t := by
  induction run generalizing ms t0 b0 with
  | nil =>
    have hb : b0 = false := hf _ (List.mem_cons_self ..)
    subst hb
    cases h with
    | cons h1 h2 h3 =>
      have := h2 rfl
      simp only [List.length_nil]
      omega
  | cons e run ih =>
    have hb : b0 = false := hf _ (List.mem_cons_self ..)
    subst hb
    obtain ⟨t1, b1⟩ := e
    cases h with
    | cons h1 h2 h3 =>
      have := h2 rfl
      have := ih h3 fun x hx => hf x (List.mem_cons_of_mem _ hx)
      simp only [List.length_cons] at this ⊢
      omega

/-- C70: when the match starts, the starter has been seen armed at every read for at least a second. -/
theorem starter_second {pre run : List (Nat × Bool)} {t t0 : Nat} (ht : Timed .waiting (pre ++ (t0, false) :: run ++ [(t, true)]))
    (hn : Starter.run .waiting (pre.map (·.2)) ≠ .started) (hf : ∀ x ∈ run, x.2 = false) (hl : run.length = 100) : t0 + 1000 ≤ t := by
  rw [List.append_assoc] at ht
  have h := timed_append ht
  cases run with
  | nil => simp at hl
  | cons e run =>
    obtain ⟨t1, b1⟩ := e
    simp only [List.length_cons] at hl
    generalize Starter.run .waiting (pre.map (·.2)) = s at h hn
    cases h with
    | cons h1 h2 h3 =>
      cases s with
      | started => exact absurd rfl hn
      | waiting =>
        have := timed_armed h3 hf
        omega
      | armed ms =>
        have := timed_armed h3 hf
        omega

/-- Armed for 1000 ms the match starts, for less it does not. -/
example : Starter.run .waiting (true :: List.replicate 101 false ++ [true]) = .started ∧ Starter.run .waiting (true :: List.replicate 100 false ++ [true]) = .waiting := by
  decide +kernel

theorem getTime_spec {s now : Int} (h0 : s ≤ now) (h1 : now - s < 2147483648 * 1000000000) : getTime (some s) now = (now - s) / 1000000000 := by
  show ((now - s).tdiv 1000000000).bmod (2 ^ 32) = _
  rw [Int.tdiv_eq_ediv_of_nonneg (by omega)]
  generalize hq : (now - s) / 1000000000 = q
  have : 0 ≤ q ∧ q < 2147483648 := by omega
  apply Int.bmod_eq_of_le <;> omega

/-- C70: the game time starts at zero, counts the whole seconds and never decreases (while the clock does not), and the match is over exactly from 100 s on. -/
theorem game_time {s now now' : Int} (h0 : s ≤ now) (h1 : now ≤ now') (h2 : now' - s < 2147483648 * 1000000000) :
    getTime (some s) s = 0 ∧ getTime (some s) now * 1000000000 ≤ now - s ∧ now - s < (getTime (some s) now + 1) * 1000000000 ∧
    getTime (some s) now ≤ getTime (some s) now' ∧ (gameHasEnded (some s) now = true ↔ 100 * 1000000000 ≤ now - s) := by
  have e1 := getTime_spec (s := s) (now := s) (by omega) (by omega)
  have e2 := getTime_spec (s := s) (now := now) h0 (by omega)
  have e3 := getTime_spec (s := s) (now := now') (by omega) h2
  refine ⟨by rw [e1]; omega, by rw [e2]; omega, by rw [e2]; omega, by rw [e2, e3]; omega, ?_⟩
  unfold gameHasEnded GAME_DURATION
  rw [decide_eq_true_iff, e2]
  omega

/-- C70: the match does not end before it has started. -/
theorem not_started (now : Int) : gameHasEnded none now = false := by
  show decide ((100 : Int) ≤ 0) = false
  decide

/-- The green button selects yellow. -/
theorem green_is_yellow : selectColor true = .yellow ∧ selectColor false = .blue := ⟨rfl, rfl⟩

end Verif.Base
