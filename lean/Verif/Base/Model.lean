import Verif.Quadramp.Model

/-!
# The wheeled base of the robot

Models of `lib/aversive/robot_system` (wheels and polar coordinates, the virtual encoders), `lib/aversive/control_system_manager`,
`lib/aversive/blocking_detection_manager`, the parts of `lib/aversive/trajectory_manager` that do not need trigonometry, the control loop of
`master-firmware/src/base/base_controller.cpp` and the end of trajectories in `master-firmware/src/robot_helpers/trajectory_helpers.cpp`, and the start of the
match in `master-firmware/src/strategy.cpp`.

`int32_t` values are integers; where the code computes with them, a result out of range is undefined and gives `none`. Doubles are exact rational numbers.
The compile time options are those of the firmware: `CONFIG_MODULE_ROBOT_SYSTEM_MOT_AND_EXT` is not defined, `USE_MAP` is 0.
-/

namespace Verif.Base

open Quadramp (toI32 Qr)

/-- A result of `int32_t` arithmetic -/
def i32 (x : Int) : Option Int := if -2 ^ 31 ≤ x ∧ x < 2 ^ 31 then some x else none

/-! ## Wheels and polar coordinates, angle_distance.c -/

/-- `struct rs_wheels`, angle_distance.h -/
structure Wheels where
  left : Int
  right : Int
deriving DecidableEq, Repr

/-- `struct rs_polar`, angle_distance.h -/
structure Polar where
  distance : Int
  angle : Int
deriving DecidableEq, Repr

/-- `rs_get_polar_from_wheels`, angle_distance.c:28-32; the division rounds towards zero. -/
def polarOfWheels (w : Wheels) : Option Polar :=
  match i32 (w.right + w.left), i32 (w.right - w.left) with
  | some s, some d => some ⟨s.tdiv 2, d.tdiv 2⟩
  | _, _ => none

/-- `rs_get_wheels_from_polar`, angle_distance.c:37-41 -/
def wheelsOfPolar (p : Polar) : Option Wheels :=
  match i32 (p.distance - p.angle), i32 (p.distance + p.angle) with
  | some l, some r => some ⟨l, r⟩
  | _, _ => none

/-! ## Robot system, robot_system.c -/

/-- `struct robot_system`, robot_system.h, without the function pointers: the encoders are arguments of `update`, and `pwm` is what was last given to
`left_pwm` and `right_pwm`. -/
structure Rs where
  ignoreGain : Bool
  gain : ℚ × ℚ
  virtualPwm : Polar
  virtualEncoders : Polar
  pextPrev : Polar
  wextPrev : Wheels
  pwm : Wheels
deriving DecidableEq

/-- `rs_init`, robot_system.c:74-80 -/
def Rs.init : Rs := ⟨false, (0, 0), ⟨0, 0⟩, ⟨0, 0⟩, ⟨0, 0⟩, ⟨0, 0⟩, ⟨0, 0⟩⟩

/-- `rs_set_angle`, robot_system.c:131-144 -/
def Rs.setAngle (rs : Rs) (angle : Int) : Option Rs :=
  match wheelsOfPolar ⟨rs.virtualPwm.distance, angle⟩ with
  | none => none
  | some w => some { rs with virtualPwm := { rs.virtualPwm with angle := angle }, pwm := w }

/-- `rs_set_distance`, robot_system.c:146-160 -/
def Rs.setDistance (rs : Rs) (distance : Int) : Option Rs :=
  match wheelsOfPolar ⟨distance, rs.virtualPwm.angle⟩ with
  | none => none
  | some w => some { rs with virtualPwm := { rs.virtualPwm with distance := distance }, pwm := w }

/-- The gains of the encoders, robot_system.c:253-261 -/
def Rs.gains (rs : Rs) (w : Wheels) : Option Wheels :=
  if rs.ignoreGain then some w
  else match toI32 (w.left * rs.gain.1), toI32 (w.right * rs.gain.2) with
    | some l, some r => some ⟨l, r⟩
    | _, _ => none

/-- `rs_update`, robot_system.c:232-304; `enc` are the values of the external encoders. -/
def Rs.update (rs : Rs) (enc : Wheels) : Option Rs :=
  match rs.gains enc with
  | none => none
  | some wext =>
    match polarOfWheels wext with
    | none => none
    | some pext =>
      match i32 (pext.angle - rs.pextPrev.angle), i32 (pext.distance - rs.pextPrev.distance) with
      | some da, some dd =>
        match i32 (rs.virtualEncoders.angle + da), i32 (rs.virtualEncoders.distance + dd) with
        | some a, some d => some { rs with virtualEncoders := ⟨d, a⟩, pextPrev := pext, wextPrev := wext }
        | _, _ => none
      | _, _ => none

/-! ## Control system, control_system_manager.c -/

/-- The functions of `struct cs`, control_system_manager.h. They work on the state `W` of everything outside, and can fail (undefined behaviour). -/
structure CsFns (W : Type) where
  consignFilter : Option (W → Int → Option (W × Int)) := none
  correctFilter : Option (W → Int → Option (W × Int)) := none
  feedbackFilter : Option (W → Int → Option (W × Int)) := none
  outputFilter : Option (W → Int → Option (W × Int)) := none
  processOut : Option (W → Option (W × Int)) := none
  processIn : Option (W → Int → Option W) := none

/-- The values of `struct cs`, control_system_manager.h -/
structure Cs where
  consign : Int
  filteredConsign : Int
  filteredFeedback : Int
  error : Int
  out : Int
  enabled : Bool
deriving DecidableEq

/-- `cs_init`, control_system_manager.c:66-70 -/
def Cs.init : Cs := ⟨0, 0, 0, 0, 0, true⟩

/-- `safe_filter`, `safe_getprocessout`, `safe_setprocessin`, control_system_manager.c:12-62 -/
def safeFilter {W : Type} (f : Option (W → Int → Option (W × Int))) (w : W) (v : Int) : Option (W × Int) :=
  match f with
  | some f => f w v
  | none => some (w, v)

def safeOut {W : Type} (f : Option (W → Option (W × Int))) (w : W) : Option (W × Int) :=
  match f with
  | some f => f w
  | none => some (w, 0)

def safeIn {W : Type} (f : Option (W → Int → Option W)) (w : W) (v : Int) : Option W :=
  match f with
  | some f => f w v
  | none => some w

/-- `cs_do_process`, control_system_manager.c:109-138 -/
def Cs.doProcess {W : Type} (fns : CsFns W) (cs : Cs) (w : W) (consign : Int) : Option (Cs × W) :=
  if cs.enabled then
    match safeFilter fns.consignFilter w consign with
    | none => none
    | some (w, fc) =>
      match safeOut fns.processOut w with
      | none => none
      | some (w, po) =>
        match safeFilter fns.feedbackFilter w po with
        | none => none
        | some (w, fb) =>
          match i32 (fc - fb) with
          | none => none
          | some err =>
            match safeFilter fns.correctFilter w err with
            | none => none
            | some (w, out) =>
              match safeFilter fns.outputFilter w out with
              | none => none
              | some (w, out) =>
                match safeIn fns.processIn w out with
                | none => none
                | some w => some (⟨consign, fc, fb, err, out, cs.enabled⟩, w)
  else
    match safeIn fns.processIn w 0 with
    | none => none
    | some w => some ({ cs with out := 0 }, w)

/-- `cs_manage`, control_system_manager.c:140-144 -/
def Cs.manage {W : Type} (fns : CsFns W) (cs : Cs) (w : W) : Option (Cs × W) := cs.doProcess fns w cs.consign

/-- `cs_set_consign`, `cs_enable`, `cs_disable`, control_system_manager.c:176-189 -/
def Cs.setConsign (cs : Cs) (v : Int) : Cs := { cs with consign := v }
def Cs.enable (cs : Cs) : Cs := { cs with enabled := true }
def Cs.disable (cs : Cs) : Cs := { cs with enabled := false }

/-! ## Blocking detection, blocking_detection_manager.cpp -/

/-- `struct blocking_detection`, blocking_detection_manager.h -/
structure Bd where
  cptThres : BitVec 16
  cpt : BitVec 16
  errThres : BitVec 32
  errMax : BitVec 32
deriving DecidableEq

/-- `bd_init`, `bd_reset`, `bd_set_thresholds`, blocking_detection_manager.cpp:35-56 -/
def Bd.init : Bd := ⟨0, 0, 0, 0⟩
def Bd.reset (bd : Bd) : Bd := { bd with cpt := 0 }
def Bd.setThresholds (bd : Bd) (err : BitVec 32) (cpt : BitVec 16) : Bd := { bd with cptThres := cpt, errThres := err }

/-- `bd_manage`, blocking_detection_manager.cpp:58-74 -/
def Bd.manage (bd : Bd) (err : BitVec 32) : Bd :=
  if bd.errThres = 0 then bd
  else
    let bd := if bd.errMax < err then { bd with errMax := err } else bd
    if bd.errThres < err then { bd with cpt := bd.cpt + 1 } else { bd with cpt := 0 }

/-- `bd_get`, blocking_detection_manager.cpp:77-81 -/
def Bd.get (bd : Bd) : Bool := decide (bd.cptThres ≠ 0 ∧ bd.cptThres ≤ bd.cpt)

/-- `bd_get_max`, blocking_detection_manager.cpp:84-91; the result is converted to `int32_t`. -/
def Bd.getMax (bd : Bd) : Int × Bd := (bd.errMax.toInt, { bd with errMax := 0 })

/-! ## Trajectories without events, trajectory_manager_core.cpp and trajectory_manager_utils.cpp -/

/-- `enum trajectory_state`, trajectory_manager.h:52-80 -/
inductive TState where
  | ready | a | d | ad
  | xyStart | xyAngle | xyAngleOk | xyFStart | xyFAngle | xyFAngleOk | xyBStart | xyBAngle | xyBAngleOk
  | circle | line | clitoidLine | clitoidCurve
deriving DecidableEq, Repr

/-- `struct trajectory`, trajectory_manager.h, the robot and its controllers: what a trajectory reads and writes. The fields `pol` and `cart` of the union
`target` are kept apart: each is only read in the states in which it was set. -/
structure Traj where
  state : TState
  scheduled : Bool
  pol : Polar
  cart : ℚ × ℚ
  dWin : ℚ
  aWin : ℚ
  aStart : ℚ
  dSpeed : ℚ
  aSpeed : ℚ
  dAcc : ℚ
  aAcc : ℚ
  impPerMm : ℚ
  track : ℚ
  pos : ℚ × ℚ
  qd : Qr
  qa : Qr
  csd : Cs
  csa : Cs
  rs : Rs

/-- `delete_event`, trajectory_manager_utils.cpp:79-84, with `set_quadramp_speed` and `set_quadramp_acc` (43-50, 69-76) -/
def Traj.deleteEvent (t : Traj) : Traj :=
  { t with
    qd := (t.qd.setFirst |t.dSpeed| |t.dSpeed|).setSecond |t.dAcc| |t.dAcc|
    qa := (t.qa.setFirst |t.aSpeed| |t.aSpeed|).setSecond |t.aAcc| |t.aAcc|
    scheduled := false }

/-- What a command does to one coordinate: nothing, keep the current position (`RESET`), or move by the given number of impulses -/
inductive Upd where
  | none
  | reset
  | move (q : ℚ)

/-- The new consign, trajectory_manager_core.cpp:79-84 and 89-94 -/
def Upd.consign (cur : Int) : Upd → Option Int
  | .none => some cur
  | .reset => i32 (0 + cur)
  | .move q => match toI32 q with
    | .none => .none
    | some c => i32 (c + cur)

/-- `__trajectory_goto_d_a_rel`, trajectory_manager_core.cpp:71-99 -/
def Traj.gotoDARel (t : Traj) (state : TState) (d a : Upd) : Option Traj :=
  let t := { t.deleteEvent with state := state }
  match a.consign t.rs.virtualEncoders.angle with
  | none => none
  | some ac =>
    let t := match a with
      | .none => t
      | _ => { t with pol := { t.pol with angle := ac }, csa := t.csa.setConsign ac }
    match d.consign t.rs.virtualEncoders.distance with
    | none => none
    | some dc =>
      some (match d with
        | .none => t
        | _ => { t with pol := { t.pol with distance := dc }, csd := t.csd.setConsign dc })

/-- The angle in impulses, trajectory_manager_core.cpp:82 -/
def Traj.angleImp (t : Traj) (rad : ℚ) : ℚ := rad * t.impPerMm * t.track / 2
/-- The distance in impulses, trajectory_manager_core.cpp:92 -/
def Traj.distanceImp (t : Traj) (mm : ℚ) : ℚ := mm * t.impPerMm

/-- `trajectory_d_rel`, `trajectory_only_d_rel`, trajectory_manager_core.cpp:101-114 -/
def Traj.dRel (t : Traj) (mm : ℚ) : Option Traj := t.gotoDARel .d (.move (t.distanceImp mm)) .reset
def Traj.onlyDRel (t : Traj) (mm : ℚ) : Option Traj := t.gotoDARel .d (.move (t.distanceImp mm)) .none

/-- `trajectory_a_rel`, `trajectory_only_a_rel`, trajectory_manager_core.cpp:116-122, 167-173; the angle is in radians. -/
def Traj.aRel (t : Traj) (rad : ℚ) : Option Traj := t.gotoDARel .a .reset (.move (t.angleImp rad))
def Traj.onlyARel (t : Traj) (rad : ℚ) : Option Traj := t.gotoDARel .a .none (.move (t.angleImp rad))

/-- `trajectory_d_a_rel`, trajectory_manager_core.cpp:187-193 -/
def Traj.dARel (t : Traj) (mm rad : ℚ) : Option Traj := t.gotoDARel .ad (.move (t.distanceImp mm)) (.move (t.angleImp rad))

/-- `trajectory_stop`, trajectory_manager_core.cpp:195-202 -/
def Traj.stop (t : Traj) : Option Traj := t.gotoDARel .ready .reset .reset

/-- `trajectory_hardstop`, trajectory_manager_core.cpp:204-222 -/
def Traj.hardstop (t : Traj) : Option Traj :=
  match t.gotoDARel .ready .reset .reset with
  | none => none
  | some t => some { t with
    qd := { t.qd with var := 0, out := t.rs.virtualEncoders.distance }
    qa := { t.qa with var := 0, out := t.rs.virtualEncoders.angle } }

/-- `trajectory_goto_xy_abs`, `trajectory_goto_forward_xy_abs`, `trajectory_goto_backward_xy_abs`, trajectory_manager_core.cpp:224-256 -/
def Traj.gotoXy (t : Traj) (start : TState) (x y : ℚ) : Traj := { t.deleteEvent with cart := (x, y), state := start, scheduled := true }

/-- `trajectory_finished`, trajectory_manager_core.cpp:303-324 -/
def Traj.finished (t : Traj) : Bool :=
  (if t.state = .clitoidCurve then true else decide (t.csd.consign = t.csd.filteredConsign)) && decide (t.csa.consign = t.csa.filteredConsign)

/-- `is_robot_in_dist_window`, trajectory_manager_utils.cpp:111-117 -/
def Traj.inDistWindow (t : Traj) (win : ℚ) : Bool := decide (|(t.pol.distance : ℚ) - t.rs.virtualEncoders.distance| / t.impPerMm < win)

/-- `is_robot_in_angle_window`, trajectory_manager_utils.cpp:132-142 -/
def Traj.inAngleWindow (t : Traj) (win : ℚ) : Bool :=
  decide (|((t.pol.angle : ℚ) - t.rs.virtualEncoders.angle) / t.impPerMm / t.track * 2| < win)

/-- `is_robot_in_xy_window`, trajectory_manager_utils.cpp:120-127; the root is below `win` iff `win` is positive and its square above. -/
def Traj.inXyWindow (t : Traj) (win : ℚ) : Bool :=
  decide (0 < win ∧ (t.pos.1 - t.cart.1) * (t.pos.1 - t.cart.1) + (t.pos.2 - t.cart.2) * (t.pos.2 - t.cart.2) < win * win)

/-- `trajectory_in_window`, trajectory_manager_core.cpp:332-361 -/
def Traj.inWindow (t : Traj) (dWin aWin : ℚ) : Bool :=
  match t.state with
  | .xyAngleOk | .xyFAngleOk | .xyBAngleOk => t.inXyWindow dWin
  | .a => t.inAngleWindow aWin
  | .d => t.inDistWindow dWin
  | .ad => t.inDistWindow dWin && t.inAngleWindow aWin
  | _ => false

/-- `trajectory_nearly_finished`, trajectory_manager_core.cpp:326-329 -/
def Traj.nearlyFinished (t : Traj) : Bool := t.inWindow t.dWin t.aWin

/-! ## Angles and units, trajectory_manager_utils.cpp -/

/-- `simple_modulo_2pi`, trajectory_manager_utils.cpp:93-101; `pi` is `M_PI`. -/
def simpleModulo (pi a : ℚ) : ℚ := if a < -pi then a + 2 * pi else if pi < a then a - 2 * pi else a

/-- `modulo_2pi`, trajectory_manager_utils.cpp:104-108 -/
def modulo (pi a : ℚ) : Option ℚ :=
  match toI32 (a / (2 * pi)) with
  | none => none
  | some k => some (simpleModulo pi (a - k * (2 * pi)))

/-- `pos_mm2imp` … `acc_imp2rd`, trajectory_manager_utils.cpp:173-245; `i` impulses per mm, `tr` the track, `hz` the frequency of the control system -/
def posMm2imp (i : ℚ) (x : ℚ) : ℚ := x * i
def posImp2mm (i : ℚ) (x : ℚ) : ℚ := x / i
def speedMm2imp (i hz : ℚ) (x : ℚ) : ℚ := x * i / hz
def speedImp2mm (i hz : ℚ) (x : ℚ) : ℚ := x * hz / i
def accMm2imp (i hz : ℚ) (x : ℚ) : ℚ := x * i / (hz * hz)
def accImp2mm (i hz : ℚ) (x : ℚ) : ℚ := x * hz * hz / i
def posRd2imp (i tr : ℚ) (x : ℚ) : ℚ := x * (i * tr / 2)
def posImp2rd (i tr : ℚ) (x : ℚ) : ℚ := x / (i * tr / 2)
def speedRd2imp (i tr hz : ℚ) (x : ℚ) : ℚ := x * (i * tr / (2 * hz))
def speedImp2rd (i tr hz : ℚ) (x : ℚ) : ℚ := x / (i * tr / (2 * hz))
def accRd2imp (i tr hz : ℚ) (x : ℚ) : ℚ := x * (i * tr / (2 * hz * hz))
def accImp2rd (i tr hz : ℚ) (x : ℚ) : ℚ := x / (i * tr / (2 * hz * hz))

/-! ## Trajectories to a point, trajectory_manager_core.cpp:366-493 -/

/-- The first part of `trajectory_manager_xy_event`, trajectory_manager_core.cpp:397-414: the distance and the angle by which to turn, from the polar coordinates
`r`, `theta` of the target seen from the robot and the heading `a` -/
def xyTarget (pi : ℚ) (s : TState) (r theta a : ℚ) : ℚ × ℚ :=
  let th := simpleModulo pi (theta - a)
  match s with
  | .xyBStart | .xyBAngle | .xyBAngleOk => (-r, simpleModulo pi (th + pi))
  | .xyStart | .xyAngle | .xyAngleOk => if th > 52 / 100 * pi ∨ th < -(52 / 100) * pi then (-r, simpleModulo pi (th + pi)) else (r, th)
  | _ => (r, th)

/-- `set_quadramp_speed`, trajectory_manager_utils.cpp:43-50 -/
def Traj.setSpeed (t : Traj) (d a : ℚ) : Traj := { t with qd := t.qd.setFirst |d| |d|, qa := t.qa.setFirst |a| |a| }

/-- Lines 445-446, 453-455, 468-470 -/
def TState.kind : TState → Option (Fin 3)
  | .xyStart | .xyFStart | .xyBStart => some 0
  | .xyAngle | .xyFAngle | .xyBAngle => some 1
  | .xyAngleOk | .xyFAngleOk | .xyBAngleOk => some 2
  | _ => none

/-- The next value of the enumeration, for the states that are incremented -/
def TState.next : TState → TState
  | .xyStart => .xyAngle
  | .xyAngle => .xyAngleOk
  | .xyFStart => .xyFAngle
  | .xyFAngle => .xyFAngleOk
  | .xyBStart => .xyBAngle
  | .xyBAngle => .xyBAngleOk
  | s => s

/-- `trajectory_manager_xy_event`, trajectory_manager_core.cpp:366-493. none is undefined behaviour, or a speed that is not a number, lines 421-422, because
`a_start_rad` and the angle are zero. -/
def Traj.xyEvent (pi : ℚ) (t : Traj) (r theta a : ℚ) : Option Traj :=
  if t.state.kind = none then some { t.deleteEvent with state := .ready, csa := t.csa.setConsign 0, csd := t.csd.setConsign 0 }
  else
    let (r, th) := xyTarget pi t.state r theta a
    let speed : Option ℚ :=
      if |th| > t.aStart then some 0
      else if t.aStart = 0 then none
      else some (t.dSpeed * ((t.aStart - |th|) / t.aStart))
    match speed, toI32 (r * t.impPerMm), toI32 (th * t.impPerMm * t.track / (22 / 10)) with
    | some speed, some dc, some ac =>
      let t := t.setSpeed speed t.aSpeed
      match i32 (dc + t.rs.virtualEncoders.distance), i32 (ac + t.rs.virtualEncoders.angle) with
      | some dc, some ac =>
        let t := match t.state.kind with
          | some 0 => { t with state := t.state.next }
          | some 1 =>
            if t.qd.firstPos ≠ 0 then
              let t := if t.inXyWindow t.dWin then t.deleteEvent else t
              { t with state := t.state.next }
            else t
          | _ => if t.inXyWindow t.dWin then t.deleteEvent else t
        some { t with csa := t.csa.setConsign ac, csd := t.csd.setConsign dc }
      | _, _ => none
    | _, _, _ => none

/-- `trajectory_manager_manage`, trajectory_manager_core.cpp:652-683, without the circles, lines and clitoids (their events are not modelled; here they do nothing) -/
def Traj.manageXy (pi : ℚ) (t : Traj) (r theta a : ℚ) : Option Traj :=
  if t.scheduled = true ∧ t.state.kind ≠ none then t.xyEvent pi r theta a else some t

/-! ## End of trajectories, trajectory_helpers.cpp -/

/-- The reasons, trajectory_helpers.h:23-28 -/
def GOAL_REACHED : BitVec 32 := 1
def COLLISION : BitVec 32 := 2
def OPPONENT_NEAR : BitVec 32 := 4
def TIMER : BitVec 32 := 8
def ALLY_NEAR : BitVec 32 := 16
def NEAR_GOAL : BitVec 32 := 32

/-- `GAME_DURATION` in seconds, trajectory_helpers.h:16 -/
def GAME_DURATION : Int := 100

/-- `trajectory_get_time`, trajectory_helpers.cpp:280-289. Times are in nanoseconds; `absl::ToInt64Seconds` rounds towards zero, the result is
converted to `int`. -/
def getTime (start : Option Int) (now : Int) : Int :=
  match start with
  | none => 0
  | some s => ((now - s).tdiv 1000000000).bmod (2 ^ 32)

/-- `trajectory_game_has_ended`, trajectory_helpers.cpp:302-305 -/
def gameHasEnded (start : Option Int) (now : Int) : Bool := decide (GAME_DURATION ≤ getTime start now)

/-- The state of `trajectory_has_ended` -/
structure Robot where
  traj : Traj
  angleBd : Bd
  distanceBd : Bd
  gameStart : Option Int

/-- `trajectory_has_ended`, trajectory_helpers.cpp:64-126 -/
def Robot.hasEnded (r : Robot) (watched : BitVec 32) (now : Int) : Option (BitVec 32 × Robot) :=
  if watched &&& GOAL_REACHED ≠ 0 ∧ r.traj.finished then some (GOAL_REACHED, r)
  else if watched &&& NEAR_GOAL ≠ 0 ∧ r.traj.nearlyFinished then some (NEAR_GOAL, r)
  else if watched &&& COLLISION ≠ 0 ∧ (r.angleBd.get ∨ r.distanceBd.get) then
    match r.traj.hardstop with
    | none => none
    | some t => some (COLLISION, { r with traj := t, angleBd := r.angleBd.reset, distanceBd := r.distanceBd.reset })
  else if watched &&& TIMER ≠ 0 ∧ gameHasEnded r.gameStart now then
    match r.traj.hardstop with
    | none => none
    | some t => some (TIMER, { r with traj := t })
  else some (0, r)

/-! ## The control loop, base_controller.cpp:120-217 -/

/-- `enum board_mode_t`, base_controller.h:31-38 -/
inductive Mode where
  | angleDistance | angleOnly | distanceOnly | independent | free | setPwm
deriving DecidableEq

/-- `cs_pid_process`, cs_port.c:9-14, and the PID filter behind it are arguments: `P` is their state. -/
structure Pids (P : Type) where
  angle : P → Int → Option (P × Int)
  distance : P → Int → Option (P × Int)

/-- What the functions of the angle controller work on -/
structure Env (P : Type) where
  qr : Qr
  rs : Rs
  pid : P

/-- The consign filter, `quadramp_do_filter` -/
def qrFilter {P : Type} (sqrt : ℚ → ℚ) (e : Env P) (v : Int) : Option (Env P × Int) :=
  match e.qr.filter sqrt v with
  | none => none
  | some q => some ({ e with qr := q }, q.out)

/-- The angle controller, base_controller.cpp:67-71 -/
def angleFns {P : Type} (sqrt : ℚ → ℚ) (pids : Pids P) : CsFns (Env P) where
  consignFilter := some (qrFilter sqrt)
  correctFilter := some fun e v => (pids.angle e.pid v).map fun (p, o) => ({ e with pid := p }, o)
  processIn := some fun e v => (e.rs.setAngle v).map fun rs => { e with rs := rs }
  processOut := some fun e => some (e, e.rs.pextPrev.angle)

/-- The distance controller, base_controller.cpp:78-82 -/
def distanceFns {P : Type} (sqrt : ℚ → ℚ) (pids : Pids P) : CsFns (Env P) where
  consignFilter := some (qrFilter sqrt)
  correctFilter := some fun e v => (pids.distance e.pid v).map fun (p, o) => ({ e with pid := p }, o)
  processIn := some fun e v => (e.rs.setDistance v).map fun rs => { e with rs := rs }
  processOut := some fun e => some (e, e.rs.pextPrev.distance)

/-- The base: the robot, its mode and the state of the PID filters -/
structure Base (P : Type) where
  robot : Robot
  mode : Mode
  anglePid : P
  distancePid : P

/-- The angle part of the loop, base_controller.cpp:131-135 -/
def Base.angle {P : Type} (sqrt : ℚ → ℚ) (pids : Pids P) (b : Base P) : Option (Base P) :=
  let t := b.robot.traj
  if b.mode = .angleDistance ∨ b.mode = .angleOnly then
    match t.csa.manage (angleFns sqrt pids) ⟨t.qa, t.rs, b.anglePid⟩ with
    | none => none
    | some (cs, e) => some { b with robot := { b.robot with traj := { t with csa := cs, qa := e.qr, rs := e.rs } }, anglePid := e.pid }
  else match t.rs.setAngle 0 with
    | none => none
    | some rs => some { b with robot := { b.robot with traj := { t with rs := rs } } }

/-- The distance part of the loop, base_controller.cpp:137-141 -/
def Base.distance {P : Type} (sqrt : ℚ → ℚ) (pids : Pids P) (b : Base P) : Option (Base P) :=
  let t := b.robot.traj
  if b.mode = .angleDistance ∨ b.mode = .distanceOnly then
    match t.csd.manage (distanceFns sqrt pids) ⟨t.qd, t.rs, b.distancePid⟩ with
    | none => none
    | some (cs, e) => some { b with robot := { b.robot with traj := { t with csd := cs, qd := e.qr, rs := e.rs } }, distancePid := e.pid }
  else match t.rs.setDistance 0 with
    | none => none
    | some rs => some { b with robot := { b.robot with traj := { t with rs := rs } } }

/-- `abs` of an `int32_t`, as `uint32_t` -/
def absErr (x : Int) : Option (BitVec 32) := (i32 (if x < 0 then -x else x)).map (BitVec.ofInt 32)

/-- One round of the control loop, base_controller.cpp:126-146, without the changes of parameters -/
def Base.cycle {P : Type} (sqrt : ℚ → ℚ) (pids : Pids P) (b : Base P) (enc : Wheels) : Option (Base P) :=
  match b.robot.traj.rs.update enc with
  | none => none
  | some rs =>
    let b := { b with robot := { b.robot with traj := { b.robot.traj with rs := rs } } }
    let b := if b.mode = .setPwm then some b else (b.angle sqrt pids).bind (·.distance sqrt pids)
    match b with
    | none => none
    | some b =>
      match absErr b.robot.traj.csa.error, absErr b.robot.traj.csd.error with
      | some ea, some ed =>
        some { b with robot := { b.robot with angleBd := b.robot.angleBd.manage ea, distanceBd := b.robot.distanceBd.manage ed } }
      | _, _ => none

/-! ## Start of the match, strategy.cpp -/

/-- The loops of `wait_for_starter` -/
inductive Starter where
  /-- lines 89-91 -/
  | waiting
  /-- lines 92-100, with the armed time in milliseconds -/
  | armed (ms : Nat)
  | started
deriving DecidableEq, Repr

/-- What happens after a read of the starter, strategy.cpp:85-105. A read is followed by a sleep of 10 ms if `sleeps`. -/
def Starter.step : Starter → Bool → Starter
  | .waiting, true => .waiting
  | .waiting, false => .armed 0
  | .armed ms, false => .armed (ms + 10)
  | .armed ms, true => if 1000 ≤ ms then .started else .waiting
  | .started, _ => .started

/-- Whether the code sleeps for 10 ms after the read -/
def Starter.sleeps : Starter → Bool → Bool
  | .waiting, true => true
  | .armed _, false => true
  | _, _ => false

def Starter.run (s : Starter) (reads : List Bool) : Starter := reads.foldl Starter.step s

/-- `wait_for_color_selection` after a button was seen, strategy.cpp:63-75: the colour given whether the green button is pressed -/
inductive Color where
  | yellow | blue
deriving DecidableEq

def selectColor (green : Bool) : Color := if green then .yellow else .blue

end Verif.Base
