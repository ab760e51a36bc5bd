import Verif.Base.Model
import Verif.Drive.Model

/-!
# Calibration of the odometry

The commands `wheel_calib` (master-firmware/src/commands.cpp:653-722) and `track_calib` (724-778), as far as they compute new values from what the odometry
says before and after the drive, and the part of the control loop of the base (master-firmware/src/base/base_controller.cpp:119-218) that takes over changed
parameters (147-176).

The wheels, the polar coordinates and the virtual encoders are those of `Base` (`Rs.update`), the difference of angles is that of `Drive` (`angleDelta`).
Floats are exact rational numbers; a division by zero, which gives an infinity or NaN there, is a separate outcome. The drive itself (`trajectory_*`) and the
dialogue on the shell are not modelled.
-/

namespace Verif.Calib

open Base

/-! ## Gains of the wheels, commands.cpp:672-704 -/

/-- `rs_set_left_ext_encoder`, `rs_set_right_ext_encoder`, robot_system.c:117-129, as far as the gains go -/
def setGains (rs : Rs) (g : ℚ × ℚ) : Rs := { rs with gain := g }

/-- Lines 699-704: from the virtual encoders (distance and angle) before and after the drive and the gains in use, the suggested gains of the left and the right
wheel. `none`: overflow of the differences; `some none`: division by zero. -/
def wheelGains (start stop : Polar) (g : ℚ × ℚ) : Option (Option (ℚ × ℚ)) :=
  match i32 (start.angle - stop.angle), i32 (start.distance - stop.distance) with
  | some da, some dd =>
    if dd = 0 then some none
    else
      let factor : ℚ := (da : ℚ) / (dd : ℚ)
      some (some ((1 + factor) * g.1, (1 - factor) * g.2))
  | _, _ => none

/-! ## Track, commands.cpp:738-763 -/

/-- Lines 740, 758-761: from the virtual angle before and after the drive, the track in use (mm), the impulses per mm and the number of turns, the suggested
track. `none`: division by zero. -/
def trackCalib (pi imp track : ℚ) (count : Int) (start stop : Int) : Option ℚ :=
  if imp * track = 0 then none
  else
    let startAngle := posImp2rd imp track start
    let endAngle := posImp2rd imp track stop
    let delta := Drive.angleDelta pi 0 (endAngle - startAngle)
    if 2 * pi * (count : ℚ) = 0 then none
    else some (track * (1 + delta / (2 * pi * count)))

/-! ## Parameters in the control loop, base_controller.cpp:147-176 -/

/-- The parameters `master/aversive/control/...` and `master/odometry/...` -/
inductive Par where
  | angleKp | angleKi | angleKd | angleILimit
  | distanceKp | distanceKi | distanceKd | distanceILimit
  | left | right | track | ticks
deriving DecidableEq, Repr

/-- One access in the body of the loop: the two halves of `parameter_scalar_get` (parameter.c:252-256), the second of which puts the value into a local
variable, and the call that hands the local variables over. -/
inductive Ins where
  | clear (x : Par)
  | read (x : Par)
  | apply (xs : List Par)
deriving DecidableEq, Repr

/-- `parameter_scalar_get` -/
def get (x : Par) : List Ins := [.clear x, .read x]

/-- base_controller.cpp:147-165 (what `pid_get_gains` stores before is overwritten and left out) -/
def controlBody : List Ins :=
  get .angleKp ++ get .angleKi ++ get .angleKd ++ get .angleILimit ++
  [.apply [.angleKp, .angleKi, .angleKd], .apply [.angleILimit]] ++
  get .distanceKp ++ get .distanceKi ++ get .distanceKd ++ get .distanceILimit ++
  [.apply [.distanceKp, .distanceKi, .distanceKd], .apply [.distanceILimit]]

/-- base_controller.cpp:166-175 (arguments are evaluated in the order of one of the choices the compiler has) -/
def odometryBody : List Ins :=
  get .left ++ [.apply [.left]] ++ get .right ++ [.apply [.right]] ++ get .track ++ get .ticks ++ [.apply [.track, .ticks]]

/-- The two tests of a pass with what is below them. The parameters below each are those of the namespace: `master/aversive/control` and `master/odometry`
in config_order.yaml. -/
def pass : List (List Par × List Ins) :=
  [([.angleKp, .angleKi, .angleKd, .angleILimit, .distanceKp, .distanceKi, .distanceKd, .distanceILimit], controlBody),
   ([.left, .right, .track, .ticks], odometryBody)]

/-- Parameters with their marks, local variables of the loop (`loc`) and the values in use. `setting x` counts calls of `parameter_scalar_set` that have stored
the value but not yet set the mark (parameter.c:268-275). -/
structure State (F : Type) where
  val : Par → F
  changed : Par → Bool
  setting : Par → Nat
  loc : Par → F
  use : Par → F

def upd {β : Type} (f : Par → β) (a : Par) (b : β) : Par → β := fun x => if x = a then b else f x

variable {F : Type}

/-- What other threads do with parameters. -/
inductive Env : State F → State F → Prop where
  | store (s : State F) (x : Par) (v : F) : Env s { s with val := upd s.val x v, setting := upd s.setting x (s.setting x + 1) }
  | mark (s : State F) (x : Par) (h : 0 < s.setting x) :
      Env s { s with changed := upd s.changed x true, setting := upd s.setting x (s.setting x - 1) }

/-- One access -/
def Ins.act (s : State F) : Ins → State F
  | .clear x => { s with changed := upd s.changed x false }
  | .read x => { s with loc := upd s.loc x (s.val x) }
  | .apply xs => { s with use := fun x => if x ∈ xs then s.loc x else s.use x }

/-- Where the loop is: accesses left in the present body, and tests left in this pass -/
structure Pc where
  body : List Ins
  tests : List (List Par × List Ins)

/-- One step of the loop or of another thread. What `parameter_namespace_contains_changed` answers is left open: it counts marks in several steps
(parameter.c:190-229). After the last test a new pass begins. -/
inductive Step : Pc × State F → Pc × State F → Prop where
  | env {pc s s'} (h : Env s s') : Step (pc, s) (pc, s')
  | act (i l ts s) : Step (⟨i :: l, ts⟩, s) (⟨l, ts⟩, i.act s)
  | enter (t ts s) : Step (⟨[], t :: ts⟩, s) (⟨t.2, ts⟩, s)
  | skip (t ts s) : Step (⟨[], t :: ts⟩, s) (⟨[], ts⟩, s)
  | again (s) : Step (⟨[], []⟩, s) (⟨[], pass⟩, s)

inductive Steps : Pc × State F → Pc × State F → Prop where
  | refl (c) : Steps c c
  | tail {a b c} : Steps a b → Step b c → Steps a c

/-- A body without interruption -/
def runBody (l : List Ins) (s : State F) : State F := l.foldl Ins.act s

/-- A pass without interruption: the tests are exact then. -/
def quiet : List (List Par × List Ins) → State F → State F
  | [], s => s
  | (ps, b) :: ts, s => quiet ts (if ps.any s.changed then runBody b s else s)

end Verif.Calib
