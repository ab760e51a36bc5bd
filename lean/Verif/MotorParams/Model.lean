/-!
# Motor board: taking over parameters in the control loop

motor-control-firmware/src/control.c: `control_init` (300-333), `update_parameters` (335-397) and
`pid_param_update` (232-243), which copy parameters into the variables of the controllers when they are marked
as changed. Reading a parameter with `get` clears the mark (lib/parameter/parameter.c; see `Param`).
Other threads (UAVCAN, shell) may set parameters at any time.

The functions are programs over single accesses. The values are of an arbitrary type `F` with the
operations used, so nothing about floating point is assumed. The variables that are copied in every pass without
looking at the mark (transmissions, encoder resolution, potentiometer, phase, mode; :337-350) are only modelled as far
as the others depend on them.
-/

namespace Verif.MotorParams

/-- The three controllers. -/
inductive Loop where
  | pos | vel | cur
deriving DecidableEq, Repr

/-- The parameters, control.c:22-90. -/
inductive Par where
  | kp (l : Loop) | ki (l : Loop) | kd (l : Loop) | iLimit (l : Loop)
  | lowBatt | velLimit | torqueLimit | accLimit
  | torqueCst | offset
  | maxTemp | rTh | cTh | currentGain
  | transP | transQ
deriving DecidableEq, Repr

/-- The namespaces asked for changes, control.c:247-268. -/
inductive Ns where
  | control | loop (l : Loop) | motor | thermal
deriving DecidableEq, Repr

/-- Which parameters are in (or below) a namespace, control.c:247-296. -/
def Par.inNs : Par → Ns → Bool
  | .kp _, .control | .ki _, .control | .kd _, .control | .iLimit _, .control => true
  | .kp l, .loop m | .ki l, .loop m | .kd l, .loop m | .iLimit l, .loop m => decide (l = m)
  | .lowBatt, .control | .velLimit, .control | .torqueLimit, .control | .accLimit, .control => true
  | .torqueCst, .motor | .offset, .motor => true
  | .maxTemp, .thermal | .rTh, .thermal | .cTh, .thermal | .currentGain, .thermal => true
  | _, _ => false

/-- The variables the parameters are copied to. -/
inductive Der where
  /-- gains and limits of the PID controllers -/
  | kp (l : Loop) | ki (l : Loop) | kd (l : Loop) | iLimit (l : Loop)
  /-- `low_batt_th`, `ctrl.velocity_limit`, `setpoint_interpolation.vel_limit`, `.acc_limit` -/
  | lowBatt | velLimit | spVelLimit | spAccLimit
  /-- `ctrl.torque_limit`, `ctrl.current_limit`, `ctrl.motor_current_constant`, `ctrl.motor_current_offset` -/
  | torqueLimit | currentLimit | currentConstant | offset
  /-- `control_motor_protection` -/
  | maxTemp | rTh | cTh | currentGain
  /-- `control_feedback.primary_encoder.transmission_p`, `_q` -/
  | transP | transQ
deriving DecidableEq, Repr

/-- Programs over accesses to parameters. -/
inductive Prog (F : Type) where
  | done
  /-- `parameter_changed` -/
  | changed (x : Par) (k : Bool → Prog F)
  /-- `parameter_namespace_contains_changed` -/
  | contains (n : Ns) (k : Bool → Prog F)
  /-- `_parameter_changed_clear`, the first half of a `get` -/
  | clear (x : Par) (k : Prog F)
  /-- `parameter_..._read`, the second half of a `get` -/
  | read (x : Par) (k : F → Prog F)
  /-- the variable is written -/
  | assign (d : Der) (v : F) (k : Prog F)
  /-- the variable is read (by the same thread) -/
  | load (d : Der) (k : F → Prog F)

namespace Prog

variable {F : Type}

/-- One program after the other. -/
def seq : Prog F → Prog F → Prog F
  | done, q => q
  | changed x k, q => changed x fun b => (k b).seq q
  | contains n k, q => contains n fun b => (k b).seq q
  | clear x k, q => clear x (k.seq q)
  | read x k, q => read x fun v => (k v).seq q
  | assign d v k, q => assign d v (k.seq q)
  | load d k, q => load d fun v => (k v).seq q

infixr:55 " ;; " => seq

/-- `parameter_scalar_get`, parameter.c:252-256. -/
def get (x : Par) (k : F → Prog F) : Prog F := clear x (read x k)

/-- `d = parameter_..._get(x)` -/
def copy (x : Par) (d : Der) : Prog F := get x fun v => assign d v done

/-- `if (parameter_changed(x)) p` -/
def ifChanged (x : Par) (p : Prog F) : Prog F := changed x fun b => if b then p else done

/-- `if (parameter_namespace_contains_changed(n)) p` -/
def ifContains (n : Ns) (p : Prog F) : Prog F := contains n fun b => if b then p else done

end Prog

open Prog

/-- The arithmetic used. -/
class Ops (F : Type) where
  div : F → F → F
  mul : F → F → F
  one : F

variable {F : Type} [Ops F]

/-- Setting the three gains, control.c:235-237 (the order of evaluation of the arguments is unspecified in C; this is one
of the orders). The reset of the integral (:238) is left out. -/
def setGains (l : Loop) : Prog F :=
  get (.kp l) fun a => get (.ki l) fun b => get (.kd l) fun c =>
    assign (.kp l) a <| assign (.ki l) b <| assign (.kd l) c done

/-- `pid_param_update`, control.c:232-243 (`||` evaluates as far as necessary). -/
def pidUpdate (l : Loop) : Prog F :=
  (changed (.kp l) fun a => if a then setGains l else
    changed (.ki l) fun b => if b then setGains l else
    changed (.kd l) fun c => if c then setGains l else done) ;;
  ifChanged (.iLimit l) (copy (.iLimit l) (.iLimit l))

/-- Torque and current limit, control.c:372-373 and 325-326 (`ctrl.torque_limit` is read back right after it has been
written by the same thread). -/
def torqueAssign : Prog F :=
  get .torqueLimit fun t => assign .torqueLimit t <|
    get .torqueCst fun c => assign .currentLimit (Ops.div t c) done

/-- `ctrl.motor_current_constant`, control.c:383-384 and 329-330: `1 / (torque_cst * (p / q))`. -/
def constantUpdate : Prog F :=
  load .transP fun p => load .transQ fun q =>
    get .torqueCst fun c => assign .currentConstant (Ops.div Ops.one (Ops.mul c (Ops.div p q))) done

/-- The block for the namespace of the controllers, control.c:353-379. -/
def controlBlock : Prog F :=
  ifContains (.loop .pos) (pidUpdate .pos) ;;
  ifContains (.loop .vel) (pidUpdate .vel) ;;
  ifContains (.loop .cur) (pidUpdate .cur) ;;
  ifChanged .lowBatt (copy .lowBatt .lowBatt) ;;
  ifChanged .velLimit (get .velLimit fun v => assign .velLimit v <| assign .spVelLimit v done) ;;
  ifChanged .torqueLimit torqueAssign ;;
  ifChanged .accLimit (copy .accLimit .spAccLimit)

/-- The block for the motor, control.c:382-388. -/
def motorBlock : Prog F :=
  ifChanged .torqueCst constantUpdate ;;
  ifChanged .offset (copy .offset .offset)

/-- `motor_protection_init` with its arguments, control.c:391-395. (The order of evaluation of the arguments is
unspecified in C; this is one of the orders. The estimated temperature, which starts again, is left out.) -/
def thermalBlock : Prog F :=
  get .maxTemp fun a => get .rTh fun b => get .cTh fun c => get .currentGain fun d =>
    assign .maxTemp a <| assign .rTh b <| assign .cTh c <| assign .currentGain d done

/-- `update_parameters`, control.c:335-397. -/
def update : Prog F :=
  copy .transP .transP ;;
  copy .transQ .transQ ;;
  ifContains .control controlBlock ;;
  ifContains .motor motorBlock ;;
  ifContains .thermal thermalBlock

/-- `control_init` from control.c:322 on. -/
def initProg : Prog F :=
  copy .transP .transP ;;
  copy .transQ .transQ ;;
  torqueAssign ;;
  copy .velLimit .velLimit ;;
  constantUpdate ;;
  update

/-- The parameters with their marks and the variables. `setting x` counts calls of `parameter_..._set` for `x` that have
stored the value but not yet set the mark (parameter.c:268-275). -/
structure State (F : Type) where
  val : Par → F
  changed : Par → Bool
  setting : Par → Nat
  der : Der → F

def upd {α β : Type} [DecidableEq α] (f : α → β) (a : α) (b : β) : α → β := fun x => if x = a then b else f x

/-- What other threads do. -/
inductive Env : State F → State F → Prop where
  /-- the first half of `parameter_..._set`: the value is stored -/
  | store (s : State F) (x : Par) (v : F) :
      Env s { s with val := upd s.val x v, setting := upd s.setting x (s.setting x + 1) }
  /-- the second half: the mark is set -/
  | mark (s : State F) (x : Par) (h : 0 < s.setting x) :
      Env s { s with changed := upd s.changed x true, setting := upd s.setting x (s.setting x - 1) }

/-- One access of the program. What `parameter_namespace_contains_changed` answers while other threads are setting
parameters is left open. -/
inductive Act : Prog F → State F → Prog F → State F → Prop where
  | changed (s : State F) (x k) : Act (.changed x k) s (k (s.changed x)) s
  | contains (s : State F) (n k b) : Act (.contains n k) s (k b) s
  | clear (s : State F) (x k) : Act (.clear x k) s k { s with changed := upd s.changed x false }
  | read (s : State F) (x k) : Act (.read x k) s (k (s.val x)) s
  | assign (s : State F) (d v k) : Act (.assign d v k) s k { s with der := upd s.der d v }
  | load (s : State F) (d k) : Act (.load d k) s (k (s.der d)) s

/-- Executions of a program with other threads in between, including unfinished ones. -/
inductive Steps : Prog F → State F → Prog F → State F → Prop where
  | refl (p s) : Steps p s p s
  | env {p s s' q r} : Env s s' → Steps p s' q r → Steps p s q r
  | act {p s p' s' q r} : Act p s p' s' → Steps p' s' q r → Steps p s q r

/-- All parameters, to evaluate `contains_changed`. -/
def allPars : List Par :=
  [.kp .pos, .ki .pos, .kd .pos, .iLimit .pos, .kp .vel, .ki .vel, .kd .vel, .iLimit .vel,
   .kp .cur, .ki .cur, .kd .cur, .iLimit .cur, .lowBatt, .velLimit, .torqueLimit, .accLimit, .torqueCst, .offset,
   .maxTemp, .rTh, .cTh, .currentGain, .transP, .transQ]

/-- `parameter_namespace_contains_changed` when no `set` is in progress (exact then, see `Param`). -/
def State.contains (s : State F) (n : Ns) : Bool := allPars.any fun x => s.changed x && x.inNs n

/-- The program without interruption. -/
def exec : Prog F → State F → State F
  | .done, s => s
  | .changed x k, s => exec (k (s.changed x)) s
  | .contains n k, s => exec (k (s.contains n)) s
  | .clear x k, s => exec k { s with changed := upd s.changed x false }
  | .read x k, s => exec (k (s.val x)) s
  | .assign d v k, s => exec k { s with der := upd s.der d v }
  | .load d k, s => exec (k (s.der d)) s

/-- The state in which `control_init` starts to look at the parameters: all have just been declared with their
defaults, which marks them as changed. -/
def declared (val : Par → F) (der : Der → F) : State F := ⟨val, fun _ => true, fun _ => 0, der⟩

end Verif.MotorParams
