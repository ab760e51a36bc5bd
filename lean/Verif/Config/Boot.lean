import Verif.Config.Data

/-!
# Start of the master firmware, as far as parameters are concerned

Model of the calls in `main` from `config_init` to `config_load_from_flash` which declare parameters
(master-firmware/src/main.cpp:104-156): `init_base_motors` and `init_actuators`.
-/

namespace Verif.Config

open Verif.Param
open HeapList (upd)

/-- One declaration; the objects have consecutive cells, so a declaration says how far back its namespace is, or that it
is a given one. -/
inductive D where
  | ns (parent : Nat) (id : Str)
  | scalar (ns : Nat) (id : Str) (default : W32)
  | integer (ns : Nat) (id : Str) (default : W32)
deriving DecidableEq, Repr

/-- `pid_register`, can/motor_driver.c:6-15, with the cell `c` of `pid->root`. -/
def pidRegister (c parent : Nat) (name : Str) : List (Nat × D) :=
  [(c, .ns parent name), (c + 1, .scalar c (str "kp") 0), (c + 2, .scalar c (str "ki") 0), (c + 3, .scalar c (str "kd") 0),
   (c + 4, .scalar c (str "i_limit") 0)]

/-- `motor_driver_init`, can/motor_driver.c:17-63, with the cell `c` of `d->config.root`. The identifier is at most 24
characters long (`MOTOR_ID_MAX_LEN`), which holds for the ones used. -/
def motorDriverInit (c : Nat) (id : Str) (ns : Nat) : List (Nat × D) :=
  [(c, .ns ns id), (c + 1, .ns c (str "control"))] ++
  pidRegister (c + 2) (c + 1) (str "position") ++ pidRegister (c + 7) (c + 1) (str "velocity") ++ pidRegister (c + 12) (c + 1) (str "current") ++
  [(c + 17, .scalar (c + 1) (str "torque_limit") 0), (c + 18, .scalar (c + 1) (str "velocity_limit") 0),
   (c + 19, .scalar (c + 1) (str "acceleration_limit") 0), (c + 20, .scalar (c + 1) (str "low_batt_th") 0x41400000),
   (c + 21, .integer (c + 1) (str "mode") 4),
   (c + 22, .ns c (str "motor")), (c + 23, .scalar (c + 22) (str "torque_cst") 0x3F800000),
   (c + 24, .ns c (str "encoders")), (c + 25, .ns (c + 24) (str "primary")), (c + 26, .integer (c + 25) (str "p") 1),
   (c + 27, .integer (c + 25) (str "q") 1), (c + 28, .integer (c + 25) (str "ticks_per_rev") 4096),
   (c + 29, .ns c (str "streams")), (c + 30, .scalar (c + 29) (str "current") 0), (c + 31, .scalar (c + 29) (str "velocity") 0),
   (c + 32, .scalar (c + 29) (str "position") 0), (c + 33, .scalar (c + 29) (str "index") 0), (c + 34, .scalar (c + 29) (str "enc_pos") 0),
   (c + 35, .scalar (c + 29) (str "motor_pos") 0), (c + 36, .scalar (c + 29) (str "motor_torque") 0)]

/-- `actuator_driver_init`, can/actuator_driver.c:4-23, with the cell `c` of `drv->param_ns`. -/
def actuatorDriverInit (c parent : Nat) (name : Str) : List (Nat × D) :=
  [(c, .ns parent name), (c + 1, .scalar c (str "high_position") 0x3A83126F), (c + 2, .scalar c (str "reef_pickup_position") 0x3B03126F),
   (c + 3, .scalar c (str "table_pickup_position") 0x3B449BA6), (c + 4, .scalar c (str "pump_pwm") 0x3E99999A)]

/-- `init_base_motors` and `init_actuators`, main.cpp:182-210. The bus enumerator does not know the names yet
(`motor_manager_create_driver`, motor_manager.c:22-47) and has room for them. -/
def bootDecls (global actuator : Nat) (c : Nat) : List (Nat × D) :=
  motorDriverInit c (str "left-wheel") actuator ++ motorDriverInit (c + 37) (str "right-wheel") actuator ++
  [(c + 74, .ns global (str "actuators"))] ++
  actuatorDriverInit (c + 75) (c + 74) (str "actuator-front-left") ++ actuatorDriverInit (c + 80) (c + 74) (str "actuator-front-center") ++
  actuatorDriverInit (c + 85) (c + 74) (str "actuator-front-right") ++ actuatorDriverInit (c + 90) (c + 74) (str "actuator-back-left") ++
  actuatorDriverInit (c + 95) (c + 74) (str "actuator-back-center") ++ actuatorDriverInit (c + 100) (c + 74) (str "actuator-back-right")

/-- The functions called. -/
def D.declare (fuel : Nat) (h : Heap) (c : Nat) : D → Except Err Heap
  | .ns parent id => .ok (nsDeclare h c (some parent) id)
  | .scalar n id d => Param.declare fuel h c n id (.scalar 0 (some d))
  | .integer n id d => Param.declare fuel h c n id (.integer 0 (some d))

def declareAll (fuel : Nat) : Heap → List (Nat × D) → Except Err Heap
  | h, [] => .ok h
  | h, (c, d) :: ds => do
    let h ← d.declare fuel h c
    declareAll fuel h ds

/-- `main` up to the load: main.cpp:114, :142, :143. -/
def boot (fuel : Nat) (h0 : Heap) (p : Prog) : Except Err Heap := do
  let h ← configInit fuel h0 p
  declareAll fuel h (bootDecls p.global p.actuator (p.actuator + 1))

end Verif.Config
