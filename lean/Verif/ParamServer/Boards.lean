import Verif.Param.Spec
import Verif.ParamServer.Model

/-! # The parameters declared on two boards -/

namespace Verif.ParamServer

open Verif.Param

/-- The declarations of the motor board, newest first: root main.c:121, control.c:224-296 (called by `control_init`),
uavcan_streams.cpp:56-63 (all motor-control-firmware/src). The memory before the declaration is taken to be 0. -/
def motorOps : List Op :=
  [.declNs 0 none [],
   .declNs 1 (some 0) (str "control"),
   .declPar 0 1 (str "low_batt_th") (.scalar 0 (some 0x40a00000)),
   .declPar 1 1 (str "velocity_limit") (.scalar 0 (some 0x7f800000)),
   .declPar 2 1 (str "torque_limit") (.scalar 0 (some 0x7f800000)),
   .declPar 3 1 (str "acceleration_limit") (.scalar 0 (some 0x7f800000)),
   .declNs 2 (some 1) (str "position"),
   .declPar 4 2 (str "kp") (.scalar 0 (some 0x00000000)),
   .declPar 5 2 (str "ki") (.scalar 0 (some 0x00000000)),
   .declPar 6 2 (str "kd") (.scalar 0 (some 0x00000000)),
   .declPar 7 2 (str "i_limit") (.scalar 0 (some 0x7f800000)),
   .declNs 3 (some 1) (str "velocity"),
   .declPar 8 3 (str "kp") (.scalar 0 (some 0x00000000)),
   .declPar 9 3 (str "ki") (.scalar 0 (some 0x00000000)),
   .declPar 10 3 (str "kd") (.scalar 0 (some 0x00000000)),
   .declPar 11 3 (str "i_limit") (.scalar 0 (some 0x7f800000)),
   .declNs 4 (some 1) (str "current"),
   .declPar 12 4 (str "kp") (.scalar 0 (some 0x00000000)),
   .declPar 13 4 (str "ki") (.scalar 0 (some 0x00000000)),
   .declPar 14 4 (str "kd") (.scalar 0 (some 0x00000000)),
   .declPar 15 4 (str "i_limit") (.scalar 0 (some 0x7f800000)),
   .declPar 16 1 (str "mode") (.integer 0 (some 0)),
   .declNs 5 (some 0) (str "motor"),
   .declPar 17 5 (str "torque_cst") (.scalar 0 (some 0x3f800000)),
   .declPar 18 5 (str "current_offset") (.scalar 0 (some 0x00000000)),
   .declNs 6 (some 0) (str "thermal"),
   .declPar 19 6 (str "current_gain") (.scalar 0 (some 0x3f800000)),
   .declPar 20 6 (str "max_temp") (.scalar 0 (some 0x7f800000)),
   .declPar 21 6 (str "Rth") (.scalar 0 (some 0x3f800000)),
   .declPar 22 6 (str "Cth") (.scalar 0 (some 0x7f800000)),
   .declNs 7 (some 0) (str "encoders"),
   .declNs 8 (some 7) (str "primary"),
   .declPar 23 8 (str "p") (.integer 0 (some 1)),
   .declPar 24 8 (str "q") (.integer 0 (some 1)),
   .declPar 25 8 (str "ticks_per_rev") (.integer 0 (some 1024)),
   .declNs 9 (some 7) (str "secondary"),
   .declPar 26 9 (str "p") (.integer 0 (some 1)),
   .declPar 27 9 (str "q") (.integer 0 (some 1)),
   .declPar 28 9 (str "ticks_per_rev") (.integer 0 (some 1024)),
   .declNs 10 (some 0) (str "potentiometer"),
   .declPar 29 10 (str "gain") (.scalar 0 (some 0x3f800000)),
   .declPar 30 10 (str "zero") (.scalar 0 (some 0x00000000)),
   .declNs 11 (some 0) (str "rpm"),
   .declPar 31 11 (str "phase") (.scalar 0 (some 0x00000000)),
   .declNs 12 (some 0) (str "streams"),
   .declPar 32 12 (str "current") (.scalar 0 (some 0x00000000)),
   .declPar 33 12 (str "velocity") (.scalar 0 (some 0x00000000)),
   .declPar 34 12 (str "position") (.scalar 0 (some 0x00000000)),
   .declPar 35 12 (str "index") (.scalar 0 (some 0x00000000)),
   .declPar 36 12 (str "enc_pos") (.scalar 0 (some 0x00000000)),
   .declPar 37 12 (str "motor_pos") (.scalar 0 (some 0x00000000)),
   .declPar 38 12 (str "motor_torque") (.scalar 0 (some 0x00000000))].reverse

/-- The declarations of the beacon: root main.c:49, ahrs_thread.c:20-21, ranging_thread.c:362-393, state_estimation_thread.cpp:118-126,
uavcan/topics_publisher.cpp:99-104 (all uwb-beacon-firmware/src). They are made by different threads; this is
one possible order. -/
def beaconOps : List Op :=
  [.declNs 0 none [],
   .declNs 1 (some 0) (str "ahrs"),
   .declPar 0 1 (str "beta") (.scalar 0 (some 0x3dcccccd)),
   .declNs 2 (some 0) (str "uwb"),
   .declPar 1 2 (str "mac_addr") (.integer 0 (some 0)),
   .declPar 2 2 (str "pan_id") (.integer 0 (some 0)),
   .declPar 3 2 (str "antenna_delay") (.integer 0 (some 32915)),
   .declNs 3 (some 2) (str "anchor"),
   .declPar 4 3 (str "is_anchor") (.boolean false (some false)),
   .declPar 5 3 (str "advertisement_period_ms") (.integer 0 (some 100)),
   .declNs 4 (some 3) (str "position"),
   .declPar 6 4 (str "x") (.scalar 0 (some 0x00000000)),
   .declPar 7 4 (str "y") (.scalar 0 (some 0x00000000)),
   .declPar 8 4 (str "z") (.scalar 0 (some 0x00000000)),
   .declNs 5 (some 0) (str "ekf"),
   .declPar 9 5 (str "process_variance") (.scalar 0 (some 0x368637bd)),
   .declPar 10 5 (str "range_variance") (.scalar 0 (some 0x3a6bedfa)),
   .declNs 6 (some 0) (str "publish"),
   .declPar 11 6 (str "imu") (.boolean false (some false)),
   .declPar 12 6 (str "attitude") (.boolean false (some false)),
   .declPar 13 6 (str "range") (.boolean false (some false)),
   .declPar 14 6 (str "tag_positions") (.boolean false (some false)),
   .declPar 15 6 (str "data_packets") (.boolean false (some true))].reverse

end Verif.ParamServer
