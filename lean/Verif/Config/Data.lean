import Verif.Config.Model

/-!
# Configuration files of the robots

The three files given to `config_to_c.py` and `config_to_msgpack.py` (master-firmware/CMakeLists.txt), converted entry
by entry in the order of the files. Floating point values are rounded to single precision.
-/

namespace Verif.Config

/-- config_order.yaml. -/
def orderFile : Dict :=
  .sub (str "master") (
    .leaf (str "is_main_robot") (.bool true) <|
    .leaf (str "control_panel_active_high") (.bool false) <|
    .leaf (str "electron_uwb_mac") (.int 42) <|
    .leaf (str "robot_size_x_mm") (.int 260) <|
    .leaf (str "robot_alignment_length_mm") (.int 135) <|
    .leaf (str "opponent_size_x_mm_default") (.int 400) <|
    .leaf (str "calibration_direction") (.int 1) <|
    .sub (str "odometry") (
      .leaf (str "external_encoder_ticks_per_mm") (.float 0x4322F983) <|
      .leaf (str "external_track_mm") (.float 0x434AC0C1) <|
      .leaf (str "left_wheel_correction_factor") (.float 0x3F800CB8) <|
      .leaf (str "right_wheel_correction_factor") (.float 0xBF7FE684) <|
      .nil) <|
    .sub (str "beacon") (
      .leaf (str "reflector_radius") (.float 0x3D23D70A) <|
      .leaf (str "angular_offset") (.float 0x3FC8F5C3) <|
      .nil) <|
    .sub (str "aversive") (
      .sub (str "control") (
        .sub (str "angle") (
          .leaf (str "kp") (.float 0x40800000) <|
          .leaf (str "ki") (.float 0x00000000) <|
          .leaf (str "kd") (.float 0x41C80000) <|
          .leaf (str "i_limit") (.float 0x41200000) <|
          .nil) <|
        .sub (str "distance") (
          .leaf (str "kp") (.float 0x3FC00000) <|
          .leaf (str "ki") (.float 0x3F000000) <|
          .leaf (str "kd") (.float 0x41200000) <|
          .leaf (str "i_limit") (.float 0x41200000) <|
          .nil) <|
        .nil) <|
      .sub (str "trajectories") (
        .sub (str "angle") (
          .sub (str "speed") (
            .leaf (str "init") (.float 0x3F400000) <|
            .leaf (str "slow") (.float 0x3F400000) <|
            .leaf (str "fast") (.float 0x40400000) <|
            .nil) <|
          .sub (str "acceleration") (
            .leaf (str "init") (.float 0x3FC8F5C3) <|
            .leaf (str "slow") (.float 0x3FC8F5C3) <|
            .leaf (str "fast") (.float 0x41200000) <|
            .nil) <|
          .nil) <|
        .sub (str "distance") (
          .sub (str "speed") (
            .leaf (str "init") (.float 0x3DCCCCCD) <|
            .leaf (str "slow") (.float 0x3E4CCCCD) <|
            .leaf (str "fast") (.float 0x3F000000) <|
            .nil) <|
          .sub (str "acceleration") (
            .leaf (str "init") (.float 0x3E19999A) <|
            .leaf (str "slow") (.float 0x3F000000) <|
            .leaf (str "fast") (.float 0x3FC00000) <|
            .nil) <|
          .nil) <|
        .sub (str "windows") (
          .leaf (str "distance") (.float 0x42C80000) <|
          .leaf (str "angle") (.float 0x42200000) <|
          .leaf (str "angle_start") (.float 0x42200000) <|
          .nil) <|
        .nil) <|
      .nil) <|
    .nil) <|
  .sub (str "actuator") (
    .sub (str "left-wheel") (
      .sub (str "encoders") (
        .sub (str "primary") (
          .leaf (str "p") (.int 49) <|
          .leaf (str "q") (.int 676) <|
          .leaf (str "ticks_per_rev") (.int 4096) <|
          .nil) <|
        .nil) <|
      .sub (str "motor") (
        .leaf (str "torque_cst") (.float 0x3F800000) <|
        .nil) <|
      .sub (str "control") (
        .leaf (str "mode") (.int 2) <|
        .sub (str "current") (
          .leaf (str "kp") (.float 0x40800000) <|
          .leaf (str "ki") (.float 0x44BB8000) <|
          .leaf (str "kd") (.float 0x00000000) <|
          .leaf (str "i_limit") (.float 0x42480000) <|
          .nil) <|
        .sub (str "velocity") (
          .leaf (str "kp") (.float 0x41A00000) <|
          .leaf (str "ki") (.float 0x42480000) <|
          .leaf (str "kd") (.float 0x00000000) <|
          .leaf (str "i_limit") (.float 0x447A0000) <|
          .nil) <|
        .sub (str "position") (
          .leaf (str "kp") (.float 0x3DCCCCCD) <|
          .leaf (str "ki") (.float 0x3F000000) <|
          .leaf (str "kd") (.float 0x00000000) <|
          .nil) <|
        .leaf (str "low_batt_th") (.float 0x40A00000) <|
        .leaf (str "acceleration_limit") (.float 0x43480000) <|
        .leaf (str "velocity_limit") (.float 0x42480000) <|
        .leaf (str "torque_limit") (.float 0x41F00000) <|
        .nil) <|
      .nil) <|
    .sub (str "right-wheel") (
      .sub (str "encoders") (
        .sub (str "primary") (
          .leaf (str "p") (.int 49) <|
          .leaf (str "q") (.int 676) <|
          .leaf (str "ticks_per_rev") (.int 4096) <|
          .nil) <|
        .nil) <|
      .sub (str "motor") (
        .leaf (str "torque_cst") (.float 0x3F800000) <|
        .nil) <|
      .sub (str "control") (
        .leaf (str "mode") (.int 2) <|
        .sub (str "current") (
          .leaf (str "kp") (.float 0x40800000) <|
          .leaf (str "ki") (.float 0x44BB8000) <|
          .leaf (str "kd") (.float 0x00000000) <|
          .leaf (str "i_limit") (.float 0x42480000) <|
          .nil) <|
        .sub (str "velocity") (
          .leaf (str "kp") (.float 0x41A00000) <|
          .leaf (str "ki") (.float 0x42480000) <|
          .leaf (str "kd") (.float 0x00000000) <|
          .leaf (str "i_limit") (.float 0x447A0000) <|
          .nil) <|
        .sub (str "position") (
          .leaf (str "kp") (.float 0x3DCCCCCD) <|
          .leaf (str "ki") (.float 0x3F000000) <|
          .leaf (str "kd") (.float 0x00000000) <|
          .nil) <|
        .leaf (str "low_batt_th") (.float 0x40A00000) <|
        .leaf (str "acceleration_limit") (.float 0x43480000) <|
        .leaf (str "velocity_limit") (.float 0x42480000) <|
        .leaf (str "torque_limit") (.float 0x41F00000) <|
        .nil) <|
      .nil) <|
    .nil) <|
  .nil

/-- config_chaos.yaml. -/
def chaosFile : Dict :=
  .sub (str "master") (
    .leaf (str "is_main_robot") (.bool false) <|
    .leaf (str "control_panel_active_high") (.bool true) <|
    .leaf (str "electron_uwb_mac") (.int 42) <|
    .leaf (str "robot_size_x_mm") (.int 260) <|
    .leaf (str "robot_alignment_length_mm") (.int 135) <|
    .leaf (str "opponent_size_x_mm_default") (.int 400) <|
    .leaf (str "calibration_direction") (.int 1) <|
    .sub (str "odometry") (
      .leaf (str "external_encoder_ticks_per_mm") (.float 0x4322F983) <|
      .leaf (str "external_track_mm") (.float 0x43546666) <|
      .leaf (str "left_wheel_correction_factor") (.float 0xBF7FDA52) <|
      .leaf (str "right_wheel_correction_factor") (.float 0x3F8012D6) <|
      .nil) <|
    .sub (str "beacon") (
      .leaf (str "reflector_radius") (.float 0x3D23D70A) <|
      .leaf (str "angular_offset") (.float 0x3FC8F5C3) <|
      .nil) <|
    .sub (str "aversive") (
      .sub (str "control") (
        .sub (str "angle") (
          .leaf (str "kp") (.float 0x3FC00000) <|
          .leaf (str "ki") (.float 0x3F000000) <|
          .leaf (str "kd") (.float 0x41200000) <|
          .leaf (str "i_limit") (.float 0x41200000) <|
          .nil) <|
        .sub (str "distance") (
          .leaf (str "kp") (.float 0x3FC00000) <|
          .leaf (str "ki") (.float 0x3F000000) <|
          .leaf (str "kd") (.float 0x41200000) <|
          .leaf (str "i_limit") (.float 0x41200000) <|
          .nil) <|
        .nil) <|
      .sub (str "trajectories") (
        .sub (str "angle") (
          .sub (str "speed") (
            .leaf (str "init") (.float 0x3F400000) <|
            .leaf (str "slow") (.float 0x3F400000) <|
            .leaf (str "fast") (.float 0x40400000) <|
            .nil) <|
          .sub (str "acceleration") (
            .leaf (str "init") (.float 0x3FC8F5C3) <|
            .leaf (str "slow") (.float 0x3FC8F5C3) <|
            .leaf (str "fast") (.float 0x41200000) <|
            .nil) <|
          .nil) <|
        .sub (str "distance") (
          .sub (str "speed") (
            .leaf (str "init") (.float 0x3DCCCCCD) <|
            .leaf (str "slow") (.float 0x3E4CCCCD) <|
            .leaf (str "fast") (.float 0x3F000000) <|
            .nil) <|
          .sub (str "acceleration") (
            .leaf (str "init") (.float 0x3E19999A) <|
            .leaf (str "slow") (.float 0x3F000000) <|
            .leaf (str "fast") (.float 0x3FC00000) <|
            .nil) <|
          .nil) <|
        .sub (str "windows") (
          .leaf (str "distance") (.float 0x42C80000) <|
          .leaf (str "angle") (.float 0x42200000) <|
          .leaf (str "angle_start") (.float 0x42200000) <|
          .nil) <|
        .nil) <|
      .nil) <|
    .nil) <|
  .sub (str "actuator") (
    .sub (str "left-wheel") (
      .sub (str "encoders") (
        .sub (str "primary") (
          .leaf (str "p") (.int 49) <|
          .leaf (str "q") (.int 676) <|
          .leaf (str "ticks_per_rev") (.int 4096) <|
          .nil) <|
        .nil) <|
      .sub (str "motor") (
        .leaf (str "torque_cst") (.float 0x3F800000) <|
        .nil) <|
      .sub (str "control") (
        .leaf (str "mode") (.int 2) <|
        .sub (str "current") (
          .leaf (str "kp") (.float 0x40800000) <|
          .leaf (str "ki") (.float 0x44BB8000) <|
          .leaf (str "kd") (.float 0x00000000) <|
          .leaf (str "i_limit") (.float 0x42480000) <|
          .nil) <|
        .sub (str "velocity") (
          .leaf (str "kp") (.float 0x41A00000) <|
          .leaf (str "ki") (.float 0x42480000) <|
          .leaf (str "kd") (.float 0x00000000) <|
          .leaf (str "i_limit") (.float 0x447A0000) <|
          .nil) <|
        .sub (str "position") (
          .leaf (str "kp") (.float 0x3DCCCCCD) <|
          .leaf (str "ki") (.float 0x3F000000) <|
          .leaf (str "kd") (.float 0x00000000) <|
          .nil) <|
        .leaf (str "low_batt_th") (.float 0x40A00000) <|
        .leaf (str "acceleration_limit") (.float 0x43480000) <|
        .leaf (str "velocity_limit") (.float 0x42480000) <|
        .leaf (str "torque_limit") (.float 0x41F00000) <|
        .nil) <|
      .nil) <|
    .sub (str "right-wheel") (
      .sub (str "encoders") (
        .sub (str "primary") (
          .leaf (str "p") (.int 49) <|
          .leaf (str "q") (.int 676) <|
          .leaf (str "ticks_per_rev") (.int 4096) <|
          .nil) <|
        .nil) <|
      .sub (str "motor") (
        .leaf (str "torque_cst") (.float 0x3F800000) <|
        .nil) <|
      .sub (str "control") (
        .leaf (str "mode") (.int 2) <|
        .sub (str "current") (
          .leaf (str "kp") (.float 0x40800000) <|
          .leaf (str "ki") (.float 0x44BB8000) <|
          .leaf (str "kd") (.float 0x00000000) <|
          .leaf (str "i_limit") (.float 0x42480000) <|
          .nil) <|
        .sub (str "velocity") (
          .leaf (str "kp") (.float 0x41A00000) <|
          .leaf (str "ki") (.float 0x42480000) <|
          .leaf (str "kd") (.float 0x00000000) <|
          .leaf (str "i_limit") (.float 0x447A0000) <|
          .nil) <|
        .sub (str "position") (
          .leaf (str "kp") (.float 0x3DCCCCCD) <|
          .leaf (str "ki") (.float 0x3F000000) <|
          .leaf (str "kd") (.float 0x00000000) <|
          .nil) <|
        .leaf (str "low_batt_th") (.float 0x40A00000) <|
        .leaf (str "acceleration_limit") (.float 0x43480000) <|
        .leaf (str "velocity_limit") (.float 0x42480000) <|
        .leaf (str "torque_limit") (.float 0x41F00000) <|
        .nil) <|
      .nil) <|
    .nil) <|
  .nil

/-- config_simulation.yaml. -/
def simulationFile : Dict :=
  .sub (str "master") (
    .leaf (str "is_main_robot") (.bool false) <|
    .leaf (str "control_panel_active_high") (.bool true) <|
    .leaf (str "electron_uwb_mac") (.int 42) <|
    .leaf (str "robot_size_x_mm") (.int 260) <|
    .leaf (str "robot_alignment_length_mm") (.int 135) <|
    .leaf (str "opponent_size_x_mm_default") (.int 400) <|
    .leaf (str "calibration_direction") (.int 1) <|
    .sub (str "odometry") (
      .leaf (str "external_encoder_ticks_per_mm") (.float 0x43220000) <|
      .leaf (str "external_track_mm") (.float 0x432E0000) <|
      .leaf (str "left_wheel_correction_factor") (.float 0xBF800000) <|
      .leaf (str "right_wheel_correction_factor") (.float 0x3F800000) <|
      .nil) <|
    .sub (str "beacon") (
      .leaf (str "reflector_radius") (.float 0x3D23D70A) <|
      .leaf (str "angular_offset") (.float 0x00000000) <|
      .nil) <|
    .sub (str "aversive") (
      .sub (str "control") (
        .sub (str "angle") (
          .leaf (str "kp") (.float 0x40200000) <|
          .leaf (str "ki") (.float 0x00000000) <|
          .leaf (str "kd") (.float 0x00000000) <|
          .leaf (str "i_limit") (.float 0x41200000) <|
          .nil) <|
        .sub (str "distance") (
          .leaf (str "kp") (.float 0x3FC00000) <|
          .leaf (str "ki") (.float 0x00000000) <|
          .leaf (str "kd") (.float 0x00000000) <|
          .leaf (str "i_limit") (.float 0x41200000) <|
          .nil) <|
        .nil) <|
      .sub (str "trajectories") (
        .sub (str "angle") (
          .sub (str "speed") (
            .leaf (str "init") (.float 0x3F400000) <|
            .leaf (str "slow") (.float 0x3F400000) <|
            .leaf (str "fast") (.float 0x40400000) <|
            .nil) <|
          .sub (str "acceleration") (
            .leaf (str "init") (.float 0x3FC8F5C3) <|
            .leaf (str "slow") (.float 0x3FC8F5C3) <|
            .leaf (str "fast") (.float 0x41200000) <|
            .nil) <|
          .nil) <|
        .sub (str "distance") (
          .sub (str "speed") (
            .leaf (str "init") (.float 0x3F000000) <|
            .leaf (str "slow") (.float 0x3E4CCCCD) <|
            .leaf (str "fast") (.float 0x3F000000) <|
            .nil) <|
          .sub (str "acceleration") (
            .leaf (str "init") (.float 0x3FC00000) <|
            .leaf (str "slow") (.float 0x3F000000) <|
            .leaf (str "fast") (.float 0x3FC00000) <|
            .nil) <|
          .nil) <|
        .sub (str "windows") (
          .leaf (str "distance") (.float 0x42C80000) <|
          .leaf (str "angle") (.float 0x3F800000) <|
          .leaf (str "angle_start") (.float 0x42200000) <|
          .nil) <|
        .nil) <|
      .nil) <|
    .nil) <|
  .sub (str "actuators") (
    .sub (str "actuator-front-left") (
      .leaf (str "high_position") (.float 0x3DCCCCCD) <|
      .leaf (str "table_pickup_position") (.float 0x3F822D0E) <|
      .leaf (str "reef_pickup_position") (.float 0x3FD5E354) <|
      .nil) <|
    .sub (str "actuator-front-center") (
      .leaf (str "high_position") (.float 0x3DCCCCCD) <|
      .leaf (str "table_pickup_position") (.float 0x3F822D0E) <|
      .leaf (str "reef_pickup_position") (.float 0x3FD5E354) <|
      .nil) <|
    .sub (str "actuator-front-right") (
      .leaf (str "high_position") (.float 0x3DCCCCCD) <|
      .leaf (str "table_pickup_position") (.float 0x3F822D0E) <|
      .leaf (str "reef_pickup_position") (.float 0x3FD5E354) <|
      .nil) <|
    .sub (str "actuator-back-left") (
      .leaf (str "high_position") (.float 0x3DCCCCCD) <|
      .leaf (str "table_pickup_position") (.float 0x3F822D0E) <|
      .leaf (str "reef_pickup_position") (.float 0x3FD5E354) <|
      .nil) <|
    .sub (str "actuator-back-center") (
      .leaf (str "high_position") (.float 0x3DCCCCCD) <|
      .leaf (str "table_pickup_position") (.float 0x3F822D0E) <|
      .leaf (str "reef_pickup_position") (.float 0x3FD5E354) <|
      .nil) <|
    .sub (str "actuator-back-right") (
      .leaf (str "high_position") (.float 0x3DCCCCCD) <|
      .leaf (str "table_pickup_position") (.float 0x3F822D0E) <|
      .leaf (str "reef_pickup_position") (.float 0x3FD5E354) <|
      .nil) <|
    .nil) <|
  .nil


end Verif.Config
