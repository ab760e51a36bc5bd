import Verif.Crc.Props
import Verif.Timestamp.Props
import Verif.MotorCtl.Props
import Verif.Encoder.Props
import Verif.Safety.Props
import Verif.LruCache.Props
import Verif.Trace.Props
import Verif.BusEnum.Props
import Verif.MsgBus.Props
import Verif.Param.Props
import Verif.Param.ConcProps
import Verif.CmpMem.Props
import Verif.Msgpack.Props
import Verif.Flash.Props
import Verif.Flash.Sector
import Verif.Flash.Tree
import Verif.Flash.F3
import Verif.Raft.Props
import Verif.Raft.Safety
import Verif.Goap.Props
import Verif.Dijkstra.Props
import Verif.Oa.Props
import Verif.Uwb.Props
import Verif.Filter.Props
import Verif.Drive.Props
import Verif.Quadramp.Props
import Verif.Quadramp.Quick
import Verif.Servo.Props
import Verif.Gateway.Props
import Verif.Panel.Props
import Verif.Pressure.Props
import Verif.Tof.Props
import Verif.Imu.Props
import Verif.Msgpack.RobustProps
import Verif.Msgpack.Numbers
import Verif.Spi.Props
import Verif.Base.Props
import Verif.Base.Commands
import Verif.Strategy.Props
import Verif.Beacon.Props
import Verif.Motors.Props
import Verif.Geom.Props
import Verif.Pose.Props
import Verif.Ekf.Props
import Verif.Map.Props
import Verif.Plan.Props
import Verif.Match.Model
import Verif.Match.Spec
import Verif.Match.Lemmas
import Verif.Match.GotoProps
import Verif.Match.PlayProps
import Verif.Match.Auto
import Verif.Ranging.Props
import Verif.MotorSense.Props
import Verif.MotorParams.Props
import Verif.Ahrs.Props
import Verif.Udp.FrameProps
import Verif.Udp.BroadcastProps
import Verif.Circles.Props
import Verif.Curves.Props
import Verif.Curves.LineProps
import Verif.Curves.ClothoidProps
import Verif.Locks.Props
import Verif.Locks.Speed
import Verif.ParamServer.Props
import Verif.Config.Props
import Verif.Config.BootProps
import Verif.Config.Witness
import Verif.Calib.Props
import Verif.Radio.Props
import Verif.Radio.Drift
import Verif.Chain.Live
import Verif.Upload.Props
import Verif.Menu.Props
import Verif.Raft.Liveness
import Verif.MotorCtl.Float
import Verif.Opponent.Props
import Verif.Fat.Props
import Verif.Fat.AllocProps
import Verif.Fat.FreeProps
import Verif.Fat.FileProps
import Verif.Fat.SeekProps
import Verif.Fat.SyncProps
import Verif.Fat.SessionProps
import Verif.Fat.NameProps
import Verif.Fat.DirProps
import Verif.Fat.MountProps
import Verif.Fat.PathProps
import Verif.Tap.LimiterProps
import Verif.Tap.Props
import Verif.Studio.Props
import Verif.ParamPrint.Props
import Verif.Sim.Props
import Verif.Fat.UnlinkProps
import Verif.Fat.ListProps
import Verif.Fat.OpenProps
import Verif.Fat.MkdirProps
import Verif.Fat.ChangeProps
import Verif.Fat.RenameProps
import Verif.Fat.MoveProps
import Verif.Fat.VolumeProps
import Verif.Fat.StayProps
import Verif.Mpu.Props
import Verif.Gpio.Props
import Verif.Uart.Props
import Verif.ConfigSend.Props
