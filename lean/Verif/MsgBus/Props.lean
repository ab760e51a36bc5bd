import Verif.MsgBus.BusProps
import Verif.MsgBus.TopicProps
import Verif.MsgBus.BusConc
