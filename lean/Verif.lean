import Verif.Timestamp.Props
import Verif.Ascii.Props
import Verif.Pwm.Props
import Verif.Samples.Equations
import Verif.Log.Props
import Verif.Log.Entry
import Verif.Log.Files
import Verif.Streambuf.Props
import Verif.Multifile.Props
import Verif.Endpoint.Shutdown
import Verif.Endpoint.Props
import Verif.Endpoint.Wire
import Verif.Smbus.Props
import Verif.Smbus.Threads
import Verif.Http.Props
import Verif.Http.Calls
import Verif.Http.Safety
import Verif.Http.Query
import Verif.Json.Props
import Verif.Vmem.PoolWrap
import Verif.Vmem.PagesProps
import Verif.Vmem.ContClear
import Verif.Vmem.ContRange
import Verif.Vmem.ContStable
import Verif.Vmem.ContFree
import Verif.Samples.TicTacToeEngine
import Verif.Samples.Connect4Engine
import Verif.Samples.GameServer
import Verif.Samples.GameSlots
import Verif.Samples.GameReplace
import Verif.Samples.ClaimRace
import Verif.Samples.ClaimReplace
import Verif.Resource.Password
import Verif.Samples.GameThreads
import Verif.Samples.Connect4Threads
import Verif.Gpio.ThreadsProps
import Verif.Vmem.PoolOpen
import Verif.Vmem.MapViolations
import Verif.Vmem.MapSmall
import Verif.Vmem.MapErase
import Verif.Samples.GameWireProps
import Verif.Samples.GameWireTotal
import Verif.Resource.SocketClaims
import Verif.Resource.DevicesProps
import Verif.Gpio.Ultrasonic
import Verif.Gpio.MotionProps
import Verif.Gpio.Grayscale
import Verif.Gpio.TrackerShared
import Verif.Samples.CarProps
import Verif.Samples.CarWire
import Verif.Samples.CarWireProps
import Verif.Samples.CarWireTotal
import Verif.Samples.TicTacToeFast
import Verif.Samples.TicTacToeFastProps
import Verif.Samples.TicTacToeFastPlay
import Verif.Samples.Connect4Fast
import Verif.Samples.Connect4FastProps
import Verif.Samples.EquationsWire
import Verif.Samples.EquationsWireProps
import Verif.Samples.EquationsDouble
import Verif.Samples.EquationsWireTotal
import Verif.Json.Short
import Verif.Http.Short
import Verif.Samples.ShortInput
import Verif.Json.Accept
import Verif.Ascii.Case
import Verif.Vmem.MapClear
import Verif.Samples.Connect4Server
import Verif.Samples.Connect4Wire
import Verif.Samples.Connect4WireProps
import Verif.Samples.Connect4WireTotal
import Verif.Samples.Connect4Short
import Verif.Vmem.MapBad
import Verif.Vmem.Layout
import Verif.Vmem.LayoutMap
import Verif.Testing.Suite
import Verif.Testing.Equal
import Verif.Vmem.StringKeep
import Verif.Vmem.StringStream
import Verif.Vmem.PoolRef
import Verif.Samples.TlsSample
import Verif.Samples.VmemSample
import Verif.Samples.GameRace
import Verif.Samples.GameList
import Verif.Samples.CarRace
import Verif.Samples.Connect4List
import Verif.Samples.Connect4Race
