import Verif.Props.Bits
import Verif.Props.Prim
import Verif.Props.Codec
import Verif.Props.Transfer
import Verif.Props.Framing
import Verif.Props.Crc
import Verif.Props.TransferManager
import Verif.Props.Container
import Verif.Props.Compound
import Verif.Props.Alias
import Verif.Props.Timers
import Verif.Props.Requests
import Verif.Props.Transmit
import Verif.Props.Dispatch
import Verif.Props.Hooks
import Verif.Props.Service
import Verif.Props.Collector
import Verif.Props.Monitor
import Verif.Props.Allocator
import Verif.Props.FileServer
import Verif.Props.Serial
import Verif.Props.Slcan
import Verif.Props.SlcanStream
import Verif.Props.LogFile
import Verif.Props.Packet
import Verif.Props.Timestamps
import Verif.Props.Signature
import Verif.Props.Namespaces
import Verif.Props.Tokens
import Verif.Props.ArraySize
import Verif.Props.Float16
import Verif.Props.Introspect
import Verif.Props.MonitorInfo
import Verif.Props.AllocTable
import Verif.Props.SerialAlive
import Verif.Props.LogRead
import Verif.Props.SlcanLine
import Verif.Props.SlcanCommands
import Verif.Props.WellFormed
import Verif.Props.Layout
import Verif.Props.References
import Verif.Props.Normal
import Verif.Props.FileNames
import Verif.Props.Source
import Verif.Props.Meaning
import Verif.Props.TypeSignature
import Verif.Props.Writer
import Verif.Props.Mcast
import Verif.Props.Network
import Verif.Props.Handled
import Verif.Props.Rpc
import Verif.Props.Mavcan
import Verif.Props.Json
import Verif.Props.Yaml
import Verif.Props.SlcanDriver
import Verif.Props.SlcanTx
import Verif.Props.SlcanInit
import Verif.Props.SlcanReceive
import Verif.Props.PythonCan
import Verif.Props.IoHooks
import Verif.Props.QueueApi
import Verif.Props.Closing
import Verif.Props.SocketReceive
import Verif.Props.FloatField
import Verif.Props.Attributes
import Verif.Props.Sniffing
import Verif.Props.EndToEnd
import Verif.Props.MakeDriver
import Verif.Props.SlcanProcess
import Verif.Props.LogReplay
import Verif.Props.MonitorUse
import Verif.Props.AllocMonitor
import Verif.Props.WriterClose
import Verif.Props.McastUrl
import Verif.Props.TextField
import Verif.Props.LogMonitor
import Verif.Props.FileWire
import Verif.Props.AllocWire
import Verif.Props.MonitorWire
import Verif.Props.SerialWire
import Verif.Props.DriverClose
import Verif.Props.Loaded
import Verif.Props.Mismatch
import Verif.Props.SlcanOpen
import Verif.Props.HandlerClass
import Verif.Props.RetrySerial
import Verif.Props.LiveIter
import Verif.Props.DeepCopy
import Verif.Props.Reentrant
import Verif.Props.CodecBounds
import Verif.Props.Bridge
import Verif.Props.MsgidDecode
import Verif.Props.TcpLink
import Verif.Props.Names
import Verif.Props.SlcanTime
import Verif.Model.ConstExpr
import Verif.Props.ConstExpr
import Verif.Model.Equality
import Verif.Props.Equality
import Verif.Model.Enumeration
import Verif.Props.Enumeration
import Verif.Model.FirmwareUpdate
import Verif.Props.FirmwareUpdate
import Verif.Model.Options
import Verif.Props.Options
import Verif.Model.Extract
import Verif.Props.Extract
import Verif.Model.Threads
import Verif.Props.Threads
import Verif.Model.Tunnel
import Verif.Props.Tunnel
import Verif.Model.FirmwareFile
import Verif.Props.FirmwareFile
import Verif.Props.LogNode
import Verif.Model.GnssTools
import Verif.Props.GnssTools
import Verif.Props.BridgeNode
import Verif.Model.Actuators
import Verif.Props.Actuators
import Verif.Model.LegacySocket
import Verif.Props.LegacySocket
import Verif.Model.FloatStamps
import Verif.Props.FloatStamps
import Verif.Model.FloatTimers
import Verif.Props.FloatTimers
import Verif.Model.FloatClocks
import Verif.Props.FloatClocks
import Verif.Model.Hobbywing
import Verif.Props.Hobbywing
import Verif.Model.RequestThreads
import Verif.Props.RequestThreads
import Verif.Model.Simulators
import Verif.Props.Simulators
import Verif.Model.InfoLoop
import Verif.Props.InfoLoop
import Verif.Model.MonitorThreads
import Verif.Props.MonitorThreads
import Verif.Props.MonitorAlone
import Verif.Model.FloatTimeouts
import Verif.Props.FloatTimeouts
import Verif.Model.FrameText
import Verif.Props.FrameText
