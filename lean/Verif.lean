import Verif.Utf8.Props
import Verif.Masking.Props
import Verif.Base64.Props
import Verif.Endian.Props
import Verif.Memmem.Props
import Verif.Random.Props
import Verif.Sha1.Props
import Verif.WriteBuffer.Props
import Verif.BufferedRead.Props
import Verif.BufferedWrite.Props
import Verif.WsSend.Props
import Verif.WsRecv.Neg
import Verif.WsQueue.Neg
import Verif.HttpLocation.Props
import Verif.Epoll.Props
import Verif.Timer.Props
import Verif.Socket.Props
import Verif.Uart.Props
import Verif.Uart.Io
import Verif.Address.Props
import Verif.HttpResponse.Props
import Verif.WsHandshake.Props
import Verif.HttpLife.Neg
import Verif.Refuse.Props
import Verif.Resources.Props
import Verif.HttpChunks.Props
import Verif.Socket.Results
import Verif.WsQueue.FrameSeqProps
import Verif.WsRoundTrip.EndToEnd
import Verif.BufferedWrite.HeapProps
import Verif.WsClose.Props
import Verif.WsStream.Props
import Verif.WsQueue.PongProps
import Verif.Zephyr.LoopProps
import Verif.Zephyr.TimerProps
import Verif.Zephyr.SocketProps
import Verif.Zephyr.AcceptProps
import Verif.Zephyr.Misc
import Verif.Windows.LoopProps
import Verif.Windows.TimerProps
import Verif.Windows.SocketProps
import Verif.Windows.AcceptProps
import Verif.Windows.UartProps
import Verif.Windows.UartIoProps
import Verif.Windows.Misc
import Verif.HttpChunks.Upgrade
import Verif.WsStream.Handover
import Verif.WsStream.Pressure
import Verif.Uart.IoWrites
import Verif.Uart.Getters
import Verif.Uart.Ports
import Verif.Windows.Ports
import Verif.WsStream.RoundTrip
import Verif.HttpLife.Error
import Verif.HttpUrl.Props
import Verif.StreamSocket.Examples
import Verif.WsTcp.Examples
import Verif.Epoll.Cancel
import Verif.WsQueue.Closing
import Verif.Masking.AnyMachine
import Verif.Utf8.AnyMachine
import Verif.HttpChunks.Stuck
import Verif.WsRecv.CallsProps
import Verif.Autobahn.Props
import Verif.Linux.ObjectsProps
import Verif.Linux.CloseTimer
import Verif.Linux.ServerProps
import Verif.WsRecv.WordProps
import Verif.HttpLife.TimedProps
import Verif.Masking.Exact
import Verif.Linux.Others
import Verif.Echo.Examples
import Verif.Autobahn.RoundTrip
import Verif.PlainEcho.Examples
import Verif.HttpTcp.Examples
import Verif.WsExample.Examples
import Verif.Periodic.Live
import Verif.HttpExample.Serve
import Verif.PingPong.Examples
import Verif.WsExample.Pings
import Verif.HttpExample.Stops
import Verif.StreamSocket.Exact
import Verif.Echo.Exact
import Verif.PingPong.Exact
import Verif.HttpTcp.Copies
import Verif.ConnectExample.Props
import Verif.TwoConnects.Inv
import Verif.TwoConnects.Server
import Verif.TwoConnects.Props
import Verif.TwoConnects.Prog
import Verif.TwoConnects.Examples
import Verif.UartExample.Props
import Verif.WsTcp.Exact
import Verif.WsTcp.Fragments
