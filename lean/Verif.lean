import Verif.IOBuffer.Props
import Verif.WebSocket.Props
import Verif.WebSocket.Server
import Verif.WebSocket.ServerProps
import Verif.WebSocket.Client
import Verif.Raw.Props
import Verif.Line.Props
import Verif.Base64.Props
import Verif.Lru.Props
import Verif.Sketch.Bloom
import Verif.Sketch.CountMin
import Verif.Maglev.Props
import Verif.Router.RingHash
import Verif.Router.RoundRobin
import Verif.BoolIndex.Ids
import Verif.BoolIndex.Cursor
import Verif.BoolIndex.Props
import Verif.BoolIndex.Document
import Verif.Client.AsyncProps
import Verif.Client.Queued
import Verif.Text.Split
import Verif.Text.StrUtil
import Verif.Text.StrError
import Verif.Text.PrettyBytes
import Verif.Text.Itoa
import Verif.Text.ByteOrder
import Verif.Text.StringView
import Verif.Text.Numbers
import Verif.Inverted.Json
import Verif.Inverted.Bitmap
import Verif.WebSocket.Upgrade
import Verif.Client.WsLife
import Verif.Client.DialSend
import Verif.Client.DialSync
import Verif.Client.Ordered
import Verif.Client.Rpc
import Verif.Client.Deadline
import Verif.Client.QueueDeadline
import Verif.Http.Alpn
import Verif.Num.Conv
import Verif.Num.Checked
import Verif.Num.Clamped
import Verif.Http.Status
import Verif.Http.Headers
import Verif.Http.Assemble
import Verif.Http.Encode
import Verif.Net.TcpProps
import Verif.Net.Link
import Verif.Net.SslChannel
import Verif.Net.CodecClose
import Verif.Loop.FdReg
import Verif.Loop.MsgProps
import Verif.Loop.StartStop
import Verif.Server.AccProps
import Verif.Redis.CodecProps
import Verif.Redis.Rpc
import Verif.Redis.Startup
import Verif.Net.Lifetime
import Verif.Net.TlsTrust
import Verif.Redis.Encode
import Verif.Redis.Storage
import Verif.Redis.Buffer
import Verif.Redis.BufferProps
import Verif.Redis.BufferRun
import Verif.Url.More
import Verif.Net.IpProps2
import Verif.Containers.LinkedList
import Verif.Coro.IoEvent
import Verif.Client.Select
import Verif.Timer.Pump
import Verif.Timer.Repeating
import Verif.Inverted.Range
import Verif.Sync.Spin
import Verif.Sync.Lazy
import Verif.Sync.Tagged
import Verif.Sync.RefList
import Verif.Sync.RefPtr
import Verif.Sync.Guards
import Verif.Metrics.Hist
import Verif.Metrics.Acc
import Verif.Metrics.Stash
import Verif.Source.Props
import Verif.Source.Config
import Verif.Util.Rand
import Verif.Util.Gzip
import Verif.Http.H2Token
import Verif.Http.H2
import Verif.Time.Delta
import Verif.Time.Calendar
import Verif.Time.Parse
import Verif.Time.ParseProps
import Verif.Time.Convert
import Verif.Time.Ticks
import Verif.Hash.Sha1
import Verif.Hash.Md5
import Verif.Hash.CrcTab
import Verif.Hash.Crc
import Verif.Hash.Murmur
import Verif.Http.UrlParser
import Verif.Http.UrlAbsolute
import Verif.Http.RequestUrl
import Verif.Http.Rpc
import Verif.Http.Receive
import Verif.Http.ReceiveTok
import Verif.Http.Send
import Verif.Http.Connection
import Verif.Http.ConnectionProps
import Verif.Http.ConnectionTls
import Verif.Http.Forward
import Verif.Http.NoContent
import Verif.Http.Serve
import Verif.Net.Acceptor
import Verif.Net.Udp
import Verif.Base64.UrlSafe
import Verif.Base64.Any
import Verif.Coro.Server
import Verif.Coro.Sched
import Verif.Coro.RunnerEnd
import Verif.Coro.RunnerMore
import Verif.Loop.Delay
import Verif.Loop.Epoll
import Verif.Server.Reply
import Verif.Server.Registry
import Verif.Server.Assign
import Verif.Net.EndToEnd
import Verif.Net.EndToEndCodecs
import Verif.Net.EndToEndTls
import Verif.Mysql.Model
import Verif.Mysql.Props
import Verif.Mysql.Violations
