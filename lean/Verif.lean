import Verif.Basic
import Verif.Model.ByteArrayHelpers
import Verif.Model.HttpHeader
import Verif.Model.HttpHelpers
import Verif.Model.ByteArray
import Verif.Spec.Bytes
import Verif.Spec.Http
import Verif.Lemmas.Bytes
import Verif.Lemmas.Number
import Verif.Props.Helpers
import Verif.Model.ThinParser
import Verif.Spec.Request
import Verif.Lemmas.ThinParser
import Verif.Lemmas.ThinComplete
import Verif.Lemmas.ThinSound
import Verif.Lemmas.ThinSeg
import Verif.Props.ThinParser
import Verif.Model.ConnPure
import Verif.Model.HttpConnection
import Verif.Spec.Connection
import Verif.Lemmas.ConnPure
import Verif.Lemmas.Parse
import Verif.Lemmas.Stream
import Verif.Spec.Protocol
import Verif.Lemmas.ConnInv
import Verif.Lemmas.ConnStep
import Verif.Lemmas.ConnStep2
import Verif.Lemmas.ConnStep3
import Verif.Lemmas.ConnReach
import Verif.Lemmas.ConnZombie
import Verif.Lemmas.ConnDoomed
import Verif.Lemmas.Run
import Verif.Props.Requests
import Verif.Props.Bounded
import Verif.Spec.Live
import Verif.Lemmas.ConnLive
import Verif.Props.Live
import Verif.Spec.Depth
import Verif.Lemmas.Depth
import Verif.Props.Depth
import Verif.Lemmas.RunsFacts
import Verif.Spec.Response
import Verif.Lemmas.Response
import Verif.Lemmas.Head
import Verif.Props.Protocol
import Verif.Props.ClosedTwice
import Verif.Props.Response
import Verif.Lemmas.Drain
import Verif.Lemmas.Footprint
import Verif.Props.Flow
import Verif.Props.Params
import Verif.Spec.Serve
import Verif.Lemmas.Serve
import Verif.Props.Serve
import Verif.Model.HttpHandler
import Verif.Spec.Handler
import Verif.Props.Handlers
import Verif.Model.Router
import Verif.Spec.Router
import Verif.Props.Router
import Verif.Lemmas.QtNumber
import Verif.Spec.File
import Verif.Props.File
import Verif.Props.FileChange
import Verif.Spec.Framing
import Verif.Props.Framing
import Verif.Spec.Injection
import Verif.Props.Injection
import Verif.Props.HeadGet
import Verif.Model.ProxyUpload
import Verif.Spec.Upload
import Verif.Props.Upload
import Verif.Model.HttpServer
import Verif.Spec.Server
import Verif.Lemmas.LogStep
import Verif.Props.Server
import Verif.Props.Sockets
import Verif.Model.RequestWriter
import Verif.Spec.Client
import Verif.Props.Writer
import Verif.Model.HttpParser
import Verif.Model.ResponseParser
import Verif.Lemmas.ParserGood
import Verif.Lemmas.ParserSeg
import Verif.Lemmas.ParserSafe
import Verif.Spec.Parser
import Verif.Lemmas.RespParser
import Verif.Props.Parser
import Verif.Spec.Reply
import Verif.Lemmas.ReplySteps
import Verif.Lemmas.ReplyName
import Verif.Lemmas.ReplyValue
import Verif.Lemmas.ReplyHead
import Verif.Lemmas.ReplyBody
import Verif.Lemmas.ReplyWhole
import Verif.Lemmas.ReplyParser
import Verif.Props.Reply
import Verif.Props.Stale
import Verif.Spec.Agree
import Verif.Lemmas.Agree
import Verif.Props.Agree
import Verif.Props.Client
import Verif.Lemmas.ParserSplit
import Verif.Spec.ClientReply
import Verif.Lemmas.ClientFresh
import Verif.Lemmas.ClientQuiet
import Verif.Lemmas.ClientTold
import Verif.Lemmas.ClientReply
import Verif.Props.ClientReply
import Verif.Props.Dropped
import Verif.Model.NetworkReply
import Verif.Spec.NetworkReply
import Verif.Lemmas.ClientEager
import Verif.Props.NetworkReply
import Verif.Model.HttpHandlerProxy
import Verif.Spec.Proxy
import Verif.Lemmas.Proxy
import Verif.Lemmas.ProxyOk
import Verif.Props.Proxy
import Verif.Spec.Exchange
import Verif.Props.Exchange
import Verif.Props.Pace
import Verif.Props.Cut
import Verif.Spec.Redirect
import Verif.Lemmas.ParserStop
import Verif.Lemmas.ClientOrigin
import Verif.Props.Redirect
import Verif.Props.Exact
import Verif.Model.ProxyForward
import Verif.Spec.Forward
import Verif.Props.Forward
import Verif.Model.QtScript
import Verif.Spec.Script
import Verif.Props.Script
import Verif.Props.ScriptShown
import Verif.Props.Shown
import Verif.Model.NetworkMeta
import Verif.Spec.NetworkMeta
import Verif.Props.NetworkMeta
import Verif.Model.LogEntry
import Verif.Spec.LogEntry
import Verif.Props.LogEntry
import Verif.Props.Recover
import Verif.Spec.Reuse
import Verif.Lemmas.Reuse
import Verif.Props.Reuse
import Verif.Props.Initialize
import Verif.Lemmas.QtInt
import Verif.Spec.Mime
import Verif.Props.Mime
import Verif.Spec.OnItsWay
import Verif.Lemmas.OnItsWay
import Verif.Props.OnItsWay
import Verif.Lemmas.Posted
import Verif.Props.Unmade
import Verif.Lemmas.ParserPhase
import Verif.Spec.Signals
import Verif.Lemmas.Signals
import Verif.Props.Signals
import Verif.Lemmas.ParserSolid
import Verif.Model.Gunzip
import Verif.Spec.Gunzip
import Verif.Lemmas.Gunzip
import Verif.Lemmas.GunzipDemo
import Verif.Props.Gunzip
import Verif.Props.GunzipCut
import Verif.Spec.Download
import Verif.Props.Download
import Verif.Spec.Settings
import Verif.Props.Settings
import Verif.Model.HandlerTree
import Verif.Spec.HandlerTree
import Verif.Props.HandlerTree
import Verif.Props.Routed
import Verif.Model.MethodRoute
import Verif.Spec.MethodRoute
import Verif.Props.MethodRoute
import Verif.Spec.Link
import Verif.Lemmas.ClientOnce
import Verif.Lemmas.ServerWire
import Verif.Lemmas.ServerLink
import Verif.Lemmas.LinkInv
import Verif.Lemmas.LinkMode
import Verif.Props.Link
import Verif.Spec.Nest
import Verif.Lemmas.ClientNest
import Verif.Props.Nest
import Verif.Spec.ProxyTrip
import Verif.Props.ProxyTrip
import Verif.Spec.Memory
import Verif.Props.Memory
import Verif.Props.ReplyFraming
import Verif.Props.RespFraming
import Verif.Props.Wire
import Verif.Props.WireCalls
import Verif.Props.WireUnique
