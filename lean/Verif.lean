import Verif.Stream.Props
import Verif.WebSocket.Props
import Verif.Chunked.Props
import Verif.Future.Props
import Verif.Task.Props
import Verif.Shield.Props
import Verif.Lock.Props
import Verif.AsyncQueue.Props
import Verif.Event.Props
import Verif.TaskGroup.Props
import Verif.ScarletExecutor.Props
import Verif.EventLoop.Props
import Verif.Cycler.Props
import Verif.SyncQueue.Props
import Verif.Transport.Props
import Verif.FlowControl.Props
import Verif.PayloadStream.Props
import Verif.MultiDict.Props
import Verif.SortedList.Props
import Verif.Quoting.Props
import Verif.Url.Props
import Verif.Dns.Props
import Verif.Dns.PropsNames
import Verif.Dns.PropsAddress
import Verif.Dns.PropsConfig
import Verif.Header.Props
import Verif.Header.PropsDisposition
import Verif.Http.Props
import Verif.Http.PropsLines
import Verif.Http.PropsAccepted
import Verif.Http.PropsFraming
import Verif.Pool.Props
import Verif.Pool.PropsPolicy
import Verif.Rotation.Props
import Verif.Dedup.Props
import Verif.Cookie.Props
import Verif.Cookie.PropsTime
import Verif.Cookie.PropsDate
import Verif.ContentType.Props
import Verif.ContentType.PropsBoundary
import Verif.Multipart.Props
import Verif.Multipart.PropsBase64
import Verif.Multipart.PropsRead
import Verif.Redirect.Props
import Verif.Redirect.PropsLoop
import Verif.WebSocketSession.Props
import Verif.WebSocketSession.PropsControl
import Verif.WebSocketSession.PropsClose
import Verif.Header.PropsExact
import Verif.Handshake.Props
import Verif.Handshake.PropsChoice
import Verif.Weak.Props
import Verif.Weak.PropsValue
import Verif.Weak.PropsItem
import Verif.ThreadPool.Props
import Verif.Timeouts.Props
import Verif.Timeouts.PropsFut
import Verif.CrossThread.Props
import Verif.EnterExecutor.Props
import Verif.Zip.Props
import Verif.Frames.Props162
import Verif.Frames.Props
import Verif.Ssl.Props
import Verif.Editor.Props
import Verif.ReuIO.Props
import Verif.Pipe.Props
import Verif.Process.Props
import Verif.Asyncio.Props
import Verif.Asyncio.PropsStreams
import Verif.Asyncio.PropsCondition
import Verif.Asyncio.PropsBarrier
import Verif.Asyncio.PropsGather
import Verif.Server.Props
import Verif.Credentials.Props
import Verif.Credentials.PropsKeepAlive
import Verif.LoopIO.Props
import Verif.LoopIO.PropsCalls
import Verif.LoopIO.PropsTasks
import Verif.FormData.Props
import Verif.Highlight.Props
import Verif.Highlight.PropsLines
import Verif.Highlight.PropsLayers
import Verif.Highlight.PropsWords
import Verif.UrlText.PropsTail
import Verif.UrlText.PropsHost
import Verif.UrlText.PropsRound
import Verif.UrlText.PropsJoin
import Verif.Connect.PropsResolve
import Verif.Connect.PropsIterate
import Verif.Connect.PropsDirect
import Verif.Connect.PropsAddress
import Verif.Response.Props
import Verif.Response.PropsKeep
import Verif.Response.PropsWhole
import Verif.Response.PropsFlow
import Verif.Response.PropsRead
import Verif.Life.PropsStart
import Verif.Life.PropsPause
import Verif.Life.PropsOrder
import Verif.Datagram.Props
import Verif.Datagram.PropsLost
import Verif.Datagram.PropsClose
import Verif.Datagram.PropsAddressed
import Verif.WsServer.Props
import Verif.WrapAsync.Props
import Verif.Reading.Props
import Verif.Equality.Props
import Verif.Resolve.Props
import Verif.Resolve.PropsInfo
import Verif.Styling.Props
import Verif.Styling.PropsSplit
import Verif.Styling.PropsHtml
import Verif.Styling.PropsNodes
import Verif.WinSelect.Props
import Verif.Includes.Props
import Verif.Trim.Props
import Verif.Analyzer.Props
import Verif.Naming.Props
import Verif.Naming.PropsForms
import Verif.Attributes.Props
import Verif.Attributes.PropsProxy
import Verif.Compiling.Props
import Verif.Modulize.Props
import Verif.Compound.Props
import Verif.Rendering.Props
import Verif.Contexts.Props
import Verif.Lists.Props
import Verif.Loops.Props
import Verif.Kinds.Props
import Verif.Display.PropsRows
import Verif.Display.PropsScreen
import Verif.Extensions.Props
import Verif.Helpers.Props
import Verif.Parts.Props
import Verif.Loops.PropsFlow
import Verif.Describe.Props
import Verif.Recent.Props
import Verif.Marks.Props
import Verif.Callbacks.Props
import Verif.Suggest.Props
import Verif.Console.Props
import Verif.Files.Props
import Verif.Finishing.Props
import Verif.Keys.Props
import Verif.Owned.Props
import Verif.Frozen.Props
import Verif.Resource.Props
import Verif.Json.Props
import Verif.CopyFunc.Props
