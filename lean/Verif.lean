import Verif.Py.Bytes
import Verif.Py.Lemmas
import Verif.Props.Connections
import Verif.Props.HttpParser
import Verif.Props.Body
import Verif.Props.WebSocket
import Verif.Props.Text
import Verif.Props.App
import Verif.Props.Args
import Verif.Props.Head
import Verif.Props.Response
import Verif.Props.ResponseFlow
import Verif.Props.ResponseEnds
import Verif.Props.Continue
import Verif.Props.ChunkBuffer
import Verif.Props.Request
import Verif.Props.AppMore
import Verif.Props.Sendfile
import Verif.Props.SendfileRange
import Verif.Props.ResponseCases
import Verif.Props.MoreCases
import Verif.Props.Queue
import Verif.Props.Locks
import Verif.Props.Conn
import Verif.Props.ConnMore
import Verif.Props.ConnFlow
import Verif.Props.ConnStream
import Verif.Props.ConnLive
import Verif.Props.Lifespan
import Verif.Props.Asgi
import Verif.Props.Timeout
import Verif.Props.AsgiReceive
import Verif.Props.Form
import Verif.Props.Files
import Verif.Props.Worker
import Verif.Props.AsgiWs
import Verif.Props.Params
import Verif.Props.AsgiScope
import Verif.Props.Timers
import Verif.Props.ConnSocket
import Verif.Props.SendLoop
import Verif.Props.Supervisor
import Verif.Props.NativeWs
import Verif.Props.WsTimer
import Verif.Props.Client
import Verif.Props.ConnReply
import Verif.Props.Pipeline
import Verif.Props.Reload
import Verif.Props.WorkerLife
import Verif.Proofs.Sequential
import Verif.Props.Sequential
import Verif.Model.Session
import Verif.Spec.Session
import Verif.Proofs.Session
import Verif.Props.Session
import Verif.Model.Cleanup
import Verif.Props.Cleanup
import Verif.Spec.Intake
import Verif.Props.Intake
import Verif.Model.ErrorPage
import Verif.Spec.ErrorPage
import Verif.Props.ErrorPage
import Verif.Props.ErrorPageCases
import Verif.Model.Sockets
import Verif.Props.Sockets
import Verif.Spec.Download
import Verif.Proofs.Download
import Verif.Props.Download
import Verif.Model.Launch
import Verif.Spec.Launch
import Verif.Proofs.Launch
import Verif.Props.Launch
import Verif.Model.Rebind
import Verif.Spec.Rebind
import Verif.Proofs.Rebind
import Verif.Props.Rebind
import Verif.Props.RebindCases
import Verif.Model.Stall
import Verif.Spec.Stall
import Verif.Proofs.Stall
import Verif.Props.Stall
import Verif.Spec.Written
import Verif.Props.Written
import Verif.Proofs.ClientMono
import Verif.Props.AsgiClient
import Verif.Props.SequentialExpect
import Verif.Spec.Dates
import Verif.Model.Dates
import Verif.Proofs.Dates
import Verif.Props.Dates
import Verif.Model.Register
import Verif.Spec.Register
import Verif.Proofs.Register
import Verif.Props.Register
import Verif.Props.SequentialChunked
import Verif.Props.Dropped
import Verif.Props.SequentialRead
import Verif.Model.ReadApi
import Verif.Proofs.ReadApi
import Verif.Props.ReadApi
import Verif.Props.ResponseHead
import Verif.Model.Context
import Verif.Spec.Context
import Verif.Props.Context
import Verif.Model.FilesInfo
import Verif.Spec.Controls
import Verif.Props.FilesEnd
import Verif.Props.ReadEnd
import Verif.Props.ChunkEnd
import Verif.Model.FormApi
import Verif.Props.FormApi
import Verif.Props.Prompt
import Verif.Model.Pool
import Verif.Props.Pool
import Verif.Model.Clock
import Verif.Props.Clock
import Verif.Model.Log
import Verif.Spec.Log
import Verif.Props.Log
import Verif.Model.AcceptKey
import Verif.Spec.AcceptKey
import Verif.Proofs.AcceptKey
import Verif.Props.AcceptKey
import Verif.Props.ManyRanges
import Verif.Props.UploadCases
import Verif.Spec.FilesPieces
import Verif.Proofs.FilesPieces
import Verif.Props.FilesPieces
import Verif.Props.StateCases
import Verif.Props.StartCases
import Verif.Props.TextCases
import Verif.Props.WireCases
import Verif.Props.RebindOrder
import Verif.Props.SupervisorCode
import Verif.Props.PartCases
import Verif.Props.ReadCases
