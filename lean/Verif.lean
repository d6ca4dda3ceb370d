import Verif.Props.MultiMap
import Verif.Props.Head
import Verif.Props.HeadEnd
import Verif.Props.Serve
import Verif.Props.Body
import Verif.Props.Chunked
import Verif.Props.Response
import Verif.Props.Services
import Verif.Props.Codec
import Verif.Props.Main
import Verif.Props.ConfigSize
import Verif.Props.ConfigFix
import Verif.Props.ConfigFiles
import Verif.Props.ConfigLog
import Verif.Props.Logging
import Verif.Props.Dispatcher
import Verif.Props.Appender
import Verif.Props.Rotation
import Verif.Props.Render
import Verif.Props.Online
import Verif.Props.Conform
import Verif.Props.Shutdown
import Verif.Props.Writer
import Verif.Props.RespWriter
import Verif.Props.Console
import Verif.Props.ConnLog
import Verif.Props.System
import Verif.Props.Process
import Verif.Props.Grammar
import Verif.Props.Rfc
import Verif.Props.Run
import Verif.Props.BodyText
import Verif.Props.Memory
import Verif.Props.ConfigFile
import Verif.Props.ConfigUse
import Verif.Props.ConfigOrder
import Verif.Props.EndToEnd
import Verif.Props.TimeFormat
import Verif.Props.Exit
import Verif.Props.DiskErrors
import Verif.Props.Handshake
import Verif.Props.DiskRotation
import Verif.Props.Include
import Verif.Props.Resources
import Verif.Props.Semantics
import Verif.Props.Limited
import Verif.Props.LogChain
import Verif.Props.Pieces
import Verif.Props.RotationLoss
import Verif.Props.RotChain
import Verif.Props.DeadLog
import Verif.Props.LogUndefined
import Verif.Props.LogDeath
import Verif.Props.LogRun
import Verif.Spec.Backlog
import Verif.Props.Backlog
import Verif.Model.Accepting
import Verif.Spec.Accepting
import Verif.Props.Accepting
import Verif.Props.Framing
import Verif.Props.ReadBack
import Verif.Props.AcceptLog
import Verif.Props.TlsAccepting
import Verif.Props.ConsoleChain
import Verif.Props.ConsoleDefault
import Verif.Props.PerCoreLog
import Verif.Props.Decompress
import Verif.Props.ConfigLogFiles
import Verif.Props.Printing
import Verif.Props.WriteAll
import Verif.Props.WholeProcess
import Verif.Props.Closing
import Verif.Props.Order
import Verif.Props.ClientView
import Verif.Props.Binding
import Verif.Props.HeaderCost
import Verif.Props.OneDay
import Verif.Props.JsonLine
import Verif.Props.Tasks
import Verif.Props.TimeJson
import Verif.Props.LoopLog
import Verif.Props.AllAtOnce
import Verif.Props.Local
import Verif.Props.Refusal
import Verif.Props.LiveLog
import Verif.Props.JoinLoop
import Verif.Props.LostConns
import Verif.Props.CoreReports
import Verif.Props.LastWords
import Verif.Props.CoreVoices
import Verif.Props.CoreFiles
import Verif.Props.Turns
import Verif.Props.RuntimeEnd
import Verif.Props.Forever
import Verif.Props.LogForever
import Verif.Props.FileForever
import Verif.Props.Fairness
import Verif.Props.Crowd
import Verif.Props.TlsCrowd
import Verif.Props.Listeners
import Verif.Props.Chorus
import Verif.Props.FromFile
import Verif.Props.WriterMoments
import Verif.Props.Flow
import Verif.Props.ShutdownForever
import Verif.Props.LogErrors
import Verif.Props.FlushOrder
import Verif.Props.Compression
import Verif.Props.ConfigFirst
import Verif.Props.ConfigPanic
import Verif.Props.TlsWriter
import Verif.Props.TlsReader
import Verif.Props.CommandLine
import Verif.Props.Terminal
import Verif.Props.TerminalForge
import Verif.Props.CutShort
import Verif.Props.TlsWhole
import Verif.Props.ToldApart
import Verif.Props.FileSettings
import Verif.Props.ChorusFile
import Verif.Props.RuntimeCut
import Verif.Props.Versions
import Verif.Props.Hopeful
import Verif.Props.Schema
import Verif.Props.CountLimit
import Verif.Props.NamesExact
import Verif.Props.IsolationExact
import Verif.Props.DeleteExact
import Verif.Props.InheritExact
import Verif.Props.FilterExact
import Verif.Axioms
