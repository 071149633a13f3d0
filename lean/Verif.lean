import Verif.Model.Command
import Verif.Model.Result
import Verif.Lemmas.Builder
import Verif.Props.Builder
import Verif.Props.Results
import Verif.Props.Codec
import Verif.Props.CodecErrors
import Verif.Props.Streams
import Verif.Props.Input
import Verif.Props.Sinks
import Verif.Props.Tty
import Verif.Props.Fds
import Verif.Props.FdsFail
import Verif.Props.Wiring
import Verif.Props.Capture
import Verif.Props.Prompt
import Verif.Props.Send
import Verif.Props.PromptOutcome
import Verif.Props.Harvest
import Verif.Props.RunAudit
import Verif.Props.RunKill
import Verif.Props.RunOutcome
import Verif.Props.RunLaunch
import Verif.Props.RunStatus
import Verif.Props.PipeRun
import Verif.Props.PipeOutcome
import Verif.Props.PipeEnter
import Verif.Props.PromptResult
import Verif.Props.PipePrompt
import Verif.Props.Contexts
import Verif.Props.Watcher
import Verif.Props.WatcherFds
import Verif.Props.DefaultWatcher
import Verif.Props.ThreadWatcher
import Verif.Props.WatcherClose
import Verif.Props.WatcherKill
import Verif.Props.KqueueWatcher
import Verif.Props.KqueueExamples
import Verif.Props.KqueueClose
import Verif.Props.EndToEnd
import Verif.Props.Iter
import Verif.Props.PipeEndToEnd
import Verif.Props.PtyModes
import Verif.Props.PromptTime
import Verif.Props.AuditRun
import Verif.Props.Terminates
import Verif.Props.PromptLog
import Verif.Props.TerminatesPipe
import Verif.Props.TerminatesIter
import Verif.Props.LaunchReason
import Verif.Props.PtyFds
import Verif.Props.EndToEndSinks
import Verif.Props.PromptLive
import Verif.Props.BodyExc
import Verif.Props.IgnoreWatcher
import Verif.Props.Flow
import Verif.Props.Find
import Verif.Props.LineCodecs
import Verif.Props.Subst
import Verif.Props.SubstEx
import Verif.Props.Child
import Verif.Props.Trace
import Verif.Props.Dialogue
import Verif.Props.SubstDet
import Verif.Props.Holders
import Verif.Props.HoldersApart
import Verif.Props.TerminatesPrompt
import Verif.Props.SendFlow
