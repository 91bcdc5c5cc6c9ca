import Verif.Props.LineBuffer
import Verif.Props.Message
import Verif.Model.Proc
import Verif.Lemmas.Proc
import Verif.Props.Mirror
import Verif.Props.Proc
import Verif.Props.ProcSys
import Verif.Props.File
import Verif.Props.FileCrash
import Verif.Props.FileConc
import Verif.Props.Threads
import Verif.Props.Races
import Verif.Props.Clear
import Verif.Props.ProcRaces
import Verif.Props.ProcCount
import Verif.Props.HostService
import Verif.Props.HostMirror
import Verif.Props.HostStop
import Verif.Props.HostConc
import Verif.Props.Deadlock
import Verif.Props.DeadlockHost
import Verif.Props.DeadlockWorld
import Verif.Props.Reader
import Verif.Props.Redirect
import Verif.Props.Lazy
import Verif.Props.LazyAttr
import Verif.Props.ProcShared
import Verif.Props.ProcSteps
import Verif.Props.RedirectThreads
import Verif.Props.HostMirrorShared
import Verif.Props.CloseOnce
import Verif.Props.CloseOnceHost
import Verif.Props.FileDeath
import Verif.Props.FileNames
import Verif.Props.ProcKill
import Verif.Props.LazyImports
import Verif.Props.LazyThreads
import Verif.Props.LazyAttrThreads
import Verif.Props.ModeOverride
import Verif.Props.ModeWait
import Verif.Props.NoneItems
import Verif.Props.NoneThreads
import Verif.Props.HostParsed
import Verif.Props.NoneProc
import Verif.Props.Web
import Verif.Props.HostSystem
import Verif.Props.HostFlag
import Verif.Props.Override
import Verif.Props.Sending
import Verif.Props.Retries
import Verif.Props.FileOverride
import Verif.Props.HostRetries
import Verif.Props.HostRetryFlag
import Verif.Props.ProcSections
import Verif.Props.HostSections
import Verif.Props.CloseShared
import Verif.Props.HostWorld
import Verif.Props.HostWorldTexts
import Verif.Props.WebThreads
