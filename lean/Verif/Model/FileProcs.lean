import Verif.Model.Conc
import Verif.Model.File
/-!
# Several processes using `LineFileBuffer`s

Every process has a buffer object of its own; what they share are the files and the locks of
`fasteners` (`syncstream/file.py:105-110`).  Between any two primitive steps of one process the
others may run.
-/

namespace SyncStream

/-- The processes; `ok i c`: process `i` may make the call `c`. -/
def fileProcs (env : FEnv) (ok : Nat → FCall → Prop) : Conc.Sys FS PyStr FileBuf FCall Ret where
  call _ b c := FileBuf.call env b c
  ok := ok

end SyncStream
