import Verif.Model.ModeOverride
import Verif.Model.NoneItems
/-!
# The process mode when a user's `parse_lines` stores `None` (`syncstream/mproc.py:231-290, 760-930`)
-/

namespace SyncStream.OvSys
variable {U : Type}

/-- `LineProcBuffer.read`, which is `_LineBuffer.read` (`mproc.py:260-290`), whatever the storage contains. -/
def readAny (n : Option Int) (s : OvSys U) : Except Exc (List Item) × OvSys U :=
  onMain (OvProc.inherited (ProcBuf.onBase (LineBuf.readAny n))) s

/-- A step of the system, whatever the storage contains: only the reading is another one than in `OvSys.step`. -/
def stepAny (p : Override U) (o : ProcOp) (s : OvSys U) : OvSys U :=
  match o with
  | .buffer (.read n) => (readAny n s).2
  | o => step p o s

/-- A history. -/
def runAny (p : Override U) (os : List ProcOp) (s : OvSys U) : OvSys U := os.foldl (fun s o => stepAny p o s) s

end SyncStream.OvSys
