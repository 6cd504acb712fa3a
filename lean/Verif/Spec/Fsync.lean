import Verif.Model.Fsync
import Verif.Spec.FileObj
/-!
# Specification: what is left after a crash

A backing file that has not been changed since it was written to the disk is found as it was.  Nothing is said of one that has.
-/

namespace Securefs.Spec

/-- What may be found in a backing file after a crash. -/
def Found (cached disk found : Bytes) : Prop := cached = disk → found = disk

/-- What may be found in the two backing files of a file of the full format after a crash. -/
def FoundFull (s : SyncedObj) (data metaF : Bytes) : Prop := Found s.obj.st.data s.diskData data ∧ Found s.obj.st.metaS.file s.diskMeta metaF

/-- What may be found in the backing file of a file of the lite format after a crash. -/
def FoundLite (s : SyncedLite) (file : Bytes) : Prop := Found s.obj.2.file s.disk file

/-- Calls that neither write nor flush. -/
def Quiet : FileCall → Prop
  | .read _ _ => True
  | .stat => True
  | .attr _ => True
  | _ => False

/-- Calls that do not write. -/
def QuietOp : Op → Prop
  | .read _ _ => True
  | .size => True
  | _ => False

end Securefs.Spec
