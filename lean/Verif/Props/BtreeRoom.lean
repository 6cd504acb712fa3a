import Verif.Proofs.BtreeFaults
import Verif.Props.Btree
/-!
# Property C97: an example of a directory of more than twelve entries

A case that meets the hypotheses of `C97_calm_partial` (`Verif/Props/BtreeFaults.lean`) by the room in a node.  It is in a file of its own because checking
it takes memory.
-/

namespace Securefs.Props

open Securefs Spec

/-- Fifteen additions, which leave a root of one entry and leaves of seven; closing; a removal of the entry of the root that fails when
    the leaf that is to give its last entry is read. -/
def roomyOps : List (DirOp × List (Option PageFault)) :=
  ((List.range 14).map fun i => (.add (demoEntry (i + 1)), [])) ++
    [(.add (demoEntry 0), []), (.reopen, []), (.remove (demoEntry 7).name, [none, some ⟨5, false⟩])]

set_option maxRecDepth 100000 in
/-- The failing removal is of a directory of 15 entries. -/
example : BF.Calm demoCfg emptyDir [] roomyOps := by decide +kernel

set_option maxRecDepth 100000 in
/-- It fails. -/
example : (BF.dirRunModel demoCfg emptyDir roomyOps).1.drop 15 = [.done, .fail (.vfs 5)] := by decide +kernel

set_option maxRecDepth 100000 in
/-- The search for the name has not failed. -/
example : ¬ BF.SearchFails demoCfg (BF.dirRunModel demoCfg emptyDir (roomyOps.take 16)).2 (.remove (demoEntry 7).name) [none, some ⟨5, false⟩] := by
  decide +kernel

end Securefs.Props
