import Verif.Props.GetPath
/-!
# C39: a rename that is to have no effect can change a spelling

On a mount without case, `rename` between two names of one file, which is to do nothing, removes both names and adds them again as the caller spells them.
-/

namespace Securefs.Props

open Securefs Securefs.Spec

/-- `/f`, and a second name `/g` of it, on a mount without case. -/
def spellFs : FullFs := runOps foldCfg (FullFs.fresh foldCfg ⟨1, 0⟩) [.create [47, 102] 0x1a4 1 2 (fullDemoId 1), .link [47, 102] [47, 103]]

/-- C39: renaming `/F` to `/g` returns success without moving anything, but `/f` is listed as `/F` afterwards (the names are the same on this mount, and
    `C39_same_file` holds). -/
theorem C39_spelling_violated : (FullOp.rename [47, 70] [47, 103]).prog foldCfg |>.run spellFs |> fun r =>
    r.1 = .ok 0 ∧ (spellFs.get kRootId).map (fun n => n.entries.map (·.name)) = some [[103], [102]] ∧
      (r.2.get kRootId).map (fun n => n.entries.map (·.name)) = some [[103], [70]] := by
  refine ⟨?_, ?_, ?_⟩ <;> decide +kernel

end Securefs.Props
