import Verif.Spec.Btree
/-!
# Specification: the flat directory

The same as for the tree, but a name that is too long is just not found.
-/

namespace Securefs.Spec

/-- The ideal behaviour of the flat directory, for the entries `m` in no particular order. -/
def flatStep (same : Bytes → Bytes → Bool) (m : List DirEntry) : DirOp → DirOut × List DirEntry
  | .add e =>
    if e.name.length > 255 then (.fail (.vfs 36), m)
    else if m.any (fun x => same e.name x.name) then (.flag false, m)
    else (.flag true, e :: m)
  | .remove n => (.entry (m.find? fun x => same n x.name), m.filter fun x => !same n x.name)
  | .get n => (.entry (m.find? fun x => same n x.name), m)
  | .list => (.entries m, m)
  | .empty => (.flag m.isEmpty, m)
  | .flush => (.done, m)
  | .rebuild => (.done, m)
  | .reopen => (.done, m)

/-- The ideal behaviour of a history. -/
def flatRun (same : Bytes → Bytes → Bool) : List DirEntry → List DirOp → List DirOut × List DirEntry
  | m, [] => ([], m)
  | m, op :: ops =>
    let r := flatStep same m op
    let r' := flatRun same r.2 ops
    (r.1 :: r'.1, r'.2)

end Securefs.Spec
