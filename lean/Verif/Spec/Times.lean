import Verif.Spec.Moments
/-!
# Specification: changes show in the times of a file

Programs that back up, build or synchronise files look at the times of a file to find out whether it has been changed.  A file whose contents, or a directory whose
entries, are changed is to have the time of the change as time of modification and as time of change; a file whose mode, owner or number of links is changed is to
have it as time of change.  The times of a file are changed to the time of the clock only, other than by the call that is for setting them.
-/

namespace Securefs.Spec

/-- What is changed at the time `t` shows in the times of the file. -/
structure ShowsIn (t : TimeSpec) (x y : Inode) : Prop where
  content : y.data ≠ x.data ∨ y.entries ≠ x.entries → y.attr.mtime = t ∧ y.attr.ctime = t
  owner : y.attr.mode ≠ x.attr.mode ∨ y.attr.uid ≠ x.attr.uid ∨ y.attr.gid ≠ x.attr.gid → y.attr.ctime = t

/-- The times of the file are as they were or those of the clock; the time of modification is never set without that of change; the time of birth stays. -/
structure Stamped (t : TimeSpec) (x y : Inode) : Prop where
  mtime : y.attr.mtime = x.attr.mtime ∨ (y.attr.mtime = t ∧ y.attr.ctime = t)
  ctime : y.attr.ctime = x.attr.ctime ∨ y.attr.ctime = t
  atime : y.attr.atime = x.attr.atime ∨ y.attr.atime = t
  btime : y.attr.btime = x.attr.btime

/-- A change of the number of links shows in the time of change. -/
def Counted (t : TimeSpec) (x y : Inode) : Prop := y.attr.nlink ≠ x.attr.nlink → y.attr.ctime = t

/-- All times of a new file are that of the clock. -/
def BornAt (t : TimeSpec) (y : Inode) : Prop := y.attr.atime = t ∧ y.attr.mtime = t ∧ y.attr.ctime = t ∧ y.attr.btime = t

/-- At a moment, all changes of existing files are as `R` says at the time of the clock, new files have the time of the clock, and no file ceases to be. -/
def Moment.dated (R : TimeSpec → Inode → Inode → Prop) (m : Moment) : Prop :=
  ∀ id, (∀ x, m.1.get id = some x → ∃ y, m.2.get id = some y ∧ R m.1.now x y) ∧ (∀ y, m.1.get id = none → m.2.get id = some y → BornAt m.1.now y)

/-- The call sets times. -/
def SetsTimes : FullOp → Prop
  | .utimens _ _ _ => True
  | _ => False

/-- The call may take a link away, or take back a file that it has made. -/
def DropsLinks : FullOp → Prop
  | .create _ _ _ _ _ | .mkdir _ _ _ _ _ | .symlink _ _ _ _ _ | .unlink _ | .rmdir _ | .rename _ _ => True
  | _ => False

end Securefs.Spec
