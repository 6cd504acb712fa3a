import Verif.Model.FileAttr
/-!
# Specification: the attributes of a file

The ideal file has attributes and nothing else: no dirty mark, no header.  Saving and loading do nothing to it.
-/

namespace Securefs.Spec

/-- The attributes of the ideal file.  `times` is `none` when the file system does not store times. -/
structure Attrs where
  mode : Nat
  uid : Nat
  gid : Nat
  nlink : Nat
  /-- directory bookkeeping: root page, first free page, number of free pages -/
  pages : Nat × Nat × Nat
  /-- access, modification, change and birth time as seconds and nanoseconds -/
  times : Option ((Int × Int) × (Int × Int) × (Int × Int) × (Int × Int))
  deriving DecidableEq

/-- The change time becomes `now`. -/
def Attrs.changed (now : Int × Int) (a : Attrs) : Attrs :=
  { a with times := a.times.map fun t => (t.1, t.2.1, now, t.2.2.2) }

/-- A time stamp as integers. -/
def stamp (t : TimeSpec) : Int × Int := (t.sec.toInt, t.nsec.toInt)

/-- `-1` for a user or group. -/
def keepOwner : Nat := 2 ^ 32 - 1

/-- The ideal behaviour.  For `utimens` the clock that the code should have read is whatever it put into its local variable. -/
def attrStep (a : Attrs) (now : Int × Int) : AttrOp → Attrs
  | .read => { a with times := a.times.map fun t => if t.1.1 < t.2.1.1 ∨ t.1.1 < t.2.2.1.1 then (now, t.2) else t }
  | .write => { a with times := a.times.map fun t => (t.1, now, now, t.2.2.2) }
  | .chmod m =>
    let v := a.mode / 512 * 512 + m.toNat % 512
    if v = a.mode then a else Attrs.changed now { a with mode := v }
  | .chown u g =>
    let a' := { a with uid := if u.toNat = keepOwner then a.uid else u.toNat, gid := if g.toNat = keepOwner then a.gid else g.toNat }
    if a' = a then a else Attrs.changed now a'
  | .setNlink v => if v.toNat = a.nlink then a else Attrs.changed now { a with nlink := v.toNat }
  | .unlink => { a with nlink := (a.nlink + (2 ^ 32 - 1)) % 2 ^ 32 }
  | .setRootPage v => { a with pages := (v.toNat, a.pages.2) }
  | .setStartFree v => { a with pages := (a.pages.1, v.toNat, a.pages.2.2) }
  | .setNumFree v => { a with pages := (a.pages.1, a.pages.2.1, v.toNat) }
  | .utimens g ts => { a with times := a.times.map fun t => match ts with
      | some (x, y) => (stamp x, stamp y, stamp g, t.2.2.2)
      | none => (stamp g, stamp g, stamp g, t.2.2.2) }
  | .flush => a
  | .reload => a

/-- The ideal behaviour of a history. -/
def attrRun (a : Attrs) : List (TimeSpec × AttrOp) → Attrs
  | [] => a
  | (now, op) :: rest => attrRun (attrStep a (stamp now) op) rest

/-- The attributes an object shows. -/
def attrsOf (st : Bool) (a : FileAttr) : Attrs :=
  { mode := a.mode.toNat, uid := a.uid.toNat, gid := a.gid.toNat, nlink := a.nlink.toNat,
    pages := (a.rootPage.toNat, a.startFree.toNat, a.numFree.toNat),
    times := if st then some (stamp a.atime, stamp a.mtime, stamp a.ctime, stamp a.btime) else none }

/-- A time stamp whose nanoseconds fit the 32 bits reserved for them. -/
def ValidTime (t : TimeSpec) : Prop := 0 ≤ t.nsec.toInt ∧ t.nsec.toInt < 2 ^ 32

/-- The time stamps in an event are valid. -/
def AttrOpValid : AttrOp → Prop
  | .utimens g (some (x, y)) => ValidTime g ∧ ValidTime x ∧ ValidTime y
  | .utimens g none => ValidTime g
  | _ => True

instance (t : TimeSpec) : Decidable (ValidTime t) := inferInstanceAs (Decidable (_ ∧ _))

instance (op : AttrOp) : Decidable (AttrOpValid op) := by
  unfold AttrOpValid
  split <;> infer_instance

end Securefs.Spec
