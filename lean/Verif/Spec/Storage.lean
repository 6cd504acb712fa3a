import Verif.Spec.LiteVolume
/-!
# A storage that is not honest

The storage holds a tree that it cannot read.  It has seen every state of the tree, and while the volume is not mounted it puts the tree
together anew from what it has seen: files in the place of other files, also of old versions of them, names of one directory in another, and
names removed.  Nothing of this needs a key.
-/

namespace Securefs.Spec

open Posix

/-- One change that the storage makes.  The trees it has seen are numbered from the latest one. -/
inductive Deed where
  /-- the file or link `j` gets the contents that the file or link `i` had in the tree `t` -/
  | replace (j i t : Nat)
  /-- the node `j` gets other attributes -/
  | attr (j : Nat) (a : Attr)
  /-- the `k`-th name that the directory `d'` had in the tree `t` becomes a name of the node `i` in the directory `d`, if it is free -/
  | name (d d' t k i : Nat)
  /-- the directory `d` loses its `k`-th name -/
  | unname (d k : Nat)

/-- The `k`-th entry of a directory. -/
def entryAt (fs : Fs) (d k : Nat) : Option (Bytes × Nat) :=
  match fs d with
  | some ⟨.dir es, _⟩ => es[k]?
  | _ => none

/-- Is it no directory? -/
def isLeaf : Kind → Bool
  | .dir _ => false
  | _ => true

/-- The contents of a node, put in the place of those of another; directories are left out. -/
def putContents (fs : Fs) (j : Nat) (n : Option Node) : Fs :=
  match fs j, n with
  | some m, some n => if isLeaf m.kind && isLeaf n.kind then fs.set j ⟨n.kind, m.attr⟩ else fs
  | _, _ => fs

/-- A name for a node, if it is free. -/
def putName (fs : Fs) (d : Nat) (e : Option (Bytes × Nat)) (i : Nat) : Fs :=
  match e with
  | none => fs
  | some (c, _) => if (fs i).isSome then fs.alterDir d fun es => if (es.lookup c).isSome then es else (c, i) :: es else fs

/-- What the change does to a tree. -/
def Deed.apply (past : List Fs) (fs : Fs) : Deed → Fs
  | .replace j i t =>
    match past[t]? with
    | none => fs
    | some seen => putContents fs j (seen i)
  | .attr j a =>
    match fs j with
    | none => fs
    | some n => fs.set j ⟨n.kind, a⟩
  | .name d d' t k i =>
    match past[t]? with
    | none => fs
    | some seen => putName fs d (entryAt seen d' k) i
  | .unname d k => fs.alterDir d fun es => es.eraseIdx k

/-- A call of the user, or a time in which the volume is not mounted and the storage does as it likes. -/
inductive Happening where
  | call (fault : Option Nat) (c : Call)
  | away (deeds : List Deed)

/-- The answers to the calls, if the storage does to the plain tree what it does; `past` are the trees so far, with the present one first. -/
def Vol.watch (past : List Fs) (a : Vol) : List Happening → List (Except Nat Val)
  | [] => []
  | .call fault c :: rest => (a.step fault c).1 :: (a.step fault c).2.watch ((a.step fault c).2.fs :: past) rest
  | .away deeds :: rest => Vol.watch (deeds.foldl (Deed.apply past) a.fs :: past) ⟨deeds.foldl (Deed.apply past) a.fs, []⟩ rest

/-- The directories in which the storage creates a table of long names. -/
def Terms.deedMarks (X : Terms) (past : List Fs) : Deed → List Nat
  | .name d d' t k _ =>
    match past[t]? with
    | none => []
    | some seen =>
      match entryAt seen d' k with
      | none => []
      | some (c, _) => if X.long c then [d] else []
  | _ => []

/-- All calls fit. -/
def Terms.WatchFits (X : Terms) : List Nat → List Fs → Vol → List Happening → Prop
  | _, _, _, [] => True
  | marked, past, a, .call fault c :: rest =>
    X.Fits marked a c ∧ X.WatchFits (X.marks a c ++ marked) ((a.step fault c).2.fs :: past) (a.step fault c).2 rest
  | marked, past, a, .away deeds :: rest =>
    X.WatchFits (deeds.flatMap (X.deedMarks past) ++ marked) (deeds.foldl (Deed.apply past) a.fs :: past)
      ⟨deeds.foldl (Deed.apply past) a.fs, []⟩ rest

/-! ## What a user would like -/

/-- The answers to the calls, if the storage did nothing. -/
def honest : List Happening → List Happening := List.map fun
  | .away _ => .away []
  | x => x

/-- An answer that does not deceive: the right one, or an error. -/
def Right (ideal : Except Nat Val) (got : Res Val) : Prop := Agrees ideal got ∨ ∃ e, got = .error e

end Securefs.Spec
