import Verif.Spec.FullFs
/-!
# Specification: where a path leads, as POSIX has it

Pathname resolution (POSIX.1-2017, base definitions, 4.13) in a volume: every component but the last has to be a directory, also before `.` and `..`; the
target of a symbolic link is resolved from the directory of the link and must not be empty; a slash at the end asks for a directory.  An absolute target leads
out of the volume.  `same` tells which names are the same on this mount.
-/

namespace Securefs.Spec

/-- There is a file with this name in directory `d`. -/
def Named (same : Bytes → Bytes → Bool) (A : AFs) (d name id : Bytes) (g : AFile) : Prop :=
  name ≠ [46] ∧ name ≠ [46, 46] ∧ name.length ≤ 255 ∧ ∃ f e, A d = some f ∧ f.kind = 4 ∧ e ∈ f.entries ∧ same name e.name = true ∧ e.id = id ∧ A id = some g

/-- Components lead from one place to another, over symbolic links that are nested less than `n` deep. -/
inductive LeadsTo (same : Bytes → Bytes → Bool) (A : AFs) : Nat → Place → List Bytes → Place → Prop
  | here (n : Nat) (p : Place) : LeadsTo same A (n + 1) p [] p
  | dot {n : Nat} {p q : Place} {rest : List Bytes} (hd : IsDir A p.1) (h : LeadsTo same A (n + 1) p rest q) : LeadsTo same A (n + 1) p ([46] :: rest) q
  | up {n : Nat} {p q : Place} {rest : List Bytes} (hd : IsDir A p.1) (h : LeadsTo same A (n + 1) p.up rest q) : LeadsTo same A (n + 1) p ([46, 46] :: rest) q
  | down {n : Nat} {p q : Place} {s id : Bytes} {g : AFile} {rest : List Bytes} (hn : Named same A p.1 s id g) (hk : g.kind ≠ 10)
      (h : LeadsTo same A (n + 1) (id, p.1 :: p.2) rest q) : LeadsTo same A (n + 1) p (s :: rest) q
  | link {n : Nat} {p p' q : Place} {s id : Bytes} {g : AFile} {rest : List Bytes} (hn : Named same A p.1 s id g) (hk : g.kind = 10) (hne : g.data ≠ [])
      (habs : g.data.head? ≠ some 47) (ht : LeadsTo same A n p (parts g.data) p') (hs : g.data.getLast? = some 47 → IsDir A p'.1)
      (h : LeadsTo same A (n + 1) p' rest q) : LeadsTo same A (n + 1) p (s :: rest) q

/-- A path leads to a place; `follow` tells whether a symbolic link at the end is followed. -/
def PathLeadsTo (same : Bytes → Bytes → Bool) (A : AFs) (n : Nat) (path : Bytes) (follow : Bool) (q : Place) : Prop :=
  path.head? = some 47 ∧ (path.getLast? = some 47 → IsDir A q.1) ∧
  match (parts path).getLast? with
  | none => q = rootPlace
  | some last => ∃ p, LeadsTo same A n rootPlace (parts path).dropLast p ∧ IsDir A p.1 ∧
    (last = [46] ∧ q = p ∨ last = [46, 46] ∧ q = p.up ∨
      ∃ id g, Named same A p.1 last id g ∧
        ((g.kind ≠ 10 ∨ follow = false) ∧ q = (id, p.1 :: p.2) ∨
          g.kind = 10 ∧ follow = true ∧ g.data ≠ [] ∧ g.data.head? ≠ some 47 ∧ (g.data.getLast? = some 47 → IsDir A q.1) ∧
            LeadsTo same A n p (parts g.data) q))

/-- No component is `.` or `..`. -/
def NoDots (l : List Bytes) : Prop := ∀ s ∈ l, s ≠ [46] ∧ s ≠ [46, 46]

/-- The root, or a path that ends with a name; this is what the kernel makes of every path. -/
def EndsWithName (path : Bytes) : Prop := path = [47] ∨ ∃ last, (parts path).getLast? = some last ∧ last ≠ [46] ∧ last ≠ [46, 46]

/-- A target that leads down, without detours. -/
def PlainTarget (t : Bytes) : Prop := t ≠ [] ∧ t.head? ≠ some 47 ∧ t.getLast? ≠ some 47 ∧ NoDots (parts t)

/-- The targets of all symbolic links are like that. -/
def PlainLinks (A : AFs) : Prop := ∀ id g, A id = some g → g.kind = 10 → PlainTarget g.data

end Securefs.Spec
