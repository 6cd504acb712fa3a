import Verif.Spec.FullFs
/-!
# Specification: the stored spelling of a path
-/

namespace Securefs.Spec

/-- From the directory `d`, the names `l` lead over the entries with the stored names `names` to `last`, and all that is passed on the way
    is a directory. -/
inductive Spelled (same : Bytes → Bytes → Bool) (A : AFs) : Bytes → List Bytes → List Bytes → Bytes → Prop
  | here (d : Bytes) : Spelled same A d [] [] d
  | down {d : Bytes} {f : AFile} {e : DirEntry} {s : Bytes} {l names : List Bytes} {last : Bytes} (dir : A d = some f) (kind : f.kind = 4)
      (mem : e ∈ f.entries) (eq : same s e.name = true) (short : s.length ≤ 255) (rest : Spelled same A e.id l names last) :
      Spelled same A d (s :: l) (e.name :: names) last

/-- A path made of names: a slash before each. -/
def slashed (names : List Bytes) : Bytes := names.flatMap fun n => 47 :: n

/-- A name that an operating system lets a file have. -/
def PlainName (n : Bytes) : Prop := n ≠ [] ∧ 47 ∉ n ∧ n ≠ [46] ∧ n ≠ [46, 46] ∧ n.length ≤ 255

end Securefs.Spec
