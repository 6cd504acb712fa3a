import Verif.Model.Walk
/-!
# What is below a directory

The entries below a directory of the host, by paths, without any order of visiting.
-/

namespace Securefs.Spec

/-- A name of an entry; `.` and `..` are none. -/
def RealName (n : Bytes) : Prop := n ≠ [46] ∧ n ≠ [46, 46]

/-- A directory has the entry, whether or not reading gets there. -/
inductive Lists : HList → Bytes → Bool → HNode → Prop
  | here {n t x rest} : Lists (.cons n t x rest) n t x
  | there {n t x m u y rest} : Lists rest n t x → Lists (.cons m u y rest) n t x
  | behind {n t x e rest} : Lists rest n t x → Lists (.broken e rest) n t x

/-- `Below d p t x`: from the directory `d`, the path `p` leads to `x`; `t` tells whether the host tells the type of that last entry. -/
inductive Below : HNode → List Bytes → Bool → HNode → Prop
  | last {o l n t x} : Lists l n t x → RealName n → Below (.dir o l) [n] t x
  | step {o l n t x p u y} : Lists l n t x → RealName n → Below x p u y → Below (.dir o l) (n :: p) u y

/-- The host tells the type of every entry. -/
def AllTold (d : HNode) : Prop := ∀ p t x, Below d p t x → t = true

/-- A directory that can be opened and read to its end. -/
def Open (d : HNode) : Prop := ∃ l, d = .dir none l ∧ ∀ e rest, ¬ Ends l e rest
where
  /-- reading the list fails at some place -/
  Ends : HList → Err → HList → Prop
    | .nil, _, _ => False
    | .broken e r, e', r' => e = e' ∧ r = r'
    | .cons _ _ _ rest, e, r => Ends rest e r

/-- It is a directory that can be read, and so are all directories below it. -/
def AllOpen (d : HNode) : Prop := Open d ∧ ∀ p t x, Below d p t x → (∃ o l, x = .dir o l) → Open x

/-- The type of a node, as `S_IFMT` masks it. -/
def nodeType : HNode → Nat
  | .file => 0x8000
  | .link => 0xa000
  | .special => 0
  | .dir _ _ => 0x4000

/-- The text of a path from `dir`. -/
def pathText (dir : Bytes) (p : List Bytes) : Bytes := dir ++ p.flatMap (47 :: ·)

/-- The names of a list, without `.` and `..`. -/
def entryNamesOf : HList → List Bytes
  | .nil => []
  | .broken _ rest => entryNamesOf rest
  | .cons n _ _ rest => if n = [46] ∨ n = [46, 46] then entryNamesOf rest else n :: entryNamesOf rest

/-- The names of a directory are different, and none has a slash. -/
def ProperDir (d : HNode) : Prop := ∀ o l, d = .dir o l → (entryNamesOf l).Nodup ∧ ∀ n ∈ entryNamesOf l, (47 : UInt8) ∉ n

/-- The same for all directories below it as well. -/
def Proper (d : HNode) : Prop := ProperDir d ∧ ∀ p t x, Below d p t x → ProperDir x

/-- A callback that only keeps with what it is called. -/
def recordCb : WalkCb (List (Bytes × Bytes × Nat)) := fun d n m calls => (calls ++ [(d, n, m)], .ok ())

/-- Calling a function for each of some entries, until it fails. -/
def callEach {σ : Type} (cb : WalkCb σ) : List (Bytes × Bytes × Nat) → σ → σ × Res Unit
  | [], s => (s, .ok ())
  | (d, n, m) :: rest, s =>
    match cb d n m s with
    | (s, .error e) => (s, .error e)
    | (s, .ok _) => callEach cb rest s

end Securefs.Spec
