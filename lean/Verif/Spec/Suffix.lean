import Verif.Model.Suffix
/-!
# What a change of suffix has to keep

A stored name is short, or it is a hash followed by the suffix.  The suffix is a function of the directory here, so that a volume of which only
some directories were changed has a meaning, too.
-/

namespace Securefs.Spec

/-- A stored name without its suffix. -/
inductive SufName where
  | short (n : Bytes)
  | long (h : Bytes)

/-- The stored name. -/
def SufName.stored (suffix : Bytes) : SufName → Bytes
  | .short n => n
  | .long h => h ++ suffix

/-- A hash has `L` bytes, and a short name is no long name, neither with the old nor with the new suffix. -/
def SufName.Ok (L : Nat) (old new : Bytes) : SufName → Prop
  | .short n => ∀ h : Bytes, h.length = L → n ≠ h ++ old ∧ n ≠ h ++ new
  | .long h => h.length = L

/-- The node at the end of a path that starts in directory `d`. -/
inductive Reaches (fs : SFs) (suffix : Nat → Bytes) : Nat → List SufName → SNode → Prop
  | here (d) : Reaches fs suffix d [] (.dir d)
  | last {d n node} : (n.stored (suffix d), node) ∈ (fs d).entries → Reaches fs suffix d [n] node
  | step {d n e p node} : (n.stored (suffix d), .dir e) ∈ (fs d).entries → Reaches fs suffix e p node → Reaches fs suffix d (n :: p) node

/-- The suffix of each directory, when those with `F` are changed. -/
def mixed (old new : Bytes) (F : Nat → Bool) (d : Nat) : Bytes := if F d then new else old

/-- Every stored name is short or is in the table, and the other way round. -/
structure GoodDir (L : Nat) (old new suffix : Bytes) (c : SDir) : Prop where
  names_nodup : (c.entries.map (·.1)).Nodup
  keys_nodup : (c.rows.map (·.1)).Nodup
  names : ∀ n node, (n, node) ∈ c.entries → (∃ h v, h.length = L ∧ n = h ++ suffix ∧ (n, v) ∈ c.rows) ∨ (SufName.short n).Ok L old new
  keys : ∀ k v, (k, v) ∈ c.rows → ∃ h node, h.length = L ∧ k = h ++ suffix ∧ (k, node) ∈ c.entries
  table : c.rows ≠ [] → (tableFileName, .db) ∈ c.entries
  no_dir : ∀ e, (tableFileName, SNode.dir e) ∉ c.entries

/-- A tree of such directories. -/
structure GoodTree (L : Nat) (old new : Bytes) (fs : SFs) (F : Nat → Bool) : Prop where
  dirs : ∀ d, GoodDir L old new (mixed old new F d) (fs d)
  unique : ∀ d e n m x, (n, SNode.dir x) ∈ (fs d).entries → (m, SNode.dir x) ∈ (fs e).entries → d = e ∧ n = m
  root : ∀ d n, (n, SNode.dir 0) ∉ (fs d).entries

/-- No path is longer than the bound given to the traversal. -/
def DepthBelow (fs : SFs) (fuel : Nat) : Prop :=
  ∀ (p : List Bytes) e, Reaches fs (fun _ => []) 0 (p.map .short) (.dir e) → p.length < fuel

/-- Calls do not fail for reasons outside the volume. -/
def SufOracle.Quiet (O : SufOracle) : Prop := (∀ p h, O.renameFails p h = false) ∧ ∀ p, O.commitOk p = true

/-- The suffix that a configuration stands for: none means three dots. -/
def effectiveSuffix (stored : Bytes) : Bytes := if stored = [] then [46, 46, 46] else stored

/-- No long name with the new suffix ends with the old one. -/
def NotNested (L : Nat) (old new : Bytes) : Prop := ∀ h : Bytes, h.length = L → ¬ old <:+ h ++ new

/-- The command is repeated until it succeeds: `n` attempts fail. -/
inductive Attempts (O : SufOracle) (fuel : Nat) (stored new : Bytes) : SFs → Nat → SFs → Prop
  | done {fs fs' s} : changeSuffix O fuel stored new fs = (fs', .ok s) → Attempts O fuel stored new fs 0 fs'
  | again {fs fs1 fs' e n} : changeSuffix O fuel stored new fs = (fs1, .error e) → Attempts O fuel stored new fs1 n fs' → Attempts O fuel stored new fs (n + 1) fs'

end Securefs.Spec
