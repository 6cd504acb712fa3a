import Verif.Model.Basic
/-!
# Paths

What a path is, independently of the model: pieces joined by the character `/`.
-/

namespace Securefs.Spec

/-- The pieces joined by slashes. -/
def join : List Bytes → Bytes
  | [] => []
  | [p] => p
  | p :: q :: rest => p ++ 47 :: join (q :: rest)

/-- The pieces, each after a slash. -/
def eachAfterSlash : List Bytes → Bytes
  | [] => []
  | p :: rest => 47 :: p ++ eachAfterSlash rest

/-- `parts` are the pieces of `path` between its slashes. -/
def PiecesOf (path : Bytes) (parts : List Bytes) : Prop := parts ≠ [] ∧ (∀ p ∈ parts, (47 : UInt8) ∉ p) ∧ join parts = path

end Securefs.Spec
