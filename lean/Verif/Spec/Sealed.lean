import Verif.Spec.HeaderFile
/-!
# Specification: what the bytes in the storage are made of

A file in the storage is described completely by the contents, and by which IV every block has (or that it
is a hole).  Whoever does not know the key sees the IVs and the lengths.
-/

namespace Securefs.Spec

/-- The `k`-th block of the contents `c`. -/
def chunk (bs : Nat) (c : Bytes) (k : Nat) : Bytes := (c.drop (k * bs)).take bs

/-- How many blocks contents of length `n` have. -/
def blocks (bs n : Nat) : Nat := (n + bs - 1) / bs

/-- A file in which every block is stored with its IV and its tag.  `wrap k iv pt` is the stored form of the
    block with number `k`, `over` the length it adds, `ivs k` the IV of the block (`none`: a hole). -/
def render (bs over : Nat) (wrap : Nat → Bytes → Bytes → Bytes) (head : Bytes) (ivs : Nat → Option Bytes) (c : Bytes) : Bytes :=
  head ++ (List.range (blocks bs c.length)).flatMap fun k =>
    match ivs k with
    | none => List.replicate ((chunk bs c k).length + over) 0
    | some iv => wrap k iv (chunk bs c k)

/-- A block is a hole only if its contents are zeros. -/
def HolesZero (bs : Nat) (ivs : Nat → Option Bytes) (c : Bytes) : Prop :=
  ∀ k, ivs k = none → chunk bs c k = List.replicate (chunk bs c k).length 0

/-- A call with the bytes taken out of it: what is left are positions and lengths. -/
def Op.shape : Op → Op
  | .write off d => .write off (List.replicate d.length 0)
  | op => op

/-- The same for calls on a file with a header. -/
def HOp.shape : HOp → HOp
  | .file op => .file op.shape
  | .writeHeader h => .writeHeader (List.replicate h.length 0)
  | op => op

/-- Two things out of two states of a file that were both encrypted (that is, are not all zeros) under one
    IV are one thing: the same place and the same bytes. -/
def IvOnce {ι : Type} (ivOf stored ivOf' stored' : ι → Bytes) : Prop :=
  ∀ k k', (stored k).all (· == 0) = false → (stored' k').all (· == 0) = false → ivOf k = ivOf' k' →
    k = k' ∧ stored k = stored' k'

/-- The meta entries of a file: IV and tag of each block, zeros for a hole. -/
def entries (bs size : Nat) (tag : Bytes → Bytes → Bytes) (ivs : Nat → Option Bytes) (c : Bytes) : Bytes :=
  (List.range (blocks bs c.length)).flatMap fun k =>
    match ivs k with
    | none => List.replicate size 0
    | some iv => iv ++ tag iv (chunk bs c k)

/-- The piece of length `len` of a file that begins at `off`. -/
def cut (f : Bytes) (off len : Nat) : Bytes := (f.drop off).take len

end Securefs.Spec
