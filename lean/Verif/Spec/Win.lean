import Verif.Spec.ByteFile
/-!
# Specification: what Windows and the callers expect of the platform layer

Written after the documentation of Windows and POSIX, without reference to the code.
-/

namespace Securefs.Spec.Win

/-! ### Times -/

/-- A time in nanoseconds since 1970 as a pair. -/
def instant (sec nsec : Int) : Int := sec * 1000000000 + nsec

/-- POSIX: the nanoseconds of a `timespec` are not negative and less than a second. -/
def ValidNsec (nsec : Int) : Prop := 0 ≤ nsec ∧ nsec < 1000000000

instance (n : Int) : Decidable (ValidNsec n) := inferInstanceAs (Decidable (_ ∧ _))

/-- A `FILETIME` counts units of 100 ns since 1601-01-01, which is 11644473600 seconds before 1970. -/
def filetimeInstant (low high : UInt32) : Int := 100 * ((low.toNat : Int) + 4294967296 * high.toNat) - 11644473600 * 1000000000

/-! ### Splitting a command line

"Parsing C command-line arguments" of the documentation of Microsoft. -/

/-- Where the reader is: between arguments; outside or inside quotation marks with the number of backslashes just seen and the argument so
    far; after a quotation mark that may end the quotation or be the first of two. -/
inductive ArgState where
  | between
  | out (n : Nat) (cur : Bytes)
  | quoted (n : Nat) (cur : Bytes)
  | closing (cur : Bytes)

/-- Backslashes, taken literally. -/
def slashes (n : Nat) : Bytes := List.replicate n 92

/-- A character outside quotation marks. -/
def outStep (n : Nat) (cur : Bytes) (c : UInt8) : Option Bytes × ArgState :=
  if c = 92 then (none, .out (n + 1) cur)
  else if c = 34 then
    if n % 2 = 0 then (none, .quoted 0 (cur ++ slashes (n / 2))) else (none, .out 0 (cur ++ slashes (n / 2) ++ [34]))
  else if c = 32 ∨ c = 9 then (some (cur ++ slashes n), .between)
  else (none, .out 0 (cur ++ slashes n ++ [c]))

/-- A character inside quotation marks. -/
def quotedStep (n : Nat) (cur : Bytes) (c : UInt8) : Option Bytes × ArgState :=
  if c = 92 then (none, .quoted (n + 1) cur)
  else if c = 34 then
    if n % 2 = 0 then (none, .closing (cur ++ slashes (n / 2))) else (none, .quoted 0 (cur ++ slashes (n / 2) ++ [34]))
  else (none, .quoted 0 (cur ++ slashes n ++ [c]))

/-- One character.  `stay` tells what two quotation marks inside a quotation do besides giving one: the newer runtime stays in the
    quotation, the older one and `CommandLineToArgvW` leave it. -/
def argStep (stay : Bool) : ArgState → UInt8 → Option Bytes × ArgState
  | .between, c => if c = 32 ∨ c = 9 then (none, .between) else outStep 0 [] c
  | .out n cur, c => outStep n cur c
  | .quoted n cur, c => quotedStep n cur c
  | .closing cur, c => if c = 34 then (none, if stay then .quoted 0 (cur ++ [34]) else .out 0 (cur ++ [34])) else outStep 0 cur c

/-- The arguments behind the name of the program. -/
def splitArgs (stay : Bool) : ArgState → Bytes → List Bytes
  | .between, [] => []
  | .out n cur, [] => [cur ++ slashes n]
  | .quoted n cur, [] => [cur ++ slashes n]
  | .closing cur, [] => [cur]
  | s, c :: rest => (argStep stay s c).1.toList ++ splitArgs stay (argStep stay s c).2 rest

/-- The name of the program: quotation marks switch the meaning of blanks and are dropped, backslashes are literal. -/
def splitProgram : Bool → Bytes → Bytes → Bytes × Bytes
  | _, cur, [] => (cur, [])
  | q, cur, c :: rest =>
    if c = 34 then splitProgram (!q) cur rest
    else if (c = 32 ∨ c = 9) ∧ q = false then (cur, rest)
    else splitProgram q (cur ++ [c]) rest

/-- `argc` and `argv` of the child. -/
def argv (stay : Bool) (line : Bytes) : List Bytes :=
  (splitProgram false [] line).1 :: splitArgs stay .between (splitProgram false [] line).2

/-! ### Opening a file -/

/-- The outcomes of `open` in POSIX for a file with some content or none: the new content, or an error number (`EEXIST` 17, `ENOENT` 2). -/
def posixOpen (creat excl trunc : Bool) : Option Bytes → Except Nat Bytes
  | none => if creat then .ok [] else .error 2
  | some c => if creat && excl then .error 17 else if trunc then .ok [] else .ok c

/-! ### Reading a directory -/

/-- `readdir` and `rewinddir`: the names in the directory when it was opened or last rewound, from some position on. -/
structure Listing where
  rest : List Bytes

/-- `readdir`. -/
def Listing.next (l : Listing) : Option Bytes × Listing := match l.rest with
  | [] => (none, l)
  | n :: r => (some n, ⟨r⟩)

/-- `rewinddir`: the directory as it is now. -/
def Listing.rewind (dir : List Bytes) : Listing := ⟨dir⟩

/-! ### Paths -/

/-- `c` separates components. -/
def sep (c : UInt8) : Bool := c == 47 || c == 92

/-- The components of a path that name something. -/
def comps : Bytes → List Bytes := fun p => (p.splitOnP sep).filter fun s => s ≠ [] ∧ s ≠ [46]

/-- `p` below the directory `dir`, `..` going up and the root being its own parent. -/
def resolve : List Bytes → List Bytes → List Bytes := fun dir p => p.foldl (fun d s => if s = [46, 46] then d.dropLast else d ++ [s]) dir

/-- A path of the form that the kernel of Windows takes literally: `\\?` or one backslash, and then components each after one backslash. -/
def literal (unc : Bool) (cs : List Bytes) : Bytes := (if unc then [92] else [92, 92, 63]) ++ cs.flatMap (92 :: ·)

end Securefs.Spec.Win
