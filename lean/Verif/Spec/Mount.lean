import Verif.Spec.Commands
import Verif.Spec.Utf8
/-!
# Specification of what `mount` sets up
-/

namespace Securefs.Spec

/-- A text of reasonable length in UTF-8. -/
def TextOk (t : Bytes) : Prop := IsUtf8 t ∧ t.length < 2 ^ 30

/-- The texts that `mount` passes on are UTF-8. -/
def TextsOk (exe : Bytes) (a : MountArgs) : Prop :=
  TextOk exe ∧ TextOk a.fsname ∧ TextOk a.fssubtype ∧ TextOk a.attrTimeout ∧ TextOk a.mountPoint ∧ TextOk a.dataDir ∧ ∀ o ∈ a.fuseOptions, TextOk o

/-- The numbers are of the types of the arguments, `int` and `int64_t`. -/
def NumbersOk (a : MountArgs) : Prop :=
  (-2 ^ 31 ≤ a.uidOverride ∧ a.uidOverride < 2 ^ 31) ∧ (-2 ^ 31 ≤ a.gidOverride ∧ a.gidOverride < 2 ^ 31) ∧ (-2 ^ 63 ≤ a.maxIdle ∧ a.maxIdle < 2 ^ 63)

/-- The child has come to an end, and this is the code to report: its own, 128 and the signal, or -1; never zero. -/
inductive Ends : WaitAnswer → Int → Prop
  | exited (code : Nat) (h : code ≠ 0) : Ends (.exited code) code
  | exitedZero : Ends (.exited 0) (-1)
  | signaled (sig : Nat) : Ends (.signaled sig) (128 + sig)
  | other : Ends .otherStatus (-1)

/-- Neither is the mount there nor has the child come to an end. -/
def Pending (r : Bool × WaitAnswer) : Prop := r.1 = false ∧ (r.2 = .running ∨ r.2 = .otherError)

/-- Whether case is to be folded: not if names are stored as they are. -/
def FoldsCase (a : MountArgs) : Prop := a.plainTextNames = false ∧ (a.normalization = word "casefold" ∨ a.normalization = word "casefold+nfc")

/-- Whether names are to be composed: not if names are stored as they are. -/
def Composes (a : MountArgs) : Prop := a.plainTextNames = false ∧ (a.normalization = word "nfc" ∨ a.normalization = word "casefold+nfc")

/-- How names are to be compared in the full format. -/
def Compares : (caseInsensitive unicodeAgnostic : Bool) → NameComparison
  | false, false => .binary
  | true, false => .caseInsensitive
  | false, true => .normInsensitive
  | true, true => .caseNormInsensitive

/-- The command line for libfuse: in the foreground, on one thread if asked for, with the options of the user after those of securefs, and the mount
    point at the end. -/
def FuseCommand (exe : Bytes) (a : MountArgs) (useIno : Bool) : List Bytes :=
  [exe, word "-o", word "hard_remove", word "-o", word "fsname=" ++ a.fsname, word "-o", word "subtype=" ++ a.fssubtype,
    word "-o", word "entry_timeout=" ++ a.attrTimeout, word "-o", word "attr_timeout=" ++ a.attrTimeout,
    word "-o", word "negative_timeout=" ++ a.attrTimeout, word "-o", word "atomic_o_trunc"] ++
  (if a.single = true then [word "-s"] else []) ++ [word "-f"] ++ (if useIno = true then [word "-o", word "use_ino"] else []) ++
  [word "-o", word "big_writes"] ++ (a.fuseOptions.map fun o => [word "-o", o]).flatten ++ [a.mountPoint]

end Securefs.Spec
