import Verif.Model.Basic
/-!
# Where passwords are in memory

Models `/repo/sources/unix.cpp:624-667,679-692`, `SinglePasswordHolder::get_password` (`/repo/sources/commands.cpp:126-134,165-188`), the passwords of
`chpass` (`/repo/sources/commands.cpp:439-473`) and the end of the password in `mount` (`/repo/sources/commands.cpp:764-769`) with the memory that they use.
-/

namespace Securefs.Wipe

/-- The memory in which a password may be: the stack where `buffer` is, also after the return; the block `password`; memory of blocks that was given back;
    the buffer of `stdin`; the value of the option, and the arguments of the process (`/repo/sources/unix.cpp:627,647,688`,
    `/repo/sources/commands.cpp:142-165`).  Besides it, what will still be typed. -/
structure Mem where
  frame : Bytes
  block : Bytes
  freed : List Bytes
  stdio : Bytes
  option : Bytes
  argv : Bytes
  input : Bytes
  deriving DecidableEq

/-- `SecureWipeBuffer`, and what `SecBlock` does with memory that it gives back (`/repo/sources/unix.cpp:628,665,688`, `/repo/sources/commands.cpp:133,768`). -/
def wiped (b : Bytes) : Bytes := List.replicate b.length 0

/-- What the loop reads (`/repo/sources/unix.cpp:645-659`): the array, `bufsize` or an exception, and how many characters were taken from `stdin`. -/
def fill : (frame : Bytes) → (n : Nat) → (input : Bytes) → Bytes × Option Nat × Nat
  | frame, n, [] => (frame, some n, 0)
  | frame, n, c :: rest =>
    if c = 13 ∨ c = 10 then (frame, some n, 1)
    else if n < 4000 then ((fill (frame.set n c) (n + 1) rest).1, (fill (frame.set n c) (n + 1) rest).2.1, (fill (frame.set n c) (n + 1) rest).2.2 + 1)
    else (frame, none, 1)

/-- `read_password_no_confirmation` (`/repo/sources/unix.cpp:624-667`): what it reads into the block given, if there is no exception, and the memory
    otherwise.  The array is wiped in any case (`DEFER`).  `stdin` keeps what was
    taken from it until more is read, as that of GNU does. -/
def readOne (m : Mem) : Option Bytes × Mem :=
  let r := fill m.frame 0 m.input
  let m' := { m with frame := wiped r.1, stdio := m.input.take r.2.2, input := m.input.drop r.2.2 }
  match r.2.1 with
  | none => (none, m')
  | some n => (some (r.1.take n), m')

/-- `read_password_no_confirmation` into the block `password` (`/repo/sources/unix.cpp:665-666`): `resize` gives its old memory back. -/
def readPassword (m : Mem) : Bool × Mem :=
  match readOne m with
  | (none, m') => (false, m')
  | (some p, m') => (true, { m' with block := p, freed := wiped m'.block :: m'.freed })

/-- `read_password_with_confirmation` (`/repo/sources/unix.cpp:679-692`); `tty` tells whether both streams are terminals.  `another` is given back at the
    end, also by an exception. -/
def readPasswordTwice (tty : Bool) (m : Mem) : Bool × Mem :=
  match readPassword m with
  | (false, m1) => (false, m1)
  | (true, m1) =>
    if tty = false then (true, m1)
    else match readOne m1 with
      | (none, m2) => (false, m2)
      | (some p, m2) => (decide (m2.block.length = p.length ∧ m2.block = p), { m2 with freed := wiped p :: m2.freed })

/-- `SinglePasswordHolder::get_password` (`/repo/sources/commands.cpp:126-134,167-188`): `isSet` tells whether `--pass` was given, `byKey` whether there is a
    key file without `--askpass`, `writable` whether the library lets its values be changed. -/
def getPassword (writable isSet byKey confirm tty : Bool) (m : Mem) : Bool × Mem :=
  if isSet && !m.option.isEmpty then
    (true, { m with block := m.option, freed := wiped m.block :: m.freed, option := if writable then wiped m.option else m.option })
  else if byKey then (true, { m with block := [32], freed := wiped m.block :: m.freed })
  else if confirm then readPasswordTwice tty m
  else readPassword m

/-- `mount` until it serves (`/repo/sources/commands.cpp:764-769,907`): the password is wiped after the parameters were decrypted, if there was no exception.
    Simplified: memory used by the libraries that decrypt. -/
def mountPassword (writable isSet byKey : Bool) (m : Mem) : Bool × Mem :=
  match getPassword writable isSet byKey false false m with
  | (false, m1) => (false, m1)
  | (true, m1) => (true, { m1 with block := wiped m1.block })

/-- The destructor of the block (`/repo/sources/commands.cpp:165,399`). -/
def endBlock (m : Mem) : Mem := { m with block := [], freed := wiped m.block :: m.freed }

/-- `create` and `info` from their beginning to the end of the command (`/repo/sources/commands.cpp:302,1041,1133`). -/
def commandPassword (writable isSet byKey confirm tty : Bool) (m : Mem) : Bool × Mem :=
  let r := getPassword writable isSet byKey confirm tty m
  (r.1, endBlock r.2)

/-- One of the passwords of `chpass` given as an option (`/repo/sources/commands.cpp:439-442,449-452,462-465`), to the end of the command. -/
def chpassOption (m : Mem) : Mem := endBlock { m with block := m.option, freed := wiped m.block :: m.freed }

end Securefs.Wipe
