import Verif.Model.Commands
/-!
# The terminal: passwords that are typed, and colours of the log

Models `/repo/sources/unix.cpp:624-692,721-726`, `/repo/sources/common_platform.cpp:58-97` and `/repo/sources/logger.cpp:57-107` as far as a terminal shows it.
-/

namespace Securefs.Term

/-- Which of the standard streams are terminals, and whether `tcsetattr` works, whose result is not looked at
    (`/repo/sources/unix.cpp:632-643,660-662`). -/
structure Files where
  inTty : Bool
  errTty : Bool
  sets : Bool

/-- The terminal: whether it echoes, its other settings, what it has echoed, what was written to standard error, and what will be typed
    (`/repo/sources/unix.cpp:632-663`). -/
structure Tty where
  echo : Bool
  flags : Nat
  shown : Bytes
  said : Bytes
  input : Bytes
  deriving DecidableEq

/-- The loop of `read_password_no_confirmation` (`/repo/sources/unix.cpp:645-659`); a terminal that echoes shows each character that is typed. -/
def typeLoop (f : Files) : (buffer input : Bytes) → Tty → Res Bytes × Tty
  | buffer, [], t => (.ok buffer, { t with input := [] })
  | buffer, c :: rest, t =>
    let t := { t with shown := if f.inTty && t.echo then t.shown ++ [c] else t.shown, input := rest }
    if c = 13 ∨ c = 10 then (.ok buffer, t)
    else if buffer.length < 4000 then typeLoop f (buffer ++ [c]) rest t
    else (.error .runtime, t)

/-- `OSService::read_password_no_confirmation` (`/repo/sources/unix.cpp:624-667`).  Simplified: the input that the terminal discards when its mode
    changes; signals. -/
def readPassword (f : Files) (prompt : Bytes) (t : Tty) : Res Bytes × Tty :=
  let t1 : Tty := if f.inTty then { t with said := if f.errTty then t.said ++ prompt else t.said, echo := if f.sets then false else t.echo } else t
  match typeLoop f [] t1.input t1 with
  | (.error e, t2) => (.error e, t2)
  | (.ok p, t2) =>
    (.ok p, if f.inTty then { t2 with echo := if f.sets then t.echo else t2.echo, flags := if f.sets then t.flags else t2.flags, said := t2.said ++ [10] } else t2)

/-- `OSService::read_password_with_confirmation` (`/repo/sources/unix.cpp:679-692`). -/
def readPasswordTwice (f : Files) (prompt : Bytes) (t : Tty) : Res Bytes × Tty :=
  match readPassword f prompt t with
  | (.error e, t1) => (.error e, t1)
  | (.ok p, t1) =>
    if f.inTty = false ∨ f.errTty = false then (.ok p, t1)
    else
      match readPassword f ("Again: ".toList.map Char.toUInt8) t1 with
      | (.error e, t2) => (.error e, t2)
      | (.ok q, t2) => if p.length ≠ q.length ∨ p ≠ q then (.error .runtime, t2) else (.ok p, t2)

/-- `Colour::Code` (`/repo/sources/platform.h:284-301`). -/
inductive Colour where
  | default
  | white
  | red
  | green
  | blue
  | cyan
  | yellow
  | grey
  | lightGrey
  | brightRed
  | brightGreen
  | brightWhite
  deriving DecidableEq

/-- `POSIXColourSetter::use` and `setColour` (`/repo/sources/common_platform.cpp:58-97`). -/
def use (c : Colour) : Bytes :=
  27 :: (match c with
    | .default => "[0;39m"
    | .white => "[0m"
    | .red => "[0;31m"
    | .green => "[0;32m"
    | .blue => "[0:34m"
    | .cyan => "[0;36m"
    | .yellow => "[0;33m"
    | .grey => "[1;30m"
    | .lightGrey => "[0;37m"
    | .brightRed => "[1;31m"
    | .brightGreen => "[1;32m"
    | .brightWhite => "[1;37m").toList.map Char.toUInt8

/-- `LoggingLevel` (`/repo/sources/logger.h:14-21`). -/
inductive Level where
  | trace
  | verbose
  | info
  | warning
  | error
  deriving DecidableEq

/-- The beginning of a line (`/repo/sources/logger.cpp:67-80`, `/repo/sources/platform.h:305,310`); `tty` is whether there is a setter of colours
    (`/repo/sources/unix.cpp:721-726`). -/
def prelogColour (tty : Bool) (l : Level) : Bytes :=
  if tty then
    match l with
    | .warning => use .yellow
    | .error => use .brightRed
    | _ => []
  else []

/-- One line of the log (`/repo/sources/logger.cpp:57-107`), with everything that is printed between `prelog` and `postlog`. -/
def logLine (tty : Bool) (l : Level) (text : Bytes) : Bytes :=
  prelogColour tty l ++ text ++ (if tty && (l = .warning || l = .error) then use .default else []) ++ [10]

end Securefs.Term
