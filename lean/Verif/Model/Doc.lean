import Verif.Model.Commands
/-!
# Model: the command `doc`, the list of commands, the options of all commands, and the status of the process

`DocCommand::execute`, `print_usage` and the end of `commands_main` in `/repo/sources/commands.cpp`, and the declarations of the options of all commands there.
TCLAP is not part of the repository.  Its part is what `CmdLine` does with the arguments that are added to it: `tclapList` and `tclapOwn` say what is assumed.
-/

namespace Securefs

/-- A literal of the code as bytes (`/repo/sources/commands.cpp:1237-1340`). -/
def say (s : String) : Bytes := s.toUTF8.data.toList

/-- The classes of arguments that `DocCommand::execute` tells apart (`/repo/sources/commands.cpp:1273-1340`), with their values.  The four classes of numbers are
    one here; `unknown` stands for all other classes of TCLAP. -/
inductive ArgClass where
  | positional
  | switch (on : Bool)
  | text (value : Bytes)
  | number (value : Int)
  | multi
  | unknown
  deriving DecidableEq

/-- An argument of a command (`/repo/sources/commands.cpp:1256-1341`): `flag` is the short form without the dash, or empty. -/
structure DocArg where
  flag : Bytes
  name : Bytes
  description : Bytes
  cls : ArgClass
  deriving DecidableEq

/-- A command with its help text and with what `cmdline().getArgList()` returns (`/repo/sources/commands.h:15-38`). -/
structure DocCmd where
  cmd : Command
  help : Bytes
  args : List DocArg

/-- `is_hidden` (`/repo/sources/commands.h:24`, `/repo/sources/commands.cpp:1206`). -/
def Command.hidden : Command → Bool
  | .protomount => true
  | _ => false

/-- The first component of a pair in `prioritizedArgs`, for the argument with number `index` of `n`, from 1 on
    (`/repo/sources/commands.cpp:1258-1266`).  `index ≤ n`, so the subtraction does not wrap. -/
def docKey (n index : Nat) (a : DocArg) : Nat := if a.cls = .positional then index else 2 * n - index

/-- The loop that fills `prioritizedArgs` (`/repo/sources/commands.cpp:1254-1267`). -/
def docPairs (n : Nat) : Nat → List DocArg → List (Nat × DocArg)
  | _, [] => []
  | index, a :: rest => (docKey n (index + 1) a, a) :: docPairs n (index + 1) rest

/-- One step of `docSort`: a pair is put before the first one that is not smaller (`/repo/sources/commands.cpp:1268`). -/
def docInsert (x : Nat × DocArg) : List (Nat × DocArg) → List (Nat × DocArg)
  | [] => [x]
  | y :: rest => if x.1 ≤ y.1 then x :: y :: rest else y :: docInsert x rest

/-- `std::sort` (`/repo/sources/commands.cpp:1268`).  If two numbers are equal the code compares pointers; here the one that is earlier in the list stays earlier. -/
def docSort : List (Nat × DocArg) → List (Nat × DocArg)
  | [] => []
  | x :: rest => docInsert x (docSort rest)

/-- The arguments in the order in which they are shown (`/repo/sources/commands.cpp:1254-1272`). -/
def docOrder (args : List DocArg) : List DocArg := (docSort (docPairs args.length 0 args)).map Prod.snd

/-- The names of the arguments that TCLAP adds (`/repo/sources/commands.cpp:1279-1280`). -/
def docSkipped (name : Bytes) : Bool :=
  decide (name = say "ignore_rest") || decide (name = say "version") || decide (name = say "help")

/-- What is written for a positional argument (`/repo/sources/commands.cpp:1273-1278`). -/
def docPositional (a : DocArg) : Bytes := say "- **" ++ a.name ++ say "**: (*positional*) " ++ a.description ++ say "\n"

/-- What is written for another argument before its value (`/repo/sources/commands.cpp:1284-1291`). -/
def docHead (a : DocArg) : Bytes :=
  say "- " ++ (if a.flag = [] then [] else say "**-" ++ a.flag ++ say "** or ") ++ say "**--" ++ a.name ++ say "**" ++ say ": " ++ a.description ++ say ". "

/-- What is written for an argument, and how that ends (`/repo/sources/commands.cpp:1272-1341`); `none` is an argument that is left out. -/
def docLine (a : DocArg) : Option (Bytes × Res Unit) :=
  if a.cls = .positional then some (docPositional a, .ok ())
  else if docSkipped a.name = true then none
  else
    match a.cls with
    | .switch true => some (docHead a ++ say "*This is a switch arg. Default: true.*\n", .ok ())
    | .switch false => some (docHead a ++ say "*This is a switch arg. Default: false.*\n", .ok ())
    | .text [] => some (docHead a ++ say "*Unset by default.*\n", .ok ())
    | .text v => some (docHead a ++ say "*Default: " ++ v ++ say ".*\n", .ok ())
    | .number v => some (docHead a ++ say "*Default: " ++ say (toString v) ++ say ".*\n", .ok ())
    | .multi => some (docHead a ++ say "*This option can be specified multiple times.*\n", .ok ())
    | _ => some (docHead a, .error .runtime)

/-- The loop over the arguments (`/repo/sources/commands.cpp:1270-1342`): what has been written, and whether an exception has ended it. -/
def docLines : List DocArg → List Bytes × Res Unit
  | [] => ([], .ok ())
  | a :: rest =>
    match docLine a with
    | none => docLines rest
    | some (l, .error e) => ([l], .error e)
    | some (l, .ok _) => (l :: (docLines rest).1, (docLines rest).2)

/-- What is written before the arguments (`/repo/sources/commands.cpp:1247-1251`). -/
def docTitle (c : DocCmd) : Bytes :=
  (if c.cmd.shortName ≠ 0 then say "## " ++ c.cmd.longName ++ say " (short name: " ++ [c.cmd.shortName] ++ say ")\n"
    else say "## " ++ c.cmd.longName ++ say "\n") ++ c.help ++ say "\n\n"

/-- The loop over the commands (`/repo/sources/commands.cpp:1241-1343`). -/
def docCmds : List DocCmd → List Bytes × Res Unit
  | [] => ([], .ok ())
  | c :: rest =>
    if c.cmd.hidden = true then docCmds rest
    else
      match docLines (docOrder c.args) with
      | (ls, .error e) => (docTitle c :: ls, .error e)
      | (ls, .ok _) => (docTitle c :: ls ++ (docCmds rest).1, (docCmds rest).2)

/-- The text at the beginning (`/repo/sources/commands.cpp:1237-1240`). -/
def docIntro : Bytes :=
  say "# securefs\n" ++ say "The command strucuture is `securefs ${SUBCOMMAND} ${SUBOPTIONS}`.\nSee below for available subcommands and relevant options\n\n"

/-- `DocCommand::execute` (`/repo/sources/commands.cpp:1235-1345`): what is written, and the result.  That writing may fail is left out, as it is in the code. -/
def docExecute (cmds : List DocCmd) : List Bytes × Res Int :=
  match docCmds cmds with
  | (ls, .ok _) => (docIntro :: ls, .ok 0)
  | (ls, .error e) => (docIntro :: ls, .error e)

/-- The lines of `print_usage` (`/repo/sources/commands.cpp:1413-1432`). -/
def usageLines : List DocCmd → List Bytes
  | [] => []
  | c :: rest =>
    if c.cmd.hidden = true then usageLines rest
    else
      (if c.cmd.shortName ≠ 0 then c.cmd.longName ++ say " (alias: " ++ [c.cmd.shortName] ++ say "): " ++ c.help ++ say "\n"
        else c.cmd.longName ++ say ": " ++ c.help ++ say "\n") :: usageLines rest

/-- How a command ends (`/repo/sources/commands.cpp:1448-1467`): it returns a value, or one of the kinds of exceptions comes out of it.  `foreign` is an object that
    is not a `std::exception`. -/
inductive CommandEnd where
  | returned (v : Int)
  | argError
  | runtimeError
  | otherError
  | foreign

/-- The result of `commands_main` (`/repo/sources/commands.cpp:1434-1468`): `none` prints the usage; an error is an object that no clause catches, which ends the
    process. -/
def mainResult : Option CommandEnd → Res Int
  | none => .ok 1
  | some (.returned v) => .ok v
  | some .argError => .ok 5
  | some .runtimeError => .ok 1
  | some .otherError => .ok 2
  | some .foreign => .error .runtime

/-- An option that is declared with a flag, a name and a class (`/repo/sources/commands.cpp:94-651`).  The descriptions are left out of the table; `describe` gives
    them. -/
def opt (describe : Bytes → Bytes) (flag name : String) (cls : ArgClass) : DocArg := ⟨say flag, say name, describe (say name), cls⟩

/-- What `CmdLine` adds of itself (TCLAP; skipped in `/repo/sources/commands.cpp:1279-1280`): an assumption about TCLAP. -/
def tclapOwn (describe : Bytes → Bytes) : List DocArg :=
  [opt describe "h" "help" (.switch false), opt describe "" "version" (.switch false), opt describe "-" "ignore_rest" (.switch false)]

/-- The members of `DataDirHolder` (`/repo/sources/commands.cpp:94-103`). -/
def dataDirArgs (describe : Bytes → Bytes) : List DocArg := [opt describe "" "dir" .positional, opt describe "" "config" (.text [])]

/-- The members of `SinglePasswordHolder` (`/repo/sources/commands.cpp:138-164`). -/
def singlePasswordArgs (describe : Bytes → Bytes) : List DocArg :=
  dataDirArgs describe ++
    [opt describe "" "pass" (.text []), opt describe "" "keyfile" (.text []), opt describe "" "askpass" (.switch false)]

/-- The members of `Argon2idArgsHolder` (`/repo/sources/commands.cpp:195-205`). -/
def argonArgs (describe : Bytes → Bytes) : List DocArg :=
  [opt describe "" "argon2-t" (.number 30), opt describe "" "argon2-m" (.number (2 ^ 18)), opt describe "" "argon2-p" (.number 4)]

/-- The options of each command in the order of their declarations (`/repo/sources/commands.cpp:222-289,401-437,541-651,1024-1026,1109-1119,1351-1352,1368-1369`),
    as on Linux (lines 602-606). -/
def commandArgs (describe : Bytes → Bytes) : Command → List DocArg
  | .create =>
    singlePasswordArgs describe ++ argonArgs describe ++
      [opt describe "f" "format" (.text (say "lite")), opt describe "" "iv-size" (.number 12), opt describe "" "block-size" (.number 4096),
        opt describe "" "max-padding" (.number 0), opt describe "" "long-name-threshold" (.number 128),
        opt describe "" "long-name-suffix" (.text (say ".ll")), opt describe "" "case" (.text (say "sensitive")),
        opt describe "" "uninorm" (.text (say "sensitive"))]
  | .chpass =>
    dataDirArgs describe ++
      [opt describe "" "oldkeyfile" (.text []), opt describe "" "newkeyfile" (.text []), opt describe "" "askoldpass" (.switch false),
        opt describe "" "asknewpass" (.switch false), opt describe "" "oldpass" (.text []), opt describe "" "newpass" (.text [])] ++ argonArgs describe
  | .mount =>
    singlePasswordArgs describe ++
      [opt describe "s" "single" (.switch false), opt describe "b" "background" (.switch false), opt describe "i" "insecure" (.switch false),
        opt describe "x" "noxattr" (.switch false), opt describe "v" "verbose" (.switch false), opt describe "" "trace" (.switch false),
        opt describe "" "log" (.text []), opt describe "o" "opt" .multi, opt describe "" "mount_point" .positional,
        opt describe "" "fsname" (.text (say "securefs")), opt describe "" "fssubtype" (.text (say "securefs")), opt describe "" "noflock" (.switch false),
        opt describe "" "use-ino" (.text (say "auto")), opt describe "" "normalization" (.text (say "none")), opt describe "" "attr-timeout" (.number 30),
        opt describe "" "skip-dot-dot" (.switch false), opt describe "" "plain-text-names" (.switch false), opt describe "" "uid-override" (.number (-1)),
        opt describe "" "gid-override" (.number (-1)), opt describe "" "allow-sensitive-logging" (.switch false),
        opt describe "" "max-idle-seconds" (.number 0)]
  | .info => singlePasswordArgs describe ++ [opt describe "" "unmask" (.switch false)]
  | .migrate => singlePasswordArgs describe ++ argonArgs describe ++ [opt describe "" "long-name-suffix" (.text (say ".ll"))]
  | .ismount => [opt describe "" "mount_point" .positional]
  | .unmount => [opt describe "" "mount_point" .positional]
  | .version => []
  | .protomount => []
  | .doc => []

/-- What `getArgList` returns after the arguments of a list have been added in turn (TCLAP, called in `/repo/sources/commands.cpp:1256`): an assumption about
    TCLAP, whose `Arg::addToList` puts an argument at the front and whose `UnlabeledValueArg::addToList` puts it at the end. -/
def tclapList : List DocArg → List DocArg → List DocArg
  | acc, [] => acc
  | acc, a :: rest => tclapList (if a.cls = .positional then acc ++ [a] else a :: acc) rest

/-- The commands that `doc` and `print_usage` go through (`/repo/sources/commands.cpp:1391-1408`). -/
def docTable (describe : Bytes → Bytes) (help : Command → Bytes) : List DocCmd :=
  commandOrder.map fun c => ⟨c, help c, tclapList [] (tclapOwn describe ++ commandArgs describe c)⟩

end Securefs
