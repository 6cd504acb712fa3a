import Verif.Model.ConfigWrite
/-!
# The commands: passwords, `create`, `info`, and which command is run

`/repo/sources/commands.cpp`, with the terminal functions of `/repo/sources/unix.cpp:624-692`.  The parser of the command line (TCLAP) is not part of
`/repo`: the values of the arguments are given.
-/

namespace Securefs

/-! ## Passwords -/

/-- `EMPTY_PASSWORD_WHEN_KEY_FILE_IS_USED` (`/repo/sources/commands.cpp:76`). -/
def keyFilePassword : Bytes := [32]

/-- The arguments `--pass`, `--keyfile` and `--askpass` (`/repo/sources/commands.cpp:141-164`); `none` is an argument that is not given, whose
    `getValue` is the empty string. -/
structure PassArgs where
  pass : Option Bytes := none
  keyfile : Option Bytes := none
  ask : Bool := false

/-- Standard input, and whether it and standard error are terminals (`/repo/sources/unix.cpp:632,634,683`). -/
structure Console where
  input : Bytes
  inTty : Bool
  errTty : Bool

/-- The loop of `read_password_no_confirmation` (`/repo/sources/unix.cpp:645-659`): what is in the buffer, and the input.  The result is the
    password and the rest of the input. -/
def readPasswordLoop : (buffer input : Bytes) → Res (Bytes × Bytes)
  | buffer, [] => .ok (buffer, [])
  | buffer, c :: rest =>
    if c = 13 ∨ c = 10 then .ok (buffer, rest)
    else if buffer.length < 4000 then readPasswordLoop (buffer ++ [c]) rest
    else .error .runtime

/-- `OSService::read_password_no_confirmation` (`/repo/sources/unix.cpp:624-667`).  Simplified: the prompt and the echo of the terminal are left
    out, and the input that the terminal discards when its mode changes. -/
def readPassword (input : Bytes) : Res (Bytes × Bytes) := readPasswordLoop [] input

/-- `OSService::read_password_with_confirmation` (`/repo/sources/unix.cpp:679-692`). -/
def readPasswordTwice (c : Console) : Res (Bytes × Bytes) :=
  match readPassword c.input with
  | .error e => .error e
  | .ok (p, rest) =>
    if c.inTty = false ∨ c.errTty = false then .ok (p, rest)
    else
      match readPassword rest with
      | .error e => .error e
      | .ok (q, rest) => if p.length ≠ q.length ∨ p ≠ q then .error .runtime else .ok (p, rest)

/-- `SinglePasswordHolder::get_password` (`/repo/sources/commands.cpp:167-188`), used by `create` with confirmation and by `mount` and `info`
    without. -/
def getPassword (a : PassArgs) (confirm : Bool) (c : Console) : Res (Bytes × Bytes) :=
  match a.pass with
  | some (b :: p) => .ok (b :: p, c.input)
  | _ =>
    if a.keyfile.getD [] ≠ [] ∧ a.ask = false then .ok (keyFilePassword, c.input)
    else if confirm then readPasswordTwice c
    else readPassword c.input

/-- One half of `ChangePasswordCommand::parse_cmdline` (`/repo/sources/commands.cpp:449-460` without confirmation, `462-473` with). -/
def chpassPassword (a : PassArgs) (confirm : Bool) (c : Console) : Res (Bytes × Bytes) :=
  match a.pass with
  | some p => .ok (p, c.input)
  | none =>
    if a.keyfile.getD [] = [] ∨ a.ask = true then (if confirm then readPasswordTwice c else readPassword c.input)
    else .ok (keyFilePassword, c.input)

/-- `ChangePasswordCommand::parse_cmdline` (`/repo/sources/commands.cpp:445-474`): the old and the new password. -/
def chpassPasswords (old new : PassArgs) (c : Console) : Res (Bytes × Bytes) :=
  match chpassPassword old false c with
  | .error e => .error e
  | .ok (p, rest) =>
    match chpassPassword new true { c with input := rest } with
    | .error e => .error e
    | .ok (q, _) => .ok (p, q)

/-- `maybe_open_key_stream` and reading what it opens (`/repo/sources/params_io.h:35-42`). -/
def keyContent (fs : PathFs) (keyfile : Bytes) : Res (Option Bytes) :=
  if keyfile = [] then .ok none
  else
    match fs keyfile with
    | none => .error (.vfs 2)
    | some content => .ok (some content)

/-! ## The configuration file -/

/-- `kConfigFileName` after a slash (`/repo/sources/commands.cpp:75`). -/
def configName : Bytes := [47, 46, 99, 111, 110, 102, 105, 103, 46, 112, 98]

/-- `kLegacyConfigFileName` after a slash (`/repo/sources/commands.cpp:74`). -/
def legacyConfigName : Bytes := [47, 46, 115, 101, 99, 117, 114, 101, 102, 115, 46, 106, 115, 111, 110]

/-- `DataDirHolder::get_real_config_path_for_reading` (`/repo/sources/commands.cpp:105-123`).  Simplified: the path is not made absolute, and
    other errors of `stat` than a missing file are left out. -/
def configPathForReading (fs : PathFs) (dataDir config : Bytes) : Res Bytes :=
  if config ≠ [] then .ok config
  else if fs (dataDir ++ configName) ≠ none then .ok (dataDir ++ configName)
  else if fs (dataDir ++ legacyConfigName) ≠ none then .ok (dataDir ++ legacyConfigName)
  else .error .runtime

/-- The parameters of a volume, as `mount` and `info` read them (`/repo/sources/commands.cpp:742-767,1046-1050`). -/
def readVolume (C : ConfCrypto) (json : Bytes → Option LegacyParams) (fs : PathFs) (dataDir config password keyfile : Bytes) : Res DecParams :=
  match configPathForReading fs dataDir config with
  | .error e => .error e
  | .ok path =>
    match fs path with
    | none => .error (.vfs 2)
    | some content =>
      match keyContent fs keyfile with
      | .error e => .error e
      | .ok key => decryptContent C json content password key

/-! ## `create` -/

/-- The arguments of `create` (`/repo/sources/commands.cpp:222-289`). -/
structure CreateArgs where
  dataDir : Bytes
  config : Bytes := []
  format : Bytes := [108, 105, 116, 101]
  ivSize : Nat := 12
  blockSize : Nat := 4096
  maxPadding : Nat := 0
  longNameThreshold : Nat := 128
  longNameSuffix : Bytes := [46, 108, 108]
  caseHandling : Bytes := [115, 101, 110, 115, 105, 116, 105, 118, 101]
  uninorm : Bytes := [115, 101, 110, 115, 105, 116, 105, 118, 101]

/-- What `randomize` and `encrypt` draw, in this order (`/repo/sources/commands.cpp:316-319,331`, `/repo/sources/params_io.cpp:316-317`). -/
structure CreateRandom where
  key1 : Bytes
  key2 : Bytes
  key3 : Bytes
  key4 : Bytes
  iv : Bytes
  salt : Bytes

/-- One character without its case, as `absl::EqualsIgnoreCase` compares it (`/repo/sources/commands.cpp:314,329`). -/
def lowerAscii (b : UInt8) : UInt8 := if 65 ≤ b ∧ b ≤ 90 then b + 32 else b

/-- `absl::EqualsIgnoreCase` (`/repo/sources/commands.cpp:314,329`). -/
def equalsIgnoreCase (a b : Bytes) : Bool := a.map lowerAscii == b.map lowerAscii

/-- `"sensitive"` (`/repo/sources/commands.cpp:220`). -/
def sensitiveWord : Bytes := [115, 101, 110, 115, 105, 116, 105, 118, 101]

/-- `"insensitive"` (`/repo/sources/commands.cpp:220`). -/
def insensitiveWord : Bytes := [105, 110] ++ sensitiveWord

/-- The parameters that `create` writes (`/repo/sources/commands.cpp:309-371`). -/
def createParams (R : CreateRandom) (a : CreateArgs) : Res DecParams :=
  let size : SizeParams := { blockSize := a.blockSize, ivSize := a.ivSize, maxPadding := a.maxPadding }
  if equalsIgnoreCase a.format [108, 105, 116, 101] = true ∨ a.format = [52] then
    .ok { size := some size
          format := .lite { nameKey := R.key1, contentKey := R.key2, xattrKey := R.key3, paddingKey := R.key4
                            longNameThreshold := if 0 < a.longNameThreshold then some a.longNameThreshold else none
                            longNameSuffix := a.longNameSuffix } }
  else if equalsIgnoreCase a.format [102, 117, 108, 108] = true ∨ a.format = [50] then
    if a.caseHandling ≠ insensitiveWord ∧ a.caseHandling ≠ sensitiveWord then .error .runtime
    else if a.uninorm ≠ insensitiveWord ∧ a.uninorm ≠ sensitiveWord then .error .runtime
    else
      .ok { size := some size
            format := .full { masterKey := R.key1, caseInsensitive := decide (a.caseHandling = insensitiveWord)
                              unicodeAgnostic := decide (a.uninorm = insensitiveWord) } }
  else .error .runtime

/-- Where `create` writes (`/repo/sources/commands.cpp:380-382`). -/
def createTarget (a : CreateArgs) : Bytes := if a.config = [] then a.dataDir ++ configName else a.config

/-- `CreateCommand::execute` (`/repo/sources/commands.cpp:305-387`): the calls that took effect on files, and the result.  Simplified: creating
    the directory is left out.  `UnixFileStream::write` fails if not everything is written (`/repo/sources/unix.cpp:122-129`). -/
def createVolume (C : ConfCrypto) (O : WriteOracle) (R : CreateRandom) (argon : Argon2Params) (a : CreateArgs) (password keyfile : Bytes)
    (fs : PathFs) : List FsOp × Res Unit :=
  match createParams R a with
  | .error e => ([], .error e)
  | .ok d =>
    match keyContent fs keyfile with
    | .error e => ([], .error e)
    | .ok key =>
      match encryptParams C d argon password key R.iv R.salt with
      | .error e => ([], .error e)
      | .ok p =>
        if fs (createTarget a) ≠ none then ([], .error (.vfs 17))
        else if O.createOk = false then ([], .error (.vfs 28))
        else
          match O.written with
          | none => ([.create (createTarget a)], .error (.vfs 5))
          | some n =>
            if n < p.serialize.length then ([.create (createTarget a), .write (createTarget a) (p.serialize.take n)], .error (.vfs 5))
            else ([.create (createTarget a), .write (createTarget a) p.serialize], .ok ())

/-! ## `info` -/

/-- The keys are cleared (`/repo/sources/commands.cpp:1051-1064`). -/
def maskParams (d : DecParams) : DecParams :=
  match d.format with
  | .none => d
  | .lite l => { d with format := .lite { l with contentKey := [], nameKey := [], paddingKey := [], xattrKey := [] } }
  | .full f => { d with format := .full { f with masterKey := [] } }

/-- What `InfoCommand::execute` prints (`/repo/sources/commands.cpp:1044-1077`); `print` is `MessageToJsonString`, which fails on text that is not
    UTF-8. -/
def infoOutput (print : DecParams → Option Bytes) (unmask : Bool) (d : DecParams) : Res Bytes :=
  match print (if unmask then d else maskParams d) with
  | none => .error .runtime
  | some s => .ok (s ++ [10])

/-! ## Which command is run -/

/-- The commands (`/repo/sources/commands.cpp:1391-1400`). -/
inductive Command where
  | mount | create | chpass | version | info | migrate | ismount | unmount | protomount | doc
  deriving DecidableEq

/-- The order in which they are tried (`/repo/sources/commands.cpp:1391-1400`). -/
def commandOrder : List Command := [.mount, .create, .chpass, .version, .info, .migrate, .ismount, .unmount, .protomount, .doc]

/-- `long_name` (`/repo/sources/commands.cpp:389,503,960,1014,1029,1124,1200,1228,1355,1372`). -/
def Command.longName : Command → Bytes
  | .mount => [109, 111, 117, 110, 116]
  | .create => [99, 114, 101, 97, 116, 101]
  | .chpass => [99, 104, 112, 97, 115, 115]
  | .version => [118, 101, 114, 115, 105, 111, 110]
  | .info => [105, 110, 102, 111]
  | .migrate => [109, 105, 103, 114, 97, 116, 101, 45, 108, 111, 110, 103, 45, 110, 97, 109, 101]
  | .ismount => [105, 115, 109, 111, 117, 110, 116]
  | .unmount => [117, 110, 109, 111, 117, 110, 116]
  | .protomount => [112, 114, 111, 116, 111, 109, 111, 117, 110, 116]
  | .doc => [100, 111, 99]

/-- `short_name`, 0 if there is none (`/repo/sources/commands.cpp:391,505,962,1016,1031,1125,1201,1229,1356,1373`). -/
def Command.shortName : Command → UInt8
  | .mount => 109
  | .create => 99
  | .version => 118
  | .info => 105
  | .unmount => 117
  | _ => 0

/-- Byte `i` of a C string: the byte after the last one is zero, and the ones after it are not part of the string
    (`/repo/sources/commands.cpp:1446`). -/
def cStringAt (s : Bytes) (i : Nat) : Res UInt8 :=
  match s[i]? with
  | some b => .ok b
  | none => if i = s.length then .ok 0 else .error .outOfBounds

/-- Whether an argument names a command (`/repo/sources/commands.cpp:1445-1446`). -/
def commandMatches (arg : Bytes) (c : Command) : Res Bool :=
  if arg = c.longName then .ok true
  else
    match cStringAt arg 0 with
    | .error e => .error e
    | .ok b =>
      if b = c.shortName then
        match cStringAt arg 1 with
        | .error e => .error e
        | .ok x => .ok (decide (x = 0))
      else .ok false

/-- The loop of `commands_main` over the commands (`/repo/sources/commands.cpp:1443-1452`); `none` prints the usage. -/
def dispatchLoop (arg : Bytes) : List Command → Res (Option Command)
  | [] => .ok none
  | c :: rest =>
    match commandMatches arg c with
    | .error e => .error e
    | .ok true => .ok (some c)
    | .ok false => dispatchLoop arg rest

/-- `commands_main` (`/repo/sources/commands.cpp:1438-1452`): the command for the arguments after the name of the program. -/
def dispatch : List Bytes → Res (Option Command)
  | [] => .ok none
  | arg :: _ => dispatchLoop arg commandOrder

end Securefs
