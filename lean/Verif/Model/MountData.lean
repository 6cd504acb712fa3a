import Verif.Model.Commands
/-!
# What `mount` sets up, in the same process or in a child

`MountCommand` (`/repo/sources/commands.cpp:700-958`), `internal_mount` and the factories (`/repo/sources/internal_mount.cpp`), the child process
(`/repo/sources/unix.cpp:737-942`, `/repo/sources/commands.cpp:1197-1218`), on Linux.
-/

namespace Securefs

/-! ## The message -/

/-- `MountOptions` (`/repo/protos/params.proto:88-100`). -/
structure MountOpts where
  readOnly : Bool := false
  disableVerification : Bool := false
  uid : Option Int := none
  gid : Option Int := none
  enableXattr : Bool := false
  caseFold : Bool := false
  nfc : Bool := false
  plainTextNames : Bool := false
  sensitiveLogging : Bool := false
  maxIdle : Int := 0
  deriving DecidableEq

/-- `InternalMountData::BackgroundLogging` (`/repo/protos/params.proto:117-122`). -/
structure BackgroundLog where
  handle : Option Int := none
  level : Option Int := none
  deriving DecidableEq

/-- `InternalMountData` (`/repo/protos/params.proto:102-126`). -/
structure MountData where
  params : Option DecParams := none
  opts : Option MountOpts := none
  fuseArgs : List Bytes := []
  dataDir : Bytes := []
  log : Option BackgroundLog := none
  deriving DecidableEq

/-- The number that stands for an `int32`, `int64` or `enum` on the wire: negative numbers as 64 bits in two's complement
    (serialization for `/repo/sources/commands.cpp:942`). -/
def intToWire (n : Int) : Nat := (n % 2 ^ 64).toNat

/-- The `int32` or `enum` that a number stands for: its low 32 bits in two's complement (parsing for `/repo/sources/commands.cpp:1211`). -/
def wireToInt32 (n : Nat) : Int := if n % 2 ^ 32 < 2 ^ 31 then (n % 2 ^ 32 : Nat) else (n % 2 ^ 32 : Nat) - 2 ^ 32

/-- The `int64` that a number stands for (parsing for `/repo/sources/commands.cpp:1211`). -/
def wireToInt64 (n : Nat) : Int := if n % 2 ^ 64 < 2 ^ 63 then (n % 2 ^ 64 : Nat) else (n % 2 ^ 64 : Nat) - 2 ^ 64

/-- A field with presence of type `int32`, `int64` or `enum` (`/repo/protos/params.proto:92-93,120-121`). -/
def optIntField (num : Nat) : Option Int → List (Nat × WireVal)
  | none => []
  | some n => [(num, .varint (intToWire n))]

/-- A field without presence of type `int64` (`/repo/protos/params.proto:99`). -/
def intField (num : Nat) (n : Int) : List (Nat × WireVal) := if n = 0 then [] else [(num, .varint (intToWire n))]

/-- `MountOptions` (`/repo/protos/params.proto:88-100`). -/
def MountOpts.fields (o : MountOpts) : List (Nat × WireVal) :=
  boolField 1 o.readOnly ++ boolField 2 o.disableVerification ++ optIntField 3 o.uid ++ optIntField 4 o.gid ++ boolField 5 o.enableXattr ++
    boolField 6 o.caseFold ++ boolField 7 o.nfc ++ boolField 8 o.plainTextNames ++ boolField 9 o.sensitiveLogging ++ intField 10 o.maxIdle

/-- `BackgroundLogging` (`/repo/protos/params.proto:117-122`). -/
def BackgroundLog.fields (l : BackgroundLog) : List (Nat × WireVal) := optIntField 1 l.handle ++ optIntField 2 l.level

/-- A field with a message (`/repo/protos/params.proto:104-105,125`). -/
def messageField (num : Nat) : Option (List (Nat × WireVal)) → List (Nat × WireVal)
  | none => []
  | some fs => [(num, .len (putFields fs))]

/-- `InternalMountData` (`/repo/protos/params.proto:102-126`); each element of a repeated field is written, even if it is empty. -/
def MountData.fields (m : MountData) : List (Nat × WireVal) :=
  messageField 1 (m.params.map DecParams.fields) ++ messageField 2 (m.opts.map MountOpts.fields) ++ m.fuseArgs.map (fun a => (3, .len a)) ++
    bytesField 4 m.dataDir ++ messageField 5 (m.log.map BackgroundLog.fields)

/-- `SerializeAsString` of `InternalMountData` (`/repo/sources/commands.cpp:942`). -/
def MountData.serialize (m : MountData) : Bytes := putFields m.fields

/-- One field of `MountOptions` (`/repo/protos/params.proto:88-100`). -/
def MountOpts.put (o : MountOpts) : Nat × WireVal → MountOpts
  | (1, .varint n) => { o with readOnly := decide (n ≠ 0) }
  | (2, .varint n) => { o with disableVerification := decide (n ≠ 0) }
  | (3, .varint n) => { o with uid := some (wireToInt32 n) }
  | (4, .varint n) => { o with gid := some (wireToInt32 n) }
  | (5, .varint n) => { o with enableXattr := decide (n ≠ 0) }
  | (6, .varint n) => { o with caseFold := decide (n ≠ 0) }
  | (7, .varint n) => { o with nfc := decide (n ≠ 0) }
  | (8, .varint n) => { o with plainTextNames := decide (n ≠ 0) }
  | (9, .varint n) => { o with sensitiveLogging := decide (n ≠ 0) }
  | (10, .varint n) => { o with maxIdle := wireToInt64 n }
  | _ => o

/-- One field of `BackgroundLogging` (`/repo/protos/params.proto:117-122`). -/
def BackgroundLog.put (l : BackgroundLog) : Nat × WireVal → BackgroundLog
  | (1, .varint n) => { l with handle := some (wireToInt64 n) }
  | (2, .varint n) => { l with level := some (wireToInt32 n) }
  | _ => l

/-- One field of `InternalMountData` (`/repo/protos/params.proto:102-126`).  Simplified: the messages inside `decrypted_params` may be nested one
    level deeper than the library allows. -/
def MountData.put (m : MountData) : Nat × WireVal → Option MountData
  | (1, .len b) =>
    match parseFields 99 b with
    | none => none
    | some fs =>
      match putAll DecParams.put (m.params.getD {}) fs with
      | none => none
      | some d => some { m with params := some d }
  | (2, .len b) =>
    match parseFields 99 b with
    | none => none
    | some fs => some { m with opts := some (fs.foldl MountOpts.put (m.opts.getD {})) }
  | (3, .len b) => if utf8Valid b then some { m with fuseArgs := m.fuseArgs ++ [b] } else none
  | (4, .len b) => if utf8Valid b then some { m with dataDir := b } else none
  | (5, .len b) =>
    match parseFields 99 b with
    | none => none
    | some fs => some { m with log := some (fs.foldl BackgroundLog.put (m.log.getD {})) }
  | _ => some m

/-- `ParseFromFileDescriptor` of `InternalMountData` (`/repo/sources/commands.cpp:1211`). -/
def MountData.parse (bs : Bytes) : Option MountData :=
  match parseFields 100 bs with
  | none => none
  | some fs => putAll MountData.put {} fs

/-! ## From the arguments to the message -/

/-- The arguments of `mount` that end up in the message or the log (`/repo/sources/commands.cpp:541-651`). -/
structure MountArgs where
  single : Bool := false
  background : Bool := false
  insecure : Bool := false
  noxattr : Bool := false
  verbose : Bool := false
  trace : Bool := false
  fuseOptions : List Bytes := []
  mountPoint : Bytes
  dataDir : Bytes
  fsname : Bytes := [115, 101, 99, 117, 114, 101, 102, 115]
  fssubtype : Bytes := [115, 101, 99, 117, 114, 101, 102, 115]
  noflock : Bool := false
  useIno : Bytes := [97, 117, 116, 111]
  normalization : Bytes := [110, 111, 110, 101]
  attrTimeout : Bytes := [51, 48]
  plainTextNames : Bool := false
  uidOverride : Int := -1
  gidOverride : Int := -1
  sensitiveLogging : Bool := false
  maxIdle : Int := 0

/-- What the operating system tells: the file descriptor of the log if there is a log, whether `llistxattr` on the data directory succeeds, and
    the type of its file system or the error of `statfs` (`/repo/sources/commands.cpp:712,789-791,686-692`). -/
structure MountEnv where
  logFd : Option Nat
  xattrOk : Bool
  fsType : Except Nat Nat

/-- `kKnownFileSystemTypesWithStableInodes` (`/repo/sources/commands.cpp:525-538`). -/
def stableInodeTypes : List Nat :=
  [0x9123683E, 0x2011BAB0, 0x137D, 0xEF53, 0xEF51, 0x4244, 0x482B, 0x4858, 0x5346544E, 0x01021994, 0x58465342, 0x2FC12FC1]

/-- `casefold`, `casefold+nfc`, `nfc` (`/repo/sources/commands.cpp:803-806`). -/
def normCasefold : Bytes := [99, 97, 115, 101, 102, 111, 108, 100]
/-- See `normCasefold` (`/repo/sources/commands.cpp:803-806`). -/
def normNfc : Bytes := [110, 102, 99]
/-- See `normCasefold` (`/repo/sources/commands.cpp:803-806`). -/
def normBoth : Bytes := normCasefold ++ [43] ++ normNfc

/-- The part of `build_internal_mount_data` that fills `mount_options` (`/repo/sources/commands.cpp:772-811`). -/
def mountOpts (a : MountArgs) (E : MountEnv) : MountOpts :=
  { readOnly := false
    disableVerification := a.insecure
    uid := if a.uidOverride ≠ -1 then some a.uidOverride else none
    gid := if a.gidOverride ≠ -1 then some a.gidOverride else none
    enableXattr := if a.noxattr then false else E.xattrOk
    plainTextNames := a.plainTextNames
    caseFold := if a.plainTextNames then false else decide (a.normalization = normCasefold ∨ a.normalization = normBoth)
    nfc := if a.plainTextNames then false else decide (a.normalization = normNfc ∨ a.normalization = normBoth)
    sensitiveLogging := a.sensitiveLogging
    maxIdle := a.maxIdle }

/-- `should_use_ino` (`/repo/sources/commands.cpp:670-699`); `fsparams` is the member of that name, which nothing assigns
    (`/repo/sources/commands.cpp:652`). -/
def shouldUseIno (a : MountArgs) (E : MountEnv) (fsparams : DecParams) : Res Bool :=
  if a.useIno = [116, 114, 117, 101] then .ok true
  else if a.useIno = [102, 97, 108, 115, 101] then .ok false
  else if a.useIno = [97, 117, 116, 111] then
    match fsparams.format with
    | .full _ => .ok true
    | _ =>
      match E.fsType with
      | .error e => .error (.vfs e)
      | .ok t => .ok (decide (t ∈ stableInodeTypes))
  else .error .runtime

/-- `-o` and an option (`/repo/sources/commands.cpp:813-892`). -/
def dashO (opt : Bytes) : List Bytes := [[45, 111], opt]

/-- The arguments for libfuse (`/repo/sources/commands.cpp:813-898`).  Simplified: `attrTimeout` is the text of the number. -/
def fuseArgs (exe : Bytes) (a : MountArgs) (useIno : Bool) : List Bytes :=
  [exe] ++ dashO [104, 97, 114, 100, 95, 114, 101, 109, 111, 118, 101] ++ dashO ([102, 115, 110, 97, 109, 101, 61] ++ a.fsname) ++ dashO ([115, 117, 98, 116, 121, 112, 101, 61] ++ a.fssubtype) ++
    dashO ([101, 110, 116, 114, 121, 95, 116, 105, 109, 101, 111, 117, 116, 61] ++ a.attrTimeout) ++
    dashO ([97, 116, 116, 114, 95, 116, 105, 109, 101, 111, 117, 116, 61] ++ a.attrTimeout) ++
    dashO ([110, 101, 103, 97, 116, 105, 118, 101, 95, 116, 105, 109, 101, 111, 117, 116, 61] ++ a.attrTimeout) ++
    dashO [97, 116, 111, 109, 105, 99, 95, 111, 95, 116, 114, 117, 110, 99] ++
    (if a.single then [[45, 115]] else []) ++ [[45, 102]] ++
    (if useIno then dashO [117, 115, 101, 95, 105, 110, 111] else []) ++ dashO [98, 105, 103, 95, 119, 114, 105, 116, 101, 115] ++
    a.fuseOptions.flatMap dashO ++ [a.mountPoint]

/-- `build_internal_mount_data` after the configuration `d` is decrypted (`/repo/sources/commands.cpp:702-723,764-767,771-901`).  The log level is
    0 for `kLogTrace` and 1 for `kLogVerbose` (`/repo/protos/params.proto:109-115`). -/
def buildMountData (exe : Bytes) (a : MountArgs) (E : MountEnv) (d : DecParams) : Res MountData :=
  match shouldUseIno a E {} with
  | .error e => .error e
  | .ok ino =>
    .ok { params := some d
          opts := some (mountOpts a E)
          fuseArgs := fuseArgs exe a ino
          dataDir := a.dataDir
          log := if a.background then
              some { handle := E.logFd.map Int.ofNat, level := if a.trace then some 0 else if a.verbose then some 1 else none }
            else none }

/-! ## What is set up -/

/-- The comparison of names in directories (`/repo/sources/internal_mount.cpp:31-48`). -/
inductive NameComparison where
  | binary | caseInsensitive | normInsensitive | caseNormInsensitive
  deriving DecidableEq

/-- `params_to_dir_name_comparison` (`/repo/sources/internal_mount.cpp:31-48`). -/
def nameComparison (f : FullParams) : NameComparison :=
  if f.caseInsensitive ∧ f.unicodeAgnostic then .caseNormInsensitive
  else if f.caseInsensitive then .caseInsensitive
  else if f.unicodeAgnostic then .normInsensitive
  else .binary

/-- The arguments of the objects of a mount (`/repo/sources/internal_mount.cpp:49-114,181-252`). -/
inductive VolumeSetup where
  /-- `lite_format::FuseHighLevelOps` (`/repo/sources/internal_mount.cpp:206-252`) -/
  | lite (content padding name xattr : Bytes) (size : SizeParams) (verify enableXattr noOp caseFold nfc : Bool) (threshold : Nat) (suffix : Bytes)
  /-- `full_format::FuseHighLevelOps` (`/repo/sources/internal_mount.cpp:49-114,181-205`) -/
  | full (master : Bytes) (size : SizeParams) (verify storeTime legacyIo readOnly : Bool) (uid gid : Option Int) (cmp : NameComparison)
      (caseInsensitive enableXattr : Bool)
  deriving DecidableEq

/-- `from_byte_string` and the constructor of `PODArray` (`/repo/sources/internal_mount.cpp:27-30`, `/repo/sources/myutils.h:219-226`). -/
def keyFromBytes (b : Bytes) : Res Bytes := if b.length ≠ 32 then .error .runtime else .ok b

/-- `make_full_format_fuse_high_level_ops` and `make_file_table` (`/repo/sources/internal_mount.cpp:49-114,181-205`). -/
def makeFull (size : SizeParams) (f : FullParams) (o : MountOpts) : Res VolumeSetup :=
  match keyFromBytes f.masterKey with
  | .error e => .error e
  | .ok master =>
    .ok (.full master size (!o.disableVerification) f.storeTime f.legacyFileTableIo o.readOnly o.uid o.gid (nameComparison f) f.caseInsensitive
      o.enableXattr)

/-- `make_lite_format_fuse_high_level_ops` (`/repo/sources/internal_mount.cpp:206-252`), with `StreamOpener::validate`
    (`/repo/sources/lite_format.cpp:66-77`). -/
def makeLite (size : SizeParams) (l : LiteParams) (o : MountOpts) : Res VolumeSetup :=
  match keyFromBytes l.contentKey with
  | .error e => .error e
  | .ok content =>
    match (if 0 < l.paddingKey.length then keyFromBytes l.paddingKey else .ok (List.replicate 32 0)) with
    | .error e => .error e
    | .ok padding =>
      match keyFromBytes l.nameKey with
      | .error e => .error e
      | .ok name =>
        match keyFromBytes l.xattrKey with
        | .error e => .error e
        | .ok xattr =>
          if 0 < size.maxPadding ∧ padding = List.replicate 32 0 then .error .runtime
          else
            .ok (.lite content padding name xattr size (!o.disableVerification) o.enableXattr o.plainTextNames o.caseFold o.nfc
              (l.longNameThreshold.getD 0) l.longNameSuffix)

/-- `make_inner_fuse_high_level_ops` (`/repo/sources/internal_mount.cpp:115-131`); a missing `size_params` reads as zeros. -/
def makeOps (d : DecParams) (o : MountOpts) : Res VolumeSetup :=
  match d.format with
  | .full f => makeFull (d.size.getD {}) f o
  | .lite l => makeLite (d.size.getD {}) l o
  | .none => .error .runtime

/-- A process that serves a mount: what `make_fuse_high_level_ops` wraps around the operations, the arguments for libfuse, the log and its level,
    and whether files are locked (`/repo/sources/internal_mount.cpp:254-329`, `/repo/sources/commands.cpp:914`). -/
structure MountProcess where
  setup : VolumeSetup
  idle : Option Int
  sensitiveLogging : Bool
  dataDir : Bytes
  fuseArgs : List Bytes
  logFd : Option Int
  logLevel : Int
  locking : Bool
  deriving DecidableEq

/-- `proto_to_logger_level` (`/repo/sources/internal_mount.cpp:160-177`), for the numbers of `/repo/protos/params.proto:109-115` and of
    `LoggingLevel` in the same order. -/
def loggerLevel (n : Int) : Int := if 0 ≤ n ∧ n ≤ 4 then n else 2

/-- `internal_mount` in a process with a log, its level and the lock flag (`/repo/sources/internal_mount.cpp:272-329`).  A new logger has level
    `kLogInfo` (`/repo/sources/logger.cpp:51-52`).  Simplified: the limit of file descriptors and the file with the process number are left
    out. -/
def internalMount (logFd : Option Int) (logLevel : Int) (locking : Bool) (m : MountData) : Res MountProcess :=
  let log : Option Int × Int :=
    match m.log with
    | none => (logFd, logLevel)
    | some l =>
      match l.handle with
      | none => (none, 2)
      | some h => (some h, match l.level with | none => 2 | some v => loggerLevel v)
  let o := m.opts.getD {}
  match makeOps (m.params.getD {}) o with
  | .error e => .error e
  | .ok setup =>
    .ok { setup := setup
          idle := if 0 < o.maxIdle then some o.maxIdle else none
          sensitiveLogging := o.sensitiveLogging
          dataDir := m.dataDir
          fuseArgs := m.fuseArgs
          logFd := log.1
          logLevel := log.2
          locking := locking }

/-- The level of the log after `recreate_logger`, 2 being `kLogInfo`, 1 `kLogVerbose` and 0 `kLogTrace`
    (`/repo/sources/commands.cpp:909-912,921-931`, `/repo/sources/logger.cpp:51-52`). -/
def argLogLevel (a : MountArgs) : Int := if a.trace then 0 else if a.verbose then 1 else 2

/-- `MountCommand::execute` in the foreground (`/repo/sources/commands.cpp:914,933-938`). -/
def mountForeground (exe : Bytes) (a : MountArgs) (E : MountEnv) (d : DecParams) : Res MountProcess :=
  match buildMountData exe a E d with
  | .error e => .error e
  | .ok m => internalMount (E.logFd.map Int.ofNat) (argLogLevel a) (!a.noflock) m

/-- `ProtoMountCommand::execute` in the child, which starts with a log on standard error at level `kLogInfo` and with locking
    (`/repo/sources/commands.cpp:1207-1217`, `/repo/sources/logger.cpp:209`, `/repo/sources/lock_enabled.cpp:6`); the exit code -1 for a message that
    cannot be read is here an error. -/
def protoMount (stdin : Bytes) : Res MountProcess :=
  match MountData.parse stdin with
  | none => .error .runtime
  | some m => internalMount (some 2) 2 true m

/-- `MountCommand::execute` in the background as far as the child is concerned (`/repo/sources/commands.cpp:933-942`). -/
def mountBackground (exe : Bytes) (a : MountArgs) (E : MountEnv) (d : DecParams) : Res MountProcess :=
  match buildMountData exe a E d with
  | .error e => .error e
  | .ok m => protoMount m.serialize

/-- The owner that `getattr` reports: the override if there is one in the full format, as `uid_t`; the lite format reports what is stored
    (`/repo/sources/full_format.cpp:653-663`, `/repo/sources/lite_format.cpp`, which has no override). -/
def shownUid (v : VolumeSetup) (stored : Nat) : Nat :=
  match v with
  | .full _ _ _ _ _ _ (some u) _ _ _ _ => (u % 2 ^ 32).toNat
  | _ => stored

/-! ## The child process -/

/-- What a file descriptor refers to (`/repo/sources/unix.cpp:831-874`). -/
inductive FdTarget where
  | pipeRead
  | pipeWrite
  | other (n : Nat)
  deriving DecidableEq

/-- The open file descriptors of a process (`/repo/sources/unix.cpp:831-874`). -/
abbrev FdTable := Nat → Option FdTarget

/-- The actions of `posix_spawn` on file descriptors (`/repo/sources/unix.cpp:853-874`). -/
inductive FileAction where
  | close (fd : Nat)
  | dup2 (fd target : Nat)

/-- The effect of an action; `dup2` of a descriptor onto itself changes nothing (`/repo/sources/unix.cpp:853-874`, POSIX). -/
def FileAction.apply (t : FdTable) : FileAction → FdTable
  | .close fd => fun n => if n = fd then none else t n
  | .dup2 fd target => fun n => if n = target then t fd else t n

/-- The actions of `execute_child_process_with_data` for the pipe `(r, w)` (`/repo/sources/unix.cpp:859-874`). -/
def childActions (r w : Nat) : List FileAction := [.close w, .dup2 r 0, .close r]

/-- The descriptors of the child (`/repo/sources/unix.cpp:848,859-874,897`): those of the parent with the pipe, after the actions. -/
def childFds (parent : FdTable) (r w : Nat) : FdTable :=
  (childActions r w).foldl FileAction.apply (fun n => if n = r then some .pipeRead else if n = w then some .pipeWrite else parent n)

/-- What a `write` to the pipe answers (`/repo/sources/unix.cpp:915-931`). -/
inductive WriteAnswer where
  | wrote (n : Nat)
  | interrupted
  | failed (errno : Nat)
  deriving DecidableEq

/-- The loop that writes the data to the child (`/repo/sources/unix.cpp:911-934`): what has arrived, and the result; `none` if the answers do not
    suffice.  The operating system writes at most what it is given. -/
def feedChild : (arrived data : Bytes) → List WriteAnswer → Option (Bytes × Res Unit)
  | arrived, [], _ => some (arrived, .ok ())
  | _, _ :: _, [] => none
  | arrived, b :: data, .interrupted :: rest => feedChild arrived (b :: data) rest
  | arrived, _ :: _, .failed e :: _ => some (arrived, .error (.vfs e))
  | arrived, _ :: _, .wrote 0 :: _ => some (arrived, .error (.vfs 32))
  | arrived, b :: data, .wrote (n + 1) :: rest => feedChild (arrived ++ (b :: data).take (n + 1)) ((b :: data).drop (n + 1)) rest

/-- What `waitpid` answers for the child (`/repo/sources/unix.cpp:762-800`). -/
inductive WaitAnswer where
  | running
  | exited (code : Nat)
  | signaled (sig : Nat)
  | otherStatus
  | noChild
  | otherError
  deriving DecidableEq

/-- `POSIXChildProcess::exit_code` (`/repo/sources/unix.cpp:754-801`): whether there still is a process to wait for, and the exit code. -/
def exitCode (waiting : Bool) (w : WaitAnswer) : Bool × Option Int :=
  if waiting = false then (false, none)
  else
    match w with
    | .running => (true, none)
    | .exited c => (true, some c)
    | .signaled s => (true, some (128 + s))
    | .otherStatus => (true, some (-1))
    | .noChild => (false, none)
    | .otherError => (true, none)

/-- The loop of `MountCommand::execute` (`/repo/sources/commands.cpp:943-957`): in each round whether the mount point answers, and what `waitpid`
    answers.  `none` if the rounds do not suffice. -/
def waitForMount (waiting : Bool) : List (Bool × WaitAnswer) → Option Int
  | [] => none
  | (mounted, w) :: rest =>
    if mounted then some 0
    else
      match exitCode waiting w with
      | (_, some c) => some (if c ≠ 0 then c else -1)
      | (waiting, none) => waitForMount waiting rest

end Securefs
