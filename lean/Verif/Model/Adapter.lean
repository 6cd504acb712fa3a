import Verif.Model.Basic
/-!
# Between libfuse and the file system

Models the functions libfuse calls (`/repo/sources/fuse_high_level_ops_base.cpp:19-467`), the objects wrapped around a file system
(`/repo/sources/fuse_high_level_ops_base.cpp:469-845`, `/repo/sources/fuse_hook.h:50-293`, `/repo/sources/internal_mount.cpp:254-271`)
and the log of the calls (`/repo/sources/fuse_tracer_v2.h`, `/repo/sources/fuse_tracer_v2.cpp`, `/repo/sources/logger.cpp`).

Not represented: `fuse_get_context` (the object is passed), `initialize` and the capabilities asked for in `init`, the time, the thread
and the colour in front of a line of the log, and locking of the log file.
-/

namespace Securefs

/-- An exception in flight, by the class that decides its error number (`/repo/sources/exceptions.h:16-241`) and the text of
    `what()`.  `base` is any class that keeps the default of `ExceptionBase` (`UnreachableCodeException`, the verification and format
    exceptions, `InvalidCastException`, `FileTypeInconsistencyException`, `CorruptedStreamException`, …); `std` is any other
    `std::exception`, among them `std::bad_alloc`, those of Crypto++, `SQLiteException` (`/repo/sources/sqlite_helper.h:84`) and
    `XattrVerificationException` of the lite format (`/repo/sources/lite_format.h:242`); `foreign` is anything else that unwinds the
    stack, such as the cancellation of the thread. -/
inductive Exc where
  | vfs (errno : Int) (text : Bytes)
  | posix (errno : Int) (text : Bytes)
  | invalidArgument (text : Bytes)
  | streamTooLong (text : Bytes)
  | base (text : Bytes)
  | std (text : Bytes)
  | foreign
  deriving DecidableEq

/-- `error_number()` of a subclass of `ExceptionBase` (`/repo/sources/exceptions.h:29,64,85,121,212`), on Linux: 1 is `EPERM`, 22 `EINVAL`,
    27 `EFBIG`.  The other exceptions have none. -/
def Exc.errorNumber : Exc → Option Int
  | .vfs n _ => some n
  | .posix n _ => some n
  | .invalidArgument _ => some 22
  | .streamTooLong _ => some 27
  | .base _ => some 1
  | .std _ => none
  | .foreign => none

/-- `what()` (`/repo/sources/exceptions.cpp:56-69`). -/
def Exc.text : Exc → Bytes
  | .vfs _ t => t
  | .posix _ t => t
  | .invalidArgument t => t
  | .streamTooLong t => t
  | .base t => t
  | .std t => t
  | .foreign => []

/-- How a function of the file system ends (`/repo/sources/fuse_tracer_v2.h:77-100`). -/
inductive Outcome where
  | ret (rc : Int)
  | throw (e : Exc)
  deriving DecidableEq

/-- `LoggingLevel` (`/repo/sources/logger.h:14-21`). -/
inductive LogLevel where
  | trace | verbose | info | warning | error
  deriving DecidableEq

/-- The number of a level (`/repo/sources/logger.h:16-20`). -/
def LogLevel.rank : LogLevel → Nat
  | .trace => 0
  | .verbose => 1
  | .info => 2
  | .warning => 3
  | .error => 4

/-- The memory that a call refers to by addresses: bytes, and, for the structures `stat`, `statvfs`, `fuse_file_info` and `timespec`, the
    text that their fields are printed as (`/repo/sources/fuse_tracer_v2.cpp:23-93`).  (Simplified: the structures do not share memory with
    the buffers.) -/
structure Memory where
  byte : Nat → UInt8
  fields : Nat → Bytes

/-- `std::string_view(data, size)` (`/repo/sources/fuse_tracer_v2.cpp:108`). -/
def Memory.slice (m : Memory) (addr size : Nat) : Bytes := (List.range size).map fun i => m.byte (addr + i)

/-- `WrappedFuseArg::value` (`/repo/sources/fuse_tracer_v2.h:23-37`).  `num` is any of the four integer types, `ptr` a `const void*` or the
    filler, `cstr` a C string or null, `fields` a pointer to one of the structures, null if it is 0. -/
inductive LogArg where
  | num (n : Int)
  | ptr (addr : Nat)
  | cstr (s : Option Bytes)
  | fields (addr : Nat)
  | plain (addr size : Nat)
  | redacted (addr size : Nat)
  deriving DecidableEq

/-- A piece of a line of the log.  `bytes` is the escaped text of these bytes in quotes, `raw` the bytes as they are
    (`/repo/sources/fuse_tracer_v2.cpp:29-35,97-112,213-217`). -/
inductive LogTok where
  | lit (s : String)
  | num (n : Int)
  | ptr (addr : Nat)
  | bytes (b : Bytes)
  | fields (b : Bytes)
  | raw (b : Bytes)
  | buffer (addr size : Nat)
  deriving DecidableEq

/-- `FuseTracer::print` of one argument (`/repo/sources/fuse_tracer_v2.cpp:114-141`). -/
def printArg (m : Memory) : LogArg → LogTok
  | .num n => .num n
  | .ptr a => .ptr a
  | .cstr none => .ptr 0
  | .cstr (some s) => .bytes s
  | .fields a => if a = 0 then .ptr 0 else .fields (m.fields a)
  | .plain a n => .bytes (m.slice a n)
  | .redacted a n => .buffer a n

/-- `FuseTracer::print` of all arguments (`/repo/sources/fuse_tracer_v2.cpp:142-154`). -/
def printArgs (m : Memory) (args : List (String × LogArg)) : List (String × LogTok) :=
  args.map fun a => (a.1, printArg m a.2)

/-- One line of the log: its level, the function, its text (`/repo/sources/logger.cpp:57-104`). -/
structure LogLine where
  level : LogLevel
  func : String
  head : String
  args : List (String × LogTok)
  tail : List LogTok
  deriving DecidableEq

/-- `print_function_starts` (`/repo/sources/fuse_tracer_v2.cpp:156-167`).  The logger is its level, or none if there is no logger. -/
def printStarts (lg : Option LogLevel) (func : String) (args : List (String × LogArg)) (m : Memory) : List LogLine :=
  match lg with
  | none => []
  | some l => if l.rank ≤ LogLevel.trace.rank then [⟨.trace, func, "Function starts with arguments ", printArgs m args, []⟩] else []

/-- `print_function_returns` (`/repo/sources/fuse_tracer_v2.cpp:169-185`). -/
def printReturns (lg : Option LogLevel) (func : String) (args : List (String × LogArg)) (m : Memory) (rc : Int) : List LogLine :=
  match lg with
  | none => []
  | some l =>
    if l.rank ≤ LogLevel.trace.rank then
      [⟨.trace, func, "Function ends with arguments ", printArgs m args, [.lit " and return code ", .num rc]⟩]
    else []

/-- `print_function_exception` (`/repo/sources/fuse_tracer_v2.cpp:187-227`), without the name of the class.  17 is `EEXIST`. -/
def printException (lg : Option LogLevel) (func : String) (args : List (String × LogArg)) (m : Memory) (e : Exc) (rc : Int) :
    List LogLine :=
  match lg with
  | none => []
  | some l =>
    if LogLevel.verbose.rank < l.rank ∧ e.errorNumber = some 17 then []
    else if l.rank ≤ LogLevel.error.rank then
      [⟨.error, func, "Function fails with arguments ", printArgs m args,
        [.lit " with return code ", .num rc, .lit " because it encounters exception ", .raw e.text]⟩]
    else []

/-- What is known outside of a file system: memory, how often `clean_exit_fuse` was called
    (`/repo/sources/fuse_high_level_ops_base.cpp:772,831`), how often the idle timer was set again, the lines logged, and the state of the
    file system itself (any type). -/
structure FuseWorld (σ : Type) where
  mem : Memory
  exits : Nat
  activity : Nat
  log : List LogLine
  fs : σ

/-- `traced_call` (`/repo/sources/fuse_tracer_v2.h:70-101`): the return code, or none if the exception is not caught. -/
def tracedCall {σ : Type} (lg : Option LogLevel) (func : String) (args : List (String × LogArg))
    (body : FuseWorld σ → Outcome × FuseWorld σ) (w : FuseWorld σ) : Option Int × FuseWorld σ :=
  let w1 := { w with log := w.log ++ printStarts lg func args w.mem }
  match body w1 with
  | (.ret rc, w2) => (some rc, { w2 with log := w2.log ++ printReturns lg func args w2.mem rc })
  | (.throw (.vfs n _), w2) => (some (-n), { w2 with log := w2.log ++ printReturns lg func args w2.mem (-n) })
  | (.throw .foreign, w2) => (none, w2)
  | (.throw e, w2) =>
    match e.errorNumber with
    | some n => (some (-n), { w2 with log := w2.log ++ printException lg func args w2.mem e (-n) })
    | none => (some (-1), { w2 with log := w2.log ++ printException lg func args w2.mem e (-1) })

/-- The functions of `fuse_operations` that can be set (`/repo/sources/fuse_high_level_ops_base.cpp:429-465`). -/
inductive FuseFn where
  | statfs | getattr | fgetattr | opendir | releasedir | readdir | create | open_ | release | read | write | flush | ftruncate | unlink
  | mkdir | rmdir | chmod | chown | symlink | link | readlink | rename | fsync | truncate | utimens | listxattr | getxattr | setxattr
  | removexattr | getpath | ioctl
  deriving DecidableEq

/-- A call of one of the virtual functions with its arguments (`/repo/sources/fuse_high_level_ops_base.h:28-171`).  Paths may be null.
    Of `fuse_context` only the owner is used outside of the file systems; it is passed to the wrappers separately. -/
inductive FuseCall where
  | statfs (path : Option Bytes) (buf : Nat)
  | getattr (path : Option Bytes) (st : Nat)
  | fgetattr (path : Option Bytes) (st info : Nat)
  | opendir (path : Option Bytes) (info : Nat)
  | releasedir (path : Option Bytes) (info : Nat)
  | readdir (path : Option Bytes) (buf filler : Nat) (off : Int) (info : Nat)
  | create (path : Option Bytes) (mode info : Nat)
  | open_ (path : Option Bytes) (info : Nat)
  | release (path : Option Bytes) (info : Nat)
  | read (path : Option Bytes) (buf size : Nat) (offset : Int) (info : Nat)
  | write (path : Option Bytes) (buf size : Nat) (offset : Int) (info : Nat)
  | flush (path : Option Bytes) (info : Nat)
  | ftruncate (path : Option Bytes) (len : Int) (info : Nat)
  | unlink (path : Option Bytes)
  | mkdir (path : Option Bytes) (mode : Nat)
  | rmdir (path : Option Bytes)
  | chmod (path : Option Bytes) (mode : Nat)
  | chown (path : Option Bytes) (uid gid : Nat)
  | symlink (target link : Option Bytes)
  | link (src dest : Option Bytes)
  | readlink (path : Option Bytes) (buf size : Nat)
  | rename (src dest : Option Bytes)
  | fsync (path : Option Bytes) (datasync : Int) (info : Nat)
  | truncate (path : Option Bytes) (len : Int)
  | utimens (path : Option Bytes) (ts : Nat)
  | listxattr (path : Option Bytes) (list size : Nat)
  | getxattr (path name : Option Bytes) (value size position : Nat)
  | setxattr (path name : Option Bytes) (value size : Nat) (flags : Int) (position : Nat)
  | removexattr (path name : Option Bytes)
  | getpath (path : Option Bytes) (buf size info : Nat)
  | ioctl (path : Option Bytes) (cmd : BitVec 32) (arg info flags data : Nat)
  deriving DecidableEq

/-- The function called (`/repo/sources/fuse_high_level_ops_base.cpp:429-465`). -/
def FuseCall.fn : FuseCall → FuseFn
  | .statfs .. => .statfs
  | .getattr .. => .getattr
  | .fgetattr .. => .fgetattr
  | .opendir .. => .opendir
  | .releasedir .. => .releasedir
  | .readdir .. => .readdir
  | .create .. => .create
  | .open_ .. => .open_
  | .release .. => .release
  | .read .. => .read
  | .write .. => .write
  | .flush .. => .flush
  | .ftruncate .. => .ftruncate
  | .unlink .. => .unlink
  | .mkdir .. => .mkdir
  | .rmdir .. => .rmdir
  | .chmod .. => .chmod
  | .chown .. => .chown
  | .symlink .. => .symlink
  | .link .. => .link
  | .readlink .. => .readlink
  | .rename .. => .rename
  | .fsync .. => .fsync
  | .truncate .. => .truncate
  | .utimens .. => .utimens
  | .listxattr .. => .listxattr
  | .getxattr .. => .getxattr
  | .setxattr .. => .setxattr
  | .removexattr .. => .removexattr
  | .getpath .. => .getpath
  | .ioctl .. => .ioctl

/-- An object of a subclass of `FuseHighLevelOpsBase` (`/repo/sources/fuse_high_level_ops_base.h:19-172`): `allow_sensitive_logging`, the
    functions `has_…` and the functions `v…`. -/
structure FuseOps (σ : Type) where
  sens : Bool
  has : FuseFn → Bool
  run : FuseCall → FuseWorld σ → Outcome × FuseWorld σ

/-- A buffer that may hold what is kept secret (`/repo/sources/fuse_high_level_ops_base.cpp:112-114`). -/
def bufArg (sens : Bool) (addr size : Nat) : LogArg := if sens then .plain addr size else .redacted addr size

/-- The arguments given to `traced_call` (`/repo/sources/fuse_high_level_ops_base.cpp:19-382`). -/
def logArgs (sens : Bool) : FuseCall → List (String × LogArg)
  | .statfs p b => [("path", .cstr p), ("buf", .fields b)]
  | .getattr p st => [("path", .cstr p), ("st", .fields st)]
  | .fgetattr p st i => [("path", .cstr p), ("st", .fields st), ("info", .fields i)]
  | .opendir p i => [("path", .cstr p), ("info", .fields i)]
  | .releasedir p i => [("path", .cstr p), ("info", .fields i)]
  | .readdir p b f o i => [("path", .cstr p), ("buf", .ptr b), ("filler", .ptr f), ("off", .num o), ("info", .fields i)]
  | .create p m i => [("path", .cstr p), ("mode", .num m), ("info", .fields i)]
  | .open_ p i => [("path", .cstr p), ("info", .fields i)]
  | .release p i => [("path", .cstr p), ("info", .fields i)]
  | .read p b n o i => [("path", .cstr p), ("buf", bufArg sens b n), ("size", .num n), ("offset", .num o), ("info", .fields i)]
  | .write p b n o i => [("path", .cstr p), ("buf", bufArg sens b n), ("size", .num n), ("offset", .num o), ("info", .fields i)]
  | .flush p i => [("path", .cstr p), ("info", .fields i)]
  | .ftruncate p l i => [("path", .cstr p), ("len", .num l), ("info", .fields i)]
  | .unlink p => [("path", .cstr p)]
  | .mkdir p m => [("path", .cstr p), ("mode", .num m)]
  | .rmdir p => [("path", .cstr p)]
  | .chmod p m => [("path", .cstr p), ("mode", .num m)]
  | .chown p u g => [("path", .cstr p), ("uid", .num u), ("gid", .num g)]
  | .symlink t l => [("to", .cstr t), ("from", .cstr l)]
  | .link s d => [("src", .cstr s), ("dest", .cstr d)]
  | .readlink p b n => [("path", .cstr p), ("buf", .redacted b n), ("size", .num n)]
  | .rename s d => [("from", .cstr s), ("to", .cstr d)]
  | .fsync p d i => [("path", .cstr p), ("datasync", .num d), ("info", .fields i)]
  | .truncate p l => [("path", .cstr p), ("len", .num l)]
  | .utimens p t => [("path", .cstr p), ("ts", .fields t)]
  | .listxattr p b n => [("path", .cstr p), ("list", bufArg sens b n), ("size", .num n)]
  | .getxattr p x b n o => [("path", .cstr p), ("name", .cstr x), ("value", bufArg sens b n), ("size", .num n), ("position", .num o)]
  | .setxattr p x b n f o =>
    [("path", .cstr p), ("name", .cstr x), ("value", bufArg sens b n), ("size", .num n), ("flags", .num f), ("position", .num o)]
  | .removexattr p x => [("path", .cstr p), ("name", .cstr x)]
  | .getpath p b n i => [("path", .cstr p), ("buf", .ptr b), ("size", .num n), ("info", .fields i)]
  | .ioctl p c a i f d =>
    [("path", .cstr p), ("cmd", .num c.toInt), ("arg", .ptr a), ("fi", .fields i), ("flags", .num f), ("data", .ptr d)]

/-- The name given to `traced_call` (`/repo/sources/fuse_high_level_ops_base.cpp:19-382`). -/
def logName : FuseFn → String
  | .statfs => "statfs"
  | .getattr => "getattr"
  | .fgetattr => "fgetattr"
  | .opendir => "opendir"
  | .releasedir => "releasedir"
  | .readdir => "readdir"
  | .create => "create"
  | .open_ => "open"
  | .release => "release"
  | .read => "read"
  | .write => "write"
  | .flush => "flush"
  | .ftruncate => "ftruncate"
  | .unlink => "unlink"
  | .mkdir => "mkdir"
  | .rmdir => "rmdir"
  | .chmod => "chmod"
  | .chown => "chown"
  | .symlink => "symlink"
  | .link => "link"
  | .readlink => "readlink"
  | .rename => "rename"
  | .fsync => "fsync"
  | .truncate => "truncate"
  | .utimens => "utimens"
  | .listxattr => "listxattr"
  | .getxattr => "getxattr"
  | .setxattr => "setxattr"
  | .removexattr => "removexattr"
  | .getpath => "getpath"
  | .ioctl => "ioctl"

/-- The inner `try` of `static_getxattr` (`/repo/sources/fuse_high_level_ops_base.cpp:282-307`): 61 is `ENODATA`, the same as `ENOATTR` on
    Linux. -/
def quietNoData : Outcome → Outcome
  | .ret rc => .ret rc
  | .throw e =>
    match e.errorNumber with
    | some n => if n = 61 then .ret (-n) else .throw e
    | none => .throw e

/-- The function given to `traced_call` (`/repo/sources/fuse_high_level_ops_base.cpp:19-382`). -/
def callBody {σ : Type} (o : FuseOps σ) (c : FuseCall) (w : FuseWorld σ) : Outcome × FuseWorld σ :=
  match c.fn with
  | .getxattr => (quietNoData (o.run c w).1, (o.run c w).2)
  | _ => o.run c w

/-- The static functions (`/repo/sources/fuse_high_level_ops_base.cpp:19-382`). -/
def staticCall {σ : Type} (lg : Option LogLevel) (o : FuseOps σ) (c : FuseCall) (w : FuseWorld σ) : Option Int × FuseWorld σ :=
  tracedCall lg (logName c.fn) (logArgs o.sens c) (callBody o c) w

/-- `build_ops` (`/repo/sources/fuse_high_level_ops_base.cpp:429-465`): which functions are set, not on Windows. -/
def installed {σ : Type} (o : FuseOps σ) : FuseFn → Bool
  | .getpath => false
  | f => o.has f

/-- A request of the kernel: libfuse calls the function that `build_ops` has set (`/repo/sources/fuse_high_level_ops_base.cpp:429-465`), or
    answers `ENOSYS` (38) if it is not set (this is libfuse, not in /repo). -/
def kernelCall {σ : Type} (lg : Option LogLevel) (o : FuseOps σ) (c : FuseCall) (w : FuseWorld σ) : Option Int × FuseWorld σ :=
  if installed o c.fn then staticCall lg o c w else (some (-38), w)

/-- The functions of `DelegateFuseHighLevelOps` (`/repo/sources/fuse_high_level_ops_base.cpp:482-733`). -/
def delegateRun {σ : Type} (o : FuseOps σ) : FuseCall → FuseWorld σ → Outcome × FuseWorld σ
  | .statfs p b => o.run (.statfs p b)
  | .getattr p st => o.run (.getattr p st)
  | .fgetattr p st i => o.run (.fgetattr p st i)
  | .opendir p i => o.run (.opendir p i)
  | .releasedir p i => o.run (.releasedir p i)
  | .readdir p b f off i => o.run (.readdir p b f off i)
  | .create p m i => o.run (.create p m i)
  | .open_ p i => o.run (.open_ p i)
  | .release p i => o.run (.release p i)
  | .read p b n off i => o.run (.read p b n off i)
  | .write p b n off i => o.run (.write p b n off i)
  | .flush p i => o.run (.flush p i)
  | .ftruncate p l i => o.run (.ftruncate p l i)
  | .unlink p => o.run (.unlink p)
  | .mkdir p m => o.run (.mkdir p m)
  | .rmdir p => o.run (.rmdir p)
  | .chmod p m => o.run (.chmod p m)
  | .chown p u g => o.run (.chown p u g)
  | .symlink t l => o.run (.symlink t l)
  | .link s d => o.run (.link s d)
  | .readlink p b n => o.run (.readlink p b n)
  | .rename s d => o.run (.rename s d)
  | .fsync p d i => o.run (.fsync p d i)
  | .truncate p l => o.run (.truncate p l)
  | .utimens p t => o.run (.utimens p t)
  | .listxattr p b n => o.run (.listxattr p b n)
  | .getxattr p x b n pos => o.run (.getxattr p x b n pos)
  | .setxattr p x b n f pos => o.run (.setxattr p x b n f pos)
  | .removexattr p x => o.run (.removexattr p x)
  | .getpath p b n i => o.run (.getpath p b n i)
  | .ioctl p c a i f d => o.run (.ioctl p c a i f d)

/-- `DelegateFuseHighLevelOps` (`/repo/sources/fuse_high_level_ops_base.cpp:469-733`). -/
def delegateOps {σ : Type} (o : FuseOps σ) : FuseOps σ where
  sens := o.sens
  has f := o.has f
  run c := delegateRun o c

/-- `HookedFuseHighLevelOps` with an `IdleShutdownHook` (`/repo/sources/fuse_hook.h:50-293`, `/repo/sources/fuse_hook.cpp:21`): every function
    sets the timer first.  (The timer is `Timer.lean`.) -/
def hookedOps {σ : Type} (o : FuseOps σ) : FuseOps σ where
  sens := (delegateOps o).sens
  has := (delegateOps o).has
  run c w := (delegateOps o).run c { w with activity := w.activity + 1 }

/-- `AllowSensitiveLoggingFuseHighLevelOps` (`/repo/sources/fuse_high_level_ops_base.cpp:735-742`). -/
def sensitiveOps {σ : Type} (o : FuseOps σ) : FuseOps σ where
  sens := true
  has := (delegateOps o).has
  run := (delegateOps o).run

/-- `_IOC` of Linux, with its fields at bits 30, 16, 8 and 0 (`/repo/sources/unix.cpp:607-608` uses it). -/
def iocCode (dir type nr size : BitVec 32) : BitVec 32 := dir <<< 30 ||| size <<< 16 ||| type <<< 8 ||| nr

/-- `get_cmd_for_query_ioctl`: `_IOR('s', 1, unsigned)` (`/repo/sources/unix.cpp:607`). -/
def queryCmd : BitVec 32 := iocCode 2 115 1 4

/-- `get_cmd_for_trigger_unmount_ioctl`: `_IO('s', 2)` (`/repo/sources/unix.cpp:608`). -/
def unmountCmd : BitVec 32 := iocCode 0 115 2 0

/-- `_IOC_SIZE` (used in `/repo/sources/fuse_high_level_ops_base.cpp:760`). -/
def iocSize (cmd : BitVec 32) : BitVec 32 := (cmd >>> 16) &&& 0x3fff

/-- Storing an `unsigned` at an address (`/repo/sources/fuse_high_level_ops_base.cpp:765`), little-endian. -/
def Memory.store32 (m : Memory) (addr : Nat) (v : BitVec 32) : Memory :=
  { m with byte := fun a => if addr ≤ a ∧ a < addr + 4 then UInt8.ofBitVec ((v >>> (8 * (a - addr))).setWidth 8) else m.byte a }

/-- `SpecialIoctlFuseHighLevelOps::vioctl` (`/repo/sources/fuse_high_level_ops_base.cpp:749-778`).  95 is `ENOTSUP`. -/
def specialIoctl {σ : Type} (magic : BitVec 32) (o : FuseOps σ) (p : Option Bytes) (cmd : BitVec 32) (arg info flags data : Nat)
    (w : FuseWorld σ) : Outcome × FuseWorld σ :=
  if cmd = queryCmd then
    if iocSize cmd ≠ 4 then (.throw (.std []), w)
    else (.ret 0, { w with mem := w.mem.store32 data magic })
  else if cmd = unmountCmd then (.ret 0, { w with exits := w.exits + 1 })
  else
    match (delegateOps o).run (.ioctl p cmd arg info flags data) w with
    | (.ret rc, w') => (.ret (if rc = -38 then -95 else rc), w')
    | r => r

/-- `SpecialIoctlFuseHighLevelOps` (`/repo/sources/fuse_high_level_ops_base.cpp:744-781`). -/
def ioctlOps {σ : Type} (magic : BitVec 32) (o : FuseOps σ) : FuseOps σ where
  sens := (delegateOps o).sens
  has f := if f = .ioctl then true else (delegateOps o).has f
  run c w :=
    match c with
    | .ioctl p cmd a i f d => specialIoctl magic o p cmd a i f d w
    | c => (delegateOps o).run c w

/-- `kSpecialFileName`: 60 times U+100000 in UTF-8 (`/repo/sources/fuse_high_level_ops_base.cpp:789-800`). -/
def specialName : Bytes := (List.replicate 60 [0xf4, 0x80, 0x80, 0x80]).flatten

/-- `path && path[0] == '/' && path + 1 == kSpecialFileName` (`/repo/sources/fuse_high_level_ops_base.cpp:815,829`). -/
def isSpecialPath : Option Bytes → Bool
  | some (a :: rest) => a == 47 && rest == specialName
  | _ => false

/-- Filling in a structure: from now on its fields print as this text (`/repo/sources/fuse_high_level_ops_base.cpp:817-821`). -/
def Memory.storeFields (m : Memory) (addr : Nat) (t : Bytes) : Memory :=
  { m with fields := fun a => if a = addr then t else m.fields a }

/-- `SpecialFiledFuseHighLevelOps` (`/repo/sources/fuse_high_level_ops_base.cpp:783-835`).  `dirText` is what a `stat` prints as that is zero
    but for the mode `S_IFDIR | 0777`, two links and the owner of the context. -/
def filedOps {σ : Type} (dirText : Bytes) (o : FuseOps σ) : FuseOps σ where
  sens := (delegateOps o).sens
  has f := if f = .getattr ∨ f = .rmdir then true else (delegateOps o).has f
  run c w :=
    match c with
    | .getattr p st =>
      if isSpecialPath p then (.ret 0, { w with mem := w.mem.storeFields st dirText }) else (delegateOps o).run (.getattr p st) w
    | .rmdir p =>
      if isSpecialPath p then (.ret 0, { w with exits := w.exits + 1 }) else (delegateOps o).run (.rmdir p) w
    | c => (delegateOps o).run c w

/-- What the mount is asked for (`/repo/sources/internal_mount.cpp:260,266`), and the environment of the wrappers: the magic number of
    `get_magic_for_mounted_status`, whether the library is FUSE-T (`is_fuse_t`), and the text of the special directory. -/
structure WrapCfg where
  maxIdle : Int
  sens : Bool
  fuseT : Bool
  magic : BitVec 32
  dirText : Bytes

/-- `make_fuse_high_level_ops` and `wrap_as_unmountable_fuse` (`/repo/sources/internal_mount.cpp:254-271`,
    `/repo/sources/fuse_high_level_ops_base.cpp:837-845`). -/
def wrappedOps {σ : Type} (cfg : WrapCfg) (inner : FuseOps σ) : FuseOps σ :=
  let o1 := if cfg.maxIdle > 0 then hookedOps inner else inner
  let o2 := if cfg.sens then sensitiveOps o1 else o1
  if cfg.fuseT then filedOps cfg.dirText o2 else ioctlOps cfg.magic o2

end Securefs
