import Verif.Model.Config
/-!
# Replacing the configuration file

`ChangePasswordCommand::execute` (`/repo/sources/commands.cpp:476-501`) and the end of the migration command
(`/repo/sources/commands.cpp:1178-1193`), as sequences of system calls.
-/

namespace Securefs

/-- The files of the machine: path to content (`/repo/sources/unix.cpp`, passim).  Simplified: no directories, links or permissions. -/
abbrev PathFs := Bytes → Option Bytes

/-- The effect of a system call on the files.
    (`/repo/sources/unix.cpp:122-129,327-334,378-381,412-418`). -/
inductive FsOp where
  /-- `open` with `O_CREAT | O_EXCL` (`/repo/sources/unix.cpp:327-334`) -/
  | create (p : Bytes)
  /-- `pwrite` at offset 0 of a new file (`/repo/sources/unix.cpp:122-129`) -/
  | write (p data : Bytes)
  /-- `rename` (`/repo/sources/unix.cpp:412-418`) -/
  | rename (p q : Bytes)
  /-- `unlink` (`/repo/sources/unix.cpp:378-381`) -/
  | remove (p : Bytes)
  deriving DecidableEq

/-- Sets one path (the effect of the calls in `FsOp`).
    (`/repo/sources/unix.cpp:122-129,327-334,378-381,412-418`). -/
def PathFs.set (fs : PathFs) (p : Bytes) (c : Option Bytes) : PathFs := fun q => if q = p then c else fs q

/-- The files after a call; see `FsOp` for the lines.
    (`/repo/sources/unix.cpp:122-129,327-334,378-381,412-418`). -/
def FsOp.apply (fs : PathFs) : FsOp → PathFs
  | .create p => fs.set p (some [])
  | .write p data => fs.set p (some data)
  | .rename p q => (fs.set q (fs p)).set p none
  | .remove p => fs.set p none

/-- The files after some calls; see `FsOp` for the lines.
    (`/repo/sources/unix.cpp:122-129,327-334,378-381,412-418`). -/
def applyOps (fs : PathFs) (ops : List FsOp) : PathFs := ops.foldl FsOp.apply fs

/-- What the operating system answers (`/repo/sources/unix.cpp:122-129,327-334,378-381,412-418`). -/
structure WriteOracle where
  /-- whether a new file can be created -/
  createOk : Bool
  /-- how many bytes `pwrite` writes; `none` is an error -/
  written : Option Nat
  /-- whether `rename` succeeds -/
  renameOk : Bool
  /-- whether `remove_file_nothrow` succeeds -/
  removeOk : Bool

/-- The part after the data is encrypted (`/repo/sources/commands.cpp:492-500,1185-1193`): the calls that took effect, and the result.
    `has_uncaught_exceptions` removes the new file. -/
def replaceFile (O : WriteOracle) (fs : PathFs) (path tmp data : Bytes) : List FsOp × Res Unit :=
  if fs tmp ≠ none then ([], .error (.vfs 17))
  else if O.createOk = false then ([], .error (.vfs 28))
  else
    let cleanup : List FsOp := if O.removeOk then [.remove tmp] else []
    match O.written with
    | none => (.create tmp :: cleanup, .error (.vfs 5))
    | some n =>
      if n < data.length then (.create tmp :: .write tmp (data.take n) :: cleanup, .error (.vfs 5))
      else if O.renameOk = false then (.create tmp :: .write tmp data :: cleanup, .error (.vfs 5))
      else ([.create tmp, .write tmp data, .rename tmp path], .ok ())

/-- Password and content of the key file.
    (arguments of `/repo/sources/params_io.cpp:310-340`). -/
abbrev Credentials := Bytes × Option Bytes

/-- The random choices of `execute` and `encrypt` (`/repo/sources/commands.cpp:479-480`, `/repo/sources/params_io.cpp:316-317`). -/
structure ConfRandom where
  name : Bytes
  iv : Bytes
  salt : Bytes

/-- `ChangePasswordCommand::execute` (`/repo/sources/commands.cpp:476-501`); `path` is the result of `get_real_config_path_for_reading`. -/
def changePassword (C : ConfCrypto) (json : Bytes → Option LegacyParams) (O : WriteOracle) (R : ConfRandom) (argon : Argon2Params)
    (old new : Credentials) (fs : PathFs) (path : Bytes) : List FsOp × Res Unit :=
  match hexify R.name with
  | .error e => ([], .error e)
  | .ok hex =>
    match fs path with
    | none => ([], .error (.vfs 2))
    | some content =>
      match decryptContent C json content old.1 old.2 with
      | .error e => ([], .error e)
      | .ok d =>
        match encryptParams C d argon new.1 new.2 R.iv R.salt with
        | .error e => ([], .error e)
        | .ok p => replaceFile O fs path (path ++ hex) p.serialize

/-- `.tmp` (`/repo/sources/commands.cpp:1184`). -/
def tmpSuffix : Bytes := [46, 116, 109, 112]

/-- The end of the migration command (`/repo/sources/commands.cpp:1178-1193`), with the parameters `d` that it computed. -/
def migrateWrite (C : ConfCrypto) (O : WriteOracle) (R : ConfRandom) (argon : Argon2Params) (cred : Credentials) (d : DecParams) (fs : PathFs)
    (path : Bytes) : List FsOp × Res Unit :=
  match encryptParams C d argon cred.1 cred.2 R.iv R.salt with
  | .error e => ([], .error e)
  | .ok p => replaceFile O fs path (path ++ tmpSuffix) p.serialize

end Securefs
