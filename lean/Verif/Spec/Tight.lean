import Verif.Spec.Commands
import Verif.Model.Adapter
import Verif.Model.Shutdown
/-!
# Names and numbers that programs outside of securefs know
-/

namespace Securefs.Spec

/-- The configuration of a volume in directory `dir`: the hidden file `.config.pb`, or else that of old versions, `.securefs.json`. -/
def ConfigIs (there : Bytes → Prop) (dir path : Bytes) : Prop :=
  there path ∧ (path = dir ++ word "/.config.pb" ∨ path = dir ++ word "/.securefs.json" ∧ ¬ there (dir ++ word "/.config.pb"))

/-- The types that `statfs` tells of file systems whose inode numbers stay: Btrfs, exFAT, ext, ext2 to ext4, ext2 of old, HFS, HFS+, HFSX, NTFS, tmpfs, XFS,
    ZFS. -/
def StableInodes (t : Nat) : Prop :=
  t = 0x9123683E ∨ t = 0x2011BAB0 ∨ t = 0x137D ∨ t = 0xEF53 ∨ t = 0xEF51 ∨ t = 0x4244 ∨ t = 0x482B ∨ t = 0x4858 ∨ t = 0x5346544E ∨ t = 0x01021994 ∨
    t = 0x58465342 ∨ t = 0x2FC12FC1

/-- The names and paths that the kernel hands over with a call. -/
def texts : FuseCall → List (Option Bytes)
  | .statfs p _ | .getattr p _ | .fgetattr p _ _ | .opendir p _ | .releasedir p _ | .readdir p _ _ _ _ | .create p _ _ | .open_ p _ | .release p _
  | .read p _ _ _ _ | .write p _ _ _ _ | .flush p _ | .ftruncate p _ _ | .unlink p | .mkdir p _ | .rmdir p | .chmod p _ | .chown p _ _ | .readlink p _ _
  | .fsync p _ _ | .truncate p _ | .utimens p _ | .listxattr p _ _ | .getpath p _ _ _ | .ioctl p _ _ _ _ _ => [p]
  | .symlink p q | .link p q | .rename p q | .getxattr p q _ _ _ | .setxattr p q _ _ _ _ | .removexattr p q => [p, q]

/-- Nobody asks the server to stop: there is no signal, no request to unmount, and the kernel neither closes the session nor fails. -/
def Harmless : SrvEv → Prop
  | .signal => False
  | .handled _ unmount => unmount = false
  | .recv _ r => r = .request ∨ r = .intr
  | _ => True

/-- A worker that serves: it receives a request, works at one, or is on its way to receive the next. -/
def Serving : SrvPc → Prop
  | .start | .check | .recv | .handling => True
  | _ => False

end Securefs.Spec
