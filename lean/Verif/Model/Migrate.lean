import Verif.Model.Names
/-!
# Migrating a volume to long names

Models the part of `MigrateLongNameCommand::execute` (`/repo/sources/commands.cpp:1136-1194`) for a volume without long names, and the choice of
the translator (`/repo/sources/lite_format.cpp:1227-1251`) without normalization.  The configuration file is written as by `chpass`.
-/

namespace Securefs

/-- `kDefaultLongNameThreshold` (`/repo/sources/commands.cpp:1121`). -/
def kDefaultLongNameThreshold : Nat := 128

/-- The callback given to `recursive_traverse` (`/repo/sources/commands.cpp:1155-1164`): for every name, and whether it is a symbolic link,
    the length of the longest so far; a symbolic link ends the migration. -/
def migrateScan (longest : Nat) : List (Bytes × Bool) → Res Nat
  | [] => .ok longest
  | (name, isLink) :: rest => if isLink then .error .invalidArg else migrateScan (max longest name.length) rest

/-- The threshold (`/repo/sources/commands.cpp:1165-1173`).  The subtraction is in 64 bits. -/
def migrateThreshold (longest : Nat) : Nat :=
  if longest < (kDefaultLongNameThreshold + 16) * 8 / 5 then kDefaultLongNameThreshold
  else (longest * 5 % 2 ^ 64 / 8 + 2 ^ 64 - 16) % 2 ^ 64

/-- What is stored in the configuration (`/repo/sources/commands.cpp:1152-1177`): a 32-bit threshold. -/
def migrate (stored : List (Bytes × Bool)) : Res Nat :=
  match migrateScan 0 stored with
  | .error e => .error e
  | .ok longest => .ok (migrateThreshold longest % 2 ^ 32)

/-- The translator used for a threshold and suffix (`/repo/sources/lite_format.cpp:1235-1244`). -/
def makeTranslator (K : NameKeys) (threshold : Nat) (suffix : Bytes) : NewStyle ⊕ Siv :=
  if threshold > 0 then .inl (mkNewStyle K threshold suffix) else .inr K.siv

end Securefs
