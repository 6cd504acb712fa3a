import Verif.Model.Basic
/-!
# The Windows half of the platform layer

Models the parts of `/repo/sources/win.cpp` that compute: times, command lines, paths, targets of symbolic links, large reads and
writes, the cursor of a directory, error numbers, flags for opening.  What the kernel of Windows does is in small definitions here,
after its documentation.  Strings are UTF-8; the conversion to and from UTF-16 (`widen_string`, `narrow_string`,
`/repo/sources/platform.h:140-149`) is left out: it keeps the ASCII characters, and only these are looked at.
-/

namespace Securefs.Win

/-! ### Times -/

/-- `FILETIME`: two 32-bit halves of a number of 100 ns since 1601 (`/repo/sources/win.cpp:57-73`; the type is of Windows). -/
structure Filetime where
  low : UInt32
  high : UInt32
  deriving DecidableEq, Repr

/-- `fuse_timespec` with its two signed 64-bit fields (`/repo/sources/win.cpp:57-63`; the type is of WinFsp). -/
structure Timespec where
  sec : Int
  nsec : Int
  deriving DecidableEq, Repr

/-- Conversion of an unsigned 64-bit number to `long long` (`/repo/sources/win.cpp:59`). -/
def toSigned64 (n : Nat) : Int := if n < 2 ^ 63 then n else (n : Int) - 2 ^ 64

/-- A computation in `long long`: leaving the range is undefined behaviour (`/repo/sources/win.cpp:68`). -/
def signed64 (n : Int) : Res Int := if -2 ^ 63 ≤ n ∧ n < 2 ^ 63 then .ok n else .error .outOfBounds

/-- `convert_dword_pair` (`/repo/sources/win.cpp:52-55`). -/
def dwordPair (low high : Nat) : Nat := (low ||| (high <<< 32)) % 2 ^ 64

/-- The beginning of 1970 in units of 100 ns since 1601 (`/repo/sources/win.cpp:59,68`). -/
def epoch : Nat := 116444736000000000

/-- `filetime_to_unix_time` (`/repo/sources/win.cpp:57-63`).  The subtraction is unsigned, because `convert_dword_pair` is; division
    and remainder round towards zero. -/
def toUnix (ft : Filetime) : Timespec :=
  let ll := toSigned64 ((dwordPair ft.low.toNat ft.high.toNat + 2 ^ 64 - epoch) % 2 ^ 64)
  ⟨ll.tdiv 10000000, ll.tmod 10000000 * 100⟩

/-- `unix_time_to_filetime` (`/repo/sources/win.cpp:65-79`). -/
def ofUnix (t : Timespec) : Res Filetime := do
  let a ← signed64 (t.sec * 10000000)
  let b ← signed64 (a + t.nsec.tdiv 100)
  let ll ← signed64 (b + epoch)
  pure ⟨UInt32.ofNat (ll % 2 ^ 32).toNat, UInt32.ofNat (ll / 2 ^ 32 % 2 ^ 32).toNat⟩

/-! ### Command lines -/

/-- The characters `\`, `"`, space and tab of `/repo/sources/win.cpp:1401,1415,1437`. -/
def bslash : UInt8 := 92
/-- `"` (`/repo/sources/win.cpp:1401`). -/
def dquote : UInt8 := 34
/-- A character that separates arguments (`/repo/sources/win.cpp:1401`). -/
def isBlank (c : UInt8) : Bool := c == 32 || c == 9

/-- `needs_quoting` (`/repo/sources/win.cpp:1400-1401`). -/
def needsQuoting (arg : Bytes) : Bool := arg.isEmpty || arg.any fun c => isBlank c || c == dquote

/-- The loop of `win_quote_argv` (`/repo/sources/win.cpp:1412-1450`).  `n` is the number of backslashes just counted; the code counts
    them in a loop of its own and then looks at what follows. -/
def quoteLoop (n : Nat) : Bytes → Bytes
  | [] => List.replicate n bslash ++ List.replicate n bslash
  | c :: rest =>
    if c = bslash then quoteLoop (n + 1) rest
    else if c = dquote then List.replicate n bslash ++ List.replicate n bslash ++ [bslash, dquote] ++ quoteLoop 0 rest
    else List.replicate n bslash ++ c :: quoteLoop 0 rest

/-- `OSService::win_quote_argv` (`/repo/sources/win.cpp:1390-1454`). -/
def quoteArg (arg : Bytes) : Bytes :=
  if needsQuoting arg then dquote :: quoteLoop 0 arg ++ [dquote] else arg

/-- The command line that `execute_child_process_with_data` passes to `CreateProcessW` (`/repo/sources/win.cpp:1500-1514`). -/
def commandLine : List Bytes → Res Bytes
  | [] => .error .invalidArg
  | [a] => .ok (quoteArg a)
  | a :: b :: rest => do
    let r ← commandLine (b :: rest)
    pure (quoteArg a ++ 32 :: r)

/-! ### Paths -/

/-- `/` or `\` (`/repo/sources/win.cpp:778,802`). -/
def isSep (c : UInt8) : Bool := c == 47 || c == bslash

/-- `OSService::is_absolute` of Windows (`/repo/sources/win.cpp:776-780`). -/
def isAbsolute (p : Bytes) : Bool := match p with
  | [] => true
  | c :: rest => isSep c || (match rest with | [] => false | d :: _ => d == 58)

/-- `absl::StrSplit(s, ByAnyChar("/\"))` (`/repo/sources/win.cpp:800-802`). -/
def splitSep (cur : Bytes) : Bytes → List Bytes
  | [] => [cur]
  | c :: rest => if isSep c then cur :: splitSep [] rest else splitSep (cur ++ [c]) rest

/-- The predicate of the split (`/repo/sources/win.cpp:803`). -/
def keepPiece (p : Bytes) : Bool := !p.isEmpty && p != [46]

/-- The loop over the pieces (`/repo/sources/win.cpp:804-816`), for the pieces found so far. -/
def stackPieces : List Bytes → List Bytes → List Bytes
  | acc, [] => acc
  | acc, p :: rest => if p = [46, 46] then stackPieces acc.dropLast rest else stackPieces (acc ++ [p]) rest

/-- The first part of `buffer` (`/repo/sources/win.cpp:793-797`). -/
def joinBuffer (base path : Bytes) : Bytes := base ++ bslash :: path

/-- What is put behind it (`/repo/sources/win.cpp:820-837`): `\` if the base begins with `\\`, else `\\?`, and then each
    piece after a `\`. -/
def normTail (base : Bytes) (pieces : List Bytes) : Bytes :=
  (if [bslash, bslash].isPrefixOf base then [bslash] else [bslash, bslash, 63]) ++ pieces.flatMap (bslash :: ·)

/-- What the pieces are: views into `buffer` (`/repo/sources/win.cpp:799-816`). -/
def piecesOf (base path : Bytes) : List Bytes := stackPieces [] ((splitSep [] (joinBuffer base path)).filter keepPiece)

/-- `OSService::concat_and_norm` of Windows (`/repo/sources/win.cpp:782-838`), before the conversion to UTF-16.  The pieces are views
    into `buffer`: if `buffer` had to grow beyond what line 794 reserves while they are appended to it, they would dangle. -/
def concatNorm (base path : Bytes) : Res Bytes :=
  if base.isEmpty || isAbsolute path then .ok path
  else if !isAbsolute base then .error .invalidArg
  else
    let t := normTail base (piecesOf base path)
    if (joinBuffer base path).length + t.length ≤ 2 * (base.length + path.length) + 15 then .ok t
    else .error .outOfBounds

/-- `OSService::is_absolute` of Unix (`/repo/sources/unix.cpp:285`). -/
def unixIsAbsolute (p : Bytes) : Bool := match p with
  | [] => false
  | c :: _ => c == 47

/-- `OSService::concat_and_norm` of Unix (`/repo/sources/unix.cpp:287-300`). -/
def unixConcatNorm (base path : Bytes) : Res Bytes :=
  if base.isEmpty || unixIsAbsolute path then .ok path
  else if !unixIsAbsolute base then .error .invalidArg
  else if base.getLast? = some 47 then .ok (base ++ path)
  else .ok (base ++ 47 :: path)

/-! ### Targets of symbolic links -/

/-- `kSecurefsSymlinkPrefix`, that is `\??\UNC\securefs\P` (`/repo/sources/win.cpp:32`). -/
def linkPrefix : Bytes := [92, 63, 63, 92, 85, 78, 67, 92, 115, 101, 99, 117, 114, 101, 102, 115, 92, 80]

/-- `std::replace` (`/repo/sources/win.cpp:37,46`). -/
def replaceByte (a b : UInt8) (s : Bytes) : Bytes := s.map fun c => if c = a then b else c

/-- `prepend_symlink_prefix` (`/repo/sources/win.cpp:34-39`). -/
def prependPrefix (target : Bytes) : Bytes := linkPrefix ++ replaceByte 47 bslash target

/-- `remove_symlink_prefix` (`/repo/sources/win.cpp:41-50`). -/
def removePrefix (stored : Bytes) : Bytes :=
  if linkPrefix.isPrefixOf stored then replaceByte bslash 47 (stored.drop linkPrefix.length) else stored

/-- `readlink` once the reparse data is there (`/repo/sources/win.cpp:1043-1053`): the bytes copied, at most `size`. -/
def readLink (stored : Bytes) (size : Nat) : Bytes := (removePrefix stored).take size

/-- `st_size` of a symbolic link (`/repo/sources/win.cpp:518-521`). -/
def linkSize (stored : Bytes) : Nat := if stored.length > linkPrefix.length then stored.length - linkPrefix.length else 0

/-! ### Reading and writing more than 4 GiB -/

/-- `MAX_SINGLE_BLOCK` (`/repo/sources/win.cpp:81`). -/
def maxBlock : Nat := 4294967295

/-- `ReadFile` with an `OVERLAPPED` on a plain file with content `c`, called by `read32` (`/repo/sources/win.cpp:557-573`): the offset
    comes in two halves; at or behind the end the error is `ERROR_HANDLE_EOF`, which `read32` turns into 0.  (Simplified: no other
    errors.) -/
def read32 (c : Bytes) (offset len : Nat) : Bytes :=
  let off := dwordPair (offset % 2 ^ 32) (offset / 2 ^ 32 % 2 ^ 32)
  if off ≥ c.length then [] else (c.drop off).take (len % 2 ^ 32)

/-- `WindowsFileStream::read` (`/repo/sources/win.cpp:677-692`).  The loop ends because `length` falls; `fuel` is `length`. -/
def readLoop (c : Bytes) : Nat → Nat → Nat → Res Bytes
  | 0, _, _ => .error .fuel
  | fuel + 1, offset, length =>
    if length > maxBlock then
      let b := read32 c offset maxBlock
      if b.length = 0 then .ok [] else do
        let r ← readLoop c fuel (offset + b.length) (length - b.length)
        pure (b ++ r)
    else .ok (read32 c offset length)

/-- `WindowsFileStream::read` (`/repo/sources/win.cpp:677-692`). -/
def readFile (c : Bytes) (offset length : Nat) : Res Bytes := readLoop c (length + 1) offset length

/-- `WriteFile` with an `OVERLAPPED`, called by `write32` (`/repo/sources/win.cpp:536-547`): a gap is filled with zeros; writing no bytes
    changes nothing.  (Simplified: no errors.) -/
def write32 (c : Bytes) (offset : Nat) (d : Bytes) : Bytes :=
  let off := dwordPair (offset % 2 ^ 32) (offset / 2 ^ 32 % 2 ^ 32)
  if d.isEmpty then c
  else c.take off ++ zeros (off - c.length) ++ d ++ c.drop (off + d.length)

/-- `WindowsFileStream::write` (`/repo/sources/win.cpp:710-720`). -/
def writeLoop (c : Bytes) : Nat → Nat → Bytes → Res Bytes
  | 0, _, _ => .error .fuel
  | fuel + 1, offset, d =>
    if d.length > maxBlock then writeLoop (write32 c offset (d.take maxBlock)) fuel (offset + maxBlock) (d.drop maxBlock)
    else .ok (write32 c offset d)

/-- `WindowsFileStream::write` (`/repo/sources/win.cpp:710-720`). -/
def writeFile (c : Bytes) (offset : Nat) (d : Bytes) : Res Bytes := writeLoop c (d.length + 1) offset d

/-! ### Opening -/

/-- What `flags` say (`/repo/sources/win.cpp:593-625`): the access mode is 0, 1 or 2, as the two low bits; other flags are not looked at. -/
structure OpenFlags where
  mode : Nat
  creat : Bool
  excl : Bool
  trunc : Bool
  deriving DecidableEq, Repr

/-- `dwCreationDisposition` of `CreateFileW` (`/repo/sources/win.cpp:608-625`). -/
inductive Disposition where
  | createNew
  | createAlways
  | openAlways
  | truncateExisting
  | openExisting
  deriving DecidableEq, Repr

/-- `access_flags`: for reading, for writing (`/repo/sources/win.cpp:592-606`). -/
def accessOf (mode : Nat) : Res (Bool × Bool) :=
  match mode with
  | 0 => .ok (true, false)
  | 1 => .ok (false, true)
  | 2 => .ok (true, true)
  | _ => .error (.vfs 22)

/-- `create_flags` (`/repo/sources/win.cpp:608-625`). -/
def dispositionOf (f : OpenFlags) : Disposition :=
  if f.creat then
    if f.excl then .createNew
    else if f.trunc then .createAlways
    else .openAlways
  else if f.trunc then .truncateExisting
  else .openExisting

/-- `CreateFileW` on a path where there is a file with the given content or nothing (called at `/repo/sources/win.cpp:627-633`): the
    content afterwards, or the error code.  After the documentation: `CREATE_NEW` fails with `ERROR_FILE_EXISTS` (80), the two that
    need a file with `ERROR_FILE_NOT_FOUND` (2), and `TRUNCATE_EXISTING` without `GENERIC_WRITE` with `ERROR_INVALID_PARAMETER` (87). -/
def createFile (acc : Bool × Bool) (d : Disposition) (f : Option Bytes) : Except Nat Bytes :=
  match d, f with
  | .createNew, none => .ok []
  | .createNew, some _ => .error 80
  | .createAlways, _ => .ok []
  | .openAlways, none => .ok []
  | .openAlways, some c => .ok c
  | .truncateExisting, none => .error 2
  | .truncateExisting, some _ => if acc.2 then .ok [] else .error 87
  | .openExisting, none => .error 2
  | .openExisting, some c => .ok c

/-- `WindowsException::error_number`: the table (`/repo/sources/win.cpp:167-436`), with the numbers that `errno.h` of Windows has for
    the names. -/
def errorTable : List Nat := [
   0, 22, 2, 2, 24, 13, 9, 12, 12, 12, 7, 8, 13, 22, 14, 2, 13, 18, 2, 30, 6, 16, 5, 5, 5,
   5, 5, 6, 16, 5, 5, 5, 13, 13, 6, 23, 23, 22, 22, 28, 22, 22, 22, 22, 22, 22, 22, 22, 22, 22,
   19, 16, 17, 2, 16, 19, 11, 5, 5, 5, 22, 27, 28, 2, 2, 13, 19, 2, 23, 5, 11, 22, 11, 22, 22,
   22, 22, 22, 22, 22, 17, 22, 28, 5, 23, 17, 1, 22, 5, 11, 22, 22, 22, 22, 22, 22, 22, 22, 22, 22,
   22, 22, 22, 22, 22, 22, 22, 18, 11, 32, 2, 22, 28, 24, 9, 14, 22, 22, 22, 22, 22, 22, 22, 2, 22,
   22, 22, 3, 10, 10, 9, 22, 29, 22, 22, 22, 22, 22, 22, 22, 22, 22, 11, 22, 22, 41, 22, 22, 22, 22,
   22, 22, 22, 22, 22, 22, 22, 22, 13, 22, 22, 2, 22, 22, 22, 22, 22, 11, 22, 22, 22, 22, 22, 22, 22,
   22, 22, 22, 22, 22, 22, 22, 22, 17, 10, 22, 22, 22, 22, 22, 22, 22, 22, 22, 22, 22, 22, 22, 22, 22,
   22, 22, 22, 22, 22, 22, 38, 22, 22, 22, 22, 22, 22, 22, 22, 22, 22, 22, 22, 22, 22, 22, 22, 22, 22,
   22, 22, 22, 22, 22, 32, 11, 32, 32, 22, 22, 22, 22, 22, 22, 22, 22, 22, 22, 22, 22, 22, 22, 22, 22,
   22, 22, 22, 22, 22, 22, 22, 22, 22, 22, 22, 22, 22, 22, 22, 22, 22, 20]

/-- `WindowsException::error_number` (`/repo/sources/win.cpp:165-440`); 1 is `EPERM`. -/
def errorNumber (err : UInt32) : Nat :=
  match errorTable[err.toNat]? with
  | some e => e
  | none => 1

/-- The constructor of `WindowsFileStream` (`/repo/sources/win.cpp:589-639`): the content of the file afterwards. -/
def openFile (f : OpenFlags) (file : Option Bytes) : Res Bytes := do
  let acc ← accessOf f.mode
  match createFile acc (dispositionOf f) file with
  | .ok c => pure c
  | .error e => .error (.vfs (errorNumber (UInt32.ofNat e)))

/-! ### The cursor of a directory -/

/-- A search handle of Windows with `m_data` and `m_is_initial` (`/repo/sources/win.cpp:1093-1099`).  `current` is the name in `m_data`,
    `rest` are the names that `FindNextFileW` will give.  (Simplified: a search returns what was in the directory when it began; Windows
    may show later changes.) -/
structure Cursor where
  current : Bytes
  rest : List Bytes
  initial : Bool
  handle : Bool
  deriving DecidableEq, Repr

/-- `FindFirstFileW` with `*` (`/repo/sources/win.cpp:1120`): `none` (`ERROR_FILE_NOT_FOUND`) if there is no entry at all, which happens
    in the root of a volume only, since other directories list `.` and `..`. -/
def findFirst : List Bytes → Option (Bytes × List Bytes)
  | [] => none
  | n :: rest => some (n, rest)

/-- `WindowsDirectoryTraverser::rewind` (`/repo/sources/win.cpp:1114-1126`), the directory having the entries `dir`.  The old handle is
    closed and overwritten before the new one is looked at. -/
def Cursor.rewind (k : Cursor) (dir : List Bytes) : Res Unit × Cursor :=
  if k.initial then (.ok (), k)
  else match findFirst dir with
    | none => (.error (.vfs (errorNumber 2)), { k with handle := false })
    | some (n, rest) => (.ok (), ⟨n, rest, true, true⟩)

/-- The constructor (`/repo/sources/win.cpp:1102-1106`): `m_data` is not initialised, `m_is_initial` is false. -/
def Cursor.create (garbage : Bytes) (dir : List Bytes) : Res Cursor :=
  match Cursor.rewind ⟨garbage, [], false, false⟩ dir with
  | (.error e, _) => .error e
  | (.ok _, k) => .ok k

/-- `WindowsDirectoryTraverser::next` (`/repo/sources/win.cpp:1128-1146`), the name only.  `ERROR_INVALID_HANDLE` is 6. -/
def Cursor.next (k : Cursor) : Res (Option Bytes) × Cursor :=
  if k.initial then (.ok (some k.current), { k with initial := false })
  else if !k.handle then (.error (.vfs (errorNumber 6)), k)
  else match k.rest with
    | [] => (.ok none, k)
    | n :: rest => (.ok (some n), { k with current := n, rest := rest })

/-! ### Attributes -/

/-- `dwFileAttributes` as far as it is looked at, and the size of a file (`/repo/sources/win.cpp:474-528,1147-1169`). -/
structure FindData where
  reparse : Bool
  directory : Bool
  size : Nat
  deriving DecidableEq, Repr

/-- `st_mode`, which the two functions compute in the same way (`/repo/sources/win.cpp:491-493,524-527,1149-1160`). -/
def modeOf (d : FindData) : Nat :=
  if d.reparse then 0xA000 ||| 0o777 else if d.directory then 0x4000 ||| 0o755 else 0x8000 ||| 0o755

/-- `st_blocks` in `stat_file_handle` (`/repo/sources/win.cpp:490`). -/
def statBlocks (d : FindData) : Nat := (d.size + 4095) / 4096 * (4096 / 512)

/-- `st_blocks` in the listing (`/repo/sources/win.cpp:1168`). -/
def listBlocks (d : FindData) : Nat := d.size / 512

end Securefs.Win
