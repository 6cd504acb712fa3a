import Verif.Model.Btree
/-!
# The flat directory

`SimpleDirectory` (`/repo/sources/files.h:512-557`, `/repo/sources/files.cpp:404-491`) on an ideal byte stream, which the streams of the full
format are (properties C02 and C12).
-/

namespace Securefs

/-- `Directory::MAX_FILENAME_LENGTH` (`/repo/sources/files.h:432`). -/
def sdMaxName : Nat := 255

/-- The size of the buffer for one entry (`/repo/sources/files.cpp:406,463`). -/
def sdRecordSize : Nat := sdMaxName + 1 + 32 + 4

/-- `SimpleDirectory` (`/repo/sources/files.h:512-525`): the map in its order, the mark, and the stream. -/
structure SDirState where
  table : List DirEntry
  dirty : Bool
  stream : Bytes
  deriving DecidableEq

/-- `std::map::emplace` with `Less` (`/repo/sources/files.h:515-524`, `/repo/sources/files.cpp:420,440`). -/
def sdEmplace (cmp : Bytes → Bytes → Int) (e : DirEntry) : List DirEntry → List DirEntry × Bool
  | [] => ([e], true)
  | x :: xs =>
    if cmp e.name x.name < 0 then (e :: x :: xs, true)
    else if cmp x.name e.name < 0 then
      let r := sdEmplace cmp e xs
      (x :: r.1, r.2)
    else (x :: xs, false)

/-- The equivalence of `std::map::find` (`/repo/sources/files.cpp:428,448`). -/
def sdSame (cmp : Bytes → Bytes → Int) (a b : Bytes) : Bool := !decide (cmp a b < 0) && !decide (cmp b a < 0)

/-- One entry of the loop of `subflush` (`/repo/sources/files.cpp:467-475`): a record, unless the name is too long. -/
def sdRecord (e : DirEntry) : Res Bytes :=
  if e.name.length > sdMaxName then .ok []
  else
    match memcpyAt (zeros sdRecordSize) 0 e.name with
    | .error err => .error err
    | .ok buf =>
      match memcpyAt buf (sdMaxName + 1) e.id with
      | .error err => .error err
      | .ok buf => memcpyAt buf (sdRecordSize - 4) (toLE 4 (e.type % 2 ^ 32))

/-- The loop of `subflush` (`/repo/sources/files.cpp:464-477`); consecutive writes to an empty stream. -/
def sdRecords : List DirEntry → Res Bytes
  | [] => .ok []
  | e :: es =>
    match sdRecord e with
    | .error err => .error err
    | .ok r =>
      match sdRecords es with
      | .error err => .error err
      | .ok rs => .ok (r ++ rs)

/-- `subflush` (`/repo/sources/files.cpp:458-479`).  Simplified: writing to the stream does not fail. -/
def sdFlush (s : SDirState) : Res SDirState :=
  if s.dirty then
    match sdRecords s.table with
    | .error err => .error err
    | .ok b => .ok { s with stream := b, dirty := false }
  else .ok s

/-- The loop of `initialize` (`/repo/sources/files.cpp:410-422`).  A byte of the buffer is set to zero before the name is taken from it. -/
def sdLoad (cmp : Bytes → Bytes → Int) (stream : Bytes) : Nat → Nat → List DirEntry → Res (List DirEntry)
  | 0, _, _ => .error .fuel
  | fuel + 1, off, table =>
    let buf := (stream.drop off).take sdRecordSize
    if buf.length < sdRecordSize then .ok table
    else
      match memcpyAt buf sdMaxName [0] with
      | .error err => .error err
      | .ok buf =>
        match fromLE 4 (buf.drop (sdRecordSize - 4)) with
        | .error err => .error err
        | .ok type =>
          let e : DirEntry := ⟨buf.takeWhile (· ≠ 0), (buf.drop (sdMaxName + 1)).take 32, type⟩
          sdLoad cmp stream fuel (off + sdRecordSize) (sdEmplace cmp e table).1

/-- The constructor (`/repo/sources/files.h:531-535`); `dirty`, which it does not set (`/repo/sources/files.h:525`), is arbitrary. -/
def sdOpen (cmp : Bytes → Bytes → Int) (dirty : Bool) (stream : Bytes) : Res SDirState :=
  match sdLoad cmp stream (stream.length + 1) 0 [] with
  | .error err => .error err
  | .ok table => .ok ⟨table, dirty, stream⟩

/-- `get_entry_impl` (`/repo/sources/files.cpp:425-434`). -/
def sdGet (cmp : Bytes → Bytes → Int) (s : SDirState) (name : Bytes) : Option DirEntry := s.table.find? fun x => sdSame cmp name x.name

/-- `add_entry_impl` (`/repo/sources/files.cpp:436-444`). -/
def sdAdd (cmp : Bytes → Bytes → Int) (s : SDirState) (e : DirEntry) : Res (SDirState × Bool) :=
  if e.name.length > sdMaxName then .error (.vfs eNAMETOOLONG)
  else
    let r := sdEmplace cmp e s.table
    .ok ({ s with table := r.1, dirty := s.dirty || r.2 }, r.2)

/-- `remove_entry_impl` (`/repo/sources/files.cpp:446-456`). -/
def sdRemove (cmp : Bytes → Bytes → Int) (s : SDirState) (name : Bytes) : SDirState × Option DirEntry :=
  match sdGet cmp s name with
  | none => (s, none)
  | some e => ({ s with table := s.table.eraseP (fun x => sdSame cmp name x.name), dirty := true }, some e)

/-- Closing and opening again (`/repo/sources/files.cpp:481-491`, `/repo/sources/files.h:531-535`): the destructor flushes. -/
def sdReopen (cmp : Bytes → Bytes → Int) (dirty : Bool) (s : SDirState) : Res SDirState :=
  match sdFlush s with
  | .error err => .error err
  | .ok s => sdOpen cmp dirty s.stream

/-- `iterate_over_entries_impl` (`/repo/sources/files.h:546-552`): the map in its order. -/
def sdList (s : SDirState) : List DirEntry := s.table

/-- `empty` (`/repo/sources/files.h:554`). -/
def sdEmpty (s : SDirState) : Bool := s.table.isEmpty

end Securefs
