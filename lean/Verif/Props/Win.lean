import Verif.Proofs.Win
import Verif.Proofs.WinPath
/-!
# C88 to C92: The Windows half of the platform layer
-/

namespace Securefs.Props

open Win Spec.Win

/-! ### C88: Times -/

/-- A file time is read as the same instant. -/
theorem C88_read (ft : Filetime) (h : ft.high.toNat < 2 ^ 31) :
    instant (toUnix ft).sec (toUnix ft).nsec = filetimeInstant ft.low ft.high := by
  rw [toUnix_eq ft h]
  dsimp only
  have e := Int.mul_tdiv_add_tmod ((ft.low.toNat + 2 ^ 32 * ft.high.toNat : Nat) - (epoch : Int)) 10000000
  unfold instant filetimeInstant
  generalize ((ft.low.toNat + 2 ^ 32 * ft.high.toNat : Nat) - (epoch : Int)).tdiv 10000000 = q at e ⊢
  generalize ((ft.low.toNat + 2 ^ 32 * ft.high.toNat : Nat) - (epoch : Int)).tmod 10000000 = r at e ⊢
  unfold epoch at e
  omega

example : instant (toUnix ⟨1000000, 30000000⟩).sec (toUnix ⟨1000000, 30000000⟩).nsec = filetimeInstant 1000000 30000000 := C88_read _ (by decide)

/-- Reading a time and setting it again changes nothing. -/
theorem C88_roundtrip (ft : Filetime) (h : ft.high.toNat < 2 ^ 31) : ofUnix (toUnix ft) = .ok ft := by
  have hl : ft.low.toNat < 2 ^ 32 := ft.low.toNat_lt
  rw [toUnix_eq ft h]
  have e := Int.mul_tdiv_add_tmod ((ft.low.toNat + 2 ^ 32 * ft.high.toNat : Nat) - (epoch : Int)) 10000000
  have b1 : ((ft.low.toNat + 2 ^ 32 * ft.high.toNat : Nat) - (epoch : Int)).tmod 10000000 < 10000000 := Int.tmod_lt_of_pos _ (by decide)
  have b2 : -10000000 < ((ft.low.toNat + 2 ^ 32 * ft.high.toNat : Nat) - (epoch : Int)).tmod 10000000 := by
    have := Int.lt_tmod_of_pos ((ft.low.toNat + 2 ^ 32 * ft.high.toNat : Nat) - (epoch : Int)) (b := 10000000) (by decide)
    exact this
  generalize ((ft.low.toNat + 2 ^ 32 * ft.high.toNat : Nat) - (epoch : Int)).tdiv 10000000 = q at e b1 b2 ⊢
  generalize ((ft.low.toNat + 2 ^ 32 * ft.high.toNat : Nat) - (epoch : Int)).tmod 10000000 = r at e b1 b2 ⊢
  have er : (r * 100).tdiv 100 = r := Int.mul_tdiv_cancel _ (by decide)
  have ev : q * 10000000 + r + (epoch : Int) = (ft.low.toNat + 2 ^ 32 * ft.high.toNat : Nat) := by omega
  have hep : (epoch : Int) = 116444736000000000 := rfl
  rw [ofUnix_ok (by dsimp only; omega) (by dsimp only; omega) (by dsimp only; rw [er]; omega) (by dsimp only; rw [er]; omega) (by dsimp only; rw [er]; omega)
    (by dsimp only; rw [er]; omega)]
  dsimp only
  rw [er, ev]
  congr 1
  have h1 : (((ft.low.toNat + 2 ^ 32 * ft.high.toNat : Nat) : Int) % 2 ^ 32).toNat = ft.low.toNat := by omega
  have h2 : (((ft.low.toNat + 2 ^ 32 * ft.high.toNat : Nat) : Int) / 2 ^ 32 % 2 ^ 32).toNat = ft.high.toNat := by omega
  rw [h1, h2]
  cases ft
  simp

/-- Any time from 1601 to the year 30828 can be set; what is stored is the last multiple of 100 ns not after it. -/
theorem C88_write (t : Timespec) (hn : ValidNsec t.nsec) (h1 : -11644473600 ≤ t.sec) (h2 : t.sec ≤ 910692730083) :
    ∃ ft, ofUnix t = .ok ft ∧ ft.high.toNat < 2 ^ 31 ∧
      filetimeInstant ft.low ft.high ≤ instant t.sec t.nsec ∧ instant t.sec t.nsec < filetimeInstant ft.low ft.high + 100 := by
  obtain ⟨hn1, hn2⟩ := hn
  have hd : t.nsec.tdiv 100 = t.nsec / 100 := Int.tdiv_eq_ediv_of_nonneg hn1
  have hep : (epoch : Int) = 116444736000000000 := rfl
  refine ⟨_, ofUnix_ok (by omega) (by omega) (by omega) (by omega) (by omega) (by omega), ?_⟩
  rw [hd, hep]
  obtain ⟨e1, e2⟩ := halves (n := t.sec * 10000000 + t.nsec / 100 + 116444736000000000) (by omega) (by omega)
  dsimp only
  unfold filetimeInstant instant
  rw [e1, e2]
  omega

example : ∃ ft, ofUnix ⟨-5, 250⟩ = .ok ft ∧ ft.high.toNat < 2 ^ 31 ∧
    filetimeInstant ft.low ft.high ≤ instant (-5) 250 ∧ instant (-5) 250 < filetimeInstant ft.low ft.high + 100 :=
  C88_write ⟨-5, 250⟩ (by decide) (by decide) (by decide)

/-- From 1970 on, what is read is a valid `timespec`.  Partial: before 1970 it is not (`C88_normal_violated`). -/
theorem C88_normal_partial (ft : Filetime) (h : ft.high.toNat < 2 ^ 31) (h0 : 0 ≤ filetimeInstant ft.low ft.high) : ValidNsec (toUnix ft).nsec := by
  rw [toUnix_eq ft h]
  have hv : 0 ≤ ((ft.low.toNat + 2 ^ 32 * ft.high.toNat : Nat) - (epoch : Int)) := by
    unfold filetimeInstant at h0
    unfold epoch
    omega
  have a := Int.tmod_nonneg 10000000 hv
  have b := Int.tmod_lt_of_pos ((ft.low.toNat + 2 ^ 32 * ft.high.toNat : Nat) - (epoch : Int)) (b := 10000000) (by decide)
  unfold ValidNsec
  dsimp only
  omega

example : ValidNsec (toUnix ⟨1, 30000000⟩).nsec := C88_normal_partial _ (by decide) (by decide)

/-- Half a second before 1970 is set and read back as 0 seconds and −500000000 nanoseconds. -/
theorem C88_normal_violated : ∃ ft, ofUnix ⟨-1, 500000000⟩ = .ok ft ∧ toUnix ft = ⟨0, -500000000⟩ ∧ ¬ ValidNsec (toUnix ft).nsec :=
  ⟨⟨3572643008, 27111902⟩, by decide +kernel, by decide +kernel, by decide +kernel⟩

/-- Seconds that a caller may pass overflow a signed multiplication. -/
theorem C88_overflow_violated : ofUnix ⟨1000000000000, 0⟩ = .error .outOfBounds := by decide +kernel

/-! ### C89: Command lines -/

/-- The child gets the arguments that were passed, whatever they contain; the name of the program must be free of quotation marks, which
    Windows does not allow in file names, and not end in a backslash, which a file name does not. -/
theorem C89_argv (stay : Bool) (program : Bytes) (args : List Bytes) (hq : 34 ∉ program) (hl : program.getLast? ≠ some 92) :
    ∃ line, commandLine (program :: args) = .ok line ∧ argv stay line = program :: args := by
  have hp := split_program program hq fun _ => hl
  cases args with
  | nil =>
    refine ⟨_, rfl, ?_⟩
    unfold argv
    rw [hp.2]
    rfl
  | cons a rest =>
    obtain ⟨r, hr⟩ := commandLine_ok a rest
    refine ⟨quoteArg program ++ 32 :: r, ?_, ?_⟩
    · unfold commandLine
      rw [hr]
      rfl
    · unfold argv
      rw [hp.1]
      dsimp only
      rw [split_line stay _ _ hr]

/-- `a b`, an empty argument, `\"`, `x\`, and `c d\\` as arguments. -/
example : ∃ line, commandLine ([97, 32, 98] :: [[], [92, 34], [120, 92], [99, 32, 100, 92, 92]]) = .ok line ∧
    argv true line = [97, 32, 98] :: [[], [92, 34], [120, 92], [99, 32, 100, 92, 92]] := C89_argv true _ _ (by decide) (by decide)

/-- Without arguments there is an exception. -/
theorem C89_none : commandLine [] = .error .invalidArg := rfl

/-- The condition on the name of the program is needed: `a \` becomes `a \\`. -/
theorem C89_program_violated : ∃ line, commandLine [[97, 32, 92]] = .ok line ∧ argv true line = [[97, 32, 92, 92]] := ⟨_, rfl, by decide +kernel⟩

/-! ### C90: Paths -/

/-- A relative path below an absolute directory: the components of both, `..` resolved, in a form that the kernel takes as it is.  The
    buffer that the pieces point into is never moved. -/
theorem C90_join (base path : Bytes) (hb : base ≠ []) (hb' : isAbsolute base = true) (hp : isAbsolute path = false) :
    concatNorm base path = .ok (literal ([92, 92].isPrefixOf base) (resolve (resolve [] (comps base)) (comps path))) ∧
    ∀ s ∈ resolve (resolve [] (comps base)) (comps path), s ≠ [] ∧ s ≠ [46] ∧ s ≠ [46, 46] ∧ ∀ c ∈ s, sep c = false := by
  refine ⟨concatNorm_eq base path hb hb' hp, fun s hs => ?_⟩
  have : s ∈ comps base ++ comps path ∧ s ≠ [46, 46] := by
    rw [← resolve_append] at hs
    rcases resolve_mem _ _ s hs with h | h
    · cases h
    · exact h
  obtain ⟨h1, h2, h3⟩ : Name s := by
    rcases List.mem_append.mp this.1 with h | h
    · exact comps_names _ s h
    · exact comps_names _ s h
  exact ⟨h1, h2, this.2, h3⟩

/-- `C:\a` and `b/../c`. -/
example : concatNorm [67, 58, 92, 97] [98, 47, 46, 46, 47, 99] = .ok [92, 92, 63, 92, 67, 58, 92, 97, 92, 99] := by decide +kernel

/-- Without `..` in it, a path stays below the directory. -/
theorem C90_inside (base path : Bytes) (hb : base ≠ []) (hb' : isAbsolute base = true) (hp : isAbsolute path = false) (hd : [46, 46] ∉ comps path) :
    ∃ dir, concatNorm base [46] = .ok dir ∧ concatNorm base path = .ok (dir ++ (comps path).flatMap (92 :: ·)) := by
  refine ⟨_, concatNorm_eq base [46] hb hb' (by decide), ?_⟩
  rw [concatNorm_eq base path hb hb' hp, resolve_plain _ _ hd, show comps [46] = [] by decide]
  unfold literal
  rw [List.flatMap_append, ← List.append_assoc]
  rfl

example : ∃ dir, concatNorm [67, 58, 92, 97] [46] = .ok dir ∧ concatNorm [67, 58, 92, 97] [98, 47, 99] = .ok (dir ++ (comps [98, 47, 99]).flatMap (92 :: ·)) :=
  C90_inside _ _ (by decide) (by decide) (by decide) (by decide +kernel)

/-- Joining in two steps is joining at once, if the first step does not leave the root and the second path does not go up. -/
theorem C90_compose (base p q : Bytes) (hb : base ≠ []) (hb' : isAbsolute base = true) (hp : isAbsolute p = false) (hq : isAbsolute q = false)
    (hne : resolve (resolve [] (comps base)) (comps p) ≠ []) (hd : [46, 46] ∉ comps q) :
    ∃ dir, concatNorm base p = .ok dir ∧ concatNorm dir q = concatNorm base (p ++ 92 :: q) := by
  obtain ⟨h1, h2⟩ := C90_join base p hb hb' hp
  refine ⟨_, h1, ?_⟩
  have hpq : isAbsolute (p ++ 92 :: q) = false := by
    cases p with
    | nil => cases hp
    | cons a p =>
      cases p with
      | nil =>
        unfold isAbsolute at hp ⊢
        simpa using hp
      | cons b p => exact hp
  have ec : comps (p ++ 92 :: q) = comps p ++ comps q := by
    have := comps_join p q
    rwa [filter_split] at this
  rw [concatNorm_eq base _ hb hb' hpq, ec, resolve_append, resolve_plain (comps q) _ hd]
  generalize resolve (resolve [] (comps base)) (comps p) = R at h2 hne ⊢
  have hR : ∀ s ∈ R, Name s := fun s hs => ⟨(h2 s hs).1, (h2 s hs).2.1, (h2 s hs).2.2.2⟩
  have hRd : [46, 46] ∉ R := fun h => (h2 _ h).2.2.1 rfl
  cases [92, 92].isPrefixOf base with
  | true =>
    have e : comps (literal true R) = R := by
      rw [← filter_split]
      show (splitSep [] ((92 : UInt8) :: R.flatMap (92 :: ·))).filter keepPiece = _
      rw [splitSep, if_pos (by decide), List.filter_cons, if_neg (by decide), filter_split, comps_flat R hR]
    cases R with
    | nil => exact absurd rfl hne
    | cons r R =>
      rw [concatNorm_eq _ q (by simp [literal]) (by simp [literal, isAbsolute, isSep, bslash]) hq, e, resolve_plain _ [] hRd, List.nil_append, resolve_plain _ _ hd]
      rfl
  | false =>
    have e : comps (literal false R) = [63] :: R := by
      have := comps_flat ([63] :: R) (by
        intro s hs
        rcases List.mem_cons.mp hs with rfl | hs
        · exact ⟨by decide, by decide, by decide⟩
        · exact hR s hs)
      rw [← filter_split] at this ⊢
      show (splitSep [] ((92 : UInt8) :: ([63] :: R).flatMap (92 :: ·))).filter keepPiece = _
      rw [splitSep, if_pos (by decide), List.filter_cons, if_neg (by decide), this]
    rw [concatNorm_eq _ q (by simp [literal]) (by simp [literal, isAbsolute, isSep, bslash]) hq, e,
      resolve_plain _ [] (by simpa using hRd), List.nil_append, resolve_plain _ _ hd]
    rfl

/-- `\\s\t`, `u\..\v` and `w`. -/
example : ∃ dir, concatNorm [92, 92, 115, 92, 116] [117, 92, 46, 46, 92, 118] = .ok dir ∧
    concatNorm dir [119] = concatNorm [92, 92, 115, 92, 116] ([117, 92, 46, 46, 92, 118] ++ 92 :: [119]) :=
  C90_compose _ _ _ (by decide) (by decide) (by decide) (by decide) (by decide +kernel) (by decide +kernel)

/-- `..` can go above the drive, whose root should be its own parent: `C:\a` and `..\..\x` give `\\?\x`. -/
theorem C90_drive_violated : concatNorm [67, 58, 92, 97] [46, 46, 92, 46, 46, 92, 120] = .ok [92, 92, 63, 92, 120] := by decide +kernel

/-- An empty path is not the directory but stays empty, and a file name with a colon in the second place counts as absolute. -/
theorem C90_absolute_violated : concatNorm [67, 58, 92, 97] [] = .ok [] ∧ concatNorm [67, 58, 92, 97] [98, 58, 99] = .ok [98, 58, 99] := by
  decide +kernel

/-- Unix: the path after the directory and one slash; nothing is resolved. -/
theorem C90_unix (base path : Bytes) (hb : base.head? = some 47) (hp : path.head? ≠ some 47) :
    ∃ dir, unixConcatNorm base path = .ok (dir ++ 47 :: path) ∧ (base = dir ∨ base = dir ++ [47]) := by
  have h0 : base ≠ [] := fun e => by rw [e] at hb; cases hb
  have h1 : unixIsAbsolute base = true := by
    cases base with
    | nil => cases hb
    | cons c b =>
      injection hb with hb
      rw [hb]
      rfl
  have h2 : unixIsAbsolute path = false := by
    cases path with
    | nil => rfl
    | cons c b =>
      unfold unixIsAbsolute
      rw [beq_eq_false_iff_ne]
      exact fun e => hp (by rw [e]; rfl)
  unfold unixConcatNorm
  rw [if_neg (by rw [h2]; cases base <;> simp_all), if_neg (by rw [h1]; decide)]
  by_cases hl : base.getLast? = some 47
  · rw [if_pos hl]
    refine ⟨base.dropLast, ?_, .inr ?_⟩
    · congr 1
      conv => lhs; rw [← List.dropLast_append_getLast? 47 hl]
      rw [List.append_assoc]
      rfl
    · exact (List.dropLast_append_getLast? 47 hl).symm
  · rw [if_neg hl]
    exact ⟨base, rfl, .inl rfl⟩

example : ∃ dir, unixConcatNorm [47, 97, 47] [98] = .ok (dir ++ 47 :: [98]) ∧ ([47, 97, 47] = dir ∨ [47, 97, 47] = dir ++ [47]) :=
  C90_unix _ _ (by decide) (by decide)

/-! ### C91: Files -/

/-- Reading any number of bytes, also more than 4 GiB, which takes several calls. -/
theorem C91_read (c : Bytes) (off len : Nat) (h : off + len < 2 ^ 64) : readFile c off len = .ok (Spec.read c off len) :=
  readLoop_eq c (len + 1) off len (Nat.lt_succ_self _) h

example : readFile [1, 2, 3, 4] 1 10000000000 = .ok [2, 3, 4] := C91_read [1, 2, 3, 4] 1 10000000000 (by decide)

/-- Writing any number of bytes anywhere. -/
theorem C91_write (c : Bytes) (off : Nat) (d : Bytes) (h : off + d.length < 2 ^ 64) : writeFile c off d = .ok (Spec.write c off d) :=
  writeLoop_eq (d.length + 1) c off d (Nat.lt_succ_self _) h

example : writeFile [1, 2, 3] 5000000000 (List.replicate 9000000000 7) = .ok (Spec.write [1, 2, 3] 5000000000 (List.replicate 9000000000 7)) :=
  C91_write _ _ _ (by rw [List.length_replicate]; decide)

/-- Opening and creating is as in POSIX.  (Truncating a file opened for reading only is undefined in POSIX.) -/
theorem C91_open (f : OpenFlags) (file : Option Bytes) (hm : f.mode ≤ 2) (ht : f.trunc = true → f.mode ≠ 0) :
    openFile f file = match posixOpen f.creat f.excl f.trunc file with
      | .ok c => .ok c
      | .error e => .error (.vfs e) := by
  obtain ⟨mode, creat, excl, trunc⟩ := f
  have hm' : mode = 0 ∨ mode = 1 ∨ mode = 2 := by
    dsimp only at hm
    omega
  rcases hm' with rfl | rfl | rfl <;> cases creat <;> cases excl <;> cases trunc <;> cases file <;>
    first | rfl | (exact absurd rfl (ht rfl)) | decide +kernel

example : openFile ⟨1, true, true, false⟩ (some [1]) = .error (.vfs 17) := C91_open ⟨1, true, true, false⟩ (some [1]) (by decide) (by decide)

/-- Every error of Windows is reported as an error. -/
theorem C91_errno (err : UInt32) (h : err ≠ 0) : 0 < errorNumber err := by
  have key : ∀ n < 268, n ≠ 0 → ∃ e, errorTable[n]? = some e ∧ 0 < e := by decide +kernel
  have hn : err.toNat ≠ 0 := fun e => h (UInt32.toNat_inj.mp e)
  unfold errorNumber
  by_cases hl : err.toNat < 268
  · obtain ⟨e, he, hp⟩ := key err.toNat hl hn
    rw [he]
    exact hp
  · rw [List.getElem?_eq_none (by rw [show errorTable.length = 268 by decide +kernel]; omega)]
    decide

/-- The codes that callers look for: missing (2, 3), existing (80, 183), not empty (145), no directory (267), too long (206), denied (5),
    no space (39, 112). -/
theorem C91_errno_table : [2, 3, 80, 183, 145, 267, 206, 5, 39, 112].map errorNumber = [2, 2, 17, 17, 41, 20, 38, 13, 28, 28] := by decide +kernel

/-! ### C92: Directories and symbolic links -/

/-- A call on an open directory; `rewind dir` finds `dir` in it. -/
inductive CursorOp where
  | next
  | rewind (dir : List Bytes)

/-- The answers of the code. -/
def cursorRun : Cursor → List CursorOp → List (Res (Option Bytes))
  | _, [] => []
  | k, .next :: ops => k.next.1 :: cursorRun k.next.2 ops
  | k, .rewind d :: ops => (k.rewind d).1.map (fun _ => none) :: cursorRun (k.rewind d).2 ops

/-- The answers of POSIX. -/
def listingRun : Listing → List CursorOp → List (Res (Option Bytes))
  | _, [] => []
  | l, .next :: ops => .ok l.next.1 :: listingRun l.next.2 ops
  | _, .rewind d :: ops => .ok none :: listingRun (Listing.rewind d) ops

/-- The directory is never found empty (it has `.` and `..`), and a rewinding directly after opening or rewinding finds what was found
    then (`last`). -/
def Usual : Option (List Bytes) → List CursorOp → Prop
  | _, [] => True
  | _, .next :: ops => Usual none ops
  | last, .rewind d :: ops => d ≠ [] ∧ (last = none ∨ last = some d) ∧ Usual (some d) ops

theorem cursor_sim : ∀ (ops : List CursorOp) (k : Cursor) (last : Option (List Bytes)), k.handle = true →
    (k.initial = true → last = some (k.current :: k.rest)) → Usual last ops →
    cursorRun k ops = listingRun ⟨if k.initial then k.current :: k.rest else k.rest⟩ ops
  | [], _, _, _, _, _ => rfl
  | .next :: ops, ⟨cur, rest, initial, handle⟩, last, hh, hi, hu => by
    cases hh
    cases initial with
    | true => exact congrArg (_ :: ·) (cursor_sim ops ⟨cur, rest, false, true⟩ none rfl (fun h => by cases h) hu)
    | false =>
      cases rest with
      | nil => exact congrArg (_ :: ·) (cursor_sim ops ⟨cur, [], false, true⟩ none rfl (fun h => by cases h) hu)
      | cons n rest => exact congrArg (_ :: ·) (cursor_sim ops ⟨n, rest, false, true⟩ none rfl (fun h => by cases h) hu)
  | .rewind d :: ops, ⟨cur, rest, initial, handle⟩, last, hh, hi, ⟨hd, hl, hu⟩ => by
    cases hh
    cases initial with
    | true =>
      have hd' : d = cur :: rest := by
        rcases hl with hl | hl
        · rw [hi rfl] at hl; cases hl
        · rw [hi rfl] at hl
          exact (Option.some.inj hl).symm
      subst hd'
      exact congrArg (_ :: ·) (cursor_sim ops ⟨cur, rest, true, true⟩ _ rfl (fun _ => rfl) hu)
    | false =>
      cases d with
      | nil => exact absurd rfl hd
      | cons n d => exact congrArg (_ :: ·) (cursor_sim ops ⟨n, d, true, true⟩ _ rfl (fun _ => rfl) hu)

/-- Opening a directory, reading and rewinding it in any order give each name of the moment of opening or rewinding once.  Partial: see
    the two theorems below for what is excluded. -/
theorem C92_list_partial (garbage : Bytes) (dir : List Bytes) (hd : dir ≠ []) (ops : List CursorOp) (hu : Usual (some dir) ops) :
    ∃ k, Cursor.create garbage dir = .ok k ∧ cursorRun k ops = listingRun (Listing.rewind dir) ops := by
  cases dir with
  | nil => exact absurd rfl hd
  | cons n dir => exact ⟨⟨n, dir, true, true⟩, rfl, cursor_sim ops ⟨n, dir, true, true⟩ _ rfl (fun _ => rfl) hu⟩

example : ∃ k, Cursor.create [] [[46], [97]] = .ok k ∧
    cursorRun k [.next, .rewind [[46], [98]], .next, .next, .next] = listingRun (Listing.rewind [[46], [97]]) [.next, .rewind [[46], [98]], .next, .next, .next] :=
  C92_list_partial [] [[46], [97]] (by decide) _ ⟨by decide, .inl rfl, trivial⟩

/-- Rewinding a directory that was opened and not yet read does nothing: a file created in between is not seen. -/
theorem C92_stale_violated : ∃ k, Cursor.create [] [[46]] = .ok k ∧
    cursorRun k [.rewind [[46], [97]], .next, .next] = [.ok none, .ok (some [46]), .ok none] ∧
    listingRun (Listing.rewind [[46]]) [.rewind [[46], [97]], .next, .next] = [.ok none, .ok (some [46]), .ok (some [97])] :=
  ⟨⟨[46], [], true, true⟩, rfl, rfl, rfl⟩

/-- Opening the empty root of a volume fails with `ENOENT`. -/
theorem C92_empty_violated (garbage : Bytes) : Cursor.create garbage [] = .error (.vfs 2) := rfl

/-- A symbolic link is read back as it was set, with its length as size, if the target contains no backslash.  Partial: see below. -/
theorem C92_link_partial (target : Bytes) (h : 92 ∉ target) (size : Nat) :
    readLink (prependPrefix target) size = target.take size ∧ linkSize (prependPrefix target) = target.length := by
  have e : (replaceByte bslash 47 (replaceByte 47 bslash target)) = target := by
    unfold replaceByte
    rw [List.map_map]
    conv => rhs; rw [← List.map_id target]
    refine List.map_congr_left fun c hc => ?_
    have hc' : c ≠ bslash := fun e => h (by rw [← show c = 92 from e]; exact hc)
    show (if (if c = 47 then bslash else c) = bslash then (47 : UInt8) else _) = c
    by_cases hx : c = 47
    · rw [if_pos hx, if_pos rfl, hx]
    · rw [if_neg hx, if_neg hc']
  constructor
  · unfold readLink removePrefix prependPrefix
    rw [if_pos (by rw [List.isPrefixOf_iff_prefix]; exact List.prefix_append _ _), List.drop_left, e]
  · have hl : (replaceByte 47 bslash target).length = target.length := by unfold replaceByte; rw [List.length_map]
    unfold linkSize prependPrefix
    rw [List.length_append, hl]
    split <;> omega

example : readLink (prependPrefix [97, 47, 98]) 100 = [97, 47, 98] ∧ linkSize (prependPrefix [97, 47, 98]) = 3 := C92_link_partial [97, 47, 98] (by decide) 100

/-- A backslash in a target becomes a slash; and the size of a link made by another program is not the length of its target. -/
theorem C92_link_violated : readLink (prependPrefix [97, 92, 98]) 100 = [97, 47, 98] ∧
    readLink [67, 58, 92, 120] 100 = [67, 58, 92, 120] ∧ linkSize [67, 58, 92, 120] = 0 := by decide +kernel

/-- The type in the mode: a link (10), whatever it leads to, a directory (4) or a file (8), with all rights for the owner; and the blocks that
    `stat` reports cover the file, with less than 4096 bytes to spare. -/
theorem C92_attributes (d : FindData) :
    modeOf d / 4096 = (if d.reparse then 10 else if d.directory then 4 else 8) ∧ modeOf d % 512 / 64 = 7 ∧
    d.size ≤ 512 * statBlocks d ∧ 512 * statBlocks d < d.size + 4096 := by
  refine ⟨?_, ?_, ?_, ?_⟩
  · unfold modeOf
    cases d.reparse <;> cases d.directory <;> decide
  · unfold modeOf
    cases d.reparse <;> cases d.directory <;> decide
  · unfold statBlocks
    omega
  · unfold statBlocks
    omega

example : modeOf ⟨true, true, 5⟩ / 4096 = 10 := (C92_attributes ⟨true, true, 5⟩).1

/-- The size in blocks of a file of 100 bytes is 8 or 0, depending on how one asks. -/
theorem C92_blocks_violated : statBlocks ⟨false, false, 100⟩ = 8 ∧ listBlocks ⟨false, false, 100⟩ = 0 := by decide

end Securefs.Props
