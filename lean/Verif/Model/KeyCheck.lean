import Verif.Model.Basic
/-!
# Model: the check of key material and the prompt for commands

`/repo/sources/myutils.cpp:68-145`.
-/

namespace Securefs

/-- The table of `popcount` as it is written there (`/repo/sources/myutils.cpp:117-127`). -/
def popTable : List Nat :=
  [0, 1, 1, 2, 1, 2, 2, 3, 1, 2, 2, 3, 2, 3, 3, 4, 1, 2, 2, 3, 2, 3, 3, 4, 2, 3, 3, 4, 3,
   4, 4, 5, 1, 2, 2, 3, 2, 3, 3, 4, 2, 3, 3, 4, 3, 4, 4, 5, 2, 3, 3, 4, 3, 4, 4, 5, 3, 4,
   4, 5, 4, 5, 5, 6, 1, 2, 2, 3, 2, 3, 3, 4, 2, 3, 3, 4, 3, 4, 4, 5, 2, 3, 3, 4, 3, 4, 4,
   5, 3, 4, 4, 5, 4, 5, 5, 6, 2, 3, 3, 4, 3, 4, 4, 5, 3, 4, 4, 5, 4, 5, 5, 6, 3, 4, 4, 5,
   4, 5, 5, 6, 4, 5, 5, 6, 5, 6, 6, 7, 1, 2, 2, 3, 2, 3, 3, 4, 2, 3, 3, 4, 3, 4, 4, 5, 2,
   3, 3, 4, 3, 4, 4, 5, 3, 4, 4, 5, 4, 5, 5, 6, 2, 3, 3, 4, 3, 4, 4, 5, 3, 4, 4, 5, 4, 5,
   5, 6, 3, 4, 4, 5, 4, 5, 5, 6, 4, 5, 5, 6, 5, 6, 6, 7, 2, 3, 3, 4, 3, 4, 4, 5, 3, 4, 4,
   5, 4, 5, 5, 6, 3, 4, 4, 5, 4, 5, 5, 6, 4, 5, 5, 6, 5, 6, 6, 7, 3, 4, 4, 5, 4, 5, 5, 6,
   4, 5, 5, 6, 5, 6, 6, 7, 4, 5, 5, 6, 5, 6, 6, 7, 5, 6, 6, 7, 6, 7, 7, 8]

/-- `popcount` (`/repo/sources/myutils.cpp:115-131`).  `none` stands for a read behind the table.  The sum is a `size_t`; the model has
    natural numbers, as eight times the size of a buffer in memory is far below 2^64. -/
def popcountLoop : Bytes → Nat → Option Nat
  | [], res => some res
  | b :: rest, res =>
    match popTable[b.toNat]? with
    | none => none
    | some k => popcountLoop rest (res + k)

/-- `popcount` (`/repo/sources/myutils.cpp:128-131`). -/
def popcount (data : Bytes) : Option Nat := popcountLoop data 0

/-- Whether `warn_if_key_not_random` writes its warning (`/repo/sources/myutils.cpp:133-145`).  The text of the warning is not modelled;
    the function has no other effect. -/
def warnsOfKey (key : Bytes) : Option Bool :=
  (popcount key).map fun pp => decide (pp ≤ key.length) || decide (7 * key.length ≤ pp)

/-- `isspace` in the C locale, as used by `get_user_input_until_enter` (`/repo/sources/myutils.cpp:80,84`); the process never calls
    `setlocale`. -/
def cSpace (c : UInt8) : Bool := c == 32 || (9 ≤ c && c ≤ 13)

/-- `while (!result.empty() && isspace(result.back())) result.pop_back()` (`/repo/sources/myutils.cpp:80-81`), with the text kept in
    reverse. -/
def popSpaces : Bytes → Bytes
  | [] => []
  | c :: r => if cSpace c then popSpaces r else c :: r

/-- `get_user_input_until_enter` (`/repo/sources/myutils.cpp:68-91`): the text so far in reverse, what is still to be read from the
    standard input, where the end of the list is `EOF`.  The result is the text and what has not been read. -/
def inputLoop : Bytes → Bytes → Bytes × Bytes
  | r, [] => (r.reverse, [])
  | r, ch :: rest =>
    if ch == 13 || ch == 10 then (((10 : UInt8) :: popSpaces r).reverse, rest)
    else if !r.isEmpty || !cSpace ch then inputLoop (ch :: r) rest
    else inputLoop r rest

/-- `get_user_input_until_enter` (`/repo/sources/myutils.cpp:68-91`). -/
def userInput (inp : Bytes) : Bytes × Bytes := inputLoop [] inp

/-- The outcome of `respond_to_user_action` (`/repo/sources/myutils.cpp:93-113`). -/
structure Response (α : Type) where
  /-- the action that was run -/
  ran : Option α
  /-- how often "Invalid command" was printed -/
  complaints : Nat
  /-- what is left of the standard input -/
  left : Bytes
  deriving DecidableEq

/-- `respond_to_user_action` (`/repo/sources/myutils.cpp:93-113`).  The loop takes at least one byte in each turn but the last, so that one
    more turn than there are bytes is enough (`none` does not occur, see `C104_action`). -/
def respondLoop {α : Type} (actions : Bytes → Option α) : Nat → Bytes → Nat → Option (Response α)
  | 0, _, _ => none
  | fuel + 1, inp, complaints =>
    let cmd := (userInput inp).1
    if cmd.isEmpty || cmd.getLast? != some 10 then some ⟨none, complaints, (userInput inp).2⟩
    else
      match actions cmd with
      | none => respondLoop actions fuel (userInput inp).2 (complaints + 1)
      | some a => some ⟨some a, complaints, (userInput inp).2⟩

/-- `respond_to_user_action` (`/repo/sources/myutils.cpp:93-113`). -/
def respond {α : Type} (actions : Bytes → Option α) (inp : Bytes) : Option (Response α) :=
  respondLoop actions (inp.length + 1) inp 0

end Securefs
