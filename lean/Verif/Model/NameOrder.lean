import Verif.Model.Btree
/-!
# The orders on names

Models the comparison functions of `/repo/sources/mystring.cpp:276-309`.  Unicode normalisation and case folding come
from the library `una` and are parameters.
-/

namespace Securefs

/-- `std::string_view::compare` as `binary_compare` uses it (`/repo/sources/mystring.cpp:287`): the first different
    byte decides, else the length.  Only the sign of the result is modelled. -/
def binaryCompare : Bytes → Bytes → Int
  | [], [] => 0
  | [], _ :: _ => -1
  | _ :: _, [] => 1
  | a :: as, b :: bs => if a < b then -1 else if b < a then 1 else binaryCompare as bs

/-- `is_ascii` (`/repo/sources/mystring.cpp:276-286`). -/
def isAscii (s : Bytes) : Bool := s.all fun c => decide (c < 128)

/-- The comparison of code point sequences inside `una::caseless::compare_utf8`, called at
    `/repo/sources/mystring.cpp:290,306,308`. -/
def codePointCompare : List Nat → List Nat → Int
  | [], [] => 0
  | [], _ :: _ => -1
  | _ :: _, [] => 1
  | a :: as, b :: bs => if a < b then -1 else if b < a then 1 else codePointCompare as bs

/-- `una::caseless::compare_utf8` (`/repo/sources/mystring.cpp:288-291`): compares the case folded code points; `fold`
    gives them. -/
def caselessCompare (fold : Bytes → List Nat) (a b : Bytes) : Int := codePointCompare (fold a) (fold b)

/-- `uni_norm_insensitive_compare` (`/repo/sources/mystring.cpp:292-300`); `nfd` is `una::norm::to_nfd_utf8`. -/
def uniNormCompare (nfd : Bytes → Bytes) (a b : Bytes) : Int :=
  if isAscii a && isAscii b then binaryCompare a b else binaryCompare (nfd a) (nfd b)

/-- `case_uni_norm_insensitve_compare` (`/repo/sources/mystring.cpp:301-309`). -/
def caseUniNormCompare (nfd : Bytes → Bytes) (fold : Bytes → List Nat) (a b : Bytes) : Int :=
  if isAscii a && isAscii b then caselessCompare fold a b else caselessCompare fold (nfd a) (nfd b)

end Securefs
