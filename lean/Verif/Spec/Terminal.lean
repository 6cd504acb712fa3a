import Verif.Model.Terminal
/-!
# Specification: what a terminal shows

The line that is typed; and the escape sequences of ECMA-48 for colours: `ESC [`, numbers with semicolons between them, `m`.  A sequence with another
character among the numbers is not understood and skipped up to its last letter.
-/

namespace Securefs.Spec

/-- The end of a line. -/
def isEol (c : UInt8) : Bool := c == 13 || c == 10

/-- The first line of what is typed. -/
def typedLine (input : Bytes) : Bytes := input.takeWhile fun c => !isEol c

/-- What is typed after the first line. -/
def typedRest (input : Bytes) : Bytes := (input.dropWhile fun c => !isEol c).drop 1

/-- How characters look: bold or not, and the number of the colour; 39 is that of the terminal. -/
structure Look where
  bold : Bool
  colour : Nat
  deriving DecidableEq

/-- The look that a terminal has by itself. -/
def plainLook : Look := ⟨false, 39⟩

/-- Where the terminal is in a sequence. -/
inductive Within where
  | text
  | escape
  | numbers (before : List Nat) (current : Nat)
  | skipping
  deriving DecidableEq

/-- A screen: the characters on it with their looks. -/
structure Screen where
  look : Look
  within : Within
  shown : List (UInt8 × Look)
  deriving DecidableEq

/-- One number of a sequence. -/
def applySgr (l : Look) (n : Nat) : Look :=
  if n = 0 then plainLook else if n = 1 then { l with bold := true } else if (30 ≤ n ∧ n ≤ 37) ∨ n = 39 then { l with colour := n } else l

/-- A character is written to the terminal. -/
def Screen.put (s : Screen) (c : UInt8) : Screen :=
  match s.within with
  | .text => if c.toNat = 27 then { s with within := .escape } else { s with shown := s.shown ++ [(c, s.look)] }
  | .escape => if c.toNat = 91 then { s with within := .numbers [] 0 } else { s with within := .text }
  | .numbers before current =>
    if 48 ≤ c.toNat ∧ c.toNat ≤ 57 then { s with within := .numbers before (current * 10 + (c.toNat - 48)) }
    else if c.toNat = 59 then { s with within := .numbers (before ++ [current]) 0 }
    else if c.toNat = 109 then { s with look := (before ++ [current]).foldl applySgr s.look, within := .text }
    else if 64 ≤ c.toNat ∧ c.toNat ≤ 126 then { s with within := .text }
    else { s with within := .skipping }
  | .skipping => if 64 ≤ c.toNat ∧ c.toNat ≤ 126 then { s with within := .text } else s

/-- Characters are written one after the other. -/
def Screen.puts (s : Screen) (b : Bytes) : Screen := b.foldl Screen.put s

/-- The look that a colour stands for. -/
def lookOf : Term.Colour → Look
  | .default => plainLook
  | .white => plainLook
  | .red => ⟨false, 31⟩
  | .green => ⟨false, 32⟩
  | .blue => ⟨false, 34⟩
  | .cyan => ⟨false, 36⟩
  | .yellow => ⟨false, 33⟩
  | .grey => ⟨true, 30⟩
  | .lightGrey => ⟨false, 37⟩
  | .brightRed => ⟨true, 31⟩
  | .brightGreen => ⟨true, 32⟩
  | .brightWhite => ⟨true, 37⟩

/-- The look of a line of the log: warnings are yellow, errors bright red. -/
def levelLook : Term.Level → Look
  | .warning => ⟨false, 33⟩
  | .error => ⟨true, 31⟩
  | _ => plainLook

end Securefs.Spec
