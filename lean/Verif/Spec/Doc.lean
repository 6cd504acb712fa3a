import Verif.Model.Doc
import Mathlib.Data.List.Forall2
/-!
# Specification: what a user learns of the commands

`Shown` lists the arguments of a command that have to be documented, in the order in which a reader of the source finds them.  `Documented` says which line of text
documents an argument.
-/

namespace Securefs

/-- The names that TCLAP gives to arguments of its own. -/
def ownNames : List Bytes := [say "help", say "version", say "ignore_rest"]

/-- The arguments to document: first those that have a place, then the options, each in the order of declaration. -/
def Shown (declared : List DocArg) : List DocArg :=
  declared.filter (fun a => decide (a.cls = .positional)) ++ declared.filter (fun a => decide (a.cls ≠ .positional ∧ a.name ∉ ownNames))

/-- What a text has to contain about an argument: its name and its description, the flag if there is one, and the value that it has if it is not given. -/
def Documented (a : DocArg) (line : Bytes) : Prop :=
  a.name <:+: line ∧ a.description <:+: line ∧ (a.cls ≠ .positional → a.flag ≠ [] → say "**-" ++ a.flag ++ say "**" <:+: line) ∧
    (∀ v, a.cls = .text v → v <:+: line) ∧ (∀ v, a.cls = .number v → say (toString v) <:+: line) ∧
    (∀ on, a.cls = .switch on → (if on then say "true" else say "false") <:+: line)

/-- Nobody can tell two arguments of a command apart that have the same name or the same flag. -/
def Distinct (args : List DocArg) : Prop := args.Pairwise fun a b => a.name ≠ b.name ∧ (a.flag ≠ [] → a.flag ≠ b.flag)

/-- A text for each command that a user may call: a title that tells its names, then one line for each argument. -/
inductive Manual : List (Command × List DocArg) → List Bytes → Prop where
  | nil : Manual [] []
  | hidden {args rest out} : Manual rest out → Manual ((.protomount, args) :: rest) out
  | shown {c args rest title lines out} : c ≠ .protomount → c.longName <:+: title → (c.shortName ≠ 0 → [c.shortName] <:+: title) →
      List.Forall₂ Documented (Shown args) lines → Manual rest out → Manual ((c, args) :: rest) (title :: lines ++ out)

end Securefs
