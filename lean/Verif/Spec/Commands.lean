import Verif.Model.MountData
import Mathlib.Data.List.Forall2
/-!
# Specification of the commands
-/

namespace Securefs.Spec

/-- The first line: up to a carriage return, a line feed or the end. -/
def firstLine (input : Bytes) : Bytes := input.takeWhile fun b => !(b == 13 || b == 10)

/-- What follows the character that ends the first line. -/
def afterLine (input : Bytes) : Bytes := (input.drop (firstLine input).length).tail

/-- A line has no characters that end lines. -/
def OneLine (line : Bytes) : Prop := 13 ∉ line ∧ 10 ∉ line

/-- Which password is meant, if `typed` is what the user types: the one given as an argument; if there is none, but a key file and no request to
    ask, a single space; otherwise the one that is typed. -/
inductive Chosen (a : PassArgs) (typed : Bytes) : Bytes → Prop
  | given {p : Bytes} (h : a.pass = some p) (hne : p ≠ []) : Chosen a typed p
  | keyfile {k : Bytes} (h : ∀ p, a.pass = some p → p = []) (hk : a.keyfile = some k) (hne : k ≠ []) (hask : a.ask = false) : Chosen a typed [32]
  | typed (h : ∀ p, a.pass = some p → p = []) (hk : a.ask = true ∨ ∀ k, a.keyfile = some k → k = []) : Chosen a typed typed

/-- The same letter, in upper or lower case, or the same other character. -/
def SameLetter (x y : UInt8) : Prop :=
  x = y ∨ (65 ≤ x.toNat ∧ x.toNat ≤ 90 ∧ y.toNat = x.toNat + 32) ∨ (65 ≤ y.toNat ∧ y.toNat ≤ 90 ∧ x.toNat = y.toNat + 32)

/-- The same word, in any case. -/
def SameWord (a b : Bytes) : Prop := List.Forall₂ SameLetter a b

/-- The text of an ASCII string. -/
def word (s : String) : Bytes := s.toList.map fun c => UInt8.ofNat c.toNat

/-- A volume in the lite format as asked for: the sizes, four keys that are drawn one after the other, and long names unless the threshold is
    zero. -/
def AskedLite (a : CreateArgs) (R : CreateRandom) (d : DecParams) : Prop :=
  ∃ l, d = { size := some ⟨a.blockSize, a.ivSize, a.maxPadding⟩, format := .lite l } ∧ l.nameKey = R.key1 ∧ l.contentKey = R.key2 ∧
    l.xattrKey = R.key3 ∧ l.paddingKey = R.key4 ∧ l.longNameSuffix = a.longNameSuffix ∧
    (∀ t, l.longNameThreshold = some t ↔ t = a.longNameThreshold ∧ t ≠ 0)

/-- A volume in the full format as asked for: the sizes, one key, and how names are compared. -/
def AskedFull (a : CreateArgs) (R : CreateRandom) (d : DecParams) : Prop :=
  ∃ f, d = { size := some ⟨a.blockSize, a.ivSize, a.maxPadding⟩, format := .full f } ∧ f.masterKey = R.key1 ∧
    (f.caseInsensitive = true ∧ a.caseHandling = word "insensitive" ∨ f.caseInsensitive = false ∧ a.caseHandling = word "sensitive") ∧
    (f.unicodeAgnostic = true ∧ a.uninorm = word "insensitive" ∨ f.unicodeAgnostic = false ∧ a.uninorm = word "sensitive") ∧
    f.storeTime = false ∧ f.legacyFileTableIo = false

/-- The volume that the arguments of `create` ask for. -/
def AskedVolume (a : CreateArgs) (R : CreateRandom) (d : DecParams) : Prop :=
  ((SameWord a.format (word "lite") ∨ a.format = word "4") ∧ AskedLite a R d) ∨
    ((SameWord a.format (word "full") ∨ a.format = word "2") ∧ AskedFull a R d)

/-- The random values have the lengths that are asked for. -/
def DrawOk (R : CreateRandom) : Prop :=
  R.key1.length = 32 ∧ R.key2.length = 32 ∧ R.key3.length = 32 ∧ R.key4.length = 32 ∧ R.iv.length = 12 ∧ R.salt.length = 32

/-- The numbers are of type `unsigned`, and the suffix is not absurdly long. -/
def ArgsOk (a : CreateArgs) : Prop :=
  a.ivSize < 2 ^ 32 ∧ a.blockSize < 2 ^ 32 ∧ a.maxPadding < 2 ^ 32 ∧ a.longNameThreshold < 2 ^ 32 ∧ a.longNameSuffix.length < 2 ^ 27

/-- The two volumes differ at most in their keys. -/
inductive SamePublic : DecParams → DecParams → Prop
  | none (size : Option SizeParams) : SamePublic ⟨size, .none⟩ ⟨size, .none⟩
  | lite (size : Option SizeParams) (t : Option Nat) (s n c x p n' c' x' p' : Bytes) :
    SamePublic ⟨size, .lite ⟨n, c, x, p, t, s⟩⟩ ⟨size, .lite ⟨n', c', x', p', t, s⟩⟩
  | full (size : Option SizeParams) (st lg ci un : Bool) (k k' : Bytes) : SamePublic ⟨size, .full ⟨k, st, lg, ci, un⟩⟩ ⟨size, .full ⟨k', st, lg, ci, un⟩⟩

/-- The names of a command: the long one and a letter for the commands that are used most. -/
def Names : Command → List Bytes
  | .mount => [word "mount", word "m"]
  | .create => [word "create", word "c"]
  | .chpass => [word "chpass"]
  | .version => [word "version", word "v"]
  | .info => [word "info", word "i"]
  | .migrate => [word "migrate-long-name"]
  | .ismount => [word "ismount"]
  | .unmount => [word "unmount", word "u"]
  | .protomount => [word "protomount"]
  | .doc => [word "doc"]

end Securefs.Spec
