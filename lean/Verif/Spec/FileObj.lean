import Verif.Model.FileObj
import Verif.Spec.FileAttr
import Verif.Spec.Siv
/-!
# Specification: a file is its bytes and its attributes

Keys, blocks, headers and padding do not occur.  Flushing, closing and opening again do nothing.
-/

namespace Securefs.Spec

/-- The ideal file. -/
structure PlainFile where
  content : Bytes
  attrs : Attrs
  deriving DecidableEq

/-- The answers of the ideal file. -/
inductive PlainAnswer where
  | bytes (b : Bytes)
  | done
  | stat (size mode uid gid nlink : Nat) (times : Option ((Int × Int) × (Int × Int) × (Int × Int) × (Int × Int)))
  deriving DecidableEq

/-- An answer of the code, with its numbers as integers. -/
def plainAnswer : FileAnswer → PlainAnswer
  | .bytes b => .bytes b
  | .done => .done
  | .stat size m u g n times => .stat size m.toNat u.toNat g.toNat n.toNat
      (times.map fun t => (stamp t.1, stamp t.2.1, stamp t.2.2.1, stamp t.2.2.2))

/-- The ideal behaviour of one call. -/
def plainStep (now : Int × Int) (f : PlainFile) : FileCall → PlainFile × PlainAnswer
  | .read off len => ({ f with attrs := attrStep f.attrs now .read }, .bytes (read f.content off len))
  | .write off d => (⟨write f.content off d, attrStep f.attrs now .write⟩, .done)
  | .truncate n => (⟨resize f.content n, attrStep f.attrs now .write⟩, .done)
  | .attr op => ({ f with attrs := attrStep f.attrs now op }, .done)
  | .stat => (f, .stat f.content.length f.attrs.mode f.attrs.uid f.attrs.gid f.attrs.nlink f.attrs.times)
  | .flush => (f, .done)
  | .reopen _ => (f, .done)

/-- The ideal behaviour of a history. -/
def plainRun : PlainFile → List (TimeSpec × FileCall) → PlainFile × List PlainAnswer
  | f, [] => (f, [])
  | f, (now, c) :: rest =>
    let p := plainStep (stamp now) f c
    let q := plainRun p.1 rest
    (q.1, p.2 :: q.2)

/-- A new file: empty, with one name; `-1` stands for the user or the group of the process; no pages. -/
def plainNew (storeTime : Bool) (now : TimeSpec) (osUid osGid mode uid gid : UInt32) : PlainFile where
  content := []
  attrs :=
    { mode := mode.toNat
      uid := if uid.toNat = keepOwner then osUid.toNat else uid.toNat
      gid := if gid.toNat = keepOwner then osGid.toNat else gid.toNat
      nlink := 1
      pages := (2 ^ 32 - 1, 2 ^ 32 - 1, 0)
      times := if storeTime then some (stamp now, stamp now, stamp now, stamp now) else none }

/-- The last byte a call touches is below `lim`, and its time stamps are valid. -/
def CallWithin (lim : Nat) : FileCall → Prop
  | .read off len => off + len ≤ lim
  | .write off d => off + d.length ≤ lim
  | .truncate n => n ≤ lim
  | .attr op => AttrOpValid op
  | _ => True

/-- What is assumed of the primitives and the sizes of a volume. -/
structure FileEnvOk (E : FileEnv) : Prop where
  bs_pos : 0 < E.blockSize
  iv_ge : 12 ≤ E.ivSize
  gcm : ∀ k, (E.gcm k).Lawful
  rng : E.rng.Fair E.ivFuel
  hmac_len : ∀ k m, (E.hmac k m).length = 32
  /-- the largest 32-bit number makes every opening fail (C77_padding_violated) -/
  padding : E.maxPadding.toNat + 1 < 2 ^ 32
  /-- the padding leaves room for data -/
  room : E.maxPadding.toNat ≤ 2 ^ 30 * E.blockSize

/-- The four 32-byte pieces that RFC 5869 gives for a file, with its identifier as `info` and the master key as pseudorandom key. -/
def fileSecret (E : FileEnv) (id : Bytes) (k : Nat) : Bytes := hkdfT E.hmac E.master id k

/-- Two different messages with the same HMAC under the master key. -/
def MacCollision (E : FileEnv) : Prop := ∃ m m', m ≠ m' ∧ E.hmac E.master m = E.hmac E.master m'

/-- The number that a byte string denotes, most significant byte first. -/
def numberOf : Bytes → Nat
  | [] => 0
  | x :: rest => x.toNat * 256 ^ rest.length + numberOf rest

end Securefs.Spec
