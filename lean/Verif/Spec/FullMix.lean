import Verif.Model.FullMix
import Verif.Spec.FullVolume
/-!
# Specification: older versions of files are put back, one by one

The ideal volume of C85, mounted again and again.  At each mounting every file is what it was at the end of one of the sessions before, and
each file may come from another session; or it is not there.  Nothing is said about errors: there are none.
-/

namespace Securefs.Spec

/-- The file that an operation makes: its identifier and its kind. -/
def FullOp.makes? : FullOp → Option (Bytes × Nat)
  | .create _ _ _ _ id => some (id, 8)
  | .mkdir _ _ _ _ id => some (id, 4)
  | .symlink _ _ _ _ id => some (id, 10)
  | _ => none

/-- What is assumed of an operation: handles come from earlier operations of the session, names have no zero bytes, times are valid, nothing
    grows too large, and new identifiers have 32 bytes and are not drawn for files of different kinds.  Nothing is assumed about how the
    files hang together. -/
structure OpFits (E : FileEnv) (cfg : FsCfg) (kind : Bytes → Nat) (I : IdealVol) (op : FullOp) : Prop where
  handle : ∀ h, FullOp.handle? op = some h → h ∈ I.held
  names : ∀ path ∈ FullOp.adds op, (0 : UInt8) ∉ path
  kinds : ∀ id k, FullOp.makes? op = some (id, k) → I.fs.get id = none → id.length = 32 ∧ kind id = k
  times : ∀ path garbage ts, op = .utimens path garbage ts → AttrOpValid (.utimens garbage ts)
  size : FullOp.reach op ≤ fileLimit E
  dirs : Along DirRoom (op.prog cfg) I.fs

/-- What is assumed of an event. -/
def EventFits (E : FileEnv) (cfg : FsCfg) (kind : Bytes → Nat) (I : IdealVol) : VolEvent → Prop
  | .op op => OpFits E cfg kind I op
  | .tick now => ValidTime now
  | _ => True

/-- A history of the ideal volume that stays within these limits, with its answers. -/
inductive IdealFits (E : FileEnv) (cfg : FsCfg) (kind : Bytes → Nat) : IdealVol → List VolEvent → List (Res VolAnswer) → IdealVol → Prop
  | nil {I} : IdealFits E cfg kind I [] [] I
  | cons {I I1 I2 e r es rs} : EventFits E cfg kind I e → IdealStep cfg I e r I1 → IdealFits E cfg kind I1 es rs I2 →
      IdealFits E cfg kind I (e :: es) (r :: rs) I2

/-- The files that are put back, from different states; if the root is not among them, an empty one. -/
def putBack (cfg : FsCfg) (old : List FullFs) (pick : Bytes → Option Nat) (now : TimeSpec) : FullFs :=
  ⟨(pickOld (old.map FullFs.nodes) pick).map (fun p => (p.1, { p.2 with parent := zeros 32 })) ++ (FullFs.fresh cfg now).nodes, now⟩

/-- The ideal volume over all sessions: the answers, and the states at the end of the sessions. -/
inductive IdealLife (E : FileEnv) (cfg : FsCfg) (kind : Bytes → Nat) : List FullFs → List VolSession → List (List (Res VolAnswer)) →
    List FullFs → Prop
  | nil {old} : IdealLife E cfg kind old [] [] old
  | cons {old s ss I rs rss new} : ValidTime s.now → IdealFits E cfg kind ⟨putBack cfg old s.pick s.now, []⟩ s.events rs I →
      IdealLife E cfg kind (old ++ [I.fs]) ss rss new → IdealLife E cfg kind old (s :: ss) (rs :: rss) new

end Securefs.Spec
