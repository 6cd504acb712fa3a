import Verif.Spec.VolSerial
import Verif.Spec.AttrMoments
/-!
# What a call on an encrypted volume has done

The effect on names, on contents, and on modes and owners, put together, for a call in a history of many threads.
-/

namespace Securefs.Spec

open Securefs

/-- The exception with which a call has ended. -/
def volThrown (s : VolSys) (i : Nat) : Option Err :=
  match s.threads[i]? with
  | some ⟨.throw e, _⟩ => some e
  | _ => none

/-- What a call that has returned the answer `x` has done at its moments. -/
structure Done (cfg : FsCfg) (ms : List Moment) (op : FullOp) (x : VolAnswer) : Prop where
  names : Effect cfg.same ms (VolAnswer.result x) op
  data : DataEffect cfg.same ms (VolAnswer.result x) op
  attrs : AttrEffect cfg ms (VolAnswer.result x) op
  told : Told cfg.same ms op x

/-- What a call may have done that has not returned: names at no more than one moment, no contents, no modes or owners but of a file it has made. -/
structure Undone (cfg : FsCfg) (ms : List Moment) (op : FullOp) : Prop where
  names : AtMostOnce cfg.same ms
  data : AllStill ms
  attrs : AttrCut cfg ms op

end Securefs.Spec
