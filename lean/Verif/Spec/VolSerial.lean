import Verif.Spec.VolThreads
import Verif.Spec.DataMoments
/-!
# Specification: overlapping calls on a file of an encrypted volume are as good as one after the other

Only what a caller sees is spoken of: which calls it has started, which of them have come back with which answers, and when.
-/

namespace Securefs.Spec

/-- The calls that have been started, in the order of the numbers of their threads. -/
def volStarted : List VolSysEvent → List FullOp
  | [] => []
  | .start op :: rest => op :: volStarted rest
  | _ :: rest => volStarted rest

/-- The answer with which a call has returned. -/
def volAnswer (s : VolSys) (i : Nat) : Option VolAnswer :=
  match s.threads[i]? with
  | some ⟨.ret a, _⟩ => some a
  | _ => none

/-- What a call on contents `b` is to answer. -/
def DataAnswer (b : Bytes) : FullOp → VolAnswer → Prop
  | .read _ off len, a => ∃ n, a = .bytes n (Spec.read b off len) ∧ ((Spec.read b off len).length < 2 ^ 31 → n = (Spec.read b off len).length)
  | .write _ _ d, a => ∃ n, a = .code n ∧ (d.length < 2 ^ 31 → n = d.length)
  | .ftruncate _ _, a => a = .code 0
  | _, _ => False

/-- Overlapping calls through handles on the file, whose contents are `b` at first, are as good as one after the other. -/
structure VolSerial (V : VolEnv) (s : VolSys) (evs : List VolSysEvent) (id b : Bytes) (order : List (Nat × FullOp)) : Prop where
  /-- no call is there twice -/
  once : (order.map Prod.fst).Nodup
  /-- the calls on the file that have returned are there, and no others -/
  calls : ∀ i op, (i, op) ∈ order ↔ (volStarted evs)[i]? = some op ∧ onData id op ∧ ∃ a, volAnswer (s.run V evs) i = some a
  /-- each call gives the answer that it is to give if the calls before it, and no others, have been executed -/
  answers : ∀ k i op, order[k]? = some (i, op) → ∃ a, volAnswer (s.run V evs) i = some a ∧ DataAnswer (inTurn b (order.take k)) op a
  /-- a call that had returned before another one was started comes before it -/
  time : ∀ evs1 evs2, evs = evs1 ++ evs2 → ∀ x y, x ∈ order → y ∈ order → (∃ a, volAnswer (s.run V evs1) x.1 = some a) →
    (volStarted evs1).length ≤ y.1 → ∃ p q : Nat, p < q ∧ order[p]? = some x ∧ order[q]? = some y

end Securefs.Spec
