import Verif.Spec.VolSerial
/-!
# Specification: all calls on the contents of a file are as good as one after the other

As in `Spec/DataMoments.lean`, with the calls that cut off a file which they find by its path: `truncate`, and `open` with `O_TRUNC`.  Which file a path leads
to depends on what the other threads do meanwhile; so it is said of each such call whether it has found the file.
-/

namespace Securefs.Spec

/-- The contents of the file are left as they are. -/
def Moment.leaves (id : Bytes) (m : Moment) : Prop := ∀ b, contents m.1 id = some b → contents m.2 id = some b

/-- What a call on the file is to make of its contents. -/
def cutStep (b : Bytes) : FullOp → Bytes
  | .write _ off d => Spec.write b off d
  | .ftruncate _ n => resize b n
  | .truncate _ n => resize b n
  | .open _ true => resize b 0
  | .symlink target _ _ _ _ => target ++ b.drop target.length
  | _ => b

/-- What calls make of contents, one after the other. -/
def cutTurn (b : Bytes) (order : List (Nat × FullOp)) : Bytes := order.foldl (fun b x => cutStep b x.2) b

/-- The call is on the file: by its handle, or because it has found the file at the moments before its last one, or because it makes it. -/
def OnFile (same : Bytes → Bytes → Bool) (id : Bytes) (before : List Moment) : FullOp → Prop
  | .read h _ _ | .write h _ _ | .ftruncate h _ => h.id = id ∧ before = []
  | .truncate path _ | .open path true => FoundFile same before path true id
  | .symlink _ _ _ _ i => i = id
  | _ => False

/-- Overlapping calls from a state without threads on are, for the contents of one file, as good as one after the other. -/
structure CutSerial (cfg : FsCfg) (fs : FullFs) (evs : List FullEvent) (id b : Bytes) (order : List (Nat × FullOp)) : Prop where
  /-- no call is there twice -/
  once : (order.map Prod.fst).Nodup
  /-- only calls that have returned are there -/
  calls : ∀ i op, (i, op) ∈ order → (started evs)[i]? = some op ∧ Returned (FullSys.run cfg ⟨fs, []⟩ evs) i
  /-- the calls through handles on the file that have returned are there -/
  handles : ∀ i op, (started evs)[i]? = some op → onData id op → Returned (FullSys.run cfg ⟨fs, []⟩ evs) i → (i, op) ∈ order
  /-- whatever is not there has left the contents alone, at all of its moments -/
  others : ∀ i op, (started evs)[i]? = some op → i ∉ order.map Prod.fst → ∀ m ∈ moments cfg i ⟨fs, []⟩ evs, m.leaves id
  /-- each call has, at its last moment, found the contents that the calls before it have left, and has left them for the calls after it -/
  turn : ∀ k i op, order[k]? = some (i, op) → ∃ a m v, moments cfg i ⟨fs, []⟩ evs = a ++ [m] ∧ OnFile cfg.same id a op ∧ (∀ m' ∈ a, m'.leaves id) ∧
    contents m.1 id = some (cutTurn b (order.take k)) ∧ contents m.2 id = some (cutTurn b (order.take (k + 1))) ∧
    (FullSys.run cfg ⟨fs, []⟩ evs).threads[i]? = some (.ret v) ∧ Ran (op.prog cfg) (a ++ [m]) (.ok v) ∧ (¬ onData id op → v = 0)
  /-- the last call has left the contents that are there -/
  ends : contents (FullSys.run cfg ⟨fs, []⟩ evs).fs id = some (cutTurn b order)
  /-- a call that had returned before another one was started comes before it -/
  time : ∀ evs1 evs2, evs = evs1 ++ evs2 → ∀ x y, x ∈ order → y ∈ order → Returned (FullSys.run cfg ⟨fs, []⟩ evs1) x.1 →
    (started evs1).length ≤ y.1 → ∃ p q : Nat, p < q ∧ order[p]? = some x ∧ order[q]? = some y

/-- What a call on contents `b` is to answer on a volume. -/
def CutAnswer (b : Bytes) : FullOp → VolAnswer → Prop
  | .read h off len, x => DataAnswer b (.read h off len) x
  | .write h off d, x => DataAnswer b (.write h off d) x
  | .ftruncate h n, x => DataAnswer b (.ftruncate h n) x
  | .truncate _ _, x | .open _ true, x | .symlink _ _ _ _ _, x => VolAnswer.result x = 0
  | _, _ => False

/-- The same on an encrypted volume, in terms of what a caller sees. -/
structure VolCutSerial (V : VolEnv) (s : VolSys) (evs : List VolSysEvent) (id b : Bytes) (order : List (Nat × FullOp)) : Prop where
  /-- no call is there twice -/
  once : (order.map Prod.fst).Nodup
  /-- only calls that have returned are there -/
  calls : ∀ i op, (i, op) ∈ order → (volStarted evs)[i]? = some op ∧ ∃ a, volAnswer (s.run V evs) i = some a
  /-- the calls through handles on the file that have returned are there -/
  handles : ∀ i op, (volStarted evs)[i]? = some op → onData id op → (∃ a, volAnswer (s.run V evs) i = some a) → (i, op) ∈ order
  /-- each call gives the answer that it is to give if the calls before it, and no others, have been executed -/
  answers : ∀ k i op, order[k]? = some (i, op) → ∃ a, volAnswer (s.run V evs) i = some a ∧ CutAnswer (cutTurn b (order.take k)) op a
  /-- a call that had returned before another one was started comes before it -/
  time : ∀ evs1 evs2, evs = evs1 ++ evs2 → ∀ x y, x ∈ order → y ∈ order → (∃ a, volAnswer (s.run V evs1) x.1 = some a) →
    (volStarted evs1).length ≤ y.1 → ∃ p q : Nat, p < q ∧ order[p]? = some x ∧ order[q]? = some y

end Securefs.Spec
