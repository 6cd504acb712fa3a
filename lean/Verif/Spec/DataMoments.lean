import Verif.Spec.Moments
import Verif.Spec.ByteFile
/-!
# Specification: calls on contents take effect at one moment

Calls of any number of threads overlap.  Each one that reads or changes the contents of a file is to do so at one moment between its beginning and its end,
and all others are to leave the contents of all files alone.
-/

namespace Securefs.Spec

/-- The bytes of a file, if it exists. -/
def contents (fs : FullFs) (id : Bytes) : Option Bytes := (viewOf fs id).map AFile.data

/-- No contents are changed: what existed has its contents, and what did not exist may have come to be with none. -/
def Moment.still (m : Moment) : Prop :=
  ∀ id, contents m.2 id = contents m.1 id ∨ (contents m.1 id = none ∧ contents m.2 id = some [])

/-- The contents `b` of one file become `g b`, and no others are changed. -/
def Moment.rewrites (m : Moment) (id : Bytes) (g : Bytes → Bytes) : Prop :=
  (∃ b, contents m.1 id = some b ∧ contents m.2 id = some (g b)) ∧ ∀ id', id' ≠ id → contents m.2 id' = contents m.1 id'

/-- No contents are changed. -/
def AllStill (ms : List Moment) : Prop := ∀ m ∈ ms, Moment.still m

/-- There is one moment with the property `P`, which is also about what came before; at the other moments no contents are changed. -/
def OnceData (ms : List Moment) (P : List Moment → Moment → Prop) : Prop :=
  ∃ a m b, ms = a ++ m :: b ∧ AllStill a ∧ AllStill b ∧ P a m

/-- What a call that has returned `v` has done to the contents of files, and at which moment. -/
def DataEffect (same : Bytes → Bytes → Bool) (ms : List Moment) (v : Int) : FullOp → Prop
  | .write h off d => (d.length < 2 ^ 31 → v = d.length) ∧ ∃ m, ms = [m] ∧ m.rewrites h.id fun b => Spec.write b off d
  | .ftruncate h n => v = 0 ∧ ∃ m, ms = [m] ∧ m.rewrites h.id fun b => resize b n
  | .truncate path n =>
    (v = 0 ∧ OnceData ms fun a m => ∃ id, FoundFile same a path true id ∧ m.rewrites id fun b => resize b n) ∨ (v = -2 ∧ AllStill ms)
  | .open path true =>
    (v = 0 ∧ OnceData ms fun a m => ∃ id, FoundFile same a path true id ∧ m.rewrites id fun b => resize b 0) ∨ (v = -2 ∧ AllStill ms)
  | .symlink target _ _ _ id => v = 0 ∧ OnceData ms fun _ m => m.rewrites id fun b => target ++ b.drop target.length
  | .read h off len =>
    AllStill ms ∧ ∃ m b, ms = [m] ∧ contents m.1 h.id = some b ∧ ((Spec.read b off len).length < 2 ^ 31 → v = (Spec.read b off len).length)
  | _ => AllStill ms

/-- What comes of a program whose sections are executed at the given moments. -/
inductive Ran {α : Type} : Prog α → List Moment → Res α → Prop
  | ret (a : α) : Ran (.ret a) [] (.ok a)
  | throw (e : Err) : Ran (.throw e) [] (.error e)
  | stop {β : Type} {f : Sec β} {k : β → Prog α} {fs fs' : FullFs} {e : Err} (h : f fs = (.error e, fs')) : Ran (.sec f k) [(fs, fs')] (.error e)
  | go {β : Type} {f : Sec β} {k : β → Prog α} {fs fs' : FullFs} {b : β} {ms : List Moment} {r : Res α} (h : f fs = (.ok b, fs')) (h' : Ran (k b) ms r) :
      Ran (.sec f k) ((fs, fs') :: ms) r

/-! ## One after the other -/

/-- The calls that have been started, in the order of the numbers of their threads. -/
def started : List FullEvent → List FullOp
  | [] => []
  | .start op :: rest => op :: started rest
  | _ :: rest => started rest

/-- A call that reads or changes the contents of the file through a handle. -/
def onData (id : Bytes) : FullOp → Prop
  | .read h _ _ | .write h _ _ | .ftruncate h _ => h.id = id
  | _ => False

/-- A call that changes the contents of a file which it has to find by its path, or makes a symbolic link of the given identifier. -/
def byPath (id : Bytes) : FullOp → Prop
  | .truncate _ _ | .open _ true => True
  | .symlink _ _ _ _ i => i = id
  | _ => False

/-- What a call through a handle is to make of contents. -/
def dataStep (b : Bytes) : FullOp → Bytes
  | .write _ off d => Spec.write b off d
  | .ftruncate _ n => resize b n
  | _ => b

/-- What calls make of contents, one after the other. -/
def inTurn (b : Bytes) (order : List (Nat × FullOp)) : Bytes := order.foldl (fun b x => dataStep b x.2) b

/-- The thread has returned. -/
def Returned (s : FullSys) (i : Nat) : Prop := ∃ v, s.threads[i]? = some (.ret v)

/-- Overlapping calls through handles on the file, from a state without threads on, are as good as one after the other. -/
structure Serial (cfg : FsCfg) (fs : FullFs) (evs : List FullEvent) (id b : Bytes) (order : List (Nat × FullOp)) : Prop where
  /-- no call is there twice -/
  once : (order.map Prod.fst).Nodup
  /-- the calls on the file that have returned are there, and no others -/
  calls : ∀ i op, (i, op) ∈ order ↔ (started evs)[i]? = some op ∧ onData id op ∧ Returned (FullSys.run cfg ⟨fs, []⟩ evs) i
  /-- each call has found the contents that the calls before it have left, and has left them for the calls after it -/
  turn : ∀ k i op, order[k]? = some (i, op) → ∃ m v, moments cfg i ⟨fs, []⟩ evs = [m] ∧ contents m.1 id = some (inTurn b (order.take k)) ∧
    contents m.2 id = some (inTurn b (order.take (k + 1))) ∧ (FullSys.run cfg ⟨fs, []⟩ evs).threads[i]? = some (.ret v) ∧ Ran (op.prog cfg) [m] (.ok v)
  /-- the last call has left the contents that are there -/
  ends : contents (FullSys.run cfg ⟨fs, []⟩ evs).fs id = some (inTurn b order)
  /-- a call that had returned before another one was started comes before it -/
  time : ∀ evs1 evs2, evs = evs1 ++ evs2 → ∀ x y, x ∈ order → y ∈ order → Returned (FullSys.run cfg ⟨fs, []⟩ evs1) x.1 →
    (started evs1).length ≤ y.1 → ∃ p q : Nat, p < q ∧ order[p]? = some x ∧ order[q]? = some y

end Securefs.Spec
