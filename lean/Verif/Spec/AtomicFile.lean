import Verif.Spec.Frail
import Mathlib.Logic.Function.Basic
/-!
# Specification: a file that several threads use at once

Each call takes effect at one moment between its beginning and its return.  This is linearizability.
-/

namespace Securefs.Spec

/-- What a thread asks for: to open the file once more, or a call on an open handle. -/
inductive Task where
  | open
  | call (c : FileCall)

/-- What is seen from outside: a thread begins a call, returns from it, or has bad luck: a system call that it makes fails. -/
inductive Event where
  | invoke (t : Nat) (task : Task)
  | hit (t : Nat)
  | ret (t : Nat) (r : Except Err Out)

/-- A thread as the user sees it: outside of calls, in a call that has not yet taken effect, or in one that has. -/
inductive InCall where
  | none
  | waiting (task : Task) (hit : Bool)
  | acted (r : Except Err Out)

/-- A shared object: its state, and what the threads are doing. -/
structure Shared (φ : Type) where
  obj : φ
  pending : Nat → InCall

/-- One step of a shared object.  `act f task hit r f'` says that the task turns `f` to `f'` with result `r`; the bit tells of bad luck. -/
inductive Shared.Step {φ : Type} (act : φ → Task → Bool → Except Err Out → φ → Prop) : Shared φ → Option Event → Shared φ → Prop
  | invoke {s : Shared φ} {t : Nat} {task : Task} (h : s.pending t = .none) :
      Step act s (some (.invoke t task)) ⟨s.obj, Function.update s.pending t (.waiting task false)⟩
  | hit {s : Shared φ} {t : Nat} {task : Task} {b : Bool} (h : s.pending t = .waiting task b) :
      Step act s (some (.hit t)) ⟨s.obj, Function.update s.pending t (.waiting task true)⟩
  | act {s : Shared φ} {t : Nat} {task : Task} {b : Bool} {r : Except Err Out} {f' : φ} (h : s.pending t = .waiting task b)
      (ha : act s.obj task b r f') : Step act s none ⟨f', Function.update s.pending t (.acted r)⟩
  | ret {s : Shared φ} {t : Nat} {r : Except Err Out} (h : s.pending t = .acted r) :
      Step act s (some (.ret t r)) ⟨s.obj, Function.update s.pending t .none⟩

/-- A history of a shared object, as seen from outside. -/
inductive Shared.Run {φ : Type} (act : φ → Task → Bool → Except Err Out → φ → Prop) : Shared φ → List Event → Shared φ → Prop
  | nil (s : Shared φ) : Run act s [] s
  | cons {s s1 s' : Shared φ} {ev : Option Event} {evs : List Event} :
      Shared.Step act s ev s1 → Run act s1 evs s' → Run act s (ev.toList ++ evs) s'

/-- The file as a plain byte array: calls succeed as on the byte array, unless the thread has bad luck, in which case a call may also fail and do
    nothing.  Opening does nothing. -/
def plainAct (c : Bytes) (task : Task) (hit : Bool) (r : Except Err Out) (c' : Bytes) : Prop :=
  (hit = true ∧ (∃ e, r = .error e) ∧ c' = c) ∨
  match task with
  | .open => r = .ok .done ∧ c' = c
  | .call call => r = .ok (step c call.op).2 ∧ c' = (step c call.op).1

/-- The file as one on which calls may fail: if a call fails, the thread has had bad luck, or the call is beyond the bound, or it needs the
    content of a block that is spoilt. -/
def frailAct (bs bound : Nat) (f : Frail) (task : Task) (hit : Bool) (r : Except Err Out) (f' : Frail) : Prop :=
  match task with
  | .open => f' = f ∧ ((r = .ok .done) ∨ (hit = true ∧ ∃ e, r = .error e))
  | .call call => f.Step bs call r f' ∧
      ((∃ e, r = .error e) → hit = true ∨ bound < call.op.extent ∨ ¬ f.determined bs call ∨
        ∃ i, call.covers bs f.content.length i ∧ ¬ call.renews bs f.content.length i ∧ ¬ f.intact i)

end Securefs.Spec
