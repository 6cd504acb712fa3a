import Verif.Proofs.ThreadLocal
/-!
# C48: a per-thread object is never stale
-/

namespace Securefs.Props

open Securefs Spec

variable {V : Type}

/-- C48: whatever the history of making and destroying owners, of calls on any number of threads, and of threads that end, every call
    returns what it would return if every pair of an owner and a thread had its own object; slots and generations are invisible, except
    that no more than 256 owners can be alive. -/
theorem C48_refines (ops : List (TlOp V)) : ((TlSys.init : TlSys V).run ops).1 = ((TlSpec.init : TlSpec V).run ops).1 :=
  (TlRel.init.run ops).1

theorem specStep_obj (a : TlSpec V) (op : TlOp V) (o t : Nat) (x : TlObj V) (h : (a.step op).2.obj o t = some x) :
    a.obj o t = some x ∨ op = .get t o (some x.val) := by
  cases op with
  | create =>
    simp only [TlSpec.step] at h
    split at h <;> exact .inl h
  | destroy n =>
    simp only [TlSpec.step] at h
    split at h <;> exact .inl h
  | exit t' =>
    simp only [TlSpec.step] at h
    split at h
    · cases h
    · exact .inl h
  | get t' n init =>
    simp only [TlSpec.step] at h
    split at h
    · split at h
      · exact .inl h
      · exact .inl h
      · next v _ =>
        dsimp only [TlSpec.setObj] at h
        by_cases he : o = n ∧ t = t'
        · rw [if_pos he] at h
          cases h
          rw [he.1, he.2]
          exact .inr rfl
        · rw [if_neg he] at h
          exact .inl h
    · exact .inl h

theorem specRun_obj (ops : List (TlOp V)) : ∀ (a : TlSpec V) (o t : Nat) (x : TlObj V), (a.run ops).2.obj o t = some x →
    a.obj o t = some x ∨ .get t o (some x.val) ∈ ops := by
  induction ops with
  | nil => intro a o t x h; exact .inl h
  | cons op rest ih =>
    intro a o t x h
    rcases ih _ o t x h with h1 | h1
    · rcases specStep_obj a op o t x h1 with h2 | h2
      · exact .inl h2
      · exact .inr (h2 ▸ List.mem_cons_self)
    · exact .inr (List.mem_cons_of_mem _ h1)

/-- What a call for an owner on a thread returns was made by the factory of the same owner on the same thread, in this call or in an
    earlier one, and it has not been destroyed; no object is destroyed twice. -/
theorem C48_made_here (ops : List (TlOp V)) (t o : Nat) (init : Option V) {x : TlObj V}
    (h : (((TlSys.init : TlSys V).run ops).2.get t o init).1 = .obj x) :
    (.get t o (some x.val) ∈ ops ∨ init = some x.val) ∧
    x.serial ∉ (((TlSys.init : TlSys V).run ops).2.get t o init).2.destroyed ∧
    (((TlSys.init : TlSys V).run ops).2.get t o init).2.destroyed.Nodup := by
  have hr := (TlRel.init (V := V).run ops).2
  obtain ⟨h1, h2⟩ := hr.step (.get t o init)
  have h1' : TlOut.obj x = (((TlSpec.init : TlSpec V).run ops).2.step (.get t o init)).1 := h.symm.trans h1
  refine ⟨?_, ?_, h2.once⟩
  · simp only [TlSpec.step] at h1'
    split at h1'
    · split at h1'
      · next heq => injection h1' with h1'; subst h1'
                    rcases specRun_obj ops _ _ _ _ heq with h3 | h3
                    · cases h3
                    · exact .inl h3
      · cases h1'
      · injection h1' with h1'; subst h1'; exact .inr rfl
    · cases h1'
  · -- the object is in the holder of the thread
    have hmem : ∃ i, ((((TlSys.init : TlSys V).run ops).2.get t o init).2.locals t i).data = some x := by
      unfold TlSys.get at h ⊢
      split at h
      · next w heq =>
        refine ⟨w.index, ?_⟩
        dsimp only at h ⊢
        split at h
        · next x' hd hg =>
          injection h with h
          subst h
          exact hd
        · split at h
          · cases h
          · injection h with h
            subst h
            show (if t = t ∧ w.index = w.index then _ else _ : TlHolder V).data = _
            rw [if_pos ⟨rfl, rfl⟩]
      · cases h
    obtain ⟨i, hi⟩ := hmem
    exact (h2.serial t i x hi).2

/-- The factory of owner `n` on thread `t` makes `(n, t)`. -/
def demoTl : List (TlOp (Nat × Nat)) :=
  [.create, .create, .get 7 0 (some (0, 7)), .get 8 0 (some (0, 8)), .get 7 1 (some (1, 7)), .destroy 0, .create, .get 7 2 none,
   .get 7 2 (some (2, 7)), .get 8 2 (some (2, 8)), .get 7 2 (some (9, 9)), .exit 8, .get 8 2 (some (2, 8)), .get 8 0 (some (0, 8))]

/-- Owner 2 has the slot that owner 0 had, and the object of owner 0 on thread 7 is not returned; it is destroyed. -/
example : ((TlSys.init : TlSys (Nat × Nat)).run demoTl).1 =
    [.owner 0, .owner 1, .obj ⟨0, (0, 7)⟩, .obj ⟨1, (0, 8)⟩, .obj ⟨2, (1, 7)⟩, .done, .owner 2, .error .runtime, .obj ⟨3, (2, 7)⟩,
     .obj ⟨4, (2, 8)⟩, .obj ⟨3, (2, 7)⟩, .done, .obj ⟨5, (2, 8)⟩, .error .outOfBounds] ∧
    ((TlSys.init : TlSys (Nat × Nat)).run demoTl).2.destroyed = [4, 1, 0] := by decide +kernel

/-- The hypothesis of `C48_made_here` holds for a call that finds the object of an owner that is gone. -/
example : (((TlSys.init : TlSys (Nat × Nat)).run (demoTl.take 7)).2.get 7 2 (some (2, 7))).1 = .obj ⟨3, (2, 7)⟩ := by decide +kernel

end Securefs.Props
