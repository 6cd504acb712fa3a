import Verif.Spec.Guards
/-!
# C120: guards give back what they take
-/

namespace Securefs.Props

open Guards Spec

private theorem put_back {h : Nat → HeldAs} {m : Nat} (hm : h m = .free) :
    (fun k => if k = m then HeldAs.free else (fun k => if k = m then HeldAs.writing else h k) k) = h := by
  funext k
  by_cases hk : k = m
  · subst hk; simp [hm]
  · simp [hk]

/-- A thread that takes mutexes only with `LockGuard`, for writing, in scopes that lie within each other as they like, makes only calls that are allowed,
    and has given everything back in the end, whether there was an exception or not. -/
theorem C120_scopes (b : Body) (h : Nat → HeldAs) (taken : List Nat) (ev : List Call) (h0 : Nat → HeldAs) (hev : heldAfter h0 ev = some h)
    (htaken : ∀ m, m ∉ taken → h m = .free) (hapart : Apart taken b) (hw : ForWriting b) : heldAfter h0 (b.run ev).1 = some h := by
  induction b generalizing h taken ev with
  | done => exact hev
  | throw => exact hev
  | scope m exclusive inner rest ih1 ih2 =>
    obtain ⟨a1, a2, a3⟩ := hapart
    obtain ⟨rfl, w2, w3⟩ := hw
    have hm := htaken m a1
    have h1 := ih1 (fun k => if k = m then .writing else h k) (m :: taken) (.lock m :: ev) (by simp [heldAfter, hev, heldNext, hm])
      (by
        intro k hk
        have hk1 : k ≠ m := fun e => hk (by simp [e])
        have hk2 : k ∉ taken := fun e => hk (List.mem_cons_of_mem _ e)
        simp [hk1, htaken k hk2]) a2 w2
    simp only [Body.run, if_true]
    have h2 : heldAfter h0 (.unlock m :: (inner.run (.lock m :: ev)).1) = some h := by
      simp only [heldAfter, h1, Option.bind_some, heldNext, if_true]
      rw [put_back hm]
    split
    · exact h2
    · exact ih2 h taken _ h2 htaken a3 w3

/-- Two mutexes, one within the other, an exception, and something after it. -/
example : Apart [] (.scope 1 true (.scope 2 true .throw .done) (.scope 1 true .done .done)) ∧ ForWriting (.scope 1 true (.scope 2 true .throw .done) (.scope 1 true .done .done))
    ∧ (Body.run (.scope 1 true (.scope 2 true .throw .done) (.scope 1 true .done .done)) []) = ([.unlock 1, .unlock 2, .lock 2, .lock 1], true)
    ∧ heldAfter (fun _ => .free) [] = some (fun _ => .free) := by
  refine ⟨by simp [Apart], by simp [ForWriting], by rfl, rfl⟩

/-- Guards neither swallow an exception nor add one; and the scopes that are entered are those before the exception, each for writing or reading as it was
    asked for. -/
theorem C120_exceptions (b : Body) (ev : List Call) : (b.run ev).2 = throws b ∧ takenIn (b.run ev).1 = (entered b).reverse ++ takenIn ev := by
  induction b generalizing ev with
  | done => exact ⟨rfl, rfl⟩
  | throw => exact ⟨rfl, rfl⟩
  | scope m exclusive inner rest ih1 ih2 =>
    have ht : takenIn ((if exclusive then Call.lock m else Call.readerLock m) :: ev) = (m, exclusive) :: takenIn ev := by cases exclusive <;> rfl
    obtain ⟨a1, a2⟩ := ih1 ((if exclusive then .lock m else .readerLock m) :: ev)
    simp only [Body.run, a1, throws, entered]
    rw [ht] at a2
    cases hti : throws inner with
    | true => exact ⟨rfl, by simp [takenIn, a2]⟩
    | false =>
      obtain ⟨b1, b2⟩ := ih2 (.unlock m :: (inner.run ((if exclusive then .lock m else .readerLock m) :: ev)).1)
      simp only [Bool.false_eq_true, if_false, b1, Bool.false_or, true_and]
      rw [b2]
      simp [takenIn, a2]

example : ((Body.scope 1 true .throw .done).run []).2 = true ∧ ((Body.scope 1 true .done .throw).run []).2 = true
    ∧ ((Body.scope 1 true .done .done).run []).2 = false := ⟨rfl, rfl, rfl⟩

/-- What is missing above: the guard for reading gives back with `Unlock` what it has taken with `ReaderLock`, which is not allowed. -/
theorem C120_reading_violated : ∃ (b : Body), Apart [] b ∧ heldAfter (fun _ => .free) (b.run []).1 = none :=
  ⟨.scope 0 false .done .done, by simp [Apart], by decide⟩

/-- How `UniqueLock` stands: it has the mutex exactly if it says so. -/
private def Right (h : Nat → HeldAs) (m : Nat) (u : Unique) : Prop := u.pointer = true ∧ (h m = if u.owns then .writing else .free)

private theorem construct_right {ask : List Call → Bool} {m : Nat} {h h0 : Nat → HeldAs} {ev : List Call} (hev : heldAfter h0 ev = some h) (hm : h m = .free) (c : Ctor) :
    ∃ h', heldAfter h0 (construct ask m ev c).2 = some h' ∧ Right h' m (construct ask m ev c).1 ∧ ∀ k, k ≠ m → h' k = h k := by
  cases c with
  | now => exact ⟨_, by simp only [construct, heldAfter, hev, Option.bind_some, heldNext, hm, if_true]; rfl, ⟨rfl, by simp [construct]⟩, fun k hk => by simp [hk]⟩
  | deferred => exact ⟨h, hev, ⟨rfl, by simp [construct, hm]⟩, fun _ _ => rfl⟩
  | trying =>
    refine ⟨_, by simp only [construct, heldAfter, hev, Option.bind_some, heldNext, hm, if_true]; rfl, ⟨rfl, ?_⟩, fun k hk => by simp [hk]⟩
    cases hq : ask ev <;> simp [construct, hq, hm]

private theorem call_right {ask : List Call → Bool} {m : Nat} {h h0 : Nat → HeldAs} {ev : List Call} {u : Unique} (hev : heldAfter h0 ev = some h) (hr : Right h m u)
    (f : Member) (hf : f ≠ .release) :
    ∃ h', heldAfter h0 (u.call ask m ev f).2 = some h' ∧ Right h' m (u.call ask m ev f).1 ∧ ∀ k, k ≠ m → h' k = h k := by
  obtain ⟨p, o⟩ := u
  obtain ⟨hp, ho⟩ := hr
  have hp : p = true := hp
  subst hp
  cases o with
  | true =>
    simp only [if_true] at ho
    cases f with
    | lock => exact ⟨h, hev, ⟨rfl, by simpa [Unique.call] using ho⟩, fun _ _ => rfl⟩
    | tryLock => exact ⟨h, hev, ⟨rfl, by simpa [Unique.call] using ho⟩, fun _ _ => rfl⟩
    | unlock =>
      exact ⟨_, by simp only [Unique.call, Unique.through, heldAfter, hev, Option.bind_some, heldNext, ho, if_true]; rfl, ⟨rfl, by simp [Unique.call]⟩,
        fun k hk => by simp [hk]⟩
    | release => exact absurd rfl hf
  | false =>
    simp only [Bool.false_eq_true, if_false] at ho
    cases f with
    | lock =>
      exact ⟨_, by simp only [Unique.call, Unique.through, heldAfter, hev, Option.bind_some, heldNext, ho, if_true, Bool.false_eq_true, if_false]; rfl,
        ⟨rfl, by simp [Unique.call]⟩, fun k hk => by simp [hk]⟩
    | tryLock =>
      refine ⟨_, by simp only [Unique.call, Unique.through, heldAfter, hev, Option.bind_some, heldNext, ho, if_true, Bool.false_eq_true, if_false]; rfl,
        ⟨rfl, ?_⟩, fun k hk => by simp [hk]⟩
      cases hq : ask ev <;> simp [Unique.call, hq, ho]
    | unlock => exact ⟨h, hev, ⟨rfl, by simpa [Unique.call] using ho⟩, fun _ _ => rfl⟩
    | release => exact absurd rfl hf

private theorem calls_right {ask : List Call → Bool} {m : Nat} {h0 : Nat → HeldAs} : ∀ (fs : List Member) (h : Nat → HeldAs) (ev : List Call) (u : Unique),
    heldAfter h0 ev = some h → Right h m u → .release ∉ fs →
    ∃ h', heldAfter h0 (u.calls ask m ev fs).2 = some h' ∧ Right h' m (u.calls ask m ev fs).1 ∧ ∀ k, k ≠ m → h' k = h k := by
  intro fs
  induction fs with
  | nil => intro h ev u hev hr _; exact ⟨h, hev, hr, fun _ _ => rfl⟩
  | cons f rest ih =>
    intro h ev u hev hr hf
    obtain ⟨h1, e1, r1, k1⟩ := call_right (ask := ask) hev hr f (fun e => hf (by simp [e]))
    obtain ⟨h2, e2, r2, k2⟩ := ih h1 _ _ e1 r1 (fun e => hf (List.mem_cons_of_mem _ e))
    exact ⟨h2, e2, r2, fun k hk => (k2 k hk).trans (k1 k hk)⟩

/-- However its constructor and its member functions are called, whatever the mutex answers: a `UniqueLock` that is not released makes only calls that are
    allowed, says truly whether it has the mutex, and leaves all mutexes as they were. -/
theorem C120_unique (ask : List Call → Bool) (m : Nat) (c : Ctor) (fs : List Member) (hfs : .release ∉ fs) (ev : List Call) (h0 h : Nat → HeldAs)
    (hev : heldAfter h0 ev = some h) (hm : h m = .free) :
    heldAfter h0 (life ask m c fs ev) = some h ∧
    ∃ h', heldAfter h0 ((construct ask m ev c).1.calls ask m (construct ask m ev c).2 fs).2 = some h' ∧
      (h' m = .writing ↔ ((construct ask m ev c).1.calls ask m (construct ask m ev c).2 fs).1.owns = true) := by
  obtain ⟨h1, e1, r1, k1⟩ := construct_right (ask := ask) hev hm c
  obtain ⟨h2, e2, r2, k2⟩ := calls_right (ask := ask) fs h1 _ _ e1 r1 hfs
  refine ⟨?_, h2, e2, ?_⟩
  · unfold life
    dsimp only
    generalize (construct ask m ev c).1.calls ask m (construct ask m ev c).2 fs = r at *
    obtain ⟨⟨p, o⟩, ev'⟩ := r
    have hp : p = true := r2.1
    subst hp
    have hall : ∀ k, k ≠ m → h2 k = h k := fun k hk => (k2 k hk).trans (k1 k hk)
    cases o with
    | true =>
      have ho : h2 m = .writing := r2.2
      have e2 : heldAfter h0 ev' = some h2 := e2
      simp only [Unique.destroy, Unique.through, if_true, heldAfter, e2, Option.bind_some, heldNext, ho]
      congr 1
      funext k
      by_cases hk : k = m
      · subst hk; simp [hm]
      · simp [hk, hall k hk]
    | false =>
      have ho : h2 m = .free := r2.2
      have e2 : heldAfter h0 ev' = some h2 := e2
      simp only [Unique.destroy, Bool.false_eq_true, if_false, e2]
      congr 1
      funext k
      by_cases hk : k = m
      · subst hk; rw [ho, hm]
      · exact hall k hk
  · rw [r2.2]
    cases ((construct ask m ev c).1.calls ask m (construct ask m ev c).2 fs).1.owns <;> simp

/-- A lock that is tried for until it is got, given back, and taken again. -/
example : .release ∉ [Member.tryLock, .tryLock, .unlock, .unlock, .lock, .lock] ∧
    life (fun ev => ev.length = 1) 3 .trying [.tryLock, .tryLock, .unlock, .unlock, .lock, .lock] []
      = [.unlock 3, .lock 3, .unlock 3, .tryLock 3 true, .tryLock 3 false] := by
  refine ⟨by decide, by decide⟩

/-- A `UniqueLock` that is released in the end leaves the mutex to the caller, as it had it. -/
theorem C120_released (ask : List Call → Bool) (m : Nat) (c : Ctor) (fs : List Member) (hfs : .release ∉ fs) (ev : List Call) (h0 h : Nat → HeldAs)
    (hev : heldAfter h0 ev = some h) (hm : h m = .free) :
    ∃ h', heldAfter h0 (life ask m c (fs ++ [.release]) ev) = some h' ∧ (∀ k, k ≠ m → h' k = h k) ∧
      (h' m = .writing ↔ ((construct ask m ev c).1.calls ask m (construct ask m ev c).2 fs).1.owns = true) := by
  obtain ⟨h1, e1, r1, k1⟩ := construct_right (ask := ask) hev hm c
  obtain ⟨h2, e2, r2, k2⟩ := calls_right (ask := ask) fs h1 _ _ e1 r1 hfs
  have happ : ∀ (fs : List Member) (u : Unique) (ev : List Call), u.calls ask m ev (fs ++ [.release]) = (⟨false, false⟩, (u.calls ask m ev fs).2) := by
    intro fs
    induction fs with
    | nil => intro u ev; rfl
    | cons f rest ih => intro u ev; exact ih _ _
  refine ⟨h2, ?_, fun k hk => (k2 k hk).trans (k1 k hk), ?_⟩
  · unfold life
    dsimp only
    rw [happ]
    exact e2
  · rw [r2.2]
    cases ((construct ask m ev c).1.calls ask m (construct ask m ev c).2 fs).1.owns <;> simp

example : life (fun _ => true) 3 .deferred [.lock, .release] [] = [.lock 3] := by decide

/-- What is missing: to lock again after a release is a call on a null pointer. -/
theorem C120_null_violated : ∃ fs, heldAfter (fun _ => .free) (life (fun _ => true) 3 .now fs []) = none := ⟨[.release, .lock], by decide⟩

end Securefs.Props
