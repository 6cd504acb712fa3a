import Verif.Proofs.LiteThreadsSim
/-! Threads on one lite file come to an end. -/

namespace Securefs
open Spec (Event)

namespace ThreadEnv
variable {E : ThreadEnv}

theorem exec_append : ∀ {l1 l2 : List (Nat × Choice)} {s s1 s2 : Threads} {e1 e2 : List Event}, E.exec s l1 = some (s1, e1) → E.exec s1 l2 = some (s2, e2) →
    E.exec s (l1 ++ l2) = some (s2, e1 ++ e2) := by
  intro l1
  induction l1 with
  | nil => intro l2 s s1 s2 e1 e2 h1 h2; cases h1; exact h2
  | cons a rest ih =>
    intro l2 s s1 s2 e1 e2 h1 h2
    obtain ⟨t, c⟩ := a
    obtain ⟨s3, ev, evs, h3, h4, rfl⟩ := exec_cons h1
    have := ih h4 h2
    simp only [List.cons_append, exec, h3, this, List.append_assoc]

/-- Threads of a list make steps, in this order. -/
def Goes (E : ThreadEnv) (s : Threads) (l : List Nat) (s' : Threads) (evs : List Event) : Prop := E.exec s (l.map fun t => (t, .go)) = some (s', evs)

theorem Goes.nil (s : Threads) : Goes E s [] s [] := rfl

theorem Goes.append {s s1 s2 : Threads} {l1 l2 : List Nat} {e1 e2 : List Event} (h1 : Goes E s l1 s1 e1) (h2 : Goes E s1 l2 s2 e2) :
    Goes E s (l1 ++ l2) s2 (e1 ++ e2) := by
  unfold Goes
  rw [List.map_append]
  exact exec_append h1 h2

theorem Goes.one {s s1 : Threads} {t : Nat} {ev : Option Event} (h : E.step s t .go = some (s1, ev)) : Goes E s [t] s1 ev.toList := by
  simp [Goes, exec, h]

theorem Goes.cons {s s1 s2 : Threads} {t : Nat} {ev : Option Event} {l : List Nat} {evs : List Event} (h : E.step s t .go = some (s1, ev))
    (h2 : Goes E s1 l s2 evs) : Goes E s (t :: l) s2 (ev.toList ++ evs) := (Goes.one h).append h2

/-- Thread `t` can come back from its call, and the other threads are where they were. -/
def Ends (E : ThreadEnv) (s : Threads) (t : Nat) : Prop :=
  ∃ l s' evs r, Goes E s l s' evs ∧ .ret t r ∈ evs ∧ s'.phase t = .idle ∧ ∀ t', t' ≠ t → s'.phase t' = s.phase t'

/-- A step of `t` and then the end. -/
theorem Ends.cons {s s1 : Threads} {t : Nat} {ev : Option Event} (h : E.step s t .go = some (s1, ev)) (hp : ∀ t', t' ≠ t → s1.phase t' = s.phase t')
    (h1 : Ends E s1 t) : Ends E s t := by
  obtain ⟨l, s', evs, r, h2, h3, h4, h5⟩ := h1
  exact ⟨t :: l, s', _, r, Goes.cons h h2, List.mem_append_right _ h3, h4, fun t' ht => (h5 t' ht).trans (hp t' ht)⟩

theorem ends_returning {s : Threads} {t : Nat} {r : Res Spec.Out} (hp : s.phase t = .returning r) : Ends E s t := by
  have h : E.step s t .go = some ({ s with phase := Function.update s.phase t .idle }, some (.ret t r)) := by simp [step, hp]
  exact ⟨[t], _, _, r, Goes.one h, by simp, by simp, fun t' ht => by simp [Function.update_of_ne ht]⟩

theorem ends_unlocking {s : Threads} {t h : Nat} {r : Res Spec.Out} (hp : s.phase t = .unlocking h r) : Ends E s t := by
  have h1 : E.step s t .go = some ({ s with mutex := Function.update s.mutex h none, phase := Function.update s.phase t (.returning r) }, none) := by simp [step, hp]
  exact Ends.cons h1 (fun t' ht => by simp [Function.update_of_ne ht]) (ends_returning (r := r) (by simp))

theorem ends_leaving {s : Threads} {t h : Nat} {r : Res Spec.Out} (hp : s.phase t = .leaving h r) : Ends E s t := by
  have h1 : E.step s t .go = some ({ s with flock := if E.flock ∧ s.flock = some h then none else s.flock, phase := Function.update s.phase t (.unlocking h r) }, none) := by
    simp [step, hp]
  exact Ends.cons h1 (fun t' ht => by simp [Function.update_of_ne ht]) (ends_unlocking (h := h) (r := r) (by simp))

theorem ends_running {t h : Nat} {task : Spec.Task} : ∀ {p : SysProg LiteSt (LiteObj × Spec.Out)} {s : Threads}, s.phase t = .running h task p → Ends E s t := by
  intro p
  induction p with
  | done r =>
    intro s hp
    have h1 : E.step s t .go = some ({ s with handle := settled s h r, phase := Function.update s.phase t (.leaving h (r.map Prod.snd)) }, none) := by
      simp [step, hp]
    exact Ends.cons h1 (fun t' ht => by simp [Function.update_of_ne ht]) (ends_leaving (h := h) (r := r.map Prod.snd) (by simp))
  | silent u k ih =>
    intro s hp
    have h1 : E.step s t .go = some ({ s with st := u s.st, phase := Function.update s.phase t (.running h task (k s.st)) }, none) := by
      simp [step, hp]
    exact Ends.cons h1 (fun t' ht => by simp [Function.update_of_ne ht]) (ih s.st (by simp))
  | sys w f k ih =>
    intro s hp
    have h1 : E.step s t .go = some ({ s with st := w s.st, phase := Function.update s.phase t (.running h task (k s.st)) }, none) := by
      simp [step, hp]
    exact Ends.cons h1 (fun t' ht => by simp [Function.update_of_ne ht]) (ih s.st (by simp))

theorem ends_hasFlock {s : Threads} {t h : Nat} (hp : (s.phase t).hasFlock h) : Ends E s t := by
  cases e : s.phase t with
  | running _ _ _ => exact ends_running e
  | leaving _ _ => exact ends_leaving e
  | _ => rw [e] at hp; exact hp.elim

theorem body_some {s : Threads} (H : LockInv E s) {t h : Nat} {task : Spec.Task} (hp : s.phase t = .locking h task) : ∃ p, E.body s h task = some p := by
  cases task with
  | «open» => exact ⟨_, rfl⟩
  | call c =>
    obtain ⟨o, ho⟩ := Option.isSome_iff_exists.1 (H.l1 t h c hp)
    exact ⟨_, by simp only [body, ho]; rfl⟩

theorem ends_locking_free {s : Threads} (H : LockInv E s) {t h : Nat} {task : Spec.Task} (hp : s.phase t = .locking h task)
    (hm : E.flock = false ∨ s.flock = none ∨ s.flock = some h) : Ends E s t := by
  obtain ⟨p, hb⟩ := body_some H hp
  have h1 : E.step s t .go = some ({ s with flock := if E.flock then some h else s.flock, phase := Function.update s.phase t (.running h task p) }, none) := by
    simp only [step, hp]
    rw [if_pos hm, hb]
    rfl
  exact Ends.cons h1 (fun t' ht => by simp [Function.update_of_ne ht]) (ends_running (h := h) (task := task) (p := p) (by simp))

/-- Thread `t` can come back from its call; other threads are where they were, or have come back from a call for which they had the `flock`. -/
def EndsToo (E : ThreadEnv) (s : Threads) (t : Nat) : Prop :=
  ∃ l s' evs r, Goes E s l s' evs ∧ .ret t r ∈ evs ∧ s'.phase t = .idle ∧
    ∀ t', t' ≠ t → s'.phase t' = s.phase t' ∨ (∃ h, (s.phase t').hasFlock h) ∧ s'.phase t' = .idle

theorem Ends.too {s : Threads} {t : Nat} (h : Ends E s t) : EndsToo E s t := by
  obtain ⟨l, s', evs, r, h2, h3, h4, h5⟩ := h
  exact ⟨l, s', evs, r, h2, h3, h4, fun t' ht => .inl (h5 t' ht)⟩

theorem ends_locking {s : Threads} (H : LockInv E s) {t h : Nat} {task : Spec.Task} (hp : s.phase t = .locking h task) : EndsToo E s t := by
  by_cases hm : E.flock = false ∨ s.flock = none ∨ s.flock = some h
  · exact (ends_locking_free H hp hm).too
  cases hf : s.flock with
  | none => exact absurd (.inr (.inl hf)) hm
  | some h' =>
    obtain ⟨hE, t', ht'⟩ := H.f2 h' hf
    have hne : t' ≠ t := fun e => by subst e; rw [hp] at ht'; exact ht'
    obtain ⟨l, s1, evs, r, h1, h2, h3, h4⟩ := ends_hasFlock (E := E) ht'
    have H1 := H.exec h1
    have hp1 : s1.phase t = .locking h task := (h4 t hne.symm).trans hp
    have hfree : s1.flock = none := by
      cases hf1 : s1.flock with
      | none => rfl
      | some h'' =>
        obtain ⟨_, t'', ht''⟩ := H1.f2 h'' hf1
        have hne2 : t'' ≠ t' := fun e => by subst e; rw [h3] at ht''; exact ht''.elim
        rw [h4 t'' hne2] at ht''
        have a := H.f1 hE _ _ ht''
        rw [hf] at a
        cases a
        have b := H.m1 _ _ ht''.mutex
        have c := H.m1 _ _ ht'.mutex
        rw [b] at c
        cases c
        exact absurd rfl hne2
    obtain ⟨l2, s2, evs2, r2, h5, h6, h7, h8⟩ := ends_locking_free H1 hp1 (.inr (.inl hfree))
    refine ⟨l ++ l2, s2, _, r2, h1.append h5, List.mem_append_right _ h6, h7, fun t'' ht'' => ?_⟩
    rw [h8 t'' ht'']
    by_cases e : t'' = t'
    · subst e
      exact .inr ⟨⟨h', ht'⟩, h3⟩
    · exact .inl (h4 t'' e)

theorem ends_hasMutex {s : Threads} (H : LockInv E s) {t h : Nat} (hp : (s.phase t).hasMutex h) : EndsToo E s t := by
  cases e : s.phase t with
  | locking _ _ => exact ends_locking H e
  | running _ _ _ => exact (ends_running e).too
  | leaving _ _ => exact (ends_leaving e).too
  | unlocking _ _ => exact (ends_unlocking e).too
  | _ => rw [e] at hp; exact hp.elim

theorem ends_entering_free {s : Threads} (H : LockInv E s) {t h : Nat} {task : Spec.Task} (hp : s.phase t = .entering h task) (hm : s.mutex h = none) :
    ∃ l s' evs r, Goes E s l s' evs ∧ .ret t r ∈ evs := by
  have h1 : E.step s t .go = some ({ s with mutex := Function.update s.mutex h (some t), phase := Function.update s.phase t (.locking h task) }, none) := by
    simp [step, hp, hm]
  have H1 := H.tstep (step_sound h1)
  obtain ⟨l, s', evs, r, h2, h3, _⟩ := ends_locking (t := t) H1 (h := h) (task := task) (by simp)
  exact ⟨t :: l, s', _, r, Goes.cons h1 h2, List.mem_append_right _ h3⟩

/-- Every thread that is in a call can return from it. -/
theorem returns {s : Threads} (H : LockInv E s) {t : Nat} (hp : s.phase t ≠ .idle) : ∃ l s' evs r, Goes E s l s' evs ∧ .ret t r ∈ evs := by
  cases e : s.phase t with
  | idle => exact absurd e hp
  | returning r =>
    obtain ⟨l, s', evs, r, h, h', _⟩ := ends_returning (E := E) e
    exact ⟨l, s', evs, r, h, h'⟩
  | locking _ _ =>
    obtain ⟨l, s', evs, r, h, h', _⟩ := ends_locking H e
    exact ⟨l, s', evs, r, h, h'⟩
  | running _ _ _ =>
    obtain ⟨l, s', evs, r, h, h', _⟩ := ends_running (E := E) e
    exact ⟨l, s', evs, r, h, h'⟩
  | leaving _ _ =>
    obtain ⟨l, s', evs, r, h, h', _⟩ := ends_leaving (E := E) e
    exact ⟨l, s', evs, r, h, h'⟩
  | unlocking _ _ =>
    obtain ⟨l, s', evs, r, h, h', _⟩ := ends_unlocking (E := E) e
    exact ⟨l, s', evs, r, h, h'⟩
  | entering h task =>
    cases hm : s.mutex h with
    | none => exact ends_entering_free H e hm
    | some t' =>
      have ht' := H.m2 h t' hm
      have hne : t' ≠ t := fun e' => by subst e'; rw [e] at ht'; exact ht'
      obtain ⟨l, s1, evs, r, h1, h2, h3, h4⟩ := ends_hasMutex H ht'
      have H1 := H.exec h1
      have hp1 : s1.phase t = .entering h task := by
        rcases h4 t hne.symm with h5 | ⟨⟨_, h5⟩, _⟩
        · exact h5.trans e
        · rw [e] at h5; exact h5.elim
      have hfree : s1.mutex h = none := by
        cases hf : s1.mutex h with
        | none => rfl
        | some t'' =>
          have ht'' := H1.m2 h t'' hf
          have hne2 : t'' ≠ t' := fun e' => by subst e'; rw [h3] at ht''; exact ht''
          rcases h4 t'' hne2 with h5 | ⟨_, h5⟩
          · rw [h5] at ht''
            have := H.m1 _ _ ht''
            rw [hm] at this
            cases this
            exact absurd rfl hne2
          · rw [h5] at ht''; exact ht''.elim
      obtain ⟨l2, s2, evs2, r2, h5, h6⟩ := ends_entering_free H1 hp1 hfree
      exact ⟨l ++ l2, s2, _, r2, h1.append h5, List.mem_append_right _ h6⟩

end ThreadEnv

end Securefs
