import Verif.Proofs.LiteThreadsProg
/-! The steps of threads one by one, and the locks. -/

namespace Securefs

/-- The steps that threads make. -/
inductive ThreadStep (E : ThreadEnv) (s : Threads) (t : Nat) : Threads → Option Spec.Event → Prop
  | invoke {h c} : s.phase t = .idle → (s.handle h).isSome →
      ThreadStep E s t { s with phase := Function.update s.phase t (.entering h (.call c)) } (some (.invoke t (.call c)))
  | invokeOpen : s.phase t = .idle →
      ThreadStep E s t { s with next := s.next + 1, mutex := Function.update s.mutex s.next (some t),
                                phase := Function.update s.phase t (.locking s.next .open) } (some (.invoke t .open))
  | enter {h task} : s.phase t = .entering h task → s.mutex h = none →
      ThreadStep E s t { s with mutex := Function.update s.mutex h (some t), phase := Function.update s.phase t (.locking h task) } none
  | lock {h task p} : s.phase t = .locking h task → (E.flock = false ∨ s.flock = none ∨ s.flock = some h) → E.body s h task = some p →
      ThreadStep E s t { s with flock := if E.flock then some h else s.flock, phase := Function.update s.phase t (.running h task p) } none
  | refuse {h task x} : s.phase t = .locking h task → E.flock = true →
      ThreadStep E s t { s with phase := Function.update s.phase t (.unlocking h (.error (.vfs (SysFault.errno x)))) } (some (.hit t))
  | done {h task r} : s.phase t = .running h task (.done r) →
      ThreadStep E s t { s with handle := ThreadEnv.settled s h r, phase := Function.update s.phase t (.leaving h (r.map Prod.snd)) } none
  | silent {h task u k} : s.phase t = .running h task (.silent u k) →
      ThreadStep E s t { s with st := u s.st, phase := Function.update s.phase t (.running h task (k s.st)) } none
  | sys {h task w f k} : s.phase t = .running h task (.sys w f k) →
      ThreadStep E s t { s with st := w s.st, phase := Function.update s.phase t (.running h task (k s.st)) } none
  | fault {h task w f k x} : s.phase t = .running h task (.sys w f k) → E.faults = true →
      ThreadStep E s t { s with st := f (SysFault.part x) s.st, phase := Function.update s.phase t (.leaving h (.error (.vfs (SysFault.errno x)))) }
        (some (.hit t))
  | leave {h r} : s.phase t = .leaving h r →
      ThreadStep E s t { s with flock := if E.flock ∧ s.flock = some h then none else s.flock, phase := Function.update s.phase t (.unlocking h r) } none
  | unlock {h r} : s.phase t = .unlocking h r →
      ThreadStep E s t { s with mutex := Function.update s.mutex h none, phase := Function.update s.phase t (.returning r) } none
  | ret {r} : s.phase t = .returning r →
      ThreadStep E s t { s with phase := Function.update s.phase t .idle } (some (.ret t r))

namespace ThreadEnv
variable {E : ThreadEnv}

theorem step_sound {s s' : Threads} {t : Nat} {c : Choice} {ev : Option Spec.Event} (h : E.step s t c = some (s', ev)) : ThreadStep E s t s' ev := by
  cases c with
  | invoke hd c =>
    simp only [step] at h
    cases hp : s.phase t with
    | idle =>
      rw [hp] at h
      by_cases hh : (s.handle hd).isSome = true
      · simp only [if_pos hh, Option.some.injEq, Prod.mk.injEq] at h
        obtain ⟨rfl, rfl⟩ := h
        exact .invoke hp hh
      · simp [hh] at h
    | _ => simp [hp] at h
  | invokeOpen =>
    simp only [step] at h
    cases hp : s.phase t with
    | idle =>
      rw [hp] at h
      simp only [Option.some.injEq, Prod.mk.injEq] at h
      obtain ⟨rfl, rfl⟩ := h
      exact .invokeOpen hp
    | _ => simp [hp] at h
  | go =>
    simp only [step] at h
    cases hp : s.phase t with
    | idle => simp [hp] at h
    | entering hd task =>
      rw [hp] at h
      by_cases hm : s.mutex hd = none
      · simp only [if_pos hm, Option.some.injEq, Prod.mk.injEq] at h
        obtain ⟨rfl, rfl⟩ := h
        exact .enter hp hm
      · simp [hm] at h
    | locking hd task =>
      rw [hp] at h
      by_cases hm : E.flock = false ∨ s.flock = none ∨ s.flock = some hd
      · simp only [if_pos hm] at h
        cases hb : E.body s hd task with
        | none => simp [hb] at h
        | some p =>
          simp only [hb, Option.map_some, Option.some.injEq, Prod.mk.injEq] at h
          obtain ⟨rfl, rfl⟩ := h
          exact .lock hp hm hb
      · simp [if_neg hm] at h
    | running hd task p =>
      rw [hp] at h
      cases p with
      | done r =>
        simp only [Option.some.injEq, Prod.mk.injEq] at h
        obtain ⟨rfl, rfl⟩ := h
        exact .done hp
      | silent u k =>
        simp only [Option.some.injEq, Prod.mk.injEq] at h
        obtain ⟨rfl, rfl⟩ := h
        exact .silent hp
      | sys w f k =>
        simp only [Option.some.injEq, Prod.mk.injEq] at h
        obtain ⟨rfl, rfl⟩ := h
        exact .sys hp
    | leaving hd r =>
      rw [hp] at h
      simp only [Option.some.injEq, Prod.mk.injEq] at h
      obtain ⟨rfl, rfl⟩ := h
      exact .leave hp
    | unlocking hd r =>
      rw [hp] at h
      simp only [Option.some.injEq, Prod.mk.injEq] at h
      obtain ⟨rfl, rfl⟩ := h
      exact .unlock hp
    | returning r =>
      rw [hp] at h
      simp only [Option.some.injEq, Prod.mk.injEq] at h
      obtain ⟨rfl, rfl⟩ := h
      exact .ret hp
  | fail x =>
    simp only [step] at h
    cases hp : s.phase t with
    | locking hd task =>
      rw [hp] at h
      cases hm : E.flock with
      | true =>
        simp only [hm, if_true, Option.some.injEq, Prod.mk.injEq] at h
        obtain ⟨rfl, rfl⟩ := h
        exact .refuse hp hm
      | false => simp [hm] at h
    | running hd task p =>
      rw [hp] at h
      cases p with
      | sys w f k =>
        cases hm : E.faults with
        | true =>
          simp only [hm, if_true, Option.some.injEq, Prod.mk.injEq] at h
          obtain ⟨rfl, rfl⟩ := h
          exact .fault hp hm
        | false => simp [hm] at h
      | _ => simp at h
    | _ => simp [hp] at h

end ThreadEnv

/-- Has the mutex of a handle. -/
def Phase.hasMutex (h : Nat) : Phase → Prop
  | .locking h' _ | .running h' _ _ | .leaving h' _ | .unlocking h' _ => h' = h
  | _ => False

/-- Has the `flock`, through a handle. -/
def Phase.hasFlock (h : Nat) : Phase → Prop
  | .running h' _ _ | .leaving h' _ => h' = h
  | _ => False

theorem Phase.hasFlock.mutex {h : Nat} {p : Phase} (hp : p.hasFlock h) : p.hasMutex h := by
  cases p <;> first | exact hp | exact hp.elim

/-- The threads and the locks fit. -/
structure LockInv (E : ThreadEnv) (s : Threads) : Prop where
  m1 : ∀ t h, (s.phase t).hasMutex h → s.mutex h = some t
  m2 : ∀ h t, s.mutex h = some t → (s.phase t).hasMutex h
  f1 : E.flock = true → ∀ t h, (s.phase t).hasFlock h → s.flock = some h
  f2 : ∀ h, s.flock = some h → E.flock = true ∧ ∃ t, (s.phase t).hasFlock h
  n1 : ∀ h, s.next ≤ h → s.mutex h = none ∧ s.handle h = none
  e1 : ∀ t h task, s.phase t = .entering h task → (s.handle h).isSome ∧ task ≠ .open
  l1 : ∀ t h c, s.phase t = .locking h (.call c) → (s.handle h).isSome

theorem LockInv.fresh (E : ThreadEnv) (st : LiteSt) : LockInv E (.fresh st) where
  m1 := fun _ _ h => h.elim
  m2 := fun _ _ h => by cases h
  f1 := fun _ _ _ h => h.elim
  f2 := fun _ h => by cases h
  n1 := fun _ _ => ⟨rfl, rfl⟩
  e1 := fun _ _ _ h => by cases h
  l1 := fun _ _ _ h => by cases h

namespace LockInv
variable {E : ThreadEnv} {s : Threads}

/-- A change of the phase of one thread that keeps its locks. -/
theorem relabel (H : LockInv E s) {t : Nat} {p : Phase} {st : LiteSt} {hd : Nat → Option LiteObj} (hm : ∀ h, p.hasMutex h ↔ (s.phase t).hasMutex h)
    (hf : ∀ h, p.hasFlock h ↔ (s.phase t).hasFlock h) (hhd : ∀ h, (s.handle h).isSome → (hd h).isSome)
    (hn : ∀ h, s.next ≤ h → hd h = none) (he : ∀ h task, p = .entering h task → (hd h).isSome ∧ task ≠ .open)
    (hl : ∀ h c, p = .locking h (.call c) → (hd h).isSome) :
    LockInv E { s with st := st, handle := hd, phase := Function.update s.phase t p } where
  m1 := fun t' h hh => by
    by_cases ht : t' = t
    · subst ht
      simp only [Function.update_self] at hh
      exact H.m1 _ h ((hm h).1 hh)
    · simp only [Function.update_of_ne ht] at hh
      exact H.m1 _ h hh
  m2 := fun h t' hh => by
    by_cases ht : t' = t
    · subst ht
      simp only [Function.update_self]
      exact (hm h).2 (H.m2 h _ hh)
    · simp only [Function.update_of_ne ht]
      exact H.m2 h _ hh
  f1 := fun hE t' h hh => by
    by_cases ht : t' = t
    · subst ht
      simp only [Function.update_self] at hh
      exact H.f1 hE _ h ((hf h).1 hh)
    · simp only [Function.update_of_ne ht] at hh
      exact H.f1 hE _ h hh
  f2 := fun h hh => by
    obtain ⟨hE, t', h2⟩ := H.f2 h hh
    refine ⟨hE, t', ?_⟩
    by_cases ht : t' = t
    · subst ht
      simp only [Function.update_self]
      exact (hf h).2 h2
    · simp only [Function.update_of_ne ht]
      exact h2
  n1 := fun h hh => ⟨(H.n1 h hh).1, hn h hh⟩
  e1 := fun t' h task hh => by
    by_cases ht : t' = t
    · subst ht
      simp only [Function.update_self] at hh
      exact he h task hh
    · simp only [Function.update_of_ne ht] at hh
      exact ⟨hhd h (H.e1 _ h task hh).1, (H.e1 _ h task hh).2⟩
  l1 := fun t' h c hh => by
    by_cases ht : t' = t
    · subst ht
      simp only [Function.update_self] at hh
      exact hl h c hh
    · simp only [Function.update_of_ne ht] at hh
      exact hhd h (H.l1 _ h c hh)

theorem lt_next (H : LockInv E s) {t h : Nat} (hm : (s.phase t).hasMutex h) : h < s.next := by
  by_contra hc
  have := H.m1 t h hm
  rw [(H.n1 h (by omega)).1] at this
  cases this

theorem settled_some (H : LockInv E s) {t h : Nat} (hm : (s.phase t).hasMutex h) (r : Res (LiteObj × Spec.Out)) :
    (∀ h', (s.handle h').isSome → (ThreadEnv.settled s h r h').isSome) ∧ (∀ h', s.next ≤ h' → ThreadEnv.settled s h r h' = none) := by
  cases r with
  | error e => exact ⟨fun _ h => h, fun h' hh => (H.n1 h' hh).2⟩
  | ok q =>
    refine ⟨fun h' hh => ?_, fun h' hh => ?_⟩
    · simp only [ThreadEnv.settled]
      by_cases e : h' = h
      · subst e; simp
      · simp only [Function.update_of_ne e]; exact hh
    · simp only [ThreadEnv.settled]
      have : h' ≠ h := by
        have := H.lt_next hm
        omega
      simp only [Function.update_of_ne this]
      exact (H.n1 h' hh).2

theorem tstep (H : LockInv E s) {s' : Threads} {t : Nat} {ev : Option Spec.Event} (h : ThreadStep E s t s' ev) : LockInv E s' := by
  cases h with
  | invoke hp hh =>
    refine H.relabel (st := s.st) (hd := s.handle) (by simp [hp, Phase.hasMutex]) (by simp [hp, Phase.hasFlock]) (fun _ h => h) (fun h hh => (H.n1 h hh).2) ?_
      (by simp)
    rintro h task ⟨⟩
    exact ⟨hh, by simp⟩
  | ret hp =>
    exact H.relabel (st := s.st) (hd := s.handle) (by simp [hp, Phase.hasMutex]) (by simp [hp, Phase.hasFlock]) (fun _ h => h) (fun h hh => (H.n1 h hh).2)
      (by simp) (by simp)
  | refuse hp hE =>
    exact H.relabel (st := s.st) (hd := s.handle) (by simp [hp, Phase.hasMutex]) (by simp [hp, Phase.hasFlock]) (fun _ h => h) (fun h hh => (H.n1 h hh).2)
      (by simp) (by simp)
  | silent hp =>
    exact H.relabel (hd := s.handle) (by simp [hp, Phase.hasMutex]) (by simp [hp, Phase.hasFlock]) (fun _ h => h) (fun h hh => (H.n1 h hh).2)
      (by simp) (by simp)
  | sys hp =>
    exact H.relabel (hd := s.handle) (by simp [hp, Phase.hasMutex]) (by simp [hp, Phase.hasFlock]) (fun _ h => h) (fun h hh => (H.n1 h hh).2)
      (by simp) (by simp)
  | fault hp hE =>
    exact H.relabel (hd := s.handle) (by simp [hp, Phase.hasMutex]) (by simp [hp, Phase.hasFlock]) (fun _ h => h) (fun h hh => (H.n1 h hh).2)
      (by simp) (by simp)
  | @done hd task r hp =>
    obtain ⟨h1, h2⟩ := H.settled_some (t := t) (h := hd) (by rw [hp]; rfl) r
    exact H.relabel (st := s.st) (by simp [hp, Phase.hasMutex]) (by simp [hp, Phase.hasFlock]) h1 h2 (by simp) (by simp)
  | invokeOpen hp =>
    have hfree := H.n1 s.next (Nat.le_refl _)
    constructor
    · intro t' h hh
      by_cases ht : t' = t
      · subst ht
        simp only [Function.update_self, Phase.hasMutex] at hh
        subst hh
        simp
      · simp only [Function.update_of_ne ht] at hh
        have h1 := H.m1 _ h hh
        have : h ≠ s.next := fun e => by subst e; rw [hfree.1] at h1; cases h1
        simp only [Function.update_of_ne this]
        exact h1
    · intro h t' hh
      by_cases he : h = s.next
      · subst he
        simp only [Function.update_self, Option.some.injEq] at hh
        subst hh
        simp [Phase.hasMutex]
      · simp only [Function.update_of_ne he] at hh
        have h1 := H.m2 h _ hh
        have : t' ≠ t := fun e => by subst e; rw [hp] at h1; exact h1
        simp only [Function.update_of_ne this]
        exact h1
    · intro hE t' h hh
      by_cases ht : t' = t
      · subst ht
        simp only [Function.update_self, Phase.hasFlock] at hh
      · simp only [Function.update_of_ne ht] at hh
        exact H.f1 hE _ h hh
    · intro h hh
      obtain ⟨hE, t', h1⟩ := H.f2 h hh
      refine ⟨hE, t', ?_⟩
      have : t' ≠ t := fun e => by subst e; rw [hp] at h1; exact h1
      simp only [Function.update_of_ne this]
      exact h1
    · intro h hh
      have hh : s.next + 1 ≤ h := hh
      have : h ≠ s.next := by omega
      simp only [Function.update_of_ne this]
      exact H.n1 h (by omega)
    · intro t' h task hh
      by_cases ht : t' = t
      · subst ht
        simp at hh
      · simp only [Function.update_of_ne ht] at hh
        exact H.e1 _ h task hh
    · intro t' h c hh
      by_cases ht : t' = t
      · subst ht
        simp at hh
      · simp only [Function.update_of_ne ht] at hh
        exact H.l1 _ h c hh
  | @enter hd task hp hm =>
    constructor
    · intro t' h hh
      by_cases ht : t' = t
      · subst ht
        simp only [Function.update_self, Phase.hasMutex] at hh
        subst hh
        simp
      · simp only [Function.update_of_ne ht] at hh
        have h1 := H.m1 _ h hh
        have : h ≠ hd := fun e => by subst e; rw [hm] at h1; cases h1
        simp only [Function.update_of_ne this]
        exact h1
    · intro h t' hh
      by_cases he : h = hd
      · subst he
        simp only [Function.update_self, Option.some.injEq] at hh
        subst hh
        simp [Phase.hasMutex]
      · simp only [Function.update_of_ne he] at hh
        have h1 := H.m2 h _ hh
        have : t' ≠ t := fun e => by subst e; rw [hp] at h1; exact h1
        simp only [Function.update_of_ne this]
        exact h1
    · intro hE t' h hh
      by_cases ht : t' = t
      · subst ht
        simp only [Function.update_self, Phase.hasFlock] at hh
      · simp only [Function.update_of_ne ht] at hh
        exact H.f1 hE _ h hh
    · intro h hh
      obtain ⟨hE, t', h1⟩ := H.f2 h hh
      refine ⟨hE, t', ?_⟩
      have : t' ≠ t := fun e => by subst e; rw [hp] at h1; exact h1
      simp only [Function.update_of_ne this]
      exact h1
    · intro h hh
      have h1 := H.e1 _ _ _ hp
      have : h ≠ hd := fun e => by
        subst e
        rw [(H.n1 h hh).2] at h1
        simp at h1
      simp only [Function.update_of_ne this]
      exact H.n1 h hh
    · intro t' h task hh
      by_cases ht : t' = t
      · subst ht
        simp at hh
      · simp only [Function.update_of_ne ht] at hh
        exact H.e1 _ h task hh
    · intro t' h c hh
      by_cases ht : t' = t
      · subst ht
        simp only [Function.update_self, Phase.locking.injEq] at hh
        obtain ⟨rfl, rfl⟩ := hh
        exact (H.e1 _ _ _ hp).1
      · simp only [Function.update_of_ne ht] at hh
        exact H.l1 _ h c hh
  | @lock hd task p hp hm hb =>
    constructor
    · intro t' h hh
      by_cases ht : t' = t
      · subst ht
        simp only [Function.update_self, Phase.hasMutex] at hh
        exact H.m1 _ h (by rw [hp]; exact hh)
      · simp only [Function.update_of_ne ht] at hh
        exact H.m1 _ h hh
    · intro h t' hh
      have h1 := H.m2 h _ hh
      by_cases ht : t' = t
      · subst ht
        simp only [Function.update_self]
        rw [hp] at h1
        exact h1
      · simp only [Function.update_of_ne ht]
        exact h1
    · intro hE t' h hh
      simp only [hE, if_true]
      by_cases ht : t' = t
      · subst ht
        simp only [Function.update_self, Phase.hasFlock] at hh
        rw [hh]
      · simp only [Function.update_of_ne ht] at hh
        have h1 := H.f1 hE _ h hh
        rcases hm with hm | hm | hm
        · rw [hE] at hm; cases hm
        · rw [hm] at h1; cases h1
        · rw [hm] at h1; exact h1
    · intro h hh
      cases hE : E.flock with
      | false =>
        simp only [hE] at hh
        have := (H.f2 h (by simpa using hh)).1
        rw [hE] at this
        cases this
      | true =>
        simp only [hE, if_true, Option.some.injEq] at hh
        subst hh
        exact ⟨rfl, t, by simp [Phase.hasFlock]⟩
    · exact H.n1
    · intro t' h task hh
      by_cases ht : t' = t
      · subst ht
        simp at hh
      · simp only [Function.update_of_ne ht] at hh
        exact H.e1 _ h task hh
    · intro t' h c hh
      by_cases ht : t' = t
      · subst ht
        simp at hh
      · simp only [Function.update_of_ne ht] at hh
        exact H.l1 _ h c hh
  | @leave hd r hp =>
    constructor
    · intro t' h hh
      by_cases ht : t' = t
      · subst ht
        simp only [Function.update_self, Phase.hasMutex] at hh
        exact H.m1 _ h (by rw [hp]; exact hh)
      · simp only [Function.update_of_ne ht] at hh
        exact H.m1 _ h hh
    · intro h t' hh
      have h1 := H.m2 h _ hh
      by_cases ht : t' = t
      · subst ht
        simp only [Function.update_self]
        rw [hp] at h1
        exact h1
      · simp only [Function.update_of_ne ht]
        exact h1
    · intro hE t' h hh
      have ho := H.f1 hE t hd (by rw [hp]; rfl)
      by_cases ht : t' = t
      · subst ht
        simp only [Function.update_self, Phase.hasFlock] at hh
      · simp only [Function.update_of_ne ht] at hh
        have h1 := H.f1 hE _ h hh
        rw [ho] at h1
        cases h1
        have h2 := H.m1 _ _ hh.mutex
        have h3 := H.m1 t hd (by rw [hp]; rfl)
        rw [h2] at h3
        cases h3
        exact absurd rfl ht
    · intro h hh
      by_cases hc : E.flock = true ∧ s.flock = some hd
      · simp [hc] at hh
      · simp only [if_neg hc] at hh
        obtain ⟨hE, t', h1⟩ := H.f2 h hh
        refine absurd ⟨hE, ?_⟩ hc
        exact H.f1 hE t hd (by rw [hp]; rfl)
    · exact H.n1
    · intro t' h task hh
      by_cases ht : t' = t
      · subst ht
        simp at hh
      · simp only [Function.update_of_ne ht] at hh
        exact H.e1 _ h task hh
    · intro t' h c hh
      by_cases ht : t' = t
      · subst ht
        simp at hh
      · simp only [Function.update_of_ne ht] at hh
        exact H.l1 _ h c hh
  | @unlock hd r hp =>
    have hme := H.m1 t hd (by rw [hp]; rfl)
    constructor
    · intro t' h hh
      by_cases ht : t' = t
      · subst ht
        simp only [Function.update_self, Phase.hasMutex] at hh
      · simp only [Function.update_of_ne ht] at hh
        have h1 := H.m1 _ h hh
        have : h ≠ hd := fun e => by subst e; rw [hme] at h1; cases h1; exact ht rfl
        simp only [Function.update_of_ne this]
        exact h1
    · intro h t' hh
      by_cases he : h = hd
      · subst he
        simp at hh
      · simp only [Function.update_of_ne he] at hh
        have h1 := H.m2 h _ hh
        have : t' ≠ t := fun e => by subst e; rw [hp] at h1; exact he h1.symm
        simp only [Function.update_of_ne this]
        exact h1
    · intro hE t' h hh
      by_cases ht : t' = t
      · subst ht
        simp only [Function.update_self, Phase.hasFlock] at hh
      · simp only [Function.update_of_ne ht] at hh
        exact H.f1 hE _ h hh
    · intro h hh
      obtain ⟨hE, t', h1⟩ := H.f2 h hh
      refine ⟨hE, t', ?_⟩
      have : t' ≠ t := fun e => by subst e; rw [hp] at h1; exact h1
      simp only [Function.update_of_ne this]
      exact h1
    · intro h hh
      refine ⟨?_, (H.n1 h hh).2⟩
      by_cases e : h = hd
      · subst e; simp
      · simp only [Function.update_of_ne e]; exact (H.n1 h hh).1
    · intro t' h task hh
      by_cases ht : t' = t
      · subst ht
        simp at hh
      · simp only [Function.update_of_ne ht] at hh
        exact H.e1 _ h task hh
    · intro t' h c hh
      by_cases ht : t' = t
      · subst ht
        simp at hh
      · simp only [Function.update_of_ne ht] at hh
        exact H.l1 _ h c hh

theorem exec (H : LockInv E s) : ∀ {sched : List (Nat × Choice)} {s' : Threads} {evs : List Spec.Event}, E.exec s sched = some (s', evs) → LockInv E s' := by
  intro sched
  induction sched generalizing s with
  | nil => intro s' evs h; cases h; exact H
  | cons a rest ih =>
    intro s' evs h
    obtain ⟨t, c⟩ := a
    simp only [ThreadEnv.exec] at h
    cases h1 : E.step s t c with
    | none => simp [h1] at h
    | some q =>
      obtain ⟨s1, ev⟩ := q
      simp only [h1] at h
      cases h2 : E.exec s1 rest with
      | none => simp [h2] at h
      | some q2 =>
        obtain ⟨s2, ev2⟩ := q2
        simp only [h2, Option.some.injEq, Prod.mk.injEq] at h
        obtain ⟨rfl, rfl⟩ := h
        exact ih (H.tstep (ThreadEnv.step_sound h1)) h2

end LockInv

end Securefs
