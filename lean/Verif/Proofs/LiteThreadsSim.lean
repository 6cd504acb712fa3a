import Verif.Proofs.LiteThreadsLock
/-! Threads on one lite file are threads on a shared object. -/

namespace Securefs
open Spec (Shared Task Event InCall)

/-- The program of a task, on the object that all handles have. -/
def ThreadEnv.prog (E : ThreadEnv) (ob : Option LiteObj) : Task → Option (SysProg LiteSt (LiteObj × Spec.Out))
  | .open => some (E.C.openP.bind fun o => .ret (o, .done))
  | .call c => ob.map fun o => ((E.C.progDev o).call c).bind fun out => .ret (o, out)

/-- The object that all handles have after a body. -/
def afterBody (ob : Option LiteObj) : Res (LiteObj × Spec.Out) → Option LiteObj
  | .ok q => some q.1
  | .error _ => ob

/-- What is needed of a representation of a shared object in a file: bodies that run alone do what the object does. -/
structure ThreadRepr (E : ThreadEnv) {φ : Type} (act : φ → Task → Bool → Except Err Spec.Out → φ → Prop) (okT : Task → Prop)
    (Base : LiteSt → Option LiteObj → φ → Prop) : Prop where
  ok : ∀ {st ob f task p}, Base st ob f → okT task → E.prog ob task = some p → ∀ {r st'}, p.toFIO ⟨st, []⟩ = (r, ⟨st', []⟩) →
    ∃ f', act f task false (r.map Prod.snd) f' ∧ Base st' (afterBody ob r) f' ∧ ∀ o, ob = some o → afterBody ob r = some o
  fault : ∀ {st ob f task p}, E.faults = true → Base st ob f → okT task → E.prog ob task = some p → ∀ {n x r st'},
    p.toFIO ⟨st, List.replicate n none ++ [some x]⟩ = (.error r, ⟨st', []⟩) → ∃ f', act f task true (.error r) f' ∧ Base st' ob f'
  refuse : ∀ {st ob f task e}, Base st ob f → okT task → ∃ f', act f task true (.error e) f' ∧ Base st ob f'

/-- What the user sees of a thread. -/
def Phase.seen (okT : Task → Prop) : Phase → InCall → Prop
  | .idle, q => q = .none
  | .entering _ task, q | .locking _ task, q | .running _ task _, q => okT task ∧ q = .waiting task false
  | .leaving _ r, q | .unlocking _ r, q | .returning r, q => q = .acted r

/-- The file, possibly in the middle of a body. -/
def FileMid (E : ThreadEnv) {φ : Type} (Base : LiteSt → Option LiteObj → φ → Prop) (s : Threads) (ob : Option LiteObj) (f : φ) : Prop :=
  ((∀ t h task p, s.phase t ≠ .running h task p) ∧ Base s.st ob f) ∨
  ∃ t h task p, s.phase t = .running h task p ∧ (∀ t' h' task' p', s.phase t' = .running h' task' p' → t' = t) ∧
    ∃ st0 p0 n, Base st0 ob f ∧ E.prog ob task = some p0 ∧
      (∀ rest, p0.toFIO ⟨st0, List.replicate n none ++ rest⟩ = p.toFIO ⟨s.st, rest⟩) ∧ p0.toFIO ⟨st0, []⟩ = p.toFIO ⟨s.st, []⟩

/-- The threads simulate the shared object. -/
structure ThreadSim (E : ThreadEnv) {φ : Type} (okT : Task → Prop) (Base : LiteSt → Option LiteObj → φ → Prop) (s : Threads) (S : Shared φ) : Prop where
  lock : LockInv E s
  seen : ∀ t, (s.phase t).seen okT (S.pending t)
  mid : ∃ ob, (∀ h o, s.handle h = some o → ob = some o) ∧ FileMid E Base s ob S.obj

theorem ThreadEnv.exec_cons {E : ThreadEnv} {s s' : Threads} {t : Nat} {c : Choice} {rest : List (Nat × Choice)} {evs : List Event}
    (h : E.exec s ((t, c) :: rest) = some (s', evs)) :
    ∃ s1 ev evs1, E.step s t c = some (s1, ev) ∧ E.exec s1 rest = some (s', evs1) ∧ evs = ev.toList ++ evs1 := by
  simp only [ThreadEnv.exec] at h
  cases h1 : E.step s t c with
  | none => simp [h1] at h
  | some q =>
    obtain ⟨s1, ev⟩ := q
    simp only [h1] at h
    cases h2 : E.exec s1 rest with
    | none => simp [h2] at h
    | some q2 =>
      obtain ⟨s2, ev2⟩ := q2
      simp only [h2, Option.some.injEq, Prod.mk.injEq] at h
      obtain ⟨rfl, rfl⟩ := h
      exact ⟨s1, ev, ev2, rfl, h2, rfl⟩

theorem ThreadStep.next_le {E : ThreadEnv} {s s' : Threads} {t : Nat} {ev : Option Event} (h : ThreadStep E s t s' ev) : s.next ≤ s'.next := by
  cases h <;> first | exact Nat.le_refl _ | exact Nat.le_succ _

theorem ThreadEnv.exec_next {E : ThreadEnv} : ∀ {sched : List (Nat × Choice)} {s s' : Threads} {evs : List Event},
    E.exec s sched = some (s', evs) → s.next ≤ s'.next := by
  intro sched
  induction sched with
  | nil => intro s s' evs h; cases h; exact Nat.le_refl _
  | cons a rest ih =>
    intro s s' evs h
    obtain ⟨s1, ev, evs1, h1, h2, _⟩ := ThreadEnv.exec_cons (t := a.1) (c := a.2) h
    exact Nat.le_trans (ThreadEnv.step_sound h1).next_le (ih h2)

section
variable {E : ThreadEnv} {φ : Type} {act : φ → Task → Bool → Except Err Spec.Out → φ → Prop} {okT : Task → Prop}
  {Base : LiteSt → Option LiteObj → φ → Prop} {s s' : Threads} {S : Shared φ}

theorem ThreadSim.alone (H : ThreadSim E okT Base s S) (hx : E.flock = true ∨ s.next ≤ 1) {t t' h h' : Nat} (h1 : (s.phase t).hasFlock h)
    (h2 : (s.phase t').hasFlock h') : t' = t := by
  have e : h' = h := by
    rcases hx with hx | hx
    · have a := H.lock.f1 hx _ _ h1
      have b := H.lock.f1 hx _ _ h2
      rw [a] at b
      cases b
      rfl
    · have a := H.lock.lt_next h1.mutex
      have b := H.lock.lt_next h2.mutex
      omega
  subst e
  have a := H.lock.m1 _ _ h1.mutex
  have b := H.lock.m1 _ _ h2.mutex
  rw [a] at b
  cases b
  rfl

theorem seen_update {p : Phase} {q : InCall} (h : ∀ t, (s.phase t).seen okT (S.pending t)) {t : Nat} (hp : p.seen okT q) :
    ∀ t', (Function.update s.phase t p t').seen okT (Function.update S.pending t q t') := by
  intro t'
  by_cases e : t' = t
  · subst e; simpa using hp
  · simp only [Function.update_of_ne e]; exact h t'

theorem seen_keep {p : Phase} (h : ∀ t, (s.phase t).seen okT (S.pending t)) {t : Nat} (hp : p.seen okT (S.pending t)) :
    ∀ t', (Function.update s.phase t p t').seen okT (S.pending t') := by
  intro t'
  by_cases e : t' = t
  · subst e; simpa using hp
  · simp only [Function.update_of_ne e]; exact h t'

/-- A step of a thread that is in no body before and after does not concern the file. -/
theorem FileMid.relabel {ob : Option LiteObj} {f : φ} (h : FileMid E Base s ob f) {t : Nat} {p : Phase} (h1 : ∀ h task q, s.phase t ≠ .running h task q)
    (h2 : ∀ h task q, p ≠ .running h task q) (he : s'.phase = Function.update s.phase t p) (hst : s'.st = s.st) : FileMid E Base s' ob f := by
  rcases h with ⟨ha, hb⟩ | ⟨t0, hd, task, q, ha, hu, hb⟩
  · refine .inl ⟨fun t' h task q => ?_, hst ▸ hb⟩
    rw [he]
    by_cases e : t' = t
    · subst e; simp only [Function.update_self]; exact h2 h task q
    · simp only [Function.update_of_ne e]; exact ha t' h task q
  · have e : t0 ≠ t := fun e => by subst e; exact h1 _ _ _ ha
    refine .inr ⟨t0, hd, task, q, ?_, ?_, ?_⟩
    · rw [he, Function.update_of_ne e]; exact ha
    · intro t' h' task' p' h'
      rw [he] at h'
      by_cases e' : t' = t
      · subst e'
        simp only [Function.update_self] at h'
        exact absurd h' (h2 _ _ _)
      · simp only [Function.update_of_ne e'] at h'
        exact hu _ _ _ _ h'
    · rw [hst]; exact hb

theorem Spec.Shared.Run.one {S S' : Shared φ} {ev : Option Event} (h : Shared.Step act S ev S') : Shared.Run act S ev.toList S' := by
  have := Shared.Run.cons h (.nil S')
  simpa using this

theorem Spec.Shared.Run.append {S S1 S' : Shared φ} {l1 l2 : List Event} (h1 : Shared.Run act S l1 S1) (h2 : Shared.Run act S1 l2 S') :
    Shared.Run act S (l1 ++ l2) S' := by
  induction h1 with
  | nil => exact h2
  | cons h _ ih =>
    rw [List.append_assoc]
    exact .cons h (ih h2)

theorem twoSteps {t : Nat} {task : Task} {r : Except Err Spec.Out} {f' : φ} (h : S.pending t = .waiting task false) (ha : act S.obj task true r f') :
    Shared.Run act S (some (Event.hit t)).toList ⟨f', Function.update S.pending t (.acted r)⟩ := by
  have h1 : Shared.Step act S (some (.hit t)) ⟨S.obj, Function.update S.pending t (.waiting task true)⟩ := .hit h
  have h2 : Shared.Step act ⟨S.obj, Function.update S.pending t (.waiting task true)⟩ none ⟨f', Function.update (Function.update S.pending t (.waiting task true)) t (.acted r)⟩ :=
    .act (s := ⟨S.obj, Function.update S.pending t (.waiting task true)⟩) (by simp) ha
  rw [Function.update_idem] at h2
  exact (Shared.Run.one h1).append (Shared.Run.one h2)

theorem FileMid.own {ob : Option LiteObj} {f : φ} (h : FileMid E Base s ob f) {t hd : Nat} {task : Task} {p : SysProg LiteSt (LiteObj × Spec.Out)}
    (hp : s.phase t = .running hd task p) : (∀ t' h' task' p', s.phase t' = .running h' task' p' → t' = t) ∧
    ∃ st0 p0 n, Base st0 ob f ∧ E.prog ob task = some p0 ∧
      (∀ rest, p0.toFIO ⟨st0, List.replicate n none ++ rest⟩ = p.toFIO ⟨s.st, rest⟩) ∧ p0.toFIO ⟨st0, []⟩ = p.toFIO ⟨s.st, []⟩ := by
  rcases h with ⟨ha, _⟩ | ⟨t0, hd0, task0, q, ha, hu, hb⟩
  · exact absurd hp (ha _ _ _ _)
  · have e := hu _ _ _ _ hp
    subst e
    rw [hp] at ha
    cases ha
    exact ⟨hu, hb⟩

theorem only_me {t : Nat} {p : Phase} (hu : ∀ t' h' task' p', s.phase t' = .running h' task' p' → t' = t) :
    ∀ t' h' task' p', Function.update s.phase t p t' = .running h' task' p' → t' = t := by
  intro t' h' task' p' e
  by_contra hc
  rw [Function.update_of_ne hc] at e
  exact hc (hu _ _ _ _ e)

theorem none_left {t : Nat} {p : Phase} (hu : ∀ t' h' task' p', s.phase t' = .running h' task' p' → t' = t) (hp : ∀ h task q, p ≠ .running h task q) :
    ∀ t' h' task' p', Function.update s.phase t p t' ≠ .running h' task' p' := by
  intro t' h' task' p' e
  by_cases hc : t' = t
  · subst hc
    rw [Function.update_self] at e
    exact hp _ _ _ e
  · rw [Function.update_of_ne hc] at e
    exact hc (hu _ _ _ _ e)

theorem ThreadSim.step (R : ThreadRepr E act okT Base) (H : ThreadSim E okT Base s S) (hx : E.flock = true ∨ s.next ≤ 1) {t : Nat} {ev : Option Event}
    (h : ThreadStep E s t s' ev) (hok : ∀ t task, ev = some (.invoke t task) → okT task) :
    ∃ S', Shared.Run act S ev.toList S' ∧ ThreadSim E okT Base s' S' := by
  have hL := H.lock.tstep h
  obtain ⟨ob, hob, hmid⟩ := H.mid
  have hseen := H.seen t
  cases h with
  | @invoke hd c hp hh =>
    rw [hp] at hseen
    refine ⟨_, Shared.Run.one (.invoke hseen), hL, seen_update H.seen ⟨hok _ _ rfl, rfl⟩, ob, hob, ?_⟩
    exact hmid.relabel (t := t) (by simp [hp]) (by simp) rfl rfl
  | invokeOpen hp =>
    rw [hp] at hseen
    refine ⟨_, Shared.Run.one (.invoke hseen), hL, seen_update H.seen ⟨hok _ _ rfl, rfl⟩, ob, hob, ?_⟩
    exact hmid.relabel (t := t) (by simp [hp]) (by simp) rfl rfl
  | @enter hd task hp hm =>
    rw [hp] at hseen
    refine ⟨S, .nil S, hL, seen_keep H.seen hseen, ob, hob, ?_⟩
    exact hmid.relabel (t := t) (by simp [hp]) (by simp) rfl rfl
  | @unlock hd r hp =>
    rw [hp] at hseen
    refine ⟨S, .nil S, hL, seen_keep H.seen hseen, ob, hob, ?_⟩
    exact hmid.relabel (t := t) (by simp [hp]) (by simp) rfl rfl
  | @leave hd r hp =>
    rw [hp] at hseen
    refine ⟨S, .nil S, hL, seen_keep H.seen hseen, ob, hob, ?_⟩
    exact hmid.relabel (t := t) (by simp [hp]) (by simp) rfl rfl
  | @ret r hp =>
    rw [hp] at hseen
    refine ⟨_, Shared.Run.one (.ret hseen), hL, seen_update H.seen rfl, ob, hob, ?_⟩
    exact hmid.relabel (t := t) (by simp [hp]) (by simp) rfl rfl
  | @refuse hd task x hp hE =>
    rw [hp] at hseen
    have key : ∃ f', act S.obj task true (.error (.vfs x.errno)) f' ∧ FileMid E Base s ob f' := by
      rcases hmid with ⟨ha, hb⟩ | ⟨t0, hd0, task0, q, ha, hu, st0, p0, n, hb, hrest⟩
      · obtain ⟨f', h1, h2⟩ := R.refuse hb hseen.1
        exact ⟨f', h1, .inl ⟨ha, h2⟩⟩
      · obtain ⟨f', h1, h2⟩ := R.refuse hb hseen.1
        exact ⟨f', h1, .inr ⟨t0, hd0, task0, q, ha, hu, st0, p0, n, h2, hrest⟩⟩
    obtain ⟨f', h1, h2⟩ := key
    refine ⟨_, twoSteps hseen.2 h1, hL, seen_update H.seen rfl, ob, hob, ?_⟩
    exact h2.relabel (t := t) (by simp [hp]) (by simp) rfl rfl
  | @lock hd task p hp hm hb =>
    rw [hp] at hseen
    refine ⟨S, .nil S, hL, seen_keep H.seen hseen, ob, hob, ?_⟩
    have hnone : ∀ t' h' task' p', s.phase t' ≠ .running h' task' p' := by
      intro t' h' task' p' e
      have hh : (s.phase t').hasFlock h' := by rw [e]; rfl
      have e2 : h' = hd := by
        rcases hx with hx | hx
        · have a := H.lock.f1 hx _ _ hh
          rcases hm with hm | hm | hm
          · rw [hx] at hm; cases hm
          · rw [hm] at a; cases a
          · rw [hm] at a; cases a; rfl
        · have a := H.lock.lt_next hh.mutex
          have b := H.lock.lt_next (t := t) (h := hd) (by rw [hp]; rfl)
          omega
      subst e2
      have a := H.lock.m1 _ _ hh.mutex
      have b := H.lock.m1 t h' (by rw [hp]; rfl)
      rw [a] at b
      cases b
      rw [hp] at e
      cases e
    rcases hmid with ⟨_, hbase⟩ | ⟨t0, hd0, task0, q, ha, _⟩
    · refine .inr ⟨t, hd, task, p, by simp, ?_, s.st, p, 0, hbase, ?_, fun _ => rfl, rfl⟩
      · intro t' h' task' p' e
        by_contra hc
        simp only [Function.update_of_ne hc] at e
        exact hnone _ _ _ _ e
      · cases task with
        | «open» => exact hb
        | call c =>
          obtain ⟨o, ho⟩ := Option.isSome_iff_exists.1 (H.lock.l1 t hd c hp)
          simp only [ThreadEnv.body, ho] at hb
          simp only [ThreadEnv.prog, hob hd o ho]
          exact hb
    · exact absurd ha (hnone _ _ _ _)
  | @silent hd task u k hp =>
    rw [hp] at hseen
    refine ⟨S, .nil S, hL, seen_keep H.seen hseen, ob, hob, ?_⟩
    obtain ⟨hu, st0, p0, n, h1, h2, h3, h4⟩ := hmid.own hp
    refine .inr ⟨t, hd, task, _, by simp, only_me hu, st0, p0, n, h1, h2, h3, h4⟩
  | @sys hd task w f k hp =>
    rw [hp] at hseen
    refine ⟨S, .nil S, hL, seen_keep H.seen hseen, ob, hob, ?_⟩
    obtain ⟨hu, st0, p0, n, h1, h2, h3, h4⟩ := hmid.own hp
    refine .inr ⟨t, hd, task, _, by simp, only_me hu, st0, p0, n + 1, h1, h2, fun rest => ?_, h4⟩
    rw [List.replicate_succ', List.append_assoc]
    exact h3 (none :: rest)
  | @fault hd task w f k x hp hE =>
    rw [hp] at hseen
    obtain ⟨hu, st0, p0, n, h1, h2, h3, h4⟩ := hmid.own hp
    obtain ⟨f', h5, h6⟩ := R.fault hE h1 hseen.1 h2 (h3 [some x])
    refine ⟨_, twoSteps hseen.2 h5, hL, seen_update H.seen rfl, ob, hob, .inl ⟨?_, h6⟩⟩
    exact none_left hu (by simp)
  | @done hd task r hp =>
    rw [hp] at hseen
    obtain ⟨hu, st0, p0, n, h1, h2, h3, h4⟩ := hmid.own hp
    obtain ⟨f', h5, h6, h7⟩ := R.ok h1 hseen.1 h2 h4
    refine ⟨_, Shared.Run.one (.act hseen.2 h5), hL, seen_update H.seen rfl, _, ?_, .inl ⟨?_, h6⟩⟩
    · intro h o ho
      cases r with
      | error e => exact hob h o ho
      | ok q =>
        simp only [ThreadEnv.settled] at ho
        by_cases e : h = hd
        · subst e
          simp only [Function.update_self] at ho
          exact ho
        · simp only [Function.update_of_ne e] at ho
          exact h7 o (hob h o ho)
    · exact none_left hu (by simp)

theorem ThreadSim.exec (R : ThreadRepr E act okT Base) : ∀ {sched : List (Nat × Choice)} {s : Threads} {S : Shared φ} {s' : Threads} {evs : List Event},
    ThreadSim E okT Base s S → E.exec s sched = some (s', evs) → (E.flock = true ∨ s'.next ≤ 1) → (∀ t task, .invoke t task ∈ evs → okT task) →
    ∃ S', Shared.Run act S evs S' ∧ ThreadSim E okT Base s' S' := by
  intro sched
  induction sched with
  | nil => intro s S s' evs H h _ _; cases h; exact ⟨S, .nil S, H⟩
  | cons a rest ih =>
    intro s S s' evs H h hx hok
    obtain ⟨t, c⟩ := a
    obtain ⟨s1, ev, evs1, h1, h2, rfl⟩ := ThreadEnv.exec_cons h
    have hle := ThreadEnv.exec_next h2
    have hle1 := (ThreadEnv.step_sound h1).next_le
    obtain ⟨S1, h3, H1⟩ := H.step R (hx.imp_right fun h => by omega) (ThreadEnv.step_sound h1) (fun t task e => hok t task (by simp [e]))
    obtain ⟨S2, h4, H2⟩ := ih H1 h2 hx (fun t task e => hok t task (by simp [e]))
    exact ⟨S2, h3.append h4, H2⟩

end

end Securefs
