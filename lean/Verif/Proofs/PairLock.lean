import Verif.Spec.PairLock
/-!
# Lemmas about locking one or two files
-/

namespace Securefs

open Spec

/-- The files a thread has locked. -/
def GuardPc.held : GuardPc → List Nat
  | .try2 a _ => [a]
  | .back2 a _ => [a]
  | .holding fs => fs
  | _ => []

/-- The two files of a pair differ. -/
def GuardPc.Apart : GuardPc → Prop
  | .want2 a b | .try2 a b | .back2 a b => a ≠ b
  | _ => True

namespace GuardSys

/-- The owners are the threads that have locked. -/
structure Inv (s : GuardSys) : Prop where
  owner : ∀ t f, s.owner f = some t ↔ f ∈ (s.pc t).held
  nodup : ∀ t, (s.pc t).held.Nodup
  apart : ∀ t, (s.pc t).Apart

theorem inv_init : init.Inv where
  owner t f := ⟨nofun, nofun⟩
  nodup t := List.nodup_nil
  apart t := trivial

theorem pc_setPc_self (s : GuardSys) (t : Nat) (pc : GuardPc) : (s.setPc t pc).pc t = pc := if_pos rfl

theorem pc_setPc_ne (s : GuardSys) {t u : Nat} (pc : GuardPc) (h : u ≠ t) : (s.setPc t pc).pc u = s.pc u := if_neg h

/-- A thread moves without touching a mutex. -/
theorem Inv.move {s : GuardSys} (h : s.Inv) (t : Nat) (pc : GuardPc) (hh : pc.held = (s.pc t).held) (ha : pc.Apart) : (s.setPc t pc).Inv where
  owner u f := by
    by_cases hu : u = t
    · subst hu; rw [pc_setPc_self, hh]; exact h.owner u f
    · rw [pc_setPc_ne s pc hu]; exact h.owner u f
  nodup u := by
    by_cases hu : u = t
    · subst hu; rw [pc_setPc_self, hh]; exact h.nodup u
    · rw [pc_setPc_ne s pc hu]; exact h.nodup u
  apart u := by
    by_cases hu : u = t
    · subst hu; rw [pc_setPc_self]; exact ha
    · rw [pc_setPc_ne s pc hu]; exact h.apart u

/-- A thread locks a mutex that is free. -/
theorem Inv.acquire {s : GuardSys} (h : s.Inv) (t f : Nat) (pc : GuardPc) (hfree : s.owner f = none) (hh : pc.held = f :: (s.pc t).held)
    (ha : pc.Apart) : ((s.setOwner f (some t)).setPc t pc).Inv where
  owner u g := by
    show (if g = f then some t else s.owner g) = some u ↔ _
    by_cases hu : u = t
    · subst hu
      rw [pc_setPc_self, hh, List.mem_cons]
      by_cases hg : g = f
      · subst hg; simp
      · rw [if_neg hg, h.owner u g]; simp [hg]
    · rw [pc_setPc_ne _ pc hu]
      show _ ↔ g ∈ (s.pc u).held
      rw [← h.owner u g]
      by_cases hg : g = f
      · subst hg
        rw [if_pos rfl, hfree]
        constructor
        · intro hx; injection hx with hx; exact absurd hx.symm hu
        · exact nofun
      · rw [if_neg hg]
  nodup u := by
    by_cases hu : u = t
    · subst hu
      rw [pc_setPc_self, hh, List.nodup_cons]
      refine ⟨fun hx => ?_, h.nodup u⟩
      rw [← h.owner u f, hfree] at hx
      cases hx
    · rw [pc_setPc_ne _ pc hu]; exact h.nodup u
  apart u := by
    by_cases hu : u = t
    · subst hu; rw [pc_setPc_self]; exact ha
    · rw [pc_setPc_ne _ pc hu]; exact h.apart u

/-- A thread unlocks a mutex. -/
theorem Inv.release {s : GuardSys} (h : s.Inv) (t f : Nat) (pc : GuardPc) (hh : (s.pc t).held = f :: pc.held)
    (ha : pc.Apart) : ((s.setOwner f none).setPc t pc).Inv where
  owner u g := by
    have hn := h.nodup t
    rw [hh, List.nodup_cons] at hn
    show (if g = f then none else s.owner g) = some u ↔ _
    by_cases hu : u = t
    · subst hu
      rw [pc_setPc_self]
      by_cases hg : g = f
      · subst hg
        rw [if_pos rfl]
        exact ⟨nofun, fun hx => absurd hx hn.1⟩
      · rw [if_neg hg, h.owner u g, hh]; simp [hg]
    · rw [pc_setPc_ne _ pc hu]
      show _ ↔ g ∈ (s.pc u).held
      by_cases hg : g = f
      · subst hg
        rw [if_pos rfl]
        refine ⟨nofun, fun hx => ?_⟩
        rw [← h.owner u g, (h.owner t g).mpr (by rw [hh]; exact List.mem_cons_self)] at hx
        injection hx with hx
        exact absurd hx.symm hu
      · rw [if_neg hg]; exact h.owner u g
  nodup u := by
    by_cases hu : u = t
    · subst hu
      have hn := h.nodup u
      rw [hh, List.nodup_cons] at hn
      rw [pc_setPc_self]
      exact hn.2
    · rw [pc_setPc_ne _ pc hu]; exact h.nodup u
  apart u := by
    by_cases hu : u = t
    · subst hu; rw [pc_setPc_self]; exact ha
    · rw [pc_setPc_ne _ pc hu]; exact h.apart u

theorem Inv.start {s : GuardSys} (h : s.Inv) (t : Nat) (g : Guard) : (s.start t g).Inv := by
  unfold GuardSys.start
  cases hpc : s.pc t with
  | idle =>
    dsimp only
    cases g with
    | one f => exact h.move t _ (by rw [hpc]; rfl) trivial
    | spin f => exact h.move t _ (by rw [hpc]; rfl) trivial
    | two f g =>
      dsimp only
      split
      · exact h.move t _ (by rw [hpc]; rfl) trivial
      · rename_i hne
        exact h.move t _ (by rw [hpc]; rfl) hne
  | _ => exact h

theorem Inv.step {rotate : Bool} {s s' : GuardSys} {t : Nat} (h : s.Inv) (hs : s.step rotate t = some s') : s'.Inv := by
  unfold GuardSys.step at hs
  have ha := h.apart t
  cases hpc : s.pc t with
  | idle => rw [hpc] at hs; cases hs
  | want f =>
    rw [hpc] at hs
    dsimp only at hs
    cases ho : s.owner f with
    | none => rw [ho] at hs; injection hs with hs; subst hs; exact h.acquire t f _ ho (by rw [hpc]; rfl) trivial
    | some u => rw [ho] at hs; cases hs
  | spinning f left =>
    rw [hpc] at hs
    dsimp only at hs
    cases left with
    | zero => injection hs with hs; subst hs; exact h.move t _ (by rw [hpc]; rfl) trivial
    | succ left =>
      dsimp only at hs
      cases ho : s.owner f with
      | none => rw [ho] at hs; injection hs with hs; subst hs; exact h.acquire t f _ ho (by rw [hpc]; rfl) trivial
      | some u => rw [ho] at hs; injection hs with hs; subst hs; exact h.move t _ (by rw [hpc]; rfl) trivial
  | want2 a b =>
    rw [hpc] at hs ha
    dsimp only at hs
    cases ho : s.owner a with
    | none => rw [ho] at hs; injection hs with hs; subst hs; exact h.acquire t a _ ho (by rw [hpc]; rfl) ha
    | some u => rw [ho] at hs; cases hs
  | try2 a b =>
    rw [hpc] at hs ha
    dsimp only at hs
    cases ho : s.owner b with
    | none => rw [ho] at hs; injection hs with hs; subst hs; exact h.acquire t b _ ho (by rw [hpc]; rfl) trivial
    | some u => rw [ho] at hs; injection hs with hs; subst hs; exact h.move t _ (by rw [hpc]; rfl) ha
  | back2 a b =>
    rw [hpc] at hs ha
    dsimp only at hs
    injection hs with hs
    subst hs
    cases rotate with
    | true => exact h.release t a _ (by rw [hpc]; rfl) (Ne.symm ha)
    | false => exact h.release t a _ (by rw [hpc]; rfl) ha
  | holding fs =>
    rw [hpc] at hs
    cases fs with
    | nil => injection hs with hs; subst hs; exact h.move t _ (by rw [hpc]; rfl) trivial
    | cons f rest => injection hs with hs; subst hs; exact h.release t f _ (by rw [hpc]; rfl) trivial

theorem Inv.apply {rotate : Bool} {s : GuardSys} (h : s.Inv) (ev : Ev) : (s.apply rotate ev).Inv := by
  cases ev with
  | start t g => exact h.start t g
  | step t =>
    show ((s.step rotate t).getD s).Inv
    cases hs : s.step rotate t with
    | none => exact h
    | some s' => exact h.step hs

theorem Inv.run {rotate : Bool} (evs : List Ev) : ∀ s : GuardSys, s.Inv → (s.run rotate evs).Inv := by
  induction evs with
  | nil => intro s h; exact h
  | cons ev rest ih => intro s h; exact ih _ (h.apply ev)

theorem run_append' (rotate : Bool) (s : GuardSys) (a b : List Ev) : s.run rotate (a ++ b) = (s.run rotate a).run rotate b := by
  unfold GuardSys.run; rw [List.foldl_append]

/-- A thread that has to wait has locked nothing, and waits for a mutex that is locked. -/
theorem waits_cases {rotate : Bool} {s : GuardSys} {t : Nat} (h : Waits rotate s t) :
    (s.pc t).held = [] ∧ ∃ f u, s.owner f = some u ∧ (s.pc t = .want f ∨ ∃ b, s.pc t = .want2 f b) := by
  obtain ⟨hb, hs⟩ := h
  unfold GuardSys.step at hs
  cases hpc : s.pc t with
  | idle => exact absurd hpc hb
  | want f =>
    rw [hpc] at hs
    dsimp only at hs
    cases ho : s.owner f with
    | none => rw [ho] at hs; cases hs
    | some u => exact ⟨rfl, f, u, ho, .inl rfl⟩
  | want2 a b =>
    rw [hpc] at hs
    dsimp only at hs
    cases ho : s.owner a with
    | none => rw [ho] at hs; cases hs
    | some u => exact ⟨rfl, a, u, ho, .inr ⟨b, rfl⟩⟩
  | spinning f left =>
    rw [hpc] at hs
    dsimp only at hs
    cases left with
    | zero => cases hs
    | succ left => cases ho : s.owner f <;> rw [ho] at hs <;> cases hs
  | try2 a b => rw [hpc] at hs; dsimp only at hs; cases ho : s.owner b <;> rw [ho] at hs <;> cases hs
  | back2 a b => rw [hpc] at hs; cases hs
  | holding fs => rw [hpc] at hs; cases fs <;> cases hs

/-- An owner never waits. -/
theorem owner_moves {rotate : Bool} {s : GuardSys} (h : s.Inv) {f u : Nat} (ho : s.owner f = some u) : Busy s u ∧ ¬ Waits rotate s u := by
  have hm := (h.owner u f).mp ho
  refine ⟨fun hx => ?_, fun hw => ?_⟩
  · rw [hx] at hm; cases hm
  · rw [(waits_cases hw).1] at hm; cases hm

/-! ## Owners give up their mutexes -/

/-- The effect of a thread giving up everything it has locked. -/
structure Quiet (s s' : GuardSys) (u : Nat) : Prop where
  inv : s'.Inv
  pc : ∀ t, t ≠ u → s'.pc t = s.pc t
  owner : ∀ g, s'.owner g = if s.owner g = some u then none else s.owner g

theorem quiet_holding {rotate : Bool} (u : Nat) (fs : List Nat) : ∀ s : GuardSys, s.Inv → s.pc u = .holding fs →
    ∃ n, Quiet s (s.run rotate (List.replicate n (.step u))) u := by
  induction fs with
  | nil =>
    intro s h hpc
    refine ⟨0, h, fun _ _ => rfl, fun g => ?_⟩
    have : s.owner g ≠ some u := fun hx => by
      have := (h.owner u g).mp hx
      rw [hpc] at this
      cases this
    rw [if_neg this]
    rfl
  | cons f rest ih =>
    intro s h hpc
    have hs : s.step rotate u = some ((s.setOwner f none).setPc u (.holding rest)) := by unfold GuardSys.step; rw [hpc]
    have h' := h.step hs
    obtain ⟨n, hq⟩ := ih _ h' (pc_setPc_self _ _ _)
    have hrun : s.run rotate (List.replicate (n + 1) (.step u)) = ((s.setOwner f none).setPc u (.holding rest)).run rotate (List.replicate n (.step u)) := by
      show ((s.step rotate u).getD s).run rotate _ = _
      rw [hs]
      rfl
    refine ⟨n + 1, ?_⟩
    rw [hrun]
    refine ⟨hq.inv, fun t ht => ?_, fun g => ?_⟩
    · rw [hq.pc t ht, pc_setPc_ne _ _ ht]; rfl
    · rw [hq.owner g]
      show (if (if g = f then none else s.owner g) = some u then none else (if g = f then none else s.owner g)) = _
      by_cases hg : g = f
      · subst hg
        have : s.owner g = some u := (h.owner u g).mpr (by rw [hpc]; exact List.mem_cons_self)
        rw [if_pos rfl, if_neg nofun, if_pos this]
      · rw [if_neg hg]

theorem quiet {rotate : Bool} (u : Nat) (s : GuardSys) (h : s.Inv) : ∃ n, Quiet s (s.run rotate (List.replicate n (.step u))) u := by
  have hnone : (s.pc u).held = [] → ∃ n, Quiet s (s.run rotate (List.replicate n (.step u))) u := by
    intro hh
    refine ⟨0, h, fun _ _ => rfl, fun g => ?_⟩
    have : s.owner g ≠ some u := fun hx => by
      have := (h.owner u g).mp hx
      rw [hh] at this
      cases this
    rw [if_neg this]
    rfl
  have hrun : ∀ (s s' : GuardSys) n, s.step rotate u = some s' → s.run rotate (List.replicate (n + 1) (.step u)) = s'.run rotate (List.replicate n (.step u)) := by
    intro s s' n hs
    show ((s.step rotate u).getD s).run rotate _ = _
    rw [hs]
    rfl
  have hback : ∀ (s : GuardSys) (a b : Nat), s.Inv → s.pc u = .back2 a b → Quiet s (s.run rotate (List.replicate 1 (.step u))) u := by
    intro s a b h hpc
    have hs : s.step rotate u = some ((s.setOwner a none).setPc u (if rotate then .want2 b a else .want2 a b)) := by unfold GuardSys.step; rw [hpc]
    rw [hrun s _ 0 hs]
    refine ⟨h.step hs, fun t ht => pc_setPc_ne _ _ ht, fun g => ?_⟩
    show (if g = a then none else s.owner g) = _
    by_cases hg : g = a
    · subst hg
      rw [if_pos rfl, if_pos ((h.owner u g).mpr (by rw [hpc]; exact List.mem_cons_self))]
    · rw [if_neg hg, if_neg]
      intro hx
      have := (h.owner u g).mp hx
      rw [hpc] at this
      exact hg (List.mem_singleton.mp this)
  cases hpc : s.pc u with
  | idle => exact hnone (by rw [hpc]; rfl)
  | want f => exact hnone (by rw [hpc]; rfl)
  | spinning f left => exact hnone (by rw [hpc]; rfl)
  | want2 a b => exact hnone (by rw [hpc]; rfl)
  | holding fs => exact quiet_holding u fs s h hpc
  | back2 a b => exact ⟨1, hback s a b h hpc⟩
  | try2 a b =>
    cases ho : s.owner b with
    | none =>
      have hs : s.step rotate u = some ((s.setOwner b (some u)).setPc u (.holding [b, a])) := by unfold GuardSys.step; rw [hpc]; dsimp only; rw [ho]
      obtain ⟨n, hq⟩ := quiet_holding (rotate := rotate) u [b, a] _ (h.step hs) (pc_setPc_self _ _ _)
      refine ⟨n + 1, ?_⟩
      rw [hrun s _ n hs]
      refine ⟨hq.inv, fun t ht => ?_, fun g => ?_⟩
      · rw [hq.pc t ht, pc_setPc_ne _ _ ht]; rfl
      · rw [hq.owner g]
        show (if (if g = b then some u else s.owner g) = some u then none else (if g = b then some u else s.owner g)) = _
        by_cases hg : g = b
        · subst hg; rw [if_pos rfl, if_pos rfl, ho]; rfl
        · rw [if_neg hg]
    | some v =>
      have hs : s.step rotate u = some (s.setPc u (.back2 a b)) := by unfold GuardSys.step; rw [hpc]; dsimp only; rw [ho]
      have hq := hback _ a b (h.step hs) (pc_setPc_self _ _ _)
      refine ⟨2, ?_⟩
      rw [hrun s _ 1 hs]
      exact ⟨hq.inv, fun t ht => by rw [hq.pc t ht, pc_setPc_ne _ _ ht], hq.owner⟩

/-- Somebody else's mutex can be made free without moving thread `t`. -/
theorem make_free {rotate : Bool} {s : GuardSys} (h : s.Inv) {t f : Nat} (hf : s.owner f ≠ some t) :
    ∃ evs : List Nat, let s' := s.run rotate (evs.map .step)
      s'.Inv ∧ s'.pc t = s.pc t ∧ s'.owner f = none := by
  cases ho : s.owner f with
  | none => exact ⟨[], h, rfl, ho⟩
  | some u =>
    have hu : t ≠ u := fun hx => hf (by rw [ho, hx])
    obtain ⟨n, hq⟩ := quiet (rotate := rotate) u s h
    refine ⟨List.replicate n u, ?_⟩
    rw [List.map_replicate]
    exact ⟨hq.inv, hq.pc t hu, by rw [hq.owner, ho, if_pos rfl]⟩

/-! ## The guard under construction -/

/-- The thread is constructing this guard. -/
def Constructing (s : GuardSys) (t : Nat) (g : Guard) : Prop :=
  match s.pc t with
  | .want f => g = .one f ∨ g = .two f f
  | .spinning f _ => g = .spin f
  | .want2 a b | .try2 a b | .back2 a b => g = .two a b ∨ g = .two b a
  | _ => False

theorem constructing_of_pc {s s' : GuardSys} {t : Nat} {g : Guard} (h : s'.pc t = s.pc t) : Constructing s' t g ↔ Constructing s t g := by
  unfold Constructing; rw [h]

theorem start_constructing {s : GuardSys} {t : Nat} (g : Guard) (h : s.pc t = .idle) : Constructing (s.start t g) t g := by
  unfold GuardSys.start Constructing
  rw [h]
  dsimp only
  cases g with
  | one f => dsimp only; rw [pc_setPc_self]; exact .inl rfl
  | spin f => dsimp only; rw [pc_setPc_self]
  | two f g =>
    dsimp only
    by_cases hfg : f = g
    · rw [if_pos hfg, pc_setPc_self, hfg]; exact .inr rfl
    · rw [if_neg hfg, pc_setPc_self]; exact .inl rfl

theorem step_pc_ne' {rotate : Bool} {s s' : GuardSys} {t u : Nat} (h : s.step rotate u = some s') (hne : t ≠ u) : s'.pc t = s.pc t := by
  unfold GuardSys.step at h
  split at h
  · cases h
  · split at h
    · injection h with h; subst h; exact pc_setPc_ne _ _ hne
    · cases h
  · split at h
    · injection h with h; subst h; exact pc_setPc_ne _ _ hne
    · split at h
      · injection h with h; subst h; exact pc_setPc_ne _ _ hne
      · injection h with h; subst h; exact pc_setPc_ne _ _ hne
  · split at h
    · injection h with h; subst h; exact pc_setPc_ne _ _ hne
    · cases h
  · split at h
    · injection h with h; subst h; exact pc_setPc_ne _ _ hne
    · injection h with h; subst h; exact pc_setPc_ne _ _ hne
  · injection h with h; subst h; exact pc_setPc_ne _ _ hne
  · injection h with h; subst h; exact pc_setPc_ne _ _ hne
  · injection h with h; subst h; exact pc_setPc_ne _ _ hne

/-- A thread that constructs a guard goes on, gives up after a hundred tries, or gets the guard. -/
theorem step_constructing {rotate : Bool} {s s' : GuardSys} {t : Nat} {g : Guard} (hi : s.Inv) (hc : Constructing s t g) (h : s.step rotate t = some s') :
    Constructing s' t g ∨ (s'.pc t = .idle ∧ ∃ f, g = .spin f) ∨ Guarded s' t g := by
  have hi' := hi.step h
  have hg : ∀ fs, s'.pc t = .holding fs → (∀ f, f ∈ fs ↔ f ∈ guardFiles g) → Guarded s' t g := by
    intro fs hpc hfs
    refine ⟨fs, hpc, hfs, fun f hf => ?_⟩
    rw [hi'.owner t f, hpc]
    exact (hfs f).mpr hf
  unfold Constructing at hc
  unfold GuardSys.step at h
  cases hpc : s.pc t with
  | idle => rw [hpc] at hc; exact hc.elim
  | holding fs => rw [hpc] at hc; exact hc.elim
  | want f =>
    rw [hpc] at hc h
    dsimp only at h
    cases ho : s.owner f with
    | none =>
      rw [ho] at h
      injection h with h
      subst h
      refine .inr (.inr (hg [f] (pc_setPc_self _ _ _) fun x => ?_))
      rcases hc with rfl | rfl <;> simp [guardFiles]
    | some u => rw [ho] at h; cases h
  | spinning f left =>
    rw [hpc] at hc h
    have hc : g = .spin f := hc
    dsimp only at h
    cases left with
    | zero => injection h with h; subst h; exact .inr (.inl ⟨pc_setPc_self _ _ _, f, hc⟩)
    | succ left =>
      dsimp only at h
      cases ho : s.owner f with
      | none =>
        rw [ho] at h
        injection h with h
        subst h
        exact .inr (.inr (hg [f] (pc_setPc_self _ _ _) fun x => by rw [hc]; exact Iff.rfl))
      | some u =>
        rw [ho] at h
        injection h with h
        subst h
        refine .inl ?_
        unfold Constructing
        rw [pc_setPc_self]
        exact hc
  | want2 a b =>
    rw [hpc] at hc h
    dsimp only at h
    cases ho : s.owner a with
    | none =>
      rw [ho] at h
      injection h with h
      subst h
      refine .inl ?_
      unfold Constructing
      rw [pc_setPc_self]
      exact hc
    | some u => rw [ho] at h; cases h
  | try2 a b =>
    rw [hpc] at hc h
    dsimp only at h
    cases ho : s.owner b with
    | none =>
      rw [ho] at h
      injection h with h
      subst h
      refine .inr (.inr (hg [b, a] (pc_setPc_self _ _ _) fun x => ?_))
      rcases hc with rfl | rfl <;> simp [guardFiles, or_comm]
    | some u =>
      rw [ho] at h
      injection h with h
      subst h
      refine .inl ?_
      unfold Constructing
      rw [pc_setPc_self]
      exact hc
  | back2 a b =>
    rw [hpc] at hc h
    injection h with h
    subst h
    refine .inl ?_
    unfold Constructing
    rw [pc_setPc_self]
    cases rotate with
    | true => exact hc.symm
    | false => exact hc

theorem try2_finish {rotate : Bool} {s : GuardSys} {t a b : Nat} {g : Guard} (hi : s.Inv) (hpc : s.pc t = .try2 a b) (hc : Constructing s t g) :
    ∃ evs : List Nat, Guarded (s.run rotate (evs.map .step)) t g := by
  have hne : a ≠ b := by have := hi.apart t; rw [hpc] at this; exact this
  have hb : s.owner b ≠ some t := fun hx => by
    have := (hi.owner t b).mp hx
    rw [hpc] at this
    exact hne (List.mem_singleton.mp this).symm
  obtain ⟨evs, h1, h2, h3⟩ := make_free (rotate := rotate) hi hb
  refine ⟨evs ++ [t], ?_⟩
  rw [List.map_append, run_append']
  generalize s.run rotate (evs.map .step) = s1 at h1 h2 h3
  have hpc1 : s1.pc t = .try2 a b := h2.trans hpc
  have hs : s1.step rotate t = some ((s1.setOwner b (some t)).setPc t (.holding [b, a])) := by unfold GuardSys.step; rw [hpc1]; dsimp only; rw [h3]
  show Guarded ((s1.step rotate t).getD s1) t g
  rw [hs]
  rcases step_constructing h1 ((constructing_of_pc h2).mpr hc) hs with hx | ⟨hx, _⟩ | hx
  · unfold Constructing at hx; rw [pc_setPc_self] at hx; exact hx.elim
  · rw [pc_setPc_self] at hx; cases hx
  · exact hx

theorem want2_finish {rotate : Bool} {s : GuardSys} {t a b : Nat} {g : Guard} (hi : s.Inv) (hpc : s.pc t = .want2 a b) (hc : Constructing s t g) :
    ∃ evs : List Nat, Guarded (s.run rotate (evs.map .step)) t g := by
  have hb : s.owner a ≠ some t := fun hx => by
    have := (hi.owner t a).mp hx
    rw [hpc] at this
    cases this
  obtain ⟨evs, h1, h2, h3⟩ := make_free (rotate := rotate) hi hb
  generalize hs1 : s.run rotate (evs.map .step) = s1 at h1 h2 h3
  have hpc1 : s1.pc t = .want2 a b := h2.trans hpc
  have hs : s1.step rotate t = some ((s1.setOwner a (some t)).setPc t (.try2 a b)) := by unfold GuardSys.step; rw [hpc1]; dsimp only; rw [h3]
  have hc1 : Constructing ((s1.setOwner a (some t)).setPc t (.try2 a b)) t g := by
    rcases step_constructing h1 ((constructing_of_pc h2).mpr hc) hs with hx | ⟨hx, _⟩ | ⟨fs, hx, _⟩
    · exact hx
    · rw [pc_setPc_self] at hx; cases hx
    · rw [pc_setPc_self] at hx; cases hx
  obtain ⟨evs', h4⟩ := try2_finish (rotate := rotate) (h1.step hs) (pc_setPc_self _ _ _) hc1
  refine ⟨evs ++ t :: evs', ?_⟩
  rw [List.map_append, run_append', hs1]
  show Guarded (((s1.step rotate t).getD s1).run rotate _) t g
  rw [hs]
  exact h4

/-- A thread that constructs a guard other than a spinning one can get it. -/
theorem finish {rotate : Bool} {s : GuardSys} {t : Nat} {g : Guard} (hi : s.Inv) (hc : Constructing s t g) (hg : ∀ f, g ≠ .spin f) :
    ∃ evs : List Nat, Guarded (s.run rotate (evs.map .step)) t g := by
  have hc' := hc
  unfold Constructing at hc
  cases hpc : s.pc t with
  | idle => rw [hpc] at hc; exact hc.elim
  | holding fs => rw [hpc] at hc; exact hc.elim
  | spinning f left => rw [hpc] at hc; exact absurd hc (hg f)
  | want f =>
    have hb : s.owner f ≠ some t := fun hx => by
      have := (hi.owner t f).mp hx
      rw [hpc] at this
      cases this
    obtain ⟨evs, h1, h2, h3⟩ := make_free (rotate := rotate) hi hb
    refine ⟨evs ++ [t], ?_⟩
    rw [List.map_append, run_append']
    generalize s.run rotate (evs.map .step) = s1 at h1 h2 h3
    have hpc1 : s1.pc t = .want f := h2.trans hpc
    have hs : s1.step rotate t = some ((s1.setOwner f (some t)).setPc t (.holding [f])) := by unfold GuardSys.step; rw [hpc1]; dsimp only; rw [h3]
    show Guarded ((s1.step rotate t).getD s1) t g
    rw [hs]
    rcases step_constructing h1 ((constructing_of_pc h2).mpr hc') hs with hx | ⟨hx, _⟩ | hx
    · unfold Constructing at hx; rw [pc_setPc_self] at hx; exact hx.elim
    · rw [pc_setPc_self] at hx; cases hx
    · exact hx
  | want2 a b => exact want2_finish hi hpc hc'
  | try2 a b => exact try2_finish hi hpc hc'
  | back2 a b =>
    have hs : s.step rotate t = some ((s.setOwner a none).setPc t (if rotate then .want2 b a else .want2 a b)) := by unfold GuardSys.step; rw [hpc]
    have hc1 : Constructing ((s.setOwner a none).setPc t (if rotate then .want2 b a else .want2 a b)) t g := by
      rcases step_constructing hi hc' hs with hx | ⟨hx, _⟩ | ⟨fs, hx, _⟩
      · exact hx
      · rw [pc_setPc_self] at hx; cases rotate <;> cases hx
      · rw [pc_setPc_self] at hx; cases rotate <;> cases hx
    obtain ⟨evs, h4⟩ : ∃ evs : List Nat, Guarded (((s.setOwner a none).setPc t (if rotate then .want2 b a else .want2 a b)).run rotate (evs.map .step)) t g := by
      cases rotate with
      | true => exact want2_finish (hi.step hs) (pc_setPc_self _ _ _) hc1
      | false => exact want2_finish (hi.step hs) (pc_setPc_self _ _ _) hc1
    refine ⟨t :: evs, ?_⟩
    show Guarded (((s.step rotate t).getD s).run rotate _) t g
    rw [hs]
    exact h4

/-- While a thread constructs a guard, whatever the threads do, it still constructs it, or it once had it, or it gave up. -/
theorem run_constructing {rotate : Bool} {t : Nat} {g : Guard} (evs : List Ev) : ∀ s : GuardSys, s.Inv → Constructing s t g →
    Constructing (s.run rotate evs) t g ∨ ∃ before after, evs = before ++ after ∧
      (Guarded (s.run rotate before) t g ∨ ((s.run rotate before).pc t = .idle ∧ ∃ f, g = .spin f)) := by
  induction evs with
  | nil => intro s _ hc; exact .inl hc
  | cons ev rest ih =>
    intro s hi hc
    have hnext : Constructing (s.apply rotate ev) t g ∨ Guarded (s.apply rotate ev) t g ∨ ((s.apply rotate ev).pc t = .idle ∧ ∃ f, g = .spin f) := by
      cases ev with
      | start u g' =>
        refine .inl ((constructing_of_pc ?_).mpr hc)
        show (s.start u g').pc t = _
        unfold GuardSys.start
        by_cases hu : t = u
        · subst hu
          cases hpc : s.pc t with
          | idle => unfold Constructing at hc; rw [hpc] at hc; exact hc.elim
          | _ => exact hpc
        · split
          · split
            · exact pc_setPc_ne _ _ hu
            · exact pc_setPc_ne _ _ hu
            · split <;> exact pc_setPc_ne _ _ hu
          · rfl
      | step u =>
        show Constructing ((s.step rotate u).getD s) t g ∨ Guarded ((s.step rotate u).getD s) t g ∨ (((s.step rotate u).getD s).pc t = .idle ∧ _)
        cases hs : s.step rotate u with
        | none => exact .inl hc
        | some s' =>
          by_cases hu : t = u
          · subst hu
            rcases step_constructing hi hc hs with hx | hx | hx
            · exact .inl hx
            · exact .inr (.inr hx)
            · exact .inr (.inl hx)
          · exact .inl ((constructing_of_pc (step_pc_ne' hs hu)).mpr hc)
    rcases hnext with hx | hx
    · rcases ih _ (hi.apply ev) hx with h1 | ⟨before, after, h1, h2⟩
      · exact .inl h1
      · exact .inr ⟨ev :: before, after, by rw [h1]; rfl, h2⟩
    · exact .inr ⟨[ev], rest, rfl, hx⟩

end GuardSys

end Securefs
