import Verif.Proofs.FullLocks
/-!
# Lemmas about threads that lock the mutexes of the full format
-/

namespace Securefs.Lk.LockSys
open Securefs Securefs.Spec.Lk Securefs.Lk

/-- What holds in every state that calls with enough memory reach. -/
def Good (s : LockSys) : Prop :=
  (∀ t a, s.threads[t]? = some a → Obeys (fun m => s.owner m = some t) a) ∧ ∀ m t, s.owner m = some t → t < s.threads.length

/-- How much a thread has to do, failing attempts of `std::lock` apart. -/
def weight : Act → Nat
  | .lock _ => 1
  | .pair _ _ => 3
  | .use _ => 1
  | .unlock _ => 1
  | .tryNext _ _ => 2
  | .back _ _ => 4

/-- The same for a list. -/
def weights (a : List Act) : Nat := (a.map weight).sum

/-- The same for all threads. -/
def total (s : LockSys) : Nat := (s.threads.map weights).sum

theorem sum_set {l : List (List Act)} : ∀ {t : Nat} {a b : List Act}, l[t]? = some a →
    ((l.set t b).map weights).sum + weights a = (l.map weights).sum + weights b := by
  induction l with
  | nil => intro t a b h; simp at h
  | cons x r ih =>
    intro t a b h
    cases t with
    | zero =>
      simp only [List.getElem?_cons_zero, Option.some.injEq] at h
      subst h
      simp only [List.set_cons_zero, List.map_cons, List.sum_cons]
      omega
    | succ t =>
      simp only [List.getElem?_cons_succ] at h
      have := @ih t a b h
      simp only [List.set_cons_succ, List.map_cons, List.sum_cons]
      omega

theorem set_get {l : List (List Act)} {t u : Nat} {b c : List Act} (h : (l.set t b)[u]? = some c) :
    (u = t ∧ c = b) ∨ (u ≠ t ∧ l[u]? = some c) := by
  rw [List.getElem?_set] at h
  by_cases e : t = u
  · subst e
    left
    simp only [if_true] at h
    split at h
    · exact ⟨rfl, (Option.some.inj h).symm⟩
    · cases h
  · right
    simp only [e, if_false] at h
    exact ⟨fun x => e x.symm, h⟩

theorem good_set {s : LockSys} (g : Good s) {t : Nat} {a b : List Act} (ht : s.threads[t]? = some a) {m : Mu} {o : Option Nat}
    (ho : o = none ∨ o = some t) (hm : s.owner m = none ∨ s.owner m = some t)
    (hb : Obeys (fun x => (s.setOwner m o).owner x = some t) b) : Good { s.setOwner m o with threads := s.threads.set t b } := by
  have hlt : t < s.threads.length := by
    obtain ⟨h, _⟩ := List.getElem?_eq_some_iff.mp ht
    exact h
  constructor
  · intro u c hc
    rcases set_get hc with ⟨rfl, rfl⟩ | ⟨hne, hc⟩
    · exact hb
    · refine obeys_congr (fun x => ?_) (g.1 u c hc)
      simp only [setOwner]
      by_cases hx : x = m
      · subst hx
        simp only [if_true]
        constructor
        · intro h
          rcases hm with hm | hm <;> rw [hm] at h
          · cases h
          · exact absurd (Option.some.inj h).symm hne
        · intro h
          rcases ho with ho | ho <;> rw [ho] at h
          · cases h
          · exact absurd (Option.some.inj h).symm hne
      · simp only [hx, if_false]
  · intro x u hx
    simp only [List.length_set]
    simp only [setOwner] at hx
    split at hx
    · rcases ho with ho | ho <;> rw [ho] at hx
      · cases hx
      · cases hx; exact hlt
    · exact g.2 x u hx

theorem good_set' {s : LockSys} (g : Good s) {t : Nat} {a b : List Act} (ht : s.threads[t]? = some a)
    (hb : Obeys (fun x => s.owner x = some t) b) : Good { s with threads := s.threads.set t b } := by
  constructor
  · intro u c hc
    rcases set_get hc with ⟨rfl, rfl⟩ | ⟨hne, hc⟩
    · exact hb
    · exact g.1 u c hc
  · intro x u hx
    simp only [List.length_set]
    exact g.2 x u hx

theorem owner_take {s : LockSys} {t : Nat} {m x : Mu} :
    (s.setOwner m (some t)).owner x = some t ↔ x = m ∨ s.owner x = some t := by
  simp only [setOwner]
  by_cases h : x = m
  · simp [h]
  · simp [h]

theorem owner_release {s : LockSys} {t : Nat} {m x : Mu} :
    (s.setOwner m none).owner x = some t ↔ s.owner x = some t ∧ x ≠ m := by
  simp only [setOwner]
  by_cases h : x = m
  · simp [h]
  · simp [h]

theorem good_step {rotate : Bool} {s s' : LockSys} (g : Good s) {t : Nat} (h : s.step rotate t = some s') : Good s' := by
  unfold step at h
  split at h
  · cases h
  · cases h
  · rename_i m r ht
    have ob := g.1 t _ ht
    split at h
    · rename_i hf
      cases h
      exact good_set g ht (Or.inr rfl) (Or.inl hf) (obeys_congr (fun x => owner_take.symm) ob.2)
    · cases h
  · rename_i a b r ht
    have ob := g.1 t _ ht
    split at h
    · rename_i hf
      cases h
      refine good_set g ht (Or.inr rfl) (Or.inl hf) ⟨fun x => ?_, ob.2.1, ob.2.2.1, ob.2.2.2.1, ob.2.2.2.2⟩
      show (s.setOwner a (some t)).owner x = some t ↔ x = a
      rw [owner_take]
      exact ⟨fun h => h.elim id (fun h => (ob.1 _ h).elim), Or.inl⟩
    · cases h
  · rename_i m r ht
    have ob := g.1 t _ ht
    split at h
    · cases h
      exact good_set' g ht ob.2
    · cases h
  · rename_i m r ht
    have ob := g.1 t _ ht
    split at h
    · rename_i hf
      cases h
      exact good_set g ht (Or.inl rfl) (Or.inr hf) (obeys_congr (fun x => owner_release.symm) ob.2)
    · cases h
  · rename_i a b r ht
    have ob := g.1 t _ ht
    split at h
    · rename_i hf
      cases h
      refine good_set g ht (Or.inr rfl) (Or.inl hf) (obeys_congr (fun x => ?_) ob.2.2.2.2)
      rw [owner_take]
      constructor
      · rintro (h | h)
        · exact Or.inr ((ob.1 x).mpr h)
        · exact Or.inl h
      · rintro (h | h)
        · exact Or.inr h
        · exact Or.inl ((ob.1 x).mp h)
    · cases h
      exact good_set' g ht ⟨ob.1, ob.2.1, ob.2.2.1, ob.2.2.2.1, ob.2.2.2.2⟩
  · rename_i a b r ht
    have ob := g.1 t _ ht
    rw [if_pos ((ob.1 a).mpr rfl)] at h
    cases h
    have hn : ∀ x, ¬ (s.setOwner a none).owner x = some t := by
      intro x hx
      rw [owner_release] at hx
      exact hx.2 ((ob.1 x).mp hx.1)
    refine good_set g ht (Or.inl rfl) (Or.inr ((ob.1 a).mpr rfl)) ?_
    cases rotate with
    | true =>
      refine ⟨hn, ob.2.2.1, ob.2.1, fun e => ob.2.2.2.1 e.symm, obeys_congr (fun x => Or.comm) ob.2.2.2.2⟩
    | false => exact ⟨hn, ob.2.1, ob.2.2.1, ob.2.2.2.1, ob.2.2.2.2⟩

theorem good_apply {rotate : Bool} {s : LockSys} (g : Good s) {e : Ev} (he : ∀ c, e = .begin c → CallMem c) : Good (s.apply rotate e) := by
  cases e with
  | begin c =>
    constructor
    · intro t a ht
      simp only [apply] at ht ⊢
      rw [List.getElem?_append] at ht
      split at ht
      · exact g.1 t a ht
      · rename_i hge
        have : t - s.threads.length = 0 := by
          rcases Nat.eq_zero_or_pos (t - s.threads.length) with h | h
          · exact h
          · rw [List.getElem?_eq_none (by simp only [List.length_cons, List.length_nil]; omega)] at ht; cases ht
        rw [this] at ht
        simp only [List.getElem?_cons_zero, Option.some.injEq] at ht
        subst ht
        refine obeys_congr (fun m => ⟨fun f => f.elim, fun h => ?_⟩) (obeys_acts c (he c rfl))
        exact absurd (g.2 m t h) hge
    · intro m t h
      simp only [apply, List.length_append] at h ⊢
      have := g.2 m t h
      omega
  | step t =>
    simp only [apply]
    cases h : s.step rotate t with
    | none => exact g
    | some s' => exact good_step g h

theorem good_init : Good init := ⟨fun t a h => by simp [init] at h, fun m t h => by simp [init] at h⟩

theorem good_run {rotate : Bool} {evs : List Ev} : ∀ {s : LockSys}, Good s → HistoryMem evs → Good (s.run rotate evs) := by
  induction evs with
  | nil => intro s g _; exact g
  | cons e r ih =>
    intro s g h
    exact ih (good_apply g (fun c hc => h c (by simp [hc]))) (fun c hc => h c (by simp [hc]))

/-- A step that is no failing attempt. -/
def Moves (rotate : Bool) (s : LockSys) : Prop := ∃ u s', s.step rotate u = some s' ∧ s'.total < s.total

/-- Thread `t` holds `a` and tries `b`, which another one holds. -/
def Fails (s : LockSys) (t : Nat) : Prop := ∃ a b r, s.threads[t]? = some (.tryNext a b :: r) ∧ s.owner b ≠ none

theorem total_set {s : LockSys} {t : Nat} {a b : List Act} (ht : s.threads[t]? = some a) {w : Mu → Option Nat} (hw : weights b < weights a) :
    total { owner := w, threads := s.threads.set t b } < s.total := by
  have := sum_set (b := b) ht
  simp only [total]
  omega

theorem weights_cons (a : Act) (r : List Act) : weights (a :: r) = weight a + weights r := by simp [weights]

/-- A thread that is not at its end moves, or waits for a mutex that somebody has, or fails. -/
theorem moves_or_waits {rotate : Bool} {s : LockSys} (g : Good s) {t : Nat} {x : Act} {r : List Act} (ht : s.threads[t]? = some (x :: r)) :
    Moves rotate s ∨ Fails s t ∨ ∃ m u, s.owner m = some u ∧ ((x = .lock m) ∨ ∃ b, x = .pair m b) := by
  have ob := g.1 t _ ht
  have st : s.step rotate t = s.step rotate t := rfl
  conv at st => rhs; unfold step
  rw [ht] at st
  cases x with
  | lock m =>
    simp only at st
    cases ho : s.owner m with
    | none =>
      rw [if_pos ho] at st
      exact Or.inl ⟨t, _, st, total_set ht (by rw [weights_cons]; simp only [weight]; omega)⟩
    | some u => exact Or.inr (Or.inr ⟨m, u, ho, Or.inl rfl⟩)
  | pair a b =>
    simp only at st
    cases ho : s.owner a with
    | none =>
      rw [if_pos ho] at st
      exact Or.inl ⟨t, _, st, total_set ht (by rw [weights_cons, weights_cons]; simp only [weight]; omega)⟩
    | some u => exact Or.inr (Or.inr ⟨a, u, ho, Or.inr ⟨b, rfl⟩⟩)
  | use m =>
    simp only at st
    rw [if_pos ob.1] at st
    exact Or.inl ⟨t, _, st, total_set ht (by rw [weights_cons]; simp only [weight]; omega)⟩
  | unlock m =>
    simp only at st
    rw [if_pos ob.1] at st
    exact Or.inl ⟨t, _, st, total_set ht (by rw [weights_cons]; simp only [weight]; omega)⟩
  | tryNext a b =>
    simp only at st
    by_cases ho : s.owner b = none
    · rw [if_pos ho] at st
      exact Or.inl ⟨t, _, st, total_set ht (by rw [weights_cons]; simp only [weight]; omega)⟩
    · exact Or.inr (Or.inl ⟨a, b, r, ht, ho⟩)
  | back a b =>
    simp only at st
    rw [if_pos ((ob.1 a).mpr rfl)] at st
    refine Or.inl ⟨t, _, st, total_set ht ?_⟩
    rw [weights_cons, weights_cons]
    cases rotate <;> simp [weight]

/-- The owner of a mutex is not at its end. -/
theorem owner_busy {s : LockSys} (g : Good s) {m : Mu} {t : Nat} (h : s.owner m = some t) : ∃ x r, s.threads[t]? = some (x :: r) := by
  have hlt := g.2 m t h
  have he : s.threads[t]? = some s.threads[t] := List.getElem?_eq_getElem hlt
  cases hc : s.threads[t] with
  | nil =>
    rw [hc] at he
    exact absurd h (g.1 t _ he m)
  | cons x r => exact ⟨x, r, by rw [he, hc]⟩

/-- Whoever waits for a mutex waits for a thread that moves, or for one that fails and holds a mutex not lower in the order. -/
theorem chain {rotate : Bool} {s : LockSys} (g : Good s) : ∀ (k : Nat) (m : Mu) (t : Nat), 4 ≤ rank m + k → s.owner m = some t →
    Moves rotate s ∨ ∃ m' u, rank m ≤ rank m' ∧ s.owner m' = some u ∧ Fails s u := by
  intro k
  induction k with
  | zero =>
    intro m t hk _
    cases m <;> simp [rank] at hk
  | succ k ih =>
    intro m t hk ho
    obtain ⟨x, r, hx⟩ := owner_busy g ho
    rcases moves_or_waits (rotate := rotate) g hx with h | h | ⟨m', u, ho', h | ⟨b, h⟩⟩
    · exact Or.inl h
    · exact Or.inr ⟨m, t, Nat.le_refl _, ho, h⟩
    · subst h
      have ob := g.1 t _ hx
      have hlt := ob.1 m ho
      rcases ih m' u (by omega) ho' with h | ⟨m'', v, hr, ho'', hf⟩
      · exact Or.inl h
      · exact Or.inr ⟨m'', v, by omega, ho'', hf⟩
    · subst h
      exact absurd ho ((g.1 t _ hx).1 m)

theorem rank_file {m : Mu} (h : IsFile m) : rank m = 1 := by
  cases m <;> simp_all [IsFile, rank]

/-- Somebody moves or fails. -/
theorem moves_or_fails {rotate : Bool} {s : LockSys} (g : Good s) (h : ¬ AllDone s) : Moves rotate s ∨ ∃ u, Fails s u := by
  have : ∃ a, a ∈ s.threads ∧ a ≠ [] := by
    refine Classical.byContradiction (fun hn => h (fun a ha => ?_))
    exact Classical.byContradiction (fun hne => hn ⟨a, ha, hne⟩)
  obtain ⟨a, ha, hne⟩ := this
  obtain ⟨t, ht⟩ := List.getElem?_of_mem ha
  cases a with
  | nil => exact absurd rfl hne
  | cons x r =>
    rcases moves_or_waits (rotate := rotate) g ht with h | h | ⟨m, u, ho, _⟩
    · exact Or.inl h
    · exact Or.inr ⟨t, h⟩
    · rcases chain (rotate := rotate) g 4 m u (by omega) ho with h | ⟨_, v, _, _, hf⟩
      · exact Or.inl h
      · exact Or.inr ⟨v, hf⟩

/-- A failing thread fails because of one that fails as well, or somebody moves. -/
theorem fails_pair {rotate : Bool} {s : LockSys} (g : Good s) {u : Nat} (h : Fails s u) : Moves rotate s ∨
    ∃ a b d w r r', u ≠ w ∧ s.threads[u]? = some (.tryNext a b :: r) ∧ s.threads[w]? = some (.tryNext b d :: r') ∧ s.owner d ≠ none := by
  obtain ⟨a, b, r, hu, hb⟩ := h
  cases hw : s.owner b with
  | none => exact absurd hw hb
  | some w =>
    have obu := g.1 u _ hu
    have hne : u ≠ w := by
      intro e
      subst e
      exact obu.2.2.2.1 ((obu.1 b).mp hw).symm
    obtain ⟨x, r', hx⟩ := owner_busy g hw
    rcases moves_or_waits (rotate := rotate) g hx with h | ⟨b', d, r'', h, hd⟩ | ⟨m', v, ho', h | ⟨b', h⟩⟩
    · exact Or.inl h
    · have obw := g.1 w _ h
      have : b = b' := (obw.1 b).mp hw
      subst this
      exact Or.inr ⟨a, b, d, w, r, r'', hne, hu, h, hd⟩
    · subst h
      have hlt := (g.1 w _ hx).1 b hw
      rw [rank_file obu.2.2.1] at hlt
      rcases chain (rotate := rotate) g 4 m' v (by omega) ho' with h | ⟨m'', v', hr, ho'', c, d, q, hf, _⟩
      · exact Or.inl h
      · have obv := g.1 v' _ hf
        have : m'' = c := (obv.1 m'').mp ho''
        subst this
        have := rank_file obv.2.1
        omega
    · subst h
      exact absurd hw ((g.1 w _ hx).1 b)

theorem step_try_fail {rotate : Bool} {s : LockSys} {t : Nat} {a b : Mu} {r : List Act} (h : s.threads[t]? = some (.tryNext a b :: r))
    (hb : s.owner b ≠ none) : s.step rotate t = some { s with threads := s.threads.set t (.back a b :: r) } := by
  unfold step
  rw [h]
  simp only [if_neg hb]

theorem step_try_ok {rotate : Bool} {s : LockSys} {t : Nat} {a b : Mu} {r : List Act} (h : s.threads[t]? = some (.tryNext a b :: r))
    (hb : s.owner b = none) : s.step rotate t = some { s.setOwner b (some t) with threads := s.threads.set t r } := by
  unfold step
  rw [h]
  simp only [if_pos hb]

theorem step_back {rotate : Bool} {s : LockSys} {t : Nat} {a b : Mu} {r : List Act} (h : s.threads[t]? = some (.back a b :: r))
    (ha : s.owner a = some t) :
    s.step rotate t = some { s.setOwner a none with threads := s.threads.set t ((if rotate then .pair b a else .pair a b) :: r) } := by
  unfold step
  rw [h]
  simp only [if_pos ha]

theorem set_same {l : List (List Act)} {t : Nat} {a b : List Act} (h : l[t]? = some a) : (l.set t b)[t]? = some b := by
  obtain ⟨hlt, _⟩ := List.getElem?_eq_some_iff.mp h
  rw [List.getElem?_set]
  simp [hlt]

theorem set_other {l : List (List Act)} {t u : Nat} {a b : List Act} (hne : u ≠ t) (h : l[u]? = some a) : (l.set t b)[u]? = some a := by
  rw [List.getElem?_set]
  have : ¬ t = u := fun e => hne e.symm
  simp [this, h]

/-- From every state that is not at its end, some steps leave less to do. -/
theorem less {rotate : Bool} {s : LockSys} (g : Good s) (h : ¬ AllDone s) :
    ∃ ts : List Nat, total (s.run rotate (ts.map .step)) < s.total := by
  rcases moves_or_fails (rotate := rotate) g h with ⟨u, s', hs, hl⟩ | ⟨u, hf⟩
  · refine ⟨[u], ?_⟩
    simp only [run, List.map_cons, List.map_nil, List.foldl_cons, List.foldl_nil, apply, hs, Option.getD_some]
    exact hl
  · rcases fails_pair (rotate := rotate) g hf with ⟨u, s', hs, hl⟩ | ⟨a, b, d, w, r, r', hne, hu, hw, hd⟩
    · refine ⟨[u], ?_⟩
      simp only [run, List.map_cons, List.map_nil, List.foldl_cons, List.foldl_nil, apply, hs, Option.getD_some]
      exact hl
    · refine ⟨[w, w, u], ?_⟩
      have e1 := step_try_fail (rotate := rotate) hw hd
      have e2 := step_back (rotate := rotate) (s := { s with threads := s.threads.set w (.back b d :: r') }) (t := w) (set_same hw) (((g.1 w _ hw).1 b).mpr rfl)
      have hu2 : ((s.threads.set w (.back b d :: r')).set w ((if rotate then Act.pair d b else Act.pair b d) :: r'))[u]? =
          some (.tryNext a b :: r) := set_other hne (set_other hne hu)
      have e3 := step_try_ok (rotate := rotate)
        (s := { LockSys.setOwner { s with threads := s.threads.set w (.back b d :: r') } b none with
                threads := (s.threads.set w (.back b d :: r')).set w ((if rotate then Act.pair d b else Act.pair b d) :: r') })
        (t := u) hu2 (by simp [setOwner])
      simp only [run, List.map_cons, List.map_nil, List.foldl_cons, List.foldl_nil, apply, e1, e2, e3, Option.getD_some]
      have t1 := sum_set (b := .back b d :: r') hw
      have t2 := sum_set (b := (if rotate then Act.pair d b else Act.pair b d) :: r')
        (set_same (b := .back b d :: r') hw)
      have t3 := sum_set (b := r) hu2
      have w1 : weights ((if rotate then Act.pair d b else Act.pair b d) :: r') = 3 + weights r' := by
        rw [weights_cons]; cases rotate <;> simp [weight]
      rw [w1] at t2
      rw [weights_cons] at t1 t2 t3
      rw [weights_cons] at t1
      simp only [weight] at t1 t2 t3
      simp only [total]
      omega

theorem historyMem_steps (ts : List Nat) : HistoryMem (ts.map .step) := by
  intro c hc
  rw [List.mem_map] at hc
  obtain ⟨_, _, h⟩ := hc
  cases h

theorem run_append {rotate : Bool} {s : LockSys} {a b : List Ev} : s.run rotate (a ++ b) = (s.run rotate a).run rotate b := by
  simp [run, List.foldl_append]

theorem ends {rotate : Bool} : ∀ (n : Nat) {s : LockSys}, Good s → s.total ≤ n → ∃ ts : List Nat, AllDone (s.run rotate (ts.map .step)) := by
  intro n
  induction n with
  | zero =>
    intro s g h
    by_cases hd : AllDone s
    · exact ⟨[], hd⟩
    · obtain ⟨ts, ht⟩ := less (rotate := rotate) g hd
      omega
  | succ n ih =>
    intro s g h
    by_cases hd : AllDone s
    · exact ⟨[], hd⟩
    · obtain ⟨ts, ht⟩ := less (rotate := rotate) g hd
      obtain ⟨ts', hd'⟩ := ih (good_run (rotate := rotate) g (historyMem_steps ts)) (by omega)
      refine ⟨ts ++ ts', ?_⟩
      rw [List.map_append, run_append]
      exact hd'

theorem not_stuck {rotate : Bool} {s : LockSys} (g : Good s) : ¬ Deadlocked rotate s := by
  rintro ⟨hn, hs⟩
  rcases moves_or_fails (rotate := rotate) g hn with ⟨u, s', h, _⟩ | ⟨u, a, b, r, h, hb⟩
  · rw [hs u] at h; cases h
  · have := step_try_fail (rotate := rotate) h hb
    rw [hs u] at this; cases this

/-- A thread that can do nothing, and is not at its end, waits for a mutex that another thread has. -/
theorem waits_other {rotate : Bool} {s : LockSys} (g : Good s) {t : Nat} {x : Act} {r : List Act} (h : s.threads[t]? = some (x :: r))
    (hs : s.step rotate t = none) : ∃ m u, s.owner m = some u ∧ u ≠ t ∧ (x = .lock m ∨ ∃ b, x = .pair m b) := by
  have ob := g.1 t _ h
  unfold step at hs
  rw [h] at hs
  cases x with
  | lock m =>
    cases ho : s.owner m with
    | none => simp [ho] at hs
    | some u =>
      refine ⟨m, u, ho, ?_, Or.inl rfl⟩
      intro e
      subst e
      exact absurd (ob.1 m ho) (Nat.lt_irrefl _)
  | pair a b =>
    cases ho : s.owner a with
    | none => simp [ho] at hs
    | some u =>
      refine ⟨a, u, ho, ?_, Or.inr ⟨b, rfl⟩⟩
      intro e
      subst e
      exact ob.1 a ho
  | use m => have := ob.1; simp [this] at hs
  | unlock m => have := ob.1; simp [this] at hs
  | tryNext a b =>
    simp only at hs
    split at hs <;> cases hs
  | back a b => have := (ob.1 a).mpr rfl; simp [this] at hs

/-- A thread waits for a mutex that it has. -/
def SelfBlocked (s : LockSys) (t : Nat) (m : Mu) : Prop := s.owner m = some t ∧ ∃ r, s.threads[t]? = some (.lock m :: r)

theorem selfBlocked_apply {rotate : Bool} {s : LockSys} {t : Nat} {m : Mu} (h : SelfBlocked s t m) (e : Ev) : SelfBlocked (s.apply rotate e) t m := by
  obtain ⟨ho, r, hr⟩ := h
  cases e with
  | begin c =>
    refine ⟨ho, r, ?_⟩
    obtain ⟨hlt, he⟩ := List.getElem?_eq_some_iff.mp hr
    simp only [apply]
    rw [List.getElem?_append_left hlt]
    exact hr
  | step u =>
    simp only [apply]
    by_cases hu : t = u
    · subst hu
      have : s.step rotate t = none := by
        unfold step; rw [hr]; simp [ho]
      rw [this]
      exact ⟨ho, r, hr⟩
    · have key : ∀ {x : Mu} {o : Option Nat} {b : List Act}, x ≠ m →
          SelfBlocked { s.setOwner x o with threads := s.threads.set u b } t m := by
        intro x o b hx
        refine ⟨?_, r, set_other hu hr⟩
        simp only [setOwner]
        rw [if_neg (fun e => hx e.symm)]
        exact ho
      have key' : ∀ {b : List Act}, SelfBlocked { s with threads := s.threads.set u b } t m := ⟨ho, r, set_other hu hr⟩
      have n1 : ∀ {x : Mu}, s.owner x = none → x ≠ m := by intro x hx e; subst e; rw [ho] at hx; cases hx
      have n2 : ∀ {x : Mu}, s.owner x = some u → x ≠ m := by
        intro x hx e; subst e; rw [ho] at hx; exact hu (Option.some.inj hx)
      unfold step
      split
      · exact ⟨ho, r, hr⟩
      · exact ⟨ho, r, hr⟩
      · split
        · exact key (n1 (by assumption))
        · exact ⟨ho, r, hr⟩
      · split
        · exact key (n1 (by assumption))
        · exact ⟨ho, r, hr⟩
      · split
        · exact key'
        · exact ⟨ho, r, hr⟩
      · split
        · exact key (n2 (by assumption))
        · exact ⟨ho, r, hr⟩
      · split
        · exact key (n1 (by assumption))
        · exact key'
      · split
        · exact key (n2 (by assumption))
        · exact ⟨ho, r, hr⟩

theorem selfBlocked_run {rotate : Bool} {t : Nat} {m : Mu} (evs : List Ev) : ∀ {s : LockSys}, SelfBlocked s t m → SelfBlocked (s.run rotate evs) t m := by
  induction evs with
  | nil => intro s h; exact h
  | cons e r ih => intro s h; exact ih (selfBlocked_apply h e)

end Securefs.Lk.LockSys
