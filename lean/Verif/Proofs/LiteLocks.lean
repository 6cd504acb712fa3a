import Verif.Spec.LiteLocks
import Mathlib.Tactic.ByContra
/-!
# Lemmas: the locks of the lite format
-/

namespace Securefs.Ll
open Securefs Securefs.Spec.Ll

theorem obeys_congr : ∀ (l : List Act) {p q : Mu → Prop}, (∀ m, p m ↔ q m) → Obeys p l → Obeys q l
  | [], _, _, h, ho => fun m hm => ho m ((h m).2 hm)
  | .lock m :: r, _, _, h, ho => ⟨fun x hx => ho.1 x ((h x).2 hx), obeys_congr r (fun x => or_congr Iff.rfl (h x)) ho.2⟩
  | .use m :: r, _, _, h, ho => ⟨(h m).1 ho.1, obeys_congr r h ho.2⟩
  | .unlock m :: r, _, _, h, ho => ⟨(h m).1 ho.1, obeys_congr r (fun x => and_congr (h x) Iff.rfl) ho.2⟩

/-- A block that takes locks of rank `k` and higher and gives them back. -/
def Neutral (k : Nat) (l : List Act) : Prop :=
  ∀ (held : Mu → Prop) (r : List Act), (∀ m, held m → rank m < k) → Obeys held r → Obeys held (l ++ r)

theorem Neutral.nil {k : Nat} : Neutral k [] := fun _ _ _ h => h

theorem Neutral.append {k : Nat} {a b : List Act} (ha : Neutral k a) (hb : Neutral k b) : Neutral k (a ++ b) := fun held r hk hr => by
  rw [List.append_assoc]
  exact ha held _ hk (hb held r hk hr)

theorem Neutral.weaken {k k' : Nat} {a : List Act} (h : Neutral k a) (hk : k' ≤ k) : Neutral k' a :=
  fun held r hh hr => h held r (fun m hm => Nat.lt_of_lt_of_le (hh m hm) hk) hr

theorem Neutral.flatMap {α : Type} {k : Nat} {f : α → List Act} : ∀ {l : List α}, (∀ x ∈ l, Neutral k (f x)) → Neutral k (l.flatMap f)
  | [], _ => Neutral.nil
  | a :: l, h => by
    rw [List.flatMap_cons]
    exact (h a List.mem_cons_self).append (Neutral.flatMap fun x hx => h x (List.mem_cons_of_mem _ hx))

/-- A block within a lock: the inner part may use the lock, and otherwise only takes locks behind it. -/
theorem Neutral.lock {m : Mu} {inner : List Act}
    (h : ∀ (held : Mu → Prop) (r : List Act), held m → (∀ x, held x → rank x ≤ rank m) → Obeys held r → Obeys held (inner ++ r)) :
    Neutral (rank m) ([.lock m] ++ inner ++ [.unlock m]) := fun held r hk hr => by
  have e : [Act.lock m] ++ inner ++ [.unlock m] ++ r = .lock m :: (inner ++ (.unlock m :: r)) := by simp
  rw [e]
  refine ⟨hk, h _ _ (.inl rfl) (fun x hx => ?_) ⟨.inl rfl, obeys_congr r (fun x => ?_) hr⟩⟩
  · rcases hx with rfl | hx
    · exact Nat.le_refl _
    · exact Nat.le_of_lt (hk x hx)
  · constructor
    · exact fun hx => ⟨.inr hx, fun e => absurd (hk x hx) (by rw [e]; exact Nat.lt_irrefl _)⟩
    · rintro ⟨rfl | hx, hne⟩
      · exact (hne rfl).elim
      · exact hx

theorem Neutral.inner {k : Nat} {m : Mu} {l : List Act} (h : Neutral k l) (hk : rank m < k) (held : Mu → Prop) (r : List Act) (_ : held m)
    (hh : ∀ x, held x → rank x ≤ rank m) (hr : Obeys held r) : Obeys held (l ++ r) :=
  h held r (fun x hx => Nat.lt_of_le_of_lt (hh x hx) hk) hr

/-- A block that uses its lock first. -/
theorem Neutral.using {k : Nat} {m : Mu} {l : List Act} (h : Neutral k l) (hk : rank m < k) :
    Neutral (rank m) ([.lock m, .use m] ++ l ++ [.unlock m]) := by
  have e : [Act.lock m, .use m] ++ l ++ [.unlock m] = [.lock m] ++ (.use m :: l) ++ [.unlock m] := rfl
  rw [e]
  exact Neutral.lock fun held r hm hh hr => ⟨hm, h.inner hk held r hm hh hr⟩

theorem neutral_log : Neutral 4 logLine := Neutral.using (m := .log) (k := 5) (l := []) Neutral.nil (by decide)

theorem neutral_flock {ino : Nat} {l : List Act} (h : Neutral 4 l) (fl : Fl) : Neutral 3 (withFlock ino l fl) := by
  cases fl with
  | off => exact h.weaken (by omega)
  | refused => exact Neutral.nil
  | got => exact Neutral.using (m := .flock ino) h (by simp [rank])

theorem neutral_file (h ino : Nat) (fl : Fl) : Neutral 2 (withFile h ino fl) := by
  refine Neutral.lock (m := .file h) fun held r hm hh hr => ?_
  cases fl with
  | off => exact ⟨hm, hr⟩
  | refused => exact hr
  | got =>
    refine ⟨fun x hx => Nat.lt_of_le_of_lt (hh x hx) (by simp [rank]), .inl rfl, .inr hm, .inl rfl, obeys_congr r (fun x => ?_) hr⟩
    constructor
    · intro hx
      refine ⟨.inr hx, fun e => ?_⟩
      have := hh x hx
      rw [e] at this
      exact absurd this (by simp [rank])
    · rintro ⟨rfl | hx, hne⟩
      · exact (hne rfl).elim
      · exact hx

theorem neutral_table {m : Mu} (hm : rank m = 1) {t : Tx} (ht : t.begun = true) {l : List Act} (h : Neutral 2 l) : Neutral 1 (withTable m t l) := by
  rw [withTable, if_pos ht, ← hm, List.append_assoc [Act.lock m, .use m]]
  refine Neutral.using (k := 2) (h.append ?_) (by omega)
  split
  · exact Neutral.nil
  · exact neutral_log.weaken (by omega)

theorem neutral_met {h : Nat} {x : Met} (hx : ∀ t found, x = .long t found → t.begun = true) : Neutral 1 (metActs h x) := by
  cases x with
  | short => exact Neutral.nil
  | skipped => exact neutral_log.weaken (by omega)
  | long t found =>
    refine (neutral_table (m := .listed h) rfl (hx t found rfl) Neutral.nil).append ?_
    split
    · exact Neutral.nil
    · exact neutral_log.weaken (by omega)

theorem neutral_openFile (f : Option (Nat × Fl)) : Neutral 3 (openFile f) := by
  rcases f with _ | ⟨ino, fl⟩
  · exact Neutral.nil
  · exact neutral_flock Neutral.nil fl

theorem neutral_open {table : Option (Nat × Tx)} (ht : ∀ n t, table = some (n, t) → t.begun = true) (file : Option (Nat × Fl)) (h : Nat) (kept : Bool)
    (trunc : Option Fl) : Neutral 1 (openActs table file h kept trunc) := by
  refine Neutral.append ?_ ?_
  · rcases table with _ | ⟨n, t⟩
    · exact (neutral_openFile file).weaken (by omega)
    · exact neutral_table (m := .called n) rfl (ht n t rfl) ((neutral_openFile file).weaken (by omega))
  · have key : ∀ (b : Bool), Neutral 1 (match trunc, openedIno file kept with
        | some fl, some ino => if b then withFile h ino fl else []
        | _, _ => []) := by
      intro b
      split
      · split
        · exact (neutral_file _ _ _).weaken (by omega)
        · exact Neutral.nil
      · exact Neutral.nil
    exact key _

theorem neutral_call (c : LiteCall) (hc : Begun c) : Neutral 0 c.acts := by
  cases c with
  | plain => exact Neutral.nil
  | getattr ino fl failed =>
    refine Neutral.append ((neutral_flock Neutral.nil fl).weaken (by omega)) ?_
    split
    · exact neutral_log.weaken (by omega)
    · exact Neutral.nil
  | onFile h ino fl => exact (neutral_file h ino fl).weaken (by omega)
  | onDir h => exact Neutral.using (m := .dir h) (k := 1) (l := []) Neutral.nil (by simp [rank])
  | readdir h met =>
    exact Neutral.using (m := .dir h) (k := 1) (Neutral.flatMap fun x hx => neutral_met fun t found e => hc t found (e ▸ hx)) (by simp [rank])
  | names n t => exact (neutral_table (m := .called n) rfl hc Neutral.nil).weaken (by omega)
  | «open» table file h kept trunc =>
    refine (neutral_open (fun n t e => ?_) file h kept trunc).weaken (by omega)
    subst e
    exact hc
  | truncate file h kept fl => exact (neutral_open (table := none) (fun _ _ e => by cases e) file h kept (some fl)).weaken (by omega)

theorem obeys_call (c : LiteCall) (hc : Begun c) : Obeys (fun _ => False) c.acts := by
  have := neutral_call c hc (fun _ => False) [] (fun _ h => h.elim) (fun _ h => h)
  rwa [List.append_nil] at this

namespace LockSys

/-- Every thread keeps to the rules from here on. -/
structure Good (s : LockSys) : Prop where
  obeys : ∀ t a, s.threads[t]? = some a → Obeys (fun m => s.owner m = some t) a
  known : ∀ m t, s.owner m = some t → t < s.threads.length

theorem good_init : Good init := ⟨fun t a h => by simp [init] at h, fun m t h => by simp [init] at h⟩

theorem good_begin {s : LockSys} (h : Good s) {c : LiteCall} (hc : Begun c) : Good (s.apply (.begin c)) := by
  constructor
  · intro t a ht
    simp only [apply] at ht
    rcases Nat.lt_trichotomy t s.threads.length with hlt | he | hgt
    · rw [List.getElem?_append_left hlt] at ht
      exact h.obeys t a ht
    · subst he
      rw [List.getElem?_append_right (Nat.le_refl _), Nat.sub_self] at ht
      cases ht
      exact obeys_congr _ (fun m => ⟨fun f => f.elim, fun e => absurd (h.known m _ e) (Nat.lt_irrefl _)⟩) (obeys_call c hc)
    · rw [List.getElem?_eq_none (by simp; omega)] at ht
      cases ht
  · intro m t hm
    have := h.known m t hm
    simp only [apply, List.length_append, List.length_singleton]
    omega

/-- A step of a thread whose next act is known. -/
theorem good_move {s s' : LockSys} (h : Good s) {t : Nat} {x : Act} {r : List Act} (ht : s.threads[t]? = some (x :: r))
    (hth : s'.threads = s.threads.set t r) (ho : ∀ u, u ≠ t → ∀ m, s'.owner m = some u ↔ s.owner m = some u)
    (hr : Obeys (fun m => s'.owner m = some t) r) : Good s' := by
  have hlt : t < s.threads.length := (List.getElem?_eq_some_iff.1 ht).1
  constructor
  · intro u a hu
    rw [hth] at hu
    by_cases e : u = t
    · subst e
      rw [List.getElem?_set_self hlt] at hu
      cases hu
      exact hr
    · rw [List.getElem?_set_ne (Ne.symm e)] at hu
      exact obeys_congr a (fun m => (ho u e m).symm) (h.obeys u a hu)
  · intro m u hm
    rw [hth, List.length_set]
    by_cases e : u = t
    · rw [e]; exact hlt
    · exact h.known m u ((ho u e m).1 hm)

theorem good_step {s s' : LockSys} (h : Good s) {t : Nat} (hs : s.step t = some s') :
    Good s' ∧ ∃ x r, s.threads[t]? = some (x :: r) ∧ s'.threads = s.threads.set t r := by
  unfold step at hs
  split at hs
  · cases hs
  · cases hs
  · rename_i m r ht
    split at hs
    · rename_i hm
      cases hs
      have ho := h.obeys t _ ht
      refine ⟨good_move h ht rfl (fun u hu x => ?_) (obeys_congr r (fun x => ?_) ho.2), _, _, ht, rfl⟩
      · simp only [setOwner]
        split
        · rename_i e
          subst e
          rw [hm]
          constructor
          · intro e'; injection e' with e'; exact (hu e'.symm).elim
          · intro e'; cases e'
        · exact Iff.rfl
      · simp only [setOwner]
        by_cases e : x = m <;> simp [e]
    · cases hs
  · rename_i m r ht
    split at hs
    · cases hs
      exact ⟨good_move h ht rfl (fun _ _ _ => Iff.rfl) (h.obeys t _ ht).2, _, _, ht, rfl⟩
    · cases hs
  · rename_i m r ht
    split at hs
    · rename_i hm
      cases hs
      have ho := h.obeys t _ ht
      refine ⟨good_move h ht rfl (fun u hu x => ?_) (obeys_congr r (fun x => ?_) ho.2), _, _, ht, rfl⟩
      · simp only [setOwner]
        split
        · rename_i e
          subst e
          rw [hm]
          constructor
          · intro e'; cases e'
          · intro e'; injection e' with e'; exact (hu e'.symm).elim
        · exact Iff.rfl
      · simp only [setOwner]
        by_cases e : x = m <;> simp [e]
    · cases hs

theorem good_run : ∀ {evs : List Ev} {s : LockSys}, Good s → HistoryBegun evs → Good (s.run evs)
  | [], _, h, _ => h
  | .begin c :: evs, s, h, hb =>
    good_run (evs := evs) (good_begin h (hb c List.mem_cons_self)) fun c' hc' => hb c' (List.mem_cons_of_mem _ hc')
  | .step t :: evs, s, h, hb => by
    refine good_run (evs := evs) (s := s.apply (.step t)) ?_ fun c' hc' => hb c' (List.mem_cons_of_mem _ hc')
    simp only [apply]
    cases hs : s.step t with
    | none => exact h
    | some s' => exact (good_step h hs).1

/-- A thread that cannot go on waits for a lock that another one has. -/
theorem waits_other {s : LockSys} (h : Good s) {t : Nat} {x : Act} {r : List Act} (ht : s.threads[t]? = some (x :: r)) (hs : s.step t = none) :
    ∃ m u, x = .lock m ∧ s.owner m = some u ∧ u ≠ t := by
  have ho := h.obeys t _ ht
  unfold step at hs
  rw [ht] at hs
  cases x with
  | lock m =>
    simp only at hs
    cases hm : s.owner m with
    | none => rw [if_pos hm] at hs; cases hs
    | some u =>
      refine ⟨m, u, rfl, hm, fun e => ?_⟩
      rw [e] at hm
      exact absurd (ho.1 m hm) (Nat.lt_irrefl _)
  | use m => simp only [if_pos ho.1] at hs; cases hs
  | unlock m => simp only [if_pos ho.1] at hs; cases hs

/-- A thread that waits for a lock is not the last word: its owner can go on, or waits for a later one. -/
theorem can_go {s : LockSys} (h : Good s) : ∀ (n : Nat) {m : Mu} {u : Nat}, s.owner m = some u → 5 ≤ rank m + n → ∃ t, s.step t ≠ none
  | 0, m, _, _, hn => by cases m <;> simp [rank] at hn
  | n + 1, m, u, hm, hn => by
    have hlt := h.known m u hm
    obtain ⟨a, ha⟩ : ∃ a, s.threads[u]? = some a := ⟨_, List.getElem?_eq_getElem hlt⟩
    have ho := h.obeys u a ha
    cases a with
    | nil => exact (ho m hm).elim
    | cons x r =>
      by_cases hs : s.step u = none
      · obtain ⟨m', u', rfl, hm', _⟩ := waits_other h ha hs
        exact can_go h n hm' (by have := ho.1 m hm; omega)
      · exact ⟨u, hs⟩

theorem not_stuck {s : LockSys} (h : Good s) : ¬ Deadlocked s := by
  rintro ⟨hd, hs⟩
  refine hd fun a ha => ?_
  obtain ⟨t, ht⟩ := List.getElem?_of_mem ha
  cases a with
  | nil => rfl
  | cons x r =>
    obtain ⟨m, u, _, hm, _⟩ := waits_other h ht (hs t)
    obtain ⟨v, hv⟩ := can_go h 5 hm (by omega)
    exact (hv (hs v)).elim

theorem left_step {s s' : LockSys} (h : Good s) {t : Nat} (hs : s.step t = some s') : left s = left s' + 1 := by
  obtain ⟨_, x, r, ht, hth⟩ := good_step h hs
  have key : ∀ (l : List (List Act)) (t : Nat), l[t]? = some (x :: r) → (l.map List.length).sum = ((l.set t r).map List.length).sum + 1 := by
    intro l
    induction l with
    | nil => intro t h; simp at h
    | cons a l ih =>
      intro t h
      cases t with
      | zero =>
        simp only [List.getElem?_cons_zero, Option.some.injEq] at h
        subst h
        simp only [List.set_cons_zero, List.map_cons, List.sum_cons, List.length_cons]
        omega
      | succ t =>
        rw [List.getElem?_cons_succ] at h
        have := ih t h
        simp only [List.set_cons_succ, List.map_cons, List.sum_cons]
        omega
  rw [left, left, hth]
  exact key _ _ ht

theorem moves_le : ∀ (ts : List Nat) {s : LockSys}, Good s → moves s ts + left (s.run (ts.map .step)) = left s
  | [], _, _ => by simp [moves, run]
  | t :: ts, s, h => by
    rw [moves, List.map_cons, run, List.foldl_cons]
    simp only [apply]
    cases hs : s.step t with
    | none => exact moves_le ts h
    | some s' =>
      have := moves_le ts (good_step h hs).1
      have := left_step h hs
      simp only [Option.getD_some]
      rw [run] at *
      omega

theorem ends : ∀ (n : Nat) {s : LockSys}, Good s → left s ≤ n → ∃ ts : List Nat, AllDone (s.run (ts.map .step))
  | n, s, h, hn => by
    by_cases hd : AllDone s
    · exact ⟨[], hd⟩
    · have : ∃ t, s.step t ≠ none := by
        by_contra hne
        exact not_stuck h ⟨hd, fun t => by
          by_contra ht
          exact hne ⟨t, ht⟩⟩
      obtain ⟨t, ht⟩ := this
      cases hs : s.step t with
      | none => exact (ht hs).elim
      | some s' =>
        have hl := left_step h hs
        cases n with
        | zero => omega
        | succ n =>
          obtain ⟨ts, hts⟩ := ends n (good_step h hs).1 (by omega)
          refine ⟨t :: ts, ?_⟩
          rw [List.map_cons, run, List.foldl_cons]
          simp only [apply, hs, Option.getD_some]
          exact hts

theorem run_append (s : LockSys) (a b : List Ev) : s.run (a ++ b) = (s.run a).run b := by rw [run, List.foldl_append]; rfl

/-- A thread that waits for a lock of its own, and has all locks of `own`. -/
def SelfBlocked (s : LockSys) (t : Nat) (m : Mu) (own : Mu → Prop) : Prop :=
  (∀ x, own x → s.owner x = some t) ∧ own m ∧ ∃ r, s.threads[t]? = some (.lock m :: r)

/-- It waits for ever and keeps them. -/
theorem selfBlocked_step {s : LockSys} {t : Nat} {m : Mu} {own : Mu → Prop} (h : SelfBlocked s t m own) (e : Ev) : SelfBlocked (s.apply e) t m own := by
  obtain ⟨ho, hm, r, hr⟩ := h
  have hlt : t < s.threads.length := (List.getElem?_eq_some_iff.1 hr).1
  cases e with
  | begin c => exact ⟨ho, hm, r, by simp only [apply]; rw [List.getElem?_append_left hlt]; exact hr⟩
  | step u =>
    simp only [apply]
    cases hs : s.step u with
    | none => exact ⟨ho, hm, r, hr⟩
    | some s' =>
      have hne : u ≠ t := by
        intro e
        subst e
        unfold step at hs
        rw [hr] at hs
        simp [ho m hm] at hs
      unfold step at hs
      split at hs
      · cases hs
      · cases hs
      · rename_i m' r' hu
        split at hs
        · rename_i hm'
          cases hs
          refine ⟨fun x hx => ?_, hm, r, ?_⟩
          · simp only [Option.getD_some, setOwner]
            split
            · rename_i e
              have := ho x hx
              rw [e, hm'] at this
              cases this
            · exact ho x hx
          · simp only [Option.getD_some]
            rw [List.getElem?_set_ne hne]
            exact hr
        · cases hs
      · split at hs
        · cases hs
          refine ⟨ho, hm, r, ?_⟩
          simp only [Option.getD_some]
          rw [List.getElem?_set_ne hne]
          exact hr
        · cases hs
      · rename_i m' r' hu
        split at hs
        · rename_i hm'
          cases hs
          refine ⟨fun x hx => ?_, hm, r, ?_⟩
          · simp only [Option.getD_some, setOwner]
            split
            · rename_i e
              have := ho x hx
              rw [e, hm'] at this
              injection this with this
              exact (hne this).elim
            · exact ho x hx
          · simp only [Option.getD_some]
            rw [List.getElem?_set_ne hne]
            exact hr
        · cases hs

theorem selfBlocked_run : ∀ (evs : List Ev) {s : LockSys} {t : Nat} {m : Mu} {own : Mu → Prop}, SelfBlocked s t m own → SelfBlocked (s.run evs) t m own
  | [], _, _, _, _, h => h
  | e :: evs, _, _, _, _, h => selfBlocked_run evs (selfBlocked_step h e)

theorem selfBlocked_waits {s : LockSys} {t : Nat} {m : Mu} {own : Mu → Prop} (h : SelfBlocked s t m own) : Waits s t := by
  obtain ⟨ho, hm, r, hr⟩ := h
  refine ⟨⟨_, _, hr⟩, ?_⟩
  unfold step
  rw [hr]
  simp [ho m hm]

end LockSys

end Securefs.Ll
