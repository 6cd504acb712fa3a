import Verif.Proofs.FullVolumeEvents
/-! Helper lemmas: older versions of backing files, session after session. -/

namespace Securefs.Vol

open Securefs Spec FileEnv

variable {V : VolEnv} {τ : Bytes → Nat}

theorem lookup_mem {α : Type} {l : List (Bytes × α)} {x : Bytes} {a : α} (h : l.lookup x = some a) : (x, a) ∈ l := by
  induction l with
  | nil => cases h
  | cons p l ih =>
    obtain ⟨k, y⟩ := p
    rw [List.lookup_cons] at h
    by_cases hk : x = k
    · subst hk
      rw [beq_self_eq_true] at h
      injection h with h
      subst h
      exact List.mem_cons_self
    · rw [show (x == k) = false by simpa using hk] at h
      exact List.mem_cons_of_mem _ (ih h)

theorem lookup_filterMap {α : Type} (g : Bytes → Option α) (x : Bytes) : ∀ (ids : List Bytes), x ∈ ids ∨ g x = none →
    (ids.filterMap fun id => (g id).map fun a => (id, a)).lookup x = g x
  | [], h => by
    rcases h with h | h
    · cases h
    · rw [h]; rfl
  | i :: ids, h => by
    rw [List.filterMap_cons]
    by_cases hx : x = i
    · subst hx
      cases hg : g x with
      | none =>
        have := lookup_filterMap g x ids (.inr hg)
        rw [hg] at this
        exact this
      | some a =>
        dsimp only [Option.map]
        rw [List.lookup_cons, beq_self_eq_true]
    · have hr : x ∈ ids ∨ g x = none := by
        rcases h with h | h
        · rcases List.mem_cons.1 h with h | h
          · exact absurd h hx
          · exact .inl h
        · exact .inr h
      have hb : (x == i) = false := by simpa using hx
      cases hg : g i with
      | none => exact lookup_filterMap g x ids hr
      | some a =>
        dsimp only [Option.map]
        rw [List.lookup_cons, hb]
        exact lookup_filterMap g x ids hr

/-- What is picked. -/
theorem pickOld_lookup {α : Type} (old : List (List (Bytes × α))) (pick : Bytes → Option Nat) (x : Bytes) :
    (pickOld old pick).lookup x = (pick x).bind fun k => old[k]?.bind fun l => l.lookup x := by
  unfold pickOld
  refine lookup_filterMap (fun id => (pick id).bind fun k => old[k]?.bind fun l => l.lookup id) x _ ?_
  cases hk : pick x with
  | none => exact .inr rfl
  | some k =>
    cases hl : old[k]? with
    | none => right; show (old[k]?).bind _ = none; rw [hl]; rfl
    | some l =>
      cases ha : l.lookup x with
      | none => right; show (old[k]?).bind _ = none; rw [hl]; exact ha
      | some a =>
        left
        refine List.mem_map.2 ⟨(x, a), List.mem_flatten.2 ⟨l, List.mem_of_getElem? hl, ?_⟩, rfl⟩
        exact lookup_mem ha

/-- Each of the versions that the storage has belongs to a state. -/
def AllSaved (V : VolEnv) (τ : Bytes → Nat) (old : List (List (Bytes × Bytes × Bytes))) (fss : List FullFs) : Prop := List.Forall₂ (Saved V τ) old fss

theorem forall2_get {α β : Type} {P : α → β → Prop} {l : List α} {m : List β} (h : List.Forall₂ P l m) (k : Nat) :
    (l[k]? = none ∧ m[k]? = none) ∨ ∃ a b, l[k]? = some a ∧ m[k]? = some b ∧ P a b := by
  induction h generalizing k with
  | nil => exact .inl ⟨rfl, rfl⟩
  | @cons a b l m hab _ ih =>
    cases k with
    | zero => exact .inr ⟨a, b, rfl, rfl, hab⟩
    | succ k => simpa using ih k

theorem forall2_snoc {α β : Type} {P : α → β → Prop} {l : List α} {m : List β} (h : List.Forall₂ P l m) {a : α} {b : β} (hab : P a b) :
    List.Forall₂ P (l ++ [a]) (m ++ [b]) := by
  induction h with
  | nil => exact .cons hab .nil
  | cons h1 _ ih => exact .cons h1 ih

/-- The state that the versions belong to that are picked. -/
def pickState (fss : List FullFs) (pick : Bytes → Option Nat) (now : TimeSpec) : FullFs := ⟨pickOld (fss.map FullFs.nodes) pick, now⟩

theorem pickState_get (fss : List FullFs) (pick : Bytes → Option Nat) (now : TimeSpec) (x : Bytes) :
    (pickState fss pick now).get x = (pick x).bind fun k => fss[k]?.bind fun fs => fs.get x := by
  show (pickOld (fss.map FullFs.nodes) pick).lookup x = _
  rw [pickOld_lookup]
  cases pick x with
  | none => rfl
  | some k =>
    show ((fss.map FullFs.nodes)[k]?).bind _ = (fss[k]?).bind _
    rw [List.getElem?_map]
    cases fss[k]? <;> rfl

theorem saved_pick {old : List (List (Bytes × Bytes × Bytes))} {fss : List FullFs} (h : AllSaved V τ old fss) (pick : Bytes → Option Nat)
    (now : TimeSpec) : Saved V τ (pickOld old pick) (pickState fss pick now) := by
  have back : ∀ x n, (pickState fss pick now).get x = some n → ∃ st fs, Saved V τ st fs ∧ fs.get x = some n := by
    intro x n hx
    rw [pickState_get] at hx
    cases hk : pick x with
    | none => rw [hk] at hx; cases hx
    | some k =>
      rw [hk] at hx
      rcases forall2_get h k with ⟨_, h2⟩ | ⟨st, fs, _, h2, h3⟩
      · rw [Option.bind_some, h2] at hx; cases hx
      · rw [Option.bind_some, h2] at hx
        exact ⟨st, fs, h3, hx⟩
  refine ⟨fun x p hx => ?_, fun x hx => ?_, fun d n e hd he => ?_, fun x n hx => ?_⟩
  · rw [pickOld_lookup] at hx
    rw [pickState_get]
    cases hk : pick x with
    | none => rw [hk] at hx; cases hx
    | some k =>
      rw [hk] at hx
      rcases forall2_get h k with ⟨h1, _⟩ | ⟨st, fs, h1, h2, h3⟩
      · rw [Option.bind_some, h1] at hx; cases hx
      · rw [Option.bind_some, h1] at hx
        rw [Option.bind_some, h2]
        exact h3.some x p hx
  · rw [pickOld_lookup] at hx
    rw [pickState_get]
    cases hk : pick x with
    | none => rfl
    | some k =>
      rw [hk] at hx
      rcases forall2_get h k with ⟨_, h2⟩ | ⟨st, fs, h1, h2, h3⟩
      · rw [Option.bind_some, h2]; rfl
      · rw [Option.bind_some, h1] at hx
        rw [Option.bind_some, h2]
        exact h3.none x hx
  · obtain ⟨st, fs, h1, h2⟩ := back d n hd
    exact h1.typed d n e h2 he
  · obtain ⟨st, fs, h1, h2⟩ := back x n hx
    exact h1.ids x n h2

theorem lookup_map_snd {α β : Type} (f : α → β) (x : Bytes) : ∀ (l : List (Bytes × α)), (l.map fun p => (p.1, f p.2)).lookup x = (l.lookup x).map f
  | [] => rfl
  | (a, b) :: l => by
    rw [List.map_cons, List.lookup_cons, List.lookup_cons]
    cases x == a with
    | true => rfl
    | false => exact lookup_map_snd f x l

theorem putBack_get (cfg : FsCfg) (fss : List FullFs) (pick : Bytes → Option Nat) (now : TimeSpec) (x : Bytes) :
    (putBack cfg fss pick now).get x = (((pickState fss pick now).get x).map fun n => { n with parent := zeros 32 }).or ((FullFs.fresh cfg now).get x) := by
  show ((pickOld (fss.map FullFs.nodes) pick).map (fun p => (p.1, (fun n : Inode => { n with parent := zeros 32 }) p.2)) ++ _).lookup x = _
  have e := lookup_map_snd (fun n : Inode => ({ n with parent := zeros 32 } : Inode)) x (pickOld (fss.map FullFs.nodes) pick)
  rw [List.lookup_append]
  exact congrArg (fun o : Option Inode => o.or ((FullFs.fresh cfg now).get x)) e

section
variable (hV : VolEnvOk V) (hτ : τ kRootId = 4)
include hV hτ

/-- One session. -/
theorem session_ok {old : List (List (Bytes × Bytes × Bytes))} {fss : List FullFs} (h : AllSaved V τ old fss) (opened : Nat) {s : VolSession}
    (hn : ValidTime s.now) : ∃ v, volMount V (pickOld old s.pick) opened s.now = .ok v ∧
      ∃ done rest rs I, done ++ rest = s.events ∧ IdealFits V.env (idealCfg V) τ ⟨putBack (idealCfg V) fss s.pick s.now, []⟩ done rs I ∧
        List.Forall₂ ResultLike (volRun V v done).1 rs ∧ (∃ st, volUnmount V (volRun V v done).2 = .ok st ∧ Saved V τ st I.fs) ∧
        ∀ e, rest.head? = some e → ¬ EventFits V.env (idealCfg V) τ I e := by
  obtain ⟨v, e, hv⟩ := mount_old hV (saved_pick h s.pick s.now) hτ opened hn (J := putBack (idealCfg V) fss s.pick s.now) rfl
    (putBack_get _ _ _ _)
  obtain ⟨done, rest, rs, I, h1, h2, h3, h4, h5⟩ := run_fits hV s.events hv
  exact ⟨v, e, done, rest, rs, I, h1, h2, h3, unmount_ok hV h4, h5⟩

/-- Session after session. -/
theorem life_ok : ∀ (ss : List VolSession) {old : List (List (Bytes × Bytes × Bytes))} {fss : List FullFs} (opened : Nat), AllSaved V τ old fss →
    ∃ done rest ans new rss fss', done ++ rest = ss ∧ volLife V old opened done = .ok (ans, new) ∧ IdealLife V.env (idealCfg V) τ fss done rss fss' ∧
      List.Forall₂ (List.Forall₂ ResultLike) ans rss ∧ AllSaved V τ new fss' ∧
      ∀ s, rest.head? = some s → ¬ ValidTime s.now ∨ ∃ evs e evs' rs I, evs ++ e :: evs' = s.events ∧
        IdealFits V.env (idealCfg V) τ ⟨putBack (idealCfg V) fss' s.pick s.now, []⟩ evs rs I ∧ ¬ EventFits V.env (idealCfg V) τ I e
  | [], old, fss, opened, h => ⟨[], [], [], old, [], fss, rfl, rfl, .nil, .nil, h, fun s hs => by cases hs⟩
  | s :: ss, old, fss, opened, h => by
    have stop : (¬ ValidTime s.now ∨ ∃ evs e evs' rs I, evs ++ e :: evs' = s.events ∧
        IdealFits V.env (idealCfg V) τ ⟨putBack (idealCfg V) fss s.pick s.now, []⟩ evs rs I ∧ ¬ EventFits V.env (idealCfg V) τ I e) →
      ∃ done rest ans new rss fss', done ++ rest = s :: ss ∧ volLife V old opened done = .ok (ans, new) ∧ IdealLife V.env (idealCfg V) τ fss done rss fss' ∧
      List.Forall₂ (List.Forall₂ ResultLike) ans rss ∧ AllSaved V τ new fss' ∧
      ∀ s, rest.head? = some s → ¬ ValidTime s.now ∨ ∃ evs e evs' rs I, evs ++ e :: evs' = s.events ∧
        IdealFits V.env (idealCfg V) τ ⟨putBack (idealCfg V) fss' s.pick s.now, []⟩ evs rs I ∧ ¬ EventFits V.env (idealCfg V) τ I e :=
      fun hx => ⟨[], s :: ss, [], old, [], fss, rfl, rfl, .nil, .nil, h, fun t ht => by injection ht with ht; subst ht; exact hx⟩
    by_cases hn : ValidTime s.now
    · obtain ⟨v, e, done, rest, rs, I, h1, h2, h3, ⟨st, hst, hsv⟩, h5⟩ := session_ok hV hτ h opened hn
      cases rest with
      | cons x rest => exact stop (.inr ⟨done, x, rest, rs, I, h1, h2, h5 x rfl⟩)
      | nil =>
        rw [List.append_nil] at h1
        subst h1
        obtain ⟨d, r, ans, new, rss, fss', k1, k2, k3, k4, k5, k6⟩ := life_ok ss (volRun V v s.events).2.opened (forall2_snoc h hsv)
        refine ⟨s :: d, r, (volRun V v s.events).1 :: ans, new, rs :: rss, fss', by rw [← k1]; rfl, ?_, .cons hn h2 k3, .cons h3 k4, k5, k6⟩
        rw [volLife]
        unfold volSession
        rw [e]
        dsimp only
        rw [hst]
        dsimp only
        rw [k2]
        rfl
    · exact stop (.inl hn)

end

end Securefs.Vol
