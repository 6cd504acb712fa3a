import Verif.Spec.ThreadLocal
import Mathlib.Data.List.Nodup
import Mathlib.Data.List.Perm.Subperm
/-!
# Lemmas about per-thread objects
-/

namespace Securefs

open Spec

variable {V : Type}

/-- The present owner of a number. -/
def TlSys.alive (s : TlSys V) (o : Nat) (w : TlOwner) : Prop := s.owners[o]? = some (some w)

/-- What a holder contains for an owner. -/
def TlHolder.of (h : TlHolder V) (w : TlOwner) : Option (TlObj V) := if h.generation = w.generation then h.data else none

/-- The relation between slots and the specification. -/
structure TlRel (s : TlSys V) (a : TlSpec V) : Prop where
  taken_length : s.taken.length = 256
  count : s.owners.length = a.count
  made : s.made = a.made
  nodup : a.live.Nodup
  live : ∀ o, o ∈ a.live ↔ ∃ w, s.alive o w
  slot : ∀ o w, s.alive o w → s.taken[w.index]? = some true
  free : ∀ i, s.taken[i]? = some true → ∃ o w, s.alive o w ∧ w.index = i
  index : ∀ o o' w w', s.alive o w → s.alive o' w' → w.index = w'.index → o = o'
  gen : ∀ o w, s.alive o w → w.generation ≤ s.generation
  held : ∀ t i, (s.locals t i).generation ≤ s.generation
  pos : 0 ≤ s.generation
  obj : ∀ o w t, s.alive o w → a.obj o t = (s.locals t w.index).of w
  fresh : ∀ o t, a.count ≤ o → a.obj o t = none
  serial : ∀ t i x, (s.locals t i).data = some x → x.serial < s.made ∧ x.serial ∉ s.destroyed
  distinct : ∀ t i t' i' x x', (s.locals t i).data = some x → (s.locals t' i').data = some x' → x.serial = x'.serial → t = t' ∧ i = i'
  dead : ∀ n ∈ s.destroyed, n < s.made
  once : s.destroyed.Nodup
  range : ∀ t i x, (s.locals t i).data = some x → i < 256

theorem TlRel.init : TlRel (TlSys.init : TlSys V) TlSpec.init where
  taken_length := List.length_replicate
  count := rfl
  made := rfl
  nodup := List.nodup_nil
  live o := by simp [TlSpec.init, TlSys.alive, TlSys.init]
  slot o w h := by simp [TlSys.alive, TlSys.init] at h
  free i h := by
    simp only [TlSys.init, List.getElem?_replicate] at h
    split at h <;> simp at h
  index o o' w w' h := by simp [TlSys.alive, TlSys.init] at h
  gen o w h := by simp [TlSys.alive, TlSys.init] at h
  held t i := by simp [TlSys.init]
  pos := Int.le_refl _
  obj o w t h := by simp [TlSys.alive, TlSys.init] at h
  fresh o t h := rfl
  serial t i x h := by simp [TlSys.init] at h
  distinct t i t' i' x x' h := by simp [TlSys.init] at h
  dead n h := by simp [TlSys.init] at h
  once := List.nodup_nil
  range t i x h := by simp [TlSys.init] at h

theorem findIdx?_none_all {l : List Bool} (h : l.findIdx? (· == false) = none) (i : Nat) (hi : i < l.length) : l[i]? = some true := by
  rw [List.findIdx?_eq_none_iff] at h
  have := h _ (List.getElem_mem hi)
  rw [List.getElem?_eq_getElem hi]
  cases hb : l[i] with
  | true => rfl
  | false => rw [hb] at this; cases this

theorem findIdx?_some_free {l : List Bool} {i : Nat} (h : l.findIdx? (· == false) = some i) : l[i]? = some false ∧ i < l.length := by
  rw [List.findIdx?_eq_some_iff_getElem] at h
  obtain ⟨hi, h1, _⟩ := h
  refine ⟨?_, hi⟩
  rw [List.getElem?_eq_getElem hi]
  simpa using h1

/-- A list without repetition with all numbers below `n` among its images is at least that long. -/
theorem length_ge_of_cover {l : List Nat} {n : Nat} (h : ∀ i < n, i ∈ l) : n ≤ l.length := by
  have : List.range n ⊆ l := fun i hi => h i (List.mem_range.mp hi)
  have := (List.subperm_of_subset List.nodup_range this).length_le
  simpa using this

/-- A list without repetition of numbers below `n`, one of which is missing, is shorter. -/
theorem length_lt_of_missing {l : List Nat} {n k : Nat} (hn : l.Nodup) (h : ∀ i ∈ l, i < n) (hk : k < n) (hk' : k ∉ l) : l.length < n := by
  have hsub : (k :: l) ⊆ List.range n := by
    intro i hi
    rcases List.mem_cons.mp hi with rfl | hi
    · exact List.mem_range.mpr hk
    · exact List.mem_range.mpr (h i hi)
  have := (List.subperm_of_subset (List.nodup_cons.mpr ⟨hk', hn⟩) hsub).length_le
  simp at this
  omega

/-- The slot of an owner. -/
def TlSys.slotOf (s : TlSys V) (o : Nat) : Nat :=
  match s.owners[o]? with
  | some (some w) => w.index
  | _ => 0

theorem TlSys.slotOf_alive {s : TlSys V} {o : Nat} {w : TlOwner} (h : s.alive o w) : s.slotOf o = w.index := by
  unfold TlSys.slotOf
  rw [show s.owners[o]? = some (some w) from h]

theorem TlRel.room {s : TlSys V} {a : TlSpec V} (h : TlRel s a) : (s.taken.findIdx? (· == false)).isSome ↔ a.live.length < 256 := by
  have hnd : (a.live.map s.slotOf).Nodup := by
    rw [List.nodup_map_iff_inj_on h.nodup]
    intro o ho o' ho' he
    obtain ⟨w, hw⟩ := (h.live o).mp ho
    obtain ⟨w', hw'⟩ := (h.live o').mp ho'
    rw [TlSys.slotOf_alive hw, TlSys.slotOf_alive hw'] at he
    exact h.index _ _ _ _ hw hw' he
  have hmem : ∀ i, i ∈ a.live.map s.slotOf ↔ s.taken[i]? = some true := by
    intro i
    rw [List.mem_map]
    constructor
    · rintro ⟨o, ho, rfl⟩
      obtain ⟨w, hw⟩ := (h.live o).mp ho
      rw [TlSys.slotOf_alive hw]
      exact h.slot _ _ hw
    · intro hi
      obtain ⟨o, w, hw, rfl⟩ := h.free i hi
      exact ⟨o, (h.live o).mpr ⟨w, hw⟩, TlSys.slotOf_alive hw⟩
  constructor
  · intro hs
    obtain ⟨i, hi⟩ := Option.isSome_iff_exists.mp hs
    obtain ⟨h1, h2⟩ := findIdx?_some_free hi
    have := length_lt_of_missing hnd (n := 256) (k := i) (by
      intro j hj
      have := (hmem j).mp hj
      have := (List.getElem?_eq_some_iff.mp this).1
      rw [h.taken_length] at this
      exact this) (by rw [h.taken_length] at h2; exact h2) (by
      intro hm
      rw [hmem, h1] at hm
      cases hm)
    simpa using this
  · intro hlt
    cases hf : s.taken.findIdx? (· == false) with
    | some i => rfl
    | none =>
      have := length_ge_of_cover (l := a.live.map s.slotOf) (n := 256) (by
        intro i hi
        rw [hmem]
        exact findIdx?_none_all hf i (by rw [h.taken_length]; exact hi))
      simp at this
      omega

theorem TlRel.create {s : TlSys V} {a : TlSpec V} (h : TlRel s a) :
    (s.step .create).1 = (a.step .create).1 ∧ TlRel (s.step .create).2 (a.step .create).2 := by
  show s.create.1 = _ ∧ TlRel s.create.2 _
  unfold TlSys.create TlSpec.step
  have hroom := h.room
  cases hf : s.taken.findIdx? (· == false) with
  | none =>
    rw [hf] at hroom
    have : ¬ a.live.length < 256 := fun hh => by simpa using hroom.mpr hh
    rw [if_neg this]
    exact ⟨rfl, h⟩
  | some i =>
    rw [hf] at hroom
    rw [if_pos (hroom.mp rfl)]
    obtain ⟨h1, h2⟩ := findIdx?_some_free hf
    dsimp only
    have halive : ∀ o w, TlSys.alive { s with taken := s.taken.set i true, generation := s.generation + 1, owners := s.owners ++ [some ⟨i, s.generation + 1⟩] } o w ↔ s.alive o w ∨ (o = s.owners.length ∧ w = ⟨i, s.generation + 1⟩) := by
      intro o w
      unfold TlSys.alive
      dsimp only
      rcases Nat.lt_trichotomy o s.owners.length with ho | ho | ho
      · rw [List.getElem?_append_left ho]
        constructor
        · exact .inl
        · rintro (hh | ⟨rfl, _⟩)
          · exact hh
          · omega
      · subst ho
        rw [List.getElem?_append_right (Nat.le_refl _), List.getElem?_eq_none (Nat.le_refl _)]
        simp only [Nat.sub_self, List.getElem?_cons_zero, Option.some.injEq]
        constructor
        · intro hh; exact .inr ⟨trivial, hh.symm⟩
        · rintro (hh | ⟨_, hh⟩)
          · cases hh
          · exact hh.symm
      · rw [List.getElem?_eq_none (by simp; omega), List.getElem?_eq_none (by omega)]
        constructor
        · intro hh; cases hh
        · rintro (hh | ⟨rfl, _⟩)
          · cases hh
          · omega
    have hlt : ∀ o w, s.alive o w → o < s.owners.length := fun o w hh => (List.getElem?_eq_some_iff.mp hh).1
    have hidx : ∀ o w, s.alive o w → w.index ≠ i := by
      intro o w hh he
      have := h.slot o w hh
      rw [he, h1] at this
      cases this
    refine ⟨by rw [h.count], ?_⟩
    exact {
      taken_length := by simp [h.taken_length]
      count := by simp [h.count]
      made := h.made
      nodup := by
        refine List.nodup_cons.mpr ⟨?_, h.nodup⟩
        intro hm
        obtain ⟨w, hw⟩ := (h.live _).mp hm
        have := hlt _ _ hw
        rw [h.count] at this
        omega
      live := by
        intro o
        rw [List.mem_cons, h.live]
        constructor
        · rintro (rfl | ⟨w, hw⟩)
          · exact ⟨_, (halive _ _).mpr (.inr ⟨h.count.symm, rfl⟩)⟩
          · exact ⟨w, (halive _ _).mpr (.inl hw)⟩
        · rintro ⟨w, hw⟩
          rcases (halive _ _).mp hw with hw | ⟨rfl, _⟩
          · exact .inr ⟨w, hw⟩
          · exact .inl h.count
      slot := by
        intro o w hw
        dsimp only
        rcases (halive _ _).mp hw with hw | ⟨_, rfl⟩
        · rw [List.getElem?_set_ne (hidx o w hw).symm]
          exact h.slot _ _ hw
        · rw [List.getElem?_set_self h2]
      free := by
        intro j hj
        by_cases he : j = i
        · exact ⟨_, _, (halive _ _).mpr (.inr ⟨rfl, rfl⟩), he.symm⟩
        · dsimp only at hj
          rw [List.getElem?_set_ne (Ne.symm he)] at hj
          obtain ⟨o, w, hw, hi⟩ := h.free j hj
          exact ⟨o, w, (halive _ _).mpr (.inl hw), hi⟩
      index := by
        intro o o' w w' hw hw' he
        rcases (halive _ _).mp hw with hw | ⟨rfl, rfl⟩
        · rcases (halive _ _).mp hw' with hw' | ⟨rfl, rfl⟩
          · exact h.index _ _ _ _ hw hw' he
          · exact absurd he (hidx _ _ hw)
        · rcases (halive _ _).mp hw' with hw' | ⟨rfl, rfl⟩
          · exact absurd he.symm (hidx _ _ hw')
          · rfl
      gen := by
        intro o w hw
        dsimp only
        rcases (halive _ _).mp hw with hw | ⟨rfl, rfl⟩
        · have := h.gen _ _ hw; omega
        · exact Int.le_refl _
      held := by
        intro t j
        have := h.held t j
        show (s.locals t j).generation ≤ s.generation + 1
        omega
      pos := by have := h.pos; show 0 ≤ s.generation + 1; omega
      obj := by
        intro o w t hw
        show a.obj o t = (s.locals t w.index).of w
        rcases (halive _ _).mp hw with hw | ⟨rfl, rfl⟩
        · exact h.obj _ _ _ hw
        · rw [h.fresh _ _ (Nat.le_of_eq h.count.symm)]
          unfold TlHolder.of
          dsimp only
          rw [if_neg]
          have := h.held t i
          omega
      fresh := by
        intro o t ho
        dsimp only at ho
        exact h.fresh o t (by omega)
      serial := h.serial
      distinct := h.distinct
      dead := h.dead
      once := h.once
      range := h.range }

theorem TlRel.destroy {s : TlSys V} {a : TlSpec V} (h : TlRel s a) (n : Nat) :
    (s.step (.destroy n)).1 = (a.step (.destroy n)).1 ∧ TlRel (s.step (.destroy n)).2 (a.step (.destroy n)).2 := by
  show (s.destroy n).1 = _ ∧ TlRel (s.destroy n).2 _
  by_cases hm : n ∈ a.live
  · obtain ⟨w0, hw0⟩ := (h.live n).mp hm
    have hd : s.destroy n = (.done, { s with taken := s.taken.set w0.index false, owners := s.owners.set n none }) := by
      unfold TlSys.destroy
      rw [show s.owners[n]? = some (some w0) from hw0]
    have ha : a.step (.destroy n) = (.done, { a with live := a.live.erase n }) := by
      show (if n ∈ a.live then _ else _) = _; rw [if_pos hm]
    rw [hd, ha]
    refine ⟨rfl, ?_⟩
    have halive : ∀ o w, TlSys.alive { s with taken := s.taken.set w0.index false, owners := s.owners.set n none } o w ↔
        s.alive o w ∧ o ≠ n := by
      intro o w
      unfold TlSys.alive
      dsimp only
      by_cases ho : o = n
      · subst ho
        rw [List.getElem?_set_self (List.getElem?_eq_some_iff.mp hw0).1]
        simp
      · rw [List.getElem?_set_ne (Ne.symm ho)]
        simp [ho]
    exact {
      taken_length := by simp [h.taken_length]
      count := by simp [h.count]
      made := h.made
      nodup := h.nodup.erase n
      live := by
        intro o
        dsimp only
        rw [h.nodup.mem_erase_iff, h.live]
        constructor
        · rintro ⟨hne, w, hw⟩; exact ⟨w, (halive _ _).mpr ⟨hw, hne⟩⟩
        · rintro ⟨w, hw⟩
          obtain ⟨hw, hne⟩ := (halive _ _).mp hw
          exact ⟨hne, w, hw⟩
      slot := by
        intro o w hw
        obtain ⟨hw, hne⟩ := (halive _ _).mp hw
        dsimp only
        rw [List.getElem?_set_ne]
        · exact h.slot _ _ hw
        · intro he
          exact hne (h.index _ _ _ _ hw hw0 he.symm)
      free := by
        intro i hi
        dsimp only at hi
        by_cases he : i = w0.index
        · subst he
          rw [List.getElem?_set_self (List.getElem?_eq_some_iff.mp (h.slot _ _ hw0)).1] at hi
          cases hi
        · rw [List.getElem?_set_ne (Ne.symm he)] at hi
          obtain ⟨o, w, hw, hwi⟩ := h.free i hi
          refine ⟨o, w, (halive _ _).mpr ⟨hw, ?_⟩, hwi⟩
          rintro rfl
          have : w = w0 := by
            have h1 : s.owners[o]? = some (some w) := hw
            rw [show s.owners[o]? = some (some w0) from hw0] at h1
            injection h1 with h1
            injection h1 with h1
            exact h1.symm
          rw [this] at hwi
          exact he hwi.symm
      index := by
        intro o o' w w' hw hw' he
        exact h.index _ _ _ _ ((halive _ _).mp hw).1 ((halive _ _).mp hw').1 he
      gen := fun o w hw => h.gen _ _ ((halive _ _).mp hw).1
      held := h.held
      pos := h.pos
      obj := fun o w t hw => h.obj _ _ _ ((halive _ _).mp hw).1
      fresh := h.fresh
      serial := h.serial
      distinct := h.distinct
      dead := h.dead
      once := h.once
      range := h.range }
  · have hd : s.destroy n = (.error .outOfBounds, s) := by
      unfold TlSys.destroy
      cases ho : s.owners[n]? with
      | none => rfl
      | some o =>
        cases o with
        | none => rfl
        | some w => exact absurd ((h.live n).mpr ⟨w, ho⟩) hm
    have ha : a.step (.destroy n) = (.error .outOfBounds, a) := by
      show (if n ∈ a.live then _ else _) = _; rw [if_neg hm]
    rw [hd, ha]
    exact ⟨rfl, h⟩

/-- The relation when one holder becomes empty and what it contained is destroyed, and the objects that belonged to it are forgotten. -/
theorem TlRel.clear {s : TlSys V} {a : TlSpec V} (h : TlRel s a) (t i : Nat) (g : Int) (hg : g ≤ s.generation) :
    TlRel ((s.drop (s.locals t i)).setHolder t i ⟨g, none⟩)
      { a with obj := fun o t' => if t' = t ∧ s.slotOf o = i ∧ o ∈ a.live then none else a.obj o t' } := by
  have hsub : ∀ t' i' x, (((s.drop (s.locals t i)).setHolder t i ⟨g, none⟩).locals t' i').data = some x →
      (s.locals t' i').data = some x ∧ ¬ (t' = t ∧ i' = i) := by
    intro t' i' x hx
    unfold TlSys.setHolder at hx
    dsimp only at hx
    by_cases he : t' = t ∧ i' = i
    · rw [if_pos he] at hx; cases hx
    · rw [if_neg he] at hx
      refine ⟨?_, he⟩
      unfold TlSys.drop at hx
      cases hd : (s.locals t i).data with
      | none => rw [hd] at hx; exact hx
      | some o => rw [hd] at hx; exact hx
  have hmade : ((s.drop (s.locals t i)).setHolder t i ⟨g, none⟩).made = s.made := by
    unfold TlSys.setHolder TlSys.drop
    cases (s.locals t i).data <;> rfl
  have howners : ((s.drop (s.locals t i)).setHolder t i ⟨g, none⟩).owners = s.owners := by
    unfold TlSys.setHolder TlSys.drop
    cases (s.locals t i).data <;> rfl
  have htaken : ((s.drop (s.locals t i)).setHolder t i ⟨g, none⟩).taken = s.taken := by
    unfold TlSys.setHolder TlSys.drop
    cases (s.locals t i).data <;> rfl
  have hgen : ((s.drop (s.locals t i)).setHolder t i ⟨g, none⟩).generation = s.generation := by
    unfold TlSys.setHolder TlSys.drop
    cases (s.locals t i).data <;> rfl
  have hloc : ∀ t' i', ((s.drop (s.locals t i)).setHolder t i ⟨g, none⟩).locals t' i' =
      if t' = t ∧ i' = i then ⟨g, none⟩ else s.locals t' i' := by
    intro t' i'
    unfold TlSys.setHolder TlSys.drop
    cases (s.locals t i).data <;> rfl
  have hdes : ((s.drop (s.locals t i)).setHolder t i ⟨g, none⟩).destroyed =
      match (s.locals t i).data with | none => s.destroyed | some o => o.serial :: s.destroyed := by
    unfold TlSys.setHolder TlSys.drop
    cases (s.locals t i).data <;> rfl
  have hal : ∀ o w, ((s.drop (s.locals t i)).setHolder t i ⟨g, none⟩).alive o w ↔ s.alive o w := by
    intro o w
    unfold TlSys.alive
    rw [howners]
  exact {
    taken_length := by rw [htaken]; exact h.taken_length
    count := by rw [howners]; exact h.count
    made := by rw [hmade]; exact h.made
    nodup := h.nodup
    live := by intro o; simp only [hal]; exact h.live o
    slot := by intro o w hw; rw [htaken]; exact h.slot _ _ ((hal _ _).mp hw)
    free := by intro j hj; rw [htaken] at hj; obtain ⟨o, w, hw, he⟩ := h.free j hj; exact ⟨o, w, (hal _ _).mpr hw, he⟩
    index := fun o o' w w' hw hw' => h.index _ _ _ _ ((hal _ _).mp hw) ((hal _ _).mp hw')
    gen := by intro o w hw; rw [hgen]; exact h.gen _ _ ((hal _ _).mp hw)
    held := by
      intro t' i'
      rw [hloc, hgen]
      by_cases he : t' = t ∧ i' = i
      · rw [if_pos he]; exact hg
      · rw [if_neg he]; exact h.held _ _
    pos := by rw [hgen]; exact h.pos
    obj := by
      intro o w t' hw
      have hw := (hal _ _).mp hw
      rw [hloc]
      dsimp only
      rw [TlSys.slotOf_alive hw]
      by_cases he : t' = t ∧ w.index = i
      · rw [if_pos ⟨he.1, he.2, (h.live o).mpr ⟨w, hw⟩⟩, if_pos he]
        unfold TlHolder.of
        by_cases hh : g = w.generation
        · rw [if_pos hh]
        · rw [if_neg hh]
      · rw [if_neg (fun hh => he ⟨hh.1, hh.2.1⟩), if_neg he]
        exact h.obj _ _ _ hw
    fresh := by
      intro o t' ho
      dsimp only
      by_cases hh : t' = t ∧ s.slotOf o = i ∧ o ∈ a.live
      · rw [if_pos hh]
      · rw [if_neg hh]; exact h.fresh _ _ ho
    serial := by
      intro t' i' x hx
      obtain ⟨hx, hne⟩ := hsub _ _ _ hx
      obtain ⟨h1, h2⟩ := h.serial _ _ _ hx
      rw [hmade, hdes]
      refine ⟨h1, ?_⟩
      cases hd : (s.locals t i).data with
      | none => exact h2
      | some o =>
        intro hm
        rcases List.mem_cons.mp hm with he | hm
        · exact hne (h.distinct _ _ _ _ _ _ hx hd he)
        · exact h2 hm
    distinct := fun t' i' t'' i'' x x' hx hx' => h.distinct _ _ _ _ _ _ (hsub _ _ _ hx).1 (hsub _ _ _ hx').1
    dead := by
      intro n hn
      rw [hmade]
      rw [hdes] at hn
      cases hd : (s.locals t i).data with
      | none => rw [hd] at hn; exact h.dead _ hn
      | some o =>
        rw [hd] at hn
        rcases List.mem_cons.mp hn with rfl | hn
        · exact (h.serial _ _ _ hd).1
        · exact h.dead _ hn
    once := by
      rw [hdes]
      cases hd : (s.locals t i).data with
      | none => exact h.once
      | some o => exact List.nodup_cons.mpr ⟨(h.serial _ _ _ hd).2, h.once⟩
    range := fun t' i' x hx => h.range _ _ _ (hsub _ _ _ hx).1 }

/-- The relation looks at the objects of living owners and of owners to come only. -/
theorem TlRel.congr {s : TlSys V} {a : TlSpec V} (h : TlRel s a) {f : Nat → Nat → Option (TlObj V)}
    (hl : ∀ o t, o ∈ a.live → f o t = a.obj o t) (hn : ∀ o t, a.count ≤ o → f o t = none) : TlRel s { a with obj := f } :=
  { h with
    obj := fun o w t hw => (hl o t ((h.live o).mpr ⟨w, hw⟩)).trans (h.obj o w t hw)
    fresh := fun o t ho => hn o t ho }

/-- A new object in a holder of the owner. -/
theorem TlRel.put {s : TlSys V} {a : TlSpec V} (h : TlRel s a) {o : Nat} {w : TlOwner} (hw : s.alive o w) (t : Nat) (v : V)
    (hd : (s.locals t w.index).data = none) :
    TlRel { s.setHolder t w.index ⟨w.generation, some ⟨s.made, v⟩⟩ with made := s.made + 1 }
      { a.setObj o t (some ⟨a.made, v⟩) with made := a.made + 1 } := by
  have hin : ∀ t' i' x, ((s.setHolder t w.index ⟨w.generation, some ⟨s.made, v⟩⟩).locals t' i').data = some x →
      (t' = t ∧ i' = w.index ∧ x.serial = s.made) ∨ ((s.locals t' i').data = some x ∧ x.serial ≠ s.made) := by
    intro t' i' x hx
    unfold TlSys.setHolder at hx
    dsimp only at hx
    by_cases he : t' = t ∧ i' = w.index
    · rw [if_pos he] at hx
      cases hx
      exact .inl ⟨he.1, he.2, rfl⟩
    · rw [if_neg he] at hx
      have := (h.serial _ _ _ hx).1
      exact .inr ⟨hx, by omega⟩
  exact { h with
    made := by show s.made + 1 = a.made + 1; rw [h.made]
    held := by
      intro t' i'
      show ((s.setHolder t w.index _).locals t' i').generation ≤ s.generation
      unfold TlSys.setHolder
      dsimp only
      by_cases he : t' = t ∧ i' = w.index
      · rw [if_pos he]; exact h.gen _ _ hw
      · rw [if_neg he]; exact h.held _ _
    obj := by
      intro o' w' t' hw'
      show (if o' = o ∧ t' = t then _ else a.obj o' t') = ((s.setHolder t w.index _).locals t' w'.index).of w'
      have hw' : s.alive o' w' := hw'
      unfold TlSys.setHolder
      dsimp only
      by_cases he : o' = o ∧ t' = t
      · obtain ⟨rfl, rfl⟩ := he
        have : w' = w := by
          have h1 : s.owners[o']? = some (some w') := hw'
          rw [show s.owners[o']? = some (some w) from hw] at h1
          injection h1 with h1
          injection h1 with h1
          exact h1.symm
        subst this
        rw [if_pos ⟨rfl, rfl⟩, if_pos ⟨rfl, rfl⟩]
        unfold TlHolder.of
        rw [if_pos rfl, h.made]
      · rw [if_neg he, if_neg]
        · exact h.obj _ _ _ hw'
        · rintro ⟨h1, h2⟩
          exact he ⟨h.index _ _ _ _ hw' hw h2, h1⟩
    fresh := by
      intro o' t' ho
      show (if o' = o ∧ t' = t then _ else a.obj o' t') = none
      rw [if_neg]
      · exact h.fresh _ _ ho
      · rintro ⟨rfl, _⟩
        have h1 := (List.getElem?_eq_some_iff.mp hw).1
        have h2 : a.count ≤ o' := ho
        have h3 := h.count
        omega
    serial := by
      intro t' i' x hx
      show x.serial < s.made + 1 ∧ x.serial ∉ s.destroyed
      rcases hin _ _ _ hx with ⟨_, _, he⟩ | ⟨hx, _⟩
      · rw [he]
        refine ⟨Nat.lt_succ_self _, ?_⟩
        intro hm
        have := h.dead _ hm
        omega
      · have := h.serial _ _ _ hx
        exact ⟨by omega, this.2⟩
    distinct := by
      intro t1 i1 t2 i2 x x' hx hx' he
      rcases hin _ _ _ hx with ⟨h1, h2, h3⟩ | ⟨hx, h3⟩
      · rcases hin _ _ _ hx' with ⟨h1', h2', h3'⟩ | ⟨hx', h3'⟩
        · exact ⟨h1.trans h1'.symm, h2.trans h2'.symm⟩
        · rw [h3] at he; exact absurd he.symm h3'
      · rcases hin _ _ _ hx' with ⟨h1', h2', h3'⟩ | ⟨hx', h3'⟩
        · rw [h3'] at he; exact absurd he h3
        · exact h.distinct _ _ _ _ _ _ hx hx' he
    dead := by
      intro n hn
      have := h.dead n hn
      show n < s.made + 1
      omega
    range := by
      intro t' i' x hx
      rcases hin _ _ _ hx with ⟨_, he, _⟩ | ⟨hx, _⟩
      · rw [he]
        have := (List.getElem?_eq_some_iff.mp (h.slot _ _ hw)).1
        rw [h.taken_length] at this
        exact this
      · exact h.range _ _ _ hx }

theorem TlRel.get {s : TlSys V} {a : TlSpec V} (h : TlRel s a) (t n : Nat) (init : Option V) :
    (s.step (.get t n init)).1 = (a.step (.get t n init)).1 ∧ TlRel (s.step (.get t n init)).2 (a.step (.get t n init)).2 := by
  show (s.get t n init).1 = _ ∧ TlRel (s.get t n init).2 _
  by_cases hm : n ∈ a.live
  · obtain ⟨w, hw⟩ := (h.live n).mp hm
    have ha : a.step (.get t n init) = match a.obj n t, init with
      | some x, _ => (.obj x, a)
      | none, none => (.error .runtime, a)
      | none, some v => (.obj ⟨a.made, v⟩, { a.setObj n t (some ⟨a.made, v⟩) with made := a.made + 1 }) := by
      show (if n ∈ a.live then _ else _) = _; rw [if_pos hm]; rfl
    rw [ha, h.obj _ _ t hw]
    unfold TlSys.get
    rw [show s.owners[n]? = some (some w) from hw]
    dsimp only
    -- the case where nothing usable is in the holder
    have miss : (s.locals t w.index).of w = none →
        let s' := (s.drop (s.locals t w.index)).setHolder t w.index ⟨w.generation, none⟩
        TlRel s' a ∧ s'.alive n w ∧ s'.made = a.made ∧ (s'.locals t w.index).data = none := by
      intro hnone s'
      have h1 := h.clear t w.index w.generation (h.gen _ _ hw)
      have h2 : TlRel s' a := by
        refine h1.congr (f := a.obj) ?_ h.fresh
        intro o t' ho
        obtain ⟨w', hw'⟩ := (h.live o).mp ho
        dsimp only
        by_cases he : t' = t ∧ s.slotOf o = w.index ∧ o ∈ a.live
        · rw [if_pos he]
          rw [TlSys.slotOf_alive hw'] at he
          have : o = n := h.index _ _ _ _ hw' hw he.2.1
          subst this
          rw [h.obj _ _ _ hw, he.1]
          exact hnone
        · rw [if_neg he]
      refine ⟨h2, ?_, h2.made, ?_⟩
      · show s'.owners[n]? = _
        have : s'.owners = s.owners := by
          show (s.drop _).owners = _
          unfold TlSys.drop
          cases (s.locals t w.index).data <;> rfl
        rw [this]
        exact hw
      · show (if t = t ∧ w.index = w.index then _ else _ : TlHolder V).data = none
        rw [if_pos ⟨rfl, rfl⟩]
    have fin : (s.locals t w.index).of w = none →
        (match init with
          | none => ((.error .runtime, (s.drop (s.locals t w.index)).setHolder t w.index ⟨w.generation, none⟩) : TlOut V × TlSys V)
          | some v =>
            (.obj ⟨((s.drop (s.locals t w.index)).setHolder t w.index ⟨w.generation, none⟩).made, v⟩,
              { ((s.drop (s.locals t w.index)).setHolder t w.index ⟨w.generation, none⟩).setHolder t w.index
                  ⟨w.generation, some ⟨((s.drop (s.locals t w.index)).setHolder t w.index ⟨w.generation, none⟩).made, v⟩⟩ with
                made := ((s.drop (s.locals t w.index)).setHolder t w.index ⟨w.generation, none⟩).made + 1 })).1 =
        (match init with
          | none => ((.error .runtime, a) : TlOut V × TlSpec V)
          | some v => (.obj ⟨a.made, v⟩, { a.setObj n t (some ⟨a.made, v⟩) with made := a.made + 1 })).1 ∧
        TlRel (match init with
          | none => ((.error .runtime, (s.drop (s.locals t w.index)).setHolder t w.index ⟨w.generation, none⟩) : TlOut V × TlSys V)
          | some v =>
            (.obj ⟨((s.drop (s.locals t w.index)).setHolder t w.index ⟨w.generation, none⟩).made, v⟩,
              { ((s.drop (s.locals t w.index)).setHolder t w.index ⟨w.generation, none⟩).setHolder t w.index
                  ⟨w.generation, some ⟨((s.drop (s.locals t w.index)).setHolder t w.index ⟨w.generation, none⟩).made, v⟩⟩ with
                made := ((s.drop (s.locals t w.index)).setHolder t w.index ⟨w.generation, none⟩).made + 1 })).2
        (match init with
          | none => ((.error .runtime, a) : TlOut V × TlSpec V)
          | some v => (.obj ⟨a.made, v⟩, { a.setObj n t (some ⟨a.made, v⟩) with made := a.made + 1 })).2 := by
      intro hnone
      obtain ⟨h1, h2, h3, h4⟩ := miss hnone
      cases init with
      | none => exact ⟨rfl, h1⟩
      | some v =>
        dsimp only
        refine ⟨?_, h1.put h2 t v h4⟩
        rw [h3]
    by_cases hg : (s.locals t w.index).generation = w.generation
    · cases hd : (s.locals t w.index).data with
      | some o =>
        have : (s.locals t w.index).of w = some o := by unfold TlHolder.of; rw [if_pos hg, hd]
        rw [this]
        rw [decide_eq_true hg]
        exact ⟨rfl, h⟩
      | none =>
        have : (s.locals t w.index).of w = none := by unfold TlHolder.of; rw [if_pos hg, hd]
        rw [this]
        have := fin this
        cases init <;> exact this
    · have : (s.locals t w.index).of w = none := by unfold TlHolder.of; rw [if_neg hg]
      rw [this]
      have hf := fin this
      rw [decide_eq_false hg]
      cases init <;> cases (s.locals t w.index).data <;> exact hf
  · have hd : s.get t n init = (.error .outOfBounds, s) := by
      unfold TlSys.get
      cases ho : s.owners[n]? with
      | none => rfl
      | some o =>
        cases o with
        | none => rfl
        | some w => exact absurd ((h.live n).mpr ⟨w, ho⟩) hm
    have ha : a.step (.get t n init) = (.error .outOfBounds, a) := by
      show (if n ∈ a.live then _ else _) = _; rw [if_neg hm]
    rw [hd, ha]
    exact ⟨rfl, h⟩

theorem TlRel.exits (t : Nat) : ∀ (l : List Nat) (s : TlSys V) (a : TlSpec V), TlRel s a →
    TlRel (l.foldl (fun s i => (s.drop (s.locals t i)).setHolder t i ⟨-1, none⟩) s)
      { a with obj := fun o t' => if t' = t ∧ s.slotOf o ∈ l ∧ o ∈ a.live then none else a.obj o t' }
  | [], s, a, h => by
    refine h.congr ?_ ?_
    · intro o t' _; rw [if_neg (fun hh => by cases hh.2.1)]
    · intro o t' ho; rw [if_neg (fun hh => by cases hh.2.1)]; exact h.fresh _ _ ho
  | i :: l, s, a, h => by
    rw [List.foldl_cons]
    have h1 := h.clear t i (-1) (by have := h.pos; omega)
    have h2 := TlRel.exits t l _ _ h1
    have hs : ∀ o, ((s.drop (s.locals t i)).setHolder t i ⟨-1, none⟩).slotOf o = s.slotOf o := by
      intro o
      unfold TlSys.slotOf TlSys.setHolder TlSys.drop
      cases (s.locals t i).data <;> rfl
    refine h2.congr ?_ ?_
    · intro o t' ho
      dsimp only
      rw [hs]
      by_cases ht : t' = t
      · by_cases h3 : s.slotOf o ∈ l
        · rw [if_pos ⟨ht, List.mem_cons_of_mem _ h3, ho⟩, if_pos ⟨ht, h3, ho⟩]
        · by_cases h4 : s.slotOf o = i
          · rw [if_pos ⟨ht, h4 ▸ List.mem_cons_self, ho⟩, if_neg (fun hh => h3 hh.2.1), if_pos ⟨ht, h4, ho⟩]
          · rw [if_neg, if_neg (fun hh => h3 hh.2.1), if_neg (fun hh => h4 hh.2.1)]
            rintro ⟨_, hh, _⟩
            rcases List.mem_cons.mp hh with hh | hh
            · exact h4 hh
            · exact h3 hh
      · rw [if_neg (fun hh => ht hh.1), if_neg (fun hh => ht hh.1), if_neg (fun hh => ht hh.1)]
    · intro o t' ho
      by_cases hh : t' = t ∧ s.slotOf o ∈ i :: l ∧ o ∈ a.live
      · rw [if_pos hh]
      · rw [if_neg hh]; exact h.fresh _ _ ho

theorem TlRel.exit {s : TlSys V} {a : TlSpec V} (h : TlRel s a) (t : Nat) :
    (s.step (.exit t)).1 = (a.step (.exit t)).1 ∧ TlRel (s.step (.exit t)).2 (a.step (.exit t)).2 := by
  refine ⟨by simp only [TlSys.step, TlSpec.step, TlSys.exit], ?_⟩
  have hs : (s.step (.exit t)).2 = (List.range tlMaxIndex).foldl (fun s i => (s.drop (s.locals t i)).setHolder t i ⟨-1, none⟩) s := by
    simp only [TlSys.step, TlSys.exit]
  rw [hs]
  show TlRel _ { a with obj := fun w t' => if t' = t then none else a.obj w t' }
  have h1 := TlRel.exits t (List.range tlMaxIndex) s a h
  refine h1.congr ?_ ?_
  · intro o t' ho
    dsimp only
    obtain ⟨w, hw⟩ := (h.live o).mp ho
    have : s.slotOf o ∈ List.range tlMaxIndex := by
      rw [TlSys.slotOf_alive hw, List.mem_range]
      have := (List.getElem?_eq_some_iff.mp (h.slot _ _ hw)).1
      rw [h.taken_length] at this
      exact this
    by_cases ht : t' = t
    · rw [if_pos ht, if_pos ⟨ht, this, ho⟩]
    · rw [if_neg ht, if_neg (fun hh => ht hh.1)]
  · intro o t' ho
    by_cases ht : t' = t
    · rw [if_pos ht]
    · rw [if_neg ht]; exact h.fresh _ _ ho

theorem TlRel.step {s : TlSys V} {a : TlSpec V} (h : TlRel s a) (op : TlOp V) :
    (s.step op).1 = (a.step op).1 ∧ TlRel (s.step op).2 (a.step op).2 := by
  cases op with
  | create => exact h.create
  | destroy n => exact h.destroy n
  | get t n init => exact h.get t n init
  | exit t => exact h.exit t

theorem TlRel.run {s : TlSys V} {a : TlSpec V} (h : TlRel s a) (ops : List (TlOp V)) :
    (s.run ops).1 = (a.run ops).1 ∧ TlRel (s.run ops).2 (a.run ops).2 := by
  induction ops generalizing s a with
  | nil => exact ⟨rfl, h⟩
  | cons op rest ih =>
    obtain ⟨h1, h2⟩ := h.step op
    obtain ⟨h3, h4⟩ := ih h2
    refine ⟨?_, h4⟩
    show (s.step op).1 :: _ = (a.step op).1 :: _
    rw [h1, h3]

end Securefs
