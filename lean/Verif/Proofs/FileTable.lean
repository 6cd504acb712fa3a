import Verif.Spec.FileTable
import Mathlib.Data.List.Nodup
import Mathlib.Data.List.Perm.Subperm
/-! Helper lemmas about the table of open files. -/

namespace Securefs

variable {α : Type}

/-! ## The heap -/

/-- Update of a function. -/
def updAt {β : Type} (f : Nat → β) (a : Nat) (v : β) : Nat → β := fun b => if b = a then v else f b

@[simp] theorem updAt_same {β : Type} (f : Nat → β) (a : Nat) (v : β) : updAt f a v a = v := by simp [updAt]

theorem updAt_ne {β : Type} (f : Nat → β) {a b : Nat} (v : β) (h : b ≠ a) : updAt f a v b = f b := by simp [updAt, h]

/-- Update of a map of identifiers. -/
def updId {β : Type} (f : Bytes → β) (a : Bytes) (v : β) : Bytes → β := fun b => if b = a then v else f b

@[simp] theorem updId_same {β : Type} (f : Bytes → β) (a : Bytes) (v : β) : updId f a v a = v := by simp [updId]

theorem updId_ne {β : Type} (f : Bytes → β) {a b : Bytes} (v : β) (h : b ≠ a) : updId f a v b = f b := by
  simp [updId, h]

namespace FileTab

theorem obj_lt {st : FileTab α} {a : Nat} {o : FileObj α} (h : st.obj a = some o) : a < st.objs.length := by
  unfold obj at h
  by_contra hc
  rw [List.getElem?_eq_none (by omega)] at h
  cases h

theorem obj_setObj (st : FileTab α) (a : Nat) (o : Option (FileObj α)) (ha : a < st.objs.length) :
    (st.setObj a o).obj = updAt st.obj a o := by
  funext b
  unfold obj setObj updAt
  dsimp only
  by_cases h : b = a
  · subst h; rw [if_pos rfl, List.getElem?_set_self ha]; rfl
  · rw [if_neg h, List.getElem?_set_ne (Ne.symm h)]

theorem obj_push (st : FileTab α) (o : FileObj α) :
    (FileTab.mk (st.objs ++ [some o]) st.shards st.holders st.closing st.disk).obj = updAt st.obj st.objs.length (some o) := by
  funext b
  unfold obj updAt
  dsimp only
  by_cases h : b = st.objs.length
  · subst h; simp
  · rw [if_neg h]
    by_cases hlt : b < st.objs.length
    · rw [List.getElem?_append_left hlt]
    · rw [List.getElem?_eq_none (by simp; omega), List.getElem?_eq_none (by omega)]

theorem obj_fresh (st : FileTab α) : st.obj st.objs.length = none := by
  unfold obj; rw [List.getElem?_eq_none (by omega)]; rfl

/-- What every reachable state satisfies. -/
structure Inv (obj : Nat → Option (FileObj α)) (shards : Nat → Shard) (holders : List (Nat × Nat))
    (closing : List (Nat × Closing)) (disk : Bytes → Option (FileVal α)) : Prop where
  root : ∃ o, obj 0 = some o ∧ o.id = kRootId
  live_ok : ∀ i id a, (id, a) ∈ (shards i).live → ∃ o, obj a = some o ∧ o.id = id ∧ shardOf id = .ok i ∧ disk id ≠ none
  cache_ok : ∀ i a, a ∈ (shards i).cache → ∃ o, obj a = some o ∧ shardOf o.id = .ok i ∧ o.ref = 0 ∧
    disk o.id = some o.val ∧ o.val.nlink ≠ 0
  uniq : ∀ a b o o', obj a = some o → obj b = some o' → o.id = o'.id → a = b
  owned : ∀ a o, obj a = some o → a ≠ 0 → (∃ i, (o.id, a) ∈ (shards i).live) ∨ ∃ i, a ∈ (shards i).cache
  excl : ∀ i j id a, (id, a) ∈ (shards i).live → a ∉ (shards j).cache
  cache_nodup : ∀ i, (shards i).cache.Nodup
  refs : ∀ a o, obj a = some o → o.ref = ((holders.countP fun p => p.2 = a : Nat) : Int)
  held : ∀ t a, (t, a) ∈ holders → obj a ≠ none
  closing_nodup : (closing.map Prod.fst).Nodup
  pend : ∀ i id a o, (id, a) ∈ (shards i).live → obj a = some o → o.ref = 0 → o.val.nlink = 0 →
    ∃ t, (t, Closing.readId a) ∈ closing ∨ (t, Closing.lockShard id) ∈ closing
  disk_linked : ∀ id v, (∀ a o, obj a = some o → o.id ≠ id) → disk id = some v → v.nlink ≠ 0

theorem shardOf_root : shardOf kRootId = .error .invalidArg := by simp [shardOf]

section invariant

variable {obj : Nat → Option (FileObj α)} {shards : Nat → Shard} {holders : List (Nat × Nat)}
  {closing : List (Nat × Closing)} {disk : Bytes → Option (FileVal α)}

theorem Inv.live_ne_zero (h : Inv obj shards holders closing disk) {i id a} (hm : (id, a) ∈ (shards i).live) : a ≠ 0 := by
  rintro rfl
  obtain ⟨o, ho, hr⟩ := h.root
  obtain ⟨o', ho', hi, hs, _⟩ := h.live_ok _ _ _ hm
  rw [ho] at ho'; cases ho'
  rw [← hi, hr, shardOf_root] at hs
  cases hs

theorem Inv.cache_ne_zero (h : Inv obj shards holders closing disk) {i a} (hm : a ∈ (shards i).cache) : a ≠ 0 := by
  rintro rfl
  obtain ⟨o, ho, hr⟩ := h.root
  obtain ⟨o', ho', hs, _⟩ := h.cache_ok _ _ hm
  rw [ho] at ho'; cases ho'
  rw [hr, shardOf_root] at hs
  cases hs

/-- Replacing the value and the counter of an object that is not in a cache. -/
theorem Inv.touch (h : Inv obj shards holders closing disk) {a : Nat} {o : FileObj α} (ho : obj a = some o)
    (hc : ∀ i, a ∉ (shards i).cache) (r : Int) (v : FileVal α) (holders' : List (Nat × Nat)) (closing' : List (Nat × Closing))
    (hr : r = ((holders'.countP fun p => p.2 = a : Nat) : Int))
    (hother : ∀ b, b ≠ a → holders'.countP (fun p => p.2 = b) = holders.countP (fun p => p.2 = b))
    (hheld : ∀ t b, (t, b) ∈ holders' → b = a ∨ ∃ t', (t', b) ∈ holders)
    (hcn : (closing'.map Prod.fst).Nodup) (hcs : ∀ x ∈ closing, x ∈ closing')
    (hp : r = 0 → v.nlink = 0 → ∃ t, (t, Closing.readId a) ∈ closing') :
    Inv (updAt obj a (some { o with ref := r, val := v })) shards holders' closing' disk where
  root := by
    obtain ⟨o0, h0, hid⟩ := h.root
    by_cases hz : 0 = a
    · subst hz
      rw [ho] at h0; cases h0
      exact ⟨_, updAt_same _ _ _, hid⟩
    · exact ⟨o0, by rw [updAt_ne _ _ hz]; exact h0, hid⟩
  live_ok := by
    intro i id b hm
    obtain ⟨o', h1, h2, h3, h4⟩ := h.live_ok i id b hm
    by_cases hb : b = a
    · subst hb
      rw [ho] at h1; cases h1
      exact ⟨_, updAt_same _ _ _, h2, h3, h4⟩
    · exact ⟨o', by rw [updAt_ne _ _ hb]; exact h1, h2, h3, h4⟩
  cache_ok := by
    intro i b hm
    have hb : b ≠ a := by rintro rfl; exact hc i hm
    rw [updAt_ne _ _ hb]
    exact h.cache_ok i b hm
  uniq := by
    intro b c ob oc hb hcx hid
    have key : ∀ x ox, updAt obj a (some { o with ref := r, val := v }) x = some ox → ∃ ox', obj x = some ox' ∧ ox'.id = ox.id := by
      intro x ox hx
      by_cases hxa : x = a
      · subst hxa; rw [updAt_same] at hx; cases hx; exact ⟨o, ho, rfl⟩
      · rw [updAt_ne _ _ hxa] at hx; exact ⟨ox, hx, rfl⟩
    obtain ⟨ob', hb1, hb2⟩ := key _ _ hb
    obtain ⟨oc', hc1, hc2⟩ := key _ _ hcx
    exact h.uniq _ _ _ _ hb1 hc1 (by rw [hb2, hc2, hid])
  owned := by
    intro b ob hb hne
    by_cases hba : b = a
    · subst hba; rw [updAt_same] at hb; cases hb; exact h.owned _ o ho hne
    · rw [updAt_ne _ _ hba] at hb; exact h.owned _ _ hb hne
  excl := h.excl
  cache_nodup := h.cache_nodup
  refs := by
    intro b ob hb
    by_cases hba : b = a
    · subst hba; rw [updAt_same] at hb; cases hb; exact hr
    · rw [updAt_ne _ _ hba] at hb; rw [h.refs _ _ hb, hother b hba]
  held := by
    intro t b hm
    by_cases hba : b = a
    · subst hba; rw [updAt_same]; simp
    · rw [updAt_ne _ _ hba]
      rcases hheld t b hm with h1 | ⟨t', h1⟩
      · exact absurd h1 hba
      · exact h.held t' b h1
  closing_nodup := hcn
  pend := by
    intro i id b ob hm hb hrb hnb
    by_cases hba : b = a
    · subst hba; rw [updAt_same] at hb; cases hb
      obtain ⟨t, ht⟩ := hp hrb hnb
      exact ⟨t, Or.inl ht⟩
    · rw [updAt_ne _ _ hba] at hb
      obtain ⟨t, ht⟩ := h.pend i id b ob hm hb hrb hnb
      exact ⟨t, ht.imp (hcs _) (hcs _)⟩
  disk_linked := by
    intro id w hno hd
    refine h.disk_linked id w ?_ hd
    intro b ob hb
    by_cases hba : b = a
    · subst hba; rw [ho] at hb; cases hb; exact hno b { o with ref := r, val := v } (updAt_same _ _ _)
    · exact hno b ob (by rw [updAt_ne _ _ hba]; exact hb)

/-- An object that somebody holds is not in a cache. -/
theorem Inv.held_not_cached (h : Inv obj shards holders closing disk) {t a : Nat} (hm : (t, a) ∈ holders) :
    ∀ i, a ∉ (shards i).cache := by
  intro i hc
  obtain ⟨o, h1, _, h3, _⟩ := h.cache_ok i a hc
  have := h.refs a o h1
  have hpos : 0 < holders.countP (fun p => decide (p.2 = a)) := List.countP_pos_iff.mpr ⟨_, hm, by simp⟩
  omega

theorem Inv.held_pos (h : Inv obj shards holders closing disk) {t a : Nat} (hm : (t, a) ∈ holders) {o : FileObj α}
    (ho : obj a = some o) : 0 < o.ref := by
  have := h.refs a o ho
  have hpos : 0 < holders.countP (fun p => decide (p.2 = a)) := List.countP_pos_iff.mpr ⟨_, hm, by simp⟩
  omega

theorem Inv.hold (h : Inv obj shards holders closing disk) {t a : Nat} {o : FileObj α} (ho : obj a = some o)
    (hc : ∀ i, a ∉ (shards i).cache) :
    Inv (updAt obj a (some { o with ref := o.ref + 1 })) shards ((t, a) :: holders) closing disk := by
  have := h.refs a o ho
  refine h.touch ho hc _ o.val _ _ ?_ ?_ ?_ h.closing_nodup (fun _ hx => hx) ?_
  · simp only [List.countP_cons, decide_true, if_true]; omega
  · intro b hb
    rw [List.countP_cons, if_neg (by simpa using fun hh => hb hh.symm)]
    omega
  · intro t' b hm
    rcases List.mem_cons.mp hm with hm | hm
    · cases hm; exact Or.inl rfl
    · exact Or.inr ⟨t', hm⟩
  · omega

theorem Inv.uncache (h : Inv obj shards holders closing disk) {i a : Nat} {o : FileObj α} (hm : a ∈ (shards i).cache)
    (ho : obj a = some o) :
    Inv obj (updAt shards i { live := (o.id, a) :: (shards i).live, cache := (shards i).cache.erase a }) holders closing disk := by
  obtain ⟨o', h1, h2, h3, h4, h5⟩ := h.cache_ok i a hm
  rw [ho] at h1; cases h1
  have hlive : ∀ j id b, (id, b) ∈ (updAt shards i { live := (o.id, a) :: (shards i).live, cache := (shards i).cache.erase a } j).live →
      (j = i ∧ id = o.id ∧ b = a) ∨ (id, b) ∈ (shards j).live := by
    intro j id b hb
    by_cases hj : j = i
    · subst hj
      rw [updAt_same] at hb
      rcases List.mem_cons.mp hb with hb | hb
      · cases hb; exact Or.inl ⟨rfl, rfl, rfl⟩
      · exact Or.inr hb
    · rw [updAt_ne _ _ hj] at hb; exact Or.inr hb
  have hcache : ∀ j b, b ∈ (updAt shards i { live := (o.id, a) :: (shards i).live, cache := (shards i).cache.erase a } j).cache →
      b ∈ (shards j).cache ∧ b ≠ a := by
    intro j b hb
    by_cases hj : j = i
    · subst hj
      rw [updAt_same] at hb
      exact ⟨List.mem_of_mem_erase hb, fun hba => by subst hba; exact (h.cache_nodup j).not_mem_erase hb⟩
    · rw [updAt_ne _ _ hj] at hb
      refine ⟨hb, ?_⟩
      rintro rfl
      obtain ⟨o', h1', h2', _⟩ := h.cache_ok j b hb
      rw [ho] at h1'; cases h1'
      rw [h2] at h2'; cases h2'
      exact hj rfl
  refine { root := h.root, uniq := h.uniq, refs := h.refs, held := h.held, closing_nodup := h.closing_nodup, disk_linked := h.disk_linked,
           live_ok := ?_, cache_ok := ?_, owned := ?_, excl := ?_, cache_nodup := ?_, pend := ?_ }
  · intro j id b hb
    rcases hlive j id b hb with ⟨rfl, rfl, rfl⟩ | hb
    · exact ⟨o, ho, rfl, h2, by rw [h4]; simp⟩
    · exact h.live_ok j id b hb
  · intro j b hb
    exact h.cache_ok j b (hcache j b hb).1
  · intro b ob hb hne
    by_cases hba : b = a
    · subst hba
      rw [ho] at hb; cases hb
      exact Or.inl ⟨i, by rw [updAt_same]; simp⟩
    · rcases h.owned b ob hb hne with ⟨j, hj⟩ | ⟨j, hj⟩
      · left
        refine ⟨j, ?_⟩
        by_cases hji : j = i
        · subst hji; rw [updAt_same]; exact List.mem_cons_of_mem _ hj
        · rw [updAt_ne _ _ hji]; exact hj
      · right
        refine ⟨j, ?_⟩
        by_cases hji : j = i
        · subst hji; rw [updAt_same]; exact (List.mem_erase_of_ne hba).mpr hj
        · rw [updAt_ne _ _ hji]; exact hj
  · intro j k id b hb hcb
    obtain ⟨hc1, hc2⟩ := hcache k b hcb
    rcases hlive j id b hb with ⟨_, _, rfl⟩ | hb
    · exact hc2 rfl
    · exact h.excl j k id b hb hc1
  · intro j
    by_cases hji : j = i
    · subst hji; rw [updAt_same]; exact (h.cache_nodup j).erase a
    · rw [updAt_ne _ _ hji]; exact h.cache_nodup j
  · intro j id b ob hb hob hr hn
    rcases hlive j id b hb with ⟨_, _, rfl⟩ | hb
    · rw [ho] at hob; cases hob; exact absurd hn h5
    · exact h.pend j id b ob hb hob hr hn

/-- A new object for a file that has none. -/
theorem Inv.alloc (h : Inv obj shards holders closing disk) {i a : Nat} {id : Bytes} {v : FileVal α} (ha : obj a = none)
    (hno : ∀ b o, obj b = some o → o.id ≠ id) (hd : disk id = some v) (hs : shardOf id = .ok i) :
    Inv (updAt obj a (some { id := id, ref := 0, val := v })) (updAt shards i { live := (id, a) :: (shards i).live, cache := (shards i).cache })
      holders closing disk := by
  have hne0 : a ≠ 0 := by
    rintro rfl
    obtain ⟨o, ho, _⟩ := h.root
    rw [ha] at ho; cases ho
  have hnl := h.disk_linked id v hno hd
  have hlive : ∀ j id' b, (id', b) ∈ (updAt shards i { live := (id, a) :: (shards i).live, cache := (shards i).cache } j).live →
      (j = i ∧ id' = id ∧ b = a) ∨ ((id', b) ∈ (shards j).live ∧ b ≠ a) := by
    intro j id' b hb
    have aux : (id', b) ∈ (shards j).live → b ≠ a := by
      rintro hm rfl
      obtain ⟨o', h1, _⟩ := h.live_ok _ _ _ hm
      rw [ha] at h1; cases h1
    by_cases hj : j = i
    · subst hj
      rw [updAt_same] at hb
      rcases List.mem_cons.mp hb with hb | hb
      · cases hb; exact Or.inl ⟨rfl, rfl, rfl⟩
      · exact Or.inr ⟨hb, aux hb⟩
    · rw [updAt_ne _ _ hj] at hb; exact Or.inr ⟨hb, aux hb⟩
  have hcache : ∀ j, (updAt shards i { live := (id, a) :: (shards i).live, cache := (shards i).cache } j).cache = (shards j).cache := by
    intro j
    by_cases hj : j = i
    · subst hj; rw [updAt_same]
    · rw [updAt_ne _ _ hj]
  have hca : ∀ j b, b ∈ (shards j).cache → b ≠ a := by
    rintro j b hm rfl
    obtain ⟨o', h1, _⟩ := h.cache_ok _ _ hm
    rw [ha] at h1; cases h1
  refine { closing_nodup := h.closing_nodup,
           root := ?_, live_ok := ?_, cache_ok := ?_, uniq := ?_, owned := ?_, excl := ?_, cache_nodup := ?_, refs := ?_, held := ?_, pend := ?_, disk_linked := ?_ }
  · obtain ⟨o, ho, hid⟩ := h.root
    exact ⟨o, by rw [updAt_ne _ _ (Ne.symm hne0)]; exact ho, hid⟩
  · intro j id' b hb
    rcases hlive j id' b hb with ⟨rfl, rfl, rfl⟩ | ⟨hb, hne⟩
    · exact ⟨_, updAt_same _ _ _, rfl, hs, by rw [hd]; simp⟩
    · rw [updAt_ne _ _ hne]; exact h.live_ok j id' b hb
  · intro j b hb
    rw [hcache] at hb
    rw [updAt_ne _ _ (hca j b hb)]
    exact h.cache_ok j b hb
  · intro b c ob oc hb hc hid
    by_cases hba : b = a
    · by_cases hcb : c = a
      · rw [hba, hcb]
      · subst hba
        rw [updAt_same] at hb; cases hb
        rw [updAt_ne _ _ hcb] at hc
        exact absurd hid.symm (hno c oc hc)
    · rw [updAt_ne _ _ hba] at hb
      by_cases hcb : c = a
      · subst hcb
        rw [updAt_same] at hc; cases hc
        exact absurd hid (hno b ob hb)
      · rw [updAt_ne _ _ hcb] at hc
        exact h.uniq b c ob oc hb hc hid
  · intro b ob hb hne
    by_cases hba : b = a
    · subst hba
      rw [updAt_same] at hb; cases hb
      exact Or.inl ⟨i, by rw [updAt_same]; simp⟩
    · rw [updAt_ne _ _ hba] at hb
      rcases h.owned b ob hb hne with ⟨j, hj⟩ | ⟨j, hj⟩
      · left
        refine ⟨j, ?_⟩
        by_cases hji : j = i
        · subst hji; rw [updAt_same]; exact List.mem_cons_of_mem _ hj
        · rw [updAt_ne _ _ hji]; exact hj
      · exact Or.inr ⟨j, by rw [hcache]; exact hj⟩
  · intro j k id' b hb hcb
    rw [hcache] at hcb
    rcases hlive j id' b hb with ⟨_, _, rfl⟩ | ⟨hb, _⟩
    · exact hca k b hcb rfl
    · exact h.excl j k id' b hb hcb
  · intro j; rw [hcache]; exact h.cache_nodup j
  · intro b ob hb
    by_cases hba : b = a
    · subst hba
      rw [updAt_same] at hb; cases hb
      have : holders.countP (fun p => decide (p.2 = b)) = 0 := by
        rw [List.countP_eq_zero]
        rintro ⟨t, b'⟩ hm hb'
        have hb' : b' = b := by simpa using hb'
        subst hb'
        exact h.held t b' hm ha
      rw [this]; rfl
    · rw [updAt_ne _ _ hba] at hb; exact h.refs b ob hb
  · intro t b hm
    by_cases hba : b = a
    · subst hba; rw [updAt_same]; simp
    · rw [updAt_ne _ _ hba]; exact h.held t b hm
  · intro j id' b ob hb hob hr hn
    rcases hlive j id' b hb with ⟨_, _, rfl⟩ | ⟨hb, hne⟩
    · rw [updAt_same] at hob; cases hob; exact absurd hn hnl
    · rw [updAt_ne _ _ hne] at hob; exact h.pend j id' b ob hb hob hr hn
  · intro id' w hno' hd'
    refine h.disk_linked id' w ?_ hd'
    intro b ob hb
    have hba : b ≠ a := by rintro rfl; rw [ha] at hb; cases hb
    exact hno' b ob (by rw [updAt_ne _ _ hba]; exact hb)

/-- Writing the backing files of an identifier. -/
theorem Inv.write (h : Inv obj shards holders closing disk) {id : Bytes} {v : FileVal α}
    (hc : ∀ i a o, a ∈ (shards i).cache → obj a = some o → o.id ≠ id)
    (hn : (∃ a o, obj a = some o ∧ o.id = id) ∨ v.nlink ≠ 0) :
    Inv obj shards holders closing (updId disk id (some v)) := by
  refine { root := h.root, uniq := h.uniq, refs := h.refs, held := h.held, closing_nodup := h.closing_nodup, owned := h.owned,
           excl := h.excl, cache_nodup := h.cache_nodup, pend := h.pend,
           live_ok := ?_, cache_ok := ?_, disk_linked := ?_ }
  · intro i id' a hm
    obtain ⟨o, h1, h2, h3, h4⟩ := h.live_ok i id' a hm
    refine ⟨o, h1, h2, h3, ?_⟩
    by_cases hid : id' = id
    · subst hid; rw [updId_same]; simp
    · rw [updId_ne _ _ hid]; exact h4
  · intro i a hm
    obtain ⟨o, h1, h2, h3, h4, h5⟩ := h.cache_ok i a hm
    exact ⟨o, h1, h2, h3, by rw [updId_ne _ _ (hc i a o hm h1)]; exact h4, h5⟩
  · intro id' w hno hd
    by_cases hid : id' = id
    · subst hid
      rw [updId_same] at hd; cases hd
      rcases hn with ⟨a, o, h1, h2⟩ | hn
      · exact absurd h2 (hno a o h1)
      · exact hn
    · rw [updId_ne _ _ hid] at hd
      exact h.disk_linked id' w hno hd

/-- Changing what the threads are closing. -/
theorem Inv.reclose (h : Inv obj shards holders closing disk) {closing' : List (Nat × Closing)}
    (hn : (closing'.map Prod.fst).Nodup)
    (hp : ∀ i id a o, (id, a) ∈ (shards i).live → obj a = some o → o.ref = 0 → o.val.nlink = 0 →
      ∀ t, ((t, Closing.readId a) ∈ closing ∨ (t, Closing.lockShard id) ∈ closing) →
      ∃ t, (t, Closing.readId a) ∈ closing' ∨ (t, Closing.lockShard id) ∈ closing') :
    Inv obj shards holders closing' disk :=
  { h with
    closing_nodup := hn
    pend := fun i id a o h1 h2 h3 h4 => by
      obtain ⟨t, ht⟩ := h.pend i id a o h1 h2 h3 h4
      exact hp i id a o h1 h2 h3 h4 t ht }

/-- Moving an unreferenced, flushed object from the live map to the cache.  -/
theorem Inv.toCache (h : Inv obj shards holders closing disk) {i a : Nat} {id : Bytes} {o : FileObj α}
    (hm : (id, a) ∈ (shards i).live) (ho : obj a = some o) (hr : o.ref = 0) (hn : o.val.nlink ≠ 0) (hd : disk id = some o.val) :
    Inv obj (updAt shards i { live := (shards i).live.filter fun p => p.1 ≠ id, cache := (shards i).cache ++ [a] }) holders closing disk := by
  obtain ⟨o', h1, h2, h3, h4⟩ := h.live_ok i id a hm
  rw [ho] at h1; cases h1
  have hco : ∀ b, b ∈ (shards i).cache ++ [a] → ∃ ob, obj b = some ob ∧ shardOf ob.id = .ok i ∧ ob.ref = 0 ∧ disk ob.id = some ob.val ∧
      ob.val.nlink ≠ 0 := by
    intro b hb
    rcases List.mem_append.mp hb with hb | hb
    · exact h.cache_ok i b hb
    · rw [List.mem_singleton] at hb; subst hb
      exact ⟨o, ho, by rw [h2]; exact h3, hr, by rw [h2]; exact hd, hn⟩
  have hnd : ((shards i).cache ++ [a]).Nodup := by
    rw [List.nodup_append]
    refine ⟨h.cache_nodup i, by simp, ?_⟩
    rintro b hb c hc rfl
    rw [List.mem_singleton] at hc; subst hc
    exact h.excl i i id b hm hb
  have hlive : ∀ j id' b, (id', b) ∈ (updAt shards i { live := (shards i).live.filter fun p => p.1 ≠ id, cache := (shards i).cache ++ [a] } j).live →
      (id', b) ∈ (shards j).live ∧ b ≠ a := by
    intro j id' b hb
    have aux : (id', b) ∈ (shards j).live → id' ≠ id → b ≠ a := by
      rintro hx hne rfl
      obtain ⟨o'', g1, g2, _⟩ := h.live_ok _ _ _ hx
      rw [ho] at g1; cases g1
      exact hne (g2.symm.trans h2)
    by_cases hj : j = i
    · subst hj
      rw [updAt_same] at hb
      have := List.mem_filter.mp hb
      exact ⟨this.1, aux this.1 (by simpa using this.2)⟩
    · rw [updAt_ne _ _ hj] at hb
      refine ⟨hb, aux hb ?_⟩
      rintro rfl
      obtain ⟨_, _, _, g3, _⟩ := h.live_ok _ _ _ hb
      rw [h3] at g3; cases g3
      exact hj rfl
  refine { root := h.root, uniq := h.uniq, refs := h.refs, held := h.held, closing_nodup := h.closing_nodup,
           disk_linked := h.disk_linked,
           live_ok := ?_, cache_ok := ?_, owned := ?_, excl := ?_, cache_nodup := ?_, pend := ?_ }
  · intro j id' b hb
    exact h.live_ok j id' b (hlive j id' b hb).1
  · intro j b hb
    by_cases hj : j = i
    · subst hj; rw [updAt_same] at hb; exact hco b hb
    · rw [updAt_ne _ _ hj] at hb; exact h.cache_ok j b hb
  · intro b ob hb hne
    by_cases hba : b = a
    · subst hba
      exact Or.inr ⟨i, by rw [updAt_same]; simp⟩
    · rcases h.owned b ob hb hne with ⟨j, hj⟩ | ⟨j, hj⟩
      · left
        refine ⟨j, ?_⟩
        by_cases hji : j = i
        · subst hji; rw [updAt_same]
          refine List.mem_filter.mpr ⟨hj, ?_⟩
          have : ob.id ≠ id := fun he => hba (h.uniq b a ob o hb ho (by rw [he, h2]))
          simpa using this
        · rw [updAt_ne _ _ hji]; exact hj
      · right
        refine ⟨j, ?_⟩
        by_cases hji : j = i
        · subst hji; rw [updAt_same]; exact List.mem_append_left _ hj
        · rw [updAt_ne _ _ hji]; exact hj
  · intro j k id' b hb hcb
    obtain ⟨hb1, hb2⟩ := hlive j id' b hb
    by_cases hk : k = i
    · subst hk
      rw [updAt_same] at hcb
      rcases List.mem_append.mp hcb with hcb | hcb
      · exact h.excl j k id' b hb1 hcb
      · rw [List.mem_singleton] at hcb; exact hb2 hcb
    · rw [updAt_ne _ _ hk] at hcb
      exact h.excl j k id' b hb1 hcb
  · intro j
    by_cases hj : j = i
    · subst hj; rw [updAt_same]; exact hnd
    · rw [updAt_ne _ _ hj]; exact h.cache_nodup j
  · intro j id' b ob hb hob hr' hn'
    exact h.pend j id' b ob (hlive j id' b hb).1 hob hr' hn'

/-- Destroying an unreferenced object of the live map together with its backing files. -/
theorem Inv.destroy (h : Inv obj shards holders closing disk) {i a : Nat} {id : Bytes} {o : FileObj α}
    (hm : (id, a) ∈ (shards i).live) (ho : obj a = some o) (hr : o.ref = 0) :
    Inv (updAt obj a none) (updAt shards i { live := (shards i).live.filter fun p => p.1 ≠ id, cache := (shards i).cache })
      holders closing (updId disk id none) := by
  obtain ⟨o', h1, h2, h3, h4⟩ := h.live_ok i id a hm
  rw [ho] at h1; cases h1
  have hne0 := h.live_ne_zero hm
  have hlive : ∀ j id' b, (id', b) ∈ (updAt shards i { live := (shards i).live.filter fun p => p.1 ≠ id, cache := (shards i).cache } j).live →
      (id', b) ∈ (shards j).live ∧ b ≠ a ∧ id' ≠ id := by
    intro j id' b hb
    have aux : (id', b) ∈ (shards j).live → id' ≠ id → b ≠ a := by
      rintro hx hne rfl
      obtain ⟨o'', g1, g2, _⟩ := h.live_ok _ _ _ hx
      rw [ho] at g1; cases g1
      exact hne (g2.symm.trans h2)
    by_cases hj : j = i
    · subst hj
      rw [updAt_same] at hb
      have := List.mem_filter.mp hb
      have hne : id' ≠ id := by simpa using this.2
      exact ⟨this.1, aux this.1 hne, hne⟩
    · rw [updAt_ne _ _ hj] at hb
      have hne : id' ≠ id := by
        rintro rfl
        obtain ⟨_, _, _, g3, _⟩ := h.live_ok _ _ _ hb
        rw [h3] at g3; cases g3
        exact hj rfl
      exact ⟨hb, aux hb hne, hne⟩
  have hcache : ∀ j, (updAt shards i { live := (shards i).live.filter fun p => p.1 ≠ id, cache := (shards i).cache } j).cache = (shards j).cache := by
    intro j
    by_cases hj : j = i
    · subst hj; rw [updAt_same]
    · rw [updAt_ne _ _ hj]
  have hca : ∀ j b, b ∈ (shards j).cache → b ≠ a := by
    rintro j b hb rfl
    exact h.excl _ _ _ _ hm hb
  have hidne : ∀ b ob, b ≠ a → obj b = some ob → ob.id ≠ id := by
    intro b ob hb hob he
    exact hb (h.uniq b a ob o hob ho (by rw [he, h2]))
  have hobj : ∀ b ob, updAt obj a none b = some ob → b ≠ a ∧ obj b = some ob := by
    intro b ob hb
    by_cases hba : b = a
    · subst hba; rw [updAt_same] at hb; cases hb
    · rw [updAt_ne _ _ hba] at hb; exact ⟨hba, hb⟩
  refine { closing_nodup := h.closing_nodup, root := ?_, live_ok := ?_, cache_ok := ?_, uniq := ?_, owned := ?_, excl := ?_,
           cache_nodup := ?_, refs := ?_, held := ?_, pend := ?_, disk_linked := ?_ }
  · obtain ⟨o0, g1, g2⟩ := h.root
    exact ⟨o0, by rw [updAt_ne _ _ (Ne.symm hne0)]; exact g1, g2⟩
  · intro j id' b hb
    obtain ⟨g1, g2, g3⟩ := hlive j id' b hb
    obtain ⟨ob, k1, k2, k3, k4⟩ := h.live_ok j id' b g1
    exact ⟨ob, by rw [updAt_ne _ _ g2]; exact k1, k2, k3, by rw [updId_ne _ _ g3]; exact k4⟩
  · intro j b hb
    rw [hcache] at hb
    obtain ⟨ob, k1, k2, k3, k4, k5⟩ := h.cache_ok j b hb
    have hba := hca j b hb
    exact ⟨ob, by rw [updAt_ne _ _ hba]; exact k1, k2, k3, by rw [updId_ne _ _ (hidne b ob hba k1)]; exact k4, k5⟩
  · intro b c ob oc hb hc hid
    exact h.uniq b c ob oc (hobj b ob hb).2 (hobj c oc hc).2 hid
  · intro b ob hb hne
    obtain ⟨hba, hb⟩ := hobj b ob hb
    rcases h.owned b ob hb hne with ⟨j, hj⟩ | ⟨j, hj⟩
    · left
      refine ⟨j, ?_⟩
      by_cases hji : j = i
      · subst hji; rw [updAt_same]
        refine List.mem_filter.mpr ⟨hj, ?_⟩
        simpa using hidne b ob hba hb
      · rw [updAt_ne _ _ hji]; exact hj
    · exact Or.inr ⟨j, by rw [hcache]; exact hj⟩
  · intro j k id' b hb hcb
    rw [hcache] at hcb
    exact h.excl j k id' b (hlive j id' b hb).1 hcb
  · intro j; rw [hcache]; exact h.cache_nodup j
  · intro b ob hb
    exact h.refs b ob (hobj b ob hb).2
  · intro t b hm'
    have hba : b ≠ a := by
      rintro rfl
      have := h.held_pos hm' ho
      omega
    rw [updAt_ne _ _ hba]; exact h.held t b hm'
  · intro j id' b ob hb hob hr' hn'
    exact h.pend j id' b ob (hlive j id' b hb).1 (hobj b ob hob).2 hr' hn'
  · intro id' w hno hd
    by_cases hid : id' = id
    · subst hid; rw [updId_same] at hd; cases hd
    · rw [updId_ne _ _ hid] at hd
      refine h.disk_linked id' w ?_ hd
      intro b ob hb he
      have hba : b ≠ a := by
        rintro rfl
        rw [ho] at hb; cases hb
        exact hid (he.symm.trans h2)
      exact hno b ob (by rw [updAt_ne _ _ hba]; exact hb) he

/-- Destroying the first object of a cache. -/
theorem Inv.evict (h : Inv obj shards holders closing disk) {i a : Nat} {rest : List Nat} (hm : (shards i).cache = a :: rest) :
    Inv (updAt obj a none) (updAt shards i { live := (shards i).live, cache := rest }) holders closing disk := by
  have ham : a ∈ (shards i).cache := by rw [hm]; simp
  obtain ⟨o, ho, h2, h3, h4, h5⟩ := h.cache_ok i a ham
  have hne0 := h.cache_ne_zero ham
  have hlive : ∀ j, (updAt shards i { live := (shards i).live, cache := rest } j).live = (shards j).live := by
    intro j
    by_cases hj : j = i
    · subst hj; rw [updAt_same]
    · rw [updAt_ne _ _ hj]
  have hcache : ∀ j b, b ∈ (updAt shards i { live := (shards i).live, cache := rest } j).cache ↔ b ∈ (shards j).cache ∧ b ≠ a := by
    intro j b
    by_cases hj : j = i
    · subst hj; rw [updAt_same, hm]
      have := h.cache_nodup j
      rw [hm, List.nodup_cons] at this
      constructor
      · intro hb
        exact ⟨List.mem_cons_of_mem _ hb, fun he => this.1 (he ▸ hb)⟩
      · rintro ⟨hb, hne⟩
        rcases List.mem_cons.mp hb with hb | hb
        · exact absurd hb hne
        · exact hb
    · rw [updAt_ne _ _ hj]
      refine ⟨fun hb => ⟨hb, ?_⟩, fun hb => hb.1⟩
      rintro rfl
      obtain ⟨o', g1, g2, _⟩ := h.cache_ok j b hb
      rw [ho] at g1; cases g1
      rw [h2] at g2; cases g2
      exact hj rfl
  have hobj : ∀ b ob, updAt obj a none b = some ob → b ≠ a ∧ obj b = some ob := by
    intro b ob hb
    by_cases hba : b = a
    · subst hba; rw [updAt_same] at hb; cases hb
    · rw [updAt_ne _ _ hba] at hb; exact ⟨hba, hb⟩
  refine { closing_nodup := h.closing_nodup, root := ?_, live_ok := ?_, cache_ok := ?_, uniq := ?_, owned := ?_, excl := ?_,
           cache_nodup := ?_, refs := ?_, held := ?_, pend := ?_, disk_linked := ?_ }
  · obtain ⟨o0, g1, g2⟩ := h.root
    exact ⟨o0, by rw [updAt_ne _ _ (Ne.symm hne0)]; exact g1, g2⟩
  · intro j id' b hb
    rw [hlive] at hb
    have hba : b ≠ a := by rintro rfl; exact h.excl _ _ _ _ hb ham
    rw [updAt_ne _ _ hba]; exact h.live_ok j id' b hb
  · intro j b hb
    obtain ⟨g1, g2⟩ := (hcache j b).mp hb
    rw [updAt_ne _ _ g2]; exact h.cache_ok j b g1
  · intro b c ob oc hb hc hid
    exact h.uniq b c ob oc (hobj b ob hb).2 (hobj c oc hc).2 hid
  · intro b ob hb hne
    obtain ⟨hba, hb⟩ := hobj b ob hb
    rcases h.owned b ob hb hne with ⟨j, hj⟩ | ⟨j, hj⟩
    · exact Or.inl ⟨j, by rw [hlive]; exact hj⟩
    · exact Or.inr ⟨j, (hcache j b).mpr ⟨hj, hba⟩⟩
  · intro j k id' b hb hcb
    rw [hlive] at hb
    exact h.excl j k id' b hb ((hcache k b).mp hcb).1
  · intro j
    by_cases hj : j = i
    · subst hj; rw [updAt_same]
      have := h.cache_nodup j
      rw [hm, List.nodup_cons] at this
      exact this.2
    · rw [updAt_ne _ _ hj]; exact h.cache_nodup j
  · intro b ob hb
    exact h.refs b ob (hobj b ob hb).2
  · intro t b hm'
    have hba : b ≠ a := by
      rintro rfl
      exact h.held_not_cached hm' i ham
    rw [updAt_ne _ _ hba]; exact h.held t b hm'
  · intro j id' b ob hb hob hr' hn'
    rw [hlive] at hb
    exact h.pend j id' b ob hb (hobj b ob hob).2 hr' hn'
  · intro id' w hno hd
    by_cases hid : id' = o.id
    · subst hid
      rw [h4] at hd; cases hd
      exact h5
    · refine h.disk_linked id' w ?_ hd
      intro b ob hb he
      have hba : b ≠ a := by
        rintro rfl
        rw [ho] at hb; cases hb
        exact hid he.symm
      exact hno b ob (by rw [updAt_ne _ _ hba]; exact hb) he

theorem updAt_idem {β : Type} (f : Nat → β) (a : Nat) (v w : β) : updAt (updAt f a v) a w = updAt f a w := by
  funext b
  by_cases h : b = a
  · subst h; simp
  · simp [updAt_ne _ _ h]

/-- Destroying the first objects of a cache. -/
theorem Inv.evictMany : ∀ (L rest : List Nat) {obj : Nat → Option (FileObj α)} {shards : Nat → Shard},
    Inv obj shards holders closing disk → ∀ {i : Nat}, (shards i).cache = L ++ rest →
    Inv (L.foldl (fun f a => updAt f a none) obj) (updAt shards i { live := (shards i).live, cache := rest }) holders closing disk
  | [], rest, obj, shards, h, i, hm => by
    have : updAt shards i { live := (shards i).live, cache := rest } = shards := by
      funext j
      by_cases hj : j = i
      · subst hj; rw [updAt_same, ← List.nil_append rest, ← hm]
      · rw [updAt_ne _ _ hj]
    rw [this]; exact h
  | a :: L, rest, obj, shards, h, i, hm => by
    have h1 := h.evict (i := i) (a := a) (rest := L ++ rest) hm
    have h2 := Inv.evictMany L rest h1 (i := i) (by rw [updAt_same])
    rw [updAt_same, updAt_idem] at h2
    exact h2

end invariant

end FileTab

end Securefs

namespace Securefs

variable {α : Type}

namespace FileTab

/-- The invariant on a state. -/
def Good (st : FileTab α) : Prop :=
  Inv st.obj st.shards st.holders st.closing st.disk ∧ ∀ i, (st.shards i).cache.length ≤ 50

theorem mem_objs {st : FileTab α} {o : FileObj α} :
    o ∈ (st.objs.filterMap fun x => x) ↔ ∃ a, st.obj a = some o := by
  simp only [List.mem_filterMap, obj]
  constructor
  · rintro ⟨x, hx, rfl⟩
    obtain ⟨a, ha⟩ := List.getElem?_of_mem hx
    exact ⟨a, by rw [ha]; rfl⟩
  · rintro ⟨a, ha⟩
    cases hx : st.objs[a]? with
    | none => rw [hx] at ha; cases ha
    | some y => rw [hx] at ha; exact ⟨y, List.mem_of_getElem? hx, ha⟩

theorem current_obj {st : FileTab α} (hu : ∀ a b o o', st.obj a = some o → st.obj b = some o' → o.id = o'.id → a = b)
    {a : Nat} {o : FileObj α} (ho : st.obj a = some o) : st.current o.id = some o.val := by
  unfold current
  cases hf : (st.objs.filterMap fun x => x).find? (fun o' => o'.id = o.id) with
  | none =>
    have := List.find?_eq_none.mp hf o (mem_objs.mpr ⟨a, ho⟩)
    simp at this
  | some o' =>
    obtain ⟨b, hb⟩ := mem_objs.mp (List.mem_of_find?_eq_some hf)
    have hid : o'.id = o.id := by simpa using List.find?_some hf
    have := hu b a o' o hb ho hid
    subst this
    rw [ho] at hb; cases hb
    rfl

theorem current_disk {st : FileTab α} {id : Bytes} (hno : ∀ a o, st.obj a = some o → o.id ≠ id) :
    st.current id = st.disk id := by
  unfold current
  cases hf : (st.objs.filterMap fun x => x).find? (fun o' => o'.id = id) with
  | none => rfl
  | some o' =>
    obtain ⟨b, hb⟩ := mem_objs.mp (List.mem_of_find?_eq_some hf)
    have hid : o'.id = id := by simpa using List.find?_some hf
    exact absurd hid (hno b o' hb)

/-- Either there is an object for the file or not. -/
theorem current_cases (st : FileTab α) (hu : ∀ a b o o', st.obj a = some o → st.obj b = some o' → o.id = o'.id → a = b)
    (id : Bytes) :
    (∃ a o, st.obj a = some o ∧ o.id = id ∧ st.current id = some o.val) ∨
    ((∀ a o, st.obj a = some o → o.id ≠ id) ∧ st.current id = st.disk id) := by
  by_cases h : ∃ a o, st.obj a = some o ∧ o.id = id
  · obtain ⟨a, o, h1, h2⟩ := h
    subst h2
    exact Or.inl ⟨a, o, h1, rfl, current_obj hu h1⟩
  · right
    have hno : ∀ a o, st.obj a = some o → o.id ≠ id := fun a o h1 h2 => h ⟨a, o, h1, h2⟩
    exact ⟨hno, current_disk hno⟩

/-- A sufficient condition for two states to show the same files. -/
theorem current_congr {st st' : FileTab α} (hu : ∀ a b o o', st.obj a = some o → st.obj b = some o' → o.id = o'.id → a = b)
    (hu' : ∀ a b o o', st'.obj a = some o → st'.obj b = some o' → o.id = o'.id → a = b) (id : Bytes)
    (h1 : ∀ a o, st'.obj a = some o → o.id = id → (∃ b o', st.obj b = some o' ∧ o'.id = id ∧ o'.val = o.val) ∨
      ((∀ b o', st.obj b = some o' → o'.id ≠ id) ∧ st.disk id = some o.val))
    (h2 : (∀ a o, st'.obj a = some o → o.id ≠ id) → (∃ b o', st.obj b = some o' ∧ o'.id = id ∧ st'.disk id = some o'.val) ∨
      ((∀ b o', st.obj b = some o' → o'.id ≠ id) ∧ st'.disk id = st.disk id)) :
    st'.current id = st.current id := by
  rcases current_cases st' hu' id with ⟨a, o, g1, g2, g3⟩ | ⟨g1, g3⟩
  · rw [g3]
    rcases h1 a o g1 g2 with ⟨b, o', k1, k2, k3⟩ | ⟨k1, k2⟩
    · rw [← k2, current_obj hu k1, k3]
    · rw [current_disk k1, k2]
  · rw [g3]
    rcases h2 g1 with ⟨b, o', k1, k2, k3⟩ | ⟨k1, k2⟩
    · rw [k3, ← k2, current_obj hu k1]
    · rw [current_disk k1, k2]

end FileTab

end Securefs

namespace Securefs.FileTab

variable {α : Type}

theorem inodeNumber_ok {id : Bytes} (h : 8 ≤ id.length) : ∃ n, inodeNumber id = .ok n := by
  unfold inodeNumber fromLE
  rw [if_neg (by omega)]
  exact ⟨_, rfl⟩

theorem shardOf_ok {id : Bytes} (h : id.length = 32) (hr : id ≠ kRootId) : ∃ i, shardOf id = .ok i := by
  obtain ⟨n, hn⟩ := inodeNumber_ok (id := id) (by omega)
  refine ⟨n % kNumShards, ?_⟩
  simp only [shardOf, if_neg hr, hn, bind, Except.bind]

theorem shardOf_lt {id : Bytes} {i : Nat} (h : shardOf id = .ok i) : i < 32 := by
  unfold shardOf at h
  by_cases hr : id = kRootId
  · simp [hr] at h
  · simp only [if_neg hr, bind, Except.bind] at h
    cases hn : inodeNumber id with
    | error e => rw [hn] at h; cases h
    | ok n =>
      rw [hn] at h
      cases h
      exact Nat.mod_lt _ (by decide)

theorem lookup_mem {β : Type} {l : List (Bytes × β)} {id : Bytes} {a : β} (h : l.lookup id = some a) : (id, a) ∈ l := by
  obtain ⟨l1, l2, h1, _⟩ := List.lookup_eq_some_iff.mp h
  rw [h1]; simp

theorem lookup_mem' {β : Type} {l : List (Nat × β)} {id : Nat} {a : β} (h : l.lookup id = some a) : (id, a) ∈ l := by
  obtain ⟨l1, l2, h1, _⟩ := List.lookup_eq_some_iff.mp h
  rw [h1]; simp

theorem lookup_none {β : Type} {l : List (Bytes × β)} {id : Bytes} (h : l.lookup id = none) : ∀ a, (id, a) ∉ l := by
  intro a hm
  have := List.lookup_eq_none_iff.mp h (id, a) hm
  simp at this

theorem findCached_spec (st : FileTab α) (id : Bytes) : ∀ l : List Nat, (∀ a ∈ l, ∃ o, st.obj a = some o) →
    (∃ a o, a ∈ l ∧ st.obj a = some o ∧ o.id = id ∧ findCached st id l = .ok (some a)) ∨
    ((∀ a o, a ∈ l → st.obj a = some o → o.id ≠ id) ∧ findCached st id l = .ok none)
  | [], _ => Or.inr ⟨by simp, rfl⟩
  | a :: rest, h => by
    obtain ⟨o, ho⟩ := h a (by simp)
    unfold findCached
    rw [ho]
    dsimp only
    by_cases hid : o.id = id
    · rw [if_pos hid]
      exact Or.inl ⟨a, o, by simp, ho, hid, rfl⟩
    · rw [if_neg hid]
      rcases findCached_spec st id rest (fun b hb => h b (List.mem_cons_of_mem _ hb)) with ⟨b, ob, h1, h2, h3, h4⟩ | ⟨h1, h2⟩
      · exact Or.inl ⟨b, ob, List.mem_cons_of_mem _ h1, h2, h3, h4⟩
      · refine Or.inr ⟨?_, h2⟩
        intro b ob hb hob
        rcases List.mem_cons.mp hb with rfl | hb
        · rw [ho] at hob; cases hob; exact hid
        · exact h1 b ob hb hob

theorem anyReferenced_spec (st : FileTab α) : ∀ l : List Nat, (∀ a ∈ l, ∃ o, st.obj a = some o ∧ o.ref = 0) →
    anyReferenced st l = .ok false
  | [], _ => rfl
  | a :: rest, h => by
    obtain ⟨o, ho, hr⟩ := h a (by simp)
    unfold anyReferenced
    rw [ho]
    dsimp only
    rw [if_neg (by omega)]
    exact anyReferenced_spec st rest (fun b hb => h b (List.mem_cons_of_mem _ hb))

/-- The file a live address or the root stands for has its object there; an identifier without object is in no shard. -/
theorem no_obj {st : FileTab α} (hg : Good st) {id : Bytes} {i : Nat} (hs : shardOf id = .ok i)
    (h1 : (st.shards i).live.lookup id = none) (h2 : ∀ a o, a ∈ (st.shards i).cache → st.obj a = some o → o.id ≠ id) :
    ∀ a o, st.obj a = some o → o.id ≠ id := by
  intro a o ho hid
  subst hid
  have hne : a ≠ 0 := by
    rintro rfl
    obtain ⟨o0, g1, g2⟩ := hg.1.root
    rw [ho] at g1; cases g1
    rw [g2, shardOf_root] at hs
    cases hs
  rcases hg.1.owned a o ho hne with ⟨j, hj⟩ | ⟨j, hj⟩
  · obtain ⟨_, _, _, g3, _⟩ := hg.1.live_ok j _ a hj
    rw [hs] at g3; cases g3
    exact lookup_none h1 a hj
  · obtain ⟨o', g1, g2, _⟩ := hg.1.cache_ok j a hj
    rw [ho] at g1; cases g1
    rw [hs] at g2; cases g2
    exact h2 a o hj ho rfl

theorem obj_hold (st : FileTab α) (t a : Nat) (o : FileObj α) (ha : a < st.objs.length) :
    (st.hold t a o).obj = updAt st.obj a (some { o with ref := o.ref + 1 }) := by
  unfold hold
  exact obj_setObj st a _ ha

theorem obj_setShard (st : FileTab α) (i : Nat) (s : Shard) : (st.setShard i s).obj = st.obj := rfl
theorem obj_setDisk (st : FileTab α) (id : Bytes) (v) : (st.setDisk id v).obj = st.obj := rfl

/-- Changing counters shows the same files. -/
theorem current_touch {st st' : FileTab α} (hu : ∀ a b o o', st.obj a = some o → st.obj b = some o' → o.id = o'.id → a = b)
    (hu' : ∀ a b o o', st'.obj a = some o → st'.obj b = some o' → o.id = o'.id → a = b)
    {a : Nat} {o o' : FileObj α} (ho : st.obj a = some o) (hobj : st'.obj = updAt st.obj a (some o')) (hi : o'.id = o.id)
    (hv : o'.val = o.val) (hd : st'.disk = st.disk) : st'.current = st.current := by
  funext id
  refine current_congr hu hu' id ?_ ?_
  · intro b ob hb hid
    rw [hobj] at hb
    by_cases hba : b = a
    · subst hba; rw [updAt_same] at hb; cases hb
      exact Or.inl ⟨b, o, ho, hi ▸ hid, hv.symm⟩
    · rw [updAt_ne _ _ hba] at hb
      exact Or.inl ⟨b, ob, hb, hid, rfl⟩
  · intro hno
    refine Or.inr ⟨?_, by rw [hd]⟩
    intro b ob hb hid
    by_cases hba : b = a
    · subst hba
      rw [ho] at hb; cases hb
      exact hno b o' (by rw [hobj, updAt_same]) (hi.trans hid)
    · exact hno b ob (by rw [hobj, updAt_ne _ _ hba]; exact hb) hid

theorem file_touch {st st' : FileTab α} {a : Nat} {o o' : FileObj α} (ho : st.obj a = some o)
    (hobj : st'.obj = updAt st.obj a (some o')) (hi : o'.id = o.id) (b : Nat) :
    (st'.obj b).map FileObj.id = (st.obj b).map FileObj.id := by
  rw [hobj]
  by_cases hba : b = a
  · subst hba; rw [updAt_same, ho]; simp [hi]
  · rw [updAt_ne _ _ hba]

/-- The result of a step is what it should be. -/
def StepOk (fresh : α) (st : FileTab α) (e : TabEvent α) : TabRes (FileTab α) → Prop
  | .ok st' b => Good st' ∧ Spec.Step fresh st.files st'.files b e
  | .disabled => True
  | .useAfterFree => ∃ t a, e = .readId t ∧ (t, Closing.readId a) ∈ st.closing ∧ st.obj a = none

/-- Holding an object that is in the live map or is the root. -/
theorem hold_ok (fresh : α) {st : FileTab α} (hg : Good st) {t a : Nat} {id : Bytes} {f : Bool} {o : FileObj α} (ho : st.obj a = some o)
    (hid : o.id = id) (hc : ∀ i, a ∉ (st.shards i).cache) : StepOk fresh st (.openAs t id f) (.ok (st.hold t a o) true) := by
  have hobj := obj_hold st t a o (obj_lt ho)
  have hi : Inv (st.hold t a o).obj (st.hold t a o).shards (st.hold t a o).holders (st.hold t a o).closing (st.hold t a o).disk := by
    rw [hobj]; exact hg.1.hold ho hc
  refine ⟨⟨hi, hg.2⟩, ⟨?_, ?_⟩, ?_⟩
  · exact current_touch hg.1.uniq hi.uniq ho hobj rfl rfl rfl
  · rw [if_pos rfl]
    refine ⟨?_, a, ?_, rfl⟩
    · show st.current id ≠ none
      rw [← hid, current_obj hg.1.uniq ho]; simp
    · show ((st.hold t a o).obj a).map FileObj.id = some id
      rw [file_touch ho hobj rfl, ho]; simp [hid]
  · intro t' b _
    exact file_touch ho hobj rfl b

theorem openAs_ok (fresh : α) {st : FileTab α} (hg : Good st) (t : Nat) (id : Bytes) (f : Bool) (hlen : id.length = 32) :
    StepOk fresh st (.openAs t id f) (st.openAs t id f) := by
  unfold openAs
  by_cases hr : id = kRootId
  · rw [if_pos hr]
    obtain ⟨o, ho, hid⟩ := hg.1.root
    rw [ho]
    exact hold_ok fresh hg ho (by rw [hid, hr]) (fun i hm => hg.1.cache_ne_zero hm rfl)
  rw [if_neg hr]
  obtain ⟨i, hs⟩ := shardOf_ok hlen hr
  rw [hs]
  dsimp only
  cases hl : (st.shards i).live.lookup id with
  | some a =>
    have hm := lookup_mem hl
    obtain ⟨o, ho, hid, _⟩ := hg.1.live_ok i id a hm
    dsimp only
    rw [ho]
    exact hold_ok fresh hg ho hid (fun j => hg.1.excl i j id a hm)
  | none =>
    dsimp only
    rcases findCached_spec st id (st.shards i).cache (fun a ha => by
        obtain ⟨o, ho, _⟩ := hg.1.cache_ok i a ha; exact ⟨o, ho⟩) with ⟨a, o, ha, ho, hid, hf⟩ | ⟨hn, hf⟩
    · rw [hf]
      dsimp only
      rw [ho]
      dsimp only
      subst hid
      have h1 := hg.1.uncache ha ho
      have hnc : ∀ j, a ∉ (updAt st.shards i { live := (o.id, a) :: (st.shards i).live, cache := (st.shards i).cache.erase a } j).cache := by
        intro j
        refine h1.excl i j o.id a ?_
        rw [updAt_same]; simp
      have h2 := h1.hold (t := t) ho hnc
      have hobj := obj_hold st t a o (obj_lt ho)
      have hi : Inv (((st.hold t a o).setShard i { live := (o.id, a) :: (st.shards i).live, cache := (st.shards i).cache.erase a }).obj)
          (updAt st.shards i { live := (o.id, a) :: (st.shards i).live, cache := (st.shards i).cache.erase a })
          ((t, a) :: st.holders) st.closing st.disk := by
        rw [obj_setShard, hobj]; exact h2
      refine ⟨⟨hi, ?_⟩, ⟨?_, ?_⟩, ?_⟩
      · intro j
        show (updAt st.shards i { live := (o.id, a) :: (st.shards i).live, cache := (st.shards i).cache.erase a } j).cache.length ≤ 50
        by_cases hj : j = i
        · subst hj; rw [updAt_same]; exact Nat.le_trans List.length_erase_le (hg.2 j)
        · rw [updAt_ne _ _ hj]; exact hg.2 j
      · exact current_touch hg.1.uniq hi.uniq ho hobj rfl rfl rfl
      · rw [if_pos rfl]
        refine ⟨?_, a, ?_, rfl⟩
        · show st.current o.id ≠ none
          rw [current_obj hg.1.uniq ho]; simp
        · show ((st.hold t a o).obj a).map FileObj.id = some o.id
          rw [file_touch ho hobj rfl, ho]; rfl
      · intro t' b _
        exact file_touch ho hobj rfl b
    · rw [hf]
      dsimp only
      have hno := no_obj hg hs hl hn
      have hcur : st.current id = st.disk id := current_disk hno
      cases hd : st.disk id with
      | none =>
        refine ⟨hg, ⟨rfl, ?_⟩, fun _ _ _ => rfl⟩
        rw [if_neg (by simp)]
        exact ⟨Or.inl (by show st.current id = none; rw [hcur, hd]), rfl⟩
      | some v =>
        dsimp only
        cases f with
        | true =>
          rw [if_pos rfl]
          refine ⟨hg, ⟨rfl, ?_⟩, fun _ _ _ => rfl⟩
          rw [if_neg (by simp)]
          exact ⟨Or.inr rfl, rfl⟩
        | false =>
          rw [if_neg (by simp)]
          have h1 := hg.1.alloc (a := st.objs.length) (obj_fresh st) hno hd hs
          have hnc : ∀ j, st.objs.length ∉ (updAt st.shards i { live := (id, st.objs.length) :: (st.shards i).live, cache := (st.shards i).cache } j).cache := by
            intro j
            refine h1.excl i j id _ ?_
            rw [updAt_same]; simp
          have h2 := h1.hold (t := t) (updAt_same _ _ _) hnc
          rw [updAt_idem] at h2
          generalize hst1 : FileTab.mk (st.objs ++ [some { id := id, ref := 0, val := v }]) st.shards st.holders st.closing st.disk = st1
          have hobj1 : st1.obj = updAt st.obj st.objs.length (some { id := id, ref := 0, val := v }) := by
            rw [← hst1]; exact obj_push st _
          have hlt : st.objs.length < st1.objs.length := by rw [← hst1]; simp
          have hobj : (st1.hold t st.objs.length { id := id, ref := 0, val := v }).obj =
              updAt st.obj st.objs.length (some { id := id, ref := 0 + 1, val := v }) := by
            rw [obj_hold _ _ _ _ hlt, hobj1, updAt_idem]
          have e1 : st1.shards = st.shards := by rw [← hst1]
          have e2 : st1.holders = st.holders := by rw [← hst1]
          have e3 : st1.closing = st.closing := by rw [← hst1]
          have e4 : st1.disk = st.disk := by rw [← hst1]
          generalize hst2 : (st1.hold t st.objs.length { id := id, ref := 0, val := v }).setShard i
            { live := (id, st.objs.length) :: (st.shards i).live, cache := (st.shards i).cache } = st2
          have f0 : st2.obj = updAt st.obj st.objs.length (some { id := id, ref := 0 + 1, val := v }) := by
            rw [← hst2, obj_setShard]; exact hobj
          have f1 : st2.shards = updAt st.shards i { live := (id, st.objs.length) :: (st.shards i).live, cache := (st.shards i).cache } := by
            rw [← hst2]
            show updAt st1.shards i _ = _
            rw [e1]
          have f2 : st2.holders = (t, st.objs.length) :: st.holders := by
            rw [← hst2]
            show _ :: st1.holders = _
            rw [e2]
          have f3 : st2.closing = st.closing := by
            rw [← hst2]; exact e3
          have f4 : st2.disk = st.disk := by
            rw [← hst2]; exact e4
          have hi : Inv st2.obj st2.shards st2.holders st2.closing st2.disk := by
            rw [f0, f1, f2, f3, f4]; exact h2
          refine ⟨⟨hi, ?_⟩, ⟨?_, ?_⟩, ?_⟩
          · intro j
            rw [f1]
            by_cases hj : j = i
            · subst hj; rw [updAt_same]; exact hg.2 j
            · rw [updAt_ne _ _ hj]; exact hg.2 j
          · show st2.current = st.current
            funext id'
            refine current_congr hg.1.uniq hi.uniq id' ?_ ?_
            · intro b ob hb hidb
              rw [f0] at hb
              by_cases hba : b = st.objs.length
              · subst hba; rw [updAt_same] at hb; cases hb
                dsimp only at hidb
                subst hidb
                exact Or.inr ⟨hno, hd⟩
              · rw [updAt_ne _ _ hba] at hb
                exact Or.inl ⟨b, ob, hb, hidb, rfl⟩
            · intro hno'
              refine Or.inr ⟨?_, by rw [f4]⟩
              intro b ob hb
              have hba : b ≠ st.objs.length := by have := obj_lt hb; omega
              exact hno' b ob (by rw [f0, updAt_ne _ _ hba]; exact hb)
          · rw [if_pos rfl]
            refine ⟨?_, st.objs.length, ?_, f2⟩
            · show st.current id ≠ none
              rw [hcur, hd]; simp
            · show (st2.obj _).map FileObj.id = some id
              rw [f0, updAt_same]; rfl
          · intro t' b hm
            have hne := hg.1.held t' b hm
            have hba : b ≠ st.objs.length := by
              rintro rfl; exact hne (obj_fresh st)
            show (st2.obj b).map FileObj.id = (st.obj b).map FileObj.id
            rw [f0, updAt_ne _ _ hba]

end Securefs.FileTab

namespace Securefs.FileTab

variable {α : Type}

/-- A backing file without object exists exactly when the file does. -/
theorem disk_none_no_obj {st : FileTab α} (hg : Good st) {id : Bytes} (hr : id ≠ kRootId) (hd : st.disk id = none) :
    ∀ a o, st.obj a = some o → o.id ≠ id := by
  rintro a o ho rfl
  have hne : a ≠ 0 := by
    rintro rfl
    obtain ⟨o0, g1, g2⟩ := hg.1.root
    rw [ho] at g1; cases g1
    exact hr g2
  rcases hg.1.owned a o ho hne with ⟨j, hj⟩ | ⟨j, hj⟩
  · obtain ⟨_, _, _, _, g⟩ := hg.1.live_ok j _ a hj
    exact g hd
  · obtain ⟨o', g1, _, _, g4, _⟩ := hg.1.cache_ok j a hj
    rw [ho] at g1; cases g1
    rw [hd] at g4; cases g4

theorem current_setDisk {st : FileTab α} (hu : ∀ a b o o', st.obj a = some o → st.obj b = some o' → o.id = o'.id → a = b)
    {id : Bytes} (hno : ∀ a o, st.obj a = some o → o.id ≠ id) (v : Option (FileVal α)) :
    (st.setDisk id v).current = Spec.update st.current id v := by
  funext id'
  by_cases hid : id' = id
  · subst hid
    rw [current_disk (st := st.setDisk id' v) hno]
    simp [setDisk, Spec.update]
  · rw [show Spec.update st.current id v id' = st.current id' by simp [Spec.update, hid]]
    refine current_congr (st := st) (st' := st.setDisk id v) hu hu id' (fun a o h1 h2 => Or.inl ⟨a, o, h1, h2, rfl⟩)
      (fun h => Or.inr ⟨h, ?_⟩)
    simp [setDisk, hid]

theorem createAs_ok (fresh : α) {st : FileTab α} (hg : Good st) (t : Nat) (id : Bytes) (f : Bool) (hlen : id.length = 32) :
    StepOk fresh st (.createAs t id f) (createAs fresh st t id f) := by
  unfold createAs
  by_cases hr : id = kRootId
  · subst hr
    rw [shardOf_root]
    refine ⟨hg, ?_, fun _ _ _ => rfl⟩
    exact ⟨rfl, Or.inl ⟨rfl, Or.inr rfl⟩⟩
  obtain ⟨i, hs⟩ := shardOf_ok hlen hr
  rw [hs]
  dsimp only
  cases hd : st.disk id with
  | some v =>
    refine ⟨hg, ⟨rfl, Or.inl ⟨rfl, Or.inl ?_⟩⟩, fun _ _ _ => rfl⟩
    show st.current id ≠ none
    rcases current_cases st hg.1.uniq id with ⟨_, _, _, _, h⟩ | ⟨_, h⟩
    · rw [h]; simp
    · rw [h, hd]; simp
  | none =>
    dsimp only
    have hno := disk_none_no_obj hg hr hd
    have hcur : st.current id = none := by rw [current_disk hno, hd]
    have hval : (st.setDisk id (some { nlink := 0xffffffff, data := fresh })).current =
        Spec.update st.current id (some { nlink := 0xffffffff, data := fresh }) := current_setDisk hg.1.uniq hno _
    have h0 : Inv st.obj st.shards st.holders st.closing (updId st.disk id (some { nlink := 0xffffffff, data := fresh })) :=
      hg.1.write (fun j a o _ ho => hno a o ho) (Or.inr (by show (0xffffffff : UInt32) ≠ 0; decide))
    cases f with
    | true =>
      rw [if_pos rfl]
      refine ⟨⟨h0, hg.2⟩, ⟨rfl, Or.inr ⟨rfl, hcur, hval⟩⟩, fun _ _ _ => rfl⟩
    | false =>
      rw [if_neg (by simp)]
      have hl : (st.shards i).live.lookup id = none := by
        rw [List.lookup_eq_none_iff]
        rintro ⟨id', a⟩ hm
        simp only [bne_iff_ne, ne_eq]
        rintro rfl
        obtain ⟨o, ho, hid, _⟩ := hg.1.live_ok i _ a hm
        exact hno a o ho hid
      rw [hl]
      dsimp only
      generalize hv : (FileVal.mk 0xffffffff fresh : FileVal α) = v at *
      have h1 := h0.alloc (a := st.objs.length) (obj_fresh st) hno (updId_same _ _ _) hs
      have hnc : ∀ j, st.objs.length ∉ (updAt st.shards i { live := (id, st.objs.length) :: (st.shards i).live, cache := (st.shards i).cache } j).cache := by
        intro j
        refine h1.excl i j id _ ?_
        rw [updAt_same]; simp
      have h2 := h1.hold (t := t) (updAt_same _ _ _) hnc
      rw [updAt_idem] at h2
      generalize hst1 : FileTab.mk (st.objs ++ [some { id := id, ref := 0, val := v }]) (st.setDisk id (some v)).shards
        (st.setDisk id (some v)).holders (st.setDisk id (some v)).closing (st.setDisk id (some v)).disk = st1
      have hobj1 : st1.obj = updAt st.obj st.objs.length (some { id := id, ref := 0, val := v }) := by
        rw [← hst1]; exact obj_push st _
      have hlt : st.objs.length < st1.objs.length := by rw [← hst1]; simp
      have e1 : st1.shards = st.shards := by rw [← hst1]; rfl
      have e2 : st1.holders = st.holders := by rw [← hst1]; rfl
      have e3 : st1.closing = st.closing := by rw [← hst1]; rfl
      have e4 : st1.disk = updId st.disk id (some v) := by rw [← hst1]; rfl
      generalize hst2 : (st1.hold t st.objs.length { id := id, ref := 0, val := v }).setShard i
        { live := (id, st.objs.length) :: (st.shards i).live, cache := (st.shards i).cache } = st2
      have f0 : st2.obj = updAt st.obj st.objs.length (some { id := id, ref := 0 + 1, val := v }) := by
        rw [← hst2, obj_setShard, obj_hold _ _ _ _ hlt, hobj1, updAt_idem]
      have f1 : st2.shards = updAt st.shards i { live := (id, st.objs.length) :: (st.shards i).live, cache := (st.shards i).cache } := by
        rw [← hst2]
        show updAt st1.shards i _ = _
        rw [e1]
      have f2 : st2.holders = (t, st.objs.length) :: st.holders := by
        rw [← hst2]
        show _ :: st1.holders = _
        rw [e2]
      have f3 : st2.closing = st.closing := by rw [← hst2]; exact e3
      have f4 : st2.disk = updId st.disk id (some v) := by rw [← hst2]; exact e4
      have hi : Inv st2.obj st2.shards st2.holders st2.closing st2.disk := by
        rw [f0, f1, f2, f3, f4]; exact h2
      refine ⟨⟨hi, ?_⟩, ?_, ?_⟩
      · intro j
        rw [f1]
        by_cases hj : j = i
        · subst hj; rw [updAt_same]; exact hg.2 j
        · rw [updAt_ne _ _ hj]; exact hg.2 j
      · unfold Spec.Allowed
        dsimp only
        rw [if_pos rfl]
        refine ⟨hcur, ?_, st.objs.length, ?_, f2⟩
        · rw [hv]
          show st2.current = Spec.update st.current id (some v)
          rw [← hval]
          funext id'
          refine current_congr (st := st.setDisk id (some v)) hg.1.uniq hi.uniq id' ?_ ?_
          · intro b ob hb hidb
            rw [f0] at hb
            by_cases hba : b = st.objs.length
            · subst hba; rw [updAt_same] at hb; cases hb
              dsimp only at hidb
              subst hidb
              exact Or.inr ⟨hno, by simp [setDisk]⟩
            · rw [updAt_ne _ _ hba] at hb
              exact Or.inl ⟨b, ob, hb, hidb, rfl⟩
          · intro hno'
            refine Or.inr ⟨?_, by rw [f4]; rfl⟩
            intro b ob hb
            have hba : b ≠ st.objs.length := by
              have := obj_lt (st := st) hb; omega
            exact hno' b ob (by rw [f0, updAt_ne _ _ hba]; exact hb)
        · show (st2.obj _).map FileObj.id = some id
          rw [f0, updAt_same]; rfl
      · intro t' b hm
        have hne := hg.1.held t' b hm
        have hba : b ≠ st.objs.length := by
          rintro rfl; exact hne (obj_fresh st)
        show (st2.obj b).map FileObj.id = (st.obj b).map FileObj.id
        rw [f0, updAt_ne _ _ hba]

theorem modify_ok (fresh : α) {st : FileTab α} (hg : Good st) (t a : Nat) (v : FileVal α) :
    StepOk fresh st (.modify t a v) (st.modify t a v) := by
  unfold modify
  by_cases hm : (t, a) ∈ st.holders
  · rw [if_pos hm]
    cases ho : st.obj a with
    | none => exact absurd ho (hg.1.held t a hm)
    | some o =>
      dsimp only
      have hpos := hg.1.held_pos hm ho
      have hobj : (st.setObj a (some { o with val := v })).obj = updAt st.obj a (some { o with val := v }) :=
        obj_setObj st a _ (obj_lt ho)
      have hi : Inv (st.setObj a (some { o with val := v })).obj st.shards st.holders st.closing st.disk := by
        rw [hobj]
        exact hg.1.touch ho (hg.1.held_not_cached hm) o.ref v st.holders st.closing (hg.1.refs a o ho) (fun _ _ => rfl)
          (fun t' b hb => Or.inr ⟨t', hb⟩) hg.1.closing_nodup (fun _ hx => hx) (by omega)
      refine ⟨⟨hi, hg.2⟩, ⟨hm, rfl, o.id, ?_, ?_⟩, ?_⟩
      · show (st.obj a).map FileObj.id = some o.id
        rw [ho]; rfl
      · show (st.setObj a (some { o with val := v })).current = Spec.update st.current o.id (some v)
        funext id'
        by_cases hid : id' = o.id
        · subst hid
          have h1 : (st.setObj a (some { o with val := v })).obj a = some { o with val := v } := by rw [hobj, updAt_same]
          have := current_obj hi.uniq h1
          dsimp only at this
          rw [this]
          simp [Spec.update]
        · rw [show Spec.update st.current o.id (some v) id' = st.current id' by simp [Spec.update, hid]]
          refine current_congr hg.1.uniq hi.uniq id' ?_ ?_
          · intro b ob hb hidb
            rw [hobj] at hb
            by_cases hba : b = a
            · subst hba; rw [updAt_same] at hb; cases hb
              exact absurd hidb.symm hid
            · rw [updAt_ne _ _ hba] at hb
              exact Or.inl ⟨b, ob, hb, hidb, rfl⟩
          · intro hno
            refine Or.inr ⟨?_, rfl⟩
            intro b ob hb hidb
            by_cases hba : b = a
            · subst hba
              rw [ho] at hb; cases hb
              exact hid hidb.symm
            · exact hno b ob (by rw [hobj, updAt_ne _ _ hba]; exact hb) hidb
      · intro t' b _
        exact file_touch (st := st) (st' := st.setObj a (some { o with val := v })) ho hobj rfl b
  · rw [if_neg hm]; trivial

theorem countP_erase_of_mem {l : List (Nat × Nat)} {x : Nat × Nat} (hm : x ∈ l) (q : Nat × Nat → Bool) :
    l.countP q = (l.erase x).countP q + if q x then 1 else 0 := by
  rw [(List.perm_cons_erase hm).countP_eq, List.countP_cons]

theorem give_ok (fresh : α) {st : FileTab α} (hg : Good st) (t t' a : Nat) :
    StepOk fresh st (.give t t' a) (st.give t t' a) := by
  unfold give
  by_cases hm : (t, a) ∈ st.holders
  · rw [if_pos hm]
    refine ⟨⟨?_, hg.2⟩, ⟨hm, rfl, rfl⟩, fun _ _ _ => rfl⟩
    refine { hg.1 with refs := ?_, held := ?_ }
    · intro b ob hb
      rw [hg.1.refs b ob hb, countP_erase_of_mem hm, List.countP_cons]
    · intro s b hb
      rcases List.mem_cons.mp hb with hb | hb
      · cases hb; exact hg.1.held t a hm
      · exact hg.1.held s b (List.mem_of_mem_erase hb)
  · rw [if_neg hm]; trivial

theorem drop_ok (fresh : α) {st : FileTab α} (hg : Good st) (t a : Nat) (ht : st.closing.lookup t = none) :
    StepOk fresh st (.drop t a) (st.drop t a) := by
  unfold drop
  by_cases hm : (t, a) ∈ st.holders
  · rw [if_pos hm]
    cases ho : st.obj a with
    | none => exact absurd ho (hg.1.held t a hm)
    | some o =>
      dsimp only
      have hpos := hg.1.held_pos hm ho
      have hobj : (st.setObj a (some { o with ref := o.ref - 1 })).obj = updAt st.obj a (some { o with ref := o.ref - 1 }) :=
        obj_setObj st a _ (obj_lt ho)
      have hcnt : o.ref - 1 = (((st.holders.erase (t, a)).countP fun p => p.2 = a : Nat) : Int) := by
        have h1 := hg.1.refs a o ho
        rw [countP_erase_of_mem hm] at h1
        simp only [decide_true, if_true] at h1
        omega
      have hoth : ∀ b, b ≠ a → (st.holders.erase (t, a)).countP (fun p => p.2 = b) = st.holders.countP (fun p => p.2 = b) := by
        intro b hb
        rw [countP_erase_of_mem hm (fun p => p.2 = b), if_neg (by simpa using fun h => hb h.symm)]
        omega
      have hnot : t ∉ st.closing.map Prod.fst := by
        intro hmem
        obtain ⟨⟨t', c⟩, hc, rfl⟩ := List.mem_map.mp hmem
        have := List.lookup_eq_none_iff.mp ht (t', c) hc
        simp at this
      by_cases hz : o.ref - 1 ≤ 0
      · rw [if_pos hz]
        have hi : Inv (st.setObj a (some { o with ref := o.ref - 1 })).obj st.shards (st.holders.erase (t, a))
            ((t, Closing.readId a) :: st.closing) st.disk := by
          rw [hobj]
          exact hg.1.touch ho (hg.1.held_not_cached hm) _ o.val _ _ hcnt hoth
            (fun t' b hb => Or.inr ⟨t', List.mem_of_mem_erase hb⟩) (List.nodup_cons.mpr ⟨hnot, hg.1.closing_nodup⟩)
            (fun _ hx => List.mem_cons_of_mem _ hx) (fun _ _ => ⟨t, by simp⟩)
        refine ⟨⟨hi, hg.2⟩, ⟨hm, ?_, rfl⟩, ?_⟩
        · exact current_touch (st := st) hg.1.uniq hi.uniq ho hobj rfl rfl rfl
        · intro t' b _
          exact file_touch (st := st) (st' := st.setObj a (some { o with ref := o.ref - 1 })) ho hobj rfl b
      · rw [if_neg hz]
        have hi : Inv (st.setObj a (some { o with ref := o.ref - 1 })).obj st.shards (st.holders.erase (t, a))
            st.closing st.disk := by
          rw [hobj]
          exact hg.1.touch ho (hg.1.held_not_cached hm) _ o.val _ _ hcnt hoth
            (fun t' b hb => Or.inr ⟨t', List.mem_of_mem_erase hb⟩) hg.1.closing_nodup
            (fun _ hx => hx) (by omega)
        refine ⟨⟨hi, hg.2⟩, ⟨hm, ?_, rfl⟩, ?_⟩
        · exact current_touch (st := st) hg.1.uniq hi.uniq ho hobj rfl rfl rfl
        · intro t' b _
          exact file_touch (st := st) (st' := st.setObj a (some { o with ref := o.ref - 1 })) ho hobj rfl b
  · rw [if_neg hm]; trivial

theorem closing_unique {st : FileTab α} (hg : Good st) {t : Nat} {c d : Closing} (h1 : (t, c) ∈ st.closing) (h2 : (t, d) ∈ st.closing) :
    c = d := by
  have hn := hg.1.closing_nodup
  revert h1 h2 hn
  generalize st.closing = l
  intro h1 h2 hn
  have := List.inj_on_of_nodup_map hn h1 h2 rfl
  exact congrArg Prod.snd this

theorem filter_nodup {st : FileTab α} (hg : Good st) (t : Nat) :
    ((st.closing.filter fun p => p.1 ≠ t).map Prod.fst).Nodup :=
  hg.1.closing_nodup.sublist (List.Sublist.map _ List.filter_sublist)

theorem readId_ok (fresh : α) {st : FileTab α} (hg : Good st) (t : Nat) : StepOk fresh st (.readId t) (st.readId t) := by
  unfold readId
  cases hl : st.closing.lookup t with
  | none => trivial
  | some c =>
    cases c with
    | lockShard id => trivial
    | readId a =>
      have hmem := lookup_mem' hl
      dsimp only
      cases ho : st.obj a with
      | none => exact ⟨t, a, rfl, hmem, ho⟩
      | some o =>
        dsimp only
        have hother : ∀ t' c, (t', c) ∈ st.closing → (t', c) ≠ (t, Closing.readId a) → (t', c) ∈ st.closing.filter fun p => p.1 ≠ t := by
          intro t' c hc hne
          refine List.mem_filter.mpr ⟨hc, ?_⟩
          have : t' ≠ t := by
            rintro rfl
            exact hne (by rw [closing_unique hg hc hmem])
          simpa using this
        by_cases hr : o.id = kRootId
        · rw [if_pos hr]
          have ha0 : a = 0 := by
            obtain ⟨o0, g1, g2⟩ := hg.1.root
            exact hg.1.uniq a 0 o o0 ho g1 (by rw [hr, g2])
          have hw : Inv st.obj st.shards st.holders st.closing (updId st.disk kRootId (some o.val)) := by
            refine hg.1.write ?_ (Or.inl ⟨a, o, ho, hr⟩)
            intro i b ob hb hob hid
            have : b = a := hg.1.uniq b a ob o hob ho (by rw [hid, hr])
            exact hg.1.cache_ne_zero hb (by rw [this, ha0])
          have hi : Inv st.obj st.shards st.holders (st.closing.filter fun p => p.1 ≠ t) (updId st.disk kRootId (some o.val)) := by
            refine hw.reclose (filter_nodup hg t) ?_
            intro i id b ob hb hob _ _ t' ht'
            refine ⟨t', ht'.imp (fun h => hother _ _ h ?_) (fun h => hother _ _ h (by simp))⟩
            intro he
            cases he
            exact hg.1.live_ne_zero hb ha0
          refine ⟨⟨hi, hg.2⟩, ⟨?_, rfl⟩, fun _ _ _ => rfl⟩
          show (FileTab.current _ : Bytes → Option (FileVal α)) = st.current
          funext id'
          refine current_congr (st := st)
            (st' := { st.setDisk kRootId (some o.val) with closing := st.closing.filter fun p => p.1 ≠ t })
            hg.1.uniq hi.uniq id' (fun b ob hb hid => Or.inl ⟨b, ob, hb, hid, rfl⟩) ?_
          intro hno
          refine Or.inr ⟨hno, ?_⟩
          have : id' ≠ kRootId := fun he => hno a o ho (by rw [hr, he])
          simp [setDisk, this]
        · rw [if_neg hr]
          refine ⟨⟨?_, hg.2⟩, ⟨rfl, rfl⟩, fun _ _ _ => rfl⟩
          refine hg.1.reclose ?_ ?_
          · refine List.nodup_cons.mpr ⟨?_, filter_nodup hg t⟩
            intro hx
            obtain ⟨p, hp, hpt⟩ := List.mem_map.mp hx
            have := (List.mem_filter.mp hp).2
            simp at this
            exact this hpt
          · intro i id b ob hb hob _ _ t' ht'
            by_cases he : (t', Closing.readId b) = (t, Closing.readId a)
            · cases he
              rw [ho] at hob; cases hob
              obtain ⟨o', g1, g2, _⟩ := hg.1.live_ok _ _ _ hb
              rw [ho] at g1; cases g1
              exact ⟨t, Or.inr (by rw [← g2]; simp)⟩
            · rcases ht' with ht' | ht'
              · exact ⟨t', Or.inl (List.mem_cons_of_mem _ (hother _ _ ht' he))⟩
              · exact ⟨t', Or.inr (List.mem_cons_of_mem _ (hother _ _ ht' (by simp)))⟩

end Securefs.FileTab

namespace Securefs.FileTab

variable {α : Type}

theorem foldl_setObj (L : List Nat) : ∀ (st : FileTab α), (∀ a ∈ L, a < st.objs.length) →
    (L.foldl (fun acc a => acc.setObj a none) st).obj = L.foldl (fun f a => updAt f a none) st.obj ∧
    (L.foldl (fun acc a => acc.setObj a none) st).shards = st.shards ∧
    (L.foldl (fun acc a => acc.setObj a none) st).holders = st.holders ∧
    (L.foldl (fun acc a => acc.setObj a none) st).closing = st.closing ∧
    (L.foldl (fun acc a => acc.setObj a none) st).disk = st.disk := by
  induction L with
  | nil => intro st _; exact ⟨rfl, rfl, rfl, rfl, rfl⟩
  | cons a L ih =>
    intro st h
    have hlen : (st.setObj a none).objs.length = st.objs.length := by simp [setObj]
    obtain ⟨h1, h2, h3, h4, h5⟩ := ih (st.setObj a none) (fun b hb => by rw [hlen]; exact h b (List.mem_cons_of_mem _ hb))
    simp only [List.foldl_cons]
    rw [h1, obj_setObj st a none (h a (by simp))]
    exact ⟨rfl, h2, h3, h4, h5⟩

theorem foldl_upd_none (L : List Nat) : ∀ (f : Nat → Option (FileObj α)) (b : Nat),
    (b ∈ L → L.foldl (fun f a => updAt f a none) f b = none) ∧ (b ∉ L → L.foldl (fun f a => updAt f a none) f b = f b) := by
  induction L with
  | nil => intro f b; exact ⟨fun h => absurd h (by simp), fun _ => rfl⟩
  | cons a L ih =>
    intro f b
    simp only [List.foldl_cons]
    obtain ⟨h1, h2⟩ := ih (updAt f a none) b
    constructor
    · intro hb
      by_cases hL : b ∈ L
      · exact h1 hL
      · rw [h2 hL]
        rcases List.mem_cons.mp hb with rfl | hb
        · exact updAt_same _ _ _
        · exact absurd hb hL
    · intro hb
      rw [h2 (fun h => hb (List.mem_cons_of_mem _ h)), updAt_ne _ _ (fun h => hb (by simp [h]))]

/-- Ejecting keeps everything the users see. -/
theorem eject_ok {st : FileTab α} {i : Nat} (h : Inv st.obj st.shards st.holders st.closing st.disk)
    (hlen : ∀ j, j ≠ i → (st.shards j).cache.length ≤ 50) (hi : (st.shards i).cache.length ≤ 51) :
    ∃ st', eject st i = .ok st' true ∧ Good st' ∧ st'.holders = st.holders ∧ st'.closing = st.closing ∧ st'.current = st.current ∧
      st'.disk = st.disk ∧ ∀ t a, (t, a) ∈ st.holders → st'.obj a = st.obj a := by
  unfold eject
  by_cases hgt : (st.shards i).cache.length > kMaxCached
  · rw [if_pos hgt]
    have hall : ∀ a ∈ (st.shards i).cache.take kEjectNumber, ∃ o, st.obj a = some o ∧ o.ref = 0 := by
      intro a ha
      obtain ⟨o, h1, _, h3, _⟩ := h.cache_ok i a (List.mem_of_mem_take ha)
      exact ⟨o, h1, h3⟩
    rw [anyReferenced_spec st _ hall]
    dsimp only
    obtain ⟨f1, f2, f3, f4, f5⟩ := foldl_setObj ((st.shards i).cache.take kEjectNumber) st (fun a ha => by
      obtain ⟨o, h1, _⟩ := hall a ha; exact obj_lt h1)
    have hev := Inv.evictMany ((st.shards i).cache.take kEjectNumber) ((st.shards i).cache.drop kEjectNumber) h (i := i)
      (List.take_append_drop _ _).symm
    generalize hst' : (((st.shards i).cache.take kEjectNumber).foldl (fun acc a => acc.setObj a none) st).setShard i
      { st.shards i with cache := (st.shards i).cache.drop kEjectNumber } = st'
    have g1 : st'.obj = ((st.shards i).cache.take kEjectNumber).foldl (fun f a => updAt f a none) st.obj := by
      rw [← hst', obj_setShard, f1]
    have g2 : st'.shards = updAt st.shards i { st.shards i with cache := (st.shards i).cache.drop kEjectNumber } := by
      rw [← hst']
      show updAt _ i _ = _
      rw [f2]
    have g3 : st'.holders = st.holders := by rw [← hst']; exact f3
    have g4 : st'.closing = st.closing := by rw [← hst']; exact f4
    have g5 : st'.disk = st.disk := by rw [← hst']; exact f5
    have hinv : Inv st'.obj st'.shards st'.holders st'.closing st'.disk := by
      rw [g1, g2, g3, g4, g5]; exact hev
    refine ⟨st', rfl, ⟨hinv, ?_⟩, g3, g4, ?_, g5, ?_⟩
    · intro j
      rw [g2]
      by_cases hj : j = i
      · subst hj; rw [updAt_same]
        dsimp only
        rw [List.length_drop]
        unfold kEjectNumber
        omega
      · rw [updAt_ne _ _ hj]; exact hlen j hj
    · funext id
      refine current_congr h.uniq hinv.uniq id ?_ ?_
      · intro a o ho hid
        rw [g1] at ho
        obtain ⟨k1, k2⟩ := foldl_upd_none ((st.shards i).cache.take kEjectNumber) st.obj a
        by_cases hm : a ∈ (st.shards i).cache.take kEjectNumber
        · rw [k1 hm] at ho; cases ho
        · rw [k2 hm] at ho; exact Or.inl ⟨a, o, ho, hid, rfl⟩
      · intro hno
        by_cases hex : ∃ a o, st.obj a = some o ∧ o.id = id
        · obtain ⟨a, o, ho, hid⟩ := hex
          left
          have hm : a ∈ (st.shards i).cache.take kEjectNumber := by
            by_contra hm
            refine hno a o ?_ hid
            rw [g1, (foldl_upd_none _ st.obj a).2 hm]; exact ho
          obtain ⟨o', p1, _, _, p4, _⟩ := h.cache_ok i a (List.mem_of_mem_take hm)
          rw [ho] at p1; cases p1
          exact ⟨a, o, ho, hid, by rw [g5, ← hid]; exact p4⟩
        · exact Or.inr ⟨fun b o' hb hid => hex ⟨b, o', hb, hid⟩, by rw [g5]⟩
    · intro t a hm
      rw [g1, (foldl_upd_none _ st.obj a).2]
      intro hc
      exact h.held_not_cached hm i (List.mem_of_mem_take hc)
  · rw [if_neg hgt]
    refine ⟨st, rfl, ⟨h, ?_⟩, rfl, rfl, rfl, rfl, fun _ _ _ => rfl⟩
    intro j
    by_cases hj : j = i
    · subst hj; unfold kMaxCached at hgt; omega
    · exact hlen j hj

theorem closeInternal_ok (fresh : α) {st : FileTab α} (hg : Good st) (t : Nat) (fe : Option (FileVal α)) :
    StepOk fresh st (.closeInternal t fe) (st.closeInternal t fe) := by
  unfold closeInternal
  cases hl : st.closing.lookup t with
  | none => trivial
  | some c =>
    cases c with
    | readId a => trivial
    | lockShard id =>
      have hmem := lookup_mem' hl
      dsimp only
      -- the state without the entry of this thread
      generalize hst1 : FileTab.mk st.objs st.shards st.holders (st.closing.filter fun p => p.1 ≠ t) st.disk = st1
      have e0 : st1.obj = st.obj := by rw [← hst1]; rfl
      have e1 : st1.shards = st.shards := by rw [← hst1]
      have e2 : st1.holders = st.holders := by rw [← hst1]
      have e3 : st1.closing = st.closing.filter fun p => p.1 ≠ t := by rw [← hst1]
      have e4 : st1.disk = st.disk := by rw [← hst1]
      have e5 : st1.current = st.current := by rw [← hst1]; rfl
      have hother : ∀ t' c, (t', c) ∈ st.closing → (t', c) ≠ (t, Closing.lockShard id) → (t', c) ∈ st.closing.filter fun p => p.1 ≠ t := by
        intro t' c hc hne
        refine List.mem_filter.mpr ⟨hc, ?_⟩
        have : t' ≠ t := by
          rintro rfl
          exact hne (by rw [closing_unique hg hc hmem])
        simpa using this
      -- the entry may go when nothing waits for it
      have hgo : (∀ i a o, (id, a) ∈ (st.shards i).live → st.obj a = some o → o.ref = 0 → o.val.nlink = 0 → False) → Good st1 := by
        intro hno
        refine ⟨?_, by rw [e1]; exact hg.2⟩
        rw [e0, e1, e2, e3, e4]
        refine hg.1.reclose (filter_nodup hg t) ?_
        intro i id' a o h1 h2 h3 h4 t' ht'
        refine ⟨t', ht'.imp (fun h => hother _ _ h (by simp)) (fun h => hother _ _ h ?_)⟩
        intro he
        cases he
        exact hno i a o h1 h2 h3 h4
      have hsame : Good st1 → ∀ b, StepOk fresh st (.closeInternal t fe) (.ok st1 b) := by
        intro hg1 b
        refine ⟨hg1, ⟨e2, Or.inl e5⟩, ?_⟩
        intro t' a _
        show (st1.obj a).map FileObj.id = (st.obj a).map FileObj.id
        rw [e0]
      cases hs : shardOf id with
      | error e =>
        refine hsame (hgo ?_) false
        intro i a o hm ho _ _
        obtain ⟨_, _, _, g, _⟩ := hg.1.live_ok i id a hm
        rw [hs] at g; cases g
      | ok i =>
        dsimp only
        cases hlk : (st.shards i).live.lookup id with
        | none =>
          refine hsame (hgo ?_) true
          intro j a o hm ho _ _
          obtain ⟨_, _, _, g, _⟩ := hg.1.live_ok j id a hm
          rw [hs] at g; cases g
          exact lookup_none hlk a hm
        | some a =>
          have hm := lookup_mem hlk
          obtain ⟨o, ho, hid, _, hdsk⟩ := hg.1.live_ok i id a hm
          dsimp only
          rw [e0, ho]
          dsimp only
          -- the only object of the file
          have honly : ∀ j a' o', (id, a') ∈ (st.shards j).live → st.obj a' = some o' → a' = a ∧ o' = o := by
            intro j a' o' hm' ho'
            obtain ⟨o'', g1, g2, _⟩ := hg.1.live_ok j id a' hm'
            rw [ho'] at g1; cases g1
            have := hg.1.uniq a' a o' o ho' ho (by rw [g2, hid])
            subst this
            rw [ho] at ho'; cases ho'
            exact ⟨rfl, rfl⟩
          have hnocache : ∀ j b ob, b ∈ (st.shards j).cache → st.obj b = some ob → ob.id ≠ id := by
            intro j b ob hb hob he
            have := hg.1.uniq b a ob o hob ho (by rw [he, hid])
            subst this
            exact hg.1.excl i j id b hm hb
          by_cases hr : o.ref > 0
          · rw [if_pos hr]
            refine hsame (hgo ?_) true
            intro j a' o' hm' ho' hr' _
            obtain ⟨_, rfl⟩ := honly j a' o' hm' ho'
            omega
          · rw [if_neg hr]
            have hr0 : o.ref = 0 := by
              have := hg.1.refs a o ho
              omega
            have hnohold : ∀ t' b, (t', b) ∈ st.holders → b ≠ a := by
              rintro t' b hb rfl
              have := hg.1.held_pos hb ho
              omega
            by_cases hn : o.val.nlink ≠ 0
            · rw [if_pos hn]
              have hg1 : Good st1 := by
                refine hgo ?_
                intro j a' o' hm' ho' _ hn'
                obtain ⟨_, rfl⟩ := honly j a' o' hm' ho'
                exact hn hn'
              cases fe with
              | some v =>
                dsimp only
                have hw : Inv st.obj st.shards st.holders (st.closing.filter fun p => p.1 ≠ t) (updId st.disk id (some v)) := by
                  have := hg1.1
                  rw [e0, e1, e2, e3, e4] at this
                  exact this.write hnocache (Or.inl ⟨a, o, ho, hid⟩)
                refine ⟨⟨?_, ?_⟩, ⟨e2, Or.inl ?_⟩, ?_⟩
                · show Inv st1.obj st1.shards st1.holders st1.closing (updId st1.disk id (some v))
                  rw [e0, e1, e2, e3, e4]; exact hw
                · show ∀ j, (st1.shards j).cache.length ≤ 50
                  rw [e1]; exact hg.2
                · show (st1.setDisk id (some v)).current = st.current
                  funext id'
                  refine current_congr (st := st) (st' := st1.setDisk id (some v)) hg.1.uniq hg1.1.uniq id' ?_ ?_
                  · intro b ob hb hidb
                    rw [obj_setDisk, e0] at hb
                    exact Or.inl ⟨b, ob, hb, hidb, rfl⟩
                  · intro hno
                    rw [obj_setDisk, e0] at hno
                    refine Or.inr ⟨hno, ?_⟩
                    have : id' ≠ id := fun he => hno a o ho (by rw [hid, he])
                    simp [setDisk, this, e4]
                · intro t' b _
                  show (st1.obj b).map FileObj.id = (st.obj b).map FileObj.id
                  rw [e0]
              | none =>
                dsimp only
                have hw : Inv st.obj st.shards st.holders (st.closing.filter fun p => p.1 ≠ t) (updId st.disk id (some o.val)) := by
                  have := hg1.1
                  rw [e0, e1, e2, e3, e4] at this
                  exact this.write hnocache (Or.inl ⟨a, o, ho, hid⟩)
                have hc := hw.toCache hm ho hr0 hn (updId_same _ _ _)
                generalize hst2 : (st1.setDisk id (some o.val)).setShard i
                  { live := (st.shards i).live.filter fun p => p.1 ≠ id, cache := (st.shards i).cache ++ [a] } = st2
                have g0 : st2.obj = st.obj := by rw [← hst2, obj_setShard, obj_setDisk, e0]
                have g1 : st2.shards = updAt st.shards i { live := (st.shards i).live.filter fun p => p.1 ≠ id, cache := (st.shards i).cache ++ [a] } := by
                  rw [← hst2]
                  show updAt st1.shards i _ = _
                  rw [e1]
                have g2 : st2.holders = st.holders := by rw [← hst2]; exact e2
                have g3 : st2.closing = st.closing.filter fun p => p.1 ≠ t := by rw [← hst2]; exact e3
                have g4 : st2.disk = updId st.disk id (some o.val) := by
                  rw [← hst2]
                  show updId st1.disk id _ = _
                  rw [e4]
                have hinv2 : Inv st2.obj st2.shards st2.holders st2.closing st2.disk := by
                  rw [g0, g1, g2, g3, g4]; exact hc
                obtain ⟨st3, k1, k2, k3, k4, k5, k6, k7⟩ := eject_ok (i := i) hinv2
                  (by intro j hj; rw [g1, updAt_ne _ _ hj]; exact hg.2 j)
                  (by rw [g1, updAt_same]; simp only [List.length_append, List.length_singleton]; have := hg.2 i; omega)
                rw [k1]
                refine ⟨k2, ⟨?_, Or.inl ?_⟩, ?_⟩
                · exact k3.trans g2
                · show st3.current = st.current
                  rw [k5]
                  funext id'
                  refine current_congr (st := st) (st' := st2) hg.1.uniq hinv2.uniq id' ?_ ?_
                  · intro b ob hb hidb
                    rw [g0] at hb
                    exact Or.inl ⟨b, ob, hb, hidb, rfl⟩
                  · intro hno
                    rw [g0] at hno
                    refine Or.inr ⟨hno, ?_⟩
                    have : id' ≠ id := fun he => hno a o ho (by rw [hid, he])
                    rw [g4, updId_ne _ _ this]
                · intro t' b hb
                  show (st3.obj b).map FileObj.id = (st.obj b).map FileObj.id
                  rw [k7 t' b (by rw [g2]; exact hb), g0]
            · rw [if_neg hn]
              have hn0 : o.val.nlink = 0 := by simpa using hn
              have hd := hg.1.destroy hm ho hr0
              have hlt : a < st1.objs.length := by
                have := obj_lt ho
                rw [← hst1]; exact this
              generalize hst2 : ((st1.setObj a none).setDisk id none).setShard i
                { live := (st.shards i).live.filter fun p => p.1 ≠ id, cache := (st.shards i).cache } = st2
              have g0 : st2.obj = updAt st.obj a none := by
                rw [← hst2, obj_setShard, obj_setDisk, obj_setObj st1 a none hlt, e0]
              have g1 : st2.shards = updAt st.shards i { live := (st.shards i).live.filter fun p => p.1 ≠ id, cache := (st.shards i).cache } := by
                rw [← hst2]
                show updAt st1.shards i _ = _
                rw [e1]
              have g2 : st2.holders = st.holders := by rw [← hst2]; exact e2
              have g3 : st2.closing = st.closing.filter fun p => p.1 ≠ t := by rw [← hst2]; exact e3
              have g4 : st2.disk = updId st.disk id none := by
                rw [← hst2]
                show updId st1.disk id _ = _
                rw [e4]
              have hinv2 : Inv st2.obj st2.shards st2.holders st2.closing st2.disk := by
                rw [g0, g1, g2, g3, g4]
                refine hd.reclose (filter_nodup hg t) ?_
                intro j id' b ob h1 h2 h3 h4 t' ht'
                refine ⟨t', ht'.imp (fun h => hother _ _ h (by simp)) (fun h => hother _ _ h ?_)⟩
                intro he
                cases he
                obtain ⟨_, _, _, w3, w4⟩ := hd.live_ok j _ b h1
                rw [updId_same] at w4
                exact w4 rfl
              obtain ⟨st3, k1, k2, k3, k4, k5, k6, k7⟩ := eject_ok (i := i) hinv2
                (by intro j hj; rw [g1, updAt_ne _ _ hj]; exact hg.2 j)
                (by rw [g1, updAt_same]; have := hg.2 i; dsimp only; omega)
              rw [k1]
              refine ⟨k2, ⟨k3.trans g2, Or.inr ⟨id, o.val, ?_, hn0, ?_, ?_⟩⟩, ?_⟩
              · show st.current id = some o.val
                rw [← hid]; exact current_obj hg.1.uniq ho
              · intro t' b hb hf
                have hba := hnohold t' b hb
                change (st.obj b).map FileObj.id = some id at hf
                cases hob : st.obj b with
                | none => rw [hob] at hf; cases hf
                | some ob =>
                  rw [hob] at hf
                  simp only [Option.map_some, Option.some.injEq] at hf
                  exact hba (hg.1.uniq b a ob o hob ho (by rw [hf, hid]))
              · show st3.current = Spec.update st.current id none
                rw [k5]
                funext id'
                have hno2 : ∀ b ob, st2.obj b = some ob → ob.id ≠ id := by
                  intro b ob hb he
                  rw [g0] at hb
                  by_cases hba : b = a
                  · subst hba; rw [updAt_same] at hb; cases hb
                  · rw [updAt_ne _ _ hba] at hb
                    exact hba (hg.1.uniq b a ob o hb ho (by rw [he, hid]))
                by_cases hid' : id' = id
                · subst hid'
                  rw [current_disk hno2, g4, updId_same]
                  simp [Spec.update]
                · rw [show Spec.update st.current id none id' = st.current id' by simp [Spec.update, hid']]
                  refine current_congr (st := st) (st' := st2) hg.1.uniq hinv2.uniq id' ?_ ?_
                  · intro b ob hb hidb
                    rw [g0] at hb
                    by_cases hba : b = a
                    · subst hba; rw [updAt_same] at hb; cases hb
                    · rw [updAt_ne _ _ hba] at hb
                      exact Or.inl ⟨b, ob, hb, hidb, rfl⟩
                  · intro hno
                    refine Or.inr ⟨?_, by rw [g4, updId_ne _ _ hid']⟩
                    intro b ob hb hidb
                    have hba : b ≠ a := by
                      rintro rfl
                      rw [ho] at hb; cases hb
                      exact hid' (hidb.symm.trans hid)
                    exact hno b ob (by rw [g0, updAt_ne _ _ hba]; exact hb) hidb
              · intro t' b hb
                show (st3.obj b).map FileObj.id = (st.obj b).map FileObj.id
                rw [k7 t' b (by rw [g2]; exact hb), g0, updAt_ne _ _ (hnohold t' b hb)]

theorem step_ok (fresh : α) {st : FileTab α} (hg : Good st) (e : TabEvent α) (hw : Spec.WellTyped e) :
    StepOk fresh st e (step fresh st e) := by
  unfold step
  by_cases hb : ((st.closing.lookup e.thread).isSome && !e.isClosing) = true
  · rw [if_pos hb]; trivial
  · rw [if_neg hb]
    cases e with
    | openAs t id f => exact openAs_ok fresh hg t id f hw
    | createAs t id f => exact createAs_ok fresh hg t id f hw
    | modify t a v => exact modify_ok fresh hg t a v
    | give t t' a => exact give_ok fresh hg t t' a
    | drop t a =>
      refine drop_ok fresh hg t a ?_
      cases hl : st.closing.lookup t with
      | none => rfl
      | some c => simp [TabEvent.thread, TabEvent.isClosing, hl] at hb
    | readId t => exact readId_ok fresh hg t
    | closeInternal t fe => exact closeInternal_ok fresh hg t fe

theorem init_good (root : FileVal α) (disk : Bytes → Option (FileVal α))
    (hd : ∀ id v, id ≠ kRootId → disk id = some v → v.nlink ≠ 0) : Good (init root disk) := by
  have hobj : ∀ a o, (init root disk).obj a = some o → a = 0 ∧ o = { id := kRootId, ref := 0, val := root } := by
    intro a o h
    have hlt := obj_lt h
    have h0 : a = 0 := by
      have : (init root disk).objs.length = 1 := rfl
      omega
    subst h0
    cases h
    exact ⟨rfl, rfl⟩
  refine ⟨?_, fun i => by simp [init]⟩
  refine { root := ⟨_, rfl, rfl⟩, live_ok := ?_, cache_ok := ?_, uniq := ?_, owned := ?_, excl := ?_, cache_nodup := ?_, refs := ?_,
           held := ?_, closing_nodup := ?_, pend := ?_, disk_linked := ?_ }
  · intro i id a hm; cases hm
  · intro i a hm; cases hm
  · intro a b o o' h1 h2 _
    rw [(hobj a o h1).1, (hobj b o' h2).1]
  · intro a o h hne
    exact absurd (hobj a o h).1 hne
  · intro i j id a hm; cases hm
  · intro i; exact List.nodup_nil
  · intro a o h
    rw [(hobj a o h).2]; rfl
  · intro t a hm; cases hm
  · exact List.nodup_nil
  · intro i id a o hm; cases hm
  · intro id v hno hdv
    refine hd id v ?_ hdv
    rintro rfl
    exact hno 0 _ rfl rfl

theorem run_good (fresh : α) : ∀ (es : List (TabEvent α)) (st st' : FileTab α) (b : Bool), Good st → (∀ e ∈ es, Spec.WellTyped e) →
    run fresh st es = .ok st' b → Good st'
  | [], st, st', b, hg, _, h => by cases h; exact hg
  | e :: rest, st, st', b, hg, hw, h => by
    unfold run at h
    have hs := step_ok fresh hg e (hw e (by simp))
    cases hst : step fresh st e with
    | ok st1 b1 =>
      rw [hst] at h hs
      exact run_good fresh rest st1 st' b hs.1 (fun x hx => hw x (List.mem_cons_of_mem _ hx)) h
    | disabled =>
      rw [hst] at h
      exact run_good fresh rest st st' b hg (fun x hx => hw x (List.mem_cons_of_mem _ hx)) h
    | useAfterFree => rw [hst] at h; cases h

end Securefs.FileTab

/-! ## Which steps create and destroy objects -/

namespace Securefs.FileTab

variable {α : Type}

theorem obj_none_of_len {st : FileTab α} {a : Nat} (h : st.objs.length ≤ a) : st.obj a = none := by
  unfold obj; rw [List.getElem?_eq_none h]; rfl

/-- How the heap and the list of closing threads change in a step that is not `close_internal`: at most one object, of the
    file being opened or created, is added. -/
def Shape (st st' : FileTab α) (e : TabEvent α) : Prop :=
  ((st'.objs.length = st.objs.length ∧ ∀ a, (st'.obj a).map FileObj.id = (st.obj a).map FileObj.id) ∨
    (st'.objs.length = st.objs.length + 1 ∧ (∀ a, a ≠ st.objs.length → (st'.obj a).map FileObj.id = (st.obj a).map FileObj.id) ∧
      ∃ o, st'.obj st.objs.length = some o ∧ ((∃ t f, e = .openAs t o.id f) ∨ ∃ t f, e = .createAs t o.id f))) ∧
  ∀ t a, (t, Closing.readId a) ∈ st'.closing → (t, Closing.readId a) ∈ st.closing ∨ (t, a) ∈ st.holders

theorem step_shape (fresh : α) {st st' : FileTab α} {b : Bool} {e : TabEvent α} (hg : Good st)
    (h : step fresh st e = .ok st' b) (hne : ∀ t f, e ≠ .closeInternal t f) : Shape st st' e := by
  have same : ∀ s : FileTab α, s.objs = st.objs → (∀ t a, (t, Closing.readId a) ∈ s.closing → (t, Closing.readId a) ∈ st.closing ∨ (t, a) ∈ st.holders) →
      Shape st s e := by
    intro s hs hc
    refine ⟨Or.inl ⟨by rw [hs], fun a => by unfold obj; rw [hs]⟩, hc⟩
  have key : ∀ (s : FileTab α) (x : Nat) (ox ox' : FileObj α), s.objs = st.objs.set x (some ox') → st.obj x = some ox → ox'.id = ox.id →
      (∀ t a, (t, Closing.readId a) ∈ s.closing → (t, Closing.readId a) ∈ st.closing ∨ (t, a) ∈ st.holders) → Shape st s e := by
    intro s x ox ox' hs hx hid hc
    refine ⟨Or.inl ⟨by rw [hs]; simp, ?_⟩, hc⟩
    intro a
    have : s.obj = updAt st.obj x (some ox') := by
      rw [← obj_setObj st x _ (obj_lt hx)]
      unfold obj setObj; rw [hs]
    exact file_touch hx this hid a
  have keyNew : ∀ (s : FileTab α) (ox ox' : FileObj α), s.objs = (st.objs ++ [some ox]).set st.objs.length (some ox') →
      ((∃ t f, e = .openAs t ox'.id f) ∨ ∃ t f, e = .createAs t ox'.id f) → s.closing = st.closing → Shape st s e := by
    intro s ox ox' hs hid hc
    have hobj : s.obj = updAt st.obj st.objs.length (some ox') := by
      have h1 := obj_push st ox
      have h2 := obj_setObj (FileTab.mk (st.objs ++ [some ox]) st.shards st.holders st.closing st.disk) st.objs.length (some ox') (by simp)
      rw [h1, updAt_idem] at h2
      rw [← h2]
      unfold obj setObj; rw [hs]
    refine ⟨Or.inr ⟨by rw [hs]; simp, ?_, ox', by rw [hobj, updAt_same], hid⟩, by rw [hc]; exact fun _ _ h => Or.inl h⟩
    intro a ha
    rw [hobj, updAt_ne _ _ ha]
  have keep : ∀ t a, (t, Closing.readId a) ∈ st.closing → (t, Closing.readId a) ∈ st.closing ∨ (t, a) ∈ st.holders := fun _ _ h => Or.inl h
  unfold step at h
  by_cases hb : ((st.closing.lookup e.thread).isSome && !e.isClosing) = true
  · rw [if_pos hb] at h; cases h
  rw [if_neg hb] at h
  cases e with
  | openAs t id f =>
    unfold openAs at h
    dsimp only at h
    by_cases hr : id = kRootId
    · rw [if_pos hr] at h
      cases h0 : st.obj 0 with
      | none => rw [h0] at h; cases h
      | some o0 =>
        rw [h0] at h
        cases h
        exact key _ 0 o0 _ rfl h0 rfl keep
    rw [if_neg hr] at h
    cases hs : shardOf id with
    | error e => rw [hs] at h; cases h; exact same _ rfl keep
    | ok i =>
      rw [hs] at h
      dsimp only at h
      cases hl : (st.shards i).live.lookup id with
      | some x =>
        rw [hl] at h
        dsimp only at h
        cases hx : st.obj x with
        | none => rw [hx] at h; cases h
        | some ox =>
          rw [hx] at h
          cases h
          exact key _ x ox _ rfl hx rfl keep
      | none =>
        rw [hl] at h
        dsimp only at h
        cases hf : findCached st id (st.shards i).cache with
        | error e => rw [hf] at h; cases h
        | ok x =>
          rw [hf] at h
          cases x with
          | some x =>
            dsimp only at h
            cases hx : st.obj x with
            | none => rw [hx] at h; cases h
            | some ox =>
              rw [hx] at h
              cases h
              exact key _ x ox _ rfl hx rfl keep
          | none =>
            dsimp only at h
            cases hd : st.disk id with
            | none => rw [hd] at h; cases h; exact same _ rfl keep
            | some v =>
              rw [hd] at h
              dsimp only at h
              cases f with
              | true => rw [if_pos rfl] at h; cases h; exact same _ rfl keep
              | false =>
                rw [if_neg (by simp)] at h
                cases h
                exact keyNew _ _ _ rfl (Or.inl ⟨t, false, rfl⟩) rfl
  | createAs t id f =>
    unfold createAs at h
    dsimp only at h
    cases hs : shardOf id with
    | error e => rw [hs] at h; cases h; exact same _ rfl keep
    | ok i =>
      rw [hs] at h
      dsimp only at h
      cases hd : st.disk id with
      | some v => rw [hd] at h; cases h; exact same _ rfl keep
      | none =>
        rw [hd] at h
        dsimp only at h
        cases f with
        | true => rw [if_pos rfl] at h; cases h; exact same _ rfl keep
        | false =>
          rw [if_neg (by simp)] at h
          cases hl : (st.shards i).live.lookup id with
          | some x =>
            obtain ⟨_, _, _, _, hdd⟩ := hg.1.live_ok i id x (lookup_mem hl)
            exact absurd hd hdd
          | none =>
            rw [hl] at h
            cases h
            exact keyNew _ _ _ rfl (Or.inr ⟨t, false, rfl⟩) rfl
  | modify t x v =>
    unfold modify at h
    dsimp only at h
    by_cases hm : (t, x) ∈ st.holders
    · rw [if_pos hm] at h
      cases hx : st.obj x with
      | none => rw [hx] at h; cases h
      | some ox =>
        rw [hx] at h
        cases h
        exact key _ x ox _ rfl hx rfl keep
    · rw [if_neg hm] at h; cases h
  | give t t' x =>
    unfold give at h
    dsimp only at h
    by_cases hm : (t, x) ∈ st.holders
    · rw [if_pos hm] at h; cases h; exact same _ rfl keep
    · rw [if_neg hm] at h; cases h
  | drop t x =>
    unfold drop at h
    dsimp only at h
    by_cases hm : (t, x) ∈ st.holders
    · rw [if_pos hm] at h
      cases hx : st.obj x with
      | none => rw [hx] at h; cases h
      | some ox =>
        rw [hx] at h
        dsimp only at h
        by_cases hz : ox.ref - 1 ≤ 0
        · rw [if_pos hz] at h
          cases h
          refine key _ x ox _ rfl hx rfl ?_
          intro t' a' hm'
          rcases List.mem_cons.mp hm' with hm' | hm'
          · cases hm'; exact Or.inr hm
          · exact Or.inl hm'
        · rw [if_neg hz] at h
          cases h
          exact key _ x ox _ rfl hx rfl keep
    · rw [if_neg hm] at h; cases h
  | readId t =>
    unfold readId at h
    dsimp only at h
    cases hl : st.closing.lookup t with
    | none => rw [hl] at h; cases h
    | some c =>
      rw [hl] at h
      cases c with
      | lockShard id => cases h
      | readId x =>
        dsimp only at h
        cases hx : st.obj x with
        | none => rw [hx] at h; cases h
        | some ox =>
          rw [hx] at h
          dsimp only at h
          by_cases hr : ox.id = kRootId
          · rw [if_pos hr] at h; cases h
            exact same _ rfl (fun t' a' hm' => Or.inl (List.mem_filter.mp hm').1)
          · rw [if_neg hr] at h; cases h
            refine same _ rfl (fun t' a' hm' => Or.inl ?_)
            rcases List.mem_cons.mp hm' with hm' | hm'
            · cases hm'
            · exact (List.mem_filter.mp hm').1
  | closeInternal t f => exact absurd rfl (hne t f)

/-- Only `close_internal` destroys objects. -/
theorem step_alive (fresh : α) {st st' : FileTab α} {b : Bool} {e : TabEvent α} (hg : Good st)
    (h : step fresh st e = .ok st' b) (hne : ∀ t f, e ≠ .closeInternal t f) {a : Nat} {o : FileObj α} (ho : st.obj a = some o) :
    ∃ o', st'.obj a = some o' ∧ o'.id = o.id := by
  have hm : (st'.obj a).map FileObj.id = (st.obj a).map FileObj.id := by
    rcases (step_shape fresh hg h hne).1 with ⟨_, h1⟩ | ⟨_, h1, _⟩
    · exact h1 a
    · exact h1 a (by have := obj_lt ho; omega)
  rw [ho] at hm
  cases h' : st'.obj a with
  | none => rw [h'] at hm; cases hm
  | some o' =>
    rw [h'] at hm
    exact ⟨o', rfl, by simpa using hm⟩

theorem eject_objs {st st' : FileTab α} {i : Nat} {b : Bool} (h : eject st i = .ok st' b) {a : Nat} {o : FileObj α}
    (ho : st'.obj a = some o) : st.obj a = some o := by
  unfold eject at h
  dsimp only at h
  by_cases hgt : (st.shards i).cache.length > kMaxCached
  · rw [if_pos hgt] at h
    cases hr : anyReferenced st ((st.shards i).cache.take kEjectNumber) with
    | error e => rw [hr] at h; cases h
    | ok r =>
      rw [hr] at h
      cases r with
      | true => cases h; exact ho
      | false =>
        dsimp only at h
        cases h
        revert ho
        have : ∀ (L : List Nat) (s : FileTab α), (L.foldl (fun acc a => acc.setObj a none) s).obj a = some o → s.obj a = some o := by
          intro L
          induction L with
          | nil => intro s hs; exact hs
          | cons x L ih =>
            intro s hs
            simp only [List.foldl_cons] at hs
            have h1 := ih _ hs
            by_cases hx : x < s.objs.length
            · rw [obj_setObj s x none hx] at h1
              by_cases hax : a = x
              · subst hax; rw [updAt_same] at h1; cases h1
              · rwa [updAt_ne _ _ hax] at h1
            · have : s.setObj x none = s := by
                unfold setObj
                rw [List.set_eq_of_length_le (by omega)]
              rwa [this] at h1
        exact this _ st
  · rw [if_neg hgt] at h; cases h; exact ho

/-- `close_internal` creates and changes no object. -/
theorem closeInternal_objs {st st' : FileTab α} {b : Bool} {t : Nat} {f : Option (FileVal α)} (h : st.closeInternal t f = .ok st' b)
    {a : Nat} {o : FileObj α} (ho : st'.obj a = some o) : st.obj a = some o := by
  unfold closeInternal at h
  cases hl : st.closing.lookup t with
  | none => rw [hl] at h; cases h
  | some c =>
    rw [hl] at h
    cases c with
    | readId x => cases h
    | lockShard id =>
      dsimp only at h
      cases hs : shardOf id with
      | error e => rw [hs] at h; cases h; exact ho
      | ok i =>
        rw [hs] at h
        dsimp only at h
        cases hlk : (st.shards i).live.lookup id with
        | none => rw [hlk] at h; cases h; exact ho
        | some x =>
          rw [hlk] at h
          dsimp only at h
          cases hx : st.obj x with
          | none =>
            have : ∀ c, (FileTab.mk st.objs st.shards st.holders c st.disk).obj x = none := fun c => hx
            rw [this] at h; cases h
          | some ox =>
            have : ∀ c, (FileTab.mk st.objs st.shards st.holders c st.disk).obj x = some ox := fun c => hx
            rw [this] at h
            dsimp only at h
            by_cases hr : ox.ref > 0
            · rw [if_pos hr] at h; cases h; exact ho
            · rw [if_neg hr] at h
              by_cases hn : ox.val.nlink ≠ 0
              · rw [if_pos hn] at h
                cases f with
                | some v => cases h; exact ho
                | none => exact eject_objs h ho
              · rw [if_neg hn] at h
                have h1 := eject_objs h ho
                rw [obj_setShard, obj_setDisk, obj_setObj (FileTab.mk st.objs st.shards st.holders
                  (st.closing.filter fun p => p.1 ≠ t) st.disk) x none (show x < st.objs.length from obj_lt hx)] at h1
                by_cases hax : a = x
                · subst hax; rw [updAt_same] at h1; cases h1
                · rwa [updAt_ne _ _ hax] at h1

/-! ## Shutting down -/

theorem flushAll_ok : ∀ (L : List Nat) (st : FileTab α), (∀ a ∈ L, ∃ o, st.obj a = some o) →
    (∀ a b o o', st.obj a = some o → st.obj b = some o' → o.id = o'.id → a = b) →
    ∃ st', flushAll st L = .ok st' true ∧ st'.obj = st.obj ∧ st'.shards = st.shards ∧ st'.objs = st.objs ∧ st'.holders = st.holders ∧
      (∀ id, (∃ a o, a ∈ L ∧ st.obj a = some o ∧ o.id = id ∧ st'.disk id = some o.val) ∨
        ((∀ a o, a ∈ L → st.obj a = some o → o.id ≠ id) ∧ st'.disk id = st.disk id))
  | [], st, _, _ => ⟨st, rfl, rfl, rfl, rfl, rfl, fun id => Or.inr ⟨by simp, rfl⟩⟩
  | a :: L, st, h, hu => by
    obtain ⟨o, ho⟩ := h a (by simp)
    obtain ⟨st', h1, h2, h3, h3', h3'', h4⟩ := flushAll_ok L (st.setDisk o.id (some o.val)) (fun b hb => h b (List.mem_cons_of_mem _ hb)) hu
    refine ⟨st', ?_, h2, h3, h3', h3'', ?_⟩
    · unfold flushAll
      rw [ho]; exact h1
    · intro id
      rcases h4 id with ⟨b, ob, g1, g2, g3, g4⟩ | ⟨g1, g2⟩
      · exact Or.inl ⟨b, ob, List.mem_cons_of_mem _ g1, g2, g3, g4⟩
      · by_cases hid : o.id = id
        · subst hid
          refine Or.inl ⟨a, o, by simp, ho, rfl, ?_⟩
          rw [g2]; simp [setDisk]
        · refine Or.inr ⟨?_, ?_⟩
          · intro b ob hb hob
            rcases List.mem_cons.mp hb with rfl | hb
            · rw [ho] at hob; cases hob; exact hid
            · exact g1 b ob hb hob
          · rw [g2]
            have : id ≠ o.id := fun he => hid he.symm
            simp [setDisk, this]

theorem flushShards_ok : ∀ (L : List Nat) (st : FileTab α), (∀ i ∈ L, ∀ a ∈ (st.shards i).live.map Prod.snd ++ (st.shards i).cache, ∃ o, st.obj a = some o) →
    (∀ a b o o', st.obj a = some o → st.obj b = some o' → o.id = o'.id → a = b) →
    ∃ st', flushShards st L = .ok st' true ∧ st'.obj = st.obj ∧ st'.objs = st.objs ∧ st'.holders = st.holders ∧
      (∀ id, (∃ i a o, i ∈ L ∧ a ∈ (st.shards i).live.map Prod.snd ++ (st.shards i).cache ∧ st.obj a = some o ∧ o.id = id ∧ st'.disk id = some o.val) ∨
        ((∀ i a o, i ∈ L → a ∈ (st.shards i).live.map Prod.snd ++ (st.shards i).cache → st.obj a = some o → o.id ≠ id) ∧ st'.disk id = st.disk id))
  | [], st, _, _ => ⟨st, rfl, rfl, rfl, rfl, fun id => Or.inr ⟨by simp, rfl⟩⟩
  | i :: L, st, h, hu => by
    obtain ⟨st1, h1, h2, h3, h3', h3'', h4⟩ := flushAll_ok _ st (h i (by simp)) hu
    obtain ⟨st2, k1, k2, k3, k3', k4⟩ := flushShards_ok L st1 (by rw [h2, h3]; exact fun j hj => h j (List.mem_cons_of_mem _ hj)) (by rw [h2]; exact hu)
    refine ⟨st2, ?_, k2.trans h2, k3.trans h3', k3'.trans h3'', ?_⟩
    · unfold flushShards
      rw [h1]; exact k1
    · intro id
      rw [h2, h3] at k4
      rcases k4 id with ⟨j, b, ob, g1, g2, g3, g4, g5⟩ | ⟨g1, g2⟩
      · exact Or.inl ⟨j, b, ob, List.mem_cons_of_mem _ g1, g2, g3, g4, g5⟩
      · rcases h4 id with ⟨b, ob, p1, p2, p3, p4⟩ | ⟨p1, p2⟩
        · exact Or.inl ⟨i, b, ob, by simp, p1, p2, p3, by rw [g2]; exact p4⟩
        · refine Or.inr ⟨?_, by rw [g2, p2]⟩
          intro j b ob hj hb hob
          rcases List.mem_cons.mp hj with rfl | hj
          · exact p1 b ob hb hob
          · exact g1 j b ob hj hb hob

theorem shutdown_ok {st : FileTab α} (hg : Good st) :
    ∃ st', shutdown st = .ok st' true ∧ ∀ id, st'.disk id = st.current id := by
  obtain ⟨o0, r1, r2⟩ := hg.1.root
  obtain ⟨st1, h1, h2, h3, _, _, h4⟩ := flushAll_ok [0] st (by simp [r1]) hg.1.uniq
  have hown : ∀ i a, a ∈ (st.shards i).live.map Prod.snd ++ (st.shards i).cache → ∃ o, st.obj a = some o := by
    intro i a ha
    rcases List.mem_append.mp ha with ha | ha
    · obtain ⟨⟨id, a'⟩, hm, rfl⟩ := List.mem_map.mp ha
      obtain ⟨o, ho, _⟩ := hg.1.live_ok i id a' hm
      exact ⟨o, ho⟩
    · obtain ⟨o, ho, _⟩ := hg.1.cache_ok i a ha
      exact ⟨o, ho⟩
  obtain ⟨st2, k1, k2, _, _, k4⟩ := flushShards_ok (List.range kNumShards) st1 (by rw [h2, h3]; exact fun i _ => hown i) (by rw [h2]; exact hg.1.uniq)
  refine ⟨st2, ?_, ?_⟩
  · unfold shutdown
    rw [h1]; exact k1
  · intro id
    rw [h2, h3] at k4
    rcases k4 id with ⟨i, a, o, _, _, g3, g4, g5⟩ | ⟨g1, g2⟩
    · rw [g5, ← g4, current_obj hg.1.uniq g3]
    · rw [g2]
      rcases h4 id with ⟨a, o, _, p2, p3, p4⟩ | ⟨p1, p2⟩
      · rw [p4, ← p3, current_obj hg.1.uniq p2]
      · rw [p2, current_disk]
        intro a o ho hid
        by_cases ha : a = 0
        · subst ha; exact p1 0 o (by simp) ho hid
        · rcases hg.1.owned a o ho ha with ⟨i, hi⟩ | ⟨i, hi⟩
          · obtain ⟨_, _, _, q3, _⟩ := hg.1.live_ok i _ a hi
            exact g1 i a o (List.mem_range.mpr (shardOf_lt q3)) (List.mem_append_left _ (List.mem_map.mpr ⟨_, hi, rfl⟩)) ho hid
          · obtain ⟨o', q1, q2, _⟩ := hg.1.cache_ok i a hi
            exact g1 i a o (List.mem_range.mpr (shardOf_lt q2)) (List.mem_append_right _ hi) ho hid

/-! ## Calm schedules -/

/-- Files in `L` only, none of them ever without a link, nothing destroyed yet. -/
structure Calm (L : List Bytes) (st : FileTab α) : Prop where
  good : Good st
  alive : ∀ a, a < st.objs.length → st.obj a ≠ none
  inL : ∀ a o, st.obj a = some o → o.id ≠ kRootId → o.id ∈ L
  linked : ∀ id v, id ≠ kRootId → st.current id = some v → v.nlink ≠ 0
  closing : ∀ t a, (t, Closing.readId a) ∈ st.closing → a < st.objs.length

theorem nodup_map_cache {obj : Nat → Option (FileObj α)} (hu : ∀ a b o o', obj a = some o → obj b = some o' → o.id = o'.id → a = b)
    {L : List Bytes} {i : Nat} : ∀ (c : List Nat), c.Nodup → (∀ a ∈ c, ∃ o, obj a = some o ∧ o.id ∈ L ∧ shardOf o.id = .ok i) →
    ∃ ids : List Bytes, ids.length = c.length ∧ ids.Nodup ∧ (∀ x ∈ ids, x ∈ L ∧ shardOf x = .ok i ∧ ∃ a o, a ∈ c ∧ obj a = some o ∧ o.id = x)
  | [], _, _ => ⟨[], rfl, List.nodup_nil, by simp⟩
  | a :: c, hn, h => by
    rw [List.nodup_cons] at hn
    obtain ⟨ids, h1, h2, h3⟩ := nodup_map_cache hu c hn.2 (fun b hb => h b (List.mem_cons_of_mem _ hb))
    obtain ⟨o, g1, g2, g3⟩ := h a (by simp)
    refine ⟨o.id :: ids, by simp [h1], List.nodup_cons.mpr ⟨?_, h2⟩, ?_⟩
    · intro hm
      obtain ⟨_, _, b, ob, hb, hob, hid⟩ := h3 _ hm
      have := hu b a ob o hob g1 hid
      subst this
      exact hn.1 hb
    · intro x hx
      rcases List.mem_cons.mp hx with rfl | hx
      · exact ⟨g2, g3, a, o, by simp, g1, rfl⟩
      · obtain ⟨k1, k2, b, ob, hb, hob, hid⟩ := h3 x hx
        exact ⟨k1, k2, b, ob, List.mem_cons_of_mem _ hb, hob, hid⟩

end Securefs.FileTab

namespace Securefs.FileTab

variable {α : Type}

/-- At most fifty of the files fall into the same shard. -/
def Sparse (L : List Bytes) : Prop := ∀ (i : Nat) (ids : List Bytes), ids.Nodup → (∀ x ∈ ids, x ∈ L ∧ shardOf x = .ok i) → ids.length ≤ 50

/-- A step of a calm schedule: only files of `L` are opened or created, and no link count becomes zero. -/
def CalmEvent (L : List Bytes) : TabEvent α → Prop
  | .openAs _ id _ | .createAs _ id _ => id = kRootId ∨ id ∈ L
  | .modify _ _ v => v.nlink ≠ 0
  | _ => True

theorem calm_close {L : List Bytes} (hL : Sparse L) {st st' : FileTab α} {b : Bool} {t : Nat} {f : Option (FileVal α)} (hc : Calm L st)
    (h : st.closeInternal t f = .ok st' b) : st'.objs = st.objs ∧ ∀ x ∈ st'.closing, x ∈ st.closing := by
  have hg := hc.good
  unfold closeInternal at h
  cases hl : st.closing.lookup t with
  | none => rw [hl] at h; cases h
  | some c =>
    rw [hl] at h
    cases c with
    | readId x => cases h
    | lockShard id =>
      dsimp only at h
      have hcl : ∀ x ∈ st.closing.filter fun p => p.1 ≠ t, x ∈ st.closing := fun x hx => (List.mem_filter.mp hx).1
      cases hs : shardOf id with
      | error e => rw [hs] at h; cases h; exact ⟨rfl, hcl⟩
      | ok i =>
        rw [hs] at h
        dsimp only at h
        cases hlk : (st.shards i).live.lookup id with
        | none => rw [hlk] at h; cases h; exact ⟨rfl, hcl⟩
        | some x =>
          rw [hlk] at h
          dsimp only at h
          have hm := lookup_mem hlk
          obtain ⟨ox, hx, hid, _, hdsk⟩ := hg.1.live_ok i id x hm
          have : ∀ c, (FileTab.mk st.objs st.shards st.holders c st.disk).obj x = some ox := fun c => hx
          rw [this] at h
          dsimp only at h
          by_cases hr : ox.ref > 0
          · rw [if_pos hr] at h; cases h; exact ⟨rfl, hcl⟩
          · rw [if_neg hr] at h
            have hroot : ox.id ≠ kRootId := by
              intro he
              rw [← hid, he, shardOf_root] at hs
              cases hs
            have hn : ox.val.nlink ≠ 0 := hc.linked ox.id ox.val hroot (current_obj hg.1.uniq hx)
            rw [if_pos hn] at h
            cases f with
            | some v => cases h; exact ⟨rfl, hcl⟩
            | none =>
              dsimp only at h
              have hcnt : ((st.shards i).cache ++ [x]).length ≤ 50 := by
                obtain ⟨ids, h1, h2, h3⟩ := nodup_map_cache (L := L) (i := i) hg.1.uniq ((st.shards i).cache ++ [x]) (by
                    rw [List.nodup_append]
                    refine ⟨hg.1.cache_nodup i, by simp, ?_⟩
                    rintro a ha b hb rfl
                    rw [List.mem_singleton] at hb; subst hb
                    exact hg.1.excl i i id a hm ha) (by
                    intro a ha
                    rcases List.mem_append.mp ha with ha | ha
                    · obtain ⟨o, g1, g2, _⟩ := hg.1.cache_ok i a ha
                      refine ⟨o, g1, hc.inL a o g1 ?_, g2⟩
                      intro he
                      rw [he, shardOf_root] at g2
                      cases g2
                    · rw [List.mem_singleton] at ha; subst ha
                      exact ⟨ox, hx, hc.inL _ ox hx hroot, by rw [hid]; exact hs⟩)
                rw [← h1]
                exact hL i ids h2 (fun y hy => ⟨(h3 y hy).1, (h3 y hy).2.1⟩)
              unfold eject at h
              dsimp only at h
              rw [if_neg] at h
              · cases h; exact ⟨rfl, hcl⟩
              · simp only [setShard, if_pos]
                unfold kMaxCached
                omega

theorem calm_step (fresh : α) {L : List Bytes} (hL : Sparse L) {st : FileTab α} (hc : Calm L st) (e : TabEvent α)
    (hw : Spec.WellTyped e) (he : CalmEvent L e) :
    match step fresh st e with
    | .ok st' _ => Calm L st'
    | .disabled => True
    | .useAfterFree => False := by
  have hok := step_ok fresh hc.good e hw
  cases hst : step fresh st e with
  | disabled => trivial
  | useAfterFree =>
    rw [hst] at hok
    obtain ⟨t, a, _, h2, h3⟩ := hok
    exact hc.alive a (hc.closing t a h2) h3
  | ok st' b =>
    rw [hst] at hok
    obtain ⟨hg', hstep, _⟩ := hok
    dsimp only
    -- link counts
    have hlinked : ∀ id v, id ≠ kRootId → st'.current id = some v → v.nlink ≠ 0 := by
      intro id v hr hv
      cases e with
      | openAs t id' f =>
        refine hc.linked id v hr ?_
        have := hstep.1
        change st'.current = st.current at this
        rwa [this] at hv
      | createAs t id' f =>
        cases b with
        | true =>
          have h1 := hstep.2.1
          change st'.current = Spec.update st.current id' _ at h1
          rw [h1] at hv
          unfold Spec.update at hv
          by_cases hid : id = id'
          · rw [if_pos hid] at hv; cases hv
            show (0xffffffff : UInt32) ≠ 0
            decide
          · rw [if_neg hid] at hv; exact hc.linked id v hr hv
        | false =>
          rcases hstep.2 with ⟨h1, _⟩ | ⟨_, _, h1⟩
          · change st'.current = st.current at h1
            rw [h1] at hv; exact hc.linked id v hr hv
          · change st'.current = Spec.update st.current id' _ at h1
            rw [h1] at hv
            unfold Spec.update at hv
            by_cases hid : id = id'
            · rw [if_pos hid] at hv; cases hv
              show (0xffffffff : UInt32) ≠ 0
              decide
            · rw [if_neg hid] at hv; exact hc.linked id v hr hv
      | modify t a w =>
        obtain ⟨_, _, id', _, h1⟩ := hstep
        change st'.current = Spec.update st.current id' _ at h1
        rw [h1] at hv
        unfold Spec.update at hv
        by_cases hid : id = id'
        · rw [if_pos hid] at hv; cases hv
          exact he
        · rw [if_neg hid] at hv; exact hc.linked id v hr hv
      | give t t' a =>
        have h1 := hstep.2.1
        change st'.current = st.current at h1
        rw [h1] at hv; exact hc.linked id v hr hv
      | drop t a =>
        have h1 := hstep.2.1
        change st'.current = st.current at h1
        rw [h1] at hv; exact hc.linked id v hr hv
      | readId t =>
        have h1 := hstep.1
        change st'.current = st.current at h1
        rw [h1] at hv; exact hc.linked id v hr hv
      | closeInternal t f =>
        rcases hstep.2 with h1 | ⟨id', w, _, _, _, h1⟩
        · change st'.current = st.current at h1
          rw [h1] at hv; exact hc.linked id v hr hv
        · change st'.current = Spec.update st.current id' _ at h1
          rw [h1] at hv
          unfold Spec.update at hv
          by_cases hid : id = id'
          · rw [if_pos hid] at hv; cases hv
          · rw [if_neg hid] at hv; exact hc.linked id v hr hv
    by_cases hci : ∃ t f, e = .closeInternal t f
    · obtain ⟨t, f, rfl⟩ := hci
      have h1 : st.closeInternal t f = .ok st' b := by
        have h2 := hst
        unfold step at h2
        simpa [TabEvent.isClosing] using h2
      obtain ⟨k1, k2⟩ := calm_close hL hc h1
      have hobj : st'.obj = st.obj := by funext a; unfold obj; rw [k1]
      exact { good := hg'
              alive := by rw [k1, hobj]; exact hc.alive
              inL := by rw [hobj]; exact hc.inL
              linked := hlinked
              closing := by rw [k1]; exact fun t a hx => hc.closing t a (k2 _ hx) }
    · have hsh := step_shape fresh hc.good hst (fun t f hx => hci ⟨t, f, hx⟩)
      have hlen : st.objs.length ≤ st'.objs.length := by
        rcases hsh.1 with ⟨h1, _⟩ | ⟨h1, _⟩ <;> omega
      refine { good := hg', alive := ?_, inL := ?_, linked := hlinked, closing := ?_ }
      · intro a ha hnone
        have aux : (st'.obj a).map FileObj.id = (st.obj a).map FileObj.id → a < st.objs.length → False := by
          intro h1 h2
          rw [hnone] at h1
          refine hc.alive a h2 ?_
          cases hx : st.obj a with
          | none => rfl
          | some o => rw [hx] at h1; cases h1
        rcases hsh.1 with ⟨h1, h2⟩ | ⟨h1, h2, o, h3, _⟩
        · exact aux (h2 a) (by omega)
        · by_cases hal : a = st.objs.length
          · subst hal; rw [h3] at hnone; cases hnone
          · exact aux (h2 a hal) (by omega)
      · intro a o ho hr
        have aux : (st'.obj a).map FileObj.id = (st.obj a).map FileObj.id → o.id ∈ L := by
          intro h1
          rw [ho] at h1
          cases hx : st.obj a with
          | none => rw [hx] at h1; cases h1
          | some o' =>
            rw [hx] at h1
            have : o.id = o'.id := by simpa using h1
            rw [this] at hr ⊢
            exact hc.inL a o' hx hr
        rcases hsh.1 with ⟨h1, h2⟩ | ⟨h1, h2, o', h3, h4⟩
        · exact aux (h2 a)
        · by_cases hal : a = st.objs.length
          · subst hal
            rw [ho] at h3; cases h3
            rcases h4 with ⟨t, f, rfl⟩ | ⟨t, f, rfl⟩
            · exact he.resolve_left hr
            · exact he.resolve_left hr
          · exact aux (h2 a hal)
      · intro t a hm
        rcases hsh.2 t a hm with h1 | h1
        · have := hc.closing t a h1; omega
        · have h2 := hc.good.1.held t a h1
          by_contra hx
          exact h2 (obj_none_of_len (by omega))

end Securefs.FileTab
