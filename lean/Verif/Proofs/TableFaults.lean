import Verif.Model.TableFaults
import Verif.Proofs.FileTable
/-! Helper lemmas: the table of open files when writing back fails. -/

namespace Securefs.FileTab

variable {α : Type}

/-- The order in which `~FileTable` flushes. -/
def flushOrder (st : FileTab α) (L : List Nat) : List Nat := L.flatMap fun i => (st.shards i).live.map Prod.snd ++ (st.shards i).cache

theorem flushAllFault_ok : ∀ (L : List Nat) (st : FileTab α) (plan : List (Option (FileVal α))) (st' : FileTab α) (b : Bool)
    (plan' : List (Option (FileVal α))), flushAllFault st L plan = (.ok st' b, plan') →
    flushAll st L = .ok st' true ∧ st'.shards = st.shards ∧ st'.obj = st.obj
  | [], st, plan, st', b, plan', h => by
    cases h
    exact ⟨rfl, rfl, rfl⟩
  | a :: L, st, plan, st', b, plan', h => by
    rw [flushAllFault] at h
    rw [flushAll]
    cases ho : st.obj a with
    | none => rw [ho] at h; cases h
    | some o =>
      rw [ho] at h
      dsimp only at h ⊢
      cases plan with
      | nil => exact flushAllFault_ok L _ _ _ _ _ h
      | cons x plan =>
        cases x with
        | some v => cases h
        | none => exact flushAllFault_ok L _ _ _ _ _ h

theorem flushShardsFault_ok : ∀ (L : List Nat) (st : FileTab α) (plan : List (Option (FileVal α))) (st' : FileTab α) (b : Bool),
    flushShardsFault st L plan = .ok st' b → flushShards st L = .ok st' true
  | [], st, plan, st', b, h => by cases h; rfl
  | i :: L, st, plan, st', b, h => by
    rw [flushShardsFault] at h
    rw [flushShards]
    cases hf : flushAllFault st ((st.shards i).live.map Prod.snd ++ (st.shards i).cache) plan with
    | mk r plan1 =>
      rw [hf] at h
      cases r with
      | ok st1 b1 =>
        rw [(flushAllFault_ok _ _ _ _ _ _ hf).1]
        exact flushShardsFault_ok L _ _ _ _ h
      | disabled => cases h
      | useAfterFree => cases h
      | terminated d => cases h

theorem shutdownFault_ok {st st' : FileTab α} {plan : List (Option (FileVal α))} {b : Bool} (h : shutdownFault st plan = .ok st' b) :
    shutdown st = .ok st' true := by
  rw [shutdownFault] at h
  rw [shutdown]
  cases hf : flushAllFault st [0] plan with
  | mk r plan1 =>
    rw [hf] at h
    cases r with
    | ok st1 b1 =>
      rw [(flushAllFault_ok _ _ _ _ _ _ hf).1]
      exact flushShardsFault_ok _ _ _ _ _ h
    | disabled => cases h
    | useAfterFree => cases h
    | terminated d => cases h

/-- Without failures it is the flushing of `Verif/Model/FileTable.lean`. -/
theorem flushAllFault_none : ∀ (L : List Nat) (st st' : FileTab α) (b : Bool) (plan : List (Option (FileVal α))), (∀ x ∈ plan, x = none) →
    flushAll st L = .ok st' b → ∃ plan', flushAllFault st L plan = (.ok st' true, plan') ∧ ∀ x ∈ plan', x = none
  | [], st, st', b, plan, hp, h => by
    cases h
    exact ⟨plan, rfl, hp⟩
  | a :: L, st, st', b, plan, hp, h => by
    rw [flushAll] at h
    rw [flushAllFault]
    cases ho : st.obj a with
    | none => rw [ho] at h; cases h
    | some o =>
      rw [ho] at h
      dsimp only at h ⊢
      cases plan with
      | nil => exact flushAllFault_none L _ _ _ _ (by simp) h
      | cons x plan =>
        cases x with
        | some v => exact absurd (hp (some v) (by simp)) (by simp)
        | none => exact flushAllFault_none L _ _ _ _ (fun y hy => hp y (List.mem_cons_of_mem _ hy)) h

theorem flushShardsFault_none : ∀ (L : List Nat) (st st' : FileTab α) (b : Bool) (plan : List (Option (FileVal α))), (∀ x ∈ plan, x = none) →
    flushShards st L = .ok st' b → flushShardsFault st L plan = .ok st' true
  | [], st, st', b, plan, hp, h => by cases h; rfl
  | i :: L, st, st', b, plan, hp, h => by
    rw [flushShards] at h
    rw [flushShardsFault]
    cases hf : flushAll st ((st.shards i).live.map Prod.snd ++ (st.shards i).cache) with
    | ok st1 b1 =>
      rw [hf] at h
      obtain ⟨plan1, g1, g2⟩ := flushAllFault_none _ _ _ _ plan hp hf
      rw [g1]
      exact flushShardsFault_none L _ _ _ _ g2 h
    | disabled => rw [hf] at h; cases h
    | useAfterFree => rw [hf] at h; cases h

theorem shutdownFault_none {st st' : FileTab α} {plan : List (Option (FileVal α))} {b : Bool} (hp : ∀ x ∈ plan, x = none)
    (h : shutdown st = .ok st' b) : shutdownFault st plan = .ok st' true := by
  rw [shutdown] at h
  rw [shutdownFault]
  cases hf : flushAll st [0] with
  | ok st1 b1 =>
    rw [hf] at h
    obtain ⟨plan1, g1, g2⟩ := flushAllFault_none _ _ _ _ plan hp hf
    rw [g1]
    exact flushShardsFault_none _ _ _ _ _ g2 h
  | disabled => rw [hf] at h; cases h
  | useAfterFree => rw [hf] at h; cases h

/-- The backing files of `d` are those of `st`, some of them with the value in memory, and one with what the plan says. -/
def Halted (st : FileTab α) (cur : Bytes → Option (FileVal α)) (plan : List (Option (FileVal α))) (d : Bytes → Option (FileVal α)) : Prop :=
  ∃ failed v, some v ∈ plan ∧ d failed = some v ∧ ∀ id, id ≠ failed → d id = cur id ∨ d id = st.disk id

theorem flushAllFault_end (cur : Bytes → Option (FileVal α)) : ∀ (L : List Nat) (st : FileTab α) (plan plan' : List (Option (FileVal α)))
    (d : Bytes → Option (FileVal α)), (∀ a o, st.obj a = some o → cur o.id = some o.val) →
    flushAllFault st L plan = (.terminated d, plan') → Halted st cur plan d
  | [], st, plan, plan', d, hc, h => by cases h
  | a :: L, st, plan, plan', d, hc, h => by
    rw [flushAllFault] at h
    cases ho : st.obj a with
    | none => rw [ho] at h; cases h
    | some o =>
      rw [ho] at h
      dsimp only at h
      have key : ∀ plan1, flushAllFault (st.setDisk o.id (some o.val)) L plan1 = (.terminated d, plan') → (∀ x ∈ plan1, x ∈ plan) →
          Halted st cur plan d := by
        intro plan1 h1 hsub
        obtain ⟨f, v, g1, g2, g3⟩ := flushAllFault_end cur L (st.setDisk o.id (some o.val)) _ _ _ hc h1
        refine ⟨f, v, hsub _ g1, g2, fun id hid => ?_⟩
        rcases g3 id hid with g | g
        · exact Or.inl g
        · by_cases hi : id = o.id
          · left
            rw [g, hi, hc a o ho]
            simp [setDisk]
          · right
            rw [g]
            simp [setDisk, hi]
      cases plan with
      | nil => exact key _ h (by simp)
      | cons x plan =>
        cases x with
        | none => exact key _ h (fun y hy => List.mem_cons_of_mem _ hy)
        | some v =>
          cases h
          refine ⟨o.id, v, by simp, by simp [setDisk], fun id hid => Or.inr ?_⟩
          simp [setDisk, hid]

theorem flushAllFault_plan : ∀ (L : List Nat) (st : FileTab α) (plan plan' : List (Option (FileVal α))) (r : TabFate α),
    flushAllFault st L plan = (r, plan') → ∀ x ∈ plan', x ∈ plan
  | [], st, plan, plan', r, h => by cases h; exact fun _ hx => hx
  | a :: L, st, plan, plan', r, h => by
    rw [flushAllFault] at h
    cases ho : st.obj a with
    | none => rw [ho] at h; cases h; exact fun _ hx => hx
    | some o =>
      rw [ho] at h
      dsimp only at h
      cases plan with
      | nil =>
        intro x hx
        exact absurd (flushAllFault_plan L _ _ _ _ h x hx) (by simp)
      | cons y plan =>
        cases y with
        | some v => cases h; exact fun x hx => List.mem_cons_of_mem _ hx
        | none => exact fun x hx => List.mem_cons_of_mem _ (flushAllFault_plan L _ _ _ _ h x hx)

/-- What flushing writes is what is in memory. -/
theorem flushAll_disk (cur : Bytes → Option (FileVal α)) : ∀ (L : List Nat) (st st' : FileTab α) (b : Bool),
    (∀ a o, st.obj a = some o → cur o.id = some o.val) → flushAll st L = .ok st' b →
    st'.obj = st.obj ∧ ∀ id, st'.disk id = cur id ∨ st'.disk id = st.disk id
  | [], st, st', b, hc, h => by cases h; exact ⟨rfl, fun _ => Or.inr rfl⟩
  | a :: L, st, st', b, hc, h => by
    rw [flushAll] at h
    cases ho : st.obj a with
    | none => rw [ho] at h; cases h
    | some o =>
      rw [ho] at h
      obtain ⟨g1, g2⟩ := flushAll_disk cur L (st.setDisk o.id (some o.val)) st' b hc h
      refine ⟨g1, fun id => ?_⟩
      rcases g2 id with g | g
      · exact Or.inl g
      · by_cases hi : id = o.id
        · left
          rw [g, hi, hc a o ho]
          simp [setDisk]
        · right
          rw [g]
          simp [setDisk, hi]

theorem Halted.mono {st st1 : FileTab α} {cur : Bytes → Option (FileVal α)} {plan plan1 : List (Option (FileVal α))}
    {d : Bytes → Option (FileVal α)} (h : Halted st1 cur plan1 d) (hp : ∀ x ∈ plan1, x ∈ plan)
    (hd : ∀ id, st1.disk id = cur id ∨ st1.disk id = st.disk id) : Halted st cur plan d := by
  obtain ⟨f, v, g1, g2, g3⟩ := h
  refine ⟨f, v, hp _ g1, g2, fun id hid => ?_⟩
  rcases g3 id hid with g | g
  · exact Or.inl g
  · rcases hd id with k | k
    · exact Or.inl (g.trans k)
    · exact Or.inr (g.trans k)

theorem flushShardsFault_end (cur : Bytes → Option (FileVal α)) : ∀ (L : List Nat) (st : FileTab α) (plan : List (Option (FileVal α)))
    (d : Bytes → Option (FileVal α)), (∀ a o, st.obj a = some o → cur o.id = some o.val) →
    flushShardsFault st L plan = .terminated d → Halted st cur plan d
  | [], st, plan, d, hc, h => by cases h
  | i :: L, st, plan, d, hc, h => by
    rw [flushShardsFault] at h
    cases hf : flushAllFault st ((st.shards i).live.map Prod.snd ++ (st.shards i).cache) plan with
    | mk r plan1 =>
      rw [hf] at h
      cases r with
      | ok st1 b1 =>
        have h1 := (flushAllFault_ok _ _ _ _ _ _ hf).1
        obtain ⟨g1, g2⟩ := flushAll_disk cur _ _ _ _ hc h1
        exact (flushShardsFault_end cur L st1 plan1 d (by rw [g1]; exact hc) h).mono (flushAllFault_plan _ _ _ _ _ hf) g2
      | disabled => cases h
      | useAfterFree => cases h
      | terminated d' =>
        cases h
        exact flushAllFault_end cur _ _ _ _ _ hc hf

theorem shutdownFault_end {cur : Bytes → Option (FileVal α)} {st : FileTab α} {plan : List (Option (FileVal α))}
    {d : Bytes → Option (FileVal α)} (hc : ∀ a o, st.obj a = some o → cur o.id = some o.val)
    (h : shutdownFault st plan = .terminated d) : Halted st cur plan d := by
  rw [shutdownFault] at h
  cases hf : flushAllFault st [0] plan with
  | mk r plan1 =>
    rw [hf] at h
    cases r with
    | ok st1 b1 =>
      have h1 := (flushAllFault_ok _ _ _ _ _ _ hf).1
      obtain ⟨g1, g2⟩ := flushAll_disk cur _ _ _ _ hc h1
      exact (flushShardsFault_end cur _ st1 plan1 d (by rw [g1]; exact hc) h).mono (flushAllFault_plan _ _ _ _ _ hf) g2
    | disabled => cases h
    | useAfterFree => cases h
    | terminated d' =>
      cases h
      exact flushAllFault_end cur _ _ _ _ _ hc hf

/-- Nothing else can happen at the end of a process that has touched no destroyed object. -/
theorem flushAllFault_cases : ∀ (L : List Nat) (st st' : FileTab α) (b : Bool) (plan : List (Option (FileVal α))),
    flushAll st L = .ok st' b → (∃ plan', flushAllFault st L plan = (.ok st' true, plan')) ∨ ∃ d plan', flushAllFault st L plan = (.terminated d, plan')
  | [], st, st', b, plan, h => by cases h; exact Or.inl ⟨plan, rfl⟩
  | a :: L, st, st', b, plan, h => by
    rw [flushAll] at h
    rw [flushAllFault]
    cases ho : st.obj a with
    | none => rw [ho] at h; cases h
    | some o =>
      rw [ho] at h
      dsimp only at h ⊢
      cases plan with
      | nil => exact flushAllFault_cases L _ _ _ _ h
      | cons x plan =>
        cases x with
        | some v => exact Or.inr ⟨_, _, rfl⟩
        | none => exact flushAllFault_cases L _ _ _ _ h

theorem flushShardsFault_cases : ∀ (L : List Nat) (st st' : FileTab α) (b : Bool) (plan : List (Option (FileVal α))),
    flushShards st L = .ok st' b → flushShardsFault st L plan = .ok st' true ∨ ∃ d, flushShardsFault st L plan = .terminated d
  | [], st, st', b, plan, h => by cases h; exact Or.inl rfl
  | i :: L, st, st', b, plan, h => by
    rw [flushShards] at h
    rw [flushShardsFault]
    cases hf : flushAll st ((st.shards i).live.map Prod.snd ++ (st.shards i).cache) with
    | ok st1 b1 =>
      rw [hf] at h
      rcases flushAllFault_cases _ _ _ _ plan hf with ⟨plan1, g⟩ | ⟨d, plan1, g⟩
      · rw [g]
        exact flushShardsFault_cases L _ _ _ _ h
      · rw [g]
        exact Or.inr ⟨d, rfl⟩
    | disabled => rw [hf] at h; cases h
    | useAfterFree => rw [hf] at h; cases h

theorem shutdownFault_cases {st st' : FileTab α} {b : Bool} (plan : List (Option (FileVal α))) (h : shutdown st = .ok st' b) :
    shutdownFault st plan = .ok st' true ∨ ∃ d, shutdownFault st plan = .terminated d := by
  rw [shutdown] at h
  rw [shutdownFault]
  cases hf : flushAll st [0] with
  | ok st1 b1 =>
    rw [hf] at h
    rcases flushAllFault_cases _ _ _ _ plan hf with ⟨plan1, g⟩ | ⟨d, plan1, g⟩
    · rw [g]
      exact flushShardsFault_cases _ _ _ _ _ h
    · rw [g]
      exact Or.inr ⟨d, rfl⟩
  | disabled => rw [hf] at h; cases h
  | useAfterFree => rw [hf] at h; cases h

theorem foldl_disk : ∀ (L : List Nat) (st : FileTab α), (L.foldl (fun acc a => acc.setObj a none) st).disk = st.disk
  | [], _ => rfl
  | _ :: L, st => foldl_disk L (st.setObj _ none)

theorem eject_disk {st st' : FileTab α} {i : Nat} {b : Bool} (h : eject st i = .ok st' b) : st'.disk = st.disk := by
  unfold eject at h
  dsimp only at h
  split at h
  · split at h
    · cases h
    · cases h; rfl
    · cases h
      exact foldl_disk _ _
  · cases h; rfl

theorem flushAll_objs : ∀ (L : List Nat) (st st' : FileTab α) (b : Bool), flushAll st L = .ok st' b → st'.objs = st.objs
  | [], st, st', b, h => by cases h; rfl
  | a :: L, st, st', b, h => by
    rw [flushAll] at h
    cases ho : st.obj a with
    | none => rw [ho] at h; cases h
    | some o =>
      rw [ho] at h
      exact (flushAll_objs L _ _ _ h).trans rfl

theorem flushShards_objs : ∀ (L : List Nat) (st st' : FileTab α) (b : Bool), flushShards st L = .ok st' b → st'.objs = st.objs
  | [], st, st', b, h => by cases h; rfl
  | i :: L, st, st', b, h => by
    rw [flushShards] at h
    cases hf : flushAll st ((st.shards i).live.map Prod.snd ++ (st.shards i).cache) with
    | ok st1 b1 =>
      rw [hf] at h
      exact (flushShards_objs L _ _ _ h).trans (flushAll_objs _ _ _ _ hf)
    | disabled => rw [hf] at h; cases h
    | useAfterFree => rw [hf] at h; cases h

theorem shutdown_objs {st st' : FileTab α} {b : Bool} (h : shutdown st = .ok st' b) : st'.objs = st.objs := by
  rw [shutdown] at h
  cases hf : flushAll st [0] with
  | ok st1 b1 =>
    rw [hf] at h
    exact (flushShards_objs _ _ _ _ h).trans (flushAll_objs _ _ _ _ hf)
  | disabled => rw [hf] at h; cases h
  | useAfterFree => rw [hf] at h; cases h

/-- What is in memory only is not about to be thrown away. -/
theorem unsaved_live {st : FileTab α} (hg : Good st) {id : Bytes} (h : st.disk id ≠ st.current id) :
    ∃ a o, st.obj a = some o ∧ o.id = id ∧ st.current id = some o.val ∧ (a = 0 ∨ ∃ i, (id, a) ∈ (st.shards i).live) := by
  rcases current_cases st hg.1.uniq id with ⟨a, o, h1, h2, h3⟩ | ⟨_, h3⟩
  · refine ⟨a, o, h1, h2, h3, ?_⟩
    by_cases ha : a = 0
    · exact Or.inl ha
    · rcases hg.1.owned a o h1 ha with ⟨i, hi⟩ | ⟨i, hi⟩
      · exact Or.inr ⟨i, by rw [← h2]; exact hi⟩
      · obtain ⟨o', q1, _, _, q4, _⟩ := hg.1.cache_ok i a hi
        rw [h1] at q1
        cases q1
        rw [h2] at q4
        exact absurd (q4.trans h3.symm) h
  · exact absurd h3.symm h

/-- Closing writes the file back if nobody has it open and it has a name. -/
theorem close_saves {st st' : FileTab α} {b : Bool} {t : Nat} {id : Bytes} {v : FileVal α} (hg : Good st) (hid : id.length = 32) (hr : id ≠ kRootId)
    (hl : st.closing.lookup t = some (.lockShard id)) (hfree : ∀ u a, (u, a) ∈ st.holders → (st.obj a).map FileObj.id ≠ some id)
    (hv : st.current id = some v) (hn : v.nlink ≠ 0) (h : st.closeInternal t none = .ok st' b) : st'.disk id = some v := by
  obtain ⟨i, hi⟩ := shardOf_ok hid hr
  unfold closeInternal at h
  rw [hl] at h
  dsimp only at h
  rw [hi] at h
  dsimp only at h
  cases hlk : (st.shards i).live.lookup id with
  | none =>
    rw [hlk] at h
    cases h
    show st.disk id = some v
    by_contra hne
    obtain ⟨a, o, g1, g2, _, g4⟩ := unsaved_live hg (id := id) (by rw [hv]; exact hne)
    rcases g4 with rfl | ⟨j, hj⟩
    · obtain ⟨o0, r1, r2⟩ := hg.1.root
      rw [g1] at r1
      cases r1
      exact hr (g2.symm.trans r2)
    · obtain ⟨_, _, _, q3, _⟩ := hg.1.live_ok j id a hj
      rw [hi] at q3
      cases q3
      exact lookup_none hlk a hj
  | some a =>
    rw [hlk] at h
    dsimp only at h
    obtain ⟨o, g1, g2, _, _⟩ := hg.1.live_ok i id a (lookup_mem hlk)
    have g1' : ∀ c, (FileTab.mk st.objs st.shards st.holders c st.disk).obj a = some o := fun c => g1
    rw [g1'] at h
    dsimp only at h
    have hcur : st.current id = some o.val := by rw [← g2]; exact current_obj hg.1.uniq g1
    rw [hv] at hcur
    have hval : v = o.val := Option.some.inj hcur
    have hz : ¬ o.ref > 0 := by
      rw [hg.1.refs a o g1, List.countP_eq_zero.2]
      · simp
      · rintro ⟨u, a'⟩ hm
        simp only [decide_eq_true_eq]
        rintro rfl
        exact hfree u a' hm (by rw [g1, Option.map_some, g2])
    rw [if_neg hz, if_pos (by rw [← hval]; exact hn)] at h
    rw [eject_disk h, hval]
    simp [setDisk, setShard]

/-- A failing close leaves every object alone and every backing file but its own. -/
theorem close_fails {st st' : FileTab α} {b : Bool} {t : Nat} {id : Bytes} {v : FileVal α} (hg : Good st)
    (hl : st.closing.lookup t = some (.lockShard id)) (hn : ∀ w, st.current id = some w → w.nlink ≠ 0)
    (h : st.closeInternal t (some v) = .ok st' b) :
    st'.objs = st.objs ∧ (∀ x, x ≠ id → st'.disk x = st.disk x) ∧ (st'.disk = st.disk ∨ ∃ a o, st.obj a = some o ∧ o.id = id) := by
  unfold closeInternal at h
  rw [hl] at h
  dsimp only at h
  cases hi : shardOf id with
  | error e =>
    rw [hi] at h
    cases h
    exact ⟨rfl, fun _ _ => rfl, Or.inl rfl⟩
  | ok i =>
    rw [hi] at h
    dsimp only at h
    cases hlk : (st.shards i).live.lookup id with
    | none =>
      rw [hlk] at h
      cases h
      exact ⟨rfl, fun _ _ => rfl, Or.inl rfl⟩
    | some a =>
      rw [hlk] at h
      dsimp only at h
      obtain ⟨o, g1, g2, _, _⟩ := hg.1.live_ok i id a (lookup_mem hlk)
      have g1' : ∀ c, (FileTab.mk st.objs st.shards st.holders c st.disk).obj a = some o := fun c => g1
      rw [g1'] at h
      dsimp only at h
      have hcur : st.current id = some o.val := by rw [← g2]; exact current_obj hg.1.uniq g1
      by_cases hp : o.ref > 0
      · rw [if_pos hp] at h
        cases h
        exact ⟨rfl, fun _ _ => rfl, Or.inl rfl⟩
      · rw [if_neg hp, if_pos (hn _ hcur)] at h
        cases h
        exact ⟨rfl, fun x hx => by simp [setDisk, hx], Or.inr ⟨a, o, g1, g2⟩⟩

theorem eject_enabled {st : FileTab α} {i : Nat} (h : eject st i = .disabled) : False := by
  unfold eject at h
  dsimp only at h
  split at h
  · split at h <;> cases h
  · cases h

/-- Unmounting leaves the objects alone, so files look the same. -/
theorem shutdown_current {st st' : FileTab α} {b : Bool} (hg : Good st) (h : shutdown st = .ok st' b) (id : Bytes) :
    st'.current id = st.current id := by
  obtain ⟨st1, h1, h2⟩ := shutdown_ok hg
  rw [h] at h1
  cases h1
  have hobj : st'.objs = st.objs := shutdown_objs h
  unfold current
  rw [hobj]
  cases hf : (st.objs.filterMap fun x => x).find? (fun o => o.id = id) with
  | some o => rfl
  | none =>
    show st'.disk id = st.disk id
    rw [h2 id]
    unfold current
    rw [hf]

end Securefs.FileTab
