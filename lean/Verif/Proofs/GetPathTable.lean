import Verif.Proofs.FileTable
import Verif.Model.GetPathTable
import Verif.Spec.GetPathTable
/-!
# How long a closed object stays: lemmas
-/

namespace Securefs.FileTab

open Spec (inShard)

variable {α : Type}

/-- The object is there, its file has a link, and if it is in a cache there are fewer than `n` objects behind it. -/
def Kept (st : FileTab α) (a : Nat) (id : Bytes) (n : Nat) : Prop :=
  ∃ o, st.obj a = some o ∧ o.id = id ∧ o.val.nlink ≠ 0 ∧ ∀ i pre post, (st.shards i).cache = pre ++ a :: post → post.length < n

theorem behind_sublist {l l' : List Nat} (hs : l'.Sublist l) (hn : l.Nodup) {a n : Nat}
    (h : ∀ pre post, l = pre ++ a :: post → post.length < n) : ∀ pre post, l' = pre ++ a :: post → post.length < n := by
  intro pre post e
  have hm : a ∈ l := hs.subset (by rw [e]; simp)
  obtain ⟨p, q, hpq⟩ := List.append_of_mem hm
  have hq := h p q hpq
  have h1 : (a :: post).Sublist (p ++ a :: q) := by
    rw [← hpq]
    exact List.Sublist.trans (by rw [e]; exact List.sublist_append_right _ _) hs
  obtain ⟨l1, l2, e2, s1, s2⟩ := List.sublist_append_iff.mp h1
  cases l1 with
  | nil =>
    rw [List.nil_append] at e2
    subst e2
    have := (List.cons_sublist_cons.mp s2).length_le
    omega
  | cons x l1 =>
    rw [List.cons_append] at e2
    injection e2 with e3 _
    subst e3
    have hap : a ∈ p := s1.subset (List.mem_cons_self ..)
    rw [hpq, List.nodup_append] at hn
    exact absurd rfl (hn.2.2 a hap a (List.mem_cons_self ..))

theorem openAs_cache {st st' : FileTab α} {t : Nat} {id : Bytes} {f b : Bool} (h : st.openAs t id f = .ok st' b) (i : Nat) :
    ((st'.shards i).cache).Sublist (st.shards i).cache := by
  unfold openAs at h
  split at h
  · split at h
    · cases h
    · cases h; exact List.Sublist.refl _
  · split at h
    · cases h; exact List.Sublist.refl _
    · next j hj =>
      dsimp only at h
      split at h
      · split at h
        · cases h
        · cases h; exact List.Sublist.refl _
      · split at h
        · cases h
        · split at h
          · cases h
          · cases h
            show ((if i = j then _ else _ : Shard).cache).Sublist _
            by_cases hij : i = j
            · subst hij; rw [if_pos rfl]; exact List.erase_sublist
            · rw [if_neg hij]; exact List.Sublist.refl _
        · split at h
          · cases h; exact List.Sublist.refl _
          · split at h
            · cases h; exact List.Sublist.refl _
            · cases h
              show ((if i = j then _ else _ : Shard).cache).Sublist _
              by_cases hij : i = j
              · subst hij; rw [if_pos rfl]
              · rw [if_neg hij]; exact List.Sublist.refl _

theorem createAs_cache {fresh : α} {st st' : FileTab α} {t : Nat} {id : Bytes} {f b : Bool} (h : createAs fresh st t id f = .ok st' b) (i : Nat) :
    ((st'.shards i).cache).Sublist (st.shards i).cache := by
  unfold createAs at h
  split at h
  · cases h; exact List.Sublist.refl _
  · next j hj =>
    dsimp only at h
    split at h
    · cases h; exact List.Sublist.refl _
    · split at h
      · cases h; exact List.Sublist.refl _
      · split at h
        · cases h; exact List.Sublist.refl _
        · cases h
          show ((if i = j then _ else _ : Shard).cache).Sublist _
          by_cases hij : i = j
          · subst hij; rw [if_pos rfl]
          · rw [if_neg hij]; exact List.Sublist.refl _

/-- No step but `close_internal` puts anything into a cache. -/
theorem step_cache {fresh : α} {st st' : FileTab α} {e : TabEvent α} {b : Bool} (h : step fresh st e = .ok st' b)
    (hne : ∀ t f, e ≠ .closeInternal t f) (i : Nat) : ((st'.shards i).cache).Sublist (st.shards i).cache := by
  unfold step at h
  split at h
  · cases h
  · cases e with
    | openAs t id f => exact openAs_cache h i
    | createAs t id f => exact createAs_cache h i
    | modify t a v =>
      change st.modify t a v = _ at h
      unfold modify at h
      split at h
      · split at h
        · cases h
        · cases h; exact List.Sublist.refl _
      · cases h
    | give t t' a =>
      change st.give t t' a = _ at h
      unfold give at h
      split at h
      · cases h; exact List.Sublist.refl _
      · cases h
    | drop t a =>
      change st.drop t a = _ at h
      unfold drop at h
      split at h
      · split at h
        · cases h
        · dsimp only at h
          split at h <;> (cases h; exact List.Sublist.refl _)
      · cases h
    | readId t =>
      change st.readId t = _ at h
      unfold readId at h
      split at h
      · split at h
        · cases h
        · dsimp only at h
          split at h <;> (cases h; exact List.Sublist.refl _)
      · cases h
    | closeInternal t f => exact absurd rfl (hne t f)

/-- The link count of the file stays positive. -/
theorem step_linked (fresh : α) {st st' : FileTab α} (hg : Good st) (e : TabEvent α) (hw : Spec.WellTyped e) {b : Bool}
    (h : step fresh st e = .ok st' b) {a : Nat} {o : FileObj α} (ho : st.obj a = some o) (hn : o.val.nlink ≠ 0)
    (hl : ∀ t v, e = .modify t a v → v.nlink ≠ 0) {o' : FileObj α} (ho' : st'.obj a = some o') (hid : o'.id = o.id) :
    o'.val.nlink ≠ 0 := by
  have hok := step_ok fresh hg e hw
  rw [h] at hok
  obtain ⟨hg', hstep, _⟩ := hok
  have h0 := current_obj hg.1.uniq ho
  have hv := current_obj hg'.1.uniq ho'
  rw [hid] at hv
  have hsame : st'.current = st.current → o'.val.nlink ≠ 0 := by
    intro he
    rw [he, h0] at hv
    injection hv with hv
    rw [← hv]; exact hn
  cases e with
  | openAs t id' f => exact hsame hstep.1
  | createAs t id' f =>
    have hup : st'.current = Spec.update st.current id' (some ⟨0xffffffff, fresh⟩) → o'.val.nlink ≠ 0 := by
      intro h1
      rw [h1] at hv
      unfold Spec.update at hv
      by_cases hq : o.id = id'
      · rw [if_pos hq] at hv
        injection hv with hv
        rw [← hv]
        show (0xffffffff : UInt32) ≠ 0
        decide
      · rw [if_neg hq, h0] at hv
        injection hv with hv
        rw [← hv]; exact hn
    cases b with
    | true => exact hup hstep.2.1
    | false =>
      rcases hstep.2 with ⟨h1, _⟩ | ⟨_, _, h1⟩
      · exact hsame h1
      · exact hup h1
  | modify t x w =>
    obtain ⟨_, _, id', hf, h1⟩ := hstep
    change st'.current = Spec.update st.current id' _ at h1
    rw [h1] at hv
    unfold Spec.update at hv
    by_cases hq : o.id = id'
    · rw [if_pos hq] at hv
      injection hv with hv
      rw [← hv]
      have hx : x = a := by
        change (st.obj x).map FileObj.id = some id' at hf
        cases hox : st.obj x with
        | none => rw [hox] at hf; cases hf
        | some ox =>
          rw [hox] at hf
          injection hf with hf
          exact hg.1.uniq x a ox o hox ho (hf.trans hq.symm)
      subst hx
      exact hl t w rfl
    · rw [if_neg hq, h0] at hv
      injection hv with hv
      rw [← hv]; exact hn
  | give t t' a => exact hsame hstep.2.1
  | drop t a => exact hsame hstep.2.1
  | readId t => exact hsame hstep.1
  | closeInternal t f =>
    rcases hstep.2 with h1 | ⟨id', w, _, _, _, h1⟩
    · exact hsame h1
    · change st'.current = Spec.update st.current id' _ at h1
      rw [h1] at hv
      unfold Spec.update at hv
      by_cases hq : o.id = id'
      · rw [if_pos hq] at hv; cases hv
      · rw [if_neg hq, h0] at hv
        injection hv with hv
        rw [← hv]; exact hn

/-- Ejecting with fewer than 41 objects behind. -/
theorem eject_kept {st st' : FileTab α} {i : Nat} {b : Bool} (hi : ∀ x ∈ (st.shards i).cache, ∃ ox, st.obj x = some ox)
    (h : eject st i = .ok st' b) (hlen : (st.shards i).cache.length ≤ 51) {a : Nat} {id : Bytes} {n : Nat}
    (hk : Kept st a id n) (hn : n ≤ 41) : Kept st' a id n := by
  obtain ⟨o, h1, h2, h3, h4⟩ := hk
  unfold eject at h
  dsimp only at h
  split at h
  · next hgt =>
    split at h
    · cases h
    · cases h; exact ⟨o, h1, h2, h3, h4⟩
    · cases h
      obtain ⟨f1, f2, -, -, -⟩ := foldl_setObj ((st.shards i).cache.take kEjectNumber) st (fun x hx => by
        obtain ⟨ox, hox⟩ := hi x (List.mem_of_mem_take hx); exact obj_lt hox)
      have hnot : a ∉ (st.shards i).cache.take kEjectNumber := by
        intro hm
        obtain ⟨p, q, hpq⟩ := List.append_of_mem hm
        have hd := (List.take_append_drop kEjectNumber (st.shards i).cache).symm
        rw [hpq, List.append_assoc, List.cons_append] at hd
        have hb := h4 i p _ hd
        rw [List.length_append, List.length_drop] at hb
        unfold kMaxCached at hgt
        unfold kEjectNumber at hb
        omega
      refine ⟨o, ?_, h2, h3, ?_⟩
      · rw [obj_setShard, f1, (foldl_upd_none _ st.obj a).2 hnot]; exact h1
      · intro j pre post hc
        have hsh : ((((st.shards i).cache.take kEjectNumber).foldl (fun acc a => acc.setObj a none) st).setShard i
            { st.shards i with cache := (st.shards i).cache.drop kEjectNumber }).shards j =
            if j = i then { st.shards i with cache := (st.shards i).cache.drop kEjectNumber } else st.shards j := by
          show (if j = i then _ else _) = _
          rw [f2]
        rw [hsh] at hc
        by_cases hj : j = i
        · subst hj
          rw [if_pos rfl] at hc
          dsimp only at hc
          refine h4 j ((st.shards j).cache.take kEjectNumber ++ pre) post ?_
          rw [List.append_assoc, ← hc, List.take_append_drop]
        · rw [if_neg hj] at hc
          exact h4 j pre post hc
  · cases h; exact ⟨o, h1, h2, h3, h4⟩

/-- `close_internal` moves an object that is not the last one in its cache by one place at most. -/
theorem close_kept {st st' : FileTab α} {b : Bool} {t : Nat} {f : Option (FileVal α)} (hg : Good st)
    (h : st.closeInternal t f = .ok st' b) {a : Nat} {id : Bytes} {n s : Nat} (hs : shardOf id = .ok s)
    (hk : Kept st a id n) (hn : n + (if Spec.ClosesIn s st (.closeInternal t f) then 1 else 0) ≤ 41) :
    Kept st' a id (n + (if Spec.ClosesIn s st (.closeInternal t f) then 1 else 0)) := by
  obtain ⟨o, h1, h2, h3, h4⟩ := hk
  have weak : ∀ {s' : FileTab α} {m : Nat}, s'.obj = st.obj → s'.shards = st.shards → Kept s' a id (n + m) := by
    intro s' m e1 e2
    refine ⟨o, by rw [e1]; exact h1, h2, h3, ?_⟩
    intro i pre post hc
    rw [e2] at hc
    have := h4 i pre post hc
    omega
  unfold closeInternal at h
  cases hl : st.closing.lookup t with
  | none => rw [hl] at h; cases h
  | some c =>
    rw [hl] at h
    cases c with
    | readId x => cases h
    | lockShard k =>
      dsimp only at h
      cases hks : shardOf k with
      | error e => rw [hks] at h; cases h; exact weak rfl rfl
      | ok i =>
        rw [hks] at h
        dsimp only at h
        have hclose : Spec.ClosesIn s st (.closeInternal t f) = (i == s) := by
          simp only [Spec.ClosesIn, hl, hks]
        rw [hclose] at hn ⊢
        cases hlk : (st.shards i).live.lookup k with
        | none => rw [hlk] at h; cases h; exact weak rfl rfl
        | some x =>
          rw [hlk] at h
          dsimp only at h
          have hm := lookup_mem hlk
          obtain ⟨ox, hx, hid, _, hdsk⟩ := hg.1.live_ok i k x hm
          have hobjc : ∀ c, (FileTab.mk st.objs st.shards st.holders c st.disk).obj x = some ox := fun c => hx
          rw [hobjc] at h
          dsimp only at h
          by_cases hr : ox.ref > 0
          · rw [if_pos hr] at h; cases h; exact weak rfl rfl
          · rw [if_neg hr] at h
            have hr0 : ox.ref = 0 := by
              have := hg.1.refs x ox hx
              omega
            by_cases hnl : ox.val.nlink ≠ 0
            · rw [if_pos hnl] at h
              cases f with
              | some v => cases h; exact weak rfl rfl
              | none =>
                dsimp only at h
                -- the state before ejecting
                generalize hst1 : ((FileTab.mk st.objs st.shards st.holders (st.closing.filter fun p => p.1 ≠ t) st.disk).setDisk k
                  (some ox.val)).setShard i { live := (st.shards i).live.filter fun p => p.1 ≠ k, cache := (st.shards i).cache ++ [x] } = st1 at h
                have e1 : st1.obj = st.obj := by rw [← hst1]; rfl
                have e2 : ∀ j, (st1.shards j).cache = if j = i then (st.shards i).cache ++ [x] else (st.shards j).cache := by
                  intro j
                  rw [← hst1]
                  show (if j = i then _ else _ : Shard).cache = _
                  by_cases hj : j = i
                  · rw [if_pos hj, if_pos hj]
                  · rw [if_neg hj, if_neg hj]; rfl
                have hk1 : Kept st1 a id (n + (if (i == s) = true then 1 else 0)) := by
                  refine ⟨o, by rw [e1]; exact h1, h2, h3, ?_⟩
                  intro j pre post hc
                  rw [e2] at hc
                  by_cases hj : j = i
                  · subst hj
                    rw [if_pos rfl] at hc
                    have hxa : shardOf ox.id = .ok j := by rw [hid]; exact hks
                    have hjs : j = s := by
                      have hmem : a ∈ (st.shards j).cache ++ [x] := by rw [hc]; simp
                      rcases List.mem_append.mp hmem with hm' | hm'
                      · obtain ⟨o', g1, g2, _⟩ := hg.1.cache_ok j a hm'
                        rw [h1] at g1; cases g1
                        rw [h2, hs] at g2
                        cases g2; rfl
                      · rw [List.mem_singleton] at hm'
                        subst hm'
                        rw [h1] at hx; cases hx
                        rw [h2, hs] at hxa
                        cases hxa; rfl
                    subst hjs
                    rw [beq_self_eq_true, if_pos rfl]
                    rcases List.eq_nil_or_concat post with rfl | ⟨q, y, rfl⟩
                    · simp
                    · rw [List.concat_eq_append, ← List.cons_append, ← List.append_assoc] at hc
                      have := (List.append_inj' hc rfl).1
                      have := h4 j pre q this
                      rw [List.concat_eq_append, List.length_append, List.length_singleton]
                      omega
                  · rw [if_neg hj] at hc
                    have := h4 j pre post hc
                    omega
                have hinv : ∀ y ∈ (st1.shards i).cache, ∃ oy, st1.obj y = some oy := by
                  intro y hy
                  rw [e2, if_pos rfl] at hy
                  rw [e1]
                  rcases List.mem_append.mp hy with hy | hy
                  · obtain ⟨oy, g1, _⟩ := hg.1.cache_ok i y hy
                    exact ⟨oy, g1⟩
                  · rw [List.mem_singleton] at hy
                    subst hy
                    exact ⟨ox, hx⟩
                refine eject_kept hinv h ?_ hk1 hn
                rw [e2, if_pos rfl, List.length_append]
                have := hg.2 i
                simp only [List.length_singleton]
                omega
            · rw [if_neg hnl] at h
              have hax : a ≠ x := by
                rintro rfl
                rw [h1] at hx; cases hx
                exact hnl h3
              generalize hst1 : (((FileTab.mk st.objs st.shards st.holders (st.closing.filter fun p => p.1 ≠ t) st.disk).setObj x none).setDisk k
                none).setShard i { live := (st.shards i).live.filter fun p => p.1 ≠ k, cache := (st.shards i).cache } = st1 at h
              have e1 : st1.obj = updAt st.obj x none := by
                rw [← hst1, obj_setShard, obj_setDisk]
                exact obj_setObj (FileTab.mk st.objs st.shards st.holders (st.closing.filter fun p => p.1 ≠ t) st.disk) x none
                  (show x < st.objs.length from obj_lt hx)
              have e2 : ∀ j, (st1.shards j).cache = (st.shards j).cache := by
                intro j
                rw [← hst1]
                show (if j = i then _ else _ : Shard).cache = _
                by_cases hj : j = i
                · subst hj; rw [if_pos rfl]
                · rw [if_neg hj]; rfl
              have hk1 : Kept st1 a id (n + (if (i == s) = true then 1 else 0)) := by
                refine ⟨o, by rw [e1, updAt_ne _ _ hax]; exact h1, h2, h3, ?_⟩
                intro j pre post hc
                rw [e2] at hc
                have := h4 j pre post hc
                omega
              have hinv : ∀ y ∈ (st1.shards i).cache, ∃ oy, st1.obj y = some oy := by
                intro y hy
                rw [e2] at hy
                have hyx : y ≠ x := by
                  rintro rfl
                  exact hg.1.excl i i k y hm hy
                obtain ⟨oy, g1, _⟩ := hg.1.cache_ok i y hy
                exact ⟨oy, by rw [e1, updAt_ne _ _ hyx]; exact g1⟩
              refine eject_kept hinv h ?_ hk1 hn
              rw [e2]
              have := hg.2 i
              omega

/-- Any step. -/
theorem step_kept (fresh : α) {st st' : FileTab α} (hg : Good st) (e : TabEvent α) (hw : Spec.WellTyped e) {b : Bool}
    (h : step fresh st e = .ok st' b) {a : Nat} {id : Bytes} {n s : Nat} (hs : shardOf id = .ok s) (hk : Kept st a id n)
    (hl : ∀ t v, e = .modify t a v → v.nlink ≠ 0) (hn : n + (if Spec.ClosesIn s st e then 1 else 0) ≤ 41) :
    Kept st' a id (n + (if Spec.ClosesIn s st e then 1 else 0)) := by
  by_cases hci : ∃ t f, e = .closeInternal t f
  · obtain ⟨t, f, rfl⟩ := hci
    have h1 : st.closeInternal t f = .ok st' b := by
      have h2 := h
      unfold step at h2
      simpa [TabEvent.isClosing] using h2
    exact close_kept hg h1 hs hk hn
  · have hne : ∀ t f, e ≠ .closeInternal t f := fun t f hx => hci ⟨t, f, hx⟩
    obtain ⟨o, h1, h2, h3, h4⟩ := hk
    obtain ⟨o', g1, g2⟩ := step_alive fresh hg h hne h1
    have hc0 : Spec.ClosesIn s st e = false := by
      cases e with
      | closeInternal t f => exact absurd rfl (hne t f)
      | _ => rfl
    rw [hc0]
    refine ⟨o', g1, g2.trans h2, step_linked fresh hg e hw h h1 h3 hl g1 g2, ?_⟩
    intro i
    exact behind_sublist (step_cache h hne i) (hg.1.cache_nodup i) (h4 i)

/-- Any schedule. -/
theorem run_kept (fresh : α) {a : Nat} {id : Bytes} {s : Nat} (hs : shardOf id = .ok s) : ∀ (es : List (TabEvent α)) (st st' : FileTab α) (b : Bool)
    (n : Nat), Good st → (∀ e ∈ es, Spec.WellTyped e) → Spec.StaysLinked a es → Kept st a id n → n + Spec.closings fresh s st es ≤ 41 →
    run fresh st es = .ok st' b → Kept st' a id (n + Spec.closings fresh s st es)
  | [], st, st', b, n, _, _, _, hk, _, h => by cases h; exact hk
  | e :: rest, st, st', b, n, hg, hw, hl, hk, hn, h => by
    unfold run at h
    unfold Spec.closings at hn ⊢
    have hok := step_ok fresh hg e (hw e (by simp))
    have hl' : Spec.StaysLinked a rest := fun t v hm => hl t v (List.mem_cons_of_mem _ hm)
    have hw' : ∀ e ∈ rest, Spec.WellTyped e := fun x hx => hw x (List.mem_cons_of_mem _ hx)
    cases hst : step fresh st e with
    | ok st1 b1 =>
      rw [hst] at h hok hn
      dsimp only at h hn ⊢
      have hk1 := step_kept fresh hg e (hw e (by simp)) hst hs hk (fun t v he => hl t v (by rw [← he]; simp)) (by omega)
      have := run_kept fresh hs rest st1 st' b _ hok.1 hw' hl' hk1 (by omega) h
      rw [Nat.add_assoc] at this
      exact this
    | disabled =>
      rw [hst] at h hn
      dsimp only at h hn ⊢
      exact run_kept fresh hs rest st st' b n hg hw' hl' hk hn h
    | useAfterFree => rw [hst] at h; cases h

/-- An object that is held is in no cache. -/
theorem held_kept {st : FileTab α} (hg : Good st) {t a : Nat} (hm : (t, a) ∈ st.holders) {o : FileObj α} (ho : st.obj a = some o)
    (hn : o.val.nlink ≠ 0) : Kept st a o.id 0 := by
  refine ⟨o, ho, rfl, hn, ?_⟩
  intro i pre post hc
  exact absurd (show a ∈ (st.shards i).cache by rw [hc]; simp) (hg.1.held_not_cached hm i)

/-- What is left of the threads that are closing. -/
theorem eject_closing {st st' : FileTab α} {i : Nat} {b : Bool} (h : eject st i = .ok st' b) : st'.closing = st.closing := by
  unfold eject at h
  dsimp only at h
  have hf : ∀ (L : List Nat) (x : FileTab α), (L.foldl (fun acc a => acc.setObj a none) x).closing = x.closing := by
    intro L
    induction L with
    | nil => intro x; rfl
    | cons y L ih => intro x; rw [List.foldl_cons, ih]; rfl
  split at h
  · split at h
    · cases h
    · cases h; rfl
    · cases h
      exact hf _ st
  · cases h; rfl

theorem close_closing {st st' : FileTab α} {t : Nat} {f : Option (FileVal α)} {b : Bool} (h : st.closeInternal t f = .ok st' b) :
    ∀ x ∈ st'.closing, x ∈ st.closing.filter fun p => p.1 ≠ t := by
  unfold closeInternal at h
  split at h
  · dsimp only at h
    split at h
    · cases h; exact fun x hx => hx
    · split at h
      · cases h; exact fun x hx => hx
      · split at h
        · cases h
        · split at h
          · cases h; exact fun x hx => hx
          · split at h
            · split at h
              · cases h; exact fun x hx => hx
              · rw [eject_closing h]; exact fun x hx => hx
            · rw [eject_closing h]; exact fun x hx => hx
  · cases h

theorem Kept.mono {st : FileTab α} {a : Nat} {id : Bytes} {n m : Nat} (h : Kept st a id n) (hnm : n ≤ m) : Kept st a id m := by
  obtain ⟨o, h1, h2, h3, h4⟩ := h
  exact ⟨o, h1, h2, h3, fun i pre post hc => Nat.lt_of_lt_of_le (h4 i pre post hc) hnm⟩

theorem step_eq {fresh : α} {st : FileTab α} {t : Nat} (hq : st.closing.lookup t = none) (a : Nat) : step fresh st (.drop t a) = st.drop t a := by
  unfold step
  simp [TabEvent.thread, hq]

/-- The deleter of a holder, without interruption. -/
theorem close_run (fresh : α) {st : FileTab α} (hg : Good st) {t a : Nat} {ida : Bytes} (hq : st.closing.lookup t = none)
    (hm : (t, a) ∈ st.holders) (ha : (st.obj a).map FileObj.id = some ida) :
    ∃ st' b, run fresh st [.drop t a, .readId t, .closeInternal t none] = .ok st' b ∧ Good st' ∧ st'.closing.lookup t = none ∧
      st'.holders = st.holders.erase (t, a) ∧
      (∀ id v, st'.current id = some v → st.current id = some v) ∧
      (∀ id v, st.current id = some v → v.nlink ≠ 0 → st'.current id = some v) ∧
      (∀ x, (t, x) ∈ st'.holders → (st'.obj x).map FileObj.id = (st.obj x).map FileObj.id) ∧
      ∀ s, Spec.closings fresh s st [.drop t a, .readId t, .closeInternal t none] ≤ inShard s [ida] := by
  obtain ⟨o, ho, hid⟩ : ∃ o, st.obj a = some o ∧ o.id = ida := by
    cases h : st.obj a with
    | none => rw [h] at ha; cases ha
    | some o => rw [h] at ha; injection ha with ha; exact ⟨o, rfl, ha⟩
  have hok1 := step_ok fresh hg (.drop t a) trivial
  have hs1 : ∃ st1, step fresh st (.drop t a) = .ok st1 true ∧
      ((o.ref - 1 ≤ 0 ∧ st1.closing = (t, .readId a) :: st.closing) ∨ (¬ o.ref - 1 ≤ 0 ∧ st1.closing = st.closing)) ∧
      st1.obj a = some { o with ref := o.ref - 1 } := by
    rw [step_eq hq]
    unfold drop
    rw [if_pos hm, ho]
    dsimp only
    have hobj : ∀ hs cl, (FileTab.mk (st.objs.set a (some { o with ref := o.ref - 1 })) st.shards hs cl st.disk).obj a = some { o with ref := o.ref - 1 } := by
      intro hs cl
      have := congrFun (obj_setObj st a (some { o with ref := o.ref - 1 }) (obj_lt ho)) a
      rw [updAt_same] at this
      exact this
    by_cases hr : o.ref - 1 ≤ 0
    · rw [if_pos hr]
      exact ⟨_, rfl, .inl ⟨hr, rfl⟩, hobj _ _⟩
    · rw [if_neg hr]
      exact ⟨_, rfl, .inr ⟨hr, rfl⟩, hobj _ _⟩
  obtain ⟨st1, e1, hcl, hobj1⟩ := hs1
  rw [e1] at hok1
  obtain ⟨hg1, ⟨_, hcur1, hhold1⟩, hf1⟩ := hok1
  change st1.current = st.current at hcur1
  change st1.holders = st.holders.erase (t, a) at hhold1
  have hf1' : ∀ x, (t, x) ∈ st1.holders → (st1.obj x).map FileObj.id = (st.obj x).map FileObj.id := by
    intro x hx
    rw [hhold1] at hx
    exact hf1 t x (List.mem_of_mem_erase hx)
  have hdis : ∀ e : TabEvent α, e = .readId t ∨ e = .closeInternal t none → ∀ x : FileTab α, x.closing.lookup t = none → step fresh x e = .disabled := by
    intro e he x hx
    rcases he with rfl | rfl
    · unfold step; simp [TabEvent.isClosing, readId, hx]
    · unfold step; simp [TabEvent.isClosing, closeInternal, hx]
  rcases hcl with ⟨_, hcl⟩ | ⟨_, hcl⟩
  · -- the last holder
    have hl1 : st1.closing.lookup t = some (.readId a) := by rw [hcl]; simp
    have hok2 := step_ok fresh hg1 (.readId t) trivial
    have hs2 : ∃ st2, step fresh st1 (.readId t) = .ok st2 true ∧
        ((ida = kRootId ∧ st2.closing = st1.closing.filter fun p => p.1 ≠ t) ∨
         (ida ≠ kRootId ∧ st2.closing = (t, .lockShard ida) :: st1.closing.filter fun p => p.1 ≠ t)) := by
      unfold step
      simp only [TabEvent.isClosing, Bool.not_true, Bool.and_false, Bool.false_eq_true, if_false]
      unfold readId
      rw [hl1]
      dsimp only
      rw [hobj1]
      dsimp only
      rw [hid]
      by_cases hr : ida = kRootId
      · rw [if_pos hr]; exact ⟨_, rfl, .inl ⟨hr, rfl⟩⟩
      · rw [if_neg hr]; exact ⟨_, rfl, .inr ⟨hr, rfl⟩⟩
    obtain ⟨st2, e2, hcl2⟩ := hs2
    rw [e2] at hok2
    obtain ⟨hg2, ⟨hcur2, hhold2⟩, hf2⟩ := hok2
    change st2.current = st1.current at hcur2
    change st2.holders = st1.holders at hhold2
    have hf2' : ∀ x, (t, x) ∈ st2.holders → (st2.obj x).map FileObj.id = (st.obj x).map FileObj.id := by
      intro x hx
      rw [hhold2] at hx
      rw [← hf1' x hx]
      exact hf2 t x hx
    have hflt : ∀ l : List (Nat × Closing), (l.filter fun p => p.1 ≠ t).lookup t = none := by
      intro l
      induction l with
      | nil => rfl
      | cons p l ih =>
        obtain ⟨x, y⟩ := p
        by_cases hx : x = t
        · rw [List.filter_cons_of_neg (by simpa using hx)]; exact ih
        · rw [List.filter_cons_of_pos (by simpa using hx), List.lookup_cons]
          have : (t == x) = false := by simpa using fun h => hx h.symm
          rw [this]; exact ih
    rcases hcl2 with ⟨hr, hcl2⟩ | ⟨hr, hcl2⟩
    · have hl2 : st2.closing.lookup t = none := by rw [hcl2]; exact hflt _
      have e3 := hdis _ (.inr rfl) st2 hl2
      refine ⟨st2, true, ?_, hg2, hl2, by rw [hhold2, hhold1], ?_, ?_, hf2', ?_⟩
      · simp only [run, e1, e2, e3]
      · intro id v hv; rw [hcur2, hcur1] at hv; exact hv
      · intro id v hv _; rw [hcur2, hcur1]; exact hv
      · intro s; simp only [Spec.closings, e1, e2, e3, Spec.ClosesIn]; simp
    · have hl2 : st2.closing.lookup t = some (.lockShard ida) := by rw [hcl2]; simp
      have hok3 := step_ok fresh hg2 (.closeInternal t none) trivial
      have e3eq : step fresh st2 (.closeInternal t none) = st2.closeInternal t none := by
        unfold step; simp [TabEvent.isClosing]
      cases e3 : step fresh st2 (.closeInternal t none) with
      | useAfterFree =>
        rw [e3] at hok3
        obtain ⟨_, _, h, _⟩ := hok3
        cases h
      | disabled =>
        exfalso
        rw [e3eq] at e3
        unfold closeInternal at e3
        rw [hl2] at e3
        dsimp only at e3
        have hej : ∀ (x : FileTab α) (i : Nat), x.eject i ≠ .disabled := by
          intro x i h
          unfold eject at h
          dsimp only at h
          split at h
          · split at h <;> cases h
          · cases h
        split at e3
        · cases e3
        · split at e3
          · cases e3
          · split at e3
            · cases e3
            · split at e3
              · cases e3
              · split at e3
                · exact hej _ _ e3
                · exact hej _ _ e3
      | ok st3 b3 =>
        rw [e3] at hok3
        obtain ⟨hg3, ⟨hhold3, hcur3⟩, hf3⟩ := hok3
        change st3.holders = st2.holders at hhold3
        have hl3 : st3.closing.lookup t = none := by
          cases h3 : st3.closing.lookup t with
          | none => rfl
          | some c =>
            exfalso
            have hsub : ∀ x ∈ st3.closing, x ∈ st2.closing.filter fun p => p.1 ≠ t := by
              rw [e3eq] at e3
              exact close_closing e3
            have := hsub _ (lookup_mem' h3)
            have := (List.mem_filter.mp this).2
            simp at this
        refine ⟨st3, true, ?_, hg3, hl3, by rw [hhold3, hhold2, hhold1], ?_, ?_, ?_, ?_⟩
        · simp only [run, e1, e2, e3]
        · intro id v hv
          rw [← hcur1, ← hcur2]
          rcases hcur3 with h | ⟨id', w, _, _, _, h⟩
          · change st3.current = st2.current at h
            rw [h] at hv; exact hv
          · change st3.current = Spec.update st2.current id' none at h
            rw [h] at hv
            unfold Spec.update at hv
            split at hv
            · cases hv
            · exact hv
        · intro id v hv hn
          rw [← hcur1, ← hcur2] at hv
          rcases hcur3 with h | ⟨id', w, hw, hw0, _, h⟩
          · change st3.current = st2.current at h
            rw [h]; exact hv
          · change st3.current = Spec.update st2.current id' none at h
            rw [h]
            unfold Spec.update
            split
            · next hq =>
              subst hq
              change st2.current id = some w at hw
              rw [hv] at hw
              injection hw with hw
              rw [hw] at hn
              exact absurd hw0 hn
            · exact hv
        · intro x hx
          rw [hhold3] at hx
          rw [← hf2' x hx]
          exact hf3 t x hx
        · intro s
          simp only [Spec.closings, e1, e2, e3, Spec.ClosesIn, hl2]
          cases hsh : shardOf ida with
          | error e => simp [inShard, hsh]
          | ok j =>
            by_cases hj : j = s
            · simp [inShard, hsh, hj]
            · simp [inShard, hsh, hj]
  · -- others hold it
    have hl1 : st1.closing.lookup t = none := by rw [hcl]; exact hq
    have e2 := hdis _ (.inl rfl) st1 hl1
    have e3 := hdis _ (.inr rfl) st1 hl1
    refine ⟨st1, true, ?_, hg1, hl1, hhold1, ?_, ?_, hf1', ?_⟩
    · simp only [run, e1, e2, e3]
    · intro id v hv; rw [hcur1] at hv; exact hv
    · intro id v hv _; rw [hcur1]; exact hv
    · intro s; simp only [Spec.closings, e1, e2, e3, Spec.ClosesIn]; simp

/-- What holds of the directory that is held. -/
def HeldOk (st : FileTab α) (t a : Nat) (ida : Bytes) : Prop :=
  (t, a) ∈ st.holders ∧ ∃ o, st.obj a = some o ∧ o.id = ida ∧ (a = 0 ∨ o.val.nlink ≠ 0)

theorem walk_kept (fresh : α) (t : Nat) : ∀ (ids : List Bytes) (st : FileTab α) (a : Nat) (ida : Bytes), Good st →
    st.closing.lookup t = none → HeldOk st t a ida → (∀ id ∈ ids, id.length = 32) →
    (∀ id ∈ ids, ∀ v, st.current id = some v → v.nlink ≠ 0) →
    ∃ st' views last b, walk fresh t st a ids = .ok (st', views, last) b ∧ Good st' ∧ st'.closing.lookup t = none ∧
      (∀ w idw n s, Kept st w idw n → shardOf idw = .ok s → n + inShard s ((ida :: ids).dropLast) ≤ 41 →
        Kept st' w idw (n + inShard s ((ida :: ids).dropLast))) ∧
      ((∀ s, inShard s ((ida :: ids).dropLast) ≤ 41) → viewsGood st' views = true) ∧
      (b = true ↔ ∀ id ∈ ids, st.current id ≠ none)
  | [], st, a, ida, hg, hq, hh, _, _ => by
    refine ⟨st, [], a, true, rfl, hg, hq, ?_, fun _ => rfl, by simp⟩
    intro w idw n s hk _ _
    simpa [inShard] using hk
  | id :: rest, st, a, ida, hg, hq, hh, hlen, hlinked => by
    have hok := openAs_ok fresh hg t id false (hlen id (by simp))
    have hstep : ∀ {r}, st.openAs t id false = r → step fresh st (.openAs t id false) = r := by
      intro r h
      unfold step
      simpa [TabEvent.thread, hq] using h
    unfold walk
    cases ho : st.openAs t id false with
    | useAfterFree =>
      rw [ho] at hok
      obtain ⟨_, _, h, _⟩ := hok
      cases h
    | disabled =>
      exfalso
      unfold openAs at ho
      split at ho
      · split at ho <;> cases ho
      · split at ho
        · cases ho
        · dsimp only at ho
          split at ho
          · split at ho <;> cases ho
          · split at ho
            · cases ho
            · split at ho <;> cases ho
            · split at ho
              · cases ho
              · split at ho <;> cases ho
    | ok st1 b1 =>
      rw [ho] at hok
      have hstep1 := hstep ho
      have hcl1 : st1.closing = st.closing := by
        unfold openAs at ho
        split at ho
        · split at ho
          · cases ho
          · cases ho; rfl
        · split at ho
          · cases ho; rfl
          · dsimp only at ho
            split at ho
            · split at ho
              · cases ho
              · cases ho; rfl
            · split at ho
              · cases ho
              · split at ho
                · cases ho
                · cases ho; rfl
              · split at ho
                · cases ho; rfl
                · split at ho
                  · cases ho; rfl
                  · cases ho; rfl
      obtain ⟨hg1, ⟨hcur1, hres⟩, hkeep1⟩ := hok
      change st1.current = st.current at hcur1
      have hkept1 : ∀ w idw n s, Kept st w idw n → shardOf idw = .ok s → n ≤ 41 → Kept st1 w idw n := by
        intro w idw n s hk hs hn
        have := step_kept fresh hg (.openAs t id false) (hlen id (by simp)) hstep1 hs hk (by intro _ _ h; cases h) (by simpa [Spec.ClosesIn] using hn)
        simpa [Spec.ClosesIn] using this
      cases b1 with
      | false =>
        rw [if_neg (by simp)] at hres
        refine ⟨st1, [], a, false, rfl, hg1, by rw [hcl1]; exact hq, ?_, fun _ => rfl, ?_⟩
        · intro w idw n s hk hs hn
          exact (hkept1 w idw n s hk hs (by omega)).mono (by omega)
        · constructor
          · intro h; cases h
          · intro h
            rcases hres.1 with h' | h'
            · exact absurd h' (h id (by simp))
            · cases h'
      | true =>
        rw [if_pos rfl] at hres
        obtain ⟨hsome, c, hfc, hhc⟩ := hres
        change st1.holders = (t, c) :: st.holders at hhc
        change (st1.obj c).map FileObj.id = some id at hfc
        dsimp only
        rw [hhc]
        dsimp only
        have hq1 : st1.closing.lookup t = none := by rw [hcl1]; exact hq
        obtain ⟨hm, o, hob, hoid, hon⟩ := hh
        have ha1 : (st1.obj a).map FileObj.id = some ida := by
          have := hkeep1 t a hm
          change (st1.obj a).map FileObj.id = (st.obj a).map FileObj.id at this
          rw [this, hob]; simp [hoid]
        obtain ⟨st2, b2, hrun, hg2, hq2, hh2, hcur2, hcur2', hf2, hcnt⟩ := close_run fresh hg1 hq1 (by rw [hhc]; exact List.mem_cons_of_mem _ hm) ha1
        rw [hrun]
        dsimp only
        -- the new directory
        have hc2 : (t, c) ∈ st2.holders := by
          rw [hh2, hhc]
          by_cases hca : c = a
          · subst hca; rw [List.erase_cons_head]; exact hm
          · rw [List.erase_cons_tail (by simpa using hca)]; exact List.mem_cons_self ..
        have hwt : ∀ e ∈ ([.drop t a, .readId t, .closeInternal t none] : List (TabEvent α)), Spec.WellTyped e := by
          intro e he
          simp only [List.mem_cons, List.not_mem_nil, or_false] at he
          rcases he with rfl | rfl | rfl <;> trivial
        have hheld2 : HeldOk st2 t c id := by
          refine ⟨hc2, ?_⟩
          obtain ⟨oc, hoc⟩ : ∃ oc, st2.obj c = some oc := by
            cases h : st2.obj c with
            | none => exact absurd h (hg2.1.held t c hc2)
            | some oc => exact ⟨oc, rfl⟩
          have hidc : oc.id = id := by
            have := hf2 c hc2
            rw [hfc, hoc] at this
            simpa using this
          refine ⟨oc, hoc, hidc, ?_⟩
          right
          have hv := hcur2 oc.id oc.val (current_obj hg2.1.uniq hoc)
          rw [hcur1, hidc] at hv
          exact hlinked id (by simp) oc.val hv
        obtain ⟨st3, views, last, b, hwalk, hg3, hq3, hk3, hv3, hb3⟩ := walk_kept fresh t rest st2 c id hg2 hq2 hheld2
          (fun x hx => hlen x (List.mem_cons_of_mem _ hx))
          (fun x hx v hv => hlinked x (List.mem_cons_of_mem _ hx) v (by rw [← hcur1]; exact hcur2 x v hv))
        rw [hwalk]
        dsimp only
        have hdl : ∀ s, inShard s ((ida :: id :: rest).dropLast) = inShard s [ida] + inShard s ((id :: rest).dropLast) := by
          intro s
          show inShard s ([ida] ++ (id :: rest).dropLast) = _
          unfold inShard
          rw [List.countP_append]
        have hall : ∀ w idw n s, Kept st w idw n → shardOf idw = .ok s → n + inShard s ((ida :: id :: rest).dropLast) ≤ 41 →
            Kept st3 w idw (n + inShard s ((ida :: id :: rest).dropLast)) := by
          intro w idw n s hk hs hn
          rw [hdl] at hn ⊢
          have h1 := hkept1 w idw n s hk hs (by omega)
          have hc := hcnt s
          have h2 := run_kept fresh hs _ st1 st2 b2 n hg1 hwt (by intro t' v hm'; simp at hm') h1 (by omega) hrun
          have h3 := hk3 w idw _ s (h2.mono (m := n + inShard s [ida]) (by omega)) hs (by omega)
          rw [Nat.add_assoc] at h3
          exact h3
        refine ⟨st3, a :: views, last, b, rfl, hg3, hq3, hall, ?_, ?_⟩
        · intro hbound
          unfold viewsGood
          rw [List.all_cons, Bool.and_eq_true]
          refine ⟨?_, hv3 (fun s => by have := hbound s; rw [hdl] at this; omega)⟩
          by_cases ha0 : a = 0
          · subst ha0
            obtain ⟨o0, ho0, _⟩ := hg3.1.root
            rw [ho0]; rfl
          · rcases hon with hon | hon
            · exact absurd hon ha0
            · have hk0 := held_kept hg hm hob hon
              rcases hg.1.owned a o hob ha0 with ⟨i, hi⟩ | ⟨i, hi⟩
              · obtain ⟨_, _, _, hsh, _⟩ := hg.1.live_ok i _ a hi
                obtain ⟨o3, h3, _⟩ := hall a o.id 0 i hk0 hsh (by have := hbound i; omega)
                rw [h3]; rfl
              · exact absurd hi (hg.1.held_not_cached hm i)
        · rw [hb3]
          constructor
          · intro h x hx
            rcases List.mem_cons.mp hx with rfl | hx
            · exact hsome
            · intro hn
              have := h x hx
              cases h2 : st2.current x with
              | none => exact this h2
              | some v =>
                have := hcur2 x v h2
                rw [hcur1, hn] at this
                cases this
          · intro h x hx hn
            cases hx0 : st.current x with
            | none => exact h x (List.mem_cons_of_mem _ hx) hx0
            | some v =>
              have := hcur2' x v (by rw [hcur1]; exact hx0) (hlinked x (List.mem_cons_of_mem _ hx) v hx0)
              rw [hn] at this
              cases this

end Securefs.FileTab
