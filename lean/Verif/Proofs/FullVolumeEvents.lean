import Verif.Proofs.FullVolumeRun
/-! Helper lemmas: the table of a volume, and histories. -/

namespace Securefs.Vol

open Securefs Spec FileEnv

variable {V : VolEnv} {τ : Bytes → Nat}

/-! ## The ideal side -/

theorem evict_get (cfg : FsCfg) (id : Bytes) (fs : FullFs) (x : Bytes) :
    (FullSys.step cfg ⟨fs, []⟩ (.evict id)).fs.get x = if x = id then (fs.get x).map fun n => { n with parent := zeros 32 } else fs.get x := by
  simp only [FullSys.step]
  cases hg : fs.get id with
  | none =>
    dsimp only
    by_cases hx : x = id
    · rw [if_pos hx, hx, hg]; rfl
    · rw [if_neg hx]
  | some n =>
    dsimp only
    by_cases hx : x = id
    · rw [if_pos hx, hx, get_set_self hg, hg]; rfl
    · rw [if_neg hx, get_set_ne _ _ hx]

theorem evict_now (cfg : FsCfg) (id : Bytes) (fs : FullFs) : (FullSys.step cfg ⟨fs, []⟩ (.evict id)).fs.now = fs.now := by
  simp only [FullSys.step]
  cases hg : fs.get id <;> rfl

theorem forget_get (cfg : FsCfg) : ∀ (ids : List Bytes) (fs : FullFs) (x : Bytes),
    (forget cfg ids fs).get x = if x ∈ ids then (fs.get x).map fun n => { n with parent := zeros 32 } else fs.get x
  | [], fs, x => by simp [forget]
  | id :: ids, fs, x => by
    rw [forget, forget_get cfg ids, evict_get]
    by_cases h1 : x ∈ ids
    · rw [if_pos h1, if_pos (List.mem_cons_of_mem _ h1)]
      by_cases h2 : x = id
      · rw [if_pos h2]
        cases fs.get x <;> rfl
      · rw [if_neg h2]
    · rw [if_neg h1]
      by_cases h2 : x = id
      · rw [if_pos h2, if_pos (by simp [h2])]
      · rw [if_neg h2, if_neg (by simp [h1, h2])]

theorem forget_now (cfg : FsCfg) : ∀ (ids : List Bytes) (fs : FullFs), (forget cfg ids fs).now = fs.now
  | [], _ => rfl
  | id :: ids, fs => by rw [forget, forget_now cfg ids, evict_now]

theorem forget_seq (cfg : FsCfg) : ∀ (ids : List Bytes) (fs : FullFs), Sequential cfg fs → Sequential cfg (forget cfg ids fs)
  | [], _, h => h
  | id :: ids, fs, h => forget_seq cfg ids _ (.evict h id)

theorem run_map {α β : Type} (p : Prog α) (g : α → β) (fs : FullFs) : ((p.bind fun a => .ret (g a)).run fs).2 = (p.run fs).2 := by
  cases h : p.run fs with
  | mk r fs' =>
    cases r with
    | ok a => rw [run_bind_ok h]; rfl
    | error e => rw [run_bind_error h]

/-- The ideal operation leaves what the program leaves. -/
theorem ideal_state (cfg : FsCfg) (op : FullOp) (fs : FullFs) : ((idealOp cfg op).run fs).2 = ((op.prog cfg).run fs).2 := by
  cases op <;> simp only [idealOp, FullOp.prog, vcreate, fullCreate, run_map]

/-- In a tree every name leads to a file. -/
theorem closed_of_tree {fs : FullFs} (h : DirTree (viewOf fs)) : ∀ d n e, fs.get d = some n → e ∈ n.entries → fs.get e.id ≠ none := by
  intro d n e hd he hx
  obtain ⟨_, ht, g, hg, hk⟩ := h.entry d (viewFile n) e (view_of_get hd) he
  obtain ⟨m, hm, rfl⟩ := get_of_view hg
  rw [hx] at hm
  cases hm

theorem sameEquiv_of {cmp : Bytes → Bytes → Int} (h : TotalPreorder cmp) : SameEquiv (sameName cmp) := by
  obtain ⟨hanti, htrans⟩ := h
  have key : ∀ a b, sameName cmp a b = true ↔ cmp a b ≤ 0 ∧ cmp b a ≤ 0 := by
    intro a b
    unfold sameName
    rw [beq_iff_eq, hanti b a]
    omega
  refine ⟨fun a => ?_, fun a b h => ?_, fun a b c h1 h2 => ?_⟩
  · rw [key]
    have := hanti a a
    omega
  · rw [key] at h ⊢
    exact h.symm
  · rw [key] at h1 h2 ⊢
    exact ⟨htrans a b c h1.1 h2.1, htrans c b a h2.2 h1.2⟩

/-! ## The volume -/

/-- An object is replaced by one that stands for the same file. -/
theorem R.reobj {v : FullVol} {fs : FullFs} (hR : R V τ v fs) {id : Bytes} {o o' : LiveObj} {n : Inode} (ho : v.obj id = some o)
    (hg : fs.get id = some n) (hn' : NodeOk V id o'.cls o'.file o'.cache n) (hpar : o'.parent = n.parent)
    (hsv : o'.closed = true → SavedOk V id n (o'.file.st.data, o'.file.st.metaS.file)) (hroot : id = kRootId → o'.cls = 4 ∧ o'.closed = false) :
    R V τ (v.setObj id o') fs := by
  have hobj : ∀ x, (v.setObj id o').obj x = if x = id then some o' else v.obj x := by
    intro x
    rw [obj_setObj, ho]
    rfl
  refine ⟨hR.now, hR.time, ?_, ?_, hR.typed, hR.parents, hR.ids, by rw [keys_setObj]; exact hR.uniq⟩
  · intro x
    have hx := hR.nodes x
    unfold NodeIs at hx ⊢
    rw [hobj]
    by_cases hxi : x = id
    · have hst := hx
      rw [hxi, ho] at hst
      obtain ⟨_, _, _, _, hst, _⟩ := hst
      rw [if_pos hxi, hxi]
      exact ⟨n, hg, hn', hpar, hst, hsv⟩
    · rw [if_neg hxi]
      exact hx
  · unfold LiveIs
    rw [hobj]
    by_cases hxi : kRootId = id
    · rw [if_pos hxi]
      exact ⟨o', rfl, hroot hxi.symm⟩
    · rw [if_neg hxi]
      exact hR.root

/-- Files of the ideal file system lose their `parent_id`. -/
structure Forgot (fs fs' : FullFs) : Prop where
  now : fs'.now = fs.now
  get : ∀ x, fs'.get x = fs.get x ∨ fs'.get x = (fs.get x).map fun n => { n with parent := zeros 32 }

theorem Forgot.back {fs fs' : FullFs} (h : Forgot fs fs') {x : Bytes} {m : Inode} (hx : fs'.get x = some m) :
    ∃ n, fs.get x = some n ∧ m.attr = n.attr ∧ m.entries = n.entries ∧ m.data = n.data ∧ (m.parent = n.parent ∨ m.parent = zeros 32) := by
  rcases h.get x with h | h
  · rw [h] at hx
    exact ⟨m, hx, rfl, rfl, rfl, .inl rfl⟩
  · rw [h] at hx
    cases hg : fs.get x with
    | none => rw [hg] at hx; cases hx
    | some n =>
      rw [hg] at hx
      injection hx with hx
      subst hx
      exact ⟨n, rfl, rfl, rfl, rfl, .inr rfl⟩

theorem Forgot.fwd {fs fs' : FullFs} (h : Forgot fs fs') {x : Bytes} {n : Inode} (hx : fs.get x = some n) :
    ∃ m, fs'.get x = some m ∧ m.attr = n.attr := by
  rcases h.get x with h | h
  · exact ⟨n, by rw [h]; exact hx, rfl⟩
  · exact ⟨{ n with parent := zeros 32 }, by rw [h, hx]; rfl, rfl⟩

theorem forgot_forget (cfg : FsCfg) (ids : List Bytes) (fs : FullFs) : Forgot fs (forget cfg ids fs) :=
  ⟨forget_now cfg ids fs, fun x => by
    rw [forget_get]
    by_cases h : x ∈ ids
    · rw [if_pos h]; exact .inr rfl
    · rw [if_neg h]; exact .inl rfl⟩

/-- The clauses of the relation that do not speak of the objects. -/
theorem R.forgot {v v' : FullVol} {fs fs' : FullFs} (hR : R V τ v fs) (h : Forgot fs fs') (hnow : v'.now = v.now) (hn : ∀ x, NodeIs V v' fs' x)
    (hroot : LiveIs v' ⟨kRootId, 4⟩) (hu : (v'.live.map Prod.fst).Nodup) : R V τ v' fs' := by
  refine ⟨by rw [hnow, h.now]; exact hR.now, by rw [h.now]; exact hR.time, hn, hroot, ?_, ?_, ?_, hu⟩
  · intro d m e hd he
    obtain ⟨n, h1, _, h3, _⟩ := h.back hd
    rw [h3] at he
    exact hR.typed d n e h1 he
  · intro d m hd
    obtain ⟨n, h1, _, _, _, h5⟩ := h.back hd
    rcases h5 with h5 | h5
    · rw [h5]
      exact hR.parents d n h1
    · rw [h5]
      exact hR.kind_live hR.root
  · intro x m hx
    obtain ⟨n, h1, h2, _⟩ := h.back hx
    rw [h2]
    exact hR.ids x n h1

theorem R.obj_of_mem {v : FullVol} {fs : FullFs} (hR : R V τ v fs) {id : Bytes} {o : LiveObj} (hm : (id, o) ∈ v.live) : v.obj id = some o := by
  have hu := hR.uniq
  unfold FullVol.obj
  clear hR
  revert hm hu
  generalize v.live = L
  intro hm hu
  induction L with
  | nil => cases hm
  | cons p L ih =>
    obtain ⟨a, b⟩ := p
    rw [List.lookup_cons]
    rw [List.map_cons, List.nodup_cons] at hu
    rcases List.mem_cons.1 hm with hm | hm
    · injection hm with h1 h2
      subst h1 h2
      rw [beq_self_eq_true]
    · have hb : (id == a) = false := by
        rw [beq_eq_false_iff_ne]
        intro e
        refine hu.1 (List.mem_map.2 ⟨_, hm, e⟩)
      rw [hb]
      exact ih hm hu.2

/-- The volume and the ideal volume. -/
structure VolRel (V : VolEnv) (τ : Bytes → Nat) (v : FullVol) (I : IdealVol) : Prop where
  rel : R V τ v I.fs
  held : v.held = I.held
  live : ∀ h ∈ I.held, LiveIs v h

section
variable (hV : VolEnvOk V) {v : FullVol} {I : IdealVol} (h : VolRel V τ v I)
include hV h

theorem close_step (id : Bytes) : ∃ r I', IdealStep (idealCfg V) I (.close id) r I' ∧ ResultLike (volStep V v (.close id)).1 r ∧
    VolRel V τ (volStep V v (.close id)).2 I' := by
  have same : ∀ v', (volStep V v (.close id)) = (.ok (.code 0), v') → R V τ v' I.fs → v'.held = v.held → (∀ h ∈ I.held, LiveIs v' h) →
      ∃ r I', IdealStep (idealCfg V) I (.close id) r I' ∧ ResultLike (volStep V v (.close id)).1 r ∧ VolRel V τ (volStep V v (.close id)).2 I' := by
    intro v' he hR hh hl
    rw [he]
    exact ⟨_, I, .close id, rfl, hR, hh.trans h.held, hl⟩
  have hstep : volStep V v (.close id) = ((volClose V id v).1.map fun _ => .code 0, (volClose V id v).2) := rfl
  cases ho : v.obj id with
  | none =>
    refine same v ?_ h.rel rfl h.live
    rw [hstep]
    unfold volClose
    rw [ho]
    rfl
  | some o =>
    by_cases hc : o.closed = true ∨ v.held.any (fun h => h.id == id) = true
    · refine same v ?_ h.rel rfl h.live
      rw [hstep]
      unfold volClose
      rw [ho]
      dsimp only
      rw [if_pos hc]
      rfl
    · have hcl : o.closed = false := by simpa using fun hx => hc (.inl hx)
      have hheld : ∀ x ∈ I.held, x.id ≠ id := by
        intro x hx hxi
        refine hc (.inr ?_)
        rw [h.held]
        exact List.any_eq_true.2 ⟨x, hx, by simpa using hxi⟩
      have hnode := h.rel.nodes id
      unfold NodeIs at hnode
      rw [ho] at hnode
      obtain ⟨n, hg, hn, hpp, hst, _⟩ := hnode
      obtain ⟨o', ef, hn', hsv, hcls, hpar, hcl'⟩ := node_flush hV hn v.now (by rw [h.rel.now]; exact h.rel.time)
      by_cases hr : id = kRootId
      · refine same (v.setObj id o') ?_ ?_ rfl ?_
        · rw [hstep]
          unfold volClose
          rw [ho]
          dsimp only
          rw [if_neg hc, if_pos hr, ef]
          rfl
        · refine R.reobj h.rel ho hg hn' (hpar.trans hpp) (fun _ => hsv) fun _ => ⟨?_, hcl'.trans hcl⟩
          obtain ⟨q, h1, h2, _⟩ := h.rel.root
          dsimp only at h1 h2
          rw [← hr, ho] at h1
          injection h1 with h1
          rw [hcls, h1, h2]
        · intro x hx
          obtain ⟨q, h1, h2, h3⟩ := h.live x hx
          refine ⟨q, ?_, h2, h3⟩
          rw [obj_setObj, if_neg (hheld x hx)]
          exact h1
      · by_cases h0 : o.file.attr.nlink = 0
        · have hv : volStep V v (.close id) = (.ok (.code 0), { v with live := v.live.filter fun p => p.1 ≠ id }) := by
            rw [hstep]
            unfold volClose
            rw [ho]
            dsimp only
            rw [if_neg hc, if_neg hr, if_pos h0]
            rfl
          rw [hv]
          have hn0 : n.attr.nlink = 0 := by rw [← (own_fields hn.own).2.2.2]; exact h0
          refine ⟨_, _, .gone id hheld, rfl, ?_⟩
          have hfs : (FullSys.step (idealCfg V) ⟨I.fs, []⟩ (.reap id)).fs = { I.fs with nodes := I.fs.nodes.filter fun p => p.1 ≠ id } := by
            simp only [FullSys.step, hg]
            rw [if_pos ⟨hn0, hr⟩]
          have hget : ∀ x, ({ I.fs with nodes := I.fs.nodes.filter fun p => p.1 ≠ id } : FullFs).get x = if x = id then none else I.fs.get x := by
            intro x; exact nodes_lookup_filter_ne I.fs.nodes id x
          have hback : ∀ x m, ({ I.fs with nodes := I.fs.nodes.filter fun p => p.1 ≠ id } : FullFs).get x = some m → I.fs.get x = some m := by
            intro x m hx
            rw [hget] at hx
            by_cases hxi : x = id
            · rw [if_pos hxi] at hx; cases hx
            · rw [if_neg hxi] at hx; exact hx
          have hobj : ∀ x, FullVol.obj { v with live := v.live.filter fun p => p.1 ≠ id } x = if x = id then none else v.obj x :=
            fun x => lookup_filter_ne v.live id x
          have hlive : ∀ x : FH, x.id ≠ id → LiveIs v x → LiveIs { v with live := v.live.filter fun p => p.1 ≠ id } x := by
            rintro x hx ⟨q, h1, h2⟩
            refine ⟨q, ?_, h2⟩
            rw [hobj, if_neg hx]
            exact h1
          refine ⟨?_, h.held, fun x hx => hlive x (hheld x hx) (h.live x hx)⟩
          dsimp only
          rw [hfs]
          refine ⟨h.rel.now, h.rel.time, ?_, hlive _ (fun hx => hr hx.symm) h.rel.root, ?_, ?_, ?_, ?_⟩
          · intro x
            have hx := h.rel.nodes x
            unfold NodeIs at hx ⊢
            rw [hobj, hget]
            by_cases hxi : x = id
            · rw [if_pos hxi, if_pos hxi, hxi]
              dsimp only
              rw [hst]
            · rw [if_neg hxi, if_neg hxi]
              exact hx
          · intro d m e hd he
            exact h.rel.typed d m e (hback _ _ hd) he
          · intro d m hd
            exact h.rel.parents d m (hback _ _ hd)
          · intro x m hx
            exact h.rel.ids x m (hback _ _ hx)
          · exact (h.rel.uniq).sublist (List.filter_sublist.map _)
        · refine same (v.setObj id { o' with closed := true }) ?_ ?_ rfl ?_
          · rw [hstep]
            unfold volClose
            rw [ho]
            dsimp only
            rw [if_neg hc, if_neg hr, if_neg h0, ef]
            rfl
          · exact R.reobj h.rel ho hg hn' (hpar.trans hpp) (fun _ => hsv) fun hx => absurd hx hr
          · intro x hx
            obtain ⟨q, h1, h2, h3⟩ := h.live x hx
            refine ⟨q, ?_, h2, h3⟩
            rw [obj_setObj, if_neg (hheld x hx)]
            exact h1

omit hV in
theorem eject_step (id : Bytes) : ∃ r I', IdealStep (idealCfg V) I (.eject id) r I' ∧ ResultLike (volStep V v (.eject id)).1 r ∧
    VolRel V τ (volStep V v (.eject id)).2 I' := by
  have hstep : volStep V v (.eject id) = ((volEject id v).1.map fun _ => .code 0, (volEject id v).2) := rfl
  have same : volEject id v = (.ok (), v) → ∃ r I', IdealStep (idealCfg V) I (.eject id) r I' ∧ ResultLike (volStep V v (.eject id)).1 r ∧
      VolRel V τ (volStep V v (.eject id)).2 I' := by
    intro he
    rw [hstep, he]
    exact ⟨_, _, .eject id [], rfl, h.rel, h.held, h.live⟩
  cases ho : v.obj id with
  | none => exact same (by unfold volEject; rw [ho])
  | some o =>
    by_cases hc : o.closed = true
    · have he : volEject id v = (.ok (), ⟨(id, o.file.st.data, o.file.st.metaS.file) :: v.store.filter fun p => p.1 ≠ id, v.live.filter fun p => p.1 ≠ id, v.held, v.opened, v.now⟩) := by
        unfold volEject
        rw [ho]
        dsimp only
        rw [if_pos hc]
      rw [hstep, he]
      refine ⟨_, _, .eject id [id], rfl, ?_⟩
      have hnode := h.rel.nodes id
      unfold NodeIs at hnode
      rw [ho] at hnode
      obtain ⟨n, hg, hn, hpp, hst, hsv⟩ := hnode
      have hobj : ∀ x, FullVol.obj ⟨(id, o.file.st.data, o.file.st.metaS.file) :: v.store.filter fun p => p.1 ≠ id, v.live.filter fun p => p.1 ≠ id, v.held, v.opened, v.now⟩ x = if x = id then none else v.obj x :=
        fun x => lookup_filter_ne v.live id x
      have hne : ∀ x, LiveIs v x → x.id ≠ id := by
        rintro x ⟨q, h1, _, h3⟩ hx
        rw [hx, ho] at h1
        injection h1 with h1
        rw [h1, h3] at hc
        cases hc
      have hlive : ∀ x, LiveIs v x → LiveIs ⟨(id, o.file.st.data, o.file.st.metaS.file) :: v.store.filter fun p => p.1 ≠ id, v.live.filter fun p => p.1 ≠ id, v.held, v.opened, v.now⟩ x := by
        intro x hx
        have hxi := hne x hx
        obtain ⟨q, h1, h2⟩ := hx
        refine ⟨q, ?_, h2⟩
        rw [hobj, if_neg hxi]
        exact h1
      refine ⟨?_, h.held, fun x hx => hlive x (h.live x hx)⟩
      refine h.rel.forgot (forgot_forget _ _ _) rfl ?_ (hlive _ h.rel.root) ((h.rel.uniq).sublist (List.filter_sublist.map _))
      intro x
      have hx := h.rel.nodes x
      unfold NodeIs at hx ⊢
      rw [hobj, forget_get]
      by_cases hxi : x = id
      · rw [if_pos hxi, if_pos (by simp [hxi]), hxi]
        dsimp only
        rw [List.lookup_cons, beq_self_eq_true]
        dsimp only
        rw [hg]
        exact ⟨_, rfl, (hsv hc).congr rfl rfl rfl, rfl⟩
      · have hb : (x == id) = false := by simpa using hxi
        rw [if_neg hxi, if_neg (by simp [hxi])]
        dsimp only
        rw [List.lookup_cons, hb]
        dsimp only
        rw [lookup_filter_ne, if_neg hxi]
        exact hx
    · exact same (by unfold volEject; rw [ho]; dsimp only; rw [if_neg hc])

omit h in
theorem flushAll_ok {fs : FullFs} {now : TimeSpec} (hn : ValidTime now) : ∀ (L : List (Bytes × LiveObj)),
    (∀ id o, (id, o) ∈ L → ∃ n, fs.get id = some n ∧ NodeOk V id o.cls o.file o.cache n) →
    ∃ l, volFlushAll V now L = .ok l ∧ (∀ x, L.lookup x = none → l.lookup x = none) ∧
      ∀ x o, L.lookup x = some o → ∃ n p, fs.get x = some n ∧ l.lookup x = some p ∧ SavedOk V x n p
  | [], _ => ⟨[], rfl, fun _ _ => rfl, fun _ _ h => by cases h⟩
  | (id, o) :: rest, hL => by
    obtain ⟨n, hg, hok⟩ := hL id o List.mem_cons_self
    obtain ⟨o', ef, _, hsv, _⟩ := node_flush hV hok now hn
    obtain ⟨l, el, h1, h2⟩ := flushAll_ok hn rest fun i p hp => hL i p (List.mem_cons_of_mem _ hp)
    refine ⟨(id, o'.file.st.data, o'.file.st.metaS.file) :: l, by rw [volFlushAll, ef]; dsimp only; rw [el], fun x hx => ?_, fun x p hx => ?_⟩
    · rw [List.lookup_cons] at hx ⊢
      cases hb : x == id with
      | true => rw [hb] at hx; cases hx
      | false => rw [hb] at hx; exact h1 x hx
    · rw [List.lookup_cons] at hx ⊢
      cases hb : x == id with
      | true =>
        rw [beq_iff_eq] at hb
        subst hb
        exact ⟨n, _, hg, rfl, hsv⟩
      | false => rw [hb] at hx; exact h2 x p hx

theorem remount_step : ∃ r I', IdealStep (idealCfg V) I .remount r I' ∧ ResultLike (volStep V v .remount).1 r ∧
    VolRel V τ (volStep V v .remount).2 I' := by
  have hR := h.rel
  have hmem : ∀ id o, (id, o) ∈ v.live → v.obj id = some o := fun id o hm => hR.obj_of_mem hm
  obtain ⟨l, el, h1, h2⟩ := flushAll_ok hV (fs := I.fs) (now := v.now) (by rw [hR.now]; exact hR.time) v.live fun id o hm => by
    have := hR.nodes id
    unfold NodeIs at this
    rw [hmem id o hm] at this
    obtain ⟨n, h1, h2, _⟩ := this
    exact ⟨n, h1, h2⟩
  obtain ⟨oroot, hroot, _⟩ := hR.root
  obtain ⟨nr, pr, hgr, hlr, cls, hsr⟩ := h2 kRootId oroot hroot
  obtain ⟨f, ho, hn⟩ := hsr (V.seed v.opened)
  have hcls : cls = 4 := mode_inj hn.good (.inl rfl) (hn.kind.trans (hR.kind_of_get (hR.kind_live hR.root) hgr).symm)
  subst hcls
  obtain ⟨dr, mr⟩ := pr
  have hlook : (l ++ v.store).lookup kRootId = some (dr, mr) := by rw [List.lookup_append, hlr]; rfl
  have hv : volStep V v .remount = (.ok (.code 0), ⟨(l ++ v.store).filter fun p => p.1 ≠ kRootId, [(kRootId, ⟨typeDirectory, f, [], zeros 32, false⟩)], [], v.opened + 1, v.now⟩) := by
    show ((volRemount V v).1.map fun _ => VolAnswer.code 0, (volRemount V v).2) = _
    unfold volRemount
    rw [el]
    dsimp only
    unfold volMount
    rw [hlook]
    dsimp only at ho ⊢
    rw [ho]
    rfl
  rw [hv]
  have hobj : ∀ x, FullVol.obj ⟨(l ++ v.store).filter fun p => p.1 ≠ kRootId, [(kRootId, ⟨typeDirectory, f, [], zeros 32, false⟩)], [], v.opened + 1, v.now⟩ x =
      if x = kRootId then some ⟨typeDirectory, f, [], zeros 32, false⟩ else none := by
    intro x
    unfold FullVol.obj
    dsimp only
    rw [List.lookup_cons]
    by_cases hx : x = kRootId
    · rw [if_pos hx, hx, beq_self_eq_true]
    · have hb : (x == kRootId) = false := by simpa using hx
      rw [if_neg hx, hb]
      rfl
  refine ⟨_, _, .remount (v.live.map Prod.fst), rfl, ?_, rfl, fun x hx => (by cases hx)⟩
  dsimp only
  refine hR.forgot (forgot_forget _ _ _) rfl ?_ ⟨_, by rw [hobj, if_pos rfl], rfl, rfl⟩ (by simp)
  intro x
  have hx := hR.nodes x
  unfold NodeIs at hx ⊢
  rw [hobj, forget_get]
  have hin : ∀ o, v.obj x = some o → x ∈ v.live.map Prod.fst := by
    intro o he
    by_contra hc
    have : v.live.lookup x = none := List.lookup_eq_none_iff.2 fun p hp => by
      rw [bne_iff_ne]
      intro e
      exact hc (List.mem_map.2 ⟨p, hp, e.symm⟩)
    unfold FullVol.obj at he
    rw [this] at he
    cases he
  have hnot : v.obj x = none → x ∉ v.live.map Prod.fst := by
    intro he hc
    obtain ⟨p, hp, rfl⟩ := List.mem_map.1 hc
    rw [hmem p.1 p.2 hp] at he
    cases he
  by_cases hxr : x = kRootId
  · subst hxr
    rw [if_pos rfl, if_pos (hin oroot hroot), hgr]
    dsimp only
    refine ⟨_, rfl, hn.congr rfl rfl rfl, rfl, ?_, fun he => by cases he⟩
    rw [lookup_filter_ne, if_pos rfl]
  · rw [if_neg hxr]
    dsimp only
    rw [lookup_filter_ne, if_neg hxr, List.lookup_append]
    cases hobx : v.obj x with
    | some o =>
      obtain ⟨n, p, hg, hp, hsv⟩ := h2 x o hobx
      rw [hp, if_pos (hin o hobx), hg]
      dsimp only [Option.or]
      exact ⟨_, rfl, hsv.congr rfl rfl rfl, rfl⟩
    | none =>
      rw [hobx] at hx
      rw [h1 x hobx, if_neg (hnot hobx)]
      exact hx

theorem op_step {op : FullOp} (hw : OpFits V.env (idealCfg V) τ I op) : ∃ r I', IdealStep (idealCfg V) I (.op op) r I' ∧
    ResultLike (volStep V v (.op op)).1 r ∧ VolRel V τ (volStep V v (.op op)).2 I' := by
  obtain ⟨hR, hM, hS⟩ := sim_op hV h.rel h.live hw
  refine ⟨_, _, .op op, ?_, ?_⟩
  · show ResultLike (volOp V op v).1 _
    revert hS
    generalize (volOp V op v).1 = x
    generalize ((idealOp (idealCfg V) op).run I.fs).1 = y
    intro hS
    cases x <;> cases y
    · exact hS
    · exact hS
    · exact hS
    · exact hS.1
  · have hgiven : VolAnswer.given (volOp V op v).1 = VolAnswer.given ((idealOp (idealCfg V) op).run I.fs).1 ∧
        ∀ x, VolAnswer.given (volOp V op v).1 = some x → LiveIs (volOp V op v).2 x := by
      revert hS
      generalize (volOp V op v).1 = x
      generalize ((idealOp (idealCfg V) op).run I.fs).1 = y
      intro hS
      cases x with
      | error e =>
        cases y with
        | error e' => exact ⟨rfl, fun _ he => by cases he⟩
        | ok b => exact hS.elim
      | ok a =>
        cases y with
        | error e' => exact hS.elim
        | ok b =>
          refine ⟨?_, hS.2⟩
          have hl := hS.1
          cases a with
          | code n => rw [show b = .code n from (by cases b <;> exact Eq.symm hl)]
          | bytes n d => rw [show b = .bytes n d from (by cases b <;> exact Eq.symm hl)]
          | handle n d => rw [show b = .handle n d from (by cases b <;> exact Eq.symm hl)]
          | stat n s =>
            cases s with
            | none => rw [show b = .stat n none from (by cases b <;> exact Eq.symm hl)]
            | some s =>
              cases b with
              | stat m t => rfl
              | _ => cases hl
          | items n s =>
            cases b with
            | items m t => rfl
            | _ => cases hl
    show VolRel V τ (match VolAnswer.given (volOp V op v).1 with
      | some h => { (volOp V op v).2 with held := h :: (volOp V op v).2.held }
      | none => (volOp V op v).2) _
    rw [← hgiven.1]
    cases hgv : VolAnswer.given (volOp V op v).1 with
    | none =>
      exact ⟨hR, hM.held.trans h.held, fun x hx => hM.live x (h.live x hx)⟩
    | some g =>
      refine ⟨⟨hR.now, hR.time, hR.nodes, hR.root, hR.typed, hR.parents, hR.ids, hR.uniq⟩, ?_, ?_⟩
      · dsimp only
        rw [hM.held, h.held]
        rfl
      · intro x hx
        rcases List.mem_cons.1 hx with hx | hx
        · subst hx
          exact hgiven.2 x hgv
        · exact hM.live x (h.live x hx)

theorem vol_step {ev : VolEvent} (hw : EventFits V.env (idealCfg V) τ I ev) : ∃ r I', IdealStep (idealCfg V) I ev r I' ∧
    ResultLike (volStep V v ev).1 r ∧ VolRel V τ (volStep V v ev).2 I' := by
  have erase : ∀ x, VolRel V τ { v with held := v.held.erase x } ⟨I.fs, I.held.erase x⟩ := by
    intro x
    have hR := h.rel
    refine ⟨⟨hR.now, hR.time, hR.nodes, hR.root, hR.typed, hR.parents, hR.ids, hR.uniq⟩, ?_, fun y hy => h.live y (List.mem_of_mem_erase hy)⟩
    dsimp only
    rw [h.held]
  cases ev with
  | op op => exact op_step hV h hw
  | release x =>
    refine ⟨_, _, .release x, rfl, ?_⟩
    show VolRel V τ (if (fullRelease x).2 then { v with held := v.held.erase x } else v) _
    cases (fullRelease x).2 with
    | true => exact erase x
    | false => exact h
  | releasedir x =>
    refine ⟨_, _, .releasedir x, rfl, ?_⟩
    show VolRel V τ (if (fullReleasedir x).2 then { v with held := v.held.erase x } else v) _
    cases (fullReleasedir x).2 with
    | true => exact erase x
    | false => exact h
  | tick now =>
    have hR := h.rel
    exact ⟨_, _, .tick now, rfl, ⟨rfl, hw, hR.nodes, hR.root, hR.typed, hR.parents, hR.ids, hR.uniq⟩, h.held, h.live⟩
  | close id => exact close_step hV h id
  | eject id => exact eject_step h id
  | remount => exact remount_step hV h

end

section
variable (hV : VolEnvOk V)
include hV

/-- A history, up to the first event that is beyond the limits. -/
theorem run_fits : ∀ (evs : List VolEvent) {v : FullVol} {I : IdealVol}, VolRel V τ v I →
    ∃ done rest rs I', done ++ rest = evs ∧ IdealFits V.env (idealCfg V) τ I done rs I' ∧ List.Forall₂ ResultLike (volRun V v done).1 rs ∧
      VolRel V τ (volRun V v done).2 I' ∧ ∀ e, rest.head? = some e → ¬ EventFits V.env (idealCfg V) τ I' e
  | [], v, I, h => ⟨[], [], [], I, rfl, .nil, .nil, h, fun e he => by cases he⟩
  | e :: evs, v, I, h => by
    by_cases hw : EventFits V.env (idealCfg V) τ I e
    · obtain ⟨r, I1, hs, hl, h1⟩ := vol_step hV h hw
      obtain ⟨done, rest, rs, I2, hd, hr, hf, h2, hx⟩ := run_fits evs h1
      exact ⟨e :: done, rest, r :: rs, I2, by rw [← hd]; rfl, .cons hw hs hr, .cons hl hf, h2, hx⟩
    · exact ⟨[], e :: evs, [], I, rfl, .nil, .nil, h, fun e' he => by injection he with he; subst he; exact hw⟩

/-! ## Older versions -/

/-- The backing files of all files of a state. -/
structure Saved (V : VolEnv) (τ : Bytes → Nat) (st : List (Bytes × Bytes × Bytes)) (fs : FullFs) : Prop where
  some : ∀ id p, st.lookup id = some p → ∃ n, fs.get id = some n ∧ SavedOk V id n p
  none : ∀ id, st.lookup id = none → fs.get id = none
  typed : ∀ d n e, fs.get d = Option.some n → e ∈ n.entries → KindIs τ e.id e.type
  ids : ∀ id n, fs.get id = Option.some n → KindIs τ id (τ id) ∧ modeForType (τ id) = n.attr.mode &&& sIfmt

omit hV in
theorem fresh_get (now : TimeSpec) (x : Bytes) : (FullFs.fresh (idealCfg V) now).get x =
    if x = kRootId then some ⟨newAttr V now (0x1ed ||| modeForType typeDirectory) V.osUid V.osGid, zeros 32, [], []⟩ else none := by
  show List.lookup x [_] = _
  rw [List.lookup_cons]
  by_cases hx : x = kRootId
  · rw [if_pos hx, hx, beq_self_eq_true]; rfl
  · have hb : (x == kRootId) = false := by simpa using hx
    rw [if_neg hx, hb]; rfl

omit hV in
theorem obj_root {f : OpenFile} {st : List (Bytes × Bytes × Bytes)} {k : Nat} {now : TimeSpec} (x : Bytes) :
    FullVol.obj ⟨st, [(kRootId, ⟨typeDirectory, f, [], zeros 32, false⟩)], [], k, now⟩ x =
      if x = kRootId then some ⟨typeDirectory, f, [], zeros 32, false⟩ else none := by
  unfold FullVol.obj
  dsimp only
  rw [List.lookup_cons]
  by_cases hx : x = kRootId
  · rw [if_pos hx, hx, beq_self_eq_true]
  · have hb : (x == kRootId) = false := by simpa using hx
    rw [if_neg hx, hb]
    rfl

/-- Mounting backing files. -/
theorem mount_old {st : List (Bytes × Bytes × Bytes)} {old : FullFs} (hS : Saved V τ st old) (hτ : τ kRootId = 4) (opened : Nat) {now : TimeSpec}
    (hn : ValidTime now) {J : FullFs} (hnow : J.now = now)
    (hJ : ∀ x, J.get x = ((old.get x).map fun n => { n with parent := zeros 32 }).or ((FullFs.fresh (idealCfg V) now).get x)) :
    ∃ v, volMount V st opened now = .ok v ∧ VolRel V τ v ⟨J, []⟩ := by
  have hrk : KindIs τ kRootId 4 := ⟨.inl rfl, rfl, hτ.symm⟩
  have hJs : ∀ x n, old.get x = some n → J.get x = some { n with parent := zeros 32 } := by
    intro x n hx
    rw [hJ, hx]
    rfl
  have hJn : ∀ x, old.get x = none → x ≠ kRootId → J.get x = none := by
    intro x hx hr
    rw [hJ, hx, fresh_get, if_neg hr]
    rfl
  have hback : ∀ x m, J.get x = some m → (∃ n, old.get x = some n ∧ m = { n with parent := zeros 32 }) ∨
      (x = kRootId ∧ m = ⟨newAttr V now (0x1ed ||| modeForType typeDirectory) V.osUid V.osGid, zeros 32, [], []⟩) := by
    intro x m hx
    cases hg : old.get x with
    | some n =>
      rw [hJs x n hg] at hx
      injection hx with hx
      exact .inl ⟨n, rfl, hx.symm⟩
    | none =>
      rw [hJ, hg, fresh_get] at hx
      by_cases hr : x = kRootId
      · rw [if_pos hr] at hx
        injection hx with hx
        exact .inr ⟨hr, hx.symm⟩
      · rw [if_neg hr] at hx
        cases hx
  have hmode : modeForType 4 = (newAttr V now (0x1ed ||| modeForType typeDirectory) V.osUid V.osGid).mode &&& sIfmt := by
    obtain ⟨f, e1, hnode⟩ := node_create hV (id := kRootId) (cls := 4) (.inl rfl) now hn (0x1ed ||| modeForType typeDirectory) V.osUid V.osGid
      (by decide) (V.seed opened) (zeros 32)
    exact hnode.kind
  have htyped : ∀ d n e, J.get d = some n → e ∈ n.entries → KindIs τ e.id e.type := by
    intro d n e hd he
    rcases hback d n hd with ⟨m, h1, h2⟩ | ⟨_, h2⟩
    · rw [h2] at he
      exact hS.typed d m e h1 he
    · rw [h2] at he
      cases he
  have hparents : ∀ d n, J.get d = some n → KindIs τ n.parent 4 := by
    intro d n hd
    rcases hback d n hd with ⟨m, _, h2⟩ | ⟨_, h2⟩
    · rw [h2]; exact hrk
    · rw [h2]; exact hrk
  have hids : ∀ id n, J.get id = some n → KindIs τ id (τ id) ∧ modeForType (τ id) = n.attr.mode &&& sIfmt := by
    intro x n hd
    rcases hback x n hd with ⟨m, h1, h2⟩ | ⟨h1, h2⟩
    · rw [h2]; exact hS.ids x m h1
    · rw [h2, h1, hτ]; exact ⟨hrk, hmode⟩
  have hold : ∀ x, x ≠ kRootId → match st.lookup x with
      | some p => ∃ n, J.get x = some n ∧ SavedOk V x n p ∧ n.parent = zeros 32
      | none => J.get x = none := by
    intro x hx
    cases hl : st.lookup x with
    | some p =>
      obtain ⟨n, h1, h2⟩ := hS.some x p hl
      exact ⟨_, hJs x n h1, h2.congr rfl rfl rfl, rfl⟩
    | none => exact hJn x (hS.none x hl) hx
  unfold volMount
  cases hl : st.lookup kRootId with
  | none =>
    dsimp only
    obtain ⟨f, e1, hnode⟩ := node_create hV (id := kRootId) (cls := 4) (.inl rfl) now hn (0x1ed ||| modeForType typeDirectory) V.osUid V.osGid
      (by decide) (V.seed opened) (zeros 32)
    rw [e1]
    refine ⟨_, rfl, ⟨hnow.symm, by rw [hnow]; exact hn, fun x => ?_, ⟨_, by rw [obj_root, if_pos rfl], rfl, rfl⟩, htyped, hparents, hids, by simp⟩, rfl,
      fun x hx => by cases hx⟩
    unfold NodeIs
    rw [obj_root]
    by_cases hx : x = kRootId
    · rw [if_pos hx, hx]
      refine ⟨_, ?_, hnode, rfl, hl, fun he => by cases he⟩
      show J.get _ = _
      rw [hJ, hS.none _ hl, fresh_get, if_pos rfl]
      rfl
    · rw [if_neg hx]
      exact hold x hx
  | some p =>
    obtain ⟨n, h1, cls, hsv⟩ := hS.some _ p hl
    obtain ⟨f, ho, hnode⟩ := hsv (V.seed opened)
    have hcls : cls = 4 := mode_inj hnode.good (.inl rfl) (hnode.kind.trans (by rw [← (hS.ids _ _ h1).2, hτ]))
    subst hcls
    obtain ⟨d, mt⟩ := p
    dsimp only at ho ⊢
    rw [ho]
    refine ⟨_, rfl, ⟨hnow.symm, by rw [hnow]; exact hn, fun x => ?_, ⟨_, by rw [obj_root, if_pos rfl], rfl, rfl⟩, htyped, hparents, hids, by simp⟩, rfl,
      fun x hx => by cases hx⟩
    unfold NodeIs
    rw [obj_root]
    by_cases hx : x = kRootId
    · rw [if_pos hx, hx]
      refine ⟨_, hJs _ n h1, hnode.congr rfl rfl rfl, rfl, ?_, fun he => by cases he⟩
      dsimp only
      rw [lookup_filter_ne, if_pos rfl]
    · rw [if_neg hx]
      dsimp only
      rw [lookup_filter_ne, if_neg hx]
      exact hold x hx

theorem mount_fresh {now : TimeSpec} (hn : ValidTime now) : ∃ v, volMount V [] 0 now = .ok v ∧
    VolRel V (fun _ => 4) v ⟨FullFs.fresh (idealCfg V) now, []⟩ := by
  refine mount_old hV (old := ⟨[], now⟩) ⟨fun _ _ h => (by cases h), fun _ _ => rfl, fun _ _ _ h => (by cases h), fun _ _ h => (by cases h)⟩ rfl 0 hn rfl
    fun x => ?_
  show _ = Option.or none _
  rfl

/-- Unmounting. -/
theorem unmount_ok {v : FullVol} {I : IdealVol} (h : VolRel V τ v I) : ∃ st, volUnmount V v = .ok st ∧ Saved V τ st I.fs := by
  have hR := h.rel
  obtain ⟨l, el, h1, h2⟩ := flushAll_ok hV (fs := I.fs) (now := v.now) (by rw [hR.now]; exact hR.time) v.live fun id o hm => by
    have := hR.nodes id
    unfold NodeIs at this
    rw [hR.obj_of_mem hm] at this
    obtain ⟨n, h1, h2, _⟩ := this
    exact ⟨n, h1, h2⟩
  refine ⟨l ++ v.store, by unfold volUnmount; rw [el]; rfl, fun x p hx => ?_, fun x hx => ?_, hR.typed, hR.ids⟩
  · rw [List.lookup_append] at hx
    cases ho : v.obj x with
    | some o =>
      obtain ⟨n, q, hg, hq, hsv⟩ := h2 x o ho
      rw [hq] at hx
      injection hx with hx
      subst hx
      exact ⟨n, hg, hsv⟩
    | none =>
      rw [h1 x ho] at hx
      have hxx := hR.nodes x
      unfold NodeIs at hxx
      rw [ho] at hxx
      dsimp only at hxx
      rw [show v.store.lookup x = some p from hx] at hxx
      obtain ⟨n, hg, hsv, _⟩ := hxx
      exact ⟨n, hg, hsv⟩
  · rw [List.lookup_append] at hx
    cases ho : v.obj x with
    | some o =>
      obtain ⟨n, q, hg, hq, hsv⟩ := h2 x o ho
      rw [hq] at hx
      cases hx
    | none =>
      rw [h1 x ho] at hx
      have hxx := hR.nodes x
      unfold NodeIs at hxx
      rw [ho] at hxx
      dsimp only at hxx
      rw [show v.store.lookup x = none from hx] at hxx
      exact hxx

/-! ## Operations one after the other -/

omit hV in
/-- The kind of an identifier that nothing refers to can be chosen. -/
theorem R.retype {v : FullVol} {fs : FullFs} (hR : R V τ v fs) {x : Bytes} (k : Nat) (hx : fs.get x = none)
    (hent : ∀ d n e, fs.get d = some n → e ∈ n.entries → e.id ≠ x) (hpar : ∀ d n, fs.get d = some n → n.parent ≠ x) :
    R V (fun y => if y = x then k else τ y) v fs := by
  refine ⟨hR.now, hR.time, hR.nodes, hR.root, fun d n e hd he => ?_, fun d n hd => ?_, fun y n hy => ?_, hR.uniq⟩
  · obtain ⟨h1, h2, h3⟩ := hR.typed d n e hd he
    exact ⟨h1, h2, by dsimp only; rw [if_neg (hent d n e hd he)]; exact h3⟩
  · obtain ⟨h1, h2, h3⟩ := hR.parents d n hd
    exact ⟨h1, h2, by dsimp only; rw [if_neg (hpar d n hd)]; exact h3⟩
  · have hyx : y ≠ x := fun he => by rw [he, hx] at hy; cases hy
    rw [if_neg hyx]
    obtain ⟨⟨h1, h2, _⟩, h3⟩ := hR.ids y n hy
    exact ⟨⟨h1, h2, by dsimp only; rw [if_neg hyx]⟩, h3⟩

omit hV in
/-- The ideal volume keeps to operations one after the other. -/
theorem seq_step {I I' : IdealVol} {ev : VolEvent} {r : Res VolAnswer} (hJ : Sequential (idealCfg V) I.fs) (hw : EventWithin V.env (idealCfg V) I ev)
    (hs : IdealStep (idealCfg V) I ev r I') : Sequential (idealCfg V) I'.fs := by
  cases hs with
  | op op =>
    rw [ideal_state]
    exact .op hJ op hw.asked hw.links
  | release => exact hJ
  | releasedir => exact hJ
  | tick now => exact .tick hJ now
  | close => exact hJ
  | gone id => exact .reap hJ id
  | eject id ids => exact forget_seq _ _ _ hJ
  | remount ids => exact forget_seq _ _ _ hJ

/-- What is within the limits of C85 is within those here, if the kind of a new file is chosen. -/
theorem fits_of_within {v : FullVol} {I : IdealVol} (h : VolRel V τ v I) (hs : Sequential (idealCfg V) I.fs) {ev : VolEvent}
    (hw : EventWithin V.env (idealCfg V) I ev) : ∃ τ', VolRel V τ' v I ∧ EventFits V.env (idealCfg V) τ' I ev := by
  cases ev with
  | op op =>
    have hw : OpWithin V.env (idealCfg V) I op := hw
    have simple : (∀ id k, FullOp.makes? op = some (id, k) → I.fs.get id ≠ none) → ∃ τ', VolRel V τ' v I ∧ EventFits V.env (idealCfg V) τ' I (.op op) :=
      fun hm => ⟨τ, h, hw.handle, hw.names, fun id k he hx => absurd hx (hm id k he), hw.times, hw.size, hw.dirs⟩
    cases hmk : FullOp.makes? op with
    | none => exact simple fun id k he => by rw [hmk] at he; cases he
    | some p =>
      obtain ⟨x, k⟩ := p
      cases hg : I.fs.get x with
      | some n =>
        refine simple fun id k he => ?_
        rw [hmk] at he
        injection he with he
        injection he with h1 h2
        rw [← h1, hg]
        exact fun hx => by cases hx
      | none =>
        have hnew : FullOp.newId? op = some x := by
          cases op <;> simp only [FullOp.makes?] at hmk <;> first | (cases hmk; done) | (injection hmk with hmk; injection hmk with h1 h2; rw [← h1]; rfl)
        obtain ⟨hlen, hpar⟩ := hw.ids x hnew
        refine ⟨fun y => if y = x then k else τ y, ⟨h.rel.retype k hg (fun d n e hd he hx => ?_) (hpar hg), h.held, h.live⟩,
          hw.handle, hw.names, fun id k' he hx => ?_, hw.times, hw.size, hw.dirs⟩
        · exact closed_of_tree (seq_inv (sameEquiv_of hV.names) hs).inv.tree d n e hd he (by rw [hx]; exact hg)
        · rw [hmk] at he
          injection he with he
          injection he with h1 h2
          subst h1 h2
          exact ⟨hlen, if_pos rfl⟩
  | tick now => exact ⟨τ, h, hw⟩
  | release _ => exact ⟨τ, h, trivial⟩
  | releasedir _ => exact ⟨τ, h, trivial⟩
  | close _ => exact ⟨τ, h, trivial⟩
  | eject _ => exact ⟨τ, h, trivial⟩
  | remount => exact ⟨τ, h, trivial⟩

/-- A history, up to the first event that is beyond the limits. -/
theorem run_ok : ∀ (evs : List VolEvent) {τ : Bytes → Nat} {v : FullVol} {I : IdealVol}, VolRel V τ v I → Sequential (idealCfg V) I.fs →
    ∃ done rest rs I', done ++ rest = evs ∧ IdealRun V.env (idealCfg V) I done rs I' ∧ List.Forall₂ ResultLike (volRun V v done).1 rs ∧
      (∃ τ', VolRel V τ' (volRun V v done).2 I') ∧ ∀ e, rest.head? = some e → ¬ EventWithin V.env (idealCfg V) I' e
  | [], τ, v, I, h, _ => ⟨[], [], [], I, rfl, .nil, .nil, ⟨τ, h⟩, fun e he => by cases he⟩
  | e :: evs, τ, v, I, h, hq => by
    by_cases hw : EventWithin V.env (idealCfg V) I e
    · obtain ⟨τ', h', hf⟩ := fits_of_within hV h hq hw
      obtain ⟨r, I1, hs, hl, h1⟩ := vol_step hV h' hf
      obtain ⟨done, rest, rs, I2, hd, hr, hf, h2, hx⟩ := run_ok evs h1 (seq_step hq hw hs)
      exact ⟨e :: done, rest, r :: rs, I2, by rw [← hd]; rfl, .cons hw hs hr, .cons hl hf, h2, hx⟩
    · exact ⟨[], e :: evs, [], I, rfl, .nil, .nil, ⟨τ, h⟩, fun e' he => by injection he with he; subst he; exact hw⟩

end

end Securefs.Vol
