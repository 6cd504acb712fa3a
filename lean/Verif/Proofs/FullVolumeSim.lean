import Verif.Proofs.FullVolumeObj
import Verif.Spec.FullMix
/-! Helper lemmas: the sections of a volume and those of the ideal file system. -/

namespace Securefs.Vol

open Securefs Spec FileEnv

variable {V : VolEnv} {τ : Bytes → Nat}

/-! ## The relation between a volume and the ideal file system -/

/-- A directory. -/
def DirNode (n : Inode) : Prop := n.attr.mode &&& sIfmt = modeForType 4

/-- A handle refers to an object in memory that is not closed. -/
def LiveIs (v : FullVol) (h : FH) : Prop := ∃ o, v.obj h.id = some o ∧ o.cls = h.cls ∧ o.closed = false

/-- Files with this identifier are of this kind. -/
def KindIs (τ : Bytes → Nat) (id : Bytes) (type : Nat) : Prop := GoodCls type ∧ id.length = 32 ∧ type = τ id

/-- What the volume has for an identifier. -/
def NodeIs (V : VolEnv) (v : FullVol) (fs : FullFs) (id : Bytes) : Prop :=
  match v.obj id with
  | some o => ∃ n, fs.get id = some n ∧ NodeOk V id o.cls o.file o.cache n ∧ o.parent = n.parent ∧ v.store.lookup id = none ∧
      (o.closed = true → SavedOk V id n (o.file.st.data, o.file.st.metaS.file))
  | none =>
    match v.store.lookup id with
    | some p => ∃ n, fs.get id = some n ∧ SavedOk V id n p ∧ n.parent = zeros 32
    | none => fs.get id = none

/-- The volume holds the files of the ideal file system. -/
structure R (V : VolEnv) (τ : Bytes → Nat) (v : FullVol) (fs : FullFs) : Prop where
  now : v.now = fs.now
  time : ValidTime fs.now
  nodes : ∀ id, NodeIs V v fs id
  root : LiveIs v ⟨kRootId, 4⟩
  typed : ∀ d n e, fs.get d = some n → e ∈ n.entries → KindIs τ e.id e.type
  parents : ∀ d n, fs.get d = some n → KindIs τ n.parent 4
  ids : ∀ id n, fs.get id = some n → KindIs τ id (τ id) ∧ modeForType (τ id) = n.attr.mode &&& sIfmt
  uniq : (v.live.map Prod.fst).Nodup

/-- What sections leave. -/
structure Mono (v : FullVol) (fs : FullFs) (v' : FullVol) (fs' : FullFs) : Prop where
  live : ∀ h, LiveIs v h → LiveIs v' h
  held : v'.held = v.held
  now : fs'.now = fs.now
  keep : ∀ x, fs'.get x = none → fs.get x = none

theorem Mono.refl (v : FullVol) (fs : FullFs) : Mono v fs v fs := ⟨fun _ h => h, rfl, rfl, fun _ h => h⟩

theorem Mono.trans {v v' v'' : FullVol} {fs fs' fs'' : FullFs} (h : Mono v fs v' fs') (h' : Mono v' fs' v'' fs'') : Mono v fs v'' fs'' :=
  ⟨fun x hx => h'.live x (h.live x hx), h'.held.trans h.held, h'.now.trans h.now, fun x hx => h.keep x (h'.keep x hx)⟩

/-- Two results: related values, or the same error. -/
def Same {α β : Type} (Q : α → β → Prop) : Res α → Res β → Prop
  | .ok a, .ok b => Q a b
  | .error e, .error e' => e = e'
  | _, _ => False

theorem Same.mono {α β : Type} {Q Q' : α → β → Prop} (h : ∀ a b, Q a b → Q' a b) {x : Res α} {y : Res β} (hs : Same Q x y) : Same Q' x y := by
  cases x <;> cases y
  · exact hs
  · exact hs
  · exact hs
  · exact h _ _ hs

theorem Same.of_eq {α : Type} {Q : α → α → Prop} {x y : Res α} (h : x = y) (hq : ∀ a, x = .ok a → Q a a) : Same Q x y := by
  subst h
  cases x with
  | error e => rfl
  | ok a => exact hq a rfl

/-- What a computation on the volume and one on the ideal file system lead to. -/
def Out (V : VolEnv) (τ : Bytes → Nat) {α β : Type} (Q : α → β → FullVol → FullFs → Prop) (v : FullVol) (fs : FullFs) (x : Res α × FullVol) (y : Res β × FullFs) : Prop :=
  R V τ x.2 y.2 ∧ Mono v fs x.2 y.2 ∧ Same (fun a b => Q a b x.2 y.2) x.1 y.1

theorem Out.mono {α β : Type} {Q Q' : α → β → FullVol → FullFs → Prop} {v : FullVol} {fs : FullFs} {x : Res α × FullVol} {y : Res β × FullFs}
    (h : Out V τ Q v fs x y) (hq : ∀ a b v' fs', R V τ v' fs' → Mono v fs v' fs' → Q a b v' fs' → Q' a b v' fs') : Out V τ Q' v fs x y :=
  ⟨h.1, h.2.1, h.2.2.mono fun a b => hq a b _ _ h.1 h.2.1⟩

/-- One after the other. -/
theorem Out.bind {α β γ δ : Type} {Q : α → β → FullVol → FullFs → Prop} {Q' : γ → δ → FullVol → FullFs → Prop} {v : FullVol} {fs : FullFs}
    {m : VM α} {f : α → VM γ} {y : Res β × FullFs} {z : Res δ × FullFs}
    (h : Out V τ Q v fs (m v) y)
    (hok : ∀ a b v' fs', y = (.ok b, fs') → R V τ v' fs' → Mono v fs v' fs' → Q a b v' fs' → Out V τ Q' v' fs' (f a v') z)
    (herr : ∀ e fs', y = (.error e, fs') → z = (.error e, fs')) : Out V τ Q' v fs (VM.bind m f v) z := by
  obtain ⟨hR, hM, hS⟩ := h
  unfold VM.bind
  generalize m v = x at *
  obtain ⟨x1, v1⟩ := x
  obtain ⟨y1, fs1⟩ := y
  cases x1 with
  | error e =>
    cases y1 with
    | error e' =>
      have hS : e = e' := hS
      subst hS
      rw [herr e fs1 rfl]
      exact ⟨hR, hM, rfl⟩
    | ok b => exact hS.elim
  | ok a =>
    cases y1 with
    | error e' => exact hS.elim
    | ok b =>
      obtain ⟨h1, h2, h3⟩ := hok a b v1 fs1 rfl hR hM hS
      exact ⟨h1, hM.trans h2, h3⟩

theorem Out.bindS {α β γ δ : Type} {Q : α → β → FullVol → FullFs → Prop} {Q' : γ → δ → FullVol → FullFs → Prop} {v : FullVol} {fs : FullFs}
    {m : VM α} {f : α → VM γ} {p : Sec β} {g : β → Sec δ} (h : Out V τ Q v fs (m v) (p fs))
    (hok : ∀ a b v' fs', (p fs) = (.ok b, fs') → R V τ v' fs' → Mono v fs v' fs' → Q a b v' fs' → Out V τ Q' v' fs' (f a v') (g b fs')) :
    Out V τ Q' v fs (VM.bind m f v) (Sec.bind p g fs) := by
  refine Out.bind h (fun a b v' fs' e hR hM hQ => ?_) (fun e fs' he => ?_)
  · have : Sec.bind p g fs = g b fs' := by unfold Sec.bind; rw [e]
    rw [this]; exact hok a b v' fs' e hR hM hQ
  · unfold Sec.bind; rw [he]

theorem Out.ret {α β : Type} {Q : α → β → FullVol → FullFs → Prop} {v : FullVol} {fs : FullFs} (hR : R V τ v fs) {a : α} {b : β} (hq : Q a b v fs) :
    Out V τ Q v fs (VM.ret a v) ((.ok b, fs) : Res β × FullFs) := ⟨hR, Mono.refl _ _, hq⟩

theorem Out.err {α β : Type} {Q : α → β → FullVol → FullFs → Prop} {v : FullVol} {fs : FullFs} (hR : R V τ v fs) (e : Err) :
    Out V τ Q v fs ((.error e, v) : Res α × FullVol) ((.error e, fs) : Res β × FullFs) := ⟨hR, Mono.refl _ _, rfl⟩

/-! ## Changing one file -/

theorem obj_setObj (v : FullVol) (id : Bytes) (o : LiveObj) (x : Bytes) :
    (v.setObj id o).obj x = if x = id then (v.obj id).map fun _ => o else v.obj x := by
  unfold FullVol.obj FullVol.setObj
  dsimp only
  generalize v.live = l
  induction l with
  | nil => by_cases h : x = id <;> simp [h]
  | cons p l ih =>
    obtain ⟨a, b⟩ := p
    by_cases ha : a = id
    · subst ha
      by_cases hx : x = a
      · subst hx; simp
      · have hb : (x == a) = false := by simpa using hx
        simp only [List.map_cons, if_pos, List.lookup_cons, hb, if_neg hx] at ih ⊢
        exact ih
    · by_cases hx : x = a
      · subst hx
        simp [ha]
      · have hb : (x == a) = false := by simpa using hx
        have hb2 : (id == a) = false := by simpa using fun h : id = a => ha h.symm
        simp only [List.map_cons, if_neg ha, List.lookup_cons, hb, hb2]
        exact ih

theorem keys_setObj (v : FullVol) (id : Bytes) (o : LiveObj) : (v.setObj id o).live.map Prod.fst = v.live.map Prod.fst := by
  unfold FullVol.setObj
  dsimp only
  rw [List.map_map]
  refine List.map_congr_left fun p _ => ?_
  dsimp only [Function.comp]
  split
  · next h => exact h.symm
  · rfl

theorem R.live {v : FullVol} {fs : FullFs} (hR : R V τ v fs) {h : FH} (hl : LiveIs v h) :
    ∃ o n, v.obj h.id = some o ∧ o.cls = h.cls ∧ o.closed = false ∧ fs.get h.id = some n ∧ NodeOk V h.id o.cls o.file o.cache n ∧
      o.parent = n.parent ∧ v.store.lookup h.id = none := by
  obtain ⟨o, ho, hc, hcl⟩ := hl
  have := hR.nodes h.id
  unfold NodeIs at this
  rw [ho] at this
  obtain ⟨n, h1, h2, h3, h4, _⟩ := this
  exact ⟨o, n, ho, hc, hcl, h1, h2, h3, h4⟩

theorem R.kind_live {v : FullVol} {fs : FullFs} (hR : R V τ v fs) {h : FH} (hl : LiveIs v h) : KindIs τ h.id h.cls := by
  obtain ⟨o, n, _, hc, _, hg, hn, _⟩ := hR.live hl
  rw [hc] at hn
  obtain ⟨⟨h1, h2, _⟩, h3⟩ := hR.ids _ _ hg
  exact ⟨hn.good, h2, mode_inj hn.good h1 (hn.kind.trans h3.symm)⟩

theorem R.kind_of_get {v : FullVol} {fs : FullFs} (hR : R V τ v fs) {id : Bytes} {n : Inode} {t : Nat} (h : KindIs τ id t) (hg : fs.get id = some n) :
    modeForType t = n.attr.mode &&& sIfmt := by
  rw [h.2.2]
  exact (hR.ids _ _ hg).2

theorem R.kind_of_dir {v : FullVol} {fs : FullFs} (hR : R V τ v fs) {id : Bytes} {n : Inode} (hd : DirNode n) (hg : fs.get id = some n) :
    KindIs τ id 4 := by
  obtain ⟨⟨h1, h2, _⟩, h3⟩ := hR.ids _ _ hg
  exact ⟨.inl rfl, h2, (mode_inj h1 (.inl rfl) (h3.trans hd)).symm⟩

/-- The file behind a handle changes. -/
theorem R.upd {v : FullVol} {fs : FullFs} (hR : R V τ v fs) {id : Bytes} {o o' : LiveObj} {n n' : Inode} (ho : v.obj id = some o)
    (hg : fs.get id = some n) (hcl : o.closed = false)
    (hn' : NodeOk V id o.cls o'.file o'.cache n') (hcls : o'.cls = o.cls) (hcl' : o'.closed = false) (hpar : o'.parent = n'.parent)
    (hent : ∀ e ∈ n'.entries, e ∈ n.entries ∨ KindIs τ e.id e.type)
    (hp : n'.parent = n.parent ∨ KindIs τ n'.parent 4) :
    R V τ (v.setObj id o') (fs.set id n') ∧ Mono v fs (v.setObj id o') (fs.set id n') := by
  have hnode := hR.nodes id
  unfold NodeIs at hnode
  rw [ho] at hnode
  obtain ⟨n0, hg0, hn, hpp, hst, _⟩ := hnode
  rw [hg] at hg0
  injection hg0 with hg0
  subst hg0
  have hmode : n'.attr.mode &&& sIfmt = n.attr.mode &&& sIfmt := hn'.kind.symm.trans hn.kind
  have hback : ∀ x m', (fs.set id n').get x = some m' → ∃ m, fs.get x = some m ∧ m'.attr.mode &&& sIfmt = m.attr.mode &&& sIfmt := by
    intro x m' hx
    by_cases hxi : x = id
    · subst hxi
      rw [get_set_self hg] at hx
      injection hx with hx
      subst hx
      exact ⟨n, hg, hmode⟩
    · rw [get_set_ne fs n' hxi] at hx
      exact ⟨m', hx, rfl⟩
  have hlive : ∀ h, LiveIs v h → LiveIs (v.setObj id o') h := by
    rintro h ⟨k, h1, h2, h3⟩
    unfold LiveIs
    rw [obj_setObj]
    by_cases hxi : h.id = id
    · rw [hxi, ho] at h1
      injection h1 with h1
      subst h1
      rw [if_pos hxi, ho]
      exact ⟨o', rfl, hcls.trans h2, hcl'⟩
    · rw [if_neg hxi]; exact ⟨k, h1, h2, h3⟩
  refine ⟨⟨hR.now, hR.time, ?_, hlive _ hR.root, ?_, ?_, ?_, by rw [keys_setObj]; exact hR.uniq⟩, hlive, rfl, rfl, ?_⟩
  · intro x
    have hold := hR.nodes x
    unfold NodeIs at hold ⊢
    rw [obj_setObj]
    by_cases hxi : x = id
    · rw [if_pos hxi, ho]
      rw [hxi, get_set_self hg]
      refine ⟨n', rfl, ?_, hpar, hst, ?_⟩
      · rw [hcls]; exact hn'
      · intro h; rw [hcl'] at h; cases h
    · rw [if_neg hxi, get_set_ne fs n' hxi]
      exact hold
  · intro d m e hd he
    by_cases hxi : d = id
    · subst hxi
      rw [get_set_self hg] at hd
      injection hd with hd
      subst hd
      rcases hent e he with h | h
      · exact hR.typed d n e hg h
      · exact h
    · rw [get_set_ne fs n' hxi] at hd
      exact hR.typed d m e hd he
  · intro d m hd
    by_cases hxi : d = id
    · subst hxi
      rw [get_set_self hg] at hd
      injection hd with hd
      subst hd
      rcases hp with h | h
      · rw [h]; exact hR.parents d n hg
      · exact h
    · rw [get_set_ne fs n' hxi] at hd
      exact hR.parents d m hd
  · intro x m hx
    obtain ⟨m0, h0, h1⟩ := hback x m hx
    rw [h1]
    exact hR.ids x m0 h0
  · intro x hx
    by_cases hxi : x = id
    · rw [hxi, get_set_self hg] at hx; cases hx
    · rw [get_set_ne fs n' hxi] at hx
      exact hx

/-- A section that works on one file. -/
theorem sim_obj {α β : Type} {Q : α → β → FullVol → FullFs → Prop} {v : FullVol} {fs : FullFs} (hR : R V τ v fs) {h : FH} (hl : LiveIs v h)
    {f : TimeSpec → LiveObj → Res α × LiveObj} {g : TimeSpec → Inode → Res β × Inode}
    (H : ∀ o n, v.obj h.id = some o → fs.get h.id = some n → o.cls = h.cls → NodeOk V h.id o.cls o.file o.cache n → o.parent = n.parent →
      (NodeOk V h.id o.cls (f fs.now o).2.file (f fs.now o).2.cache (g fs.now n).2 ∧ (f fs.now o).2.cls = o.cls ∧
        (f fs.now o).2.closed = o.closed ∧ (f fs.now o).2.parent = (g fs.now n).2.parent ∧
        (∀ e ∈ (g fs.now n).2.entries, e ∈ n.entries ∨ KindIs τ e.id e.type) ∧
        ((g fs.now n).2.parent = n.parent ∨ KindIs τ (g fs.now n).2.parent 4)) ∧
      ((v' : FullVol) → (fs' : FullFs) → R V τ v' fs' → Mono v fs v' fs' → fs'.get h.id = some (g fs.now n).2 →
        Same (fun a b => Q a b v' fs') (f fs.now o).1 (g fs.now n).1)) :
    Out V τ Q v fs (onObj h.id f v) (Sec.file h.id g fs) := by
  obtain ⟨o, n, ho, hc, hcl, hg, hn, hp, hst⟩ := hR.live hl
  obtain ⟨⟨h1, h2, h3, h4, h5, h6⟩, h7⟩ := H o n ho hg hc hn hp
  obtain ⟨k1, k2⟩ := hR.upd ho hg hcl h1 h2 (h3.trans hcl) h4 h5 h6
  unfold onObj
  rw [ho, file_run hg, hR.now]
  exact ⟨k1, k2, h7 _ _ k1 k2 (get_set_self hg _)⟩

/-- A section that reads or changes attributes of one file. -/
theorem cast_eq {h : FH} {o : LiveObj} {n : Inode} {id : Bytes} (hc : o.cls = h.cls) (hn : NodeOk V id o.cls o.file o.cache n) (T : Nat) :
    o.castAs T = castAs h T n ∧ (castAs h T n = .ok () ↔ h.cls = T) ∧ ∀ e, castAs h T n = .error e → e = .vfs 1 := by
  unfold LiveObj.castAs castAs
  rw [hn.mode, hc]
  rw [hc] at hn
  have hk : ¬ (modeForType h.cls ≠ n.attr.mode &&& sIfmt) := fun h => h hn.kind
  rw [if_neg hk]
  refine ⟨rfl, ?_, ?_⟩
  · by_cases ht : h.cls ≠ T
    · rw [if_pos ht]
      exact ⟨fun h => (by cases h), fun h => absurd h ht⟩
    · rw [if_neg ht]
      exact ⟨fun _ => not_not.1 ht, fun _ => rfl⟩
  · intro e he
    split at he
    · cases he; rfl
    · cases he

section
variable (hV : VolEnvOk V) {v : FullVol} {fs : FullFs} (hR : R V τ v fs)
include hR

/-! ## Sections -/

theorem sim_getParent {h : FH} (hl : LiveIs v h) :
    Out V τ (fun a b _ fs' => a = b ∧ KindIs τ a 4) v fs (volGetParent h v) (secGetParent h fs) := by
  refine sim_obj hR hl fun o n ho hg hc hn hp => ⟨⟨hn, rfl, rfl, hp, fun e he => .inl he, .inl rfl⟩, fun v' fs' hR' _ hg' => ⟨hp, ?_⟩⟩
  rw [hp]
  exact hR'.parents _ _ hg'

theorem sim_setParent {h : FH} (hl : LiveIs v h) {p : Bytes} (hp : KindIs τ p 4) :
    Out V τ (fun _ _ _ _ => True) v fs (volSetParent h p v) (secSetParent h p fs) :=
  sim_obj hR hl fun _ _ _ _ _ hn _ => ⟨⟨⟨hn.good, hn.kind, hn.own, hn.dir, hn.file⟩, rfl, rfl, rfl, fun _ he => .inl he, .inr hp⟩,
    fun _ _ _ _ _ => trivial⟩

include hV in
/-- A section that works on a directory. -/
theorem sim_dir {α β : Type} {Q : α → β → FullVol → FullFs → Prop} {h : FH} (hl : LiveIs v h) {m : TimeSpec → DirFile.DM α}
    {g : TimeSpec → Inode → Res β × Inode}
    (H : ∀ f c n, fs.get h.id = some n → h.cls = 4 → NodeOk V h.id 4 f c n →
      (NodeOk V h.id 4 (m fs.now ⟨V.env, h.id, f, c⟩).2.file (m fs.now ⟨V.env, h.id, f, c⟩).2.cache (g fs.now n).2 ∧
        (∀ e ∈ (g fs.now n).2.entries, e ∈ n.entries ∨ KindIs τ e.id e.type) ∧ (g fs.now n).2.parent = n.parent) ∧
      ((v' : FullVol) → (fs' : FullFs) → R V τ v' fs' → Mono v fs v' fs' → fs'.get h.id = some (g fs.now n).2 →
        Same (fun a b => Q a b v' fs') (m fs.now ⟨V.env, h.id, f, c⟩).1 (g fs.now n).1)) :
    Out V τ Q v fs (onObj h.id (fun now => LiveObj.onDir V h.id (m now)) v) (Sec.dir h g fs) := by
  refine sim_obj hR hl fun o n ho hg hc hn hp => ?_
  obtain ⟨h1, h2, h3⟩ := cast_eq hc hn typeDirectory
  unfold LiveObj.onDir
  rw [h1]
  cases hca : castAs h typeDirectory n with
  | error e => exact ⟨⟨hn, rfl, rfl, hp, fun _ he => .inl he, .inl rfl⟩, fun _ _ _ _ _ => rfl⟩
  | ok u =>
    have h4 : h.cls = 4 := h2.1 hca
    rw [hc, h4] at hn ⊢
    obtain ⟨⟨k1, k2, k3⟩, k4⟩ := H o.file o.cache n hg h4 hn
    exact ⟨⟨k1, rfl, rfl, hp.trans k3.symm, k2, .inl k3⟩, k4⟩

include hV in
theorem sim_get {h : FH} (hl : LiveIs v h) (name : Bytes) :
    Out V τ (fun a b _ fs' => a = b ∧ KindIs τ h.id 4 ∧ ∀ e, a = some e → KindIs τ e.id e.type) v fs
      (volGet V h name v) (secGet (idealCfg V) h name fs) := by
  refine sim_dir hV hR hl fun f c n hg h4 hn => ?_
  obtain ⟨k1, k2⟩ := dir_get hV hn fs.now hR.time name
  have hent : (n.getEntry (idealCfg V) fs.now name).2.entries = n.entries := by
    unfold Inode.getEntry; dsimp only; split <;> rfl
  have hpar : (n.getEntry (idealCfg V) fs.now name).2.parent = n.parent := by
    unfold Inode.getEntry; dsimp only; split <;> rfl
  refine ⟨⟨k2, fun e he => .inl (by rw [hent] at he; exact he), hpar⟩, fun v' fs' hR' hM hg' => ?_⟩
  refine Same.of_eq k1 fun a ha => ⟨rfl, hR'.kind_of_dir k2.kind.symm hg', fun e he => ?_⟩
  rw [k1] at ha
  refine hR.typed h.id n e hg ?_
  unfold Inode.getEntry at ha
  dsimp only at ha
  split at ha
  · cases ha
  · injection ha with ha
    rw [he] at ha
    exact List.mem_of_find?_eq_some ha

include hV in
theorem sim_remove {h : FH} (hl : LiveIs v h) (name : Bytes) :
    Out V τ (fun a b _ fs' => a = b ∧ ∀ e, a = some e → KindIs τ e.id e.type) v fs
      (volRemove V h name v) (secRemove (idealCfg V) h name fs) := by
  refine sim_dir hV hR hl fun f c n hg h4 hn => ?_
  obtain ⟨k1, k2⟩ := dir_remove hV hn fs.now hR.time name
  have hent : ∀ e ∈ (n.removeEntry (idealCfg V) fs.now name).2.entries, e ∈ n.entries := by
    unfold Inode.removeEntry; dsimp only; split
    · exact fun e he => he
    · exact fun e he => (List.mem_filter.1 he).1
  have hpar : (n.removeEntry (idealCfg V) fs.now name).2.parent = n.parent := by
    unfold Inode.removeEntry; dsimp only; split <;> rfl
  refine ⟨⟨k2, fun e he => .inl (hent e he), hpar⟩, fun v' fs' hR' hM hg' => ?_⟩
  refine Same.of_eq k1 fun a ha => ⟨rfl, fun e he => ?_⟩
  rw [k1] at ha
  refine hR.typed h.id n e hg ?_
  unfold Inode.removeEntry at ha
  dsimp only at ha
  split at ha
  · cases ha
  · injection ha with ha
    rw [he] at ha
    exact List.mem_of_find?_eq_some ha

include hV in
theorem sim_add {h : FH} (hl : LiveIs v h) (e : DirEntry) (hk : KindIs τ e.id e.type) (hz : (0 : UInt8) ∉ e.name)
    (hroom : ∀ n, fs.get h.id = some n → n.entries.length + 1 ≤ dirCapacity) :
    Out V τ (fun a b _ fs' => a = b ∧ KindIs τ h.id 4) v fs
      (volAdd V h e v) (secAdd (idealCfg V) h e fs) := by
  have hval : (DirOp.add e).Valid := by
    obtain ⟨hgood, hlen, _⟩ := hk
    refine ⟨fun c hc h => hz (h ▸ hc), hlen, ?_⟩
    rcases hgood with h | h | h <;> rw [h] <;> decide
  refine sim_dir hV hR hl fun f c n hg h4 hn => ?_
  obtain ⟨k1, k2⟩ := dir_add hV hn fs.now hR.time e hval (hroom n hg)
  have hent : ∀ x ∈ (n.addEntry (idealCfg V) fs.now e).2.entries, x ∈ n.entries ∨ KindIs τ x.id x.type := by
    unfold Inode.addEntry; dsimp only; split
    · exact fun e he => .inl he
    · split
      · exact fun e he => .inl he
      · intro x hx
        rcases List.mem_cons.1 hx with rfl | hx
        · exact .inr hk
        · exact .inl hx
  have hpar : (n.addEntry (idealCfg V) fs.now e).2.parent = n.parent := by
    unfold Inode.addEntry; dsimp only; split
    · rfl
    · split <;> rfl
  refine ⟨⟨k2, hent, hpar⟩, fun v' fs' hR' hM hg' => ?_⟩
  exact Same.of_eq k1 fun a ha => ⟨rfl, hR'.kind_of_dir k2.kind.symm hg'⟩

/-- A section that changes attributes. -/
theorem sim_attr {h : FH} (hl : LiveIs v h) (op : AttrOp) (hv : DirCallValid (.attr op)) {g : TimeSpec → Inode → Inode}
    (hgn : ∀ now n, g now n = { n with attr := V.env.attrCall now op n.attr }) :
    Out V τ (fun _ _ _ _ => True) v fs (volAttr V h op v) (Sec.file h.id (fun now n => ((.ok () : Res Unit), g now n)) fs) := by
  refine sim_obj hR hl fun o n ho hg hc hn hp => ?_
  dsimp only
  rw [hgn]
  exact ⟨⟨hn.attr fs.now hR.time op hv, rfl, rfl, hp, fun _ he => .inl he, .inl rfl⟩, fun _ _ _ _ _ => trivial⟩

theorem sim_realType {h : FH} (hl : LiveIs v h) :
    Out V τ (fun a b _ _ => a = b ∧ a = h.cls) v fs (volRealType h v) (Sec.file h.id (fun _ n => ((.ok n.attr.realType : Res Nat), n)) fs) := by
  refine sim_obj hR hl fun o n ho hg hc hn hp => ⟨⟨hn, rfl, rfl, hp, fun _ he => .inl he, .inl rfl⟩, fun _ _ _ _ _ => ?_⟩
  have e1 : o.file.attr.realType = n.attr.realType := by
    unfold FileAttr.realType; rw [hn.mode]
  refine ⟨e1, ?_⟩
  rw [e1]
  unfold FileAttr.realType
  rw [← hn.kind, hc]
  have := hn.good
  rw [hc] at this
  rcases this with h | h | h <;> rw [h] <;> decide

theorem sim_addLink {h : FH} (hl : LiveIs v h) : Out V τ (fun a b _ _ => a = b) v fs (volAddLink V h v)
    (Sec.file h.id (fun now n => ((.ok true : Res Bool), { n with attr := n.attr.setNlink (idealCfg V).storeTime now (n.attr.nlink + 1) })) fs) := by
  refine sim_obj hR hl fun o n ho hg hc hn hp => ?_
  have hnl : o.file.attr.nlink = n.attr.nlink := (own_fields hn.own).2.2.2
  dsimp only
  rw [hnl]
  exact ⟨⟨hn.attr fs.now hR.time (.setNlink (n.attr.nlink + 1)) trivial, rfl, rfl, hp, fun _ he => .inl he, .inl rfl⟩, fun _ _ _ _ _ => rfl⟩

include hV in
theorem sim_unlinkEmpty {h : FH} (hl : LiveIs v h) :
    Out V τ (fun _ _ _ _ => True) v fs (volUnlinkEmpty V h v) (secUnlinkEmpty (idealCfg V) h fs) := by
  refine sim_dir hV hR hl (m := fun now => _) fun f c n hg h4 hn => ?_
  obtain ⟨l, d', e1, hp, hd, hn'⟩ := dir_list hV hn fs.now hR.time
  obtain ⟨attr, parent, data, entries⟩ := n
  unfold Inode.unlinkEmpty
  dsimp only at hp hn' ⊢
  rw [DirFile.bind_ok e1]
  cases l with
  | nil =>
    have hnil : entries = [] := hp.symm.eq_nil
    subst hnil
    exact ⟨⟨hn'.attr fs.now hR.time .unlink trivial, fun e he => .inl he, rfl⟩, fun _ _ _ _ _ => trivial⟩
  | cons x l =>
    cases entries with
    | nil => exact absurd hp.eq_nil (by simp)
    | cons y k => exact ⟨⟨hn', fun e he => .inl he, rfl⟩, fun _ _ _ _ _ => rfl⟩

include hV in
/-- A section that works on a file that is not a directory. -/
theorem sim_file {α β : Type} {Q : α → β → FullVol → FullFs → Prop} {h : FH} (hl : LiveIs v h) (T : Nat) (hT : T ≠ 4)
    {m : TimeSpec → OpenFile → Res (OpenFile × α)} {g : TimeSpec → Inode → Res β × Inode}
    (H : ∀ f c n, fs.get h.id = some n → NodeOk V h.id T f c n → ∃ f' a b n', m fs.now f = .ok (f', a) ∧ g fs.now n = (.ok b, n') ∧
      NodeOk V h.id T f' c n' ∧ n'.entries = n.entries ∧ n'.parent = n.parent ∧ ∀ v' fs', Q a b v' fs') :
    Out V τ Q v fs (onObj h.id (fun now => LiveObj.onFile T (m now)) v) (Sec.file h.id (fun now n =>
      match castAs h T n with
      | .error e => (.error e, n)
      | .ok _ => g now n) fs) := by
  refine sim_obj hR hl fun o n ho hg hc hn hp => ?_
  obtain ⟨h1, h2, h3⟩ := cast_eq hc hn T
  unfold LiveObj.onFile
  rw [h1]
  cases hca : castAs h T n with
  | error e => exact ⟨⟨hn, rfl, rfl, hp, fun _ he => .inl he, .inl rfl⟩, fun _ _ _ _ _ => rfl⟩
  | ok u =>
    have h4 : h.cls = T := h2.1 hca
    rw [hc, h4] at hn ⊢
    obtain ⟨f', a, b, n', k1, k2, k3, k4, k5, k6⟩ := H o.file o.cache n hg hn
    dsimp only
    rw [k1, k2]
    exact ⟨⟨k3, rfl, rfl, hp.trans k5.symm, fun e he => .inl (by rw [k4] at he; exact he), .inl k5⟩, fun _ _ _ _ _ => k6 _ _⟩

include hV in
theorem sim_linkGet {h : FH} (hl : LiveIs v h) : Out V τ (fun a b _ _ => a = b) v fs (volLinkGet V h v) (secLinkGet (idealCfg V) h fs) := by
  refine sim_file hV hR hl typeSymlink (by decide) fun f c n hg hn => ?_
  exact ⟨_, _, _, _, file_linkGet hV hn (by decide) fs.now, rfl, hn.attr fs.now hR.time .read trivial, rfl, rfl, fun _ _ => rfl⟩

omit hR in
theorem link_write (c d : Bytes) : Spec.write c 0 d = d ++ c.drop d.length := by
  unfold Spec.write
  split
  · rename_i h; subst h; simp
  · simp

include hV in
theorem sim_linkSet {h : FH} (hl : LiveIs v h) (d : Bytes) (hd : d.length ≤ fileLimit V.env) :
    Out V τ (fun a b _ _ => a = b) v fs (volLinkSet V h d v) (secLinkSet (idealCfg V) h d fs) := by
  refine sim_file hV hR hl typeSymlink (by decide) fun f c n hg hn => ?_
  obtain ⟨f', e1, hn'⟩ := file_write hV hn (by decide) fs.now hR.time 0 d (by omega)
  rw [link_write] at hn'
  refine ⟨f', (), (), _, ?_, rfl, hn', rfl, rfl, fun _ _ => rfl⟩
  unfold linkSetObj
  rw [e1]; rfl

include hV in
theorem sim_read {h : FH} (hl : LiveIs v h) (off len : Nat) (hd : off + len ≤ fileLimit V.env) :
    Out V τ (fun a b _ _ => a = b) v fs (volRead V h off len v) (secRead (idealCfg V) h off len fs) := by
  unfold volRead secRead Sec.reg
  refine sim_file hV hR hl typeRegular (by decide) fun f c n hg hn => ?_
  exact ⟨_, _, _, _, file_read hV hn (by decide) fs.now hR.time off len hd, rfl, hn.attr fs.now hR.time .read trivial, rfl, rfl, fun _ _ => rfl⟩

include hV in
theorem sim_write {h : FH} (hl : LiveIs v h) (off : Nat) (d : Bytes) (hd : off + d.length ≤ fileLimit V.env) :
    Out V τ (fun a b _ _ => a = b) v fs (volWrite V h off d v) (secWrite (idealCfg V) h off d fs) := by
  unfold volWrite secWrite Sec.reg
  refine sim_file hV hR hl typeRegular (by decide) fun f c n hg hn => ?_
  obtain ⟨f', e1, hn'⟩ := file_write hV hn (by decide) fs.now hR.time off d hd
  exact ⟨f', (), (), _, by rw [e1]; rfl, rfl, hn', rfl, rfl, fun _ _ => rfl⟩

include hV in
theorem sim_truncate {h : FH} (hl : LiveIs v h) (k : Nat) (hd : k ≤ fileLimit V.env) :
    Out V τ (fun a b _ _ => a = b) v fs (volTruncate V h k v) (secTruncate (idealCfg V) h k fs) := by
  unfold volTruncate secTruncate Sec.reg
  refine sim_file hV hR hl typeRegular (by decide) fun f c n hg hn => ?_
  obtain ⟨f', e1, hn'⟩ := file_truncate hV hn (by decide) fs.now hR.time k hd
  exact ⟨f', (), (), _, by rw [e1]; rfl, rfl, hn', rfl, rfl, fun _ _ => rfl⟩

include hV in
theorem sim_flush {h : FH} (hl : LiveIs v h) : Out V τ (fun a b _ _ => a = b) v fs (volFlush V h v) (secFlush h fs) := by
  refine sim_obj hR hl fun o n ho hg hc hn hp => ?_
  obtain ⟨o', e1, k1, _, k3, k4, k5⟩ := node_flush hV hn fs.now hR.time
  dsimp only
  rw [e1]
  rw [k3] at k1
  exact ⟨⟨k1.congr rfl rfl rfl, k3, k5, k4.trans hp, fun _ he => .inl he, .inl rfl⟩, fun _ _ _ _ _ => rfl⟩

theorem sim_fsync {h : FH} (hl : LiveIs v h) :
    Out V τ (fun a b _ _ => a = b) v fs (volFsync h v) (Sec.file h.id (fun _ n => ((.ok () : Res Unit), n)) fs) :=
  sim_obj hR hl fun _ _ _ _ _ hn hp => ⟨⟨hn, rfl, rfl, hp, fun _ he => .inl he, .inl rfl⟩, fun _ _ _ _ _ => rfl⟩

include hV in
theorem sim_stat {h : FH} (hl : LiveIs v h) :
    Out V τ (fun a b _ _ => StatLike a b) v fs (volStat V h v) (secStat (idealCfg V) ⟨none, none⟩ h fs) := by
  refine sim_obj hR hl fun o n ho hg hc hn hp => ⟨⟨hn, rfl, rfl, hp, fun _ he => .inl he, .inl rfl⟩, fun _ _ _ _ _ => ?_⟩
  obtain ⟨h1, h2, h3, h4⟩ := own_fields hn.own
  refine ⟨rfl, h2, h3, h4, h1, fun hd => ?_⟩
  have hd : o.file.attr.mode &&& 0xf000 ≠ 0x4000 := hd
  have hne : o.cls ≠ 4 := by
    intro h
    apply hd
    rw [h1]
    have := hn.kind
    rw [h] at this
    exact this.symm
  obtain ⟨⟨stored, H, hr⟩, hcl, _⟩ := hn.file hne
  dsimp only
  rw [if_neg (show ¬ h.cls = typeDirectory from hc ▸ hne), obj_size hV hr]
  refine ⟨rfl, ?_⟩
  have t1 : o.file.attr.atime = n.attr.atime := (congrArg FileAttr.atime hcl : (clean o.file.attr).atime = (clean n.attr).atime)
  have t2 : o.file.attr.mtime = n.attr.mtime := (congrArg FileAttr.mtime hcl : (clean o.file.attr).mtime = (clean n.attr).mtime)
  have t3 : o.file.attr.ctime = n.attr.ctime := (congrArg FileAttr.ctime hcl : (clean o.file.attr).ctime = (clean n.attr).ctime)
  have t4 : o.file.attr.btime = n.attr.btime := (congrArg FileAttr.btime hcl : (clean o.file.attr).btime = (clean n.attr).btime)
  rw [t1, t2, t3, t4]
  rfl

/-! ## Listing -/

omit hR in
theorem fill_perm (fill : Nat → Int) : ∀ (l k : List DirEntry) (i : Nat), l.length = k.length →
    (∃ e, fillEntries fill i l = .error e ∧ fillEntries fill i k = .error e) ∨
    (fillEntries fill i l = .ok (l.map fun e => ⟨e.name, shownInode e.id, modeForType e.type⟩) ∧
     fillEntries fill i k = .ok (k.map fun e => ⟨e.name, shownInode e.id, modeForType e.type⟩))
  | [], [], _, _ => .inr ⟨rfl, rfl⟩
  | x :: l, y :: k, i, h => by
    simp only [fillEntries]
    by_cases h1 : (fill i).natAbs ≠ 0
    · rw [if_pos h1, if_pos h1]; exact .inl ⟨_, rfl, rfl⟩
    · rw [if_neg h1, if_neg h1]
      rcases fill_perm fill l k (i + 1) (by simpa using h) with ⟨e, h2, h3⟩ | ⟨h2, h3⟩
      · rw [h2, h3]; exact .inl ⟨e, rfl, rfl⟩
      · rw [h2, h3]; exact .inr ⟨rfl, rfl⟩

include hV in
theorem sim_readdir (fill : Nat → Int) {h : FH} (hl : LiveIs v h) :
    Out V τ (fun a b _ _ => a.Perm b) v fs (volReaddir V fill h v) (secReaddir (idealCfg V) fill h fs) := by
  unfold volReaddir secReaddir Sec.dir
  refine sim_obj hR hl fun o n ho hg hc hn hp => ?_
  obtain ⟨h1, h2, h3⟩ := cast_eq hc hn typeDirectory
  unfold LiveObj.onDir
  rw [h1]
  cases hca : castAs h typeDirectory n with
  | error e => exact ⟨⟨hn, rfl, rfl, hp, fun _ he => .inl he, .inl rfl⟩, fun _ _ _ _ _ => rfl⟩
  | ok u =>
    have h4 : h.cls = 4 := h2.1 hca
    rw [hc, h4] at hn ⊢
    obtain ⟨l, d', e1, hpm, hd, hn'⟩ := dir_list hV hn fs.now hR.time
    dsimp only
    rw [e1]
    dsimp only
    rcases fill_perm fill l n.entries 0 hpm.length_eq with ⟨e, k1, k2⟩ | ⟨k1, k2⟩
    · rw [k1, k2]
      exact ⟨⟨hn', rfl, rfl, hp, fun _ he => .inl he, .inl rfl⟩, fun _ _ _ _ _ => rfl⟩
    · rw [k1, k2]
      refine ⟨⟨hn', rfl, rfl, hp, fun _ he => .inl he, .inl rfl⟩, fun _ _ _ _ _ => ?_⟩
      show List.Perm (_ :: _ :: _) (_ :: _ :: _)
      rw [hp]
      exact ((hpm.map _).cons _).cons _

/-! ## The table -/

omit hR in
theorem lookup_filter_ne {β : Type} (l : List (Bytes × β)) (id x : Bytes) :
    (l.filter fun p => p.1 ≠ id).lookup x = if x = id then none else l.lookup x := by
  induction l with
  | nil => by_cases h : x = id <;> simp [h]
  | cons p l ih =>
    obtain ⟨a, b⟩ := p
    by_cases ha : a = id
    · subst ha
      rw [List.filter_cons_of_neg (by simp), ih]
      by_cases hx : x = a
      · rw [if_pos hx, if_pos hx]
      · have hb : (x == a) = false := by simpa using hx
        rw [if_neg hx, if_neg hx, List.lookup_cons, hb]
    · rw [List.filter_cons_of_pos (by simpa using ha), List.lookup_cons, List.lookup_cons]
      by_cases hx : x = a
      · subst hx; simp [ha]
      · have hb : (x == a) = false := by simpa using hx
        rw [hb]
        exact ih

/-- An object is opened from its backing files or made. -/
theorem R.push {id : Bytes} {o : LiveObj} {n : Inode} {st : List (Bytes × Bytes × Bytes)} {k : Nat} {fs' : FullFs} (ho : v.obj id = none)
    (hst : st.lookup id = none) (hst' : ∀ x, x ≠ id → st.lookup x = v.store.lookup x) (hnow : fs'.now = fs.now)
    (hg : fs'.get id = some n) (hg' : ∀ x, x ≠ id → fs'.get x = fs.get x)
    (hn : NodeOk V id o.cls o.file o.cache n) (hcl : o.closed = false) (hpar : o.parent = n.parent) (hp0 : n.parent = zeros 32)
    (hid : KindIs τ id (τ id) ∧ modeForType (τ id) = n.attr.mode &&& sIfmt)
    (hold : fs.get id = some n ∨ (fs.get id = none ∧ n.entries = [])) :
    R V τ { v with live := (id, o) :: v.live, store := st, opened := k } fs' ∧
      Mono v fs { v with live := (id, o) :: v.live, store := st, opened := k } fs' := by
  have hobj : ∀ x, FullVol.obj { v with live := (id, o) :: v.live, store := st, opened := k } x = if x = id then some o else v.obj x := by
    intro x
    unfold FullVol.obj
    dsimp only
    rw [List.lookup_cons]
    by_cases hx : x = id
    · subst hx; simp
    · have hb : (x == id) = false := by simpa using hx
      rw [hb, if_neg hx]
  have hlive : ∀ h, LiveIs v h → LiveIs { v with live := (id, o) :: v.live, store := st, opened := k } h := by
    rintro h ⟨q, h1, h2, h3⟩
    unfold LiveIs
    rw [hobj]
    by_cases hxi : h.id = id
    · rw [hxi, ho] at h1; cases h1
    · rw [if_neg hxi]; exact ⟨q, h1, h2, h3⟩
  have huniq : (((id, o) :: v.live).map Prod.fst).Nodup := by
    rw [List.map_cons, List.nodup_cons]
    refine ⟨fun hm => ?_, hR.uniq⟩
    obtain ⟨⟨a, b⟩, hm2, he⟩ := List.mem_map.1 hm
    have h1 := List.lookup_eq_none_iff.1 ho _ hm2
    simp only [bne_iff_ne] at h1
    exact h1 he.symm
  refine ⟨⟨?_, ?_, ?_, hlive _ hR.root, ?_, ?_, ?_, huniq⟩, hlive, rfl, hnow, ?_⟩
  · rw [hnow]; exact hR.now
  · rw [hnow]; exact hR.time
  · intro x
    have hx := hR.nodes x
    unfold NodeIs at hx ⊢
    rw [hobj]
    by_cases hxi : x = id
    · rw [if_pos hxi]
      rw [hxi]
      exact ⟨n, hg, hn, hpar, hst, fun h => by rw [hcl] at h; cases h⟩
    · rw [if_neg hxi]
      dsimp only
      rw [hst' x hxi, hg' x hxi]
      exact hx
  · intro d m e hd he
    by_cases hxi : d = id
    · subst hxi
      rw [hg] at hd
      injection hd with hd
      subst hd
      rcases hold with h | ⟨_, h⟩
      · exact hR.typed d n e h he
      · rw [h] at he; cases he
    · rw [hg' d hxi] at hd
      exact hR.typed d m e hd he
  · intro d m hd
    by_cases hxi : d = id
    · subst hxi
      rw [hg] at hd
      injection hd with hd
      subst hd
      rw [hp0]
      exact hR.kind_live hR.root
    · rw [hg' d hxi] at hd
      exact hR.parents d m hd
  · intro x m hx
    by_cases hxi : x = id
    · subst hxi
      rw [hg] at hx
      injection hx with hx
      subst hx
      exact hid
    · rw [hg' x hxi] at hx
      exact hR.ids x m hx
  · intro x hx
    by_cases hxi : x = id
    · rw [hxi, hg] at hx; cases hx
    · rw [hg' x hxi] at hx
      exact hx

theorem sim_openAs {id : Bytes} {type : Nat} (hkind : KindIs τ id type) :
    Out V τ (fun a b v' _ => a = b ∧ a = ⟨id, type⟩ ∧ LiveIs v' a) v fs (volOpenAs V id type v) (secOpenAs id type fs) := by
  have hgood := hkind.1
  have hk : ∀ n, fs.get id = some n → modeForType type = n.attr.mode &&& sIfmt := fun n hg => hR.kind_of_get hkind hg
  unfold volOpenAs secOpenAs
  by_cases hr : id = kRootId
  · rw [if_pos hr, if_pos hr]
    have ht : type = 4 := by
      rw [hkind.2.2, hr]
      exact (hR.kind_live hR.root).2.2.symm
    rw [if_neg (show ¬ type ≠ typeDirectory from fun h => h ht), if_neg (show ¬ type ≠ typeDirectory from fun h => h ht)]
    exact ⟨hR, Mono.refl _ _, rfl, by rw [hr, ht]; rfl, hR.root⟩
  · rw [if_neg hr, if_neg hr]
    have hgt : type = typeRegular ∨ type = typeDirectory ∨ type = typeSymlink := by
      rcases hgood with h | h | h
      · exact .inr (.inl h)
      · exact .inl h
      · exact .inr (.inr h)
    have hnode := hR.nodes id
    unfold NodeIs at hnode
    cases ho : v.obj id with
    | some o =>
      rw [ho] at hnode
      obtain ⟨n, hg, hn, hpp, hst, _⟩ := hnode
      have hcls : o.cls = type := mode_inj hn.good hgood (hn.kind.trans (hk n hg).symm)
      rw [hg]
      dsimp only
      rw [if_pos hgt]
      have hobj : ∀ x, FullVol.obj (v.setObj id { o with closed := false }) x = if x = id then some { o with closed := false } else v.obj x := by
        intro x
        rw [obj_setObj, ho]
        rfl
      have hlive : ∀ h, LiveIs v h → LiveIs (v.setObj id { o with closed := false }) h := by
        rintro h ⟨q, h1, h2, h3⟩
        unfold LiveIs
        rw [hobj]
        by_cases hxi : h.id = id
        · rw [hxi, ho] at h1
          injection h1 with h1
          subst h1
          rw [if_pos hxi]
          exact ⟨_, rfl, h2, rfl⟩
        · rw [if_neg hxi]; exact ⟨q, h1, h2, h3⟩
      refine ⟨⟨hR.now, hR.time, ?_, hlive _ hR.root, hR.typed, hR.parents, hR.ids, by rw [keys_setObj]; exact hR.uniq⟩, ⟨hlive, rfl, rfl, fun _ h => h⟩, ?_, ?_, ?_⟩
      · intro x
        have hx := hR.nodes x
        unfold NodeIs at hx ⊢
        rw [hobj]
        by_cases hxi : x = id
        · rw [if_pos hxi, hxi]
          exact ⟨n, hg, hn, hpp, hst, fun h => by cases h⟩
        · rw [if_neg hxi]
          exact hx
      · rw [hcls]
      · rw [hcls]
      · unfold LiveIs
        rw [hobj]
        exact ⟨_, if_pos rfl, rfl, rfl⟩
    | none =>
      rw [ho] at hnode
      dsimp only at hnode ⊢
      cases hs : v.store.lookup id with
      | none =>
        rw [hs] at hnode
        rw [hnode]
        exact Out.err hR _
      | some p =>
        rw [hs] at hnode
        obtain ⟨n, hg, ⟨cls, hsv⟩, hp0⟩ := hnode
        obtain ⟨f, hopen, hn⟩ := hsv (V.seed v.opened)
        have hcls : cls = type := mode_inj hn.good hgood (hn.kind.trans (hk n hg).symm)
        subst hcls
        obtain ⟨d, mt⟩ := p
        rw [hg]
        dsimp only at hopen ⊢
        rw [if_pos hgt, if_pos hgt, hopen]
        obtain ⟨k1, k2⟩ := R.push (o := ⟨cls, f, [], zeros 32, false⟩) (st := v.store.filter fun p => p.1 ≠ id) (k := v.opened + 1) hR ho
          (by rw [lookup_filter_ne, if_pos rfl]) (fun x hx => by rw [lookup_filter_ne, if_neg hx]) rfl hg (fun _ _ => rfl) hn rfl hp0.symm hp0
          (hR.ids _ _ hg) (.inl hg)
        refine ⟨k1, k2, rfl, rfl, ?_⟩
        refine ⟨⟨cls, f, [], zeros 32, false⟩, ?_, rfl, rfl⟩
        unfold FullVol.obj
        simp

include hV in
theorem sim_create {id : Bytes} {type : Nat} (hgood : GoodCls type) (hkind : fs.get id = none → KindIs τ id type) (mode uid gid : UInt32) :
    Out V τ (fun a b v' _ => a = b ∧ a = ⟨id, type⟩ ∧ LiveIs v' a) v fs (volCreate V id type mode uid gid v)
      (secCreate (idealCfg V) id type mode uid gid fs) := by
  unfold volCreate secCreate
  by_cases hr : id = kRootId
  · rw [if_pos hr, if_pos hr]; exact Out.err hR _
  · rw [if_neg hr, if_neg hr]
    have hnode := hR.nodes id
    unfold NodeIs at hnode
    cases ho : v.obj id with
    | some o =>
      rw [ho] at hnode
      obtain ⟨n, hg, _⟩ := hnode
      rw [hg, if_pos (.inl rfl)]
      exact Out.err hR _
    | none =>
      rw [ho] at hnode
      dsimp only at hnode
      cases hs : v.store.lookup id with
      | some p =>
        rw [hs] at hnode
        obtain ⟨n, hg, _⟩ := hnode
        rw [hg, if_pos (.inr rfl)]
        exact Out.err hR _
      | none =>
        rw [hs] at hnode
        have hkind := hkind hnode
        rw [hnode, if_neg (by simp)]
        obtain ⟨f, e1, hn⟩ := node_create hV (id := id) hgood fs.now hR.time ((mode &&& 0x1ff) ||| modeForType type) uid gid
          (type_of_mode hgood mode).symm (V.seed v.opened) (zeros 32)
        rw [← hR.now] at e1
        rw [e1]
        dsimp only
        obtain ⟨k1, k2⟩ := R.push (o := ⟨type, f, [], zeros 32, false⟩) (st := v.store) (k := v.opened + 1)
          (fs' := { fs with nodes := fs.nodes ++ [(id, ⟨newAttr V fs.now ((mode &&& 0x1ff) ||| modeForType type) uid gid, zeros 32, [], []⟩)] }) hR ho hs
          (fun _ _ => rfl) rfl (by rw [get_append hnode, if_pos rfl]) (fun x hx => by rw [get_append hnode, if_neg hx]) hn rfl rfl rfl
          ⟨by rw [← hkind.2.2]; exact hkind, by rw [← hkind.2.2]; exact hn.kind⟩ (.inr ⟨hnode, rfl⟩)
        refine ⟨k1, k2, rfl, rfl, ?_⟩
        refine ⟨⟨type, f, [], zeros 32, false⟩, ?_, rfl, rfl⟩
        unfold FullVol.obj
        simp

/-! ## Sections on two files -/

include hV in
theorem sim_link {base f : FH} (hb : LiveIs v base) (hf : LiveIs v f) (last : Bytes) (hz : (0 : UInt8) ∉ last) (hroom : DirRoom fs) :
    Out V τ (fun a b _ _ => a = b) v fs (volLink V base last f v) (secLink (idealCfg V) base last f fs) := by
  unfold volLink secLink
  refine Out.bindS (sim_realType hR hf) fun a b v1 fs1 e1 hR1 hM1 ⟨h1, h2⟩ => ?_
  subst h1
  subst h2
  refine Out.bindS (sim_add hV hR1 (hM1.live _ hb) ⟨last, f.id, f.cls⟩ (hR.kind_live hf) hz ?_) fun a b v2 fs2 e2 hR2 hM2 ⟨h1, _⟩ => ?_
  · intro n hn
    have : (Sec.file f.id (fun _ n => ((.ok n.attr.realType : Res Nat), n)) fs) = (.ok f.cls, fs1) := e1
    obtain ⟨o, m, ho, _, _, hg, _⟩ := hR.live hf
    rw [file_run hg] at this
    injection this with _ hfs
    rw [← hfs] at hn
    have hent : ∃ n0, fs.get base.id = some n0 ∧ n0.entries = n.entries := by
      by_cases hx : base.id = f.id
      · rw [hx, get_set_self hg] at hn
        injection hn with hn
        exact ⟨m, by rw [hx]; exact hg, congrArg Inode.entries hn⟩
      · rw [get_set_ne fs m hx] at hn
        exact ⟨n, hn, rfl⟩
    obtain ⟨n0, hn0, he⟩ := hent
    have := hroom _ _ hn0
    rw [← he]
    omega
  · subst h1
    cases a with
    | true =>
      rw [if_pos rfl, if_pos rfl]
      exact sim_addLink hR2 (hM2.live _ (hM1.live _ hf))
    | false =>
      rw [if_neg (by decide), if_neg (by decide)]
      exact Out.ret hR2 rfl

/-- Room for `k` more entries in every directory. -/
def RoomFor (k : Nat) (fs : FullFs) : Prop := ∀ id n, fs.get id = some n → n.entries.length + k ≤ dirCapacity

omit hR in
theorem roomFor_file {β : Type} {id : Bytes} {f : TimeSpec → Inode → Res β × Inode} {k j : Nat} (hjk : j ≤ k)
    (hf : ∀ now n, (f now n).2.entries.length + j ≤ n.entries.length + k) (hr : RoomFor k fs) : RoomFor j (Sec.file id f fs).2 := by
  unfold Sec.file
  cases hg : fs.get id with
  | none =>
    intro x n hx
    have := hr x n hx
    omega
  | some m =>
    intro x n hx
    dsimp only at hx
    by_cases hxi : x = id
    · subst hxi
      rw [get_set_self hg] at hx
      injection hx with hx
      subst hx
      have h1 := hf fs.now m
      have h2 := hr x m hg
      omega
    · rw [get_set_ne fs _ hxi] at hx
      have := hr x n hx
      omega

omit hR in
theorem roomFor_remove {k : Nat} (cfg : FsCfg) (h : FH) (name : Bytes) (hr : RoomFor k fs) : RoomFor k (secRemove cfg h name fs).2 := by
  refine roomFor_file (Nat.le_refl k) (fun now n => ?_) hr
  cases castAs h typeDirectory n with
  | error e => exact Nat.le_refl _
  | ok u =>
    unfold Inode.removeEntry
    dsimp only
    split
    · exact Nat.le_refl _
    · exact Nat.add_le_add_right (List.length_filter_le _ _) k

omit hR in
theorem roomFor_add {k : Nat} (cfg : FsCfg) (h : FH) (e : DirEntry) (hr : RoomFor (k + 1) fs) : RoomFor k (secAdd cfg h e fs).2 := by
  refine roomFor_file (Nat.le_succ k) (fun now n => ?_) hr
  cases castAs h typeDirectory n with
  | error e => dsimp only; omega
  | ok u =>
    unfold Inode.addEntry
    dsimp only
    split
    · dsimp only; omega
    · split
      · dsimp only; omega
      · simp only [List.length_cons]; omega

include hV in
theorem sim_rename {bf bt : FH} (hbf : LiveIs v bf) (hbt : LiveIs v bt) (lf lt : Bytes) (hzf : (0 : UInt8) ∉ lf) (hzt : (0 : UInt8) ∉ lt)
    (hroom : DirRoom fs) :
    Out V τ (fun a b _ fs' => a = b ∧ ∀ e, a = .replaced e → KindIs τ e.id e.type) v fs (volRename V bf lf bt lt v)
      (secRename (idealCfg V) bf lf bt lt fs) := by
  unfold volRename secRename
  have r0 : RoomFor 2 fs := hroom
  refine Out.bindS (sim_remove hV hR hbf lf) fun a b v1 fs1 e1 hR1 hM1 ⟨h1, h2⟩ => ?_
  subst h1
  have r1 : RoomFor 2 fs1 := by have := roomFor_remove (idealCfg V) bf lf r0; rw [e1] at this; exact this
  cases a with
  | none => exact Out.ret hR1 ⟨rfl, fun e he => by cases he⟩
  | some src =>
    have k1 := h2 src rfl
    refine Out.bindS (sim_remove hV hR1 (hM1.live _ hbt) lt) fun a b v2 fs2 e2 hR2 hM2 ⟨h1, h3⟩ => ?_
    subst h1
    have r2 : RoomFor 2 fs2 := by have := roomFor_remove (idealCfg V) bt lt r1; rw [e2] at this; exact this
    have k2 := k1
    have lf2 := hM2.live _ (hM1.live _ hbf)
    have lt2 := hM2.live _ (hM1.live _ hbt)
    cases a with
    | none =>
      refine Out.bindS (sim_add hV hR2 lt2 ⟨lt, src.id, src.type⟩ k2 hzt (fun n hn => by have := r2 _ _ hn; omega)) fun a b v3 fs3 e3 hR3 hM3 _ => ?_
      exact Out.ret hR3 ⟨rfl, fun e he => by cases he⟩
    | some there =>
      have k3 := h3 there rfl
      dsimp only
      by_cases hid : src.id = there.id
      · rw [if_pos hid, if_pos hid]
        refine Out.bindS (sim_add hV hR2 lf2 ⟨lf, src.id, src.type⟩ k2 hzf (fun n hn => by have := r2 _ _ hn; omega)) fun a b v3 fs3 e3 hR3 hM3 _ => ?_
        have r3 : RoomFor 1 fs3 := by have := roomFor_add (idealCfg V) bf ⟨lf, src.id, src.type⟩ r2; rw [e3] at this; exact this
        refine Out.bindS (sim_add hV hR3 (hM3.live _ lt2) ⟨lt, there.id, there.type⟩ k3 hzt (fun n hn => by have := r3 _ _ hn; omega))
          fun a b v4 fs4 e4 hR4 hM4 _ => ?_
        exact Out.ret hR4 ⟨rfl, fun e he => by cases he⟩
      · rw [if_neg hid, if_neg hid]
        refine Out.bindS (sim_add hV hR2 lt2 ⟨lt, src.id, src.type⟩ k2 hzt (fun n hn => by have := r2 _ _ hn; omega)) fun a b v3 fs3 e3 hR3 hM3 _ => ?_
        refine Out.ret hR3 ⟨rfl, fun e he => ?_⟩
        injection he with he
        subst he
        exact k3

end

end Securefs.Vol
