import Verif.Proofs.LiteVolumeTables
/-!
# Histories of a lite volume

Every call that fits keeps the volume and the ideal tree in step.
-/

namespace Securefs

open Posix Props
open Spec (SameVal Agrees Terms)

section
variable {V : LVol} {U L : Bytes → Prop} {enc full : Bytes → Bytes} {s : LSys} {a : Spec.Vol}

theorem gives_iff {r : Except Nat Nat} (h : Spec.Gives r fun _ => True) : ∃ d, r = .ok d := by
  cases r with
  | ok d => exact ⟨d, rfl⟩
  | error e => exact absurd h (by simp [Spec.Gives])

theorem gives_eq {r : Except Nat Nat} {i : Nat} (h : Spec.Gives r (· = i)) : r = .ok i := by
  cases r with
  | ok d => exact congrArg _ h
  | error e => exact absurd h (by simp [Spec.Gives])

theorem openFile_ex {h : Nat} (hx : a.openFile h) : ∃ i, a.handles[h]? = some (some (.file i)) := by
  unfold Spec.Vol.openFile at hx
  split at hx
  · rename_i i e; exact ⟨i, e⟩
  · exact hx.elim

theorem openDir_ex {h : Nat} {P : Nat → List Bytes → Prop} (hx : a.openDir h P) : ∃ i p, a.handles[h]? = some (some (.dir i p)) ∧ P i p := by
  unfold Spec.Vol.openDir at hx
  split at hx
  · rename_i i p e; exact ⟨i, p, e, hx⟩
  · exact hx.elim

theorem isOpen_ex {h : Nat} (hx : a.isOpen h) : ∃ x, a.handles[h]? = some (some x) := by
  unfold Spec.Vol.isOpen at hx
  split at hx
  · rename_i x e; exact ⟨x, e⟩
  · exact hx.elim

theorem ifOk {α : Type} {r : Except Nat α} {P : α → Prop} (h : Spec.IfOk r P) {x : α} (hx : r = .ok x) : P x := by
  subst hx; exact h

theorem noLong_iff {X : Terms} (hX : ∀ c, X.long c = true ↔ full c ≠ []) {d : Nat} (h : X.noLong a.fs d) (p : Bytes × Nat)
    (hp : HasEntry a.fs d p) : full p.1 = [] := by
  obtain ⟨es, at', h1, h2⟩ := hp
  have : a.fs.entries d = .ok es := by unfold Fs.entries; rw [h1]
  have := ifOk h this p h2
  by_contra hne
  rw [(hX p.1).mpr hne] at this
  cases this

/-- How the terms of the specification describe a translator. -/
structure Describes (X : Terms) (V : LVol) (U L : Bytes → Prop) (full : Bytes → Bytes) : Prop where
  name : ∀ c, X.name c → U c
  target : ∀ t, X.target t → L t
  long : ∀ c, X.long c = true ↔ full c ≠ []
  reads : ∀ size t st, X.reads size t → V.tr.encLink t = .ok st → t.length < size ∧ st.length ≤ 2 * size + 126
  limit : X.limit ≤ liteMaxBlocks * V.cfg.bs

theorem sim_step (hC : V.cfg.WF) {aes : Bytes → Bytes} (hpad : V.cfg.padding = LiteCfg.computePadding V.maxPad aes)
    (horder : ∀ l, (V.order l).Perm l) (hT : Scheme V.tr U L enc full) {X : Terms} (hX : Describes X V U L full)
    (H : Shows V U L enc full s a) (marked : List Nat) (hM : ∀ d, (s.tables d).isSome = true → d ∈ marked) (fault : Option Nat) (c : Spec.Call)
    (hc : X.Fits marked a c) : VolSim V U L enc full (V.step s fault c) (a.step fault c) := by
  have hU : ∀ {p : List Bytes}, X.path p → ∀ c ∈ p, U c := fun h c hc => hX.name c (h c hc)
  have hlim := hX.limit
  cases c with
  | getattr p => exact sim_getattr hC hpad hT H fault p (hU hc)
  | readlink p n => exact sim_readlink hT H fault p n (hU hc.1) hc.2.1 fun t st h1 h2 => hX.reads n t st (ifOk hc.2.2 h1) h2
  | mkdir p at' id => exact sim_mkdir hT H fault p at' id (hU hc.1) (gives_iff hc.2.1) hc.2.2
  | symlink t p at' id => exact sim_symlink hT H fault t p at' id (hU hc.2.1) (gives_iff hc.2.2.1) hc.2.2.2 (hX.target t hc.1)
  | link src dst => exact sim_link hT H fault src dst (hU hc.1) (hU hc.2.1) (gives_iff hc.2.2)
  | unlink p => exact sim_unlink hT H fault p (hU hc.1) (gives_iff hc.2)
  | rmdir p => exact sim_rmdir hT H fault p (hU hc.1) (gives_iff hc.2.1) fun k hk q hq => noLong_iff hX.long (ifOk hc.2.2 hk) q hq
  | rename p q =>
    obtain ⟨h1, h2, h3, h4, h5, h6, h7⟩ := hc
    refine sim_rename hT H fault p q (hU h1) (hU h2) h3 h4 (gives_iff h5) (gives_iff h6) ?_ ?_
    · intro i c hi hj hl hf
      have := ifOk (ifOk h7 hi) hj
      rw [if_pos rfl] at this
      apply this
      unfold Terms.lastLong
      rw [hl]
      exact (hX.long c).mpr hf
    · intro i j hi hj hne hd he
      have := ifOk (ifOk h7 hi) hj
      rw [if_neg hne] at this
      have hm := this hd he
      cases ht : s.tables j with
      | none => rfl
      | some r => exact absurd (hM j (by rw [ht]; rfl)) hm
  | chmod p m => rw [step_fault rfl]; exact sim_setAttr hT H fault _ p (hU hc)
  | chown p u g => rw [step_fault rfl]; exact sim_setAttr hT H fault _ p (hU hc)
  | utimens p t m => rw [step_fault rfl]; exact sim_setAttr hT H fault _ p (hU hc)
  | truncate p n => exact sim_truncate hC hT H fault p (hU hc.1) n (le_trans hc.2 hlim)
  | create p at' id => exact sim_create hC hT H fault p at' id (hU hc.1) (gives_iff hc.2.1) hc.2.2
  | «open» p flags => exact sim_open hC hT H fault p (hU hc.1) flags hc.2.1 fun h i hi => ifOk (hc.2.2 h) hi
  | opendir p => exact sim_opendir hT H fault p (hU hc)
  | read x o n => obtain ⟨i, hx⟩ := openFile_ex hc.1; have h2 := hc.2; exact sim_read hC H fault x o n hx (le_trans h2 hlim)
  | write x o d => obtain ⟨i, hx⟩ := openFile_ex hc.1; have h2 := hc.2; exact sim_write hC H fault x o d hx (le_trans h2 hlim)
  | ftruncate x n => obtain ⟨i, hx⟩ := openFile_ex hc.1; have h2 := hc.2; exact sim_ftruncate hC H fault x n hx (le_trans h2 hlim)
  | fgetattr x => obtain ⟨i, hx⟩ := openFile_ex hc; exact sim_fgetattr hC H fault x hx
  | readdir x =>
    obtain ⟨i, p, hx, h2⟩ := openDir_ex hc
    exact sim_readdir horder hT H fault x hx (h2.imp gives_eq fun h q hq => noLong_iff hX.long h q hq)
  | release x => obtain ⟨y, hx⟩ := isOpen_ex hc; exact sim_release H fault x hx

theorem shows_new (hT : Scheme V.tr U L enc full) (at' : Attr) (n : Nat) : Shows V U L enc full (LSys.new at' n) (Spec.Vol.empty at') := by
  refine ⟨?_, ?_, ?_, ?_, .nil⟩
  · refine ⟨hT.inj, ?_, ?_⟩
    · intro i
      unfold Spec.Vol.empty LSys.new
      dsimp only
      split
      · exact .dir [] at'
      · exact .none
    · intro d es at2 h1 p hp
      unfold Spec.Vol.empty at h1
      dsimp only at h1
      split at h1
      · injection h1 with h1; injection h1 with h1; injection h1 with h1
        subst h1; cases hp
      · cases h1
  · intro d p hp
    obtain ⟨es, at2, h1, h2⟩ := hp
    unfold Spec.Vol.empty at h1
    dsimp only at h1
    split at h1
    · injection h1 with h1; injection h1 with h1; injection h1 with h1
      subst h1; cases h2
    · cases h1
  · intro d b e h
    cases h
  · intro d h
    cases h

theorem sim_run (hC : V.cfg.WF) {aes : Bytes → Bytes} (hpad : V.cfg.padding = LiteCfg.computePadding V.maxPad aes)
    (horder : ∀ l, (V.order l).Perm l) (hT : Scheme V.tr U L enc full) {X : Terms} (hX : Describes X V U L full)
    (calls : List (Option Nat × Spec.Call)) : ∀ {s : LSys} {a : Spec.Vol} (_ : Shows V U L enc full s a) (marked : List Nat)
    (_ : ∀ d, (s.tables d).isSome = true → d ∈ marked) (_ : X.AllFit marked a calls), List.Forall₂ Agrees (a.run calls) (V.run s calls) := by
  induction calls with
  | nil => intro s a _ _ _ _; exact .nil
  | cons x rest ih =>
    intro s a H marked hM hf
    obtain ⟨h1, h2⟩ := sim_step hC hpad horder hT hX H marked hM x.1 x.2 hf.1
    refine .cons h1 (ih h2 _ ?_ hf.2)
    intro d hd
    rcases tables_step hT H hX.long hX.name marked x.1 x.2 hf.1 d hd with h | h
    · exact List.mem_append_right _ (hM d h)
    · exact List.mem_append_left _ h

end
end Securefs
