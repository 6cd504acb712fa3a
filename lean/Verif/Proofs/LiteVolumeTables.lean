import Verif.Proofs.LiteVolumeFiles
/-!
# Where the tables of long names are

The callbacks create tables only in the directories of the paths that they are given.
-/

namespace Securefs

open Posix Props

section
variable {V : LVol} {U L : Bytes → Prop} {enc full : Bytes → Bytes} {s : LSys} {a : Spec.Vol}

theorem sys_tables (s : LSys) (fault : Option Nat) (r : Except Nat Fs) : (s.sys fault r).2.tables = s.tables := by
  unfold LSys.sys
  split <;> rfl

theorem setRows_some {s : LSys} {d k : Nat} {rows : List (Bytes × Bytes)} (h : ((s.setRows d rows).tables k).isSome = true) :
    (s.tables k).isSome = true ∨ k = d := by
  unfold LSys.setRows at h
  dsimp only at h
  unfold upd at h
  by_cases e : k = d
  · exact Or.inr e
  · rw [if_neg e] at h; exact Or.inl h

/-- The callback creates no table. -/
def NoTable {α : Type} (cb : Bytes → LSys → Res α × LSys) : Prop :=
  ∀ b s k, ((cb b s).2.tables k).isSome = true → (s.tables k).isSome = true

theorem noTable_sys {fault : Option Nat} (F : Bytes → LSys → Except Nat Fs) : NoTable fun b s => s.sys fault (F b s) := by
  intro b s k h
  rwa [sys_tables] at h

theorem withLong_tables {α : Type} (action : Option LAction) (path : List Bytes) (cb : Bytes → LSys → Res α × LSys) (hcb : NoTable cb) (k : Nat)
    (h : ((V.withLong action path cb s).2.tables k).isSome = true) :
    (s.tables k).isSome = true ∨ ∃ p, V.tr.fullPath (fusePath path) = .ok p ∧ p.2 ≠ [] ∧ s.tableDir p.1 = .ok k := by
  unfold LVol.withLong at h
  split at h
  · exact Or.inl h
  rename_i p hp
  split at h
  · exact Or.inl (hcb _ _ _ h)
  split at h
  · exact Or.inl (hcb _ _ _ h)
  rename_i hne
  split at h
  · exact Or.inl h
  rename_i d hd
  have hk : ∀ x, (s.tables k).isSome = true ∨ k = x → x = d → (s.tables k).isSome = true ∨
      ∃ p, V.tr.fullPath (fusePath path) = .ok p ∧ p.2 ≠ [] ∧ s.tableDir p.1 = .ok k := by
    intro x hx he
    rcases hx with hx | hx
    · exact Or.inl hx
    · exact Or.inr ⟨p, hp, by simpa using hne, by rw [hx, he]; exact hd⟩
  dsimp only at h
  split at h
  · rcases setRows_some h with h | h
    · exact hk d (setRows_some (hcb _ _ _ h)) rfl
    · exact hk d (Or.inr h) rfl
  · exact hk d (setRows_some (hcb _ _ _ h)) rfl

theorem mkFile_tables (i : Nat) (s : LSys) : (V.mkFile i s).2.tables = s.tables := by
  unfold LVol.mkFile
  split
  · rfl
  · split <;> rfl

theorem onFile_tables (i : Nat) (o : LiteObj) (op : Spec.Op) (s : LSys) : (V.onFile i o op s).2.tables = s.tables := by
  unfold LVol.onFile
  split
  · rfl
  · split <;> rfl

theorem noTable_open {fault : Option Nat} {flags : BitVec 32} {at' : Attr} {id : Nat} : NoTable (V.openCallback fault flags at' id) := by
  intro b s k h
  unfold LVol.openCallback at h
  split at h
  · exact h
  · rw [mkFile_tables] at h; exact h

theorem openAt_tables (fault : Option Nat) (path : List Bytes) (flags : BitVec 32) (at' : Attr) (id k : Nat)
    (h : ((V.openAt fault path flags at' id s).2.tables k).isSome = true) :
    (s.tables k).isSome = true ∨ ∃ p, V.tr.fullPath (fusePath path) = .ok p ∧ p.2 ≠ [] ∧ s.tableDir p.1 = .ok k := by
  apply withLong_tables (if openFlags flags &&& oCreat ≠ 0 then some .create else none) path
    (V.openCallback fault (openFlags flags) { at' with mode := openMode flags at'.mode } id) noTable_open k
  unfold LVol.openAt at h
  dsimp only at h
  split at h
  · exact h
  · split at h
    · split at h
      · exact h
      · split at h <;> · rw [onFile_tables] at h; exact h
    · exact h

/-- Without `O_CREAT` no table is opened. -/
theorem openAt_tables_old (fault : Option Nat) (path : List Bytes) (flags : BitVec 32) (hf : ¬ openFlags flags &&& oCreat ≠ 0) (at' : Attr) (id k : Nat)
    (h : ((V.openAt fault path flags at' id s).2.tables k).isSome = true) : (s.tables k).isSome = true := by
  have key : ∀ r : Res LHandle × LSys, r = V.withLong none path (V.openCallback fault (openFlags flags) { at' with mode := openMode flags at'.mode } id) s →
      (r.2.tables k).isSome = true → (s.tables k).isSome = true := by
    rintro r rfl h
    unfold LVol.withLong at h
    split at h
    · exact h
    · exact noTable_open _ _ _ h
  unfold LVol.openAt at h
  rw [if_neg hf] at h
  dsimp only at h
  split at h
  · exact key _ rfl h
  · split at h
    · split at h
      · exact key _ rfl h
      · split at h <;> · rw [onFile_tables] at h; exact key _ rfl h
    · exact key _ rfl h

theorem newHandle_tables (r : Res LHandle × LSys) : (LVol.newHandle r).2.tables = r.2.tables := by
  unfold LVol.newHandle
  split <;> rfl

theorem val_snd {α : Type} (f : α → Spec.Val) (r : Res α × LSys) : (LVol.val f r).2 = r.2 := by
  unfold LVol.val
  split <;> rfl

theorem dropTable_some {b : Bytes} {s : LSys} {k : Nat} (h : ((LVol.dropTable b s).tables k).isSome = true) : (s.tables k).isSome = true := by
  unfold LVol.dropTable at h
  split at h
  · exact h
  · dsimp only at h
    unfold upd at h
    split at h
    · cases h
    · exact h

theorem renameRows_some {p q : Bytes × Bytes} {d e k : Nat} {s : LSys} (h : ((LVol.renameRows p q d e s).tables k).isSome = true) :
    (s.tables k).isSome = true ∨ k = d ∨ k = e := by
  unfold LVol.renameRows at h
  dsimp only at h
  have base : ∀ x : List (Bytes × Bytes), (((s.setRows d (s.rows d)).setRows e x).tables k).isSome = true → (s.tables k).isSome = true ∨ k = d ∨ k = e := by
    intro x h
    rcases setRows_some h with h | h
    · rcases setRows_some h with h | h
      · exact Or.inl h
      · exact Or.inr (Or.inl h)
    · exact Or.inr (Or.inr h)
  have base2 : ∀ (x y : List (Bytes × Bytes)) (c : Prop) [Decidable c], ((if c then (s.setRows d (s.rows d)).setRows e x else
      ((s.setRows d (s.rows d)).setRows e x).setRows d y).tables k).isSome = true → (s.tables k).isSome = true ∨ k = d ∨ k = e := by
    intro x y c _ h
    split at h
    · exact base x h
    · rcases setRows_some h with h | h
      · exact base x h
      · exact Or.inr (Or.inl h)
  split at h
  · exact base2 _ _ _ h
  · rcases setRows_some h with h | h
    · exact base2 _ _ _ h
    · exact Or.inr (Or.inr h)

theorem rename_tables (fault : Option Nat) (src dst : List Bytes) (k : Nat) (h : ((V.rename fault src dst s).2.tables k).isSome = true) :
    (s.tables k).isSome = true ∨ ∃ p q, V.tr.fullPath (fusePath src) = .ok p ∧ V.tr.fullPath (fusePath dst) = .ok q ∧ (p.2 ≠ [] ∨ q.2 ≠ []) ∧
      (s.tableDir p.1 = .ok k ∨ s.tableDir q.1 = .ok k) := by
  unfold LVol.rename at h
  split at h
  · exact Or.inl h
  rename_i p hp
  split at h
  · exact Or.inl h
  rename_i q hq
  split at h
  · rw [sys_tables] at h; exact Or.inl h
  rename_i hne
  have hne' : p.2 ≠ [] ∨ q.2 ≠ [] := by
    by_cases e : p.2 = []
    · right; intro e'; exact hne (by simp [e, e'])
    · exact Or.inl e
  split at h
  · exact Or.inl h
  rename_i d hd
  split at h
  · rcases setRows_some h with h | rfl
    · exact Or.inl h
    · exact Or.inr ⟨p, q, hp, hq, hne', Or.inl hd⟩
  rename_i e he
  have fin : (s.tables k).isSome = true ∨ k = d ∨ k = e → (s.tables k).isSome = true ∨ ∃ p q, V.tr.fullPath (fusePath src) = .ok p ∧
      V.tr.fullPath (fusePath dst) = .ok q ∧ (p.2 ≠ [] ∨ q.2 ≠ []) ∧ (s.tableDir p.1 = .ok k ∨ s.tableDir q.1 = .ok k) := by
    rintro (h | rfl | rfl)
    · exact Or.inl h
    · exact Or.inr ⟨p, q, hp, hq, hne', Or.inl hd⟩
    · exact Or.inr ⟨p, q, hp, hq, hne', Or.inr he⟩
  dsimp only at h
  split at h
  · rcases setRows_some h with h | h
    · rcases setRows_some h with h | h
      · rw [sys_tables] at h; exact fin (renameRows_some h)
      · exact fin (Or.inr (Or.inl h))
    · exact fin (Or.inr (Or.inr h))
  · rw [sys_tables] at h; exact fin (renameRows_some h)

/-- The directory of the table, in the ideal tree. -/
theorem tableDir_ideal (hT : Scheme V.tr U L enc full) (H : Shows V U L enc full s a)
    {cs : List Bytes} (hcs : ∀ c ∈ cs, U c) {p : Bytes × Bytes} (hp : V.tr.fullPath (fusePath cs) = .ok p) (hl : ∃ x, full x ≠ []) (hne : cs ≠ [])
    {k : Nat} (hk : s.tableDir p.1 = .ok k) : k ∈ a.dirOf cs := by
  obtain ⟨b, f, h1, h2, h3, h4⟩ := hT.path cs hcs
  rw [h1] at hp; cases hp
  obtain ⟨ds, c, rfl⟩ : ∃ ds c, cs = ds ++ [c] := ⟨cs.dropLast, cs.getLast hne, (List.dropLast_concat_getLast hne).symm⟩
  obtain ⟨e3, _⟩ := (h4 ds c rfl).2 hl
  unfold LSys.tableDir at hk
  rw [e3, H.tree.opendir ds fun x hx => hcs x (List.mem_append_left _ hx)] at hk
  unfold Spec.Vol.dirOf
  rw [List.dropLast_concat]
  cases ho : a.fs.opendir ds with
  | error e => rw [ho] at hk; cases hk
  | ok d =>
    rw [ho] at hk; cases hk
    rw [(opendir_ok ho).1]
    simp

theorem lastLong_of (hT : Scheme V.tr U L enc full) {X : Spec.Terms} (hX : ∀ c, X.long c = true ↔ full c ≠ [])
    {cs : List Bytes} (hcs : ∀ c ∈ cs, U c) {p : Bytes × Bytes} (hp : V.tr.fullPath (fusePath cs) = .ok p) (h2 : p.2 ≠ []) :
    X.lastLong cs = true ∧ cs ≠ [] ∧ ∃ x, full x ≠ [] := by
  obtain ⟨b, f, g1, _, g3, g4⟩ := hT.path cs hcs
  rw [g1] at hp; cases hp
  have hne : cs ≠ [] := fun e => h2 (g3 e)
  obtain ⟨ds, c, rfl⟩ : ∃ ds c, cs = ds ++ [c] := ⟨cs.dropLast, cs.getLast hne, (List.dropLast_concat_getLast hne).symm⟩
  have e1 := (g4 ds c rfl).1
  have hc : full c ≠ [] := e1 ▸ h2
  refine ⟨?_, hne, c, hc⟩
  unfold Spec.Terms.lastLong
  simp only [List.getLast?_append, List.getLast?_singleton, Option.some_or]
  exact (hX c).mpr hc

/-- Tables appear only in the marked directories. -/
theorem tables_step (hT : Scheme V.tr U L enc full) (H : Shows V U L enc full s a) {X : Spec.Terms} (hX : ∀ c, X.long c = true ↔ full c ≠ [])
    (hU : ∀ c, X.name c → U c) (marked : List Nat) (fault : Option Nat) (c : Spec.Call) (hc : X.Fits marked a c) (k : Nat)
    (h : ((V.step s fault c).2.tables k).isSome = true) : (s.tables k).isSome = true ∨ k ∈ X.marks a c := by
  have one : ∀ p : List Bytes, X.path p → ((s.tables k).isSome = true ∨ ∃ q, V.tr.fullPath (fusePath p) = .ok q ∧ q.2 ≠ [] ∧ s.tableDir q.1 = .ok k) →
      (s.tables k).isSome = true ∨ k ∈ if X.lastLong p then a.dirOf p else [] := by
    rintro p hp (h | ⟨q, q1, q2, q3⟩)
    · exact Or.inl h
    · obtain ⟨l1, l2, l3⟩ := lastLong_of hT hX (fun x hx => hU x (hp x hx)) q1 q2
      rw [if_pos l1]
      exact Or.inr (tableDir_ideal hT H (fun x hx => hU x (hp x hx)) q1 l3 l2 q3)
  cases c with
  | getattr p => exact Or.inl (by rw [LVol.step, val_snd] at h; exact h)
  | readlink p n => exact Or.inl (by rw [LVol.step, val_snd] at h; exact h)
  | mkdir p at' id =>
    rw [LVol.step, val_snd] at h
    exact one p hc.1 (withLong_tables _ _ _ (noTable_sys fun b s => s.back.add (osParts b) id ⟨.dir [], at'⟩) k h)
  | symlink t p at' id =>
    rw [LVol.step, val_snd] at h
    refine one p hc.2.1 (withLong_tables _ _ _ ?_ k h)
    intro b s k h
    dsimp only at h
    split at h
    · exact h
    · rwa [sys_tables] at h
  | link src dst =>
    rw [LVol.step, val_snd] at h
    refine one dst hc.2.1 (withLong_tables _ _ _ ?_ k h)
    intro b s k h
    dsimp only at h
    split at h
    · exact h
    · rwa [sys_tables] at h
  | unlink p =>
    rw [LVol.step, val_snd] at h
    exact one p hc.1 (withLong_tables _ _ _ (noTable_sys fun b s => s.back.unlink (osParts b)) k h)
  | rmdir p =>
    rw [LVol.step, val_snd] at h
    refine one p hc.1 (withLong_tables _ _ _ ?_ k h)
    intro b s k h
    dsimp only at h
    rw [sys_tables] at h
    exact dropTable_some h
  | rename p q =>
    rw [LVol.step, val_snd] at h
    rcases rename_tables fault p q k h with h | ⟨x, y, x1, y1, x2, x3⟩
    · exact Or.inl h
    · right
      have hp := fun x hx => hU x (hc.1 x hx)
      have hq := fun x hx => hU x (hc.2.1 x hx)
      have hl : (X.lastLong p || X.lastLong q) = true ∧ ∃ x, full x ≠ [] := by
        rcases x2 with e | e
        · obtain ⟨l1, _, l3⟩ := lastLong_of hT hX hp x1 e; exact ⟨by rw [l1]; rfl, l3⟩
        · obtain ⟨l1, _, l3⟩ := lastLong_of hT hX hq y1 e; exact ⟨by rw [l1, Bool.or_true], l3⟩
      show k ∈ if X.lastLong p || X.lastLong q then a.dirOf p ++ a.dirOf q else []
      rw [if_pos hl.1]
      rcases x3 with e | e
      · exact List.mem_append_left _ (tableDir_ideal hT H hp x1 hl.2 hc.2.2.1 e)
      · exact List.mem_append_right _ (tableDir_ideal hT H hq y1 hl.2 hc.2.2.2.1 e)
  | chmod p m =>
    rw [LVol.step, val_snd] at h
    unfold LVol.setAttr at h
    split at h
    · exact Or.inl h
    · rw [sys_tables] at h; exact Or.inl h
  | chown p u g =>
    rw [LVol.step, val_snd] at h
    unfold LVol.setAttr at h
    split at h
    · exact Or.inl h
    · rw [sys_tables] at h; exact Or.inl h
  | utimens p t m =>
    rw [LVol.step, val_snd] at h
    unfold LVol.setAttr at h
    split at h
    · exact Or.inl h
    · rw [sys_tables] at h; exact Or.inl h
  | truncate p n =>
    rw [LVol.step, val_snd] at h
    unfold LVol.truncate at h
    dsimp only at h
    have := openAt_tables_old (V := V) (s := s) fault p oWrOnly (by decide) ⟨0, 0, 0, 0, 0⟩ 0 k
    split at h
    · exact Or.inl (this h)
    · exact Or.inl (this h)
    · split at h <;> · rw [onFile_tables] at h; exact Or.inl (this h)
  | create p at' id =>
    rw [LVol.step, val_snd] at h
    unfold LVol.create at h
    rw [newHandle_tables] at h
    exact one p hc.1 (openAt_tables fault p 194 at' id k h)
  | «open» p flags =>
    rw [LVol.step, val_snd] at h
    unfold LVol.open at h
    rw [newHandle_tables] at h
    exact Or.inl (openAt_tables_old fault p flags (by rw [open_creat, hc.2.1]; decide) ⟨0, 0, 0, 0, 0⟩ 0 k h)
  | opendir p =>
    rw [LVol.step, val_snd] at h
    unfold LVol.opendir at h
    split at h
    · exact Or.inl h
    · split at h
      · exact Or.inl h
      · rw [newHandle_tables] at h; exact Or.inl h
  | read x o n =>
    rw [LVol.step, val_snd] at h
    unfold LVol.onHandle at h
    split at h
    · exact Or.inl h
    · rw [onFile_tables] at h; exact Or.inl h
  | write x o n =>
    rw [LVol.step, val_snd] at h
    unfold LVol.onHandle at h
    split at h
    · exact Or.inl h
    · rw [onFile_tables] at h; exact Or.inl h
  | ftruncate x n =>
    rw [LVol.step, val_snd] at h
    unfold LVol.onHandle at h
    split at h
    · exact Or.inl h
    · rw [onFile_tables] at h; exact Or.inl h
  | fgetattr x => exact Or.inl (by rw [LVol.step, val_snd] at h; exact h)
  | readdir x => exact Or.inl (by rw [LVol.step, val_snd] at h; exact h)
  | release x =>
    rw [LVol.step, val_snd] at h
    unfold LVol.release at h
    split at h <;> exact Or.inl h

end
end Securefs
