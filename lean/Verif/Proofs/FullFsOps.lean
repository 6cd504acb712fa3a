import Verif.Proofs.FullFsPath
/-!
# What the operations do to the names
-/

namespace Securefs

open Spec

/-! ## Changing one file of a view -/

/-- Changing one file. -/
def updA (A : AFs) (d : Bytes) (f : AFile) : AFs := fun x => if x = d then some f else A x

theorem updA_self (A : AFs) (d : Bytes) (f : AFile) : updA A d f d = some f := if_pos rfl

theorem updA_ne (A : AFs) {d x : Bytes} (f : AFile) (h : x ≠ d) : updA A d f x = A x := if_neg h

theorem updA_same {A : AFs} {d : Bytes} {f : AFile} (h : A d = some f) : updA A d f = A := by
  funext x
  unfold updA
  by_cases hx : x = d
  · rw [if_pos hx, hx, h]
  · rw [if_neg hx]

/-- A directory without a name. -/
def Spec.AFile.without (same : Bytes → Bytes → Bool) (f : AFile) (name : Bytes) : AFile :=
  { f with entries := f.entries.filter fun e => !same name e.name }

/-- A directory with one more entry. -/
def Spec.AFile.plus (f : AFile) (e : DirEntry) : AFile := { f with entries := e :: f.entries }

/-- A file with one link less. -/
def Spec.AFile.less (f : AFile) : AFile := { f with nlink := f.nlink - 1 }

@[simp] theorem without_kind (same : Bytes → Bytes → Bool) (f : AFile) (name : Bytes) : (AFile.without same f name).kind = f.kind := rfl
@[simp] theorem plus_kind (f : AFile) (e : DirEntry) : (AFile.plus f e).kind = f.kind := rfl
@[simp] theorem less_kind (f : AFile) : (AFile.less f).kind = f.kind := rfl

theorem find?_without {same : Bytes → Bytes → Bool} (hs : SameEquiv same) (a n : Bytes) : ∀ l : List DirEntry,
    (l.filter fun e => !same a e.name).find? (fun e => same n e.name) =
      if same n a = true then none else l.find? fun e => same n e.name
  | [] => by split <;> rfl
  | e :: l => by
    rw [List.filter_cons]
    cases ha : same a e.name with
    | true =>
      simp only [Bool.not_true, Bool.false_eq_true, if_false]
      rw [find?_without hs a n l]
      by_cases hn : same n a = true
      · rw [if_pos hn, if_pos hn]
      · rw [if_neg hn, if_neg hn, List.find?_cons]
        have : same n e.name = false := by
          cases hb : same n e.name with
          | false => rfl
          | true => exact absurd (hs.trans _ _ _ hb (hs.symm _ _ ha)) hn
        rw [this]
    | false =>
      simp only [Bool.not_false, if_true]
      rw [List.find?_cons, List.find?_cons, find?_without hs a n l]
      by_cases hn : same n a = true
      · rw [if_pos hn]
        have : same n e.name = false := by
          cases hb : same n e.name with
          | false => rfl
          | true => rw [hs.trans _ _ _ (hs.symm _ _ hn) hb] at ha; cases ha
        rw [this, if_pos hn]
      · rw [if_neg hn, if_neg hn]

theorem nameAt_without {same : Bytes → Bytes → Bool} (hs : SameEquiv same) {A : AFs} {d : Bytes} {f : AFile} (h : A d = some f) (a x n : Bytes) :
    nameAt same (updA A d (AFile.without same f a)) x n = if x = d ∧ same n a = true then none else nameAt same A x n := by
  unfold nameAt
  by_cases hx : x = d
  · subst hx
    rw [updA_self, h]
    dsimp only [AFile.without]
    rw [find?_without hs]
    by_cases hn : same n a = true
    · rw [if_pos hn, if_pos ⟨rfl, hn⟩]; rfl
    · rw [if_neg hn, if_neg fun hc => hn hc.2]
  · rw [updA_ne _ _ hx, if_neg fun hc => hx hc.1]

theorem nameAt_plus {same : Bytes → Bytes → Bool} {A : AFs} {d : Bytes} {f : AFile} (h : A d = some f) (e : DirEntry) (x n : Bytes) :
    nameAt same (updA A d (f.plus e)) x n = if x = d ∧ same n e.name = true then some (e.id, e.type) else nameAt same A x n := by
  unfold nameAt
  by_cases hx : x = d
  · subst hx
    rw [updA_self, h]
    dsimp only [AFile.plus]
    rw [List.find?_cons]
    cases hn : same n e.name with
    | true => rw [if_pos ⟨rfl, rfl⟩]; rfl
    | false => rw [if_neg fun hc => by cases hc.2]
  · rw [updA_ne _ _ hx, if_neg fun hc => hx hc.1]

theorem nameAt_less {same : Bytes → Bytes → Bool} {A : AFs} {d : Bytes} {f : AFile} (h : A d = some f) (x n : Bytes) :
    nameAt same (updA A d f.less) x n = nameAt same A x n := by
  unfold nameAt
  by_cases hx : x = d
  · subst hx
    rw [updA_self, h]; rfl
  · rw [updA_ne _ _ hx]

theorem nameAt_find {same : Bytes → Bytes → Bool} {A : AFs} {d : Bytes} {f : AFile} (h : A d = some f) (n : Bytes) :
    nameAt same A d n = (f.entries.find? fun e => same n e.name).map fun e => (e.id, e.type) := by
  unfold nameAt; rw [h]

theorem Spec.FilesChanged.refl (A : AFs) : FilesChanged (fun _ n => n) A A := fun _ => rfl

theorem filesChanged_upd {A : AFs} {d : Bytes} {f f' : AFile} (h : A d = some f)
    (hf : (f'.mode, f'.uid, f'.gid, f'.nlink, f'.data) = (f.mode, f.uid, f.gid, f.nlink, f.data)) :
    FilesChanged (fun _ n => n) A (updA A d f') := by
  intro x
  unfold updA
  by_cases hx : x = d
  · rw [if_pos hx, hx, h]
    exact congrArg some hf
  · rw [if_neg hx]

theorem Spec.FilesChanged.trans {g : Bytes → UInt32 → UInt32} {A B C : AFs} (h : FilesChanged (fun _ n => n) A B) (h' : FilesChanged g B C) :
    FilesChanged g A C := by
  intro x
  rw [h' x]
  have := h x
  cases hA : A x with
  | none =>
    rw [hA] at this
    cases hB : B x with
    | none => rfl
    | some b => rw [hB] at this; cases this
  | some a =>
    rw [hA] at this
    cases hB : B x with
    | none => rw [hB] at this; cases this
    | some b =>
      rw [hB] at this
      simp only [Option.map_some, Option.some.injEq, Prod.mk.injEq] at this ⊢
      obtain ⟨h1, h2, h3, h4, h5⟩ := this
      exact ⟨h1, h2, h3, by rw [h4], h5⟩

theorem filesChanged_less {A : AFs} {d : Bytes} {f : AFile} (h : A d = some f) :
    FilesChanged (fun x n => if x = d then n - 1 else n) A (updA A d f.less) := by
  intro x
  unfold updA
  by_cases hx : x = d
  · rw [if_pos hx, hx, h]
    simp [AFile.less]
  · rw [if_neg hx]
    cases A x with
    | none => rfl
    | some a => simp [hx]

/-! ## Sections seen from outside -/

/-- What a section keeps: the clock and the parent of the root. -/
structure Quiet (fs fs' : FullFs) : Prop where
  root : RootParent fs → RootParent fs'
  now : fs'.now = fs.now
  keys : fs'.nodes.map Prod.fst = fs.nodes.map Prod.fst

theorem Calm.quiet {fs fs' : FullFs} (h : Calm fs fs') : Quiet fs fs' := ⟨h.root, h.now, h.keys⟩

theorem Quiet.trans {a b c : FullFs} (h : Quiet a b) (h' : Quiet b c) : Quiet a c :=
  ⟨fun r => h'.root (h.root r), h'.now.trans h.now, h'.keys.trans h.keys⟩

theorem quiet_set {fs : FullFs} {id : Bytes} {n m : Inode} (hg : fs.get id = some n) (hp : m.parent = n.parent) : Quiet fs (fs.set id m) := by
  refine ⟨?_, rfl, set_keys _ _ _⟩
  rintro ⟨k, h1, h2⟩
  exact parentIs_set_attr hg hp ⟨k, h1, h2⟩

/-- What is known of a held object. -/
structure Held (A : AFs) (h : FH) (f : AFile) : Prop where
  obj : A h.id = some f
  kind : f.kind = h.cls
  good : GoodCls h.cls

theorem Sim.held {A : AFs} {fs : FullFs} {h : FH} {p : Place} (hs : Sim A fs h p) : ∃ f, Held A h f := by
  obtain ⟨f, h1, h2⟩ := hs.obj
  exact ⟨f, h1, h2, hs.good⟩

theorem viewFile_without (cfg : FsCfg) (now : TimeSpec) (n : Inode) (name : Bytes) :
    viewFile { n with attr := n.attr.touchMtime cfg.storeTime now, entries := n.entries.filter fun e => !cfg.same name e.name } =
      AFile.without cfg.same (viewFile n) name := by
  unfold viewFile AFile.without FileAttr.touchMtime
  split <;> rfl

theorem viewFile_plus (cfg : FsCfg) (now : TimeSpec) (n : Inode) (e : DirEntry) :
    viewFile { n with attr := n.attr.touchMtime cfg.storeTime now, entries := e :: n.entries } = (viewFile n).plus e := by
  unfold viewFile AFile.plus FileAttr.touchMtime
  split <;> rfl

/-- `remove_entry` seen from outside. -/
theorem remove_view {cfg : FsCfg} {fs : FullFs} {h : FH} {f : AFile} (hh : Held (viewOf fs) h f) (name : Bytes) :
    ∃ fs', secRemove cfg h name fs = (lookupIn cfg.same (viewOf fs) h.id name, fs') ∧ Quiet fs fs' ∧
      viewOf fs' = match lookupIn cfg.same (viewOf fs) h.id name with
        | .ok _ => updA (viewOf fs) h.id (AFile.without cfg.same f name)
        | .error _ => viewOf fs := by
  obtain ⟨ho, hk, hg⟩ := hh
  obtain ⟨n, hn, rfl⟩ := get_of_view ho
  have hc := castAs_of_kind (h := h) hg hk typeDirectory
  unfold secRemove Sec.dir
  rw [file_run hn, hc]
  unfold lookupIn
  rw [ho]
  dsimp only
  by_cases h4 : h.cls = typeDirectory
  · rw [if_pos h4]
    have hk4 : ¬ (viewFile n).kind ≠ 4 := by rw [hk, h4]; decide
    rw [if_neg hk4]
    dsimp only
    unfold Inode.removeEntry
    dsimp only
    by_cases hl : name.length > 255
    · rw [if_pos hl, if_pos hl]
      exact ⟨_, rfl, quiet_set hn rfl, view_set_same hn (view_touchMtime cfg _ n)⟩
    · rw [if_neg hl, if_neg hl]
      refine ⟨_, rfl, quiet_set hn (by rfl), ?_⟩
      rw [view_set hn]
      dsimp only
      rw [viewFile_without]
      rfl
  · rw [if_neg h4]
    have hk4 : (viewFile n).kind ≠ 4 := by rw [hk]; exact h4
    rw [if_pos hk4]
    exact ⟨_, rfl, quiet_set hn rfl, view_set_same hn rfl⟩

/-- `add_entry` to a directory, seen from outside. -/
theorem add_view {cfg : FsCfg} {fs : FullFs} {h : FH} {f : AFile} (hh : Held (viewOf fs) h f) (e : DirEntry) :
    ∃ r fs', secAdd cfg h e fs = (r, fs') ∧ Quiet fs fs' ∧
      (if f.kind ≠ 4 then r = .error (.vfs 1) ∧ viewOf fs' = viewOf fs
       else if e.name.length > 255 then r = .error (.vfs 36) ∧ viewOf fs' = viewOf fs
       else if f.entries.any (fun x => cfg.same e.name x.name) then r = .ok false ∧ viewOf fs' = viewOf fs
       else r = .ok true ∧ viewOf fs' = updA (viewOf fs) h.id (f.plus e)) := by
  obtain ⟨ho, hk, hg⟩ := hh
  obtain ⟨n, hn, rfl⟩ := get_of_view ho
  have hc := castAs_of_kind (h := h) hg hk typeDirectory
  unfold secAdd Sec.dir
  rw [file_run hn, hc]
  dsimp only
  by_cases h4 : h.cls = typeDirectory
  · rw [if_pos h4]
    have hk4 : ¬ (viewFile n).kind ≠ 4 := by rw [hk, h4]; decide
    dsimp only
    unfold Inode.addEntry
    dsimp only
    by_cases hl : e.name.length > 255
    · rw [if_pos hl]
      refine ⟨_, _, rfl, quiet_set hn rfl, ?_⟩
      rw [if_neg hk4, if_pos hl]
      exact ⟨rfl, view_set_same hn (view_touchMtime cfg _ n)⟩
    · rw [if_neg hl]
      by_cases ha : n.entries.any (fun x => cfg.same e.name x.name) = true
      · rw [if_pos ha]
        refine ⟨_, _, rfl, quiet_set hn rfl, ?_⟩
        rw [if_neg hk4, if_neg hl, if_pos (show (viewFile n).entries.any (fun x => cfg.same e.name x.name) = true from ha)]
        exact ⟨rfl, view_set_same hn (view_touchMtime cfg _ n)⟩
      · rw [if_neg ha]
        refine ⟨_, _, rfl, quiet_set hn (by rfl), ?_⟩
        rw [if_neg hk4, if_neg hl, if_neg (show ¬ (viewFile n).entries.any (fun x => cfg.same e.name x.name) = true from ha)]
        refine ⟨rfl, ?_⟩
        rw [view_set hn]
        dsimp only
        rw [viewFile_plus]
        rfl
  · rw [if_neg h4]
    have hk4 : (viewFile n).kind ≠ 4 := by rw [hk]; exact h4
    refine ⟨_, _, rfl, quiet_set hn rfl, ?_⟩
    rw [if_pos hk4]
    exact ⟨rfl, view_set_same hn rfl⟩

/-- `unlink` seen from outside. -/
theorem unlink_view {fs : FullFs} {h : FH} {f : AFile} (ho : viewOf fs h.id = some f) :
    ∃ fs', secUnlink h fs = (.ok (), fs') ∧ Quiet fs fs' ∧ viewOf fs' = updA (viewOf fs) h.id f.less := by
  obtain ⟨n, hn, rfl⟩ := get_of_view ho
  unfold secUnlink
  rw [file_run hn]
  exact ⟨_, rfl, quiet_set hn (by rfl), view_set hn _⟩

/-- The last section of `vrmdir` seen from outside. -/
theorem unlinkEmpty_view {cfg : FsCfg} {fs : FullFs} {h : FH} {f : AFile} (hh : Held (viewOf fs) h f) :
    ∃ r fs', secUnlinkEmpty cfg h fs = (r, fs') ∧ Quiet fs fs' ∧
      (if f.kind ≠ 4 then r = .error (.vfs 1) ∧ viewOf fs' = viewOf fs
       else if f.entries ≠ [] then r = .error (.vfs 39) ∧ viewOf fs' = viewOf fs
       else r = .ok () ∧ viewOf fs' = updA (viewOf fs) h.id f.less) := by
  obtain ⟨ho, hk, hg⟩ := hh
  obtain ⟨n, hn, rfl⟩ := get_of_view ho
  have hc := castAs_of_kind (h := h) hg hk typeDirectory
  unfold secUnlinkEmpty Sec.dir
  rw [file_run hn, hc]
  dsimp only
  by_cases h4 : h.cls = typeDirectory
  · rw [if_pos h4]
    have hk4 : ¬ (viewFile n).kind ≠ 4 := by rw [hk, h4]; decide
    dsimp only
    cases hne : n.entries with
    | cons a l =>
      have e1 : n.unlinkEmpty cfg fs.now = (.error (.vfs 39), { n with attr := n.attr.touchAtime cfg.storeTime fs.now }) := by
        unfold Inode.unlinkEmpty; dsimp only; rw [hne]
      rw [e1]
      refine ⟨_, _, rfl, quiet_set hn (by rfl), ?_⟩
      rw [if_neg hk4, if_pos (show (viewFile n).entries ≠ [] by show n.entries ≠ []; rw [hne]; exact List.cons_ne_nil _ _)]
      exact ⟨rfl, view_set_same hn (view_touchAtime cfg _ n)⟩
    | nil =>
      have e1 : n.unlinkEmpty cfg fs.now = (.ok (), { n with attr := (n.attr.touchAtime cfg.storeTime fs.now).unlink }) := by
        unfold Inode.unlinkEmpty; dsimp only; rw [hne]
      rw [e1]
      refine ⟨_, _, rfl, quiet_set hn (by rfl), ?_⟩
      rw [if_neg hk4, if_neg (show ¬ (viewFile n).entries ≠ [] by show ¬ n.entries ≠ []; rw [hne]; simp)]
      refine ⟨rfl, ?_⟩
      rw [view_set hn]
      have : viewFile { n with attr := (n.attr.touchAtime cfg.storeTime fs.now).unlink } = (viewFile n).less := by
        have h1 := view_touchAtime cfg fs.now n
        unfold viewFile at h1 ⊢
        unfold AFile.less FileAttr.unlink
        injection h1 with a1 a2 a3 a4 a5 a6
        dsimp only
        rw [a1, a2, a3, a4]
      rw [this]
      rfl
  · rw [if_neg h4]
    have hk4 : (viewFile n).kind ≠ 4 := by rw [hk]; exact h4
    refine ⟨_, _, rfl, quiet_set hn rfl, ?_⟩
    rw [if_pos hk4]
    exact ⟨rfl, view_set_same hn rfl⟩

theorem lookupIn_dir {same : Bytes → Bytes → Bool} {A : AFs} {d : Bytes} {f : AFile} (h : A d = some f) (hk : f.kind = 4) {name : Bytes}
    (hl : name.length ≤ 255) : lookupIn same A d name = .ok (f.entries.find? fun e => same name e.name) := by
  unfold lookupIn
  rw [h]
  dsimp only
  rw [if_neg (by rw [hk]; decide), if_neg (Nat.not_lt.mpr hl)]

theorem openEntry_run {A : AFs} (ht : DirTree A) {fs : FullFs} {d : Bytes} {f : AFile} {e : DirEntry} (hd : A d = some f) (he : e ∈ f.entries)
    {g : AFile} (hg : viewOf fs e.id = some g) (hgk : g.kind = e.type) :
    secOpenAs e.id e.type fs = (.ok ⟨e.id, e.type⟩, fs) ∧ Held (viewOf fs) ⟨e.id, e.type⟩ g := by
  obtain ⟨hne, ht0, _⟩ := ht.entry d f e hd he
  have hgood : GoodCls e.type := by rw [← hgk]; exact kind_good (by rw [hgk]; exact ht0)
  exact ⟨openAs_run hg hgood fun h => absurd h hne, hg, hgk, hgood⟩

/-! ## `vrmdir` and `vunlink` -/

theorem rmdir_run {cfg : FsCfg} {fs : FullFs} (ht : DirTree (viewOf fs)) (hr : RootParent fs) {path : Bytes}
    {p : Place} {last : Bytes} (hp : resolveParent cfg.same (viewOf fs) path = .ok (p, last)) (hd : IsDir (viewOf fs) p.1)
    (hl : last.length ≤ 255) :
    ∃ f, viewOf fs p.1 = some f ∧
      match f.entries.find? (fun e => cfg.same last e.name) with
      | none => ((vrmdir cfg path).run fs).1 = .ok (-2) ∧ viewOf ((vrmdir cfg path).run fs).2 = updA (viewOf fs) p.1 (AFile.without cfg.same f last)
      | some e => ∃ g, updA (viewOf fs) p.1 (AFile.without cfg.same f last) e.id = some g ∧ g.kind = e.type ∧
          if g.kind ≠ 4 then ((vrmdir cfg path).run fs).1 = .error (.vfs 1) ∧
            viewOf ((vrmdir cfg path).run fs).2 = updA (viewOf fs) p.1 (AFile.without cfg.same f last)
          else if g.entries ≠ [] then ((vrmdir cfg path).run fs).1 = .error (.vfs 39) ∧
            viewOf ((vrmdir cfg path).run fs).2 = updA (viewOf fs) p.1 (AFile.without cfg.same f last)
          else ((vrmdir cfg path).run fs).1 = .ok 0 ∧
            viewOf ((vrmdir cfg path).run fs).2 = updA (updA (viewOf fs) p.1 (AFile.without cfg.same f last)) e.id g.less := by
  have hb := openBase_agrees (cfg := cfg) ht hr path
  rw [hp] at hb
  obtain ⟨hc0, h, hb1, hs⟩ := hb
  obtain ⟨f, hf⟩ := hs.held
  have hid := hs.id
  have hv0 := hc0.view
  obtain ⟨f', hf', hk4⟩ := hd
  have hff : viewOf fs p.1 = some f := by rw [← hid]; exact hf.obj
  rw [hff] at hf'
  injection hf' with hf'
  subst hf'
  refine ⟨f, hff, ?_⟩
  have hrun0 : (openBase cfg path).run fs = (.ok (h, last), ((openBase cfg path).run fs).2) := by rw [← hb1]
  have hfh : Held (viewOf ((openBase cfg path).run fs).2) h f := by rw [hv0]; exact hf
  obtain ⟨fs1, hrem, hq1, hv1⟩ := remove_view (cfg := cfg) hfh last
  rw [hv0, hid, lookupIn_dir hff hk4 hl] at hrem hv1
  dsimp only at hv1
  unfold vrmdir
  rw [run_bind_ok hrun0]
  dsimp only
  rw [run_one_ok hrem]
  cases hfind : f.entries.find? (fun e => cfg.same last e.name) with
  | none => exact ⟨rfl, hv1⟩
  | some e =>
    dsimp only
    have hmem := List.mem_of_find?_eq_some hfind
    obtain ⟨_, _, g0, hg0, hgk0⟩ := ht.entry _ f e hff hmem
    have hg : ∃ g, updA (viewOf fs) p.1 (AFile.without cfg.same f last) e.id = some g ∧ g.kind = e.type := by
      by_cases he : e.id = p.1
      · rw [he, updA_self]
        refine ⟨_, rfl, ?_⟩
        rw [without_kind, ← hgk0]
        rw [he, hff] at hg0
        injection hg0 with hg0
        rw [hg0]
      · rw [updA_ne _ _ he]; exact ⟨g0, hg0, hgk0⟩
    obtain ⟨g, hg, hgk⟩ := hg
    refine ⟨g, hg, hgk, ?_⟩
    obtain ⟨hop, hheld⟩ := openEntry_run ht (fs := fs1) hff hmem (by rw [hv1]; exact hg) hgk
    rw [run_one_ok hop]
    obtain ⟨r, fs2, hu, hq2, hcase⟩ := unlinkEmpty_view (cfg := cfg) hheld
    by_cases hk : g.kind ≠ 4
    · rw [if_pos hk] at hcase ⊢
      rw [hcase.1] at hu
      rw [run_one_error hu]
      exact ⟨rfl, by rw [hcase.2, hv1]⟩
    · rw [if_neg hk] at hcase ⊢
      by_cases hen : g.entries ≠ []
      · rw [if_pos hen] at hcase ⊢
        rw [hcase.1] at hu
        rw [run_one_error hu]
        exact ⟨rfl, by rw [hcase.2, hv1]⟩
      · rw [if_neg hen] at hcase ⊢
        rw [hcase.1] at hu
        rw [run_one_ok hu]
        exact ⟨rfl, by rw [← hv1]; exact hcase.2⟩

/-! ## Removing and adding names in a view -/

/-- Removing a name from a directory. -/
def remName (same : Bytes → Bytes → Bool) (A : AFs) (d name : Bytes) : AFs :=
  match A d with
  | none => A
  | some f => updA A d (f.without same name)

/-- Adding an entry to a directory. -/
def addName (A : AFs) (d : Bytes) (e : DirEntry) : AFs :=
  match A d with
  | none => A
  | some f => updA A d (f.plus e)

theorem remName_eq {same : Bytes → Bytes → Bool} {A : AFs} {d : Bytes} {f : AFile} (h : A d = some f) (name : Bytes) :
    remName same A d name = updA A d (f.without same name) := by
  unfold remName; rw [h]

theorem addName_eq {A : AFs} {d : Bytes} {f : AFile} (h : A d = some f) (e : DirEntry) : addName A d e = updA A d (f.plus e) := by
  unfold addName; rw [h]

theorem nameAt_rem {same : Bytes → Bytes → Bool} (hs : SameEquiv same) (A : AFs) (d a x n : Bytes) :
    nameAt same (remName same A d a) x n = if x = d ∧ same n a = true then none else nameAt same A x n := by
  cases h : A d with
  | some f => rw [remName_eq h, nameAt_without hs h]
  | none =>
    unfold remName
    rw [h]
    dsimp only
    by_cases hx : x = d ∧ same n a = true
    · rw [if_pos hx, hx.1]; unfold nameAt; rw [h]
    · rw [if_neg hx]

theorem nameAt_add {same : Bytes → Bytes → Bool} {A : AFs} {d : Bytes} {f : AFile} (h : A d = some f) (e : DirEntry) (x n : Bytes) :
    nameAt same (addName A d e) x n = if x = d ∧ same n e.name = true then some (e.id, e.type) else nameAt same A x n := by
  rw [addName_eq h, nameAt_plus h]

theorem filesChanged_rem (same : Bytes → Bytes → Bool) (A : AFs) (d a : Bytes) : FilesChanged (fun _ n => n) A (remName same A d a) := by
  cases h : A d with
  | some f => rw [remName_eq h]; exact filesChanged_upd h rfl
  | none => unfold remName; rw [h]; exact FilesChanged.refl A

theorem filesChanged_add (A : AFs) (d : Bytes) (e : DirEntry) : FilesChanged (fun _ n => n) A (addName A d e) := by
  cases h : A d with
  | some f => rw [addName_eq h]; exact filesChanged_upd h rfl
  | none => unfold addName; rw [h]; exact FilesChanged.refl A

theorem held_upd {A : AFs} {h : FH} {f : AFile} (hh : Held A h f) {d : Bytes} {g g' : AFile} (hg : A d = some g) (hk : g'.kind = g.kind) :
    ∃ f', Held (updA A d g') h f' ∧ f'.kind = f.kind := by
  by_cases hx : h.id = d
  · have : f = g := by have := hh.obj; rw [hx, hg] at this; injection this with this; exact this.symm
    subst this
    exact ⟨g', ⟨by rw [hx, updA_self], by rw [hk]; exact hh.kind, hh.good⟩, hk⟩
  · exact ⟨f, ⟨by rw [updA_ne _ _ hx]; exact hh.obj, hh.kind, hh.good⟩, rfl⟩

theorem held_rem {A : AFs} {h : FH} {f : AFile} (hh : Held A h f) (same : Bytes → Bytes → Bool) (d a : Bytes) :
    ∃ f', Held (remName same A d a) h f' ∧ f'.kind = f.kind := by
  cases hd : A d with
  | some g => rw [remName_eq hd]; exact held_upd hh hd rfl
  | none => unfold remName; rw [hd]; exact ⟨f, hh, rfl⟩

theorem held_add {A : AFs} {h : FH} {f : AFile} (hh : Held A h f) (d : Bytes) (e : DirEntry) :
    ∃ f', Held (addName A d e) h f' ∧ f'.kind = f.kind := by
  cases hd : A d with
  | some g => rw [addName_eq hd]; exact held_upd hh hd rfl
  | none => unfold addName; rw [hd]; exact ⟨f, hh, rfl⟩

theorem remName_nothing {same : Bytes → Bytes → Bool} {A : AFs} {d n : Bytes} (h : nameAt same A d n = none) : remName same A d n = A := by
  cases hd : A d with
  | none => unfold remName; rw [hd]
  | some f =>
    rw [remName_eq hd]
    rw [nameAt_find hd] at h
    have h' : f.entries.find? (fun e => same n e.name) = none := by
      cases hf : f.entries.find? (fun e => same n e.name) with
      | none => rfl
      | some e => rw [hf] at h; cases h
    rw [List.find?_eq_none] at h'
    have : f.without same n = f := by
      unfold AFile.without
      rw [List.filter_eq_self.mpr]
      intro e he
      simpa using h' e he
    rw [this]
    exact updA_same hd

/-- `remove_entry` that looks, seen from outside. -/
theorem remove_look {cfg : FsCfg} {fs : FullFs} {A : AFs} (hA : viewOf fs = A) {h : FH} {f : AFile} (hh : Held A h f) {name : Bytes}
    (hk : f.kind = 4) (hl : name.length ≤ 255) :
    ∃ fs', secRemove cfg h name fs = (.ok (f.entries.find? fun e => cfg.same name e.name), fs') ∧ Quiet fs fs' ∧
      viewOf fs' = remName cfg.same A h.id name := by
  subst hA
  obtain ⟨fs', h1, h2, h3⟩ := remove_view (cfg := cfg) hh name
  rw [lookupIn_dir hh.obj hk hl] at h1 h3
  exact ⟨fs', h1, h2, by rw [h3, remName_eq hh.obj]⟩

/-- `remove_entry` that throws. -/
theorem remove_throw {cfg : FsCfg} {fs : FullFs} {A : AFs} (hA : viewOf fs = A) {h : FH} {f : AFile} (hh : Held A h f) {name : Bytes}
    (hk : f.kind ≠ 4 ∨ name.length > 255) :
    ∃ e fs', secRemove cfg h name fs = (.error e, fs') ∧ Quiet fs fs' ∧ viewOf fs' = A ∧ (e = .vfs 1 ∨ e = .vfs 36) := by
  subst hA
  obtain ⟨fs', h1, h2, h3⟩ := remove_view (cfg := cfg) hh name
  unfold lookupIn at h1 h3
  rw [hh.obj] at h1 h3
  dsimp only at h1 h3
  by_cases h4 : f.kind ≠ 4
  · rw [if_pos h4] at h1 h3
    exact ⟨_, fs', h1, h2, h3, .inl rfl⟩
  · rw [if_neg h4] at h1 h3
    have hl := hk.resolve_left h4
    rw [if_pos hl] at h1 h3
    exact ⟨_, fs', h1, h2, h3, .inr rfl⟩

/-- `add_entry` of a new name, seen from outside. -/
theorem add_new {cfg : FsCfg} {fs : FullFs} {A : AFs} (hA : viewOf fs = A) {h : FH} {f : AFile} (hh : Held A h f) {e : DirEntry}
    (hk : f.kind = 4) (hl : e.name.length ≤ 255) (hn : nameAt cfg.same A h.id e.name = none) :
    ∃ fs', secAdd cfg h e fs = (.ok true, fs') ∧ Quiet fs fs' ∧ viewOf fs' = addName A h.id e := by
  subst hA
  obtain ⟨r, fs', h1, h2, h3⟩ := add_view (cfg := cfg) hh e
  rw [if_neg (by rw [hk]; decide), if_neg (Nat.not_lt.mpr hl), if_neg] at h3
  · rw [h3.1] at h1
    exact ⟨fs', h1, h2, by rw [h3.2, addName_eq hh.obj]⟩
  · intro ha
    rw [nameAt_find hh.obj] at hn
    obtain ⟨x, hx, hx2⟩ := List.any_eq_true.mp ha
    cases hf : f.entries.find? (fun y => cfg.same e.name y.name) with
    | none => exact absurd hx2 (List.find?_eq_none.mp hf x hx)
    | some y => rw [hf] at hn; cases hn

theorem nameAt_some {same : Bytes → Bytes → Bool} {A : AFs} {d n : Bytes} {r : Bytes × Nat} (h : nameAt same A d n = some r) :
    ∃ f e, A d = some f ∧ f.entries.find? (fun e => same n e.name) = some e ∧ (e.id, e.type) = r := by
  cases hd : A d with
  | none => unfold nameAt at h; rw [hd] at h; cases h
  | some f =>
    rw [nameAt_find hd] at h
    cases hf : f.entries.find? (fun e => same n e.name) with
    | none => rw [hf] at h; cases h
    | some e => rw [hf] at h; injection h with h; exact ⟨f, e, rfl, hf, h⟩

/-! ## The locked part of `vrename` -/

/-- What `secRename` does to the names when it can. -/
inductive Renamed (same : Bytes → Bytes → Bool) (A : AFs) (df lf dt lt : Bytes) : RenameOut → AFs → Prop
  | missing (h : nameAt same A df lf = none) : Renamed same A df lf dt lt .missing A
  | moved (src : Bytes × Nat) (h : nameAt same A df lf = some src) (h2 : nameAt same (remName same A df lf) dt lt = none) :
      Renamed same A df lf dt lt .done (addName (remName same (remName same A df lf) dt lt) dt ⟨lt, src.1, src.2⟩)
  | replaced (src : Bytes × Nat) (h : nameAt same A df lf = some src) (e : DirEntry)
      (h2 : nameAt same (remName same A df lf) dt lt = some (e.id, e.type)) (hne : src.1 ≠ e.id)
      (hmem : ∃ f, remName same A df lf dt = some f ∧ e ∈ f.entries) :
      Renamed same A df lf dt lt (.replaced e) (addName (remName same (remName same A df lf) dt lt) dt ⟨lt, src.1, src.2⟩)
  | same (src : Bytes × Nat) (h : nameAt same A df lf = some src) (ty : Nat)
      (h2 : nameAt same (remName same A df lf) dt lt = some (src.1, ty)) :
      Renamed same A df lf dt lt .done
        (addName (addName (remName same (remName same A df lf) dt lt) df ⟨lf, src.1, src.2⟩) dt ⟨lt, src.1, ty⟩)

theorem sec_bind_ok {α β : Type} {f : Sec α} {g : α → Sec β} {fs fs' : FullFs} {a : α} (h : f fs = (.ok a, fs')) :
    Sec.bind f g fs = g a fs' := by
  unfold Sec.bind; rw [h]

theorem sec_bind_error {α β : Type} {f : Sec α} {g : α → Sec β} {fs fs' : FullFs} {e : Err} (h : f fs = (.error e, fs')) :
    Sec.bind f g fs = (.error e, fs') := by
  unfold Sec.bind; rw [h]

theorem secRename_view {cfg : FsCfg} (hs : SameEquiv cfg.same) {fs : FullFs} {A : AFs} (hA : viewOf fs = A) {bf bt : FH} {F T : AFile}
    (hF : Held A bf F) (hT : Held A bt T) {lf lt : Bytes} (hFk : F.kind = 4) (hTk : T.kind = 4) (hlf : lf.length ≤ 255)
    (hlt : lt.length ≤ 255) :
    ∃ out fs', secRename cfg bf lf bt lt fs = (.ok out, fs') ∧ Quiet fs fs' ∧
      Renamed cfg.same A bf.id lf bt.id lt out (viewOf fs') := by
  obtain ⟨fs1, r1, q1, v1⟩ := remove_look (cfg := cfg) hA hF (name := lf) hFk hlf
  unfold secRename
  rw [sec_bind_ok r1]
  have hnF := nameAt_find (same := cfg.same) hF.obj lf
  cases hf : F.entries.find? (fun e => cfg.same lf e.name) with
  | none =>
    rw [hf] at hnF
    refine ⟨.missing, fs1, rfl, q1, ?_⟩
    rw [v1, remName_nothing hnF]
    exact .missing hnF
  | some src =>
    rw [hf] at hnF
    dsimp only
    obtain ⟨T1, hT1, hTk1⟩ := held_rem hT cfg.same bf.id lf
    obtain ⟨fs2, r2, q2, v2⟩ := remove_look (cfg := cfg) v1 hT1 (name := lt) (hTk1.trans hTk) hlt
    rw [sec_bind_ok r2]
    have hnT := nameAt_find (same := cfg.same) hT1.obj lt
    obtain ⟨T2, hT2, hTk2⟩ := held_rem hT1 cfg.same bt.id lt
    have hgone : nameAt cfg.same (remName cfg.same (remName cfg.same A bf.id lf) bt.id lt) bt.id lt = none := by
      rw [nameAt_rem hs, if_pos ⟨rfl, hs.refl lt⟩]
    cases hg : T1.entries.find? (fun e => cfg.same lt e.name) with
    | none =>
      rw [hg] at hnT
      dsimp only
      obtain ⟨fs3, r3, q3, v3⟩ := add_new (cfg := cfg) v2 hT2 (e := ⟨lt, src.id, src.type⟩) ((hTk2.trans hTk1).trans hTk) hlt hgone
      rw [sec_bind_ok r3]
      refine ⟨.done, fs3, rfl, (q1.trans q2).trans q3, ?_⟩
      rw [v3]
      exact .moved (src.id, src.type) hnF hnT
    | some dst =>
      rw [hg] at hnT
      dsimp only
      by_cases hid : src.id = dst.id
      · rw [if_pos hid]
        obtain ⟨F1, hF1, hFk1⟩ := held_rem hF cfg.same bf.id lf
        obtain ⟨F2, hF2, hFk2⟩ := held_rem hF1 cfg.same bt.id lt
        have hgoneF : nameAt cfg.same (remName cfg.same (remName cfg.same A bf.id lf) bt.id lt) bf.id lf = none := by
          rw [nameAt_rem hs]
          split
          · rfl
          · rw [nameAt_rem hs, if_pos ⟨rfl, hs.refl lf⟩]
        obtain ⟨fs3, r3, q3, v3⟩ := add_new (cfg := cfg) v2 hF2 (e := ⟨lf, src.id, src.type⟩) ((hFk2.trans hFk1).trans hFk) hlf hgoneF
        rw [sec_bind_ok r3]
        obtain ⟨T3, hT3, hTk3⟩ := held_add hT2 bf.id ⟨lf, src.id, src.type⟩
        have hgone2 : nameAt cfg.same (addName (remName cfg.same (remName cfg.same A bf.id lf) bt.id lt) bf.id ⟨lf, src.id, src.type⟩) bt.id lt = none := by
          rw [nameAt_add hF2.obj]
          dsimp only
          by_cases hc : bt.id = bf.id ∧ cfg.same lt lf = true
          · rw [nameAt_rem hs, if_pos hc] at hnT
            cases hnT
          · rw [if_neg hc]; exact hgone
        obtain ⟨fs4, r4, q4, v4⟩ := add_new (cfg := cfg) v3 hT3 (e := ⟨lt, dst.id, dst.type⟩) (((hTk3.trans hTk2).trans hTk1).trans hTk) hlt hgone2
        rw [sec_bind_ok r4]
        refine ⟨.done, fs4, rfl, ((q1.trans q2).trans q3).trans q4, ?_⟩
        rw [v4, ← hid]
        exact .same (src.id, src.type) hnF dst.type (by rw [hnT]; dsimp only [Option.map]; rw [← hid])
      · rw [if_neg hid]
        obtain ⟨fs3, r3, q3, v3⟩ := add_new (cfg := cfg) v2 hT2 (e := ⟨lt, src.id, src.type⟩) ((hTk2.trans hTk1).trans hTk) hlt hgone
        rw [sec_bind_ok r3]
        refine ⟨.replaced dst, fs3, rfl, (q1.trans q2).trans q3, ?_⟩
        rw [v3]
        exact .replaced (src.id, src.type) hnF dst hnT hid ⟨T1, hT1.obj, List.mem_of_find?_eq_some hg⟩

/-- When the target cannot take an entry, the name is already gone. -/
theorem secRename_lost {cfg : FsCfg} {fs : FullFs} {A : AFs} (hA : viewOf fs = A) {bf bt : FH} {F T : AFile}
    (hF : Held A bf F) (hT : Held A bt T) {lf lt : Bytes} (hFk : F.kind = 4) (hlf : lf.length ≤ 255)
    (hn : nameAt cfg.same A bf.id lf ≠ none) (hbad : T.kind ≠ 4 ∨ lt.length > 255) :
    ∃ e fs', secRename cfg bf lf bt lt fs = (.error e, fs') ∧ (e = .vfs 1 ∨ e = .vfs 36) ∧ Quiet fs fs' ∧
      viewOf fs' = remName cfg.same A bf.id lf := by
  obtain ⟨fs1, r1, q1, v1⟩ := remove_look (cfg := cfg) hA hF (name := lf) hFk hlf
  unfold secRename
  rw [sec_bind_ok r1]
  have hnF := nameAt_find (same := cfg.same) hF.obj lf
  cases hf : F.entries.find? (fun e => cfg.same lf e.name) with
  | none => rw [hf] at hnF; exact absurd hnF hn
  | some src =>
    dsimp only
    obtain ⟨T1, hT1, hTk1⟩ := held_rem hT cfg.same bf.id lf
    obtain ⟨e, fs2, r2, q2, v2, he⟩ := remove_throw (cfg := cfg) v1 hT1 (name := lt) (by rw [hTk1]; exact hbad)
    rw [sec_bind_error r2]
    exact ⟨e, fs2, rfl, he, q1.trans q2, v2⟩

/-- When the source directory cannot be searched nothing happens. -/
theorem secRename_throw {cfg : FsCfg} {fs : FullFs} {A : AFs} (hA : viewOf fs = A) {bf bt : FH} {F : AFile}
    (hF : Held A bf F) {lf lt : Bytes} (hbad : F.kind ≠ 4 ∨ lf.length > 255) :
    ∃ e fs', secRename cfg bf lf bt lt fs = (.error e, fs') ∧ (e = .vfs 1 ∨ e = .vfs 36) ∧ Quiet fs fs' ∧ viewOf fs' = A := by
  obtain ⟨e, fs2, r2, q2, v2, he⟩ := remove_throw (cfg := cfg) hA hF (name := lf) hbad
  unfold secRename
  rw [sec_bind_error r2]
  exact ⟨e, fs2, rfl, he, q2, v2⟩

/-! ## `vrename` -/

theorem nameAt_congr {same : Bytes → Bytes → Bool} (hs : SameEquiv same) (A : AFs) (d : Bytes) {n m : Bytes} (h : same n m = true) :
    nameAt same A d n = nameAt same A d m := by
  have : ∀ x, same n x = same m x := by
    intro x
    cases h1 : same n x with
    | true => exact (hs.trans _ _ _ (hs.symm _ _ h) h1).symm
    | false =>
      cases h2 : same m x with
      | false => rfl
      | true => rw [hs.trans _ _ _ h h2] at h1; cases h1
  unfold nameAt
  cases A d with
  | none => rfl
  | some f => simp only [this]

/-- What follows the locked part. -/
def renameRest (r : RenameOut) : Prog Int :=
  match r with
  | .missing => .ret (-2)
  | .done => .ret 0
  | .replaced e =>
    (Prog.one (secOpenAs e.id e.type)).bind fun holder =>
    (Prog.one (secUnlink holder)).bind fun _ => .ret 0

theorem rename_run {cfg : FsCfg} {fs : FullFs} (ht : DirTree (viewOf fs)) (hr : RootParent fs) {src dest : Bytes}
    {pf pt : Place} {lf lt : Bytes} (hf : resolveParent cfg.same (viewOf fs) src = .ok (pf, lf))
    (hd : resolveParent cfg.same (viewOf fs) dest = .ok (pt, lt)) :
    ∃ bf bt F T fs2, Held (viewOf fs) bf F ∧ Held (viewOf fs) bt T ∧ bf.id = pf.1 ∧ bt.id = pt.1 ∧ viewOf fs2 = viewOf fs ∧
      (vrename cfg src dest).run fs = ((Prog.one (secRename cfg bf lf bt lt)).bind renameRest).run fs2 := by
  have hb := openBase_agrees (cfg := cfg) ht hr src
  rw [hf] at hb
  obtain ⟨hc0, bf, hb1, hs⟩ := hb
  have hrun0 : (openBase cfg src).run fs = (.ok (bf, lf), ((openBase cfg src).run fs).2) := by rw [← hb1]
  generalize hfs1 : ((openBase cfg src).run fs).2 = fs1 at hc0 hrun0 hs
  have hb' := openBase_agrees (cfg := cfg) (fs := fs1) (by rw [hc0.view]; exact ht) (hc0.root hr) dest
  rw [hc0.view, hd] at hb'
  obtain ⟨hc1, bt, hb2, hs2⟩ := hb'
  have hrun1 : (openBase cfg dest).run fs1 = (.ok (bt, lt), ((openBase cfg dest).run fs1).2) := by rw [← hb2]
  obtain ⟨F, hF⟩ := hs.held
  obtain ⟨T, hT⟩ := hs2.held
  refine ⟨bf, bt, F, T, ((openBase cfg dest).run fs1).2, hF, hT, hs.id, hs2.id, hc1.view.trans hc0.view, ?_⟩
  unfold vrename
  rw [run_bind_ok hrun0]
  dsimp only
  rw [run_bind_ok hrun1]
  rfl

theorem rename_base_error {cfg : FsCfg} {fs : FullFs} (ht : DirTree (viewOf fs)) (hr : RootParent fs) {src dest : Bytes} {e : Err}
    (h : resolveParent cfg.same (viewOf fs) src = .error e ∨
      (∃ r, resolveParent cfg.same (viewOf fs) src = .ok r) ∧ resolveParent cfg.same (viewOf fs) dest = .error e) :
    ((vrename cfg src dest).run fs).1 = .error e ∧ viewOf ((vrename cfg src dest).run fs).2 = viewOf fs := by
  have hb := openBase_agrees (cfg := cfg) ht hr src
  rcases h with h | ⟨⟨⟨pf, lf⟩, hf⟩, h⟩
  · rw [h] at hb
    obtain ⟨hc0, hb1⟩ := hb
    dsimp only at hb1
    have hrun0 : (openBase cfg src).run fs = (.error e, ((openBase cfg src).run fs).2) := by rw [← hb1]
    unfold vrename
    rw [run_bind_error hrun0]
    exact ⟨rfl, hc0.view⟩
  · rw [hf] at hb
    obtain ⟨hc0, bf, hb1, hs⟩ := hb
    have hrun0 : (openBase cfg src).run fs = (.ok (bf, lf), ((openBase cfg src).run fs).2) := by rw [← hb1]
    generalize hfs1 : ((openBase cfg src).run fs).2 = fs1 at hc0 hrun0 hs
    have hb' := openBase_agrees (cfg := cfg) (fs := fs1) (by rw [hc0.view]; exact ht) (hc0.root hr) dest
    rw [hc0.view, h] at hb'
    obtain ⟨hc1, hb2⟩ := hb'
    dsimp only at hb2
    have hrun1 : (openBase cfg dest).run fs1 = (.error e, ((openBase cfg dest).run fs1).2) := by rw [← hb2]
    unfold vrename
    rw [run_bind_ok hrun0]
    dsimp only
    rw [run_bind_error hrun1]
    exact ⟨rfl, hc1.view.trans hc0.view⟩

end Securefs
