import Verif.Proofs.FullFsLinks
/-!
# C38, C39, C40, C41 and C60: the name space of the full format

The states are those between the operations of a sequential history (`Sequential`), except for C40 and for termination, which hold
for every interleaving of the lock-protected sections of any number of threads.
-/

namespace Securefs.Props

open Securefs Spec

/-! ## A file system to look at -/

/-- Names are compared byte by byte. -/
def fullDemoCfg : FsCfg := ⟨fun a b => a == b, true, 1000, 1000⟩

theorem fullDemoCfg_same : SameEquiv fullDemoCfg.same where
  refl a := by simp [fullDemoCfg]
  symm a b h := by simp [fullDemoCfg] at *; exact h.symm
  trans a b c h h' := by simp [fullDemoCfg] at *; exact h.trans h'

/-- An identifier. -/
def fullDemoId (n : UInt8) : Bytes := List.replicate 31 0 ++ [n]

/-- `/d`, `/d/f`, `/e`, `/g`, `/s -> e/../d`, `/l -> l`, and `/h`, another name of `/g`. -/
def demoFullOps : List FullOp :=
  [.mkdir [47, 100] 0x1ed 1 2 (fullDemoId 1), .create [47, 100, 47, 102] 0x1a4 1 2 (fullDemoId 2), .mkdir [47, 101] 0x1ed 1 2 (fullDemoId 3),
   .create [47, 103] 0x1a4 3 4 (fullDemoId 4), .symlink [101, 47, 46, 46, 47, 100] [47, 115] 1 2 (fullDemoId 5),
   .symlink [108] [47, 108] 1 2 (fullDemoId 6), .link [47, 103] [47, 104]]

/-- Operations that run alone, one after the other. -/
def runOps (cfg : FsCfg) : FullFs → List FullOp → FullFs
  | fs, [] => fs
  | fs, op :: rest => runOps cfg ((op.prog cfg).run fs).2 rest

/-- A check of the hypotheses of `Sequential.op`. -/
def roomCheck {α : Type} : Prog α → FullFs → Bool
  | .ret _, _ => true
  | .throw _, _ => true
  | .sec f k, fs => fs.nodes.all (fun p => decide (p.2.attr.nlink.toNat + 1 < 2 ^ 32)) &&
      match (f fs).1 with
      | .ok b => roomCheck (k b) (f fs).2
      | .error _ => true

theorem roomCheck_sound {α : Type} : ∀ (p : Prog α) (fs : FullFs), roomCheck p fs = true → RoomAlong p fs
  | .ret _, _, _ => trivial
  | .throw _, _, _ => trivial
  | .sec f k, fs, h => by
    simp only [roomCheck, Bool.and_eq_true] at h
    refine ⟨?_, ?_⟩
    · intro id n hg
      have := List.all_eq_true.mp h.1 (id, n) (mem_of_get hg)
      simpa using this
    · intro b hb
      have h2 := h.2
      rw [hb] at h2
      exact roomCheck_sound (k b) _ h2

/-- The same for the question about links. -/
def askedCheck (cfg : FsCfg) (fs : FullFs) : FullOp → Bool
  | .link s _ =>
    match resolvePath cfg.same (viewOf fs) s true with
    | .ok (some p) =>
      match viewOf fs p.1 with
      | some f => f.kind != 4
      | none => true
    | _ => true
  | _ => true

theorem askedCheck_sound {cfg : FsCfg} {fs : FullFs} {op : FullOp} (h : askedCheck cfg fs op = true) : Asked cfg fs op := by
  rintro s d rfl p hp ⟨f, hf, hk⟩
  simp only [askedCheck, hp, hf, hk] at h
  cases h

/-- The check for a list of operations. -/
def opsCheck (cfg : FsCfg) : FullFs → List FullOp → Bool
  | _, [] => true
  | fs, op :: rest => askedCheck cfg fs op && roomCheck (op.prog cfg) fs && opsCheck cfg ((op.prog cfg).run fs).2 rest

theorem opsCheck_sound {cfg : FsCfg} : ∀ (ops : List FullOp) (fs : FullFs), Sequential cfg fs → opsCheck cfg fs ops = true →
    Sequential cfg (runOps cfg fs ops)
  | [], _, h, _ => h
  | op :: rest, fs, h, hc => by
    simp only [opsCheck, Bool.and_eq_true] at hc
    exact opsCheck_sound rest _ (h.op op (askedCheck_sound hc.1.1) (roomCheck_sound _ _ hc.1.2)) hc.2

/-- The file system after `demoFullOps`. -/
def demoFs : FullFs := runOps fullDemoCfg (FullFs.fresh fullDemoCfg ⟨1, 0⟩) demoFullOps

theorem demoFs_sequential : Sequential fullDemoCfg demoFs :=
  opsCheck_sound demoFullOps _ (.fresh _) (by decide +kernel)

/-! ## C60: the shape of the tree -/

/-- Between operations that run alone, the directories form a tree as far as names go: every entry refers to an existing file of
    the type that it records, never to the root; only directories have entries; no directory has two names; names in a directory
    are different; and no file has more names than its link count. Missing: histories with a hard link whose source is a symbolic
    link to a directory, where it is false (`C60_link_violated` in `Verif.Props.FullFsExact`); `Asked` leaves them out. -/
theorem C60_tree_partial {cfg : FsCfg} (hs : SameEquiv cfg.same) {fs : FullFs} (h : Sequential cfg fs) :
    DirTree (viewOf fs) ∧ FsWF cfg fs ∧ RootParent fs ∧ ∀ x, nameCount fs x ≤ linkCount fs x := by
  have hi := seq_inv hs h
  refine ⟨hi.inv.tree, hi.wf, hi.inv.root, fun x => ?_⟩
  have := hi.books x
  unfold bal at this
  omega

/-- The state of the example is reached, and has seven files. -/
example : Sequential fullDemoCfg demoFs ∧ demoFs.nodes.length = 7 := ⟨demoFs_sequential, by decide +kernel⟩

/-! ## C38: removing a directory -/

/-- When the place cannot be resolved, when it is not a directory, or when the name is too long, `rmdir` fails and nothing changes;
    when there is no such name the result is `ENOENT` and nothing changes. -/
theorem C38_unchanged {cfg : FsCfg} (hs : SameEquiv cfg.same) {fs : FullFs} (h : Sequential cfg fs) (path : Bytes) :
    let out := (vrmdir cfg path).run fs
    match resolveParent cfg.same (viewOf fs) path with
    | .error e => out.1 = .error e ∧ viewOf out.2 = viewOf fs
    | .ok (p, last) =>
      (¬ IsDir (viewOf fs) p.1 ∨ last.length > 255 → (∃ e, out.1 = .error (.vfs e)) ∧ viewOf out.2 = viewOf fs) ∧
      (IsDir (viewOf fs) p.1 → last.length ≤ 255 → nameAt cfg.same (viewOf fs) p.1 last = none → out.1 = .ok (-2) ∧ viewOf out.2 = viewOf fs) := by
  have hi := (seq_inv hs h).inv
  intro out
  have hb := openBase_agrees (cfg := cfg) hi.tree hi.root path
  cases hres : resolveParent cfg.same (viewOf fs) path with
  | error e =>
    rw [hres] at hb
    obtain ⟨hc0, hb1⟩ := hb
    dsimp only at hb1
    have hrun0 : (openBase cfg path).run fs = (.error e, ((openBase cfg path).run fs).2) := by rw [← hb1]
    have : out = (.error e, ((openBase cfg path).run fs).2) := by
      show (vrmdir cfg path).run fs = _
      unfold vrmdir
      rw [run_bind_error hrun0]
    rw [this]
    exact ⟨rfl, hc0.view⟩
  | ok r =>
    obtain ⟨p, last⟩ := r
    dsimp only
    refine ⟨?_, ?_⟩
    · intro hbad
      rw [hres] at hb
      obtain ⟨hc0, hd, hb1, hsim⟩ := hb
      have hrun0 : (openBase cfg path).run fs = (.ok (hd, last), ((openBase cfg path).run fs).2) := by rw [← hb1]
      obtain ⟨f, hf⟩ := hsim.held
      have hbad' : f.kind ≠ 4 ∨ last.length > 255 := by
        rcases hbad with hbad | hbad
        · left
          intro hk
          exact hbad ⟨f, by rw [← hsim.id]; exact hf.obj, hk⟩
        · exact .inr hbad
      obtain ⟨e, fs', h1, _, h3, h4⟩ := remove_throw (cfg := cfg) hc0.view hf hbad'
      have : out = (.error e, fs') := by
        show (vrmdir cfg path).run fs = _
        unfold vrmdir
        rw [run_bind_ok hrun0]
        dsimp only
        rw [run_one_error h1]
      rw [this]
      refine ⟨?_, h3⟩
      rcases h4 with rfl | rfl
      · exact ⟨_, rfl⟩
      · exact ⟨_, rfl⟩
    · intro hdir hl hn
      obtain ⟨f, hf, hcase⟩ := rmdir_run hi.tree hi.root hres hdir hl
      have hn' := hn
      rw [nameAt_find hf] at hn'
      cases hfind : f.entries.find? (fun e => cfg.same last e.name) with
      | some e => rw [hfind] at hn'; cases hn'
      | none =>
        rw [hfind] at hcase
        refine ⟨hcase.1, ?_⟩
        rw [hcase.2, ← remName_eq hf, remName_nothing hn]

/-- Removing an empty directory removes exactly its name, decrements its link count, and changes nothing else. -/
theorem C38_empty {cfg : FsCfg} (hs : SameEquiv cfg.same) {fs : FullFs} (h : Sequential cfg fs) {path : Bytes} {p : Place} {last : Bytes}
    (hp : resolveParent cfg.same (viewOf fs) path = .ok (p, last)) (hd : IsDir (viewOf fs) p.1) (hl : last.length ≤ 255)
    {id : Bytes} {type : Nat} (hn : nameAt cfg.same (viewOf fs) p.1 last = some (id, type)) {g : AFile} (hg : viewOf fs id = some g)
    (hk : g.kind = 4) (he : g.entries = []) :
    let out := (vrmdir cfg path).run fs
    out.1 = .ok 0 ∧
    (∀ d n, nameAt cfg.same (viewOf out.2) d n = if d = p.1 ∧ cfg.same n last = true then none else nameAt cfg.same (viewOf fs) d n) ∧
    FilesChanged (fun x n => if x = id then n - 1 else n) (viewOf fs) (viewOf out.2) := by
  have hi := (seq_inv hs h).inv
  intro out
  obtain ⟨f, hf, hcase⟩ := rmdir_run hi.tree hi.root hp hd hl
  have hn' := hn
  rw [nameAt_find hf] at hn'
  cases hfind : f.entries.find? (fun e => cfg.same last e.name) with
  | none => rw [hfind] at hn'; cases hn'
  | some e =>
    rw [hfind] at hn' hcase
    dsimp only [Option.map] at hn'
    injection hn' with hn'
    injection hn' with hid hty
    dsimp only at hcase
    rw [hid] at hcase
    obtain ⟨g', hg', hgk', hcase⟩ := hcase
    have hne : id ≠ p.1 := by
      intro hc
      rw [hc, hf] at hg
      injection hg with hg
      subst hg
      rw [he] at hfind
      cases hfind
    rw [updA_ne _ _ hne, hg] at hg'
    injection hg' with hg'
    subst hg'
    rw [if_neg (by rw [hk]; decide), if_neg (by rw [he]; simp)] at hcase
    refine ⟨hcase.1, ?_, ?_⟩
    · intro d n
      rw [show viewOf out.2 = _ from hcase.2]
      have hgo : updA (viewOf fs) p.1 (f.without cfg.same last) id = some g := by rw [updA_ne _ _ hne]; exact hg
      rw [nameAt_less hgo, nameAt_without hs hf]
    · rw [show viewOf out.2 = _ from hcase.2]
      have hgo : updA (viewOf fs) p.1 (f.without cfg.same last) id = some g := by rw [updA_ne _ _ hne]; exact hg
      exact (filesChanged_upd (f' := f.without cfg.same last) hf rfl).trans (filesChanged_less hgo)

/-- C38 as far as it holds: `rmdir` of an empty directory removes exactly that entry, and in the cases of `C38_unchanged` a failure
    changes nothing.  Missing: when the target is not a directory or is not empty, nothing should change, but the entry is removed
    (`C38_violated`). -/
theorem C38_rmdir_partial {cfg : FsCfg} (hs : SameEquiv cfg.same) {fs : FullFs} (h : Sequential cfg fs) {path : Bytes} {p : Place}
    {last : Bytes} (hp : resolveParent cfg.same (viewOf fs) path = .ok (p, last)) (hd : IsDir (viewOf fs) p.1) (hl : last.length ≤ 255)
    (hok : ∀ id type, nameAt cfg.same (viewOf fs) p.1 last = some (id, type) → ∃ g, viewOf fs id = some g ∧ g.kind = 4 ∧ g.entries = []) :
    let out := (vrmdir cfg path).run fs
    (out.1 = .ok (-2) ∧ viewOf out.2 = viewOf fs) ∨
    (out.1 = .ok 0 ∧ ∀ d n, nameAt cfg.same (viewOf out.2) d n =
      if d = p.1 ∧ cfg.same n last = true then none else nameAt cfg.same (viewOf fs) d n) := by
  intro out
  cases hn : nameAt cfg.same (viewOf fs) p.1 last with
  | none =>
    have := C38_unchanged hs h path
    rw [hp] at this
    exact .inl (this.2 hd hl hn)
  | some r =>
    obtain ⟨g, hg, hk, he⟩ := hok r.1 r.2 hn
    have := C38_empty hs h hp hd hl hn hg hk he
    exact .inr ⟨this.1, this.2.1⟩

/-- `rmdir /e`: the hypotheses hold. -/
example : resolveParent fullDemoCfg.same (viewOf demoFs) [47, 101] = .ok (rootPlace, [101]) ∧
    nameAt fullDemoCfg.same (viewOf demoFs) kRootId [101] = some (fullDemoId 3, 4) ∧
    (viewOf demoFs (fullDemoId 3)).map (fun g => (g.kind, g.entries)) = some (4, []) ∧
    ((vrmdir fullDemoCfg [47, 101]).run demoFs).1 = .ok 0 := by decide +kernel

/-- C38 does not hold: when the name refers to a file that is not a directory, or to a directory that is not empty, `rmdir` fails
    and the name is gone.  No other name changes, and the file keeps its link count although it has lost a name. -/
theorem C38_violated {cfg : FsCfg} (hs : SameEquiv cfg.same) {fs : FullFs} (h : Sequential cfg fs) {path : Bytes} {p : Place}
    {last : Bytes} (hp : resolveParent cfg.same (viewOf fs) path = .ok (p, last)) (hd : IsDir (viewOf fs) p.1) (hl : last.length ≤ 255)
    {id : Bytes} {type : Nat} (hn : nameAt cfg.same (viewOf fs) p.1 last = some (id, type)) {g : AFile} (hg : viewOf fs id = some g)
    (hne : id ≠ p.1) (hbad : g.kind ≠ 4 ∨ g.entries ≠ []) :
    let out := (vrmdir cfg path).run fs
    (out.1 = .error (.vfs 1) ∨ out.1 = .error (.vfs 39)) ∧
    nameAt cfg.same (viewOf out.2) p.1 last = none ∧
    (∀ d n, nameAt cfg.same (viewOf out.2) d n = if d = p.1 ∧ cfg.same n last = true then none else nameAt cfg.same (viewOf fs) d n) ∧
    FilesChanged (fun _ n => n) (viewOf fs) (viewOf out.2) := by
  have hi := (seq_inv hs h).inv
  intro out
  obtain ⟨f, hf, hcase⟩ := rmdir_run hi.tree hi.root hp hd hl
  have hn' := hn
  rw [nameAt_find hf] at hn'
  cases hfind : f.entries.find? (fun e => cfg.same last e.name) with
  | none => rw [hfind] at hn'; cases hn'
  | some e =>
    rw [hfind] at hn' hcase
    dsimp only [Option.map] at hn'
    injection hn' with hn'
    injection hn' with hid hty
    dsimp only at hcase
    rw [hid] at hcase
    obtain ⟨g', hg', hgk', hcase⟩ := hcase
    rw [updA_ne _ _ hne, hg] at hg'
    injection hg' with hg'
    subst hg'
    have main : (out.1 = .error (.vfs 1) ∨ out.1 = .error (.vfs 39)) ∧ viewOf out.2 = updA (viewOf fs) p.1 (f.without cfg.same last) := by
      by_cases hk : g.kind ≠ 4
      · rw [if_pos hk] at hcase
        exact ⟨.inl hcase.1, hcase.2⟩
      · rw [if_neg hk, if_pos (hbad.resolve_left hk)] at hcase
        exact ⟨.inr hcase.1, hcase.2⟩
    have hnames : ∀ d n, nameAt cfg.same (viewOf out.2) d n =
        if d = p.1 ∧ cfg.same n last = true then none else nameAt cfg.same (viewOf fs) d n := by
      intro d n
      rw [main.2, nameAt_without hs hf]
    refine ⟨main.1, ?_, hnames, ?_⟩
    · rw [hnames, if_pos ⟨rfl, hs.refl _⟩]
    · rw [main.2]
      exact filesChanged_upd hf rfl

/-- `rmdir /d` where `/d/f` exists, and `rmdir /g` where `/g` is a regular file: both fail, and `/d` and `/g` are gone. -/
example : ((vrmdir fullDemoCfg [47, 100]).run demoFs).1 = .error (.vfs 39) ∧
    nameAt fullDemoCfg.same (viewOf demoFs) kRootId [100] = some (fullDemoId 1, 4) ∧
    nameAt fullDemoCfg.same (viewOf ((vrmdir fullDemoCfg [47, 100]).run demoFs).2) kRootId [100] = none ∧
    ((vrmdir fullDemoCfg [47, 103]).run demoFs).1 = .error (.vfs 1) ∧
    nameAt fullDemoCfg.same (viewOf demoFs) kRootId [103] = some (fullDemoId 4, 8) ∧
    nameAt fullDemoCfg.same (viewOf ((vrmdir fullDemoCfg [47, 103]).run demoFs).2) kRootId [103] = none := by decide +kernel

/-! ## C39: renaming -/

/-- Failures that leave the name space as it was: a path that does not resolve, a source place that is not a directory, a source name
    that is too long or does not exist. -/
theorem C39_unchanged {cfg : FsCfg} (hs : SameEquiv cfg.same) {fs : FullFs} (h : Sequential cfg fs) (src dest : Bytes) :
    let out := (vrename cfg src dest).run fs
    match resolveParent cfg.same (viewOf fs) src with
    | .error e => out.1 = .error e ∧ viewOf out.2 = viewOf fs
    | .ok (pf, lf) =>
      match resolveParent cfg.same (viewOf fs) dest with
      | .error e => out.1 = .error e ∧ viewOf out.2 = viewOf fs
      | .ok _ =>
        (¬ IsDir (viewOf fs) pf.1 ∨ lf.length > 255 → (∃ e, out.1 = .error (.vfs e)) ∧ viewOf out.2 = viewOf fs) ∧
        (IsDir (viewOf fs) pf.1 → lf.length ≤ 255 → nameAt cfg.same (viewOf fs) pf.1 lf = none →
          out.1 = .ok (-2) ∧ viewOf out.2 = viewOf fs) := by
  have hi := (seq_inv hs h).inv
  intro out
  cases hf : resolveParent cfg.same (viewOf fs) src with
  | error e => exact rename_base_error hi.tree hi.root (.inl hf)
  | ok r =>
    obtain ⟨pf, lf⟩ := r
    dsimp only
    cases hd : resolveParent cfg.same (viewOf fs) dest with
    | error e => exact rename_base_error hi.tree hi.root (.inr ⟨⟨_, hf⟩, hd⟩)
    | ok r2 =>
      obtain ⟨pt, lt⟩ := r2
      dsimp only
      obtain ⟨bf, bt, F, T, fs2, hF, hT, hbf, hbt, hv, hrun⟩ := rename_run hi.tree hi.root hf hd
      refine ⟨?_, ?_⟩
      · intro hbad
        have hbad' : F.kind ≠ 4 ∨ lf.length > 255 := by
          rcases hbad with hbad | hbad
          · left
            intro hk
            exact hbad ⟨F, by rw [← hbf]; exact hF.obj, hk⟩
          · exact .inr hbad
        obtain ⟨e, fs3, h1, h2, _, h4⟩ := secRename_throw (cfg := cfg) (bt := bt) (lt := lt) hv hF hbad'
        have : out = (.error e, fs3) := by
          show (vrename cfg src dest).run fs = _
          rw [hrun, run_one_error h1]
        rw [this]
        refine ⟨?_, h4⟩
        rcases h2 with rfl | rfl
        · exact ⟨_, rfl⟩
        · exact ⟨_, rfl⟩
      · rintro ⟨F', hF', hk⟩ hl hn
        have : F = F' := by
          have := hF.obj; rw [hbf, hF'] at this; injection this with this; exact this.symm
        subst this
        obtain ⟨fs3, r1, q1, v1⟩ := remove_look (cfg := cfg) hv hF (name := lf) hk hl
        rw [← hbf, nameAt_find hF.obj] at hn
        have hnone : F.entries.find? (fun e => cfg.same lf e.name) = none := by
          cases hx : F.entries.find? (fun e => cfg.same lf e.name) with
          | none => rfl
          | some e => rw [hx] at hn; cases hn
        have hsec : secRename cfg bf lf bt lt fs2 = (.ok .missing, fs3) := by
          unfold secRename
          rw [sec_bind_ok r1, hnone]
          rfl
        have : out = (.ok (-2), fs3) := by
          show (vrename cfg src dest).run fs = _
          rw [hrun, run_one_ok hsec]
          rfl
        rw [this]
        refine ⟨rfl, ?_⟩
        show viewOf fs3 = viewOf fs
        rw [v1, remName_nothing]
        rw [nameAt_find hF.obj]
        exact hn

/-- What a rename with an existing source does, when the target place is a directory and the target name is not too long. -/
theorem rename_outcome {cfg : FsCfg} (hs : SameEquiv cfg.same) {fs : FullFs} (h : Sequential cfg fs) {src dest : Bytes}
    {pf pt : Place} {lf lt : Bytes} (hf : resolveParent cfg.same (viewOf fs) src = .ok (pf, lf))
    (hd : resolveParent cfg.same (viewOf fs) dest = .ok (pt, lt)) (hfd : IsDir (viewOf fs) pf.1) (htd : IsDir (viewOf fs) pt.1)
    (hlf : lf.length ≤ 255) (hlt : lt.length ≤ 255) :
    ∃ r A1, Renamed cfg.same (viewOf fs) pf.1 lf pt.1 lt r A1 ∧
      match r with
      | .missing => ((vrename cfg src dest).run fs).1 = .ok (-2) ∧ viewOf ((vrename cfg src dest).run fs).2 = A1
      | .done => ((vrename cfg src dest).run fs).1 = .ok 0 ∧ viewOf ((vrename cfg src dest).run fs).2 = A1
      | .replaced e => ((vrename cfg src dest).run fs).1 = .ok 0 ∧
          ∃ g, A1 e.id = some g ∧ viewOf ((vrename cfg src dest).run fs).2 = updA A1 e.id g.less := by
  have hi := (seq_inv hs h).inv
  obtain ⟨bf, bt, F, T, fs2, hF, hT, hbf, hbt, hv, hrun⟩ := rename_run hi.tree hi.root hf hd
  obtain ⟨F', hF', hFk⟩ := hfd
  obtain ⟨T', hT', hTk⟩ := htd
  have e1 : F = F' := by have := hF.obj; rw [hbf, hF'] at this; injection this with this; exact this.symm
  have e2 : T = T' := by have := hT.obj; rw [hbt, hT'] at this; injection this with this; exact this.symm
  subst e1 e2
  obtain ⟨r, fs3, h1, h2, h3⟩ := secRename_view hs hv hF hT (lf := lf) (lt := lt) hFk hTk hlf hlt
  rw [hbf, hbt] at h3
  refine ⟨r, viewOf fs3, h3, ?_⟩
  rw [hrun, run_one_ok h1]
  cases r with
  | missing => exact ⟨rfl, rfl⟩
  | done => exact ⟨rfl, rfl⟩
  | replaced e =>
    dsimp only
    unfold renameRest
    dsimp only
    generalize hA1 : viewOf fs3 = A1 at h3
    cases h3 with
    | replaced s hsn _ hdn hne hmem =>
      obtain ⟨f, hfm, hem⟩ := hmem
      have ht1 := hi.tree.rem cfg.same pf.1 lf
      obtain ⟨hroot, hty, g0, hg0, hgk0⟩ := ht1.entry _ f e hfm hem
      obtain ⟨g1, hg1, hgk1⟩ := remName_fwd (same := cfg.same) pt.1 lt hg0
      obtain ⟨g2, hg2, hgk2⟩ := addName_fwd pt.1 ⟨lt, s.1, s.2⟩ hg1
      have hk : g2.kind = e.type := (hgk2.trans hgk1).trans hgk0
      obtain ⟨hop, hheld⟩ := openEntry_run ht1 (fs := fs3) hfm hem (by rw [hA1]; exact hg2) hk
      rw [run_one_ok hop]
      obtain ⟨fs4, hu, _, hv4⟩ := unlink_view (h := ⟨e.id, e.type⟩) hheld.obj
      rw [run_one_ok hu]
      exact ⟨rfl, g2, hg2, by rw [← hA1]; exact hv4⟩

/-- Renaming a name onto itself or onto another link of the same file succeeds and loses nothing. -/
theorem C39_same_file {cfg : FsCfg} (hs : SameEquiv cfg.same) {fs : FullFs} (h : Sequential cfg fs) {src dest : Bytes}
    {pf pt : Place} {lf lt : Bytes} (hf : resolveParent cfg.same (viewOf fs) src = .ok (pf, lf))
    (hd : resolveParent cfg.same (viewOf fs) dest = .ok (pt, lt)) (hfd : IsDir (viewOf fs) pf.1) (htd : IsDir (viewOf fs) pt.1)
    (hlf : lf.length ≤ 255) (hlt : lt.length ≤ 255) {id : Bytes} {ty ty' : Nat}
    (hn : nameAt cfg.same (viewOf fs) pf.1 lf = some (id, ty)) (hn' : nameAt cfg.same (viewOf fs) pt.1 lt = some (id, ty')) :
    let out := (vrename cfg src dest).run fs
    out.1 = .ok 0 ∧ (∀ d n, nameAt cfg.same (viewOf out.2) d n = nameAt cfg.same (viewOf fs) d n) ∧
    FilesChanged (fun _ n => n) (viewOf fs) (viewOf out.2) := by
  intro out
  obtain ⟨r, A1, hR, hout⟩ := rename_outcome hs h hf hd hfd htd hlf hlt
  obtain ⟨F, hFo, hFk⟩ := hfd
  obtain ⟨T, hTo, hTk⟩ := htd
  obtain ⟨F1, hF1, _⟩ := remName_fwd (same := cfg.same) pf.1 lf hFo
  obtain ⟨F2, hF2, _⟩ := remName_fwd (same := cfg.same) pt.1 lt hF1
  obtain ⟨T1, hT1, _⟩ := remName_fwd (same := cfg.same) pf.1 lf hTo
  obtain ⟨T2, hT2, _⟩ := remName_fwd (same := cfg.same) pt.1 lt hT1
  cases hR with
  | missing h0 => rw [h0] at hn; cases hn
  | moved s hsn h2 =>
    rw [hn] at hsn
    injection hsn with hsn
    subst hsn
    refine ⟨hout.1, ?_, ?_⟩
    · intro d n
      rw [show viewOf out.2 = _ from hout.2, nameAt_add hT2, nameAt_rem hs, nameAt_rem hs]
      dsimp only
      rw [nameAt_rem hs] at h2
      have hcond : pt.1 = pf.1 ∧ cfg.same lt lf = true := by
        by_cases hc : pt.1 = pf.1 ∧ cfg.same lt lf = true
        · exact hc
        · rw [if_neg hc, hn'] at h2; cases h2
      by_cases h1 : d = pt.1 ∧ cfg.same n lt = true
      · rw [if_pos h1, h1.1, hcond.1, nameAt_congr hs _ _ (hs.trans _ _ _ h1.2 hcond.2), hn]
      · rw [if_neg h1, if_neg h1, if_neg]
        rintro ⟨h3, h4⟩
        exact h1 ⟨h3.trans hcond.1.symm, hs.trans _ _ _ h4 (hs.symm _ _ hcond.2)⟩
    · rw [show viewOf out.2 = _ from hout.2]
      exact ((filesChanged_rem _ _ _ _).trans (filesChanged_rem _ _ _ _)).trans (filesChanged_add _ _ _)
  | replaced s hsn e h2 hne hmem =>
    rw [hn] at hsn
    injection hsn with hsn
    subst hsn
    rw [nameAt_rem hs] at h2
    by_cases hc : pt.1 = pf.1 ∧ cfg.same lt lf = true
    · rw [if_pos hc] at h2; cases h2
    · rw [if_neg hc, hn'] at h2
      injection h2 with h2
      injection h2 with h2
      exact absurd h2 hne
  | same s hsn t h2 =>
    rw [hn] at hsn
    injection hsn with hsn
    subst hsn
    obtain ⟨T3, hT3, _⟩ := addName_fwd pf.1 ⟨lf, id, ty⟩ hT2
    rw [nameAt_rem hs] at h2
    have hc : ¬ (pt.1 = pf.1 ∧ cfg.same lt lf = true) := by
      intro hc
      rw [if_pos hc] at h2; cases h2
    rw [if_neg hc] at h2
    refine ⟨hout.1, ?_, ?_⟩
    · intro d n
      rw [show viewOf out.2 = _ from hout.2, nameAt_add hT3, nameAt_add hF2, nameAt_rem hs, nameAt_rem hs]
      dsimp only
      by_cases h1 : d = pt.1 ∧ cfg.same n lt = true
      · rw [if_pos h1, h1.1, nameAt_congr hs _ _ h1.2, h2]
      · rw [if_neg h1, if_neg h1]
        by_cases h3 : d = pf.1 ∧ cfg.same n lf = true
        · rw [if_pos h3, h3.1, nameAt_congr hs _ _ h3.2, hn]
        · rw [if_neg h3, if_neg h3]
    · rw [show viewOf out.2 = _ from hout.2]
      exact (((filesChanged_rem _ _ _ _).trans (filesChanged_rem _ _ _ _)).trans (filesChanged_add _ _ _)).trans (filesChanged_add _ _ _)

/-- C39 as far as it holds: when the target place is a directory and the target name is not too long, an existing name that is not a
    link of the same file as the target moves to the target, replacing what was there, whose link count is decremented; every other
    name, and the contents, owners and modes of all files, are unaffected.  With `C39_unchanged` and `C39_same_file` this covers every
    case but those of `C39_violated`, where the target cannot take an entry. -/
theorem C39_moves_partial {cfg : FsCfg} (hs : SameEquiv cfg.same) {fs : FullFs} (h : Sequential cfg fs) {src dest : Bytes}
    {pf pt : Place} {lf lt : Bytes} (hf : resolveParent cfg.same (viewOf fs) src = .ok (pf, lf))
    (hd : resolveParent cfg.same (viewOf fs) dest = .ok (pt, lt)) (hfd : IsDir (viewOf fs) pf.1) (htd : IsDir (viewOf fs) pt.1)
    (hlf : lf.length ≤ 255) (hlt : lt.length ≤ 255) {id : Bytes} {ty : Nat}
    (hn : nameAt cfg.same (viewOf fs) pf.1 lf = some (id, ty)) (hn' : ∀ ty', nameAt cfg.same (viewOf fs) pt.1 lt ≠ some (id, ty')) :
    let out := (vrename cfg src dest).run fs
    out.1 = .ok 0 ∧
    (∀ d n, nameAt cfg.same (viewOf out.2) d n =
      if d = pt.1 ∧ cfg.same n lt = true then some (id, ty)
      else if d = pf.1 ∧ cfg.same n lf = true then none
      else nameAt cfg.same (viewOf fs) d n) ∧
    FilesChanged (fun x n => if (nameAt cfg.same (viewOf fs) pt.1 lt).map Prod.fst = some x then n - 1 else n) (viewOf fs) (viewOf out.2) := by
  intro out
  obtain ⟨r, A1, hR, hout⟩ := rename_outcome hs h hf hd hfd htd hlf hlt
  obtain ⟨F, hFo, hFk⟩ := hfd
  obtain ⟨T, hTo, hTk⟩ := htd
  obtain ⟨F1, hF1, _⟩ := remName_fwd (same := cfg.same) pf.1 lf hFo
  obtain ⟨F2, hF2, _⟩ := remName_fwd (same := cfg.same) pt.1 lt hF1
  obtain ⟨T1, hT1, _⟩ := remName_fwd (same := cfg.same) pf.1 lf hTo
  obtain ⟨T2, hT2, _⟩ := remName_fwd (same := cfg.same) pt.1 lt hT1
  have hother : ¬ (pt.1 = pf.1 ∧ cfg.same lt lf = true) := by
    intro hc
    refine hn' ty ?_
    rw [hc.1, nameAt_congr hs _ _ hc.2, hn]
  have hkey : nameAt cfg.same (remName cfg.same (viewOf fs) pf.1 lf) pt.1 lt = nameAt cfg.same (viewOf fs) pt.1 lt := by
    rw [nameAt_rem hs, if_neg hother]
  have hnames : ∀ d n, nameAt cfg.same (addName (remName cfg.same (remName cfg.same (viewOf fs) pf.1 lf) pt.1 lt) pt.1 ⟨lt, id, ty⟩) d n =
      if d = pt.1 ∧ cfg.same n lt = true then some (id, ty)
      else if d = pf.1 ∧ cfg.same n lf = true then none else nameAt cfg.same (viewOf fs) d n := by
    intro d n
    rw [nameAt_add hT2, nameAt_rem hs, nameAt_rem hs]
    dsimp only
    by_cases h1 : d = pt.1 ∧ cfg.same n lt = true
    · rw [if_pos h1, if_pos h1]
    · rw [if_neg h1, if_neg h1, if_neg h1]
  have hfiles : FilesChanged (fun _ n => n) (viewOf fs)
      (addName (remName cfg.same (remName cfg.same (viewOf fs) pf.1 lf) pt.1 lt) pt.1 ⟨lt, id, ty⟩) :=
    ((filesChanged_rem _ _ _ _).trans (filesChanged_rem _ _ _ _)).trans (filesChanged_add _ _ _)
  cases hR with
  | missing h0 => rw [h0] at hn; cases hn
  | moved s hsn h2 =>
    rw [hn] at hsn
    injection hsn with hsn
    subst hsn
    rw [hkey] at h2
    refine ⟨hout.1, ?_, ?_⟩
    · intro d n
      rw [show viewOf out.2 = _ from hout.2]
      exact hnames d n
    · rw [show viewOf out.2 = _ from hout.2, h2]
      exact hfiles
  | replaced s hsn e h2 hne hmem =>
    rw [hn] at hsn
    injection hsn with hsn
    subst hsn
    rw [hkey] at h2
    obtain ⟨h0, g, hg, hv⟩ := hout
    refine ⟨h0, ?_, ?_⟩
    · intro d n
      rw [show viewOf out.2 = _ from hv, nameAt_less hg]
      exact hnames d n
    · rw [show viewOf out.2 = _ from hv, h2]
      have := hfiles.trans (filesChanged_less hg)
      intro x
      rw [this x]
      dsimp only [Option.map]
      by_cases hx : x = e.id
      · subst hx; simp
      · have : ¬ (some e.id = some x) := by intro hc; injection hc with hc; exact hx hc.symm
        simp [hx, this]
  | same s hsn t h2 =>
    rw [hn] at hsn
    injection hsn with hsn
    subst hsn
    rw [hkey] at h2
    exact absurd h2 (hn' t)

/-- `rename /d/f /e`, where `/e` is a directory, and `rename /g /d/x`: the hypotheses of the theorem hold, and so do those of
    `C39_same_file` for `rename /g /h`. -/
example : resolveParent fullDemoCfg.same (viewOf demoFs) [47, 103] = .ok (rootPlace, [103]) ∧
    resolveParent fullDemoCfg.same (viewOf demoFs) [47, 100, 47, 120] = .ok ((fullDemoId 1, [kRootId]), [120]) ∧
    ((viewOf demoFs kRootId).map AFile.kind, (viewOf demoFs (fullDemoId 1)).map AFile.kind) = (some 4, some 4) ∧
    nameAt fullDemoCfg.same (viewOf demoFs) kRootId [103] = some (fullDemoId 4, 8) ∧
    nameAt fullDemoCfg.same (viewOf demoFs) (fullDemoId 1) [120] = none ∧
    nameAt fullDemoCfg.same (viewOf demoFs) kRootId [104] = some (fullDemoId 4, 8) ∧
    nameAt fullDemoCfg.same (viewOf ((vrename fullDemoCfg [47, 103] [47, 100, 47, 120]).run demoFs).2) (fullDemoId 1) [120] = some (fullDemoId 4, 8) ∧
    nameAt fullDemoCfg.same (viewOf ((vrename fullDemoCfg [47, 103] [47, 104]).run demoFs).2) kRootId [103] = some (fullDemoId 4, 8) := by
  decide +kernel

/-- C39 does not hold: when the source exists and the target place is not a directory or the target name is longer than 255 bytes, the
    rename fails and the source name is gone; nothing refers to the file under the target name. -/
theorem C39_violated {cfg : FsCfg} (hs : SameEquiv cfg.same) {fs : FullFs} (h : Sequential cfg fs) {src dest : Bytes}
    {pf pt : Place} {lf lt : Bytes} (hf : resolveParent cfg.same (viewOf fs) src = .ok (pf, lf))
    (hd : resolveParent cfg.same (viewOf fs) dest = .ok (pt, lt)) (hfd : IsDir (viewOf fs) pf.1) (hlf : lf.length ≤ 255)
    (hn : nameAt cfg.same (viewOf fs) pf.1 lf ≠ none) (hbad : ¬ IsDir (viewOf fs) pt.1 ∨ lt.length > 255) :
    let out := (vrename cfg src dest).run fs
    (out.1 = .error (.vfs 1) ∨ out.1 = .error (.vfs 36)) ∧
    nameAt cfg.same (viewOf out.2) pf.1 lf = none ∧
    (∀ d n, nameAt cfg.same (viewOf out.2) d n = if d = pf.1 ∧ cfg.same n lf = true then none else nameAt cfg.same (viewOf fs) d n) ∧
    FilesChanged (fun _ n => n) (viewOf fs) (viewOf out.2) := by
  have hi := (seq_inv hs h).inv
  intro out
  obtain ⟨bf, bt, F, T, fs2, hF, hT, hbf, hbt, hv, hrun⟩ := rename_run hi.tree hi.root hf hd
  obtain ⟨F', hF', hFk⟩ := hfd
  have e1 : F = F' := by have := hF.obj; rw [hbf, hF'] at this; injection this with this; exact this.symm
  subst e1
  have hbad' : T.kind ≠ 4 ∨ lt.length > 255 := by
    rcases hbad with hbad | hbad
    · left
      intro hk
      exact hbad ⟨T, by rw [← hbt]; exact hT.obj, hk⟩
    · exact .inr hbad
  obtain ⟨e, fs3, h1, h2, _, h4⟩ := secRename_lost hv hF hT hFk hlf (by rw [hbf]; exact hn) hbad'
  have hout : out = (.error e, fs3) := by
    show (vrename cfg src dest).run fs = _
    rw [hrun, run_one_error h1]
  have hnames : ∀ d n, nameAt cfg.same (viewOf out.2) d n =
      if d = pf.1 ∧ cfg.same n lf = true then none else nameAt cfg.same (viewOf fs) d n := by
    intro d n
    rw [hout]
    show nameAt cfg.same (viewOf fs3) d n = _
    rw [h4, nameAt_rem hs, hbf]
  refine ⟨?_, ?_, hnames, ?_⟩
  · rw [hout]
    rcases h2 with rfl | rfl
    · exact .inl rfl
    · exact .inr rfl
  · rw [hnames, if_pos ⟨rfl, hs.refl _⟩]
  · rw [hout]
    show FilesChanged _ _ (viewOf fs3)
    rw [h4]
    exact filesChanged_rem _ _ _ _

/-- `rename /g /xxx…` with 256 bytes, and `rename /d /g/x` where `/g` is a regular file: `/g` and `/d` are lost. -/
example : ((vrename fullDemoCfg [47, 103] (47 :: List.replicate 256 120)).run demoFs).1 = .error (.vfs 36) ∧
    nameAt fullDemoCfg.same (viewOf ((vrename fullDemoCfg [47, 103] (47 :: List.replicate 256 120)).run demoFs).2) kRootId [103] = none ∧
    ((vrename fullDemoCfg [47, 100] [47, 103, 47, 120]).run demoFs).1 = .error (.vfs 1) ∧
    nameAt fullDemoCfg.same (viewOf demoFs) kRootId [100] = some (fullDemoId 1, 4) ∧
    nameAt fullDemoCfg.same (viewOf ((vrename fullDemoCfg [47, 100] [47, 103, 47, 120]).run demoFs).2) kRootId [100] = none := by decide +kernel

/-! ## C40: link counts -/

/-- In every state of every history of any number of threads, in which any operation may fail at any point, a file has no more names
    than its link count says, and so every name refers to a file with a positive link count, unless a link count has reached its
    largest value. -/
theorem C40_names_le_links {cfg : FsCfg} (hs : SameEquiv cfg.same) (now : TimeSpec) (evs : List FullEvent)
    (hroom : Throughout cfg (fun s => LinkRoom s.fs) ⟨FullFs.fresh cfg now, []⟩ evs) (x : Bytes) :
    nameCount (FullSys.run cfg ⟨FullFs.fresh cfg now, []⟩ evs).fs x ≤ linkCount (FullSys.run cfg ⟨FullFs.fresh cfg now, []⟩ evs).fs x := by
  obtain ⟨lost, hi, _, _⟩ := books_run hs evs _ _ (fresh_books cfg now) hroom
  obtain ⟨hw, ⟨cs, hcs, hbal⟩, hl⟩ := hi
  have h1 := hbal x
  have h2 := hl x
  have h3 : 0 ≤ total cs x := total_nonneg _ _ cfg hcs x
  unfold bal at h1
  omega

/-- Every directory entry refers to a file that exists and has a positive link count, in every such history. -/
theorem C40_no_dangling {cfg : FsCfg} (hs : SameEquiv cfg.same) (now : TimeSpec) (evs : List FullEvent)
    (hroom : Throughout cfg (fun s => LinkRoom s.fs) ⟨FullFs.fresh cfg now, []⟩ evs) {d : Bytes} {n : Inode} {e : DirEntry}
    (hd : (FullSys.run cfg ⟨FullFs.fresh cfg now, []⟩ evs).fs.get d = some n) (he : e ∈ n.entries) :
    ∃ m, (FullSys.run cfg ⟨FullFs.fresh cfg now, []⟩ evs).fs.get e.id = some m ∧ m.attr.nlink ≠ 0 := by
  have h1 := C40_names_le_links hs now evs hroom e.id
  have h2 := nameCount_mem hd he
  unfold linkCount at h1
  cases hg : (FullSys.run cfg ⟨FullFs.fresh cfg now, []⟩ evs).fs.get e.id with
  | none => rw [hg] at h1; dsimp only at h1; omega
  | some m =>
    refine ⟨m, rfl, ?_⟩
    intro h0
    rw [hg] at h1
    dsimp only at h1
    rw [h0] at h1
    have : (0 : UInt32).toNat = 0 := rfl
    omega

/-- C40 as far as it holds: when every operation that was started has returned without an exception, in any interleaving, the link
    count of every file is the number of its names, except for the root, which has one more.  Missing: a directory that still has
    entries and is replaced by `rename` loses its last link, and when it is removed the files in it keep their counts
    (`C40_violated`); the hypothesis `NoOrphans` excludes that.  So do operations that fail halfway (`C38_violated`). -/
theorem C40_links_partial {cfg : FsCfg} (hs : SameEquiv cfg.same) (now : TimeSpec) (evs : List FullEvent)
    (hroom : Throughout cfg (fun s => LinkRoom s.fs) ⟨FullFs.fresh cfg now, []⟩ evs)
    (hret : AllReturned (FullSys.run cfg ⟨FullFs.fresh cfg now, []⟩ evs)) (horph : NoOrphans cfg ⟨FullFs.fresh cfg now, []⟩ evs) (x : Bytes) :
    linkCount (FullSys.run cfg ⟨FullFs.fresh cfg now, []⟩ evs).fs x =
      nameCount (FullSys.run cfg ⟨FullFs.fresh cfg now, []⟩ evs).fs x + if x = kRootId then 1 else 0 := by
  obtain ⟨lost, hi, _, hlost⟩ := books_run hs evs _ _ (fresh_books cfg now) hroom
  obtain ⟨hw, ⟨cs, hcs, hbal⟩, hl⟩ := hi
  have h1 := hbal x
  rw [hlost horph, total_returned hcs hret x] at h1
  unfold bal Credit.one at h1
  by_cases hx : x = kRootId
  · rw [if_pos hx] at h1 ⊢; omega
  · rw [if_neg hx] at h1 ⊢; omega

/-- The sections of an operation, one after the other, by the only thread. -/
def demoSteps (ops : List FullOp) : List FullEvent :=
  (ops.zipIdx.map fun (op, i) => .start op :: List.replicate 12 (.step i)).flatten

/-- A check of `LinkRoom` in every state, of `AllReturned`, and of `NoOrphans`. -/
def demoRoom (cfg : FsCfg) : FullSys → List FullEvent → Bool
  | s, [] => s.fs.nodes.all fun p => decide (p.2.attr.nlink.toNat + 1 < 2 ^ 32)
  | s, e :: rest => s.fs.nodes.all (fun p => decide (p.2.attr.nlink.toNat + 1 < 2 ^ 32)) && demoRoom cfg (s.step cfg e) rest

theorem demoRoom_sound {cfg : FsCfg} : ∀ (evs : List FullEvent) (s : FullSys), demoRoom cfg s evs = true →
    Throughout cfg (fun s => LinkRoom s.fs) s evs
  | [], s, h => by
    intro id n hg
    have := List.all_eq_true.mp h (id, n) (mem_of_get hg)
    simpa using this
  | e :: rest, s, h => by
    simp only [demoRoom, Bool.and_eq_true] at h
    refine ⟨?_, demoRoom_sound rest _ h.2⟩
    intro id n hg
    have := List.all_eq_true.mp h.1 (id, n) (mem_of_get hg)
    simpa using this

/-- Whether a program has returned. -/
def hasReturned : Prog Int → Bool
  | .ret _ => true
  | _ => false

theorem allReturned_of {s : FullSys} (h : s.threads.all hasReturned = true) : AllReturned s := by
  intro p hp
  have := List.all_eq_true.mp h p hp
  cases p with
  | ret v => exact ⟨v, rfl⟩
  | throw e => cases this
  | sec f k => cases this

theorem noOrphans_of {cfg : FsCfg} : ∀ (evs : List FullEvent) (s : FullSys), (∀ id, FullEvent.reap id ∉ evs) → NoOrphans cfg s evs
  | [], _, _ => trivial
  | e :: rest, s, h => by
    refine ⟨?_, noOrphans_of rest _ fun id hm => h id (List.mem_cons_of_mem _ hm)⟩
    cases e with
    | reap id => exact absurd List.mem_cons_self (h id)
    | _ => trivial

/-- Two threads, each of which makes the same file, interleaved, and a third that links the file. -/
def demoRace : List FullEvent :=
  [.start (.create [47, 103] 0x1a4 3 4 (fullDemoId 4)), .start (.create [47, 103] 0x1a4 3 4 (fullDemoId 5)), .step 0, .step 1, .step 0, .step 1,
   .step 1, .step 0, .step 0, .step 1, .start (.link [47, 103] [47, 104])] ++ List.replicate 12 (.step 2)

/-- In the race the second operation wins, the first throws `EEXIST` and its file has no link; the third succeeds. -/
example : Throughout fullDemoCfg (fun s => LinkRoom s.fs) ⟨FullFs.fresh fullDemoCfg ⟨1, 0⟩, []⟩ demoRace ∧
    (let fs := (FullSys.run fullDemoCfg ⟨FullFs.fresh fullDemoCfg ⟨1, 0⟩, []⟩ demoRace).fs
     (linkCount fs (fullDemoId 4), nameCount fs (fullDemoId 4), linkCount fs (fullDemoId 5), nameCount fs (fullDemoId 5)) = (0, 0, 2, 2)) :=
  ⟨demoRoom_sound _ _ (by decide +kernel), by decide +kernel⟩

/-- The hypotheses of `C40_links_partial` hold for a history with seven operations. -/
example : Throughout fullDemoCfg (fun s => LinkRoom s.fs) ⟨FullFs.fresh fullDemoCfg ⟨1, 0⟩, []⟩ (demoSteps demoFullOps) ∧
    AllReturned (FullSys.run fullDemoCfg ⟨FullFs.fresh fullDemoCfg ⟨1, 0⟩, []⟩ (demoSteps demoFullOps)) ∧
    NoOrphans fullDemoCfg ⟨FullFs.fresh fullDemoCfg ⟨1, 0⟩, []⟩ (demoSteps demoFullOps) ∧
    linkCount (FullSys.run fullDemoCfg ⟨FullFs.fresh fullDemoCfg ⟨1, 0⟩, []⟩ (demoSteps demoFullOps)).fs (fullDemoId 4) = 2 :=
  ⟨demoRoom_sound _ _ (by decide +kernel), allReturned_of (by decide +kernel),
   noOrphans_of _ _ (by
     intro id h
     simp [demoSteps, demoFullOps, List.zipIdx] at h),
   by decide +kernel⟩

/-- `mkdir /a; create /a/f; mkdir /b; rename /b /a`, and then the removal of the old `/a`. -/
def orphanOps : List FullOp :=
  [.mkdir [47, 97] 0x1ed 1 2 (fullDemoId 1), .create [47, 97, 47, 102] 0x1a4 1 2 (fullDemoId 2), .mkdir [47, 98] 0x1ed 1 2 (fullDemoId 3),
   .rename [47, 98] [47, 97]]

/-- C40 does not hold: after a rename over a directory that is not empty, all operations have returned, and a file has a link but no
    name. -/
theorem C40_violated :
    let s := FullSys.run fullDemoCfg ⟨FullFs.fresh fullDemoCfg ⟨1, 0⟩, []⟩ (demoSteps orphanOps ++ [.reap (fullDemoId 1)])
    AllReturned s ∧ linkCount s.fs (fullDemoId 2) = 1 ∧ nameCount s.fs (fullDemoId 2) = 0 :=
  ⟨allReturned_of (by decide +kernel), by decide +kernel, by decide +kernel⟩

/-! ## C41: path resolution -/

/-- Resolving a path finds what the specification says, in every state between operations: the object at the place, or nothing, or the
    same error, and it changes nothing that a user sees. -/
theorem C41_resolves {cfg : FsCfg} (hs : SameEquiv cfg.same) {fs : FullFs} (h : Sequential cfg fs) (path : Bytes) (follow : Bool) :
    let out := (openAll cfg path follow).run fs
    viewOf out.2 = viewOf fs ∧
    match resolvePath cfg.same (viewOf fs) path follow with
    | .error e => out.1 = .error e
    | .ok none => out.1 = .ok none
    | .ok (some p) => ∃ o, out.1 = .ok (some o) ∧ o.id = p.1 ∧ ∃ f, viewOf fs p.1 = some f ∧ f.kind = o.cls := by
  have hi := (seq_inv hs h).inv
  intro out
  obtain ⟨hc, hres⟩ := openAll_agrees (cfg := cfg) hi.tree hi.root path follow
  refine ⟨hc.view, ?_⟩
  cases hr : resolvePath cfg.same (viewOf fs) path follow with
  | error e => rw [hr] at hres; exact hres
  | ok o =>
    cases o with
    | none => rw [hr] at hres; exact hres
    | some p =>
      rw [hr] at hres
      obtain ⟨o, h1, hsim⟩ := hres
      obtain ⟨f, hf, hk⟩ := hsim.obj
      exact ⟨o, h1, hsim.id, f, by rw [← hsim.id]; exact hf, hk⟩

/-- `/s` leads to `/d` over the link `e/../d`, `/s/f` to `/d/f`, `/l` to itself, `/x` to nothing. -/
example : resolvePath fullDemoCfg.same (viewOf demoFs) [47, 115] true = .ok (some (fullDemoId 1, [kRootId])) ∧
    resolvePath fullDemoCfg.same (viewOf demoFs) [47, 115, 47, 102] false = .ok (some (fullDemoId 2, [fullDemoId 1, kRootId])) ∧
    resolvePath fullDemoCfg.same (viewOf demoFs) [47, 108] true = .error (.vfs 40) ∧
    resolvePath fullDemoCfg.same (viewOf demoFs) [47, 120] true = .ok none := by
  refine ⟨?_, ?_, ?_, ?_⟩ <;> decide +kernel

/-- The errors of path resolution: `EPERM` for a place that is not a directory, `ENOENT`, `ENAMETOOLONG` and `ELOOP`. -/
theorem C41_errors {cfg : FsCfg} (hs : SameEquiv cfg.same) {fs : FullFs} (h : Sequential cfg fs) (path : Bytes) (follow : Bool) {e : Err}
    (he : ((openAll cfg path follow).run fs).1 = .error e) : e = .vfs 1 ∨ e = .vfs 2 ∨ e = .vfs 36 ∨ e = .vfs 40 := by
  have hspec := (C41_resolves hs h path follow).2
  have herr : resolvePath cfg.same (viewOf fs) path follow = .error e := by
    cases hr : resolvePath cfg.same (viewOf fs) path follow with
    | error e' =>
      rw [hr] at hspec
      have : (Except.error e : Res (Option FH)) = .error e' := he.symm.trans hspec
      injection this with this
      rw [this]
    | ok o =>
      rw [hr] at hspec
      cases o with
      | none =>
        have : (Except.error e : Res (Option FH)) = .ok none := he.symm.trans hspec
        cases this
      | some p =>
        obtain ⟨o, h1, _⟩ := hspec
        have : (Except.error e : Res (Option FH)) = .ok (some o) := he.symm.trans h1
        cases this
  exact resolvePath_errors herr

/-- The hypothesis holds for `/g/x`, where `/g` is a regular file. -/
example : ((openAll fullDemoCfg [47, 103, 47, 120] true).run demoFs).1 = .error (.vfs 1) := by decide +kernel

/-- Resolution ends whatever other threads do in between: among any states in which no file has a content of more than `L` parts, a
    path of at most `L` parts is resolved within a number of sections that depends on `L` only. -/
theorem C41_terminates (cfg : FsCfg) (L : Nat) (path : Bytes) (follow : Bool) (hp : (parts path).length ≤ L) (states : Nat → FullFs)
    (hlinks : ∀ i, ShortLinks L (states i)) :
    Finished (remains (openAll cfg path follow) states (5 + 2 * sectionBound L 16)) :=
  within_finished _ _ _ hlinks (within_openAll rfl follow hp)

/-- Without a bound on the contents every operation still ends. -/
theorem C41_every_operation_ends (cfg : FsCfg) (op : FullOp) (states : Nat → FullFs) : ∃ n, Finished (remains (op.prog cfg) states n) :=
  finishes _ _

/-- The bound is not void: the contents in the example have at most three parts. -/
example : ∀ p ∈ demoFs.nodes, (parts p.2.data).length ≤ 3 := by decide +kernel

/-- A path that leads over `k + 1` symbolic links in one directory resolves if and only if there are no more than sixteen of them. -/
theorem C41_link_limit {cfg : FsCfg} (hs : SameEquiv cfg.same) {fs : FullFs} (h : Sequential cfg fs) {path : Bytes} (hne : path ≠ [])
    (hne' : path ≠ [47]) {p : Place} {name : Bytes} (hp : resolveParent cfg.same (viewOf fs) path = .ok (p, name)) {k : Nat} {last : Bytes}
    (hchain : LinkChain cfg.same (viewOf fs) p.1 (k + 1) name last) :
    let out := (openAll cfg path true).run fs
    (k + 1 ≤ 16 → ∃ o, out.1 = .ok (some o) ∧ o.id = last) ∧ (16 < k + 1 → out.1 = .error (.vfs 40)) := by
  intro out
  have hspec := (C41_resolves hs h path true).2
  obtain ⟨h1, h2, e, f, next, h3, hty, h4, h5, h6⟩ := hchain
  have hr : resolvePath cfg.same (viewOf fs) path true = resolve cfg.same (viewOf fs) 16 p [next] := by
    unfold resolvePath
    rw [if_neg (by rintro (h | h); exacts [hne h, hne' h]), hp]
    dsimp only
    rw [h3]
    dsimp only
    rw [if_pos ⟨rfl, hty⟩, h4]
    dsimp only
    rw [h5]
  rw [hr, chain_resolve k next 16 h6] at hspec
  refine ⟨?_, ?_⟩
  · intro hk
    rw [if_pos (by omega)] at hspec
    obtain ⟨o, h7, h8, _⟩ := hspec
    exact ⟨o, h7, h8⟩
  · intro hk
    rw [if_neg (by omega)] at hspec
    exact hspec

/-- `/s1 -> s2`, `/s2 -> g`, `/g` regular. -/
def chainFs : FullFs := runOps fullDemoCfg (FullFs.fresh fullDemoCfg ⟨1, 0⟩)
  [.create [47, 103] 0x1a4 3 4 (fullDemoId 4), .symlink [115, 50] [47, 115, 49] 1 2 (fullDemoId 5), .symlink [103] [47, 115, 50] 1 2 (fullDemoId 6)]

example : Sequential fullDemoCfg chainFs ∧ LinkChain fullDemoCfg.same (viewOf chainFs) kRootId 2 [115, 49] (fullDemoId 4) := by
  refine ⟨opsCheck_sound _ _ (.fresh _) (by decide +kernel), by decide, by decide, ⟨[115, 49], fullDemoId 5, 10⟩, ?_⟩
  refine ⟨(viewOf chainFs (fullDemoId 5)).get (by decide +kernel), [115, 50], by decide +kernel, rfl, by simp, by decide +kernel, by decide, by decide, ?_⟩
  refine ⟨⟨[115, 50], fullDemoId 6, 10⟩, (viewOf chainFs (fullDemoId 6)).get (by decide +kernel), [103], by decide +kernel, rfl, by simp, by decide +kernel,
    by decide, by decide, ?_⟩
  exact ⟨⟨[103], fullDemoId 4, 8⟩, by decide +kernel, by decide, rfl⟩

/-- A set of symbolic links in one directory that lead to each other never resolves: the answer is `ELOOP`. -/
theorem C41_cycle {cfg : FsCfg} (hs : SameEquiv cfg.same) {fs : FullFs} (h : Sequential cfg fs) {path : Bytes} (hne : path ≠ [])
    (hne' : path ≠ [47]) {p : Place} {name : Bytes} (hp : resolveParent cfg.same (viewOf fs) path = .ok (p, name)) (S : Bytes → Prop)
    (hS : ∀ name, S name → name ≠ [46] ∧ name ≠ [46, 46] ∧ ∃ e f next, lookupIn cfg.same (viewOf fs) p.1 name = .ok (some e) ∧ e.type = 10 ∧
      viewOf fs e.id = some f ∧ parts f.data = [next] ∧ S next) (hname : S name) :
    ((openAll cfg path true).run fs).1 = .error (.vfs 40) := by
  have hspec := (C41_resolves hs h path true).2
  obtain ⟨h1, h2, e, f, next, h3, h4, h5, h6, h7⟩ := hS name hname
  have hr : resolvePath cfg.same (viewOf fs) path true = resolve cfg.same (viewOf fs) 16 p [next] := by
    unfold resolvePath
    rw [if_neg (by rintro (h | h); exacts [hne h, hne' h]), hp]
    dsimp only
    rw [h3]
    dsimp only
    rw [if_pos ⟨rfl, h4⟩, h5]
    dsimp only
    rw [h6]
  rw [hr, cycle_resolve S hS 16 next h7] at hspec
  exact hspec

/-- `/l` of the example leads to itself. -/
example : lookupIn fullDemoCfg.same (viewOf demoFs) kRootId [108] = .ok (some ⟨[108], fullDemoId 6, 10⟩) ∧
    (viewOf demoFs (fullDemoId 6)).map (fun f => parts f.data) = some [[108]] := by decide +kernel

/-- `..` is not safe from eviction, because the `parent_id` of an object is only in memory: `mkdir /d/e/q/../../x` makes `/d/x`, but
    if the object of `/d/e` is evicted between two sections of it, it makes `/x`, and does not fail. -/
theorem C41_eviction_violated :
    let fs := runOps fullDemoCfg (FullFs.fresh fullDemoCfg ⟨1, 0⟩) [.mkdir [47, 100] 0x1ed 1 2 (fullDemoId 1),
      .mkdir [47, 100, 47, 101] 0x1ed 1 2 (fullDemoId 2), .mkdir [47, 100, 47, 101, 47, 113] 0x1ed 1 2 (fullDemoId 3)]
    let op := FullOp.mkdir [47, 100, 47, 101, 47, 113, 47, 46, 46, 47, 46, 46, 47, 120] 0x1ed 1 2 (fullDemoId 4)
    let run := fun k evs => FullSys.run fullDemoCfg ⟨fs, []⟩ ([.start op] ++ List.replicate k (.step 0) ++ evs ++ List.replicate 40 (.step 0))
    AllReturned (run 7 []) ∧ nameAt fullDemoCfg.same (viewOf (run 7 []).fs) (fullDemoId 1) [120] = some (fullDemoId 4, 4) ∧
    AllReturned (run 7 [.evict (fullDemoId 2)]) ∧ nameAt fullDemoCfg.same (viewOf (run 7 [.evict (fullDemoId 2)]).fs) (fullDemoId 1) [120] = none ∧
    nameAt fullDemoCfg.same (viewOf (run 7 [.evict (fullDemoId 2)]).fs) kRootId [120] = some (fullDemoId 4, 4) := by
  intro fs op run
  exact ⟨allReturned_of (by decide +kernel), by decide +kernel, allReturned_of (by decide +kernel), by decide +kernel, by decide +kernel⟩

end Securefs.Props
