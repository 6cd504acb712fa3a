import Verif.Proofs.PosixPath
import Verif.Props.FullFs
/-!
# C114: paths of the full format lead where POSIX says
-/

namespace Securefs.Props

open Spec

/-- C114 (found): whatever POSIX finds at a path that ends with a name, over links that are nested less than 16 deep, the full format finds, between operations;
    it finds nothing else there, and resolving changes nothing that a user sees. -/
theorem C114_found {cfg : FsCfg} (hs : SameEquiv cfg.same) {fs : FullFs} (h : Sequential cfg fs) {path : Bytes} {follow : Bool} {q : Place}
    (hl : PathLeadsTo cfg.same (viewOf fs) 16 path follow q) (he : EndsWithName path) :
    let out := (openAll cfg path follow).run fs
    (∃ o f, out.1 = .ok (some o) ∧ o.id = q.1 ∧ viewOf fs q.1 = some f ∧ f.kind = o.cls) ∧ viewOf out.2 = viewOf fs := by
  intro out
  have hr := pathLeads_resolve (sound_seq hs (seq_inv hs h)) hl he
  obtain ⟨h1, h2⟩ := C41_resolves hs h path follow
  rw [hr] at h2
  obtain ⟨o, h3, h4, f, h5, h6⟩ := h2
  exact ⟨⟨o, f, h3, h4, h5, h6⟩, h1⟩

/-- C114 (one place): POSIX leads to one place only. -/
theorem C114_one {cfg : FsCfg} (hs : SameEquiv cfg.same) {fs : FullFs} (h : Sequential cfg fs) {path : Bytes} {follow : Bool} {q q' : Place}
    (hl : PathLeadsTo cfg.same (viewOf fs) 16 path follow q) (hl' : PathLeadsTo cfg.same (viewOf fs) 16 path follow q') (he : EndsWithName path) : q = q' := by
  have h1 := pathLeads_resolve (sound_seq hs (seq_inv hs h)) hl he
  rw [pathLeads_resolve (sound_seq hs (seq_inv hs h)) hl' he] at h1
  injection h1 with h1
  injection h1 with h1
  exact h1.symm

/-- C114 (nothing else): what the full format finds at a path without dots, POSIX finds there, if the targets of links are relative, have no dots and do not end
    with a slash.  Missing: detours, where it is false (`C114_absolute_violated`, `C114_dots_violated`). -/
theorem C114_exact_partial {cfg : FsCfg} (hs : SameEquiv cfg.same) {fs : FullFs} (h : Sequential cfg fs) (hp : PlainLinks (viewOf fs)) {path : Bytes}
    {follow : Bool} (hh : path.head? = some 47) (hlast : path = [47] ∨ path.getLast? ≠ some 47) (hd : NoDots (parts path)) (he : EndsWithName path) {o : FH} :
    ((openAll cfg path follow).run fs).1 = .ok (some o) → ∃ q, PathLeadsTo cfg.same (viewOf fs) 16 path follow q ∧ q.1 = o.id := by
  intro ho
  obtain ⟨_, h2⟩ := C41_resolves hs h path follow
  rw [ho] at h2
  cases hr : resolvePath cfg.same (viewOf fs) path follow with
  | error e => rw [hr] at h2; cases h2
  | ok x =>
    rw [hr] at h2
    cases x with
    | none => injection h2 with h2; cases h2
    | some q =>
      obtain ⟨o', h3, h4, _⟩ := h2
      injection h3 with h3
      injection h3 with h3
      exact ⟨q, resolve_pathLeads (sound_seq hs (seq_inv hs h)) hp hh hlast hd he hr, by rw [← h4, h3]⟩

/-- Where a path leads: `/s` is a link to `e/../d`. -/
theorem demo_named {d name id : Bytes} (h1 : name ≠ [46]) (h2 : name ≠ [46, 46]) (h3 : name.length ≤ 255)
    (h4 : ((viewOf demoFs d).any fun f => f.kind == 4 && f.entries.any fun e => fullDemoCfg.same name e.name && e.id == id) = true) {g : AFile}
    (h5 : viewOf demoFs id = some g) : Named fullDemoCfg.same (viewOf demoFs) d name id g := by
  cases hd : viewOf demoFs d with
  | none => rw [hd] at h4; cases h4
  | some f =>
    rw [hd] at h4
    simp only [Option.any_some, Bool.and_eq_true, List.any_eq_true, beq_iff_eq] at h4
    obtain ⟨h6, e, h7, h8, h9⟩ := h4
    exact ⟨h1, h2, h3, f, e, hd, h6, h7, h8, h9, h5⟩

theorem demo_dir {d : Bytes} (h : ((viewOf demoFs d).any fun f => f.kind == 4) = true) : IsDir (viewOf demoFs) d := by
  cases hd : viewOf demoFs d with
  | none => rw [hd] at h; cases h
  | some f =>
    rw [hd] at h
    exact ⟨f, hd, by simpa using h⟩

example : PathLeadsTo fullDemoCfg.same (viewOf demoFs) 16 [47, 115, 47, 102] true (fullDemoId 2, [fullDemoId 1, kRootId]) ∧ EndsWithName [47, 115, 47, 102] := by
  have e0 : parts [47, 115, 47, 102] = [[115], [102]] := by decide +kernel
  obtain ⟨g1, hg1⟩ := Option.isSome_iff_exists.1 (show (viewOf demoFs (fullDemoId 1)).isSome = true by decide +kernel)
  obtain ⟨g2, hg2⟩ := Option.isSome_iff_exists.1 (show (viewOf demoFs (fullDemoId 2)).isSome = true by decide +kernel)
  obtain ⟨g3, hg3⟩ := Option.isSome_iff_exists.1 (show (viewOf demoFs (fullDemoId 3)).isSome = true by decide +kernel)
  obtain ⟨g5, hg5⟩ := Option.isSome_iff_exists.1 (show (viewOf demoFs (fullDemoId 5)).isSome = true by decide +kernel)
  have k : ∀ {id : Bytes} {g : AFile} (m : Nat × Bytes), viewOf demoFs id = some g → (viewOf demoFs id).map (fun f => (f.kind, f.data)) = some m → (g.kind, g.data) = m := by
    intro id g m h1 h2
    rw [h1] at h2
    injection h2
  have k1 := k (4, []) hg1 (by decide +kernel)
  have k2 := k (8, []) hg2 (by decide +kernel)
  have k3 := k (4, []) hg3 (by decide +kernel)
  have k5 := k (10, [101, 47, 46, 46, 47, 100]) hg5 (by decide +kernel)
  simp only [Prod.mk.injEq] at k1 k2 k3 k5
  refine ⟨⟨rfl, fun hx => absurd hx (by decide), ?_⟩, .inr ⟨[102], by rw [e0]; rfl, by decide, by decide⟩⟩
  rw [e0]
  refine ⟨(fullDemoId 1, [kRootId]), ?_, demo_dir (by decide +kernel),
    .inr (.inr ⟨fullDemoId 2, g2, demo_named (by decide) (by decide) (by decide) (by decide +kernel) hg2, .inl ⟨.inl (by rw [k2.1]; decide), rfl⟩⟩)⟩
  refine .link (demo_named (by decide) (by decide) (by decide) (by decide +kernel) hg5) k5.1 (by rw [k5.2]; decide) (by rw [k5.2]; decide) ?_
    (by rw [k5.2]; intro h; exact absurd h (by decide)) (.here _ _)
  have e1 : parts g5.data = [[101], [46, 46], [100]] := by rw [k5.2]; decide +kernel
  rw [e1]
  exact .down (demo_named (by decide) (by decide) (by decide) (by decide +kernel) hg3) (by rw [k3.1]; decide)
    (.up (demo_dir (by decide +kernel)) (.down (demo_named (by decide) (by decide) (by decide) (by decide +kernel) hg1) (by rw [k1.1]; decide) (.here _ _)))

/-- C114 is violated for absolute targets: they lead out of the volume, but the full format follows them as if they began at the directory of the link. -/
theorem C114_absolute_violated {cfg : FsCfg} (hs : SameEquiv cfg.same) {fs : FullFs} (h : Sequential cfg fs) {path : Bytes} (he : EndsWithName path)
    (hroot : path ≠ [47]) {p : Place} {last : Bytes} (hp : resolveParent cfg.same (viewOf fs) path = .ok (p, last)) {e : DirEntry}
    (hl : lookupIn cfg.same (viewOf fs) p.1 last = .ok (some e)) {g : AFile} (hg : viewOf fs e.id = some g) (hk : g.kind = 10) (habs : g.data.head? = some 47)
    {q : Place} (hq : resolve cfg.same (viewOf fs) 16 p (parts g.data) = .ok (some q)) :
    (∀ q', ¬ PathLeadsTo cfg.same (viewOf fs) 16 path true q') ∧ ∃ o, ((openAll cfg path true).run fs).1 = .ok (some o) ∧ o.id = q.1 := by
  have hS := sound_seq hs (seq_inv hs h)
  rcases he with he | ⟨last', he, h1, h2⟩
  · exact absurd he hroot
  have hp' := hp
  unfold resolveParent at hp'
  rw [he] at hp'
  dsimp only at hp'
  have hll : last' = last ∧ resolve cfg.same (viewOf fs) 16 rootPlace (parts path).dropLast = .ok (some p) := by
    cases hb : resolve cfg.same (viewOf fs) 16 rootPlace (parts path).dropLast with
    | error e => rw [hb] at hp'; cases hp'
    | ok x =>
      rw [hb] at hp'
      cases x with
      | none => cases hp'
      | some p1 =>
        injection hp' with hp'
        injection hp' with h5 h6
        exact ⟨h6, by rw [h5]⟩
  obtain ⟨rfl, hb⟩ := hll
  obtain ⟨g', hn, hk', hg'⟩ := named_lookup hS h1 h2 hl
  have hty : e.type = 10 := by
    rw [hg] at hg'
    injection hg' with hg'
    rw [← hk', ← hg', hk]
  have hne : ¬ (path = [] ∨ path = [47]) := by
    rintro (h5 | h5)
    · subst h5
      rw [show parts [] = [] by decide +kernel] at he
      cases he
    · exact hroot h5
  constructor
  · rintro q' ⟨_, _, hq'⟩
    rw [he] at hq'
    obtain ⟨p', hp1, _, hq'⟩ := hq'
    have := leads_resolve hS hp1
    rw [hb] at this
    injection this with this
    injection this with this
    subst this
    rcases hq' with ⟨h5, _⟩ | ⟨h5, _⟩ | ⟨id, g2, hn2, hq'⟩
    · exact h1 h5
    · exact h2 h5
    · obtain ⟨e2, he2, hid, ht⟩ := lookup_named hS hn2
      rw [hl] at he2
      injection he2 with he2
      injection he2 with he2
      subst he2
      have hg2 : viewOf fs id = some g2 := by obtain ⟨_, _, _, _, _, _, _, _, _, _, h⟩ := hn2; exact h
      rw [← hid, hg] at hg2
      injection hg2 with hg2
      subst hg2
      rcases hq' with ⟨h5 | h5, _⟩ | ⟨_, _, _, h5, _⟩
      · exact h5 hk
      · cases h5
      · exact h5 habs
  · obtain ⟨_, h7⟩ := C41_resolves hs h path true
    have : resolvePath cfg.same (viewOf fs) path true = .ok (some q) := by
      unfold resolvePath
      rw [if_neg hne, hp]
      dsimp only
      rw [hl]
      dsimp only
      rw [if_pos ⟨rfl, hty⟩, hg]
      exact hq
    rw [this] at h7
    obtain ⟨o, h8, h9, _⟩ := h7
    exact ⟨o, h8, h9⟩

/-- `/d`, `/d/x`, and `/d/l`, a link to `/x`, which does not exist in the volume. -/
private def absOps : List FullOp :=
  [.mkdir [47, 100] 0x1ed 1 2 (fullDemoId 1), .create [47, 100, 47, 120] 0x1a4 1 2 (fullDemoId 2), .symlink [47, 120] [47, 100, 47, 108] 1 2 (fullDemoId 3)]
private def absFs : FullFs := runOps fullDemoCfg (FullFs.fresh fullDemoCfg ⟨1, 0⟩) absOps

/- The kernel does not follow the link in `link`, so that this is reached: a hard link of `/d/l` is made, and is one of `/d/x`. -/
example : Sequential fullDemoCfg absFs ∧ EndsWithName [47, 100, 47, 108] ∧
    resolveParent fullDemoCfg.same (viewOf absFs) [47, 100, 47, 108] = .ok ((fullDemoId 1, [kRootId]), [108]) ∧
    lookupIn fullDemoCfg.same (viewOf absFs) (fullDemoId 1) [108] = .ok (some ⟨[108], fullDemoId 3, 10⟩) ∧
    (viewOf absFs (fullDemoId 3)).map (fun g => (g.kind, g.data)) = some (10, [47, 120]) ∧
    resolve fullDemoCfg.same (viewOf absFs) 16 (fullDemoId 1, [kRootId]) (parts [47, 120]) = .ok (some (fullDemoId 2, [fullDemoId 1, kRootId])) ∧
    nameAt fullDemoCfg.same (viewOf absFs) kRootId [120] = none ∧
    nameAt fullDemoCfg.same (viewOf (runOps fullDemoCfg absFs [.link [47, 100, 47, 108] [47, 110]])) kRootId [110] = some (fullDemoId 2, 8) :=
  ⟨opsCheck_sound _ _ (.fresh _) (by decide +kernel), .inr ⟨[108], by decide +kernel, by decide, by decide⟩, by decide +kernel, by decide +kernel,
    by decide +kernel, by decide +kernel, by decide +kernel, by decide +kernel⟩

/-- C114 is violated for dots: a file that is no directory is left by `..` without an error, where POSIX finds nothing; and a path that ends with `.` is not found,
    where POSIX finds the directory. -/
theorem C114_dots_violated {cfg : FsCfg} (hs : SameEquiv cfg.same) {fs : FullFs} (h : Sequential cfg fs) {s id : Bytes} {g : AFile}
    (hn : Named cfg.same (viewOf fs) kRootId s id g) (hk : g.kind ≠ 10) {path : Bytes} (hh : path.head? = some 47) :
    (g.kind ≠ 4 → parts path = [s, [46, 46], s] →
      (∀ q, ¬ PathLeadsTo cfg.same (viewOf fs) 16 path false q) ∧ ∃ o, ((openAll cfg path false).run fs).1 = .ok (some o) ∧ o.id = id) ∧
    (g.kind = 4 → parts path = [s, [46]] → path.getLast? ≠ some 47 → lookupIn cfg.same (viewOf fs) id [46] = .ok none →
      PathLeadsTo cfg.same (viewOf fs) 16 path false (id, [kRootId]) ∧ ((openAll cfg path false).run fs).1 = .ok none) := by
  have hS := sound_seq hs (seq_inv hs h)
  have hg : viewOf fs id = some g := by obtain ⟨_, _, _, _, _, _, _, _, _, _, h⟩ := hn; exact h
  obtain ⟨e, he, hid, ht⟩ := lookup_named hS hn
  have hne : ∀ {l : List Bytes}, parts path = l → l ≠ [] → ¬ (path = [] ∨ path = [47]) := by
    intro l h1 h2 h3
    rcases h3 with h3 | h3
    · subst h3; cases hh
    · subst h3; rw [parts_root] at h1; exact h2 h1.symm
  have hroot : ∀ rest, resolve cfg.same (viewOf fs) 16 rootPlace (s :: rest) = resolve cfg.same (viewOf fs) 16 (id, [kRootId]) rest := by
    intro rest
    rw [resolve_cons 15 rootPlace s rest hn.1 hn.2.1]
    have he : lookupIn cfg.same (viewOf fs) rootPlace.1 s = .ok (some e) := he
    rw [he]
    dsimp only
    rw [if_neg (by rw [ht]; exact hk), hid]
    rfl
  constructor
  · intro hk4 hparts
    constructor
    · rintro q ⟨_, _, hq⟩
      rw [hparts] at hq
      obtain ⟨p, hl, _⟩ := hq
      have hl' : LeadsTo cfg.same (viewOf fs) 16 rootPlace [s, [46, 46]] p := hl
      have same_file : ∀ {id' : Bytes} {g' : AFile}, Named cfg.same (viewOf fs) rootPlace.1 s id' g' → id' = id ∧ g' = g := by
        intro id' g' hn'
        obtain ⟨e', he', hid', _⟩ := lookup_named hS hn'
        have he2 : lookupIn cfg.same (viewOf fs) rootPlace.1 s = .ok (some e) := he
        rw [he2] at he'
        injection he' with he'
        injection he' with he'
        have hid2 : id' = id := by rw [← hid', ← he', hid]
        obtain ⟨_, _, _, _, _, _, _, _, _, _, hg'⟩ := hn'
        rw [hid2, hg] at hg'
        injection hg' with hg'
        exact ⟨hid2, hg'.symm⟩
      cases hl' with
      | dot hd _ => exact hn.1 rfl
      | up hd _ => exact hn.2.1 rfl
      | down hn' _ h' =>
        obtain ⟨rfl, rfl⟩ := same_file hn'
        cases h' with
        | up hd _ =>
          obtain ⟨f, hf, hk'⟩ := hd
          rw [hg] at hf
          injection hf with hf
          exact hk4 (by rw [hf]; exact hk')
        | down hn2 _ _ => exact hn2.2.1 rfl
        | link hn2 _ _ _ _ _ _ => exact hn2.2.1 rfl
      | link hn' hk' _ _ _ _ _ =>
        obtain ⟨rfl, rfl⟩ := same_file hn'
        exact hk hk'
    · have hr : resolvePath cfg.same (viewOf fs) path false = .ok (some (id, [kRootId])) := by
        have hpar : resolveParent cfg.same (viewOf fs) path = .ok (rootPlace, s) := by
          have hup : resolve cfg.same (viewOf fs) 16 (id, [kRootId]) [[46, 46]] = .ok (some rootPlace) := by
            simp only [resolve]
            rw [resolveWith, if_neg (by decide), if_pos rfl]
            rfl
          have e1 : ([s, [46, 46], s] : List Bytes).dropLast = [s, [46, 46]] := rfl
          have e2 : ([s, [46, 46], s] : List Bytes).getLast? = some s := rfl
          unfold resolveParent
          rw [hparts, e1, e2, hroot, hup]
        unfold resolvePath
        rw [if_neg (hne hparts (by simp)), hpar]
        have he : lookupIn cfg.same (viewOf fs) rootPlace.1 s = .ok (some e) := he
        dsimp only
        rw [he]
        dsimp only
        rw [if_neg (by rintro ⟨h1, _⟩; cases h1), hid]
        rfl
      obtain ⟨_, h7⟩ := C41_resolves hs h path false
      rw [hr] at h7
      obtain ⟨o, h8, h9, _⟩ := h7
      exact ⟨o, h8, h9⟩
  · intro hk4 hparts hlast hdot
    constructor
    · refine ⟨hh, fun hx => absurd hx hlast, ?_⟩
      rw [hparts]
      exact ⟨(id, [kRootId]), .down hn hk (.here _ _), ⟨g, hg, hk4⟩, .inl ⟨rfl, rfl⟩⟩
    · have hr : resolvePath cfg.same (viewOf fs) path false = .ok none := by
        have hpar : resolveParent cfg.same (viewOf fs) path = .ok ((id, [kRootId]), [46]) := by
          have e1 : ([s, [46]] : List Bytes).dropLast = [s] := rfl
          have e2 : ([s, [46]] : List Bytes).getLast? = some [46] := rfl
          unfold resolveParent
          rw [hparts, e1, e2, hroot]
          rfl
        unfold resolvePath
        rw [if_neg (hne hparts (by simp)), hpar]
        dsimp only
        rw [hdot]
      obtain ⟨_, h7⟩ := C41_resolves hs h path false
      rw [hr] at h7
      exact h7

example : lookupIn fullDemoCfg.same (viewOf demoFs) kRootId [103] = .ok (some ⟨[103], fullDemoId 4, 8⟩) ∧
    parts [47, 103, 47, 46, 46, 47, 103] = [[103], [46, 46], [103]] ∧ parts [47, 101, 47, 46] = [[101], [46]] ∧
    lookupIn fullDemoCfg.same (viewOf demoFs) kRootId [101] = .ok (some ⟨[101], fullDemoId 3, 4⟩) ∧
    lookupIn fullDemoCfg.same (viewOf demoFs) (fullDemoId 3) [46] = .ok none := by decide +kernel

/-- C114 is violated for errors: a path over a file that is no directory gives `EPERM` (1), where POSIX has `ENOTDIR` (20). -/
theorem C114_notdir_violated {cfg : FsCfg} (hs : SameEquiv cfg.same) {fs : FullFs} (h : Sequential cfg fs) {path : Bytes} (follow : Bool) (hroot : path ≠ [47])
    (hne : path ≠ []) {p : Place} {last : Bytes} (hp : resolveParent cfg.same (viewOf fs) path = .ok (p, last)) {f : AFile} (hf : viewOf fs p.1 = some f)
    (hk : f.kind ≠ 4) : ((openAll cfg path follow).run fs).1 = .error (.vfs 1) := by
  obtain ⟨_, h7⟩ := C41_resolves hs h path follow
  have : resolvePath cfg.same (viewOf fs) path follow = .error (.vfs 1) := by
    unfold resolvePath
    rw [if_neg (by rintro (h | h); exacts [hne h, hroot h]), hp]
    dsimp only
    unfold lookupIn
    rw [hf]
    dsimp only
    rw [if_pos hk]
  rw [this] at h7
  exact h7

example : resolveParent fullDemoCfg.same (viewOf demoFs) [47, 103, 47, 120] = .ok ((fullDemoId 4, [kRootId]), [120]) ∧
    (viewOf demoFs (fullDemoId 4)).map (·.kind) = some 8 := by decide +kernel

end Securefs.Props
