import Verif.Props.FullFs
import Verif.Proofs.FullFsData
/-!
# C70: the operations on names and attributes of the full format are exact

The states are those between the operations of a sequential history (`Sequential`).  `viewOf` is what a user sees of a state: all files
by identifier, with mode, owner, group, link count, contents and entries.
-/

namespace Securefs.Props

open Securefs Spec

/-! ## Making files -/

/-- What the three operations that make a file do, as one statement. -/
def MakesExactly (cfg : FsCfg) (fs : FullFs) (path newId : Bytes) (kind : Nat) (f : AFile) (prog : Prog Int) : Prop :=
  let out := prog.run fs
  let ideal := specCreate cfg.same (viewOf fs) path newId kind f
  out.1 = ideal.1 ∧ (∀ x, x ≠ newId → viewOf out.2 x = ideal.2 x) ∧ (out.1 = .ok 0 → viewOf out.2 = ideal.2)

theorem makesExactly {cfg : FsCfg} {fs : FullFs} (hi : TreeInv fs) {path newId : Bytes} {mode : UInt32} {kind : Nat} (hk : GoodCls kind)
    {uid gid : UInt32} (hn : viewOf fs newId = none) {f : AFile} {rest : FH → Prog Int}
    (hok : ∀ p last, resolveParent cfg.same (viewOf fs) path = .ok (p, last) → lookupIn cfg.same (viewOf fs) p.1 last = .ok none →
      ∃ fs', ((createFile cfg path mode kind uid gid newId).bind rest).run fs = (.ok 0, fs') ∧
        viewOf fs' = alter (withFile (viewOf fs) newId f) p.1 (entryAdded ⟨last, newId, kind⟩)) :
    MakesExactly cfg fs path newId kind f ((createFile cfg path mode kind uid gid newId).bind rest) := by
  obtain ⟨fs1, h1⟩ := createFile_view (cfg := cfg) hi path mode hk uid gid hn
  unfold MakesExactly specCreate onName
  dsimp only
  cases hres : resolveParent cfg.same (viewOf fs) path with
  | error e =>
    rw [hres] at h1
    dsimp only at h1 ⊢
    rw [run_bind_error h1.1]
    exact ⟨rfl, fun x _ => by rw [h1.2], fun h => by cases h⟩
  | ok r =>
    obtain ⟨p, last⟩ := r
    rw [hres] at h1
    dsimp only at h1 ⊢
    cases hl : lookupIn cfg.same (viewOf fs) p.1 last with
    | error e =>
      rw [hl] at h1
      dsimp only at h1 ⊢
      rw [run_bind_error h1.1]
      refine ⟨rfl, fun x hx => ?_, fun h => by cases h⟩
      rw [h1.2]
      exact if_neg hx
    | ok r =>
      cases r with
      | some x =>
        rw [hl] at h1
        dsimp only at h1 ⊢
        rw [run_bind_error h1.1]
        refine ⟨rfl, fun x hx => ?_, fun h => by cases h⟩
        rw [h1.2]
        exact if_neg hx
      | none =>
        obtain ⟨fs2, h2, h3⟩ := hok p last hres hl
        rw [h2]
        exact ⟨rfl, fun x _ => by rw [h3], fun _ => h3⟩

theorem create_ok {cfg : FsCfg} {fs : FullFs} (hi : TreeInv fs) {path newId : Bytes} {mode : UInt32} {kind : Nat} (hk : GoodCls kind)
    {uid gid : UInt32} (hn : viewOf fs newId = none) (p : Place) (last : Bytes) (hres : resolveParent cfg.same (viewOf fs) path = .ok (p, last))
    (hl : lookupIn cfg.same (viewOf fs) p.1 last = .ok none) :
    ∃ fs', ((createFile cfg path mode kind uid gid newId).bind fun _ => Prog.ret (0 : Int)).run fs = (.ok 0, fs') ∧
      viewOf fs' = alter (withFile (viewOf fs) newId (newFile cfg.osUid cfg.osGid mode kind uid gid [])) p.1 (entryAdded ⟨last, newId, kind⟩) := by
  obtain ⟨fs1, h1⟩ := createFile_view (cfg := cfg) hi path mode hk uid gid hn
  rw [hres] at h1
  dsimp only at h1
  rw [hl] at h1
  refine ⟨fs1, ?_, h1.2.1⟩
  rw [run_bind_ok h1.1]
  rfl

/-- C70, making files, as far as it holds: with an identifier that is not in use, `create`, `mkdir` and `symlink` give the result of the ideal
    file system, and the ideal state except perhaps for the new identifier; when they succeed the whole state is the ideal one.  The
    file has the permissions and the owner asked for, one link, and for a symbolic link the target as contents.  Missing: when they fail, there
    should be no new file (`C70_leak_violated`). -/
theorem C70_make_partial {cfg : FsCfg} (hs : SameEquiv cfg.same) {fs : FullFs} (h : Sequential cfg fs) (path : Bytes) (mode uid gid : UInt32)
    {newId : Bytes} (hn : viewOf fs newId = none) :
    MakesExactly cfg fs path newId 8 (newFile cfg.osUid cfg.osGid mode 8 uid gid []) (vcreate cfg path mode uid gid newId) ∧
    MakesExactly cfg fs path newId 4 (newFile cfg.osUid cfg.osGid mode 4 uid gid []) (vmkdir cfg path mode uid gid newId) ∧
    ∀ target, MakesExactly cfg fs path newId 10 (newFile cfg.osUid cfg.osGid 0x1a4 10 uid gid target) (vsymlink cfg target path uid gid newId) := by
  have hi := (seq_inv hs h).inv
  refine ⟨?_, ?_, fun target => ?_⟩
  · exact makesExactly hi (.inr (.inl rfl)) hn (create_ok hi (.inr (.inl rfl)) hn)
  · exact makesExactly hi (.inl rfl) hn (create_ok hi (.inl rfl) hn)
  · exact makesExactly hi (.inr (.inr rfl)) hn fun p last hres hl => symlink_view hi target path uid gid hn hres hl

/-- `mkdir /d/k` with mode 0755 and user -1: the identifier is not in use, the operation succeeds, and the new directory is there with the
    user of the process. -/
example : viewOf demoFs (fullDemoId 9) = none ∧ ((vmkdir fullDemoCfg [47, 100, 47, 107] 0x1ed 0xffffffff 2 (fullDemoId 9)).run demoFs).1 = .ok 0 ∧
    nameAt fullDemoCfg.same (viewOf ((vmkdir fullDemoCfg [47, 100, 47, 107] 0x1ed 0xffffffff 2 (fullDemoId 9)).run demoFs).2) (fullDemoId 1) [107] =
      some (fullDemoId 9, 4) ∧
    viewOf ((vmkdir fullDemoCfg [47, 100, 47, 107] 0x1ed 0xffffffff 2 (fullDemoId 9)).run demoFs).2 (fullDemoId 9) =
      some ⟨0x41ed, 1000, 2, 1, [], []⟩ := by decide +kernel

/-- When the name is taken the failed operation leaves a file without a link, and with its removal, which happens when the object is closed
    (C35), the state is as before. -/
theorem C70_exists {cfg : FsCfg} (hs : SameEquiv cfg.same) {fs : FullFs} (h : Sequential cfg fs) (path : Bytes) (mode uid gid : UInt32)
    {newId : Bytes} (hn : viewOf fs newId = none) (he : ((vcreate cfg path mode uid gid newId).run fs).1 = .error (.vfs 17)) :
    let out := ((vcreate cfg path mode uid gid newId).run fs).2
    viewOf (FullSys.step cfg ⟨out, []⟩ (.reap newId)).fs = viewOf fs := by
  have hi := (seq_inv hs h).inv
  intro out
  obtain ⟨fs1, h1⟩ := createFile_view (cfg := cfg) hi path mode (type := typeRegular) (.inr (.inl rfl)) uid gid hn
  have hr : newId ≠ kRootId := by
    rintro rfl
    obtain ⟨f, hf, _⟩ := hi.tree.root
    rw [hf] at hn
    cases hn
  have hgone : ∀ (s : FullFs) (g : AFile), g.nlink = 0 → viewOf s = withFile (viewOf fs) newId g →
      viewOf (FullSys.step cfg ⟨s, []⟩ (.reap newId)).fs = viewOf fs := by
    intro s g hg0 hv
    have hnew : viewOf s newId = some g := by rw [hv]; exact if_pos rfl
    obtain ⟨n, hgn, hng⟩ := get_of_view hnew
    simp only [FullSys.step]
    rw [hgn]
    dsimp only
    have h0 : n.attr.nlink = 0 := by rw [← hng] at hg0; exact hg0
    rw [if_pos ⟨h0, hr⟩]
    funext x
    have hget : ({ s with nodes := s.nodes.filter fun p => p.1 ≠ newId } : FullFs).get x = if x = newId then none else s.get x :=
      nodes_lookup_filter_ne s.nodes newId x
    show (({ s with nodes := s.nodes.filter fun p => p.1 ≠ newId } : FullFs).get x).map viewFile = _
    rw [hget]
    by_cases hx : x = newId
    · rw [if_pos hx, hx, hn]; rfl
    · rw [if_neg hx]
      show viewOf s x = _
      rw [hv]
      exact if_neg hx
  have hsame : ∀ s, viewOf s = viewOf fs → viewOf (FullSys.step cfg ⟨s, []⟩ (.reap newId)).fs = viewOf fs := by
    intro s hv
    have hnone : s.get newId = none := by
      cases hg : s.get newId with
      | none => rfl
      | some n => rw [← hv, view_of_get hg] at hn; cases hn
    simp only [FullSys.step]
    rw [hnone]
    exact hv
  have hrun : ∀ {e}, (createFile cfg path mode typeRegular uid gid newId).run fs = (.error e, fs1) →
      (vcreate cfg path mode uid gid newId).run fs = (.error e, fs1) := by
    intro e he
    unfold vcreate
    rw [run_bind_error he]
  cases hres : resolveParent cfg.same (viewOf fs) path with
  | error e =>
    rw [hres] at h1
    dsimp only at h1
    rw [show out = fs1 from congrArg Prod.snd (hrun h1.1)]
    exact hsame _ h1.2
  | ok r =>
    obtain ⟨p, last⟩ := r
    rw [hres] at h1
    dsimp only at h1
    cases hl : lookupIn cfg.same (viewOf fs) p.1 last with
    | error e =>
      exfalso
      rw [hl] at h1
      dsimp only at h1
      rw [hrun h1.1] at he
      injection he with he
      subst he
      unfold lookupIn at hl
      split at hl
      · cases hl
      · split at hl
        · cases hl
        · split at hl <;> cases hl
    | ok r =>
      cases r with
      | some x =>
        rw [hl] at h1
        dsimp only at h1
        rw [show out = fs1 from congrArg Prod.snd (hrun h1.1)]
        exact hgone _ _ rfl h1.2
      | none =>
        exfalso
        rw [hl] at h1
        dsimp only at h1
        unfold vcreate at he
        rw [run_bind_ok h1.1] at he
        cases he

/-- `create /g`, where `/g` exists. -/
example : ((vcreate fullDemoCfg [47, 103] 0x1a4 1 2 (fullDemoId 9)).run demoFs).1 = .error (.vfs 17) := by decide +kernel

/-- C70 does not hold for failures: when the directory of the path is not a directory, or the name is longer than 255 bytes, `create` fails
    and leaves a file that has a link but no name.  It is there in every later state, whatever is done: nothing removes it. -/
theorem C70_leak_violated {cfg : FsCfg} (hs : SameEquiv cfg.same) {fs : FullFs} (h : Sequential cfg fs) {path : Bytes} (mode uid gid : UInt32)
    {newId : Bytes} (hn : viewOf fs newId = none) {p : Place} {last : Bytes} (hp : resolveParent cfg.same (viewOf fs) path = .ok (p, last))
    (hbad : ¬ IsDir (viewOf fs) p.1 ∨ last.length > 255) (room : RoomAlong ((FullOp.create path mode uid gid newId).prog cfg) fs) :
    let out := (vcreate cfg path mode uid gid newId).run fs
    (∃ e, out.1 = .error e) ∧ nameCount out.2 newId = 0 ∧ ∀ later, Later cfg out.2 later → ∃ f, viewOf later newId = some f ∧ f.nlink ≠ 0 := by
  have hi := seq_inv hs h
  intro out
  have hseq : Sequential cfg out.2 := h.op (.create path mode uid gid newId) (fun s d hc => by cases hc) room
  have hio := seq_inv hs hseq
  obtain ⟨fs1, h1⟩ := createFile_view (cfg := cfg) hi.inv path mode (type := typeRegular) (.inr (.inl rfl)) uid gid hn
  rw [hp] at h1
  dsimp only at h1
  have hl : ∃ e, lookupIn cfg.same (viewOf fs) p.1 last = .error e := by
    unfold lookupIn
    cases hA : viewOf fs p.1 with
    | none => exact ⟨_, rfl⟩
    | some f =>
      dsimp only
      by_cases hk : f.kind ≠ 4
      · rw [if_pos hk]; exact ⟨_, rfl⟩
      · rw [if_neg hk, if_pos]
        · exact ⟨_, rfl⟩
        · rcases hbad with hb | hb
          · exact absurd ⟨f, hA, not_not.mp hk⟩ hb
          · exact hb
  obtain ⟨e, hl⟩ := hl
  rw [hl] at h1
  dsimp only at h1
  have hout : out = (.error e, fs1) := by
    show (vcreate cfg path mode uid gid newId).run fs = _
    unfold vcreate
    rw [run_bind_error h1.1]
  have hnew : viewOf out.2 newId = some (newFile cfg.osUid cfg.osGid mode typeRegular uid gid []) := by
    rw [hout]
    show viewOf fs1 newId = _
    rw [h1.2]
    exact if_pos rfl
  have hnames : nameCount out.2 newId = 0 := by
    unfold nameCount
    rw [List.length_eq_zero_iff, List.filter_eq_nil_iff]
    intro x hx
    obtain ⟨⟨d, n⟩, hdn, hxn⟩ := List.mem_flatMap.mp hx
    dsimp only at hxn
    have hget : out.2.get d = some n := get_of_mem hio.wf.ids hdn
    have hv := view_of_get hget
    have hd : d ≠ newId := by
      rintro rfl
      rw [hnew] at hv
      injection hv with hv
      have : n.entries = [] := by
        have := congrArg AFile.entries hv
        exact this.symm
      rw [this] at hxn
      cases hxn
    have hold : viewOf fs d = some (viewFile n) := by
      rw [hout] at hv
      have hv' : viewOf fs1 d = some (viewFile n) := hv
      rw [h1.2] at hv'
      rw [← hv']
      exact (if_neg hd).symm
    obtain ⟨_, _, g, hg, _⟩ := hi.inv.tree.entry d _ x hold hxn
    intro hc
    have : x.id = newId := by simpa using hc
    rw [this, hn] at hg
    cases hg
  refine ⟨⟨e, by rw [hout]⟩, hnames, fun later hlater => ?_⟩
  obtain ⟨_, hb⟩ := later_books hs hio hlater
  have h0 := hb newId
  obtain ⟨n, hgn, hnn⟩ := get_of_view hnew
  have hlc : linkCount out.2 newId = 1 := by
    unfold linkCount
    rw [hgn]
    dsimp only
    have : n.attr.nlink = 1 := congrArg AFile.nlink hnn
    rw [this]
    rfl
  unfold bal at h0
  rw [hlc, hnames] at h0
  cases hgl : later.get newId with
  | none =>
    have : linkCount later newId = 0 := by unfold linkCount; rw [hgl]
    omega
  | some m =>
    refine ⟨viewFile m, view_of_get hgl, ?_⟩
    intro hz
    have hz' : m.attr.nlink = 0 := hz
    have : linkCount later newId = 0 := by
      unfold linkCount
      rw [hgl]
      dsimp only
      rw [hz']
      rfl
    omega

/-- `create /g/x`, where `/g` is a regular file, and a name of 256 bytes. -/
example : resolveParent fullDemoCfg.same (viewOf demoFs) [47, 103, 47, 120] = .ok ((fullDemoId 4, [kRootId]), [120]) ∧
    (viewOf demoFs (fullDemoId 4)).map AFile.kind = some 8 ∧
    roomCheck ((FullOp.create [47, 103, 47, 120] 0x1a4 1 2 (fullDemoId 9)).prog fullDemoCfg) demoFs = true ∧
    ((vcreate fullDemoCfg [47, 103, 47, 120] 0x1a4 1 2 (fullDemoId 9)).run demoFs).1 = .error (.vfs 1) ∧
    ((vcreate fullDemoCfg (47 :: List.replicate 256 120) 0x1a4 1 2 (fullDemoId 9)).run demoFs).1 = .error (.vfs 36) := by decide +kernel

/-! ## What was made is found -/

/-- After a successful `create`, `mkdir` or `symlink` the path leads to the new file. -/
theorem C70_found {cfg : FsCfg} (hs : SameEquiv cfg.same) {fs : FullFs} (h : Sequential cfg fs) {path : Bytes} (hne : path ≠ []) (hsl : path ≠ [47])
    (mode uid gid : UInt32) {newId : Bytes} (hn : viewOf fs newId = none) (target : Bytes) :
    (((vcreate cfg path mode uid gid newId).run fs).1 = .ok 0 →
      ∃ up, resolvePath cfg.same (viewOf ((vcreate cfg path mode uid gid newId).run fs).2) path false = .ok (some (newId, up))) ∧
    (((vmkdir cfg path mode uid gid newId).run fs).1 = .ok 0 →
      ∃ up, resolvePath cfg.same (viewOf ((vmkdir cfg path mode uid gid newId).run fs).2) path false = .ok (some (newId, up))) ∧
    (((vsymlink cfg target path uid gid newId).run fs).1 = .ok 0 →
      ∃ up, resolvePath cfg.same (viewOf ((vsymlink cfg target path uid gid newId).run fs).2) path false = .ok (some (newId, up))) := by
  have hi := (seq_inv hs h).inv
  have key : ∀ {kind : Nat} {f : AFile} {prog : Prog Int}, MakesExactly cfg fs path newId kind f prog → (prog.run fs).1 = .ok 0 →
      ∃ up, resolvePath cfg.same (viewOf (prog.run fs).2) path false = .ok (some (newId, up)) := by
    intro kind f prog hm hok
    obtain ⟨h1, _, h3⟩ := hm
    rw [h3 hok]
    rw [hok] at h1
    unfold specCreate onName at h1 ⊢
    cases hres : resolveParent cfg.same (viewOf fs) path with
    | error e => rw [hres] at h1; cases h1
    | ok r =>
      obtain ⟨p, last⟩ := r
      rw [hres] at h1
      dsimp only at h1 ⊢
      cases hl : lookupIn cfg.same (viewOf fs) p.1 last with
      | error e => rw [hl] at h1; cases h1
      | ok r =>
        cases r with
        | some x => rw [hl] at h1; cases h1
        | none =>
          dsimp only
          have hnp : newId ≠ p.1 := by
            rintro rfl
            unfold lookupIn at hl
            rw [hn] at hl
            cases hl
          obtain ⟨g1, g2, g3⟩ := grow_created hs (f := f) (type := kind) hn hl hnp
          refine ⟨p.1 :: p.2, ?_⟩
          unfold resolvePath
          rw [if_neg (by rintro (hc | hc); exact hne hc; exact hsl hc), resolveParent_grow g1 g2 hres]
          dsimp only
          rw [g3]
          dsimp only
          rw [if_neg (by rintro ⟨hc, _⟩; cases hc)]
  obtain ⟨m1, m2, m3⟩ := C70_make_partial hs h path mode uid gid hn
  exact ⟨key m1, key m2, key (m3 target)⟩

/-- A symbolic link that has just been made reads back as what it was made with, cut to what fits before the terminator. -/
theorem C70_symlink_readlink {cfg : FsCfg} (hs : SameEquiv cfg.same) {fs : FullFs} (h : Sequential cfg fs) {path : Bytes} (hne : path ≠ [])
    (hsl : path ≠ [47]) (uid gid : UInt32) {newId : Bytes} (hn : viewOf fs newId = none) (target : Bytes)
    (hok : ((vsymlink cfg target path uid gid newId).run fs).1 = .ok 0)
    (room : RoomAlong ((FullOp.symlink target path uid gid newId).prog cfg) fs) (size : Nat) (hsize : 0 < size) :
    ((fullReadlink cfg path size).run ((vsymlink cfg target path uid gid newId).run fs).2).1 = .ok (0, target.take (size - 1)) := by
  have hseq : Sequential cfg ((vsymlink cfg target path uid gid newId).run fs).2 :=
    h.op (.symlink target path uid gid newId) (fun s d hc => by cases hc) room
  have hio := (seq_inv hs hseq).inv
  obtain ⟨up, hup⟩ := (C70_found hs h hne hsl 0 uid gid hn target).2.2 hok
  obtain ⟨_, _, m3⟩ := C70_make_partial hs h path 0 uid gid hn
  obtain ⟨h1, h2, h3⟩ := m3 target
  have hview := h3 hok
  rw [hok] at h1
  have hfile : viewOf ((vsymlink cfg target path uid gid newId).run fs).2 newId = some (newFile cfg.osUid cfg.osGid 0x1a4 10 uid gid target) := by
    rw [hview]
    unfold specCreate onName at h1 ⊢
    cases hres : resolveParent cfg.same (viewOf fs) path with
    | error e => rw [hres] at h1; cases h1
    | ok r =>
      obtain ⟨p, last⟩ := r
      rw [hres] at h1
      dsimp only at h1 ⊢
      cases hl : lookupIn cfg.same (viewOf fs) p.1 last with
      | error e => rw [hl] at h1; cases h1
      | ok r =>
        cases r with
        | some x => rw [hl] at h1; cases h1
        | none =>
          dsimp only
          have hnp : newId ≠ p.1 := by
            rintro rfl
            unfold lookupIn at hl
            rw [hn] at hl
            cases hl
          unfold alter withFile
          rw [if_neg hnp, if_pos rfl]
  obtain ⟨fs', hr, _⟩ := readlink_exact (cfg := cfg) hio path size
  rw [hr]
  dsimp only
  unfold specReadlink
  rw [if_neg (by omega), if_neg hsl]
  unfold onFile
  rw [hup]
  dsimp only
  rw [hfile]
  dsimp only
  rw [if_pos]
  · rfl
  · exact newFile_kind (.inr (.inr rfl)) _ _ _ _ _ _

/-- `symlink abc /d/k` and `readlink` with room for everything and with a buffer of three bytes. -/
example : ((vsymlink fullDemoCfg [97, 98, 99] [47, 100, 47, 107] 1 2 (fullDemoId 9)).run demoFs).1 = .ok 0 ∧
    roomCheck ((FullOp.symlink [97, 98, 99] [47, 100, 47, 107] 1 2 (fullDemoId 9)).prog fullDemoCfg) demoFs = true ∧
    ((fullReadlink fullDemoCfg [47, 100, 47, 107] 9).run
      ((vsymlink fullDemoCfg [97, 98, 99] [47, 100, 47, 107] 1 2 (fullDemoId 9)).run demoFs).2).1 = .ok (0, [97, 98, 99]) ∧
    ((fullReadlink fullDemoCfg [47, 100, 47, 107] 3).run
      ((vsymlink fullDemoCfg [97, 98, 99] [47, 100, 47, 107] 1 2 (fullDemoId 9)).run demoFs).2).1 = .ok (0, [97, 98]) := by decide +kernel

/-! ## The other operations -/

/-- `unlink` is exact: result and state are those of the ideal file system, whatever the path. -/
theorem C70_unlink {cfg : FsCfg} (hs : SameEquiv cfg.same) {fs : FullFs} (h : Sequential cfg fs) (path : Bytes) :
    let out := (vunlink cfg path).run fs
    (out.1, viewOf out.2) = specUnlink cfg.same (viewOf fs) path := by
  obtain ⟨fs', h1, h2⟩ := unlink_exact (cfg := cfg) (seq_inv hs h).inv path
  dsimp only
  rw [h1, h2]

/-- `unlink /h`, one of the two names of `/g`: one link is left. -/
example : ((vunlink fullDemoCfg [47, 104]).run demoFs).1 = .ok 0 ∧
    (specUnlink fullDemoCfg.same (viewOf demoFs) [47, 104]).2 (fullDemoId 4) = some ⟨0x81a4, 3, 4, 1, [], []⟩ ∧
    nameAt fullDemoCfg.same (specUnlink fullDemoCfg.same (viewOf demoFs) [47, 104]).2 kRootId [104] = none ∧
    nameAt fullDemoCfg.same (specUnlink fullDemoCfg.same (viewOf demoFs) [47, 104]).2 kRootId [103] = some (fullDemoId 4, 8) := by decide +kernel

/-- `readlink` is exact, and changes nothing. -/
theorem C70_readlink {cfg : FsCfg} (hs : SameEquiv cfg.same) {fs : FullFs} (h : Sequential cfg fs) (path : Bytes) (size : Nat) :
    let out := (fullReadlink cfg path size).run fs
    (out.1, viewOf out.2) = specReadlink cfg.same (viewOf fs) path size := by
  obtain ⟨fs', h1, h2⟩ := readlink_exact (cfg := cfg) (seq_inv hs h).inv path size
  dsimp only
  rw [h1, h2]

/-- `readlink /s` with eight bytes, with three, and of a regular file. -/
example : ((fullReadlink fullDemoCfg [47, 115] 8).run demoFs).1 = .ok (0, [101, 47, 46, 46, 47, 100]) ∧
    ((fullReadlink fullDemoCfg [47, 115] 3).run demoFs).1 = .ok (0, [101, 47]) ∧
    ((fullReadlink fullDemoCfg [47, 103] 3).run demoFs).1 = .error (.vfs 1) := by decide +kernel

/-- `chmod`, `chown`, `utimens`, `getattr` and `open` are exact: the file that the path leads to, without following a link at the end
    except for `open`, has the new permissions or owners, and nothing else changes. -/
theorem C70_attributes {cfg : FsCfg} (hs : SameEquiv cfg.same) {fs : FullFs} (h : Sequential cfg fs) (path : Bytes) :
    let does := fun (op : FullOp) (ideal : Res Int × AFs) => (((op.prog cfg).run fs).1, viewOf ((op.prog cfg).run fs).2) = ideal
    let A := viewOf fs
    (∀ m, does (.chmod path m) (specAttr cfg.same A path false (chmodded m))) ∧
    (∀ u g, does (.chown path u g) (specAttr cfg.same A path false (chowned u g))) ∧
    (∀ garbage ts, does (.utimens path garbage ts) (specAttr cfg.same A path false id)) ∧
    does (.getattr path) (specAttr cfg.same A path false id) ∧
    does (.open path false) (specAttr cfg.same A path true id) := by
  have hi := (seq_inv hs h).inv
  dsimp only
  have key : ∀ {follow : Bool} {f : TimeSpec → FileAttr → FileAttr} {g : AFile → AFile},
      (∀ now n, viewFile { n with attr := f now n.attr } = g (viewFile n)) →
      (((withAttr cfg path follow f).run fs).1, viewOf ((withAttr cfg path follow f).run fs).2) = specAttr cfg.same (viewOf fs) path follow g := by
    intro follow f g hfg
    obtain ⟨fs', h1, h2⟩ := withAttr_exact (cfg := cfg) hi path follow hfg
    rw [h1, h2]
  refine ⟨fun m => key fun now n => ?_, fun u g => key fun now n => ?_, fun garbage ts => key fun now n => ?_, getattr_view hi path, open_view hi path⟩
  · unfold chmodded viewFile FileAttr.chmod FileAttr.setMode FileAttr.touchCtime
    split
    · next he => dsimp only; rw [← he]
    · split <;> rfl
  · unfold chowned viewFile FileAttr.chown FileAttr.setUid FileAttr.setGid FileAttr.touchCtime
    dsimp only
    split <;> split <;> (try split) <;> (try split) <;> (try split) <;> simp_all
  · unfold viewFile FileAttr.utimens
    split
    · split <;> rfl
    · rfl

/-- `chmod /s 0777` changes the link itself, and `chown /g 7 -1`. -/
example : (specAttr fullDemoCfg.same (viewOf demoFs) [47, 115] false (chmodded 0x1ff)).1 = .ok 0 ∧
    (specAttr fullDemoCfg.same (viewOf demoFs) [47, 115] false (chmodded 0x1ff)).2 (fullDemoId 5) =
      some ⟨0xa1ff, 1, 2, 1, [101, 47, 46, 46, 47, 100], []⟩ ∧
    (specAttr fullDemoCfg.same (viewOf demoFs) [47, 103] false (chowned 7 0xffffffff)).2 (fullDemoId 4) = some ⟨0x81a4, 7, 4, 2, [], []⟩ := by
  decide +kernel

/-! ## Hard links -/

/-- What `link` does, whatever the paths: the ideal operation on what the source leads to when a link at the end is followed. -/
theorem C70_link_follows {cfg : FsCfg} (hs : SameEquiv cfg.same) {fs : FullFs} (h : Sequential cfg fs) (src dest : Bytes) :
    let out := (vlink cfg src dest).run fs
    (out.1, viewOf out.2) = specLink cfg.same (viewOf fs) true src dest := by
  obtain ⟨fs', h1, h2⟩ := link_exact (cfg := cfg) (seq_inv hs h).inv src dest
  dsimp only
  rw [h1, h2]

/-- C70, links, as far as it holds: when the source is not a symbolic link, `link` is exact.  Missing: a symbolic link as the source
    (`C70_link_violated`). -/
theorem C70_link_partial {cfg : FsCfg} (hs : SameEquiv cfg.same) {fs : FullFs} (h : Sequential cfg fs) (src dest : Bytes)
    (hsrc : ∀ p f, resolvePath cfg.same (viewOf fs) src false = .ok (some p) → viewOf fs p.1 = some f → f.kind ≠ 10) :
    let out := (vlink cfg src dest).run fs
    (out.1, viewOf out.2) = specLink cfg.same (viewOf fs) false src dest := by
  have hi := (seq_inv hs h).inv
  have := C70_link_follows hs h src dest
  dsimp only at this ⊢
  rw [this]
  unfold specLink onFile
  have hsame : resolvePath cfg.same (viewOf fs) src true = resolvePath cfg.same (viewOf fs) src false := by
    unfold resolvePath at hsrc ⊢
    by_cases h0 : src = [] ∨ src = [47]
    · rw [if_pos h0, if_pos h0]
    · rw [if_neg h0] at hsrc ⊢
      rw [if_neg h0]
      cases hres : resolveParent cfg.same (viewOf fs) src with
      | error e => rfl
      | ok r =>
        obtain ⟨p, last⟩ := r
        rw [hres] at hsrc
        dsimp only at hsrc ⊢
        cases hl : lookupIn cfg.same (viewOf fs) p.1 last with
        | error e => rfl
        | ok r =>
          cases r with
          | none => rfl
          | some e =>
            rw [hl] at hsrc
            dsimp only at hsrc ⊢
            have hne : e.type ≠ 10 := by
              intro hc
              cases hA : viewOf fs p.1 with
              | none => unfold lookupIn at hl; rw [hA] at hl; cases hl
              | some f =>
                rw [lookupIn_held hA] at hl
                split at hl
                · cases hl
                · split at hl
                  · cases hl
                  · injection hl with hl
                    obtain ⟨_, _, g, hg, hgk⟩ := hi.tree.entry _ f e hA (List.mem_of_find?_eq_some hl)
                    refine hsrc (e.id, p.1 :: p.2) g ?_ hg (hgk.trans hc)
                    rw [if_neg (by rintro ⟨hc, _⟩; cases hc)]
            rw [if_neg (fun hc => hne hc.2), if_neg (fun hc => hne hc.2)]
  rw [hsame]

/-- `link /g /d/x`: the hypothesis holds, and the file has three links. -/
example : resolvePath fullDemoCfg.same (viewOf demoFs) [47, 103] false = .ok (some (fullDemoId 4, [kRootId])) ∧
    (viewOf demoFs (fullDemoId 4)).map AFile.kind = some 8 ∧
    ((vlink fullDemoCfg [47, 103] [47, 100, 47, 120]).run demoFs).1 = .ok 0 ∧
    (viewOf ((vlink fullDemoCfg [47, 103] [47, 100, 47, 120]).run demoFs).2 (fullDemoId 4)).map AFile.nlink = some 3 := by decide +kernel

/-- C70 does not hold for a symbolic link as the source of `link`: the kernel passes the path of the link itself, and the code follows it.
    With `/s -> e/../d`, `link /s /t` gives the directory `/d` a second name. -/
theorem C70_link_violated :
    Sequential fullDemoCfg demoFs ∧
    (specLink fullDemoCfg.same (viewOf demoFs) false [47, 115] [47, 116]).1 = .ok 0 ∧
    nameAt fullDemoCfg.same (specLink fullDemoCfg.same (viewOf demoFs) false [47, 115] [47, 116]).2 kRootId [116] = some (fullDemoId 5, 10) ∧
    ((vlink fullDemoCfg [47, 115] [47, 116]).run demoFs).1 = .ok 0 ∧
    nameAt fullDemoCfg.same (viewOf ((vlink fullDemoCfg [47, 115] [47, 116]).run demoFs).2) kRootId [116] = some (fullDemoId 1, 4) ∧
    nameAt fullDemoCfg.same (viewOf ((vlink fullDemoCfg [47, 115] [47, 116]).run demoFs).2) kRootId [100] = some (fullDemoId 1, 4) :=
  ⟨demoFs_sequential, by decide +kernel, by decide +kernel, by decide +kernel, by decide +kernel, by decide +kernel⟩

/-- C60 does not hold when the source of a hard link is a symbolic link to a directory.  The kernel sees that the source is a symbolic link
    and not a directory, so it does not refuse the request; afterwards a directory has two names. -/
theorem C60_link_violated :
    Sequential fullDemoCfg demoFs ∧
    (∃ p f, resolvePath fullDemoCfg.same (viewOf demoFs) [47, 115] false = .ok (some p) ∧ viewOf demoFs p.1 = some f ∧ f.kind = 10) ∧
    ((vlink fullDemoCfg [47, 115] [47, 116]).run demoFs).1 = .ok 0 ∧
    ¬ DirTree (viewOf ((vlink fullDemoCfg [47, 115] [47, 116]).run demoFs).2) := by
  refine ⟨demoFs_sequential, ⟨(fullDemoId 5, [kRootId]), ⟨0xa1a4, 1, 2, 1, [101, 47, 46, 46, 47, 100], []⟩, by decide +kernel, by decide +kernel, by decide⟩,
    by decide +kernel, fun ht => ?_⟩
  cases hA : viewOf ((vlink fullDemoCfg [47, 115] [47, 116]).run demoFs).2 kRootId with
  | none => exact absurd hA (by decide +kernel)
  | some f =>
    have hent : f.entries.find? (fun e => e.name == [116]) = some ⟨[116], fullDemoId 1, 4⟩ ∧
        f.entries.find? (fun e => e.name == [100]) = some ⟨[100], fullDemoId 1, 4⟩ := by
      have h1 : (viewOf ((vlink fullDemoCfg [47, 115] [47, 116]).run demoFs).2 kRootId).map
          (fun f => (f.entries.find? (fun e => e.name == [116]), f.entries.find? (fun e => e.name == [100]))) =
          some (some ⟨[116], fullDemoId 1, 4⟩, some ⟨[100], fullDemoId 1, 4⟩) := by decide +kernel
      rw [hA] at h1
      simp only [Option.map_some, Option.some.injEq, Prod.mk.injEq] at h1
      exact h1
    have := (ht.once kRootId kRootId f f _ _ hA hA (List.mem_of_find?_eq_some hent.1) (List.mem_of_find?_eq_some hent.2) rfl rfl).2
    exact absurd this (by decide)

end Securefs.Props
