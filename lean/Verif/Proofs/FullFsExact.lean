import Verif.Proofs.FullFsLinks
import Verif.Spec.FullFsOps
/-!
# The operations do what the specification says
-/

namespace Securefs

open Spec

theorem alter_eq {A : AFs} {d : Bytes} {f : AFile} (h : A d = some f) (g : AFile → AFile) : alter A d g = updA A d (g f) := by
  funext x
  unfold alter updA
  by_cases hx : x = d
  · rw [if_pos hx, if_pos hx, hx, h]; rfl
  · rw [if_neg hx, if_neg hx]

theorem alter_none {A : AFs} {d : Bytes} (h : A d = none) (g : AFile → AFile) : alter A d g = A := by
  funext x
  unfold alter
  by_cases hx : x = d
  · rw [if_pos hx, hx, h]; rfl
  · rw [if_neg hx]

theorem alter_id {A : AFs} {d : Bytes} {g : AFile → AFile} (h : ∀ f, g f = f) : alter A d g = A := by
  funext x
  unfold alter
  by_cases hx : x = d
  · rw [if_pos hx]; cases A x with
    | none => rfl
    | some f => exact congrArg some (h f)
  · rw [if_neg hx]

theorem withFile_eq (A : AFs) (id : Bytes) (f : AFile) : withFile A id f = updA A id f := rfl

/-! ## Names in the directory of a path -/

/-- What `open_base` gives. -/
theorem openBase_cases {cfg : FsCfg} {fs : FullFs} (hi : TreeInv fs) (path : Bytes) :
    ∃ fs1, TreeInv fs1 ∧ viewOf fs1 = viewOf fs ∧
      ((∃ e, resolveParent cfg.same (viewOf fs) path = .error e ∧ (openBase cfg path).run fs = (.error e, fs1)) ∨
       (∃ p last h f, resolveParent cfg.same (viewOf fs) path = .ok (p, last) ∧ (openBase cfg path).run fs = (.ok (h, last), fs1) ∧
          h.id = p.1 ∧ Held (viewOf fs) h f)) := by
  have hb := openBase_agrees (cfg := cfg) hi.tree hi.root path
  cases hres : resolveParent cfg.same (viewOf fs) path with
  | error e =>
    rw [hres] at hb
    obtain ⟨hc, hb1⟩ := hb
    dsimp only at hb1
    exact ⟨_, hi.calm hc, hc.view, .inl ⟨e, rfl, by rw [← hb1]⟩⟩
  | ok r =>
    obtain ⟨p, last⟩ := r
    rw [hres] at hb
    obtain ⟨hc, h, hb1, hs⟩ := hb
    obtain ⟨f, hf⟩ := hs.held
    exact ⟨_, hi.calm hc, hc.view, .inr ⟨p, last, h, f, rfl, by rw [← hb1], hs.id, hf⟩⟩

/-- What `open_all` gives. -/
theorem openAll_cases {cfg : FsCfg} {fs : FullFs} (hi : TreeInv fs) (path : Bytes) (follow : Bool) :
    ∃ fs1, TreeInv fs1 ∧ viewOf fs1 = viewOf fs ∧
      ((∃ e, resolvePath cfg.same (viewOf fs) path follow = .error e ∧ (openAll cfg path follow).run fs = (.error e, fs1)) ∨
       (resolvePath cfg.same (viewOf fs) path follow = .ok none ∧ (openAll cfg path follow).run fs = (.ok none, fs1)) ∨
       (∃ p h f, resolvePath cfg.same (viewOf fs) path follow = .ok (some p) ∧ (openAll cfg path follow).run fs = (.ok (some h), fs1) ∧
          h.id = p.1 ∧ Held (viewOf fs) h f)) := by
  have hb := openAll_agrees (cfg := cfg) hi.tree hi.root path follow
  obtain ⟨hc, hb⟩ := hb
  refine ⟨((openAll cfg path follow).run fs).2, hi.calm hc, hc.view, ?_⟩
  cases hres : resolvePath cfg.same (viewOf fs) path follow with
  | error e =>
    rw [hres] at hb
    dsimp only at hb
    exact .inl ⟨e, rfl, by rw [← hb]⟩
  | ok r =>
    cases r with
    | none =>
      rw [hres] at hb
      dsimp only at hb
      exact .inr (.inl ⟨rfl, by rw [← hb]⟩)
    | some p =>
      rw [hres] at hb
      obtain ⟨h, hb1, hs⟩ := hb
      obtain ⟨f, hf⟩ := hs.held
      exact .inr (.inr ⟨p, h, f, rfl, by rw [← hb1], hs.id, hf⟩)

theorem lookupIn_held {same : Bytes → Bytes → Bool} {A : AFs} {d : Bytes} {f : AFile} (h : A d = some f) (name : Bytes) :
    lookupIn same A d name = if f.kind ≠ 4 then .error (.vfs 1) else if name.length > 255 then .error (.vfs 36)
      else .ok (f.entries.find? fun e => same name e.name) := by
  unfold lookupIn; rw [h]

theorem any_find {α : Type} {p : α → Bool} {l : List α} : l.any p = (l.find? p).isSome := by
  induction l with
  | nil => rfl
  | cons a l ih =>
    rw [List.any_cons, List.find?_cons]
    cases h : p a with
    | true => rfl
    | false => simpa using ih

/-- `add_entry` in terms of looking the name up. -/
theorem add_cases {cfg : FsCfg} {fs : FullFs} {h : FH} {f : AFile} (hh : Held (viewOf fs) h f) (e : DirEntry) :
    ∃ fs', Quiet fs fs' ∧
      match lookupIn cfg.same (viewOf fs) h.id e.name with
      | .error err => secAdd cfg h e fs = (.error err, fs') ∧ viewOf fs' = viewOf fs
      | .ok (some _) => secAdd cfg h e fs = (.ok false, fs') ∧ viewOf fs' = viewOf fs
      | .ok none => secAdd cfg h e fs = (.ok true, fs') ∧ viewOf fs' = alter (viewOf fs) h.id (entryAdded e) := by
  obtain ⟨r, fs', h1, h2, h3⟩ := add_view (cfg := cfg) hh e
  refine ⟨fs', h2, ?_⟩
  rw [lookupIn_held hh.obj, h1]
  by_cases hk : f.kind ≠ 4
  · rw [if_pos hk] at h3 ⊢
    exact ⟨by rw [h3.1], h3.2⟩
  · rw [if_neg hk] at h3 ⊢
    by_cases hl : e.name.length > 255
    · rw [if_pos hl] at h3 ⊢
      exact ⟨by rw [h3.1], h3.2⟩
    · rw [if_neg hl] at h3 ⊢
      rw [any_find] at h3
      cases hf : f.entries.find? (fun x => cfg.same e.name x.name) with
      | none =>
        rw [hf] at h3
        simp only [Option.isSome_none, Bool.false_eq_true, if_false] at h3
        refine ⟨by rw [h3.1], ?_⟩
        rw [h3.2, alter_eq hh.obj]
        rfl
      | some x =>
        rw [hf] at h3
        simp only [Option.isSome_some, if_true] at h3
        exact ⟨by rw [h3.1], h3.2⟩

/-! ## `create` -/

theorem newFile_kind {type : Nat} (hc : GoodCls type) (osUid osGid mode uid gid : UInt32) (data : Bytes) :
    (newFile osUid osGid mode type uid gid data).kind = type := by
  have hmode : modeForType type = if type = 4 then 0x4000 else if type = 8 then 0x8000 else 0xa000 := by
    rcases hc with rfl | rfl | rfl <;> rfl
  unfold AFile.kind newFile
  dsimp only
  rw [← hmode, type_of_mode hc]
  rcases hc with rfl | rfl | rfl <;> decide

theorem create_view {cfg : FsCfg} {fs : FullFs} {id : Bytes} (hn : viewOf fs id = none) (hr : id ≠ kRootId) {type : Nat} (hc : GoodCls type)
    (mode uid gid : UInt32) :
    ∃ fs', secCreate cfg id type mode uid gid fs = (.ok ⟨id, type⟩, fs') ∧
      viewOf fs' = withFile (viewOf fs) id (newFile cfg.osUid cfg.osGid mode type uid gid []) ∧
      (newFile cfg.osUid cfg.osGid mode type uid gid []).kind = type := by
  have hg : fs.get id = none := by
    unfold viewOf at hn
    cases h : fs.get id with
    | none => rfl
    | some n => rw [h] at hn; cases hn
  have hmode : modeForType type = if type = 4 then 0x4000 else if type = 8 then 0x8000 else 0xa000 := by
    rcases hc with rfl | rfl | rfl <;> rfl
  unfold secCreate
  rw [if_neg hr, hg]
  refine ⟨_, rfl, ?_, ?_⟩
  · funext x
    unfold viewOf withFile
    rw [get_append hg]
    by_cases hx : x = id
    · rw [if_pos hx, if_pos hx]
      unfold newFile
      rw [← hmode]
      rfl
    · rw [if_neg hx, if_neg hx]
  · exact newFile_kind hc _ _ _ _ _ _

theorem createFile_view {cfg : FsCfg} {fs : FullFs} (hi : TreeInv fs) (path : Bytes) (mode : UInt32) {type : Nat} (hc : GoodCls type)
    (uid gid : UInt32) {id : Bytes} (hn : viewOf fs id = none) :
    ∃ fs', match resolveParent cfg.same (viewOf fs) path with
      | .error e => (createFile cfg path mode type uid gid id).run fs = (.error e, fs') ∧ viewOf fs' = viewOf fs
      | .ok (p, last) =>
        match lookupIn cfg.same (viewOf fs) p.1 last with
        | .error e => (createFile cfg path mode type uid gid id).run fs = (.error e, fs') ∧
            viewOf fs' = withFile (viewOf fs) id (newFile cfg.osUid cfg.osGid mode type uid gid [])
        | .ok (some _) => (createFile cfg path mode type uid gid id).run fs = (.error (.vfs 17), fs') ∧
            viewOf fs' = withFile (viewOf fs) id { newFile cfg.osUid cfg.osGid mode type uid gid [] with nlink := 0 }
        | .ok none => (createFile cfg path mode type uid gid id).run fs = (.ok ⟨id, type⟩, fs') ∧
            viewOf fs' = alter (withFile (viewOf fs) id (newFile cfg.osUid cfg.osGid mode type uid gid [])) p.1 (entryAdded ⟨last, id, type⟩) ∧
            (newFile cfg.osUid cfg.osGid mode type uid gid []).kind = type ∧ id ≠ p.1 := by
  have hr : id ≠ kRootId := by
    rintro rfl
    obtain ⟨f, hf, _⟩ := hi.tree.root
    rw [hf] at hn
    cases hn
  obtain ⟨fs1, _, hv1, hcase⟩ := openBase_cases (cfg := cfg) hi path
  rcases hcase with ⟨e, hres, hrun⟩ | ⟨p, last, h, f, hres, hrun, hid, hh⟩
  · refine ⟨fs1, ?_⟩
    rw [hres]
    unfold createFile
    rw [run_bind_error hrun]
    exact ⟨rfl, hv1⟩
  · rw [hres]
    dsimp only
    obtain ⟨fs2, hcr, hv2, hk⟩ := create_view (cfg := cfg) (fs := fs1) (by rw [hv1]; exact hn) hr hc mode uid gid
    rw [hv1] at hv2
    have hidp : h.id ≠ id := by
      intro hc
      have := hh.obj
      rw [hc, hn] at this
      cases this
    have hh2 : Held (viewOf fs2) h f := by
      refine ⟨?_, hh.kind, hh.good⟩
      rw [hv2]
      show (if h.id = id then _ else _) = _
      rw [if_neg hidp]
      exact hh.obj
    have hlook : lookupIn cfg.same (viewOf fs2) h.id last = lookupIn cfg.same (viewOf fs) p.1 last := by
      rw [lookupIn_held hh2.obj, ← hid, lookupIn_held hh.obj]
    obtain ⟨fs3, hq, hadd⟩ := add_cases (cfg := cfg) hh2 ⟨last, id, type⟩
    dsimp only at hadd
    rw [hlook] at hadd
    have hnew : viewOf fs2 id = some (newFile cfg.osUid cfg.osGid mode type uid gid []) := by
      rw [hv2]; exact if_pos rfl
    unfold createFile
    rw [run_bind_ok hrun]
    dsimp only
    rw [run_one_ok hcr]
    cases hl : lookupIn cfg.same (viewOf fs) p.1 last with
    | error e =>
      rw [hl] at hadd
      dsimp only at hadd ⊢
      rw [run_one_error hadd.1]
      exact ⟨fs3, rfl, hadd.2.trans hv2⟩
    | ok r =>
      cases r with
      | some x =>
        rw [hl] at hadd
        dsimp only at hadd ⊢
        rw [run_one_ok hadd.1, if_neg (by decide)]
        obtain ⟨fs4, hu, _, hv4⟩ := unlink_view (fs := fs3) (h := ⟨id, type⟩) (by rw [hadd.2]; exact hnew)
        rw [run_one_ok hu]
        refine ⟨fs4, rfl, ?_⟩
        rw [hv4, hadd.2, hv2]
        funext y
        unfold updA withFile
        dsimp only
        by_cases hy : y = id
        · rw [if_pos hy, if_pos hy]
          unfold AFile.less newFile
          simp
        · rw [if_neg hy, if_neg hy, if_neg hy]
      | none =>
        rw [hl] at hadd
        dsimp only at hadd ⊢
        rw [run_one_ok hadd.1, if_pos rfl]
        have hnew3 : viewOf fs3 id = some (newFile cfg.osUid cfg.osGid mode type uid gid []) := by
          rw [hadd.2]
          show (if id = h.id then _ else _) = _
          rw [if_neg fun hc => hidp hc.symm]
          exact hnew
        obtain ⟨n, hgn, _⟩ := get_of_view hnew3
        have hsp : secSetParent ⟨id, type⟩ h.id fs3 = (.ok (), fs3.set id { n with parent := h.id }) := by
          unfold secSetParent
          rw [file_run hgn]
        rw [run_one_ok hsp]
        refine ⟨_, rfl, ?_, hk, fun hc => hidp (by rw [hid, hc])⟩
        rw [view_set_same (m := { n with parent := h.id }) hgn rfl, hadd.2, hv2, hid]

/-- `cast_as<Symlink>()->set` on a new link. -/
theorem linkSet_view {cfg : FsCfg} {fs : FullFs} {h : FH} {f : AFile} (hh : Held (viewOf fs) h f) (hc : h.cls = 10) (hd : f.data = [])
    (target : Bytes) :
    ∃ fs', secLinkSet cfg h target fs = (.ok (), fs') ∧ viewOf fs' = updA (viewOf fs) h.id { f with data := target } := by
  obtain ⟨ho, hk, hg⟩ := hh
  obtain ⟨n, hn, rfl⟩ := get_of_view ho
  have hcast := castAs_of_kind (h := h) hg hk typeSymlink
  rw [if_pos (by rw [hc]; rfl)] at hcast
  unfold secLinkSet
  rw [file_run hn, hcast]
  refine ⟨_, rfl, ?_⟩
  rw [view_set hn]
  have hd' : n.data = [] := hd
  funext x
  unfold updA
  by_cases hx : x = h.id
  · rw [if_pos hx, if_pos hx]
    dsimp only
    rw [hd', List.drop_nil, List.append_nil]
    unfold viewFile FileAttr.touchMtime
    split <;> rfl
  · rw [if_neg hx, if_neg hx]

theorem symlink_view {cfg : FsCfg} {fs : FullFs} (hi : TreeInv fs) (target path : Bytes) (uid gid : UInt32) {id : Bytes}
    (hn : viewOf fs id = none) {p : Place} {last : Bytes} (hres : resolveParent cfg.same (viewOf fs) path = .ok (p, last))
    (hl : lookupIn cfg.same (viewOf fs) p.1 last = .ok none) :
    ∃ fs', (vsymlink cfg target path uid gid id).run fs = (.ok 0, fs') ∧
      viewOf fs' = alter (withFile (viewOf fs) id (newFile cfg.osUid cfg.osGid 0x1a4 10 uid gid target)) p.1 (entryAdded ⟨last, id, 10⟩) := by
  obtain ⟨fs1, h1⟩ := createFile_view (cfg := cfg) hi path 0x1a4 (type := 10) (.inr (.inr rfl)) uid gid hn
  rw [hres] at h1
  dsimp only at h1
  rw [hl] at h1
  obtain ⟨hrun, hv, hk, hne⟩ := h1
  have hnew : viewOf fs1 id = some (newFile cfg.osUid cfg.osGid 0x1a4 10 uid gid []) := by
    rw [hv]
    unfold alter withFile
    rw [if_neg hne, if_pos rfl]
  obtain ⟨fs2, hset, hv2⟩ := linkSet_view (cfg := cfg) (fs := fs1) (h := ⟨id, 10⟩) ⟨hnew, hk, .inr (.inr rfl)⟩ rfl rfl target
  unfold vsymlink
  have hrun' : (createFile cfg path 0x1a4 typeSymlink uid gid id).run fs = (.ok ⟨id, 10⟩, fs1) := hrun
  rw [run_bind_ok hrun', run_one_ok hset]
  refine ⟨fs2, rfl, ?_⟩
  rw [hv2, hv]
  funext x
  unfold updA alter withFile
  dsimp only
  by_cases hx : x = id
  · rw [if_pos hx, if_neg (by rw [hx]; exact hne), if_pos hx]
    rfl
  · rw [if_neg hx]
    by_cases hxp : x = p.1
    · rw [if_pos hxp, if_pos hxp, if_neg hx, if_neg hx]
    · rw [if_neg hxp, if_neg hxp, if_neg hx, if_neg hx]

/-! ## `vunlink` -/

theorem unlink_exact {cfg : FsCfg} {fs : FullFs} (hi : TreeInv fs) (path : Bytes) :
    ∃ fs', (vunlink cfg path).run fs = ((specUnlink cfg.same (viewOf fs) path).1, fs') ∧
      viewOf fs' = (specUnlink cfg.same (viewOf fs) path).2 := by
  obtain ⟨fs1, _, hv1, hcase⟩ := openBase_cases (cfg := cfg) hi path
  unfold specUnlink onName
  rcases hcase with ⟨e, hres, hrun⟩ | ⟨p, last, h, f, hres, hrun, hid, hh⟩
  · rw [hres]
    unfold vunlink
    rw [run_bind_error hrun]
    exact ⟨fs1, rfl, hv1⟩
  · rw [hres]
    dsimp only
    have hh1 : Held (viewOf fs1) h f := by rw [hv1]; exact hh
    obtain ⟨fs2, hrem, _, hv2⟩ := remove_view (cfg := cfg) hh1 last
    rw [hv1, hid] at hrem hv2
    have hf : viewOf fs p.1 = some f := by rw [← hid]; exact hh.obj
    unfold vunlink
    rw [run_bind_ok hrun]
    dsimp only
    cases hl : lookupIn cfg.same (viewOf fs) p.1 last with
    | error e =>
      rw [hl] at hrem hv2
      rw [run_one_error hrem]
      exact ⟨fs2, rfl, hv2⟩
    | ok r =>
      have hlk := hl
      rw [lookupIn_held hf] at hlk
      by_cases hk : f.kind ≠ 4
      · rw [if_pos hk] at hlk; cases hlk
      rw [if_neg hk] at hlk
      by_cases hlen : last.length > 255
      · rw [if_pos hlen] at hlk; cases hlk
      rw [if_neg hlen] at hlk
      injection hlk with hlk
      rw [hl] at hrem hv2
      rw [run_one_ok hrem]
      cases r with
      | none =>
        dsimp only
        refine ⟨fs2, rfl, ?_⟩
        dsimp only at hv2
        rw [hv2, ← remName_eq hf]
        apply remName_nothing
        rw [nameAt_find hf, hlk]
        rfl
      | some e =>
        dsimp only at hv2 ⊢
        have hmem := List.mem_of_find?_eq_some hlk
        obtain ⟨_, _, g0, hg0, hgk0⟩ := hi.tree.entry _ f e hf hmem
        have hg : ∃ g, viewOf fs2 e.id = some g ∧ g.kind = e.type := by
          rw [hv2]
          by_cases he : e.id = p.1
          · rw [he, updA_self]
            refine ⟨_, rfl, ?_⟩
            rw [without_kind, ← hgk0]
            rw [he, hf] at hg0
            injection hg0 with hg0
            rw [hg0]
          · rw [updA_ne _ _ he]; exact ⟨g0, hg0, hgk0⟩
        obtain ⟨g, hg, hgk⟩ := hg
        obtain ⟨hop, _⟩ := openEntry_run hi.tree (fs := fs2) hf hmem hg hgk
        rw [run_one_ok hop]
        obtain ⟨fs3, hu, _, hv3⟩ := unlink_view (fs := fs2) (h := ⟨e.id, e.type⟩) hg
        rw [run_one_ok hu]
        refine ⟨fs3, rfl, ?_⟩
        have h1 : alter (viewOf fs) p.1 (entryRemoved cfg.same last) = viewOf fs2 := by rw [alter_eq hf, hv2]; rfl
        rw [h1, alter_eq hg, hv3]
        rfl

/-! ## Operations on the file at a path -/

theorem withAttr_exact {cfg : FsCfg} {fs : FullFs} (hi : TreeInv fs) (path : Bytes) (follow : Bool) {f : TimeSpec → FileAttr → FileAttr}
    {g : AFile → AFile} (hfg : ∀ now n, viewFile { n with attr := f now n.attr } = g (viewFile n)) :
    ∃ fs', (withAttr cfg path follow f).run fs = ((specAttr cfg.same (viewOf fs) path follow g).1, fs') ∧
      viewOf fs' = (specAttr cfg.same (viewOf fs) path follow g).2 := by
  obtain ⟨fs1, _, hv1, hcase⟩ := openAll_cases (cfg := cfg) hi path follow
  unfold specAttr onFile
  rcases hcase with ⟨e, hres, hrun⟩ | ⟨hres, hrun⟩ | ⟨p, h, a, hres, hrun, hid, hh⟩
  · rw [hres]
    unfold withAttr
    rw [run_bind_error hrun]
    exact ⟨fs1, rfl, hv1⟩
  · rw [hres]
    unfold withAttr
    rw [run_bind_ok hrun]
    exact ⟨fs1, rfl, hv1⟩
  · rw [hres]
    dsimp only
    have ha : viewOf fs p.1 = some a := by rw [← hid]; exact hh.obj
    rw [ha]
    dsimp only
    have ha1 : viewOf fs1 h.id = some a := by rw [hv1]; exact hh.obj
    obtain ⟨n, hn, hna⟩ := get_of_view ha1
    have hsec : secAttr h f fs1 = (.ok (), fs1.set h.id { n with attr := f fs1.now n.attr }) := by
      unfold secAttr
      rw [file_run hn]
    unfold withAttr
    rw [run_bind_ok hrun]
    dsimp only
    rw [run_one_ok hsec]
    refine ⟨_, rfl, ?_⟩
    rw [view_set hn, hv1, hfg, hna, alter_eq ha, hid]
    rfl

theorem readlink_exact {cfg : FsCfg} {fs : FullFs} (hi : TreeInv fs) (path : Bytes) (size : Nat) :
    ∃ fs', (fullReadlink cfg path size).run fs = ((specReadlink cfg.same (viewOf fs) path size).1, fs') ∧
      viewOf fs' = (specReadlink cfg.same (viewOf fs) path size).2 := by
  unfold specReadlink fullReadlink
  by_cases h0 : size = 0
  · rw [if_pos h0, if_pos h0]; exact ⟨fs, rfl, rfl⟩
  rw [if_neg h0, if_neg h0]
  by_cases h1 : path = [slash]
  · rw [if_pos h1, if_pos (show path = [47] from h1)]; exact ⟨fs, rfl, rfl⟩
  rw [if_neg h1, if_neg (show ¬ path = [47] from h1)]
  obtain ⟨fs1, _, hv1, hcase⟩ := openAll_cases (cfg := cfg) hi path false
  unfold onFile
  rcases hcase with ⟨e, hres, hrun⟩ | ⟨hres, hrun⟩ | ⟨p, h, a, hres, hrun, hid, hh⟩
  · rw [hres, run_bind_error hrun]
    exact ⟨fs1, rfl, hv1⟩
  · rw [hres, run_bind_ok hrun]
    exact ⟨fs1, rfl, hv1⟩
  · rw [hres, run_bind_ok hrun]
    dsimp only
    have ha : viewOf fs p.1 = some a := by rw [← hid]; exact hh.obj
    rw [ha]
    dsimp only
    have hh1 : Held (viewOf fs1) h a := by rw [hv1]; exact hh
    by_cases hk : a.kind = 10
    · rw [if_pos hk]
      obtain ⟨fs2, hg, hc, _⟩ := linkGet_run (cfg := cfg) hh1.obj hk (hh.kind.symm.trans hk)
      rw [run_one_ok hg]
      exact ⟨fs2, rfl, hc.view.trans hv1⟩
    · rw [if_neg hk]
      obtain ⟨n, hn, hna⟩ := get_of_view hh1.obj
      have hcast := castAs_of_kind (h := h) (n := n) hh.good (by rw [hna]; exact hh.kind) typeSymlink
      rw [if_neg (show ¬ h.cls = typeSymlink from fun hc => hk (hh.kind.trans hc))] at hcast
      have hsec : secLinkGet cfg h fs1 = (.error (.vfs 1), fs1.set h.id n) := by
        unfold secLinkGet
        rw [file_run hn, hcast]
      rw [run_one_error hsec]
      exact ⟨_, rfl, by rw [view_set_same hn rfl, hv1]⟩

/-! ## `vlink` -/

theorem link_exact {cfg : FsCfg} {fs : FullFs} (hi : TreeInv fs) (src dest : Bytes) :
    ∃ fs', (vlink cfg src dest).run fs = ((specLink cfg.same (viewOf fs) true src dest).1, fs') ∧
      viewOf fs' = (specLink cfg.same (viewOf fs) true src dest).2 := by
  obtain ⟨fs1, hi1, hv1, hcase⟩ := openAll_cases (cfg := cfg) hi src true
  unfold specLink onFile
  rcases hcase with ⟨e, hres, hrun⟩ | ⟨hres, hrun⟩ | ⟨q, k, a, hres, hrun, hkid, hk⟩
  · rw [hres]
    unfold vlink
    rw [run_bind_error hrun]
    exact ⟨fs1, rfl, hv1⟩
  · rw [hres]
    unfold vlink
    rw [run_bind_ok hrun]
    exact ⟨fs1, rfl, hv1⟩
  · rw [hres]
    dsimp only
    have ha : viewOf fs q.1 = some a := by rw [← hkid]; exact hk.obj
    rw [ha]
    dsimp only
    obtain ⟨fs2, _, hv2, hcase⟩ := openBase_cases (cfg := cfg) hi1 dest
    rw [hv1] at hv2 hcase
    unfold onName vlink
    rw [run_bind_ok hrun]
    dsimp only
    rcases hcase with ⟨e, hres2, hrun2⟩ | ⟨p, last, h, f, hres2, hrun2, hid, hh⟩
    · rw [hres2, run_bind_error hrun2]
      exact ⟨fs2, rfl, hv2⟩
    · rw [hres2, run_bind_ok hrun2]
      dsimp only
      have hk2 : viewOf fs2 k.id = some a := by rw [hv2]; exact hk.obj
      obtain ⟨n, hn, hna⟩ := get_of_view hk2
      have hrt : n.attr.realType = a.kind := by
        rw [hk.kind]
        exact realType_good hk.good (by rw [hna]; exact hk.kind)
      have hv3 : viewOf (fs2.set k.id n) = viewOf fs := by rw [view_set_same hn rfl, hv2]
      have hh3 : Held (viewOf (fs2.set k.id n)) h f := by rw [hv3]; exact hh
      obtain ⟨fs4, hq, hadd⟩ := add_cases (cfg := cfg) hh3 ⟨last, k.id, n.attr.realType⟩
      rw [hv3, hid] at hadd
      dsimp only at hadd
      have hstart : ∀ g : Nat → Sec Bool, Sec.bind (Sec.file k.id fun _ n => (.ok n.attr.realType, n)) g fs2 = g n.attr.realType (fs2.set k.id n) := by
        intro g
        apply sec_bind_ok
        rw [file_run hn]
      cases hl : lookupIn cfg.same (viewOf fs) p.1 last with
      | error e =>
        rw [hl] at hadd
        dsimp only at hadd ⊢
        have : secLink cfg h last k fs2 = (.error e, fs4) := by
          unfold secLink
          rw [hstart, sec_bind_error hadd.1]
        rw [run_one_error this]
        exact ⟨fs4, rfl, hadd.2⟩
      | ok r =>
        cases r with
        | some x =>
          rw [hl] at hadd
          dsimp only at hadd ⊢
          have : secLink cfg h last k fs2 = (.ok false, fs4) := by
            unfold secLink
            rw [hstart, sec_bind_ok hadd.1]
            rfl
          rw [run_one_ok this]
          exact ⟨fs4, rfl, hadd.2⟩
        | none =>
          rw [hl] at hadd
          dsimp only at hadd ⊢
          have hk4 : ∃ b, viewOf fs4 k.id = some b := by
            rw [hadd.2]
            unfold alter
            rw [hk.obj]
            split
            · exact ⟨_, rfl⟩
            · exact ⟨_, rfl⟩
          obtain ⟨b, hb⟩ := hk4
          obtain ⟨m, hm, hmb⟩ := get_of_view hb
          have : secLink cfg h last k fs2 = (.ok true, fs4.set k.id { m with attr := m.attr.setNlink cfg.storeTime fs4.now (m.attr.nlink + 1) }) := by
            unfold secLink
            rw [hstart, sec_bind_ok hadd.1, if_pos rfl, file_run hm]
          rw [run_one_ok this]
          refine ⟨_, rfl, ?_⟩
          rw [view_set hm, ← hrt, ← hkid, ← hadd.2, alter_eq hb]
          have hvm : viewFile { m with attr := m.attr.setNlink cfg.storeTime fs4.now (m.attr.nlink + 1) } = { b with nlink := b.nlink + 1 } := by
            rw [← hmb]
            unfold viewFile FileAttr.setNlink FileAttr.touchCtime
            split
            · next he =>
              exfalso
              have := congrArg UInt32.toNat he
              rw [UInt32.toNat_add] at this
              have h1 : (1 : UInt32).toNat = 1 := rfl
              have h2 := m.attr.nlink.toNat_lt
              rw [h1] at this
              omega
            · split <;> rfl
          rw [hvm]
          rfl

/-! ## What is added is found -/

theorem resolveWith_grow {same : Bytes → Bytes → Bool} {A A' : AFs} (h1 : ∀ d n e, lookupIn same A d n = .ok (some e) → lookupIn same A' d n = .ok (some e))
    (h2 : ∀ x f, A x = some f → ∃ f', A' x = some f' ∧ f'.data = f.data) {link link' : Place → List Bytes → Res (Option Place)}
    (hl : ∀ p l q, link p l = .ok (some q) → link' p l = .ok (some q)) : ∀ (l : List Bytes) (p q : Place),
    resolveWith same A link p l = .ok (some q) → resolveWith same A' link' p l = .ok (some q)
  | [], _, _, h => h
  | s :: rest, p, q, h => by
    unfold resolveWith at h ⊢
    by_cases hd : s = [46]
    · rw [if_pos hd] at h ⊢; exact resolveWith_grow h1 h2 hl rest _ _ h
    rw [if_neg hd] at h ⊢
    by_cases hdd : s = [46, 46]
    · rw [if_pos hdd] at h ⊢; exact resolveWith_grow h1 h2 hl rest _ _ h
    rw [if_neg hdd] at h ⊢
    cases hk : lookupIn same A p.1 s with
    | error e => rw [hk] at h; cases h
    | ok r =>
      cases r with
      | none => rw [hk] at h; cases h
      | some e =>
        rw [hk] at h
        rw [h1 _ _ _ hk]
        dsimp only at h ⊢
        by_cases ht : e.type = 10
        · rw [if_pos ht] at h ⊢
          cases hA : A e.id with
          | none => rw [hA] at h; cases h
          | some f =>
            obtain ⟨f', hf', hdat⟩ := h2 _ _ hA
            rw [hA] at h
            rw [hf']
            dsimp only at h ⊢
            rw [hdat]
            cases hlk : link p (parts f.data) with
            | error e => rw [hlk] at h; cases h
            | ok r =>
              cases r with
              | none => rw [hlk] at h; cases h
              | some p' =>
                rw [hlk] at h
                rw [hl _ _ _ hlk]
                exact resolveWith_grow h1 h2 hl rest _ _ h
        · rw [if_neg ht] at h ⊢
          exact resolveWith_grow h1 h2 hl rest _ _ h

theorem resolve_grow {same : Bytes → Bytes → Bool} {A A' : AFs} (h1 : ∀ d n e, lookupIn same A d n = .ok (some e) → lookupIn same A' d n = .ok (some e))
    (h2 : ∀ x f, A x = some f → ∃ f', A' x = some f' ∧ f'.data = f.data) : ∀ (k : Nat) (p : Place) (l : List Bytes) (q : Place),
    resolve same A k p l = .ok (some q) → resolve same A' k p l = .ok (some q)
  | 0, _, _, _, h => by cases h
  | k + 1, p, l, q, h => resolveWith_grow h1 h2 (resolve_grow h1 h2 k) l p q h

theorem resolveParent_grow {same : Bytes → Bytes → Bool} {A A' : AFs}
    (h1 : ∀ d n e, lookupIn same A d n = .ok (some e) → lookupIn same A' d n = .ok (some e))
    (h2 : ∀ x f, A x = some f → ∃ f', A' x = some f' ∧ f'.data = f.data) {path : Bytes} {r : Place × Bytes}
    (h : resolveParent same A path = .ok r) : resolveParent same A' path = .ok r := by
  unfold resolveParent at h ⊢
  cases hp : (parts path).getLast? with
  | none => rw [hp] at h; exact h
  | some last =>
    rw [hp] at h
    dsimp only at h ⊢
    cases hr : resolve same A 16 rootPlace (parts path).dropLast with
    | error e => rw [hr] at h; cases h
    | ok o =>
      cases o with
      | none => rw [hr] at h; cases h
      | some p =>
        rw [hr] at h
        rw [resolve_grow h1 h2 _ _ _ _ hr]
        exact h

/-- Adding a file with a name that was free. -/
theorem grow_created {same : Bytes → Bytes → Bool} (hs : SameEquiv same) {A : AFs} {id d last : Bytes} {f : AFile} {type : Nat} (hn : A id = none)
    (hl : lookupIn same A d last = .ok none) (hne : id ≠ d) :
    (∀ x n e, lookupIn same A x n = .ok (some e) →
      lookupIn same (alter (withFile A id f) d (entryAdded ⟨last, id, type⟩)) x n = .ok (some e)) ∧
    (∀ x g, A x = some g → ∃ g', alter (withFile A id f) d (entryAdded ⟨last, id, type⟩) x = some g' ∧ g'.data = g.data) ∧
    lookupIn same (alter (withFile A id f) d (entryAdded ⟨last, id, type⟩)) d last = .ok (some ⟨last, id, type⟩) := by
  cases hA : A d with
  | none => unfold lookupIn at hl; rw [hA] at hl; cases hl
  | some D =>
    have hd : alter (withFile A id f) d (entryAdded ⟨last, id, type⟩) d = some (entryAdded ⟨last, id, type⟩ D) := by
      unfold alter withFile
      rw [if_pos rfl, if_neg fun h => hne h.symm, hA]
      rfl
    have ho : ∀ x, x ≠ d → x ≠ id → alter (withFile A id f) d (entryAdded ⟨last, id, type⟩) x = A x := by
      intro x hx hxi
      unfold alter withFile
      rw [if_neg hx, if_neg hxi]
    rw [lookupIn_held hA] at hl
    by_cases hk : D.kind ≠ 4
    · rw [if_pos hk] at hl; cases hl
    rw [if_neg hk] at hl
    by_cases hlen : last.length > 255
    · rw [if_pos hlen] at hl; cases hl
    rw [if_neg hlen] at hl
    injection hl with hfind
    refine ⟨?_, ?_, ?_⟩
    · intro x n e hx
      by_cases hxd : x = d
      · subst hxd
        rw [lookupIn_held hd]
        rw [lookupIn_held hA, if_neg hk] at hx
        rw [if_neg (show ¬ (entryAdded ⟨last, id, type⟩ D).kind ≠ 4 from hk)]
        by_cases hnl : n.length > 255
        · rw [if_pos hnl] at hx; cases hx
        rw [if_neg hnl] at hx ⊢
        injection hx with hx
        unfold entryAdded
        dsimp only
        rw [List.find?_cons]
        cases hsn : same n last with
        | false => exact congrArg _ hx
        | true =>
          exfalso
          have hmem := List.mem_of_find?_eq_some hx
          have hse : same n e.name = true := by simpa using List.find?_some hx
          exact List.find?_eq_none.mp hfind e hmem (hs.trans _ _ _ (hs.symm _ _ hsn) hse)
      · have hxi : x ≠ id := by
          rintro rfl
          unfold lookupIn at hx
          rw [hn] at hx
          cases hx
        unfold lookupIn at hx ⊢
        rw [ho x hxd hxi]
        exact hx
    · intro x g hg
      by_cases hxd : x = d
      · subst hxd
        rw [hA] at hg
        injection hg with hg
        subst hg
        exact ⟨_, hd, rfl⟩
      · have hxi : x ≠ id := by
          rintro rfl
          rw [hn] at hg
          cases hg
        exact ⟨g, by rw [ho x hxd hxi]; exact hg, rfl⟩
    · rw [lookupIn_held hd, if_neg (show ¬ (entryAdded ⟨last, id, type⟩ D).kind ≠ 4 from hk), if_neg hlen]
      unfold entryAdded
      dsimp only
      rw [List.find?_cons, hs.refl]

theorem lookup_of_mem {β : Type} : ∀ {l : List (Bytes × β)} {a : Bytes} {b : β}, (l.map Prod.fst).Nodup → (a, b) ∈ l → l.lookup a = some b
  | (x, y) :: l, a, b, hn, hm => by
    rw [List.map_cons, List.nodup_cons] at hn
    rw [List.lookup_cons]
    rcases List.mem_cons.mp hm with he | hm'
    · injection he with h1 h2
      subst h1 h2
      simp
    · have hne : a ≠ x := by
        rintro rfl
        exact hn.1 (List.mem_map.mpr ⟨_, hm', rfl⟩)
      rw [show (a == x) = false by simpa using hne]
      exact lookup_of_mem hn.2 hm'

theorem get_of_mem {fs : FullFs} (hn : (fs.nodes.map Prod.fst).Nodup) {id : Bytes} {n : Inode} (h : (id, n) ∈ fs.nodes) : fs.get id = some n :=
  lookup_of_mem hn h

/-! ## What is lost is never found again -/

theorem later_books {cfg : FsCfg} (hs : SameEquiv cfg.same) {fs fs' : FullFs} (hi : SeqInv cfg fs) (h : Later cfg fs fs') :
    SeqInv cfg fs' ∧ ∀ x, bal fs x ≤ bal fs' x := by
  induction h with
  | refl => exact ⟨hi, fun _ => Int.le_refl _⟩
  | @op fs' _ op asked room ih =>
    obtain ⟨ih, hle⟩ := ih
    have hsafe := books_op hs op
    have hcov : CreditCovered fs' Credit.zero := fun x => ih.books x
    obtain ⟨h1, c', h2, h3⟩ := safe_run (fun _ c h => by subst h; exact Credit.zero_nonneg) _ _ fs' hsafe ih.wf hcov room
    have hge : ∀ x, bal fs' x ≤ bal ((op.prog cfg).run fs').2 x := by
      intro x
      have := h3 x
      have := h2 x
      have h0 : Credit.zero x = 0 := rfl
      omega
    refine ⟨⟨h1, fun x => ?_, tree_op cfg op ih.inv asked⟩, fun x => Int.le_trans (hle x) (hge x)⟩
    exact Int.le_trans (ih.books x) (hge x)
  | tick h now ih => exact ⟨⟨⟨ih.1.wf.ids, ih.1.wf.names⟩, ih.1.books, ⟨ih.1.inv.tree, ih.1.inv.root⟩⟩, ih.2⟩
  | @evict fs' _ id ih =>
    refine ⟨seq_evict ih.1 id, fun x => Int.le_trans (ih.2 x) ?_⟩
    simp only [FullSys.step]
    cases hg : fs'.get id with
    | none => exact Int.le_refl _
    | some n =>
      dsimp only
      rw [bal_set ih.1.wf.ids hg]
      dsimp only
      split <;> omega
  | @reap fs' _ id ih =>
    refine ⟨seq_reap ih.1 id, fun x => Int.le_trans (ih.2 x) ?_⟩
    simp only [FullSys.step]
    cases hg : fs'.get id with
    | none => exact Int.le_refl _
    | some n =>
      dsimp only
      by_cases h0 : n.attr.nlink = 0 ∧ id ≠ kRootId
      · rw [if_pos h0]
        obtain ⟨_, hb'⟩ := reap_books ih.1.wf hg h0.1
        dsimp only
        rw [hb' x]
        omega
      · rw [if_neg h0]
        exact Int.le_refl _

end Securefs
