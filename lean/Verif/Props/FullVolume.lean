import Verif.Proofs.FullVolumeEvents
import Verif.Props.DirFile
import Verif.Props.FullFs
import Verif.Props.FullFsData
/-!
# C85: a volume of the full format is a plain file system

The model is `Verif/Model/FullVolume.lean`, the specification `Verif/Spec/FullVolume.lean`.
-/

namespace Securefs.Props

open Securefs Spec Vol

/-! ## A volume to look at -/

/-- A volume with the toy primitives and names compared byte by byte. -/
def c85vol : VolEnv := ⟨Toy.env 5 true, demoCfg, fun k => 100 * k, 1000, 1000⟩

theorem c85vol_ok : VolEnvOk c85vol :=
  ⟨Toy.env_ok 5 true (by decide), by unfold RoomForDirs c85vol Toy.env; decide, demo_config.1, demo_config.2⟩

/-- The handle of the file of `c85demo`. -/
def c85file : FH := ⟨fullDemoId 2, 8⟩

/-- A directory, a file in it that is written, moved out, closed, thrown out of the memory, a symbolic link to it; the volume is
    unmounted and mounted, and the file is read through the link. -/
def c85demo : List VolEvent :=
  [.op (.mkdir [47, 100] 0x1ed 1 2 (fullDemoId 1)), .op (.create [47, 100, 47, 102] 0x1a4 1 2 (fullDemoId 2)), .op (.write c85file 3 [1, 2, 3]),
   .tick ⟨5, 6⟩, .op (.rename [47, 100, 47, 102] [47, 103]), .release c85file, .close (fullDemoId 2), .eject (fullDemoId 2),
   .op (.symlink [103] [47, 115] 1 2 (fullDemoId 3)), .remount, .op (.«open» [47, 115] false), .op (.read c85file 1 10),
   .op (.rmdir [47, 100]), .op (.opendir [47, 100])]

/-- A check of a condition along a program. -/
def alongCheck {α : Type} (P : FullFs → Bool) : Prog α → FullFs → Bool
  | .ret _, _ => true
  | .throw _, _ => true
  | .sec f k, fs => P fs &&
      match (f fs).1 with
      | .ok b => alongCheck P (k b) (f fs).2
      | .error _ => true

theorem alongCheck_sound {α : Type} {P : FullFs → Bool} {Q : FullFs → Prop} (h : ∀ fs, P fs = true → Q fs) :
    ∀ (p : Prog α) (fs : FullFs), alongCheck P p fs = true → Along Q p fs
  | .ret _, _, _ => trivial
  | .throw _, _, _ => trivial
  | .sec f k, fs, hc => by
    simp only [alongCheck, Bool.and_eq_true] at hc
    refine ⟨h fs hc.1, fun b hb => ?_⟩
    have h2 := hc.2
    rw [hb] at h2
    exact alongCheck_sound h (k b) _ h2

/-- A check of `OpWithin`, except for what `utimens` asks. -/
def withinCheck (E : FileEnv) (cfg : FsCfg) (I : IdealVol) (op : FullOp) : Bool :=
  (match FullOp.handle? op with | some h => I.held.contains h | none => true) &&
  (FullOp.adds op).all (fun p => !p.contains 0) &&
  (match FullOp.newId? op with | some id => decide (id.length = 32) && I.fs.nodes.all (fun p => p.2.parent != id) | none => true) &&
  (match op with | .utimens _ _ _ => false | _ => true) &&
  decide (FullOp.reach op ≤ fileLimit E) && askedCheck cfg I.fs op && roomCheck (op.prog cfg) I.fs &&
  alongCheck (fun fs => fs.nodes.all fun p => decide (p.2.entries.length + 2 ≤ dirCapacity)) (op.prog cfg) I.fs

theorem withinCheck_sound {E : FileEnv} {cfg : FsCfg} {I : IdealVol} {op : FullOp} (h : withinCheck E cfg I op = true) : OpWithin E cfg I op := by
  unfold withinCheck at h
  simp only [Bool.and_eq_true] at h
  obtain ⟨⟨⟨⟨⟨⟨⟨h1, h2⟩, h3⟩, h4⟩, h5⟩, h6⟩, h7⟩, h8⟩ := h
  refine ⟨fun x hx => ?_, fun p hp => ?_, fun id hid => ?_, fun p g ts ht => ?_, by simpa using h5, askedCheck_sound h6, roomCheck_sound _ _ h7, ?_⟩
  · rw [hx] at h1
    simpa using h1
  · have := List.all_eq_true.1 h2 p hp
    simpa using this
  · rw [hid] at h3
    simp only [Bool.and_eq_true, decide_eq_true_eq] at h3
    refine ⟨h3.1, fun _ x n hx => ?_⟩
    have := List.all_eq_true.1 h3.2 (x, n) (mem_of_get hx)
    simpa using this
  · subst ht
    cases h4
  · refine alongCheck_sound (fun fs hfs id n hg => ?_) _ _ h8
    have := List.all_eq_true.1 hfs (id, n) (mem_of_get hg)
    simpa using this

/-- What the ideal volume can do at each event of a history, and whether it stays within the limits. -/
def idealCheck (E : FileEnv) (cfg : FsCfg) : IdealVol → List VolEvent → Bool
  | _, [] => true
  | I, .op op :: es => withinCheck E cfg I op &&
      idealCheck E cfg ⟨((idealOp cfg op).run I.fs).2, (VolAnswer.given ((idealOp cfg op).run I.fs).1).toList ++ I.held⟩ es
  | I, .release h :: es => idealCheck E cfg ⟨I.fs, if (fullRelease h).2 then I.held.erase h else I.held⟩ es
  | I, .releasedir h :: es => idealCheck E cfg ⟨I.fs, if (fullReleasedir h).2 then I.held.erase h else I.held⟩ es
  | I, .tick now :: es => decide (ValidTime now) && idealCheck E cfg ⟨{ I.fs with now := now }, I.held⟩ es
  | I, .close _ :: es => idealCheck E cfg I es
  | I, .eject id :: es => idealCheck E cfg ⟨forget cfg [id] I.fs, I.held⟩ es
  | I, .remount :: es => idealCheck E cfg ⟨I.fs, []⟩ es

theorem idealCheck_sound {E : FileEnv} {cfg : FsCfg} : ∀ (es : List VolEvent) (I : IdealVol), idealCheck E cfg I es = true →
    ∃ rs I', IdealRun E cfg I es rs I'
  | [], I, _ => ⟨[], I, .nil⟩
  | e :: es, I, h => by
    cases e with
    | op op =>
      simp only [idealCheck, Bool.and_eq_true] at h
      obtain ⟨rs, I', hr⟩ := idealCheck_sound es _ h.2
      exact ⟨_, I', .cons (withinCheck_sound h.1) (.op op) hr⟩
    | release x => obtain ⟨rs, I', hr⟩ := idealCheck_sound es _ h; exact ⟨_, I', .cons trivial (.release x) hr⟩
    | releasedir x => obtain ⟨rs, I', hr⟩ := idealCheck_sound es _ h; exact ⟨_, I', .cons trivial (.releasedir x) hr⟩
    | tick now =>
      simp only [idealCheck, Bool.and_eq_true, decide_eq_true_eq] at h
      obtain ⟨rs, I', hr⟩ := idealCheck_sound es _ h.2
      exact ⟨_, I', .cons h.1 (.tick now) hr⟩
    | close id => obtain ⟨rs, I', hr⟩ := idealCheck_sound es _ h; exact ⟨_, I', .cons trivial (.close id) hr⟩
    | eject id => obtain ⟨rs, I', hr⟩ := idealCheck_sound es _ h; exact ⟨_, I', .cons trivial (.eject id [id]) hr⟩
    | remount => obtain ⟨rs, I', hr⟩ := idealCheck_sound es _ h; exact ⟨_, I', .cons trivial (.remount []) hr⟩

/-! ## The property -/

/-- C85: a new volume can be mounted; and whatever then happens to it – operations through paths and handles, objects flushed, closed,
    thrown out of the memory and read back from their encrypted backing files, the volume unmounted and mounted – the answers are those of
    the ideal volume, up to the first event that exceeds a limit, if there is one.  The handles that the caller holds then refer to files of
    their class. -/
theorem C85_volume {V : VolEnv} (hV : VolEnvOk V) {now : TimeSpec} (hn : ValidTime now) (evs : List VolEvent) :
    ∃ v, volMount V [] 0 now = .ok v ∧ ∃ done rest rs I, done ++ rest = evs ∧
      IdealRun V.env (idealCfg V) ⟨FullFs.fresh (idealCfg V) now, []⟩ done rs I ∧ List.Forall₂ ResultLike (volRun V v done).1 rs ∧
      (volRun V v done).2.held = I.held ∧ (∀ h ∈ I.held, ∃ f, viewOf I.fs h.id = some f ∧ f.kind = h.cls) ∧
      ∀ e, rest.head? = some e → ¬ EventWithin V.env (idealCfg V) I e := by
  obtain ⟨v, e, hv⟩ := mount_fresh hV hn
  obtain ⟨done, rest, rs, I, h1, h2, h3, ⟨τ, h4⟩, h5⟩ := run_ok hV evs hv (.fresh now)
  refine ⟨v, e, done, rest, rs, I, h1, h2, h3, h4.held, fun h hh => ?_, h5⟩
  have hkl := h4.rel.kind_live (h4.live h hh)
  have hg := hkl.1
  obtain ⟨_, n, _, _, _, hn, _⟩ := h4.rel.live (h4.live h hh)
  have hk := h4.rel.kind_of_get hkl hn
  refine ⟨viewFile n, view_of_get hn, ?_⟩
  show AFile.kind ⟨n.attr.mode, _, _, _, _, _⟩ = _
  have hs : sIfmt = 0xf000 := rfl
  unfold AFile.kind
  dsimp only
  rw [hs] at hk
  rw [← hk]
  rcases hg with h4 | h8 | h10
  · rw [h4]; rfl
  · rw [h8]; rfl
  · rw [h10]; rfl

/-- C85: if the ideal volume stays within the limits in all that it may do, the answers to the whole history are its answers. -/
theorem C85_whole {V : VolEnv} (hV : VolEnvOk V) {now : TimeSpec} (hn : ValidTime now) (evs : List VolEvent)
    (hw : ∀ done e rest rs I, done ++ e :: rest = evs → IdealRun V.env (idealCfg V) ⟨FullFs.fresh (idealCfg V) now, []⟩ done rs I →
      EventWithin V.env (idealCfg V) I e) :
    ∃ v, volMount V [] 0 now = .ok v ∧ ∃ rs I, IdealRun V.env (idealCfg V) ⟨FullFs.fresh (idealCfg V) now, []⟩ evs rs I ∧
      List.Forall₂ ResultLike (volRun V v evs).1 rs := by
  obtain ⟨v, e, done, rest, rs, I, h1, h2, h3, _, _, h6⟩ := C85_volume hV hn evs
  cases rest with
  | nil =>
    rw [List.append_nil] at h1
    subst h1
    exact ⟨v, e, rs, I, h2, h3⟩
  | cons x rest => exact absurd (hw done x rest rs I h1 h2) (h6 x rfl)

/-- C85: the ideal volume is a file system in the sense of the other properties: its states are those of a history of operations one after
    the other, and so a tree (C60). -/
theorem C85_tree {V : VolEnv} (hV : VolEnvOk V) {now : TimeSpec} {evs : List VolEvent} {rs : List (Res VolAnswer)} {I : IdealVol}
    (h : IdealRun V.env (idealCfg V) ⟨FullFs.fresh (idealCfg V) now, []⟩ evs rs I) :
    Sequential (idealCfg V) I.fs ∧ DirTree (viewOf I.fs) := by
  have key : ∀ {J K : IdealVol}, Sequential (idealCfg V) J.fs → ∀ {evs rs}, IdealRun V.env (idealCfg V) J evs rs K → Sequential (idealCfg V) K.fs := by
    intro J K hJ evs rs h
    induction h with
    | nil => exact hJ
    | cons hw hs _ ih => exact ih (seq_step hJ hw hs)
  have hs := key (.fresh now) h
  exact ⟨hs, (C60_tree_partial (sameEquiv_of hV.names) hs).1⟩

/-- C85: what is not an operation changes no file and no name: throwing objects out of the memory, unmounting and mounting leave all of
    them as they were, and closing takes away only a file without links that nobody holds. -/
theorem C85_kept {cfg : FsCfg} {I I' : IdealVol} {ev : VolEvent} {r : Res VolAnswer} (h : IdealStep cfg I ev r I') (hop : ∀ op, ev ≠ .op op) :
    (∀ x f, viewOf I'.fs x = some f → viewOf I.fs x = some f) ∧
      ∀ x f, viewOf I.fs x = some f → viewOf I'.fs x = some f ∨ (ev = .close x ∧ f.nlink = 0 ∧ x ≠ kRootId ∧ ∀ fh ∈ I.held, fh.id ≠ x) := by
  have same : viewOf I'.fs = viewOf I.fs → (∀ x f, viewOf I'.fs x = some f → viewOf I.fs x = some f) ∧
      ∀ x f, viewOf I.fs x = some f → viewOf I'.fs x = some f ∨ (ev = .close x ∧ f.nlink = 0 ∧ x ≠ kRootId ∧ ∀ fh ∈ I.held, fh.id ≠ x) := by
    intro he
    rw [he]
    exact ⟨fun _ _ h => h, fun _ _ h => .inl h⟩
  have forgotten : ∀ ids, viewOf (forget cfg ids I.fs) = viewOf I.fs := by
    intro ids
    funext x
    unfold viewOf
    rw [forget_get]
    split
    · cases I.fs.get x <;> rfl
    · rfl
  cases h with
  | op op => exact absurd rfl (hop op)
  | release => exact same rfl
  | releasedir => exact same rfl
  | tick => exact same rfl
  | close => exact same rfl
  | eject id ids => exact same (forgotten ids)
  | remount ids => exact same (forgotten ids)
  | gone id hid =>
    cases hg : I.fs.get id with
    | none => exact same (by simp only [FullSys.step, hg])
    | some n =>
      by_cases h0 : n.attr.nlink = 0 ∧ id ≠ kRootId
      · have hfs : (FullSys.step cfg ⟨I.fs, []⟩ (.reap id)).fs = { I.fs with nodes := I.fs.nodes.filter fun p => p.1 ≠ id } := by
          simp only [FullSys.step, hg]
          rw [if_pos h0]
        have hget : ∀ x, viewOf { I.fs with nodes := I.fs.nodes.filter fun p => p.1 ≠ id } x = if x = id then none else viewOf I.fs x := by
          intro x
          show Option.map viewFile ((I.fs.nodes.filter fun p => p.1 ≠ id).lookup x) = _
          rw [nodes_lookup_filter_ne]
          split
          · rfl
          · rfl
        dsimp only
        rw [hfs]
        refine ⟨fun x f hx => ?_, fun x f hx => ?_⟩
        · rw [hget] at hx
          by_cases hxi : x = id
          · rw [if_pos hxi] at hx; cases hx
          · rw [if_neg hxi] at hx; exact hx
        · rw [hget]
          by_cases hxi : x = id
          · subst hxi
            rw [view_of_get hg] at hx
            injection hx with hx
            subst hx
            exact .inr ⟨rfl, h0.1, h0.2, hid⟩
          · rw [if_neg hxi]; exact .inl hx
      · exact same (by simp only [FullSys.step, hg]; rw [if_neg h0])

/-! ## It is not empty -/

example : VolEnvOk c85vol ∧ ValidTime ⟨1, 1⟩ := ⟨c85vol_ok, by decide⟩

theorem c85demo_within : ∃ rs I, IdealRun c85vol.env (idealCfg c85vol) ⟨FullFs.fresh (idealCfg c85vol) ⟨1, 1⟩, []⟩ c85demo rs I :=
  idealCheck_sound _ _ (by decide +kernel)

set_option maxRecDepth 10000 in
example : ((volMount c85vol [] 0 ⟨1, 1⟩).map fun v => (volRun c85vol v c85demo).1) = .ok [.ok (.code 0), .ok (.handle 0 (some c85file)), .ok (.code 3),
    .ok (.code 0), .ok (.code 0), .ok (.code 0), .ok (.code 0), .ok (.code 0), .ok (.code 0), .ok (.code 0), .ok (.handle 0 (some c85file)),
    .ok (.bytes 5 [0, 0, 1, 2, 3]), .ok (.code 0), .ok (.handle (-2) none)] := by
  decide +kernel

/-! ## What is false -/

/-- A file is made, its only name is removed while it is open. -/
def c85orphan : List VolEvent := [.op (.create [47, 102] 0x1a4 1 2 (fullDemoId 2)), .op (.unlink [47, 102])]

/-- One would expect that the backing files of a file without names are gone once nobody holds it.  They are if the handle is released first.
    If the volume is unmounted before that, the destructor of the table flushes the file like all others
    (`/repo/sources/file_table_v2.cpp:198-216`), and its backing files stay, although no name leads to them: nothing that is done to the
    identifier later removes them, since it is not in memory. -/
theorem C85_orphan_violated :
    ((volMount c85vol [] 0 ⟨1, 1⟩).map fun v => (volRun c85vol v (c85orphan ++ [.release c85file, .close (fullDemoId 2), .remount])).2.store.map Prod.fst) = .ok [] ∧
    ((volMount c85vol [] 0 ⟨1, 1⟩).map fun v => (volRun c85vol v (c85orphan ++ [.remount])).2.store.map Prod.fst) = .ok [fullDemoId 2] ∧
    ((volMount c85vol [] 0 ⟨1, 1⟩).map fun v => (volRun c85vol v (c85orphan ++ [.remount, .op (.opendir [47]), .op (.readdir ⟨kRootId, 4⟩ fun _ => 0)])).1.getLast?.map fun r =>
      r.map fun a => match a with | .items n l => (n, l.map DirItem.name) | _ => (1, [])) = .ok (some (.ok (0, [[46], [46, 46]]))) ∧
    ∀ v, v.obj (fullDemoId 2) = none → (volStep c85vol v (.close (fullDemoId 2))).2 = v ∧ (volStep c85vol v (.eject (fullDemoId 2))).2 = v := by
  refine ⟨by decide +kernel, by decide +kernel, by decide +kernel, fun v hv => ⟨?_, ?_⟩⟩
  · show (volClose c85vol _ v).2 = v
    unfold volClose
    rw [hv]
  · show (volEject _ v).2 = v
    unfold volEject
    rw [hv]

end Securefs.Props
