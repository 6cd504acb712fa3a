import Verif.Proofs.GetPath
import Verif.Props.FullFs
/-!
# C66: asking for the stored spelling of a path
-/

namespace Securefs.Props

open Spec

theorem seq_apart {cfg : FsCfg} (hs : SameEquiv cfg.same) {fs : FullFs} (h : Sequential cfg fs) : NamesApart cfg.same (viewOf fs) := by
  intro d f hf
  obtain ⟨n, hn, rfl⟩ := get_of_view hf
  exact wf_entries (seq_inv hs h).wf hn

/-- Without other threads, `getpath` answers with the path in the stored spelling, if and only if every name of the path is there and all
    but the last are directories; the answer ends with a NUL, the rest of the buffer is zero, and nothing that a user sees changes.  If it
    does not fit into the buffer the answer is `ENAMETOOLONG`, and the buffer is not touched. -/
theorem C66_spelling {cfg : FsCfg} (hs : SameEquiv cfg.same) {fs : FullFs} (h : Sequential cfg fs) {path : Bytes}
    (h0 : path ≠ [] ∧ path ≠ [47]) (size : Nat) :
    let out := (vgetpath cfg path size).run fs
    viewOf out.2 = viewOf fs ∧
    (∀ names last, Spelled cfg.same (viewOf fs) kRootId (parts path) names last →
      ((slashed names).length < size → out.1 = .ok (0, some (slashed names ++ zeros (size - (slashed names).length)))) ∧
      (size ≤ (slashed names).length → out.1 = .ok (-36, none))) ∧
    ((¬ ∃ names last, Spelled cfg.same (viewOf fs) kRootId (parts path) names last) →
      out.1 = .error (.vfs 1) ∨ out.1 = .error (.vfs 2) ∨ out.1 = .error (.vfs 36)) := by
  intro out
  have hi := (seq_inv hs h).inv
  have ha := seq_apart hs h
  obtain ⟨hc, hres⟩ := vgetpath_agrees (cfg := cfg) hi.tree (show ¬ (path = [] ∨ path = [47]) by rintro (h | h); exacts [h0.1 h, h0.2 h]) size
  refine ⟨hc.view, ?_, ?_⟩
  · intro names last hsp
    rw [(spelled_iff hs ha).mpr ⟨last, hsp⟩] at hres
    refine ⟨fun hlt => ?_, fun hle => ?_⟩
    · refine hres.trans ?_
      unfold copyAndReturn
      dsimp only
      rw [if_neg (by omega)]
    · refine hres.trans ?_
      unfold copyAndReturn
      dsimp only
      rw [if_pos hle]
  · intro hno
    cases hst : storedNames cfg.same (viewOf fs) kRootId (parts path) with
    | ok names =>
      obtain ⟨last, hl⟩ := (spelled_iff hs ha).mp hst
      exact absurd ⟨names, last, hl⟩ hno
    | error e =>
      rw [hst] at hres
      rcases storedNames_errors hst with rfl | rfl | rfl
      · exact .inl hres
      · exact .inr (.inl hres)
      · exact .inr (.inr hres)

/-- Names that differ in the case of ASCII letters only are the same. -/
def foldCfg : FsCfg := ⟨fun a b => a.map asciiLower == b.map asciiLower, true, 1000, 1000⟩

theorem foldCfg_same : SameEquiv foldCfg.same where
  refl a := by simp [foldCfg]
  symm a b h := by simp only [foldCfg, beq_iff_eq] at h ⊢; exact h.symm
  trans a b c h g := by simp only [foldCfg, beq_iff_eq] at h g ⊢; exact h.trans g

/-- `/Dir` and `/Dir/File`. -/
def foldFs : FullFs := runOps foldCfg (FullFs.fresh foldCfg ⟨1, 0⟩)
  [.mkdir [47, 68, 105, 114] 0x1ed 1 2 (fullDemoId 1), .create [47, 100, 105, 114, 47, 70, 105, 108, 101] 0x1a4 1 2 (fullDemoId 2)]

theorem foldFs_sequential : Sequential foldCfg foldFs := opsCheck_sound _ _ (.fresh _) (by decide +kernel)

/-- `/dir/FILE` is spelled `/Dir/File`. -/
theorem foldFs_spelled : Spelled foldCfg.same (viewOf foldFs) kRootId (parts [47, 100, 105, 114, 47, 70, 73, 76, 69])
    [[68, 105, 114], [70, 105, 108, 101]] (fullDemoId 2) := by
  have hp : parts [47, 100, 105, 114, 47, 70, 73, 76, 69] = [[100, 105, 114], [70, 73, 76, 69]] := by decide +kernel
  rw [hp]
  refine .down (e := ⟨[68, 105, 114], fullDemoId 1, 4⟩) (f := (viewOf foldFs kRootId).get (by decide +kernel)) (by simp) ?_ ?_ ?_ ?_
    (.down (e := ⟨[70, 105, 108, 101], fullDemoId 2, 8⟩) (f := (viewOf foldFs (fullDemoId 1)).get (by decide +kernel)) (by simp) ?_ ?_ ?_ ?_
      (.here _)) <;> decide +kernel

/-- In a buffer of eleven bytes there is room for it, in one of nine there is not; `/Dir/x` and `/Dir/File/x` do not exist. -/
example : ((vgetpath foldCfg [47, 100, 105, 114, 47, 70, 73, 76, 69] 11).run foldFs).1 =
      .ok (0, some [47, 68, 105, 114, 47, 70, 105, 108, 101, 0, 0]) ∧
    ((vgetpath foldCfg [47, 100, 105, 114, 47, 70, 73, 76, 69] 9).run foldFs).1 = .ok (-36, none) ∧
    ((vgetpath foldCfg [47, 68, 105, 114, 47, 120] 11).run foldFs).1 = .error (.vfs 2) ∧
    ((vgetpath foldCfg [47, 68, 105, 114, 47, 70, 105, 108, 101, 47, 120] 11).run foldFs).1 = .error (.vfs 1) := by
  refine ⟨?_, ?_, ?_, ?_⟩ <;> decide +kernel

/-- The path in the stored spelling leads to the same place as the path that was asked for. -/
theorem C66_same_file {cfg : FsCfg} (hs : SameEquiv cfg.same) {fs : FullFs} (h : Sequential cfg fs) {path : Bytes}
    (h0 : path ≠ [] ∧ path ≠ [47]) (hne : parts path ≠ []) (hdots : ∀ s ∈ parts path, s ≠ [46] ∧ s ≠ [46, 46]) {size : Nat} {buf : Bytes}
    (hout : ((vgetpath cfg path size).run fs).1 = .ok (0, some buf)) :
    ∃ names last, Spelled cfg.same (viewOf fs) kRootId (parts path) names last ∧ buf = slashed names ++ zeros (size - (slashed names).length) ∧
      ((∀ n ∈ names, PlainName n) → ∀ follow, resolvePath cfg.same (viewOf fs) (slashed names) follow = resolvePath cfg.same (viewOf fs) path follow ∧
        ∃ p, resolvePath cfg.same (viewOf fs) path false = .ok (some p) ∧ p.1 = last) := by
  obtain ⟨-, h1, h2⟩ := C66_spelling hs h h0 size
  by_cases hsp : ∃ names last, Spelled cfg.same (viewOf fs) kRootId (parts path) names last
  · obtain ⟨names, last, hsp⟩ := hsp
    obtain ⟨h3, h4⟩ := h1 names last hsp
    refine ⟨names, last, hsp, ?_, ?_⟩
    · by_cases hlt : (slashed names).length < size
      · have := (h3 hlt).symm.trans hout
        injection this with this
        injection this with _ this
        injection this with this
        exact this.symm
      · have := (h4 (by omega)).symm.trans hout
        injection this with this
        injection this with this _
        cases this
    · intro hn follow
      exact spelled_resolves hs (seq_apart hs h) (seq_inv hs h).inv.tree (by rintro (h | h); exacts [h0.1 h, h0.2 h]) hsp hne hdots hn follow
  · rcases h2 hsp with h | h | h <;> exact absurd (h.symm.trans hout) (by simp)

/-- The hypotheses hold for `/dir/FILE`, whose stored names are plain. -/
example : parts [47, 100, 105, 114, 47, 70, 73, 76, 69] ≠ [] ∧ (∀ s ∈ parts [47, 100, 105, 114, 47, 70, 73, 76, 69], s ≠ [46] ∧ s ≠ [46, 46]) ∧
    ((vgetpath foldCfg [47, 100, 105, 114, 47, 70, 73, 76, 69] 11).run foldFs).1 = .ok (0, some [47, 68, 105, 114, 47, 70, 105, 108, 101, 0, 0]) ∧
    ∀ n ∈ ([[68, 105, 114], [70, 105, 108, 101]] : List Bytes), PlainName n := by
  refine ⟨by decide +kernel, by decide +kernel, by decide +kernel, ?_⟩
  unfold PlainName
  decide

/-- The root has no other spelling. -/
theorem C66_root (cfg : FsCfg) (fs : FullFs) (size : Nat) :
    (vgetpath cfg [47] size).run fs = (.ok (if size ≤ 1 then (-36, none) else (0, some (47 :: zeros (size - 1)))), fs) ∧
    (vgetpath cfg [] size).run fs = (.ok (if size = 0 then (-36, none) else (0, some (zeros size))), fs) := by
  refine ⟨?_, ?_⟩
  · unfold vgetpath
    rw [if_pos (.inr rfl)]
    unfold copyAndReturn
    rfl
  · unfold vgetpath
    rw [if_pos (.inl rfl)]
    unfold copyAndReturn
    cases size <;> rfl

/-- How a thread ended, if it did. -/
def endOf : Prog Int → Option (Res Int)
  | .ret v => some (.ok v)
  | .throw e => some (.error e)
  | .sec _ _ => none

/-- With other threads the answer may be anything: `getpath` keeps pointers into the directory after it has given up the lock.  If
    another thread removes `/Dir/File` while `getpath /dir/FILE` is at its last step, it reads memory that has been given back. -/
theorem C66_race_violated :
    let ask := (vgetpath foldCfg [47, 100, 105, 114, 47, 70, 73, 76, 69] 11).bind fun r => Prog.ret r.1
    let s := FullSys.run foldCfg ⟨foldFs, [ask]⟩ (List.replicate 7 (.step 0) ++ [.start (.unlink [47, 68, 105, 114, 47, 70, 105, 108, 101])] ++
      List.replicate 20 (.step 1) ++ [.step 0])
    s.threads.map endOf = [some (.error .outOfBounds), some (.ok 0)] := by
  decide +kernel

end Securefs.Props
