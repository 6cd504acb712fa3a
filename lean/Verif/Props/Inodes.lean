import Verif.Proofs.Inodes
import Verif.Props.FullFsData
/-!
# C117: which files show the same inode number (full format)

Programs that copy trees take files with the same inode number for names of one file.
-/

namespace Securefs.Props

open Securefs Securefs.Spec

/-- C117: two paths show the same inode number exactly if the identifiers of the files begin with the same eight bytes.  So names of one file show the same number,
    and different files show different ones unless their identifiers, which are random, begin alike. -/
theorem C117_shown {cfg : FsCfg} (hs : SameEquiv cfg.same) (ov : OwnerOverride) {fs : FullFs} (hq : Sequential cfg fs) {p q : Bytes} {x y : Place} {s t : FullStat}
    (hp : resolvePath cfg.same (viewOf fs) p false = .ok (some x)) (hq' : resolvePath cfg.same (viewOf fs) q false = .ok (some y))
    (h1 : ((fullGetattr cfg ov p).run fs).1 = .ok (0, some s)) (h2 : ((fullGetattr cfg ov q).run fs).1 = .ok (0, some t))
    (lx : x.1.length = 32) (ly : y.1.length = 32) : s.ino = t.ino ↔ x.1.take 8 = y.1.take 8 := by
  have a := ((C79_stat hs ov hq).2 p).2
  have b := ((C79_stat hs ov hq).2 q).2
  rw [hp] at a
  rw [hq'] at b
  obtain ⟨f, s', _, e1, g1⟩ := a
  obtain ⟨g, t', _, e2, g2⟩ := b
  rw [h1] at e1
  rw [h2] at e2
  injection e1 with e1
  injection e1 with _ e1
  injection e1 with e1
  injection e2 with e2
  injection e2 with _ e2
  injection e2 with e2
  subst e1 e2
  rw [g1.ino, g2.ino]
  exact Ino.ino_inj lx ly

/-- C117: so the same number means the same file, as long as no two identifiers of the volume begin with the same eight bytes.  What is missing: volumes where
    they do (see `C117_collide_violated`). -/
theorem C117_same_partial {cfg : FsCfg} (hs : SameEquiv cfg.same) (ov : OwnerOverride) {fs : FullFs} (hq : Sequential cfg fs)
    (hd : ∀ a b, fs.get a ≠ none → fs.get b ≠ none → a.take 8 = b.take 8 → a = b) (hl : ∀ a, fs.get a ≠ none → a.length = 32) {p q : Bytes} {x y : Place}
    {s t : FullStat} (hp : resolvePath cfg.same (viewOf fs) p false = .ok (some x)) (hq' : resolvePath cfg.same (viewOf fs) q false = .ok (some y))
    (h1 : ((fullGetattr cfg ov p).run fs).1 = .ok (0, some s)) (h2 : ((fullGetattr cfg ov q).run fs).1 = .ok (0, some t)) : s.ino = t.ino ↔ x.1 = y.1 := by
  have a := ((C79_stat hs ov hq).2 p).2
  have b := ((C79_stat hs ov hq).2 q).2
  rw [hp] at a
  rw [hq'] at b
  obtain ⟨f, _, hf, _⟩ := a
  obtain ⟨g, _, hg, _⟩ := b
  have nx : fs.get x.1 ≠ none := by
    intro e
    have : viewOf fs x.1 = none := by unfold viewOf; rw [e]; rfl
    rw [this] at hf; cases hf
  have ny : fs.get y.1 ≠ none := by
    intro e
    have : viewOf fs y.1 = none := by unfold viewOf; rw [e]; rfl
    rw [this] at hg; cases hg
  rw [C117_shown hs ov hq hp hq' h1 h2 (hl _ nx) (hl _ ny)]
  exact ⟨hd _ _ nx ny, fun e => by rw [e]⟩

/-- The inode number that `stat` shows. -/
def inoAt (fs : FullFs) (path : Bytes) : Option Nat :=
  match ((fullGetattr fullDemoCfg ⟨none, none⟩ path).run fs).1 with
  | .ok (_, some st) => some st.ino
  | _ => none

/-- C117: two different files with the same number. -/
theorem C117_collide_violated : ∃ fs, Sequential fullDemoCfg fs ∧ inoAt fs [47, 100, 47, 102] = inoAt fs [47, 103] ∧ inoAt fs [47, 103] ≠ none ∧
    resolvePath fullDemoCfg.same (viewOf fs) [47, 100, 47, 102] false = .ok (some (fullDemoId 2, [fullDemoId 1, kRootId])) ∧
    resolvePath fullDemoCfg.same (viewOf fs) [47, 103] false = .ok (some (fullDemoId 4, [kRootId])) :=
  ⟨demoFs, demoFs_sequential, by decide +kernel, by decide +kernel, by decide +kernel, by decide +kernel⟩

/-! ## Examples -/

/-- Directories `/a` and `/b` with identifiers that begin differently, and `/a` once more with a detour. -/
example : inoAt dotdotFs [47, 97] = some (2 ^ 64 - 1 - 0x0101010101010101) ∧ inoAt dotdotFs [47, 98] = some (2 ^ 64 - 1 - 0x0202020202020202) ∧
    inoAt dotdotFs [47, 97, 47, 99, 47, 46, 46, 47, 99] = inoAt dotdotFs [47, 97, 47, 99] ∧
    (∀ a ∈ dotdotFs.nodes.map Prod.fst, ∀ b ∈ dotdotFs.nodes.map Prod.fst, a.take 8 = b.take 8 → a = b) ∧ (∀ a ∈ dotdotFs.nodes.map Prod.fst, a.length = 32) := by
  refine ⟨?_, ?_, ?_, ?_, ?_⟩ <;> decide +kernel

end Securefs.Props
