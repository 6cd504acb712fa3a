import Verif.Proofs.LegalNames
import Verif.Props.DataMoments
/-!
# C116: the names in directories of the full format are legal and different

The threads of `FullSys`, whose calls run section by section with anything in between.
-/

namespace Securefs.Props

open Securefs Securefs.Spec

/-- C116: whatever calls are made on whatever paths, by any number of threads, with failures and evictions at any place: no name in a directory has a slash or is
    too long, and no two names in a directory are the same. -/
theorem C116_flat (cfg : FsCfg) (fs : FullFs) (h : NamesAre cfg.same FlatName fs) (evs : List FullEvent) :
    NamesAre cfg.same FlatName (FullSys.run cfg ⟨fs, []⟩ evs).fs :=
  (Ln.run_names evs _ ⟨h, (fun _ h => absurd h List.not_mem_nil)⟩ fun _ _ p _ hl => ⟨Ln.lastOf_flat p, hl⟩).1

/-- C116: moreover none of them is empty, `.` or `..`, as long as calls that put names into directories are made on paths that end with a name.  What is missing:
    other paths (see `C116_root_violated` and `C116_dot_violated`). -/
theorem C116_legal_partial (cfg : FsCfg) (fs : FullFs) (h : NamesAre cfg.same LegalName fs) (evs : List FullEvent)
    (hp : ∀ op, .start op ∈ evs → ∀ p ∈ placesOf op, EndsInName p) : NamesAre cfg.same LegalName (FullSys.run cfg ⟨fs, []⟩ evs).fs :=
  (Ln.run_names evs _ ⟨h, (fun _ h => absurd h List.not_mem_nil)⟩ fun op ho p hm hl => ⟨⟨Ln.lastOf_flat p, hl⟩, Ln.lastOf_legal (hp op ho p hm)⟩).1

/-- C116: so the names are legal in all volumes: they are in a new one. -/
theorem C116_fresh_partial (cfg : FsCfg) (now : TimeSpec) (evs : List FullEvent) (hp : ∀ op, .start op ∈ evs → ∀ p ∈ placesOf op, EndsInName p) :
    NamesAre cfg.same LegalName (FullSys.run cfg ⟨FullFs.fresh cfg now, []⟩ evs).fs := by
  refine C116_legal_partial cfg _ (fun id n hn => ?_) evs hp
  have : n.entries = [] := by
    unfold FullFs.fresh FullFs.get at hn
    dsimp only at hn
    by_cases hk : id = kRootId
    · subst hk
      simp at hn
      rw [← hn]
    · rw [List.lookup_cons, beq_eq_false_iff_ne.mpr hk] at hn
      cases hn
  rw [this]
  exact ⟨(fun _ h => nomatch h), List.Pairwise.nil⟩

/-- The names in the root directory. -/
def rootNames (fs : FullFs) : Option (List Bytes) := (fs.get kRootId).map fun n => n.entries.map (·.name)

/-- C116: making the root directory again, which is to fail, puts an empty name into it.  (The kernel does not ask for this.) -/
theorem C116_root_violated : (FullOp.mkdir [47] 0o755 1 2 (fullDemoId 3)).prog fullDemoCfg |>.run momentFs |> fun r =>
    r.1 = .ok 0 ∧ rootNames r.2 = some [[], [102]] := by
  refine ⟨?_, ?_⟩ <;> decide +kernel

/-- C116: and making `/.` puts the name `.` into it.  (The kernel does not ask for this.) -/
theorem C116_dot_violated : (FullOp.create [47, 46] 0o644 1 2 (fullDemoId 3)).prog fullDemoCfg |>.run momentFs |> fun r =>
    r.1 = .ok 0 ∧ rootNames r.2 = some [[46], [102]] := by
  refine ⟨?_, ?_⟩ <;> decide +kernel

/-! ## Examples -/

/-- Two threads create `/g` at once while a third one renames `/f` to `/h` and a fourth one links it. -/
def namesRace : List FullEvent :=
  [.start (.create [47, 103] 0o644 1 2 (fullDemoId 2)), .start (.create [47, 103] 0o644 1 2 (fullDemoId 3)), .start (.rename [47, 102] [47, 104]),
    .start (.link [47, 102] [47, 105])] ++ (List.range 9).flatMap fun _ => [.step 3, .step 0, .step 1, .step 2]

example : rootNames (FullSys.run fullDemoCfg ⟨momentFs, []⟩ namesRace).fs = some [[105], [104], [103]] := by decide +kernel

/-- The paths end with names. -/
example : ∀ op, FullEvent.start op ∈ namesRace → ∀ p ∈ placesOf op, EndsInName p := by
  have hf : EndsInName [47, 102] := ⟨[102], by decide, by decide, by decide⟩
  have hg : EndsInName [47, 103] := ⟨[103], by decide, by decide, by decide⟩
  have hh : EndsInName [47, 104] := ⟨[104], by decide, by decide, by decide⟩
  have hi : EndsInName [47, 105] := ⟨[105], by decide, by decide, by decide⟩
  intro op h
  simp [namesRace] at h
  rcases h with rfl | rfl | rfl | rfl <;> simp [placesOf, hf, hg, hh, hi]

end Securefs.Props
