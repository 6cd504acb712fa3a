import Verif.Proofs.Suffix
/-!
# C63: Changing the suffix of long names keeps every name
-/

namespace Securefs.Props

open Spec

theorem short_of_length {L : Nat} {old new n : Bytes} (h : n.length < L) : (SufName.short n).Ok L old new := by
  intro x hx
  constructor <;> (intro he; rw [he, List.length_append] at h; omega)

theorem changeSuffix_eq {O : SufOracle} {fuel : Nat} {stored new : Bytes} {fs : SFs} (hnew : new ≠ []) (hne : effectiveSuffix stored ≠ new) :
    changeSuffix O fuel stored new fs = match sMigrateDirs O (effectiveSuffix stored) new (sCollect fs fuel 0 []) fs with
      | (fs, .error e) => (fs, .error e)
      | (fs, .ok _) => (fs, .ok new) := by
  unfold changeSuffix
  rw [if_neg hnew]
  dsimp only
  rw [show (if stored = [] then legacySuffix else stored) = effectiveSuffix stored from rfl, if_neg hne]
  rfl

/-- If the command succeeds, and the tables were as they should be and could be committed, then every path leads to the same file as before,
    and each long name has the same row.  Partial: see the theorems below for tables that disagree with the directory, for failures and
    crashes. -/
theorem C63_success_partial (L : Nat) (hL : 14 < L) (O : SufOracle) (hO : ∀ p, O.commitOk p = true) (fuel : Nat) (stored new : Bytes) (fs fs' : SFs) (s : Bytes)
    (hg : GoodTree L (effectiveSuffix stored) new fs fun _ => false) (hdep : DepthBelow fs fuel) (h : changeSuffix O fuel stored new fs = (fs', .ok s)) :
    effectiveSuffix s = new ∧
    (∀ p node, (∀ n ∈ p, n.Ok L (effectiveSuffix stored) new) →
      (Reaches fs' (fun _ => effectiveSuffix s) 0 p node ↔ Reaches fs (fun _ => effectiveSuffix stored) 0 p node)) ∧
    ∀ p d hash v, (∀ n ∈ p, n.Ok L (effectiveSuffix stored) new) → hash.length = L → Reaches fs (fun _ => effectiveSuffix stored) 0 p (.dir d) →
      ((hash ++ effectiveSuffix s, v) ∈ (fs' d).rows ↔ (hash ++ effectiveSuffix stored, v) ∈ (fs d).rows) := by
  have ht : (SufName.short tableFileName).Ok L (effectiveSuffix stored) new := short_of_length hL
  by_cases hnew : new = []
  · subst hnew; cases h
  by_cases hne : effectiveSuffix stored = new
  · unfold changeSuffix at h
    rw [if_neg hnew] at h
    dsimp only at h
    rw [show (if stored = [] then legacySuffix else stored) = effectiveSuffix stored from rfl, if_pos hne] at h
    injection h with h1 h2
    injection h2 with h2
    subst h1; subst h2
    exact ⟨hne, fun _ _ _ => Iff.rfl, fun _ _ _ _ _ _ _ => Iff.rfl⟩
  · rw [changeSuffix_eq hnew hne] at h
    split at h
    · cases h
    · rename_i fs1 _ hrun
      injection h with h1 h2
      injection h2 with h2
      subst h1; subst h2
      have heff : effectiveSuffix new = new := if_neg hnew
      rw [heff]
      obtain ⟨S, res, hS, hall, _, _⟩ := attempt hne ht hg (O := ⟨fun _ _ => false, fun _ => true⟩) ⟨fun _ _ => rfl, fun _ => rfl⟩ (depth_walk hdep) (.inl fun _ => rfl)
      rw [dirs_quiet hO _ _ _ hrun] at hS
      injection hS with hS1 hS2
      subst hS1
      have hall := hall hS2.symm
      refine ⟨rfl, fun p node hp => reaches_done hne ht hg hall hp node, fun p d hash v hp hl hreach => ?_⟩
      have hnd : ∀ d, ((fs d).entries.map (·.1)).Nodup := fun d => (hg.dirs d).names_nodup
      have hwalk : ∀ {d0 : Nat} {p : List SufName} {node : SNode}, Reaches fs (fun _ => effectiveSuffix stored) d0 p node → Reach fs d0 → node = .dir d → Reach fs d := by
        intro d0 p node hr
        induction hr with
        | here d0 => intro h0 he; injection he with he; subst he; exact h0
        | last hm => intro h0 he; subst he; exact reach_step hnd h0 hm
        | step hm _ ih => intro h0 he; exact ih (reach_step hnd h0 hm) he
      have hd := hwalk hreach ⟨[], rfl⟩ rfl
      have hrow := row_apply (S := S) hne hg (d := d) (v := v) hl
      by_cases htab : HasTable fs d
      · unfold mixed orF at hrow
        rw [hall d hd htab] at hrow
        exact hrow
      · have hr0 : (fs d).rows = [] := by
          by_contra hx
          exact htab (rows_table (hg.dirs d) hx)
        have hr1 : (applyS L (effectiveSuffix stored) new fs S d).rows = [] := by
          unfold applyS
          split
          · unfold renDir; rw [hr0]; rfl
          · exact hr0
        rw [hr0, hr1]
        exact ⟨fun h => (by cases h), fun h => (by cases h)⟩

/-- If it fails although no call failed by itself, then each directory is wholly changed or wholly unchanged, and nothing is lost: with the
    right suffix for each directory, every path leads to the same file.  A volume has one suffix, however: see `C63_order_violated`. -/
theorem C63_failed_partial (L : Nat) (hL : 14 < L) (O : SufOracle) (hO : SufOracle.Quiet O) (fuel : Nat) (stored new : Bytes) (hne : effectiveSuffix stored ≠ new)
    (hnew : new ≠ []) (fs fs' : SFs) (e : Err) (F : Nat → Bool) (hF : (∀ d, F d = false) ∨ NotNested L (effectiveSuffix stored) new)
    (hg : GoodTree L (effectiveSuffix stored) new fs F) (hdep : DepthBelow fs fuel) (h : changeSuffix O fuel stored new fs = (fs', .error e)) :
    ∃ F', GoodTree L (effectiveSuffix stored) new fs' F' ∧ (∀ d, F d = true → F' d = true) ∧ (∃ d, F d = false ∧ F' d = true) ∧
      ∀ p node, (∀ n ∈ p, n.Ok L (effectiveSuffix stored) new) →
        (Reaches fs' (mixed (effectiveSuffix stored) new F') 0 p node ↔ Reaches fs (mixed (effectiveSuffix stored) new F) 0 p node) := by
  have ht : (SufName.short tableFileName).Ok L (effectiveSuffix stored) new := short_of_length hL
  rw [changeSuffix_eq hnew hne] at h
  obtain ⟨S, res, hS, _, herr, _⟩ := attempt hne ht hg hO (depth_walk hdep) hF
  rw [hS] at h
  cases res with
  | ok u => cases h
  | error e' =>
    injection h with h1 h2
    subst h1
    obtain ⟨d, hd1, hd2⟩ := herr e' rfl
    refine ⟨orF F S, good_apply hne ht hg, fun d hd => by unfold orF; rw [hd, Bool.true_or], ⟨d, ?_, by unfold orF; rw [hd1, Bool.or_true]⟩,
      fun p node hp => reaches_apply hne hg hp 0 node⟩
    cases hF' : F d with
    | false => rfl
    | true => exact absurd (renDir_new hne (good_true hg hF')) hd2

theorem attempts_end {L : Nat} {O : SufOracle} (hO : SufOracle.Quiet O) {fuel : Nat} {stored new : Bytes} (hne : effectiveSuffix stored ≠ new) (hnew : new ≠ [])
    (ht : (SufName.short tableFileName).Ok L (effectiveSuffix stored) new) (hnest : NotNested L (effectiveSuffix stored) new) (ids : List Nat) :
    ∀ (m : Nat) (fs : SFs) (F : Nat → Bool), GoodTree L (effectiveSuffix stored) new fs F → WalkBelow fs fuel →
      (∀ d, Reach fs d → HasTable fs d → d ∈ ids) → (ids.filter fun d => !F d).length ≤ m →
      ∃ n fs', n ≤ m ∧ Attempts O fuel stored new fs n fs' ∧ ∀ p node, (∀ n ∈ p, n.Ok L (effectiveSuffix stored) new) →
        (Reaches fs' (fun _ => new) 0 p node ↔ Reaches fs (mixed (effectiveSuffix stored) new F) 0 p node) := by
  intro m
  induction m with
  | zero =>
    intro fs F hg hdep hids hm
    obtain ⟨S, res, hS, hall, herr, hsub⟩ := attempt hne ht hg hO hdep (.inr hnest)
    cases res with
    | ok u =>
      refine ⟨0, _, Nat.le_refl _, .done (s := new) (by rw [changeSuffix_eq hnew hne, hS]), fun p node hp => reaches_done hne ht hg (hall rfl) hp node⟩
    | error e =>
      obtain ⟨d, hd1, hd2⟩ := herr e rfl
      have hF : F d = false := by
        cases hF' : F d with
        | false => rfl
        | true => exact absurd (renDir_new hne (good_true hg hF')) hd2
      have hmem : d ∈ ids.filter fun d => !F d := List.mem_filter.mpr ⟨hids d (hsub d hd1).1 (hsub d hd1).2, by rw [hF]; rfl⟩
      rw [List.length_eq_zero_iff.mp (Nat.le_zero.mp hm)] at hmem
      cases hmem
  | succ m ih =>
    intro fs F hg hdep hids hm
    obtain ⟨S, res, hS, hall, herr, hsub⟩ := attempt hne ht hg hO hdep (.inr hnest)
    cases res with
    | ok u =>
      refine ⟨0, _, Nat.zero_le _, .done (s := new) (by rw [changeSuffix_eq hnew hne, hS]), fun p node hp => reaches_done hne ht hg (hall rfl) hp node⟩
    | error e =>
      obtain ⟨d, hd1, hd2⟩ := herr e rfl
      have hF : F d = false := by
        cases hF' : F d with
        | false => rfl
        | true => exact absurd (renDir_new hne (good_true hg hF')) hd2
      have hnd : ∀ d, ((fs d).entries.map (·.1)).Nodup := fun d => (hg.dirs d).names_nodup
      have hlt : (ids.filter fun d => !orF F S d).length < (ids.filter fun d => !F d).length := by
        refine filter_lt (fun a _ ha => ?_) ⟨d, hids d (hsub d hd1).1 (hsub d hd1).2, by rw [hF]; rfl, by unfold orF; rw [hd1, Bool.or_true]; rfl⟩
        unfold orF at ha
        cases hFa : F a with
        | false => rfl
        | true => rw [hFa] at ha; cases ha
      obtain ⟨n, fs', hn, hat, hr⟩ := ih (applyS L (effectiveSuffix stored) new fs S) (orF F S) (good_apply hne ht hg) (apply_below hnd hdep)
        (fun x hx hxt => hids x (apply_reach hnd hx) (apply_table hne ht hg hxt)) (by omega)
      exact ⟨n + 1, fs', Nat.succ_le_succ hn, .again (by rw [changeSuffix_eq hnew hne, hS]) hat,
        fun p node hp => (hr p node hp).trans (reaches_apply hne hg hp 0 node)⟩

/-- If no call fails by itself, then repeating the command ends with success after at most as many failures as there are tables, with every
    path leading to the same file as before.  Partial: not if the new suffix ends like the old one (`C63_nested_violated`), and only if the volume
    is not used between the attempts (`C63_overwrite_violated`). -/
theorem C63_eventually_partial (L : Nat) (hL : 14 < L) (O : SufOracle) (hO : SufOracle.Quiet O) (fuel : Nat) (stored new : Bytes) (hne : effectiveSuffix stored ≠ new)
    (hnew : new ≠ []) (fs : SFs) (hnest : NotNested L (effectiveSuffix stored) new) (hg : GoodTree L (effectiveSuffix stored) new fs fun _ => false)
    (hdep : DepthBelow fs fuel) :
    ∃ n fs', n ≤ (sCollect fs fuel 0 []).length ∧ Attempts O fuel stored new fs n fs' ∧ ∀ p node, (∀ n ∈ p, n.Ok L (effectiveSuffix stored) new) →
      (Reaches fs' (fun _ => new) 0 p node ↔ Reaches fs (fun _ => effectiveSuffix stored) 0 p node) := by
  have ht : (SufName.short tableFileName).Ok L (effectiveSuffix stored) new := short_of_length hL
  obtain ⟨n, fs', h1, h2, h3⟩ := attempts_end hO hne hnew ht hnest ((sCollect fs fuel 0 []).filterMap (sWalk fs 0)) _ fs (fun _ => false) hg (depth_walk hdep)
    (fun d ⟨p, hp⟩ htab => by
      have := collect_complete fuel 0 [] p d (depth_walk hdep p d hp) hp htab
      rw [List.nil_append] at this
      exact List.mem_filterMap.mpr ⟨p, this, hp⟩) (Nat.le_refl _)
  exact ⟨n, fs', Nat.le_trans h1 (Nat.le_trans (List.length_filter_le _ _) (List.length_filterMap_le _ _)), h2, h3⟩

/-! ## Concrete volumes -/

/-- A hash of the examples. -/
def sfxHash (c : UInt8) : Bytes := List.replicate 16 c

/-- The root has a long-named directory, which has a long-named file; `first` tells whether the table of the root is listed before that directory. -/
def nestedTree (first : Bool) : SFs := fun d =>
  if d = 0 then
    ⟨if first then [(tableFileName, .db), (sfxHash 65 ++ legacySuffix, .dir 1), (sfxHash 67 ++ legacySuffix, .file 5)]
      else [(sfxHash 65 ++ legacySuffix, .dir 1), (sfxHash 67 ++ legacySuffix, .file 5), (tableFileName, .db)],
      [(sfxHash 65 ++ legacySuffix, [1]), (sfxHash 67 ++ legacySuffix, [3])]⟩
  else if d = 1 then ⟨[(tableFileName, .db), (sfxHash 66 ++ legacySuffix, .file 7)], [(sfxHash 66 ++ legacySuffix, [2])]⟩
  else ⟨[], []⟩

theorem empty_good {L : Nat} {old new s : Bytes} : GoodDir L old new s ⟨[], []⟩ :=
  ⟨List.nodup_nil, List.nodup_nil, fun _ _ h => (by cases h), fun _ _ h => (by cases h), fun h => absurd rfl h, fun _ h => (by cases h)⟩

theorem nestedTree_good (first : Bool) (new : Bytes) : GoodTree 16 (effectiveSuffix []) new (nestedTree first) fun _ => false := by
  have hshort : ∀ {n : Bytes} {new : Bytes}, n.length < 16 → (SufName.short n).Ok 16 (effectiveSuffix []) new := fun h => short_of_length h
  refine ⟨fun d => ?_, ?_, ?_⟩
  · match d with
    | 0 =>
      refine ⟨by cases first <;> decide +kernel, by cases first <;> decide +kernel, ?_, ?_, fun _ => by cases first <;> decide +kernel, ?_⟩
      · intro n node h
        have h : (n, node) = (tableFileName, .db) ∨ (n, node) = (sfxHash 65 ++ legacySuffix, .dir 1) ∨ (n, node) = (sfxHash 67 ++ legacySuffix, .file 5) := by
          cases first <;> simp [nestedTree] at h ⊢ <;> tauto
        rcases h with h | h | h <;> injection h with h1 h2 <;> subst h1
        · exact .inr (hshort (by decide))
        · exact .inl ⟨sfxHash 65, [1], rfl, rfl, by cases first <;> decide +kernel⟩
        · exact .inl ⟨sfxHash 67, [3], rfl, rfl, by cases first <;> decide +kernel⟩
      · intro k v h
        have h : (k, v) = (sfxHash 65 ++ legacySuffix, [1]) ∨ (k, v) = (sfxHash 67 ++ legacySuffix, [3]) := by
          cases first <;> simpa [nestedTree] using h
        rcases h with h | h <;> injection h with h1 h2 <;> subst h1
        · exact ⟨sfxHash 65, .dir 1, rfl, rfl, by cases first <;> decide +kernel⟩
        · exact ⟨sfxHash 67, .file 5, rfl, rfl, by cases first <;> decide +kernel⟩
      · intro e h
        cases first <;> simp [nestedTree, sfxHash, tableFileName, legacySuffix] at h
    | 1 =>
      refine ⟨by cases first <;> decide +kernel, by cases first <;> decide +kernel, ?_, ?_, fun _ => by cases first <;> decide +kernel, ?_⟩
      · intro n node h
        have h : (n, node) = (tableFileName, .db) ∨ (n, node) = (sfxHash 66 ++ legacySuffix, .file 7) := by
          simpa [nestedTree] using h
        rcases h with h | h <;> injection h with h1 h2 <;> subst h1
        · exact .inr (hshort (by decide))
        · exact .inl ⟨sfxHash 66, [2], rfl, rfl, by cases first <;> decide +kernel⟩
      · intro k v h
        have h : (k, v) = (sfxHash 66 ++ legacySuffix, [2]) := by simpa [nestedTree] using h
        injection h with h1 h2
        subst h1
        exact ⟨sfxHash 66, .file 7, rfl, rfl, by cases first <;> decide +kernel⟩
      · intro e h
        simp [nestedTree] at h
    | d + 2 => exact empty_good
  · have key : ∀ {d n x}, (n, SNode.dir x) ∈ (nestedTree first d).entries → d = 0 ∧ n = sfxHash 65 ++ legacySuffix := by
      intro d n x h
      match d with
      | 0 => cases first <;> simp [nestedTree] at h <;> exact ⟨rfl, h.1⟩
      | 1 => simp [nestedTree] at h
      | d + 2 => simp [nestedTree] at h
    intro d e n m x h1 h2
    obtain ⟨a1, a2⟩ := key h1
    obtain ⟨b1, b2⟩ := key h2
    exact ⟨a1.trans b1.symm, a2.trans b2.symm⟩
  · intro d n h
    match d with
    | 0 => cases first <;> simp [nestedTree] at h
    | 1 => simp [nestedTree] at h
    | d + 2 => simp [nestedTree] at h

theorem nestedTree_depth (first : Bool) : DepthBelow (nestedTree first) 5 := by
  have h1 : ∀ {p e}, Reaches (nestedTree first) (fun _ => []) 1 p (.dir e) → p = [] := by
    intro p e h
    generalize hd : 1 = d at h
    generalize hn : SNode.dir e = node at h
    induction h with
    | here => rfl
    | last h => subst hd; subst hn; simp [nestedTree] at h
    | step h _ _ => subst hd; simp [nestedTree] at h
  intro p e h
  generalize hq : p.map SufName.short = q at h
  cases h with
  | here => cases p with
    | nil => decide
    | cons => cases hq
  | last h =>
    have := congrArg List.length hq
    simp only [List.length_map, List.length_cons, List.length_nil] at this
    omega
  | @step _ _ x _ _ h hr =>
    have he : x = 1 := by
      cases first <;> simp [nestedTree] at h <;> exact h.2
    rw [he] at hr
    have := congrArg List.length hq
    rw [h1 hr] at this
    simp only [List.length_map, List.length_cons, List.length_nil] at this
    omega

/-- Nothing fails by itself. -/
def quietSuf : SufOracle := ⟨fun _ _ => false, fun _ => true⟩

theorem quietSuf_quiet : SufOracle.Quiet quietSuf := ⟨fun _ _ => rfl, fun _ => rfl⟩

/-- The hypotheses of `C63_success_partial` are met, with a directory in a directory, if the table is listed last. -/
example : GoodTree 16 (effectiveSuffix []) [46, 108] (nestedTree false) (fun _ => false) ∧ DepthBelow (nestedTree false) 5 ∧
    (changeSuffix quietSuf 5 [] [46, 108] (nestedTree false)).2 = .ok [46, 108] ∧
    Reaches (nestedTree false) (fun _ => effectiveSuffix []) 0 [.long (sfxHash 65), .long (sfxHash 66)] (.file 7) :=
  ⟨nestedTree_good _ _, nestedTree_depth _, by decide +kernel, .step (n := .long (sfxHash 65)) (e := 1) (by decide +kernel) (.last (n := .long (sfxHash 66)) (by decide +kernel))⟩

/-- C63 is false: if the table of a directory is listed before a long-named directory that has a table itself, then the second table is not found
    any more, since its path was collected before its parent was renamed.  The command fails, the stored suffix is the old one, and the names
    that were changed are lost until the command is repeated. -/
theorem C63_order_violated : GoodTree 16 (effectiveSuffix []) [46, 108] (nestedTree true) (fun _ => false) ∧ DepthBelow (nestedTree true) 5 ∧
    (changeSuffix quietSuf 5 [] [46, 108] (nestedTree true)).2 = .error .runtime ∧
    Reaches (nestedTree true) (fun _ => effectiveSuffix []) 0 [.long (sfxHash 67)] (.file 5) ∧
    ∀ node, ¬ Reaches (changeSuffix quietSuf 5 [] [46, 108] (nestedTree true)).1 (fun _ => effectiveSuffix []) 0 [.long (sfxHash 67)] node := by
  refine ⟨nestedTree_good _ _, nestedTree_depth _, by decide +kernel, .last (n := .long (sfxHash 67)) (by decide +kernel), fun node h => ?_⟩
  have hent : ((changeSuffix quietSuf 5 [] [46, 108] (nestedTree true)).1 0).entries.lookup (sfxHash 67 ++ [46, 46, 46]) = none := by decide +kernel
  have hno : ∀ node, (sfxHash 67 ++ [46, 46, 46], node) ∉ ((changeSuffix quietSuf 5 [] [46, 108] (nestedTree true)).1 0).entries :=
    fun node hm => sufLookup_none.mp hent (List.mem_map.mpr ⟨_, hm, rfl⟩)
  cases h with
  | last h => exact hno _ h
  | step h _ => exact hno _ h

/-- The hypotheses of `C63_failed_partial` and `C63_eventually_partial` are met by it. -/
example : NotNested 16 (effectiveSuffix []) [46, 108] ∧ ∃ n fs', n ≤ 2 ∧ Attempts quietSuf 5 [] [46, 108] (nestedTree true) n fs' ∧
    Reaches fs' (fun _ => [46, 108]) 0 [.long (sfxHash 65), .long (sfxHash 66)] (.file 7) := by
  have hn : NotNested 16 (effectiveSuffix []) [46, 108] := by
    rintro h _ ⟨u, hu⟩
    have := congrArg List.getLast? hu
    rw [List.getLast?_append, List.getLast?_append] at this
    cases this
  obtain ⟨n, fs', h1, h2, h3⟩ := C63_eventually_partial 16 (by decide) quietSuf quietSuf_quiet 5 [] [46, 108] (by decide) (by decide) _ hn (nestedTree_good true _) (nestedTree_depth true)
  refine ⟨hn, n, fs', Nat.le_trans h1 (by decide +kernel), h2, (h3 _ _ ?_).mpr
    (.step (n := .long (sfxHash 65)) (e := 1) (by decide +kernel) (.last (n := .long (sfxHash 66)) (by decide +kernel)))⟩
  intro n hn
  rcases List.mem_cons.mp hn with rfl | hn
  · rfl
  · rw [List.mem_singleton.mp hn]; rfl

/-- A directory with two long-named files; the second one is `there` or only in the table. -/
def flatTree (there : Bool) : SFs := fun d =>
  if d = 0 then
    ⟨[(tableFileName, .db), (sfxHash 65 ++ legacySuffix, .file 7)] ++ if there then [(sfxHash 66 ++ legacySuffix, .file 8)] else [],
      [(sfxHash 65 ++ legacySuffix, [1]), (sfxHash 66 ++ legacySuffix, [2])]⟩
  else ⟨[], []⟩

/-- The same, after the first file was renamed and the table was rolled back. -/
def stuckTree (there : Bool) : SFs := fun d =>
  if d = 0 then
    ⟨[(tableFileName, .db), (sfxHash 65 ++ [46, 108], .file 7)] ++ if there then [(sfxHash 66 ++ legacySuffix, .file 8)] else [],
      [(sfxHash 65 ++ legacySuffix, [1]), (sfxHash 66 ++ legacySuffix, [2])]⟩
  else ⟨[], []⟩

theorem ext_at_zero {fs fs' : SFs} (h0 : fs 0 = fs' 0) (h : ∀ d, fs (d + 1) = fs' (d + 1)) : fs = fs' := by
  funext d
  cases d with
  | zero => exact h0
  | succ d => exact h d

/-- Only the root has a table, so that only the root can change. -/
theorem flat_run {O : SufOracle} {fs : SFs} (hflat : sCollect fs 5 0 [] = [[]]) (d : Nat) :
    (changeSuffix O 5 [] [46, 108] fs).1 (d + 1) = fs (d + 1) := by
  unfold changeSuffix
  rw [if_neg (by decide)]
  dsimp only
  rw [if_neg (by decide), hflat]
  have hone : (sMigrateDir O (if ([] : Bytes) = [] then legacySuffix else []) [46, 108] fs []).1 (d + 1) = fs (d + 1) := by
    unfold sMigrateDir
    rw [sWalk]
    dsimp only
    split
    · rfl
    · split
      · dsimp only
        unfold SFs.set
        rw [if_neg (Nat.succ_ne_zero d)]
      · dsimp only
        unfold SFs.set
        rw [if_neg (Nat.succ_ne_zero d)]
  rw [sMigrateDirs]
  split
  · rename_i h
    split at h
    · rename_i h'
      injection h with h1 h2
      rw [← h1]
      rw [h'] at hone
      exact hone
    · cases h
  · rename_i h
    split at h
    · cases h
    · rename_i h'
      rw [sMigrateDirs] at h
      injection h with h1 h2
      rw [← h1]
      rw [h'] at hone
      exact hone

/-- No further attempt succeeds, or changes anything. -/
theorem stuck_forever (there : Bool) : changeSuffix quietSuf 5 [] [46, 108] (stuckTree there) = (stuckTree there, .error (.vfs 2)) := by
  have h1 : (changeSuffix quietSuf 5 [] [46, 108] (stuckTree there)).1 = stuckTree there :=
    ext_at_zero (by cases there <;> decide +kernel) (flat_run (by cases there <;> decide +kernel))
  have h2 : (changeSuffix quietSuf 5 [] [46, 108] (stuckTree there)).2 = .error (.vfs 2) := by cases there <;> decide +kernel
  exact Prod.ext h1 h2

theorem no_attempts {fs : SFs} {e : Err} (h : changeSuffix quietSuf 5 [] [46, 108] fs = (fs, .error e)) (n : Nat) (fs' : SFs) :
    ¬ Attempts quietSuf 5 [] [46, 108] fs n fs' := by
  intro ha
  induction ha with
  | done h' => rw [h] at h'; injection h' with _ h'; cases h'
  | again h' _ ih => rw [h] at h'; injection h' with h'; subst h'; exact ih h

/-- Under the stored suffix, the first file cannot be found. -/
theorem stuck_lost (there : Bool) (node : SNode) : ¬ Reaches (stuckTree there) (fun _ => effectiveSuffix []) 0 [.long (sfxHash 65)] node := by
  have hent : ((stuckTree there) 0).entries.lookup (sfxHash 65 ++ [46, 46, 46]) = none := by cases there <;> decide +kernel
  have hno : ∀ node, (sfxHash 65 ++ [46, 46, 46], node) ∉ ((stuckTree there) 0).entries := fun node hm => sufLookup_none.mp hent (List.mem_map.mpr ⟨_, hm, rfl⟩)
  intro h
  cases h with
  | last h => exact hno _ h
  | step h _ => exact hno _ h

/-- C63 is false: one row without a file, as a crash or a failing commit leaves it, makes the command fail, and every other attempt as well;
    the files that were renamed before are lost under the stored suffix, because the table is rolled back and the renames are not. -/
theorem C63_stale_violated : Reaches (flatTree false) (fun _ => effectiveSuffix []) 0 [.long (sfxHash 65)] (.file 7) ∧
    ∃ fs' e, changeSuffix quietSuf 5 [] [46, 108] (flatTree false) = (fs', .error e) ∧
      (∀ node, ¬ Reaches fs' (fun _ => effectiveSuffix []) 0 [.long (sfxHash 65)] node) ∧ ∀ n fs'', ¬ Attempts quietSuf 5 [] [46, 108] (flatTree false) n fs'' := by
  have hrun : changeSuffix quietSuf 5 [] [46, 108] (flatTree false) = (stuckTree false, .error (.vfs 2)) :=
    Prod.ext (ext_at_zero (by decide +kernel) (flat_run (by decide +kernel))) (by decide +kernel)
  refine ⟨.last (n := .long (sfxHash 65)) (by decide +kernel), stuckTree false, .vfs 2, hrun, stuck_lost false, fun n fs'' ha => ?_⟩
  cases ha with
  | done h => rw [hrun] at h; injection h with _ h; cases h
  | again h ha => rw [hrun] at h; injection h with h; subst h; exact no_attempts (stuck_forever false) _ _ ha

/-- C63 is false: the same, if all tables are right and one renaming fails once, or the machine stops there. -/
theorem C63_fault_violated : Reaches (flatTree true) (fun _ => effectiveSuffix []) 0 [.long (sfxHash 65)] (.file 7) ∧
    ∃ O fs' e, (∀ p, O.commitOk p = true) ∧ changeSuffix O 5 [] [46, 108] (flatTree true) = (fs', .error e) ∧
      (∀ node, ¬ Reaches fs' (fun _ => effectiveSuffix []) 0 [.long (sfxHash 65)] node) ∧ ∀ n fs'', ¬ Attempts quietSuf 5 [] [46, 108] fs' n fs'' := by
  have hrun : changeSuffix ⟨fun _ h => h == sfxHash 66 ++ legacySuffix, fun _ => true⟩ 5 [] [46, 108] (flatTree true) = (stuckTree true, .error (.vfs 5)) :=
    Prod.ext (ext_at_zero (by decide +kernel) (flat_run (by decide +kernel))) (by decide +kernel)
  exact ⟨.last (n := .long (sfxHash 65)) (by decide +kernel), _, stuckTree true, .vfs 5, fun _ => rfl, hrun, stuck_lost true, no_attempts (stuck_forever true)⟩

/-- C63 is false: a failing commit is not reported; the command succeeds, but the row of the new name is missing, so that it is not listed. -/
theorem C63_commit_violated : ∃ O, (changeSuffix O 5 [] [46, 108] (flatTree true)).2 = .ok [46, 108] ∧
    (∃ v, (sfxHash 65 ++ effectiveSuffix [], v) ∈ (flatTree true 0).rows) ∧ ∀ v, (sfxHash 65 ++ [46, 108], v) ∉ ((changeSuffix O 5 [] [46, 108] (flatTree true)).1 0).rows := by
  refine ⟨⟨fun _ _ => false, fun _ => false⟩, by decide +kernel, ⟨[1], by decide +kernel⟩, fun v hm => ?_⟩
  have : ((changeSuffix ⟨fun _ _ => false, fun _ => false⟩ 5 [] [46, 108] (flatTree true)).1 0).rows.lookup (sfxHash 65 ++ [46, 108]) = none := by decide +kernel
  exact sufLookup_none.mp this (List.mem_map.mpr ⟨_, hm, rfl⟩)

/-- A long-named file in the root, and one in a directory with a short name. -/
def shortTree : SFs := fun d =>
  if d = 0 then ⟨[(tableFileName, .db), (sfxHash 67 ++ legacySuffix, .file 5), ([115], .dir 1)], [(sfxHash 67 ++ legacySuffix, [3])]⟩
  else if d = 1 then ⟨[(tableFileName, .db), (sfxHash 66 ++ legacySuffix, .file 7)], [(sfxHash 66 ++ legacySuffix, [2])]⟩
  else ⟨[], []⟩

/-- C63 is false: if the new suffix ends with the old one, another attempt renames again what a failed one did.  It succeeds, and the names
    are lost under the new suffix. -/
theorem C63_nested_violated : ∃ O fs1 e fs2, (∀ p, O.commitOk p = true) ∧ changeSuffix O 5 [] [46, 46, 46, 46] shortTree = (fs1, .error e) ∧
    changeSuffix quietSuf 5 [] [46, 46, 46, 46] fs1 = (fs2, .ok [46, 46, 46, 46]) ∧
    Reaches shortTree (fun _ => effectiveSuffix []) 0 [.long (sfxHash 67)] (.file 5) ∧
    ∀ node, ¬ Reaches fs2 (fun _ => [46, 46, 46, 46]) 0 [.long (sfxHash 67)] node := by
  have h1 : (changeSuffix ⟨fun p _ => p == [[115]], fun _ => true⟩ 5 [] [46, 46, 46, 46] shortTree).2 = .error (.vfs 5) := by decide +kernel
  have h2 : (changeSuffix quietSuf 5 [] [46, 46, 46, 46] (changeSuffix ⟨fun p _ => p == [[115]], fun _ => true⟩ 5 [] [46, 46, 46, 46] shortTree).1).2 = .ok [46, 46, 46, 46] := by
    decide +kernel
  refine ⟨_, _, .vfs 5, _, fun _ => rfl, Prod.ext rfl h1, Prod.ext rfl h2, .last (n := .long (sfxHash 67)) (by decide +kernel), fun node h => ?_⟩
  have hent : ((changeSuffix quietSuf 5 [] [46, 46, 46, 46] (changeSuffix ⟨fun p _ => p == [[115]], fun _ => true⟩ 5 [] [46, 46, 46, 46] shortTree).1).1 0).entries.lookup
      (sfxHash 67 ++ [46, 46, 46, 46]) = none := by decide +kernel
  have hno := fun node hm => sufLookup_none.mp hent (List.mem_map.mpr ⟨(_, node), hm, rfl⟩)
  cases h with
  | last h => exact hno _ h
  | step h _ => exact hno _ h

/-- A file with a long name is created in the root. -/
def createLong (fs : SFs) (h : Bytes) (suffix : Bytes) (ino : Nat) (v : Bytes) : SFs :=
  fs.set 0 ⟨(fs 0).entries ++ [(h ++ suffix, .file ino)], (fs 0).rows ++ [(h ++ suffix, v)]⟩

/-- C63 is false: after a failed attempt the changed names are missing under the stored suffix.  If such a file is created again and the command
    repeated, it succeeds and replaces the file of before, which is no more in any directory. -/
theorem C63_overwrite_violated : ∃ fs1 e fs2, changeSuffix quietSuf 5 [] [46, 108] (nestedTree true) = (fs1, .error e) ∧
    changeSuffix quietSuf 5 [] [46, 108] (createLong fs1 (sfxHash 67) (effectiveSuffix []) 9 [3]) = (fs2, .ok [46, 108]) ∧
    Reaches (nestedTree true) (fun _ => effectiveSuffix []) 0 [.long (sfxHash 67)] (.file 5) ∧ ∀ d < 2, ∀ n, (n, SNode.file 5) ∉ (fs2 d).entries := by
  have h1 : (changeSuffix quietSuf 5 [] [46, 108] (nestedTree true)).2 = .error .runtime := by decide +kernel
  have h2 : (changeSuffix quietSuf 5 [] [46, 108] (createLong (changeSuffix quietSuf 5 [] [46, 108] (nestedTree true)).1 (sfxHash 67) (effectiveSuffix []) 9 [3])).2 = .ok [46, 108] := by
    decide +kernel
  refine ⟨_, .runtime, _, Prod.ext rfl h1, Prod.ext rfl h2, .last (n := .long (sfxHash 67)) (by decide +kernel), ?_⟩
  intro d hd n hm
  have hall : ∀ d < 2, ∀ a ∈ ((changeSuffix quietSuf 5 [] [46, 108] (createLong (changeSuffix quietSuf 5 [] [46, 108] (nestedTree true)).1 (sfxHash 67) (effectiveSuffix []) 9 [3])).1 d).entries,
      a.2 ≠ SNode.file 5 := by decide +kernel
  exact hall d hd _ hm rfl

end Securefs.Props
