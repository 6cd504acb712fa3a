import Verif.Proofs.Walk
import Verif.Props.Migrate
import Verif.Props.Suffix
/-!
# C98: Walking the backing files visits each of them once, and reports what cannot be read

`recursive_traverse`, and the two commands that depend on it.  All this holds on hosts that fill `d_type`; on others the contents of directories
are skipped silently (`C98_untold_violated`, `C98_suffix_violated`).
-/

namespace Securefs.Props

open Spec

/-- A callback is called for the visited entries in their order, until it fails; if it does not, the walk ends as it would without it. -/
theorem C98_calls {σ : Type} (cb : WalkCb σ) (dir : Bytes) (tree : HNode) (s : σ) : ∃ calls r, walkDir recordCb dir tree [] = (calls, r) ∧
    walkDir cb dir tree s = (match callEach cb calls s with
      | (s, .error e) => (s, .error e)
      | (s, .ok _) => (s, r)) :=
  ⟨_, _, record_eq tree dir, walkDir_eq cb tree dir s⟩

/-- If the walk succeeds, then the entries visited are those below the directory, each with its directory, name and type. -/
theorem C98_visited (dir : Bytes) (tree : HNode) (ht : AllTold tree) (calls : List (Bytes × Bytes × Nat)) (h : walkDir recordCb dir tree [] = (calls, .ok ()))
    (d n : Bytes) (m : Nat) : (d, n, m) ∈ calls ↔ ∃ p t x, Below tree (p ++ [n]) t x ∧ d = pathText dir p ∧ m = nodeType x := by
  rw [record_eq] at h
  constructor
  · intro hc
    have := visitsDir_sound tree dir (d, n, m) (by rw [h]; exact hc)
    obtain ⟨p, t, x, h1, h2, h3⟩ := this
    refine ⟨p, t, x, h1, h2, ?_⟩
    rw [ht _ _ _ h1] at h3
    rw [← traverserMode_told]; exact h3
  · rintro ⟨p, t, x, h1, rfl, rfl⟩
    have := (visitsDir_complete tree dir (by rw [h]) ht).2 p n t x h1
    rw [h] at this; exact this

/-- No entry is visited twice, however the walk ends. -/
theorem C98_once (dir : Bytes) (tree : HNode) (hp : Proper tree) : ((walkDir recordCb dir tree []).1.map fun c => (c.1, c.2.1)).Nodup := by
  rw [record_eq]; exact visitsDir_nodup tree dir hp

/-- The walk succeeds if and only if every directory could be opened and read to its end. -/
theorem C98_reported (dir : Bytes) (tree : HNode) (ht : AllTold tree) : (walkDir recordCb dir tree []).2 = .ok () ↔ AllOpen tree := by
  rw [record_eq]
  exact ⟨fun h => (visitsDir_complete tree dir h ht).1, visitsDir_ok tree dir⟩

/-- Migration succeeds if and only if everything can be read and there is no symbolic link. -/
theorem C98_migrate_accepts (dataDir : Bytes) (tree : HNode) (ht : AllTold tree) :
    (∃ threshold, migrateTree dataDir tree = .ok threshold) ↔ AllOpen tree ∧ ∀ p t x, Below tree p t x → x ≠ .link := by
  have hw := walkDir_eq migrateCb tree dataDir 0
  rw [callEach_migrate] at hw
  constructor
  · rintro ⟨threshold, h⟩
    unfold migrateTree at h
    rw [hw] at h
    cases hs : migrateScan 0 ((visitsDir dataDir tree).1.map fun c => (c.2.1, decide (c.2.2 = sIfLnk))) with
    | error e => rw [hs] at h; cases h
    | ok m =>
      rw [hs] at h
      cases hr : (visitsDir dataDir tree).2 with
      | error e => rw [hr] at h; cases h
      | ok u =>
        obtain ⟨h1, h2⟩ := visitsDir_complete tree dataDir hr ht
        refine ⟨h1, ?_⟩
        rintro p t x hb rfl
        obtain ⟨q, n, rfl⟩ : ∃ q n, p = q ++ [n] := ⟨_, _, (List.dropLast_append_getLast (below_ne hb)).symm⟩
        have hmem := h2 q n t .link hb
        have : ∀ (l : List (Bytes × Bool)) (a m : Nat), migrateScan a l = .ok m → ∀ e ∈ l, e.2 = false := by
          intro l
          induction l with
          | nil => intro _ _ _ e he; cases he
          | cons e l ih =>
            intro a m hm e' he'
            obtain ⟨nm, b⟩ := e
            cases b with
            | true => cases hm
            | false =>
              rcases List.mem_cons.mp he' with rfl | he'
              · rfl
              · exact ih _ _ hm e' he'
        have := this _ _ _ hs _ (List.mem_map.mpr ⟨_, hmem, rfl⟩)
        simp [nodeType, sIfLnk] at this
  · rintro ⟨h1, h2⟩
    have hr := visitsDir_ok tree dataDir h1
    have : ∀ (l : List (Bytes × Bytes × Nat)) (a : Nat), (∀ c ∈ l, c.2.2 ≠ sIfLnk) → ∃ m, migrateScan a (l.map fun c => (c.2.1, decide (c.2.2 = sIfLnk))) = .ok m := by
      intro l
      induction l with
      | nil => intro a _; exact ⟨a, rfl⟩
      | cons c l ih =>
        intro a h
        simp only [List.map_cons, migrateScan, h c List.mem_cons_self, decide_false, if_false, Bool.false_eq_true]
        exact ih _ fun c hc => h c (List.mem_cons_of_mem _ hc)
    obtain ⟨m, hm⟩ := this (visitsDir dataDir tree).1 0 fun c hc hl => by
      obtain ⟨p, t, x, g1, _, g3⟩ := visitsDir_sound tree dataDir c hc
      rw [hl, ht _ _ _ g1] at g3
      cases x with
      | link => exact h2 _ _ _ g1 rfl
      | file => cases g3
      | special => cases g3
      | dir o l => cases g3
    refine ⟨migrateThreshold m % 2 ^ 32, ?_⟩
    unfold migrateTree
    rw [hw, hm, hr]
    rfl

/-- Everything below the data directory, at any depth, keeps its backing name: the new translator encrypts a component to the name that is
    stored. -/
theorem C98_migrate (K : NameKeys) (hS : K.siv.WF) (suffix dataDir : Bytes) (tree : HNode) (ht : AllTold tree) (threshold : Nat)
    (hm : migrateTree dataDir tree = .ok threshold) (hlen : ∀ p n t x, Below tree (p ++ [n]) t x → n.length < 2 ^ 32)
    (p : List Bytes) (t : Bool) (x : HNode) (v s : Bytes) (hv : v ≠ []) (hs : legacyEncryptSlice K.siv v = .ok s) (hb : Below tree (p ++ [s]) t x) :
    makeTranslator K threshold suffix = .inl (mkNewStyle K threshold suffix) ∧ (mkNewStyle K threshold suffix).encodeComponent v = .ok s := by
  have hlink := ((C98_migrate_accepts dataDir tree ht).mp ⟨_, hm⟩).2
  have hw := walkDir_eq migrateCb tree dataDir 0
  rw [callEach_migrate] at hw
  unfold migrateTree at hm
  rw [hw] at hm
  cases hsc : migrateScan 0 ((visitsDir dataDir tree).1.map fun c => (c.2.1, decide (c.2.2 = sIfLnk))) with
  | error e => rw [hsc] at hm; cases hm
  | ok m =>
    rw [hsc] at hm
    cases hr : (visitsDir dataDir tree).2 with
    | error e => rw [hr] at hm; cases hm
    | ok u =>
      rw [hr] at hm
      have hmem := (visitsDir_complete tree dataDir hr ht).2 p s t x hb
      have hx : decide (nodeType x = sIfLnk) = false := by
        cases x with
        | link => exact absurd rfl (hlink _ _ _ hb)
        | file => rfl
        | special => rfl
        | dir o l => rfl
      have := C47_component K hS suffix ((visitsDir dataDir tree).1.map fun c => (c.2.1, decide (c.2.2 = sIfLnk))) threshold
        (by unfold migrate; rw [hsc]; exact hm) (fun e he => ?_) v s hv hs (List.mem_map.mpr ⟨_, hmem, by rw [hx]⟩)
      · exact ⟨this.1, this.2.2⟩
      · obtain ⟨c, hc, rfl⟩ := List.mem_map.mp he
        obtain ⟨q, t, y, g, _⟩ := visitsDir_sound tree dataDir c hc
        exact hlen q _ t y g

/-- A file with the backing name `s`, and a symbolic link, in a directory `d`, on a host that fills `d_type` or does not. -/
def oneBelow (told : Bool) (s : Bytes) : HNode :=
  .dir none (.cons [46] told .special (.cons [46, 46] told .special (.cons [100] told
    (.dir none (.cons s told .file (.cons [76] told .link .nil))) .nil)))

/-- C98 is false on hosts that do not fill `d_type`: the walk succeeds without looking into directories, so that migration accepts symbolic links,
    and sets a threshold with which existing files are not found under their names. -/
theorem C98_untold_violated (K : NameKeys) (hS : K.siv.WF) (suffix dataDir : Bytes) (hf : ∃ b ∈ suffix, b ∉ Spec.alphabet32)
    (v s : Bytes) (hv : 128 < v.length) (hs : legacyEncryptSlice K.siv v = .ok s) :
    AllOpen (oneBelow false s) ∧ Below (oneBelow false s) [[100], s] false .file ∧ Below (oneBelow false s) [[100], [76]] false .link ∧
    ∃ threshold, migrateTree dataDir (oneBelow false s) = .ok threshold ∧ (mkNewStyle K threshold suffix).encodeComponent v ≠ .ok s := by
  have hd : RealName [100] := by unfold RealName; decide
  have hne : v ≠ [] := by rintro rfl; simp at hv
  have henc : encodeName K.siv v = .ok s := by
    unfold legacyEncryptSlice at hs
    rw [if_neg (by simpa using hne)] at hs
    split at hs
    · cases hs
    · exact hs
  obtain ⟨s2, _, _, h1, _, _, _, _, _, _, _, h2⟩ := encodeName_spec hS v
  rw [henc] at h1
  injection h1 with h1
  subst h1
  have hr : RealName s := by
    constructor <;> rintro rfl
    · exact absurd (h2 46 (by decide)) (by decide +kernel)
    · exact absurd (h2 46 (by decide)) (by decide +kernel)
  have hF : ForeignSuffix (mkNewStyle K 128 suffix) := by
    obtain ⟨b, hb, hb'⟩ := hf
    refine ⟨b, ?_, hb'⟩
    show b ∈ if suffix.isEmpty then _ else suffix
    rw [if_neg (by cases suffix with | nil => cases hb | cons => simp)]
    exact hb
  refine ⟨?_, .step (.there (.there .here)) hd (.last .here hr), .step (.there (.there .here)) hd (.last (.there .here) (by unfold RealName; decide)),
    128, rfl, ?_⟩
  · refine ⟨⟨_, rfl, fun e rest h => h⟩, ?_⟩
    intro p t x hb hx
    rcases below_cons (o' := none) |>.mp hb with ⟨h, _⟩ | hb
    · exact absurd rfl h.1
    rcases below_cons (o' := none) |>.mp hb with ⟨h, _⟩ | hb
    · exact absurd rfl h.2
    rcases below_cons (o' := none) |>.mp hb with ⟨h, ⟨_, _, rfl⟩ | ⟨q, _, hb⟩⟩ | hb
    · exact ⟨_, rfl, fun e rest h => h⟩
    · rcases below_cons (o' := none) |>.mp hb with ⟨h, ⟨_, _, rfl⟩ | ⟨q, _, hb⟩⟩ | hb
      · obtain ⟨_, _, h⟩ := hx; cases h
      · cases hb
      · rcases below_cons (o' := none) |>.mp hb with ⟨h, ⟨_, _, rfl⟩ | ⟨q, _, hb⟩⟩ | hb
        · obtain ⟨_, _, h⟩ := hx; cases h
        · cases hb
        · exact absurd hb not_below_nil
    · exact absurd hb not_below_nil
  · intro he
    obtain ⟨s', _, h⟩ := encodeComponent_long (T := mkNewStyle K 128 suffix) hS v hv
    rw [h] at he
    injection he with he
    have h3 := not_endsWith_of_foreign hF s h2
    have h4 : endsWith s (mkNewStyle K 128 suffix).suffix = true := (endsWith_iff _ _).mpr ⟨s', he.symm⟩
    rw [h4] at h3
    cases h3

/-- The directories found are those with a table of long names, at any depth. -/
theorem C98_collect (tree : HNode) (ht : AllTold tree) (dirs : List Bytes) (h : collectTree tree = .ok dirs) (d : Bytes) :
    d ∈ dirs ↔ ∃ p t x, Below tree (p ++ [tableFileName]) t x ∧ d = pathText [46] p := by
  unfold collectTree at h
  rw [walkDir_eq, callEach_collect] at h
  cases hr : (visitsDir [46] tree).2 with
  | error e => rw [hr] at h; cases h
  | ok u =>
    rw [hr] at h
    dsimp only [andThen] at h
    injection h with h
    subst h
    rw [List.nil_append]
    have key := C98_visited [46] tree ht (visitsDir [46] tree).1 (by rw [record_eq]; exact Prod.ext rfl hr)
    constructor
    · intro hm
      obtain ⟨⟨d', n, m⟩, hc, rfl⟩ := List.mem_map.mp hm
      obtain ⟨hc, hn⟩ := List.mem_filter.mp hc
      obtain ⟨p, t, x, h1, h2, _⟩ := (key d' n m).mp hc
      have hn : n = tableFileName := of_decide_eq_true hn
      subst hn
      exact ⟨p, t, x, h1, h2⟩
    · rintro ⟨p, t, x, h1, rfl⟩
      exact List.mem_map.mpr ⟨(pathText [46] p, tableFileName, nodeType x), List.mem_filter.mpr ⟨(key _ _ _).mpr ⟨p, t, x, h1, rfl, rfl⟩, by simp⟩, rfl⟩

/-- On hosts that fill `d_type`, the change of the suffix is the one of C63. -/
theorem C98_suffix (O : SufOracle) (fuel : Nat) (stored new : Bytes) (fs : SFs)
    (hn : ∀ d, ∀ e ∈ (fs d).entries, RealName e.1 ∧ (47 : UInt8) ∉ e.1) : changeSuffixOn O true fuel stored new fs = changeSuffix O fuel stored new fs := by
  have h := walk_sTree fs (fun d e he => (hn d e he).1) fuel 0 [] []
  unfold changeSuffixOn changeSuffix collectTree
  rw [show ([46] : Bytes) = pathText [46] [] from rfl, h]
  dsimp only
  rw [List.nil_append, List.map_map]
  rw [show (sCollect fs fuel 0 []).map ((fun d => (splitSlash [] d).tail) ∘ pathText [46]) = sCollect fs fuel 0 [] from ?_]
  · split
    · rfl
    · rfl
  · conv => rhs; rw [← List.map_id (sCollect fs fuel 0 [])]
    refine List.map_congr_left fun p hp => ?_
    exact split_pathText p (sCollect_slash fs (fun d e he => (hn d e he).2) fuel 0 [] (by simp) p hp)

/-- C98 is false on hosts that do not fill `d_type`: the suffix is changed in the configuration, but not in directories, where long names are not
    found any more. -/
theorem C98_suffix_violated : ∃ fs', changeSuffixOn quietSuf false 5 [] [46, 108] shortTree = (fs', .ok [46, 108]) ∧
    Reaches shortTree (fun _ => effectiveSuffix []) 0 [.short [115], .long (sfxHash 66)] (.file 7) ∧
    ∀ node, ¬ Reaches fs' (fun _ => [46, 108]) 0 [.short [115], .long (sfxHash 66)] node := by
  have h0 : (changeSuffixOn quietSuf false 5 [] [46, 108] shortTree).2 = .ok [46, 108] := by decide +kernel
  have h1 : ∀ e, ((changeSuffixOn quietSuf false 5 [] [46, 108] shortTree).1 0).entries.lookup [115] = some (.dir e) → e = 1 := by
    have : ((changeSuffixOn quietSuf false 5 [] [46, 108] shortTree).1 0).entries.lookup [115] = some (.dir 1) := by decide +kernel
    intro e he; rw [this] at he; injection he with he; injection he with he; exact he.symm
  have hnd : (((changeSuffixOn quietSuf false 5 [] [46, 108] shortTree).1 0).entries.map (·.1)).Nodup := by decide +kernel
  have h2 : ((changeSuffixOn quietSuf false 5 [] [46, 108] shortTree).1 1).entries.lookup (sfxHash 66 ++ [46, 108]) = none := by decide +kernel
  refine ⟨_, Prod.ext rfl h0, .step (n := .short [115]) (e := 1) (by decide +kernel) (.last (n := .long (sfxHash 66)) (by decide +kernel)), fun node h => ?_⟩
  have hno := fun node hm => sufLookup_none.mp h2 (List.mem_map.mpr ⟨(_, node), hm, rfl⟩)
  cases h with
  | step hm h =>
    have he := h1 _ (sufMem_lookup hnd hm)
    subst he
    cases h with
    | last h => exact hno _ h
    | step h _ => exact hno _ h

/-! ## Concrete cases -/

/-- A directory with a link in it, a file behind it, and the dots. -/
def smallTree : HNode := .dir none (.cons [46] true (.dir none .nil) (.cons [97] true (.dir none (.cons [98] true .link .nil)) (.cons [99] true .file .nil)))

example : walkDir recordCb [47, 118] smallTree [] =
    ([([47, 118], [97], 0x4000), ([47, 118, 47, 97], [98], 0xa000), ([47, 118], [99], 0x8000)], .ok ()) := rfl

example : Below smallTree [[97], [98]] true .link := .step (.there .here) (by unfold RealName; decide) (.last .here (by unfold RealName; decide))

/-- It meets the hypotheses of the theorems, and migration refuses it. -/
example : AllTold smallTree ∧ Proper smallTree ∧ AllOpen smallTree ∧ migrateTree [47, 118] smallTree = .error .invalidArg := by
  have hcases : ∀ p t x, Below smallTree p t x → t = true ∧ (x = .file ∨ x = .link ∨ x = .dir none (.cons [98] true .link .nil)) := by
    intro p t x hb
    rcases below_cons (o' := none) |>.mp hb with ⟨h, _⟩ | hb
    · exact absurd rfl h.1
    rcases below_cons (o' := none) |>.mp hb with ⟨_, ⟨_, rfl, rfl⟩ | ⟨q, _, hb⟩⟩ | hb
    · exact ⟨rfl, .inr (.inr rfl)⟩
    · rcases below_cons (o' := none) |>.mp hb with ⟨_, ⟨_, rfl, rfl⟩ | ⟨q, _, hb⟩⟩ | hb
      · exact ⟨rfl, .inr (.inl rfl)⟩
      · cases hb
      · exact absurd hb not_below_nil
    · rcases below_cons (o' := none) |>.mp hb with ⟨_, ⟨_, rfl, rfl⟩ | ⟨q, _, hb⟩⟩ | hb
      · exact ⟨rfl, .inl rfl⟩
      · cases hb
      · exact absurd hb not_below_nil
  refine ⟨fun p t x hb => (hcases p t x hb).1, ⟨?_, ?_⟩, ⟨⟨_, rfl, fun _ _ h => h⟩, ?_⟩, rfl⟩
  · intro o l hl; cases hl; exact ⟨by decide, by decide⟩
  · intro p t x hb o l hl
    rcases (hcases p t x hb).2 with rfl | rfl | rfl
    · cases hl
    · cases hl
    · cases hl; exact ⟨by decide, by decide⟩
  · rintro p t x hb ⟨o, l, hl⟩
    rcases (hcases p t x hb).2 with rfl | rfl | rfl
    · cases hl
    · cases hl
    · exact ⟨_, rfl, fun _ _ h => h⟩

/-- A directory that cannot be opened, and one that cannot be read to its end. -/
example : (walkDir recordCb [] (.dir none (.cons [97] true (.dir (some (.vfs 13)) (.cons [98] true .file .nil)) .nil)) []) = ([([], [97], 0x4000)], .error (.vfs 13)) ∧
    (walkDir recordCb [] (.dir none (.cons [97] true .file (.broken (.vfs 5) (.cons [98] true .file .nil)))) []) = ([([], [97], 0x8000)], .error (.vfs 5)) := ⟨rfl, rfl⟩

/-- The hypotheses of `C98_migrate` are met by a name of 143 bytes in a directory. -/
example : ∃ v s, v.length = 143 ∧ legacyEncryptSlice Toy.siv v = .ok s ∧
    migrateTree [] (.dir none (.cons [100] true (.dir none (.cons s true .file .nil)) .nil)) = .ok 143 := by
  obtain ⟨v, hv⟩ : ∃ v : Bytes, v.length = 143 := ⟨List.replicate 143 97, List.length_replicate⟩
  have hne : v ≠ [] := by rintro rfl; cases hv
  obtain ⟨s, h, _⟩ := C21_legacy_round_trip Toy.siv Toy.siv_wf v hne (by omega)
  refine ⟨v, s, hv, h, ?_⟩
  have henc : encodeName Toy.siv v = .ok s := by
    unfold legacyEncryptSlice at h
    rw [if_neg (by simpa using hne), if_neg (by omega)] at h
    exact h
  obtain ⟨s', _, _, h1, _, _, _, _, _, _, h2, _⟩ := encodeName_spec Toy.siv_wf v
  rw [henc] at h1
  injection h1 with h1
  have h3 : s.length = 255 := by rw [h1, h2, hv]
  have h4 : ¬ (s = [46] ∨ s = [46, 46]) := by rintro (rfl | rfl) <;> cases h3
  have hw : walkDir migrateCb [] (.dir none (.cons [100] true (.dir none (.cons s true .file .nil)) .nil)) 0 = (255, .ok ()) := by
    simp [walkDir, walkList, migrateCb, traverserMode, sIfDir, sIfReg, sIfLnk, h3, h4]
  unfold migrateTree
  rw [hw]
  rfl

/-- The hypotheses of `C98_untold_violated` are met by the default suffix `.ll` and a name of 130 bytes. -/
example : (∃ b ∈ ([46, 108, 108] : Bytes), b ∉ Spec.alphabet32) ∧ ∃ v s : Bytes, 128 < v.length ∧ legacyEncryptSlice Toy.siv v = .ok s := by
  obtain ⟨v, hv⟩ : ∃ v : Bytes, v.length = 130 := ⟨List.replicate 130 97, List.length_replicate⟩
  obtain ⟨s, h, _⟩ := C21_legacy_round_trip Toy.siv Toy.siv_wf v (by rintro rfl; cases hv) (by omega)
  exact ⟨⟨46, by decide, by decide +kernel⟩, v, s, by omega, h⟩

/-- The names of `shortTree` meet the hypothesis of `C98_suffix`. -/
example (d : Nat) : ∀ e ∈ (shortTree d).entries, RealName e.1 ∧ (47 : UInt8) ∉ e.1 := by
  unfold RealName shortTree
  split
  · decide +kernel
  · split
    · decide +kernel
    · decide

end Securefs.Props
