import Verif.Model.GetPath
import Verif.Spec.GetPath
import Verif.Proofs.FullFsTree
/-!
# The stored spelling of a path: lemmas
-/

namespace Securefs

open Spec

/-- The stored names as a function. -/
def storedNames (same : Bytes → Bytes → Bool) (A : AFs) : Bytes → List Bytes → Res (List Bytes)
  | _, [] => .ok []
  | d, s :: rest =>
    match lookupIn same A d s with
    | .error e => .error e
    | .ok none => .error (.vfs 2)
    | .ok (some e) =>
      match storedNames same A e.id rest with
      | .error e => .error e
      | .ok names => .ok (e.name :: names)

theorem lookupIn_some {same : Bytes → Bytes → Bool} {A : AFs} {d s : Bytes} {e : DirEntry} (h : lookupIn same A d s = .ok (some e)) :
    ∃ f, A d = some f ∧ f.kind = 4 ∧ e ∈ f.entries ∧ same s e.name = true ∧ s.length ≤ 255 := by
  unfold lookupIn at h
  cases hd : A d with
  | none => rw [hd] at h; cases h
  | some f =>
    rw [hd] at h
    dsimp only at h
    by_cases h4 : f.kind ≠ 4
    · rw [if_pos h4] at h; cases h
    · rw [if_neg h4] at h
      by_cases h5 : s.length > 255
      · rw [if_pos h5] at h; cases h
      · rw [if_neg h5] at h
        injection h with h
        exact ⟨f, rfl, by simpa using h4, List.mem_of_find?_eq_some h, by have := List.find?_some h; exact this, by omega⟩

/-- The names in a directory are distinct for the comparison. -/
def NamesApart (same : Bytes → Bytes → Bool) (A : AFs) : Prop :=
  ∀ d f, A d = some f → f.entries.Pairwise fun a b => same a.name b.name = false

theorem find_entry {same : Bytes → Bytes → Bool} (hs : SameEquiv same) {s : Bytes} : ∀ {l : List DirEntry} {e : DirEntry},
    (l.Pairwise fun a b => same a.name b.name = false) → e ∈ l → same s e.name = true → l.find? (fun x => same s x.name) = some e
  | a :: l, e, hp, hm, he => by
    rw [List.pairwise_cons] at hp
    rw [List.find?_cons]
    rcases List.mem_cons.mp hm with rfl | hm
    · rw [he]
    · have : same s a.name = false := by
        cases hsa : same s a.name with
        | false => rfl
        | true =>
          have := hp.1 e hm
          rw [hs.trans _ _ _ (hs.symm _ _ hsa) he] at this
          cases this
      rw [this]
      exact find_entry hs hp.2 hm he

theorem lookupIn_of {same : Bytes → Bytes → Bool} (hs : SameEquiv same) {A : AFs} (ha : NamesApart same A) {d s : Bytes} {f : AFile}
    {e : DirEntry} (hd : A d = some f) (hk : f.kind = 4) (hm : e ∈ f.entries) (he : same s e.name = true) (hl : s.length ≤ 255) :
    lookupIn same A d s = .ok (some e) := by
  unfold lookupIn
  rw [hd]
  dsimp only
  rw [if_neg (by rw [hk]; exact fun h => h rfl), if_neg (by omega), find_entry hs (ha d f hd) hm he]

theorem spelled_iff {same : Bytes → Bytes → Bool} (hs : SameEquiv same) {A : AFs} (ha : NamesApart same A) {l names : List Bytes} :
    ∀ {d : Bytes}, storedNames same A d l = .ok names ↔ ∃ last, Spelled same A d l names last := by
  induction l generalizing names with
  | nil =>
    intro d
    constructor
    · intro h; injection h with h; subst h; exact ⟨d, .here d⟩
    · rintro ⟨last, h⟩; cases h; rfl
  | cons s rest ih =>
    intro d
    rw [storedNames]
    constructor
    · intro h
      cases hl : lookupIn same A d s with
      | error e => rw [hl] at h; cases h
      | ok o =>
        rw [hl] at h
        cases o with
        | none => cases h
        | some e =>
          dsimp only at h
          cases hr : storedNames same A e.id rest with
          | error e => rw [hr] at h; cases h
          | ok ns =>
            rw [hr] at h
            injection h with h
            subst h
            obtain ⟨last, hlast⟩ := ih.mp hr
            obtain ⟨f, h1, h2, h3, h4, h5⟩ := lookupIn_some hl
            exact ⟨last, .down h1 h2 h3 h4 h5 hlast⟩
    · rintro ⟨last, h⟩
      cases h with
      | down h1 h2 h3 h4 h5 h6 =>
        rw [lookupIn_of hs ha h1 h2 h3 h4 h5]
        dsimp only
        rw [ih.mpr ⟨_, h6⟩]

theorem storedNames_errors {same : Bytes → Bytes → Bool} {A : AFs} {e : Err} : ∀ {l : List Bytes} {d : Bytes},
    storedNames same A d l = .error e → e = .vfs 1 ∨ e = .vfs 2 ∨ e = .vfs 36
  | [], _, h => by cases h
  | s :: rest, d, h => by
    rw [storedNames] at h
    cases hl : lookupIn same A d s with
    | error e' =>
      rw [hl] at h
      injection h with h
      subst h
      unfold lookupIn at hl
      cases hd : A d with
      | none => rw [hd] at hl; injection hl with hl; exact .inr (.inl hl.symm)
      | some f =>
        rw [hd] at hl
        dsimp only at hl
        by_cases h4 : f.kind ≠ 4
        · rw [if_pos h4] at hl; injection hl with hl; exact .inl hl.symm
        · rw [if_neg h4] at hl
          by_cases h5 : s.length > 255
          · rw [if_pos h5] at hl; injection hl with hl; exact .inr (.inr hl.symm)
          · rw [if_neg h5] at hl; cases hl
    | ok o =>
      rw [hl] at h
      cases o with
      | none => injection h with h; exact .inr (.inl h.symm)
      | some en =>
        dsimp only at h
        cases hr : storedNames same A en.id rest with
        | error e' =>
          rw [hr] at h
          injection h with h
          subst h
          exact storedNames_errors hr
        | ok ns => rw [hr] at h; cases h

/-! ## The loop -/

theorem getView_run {cfg : FsCfg} {fs : FullFs} {h : FH} {f : AFile} (ho : viewOf fs h.id = some f) (hk : f.kind = h.cls) (hg : GoodCls h.cls)
    (name : Bytes) : ∃ fs', Calm fs fs' ∧ secGetView cfg h name fs =
      (match lookupIn cfg.same (viewOf fs) h.id name with
        | .error e => .error e
        | .ok none => .ok none
        | .ok (some e) => .ok (some (e, ⟨h.id, f.entries, e.name⟩)), fs') := by
  obtain ⟨n, hn, rfl⟩ := get_of_view ho
  have hc := castAs_of_kind (h := h) hg hk typeDirectory
  unfold secGetView Sec.dir
  rw [file_run hn, hc]
  unfold lookupIn
  rw [ho]
  by_cases hT : h.cls = typeDirectory
  · rw [if_pos hT]
    dsimp only
    rw [if_neg (show ¬ (viewFile n).kind ≠ 4 by rw [hk, hT]; exact fun h => h rfl)]
    unfold Inode.getEntry
    dsimp only
    by_cases hl : name.length > 255
    · rw [if_pos hl, if_pos hl]
      exact ⟨_, calm_set hn (view_touchAtime cfg fs.now n) fun _ => rfl, rfl⟩
    · rw [if_neg hl, if_neg hl]
      rw [show (viewFile n).entries = n.entries from rfl]
      cases hf : n.entries.find? fun e => cfg.same name e.name with
      | none => exact ⟨_, calm_set hn (view_touchAtime cfg fs.now n) fun _ => rfl, rfl⟩
      | some e => exact ⟨_, calm_set hn (view_touchAtime cfg fs.now n) fun _ => rfl, rfl⟩
  · rw [if_neg hT]
    dsimp only
    rw [if_pos (show (viewFile n).kind ≠ 4 by rw [hk]; exact hT)]
    exact ⟨_, calm_set hn rfl fun _ => rfl, rfl⟩

/-- What the loop does: the stored names, or an error; the views are good. -/
def ViewsAgree (A : AFs) (fs : FullFs) (spec : Res (List Bytes)) (out : Res (List NameView) × FullFs) : Prop :=
  Calm fs out.2 ∧
  match spec with
  | .error e => out.1 = .error e
  | .ok names => ∃ vs, out.1 = .ok vs ∧ vs.map NameView.name = names ∧ ∀ v ∈ vs, ∃ f, A v.dir = some f ∧ f.entries = v.entries

theorem pathViews_agree {cfg : FsCfg} {A : AFs} (ht : DirTree A) : ∀ (l : List Bytes) (fs : FullFs) (pid : Bytes) (h : FH) (f : AFile),
    viewOf fs = A → A h.id = some f → f.kind = h.cls → GoodCls h.cls →
    ViewsAgree A fs (storedNames cfg.same A h.id l) ((pathViews cfg pid h l).run fs)
  | [], fs, _, _, _, _, _, _, _ => ⟨Calm.refl fs, [], rfl, rfl, fun v hv => by cases hv⟩
  | s :: rest, fs, pid, h, f, hv, hf, hk, hg => by
    rw [pathViews, storedNames]
    obtain ⟨fs1, hc1, hrun⟩ := getView_run (cfg := cfg) (by rw [hv]; exact hf) hk hg s
    rw [hv] at hrun
    have hv1 : viewOf fs1 = A := by rw [hc1.view, hv]
    cases hl : lookupIn cfg.same A h.id s with
    | error e =>
      rw [hl] at hrun
      rw [run_one_error hrun]
      exact ⟨hc1, rfl⟩
    | ok r =>
      rw [hl] at hrun
      cases r with
      | none => rw [run_one_ok hrun]; exact ⟨hc1, rfl⟩
      | some e =>
        rw [run_one_ok hrun]
        dsimp only
        obtain ⟨f', hf', hk4, hmem, -, -⟩ := lookupIn_some hl
        rw [hf] at hf'
        injection hf' with hf'
        subst hf'
        obtain ⟨hne, ht0, g, hge, hgk⟩ := ht.entry _ f e hf hmem
        have hgood : GoodCls e.type := by rw [← hgk]; exact kind_good (by rw [hgk]; exact ht0)
        rw [run_one_ok (openAs_run (f := g) (by rw [hv1]; exact hge) hgood fun h => absurd h hne)]
        obtain ⟨n, hn, hng⟩ := get_of_view (show viewOf fs1 e.id = some g by rw [hv1]; exact hge)
        have hsp : secSetParent ⟨e.id, e.type⟩ pid fs1 = (.ok (), fs1.set e.id { n with parent := pid }) := by
          unfold secSetParent; rw [file_run hn]
        rw [run_one_ok hsp, run_bind]
        have hc2 : Calm fs1 (fs1.set e.id { n with parent := pid }) := calm_set hn rfl fun h => absurd h hne
        have hv2 : viewOf (fs1.set e.id { n with parent := pid }) = A := by rw [hc2.view, hv1]
        have ih := pathViews_agree (cfg := cfg) ht rest _ e.id ⟨e.id, e.type⟩ g hv2 hge hgk hgood
        dsimp only at ih ⊢
        revert ih
        generalize (pathViews cfg e.id ⟨e.id, e.type⟩ rest).run (fs1.set e.id { n with parent := pid }) = out
        obtain ⟨o1, fs3⟩ := out
        intro ih
        have hcc : Calm fs fs3 := hc1.trans (hc2.trans ih.1)
        cases hr : storedNames cfg.same A e.id rest with
        | error er =>
          rw [hr] at ih
          have := ih.2
          dsimp only at this
          subst this
          exact ⟨hcc, rfl⟩
        | ok names =>
          rw [hr] at ih
          obtain ⟨vs, h1, h2, h3⟩ := ih.2
          dsimp only at h1
          subst h1
          refine ⟨hcc, ⟨h.id, f.entries, e.name⟩ :: vs, rfl, by rw [List.map_cons, h2], ?_⟩
          intro v hv
          rcases List.mem_cons.mp hv with rfl | hv
          · exact ⟨f, hf, rfl⟩
          · exact h3 v hv

theorem readViews_good {A : AFs} {fs : FullFs} (hv : viewOf fs = A) : ∀ (vs : List NameView),
    (∀ v ∈ vs, ∃ f, A v.dir = some f ∧ f.entries = v.entries) → secReadViews vs fs = (.ok (vs.map NameView.name), fs)
  | [], _ => rfl
  | v :: vs, h => by
    have ih := readViews_good hv vs fun w hw => h w (List.mem_cons_of_mem _ hw)
    obtain ⟨f, hf, he⟩ := h v List.mem_cons_self
    rw [← hv] at hf
    obtain ⟨n, hn, rfl⟩ := get_of_view hf
    unfold secReadViews at ih ⊢
    injection ih with ih _
    have hread : readView fs v = .ok v.name := by
      unfold readView
      rw [hn]
      exact if_pos he
    rw [List.mapM_cons, hread, ih]
    rfl

theorem joinNames_eq : ∀ names, joinNames names = slashed names
  | [] => rfl
  | n :: rest => by rw [joinNames, joinNames_eq rest]; rfl

/-- `vgetpath` without other threads. -/
theorem vgetpath_agrees {cfg : FsCfg} {fs : FullFs} (ht : DirTree (viewOf fs)) {path : Bytes} (h0 : ¬ (path = [] ∨ path = [47]))
    (size : Nat) :
    Calm fs ((vgetpath cfg path size).run fs).2 ∧ ((vgetpath cfg path size).run fs).1 =
      match storedNames cfg.same (viewOf fs) kRootId (parts path) with
      | .error e => .error e
      | .ok names => .ok (copyAndReturn size (slashed names)) := by
  unfold vgetpath
  rw [if_neg (show ¬ (path = [] ∨ path = [slash]) from h0), run_one_ok (openRoot_run ht rfl), splitPath_eq, run_bind]
  obtain ⟨f, hf, hk⟩ := ht.root
  have ha := pathViews_agree (cfg := cfg) ht (parts path) fs kRootId ⟨kRootId, typeDirectory⟩ f rfl hf hk (.inl rfl)
  dsimp only at ha
  revert ha
  generalize (pathViews cfg kRootId ⟨kRootId, typeDirectory⟩ (parts path)).run fs = out
  obtain ⟨o1, fs1⟩ := out
  intro ha
  cases hr : storedNames cfg.same (viewOf fs) kRootId (parts path) with
  | error e =>
    rw [hr] at ha
    have := ha.2
    dsimp only at this
    subst this
    exact ⟨ha.1, rfl⟩
  | ok names =>
    rw [hr] at ha
    obtain ⟨vs, h1, h2, h3⟩ := ha.2
    have hc := ha.1
    dsimp only at h1 hc
    subst h1
    dsimp only
    rw [run_one_ok (readViews_good hc.view vs h3), h2]
    exact ⟨hc, by rw [Prog.run, joinNames_eq]⟩

/-! ## Back to the file -/

theorem splitSlash_run : ∀ (n cur rest : Bytes), 47 ∉ n → splitSlash cur (n ++ rest) = splitSlash (cur ++ n) rest
  | [], cur, rest, _ => by rw [List.nil_append, List.append_nil]
  | c :: n, cur, rest, h => by
    rw [List.cons_append, splitSlash, if_neg (show ¬ c = slash from fun e => h (by rw [e]; exact List.mem_cons_self)),
      splitSlash_run n _ rest fun hm => h (List.mem_cons_of_mem _ hm), List.append_assoc]
    rfl

theorem splitSlash_slashed : ∀ (names : List Bytes) (cur : Bytes), (∀ n ∈ names, 47 ∉ n) → splitSlash cur (slashed names) = cur :: names
  | [], _, _ => rfl
  | n :: rest, cur, h => by
    show splitSlash cur (47 :: (n ++ slashed rest)) = _
    rw [splitSlash, if_pos (show (47 : UInt8) = slash from rfl), splitSlash_run n [] _ (h n List.mem_cons_self), List.nil_append,
      splitSlash_slashed rest n fun m hm => h m (List.mem_cons_of_mem _ hm)]

theorem parts_slashed {names : List Bytes} (h : ∀ n ∈ names, PlainName n) : parts (slashed names) = names := by
  rw [← splitPath_eq]
  unfold splitPath
  rw [splitSlash_slashed names [] fun n hn => (h n hn).2.1, List.filter_cons_of_neg (by simp)]
  rw [List.filter_eq_self]
  intro n hn
  cases n with
  | nil => exact absurd rfl (h [] hn).1
  | cons _ _ => rfl

/-- Both spellings of a path lead through the same directories to the same entry. -/
theorem spelled_both {same : Bytes → Bytes → Bool} (hs : SameEquiv same) {A : AFs} (ha : NamesApart same A) (ht : DirTree A)
    (link : Place → List Bytes → Res (Option Place)) {d : Bytes} {l names : List Bytes} {last : Bytes} (h : Spelled same A d l names last) :
    ∀ p : Place, p.1 = d → l ≠ [] → (∀ s ∈ l, s ≠ [46] ∧ s ≠ [46, 46]) → (∀ n ∈ names, PlainName n) →
    ∃ p' e x y, l.getLast? = some x ∧ names.getLast? = some y ∧ resolveWith same A link p l.dropLast = .ok (some p') ∧
      resolveWith same A link p names.dropLast = .ok (some p') ∧ lookupIn same A p'.1 x = .ok (some e) ∧
      lookupIn same A p'.1 y = .ok (some e) ∧ e.id = last := by
  induction h with
  | here d => intro p _ h; exact absurd rfl h
  | @down d f e s l names last dir kind mem eq short rest ih =>
    intro p hp _ hl hn
    subst hp
    have h1 := lookupIn_of hs ha dir kind mem eq short
    have hne := hn e.name List.mem_cons_self
    have h2 := lookupIn_of hs ha dir kind mem (hs.refl _) hne.2.2.2.2
    have hs1 := hl s List.mem_cons_self
    cases rest with
    | here => exact ⟨p, e, s, e.name, rfl, rfl, rfl, rfl, h1, h2, rfl⟩
    | @down _ f' e' s' l' names' _ dir' kind' mem' eq' short' rest' =>
      obtain ⟨p', e'', x, y, g1, g2, g3, g4, g5, g6, g7⟩ := ih (e.id, p.1 :: p.2) rfl (by simp) (fun s hs => hl s (List.mem_cons_of_mem _ hs))
        fun n h => hn n (List.mem_cons_of_mem _ h)
      obtain ⟨_, _, g, hg, hgk⟩ := ht.entry _ f e dir mem
      rw [dir'] at hg
      injection hg with hg
      subst hg
      have ht10 : e.type ≠ 10 := by rw [← hgk, kind']; decide
      refine ⟨p', e'', x, y, ?_, ?_, ?_, ?_, g5, g6, g7⟩
      · rw [List.getLast?_cons_cons]; exact g1
      · rw [List.getLast?_cons_cons]; exact g2
      · rw [List.dropLast_cons_cons, resolveWith, if_neg hs1.1, if_neg hs1.2, h1]
        dsimp only
        rw [if_neg ht10]
        exact g3
      · rw [List.dropLast_cons_cons, resolveWith, if_neg hne.2.2.1, if_neg hne.2.2.2.1, h2]
        dsimp only
        rw [if_neg ht10]
        exact g4

theorem slashed_ne {names : List Bytes} (hn : ∀ n ∈ names, PlainName n) (h : names ≠ []) : ¬ (slashed names = [] ∨ slashed names = [47]) := by
  cases names with
  | nil => exact absurd rfl h
  | cons n rest =>
    rintro (h | h)
    · cases h
    · injection h with _ h
      exact (hn n List.mem_cons_self).1 (List.append_eq_nil_iff.mp h).1

theorem spelled_resolves {same : Bytes → Bytes → Bool} (hs : SameEquiv same) {A : AFs} (ha : NamesApart same A) (ht : DirTree A)
    {path : Bytes} (h0 : ¬ (path = [] ∨ path = [47])) {names : List Bytes} {last : Bytes} (h : Spelled same A kRootId (parts path) names last)
    (hne : parts path ≠ []) (hl : ∀ s ∈ parts path, s ≠ [46] ∧ s ≠ [46, 46]) (hn : ∀ n ∈ names, PlainName n) (follow : Bool) :
    resolvePath same A (slashed names) follow = resolvePath same A path follow ∧
    ∃ p, resolvePath same A path false = .ok (some p) ∧ p.1 = last := by
  obtain ⟨p', e, x, y, g1, g2, g3, g4, g5, g6, g7⟩ := spelled_both hs ha ht (resolve same A 15) h rootPlace rfl hne hl hn
  have hnn : names ≠ [] := by rintro rfl; cases g2
  have hpp := parts_slashed hn
  have r1 : resolveParent same A path = .ok (p', x) := by
    unfold resolveParent
    rw [g1]
    dsimp only
    rw [show resolve same A 16 rootPlace (parts path).dropLast = .ok (some p') from g3]
  have r2 : resolveParent same A (slashed names) = .ok (p', y) := by
    unfold resolveParent
    rw [hpp, g2]
    dsimp only
    rw [show resolve same A 16 rootPlace names.dropLast = .ok (some p') from g4]
  refine ⟨?_, (e.id, p'.1 :: p'.2), ?_, g7⟩
  · unfold resolvePath
    rw [if_neg h0, if_neg (slashed_ne hn hnn), r1, r2]
    dsimp only
    rw [g5, g6]
  · unfold resolvePath
    rw [if_neg h0, r1]
    dsimp only
    rw [g5]
    dsimp only
    rw [if_neg (by rintro ⟨h, _⟩; cases h)]

end Securefs
