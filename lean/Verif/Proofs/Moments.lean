import Verif.Spec.Moments
import Verif.Proofs.FullFsOps
import Verif.Proofs.FullFsPath
/-!
# Helper lemmas: calls on names take effect at one moment
-/

namespace Securefs.Mo
open Spec

/-! ## Names under changes of files -/

theorem nameAt_view {same : Bytes → Bytes → Bool} {fs : FullFs} {d : Bytes} {n : Inode} (h : fs.get d = some n) (s : Bytes) :
    nameAt same (viewOf fs) d s = (n.entries.find? fun e => same s e.name).map fun e => (e.id, e.type) := by
  unfold nameAt viewOf; rw [h]; rfl

theorem nameAt_view_none {same : Bytes → Bytes → Bool} {fs : FullFs} {d : Bytes} (h : fs.get d = none) (s : Bytes) :
    nameAt same (viewOf fs) d s = none := by
  unfold nameAt viewOf; rw [h]; rfl

theorem nameAt_set {same : Bytes → Bytes → Bool} {fs : FullFs} {id : Bytes} {n : Inode} (h : fs.get id = some n) (m : Inode) (d s : Bytes) :
    nameAt same (viewOf (fs.set id m)) d s =
      if d = id then (m.entries.find? fun e => same s e.name).map fun e => (e.id, e.type) else nameAt same (viewOf fs) d s := by
  by_cases hd : d = id
  · subst hd
    rw [if_pos rfl, nameAt_view (get_set_self h m)]
  · rw [if_neg hd]
    unfold nameAt viewOf
    rw [get_set_ne fs m hd]

theorem calm_set {same : Bytes → Bytes → Bool} {fs : FullFs} {id : Bytes} {n m : Inode} (h : fs.get id = some n) (e : m.entries = n.entries) :
    Moment.calm same (fs, fs.set id m) := by
  intro d s
  show nameAt same (viewOf (fs.set id m)) d s = nameAt same (viewOf fs) d s
  rw [nameAt_set h, e]
  by_cases hd : d = id
  · subst hd; rw [if_pos rfl, nameAt_view h]
  · rw [if_neg hd]

theorem calm_refl {same : Bytes → Bytes → Bool} (fs : FullFs) : Moment.calm same (fs, fs) := fun _ _ => rfl

/-- A section that changes no name. -/
def CalmSec (same : Bytes → Bytes → Bool) {β : Type} (f : Sec β) : Prop := ∀ fs, Moment.calm same (fs, (f fs).2)

theorem calm_file {same : Bytes → Bytes → Bool} {β : Type} {id : Bytes} {f : TimeSpec → Inode → Res β × Inode}
    (hf : ∀ now n, (f now n).2.entries = n.entries) : CalmSec same (Sec.file id f) := by
  intro fs
  unfold Sec.file
  cases hg : fs.get id with
  | none => exact calm_refl fs
  | some n => exact calm_set hg (hf _ _)

theorem calm_dir {same : Bytes → Bytes → Bool} {β : Type} {h : FH} {f : TimeSpec → Inode → Res β × Inode}
    (hf : ∀ now n, (f now n).2.entries = n.entries) : CalmSec same (Sec.dir h f) := by
  refine calm_file fun now n => ?_
  cases castAs h typeDirectory n with
  | error e => rfl
  | ok u => exact hf now n

theorem calm_reg {same : Bytes → Bytes → Bool} {β : Type} {h : FH} {f : TimeSpec → Inode → Res β × Inode}
    (hf : ∀ now n, (f now n).2.entries = n.entries) : CalmSec same (Sec.reg h f) := by
  refine calm_file fun now n => ?_
  cases castAs h typeRegular n with
  | error e => rfl
  | ok u => exact hf now n

theorem calm_openAs (same : Bytes → Bytes → Bool) (id : Bytes) (type : Nat) : CalmSec same (secOpenAs id type) := by
  intro fs
  have e : (secOpenAs id type fs).2 = fs := by
    unfold secOpenAs
    split
    · split <;> rfl
    · cases fs.get id with
      | none => rfl
      | some n => dsimp only; split <;> rfl
  rw [e]
  exact calm_refl fs

theorem calm_get (cfg : FsCfg) (h : FH) (name : Bytes) : CalmSec cfg.same (secGet cfg h name) := by
  refine calm_dir fun now n => ?_
  unfold Inode.getEntry
  dsimp only
  split <;> rfl

theorem calm_getParent (same : Bytes → Bytes → Bool) (h : FH) : CalmSec same (secGetParent h) := calm_file fun _ _ => rfl
theorem calm_setParent (same : Bytes → Bytes → Bool) (h : FH) (id : Bytes) : CalmSec same (secSetParent h id) := calm_file fun _ _ => rfl

theorem calm_linkGet (same : Bytes → Bytes → Bool) (cfg : FsCfg) (h : FH) : CalmSec same (secLinkGet cfg h) := by
  refine calm_file fun now n => ?_
  cases castAs h typeSymlink n <;> rfl

theorem calm_linkSet (same : Bytes → Bytes → Bool) (cfg : FsCfg) (h : FH) (target : Bytes) : CalmSec same (secLinkSet cfg h target) := by
  refine calm_file fun now n => ?_
  cases castAs h typeSymlink n <;> rfl

theorem calm_unlink (same : Bytes → Bytes → Bool) (h : FH) : CalmSec same (secUnlink h) := calm_file fun _ _ => rfl

theorem calm_unlinkEmpty (cfg : FsCfg) (h : FH) : CalmSec cfg.same (secUnlinkEmpty cfg h) := by
  refine calm_dir fun now n => ?_
  unfold Inode.unlinkEmpty
  dsimp only
  cases n.entries <;> rfl

theorem calm_attr (same : Bytes → Bytes → Bool) (h : FH) (f : TimeSpec → FileAttr → FileAttr) : CalmSec same (secAttr h f) := calm_file fun _ _ => rfl

theorem calm_create (cfg : FsCfg) (id : Bytes) (type : Nat) (mode uid gid : UInt32) : CalmSec cfg.same (secCreate cfg id type mode uid gid) := by
  intro fs
  unfold secCreate
  by_cases hr : id = kRootId
  · rw [if_pos hr]; exact calm_refl fs
  · rw [if_neg hr]
    cases hg : fs.get id with
    | some n => exact calm_refl fs
    | none =>
      intro d s
      dsimp only
      by_cases hd : d = id
      · subst hd
        rw [nameAt_view_none hg]
        unfold nameAt viewOf FullFs.get
        rw [lookup_append]
        unfold FullFs.get at hg
        rw [hg]
        simp [viewFile]
      · unfold nameAt viewOf FullFs.get
        rw [lookup_append]
        cases hl : fs.nodes.lookup d with
        | some n => rfl
        | none => simp [hd]

/-! ## Entries added and removed -/

theorem getEntry_names {cfg : FsCfg} {h : FH} {name : Bytes} {fs fs' : FullFs} {r : Option DirEntry} (e : secGet cfg h name fs = (.ok r, fs')) :
    nameAt cfg.same (viewOf fs) h.id name = r.map fun x => (x.id, x.type) := by
  unfold secGet at e
  rcases dir_cases h (fun now n => n.getEntry cfg now name) fs with ⟨er, he⟩ | ⟨er, n, hg, he⟩ | ⟨n, hg, hc, he⟩
  · rw [he] at e; cases e
  · rw [he] at e; cases e
  · rw [he] at e
    unfold Inode.getEntry at e
    dsimp only at e
    by_cases hl : name.length > 255
    · rw [if_pos hl] at e; cases e
    · rw [if_neg hl] at e
      injection e with e2 e3
      injection e2 with e2
      rw [nameAt_view hg, ← e2]

theorem remove_names {cfg : FsCfg} (hs : SameEquiv cfg.same) {h : FH} {name : Bytes} {fs fs' : FullFs} {r : Option DirEntry}
    (e : secRemove cfg h name fs = (.ok r, fs')) :
    nameAt cfg.same (viewOf fs) h.id name = r.map (fun x => (x.id, x.type)) ∧
      ∀ d n, nameAt cfg.same (viewOf fs') d n = if d = h.id ∧ cfg.same n name = true then none else nameAt cfg.same (viewOf fs) d n := by
  unfold secRemove at e
  rcases dir_cases h (fun now n => n.removeEntry cfg now name) fs with ⟨er, he⟩ | ⟨er, n, hg, he⟩ | ⟨n, hg, hc, he⟩
  · rw [he] at e; cases e
  · rw [he] at e; cases e
  · rw [he] at e
    unfold Inode.removeEntry at e
    dsimp only at e
    by_cases hl : name.length > 255
    · rw [if_pos hl] at e; cases e
    · rw [if_neg hl] at e
      injection e with e2 e3
      injection e2 with e2
      subst e3
      refine ⟨by rw [nameAt_view hg, ← e2], fun d s => ?_⟩
      rw [nameAt_set hg]
      by_cases hd : d = h.id
      · subst hd
        rw [if_pos rfl, nameAt_view hg]
        dsimp only
        rw [find?_without hs]
        by_cases hn : cfg.same s name = true
        · rw [if_pos hn, if_pos ⟨rfl, hn⟩]; rfl
        · rw [if_neg hn, if_neg (fun c => hn c.2)]
      · rw [if_neg hd, if_neg (fun c => hd c.1)]

theorem remove_error {cfg : FsCfg} {h : FH} {name : Bytes} {fs fs' : FullFs} {er : Err}
    (e : secRemove cfg h name fs = (.error er, fs')) : Moment.calm cfg.same (fs, fs') ∧ er ≠ .vfs 39 := by
  unfold secRemove at e
  unfold Sec.dir Sec.file at e
  cases hg : fs.get h.id with
  | none => rw [hg] at e; injection e with e1 e2; injection e1 with e1; subst e1 e2; exact ⟨calm_refl fs, by decide⟩
  | some n =>
    rw [hg] at e
    dsimp only at e
    unfold castAs at e
    split at e
    · injection e with e1 e2; subst e2
      rename_i h1
      split at h1
      · injection h1 with h1; injection e1 with e1; subst e1 h1; exact ⟨calm_set hg rfl, by decide⟩
      · split at h1
        · injection h1 with h1; injection e1 with e1; subst e1 h1; exact ⟨calm_set hg rfl, by decide⟩
        · cases h1
    · unfold Inode.removeEntry at e
      dsimp only at e
      by_cases hl : name.length > 255
      · rw [if_pos hl] at e
        injection e with e1 e2; injection e1 with e1; subst e1 e2; exact ⟨calm_set hg rfl, by decide⟩
      · rw [if_neg hl] at e; cases e

theorem add_names {cfg : FsCfg} {h : FH} {x : DirEntry} {fs fs' : FullFs} {b : Bool} (e : secAdd cfg h x fs = (.ok b, fs')) :
    (b = true ∧ Moment.added cfg.same (fs, fs') h.id x.name (x.id, x.type)) ∨
      (b = false ∧ nameAt cfg.same (viewOf fs) h.id x.name ≠ none ∧ Moment.calm cfg.same (fs, fs')) := by
  unfold secAdd at e
  rcases dir_cases h (fun now n => n.addEntry cfg now x) fs with ⟨er, he⟩ | ⟨er, n, hg, he⟩ | ⟨n, hg, hc, he⟩
  · rw [he] at e; cases e
  · rw [he] at e; cases e
  · rw [he] at e
    unfold Inode.addEntry at e
    dsimp only at e
    by_cases hl : x.name.length > 255
    · rw [if_pos hl] at e; cases e
    · rw [if_neg hl] at e
      by_cases ha : n.entries.any (fun y => cfg.same x.name y.name) = true
      · rw [if_pos ha] at e
        injection e with e2 e3
        injection e2 with e2
        subst e3 e2
        refine .inr ⟨rfl, ?_, calm_set hg rfl⟩
        rw [nameAt_view hg]
        intro hn
        rw [Option.map_eq_none_iff, List.find?_eq_none] at hn
        obtain ⟨y, hy, hy'⟩ := List.any_eq_true.mp ha
        exact hn y hy hy'
      · rw [if_neg ha] at e
        injection e with e2 e3
        injection e2 with e2
        subst e3 e2
        refine .inl ⟨rfl, ?_, fun d s => ?_⟩
        · show nameAt cfg.same (viewOf fs) h.id x.name = none
          rw [nameAt_view hg, Option.map_eq_none_iff, List.find?_eq_none]
          intro y hy hy'
          exact ha (List.any_eq_true.mpr ⟨y, hy, hy'⟩)
        · show nameAt cfg.same (viewOf (fs.set h.id _)) d s = _
          rw [nameAt_set hg]
          by_cases hd : d = h.id
          · subst hd
            rw [if_pos rfl]
            dsimp only
            rw [List.find?_cons]
            by_cases hn : cfg.same s x.name = true
            · rw [hn, if_pos ⟨rfl, rfl⟩]; rfl
            · rw [if_neg (fun c => hn c.2), nameAt_view hg]
              rw [Bool.not_eq_true] at hn
              rw [hn]
          · rw [if_neg hd, if_neg (fun c => hd c.1)]

theorem add_error {cfg : FsCfg} {h : FH} {x : DirEntry} {fs fs' : FullFs} {er : Err}
    (e : secAdd cfg h x fs = (.error er, fs')) : Moment.calm cfg.same (fs, fs') := by
  unfold secAdd at e
  rcases dir_cases h (fun now n => n.addEntry cfg now x) fs with ⟨er', he⟩ | ⟨er', n, hg, he⟩ | ⟨n, hg, hc, he⟩
  · rw [he] at e; injection e with _ e2; subst e2; exact calm_refl fs
  · rw [he] at e; injection e with _ e2; subst e2; exact calm_set hg rfl
  · rw [he] at e
    unfold Inode.addEntry at e
    dsimp only at e
    by_cases hl : x.name.length > 255
    · rw [if_pos hl] at e; injection e with _ e2; subst e2; exact calm_set hg rfl
    · rw [if_neg hl] at e
      split at e <;> cases e

/-! ## Programs -/

/-- `R` holds of all executions of a program: of the moments and the result, and of the moments so far (with no result) between two sections. -/
def Always {α : Type} : Prog α → (List Moment → Option (Res α) → Prop) → Prop
  | .ret a, R => R [] (some (.ok a))
  | .throw e, R => R [] (some (.error e))
  | .sec f k, R => R [] none ∧ ∀ fs,
    match f fs with
    | (.error e, fs') => R [(fs, fs')] (some (.error e))
    | (.ok b, fs') => Always (k b) fun ms r => R ((fs, fs') :: ms) r

theorem Always.mono {α : Type} : ∀ {p : Prog α} {R R' : List Moment → Option (Res α) → Prop}, Always p R → (∀ ms r, R ms r → R' ms r) → Always p R'
  | .ret _, _, _, h, hi => hi _ _ h
  | .throw _, _, _, h, hi => hi _ _ h
  | .sec f k, R, R', h, hi => by
    refine ⟨hi _ _ h.1, fun fs => ?_⟩
    have h2 := h.2 fs
    revert h2
    cases f fs with
    | mk x fs' =>
      cases x with
      | error e => exact fun h2 => hi _ _ h2
      | ok b => exact fun h2 => Always.mono h2 fun ms r => hi _ _

theorem Always.bind {α β : Type} {g : α → Prog β} : ∀ {p : Prog α} {R' : List Moment → Option (Res α) → Prop} {R : List Moment → Option (Res β) → Prop},
    Always p R' → (∀ ms a, R' ms (some (.ok a)) → Always (g a) fun ms' r => R (ms ++ ms') r) →
    (∀ ms e, R' ms (some (.error e)) → R ms (some (.error e))) → (∀ ms, R' ms none → R ms none) → Always (p.bind g) R
  | .ret a, _, _, h, h1, _, _ => h1 [] a h
  | .throw e, _, _, h, _, h2, _ => h2 _ _ h
  | .sec f k, R', R, h, h1, h2, h3 => by
    refine ⟨h3 _ h.1, fun fs => ?_⟩
    have h' := h.2 fs
    revert h'
    cases f fs with
    | mk x fs' =>
      cases x with
      | error e => exact fun h' => h2 _ _ h'
      | ok b =>
        intro h'
        exact Always.bind (R' := fun ms r => R' ((fs, fs') :: ms) r) (R := fun ms r => R ((fs, fs') :: ms) r) h'
          (fun ms a ha => h1 _ a ha) (fun ms e he => h2 _ e he) (fun ms hn => h3 _ hn)

theorem Always.sec {α β : Type} {f : Sec β} {g : β → Prog α} {R : List Moment → Option (Res α) → Prop} (h0 : R [] none)
    (h1 : ∀ fs e fs', f fs = (.error e, fs') → R [(fs, fs')] (some (.error e)))
    (h2 : ∀ fs b fs', f fs = (.ok b, fs') → Always (g b) fun ms r => R ((fs, fs') :: ms) r) : Always ((Prog.one f).bind g) R := by
  refine ⟨h0, fun fs => ?_⟩
  cases hf : f fs with
  | mk x fs' =>
    cases x with
    | error e => exact h1 fs e fs' hf
    | ok b => exact h2 fs b fs' hf

/-- A thread that has thrown does not return. -/
theorem thrown_stays {cfg : FsCfg} {i : Nat} : ∀ (evs : List FullEvent) {s : FullSys} {e : Err}, s.threads[i]? = some (.throw e) → ∀ v,
    (s.run cfg evs).threads[i]? ≠ some (.ret v)
  | [], s, e, hp, v, hv => by
    have hr : s.run cfg [] = s := rfl
    rw [hr, hp] at hv; cases hv
  | ev :: evs, s, e, hp, v, hv => by
    have hr : s.run cfg (ev :: evs) = (s.step cfg ev).run cfg evs := rfl
    rw [hr] at hv
    refine thrown_stays (cfg := cfg) (e := e) evs ?_ v hv
    have hlt : i < s.threads.length := by
      by_contra hc
      rw [List.getElem?_eq_none (Nat.le_of_not_lt hc)] at hp
      cases hp
    cases ev with
    | start op =>
      show (s.threads ++ [op.prog cfg])[i]? = _
      rw [List.getElem?_append_left hlt]
      exact hp
    | tick now => exact hp
    | evict id =>
      unfold FullSys.step
      dsimp only
      split <;> exact hp
    | reap id =>
      unfold FullSys.step
      dsimp only
      split
      · exact hp
      · split <;> exact hp
    | fail j e =>
      unfold FullSys.step
      dsimp only
      by_cases hj : j = i
      · subst hj; rw [hp]; exact hp
      · split
        · rw [List.getElem?_set_ne hj]; exact hp
        · exact hp
    | step j =>
      unfold FullSys.step FullSys.stepThread
      dsimp only
      by_cases hj : j = i
      · subst hj; rw [hp]; exact hp
      · split
        · split
          · show (s.threads.set j _)[i]? = _
            rw [List.getElem?_set_ne hj]; exact hp
          · show (s.threads.set j _)[i]? = _
            rw [List.getElem?_set_ne hj]; exact hp
        · exact hp

/-- A thread that has still to do `p`, after the events: it has returned or thrown, was made to fail, or is between two sections. -/
theorem Always.history {cfg : FsCfg} {i : Nat} : ∀ (evs : List FullEvent) {s : FullSys} {p : Prog Int} {R : List Moment → Option (Res Int) → Prop},
    s.threads[i]? = some p → Always p R →
    (∀ v, (s.run cfg evs).threads[i]? = some (.ret v) → R (moments cfg i s evs) (some (.ok v))) ∧
    (∀ e, (s.run cfg evs).threads[i]? = some (.throw e) →
      R (moments cfg i s evs) (some (.error e)) ∨ ((∃ e', FullEvent.fail i e' ∈ evs) ∧ R (moments cfg i s evs) none)) ∧
    (∃ r, R (moments cfg i s evs) r)
  | [], s, p, R, hp, h => by
    have hm : moments cfg i s [] = [] := rfl
    have hr : s.run cfg [] = s := rfl
    rw [hm, hr]
    refine ⟨fun v hv => ?_, fun e he => ?_, ?_⟩
    · rw [hp] at hv; cases hv; exact h
    · rw [hp] at he; cases he; exact .inl h
    · cases p with
      | ret a => exact ⟨_, h⟩
      | throw e => exact ⟨_, h⟩
      | sec f k => exact ⟨_, h.1⟩
  | ev :: evs, s, p, R, hp, h => by
    have hm : moments cfg i s (ev :: evs) = momentOf cfg i s ev ++ moments cfg i (s.step cfg ev) evs := rfl
    have hr : s.run cfg (ev :: evs) = (s.step cfg ev).run cfg evs := rfl
    have quiet : momentOf cfg i s ev = [] → (s.step cfg ev).threads[i]? = some p → 
        (∀ v, (s.run cfg (ev :: evs)).threads[i]? = some (.ret v) → R (moments cfg i s (ev :: evs)) (some (.ok v))) ∧
        (∀ e, (s.run cfg (ev :: evs)).threads[i]? = some (.throw e) →
          R (moments cfg i s (ev :: evs)) (some (.error e)) ∨ ((∃ e', FullEvent.fail i e' ∈ ev :: evs) ∧ R (moments cfg i s (ev :: evs)) none)) ∧
        (∃ r, R (moments cfg i s (ev :: evs)) r) := by
      intro h1 h2
      obtain ⟨a, b, c⟩ := Always.history evs h2 h
      rw [hm, hr, h1, List.nil_append]
      refine ⟨a, fun e he => ?_, c⟩
      rcases b e he with b | ⟨⟨e', b⟩, b'⟩
      · exact .inl b
      · exact .inr ⟨⟨e', List.mem_cons_of_mem _ b⟩, b'⟩
    have hlt : i < s.threads.length := by
      by_contra hc
      rw [List.getElem?_eq_none (Nat.le_of_not_lt hc)] at hp
      cases hp
    cases ev with
    | start op =>
      refine quiet rfl ?_
      show (s.threads ++ [op.prog cfg])[i]? = some p
      rw [List.getElem?_append_left hlt]
      exact hp
    | tick now => exact quiet rfl hp
    | evict id =>
      refine quiet rfl ?_
      unfold FullSys.step
      dsimp only
      split <;> exact hp
    | reap id =>
      refine quiet rfl ?_
      unfold FullSys.step
      dsimp only
      split
      · exact hp
      · split <;> exact hp
    | fail j e =>
      by_cases hj : j = i
      · subst hj
        cases p with
        | ret a => 
          refine quiet rfl ?_
          unfold FullSys.step
          dsimp only
          rw [hp]; exact hp
        | throw e =>
          refine quiet rfl ?_
          unfold FullSys.step
          dsimp only
          rw [hp]; exact hp
        | sec f k =>
          have hs : (s.step cfg (.fail j e)).threads[j]? = some (.throw e) := by
            unfold FullSys.step
            dsimp only
            rw [hp]
            dsimp only
            rw [List.getElem?_set_self hlt]
          obtain ⟨a, b, c⟩ := Always.history (cfg := cfg) (R := fun ms _ => R ms none) evs hs h.1
          rw [hm, hr]
          show (∀ v, _ → R (moments cfg j _ evs) _) ∧ (∀ e', _ → R (moments cfg j _ evs) _ ∨ _ ∧ R (moments cfg j _ evs) _) ∧ ∃ r, R (moments cfg j _ evs) r
          refine ⟨fun v hv => ?_, fun e' _ => .inr ⟨⟨e, List.mem_cons_self⟩, ?_⟩, ?_⟩
          · exfalso
            exact thrown_stays (cfg := cfg) evs hs v hv
          · obtain ⟨_, c⟩ := c; exact c
          · obtain ⟨_, c⟩ := c; exact ⟨none, c⟩
      · refine quiet rfl ?_
        unfold FullSys.step
        dsimp only
        split
        · rw [List.getElem?_set_ne hj]; exact hp
        · exact hp
    | step j =>
      by_cases hj : j = i
      · subst hj
        cases p with
        | ret a =>
          refine quiet (by unfold momentOf; dsimp only; rw [if_pos rfl, hp]) ?_
          unfold FullSys.step FullSys.stepThread
          dsimp only
          rw [hp]; exact hp
        | throw e =>
          refine quiet (by unfold momentOf; dsimp only; rw [if_pos rfl, hp]) ?_
          unfold FullSys.step FullSys.stepThread
          dsimp only
          rw [hp]; exact hp
        | sec f k =>
          have hmo : momentOf cfg j s (.step j) = [(s.fs, (s.step cfg (.step j)).fs)] := by unfold momentOf; dsimp only; rw [if_pos rfl, hp]
          have h2 := h.2 s.fs
          have hst : s.step cfg (.step j) = s.stepThread j := rfl
          cases hf : f s.fs with
          | mk x fs' =>
            rw [hf] at h2
            cases x with
            | error e =>
              have e1 : s.stepThread j = { fs := fs', threads := s.threads.set j (.throw e) } := by
                unfold FullSys.stepThread; rw [hp]; dsimp only; rw [hf]
              rw [hm, hr, hmo, hst, e1]
              obtain ⟨a, b, c⟩ := Always.history (cfg := cfg) (i := j) (s := { fs := fs', threads := s.threads.set j (.throw e) })
                (R := fun ms r => R ((s.fs, fs') :: ms) r) (p := .throw e) evs (List.getElem?_set_self hlt) h2
              refine ⟨a, fun e he => ?_, c⟩
              rcases b e he with b | ⟨⟨e', b⟩, b'⟩
              · exact .inl b
              · exact .inr ⟨⟨e', List.mem_cons_of_mem _ b⟩, b'⟩
            | ok v =>
              have e1 : s.stepThread j = { fs := fs', threads := s.threads.set j (k v) } := by
                unfold FullSys.stepThread; rw [hp]; dsimp only; rw [hf]
              rw [hm, hr, hmo, hst, e1]
              obtain ⟨a, b, c⟩ := Always.history (cfg := cfg) (i := j) (s := { fs := fs', threads := s.threads.set j (k v) })
                (R := fun ms r => R ((s.fs, fs') :: ms) r) (p := k v) evs (List.getElem?_set_self hlt) h2
              refine ⟨a, fun e he => ?_, c⟩
              rcases b e he with b | ⟨⟨e', b⟩, b'⟩
              · exact .inl b
              · exact .inr ⟨⟨e', List.mem_cons_of_mem _ b⟩, b'⟩
      · refine quiet (by unfold momentOf; dsimp only; rw [if_neg hj]) ?_
        unfold FullSys.step FullSys.stepThread
        dsimp only
        split
        · split
          · show (s.threads.set j _)[i]? = some p
            rw [List.getElem?_set_ne hj]; exact hp
          · show (s.threads.set j _)[i]? = some p
            rw [List.getElem?_set_ne hj]; exact hp
        · exact hp

/-! ## Following paths -/

theorem allCalm_nil (same : Bytes → Bytes → Bool) : AllCalm same [] := fun _ h => nomatch h

theorem allCalm_cons {same : Bytes → Bytes → Bool} {m : Moment} {ms : List Moment} (h : m.calm same) (hs : AllCalm same ms) : AllCalm same (m :: ms) := by
  intro x hx
  rcases List.mem_cons.mp hx with rfl | hx
  · exact h
  · exact hs x hx

theorem allCalm_append {same : Bytes → Bytes → Bool} {a b : List Moment} (ha : AllCalm same a) (hb : AllCalm same b) : AllCalm same (a ++ b) := by
  intro x hx
  rcases List.mem_append.mp hx with hx | hx
  · exact ha x hx
  · exact hb x hx

theorem CalmSec.at {same : Bytes → Bytes → Bool} {β : Type} {f : Sec β} (hc : CalmSec same f) {fs fs' : FullFs} {x : Res β} (e : f fs = (x, fs')) :
    Moment.calm same (fs, fs') := by
  have := hc fs
  rw [e] at this
  exact this

theorem _root_.Securefs.Spec.Leads.trans {same : Bytes → Bytes → Bool} {ms ms' : List Moment} {d c b : Bytes} {l l' : List Bytes} (h : Leads same ms d l c)
    (h' : Leads same ms' c l' b) : Leads same (ms ++ ms') d (l ++ l') b := by
  induction h with
  | here d => exact h'
  | wait m _ ih => exact .wait m (ih h')
  | dot _ ih => exact .dot (ih h')
  | up m hn _ ih => exact .up m hn (ih h')
  | into m hs hx ht _ ih => exact .into m hs hx ht (ih h')
  | @link m w m' ms ms2 d s x f l b c hs hx ht hf h1 h2 ih1 ih2 =>
    have e : (m :: (w ++ m' :: (ms ++ ms2))) ++ ms' = m :: (w ++ m' :: (ms ++ (ms2 ++ ms'))) := by simp
    rw [e]
    exact .link m w m' hs hx ht hf h1 (ih2 h')

theorem _root_.Securefs.Spec.Leads.waits {same : Bytes → Bytes → Bool} : ∀ (ms : List Moment) (d : Bytes), Leads same ms d [] d
  | [], d => .here d
  | m :: ms, d => .wait m (waits ms d)

theorem _root_.Securefs.Spec.Leads.later {same : Bytes → Bytes → Bool} {ms : List Moment} {d c : Bytes} {l : List Bytes} (h : Leads same ms d l c) (ms' : List Moment) :
    Leads same (ms ++ ms') d l c := by
  have := h.trans (Leads.waits ms' c)
  rwa [List.append_nil] at this

theorem _root_.Securefs.Spec.Leads.before {same : Bytes → Bytes → Bool} {ms : List Moment} {d c : Bytes} {l : List Bytes} (h : Leads same ms d l c) (ms' : List Moment) :
    Leads same (ms' ++ ms) d l c := (Leads.waits ms' d).trans h

theorem _root_.Securefs.Spec.Nowhere.later {same : Bytes → Bytes → Bool} {ms : List Moment} {d : Bytes} {l : List Bytes} (h : Nowhere same ms d l) (ms' : List Moment) :
    Nowhere same (ms ++ ms') d l := by
  induction h with
  | gone m hs hx => exact .gone m hs hx
  | after h1 _ ih => rw [List.append_assoc]; exact .after h1 ih
  | @link m w m' ms d s x f l hs hx ht hf _ ih =>
    have e : (m :: (w ++ m' :: ms)) ++ ms' = m :: (w ++ m' :: (ms ++ ms')) := by simp
    rw [e]
    exact .link m w m' hs hx ht hf ih

theorem _root_.Securefs.Spec.LedTo.later {same : Bytes → Bytes → Bool} {ms : List Moment} {path d name : Bytes} (h : LedTo same ms path d name) (ms' : List Moment) :
    LedTo same (ms ++ ms') path d name := by
  rcases h with h | ⟨l, h1, h2⟩
  · exact .inl h
  · exact .inr ⟨l, h1, h2.later ms'⟩

theorem _root_.Securefs.Spec.LedTo.before {same : Bytes → Bytes → Bool} {ms : List Moment} {path d name : Bytes} (h : LedTo same ms path d name) (ms' : List Moment) :
    LedTo same (ms' ++ ms) path d name := by
  rcases h with h | ⟨l, h1, h2⟩
  · exact .inl h
  · exact .inr ⟨l, h1, h2.before ms'⟩

theorem _root_.Securefs.Spec.FoundFile.later {same : Bytes → Bytes → Bool} {ms : List Moment} {path : Bytes} {fl : Bool} {id : Bytes} (h : FoundFile same ms path fl id)
    (ms' : List Moment) : FoundFile same (ms ++ ms') path fl id := by
  rcases h with h | ⟨a, m, b, d, name, x, rfl, h2, h3, h4⟩
  · exact .inl h
  · refine .inr ⟨a, m, b ++ ms', d, name, x, by simp, h2, h3, ?_⟩
    rcases h4 with h4 | ⟨e1, e2, w, m', b', f, rfl, e3, e4⟩
    · exact .inl h4
    · exact .inr ⟨e1, e2, w, m', b' ++ ms', f, by simp, e3, e4.later ms'⟩

theorem _root_.Securefs.Spec.MissingName.later {same : Bytes → Bytes → Bool} {ms : List Moment} {path : Bytes} (h : MissingName same ms path)
    (ms' : List Moment) : MissingName same (ms ++ ms') path := by
  obtain ⟨a, m, b, d, name, rfl, h2, h3⟩ := h
  exact ⟨a, m, b ++ ms', d, name, by simp, h2, h3⟩

theorem _root_.Securefs.Spec.MissingFile.later {same : Bytes → Bytes → Bool} {ms : List Moment} {path : Bytes} {fl : Bool} (h : MissingFile same ms path fl)
    (ms' : List Moment) : MissingFile same (ms ++ ms') path fl := by
  rcases h with h | ⟨h0, a, m, w, m', b, d, name, x, f, rfl, h2, h3, h4, h5, h6⟩
  · exact .inl (MissingName.later h ms')
  · exact .inr ⟨h0, a, m, w, m', b ++ ms', d, name, x, f, by simp, h2, h3, h4, h5, h6.later ms'⟩

theorem file_error {β : Type} {id : Bytes} {f : TimeSpec → Inode → Res β × Inode} {fs fs' : FullFs} {e : Err} (h : Sec.file id f fs = (.error e, fs')) :
    e = .vfs 2 ∨ ∃ n, fs.get id = some n ∧ (f fs.now n).1 = .error e := by
  unfold Sec.file at h
  cases hg : fs.get id with
  | none => rw [hg] at h; injection h with h1 _; injection h1 with h1; exact .inl h1.symm
  | some n => rw [hg] at h; injection h with h1 _; exact .inr ⟨n, rfl, h1⟩

theorem castAs_error {h : FH} {T : Nat} {n : Inode} {e : Err} (c : castAs h T n = .error e) : e = .vfs 1 := by
  unfold castAs at c
  split at c
  · injection c with c; exact c.symm
  · split at c
    · injection c with c; exact c.symm
    · cases c

theorem openAs_error {id : Bytes} {type : Nat} {fs fs' : FullFs} {e : Err} (h : secOpenAs id type fs = (.error e, fs')) :
    e = .vfs 2 ∨ e = .runtime := by
  unfold secOpenAs at h
  split at h
  · split at h
    · injection h with h1 _; injection h1 with h1; exact .inr h1.symm
    · cases h
  · split at h
    · injection h with h1 _; injection h1 with h1; exact .inl h1.symm
    · split at h
      · cases h
      · injection h with h1 _; injection h1 with h1; exact .inr h1.symm

theorem openAs_ok {id : Bytes} {type : Nat} {fs fs' : FullFs} {h : FH} (e : secOpenAs id type fs = (.ok h, fs')) : h = ⟨id, type⟩ :=
  openAs_id (fs := fs) (by rw [e])

theorem get_error {cfg : FsCfg} {h : FH} {name : Bytes} {fs fs' : FullFs} {e : Err} (hh : secGet cfg h name fs = (.error e, fs')) : e ≠ .vfs 39 := by
  unfold secGet Sec.dir at hh
  rcases file_error hh with rfl | ⟨n, _, h1⟩
  · decide
  · revert h1
    cases hc : castAs h typeDirectory n with
    | error er => intro h1; injection h1 with h1; rw [← h1, castAs_error hc]; decide
    | ok u =>
      unfold Inode.getEntry
      dsimp only
      split
      · intro h1; injection h1 with h1; rw [← h1]; decide
      · intro h1; cases h1

theorem linkGet_error {cfg : FsCfg} {h : FH} {fs fs' : FullFs} {e : Err} (hh : secLinkGet cfg h fs = (.error e, fs')) : e ≠ .vfs 39 := by
  unfold secLinkGet at hh
  rcases file_error hh with rfl | ⟨n, _, h1⟩
  · decide
  · revert h1
    cases hc : castAs h typeSymlink n with
    | error er => intro h1; injection h1 with h1; rw [← h1, castAs_error hc]; decide
    | ok u => intro h1; cases h1

theorem linkGet_ok {cfg : FsCfg} {h : FH} {fs fs' : FullFs} {t : Bytes} (hh : secLinkGet cfg h fs = (.ok t, fs')) :
    ∃ f, viewOf fs h.id = some f ∧ f.data = t := by
  unfold secLinkGet Sec.file at hh
  cases hg : fs.get h.id with
  | none => rw [hg] at hh; cases hh
  | some n =>
    rw [hg] at hh
    dsimp only at hh
    cases hc : castAs h typeSymlink n with
    | error er => rw [hc] at hh; cases hh
    | ok u =>
      rw [hc] at hh
      injection hh with h1 _
      injection h1 with h1
      exact ⟨viewFile n, by unfold viewOf; rw [hg]; rfl, h1⟩

theorem getParent_ok {h : FH} {fs fs' : FullFs} {t : Bytes} (hh : secGetParent h fs = (.ok t, fs')) : ∃ n, fs.get h.id = some n ∧ n.parent = t := by
  unfold secGetParent Sec.file at hh
  cases hg : fs.get h.id with
  | none => rw [hg] at hh; cases hh
  | some n =>
    rw [hg] at hh
    injection hh with h1 _
    injection h1 with h1
    exact ⟨n, rfl, h1⟩

/-- What following components gives. -/
def WalkR (same : Bytes → Bytes → Bool) (d : Bytes) (l : List Bytes) (ms : List Moment) : Option (Res (Option FH)) → Prop
  | none => AllCalm same ms
  | some (.error e) => AllCalm same ms ∧ e ≠ .vfs 39
  | some (.ok none) => AllCalm same ms ∧ Nowhere same ms d l
  | some (.ok (some h)) => AllCalm same ms ∧ Leads same ms d l h.id

theorem WalkR.pre {same : Bytes → Bytes → Bool} {d c : Bytes} {l l' : List Bytes} {a ms : List Moment} {r : Option (Res (Option FH))}
    (ha : AllCalm same a) (hl : Leads same a d l c) (h : WalkR same c l' ms r) : WalkR same d (l ++ l') (a ++ ms) r :=
  match r, h with
  | none, h => allCalm_append ha h
  | some (.error _), h => ⟨allCalm_append ha h.1, h.2⟩
  | some (.ok none), h => ⟨allCalm_append ha h.1, .after hl h.2⟩
  | some (.ok (some _)), h => ⟨allCalm_append ha h.1, hl.trans h.2⟩

theorem always_walk (cfg : FsCfg) {rec : Bytes → FH → List Bytes → Prog (Option FH)}
    (hr : ∀ i h l, Always (rec i h l) (WalkR cfg.same h.id l)) : ∀ (l : List Bytes) (i : Bytes) (h : FH), Always (walk cfg rec i h l) (WalkR cfg.same h.id l)
  | [], i, h => ⟨allCalm_nil _, .here _⟩
  | s :: rest, i, h => by
    rw [walk]
    by_cases h1 : s = dotName
    · rw [if_pos h1]
      exact (always_walk cfg hr rest i h).mono fun ms r hw => WalkR.pre (l := [s]) (a := []) (allCalm_nil _) (by subst h1; exact .dot (.here _)) hw
    · rw [if_neg h1]
      by_cases h2 : s = dotDotName
      · rw [if_pos h2]
        refine Always.sec (allCalm_nil _) (fun fs e fs' hf => ?_) fun fs p fs' hf => ?_
        · refine ⟨allCalm_cons ((calm_getParent _ _).at hf) (allCalm_nil _), ?_⟩
          rcases file_error hf with rfl | ⟨n, _, h3⟩
          · decide
          · cases h3
        · have c1 := (calm_getParent cfg.same h).at hf
          obtain ⟨n, hn, rfl⟩ := getParent_ok hf
          refine Always.sec (allCalm_cons c1 (allCalm_nil _)) (fun fs2 e fs2' hf2 => ?_) fun fs2 g fs2' hf2 => ?_
          · refine ⟨allCalm_cons c1 (allCalm_cons ((calm_openAs _ _ _).at hf2) (allCalm_nil _)), ?_⟩
            rcases openAs_error hf2 with rfl | rfl <;> decide
          · have c2 := (calm_openAs cfg.same _ _).at hf2
            have := openAs_ok hf2
            subst this
            refine (always_walk cfg hr rest _ _).mono fun ms r hw => ?_
            exact WalkR.pre (a := [(fs, fs'), (fs2, fs2')]) (l := [s]) (allCalm_cons c1 (allCalm_cons c2 (allCalm_nil _)))
              (by subst h2; exact .up (fs, fs') hn (.wait _ (.here _))) hw
      · rw [if_neg h2]
        have hds : s ≠ [46] ∧ s ≠ [46, 46] := ⟨h1, h2⟩
        refine Always.sec (allCalm_nil _) (fun fs e fs' hf => ?_) fun fs found fs' hf => ?_
        · exact ⟨allCalm_cons ((calm_get _ _ _).at hf) (allCalm_nil _), get_error hf⟩
        · have c1 := (calm_get cfg h s).at hf
          have hx := getEntry_names hf
          cases found with
          | none => exact ⟨allCalm_cons c1 (allCalm_nil _), .gone _ hds hx⟩
          | some e =>
            dsimp only
            refine Always.sec (allCalm_cons c1 (allCalm_nil _)) (fun fs2 er fs2' hf2 => ?_) fun fs2 g fs2' hf2 => ?_
            · refine ⟨allCalm_cons c1 (allCalm_cons ((calm_openAs _ _ _).at hf2) (allCalm_nil _)), ?_⟩
              rcases openAs_error hf2 with rfl | rfl <;> decide
            · have c2 := (calm_openAs cfg.same _ _).at hf2
              have := openAs_ok hf2
              subst this
              refine Always.sec (allCalm_cons c1 (allCalm_cons c2 (allCalm_nil _))) (fun fs3 er fs3' hf3 => ?_) fun fs3 g fs3' hf3 => ?_
              · refine ⟨allCalm_cons c1 (allCalm_cons c2 (allCalm_cons ((calm_setParent _ _ _).at hf3) (allCalm_nil _))), ?_⟩
                rcases file_error hf3 with rfl | ⟨n, _, h3⟩
                · decide
                · cases h3
              · have c3 := (calm_setParent cfg.same _ _).at hf3
                have c123 := allCalm_cons c1 (allCalm_cons c2 (allCalm_cons c3 (allCalm_nil _)))
                by_cases ht : e.type = typeSymlink
                · rw [if_pos ht]
                  refine Always.sec c123 (fun fs4 er fs4' hf4 => ?_) fun fs4 t fs4' hf4 => ?_
                  · exact ⟨allCalm_cons c1 (allCalm_cons c2 (allCalm_cons c3 (allCalm_cons ((calm_linkGet _ _ _).at hf4) (allCalm_nil _)))), linkGet_error hf4⟩
                  · have c4 := (calm_linkGet cfg.same cfg _).at hf4
                    have c1234 := allCalm_cons c1 (allCalm_cons c2 (allCalm_cons c3 (allCalm_cons c4 (allCalm_nil _))))
                    obtain ⟨f, hv, rfl⟩ := linkGet_ok hf4
                    rw [splitPath_eq]
                    refine Always.bind (hr i h (parts f.data)) (fun ms r hw => ?_) (fun ms er hw => ?_) (fun ms hw => ?_)
                    · cases r with
                      | none =>
                        refine ⟨allCalm_append c1234 (allCalm_append hw.1 (allCalm_nil _)), ?_⟩
                        exact .link (fs, fs') [(fs2, fs2'), (fs3, fs3')] (fs4, fs4') hds hx ht hv (hw.2.later [])
                      | some c =>
                        refine (always_walk cfg hr rest c.id c).mono fun ms' r hw' => ?_
                        have hl : Leads cfg.same ((fs, fs') :: ([(fs2, fs2'), (fs3, fs3')] ++ (fs4, fs4') :: (ms ++ []))) h.id [s] c.id :=
                          .link (fs, fs') [(fs2, fs2'), (fs3, fs3')] (fs4, fs4') hds hx ht hv hw.2 (.here _)
                        have := WalkR.pre (l := [s]) (a := (fs, fs') :: ([(fs2, fs2'), (fs3, fs3')] ++ (fs4, fs4') :: (ms ++ [])))
                          (by rw [List.append_nil]; exact allCalm_append c1234 hw.1) hl hw'
                        rw [List.append_nil] at this
                        exact this
                    · exact ⟨allCalm_append c1234 hw.1, hw.2⟩
                    · exact allCalm_append c1234 hw
                · rw [if_neg ht]
                  refine (always_walk cfg hr rest _ _).mono fun ms r hw => ?_
                  exact WalkR.pre (a := [(fs, fs'), (fs2, fs2'), (fs3, fs3')]) (l := [s]) c123
                    (.into (fs, fs') hds hx ht (.wait _ (.wait _ (.here _)))) hw

theorem always_genericOpen (cfg : FsCfg) : ∀ (d : Nat) (i : Bytes) (h : FH) (l : List Bytes), Always (genericOpen cfg d i h l) (WalkR cfg.same h.id l)
  | 0, _, _, _ => ⟨allCalm_nil _, by decide⟩
  | d + 1, i, h, l => always_walk cfg (always_genericOpen cfg d) l i h

/-- What `open_base` gives. -/
def BaseR (same : Bytes → Bytes → Bool) (path : Bytes) (ms : List Moment) : Option (Res (FH × Bytes)) → Prop
  | none => AllCalm same ms
  | some (.error e) => AllCalm same ms ∧ e ≠ .vfs 39
  | some (.ok x) => AllCalm same ms ∧ LedTo same ms path x.1.id x.2

theorem always_openBase (cfg : FsCfg) (path : Bytes) : Always (openBase cfg path) (BaseR cfg.same path) := by
  unfold openBase
  refine Always.sec (allCalm_nil _) (fun fs e fs' hf => ?_) fun fs root fs' hf => ?_
  · refine ⟨allCalm_cons ((calm_openAs _ _ _).at hf) (allCalm_nil _), ?_⟩
    rcases openAs_error hf with rfl | rfl <;> decide
  · have c1 := (calm_openAs cfg.same _ _).at hf
    have c := allCalm_cons c1 (allCalm_nil _)
    have := openAs_ok hf
    subst this
    rw [splitPath_eq]
    cases hl : (parts path).getLast? with
    | none =>
      rw [List.getLast?_eq_none_iff] at hl
      exact ⟨c, .inl ⟨hl, rfl, rfl⟩⟩
    | some last =>
      dsimp only
      obtain ⟨l, hl'⟩ := List.getLast?_eq_some_iff.mp hl
      by_cases h1 : (parts path).length = 1
      · rw [if_pos h1]
        refine ⟨c, .inr ⟨l, hl', ?_⟩⟩
        have : l = [] := by
          rw [hl', List.length_append] at h1
          exact List.length_eq_zero_iff.mp (by simpa using h1)
        subst this
        exact Leads.waits _ _
      · rw [if_neg h1]
        have hdl : (parts path).dropLast = l := by rw [hl', List.dropLast_concat]
        rw [hdl]
        refine Always.bind (always_genericOpen cfg maxDepth kRootId _ l) (fun ms r hw => ?_) (fun ms e hw => ?_) (fun ms hw => ?_)
        · cases r with
          | none => exact ⟨allCalm_cons c1 (allCalm_append hw.1 (allCalm_nil _)), by decide⟩
          | some d =>
            refine ⟨allCalm_cons c1 (allCalm_append hw.1 (allCalm_nil _)), .inr ⟨l, hl', ?_⟩⟩
            rw [List.append_nil]
            exact .wait _ hw.2
        · exact ⟨allCalm_cons c1 hw.1, hw.2⟩
        · exact allCalm_cons c1 hw

/-- What `open_all` gives. -/
def AllR (same : Bytes → Bytes → Bool) (path : Bytes) (fl : Bool) (ms : List Moment) : Option (Res (Option FH)) → Prop
  | none => AllCalm same ms
  | some (.error _) => AllCalm same ms
  | some (.ok none) => AllCalm same ms ∧ MissingFile same ms path fl
  | some (.ok (some h)) => AllCalm same ms ∧ FoundFile same ms path fl h.id

theorem always_openAll (cfg : FsCfg) (path : Bytes) (fl : Bool) : Always (openAll cfg path fl) (AllR cfg.same path fl) := by
  unfold openAll
  by_cases hp : path = [] ∨ path = [slash]
  · rw [if_pos hp]
    refine Always.sec (allCalm_nil _) (fun fs e fs' hf => ?_) fun fs root fs' hf => ?_
    · exact allCalm_cons ((calm_openAs _ _ _).at hf) (allCalm_nil _)
    · have := openAs_ok hf
      subst this
      exact ⟨allCalm_cons ((calm_openAs _ _ _).at hf) (allCalm_nil _), .inl ⟨hp, rfl⟩⟩
  · rw [if_neg hp]
    refine Always.bind (always_openBase cfg path) (fun a x hb => ?_) (fun ms e hb => hb.1) (fun ms hb => hb)
    obtain ⟨base, last⟩ := x
    obtain ⟨ca, hled⟩ := hb
    dsimp only at hled ⊢
    refine Always.sec (by rw [List.append_nil]; exact ca) (fun fs e fs' hf => ?_) fun fs found fs' hf => ?_
    · exact allCalm_append ca (allCalm_cons ((calm_get _ _ _).at hf) (allCalm_nil _))
    · have c1 := (calm_get cfg _ _).at hf
      have hx := getEntry_names hf
      cases found with
      | none => exact ⟨allCalm_append ca (allCalm_cons c1 (allCalm_nil _)), .inl ⟨a, (fs, fs'), [], base.id, last, rfl, hled, hx⟩⟩
      | some e =>
        dsimp only
        refine Always.sec (allCalm_append ca (allCalm_cons c1 (allCalm_nil _))) (fun fs2 er fs2' hf2 => ?_) fun fs2 g fs2' hf2 => ?_
        · exact allCalm_append ca (allCalm_cons c1 (allCalm_cons ((calm_openAs _ _ _).at hf2) (allCalm_nil _)))
        · have c2 := (calm_openAs cfg.same _ _).at hf2
          have := openAs_ok hf2
          subst this
          refine Always.sec (allCalm_append ca (allCalm_cons c1 (allCalm_cons c2 (allCalm_nil _)))) (fun fs3 er fs3' hf3 => ?_) fun fs3 g fs3' hf3 => ?_
          · exact allCalm_append ca (allCalm_cons c1 (allCalm_cons c2 (allCalm_cons ((calm_setParent _ _ _).at hf3) (allCalm_nil _))))
          · have c3 := (calm_setParent cfg.same _ _).at hf3
            have c123 := allCalm_append ca (allCalm_cons c1 (allCalm_cons c2 (allCalm_cons c3 (allCalm_nil _))))
            by_cases ht : fl = true ∧ e.type = typeSymlink
            · rw [if_pos ht]
              refine Always.sec c123 (fun fs4 er fs4' hf4 => ?_) fun fs4 t fs4' hf4 => ?_
              · exact allCalm_append ca (allCalm_cons c1 (allCalm_cons c2 (allCalm_cons c3 (allCalm_cons ((calm_linkGet _ _ _).at hf4) (allCalm_nil _)))))
              · have c4 := (calm_linkGet cfg.same cfg _).at hf4
                obtain ⟨f, hv, rfl⟩ := linkGet_ok hf4
                rw [splitPath_eq]
                refine (always_genericOpen cfg maxDepth base.id base (parts f.data)).mono fun ms r hw => ?_
                have call : ∀ {ms}, AllCalm cfg.same ms → AllCalm cfg.same (a ++ (fs, fs') :: (fs2, fs2') :: (fs3, fs3') :: (fs4, fs4') :: ms) := fun h =>
                  allCalm_append ca (allCalm_cons c1 (allCalm_cons c2 (allCalm_cons c3 (allCalm_cons c4 h))))
                match r, hw with
                | none, hw => exact call hw
                | some (.error _), hw => exact call hw.1
                | some (.ok none), hw =>
                  exact ⟨call hw.1, .inr ⟨ht.1, a, (fs, fs'), [(fs2, fs2'), (fs3, fs3')], (fs4, fs4'), ms, base.id, last, _, f, rfl, hled, hx, ht.2, hv, hw.2⟩⟩
                | some (.ok (some h)), hw =>
                  exact ⟨call hw.1, .inr ⟨a, (fs, fs'), _, base.id, last, _, rfl, hled, hx,
                    .inr ⟨ht.1, ht.2, [(fs2, fs2'), (fs3, fs3')], (fs4, fs4'), ms, f, rfl, hv, hw.2⟩⟩⟩
            · rw [if_neg ht]
              refine ⟨c123, .inr ⟨a, (fs, fs'), _, base.id, last, _, rfl, hled, hx, .inl ⟨?_, rfl⟩⟩⟩
              by_cases hfl : fl = true
              · exact .inr fun c => ht ⟨hfl, c⟩
              · exact .inl (by simpa using hfl)

end Securefs.Mo
