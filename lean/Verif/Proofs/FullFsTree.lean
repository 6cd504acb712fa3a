import Verif.Proofs.FullFsOps
import Verif.Proofs.FullFsConc
/-!
# The directories stay a tree
-/

namespace Securefs

open Spec

/-! ## Trees under changes of the names -/

theorem Spec.DirTree.upd {A : AFs} (ht : DirTree A) {d : Bytes} {f g : AFile} (hd : A d = some f) (hk : g.kind = f.kind)
    (he : g.entries = f.entries) : DirTree (updA A d g) := by
  have hback : ∀ x h, updA A d g x = some h → ∃ h0, A x = some h0 ∧ h.kind = h0.kind ∧ h.entries = h0.entries := by
    intro x h hx
    by_cases hxd : x = d
    · rw [hxd, updA_self] at hx
      injection hx with hx
      subst hx
      exact ⟨f, by rw [hxd]; exact hd, hk, he⟩
    · rw [updA_ne _ _ hxd] at hx
      exact ⟨h, hx, rfl, rfl⟩
  have hfwd : ∀ x h0, A x = some h0 → ∃ h, updA A d g x = some h ∧ h.kind = h0.kind := by
    intro x h0 hx
    by_cases hxd : x = d
    · rw [hxd, updA_self]
      rw [hxd, hd] at hx
      injection hx with hx
      subst hx
      exact ⟨g, rfl, hk⟩
    · rw [updA_ne _ _ hxd]
      exact ⟨h0, hx, rfl⟩
  constructor
  · obtain ⟨r, hr, hrk⟩ := ht.root
    obtain ⟨h, hh, hhk⟩ := hfwd _ _ hr
    exact ⟨h, hh, hhk.trans hrk⟩
  · intro x h e hx hem
    obtain ⟨h0, h1, _, h3⟩ := hback x h hx
    obtain ⟨a, b, k, hk1, hk2⟩ := ht.entry x h0 e h1 (by rw [← h3]; exact hem)
    obtain ⟨k', hk1', hk2'⟩ := hfwd _ _ hk1
    exact ⟨a, b, k', hk1', hk2'.trans hk2⟩
  · intro x h hx hne
    obtain ⟨h0, h1, h2, h3⟩ := hback x h hx
    rw [h3]
    exact ht.dirs x h0 h1 (by rw [← h2]; exact hne)
  · intro x x' h h' e e' hx hx' hem hem' hid hty
    obtain ⟨h0, h1, _, h3⟩ := hback x h hx
    obtain ⟨h0', h1', _, h3'⟩ := hback x' h' hx'
    exact ht.once x x' h0 h0' e e' h1 h1' (by rw [← h3]; exact hem) (by rw [← h3']; exact hem') hid hty

theorem remName_back {same : Bytes → Bytes → Bool} {A : AFs} {d a x : Bytes} {h : AFile} (hx : remName same A d a x = some h) :
    ∃ h0, A x = some h0 ∧ h.kind = h0.kind ∧ ∀ e ∈ h.entries, e ∈ h0.entries := by
  cases hd : A d with
  | none => unfold remName at hx; rw [hd] at hx; exact ⟨h, hx, rfl, fun _ h => h⟩
  | some f =>
    rw [remName_eq hd] at hx
    by_cases hxd : x = d
    · rw [hxd, updA_self] at hx
      injection hx with hx
      subst hx
      exact ⟨f, by rw [hxd]; exact hd, rfl, fun e he => (List.mem_filter.mp he).1⟩
    · rw [updA_ne _ _ hxd] at hx
      exact ⟨h, hx, rfl, fun _ h => h⟩

theorem remName_fwd {same : Bytes → Bytes → Bool} {A : AFs} (d a : Bytes) {x : Bytes} {h : AFile} (hx : A x = some h) :
    ∃ h0, remName same A d a x = some h0 ∧ h0.kind = h.kind := by
  cases hd : A d with
  | none => unfold remName; rw [hd]; exact ⟨h, hx, rfl⟩
  | some f =>
    rw [remName_eq hd]
    by_cases hxd : x = d
    · rw [hxd, updA_self]
      rw [hxd, hd] at hx
      injection hx with hx
      subst hx
      exact ⟨_, rfl, rfl⟩
    · rw [updA_ne _ _ hxd]
      exact ⟨h, hx, rfl⟩

theorem Spec.DirTree.rem {A : AFs} (ht : DirTree A) (same : Bytes → Bytes → Bool) (d a : Bytes) : DirTree (remName same A d a) := by
  constructor
  · obtain ⟨r, hr, hrk⟩ := ht.root
    obtain ⟨h, hh, hhk⟩ := remName_fwd (same := same) d a hr
    exact ⟨h, hh, hhk.trans hrk⟩
  · intro x h e hx hem
    obtain ⟨h0, h1, _, h3⟩ := remName_back hx
    obtain ⟨p, q, k, hk1, hk2⟩ := ht.entry x h0 e h1 (h3 e hem)
    obtain ⟨k', hk1', hk2'⟩ := remName_fwd (same := same) d a hk1
    exact ⟨p, q, k', hk1', hk2'.trans hk2⟩
  · intro x h hx hne
    obtain ⟨h0, h1, h2, h3⟩ := remName_back hx
    have := ht.dirs x h0 h1 (by rw [← h2]; exact hne)
    cases he : h.entries with
    | nil => rfl
    | cons e l =>
      have := h3 e (by rw [he]; exact List.mem_cons_self)
      simp_all
  · intro x x' h h' e e' hx hx' hem hem' hid hty
    obtain ⟨h0, h1, _, h3⟩ := remName_back hx
    obtain ⟨h0', h1', _, h3'⟩ := remName_back hx'
    exact ht.once x x' h0 h0' e e' h1 h1' (h3 e hem) (h3' e' hem') hid hty

/-- A file that an entry may be made for. -/
structure Loose (A : AFs) (id : Bytes) (type : Nat) : Prop where
  noRoot : id ≠ kRootId
  typed : type ≠ 0
  obj : ∃ g, A id = some g ∧ g.kind = type
  free : type = 4 → ∀ d f e, A d = some f → e ∈ f.entries → e.id ≠ id

theorem Loose.rem {A : AFs} {id : Bytes} {type : Nat} (h : Loose A id type) (same : Bytes → Bytes → Bool) (d a : Bytes) :
    Loose (remName same A d a) id type := by
  refine ⟨h.noRoot, h.typed, ?_, ?_⟩
  · obtain ⟨g, hg, hk⟩ := h.obj
    obtain ⟨g', hg', hk'⟩ := remName_fwd (same := same) d a hg
    exact ⟨g', hg', hk'.trans hk⟩
  · intro h4 x f e hx he
    obtain ⟨f0, h1, _, h3⟩ := remName_back hx
    exact h.free h4 x f0 e h1 (h3 e he)

theorem addName_back {A : AFs} {d x : Bytes} {e : DirEntry} {h : AFile} (hx : addName A d e x = some h) :
    ∃ h0, A x = some h0 ∧ h.kind = h0.kind ∧ (h.entries = h0.entries ∨ (x = d ∧ h.entries = e :: h0.entries)) := by
  cases hd : A d with
  | none => unfold addName at hx; rw [hd] at hx; exact ⟨h, hx, rfl, .inl rfl⟩
  | some f =>
    rw [addName_eq hd] at hx
    by_cases hxd : x = d
    · rw [hxd, updA_self] at hx
      injection hx with hx
      subst hx
      exact ⟨f, by rw [hxd]; exact hd, rfl, .inr ⟨hxd, rfl⟩⟩
    · rw [updA_ne _ _ hxd] at hx
      exact ⟨h, hx, rfl, .inl rfl⟩

theorem addName_fwd {A : AFs} (d : Bytes) (e : DirEntry) {x : Bytes} {h : AFile} (hx : A x = some h) :
    ∃ h0, addName A d e x = some h0 ∧ h0.kind = h.kind := by
  cases hd : A d with
  | none => unfold addName; rw [hd]; exact ⟨h, hx, rfl⟩
  | some f =>
    rw [addName_eq hd]
    by_cases hxd : x = d
    · rw [hxd, updA_self]
      rw [hxd, hd] at hx
      injection hx with hx
      subst hx
      exact ⟨_, rfl, rfl⟩
    · rw [updA_ne _ _ hxd]
      exact ⟨h, hx, rfl⟩

theorem Loose.add {A : AFs} {id : Bytes} {type : Nat} (h : Loose A id type) (h4 : type ≠ 4) (d : Bytes) (e : DirEntry) :
    Loose (addName A d e) id type := by
  refine ⟨h.noRoot, h.typed, ?_, fun h => absurd h h4⟩
  obtain ⟨g, hg, hk⟩ := h.obj
  obtain ⟨g', hg', hk'⟩ := addName_fwd d e hg
  exact ⟨g', hg', hk'.trans hk⟩

theorem Spec.DirTree.add {A : AFs} (ht : DirTree A) {d : Bytes} {f : AFile} (hd : A d = some f) (hk : f.kind = 4) {e : DirEntry}
    (he : Loose A e.id e.type) : DirTree (addName A d e) := by
  have hold : ∀ x h y, addName A d e x = some h → y ∈ h.entries → (∃ h0, A x = some h0 ∧ y ∈ h0.entries) ∨ (x = d ∧ y = e) := by
    intro x h y hx hy
    obtain ⟨h0, h1, _, h3⟩ := addName_back hx
    rcases h3 with h3 | ⟨hxd, h3⟩
    · exact .inl ⟨h0, h1, by rw [← h3]; exact hy⟩
    · rw [h3] at hy
      rcases List.mem_cons.mp hy with hy | hy
      · exact .inr ⟨hxd, hy⟩
      · exact .inl ⟨h0, h1, hy⟩
  constructor
  · obtain ⟨r, hr, hrk⟩ := ht.root
    obtain ⟨h, hh, hhk⟩ := addName_fwd d e hr
    exact ⟨h, hh, hhk.trans hrk⟩
  · intro x h y hx hy
    rcases hold x h y hx hy with ⟨h0, h1, h2⟩ | ⟨_, rfl⟩
    · obtain ⟨p, q, k, hk1, hk2⟩ := ht.entry x h0 y h1 h2
      obtain ⟨k', hk1', hk2'⟩ := addName_fwd d e hk1
      exact ⟨p, q, k', hk1', hk2'.trans hk2⟩
    · obtain ⟨k, hk1, hk2⟩ := he.obj
      obtain ⟨k', hk1', hk2'⟩ := addName_fwd d y hk1
      exact ⟨he.noRoot, he.typed, k', hk1', hk2'.trans hk2⟩
  · intro x h hx hne
    obtain ⟨h0, h1, h2, h3⟩ := addName_back hx
    have h0e := ht.dirs x h0 h1 (by rw [← h2]; exact hne)
    rcases h3 with h3 | ⟨hxd, _⟩
    · rw [h3, h0e]
    · rw [hxd, hd] at h1
      injection h1 with h1
      rw [← h1] at h2
      exact absurd (h2.trans hk) hne
  · intro x x' h h' y y' hx hx' hy hy' hid hty
    rcases hold x h y hx hy with ⟨h0, h1, h2⟩ | ⟨hxd, hye⟩
    · rcases hold x' h' y' hx' hy' with ⟨h0', h1', h2'⟩ | ⟨hxd', hye'⟩
      · exact ht.once x x' h0 h0' y y' h1 h1' h2 h2' hid hty
      · subst hye'
        have hty' : y'.type = 4 := by
          obtain ⟨_, _, k, hk1, hk2⟩ := ht.entry x h0 y h1 h2
          obtain ⟨k', hk1', hk2'⟩ := he.obj
          rw [hid, hk1'] at hk1
          injection hk1 with hk1
          rw [← hk2', hk1, hk2, hty]
        exact absurd hid (he.free hty' x h0 y h1 h2)
    · rcases hold x' h' y' hx' hy' with ⟨h0', h1', h2'⟩ | ⟨hxd', hye'⟩
      · subst hye
        exact absurd hid.symm (he.free hty x' h0' y' h1' h2')
      · exact ⟨by rw [hxd, hxd'], by rw [hye, hye']⟩

/-- A name that was removed leaves a file that a name may be made for. -/
theorem loose_removed {A : AFs} (ht : DirTree A) {same : Bytes → Bytes → Bool} {d name : Bytes} {f : AFile} (hd : A d = some f)
    {e : DirEntry} (he : f.entries.find? (fun x => same name x.name) = some e) : Loose (remName same A d name) e.id e.type := by
  have hmem := List.mem_of_find?_eq_some he
  have hsame : same name e.name = true := by have := List.find?_some he; simpa using this
  obtain ⟨h1, h2, g, hg, hk⟩ := ht.entry d f e hd hmem
  refine ⟨h1, h2, ?_, ?_⟩
  · obtain ⟨g', hg', hk'⟩ := remName_fwd (same := same) d name hg
    exact ⟨g', hg', hk'.trans hk⟩
  · intro h4 x h y hx hy hid
    obtain ⟨h0, k1, _, k3⟩ := remName_back hx
    obtain ⟨hdx, hey⟩ := ht.once d x f h0 e y hd k1 hmem (k3 y hy) hid.symm h4
    subst hdx hey
    rw [remName_eq hd, updA_self] at hx
    injection hx with hx
    subst hx
    have := (List.mem_filter.mp hy).2
    rw [hsame] at this
    cases this

theorem Spec.DirTree.create {A : AFs} (ht : DirTree A) {id : Bytes} (hn : A id = none) {f : AFile} (hf : f.entries = []) :
    DirTree (updA A id f) ∧ ∀ d g e, updA A id f d = some g → e ∈ g.entries → e.id ≠ id := by
  have hback : ∀ x h e, updA A id f x = some h → e ∈ h.entries → A x = some h := by
    intro x h e hx he
    by_cases hxd : x = id
    · rw [hxd, updA_self] at hx
      injection hx with hx
      subst hx
      rw [hf] at he
      cases he
    · rwa [updA_ne _ _ hxd] at hx
  have hne : ∀ x h, A x = some h → x ≠ id := by
    intro x h hx hc
    rw [hc, hn] at hx; cases hx
  refine ⟨⟨?_, ?_, ?_, ?_⟩, ?_⟩
  · obtain ⟨r, hr, hrk⟩ := ht.root
    exact ⟨r, by rw [updA_ne _ _ (hne _ _ hr)]; exact hr, hrk⟩
  · intro x h e hx he
    obtain ⟨p, q, k, hk1, hk2⟩ := ht.entry x h e (hback x h e hx he) he
    exact ⟨p, q, k, by rw [updA_ne _ _ (hne _ _ hk1)]; exact hk1, hk2⟩
  · intro x h hx hk
    by_cases hxd : x = id
    · rw [hxd, updA_self] at hx
      injection hx with hx
      subst hx
      exact hf
    · rw [updA_ne _ _ hxd] at hx
      exact ht.dirs x h hx hk
  · intro x x' h h' e e' hx hx' he he' hid hty
    exact ht.once x x' h h' e e' (hback x h e hx he) (hback x' h' e' hx' he') he he' hid hty
  · intro x h e hx he hc
    obtain ⟨_, _, k, hk1, _⟩ := ht.entry x h e (hback x h e hx he) he
    rw [hc, hn] at hk1; cases hk1

/-! ## Sections, whatever object they are applied to -/

theorem castAs_kind {h : FH} {n : Inode} (e : castAs h typeDirectory n = .ok ()) : (viewFile n).kind = 4 := by
  have hc := castAs_cls e
  unfold castAs at e
  by_cases h1 : modeForType h.cls ≠ n.attr.mode &&& sIfmt
  · rw [if_pos h1] at e; cases e
  · rw [not_not] at h1
    rw [hc] at h1
    unfold AFile.kind viewFile
    dsimp only
    rw [if_pos]
    have hs : sIfmt = 0xf000 := rfl
    rw [hs] at h1
    rw [← h1]
    decide

theorem remove_any (cfg : FsCfg) (h : FH) (name : Bytes) (fs : FullFs) :
    Quiet fs (secRemove cfg h name fs).2 ∧
    ((∃ e, (secRemove cfg h name fs).1 = .error e ∧ viewOf (secRemove cfg h name fs).2 = viewOf fs) ∨
     (∃ f, viewOf fs h.id = some f ∧ f.kind = 4 ∧ (secRemove cfg h name fs).1 = .ok (f.entries.find? fun x => cfg.same name x.name) ∧
       viewOf (secRemove cfg h name fs).2 = remName cfg.same (viewOf fs) h.id name)) := by
  unfold secRemove
  rcases dir_cases h (fun now n => n.removeEntry cfg now name) fs with ⟨er, he⟩ | ⟨er, n, hg, he⟩ | ⟨n, hg, hc, he⟩
  · rw [he]; exact ⟨⟨fun h => h, rfl, rfl⟩, .inl ⟨er, rfl, rfl⟩⟩
  · rw [he]; exact ⟨quiet_set hg rfl, .inl ⟨er, rfl, view_set_same hg rfl⟩⟩
  · rw [he]
    unfold Inode.removeEntry
    dsimp only
    by_cases hl : name.length > 255
    · rw [if_pos hl]
      exact ⟨quiet_set hg rfl, .inl ⟨_, rfl, view_set_same hg (view_touchMtime cfg _ n)⟩⟩
    · rw [if_neg hl]
      have hv : viewOf fs h.id = some (viewFile n) := view_of_get hg
      refine ⟨quiet_set hg (by rfl), .inr ⟨viewFile n, hv, castAs_kind hc, rfl, ?_⟩⟩
      rw [view_set hg, remName_eq hv]
      dsimp only
      rw [viewFile_without]
      rfl

theorem add_any (cfg : FsCfg) (h : FH) (e : DirEntry) (fs : FullFs) :
    Quiet fs (secAdd cfg h e fs).2 ∧
    (((∀ b, (secAdd cfg h e fs).1 = .ok b → b = false) ∧ viewOf (secAdd cfg h e fs).2 = viewOf fs) ∨
     (∃ f, viewOf fs h.id = some f ∧ f.kind = 4 ∧ (secAdd cfg h e fs).1 = .ok true ∧
       viewOf (secAdd cfg h e fs).2 = addName (viewOf fs) h.id e)) := by
  unfold secAdd
  rcases dir_cases h (fun now n => n.addEntry cfg now e) fs with ⟨er, he⟩ | ⟨er, n, hg, he⟩ | ⟨n, hg, hc, he⟩
  · rw [he]; exact ⟨⟨fun h => h, rfl, rfl⟩, .inl ⟨fun b hb => (by cases hb), rfl⟩⟩
  · rw [he]; exact ⟨quiet_set hg rfl, .inl ⟨fun b hb => (by cases hb), view_set_same hg rfl⟩⟩
  · rw [he]
    unfold Inode.addEntry
    dsimp only
    by_cases hl : e.name.length > 255
    · rw [if_pos hl]
      exact ⟨quiet_set hg rfl, .inl ⟨fun b hb => (by cases hb), view_set_same hg (view_touchMtime cfg _ n)⟩⟩
    · rw [if_neg hl]
      by_cases ha : n.entries.any (fun x => cfg.same e.name x.name) = true
      · rw [if_pos ha]
        exact ⟨quiet_set hg rfl, .inl ⟨fun b hb => (by cases hb; rfl), view_set_same hg (view_touchMtime cfg _ n)⟩⟩
      · rw [if_neg ha]
        have hv : viewOf fs h.id = some (viewFile n) := view_of_get hg
        refine ⟨quiet_set hg (by rfl), .inr ⟨viewFile n, hv, castAs_kind hc, rfl, ?_⟩⟩
        rw [view_set hg, addName_eq hv]
        dsimp only
        rw [viewFile_plus]
        rfl

/-! ## A logic for programs that run alone -/

/-- The tree and the parent of the root. -/
structure TreeInv (fs : FullFs) : Prop where
  tree : DirTree (viewOf fs)
  root : RootParent fs

theorem TreeInv.calm {fs fs' : FullFs} (h : TreeInv fs) (hc : Calm fs fs') : TreeInv fs' := ⟨by rw [hc.view]; exact h.tree, hc.root h.root⟩

/-- From `P` the program keeps the tree, and returns with `Q`. -/
def Hoare {α : Type} (P : FullFs → Prop) (p : Prog α) (Q : α → FullFs → Prop) : Prop :=
  ∀ fs, P fs → TreeInv (p.run fs).2 ∧ ∀ a, (p.run fs).1 = .ok a → Q a (p.run fs).2

theorem Hoare.bind {α β : Type} {P : FullFs → Prop} {p : Prog α} {Q : α → FullFs → Prop} {g : α → Prog β} {R : β → FullFs → Prop}
    (hp : Hoare P p Q) (hg : ∀ a, Hoare (Q a) (g a) R) : Hoare P (p.bind g) R := by
  intro fs h
  obtain ⟨h1, h2⟩ := hp fs h
  rw [run_bind]
  revert h1 h2
  generalize p.run fs = out
  obtain ⟨o, fs1⟩ := out
  intro h1 h2
  cases o with
  | error e => exact ⟨h1, fun a ha => by cases ha⟩
  | ok a => exact hg a fs1 (h2 a rfl)

/-- The same for a section. -/
def HoareS {α : Type} (P : FullFs → Prop) (f : Sec α) (Q : α → FullFs → Prop) : Prop :=
  ∀ fs, P fs → TreeInv (f fs).2 ∧ ∀ a, (f fs).1 = .ok a → Q a (f fs).2

theorem HoareS.bind {α β : Type} {P : FullFs → Prop} {p : Sec α} {Q : α → FullFs → Prop} {g : α → Sec β} {R : β → FullFs → Prop}
    (hp : HoareS P p Q) (hg : ∀ a, HoareS (Q a) (g a) R) : HoareS P (Sec.bind p g) R := by
  intro fs h
  obtain ⟨h1, h2⟩ := hp fs h
  unfold Sec.bind
  revert h1 h2
  generalize p fs = out
  obtain ⟨o, fs1⟩ := out
  intro h1 h2
  cases o with
  | error e => exact ⟨h1, fun a ha => by cases ha⟩
  | ok a => exact hg a fs1 (h2 a rfl)

theorem HoareS.pure {α : Type} (a : α) {P : FullFs → Prop} (h : ∀ fs, P fs → TreeInv fs) : HoareS P (Sec.pure a) fun _ => P :=
  fun fs hP => ⟨h fs hP, fun _ _ => hP⟩

theorem HoareS.post {α : Type} {P : FullFs → Prop} {p : Sec α} {Q Q' : α → FullFs → Prop} (h : HoareS P p Q)
    (hq : ∀ a fs, Q a fs → Q' a fs) : HoareS P p Q' := fun fs hP => ⟨(h fs hP).1, fun a ha => hq a _ ((h fs hP).2 a ha)⟩

theorem HoareS.one {α : Type} {P : FullFs → Prop} {f : Sec α} {Q : α → FullFs → Prop} (h : HoareS P f Q) : Hoare P (Prog.one f) Q := by
  intro fs hP
  have := h fs hP
  rw [run_one]
  exact this

theorem Hoare.ret {α : Type} (a : α) {P : FullFs → Prop} (h : ∀ fs, P fs → TreeInv fs) : Hoare P (Prog.ret a) fun _ => P :=
  fun fs hP => ⟨h fs hP, fun _ _ => hP⟩

theorem Hoare.throw {α : Type} (e : Err) {P : FullFs → Prop} {Q : α → FullFs → Prop} (h : ∀ fs, P fs → TreeInv fs) :
    Hoare P (Prog.throw e : Prog α) Q := fun fs hP => ⟨h fs hP, fun a ha => by cases ha⟩

theorem Hoare.post {α : Type} {P : FullFs → Prop} {p : Prog α} {Q Q' : α → FullFs → Prop} (h : Hoare P p Q)
    (hq : ∀ a fs, Q a fs → Q' a fs) : Hoare P p Q' := fun fs hP => ⟨(h fs hP).1, fun a ha => hq a _ ((h fs hP).2 a ha)⟩

/-- The tree, and something known of the view. -/
def TV (V : AFs → Prop) (fs : FullFs) : Prop := TreeInv fs ∧ V (viewOf fs)

theorem TV.inv {V : AFs → Prop} : ∀ fs, TV V fs → TreeInv fs := fun _ h => h.1

theorem hoare_openBase (cfg : FsCfg) (path : Bytes) (V : AFs → Prop) : Hoare (TV V) (openBase cfg path) fun _ => TV V := by
  intro fs h
  have hc := (openBase_agrees (cfg := cfg) h.1.tree h.1.root path).1
  exact ⟨h.1.calm hc, fun a _ => ⟨h.1.calm hc, by rw [hc.view]; exact h.2⟩⟩

theorem hoare_openAll (cfg : FsCfg) (path : Bytes) (follow : Bool) (A : AFs) :
    Hoare (TV (· = A)) (openAll cfg path follow) fun r fs => TV (· = A) fs ∧
      ∀ h, r = some h → ∃ p f, resolvePath cfg.same A path follow = .ok (some p) ∧ h.id = p.1 ∧ A h.id = some f ∧ f.kind = h.cls ∧ GoodCls h.cls := by
  intro fs h
  have hag := openAll_agrees (cfg := cfg) h.1.tree h.1.root path follow
  obtain ⟨hti, hv⟩ := h
  subst hv
  obtain ⟨hc, hres⟩ := hag
  refine ⟨hti.calm hc, ?_⟩
  intro a ha
  refine ⟨⟨hti.calm hc, hc.view⟩, ?_⟩
  rintro k rfl
  cases hr : resolvePath cfg.same (viewOf fs) path follow with
  | error e => rw [hr] at hres; dsimp only at hres; rw [ha] at hres; cases hres
  | ok o =>
    cases o with
    | none => rw [hr] at hres; dsimp only at hres; rw [ha] at hres; cases hres
    | some p =>
      rw [hr] at hres
      obtain ⟨k', h1, hs⟩ := hres
      rw [ha] at h1
      injection h1 with h1
      injection h1 with h1
      subst h1
      obtain ⟨f, hf, hk⟩ := hs.obj
      exact ⟨p, f, rfl, hs.id, hf, hk, hs.good⟩

theorem openAs_same (id : Bytes) (type : Nat) (fs : FullFs) : (secOpenAs id type fs).2 = fs := by
  unfold secOpenAs
  split
  · split <;> rfl
  · split
    · rfl
    · split <;> rfl

theorem hoare_openAs (id : Bytes) (type : Nat) (P : FullFs → Prop) (hP : ∀ fs, P fs → TreeInv fs) :
    HoareS P (secOpenAs id type) fun _ => P := by
  intro fs h
  rw [openAs_same]
  exact ⟨hP fs h, fun _ _ => h⟩

theorem hoare_remove (cfg : FsCfg) (h : FH) (name : Bytes) :
    HoareS TreeInv (secRemove cfg h name) fun r fs => TV (fun A => ∀ e, r = some e → Loose A e.id e.type) fs := by
  intro fs ht
  obtain ⟨hq, hcase⟩ := remove_any cfg h name fs
  rcases hcase with ⟨e, h1, h2⟩ | ⟨f, hf, hk, h1, h2⟩
  · exact ⟨⟨by rw [h2]; exact ht.tree, hq.root ht.root⟩, fun a ha => by rw [h1] at ha; cases ha⟩
  · have hti : TreeInv (secRemove cfg h name fs).2 := ⟨by rw [h2]; exact ht.tree.rem _ _ _, hq.root ht.root⟩
    refine ⟨hti, ?_⟩
    intro a ha
    rw [h1] at ha
    injection ha with ha
    subst ha
    refine ⟨hti, ?_⟩
    intro e he
    rw [h2]
    exact loose_removed ht.tree hf he

/-- A section that changes one file and keeps its type and entries. -/
theorem hoare_file {β : Type} (id : Bytes) {f : TimeSpec → Inode → Res β × Inode}
    (hf : ∀ now n, (viewFile (f now n).2).kind = (viewFile n).kind ∧ (f now n).2.entries = n.entries ∧ (id = kRootId → (f now n).2.parent = n.parent)) :
    HoareS TreeInv (Sec.file id f) fun _ => TreeInv := by
  intro fs ht
  unfold Sec.file
  cases hg : fs.get id with
  | none => exact ⟨ht, fun _ _ => ht⟩
  | some n =>
    dsimp only
    obtain ⟨h1, h2, h3⟩ := hf fs.now n
    have hv : viewOf fs id = some (viewFile n) := view_of_get hg
    have hti : TreeInv (fs.set id (f fs.now n).2) := by
      refine ⟨?_, ?_⟩
      · rw [view_set hg]
        exact DirTree.upd ht.tree hv h1 h2
      · obtain ⟨k, k1, k2⟩ := ht.root
        unfold RootParent
        rw [get_set]
        by_cases hx : kRootId = id
        · rw [if_pos hx, ← hx, k1]
          rw [← hx, k1] at hg
          injection hg with hg
          subst hg
          exact ⟨_, rfl, (h3 hx.symm).trans k2⟩
        · rw [if_neg hx]; exact ⟨k, k1, k2⟩
    exact ⟨hti, fun _ _ => hti⟩

theorem kind_of_mode {n m : Inode} (h : m.attr.mode = n.attr.mode) : (viewFile m).kind = (viewFile n).kind := by
  unfold AFile.kind viewFile; dsimp only; rw [h]

theorem hoare_unlink (h : FH) : HoareS TreeInv (secUnlink h) fun _ => TreeInv :=
  hoare_file h.id fun _ _ => ⟨rfl, rfl, fun _ => rfl⟩

theorem touchCtime_mode (st : Bool) (now : TimeSpec) (a : FileAttr) : (a.touchCtime st now).mode = a.mode := by
  unfold FileAttr.touchCtime; split <;> rfl

theorem hoare_unlinkEmpty (cfg : FsCfg) (h : FH) : HoareS TreeInv (secUnlinkEmpty cfg h) fun _ => TreeInv := by
  unfold secUnlinkEmpty Sec.dir
  refine hoare_file h.id fun now n => ?_
  cases castAs h typeDirectory n with
  | error e => exact ⟨rfl, rfl, fun _ => rfl⟩
  | ok _ =>
    dsimp only
    cases hne : n.entries with
    | cons a l =>
      have e1 : n.unlinkEmpty cfg now = (.error (.vfs 39), { n with attr := n.attr.touchAtime cfg.storeTime now }) := by
        unfold Inode.unlinkEmpty; dsimp only; rw [hne]
      rw [e1]
      exact ⟨kind_of_mode (touchAtime_mode _ _ _), hne, fun _ => rfl⟩
    | nil =>
      have e1 : n.unlinkEmpty cfg now = (.ok (), { n with attr := (n.attr.touchAtime cfg.storeTime now).unlink }) := by
        unfold Inode.unlinkEmpty; dsimp only; rw [hne]
      rw [e1]
      exact ⟨kind_of_mode (touchAtime_mode _ _ _), hne, fun _ => rfl⟩

theorem hoare_linkSet (cfg : FsCfg) (h : FH) (t : Bytes) : HoareS TreeInv (secLinkSet cfg h t) fun _ => TreeInv := by
  refine hoare_file h.id fun now n => ?_
  cases castAs h typeSymlink n with
  | error e => exact ⟨rfl, rfl, fun _ => rfl⟩
  | ok _ => exact ⟨kind_of_mode (touchMtime_mode _ _ _), rfl, fun _ => rfl⟩

theorem hoare_linkGet (cfg : FsCfg) (h : FH) : HoareS TreeInv (secLinkGet cfg h) fun _ => TreeInv := by
  refine hoare_file h.id fun now n => ?_
  cases castAs h typeSymlink n with
  | error e => exact ⟨rfl, rfl, fun _ => rfl⟩
  | ok _ => exact ⟨kind_of_mode (touchAtime_mode _ _ _), rfl, fun _ => rfl⟩

theorem hoare_reg {β : Type} (h : FH) {f : TimeSpec → Inode → Res β × Inode}
    (hf : ∀ now n, (f now n).2.attr.mode = n.attr.mode ∧ (f now n).2.entries = n.entries ∧ (f now n).2.parent = n.parent) :
    HoareS TreeInv (Sec.reg h f) fun _ => TreeInv := by
  refine hoare_file h.id fun now n => ?_
  cases castAs h typeRegular n with
  | error e => exact ⟨rfl, rfl, fun _ => rfl⟩
  | ok _ => exact ⟨kind_of_mode (hf now n).1, (hf now n).2.1, fun _ => (hf now n).2.2⟩

theorem hoare_read (cfg : FsCfg) (h : FH) (off len : Nat) : HoareS TreeInv (secRead cfg h off len) fun _ => TreeInv :=
  hoare_reg h fun _ _ => ⟨touchAtime_mode _ _ _, rfl, rfl⟩

theorem hoare_write (cfg : FsCfg) (h : FH) (off : Nat) (d : Bytes) : HoareS TreeInv (secWrite cfg h off d) fun _ => TreeInv :=
  hoare_reg h fun _ _ => ⟨touchMtime_mode _ _ _, rfl, rfl⟩

theorem hoare_truncate (cfg : FsCfg) (h : FH) (size : Nat) : HoareS TreeInv (secTruncate cfg h size) fun _ => TreeInv :=
  hoare_reg h fun _ _ => ⟨touchMtime_mode _ _ _, rfl, rfl⟩

theorem hoare_flush (h : FH) : HoareS TreeInv (secFlush h) fun _ => TreeInv := hoare_file h.id fun _ _ => ⟨rfl, rfl, fun _ => rfl⟩

theorem hoare_stat (cfg : FsCfg) (ov : OwnerOverride) (h : FH) : HoareS TreeInv (secStat cfg ov h) fun _ => TreeInv :=
  hoare_file h.id fun _ _ => ⟨rfl, rfl, fun _ => rfl⟩

theorem hoare_readdir (cfg : FsCfg) (fill : Nat → Int) (h : FH) : HoareS TreeInv (secReaddir cfg fill h) fun _ => TreeInv := by
  refine hoare_file h.id fun now n => ?_
  cases castAs h typeDirectory n with
  | error e => exact ⟨rfl, rfl, fun _ => rfl⟩
  | ok _ => exact ⟨kind_of_mode (touchAtime_mode _ _ _), rfl, fun _ => rfl⟩

theorem hoare_setParent (h : FH) (id : Bytes) (hne : h.id ≠ kRootId) : HoareS TreeInv (secSetParent h id) fun _ => TreeInv :=
  hoare_file h.id fun _ _ => ⟨rfl, rfl, fun h => absurd h hne⟩

theorem hoare_attr (h : FH) {f : TimeSpec → FileAttr → FileAttr} (hf : ∀ now a, (f now a).mode &&& 0xf000 = a.mode &&& 0xf000) :
    HoareS TreeInv (secAttr h f) fun _ => TreeInv := by
  refine hoare_file h.id fun now n => ⟨?_, rfl, fun _ => rfl⟩
  unfold AFile.kind viewFile
  dsimp only
  rw [hf]

theorem hoare_add (cfg : FsCfg) (h : FH) (e : DirEntry) :
    HoareS (TV fun A => Loose A e.id e.type) (secAdd cfg h e) fun _ => TreeInv := by
  intro fs ht
  obtain ⟨hq, hcase⟩ := add_any cfg h e fs
  rcases hcase with ⟨_, h2⟩ | ⟨f, hf, hk, _, h2⟩
  · have hti : TreeInv (secAdd cfg h e fs).2 := ⟨by rw [h2]; exact ht.1.tree, hq.root ht.1.root⟩
    exact ⟨hti, fun _ _ => hti⟩
  · have hti : TreeInv (secAdd cfg h e fs).2 := ⟨by rw [h2]; exact ht.1.tree.add hf hk ht.2, hq.root ht.1.root⟩
    exact ⟨hti, fun _ _ => hti⟩


/-- `remove_entry` when another file is loose. -/
theorem hoare_remove_frame (cfg : FsCfg) (h : FH) (name id : Bytes) (type : Nat) :
    HoareS (TV fun A => Loose A id type) (secRemove cfg h name) fun r fs => TV (fun A => Loose A id type ∧
      ∀ e, r = some e → Loose A e.id e.type ∧ (e.id = id → type ≠ 4 ∧ e.type = type)) fs := by
  intro fs ht
  obtain ⟨h1, h2⟩ := hoare_remove cfg h name fs ht.1
  refine ⟨h1, fun a ha => ⟨h1, ?_⟩⟩
  have h3 := (h2 a ha).2
  obtain ⟨hq, hcase⟩ := remove_any cfg h name fs
  rcases hcase with ⟨e, k1, k2⟩ | ⟨f, hf, hk, k1, k2⟩
  · rw [k1] at ha; cases ha
  · refine ⟨by rw [k2]; exact ht.2.rem _ _ _, ?_⟩
    rintro e rfl
    refine ⟨h3 e rfl, ?_⟩
    intro hid
    rw [k1] at ha
    injection ha with ha
    have hmem := List.mem_of_find?_eq_some ha
    obtain ⟨_, _, g, hg, hgk⟩ := ht.1.tree.entry _ f e hf hmem
    obtain ⟨g', hg', hgk'⟩ := ht.2.obj
    rw [hid, hg'] at hg
    injection hg with hg
    subst hg
    exact ⟨fun h4 => ht.2.free h4 _ f e hf hmem hid, by rw [← hgk, hgk']⟩

/-- `add_entry` when a file that is no directory gets another name later. -/
theorem hoare_add_frame (cfg : FsCfg) (h : FH) (e : DirEntry) (h4 : e.type ≠ 4) :
    HoareS (TV fun A => Loose A e.id e.type) (secAdd cfg h e) fun _ => TV fun A => Loose A e.id e.type := by
  intro fs ht
  obtain ⟨h1, _⟩ := hoare_add cfg h e fs ht
  refine ⟨h1, fun a _ => ⟨h1, ?_⟩⟩
  obtain ⟨hq, hcase⟩ := add_any cfg h e fs
  rcases hcase with ⟨_, k2⟩ | ⟨f, hf, hk, _, k2⟩
  · rw [k2]; exact ht.2
  · rw [k2]; exact ht.2.add h4 _ _

theorem hoare_rename (cfg : FsCfg) (bf : FH) (lf : Bytes) (bt : FH) (lt : Bytes) :
    HoareS TreeInv (secRename cfg bf lf bt lt) fun _ => TreeInv := by
  unfold secRename
  refine HoareS.bind (hoare_remove cfg bf lf) fun r => ?_
  cases r with
  | none => exact fun fs h => ⟨h.1, fun _ _ => h.1⟩
  | some src =>
    dsimp only
    refine HoareS.bind (Q := fun r fs => TV (fun A => Loose A src.id src.type ∧
      ∀ e, r = some e → Loose A e.id e.type ∧ (e.id = src.id → src.type ≠ 4 ∧ e.type = src.type)) fs) ?_ fun r2 => ?_
    · exact fun fs h => hoare_remove_frame cfg bt lt src.id src.type fs ⟨h.1, h.2 src rfl⟩
    · cases r2 with
      | none =>
        dsimp only
        refine HoareS.bind (Q := fun _ => TreeInv) ?_ fun _ => HoareS.pure _ fun _ h => h
        exact fun fs h => hoare_add cfg bt ⟨lt, src.id, src.type⟩ fs ⟨h.1, h.2.1⟩
      | some dst =>
        dsimp only
        by_cases hid : src.id = dst.id
        · rw [if_pos hid]
          intro fs h
          obtain ⟨h4, hty⟩ := (h.2.2 dst rfl).2 hid.symm
          refine HoareS.bind (hoare_add_frame cfg bf ⟨lf, src.id, src.type⟩ h4)
            (fun _ => HoareS.bind (R := fun _ => TreeInv) (Q := fun _ => TreeInv) ?_ fun _ => HoareS.pure _ fun _ h => h) fs ⟨h.1, h.2.1⟩
          intro fs' h'
          refine hoare_add cfg bt ⟨lt, dst.id, dst.type⟩ fs' ⟨h'.1, ?_⟩
          dsimp only
          rw [hty, ← hid]
          exact h'.2
        · rw [if_neg hid]
          refine HoareS.bind (Q := fun _ => TreeInv) ?_ fun _ => HoareS.pure _ fun _ h => h
          exact fun fs h => hoare_add cfg bt ⟨lt, src.id, src.type⟩ fs ⟨h.1, h.2.1⟩

theorem u32_or_and (a b c : UInt32) : (a ||| b) &&& c = (a &&& c) ||| (b &&& c) := by
  apply UInt32.toBitVec_inj.mp
  simp only [UInt32.toBitVec_and, UInt32.toBitVec_or]
  exact BitVec.and_or_distrib_right

theorem type_of_mode {c : Nat} (hc : GoodCls c) (m : UInt32) : ((m &&& 0x1ff) ||| modeForType c) &&& 0xf000 = modeForType c := by
  have h0 : (m &&& 0x1ff) &&& 0xf000 = 0 := by
    rw [UInt32.and_assoc]
    have : (0x1ff : UInt32) &&& 0xf000 = 0 := by decide
    rw [this, UInt32.and_zero]
  rw [u32_or_and, h0, UInt32.zero_or]
  rcases hc with rfl | rfl | rfl <;> decide

theorem chmod_type (m n : UInt32) : ((m &&& ~~~0x1ff) ||| (n &&& 0x1ff)) &&& 0xf000 = m &&& 0xf000 := by
  have h0 : (n &&& 0x1ff) &&& 0xf000 = 0 := by
    rw [UInt32.and_assoc]
    have : (0x1ff : UInt32) &&& 0xf000 = 0 := by decide
    rw [this, UInt32.and_zero]
  rw [u32_or_and, h0, UInt32.or_zero, UInt32.and_assoc]
  have : (~~~0x1ff : UInt32) &&& 0xf000 = 0xf000 := by decide
  rw [this]

theorem get_append {fs : FullFs} {id : Bytes} (hn : fs.get id = none) (n : Inode) (x : Bytes) :
    ({ fs with nodes := fs.nodes ++ [(id, n)] } : FullFs).get x = if x = id then some n else fs.get x := by
  unfold FullFs.get at *
  dsimp only
  rw [List.lookup_append]
  by_cases hx : x = id
  · subst hx
    rw [if_pos rfl, hn]
    simp [List.lookup]
  · rw [if_neg hx]
    have : List.lookup x [(id, n)] = none := by
      rw [List.lookup_cons]
      have : (x == id) = false := by simpa using hx
      rw [this]; rfl
    rw [this, Option.or_none]

theorem hoare_create (cfg : FsCfg) (id : Bytes) (type : Nat) (hc : GoodCls type) (mode uid gid : UInt32) :
    HoareS TreeInv (secCreate cfg id type mode uid gid) fun h fs => h.id = id ∧ id ≠ kRootId ∧ TV (fun A => Loose A id type) fs := by
  intro fs ht
  unfold secCreate
  by_cases hr : id = kRootId
  · rw [if_pos hr]; exact ⟨ht, fun _ ha => by cases ha⟩
  · rw [if_neg hr]
    cases hg : fs.get id with
    | some n => exact ⟨ht, fun _ ha => by cases ha⟩
    | none =>
      dsimp only
      generalize hm : FileAttr.initializeEmpty cfg.storeTime fs.now cfg.osUid cfg.osGid ((mode &&& 0x1ff) ||| modeForType type) uid gid
        (FileAttr.setNumFree 0 FileAttr.blank) = a
      have hmode : a.mode = ((mode &&& 0x1ff) ||| modeForType type) := by rw [← hm]; rfl
      have hv : viewOf { fs with nodes := fs.nodes ++ [(id, ⟨a, zeros 32, [], []⟩)] } = updA (viewOf fs) id (viewFile ⟨a, zeros 32, [], []⟩) := by
        funext x
        unfold viewOf updA
        rw [get_append hg]
        by_cases hx : x = id
        · rw [if_pos hx, if_pos hx]; rfl
        · rw [if_neg hx, if_neg hx]
      have hn : viewOf fs id = none := by unfold viewOf; rw [hg]; rfl
      obtain ⟨t1, t2⟩ := ht.tree.create hn (f := viewFile ⟨a, zeros 32, [], []⟩) rfl
      have hti : TreeInv { fs with nodes := fs.nodes ++ [(id, ⟨a, zeros 32, [], []⟩)] } := by
        refine ⟨by rw [hv]; exact t1, ?_⟩
        obtain ⟨k, k1, k2⟩ := ht.root
        exact ⟨k, by rw [get_append hg, if_neg fun h => hr h.symm]; exact k1, k2⟩
      refine ⟨hti, ?_⟩
      intro h ha
      injection ha with ha
      subst ha
      refine ⟨rfl, hr, hti, ?_⟩
      rw [hv]
      refine ⟨hr, ?_, ⟨_, updA_self _ _ _, ?_⟩, fun _ => t2⟩
      · rcases hc with rfl | rfl | rfl <;> decide
      · unfold AFile.kind viewFile
        dsimp only
        rw [hmode, type_of_mode hc]
        rcases hc with rfl | rfl | rfl <;> decide

theorem hoare_createFile (cfg : FsCfg) (path : Bytes) (mode : UInt32) (type : Nat) (hc : GoodCls type) (uid gid : UInt32) (id : Bytes) :
    Hoare TreeInv (createFile cfg path mode type uid gid id) fun _ => TreeInv := by
  unfold createFile
  refine Hoare.bind (Q := fun _ => TreeInv) ?_ ?_
  · intro fs h
    obtain ⟨a, b⟩ := hoare_openBase cfg path (fun _ => True) fs ⟨h, trivial⟩
    exact ⟨a, fun x hx => (b x hx).1⟩
  · rintro ⟨base, last⟩
    refine Hoare.bind (hoare_create cfg id type hc mode uid gid).one fun holder => ?_
    intro fs h
    obtain ⟨h1, h2, h3⟩ := h
    refine Hoare.bind (P := TV fun A => Loose A holder.id type) (Q := fun _ => TreeInv) (R := fun _ => TreeInv)
      (hoare_add cfg base ⟨last, holder.id, type⟩).one (fun ok => ?_) fs (by rw [h1]; exact h3)
    cases ok with
    | true => exact Hoare.bind (hoare_setParent holder base.id (by rw [h1]; exact h2)).one fun _ => Hoare.ret _ fun _ h => h
    | false => exact Hoare.bind (hoare_unlink holder).one fun _ => Hoare.throw _ fun _ h => h

theorem hoare_base {α : Type} (cfg : FsCfg) (path : Bytes) {g : FH × Bytes → Prog α} (hg : ∀ r, Hoare TreeInv (g r) fun _ => TreeInv) :
    Hoare TreeInv ((openBase cfg path).bind g) fun _ => TreeInv := by
  refine Hoare.bind (Q := fun _ => TreeInv) ?_ hg
  intro fs h
  obtain ⟨a, b⟩ := hoare_openBase cfg path (fun _ => True) fs ⟨h, trivial⟩
  exact ⟨a, fun x hx => (b x hx).1⟩

theorem hoare_withAttr (cfg : FsCfg) (path : Bytes) (rl : Bool) {f : TimeSpec → FileAttr → FileAttr}
    (hf : ∀ now a, (f now a).mode &&& 0xf000 = a.mode &&& 0xf000) : Hoare TreeInv (withAttr cfg path rl f) fun _ => TreeInv := by
  unfold withAttr
  refine Hoare.bind (Q := fun _ => TreeInv) ?_ fun r => ?_
  · intro fs h
    obtain ⟨a, b⟩ := hoare_openAll cfg path rl (viewOf fs) fs ⟨h, rfl⟩
    exact ⟨a, fun x hx => (b x hx).1.1⟩
  · cases r with
    | none => exact Hoare.ret _ fun _ h => h
    | some h => exact Hoare.bind (hoare_attr h hf).one fun _ => Hoare.ret _ fun _ h => h

theorem hoare_opened (cfg : FsCfg) (path : Bytes) (rl : Bool) {α : Type} {g : Option FH → Prog α}
    (hg : ∀ r, Hoare TreeInv (g r) fun _ => TreeInv) : Hoare TreeInv ((openAll cfg path rl).bind g) fun _ => TreeInv := by
  refine Hoare.bind (Q := fun _ => TreeInv) ?_ hg
  intro fs h
  obtain ⟨a, b⟩ := hoare_openAll cfg path rl (viewOf fs) fs ⟨h, rfl⟩
  exact ⟨a, fun x hx => (b x hx).1.1⟩

theorem realType_good {n : Inode} {c : Nat} (hc : GoodCls c) (h : (viewFile n).kind = c) : n.attr.realType = c := by
  have := kind_mode hc h
  unfold FileAttr.realType
  rw [show n.attr.mode &&& sIfmt = (viewFile n).mode &&& sIfmt from rfl, ← this]
  rcases hc with rfl | rfl | rfl <;> decide

theorem setNlink_mode (st : Bool) (now : TimeSpec) (v : UInt32) (a : FileAttr) : (a.setNlink st now v).mode = a.mode := by
  unfold FileAttr.setNlink; split
  · rfl
  · exact touchCtime_mode _ _ _

theorem hoare_link (cfg : FsCfg) (base : FH) (last : Bytes) (f : FH) {c : Nat} (hc : GoodCls c) (h4 : c ≠ 4) :
    HoareS (TV fun A => ∃ g, A f.id = some g ∧ g.kind = c) (secLink cfg base last f) fun _ => TreeInv := by
  unfold secLink
  refine HoareS.bind (Q := fun type fs => type = c ∧ TV (fun A => Loose A f.id c) fs) ?_ fun type => ?_
  · intro fs ht
    obtain ⟨g, hg, hk⟩ := ht.2
    obtain ⟨n, hn, rfl⟩ := get_of_view hg
    rw [file_run hn]
    dsimp only
    have hv := view_set_same hn (m := n) rfl
    have hti : TreeInv (fs.set f.id n) := ⟨by rw [hv]; exact ht.1.tree, (quiet_set hn rfl).root ht.1.root⟩
    refine ⟨hti, fun a ha => ?_⟩
    injection ha with ha
    refine ⟨by rw [← ha]; exact realType_good hc hk, hti, ?_⟩
    rw [hv]
    refine ⟨?_, ?_, ⟨_, hg, hk⟩, fun h => absurd h h4⟩
    · intro hr
      obtain ⟨r, hr1, hr2⟩ := ht.1.tree.root
      rw [hr, hr1] at hg
      injection hg with hg
      rw [hg] at hr2
      exact h4 (hk.symm.trans hr2)
    · rcases hc with rfl | rfl | rfl <;> decide
  · intro fs ht
    obtain ⟨rfl, ht⟩ := ht
    refine HoareS.bind (Q := fun _ => TreeInv) (R := fun _ => TreeInv) (hoare_add cfg base ⟨last, f.id, type⟩) (fun added => ?_) fs ht
    cases added with
    | true =>
      rw [if_pos rfl]
      refine hoare_file f.id fun now n => ?_
      exact ⟨kind_of_mode (setNlink_mode _ _ _ _), rfl, fun _ => rfl⟩
    | false => exact HoareS.pure _ fun _ h => h

theorem chown_mode (st : Bool) (now : TimeSpec) (u g : UInt32) (a : FileAttr) : (a.chown st now u g).mode = a.mode := by
  have h1 : ∀ v (b : FileAttr), (b.setUid st now v).mode = b.mode := by
    intro v b; unfold FileAttr.setUid; split
    · rfl
    · exact touchCtime_mode _ _ _
  have h2 : ∀ v (b : FileAttr), (b.setGid st now v).mode = b.mode := by
    intro v b; unfold FileAttr.setGid; split
    · rfl
    · exact touchCtime_mode _ _ _
  unfold FileAttr.chown
  dsimp only
  by_cases h3 : u ≠ 0xffffffff <;> by_cases h4 : g ≠ 0xffffffff
  · rw [if_pos h3, if_pos h4, h2, h1]
  · rw [if_pos h3, if_neg h4, h1]
  · rw [if_neg h3, if_pos h4, h2]
  · rw [if_neg h3, if_neg h4]

theorem tree_op (cfg : FsCfg) (op : FullOp) {fs : FullFs} (ht : TreeInv fs) (ha : Asked cfg fs op) : TreeInv ((op.prog cfg).run fs).2 := by
  have main : ∀ {p : Prog Int}, Hoare TreeInv p (fun _ => TreeInv) → TreeInv (p.run fs).2 := fun h => (h fs ht).1
  cases op with
  | create p m u g i => exact main (Hoare.bind (hoare_createFile cfg p m typeRegular (.inr (.inl rfl)) u g i) fun _ => Hoare.ret _ fun _ h => h)
  | mkdir p m u g i => exact main (Hoare.bind (hoare_createFile cfg p m typeDirectory (.inl rfl) u g i) fun _ => Hoare.ret _ fun _ h => h)
  | symlink t f u g i =>
    exact main (Hoare.bind (hoare_createFile cfg f 0x1a4 typeSymlink (.inr (.inr rfl)) u g i) fun h =>
      Hoare.bind (hoare_linkSet cfg h t).one fun _ => Hoare.ret _ fun _ h => h)
  | unlink p =>
    refine main (hoare_base cfg p fun r => ?_)
    refine Hoare.bind ((hoare_remove cfg r.1 r.2).post fun _ fs h => h.1).one fun x => ?_
    cases x with
    | none => exact Hoare.ret _ fun _ h => h
    | some e => exact Hoare.bind (hoare_openAs _ _ _ fun _ h => h).one fun h => Hoare.bind (hoare_unlink h).one fun _ => Hoare.ret _ fun _ h => h
  | rmdir p =>
    refine main (hoare_base cfg p fun r => ?_)
    refine Hoare.bind ((hoare_remove cfg r.1 r.2).post fun _ fs h => h.1).one fun x => ?_
    cases x with
    | none => exact Hoare.ret _ fun _ h => h
    | some e => exact Hoare.bind (hoare_openAs _ _ _ fun _ h => h).one fun h => Hoare.bind (hoare_unlinkEmpty cfg h).one fun _ => Hoare.ret _ fun _ h => h
  | link s d =>
    refine (Hoare.bind (R := fun _ => TreeInv) (hoare_openAll cfg s true (viewOf fs)) (fun r => ?_) fs ⟨ht, rfl⟩).1
    cases r with
    | none => exact fun fs h => ⟨h.1.1, fun _ _ => h.1.1⟩
    | some f =>
      intro fs' h'
      obtain ⟨htv, hf⟩ := h'
      obtain ⟨p, g, hres, hid, hg, hk, hgood⟩ := hf f rfl
      have h4 : f.cls ≠ 4 := by
        intro hc
        exact ha s d rfl p hres ⟨g, by rw [← hid]; exact hg, hk.trans hc⟩
      refine Hoare.bind (R := fun _ => TreeInv) (hoare_openBase cfg d fun A => ∃ g, A f.id = some g ∧ g.kind = f.cls) (fun r => ?_) fs'
        ⟨htv.1, g, by rw [htv.2]; exact hg, hk⟩
      exact Hoare.bind (hoare_link cfg r.1 r.2 f hgood h4).one fun _ => Hoare.ret _ fun _ h => h
  | rename f t =>
    refine main (hoare_base cfg f fun r => hoare_base cfg t fun q => ?_)
    refine Hoare.bind (hoare_rename cfg r.1 r.2 q.1 q.2).one fun x => ?_
    cases x with
    | missing => exact Hoare.ret _ fun _ h => h
    | done => exact Hoare.ret _ fun _ h => h
    | replaced e => exact Hoare.bind (hoare_openAs _ _ _ fun _ h => h).one fun h => Hoare.bind (hoare_unlink h).one fun _ => Hoare.ret _ fun _ h => h
  | chmod p m =>
    refine main (hoare_withAttr cfg p false fun now a => ?_)
    unfold FileAttr.chmod FileAttr.setMode
    split
    · rfl
    · dsimp only
      rw [touchCtime_mode]
      exact chmod_type _ _
  | chown p u g => exact main (hoare_withAttr cfg p false fun now a => by rw [chown_mode])
  | utimens p g ts =>
    refine main (hoare_withAttr cfg p false fun now a => ?_)
    unfold FileAttr.utimens
    split
    · cases ts with
      | none => rfl
      | some x => rfl
    · rfl
  | getattr p =>
    refine main (Hoare.bind (Q := fun _ => TreeInv) (hoare_opened cfg p false fun r => ?_) fun _ => Hoare.ret _ fun _ h => h)
    cases r with
    | none => exact Hoare.ret _ fun _ h => h
    | some h => exact Hoare.bind (hoare_stat cfg _ h).one fun _ => Hoare.ret _ fun _ h => h
  | «open» p t =>
    refine main (Hoare.bind (Q := fun _ => TreeInv) (hoare_opened cfg p true fun r => ?_) fun _ => Hoare.ret _ fun _ h => h)
    cases r with
    | none => exact Hoare.ret _ fun _ h => h
    | some h =>
      cases t with
      | false => exact Hoare.ret _ fun _ h => h
      | true => exact Hoare.bind (hoare_truncate cfg h 0).one fun _ => Hoare.ret _ fun _ h => h
  | opendir p =>
    refine main (Hoare.bind (Q := fun _ => TreeInv) (hoare_opened cfg p true fun r => ?_) fun _ => Hoare.ret _ fun _ h => h)
    cases r with
    | none => exact Hoare.ret _ fun _ h => h
    | some h => dsimp only; split <;> exact Hoare.ret _ fun _ h => h
  | truncate p n =>
    refine main (hoare_opened cfg p true fun r => ?_)
    cases r with
    | none => exact Hoare.ret _ fun _ h => h
    | some h => exact Hoare.bind (hoare_truncate cfg h n).one fun _ => Hoare.ret _ fun _ h => h
  | read h off len =>
    exact main (Hoare.bind (Q := fun _ => TreeInv) (Hoare.bind (hoare_read cfg h off len).one fun _ => Hoare.ret _ fun _ h => h) fun _ =>
      Hoare.ret _ fun _ h => h)
  | write h off d => exact main (Hoare.bind (hoare_write cfg h off d).one fun _ => Hoare.ret _ fun _ h => h)
  | ftruncate h n => exact main (Hoare.bind (hoare_truncate cfg h n).one fun _ => Hoare.ret _ fun _ h => h)
  | fgetattr h =>
    exact main (Hoare.bind (Q := fun _ => TreeInv) (Hoare.bind (hoare_stat cfg _ h).one fun _ => Hoare.ret _ fun _ h => h) fun _ =>
      Hoare.ret _ fun _ h => h)
  | readdir h fill =>
    refine main (Hoare.bind (Q := fun _ => TreeInv) ?_ fun _ => Hoare.ret _ fun _ h => h)
    unfold fullReaddir
    split
    · exact Hoare.ret _ fun _ h => h
    · exact Hoare.bind (hoare_readdir cfg fill h).one fun _ => Hoare.ret _ fun _ h => h
  | flush h => exact main (Hoare.bind (hoare_flush h).one fun _ => Hoare.ret _ fun _ h => h)
  | fsync h =>
    exact main (Hoare.bind (hoare_file h.id (f := fun _ n => (.ok (), n)) fun _ _ => ⟨rfl, rfl, fun _ => rfl⟩).one fun _ =>
      Hoare.ret _ fun _ h => h)
  | readlink p n =>
    refine main (Hoare.bind (Q := fun _ => TreeInv) ?_ fun _ => Hoare.ret _ fun _ h => h)
    unfold fullReadlink
    split
    · exact Hoare.ret _ fun _ h => h
    · split
      · exact Hoare.ret _ fun _ h => h
      · refine Hoare.bind (Q := fun _ => TreeInv) ?_ fun r => ?_
        · intro fs h
          obtain ⟨a, b⟩ := hoare_openAll cfg p false (viewOf fs) fs ⟨h, rfl⟩
          exact ⟨a, fun x hx => (b x hx).1.1⟩
        · cases r with
          | none => exact Hoare.ret _ fun _ h => h
          | some h => exact Hoare.bind (hoare_linkGet cfg h).one fun _ => Hoare.ret _ fun _ h => h

/-! ## Histories of operations that run alone -/

theorem safe_run {cfg : FsCfg} {α : Type} {Q : α → Credit → Prop} (hQ : ∀ a c, Q a c → c.NonNeg) : ∀ (p : Prog α) (c : Credit) (fs : FullFs),
    Safe cfg Q p c → FsWF cfg fs → CreditCovered fs c → RoomAlong p fs → FsWF cfg (p.run fs).2 ∧ ∃ c' : Credit, c'.NonNeg ∧
      ∀ x, bal (p.run fs).2 x - c' x = bal fs x - c x
  | .ret a, c, fs, hs, hw, _, _ => by simp only [Prog.run]; exact ⟨hw, c, hQ a c hs, fun _ => by omega⟩
  | .throw e, c, fs, hs, hw, _, _ => by simp only [Prog.run]; exact ⟨hw, c, hs, fun _ => by omega⟩
  | .sec f k, c, fs, hs, hw, hc, hr => by
    obtain ⟨c', h1, h2, h3, h4⟩ := hs.2 fs hw hr.1 hc
    have hr2 := hr.2
    simp only [Prog.run]
    revert h1 h2 h3 h4 hr2
    generalize f fs = out
    obtain ⟨o, fs1⟩ := out
    intro h1 h2 h3 h4 hr2
    cases o with
    | error e => exact ⟨h1, c', h4 e rfl, h2⟩
    | ok b =>
      have hcov : CreditCovered fs1 c' := by
        intro x
        have := h2 x
        have := hc x
        dsimp only at *
        omega
      obtain ⟨k1, c'', k2, k3⟩ := safe_run hQ (k b) c' fs1 (h3 b rfl) h1 hcov (hr2 b rfl)
      refine ⟨k1, c'', k2, fun x => ?_⟩
      have := k3 x
      have := h2 x
      dsimp only at *
      omega

/-- What holds between operations that run alone. -/
structure SeqInv (cfg : FsCfg) (fs : FullFs) : Prop where
  wf : FsWF cfg fs
  books : ∀ x, 0 ≤ bal fs x
  inv : TreeInv fs

theorem view_evict {fs : FullFs} {id : Bytes} {n : Inode} (h : fs.get id = some n) (p : Bytes) :
    viewOf (fs.set id { n with parent := p }) = viewOf fs := view_set_same h rfl

theorem seq_evict {cfg : FsCfg} {fs : FullFs} (hi : SeqInv cfg fs) (id : Bytes) : SeqInv cfg (FullSys.step cfg ⟨fs, []⟩ (.evict id)).fs := by
  simp only [FullSys.step]
  cases hg : fs.get id with
  | none => exact hi
  | some n =>
    dsimp only
    have hent := wf_entries hi.wf hg
    refine ⟨wf_set hi.wf _ hent, ?_, ⟨by rw [view_evict hg]; exact hi.inv.tree, ?_⟩⟩
    · intro x
      rw [bal_set hi.wf.ids hg]
      have := hi.books x
      dsimp only
      split <;> omega
    · obtain ⟨k, k1, k2⟩ := hi.inv.root
      unfold RootParent
      rw [get_set]
      by_cases hx : kRootId = id
      · rw [if_pos hx, ← hx, k1]; exact ⟨_, rfl, rfl⟩
      · rw [if_neg hx]; exact ⟨k, k1, k2⟩

theorem nameCount_mem {fs : FullFs} {d : Bytes} {n : Inode} (hg : fs.get d = some n) {e : DirEntry} (he : e ∈ n.entries) : 0 < nameCount fs e.id := by
  unfold nameCount
  apply List.length_pos_of_mem (a := e)
  rw [List.mem_filter]
  exact ⟨List.mem_flatMap.mpr ⟨(d, n), mem_of_get hg, he⟩, by simp⟩

theorem seq_reap {cfg : FsCfg} {fs : FullFs} (hi : SeqInv cfg fs) (id : Bytes) : SeqInv cfg (FullSys.step cfg ⟨fs, []⟩ (.reap id)).fs := by
  simp only [FullSys.step]
  cases hg : fs.get id with
  | none => exact hi
  | some n =>
    dsimp only
    by_cases h0 : n.attr.nlink = 0 ∧ id ≠ kRootId
    · rw [if_pos h0]
      dsimp only
      obtain ⟨hw', hb'⟩ := reap_books hi.wf hg h0.1
      have hget : ∀ x, ({ fs with nodes := fs.nodes.filter fun p => p.1 ≠ id } : FullFs).get x = if x = id then none else fs.get x := by
        intro x; exact nodes_lookup_filter_ne fs.nodes id x
      have hview : ∀ x, viewOf { fs with nodes := fs.nodes.filter fun p => p.1 ≠ id } x = if x = id then none else viewOf fs x := by
        intro x
        unfold viewOf
        rw [hget]
        by_cases hx : x = id
        · rw [if_pos hx, if_pos hx]; rfl
        · rw [if_neg hx, if_neg hx]
      have hno : ∀ d f e, viewOf fs d = some f → e ∈ f.entries → e.id ≠ id := by
        intro d f e hd he hc
        obtain ⟨k, hk, rfl⟩ := get_of_view hd
        have h1 := nameCount_mem hk he
        have h2 := hi.books id
        unfold bal linkCount at h2
        rw [hg] at h2
        dsimp only at h2
        rw [h0.1] at h2
        rw [hc] at h1
        have : (0 : UInt32).toNat = 0 := rfl
        rw [this] at h2
        omega
      have hback : ∀ x f, viewOf { fs with nodes := fs.nodes.filter fun p => p.1 ≠ id } x = some f → viewOf fs x = some f := by
        intro x f hx
        rw [hview] at hx
        by_cases hxi : x = id
        · rw [if_pos hxi] at hx; cases hx
        · rwa [if_neg hxi] at hx
      refine ⟨hw', fun x => ?_, ⟨⟨?_, ?_, ?_, ?_⟩, ?_⟩⟩
      · rw [hb' x]
        have := hi.books x
        omega
      · obtain ⟨r, hr, hrk⟩ := hi.inv.tree.root
        exact ⟨r, by rw [hview, if_neg fun h => h0.2 h.symm]; exact hr, hrk⟩
      · intro x f e hx he
        obtain ⟨a, b, g, hg1, hg2⟩ := hi.inv.tree.entry x f e (hback x f hx) he
        exact ⟨a, b, g, by rw [hview, if_neg (hno x f e (hback x f hx) he)]; exact hg1, hg2⟩
      · intro x f hx hk
        exact hi.inv.tree.dirs x f (hback x f hx) hk
      · intro x x' f f' e e' hx hx' he he' hid hty
        exact hi.inv.tree.once x x' f f' e e' (hback x f hx) (hback x' f' hx') he he' hid hty
      · obtain ⟨k, k1, k2⟩ := hi.inv.root
        exact ⟨k, by rw [hget, if_neg fun h => h0.2 h.symm]; exact k1, k2⟩
    · rw [if_neg h0]; exact hi

theorem fresh_tree (cfg : FsCfg) (now : TimeSpec) : TreeInv (FullFs.fresh cfg now) := by
  have hget : ∀ x f, viewOf (FullFs.fresh cfg now) x = some f → x = kRootId ∧ f.entries = [] ∧ f.kind = 4 := by
    intro x f hx
    obtain ⟨n, hn, rfl⟩ := get_of_view hx
    unfold FullFs.get FullFs.fresh at hn
    dsimp only at hn
    rw [List.lookup_cons] at hn
    by_cases hxr : x = kRootId
    · have : (x == kRootId) = true := by simpa using hxr
      rw [this] at hn
      injection hn with hn
      subst hn
      have hm : (0x1ed ||| modeForType typeDirectory) &&& 0xf000 = 0x4000 := by decide
      refine ⟨hxr, rfl, ?_⟩
      unfold AFile.kind
      exact if_pos hm
    · have : (x == kRootId) = false := by simpa using hxr
      rw [this] at hn
      cases hn
  have hroot : ∃ f, viewOf (FullFs.fresh cfg now) kRootId = some f := ⟨_, rfl⟩
  refine ⟨⟨?_, ?_, ?_, ?_⟩, ⟨_, rfl, rfl⟩⟩
  · obtain ⟨f, hf⟩ := hroot
    exact ⟨f, hf, (hget _ f hf).2.2⟩
  · intro d f e hd he
    rw [(hget d f hd).2.1] at he
    cases he
  · intro d f hd _
    exact (hget d f hd).2.1
  · intro d d' f f' e e' hd _ he
    rw [(hget d f hd).2.1] at he
    cases he

theorem seq_inv {cfg : FsCfg} (hs : SameEquiv cfg.same) {fs : FullFs} (h : Sequential cfg fs) : SeqInv cfg fs := by
  induction h with
  | fresh now =>
    obtain ⟨hw, ⟨cs, hcs, hbal⟩, hl⟩ := fresh_books cfg now
    refine ⟨hw, fun x => ?_, fresh_tree cfg now⟩
    cases hcs
    have := hbal x
    have := hl x
    have h0 : total [] x = 0 := rfl
    dsimp only at *
    omega
  | @op fs _ op asked room ih =>
    have hsafe := books_op hs op
    have hcov : CreditCovered fs Credit.zero := fun x => ih.books x
    obtain ⟨h1, c', h2, h3⟩ := safe_run (fun _ c h => by subst h; exact Credit.zero_nonneg) _ _ fs hsafe ih.wf hcov room
    refine ⟨h1, fun x => ?_, tree_op cfg op ih.inv asked⟩
    have := h3 x
    have := h2 x
    have := ih.books x
    have h0 : Credit.zero x = 0 := rfl
    omega
  | tick h now ih => exact ⟨⟨ih.wf.ids, ih.wf.names⟩, ih.books, ⟨ih.inv.tree, ih.inv.root⟩⟩
  | evict h id ih => exact seq_evict ih id
  | reap h id ih => exact seq_reap ih id

end Securefs
