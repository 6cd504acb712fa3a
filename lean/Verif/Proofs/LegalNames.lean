import Verif.Spec.LegalNames
import Verif.Proofs.DataMoments
import Verif.Proofs.FullFsConc
import Verif.Proofs.FullFsPath
/-!
# The names in directories are legal and different

Helper lemmas for `Verif/Props/LegalNames.lean`.
-/

namespace Securefs.Ln

open Securefs Securefs.Spec

/-! ## Components -/

theorem splitSlash_flat : ∀ (l cur s : Bytes), (47 : UInt8) ∉ cur → s ∈ splitSlash cur l → (47 : UInt8) ∉ s
  | [], cur, s, h, hs => by
    rw [splitSlash, List.mem_singleton] at hs
    rw [hs]; exact h
  | c :: l, cur, s, h, hs => by
    rw [splitSlash] at hs
    by_cases hc : c = slash
    · rw [if_pos hc] at hs
      rcases List.mem_cons.mp hs with rfl | hs
      · exact h
      · exact splitSlash_flat l [] s (by simp) hs
    · rw [if_neg hc] at hs
      refine splitSlash_flat l _ s ?_ hs
      intro hm
      rcases List.mem_append.mp hm with hm | hm
      · exact h hm
      · exact hc (List.mem_singleton.mp hm).symm

/-- What `open_base` gives as the name. -/
def lastOf (path : Bytes) : Bytes := ((splitPath path).getLast?).getD []

theorem lastOf_flat (path : Bytes) : (47 : UInt8) ∉ lastOf path := by
  unfold lastOf
  cases h : (splitPath path).getLast? with
  | none => simp
  | some last =>
    have := List.mem_of_getLast? h
    exact splitSlash_flat path [] last (by simp) (List.mem_filter.mp this).1

theorem lastOf_legal {path : Bytes} (h : EndsInName path) : lastOf path ≠ [] ∧ lastOf path ≠ [46] ∧ lastOf path ≠ [46, 46] := by
  obtain ⟨last, hl, h1, h2⟩ := h
  rw [← splitPath_eq] at hl
  unfold lastOf
  rw [hl]
  refine ⟨fun e => ?_, h1, h2⟩
  have := (List.mem_filter.mp (List.mem_of_getLast? hl)).2
  have e' : last = [] := e
  rw [e'] at this
  cases this

/-! ## Sections -/

section
variable (same : Bytes → Bytes → Bool) (P : Bytes → Prop)

/-- The section keeps names as they should be. -/
def NameSec {β : Type} (f : Sec β) : Prop := ∀ fs, NamesAre same P fs → NamesAre same P (f fs).2

/-- The entries of one directory are as they should be. -/
def Entries (es : List DirEntry) : Prop := (∀ e ∈ es, P e.name) ∧ es.Pairwise fun a b => same a.name b.name = false

variable {same P}

theorem names_set {fs : FullFs} {id : Bytes} {n m : Inode} (h : fs.get id = some n) (hf : NamesAre same P fs) (hm : Entries same P m.entries) :
    NamesAre same P (fs.set id m) := by
  intro k x hx
  rw [Dm.get_set h] at hx
  by_cases hk : k = id
  · rw [if_pos hk] at hx
    cases hx
    exact hm
  · rw [if_neg hk] at hx
    exact hf k x hx

theorem name_file {β : Type} {id : Bytes} {f : TimeSpec → Inode → Res β × Inode} (h : ∀ t n, Entries same P n.entries → Entries same P (f t n).2.entries) :
    NameSec same P (Sec.file id f) := by
  intro fs hf
  unfold Sec.file
  cases hg : fs.get id with
  | none => exact hf
  | some n => exact names_set hg hf (h _ _ (hf id n hg))

theorem name_dir {β : Type} {h : FH} {f : TimeSpec → Inode → Res β × Inode} (hf : ∀ t n, Entries same P n.entries → Entries same P (f t n).2.entries) :
    NameSec same P (Sec.dir h f) := by
  refine name_file fun t n hn => ?_
  cases castAs h typeDirectory n with
  | error _ => exact hn
  | ok _ => exact hf t n hn

theorem name_reg {β : Type} {h : FH} {f : TimeSpec → Inode → Res β × Inode} (hf : ∀ t n, Entries same P n.entries → Entries same P (f t n).2.entries) :
    NameSec same P (Sec.reg h f) := by
  refine name_file fun t n hn => ?_
  cases castAs h typeRegular n with
  | error _ => exact hn
  | ok _ => exact hf t n hn

theorem name_pure {α : Type} (a : α) : NameSec same P (Sec.pure a) := fun _ h => h

theorem name_bind {α β : Type} {x : Sec α} {f : α → Sec β} (hx : NameSec same P x) (hf : ∀ a, NameSec same P (f a)) : NameSec same P (Sec.bind x f) := by
  intro fs h
  have h1 := hx fs h
  unfold Sec.bind
  revert h1
  cases x fs with
  | mk r fs' =>
    cases r with
    | error e => exact id
    | ok a => exact fun h1 => hf a fs' h1

theorem name_openAs (id : Bytes) (type : Nat) : NameSec same P (secOpenAs id type) := by
  intro fs h
  unfold secOpenAs
  split
  · split <;> exact h
  · split
    · exact h
    · split <;> exact h

theorem name_getParent (h : FH) : NameSec same P (secGetParent h) := name_file fun _ _ hn => hn
theorem name_setParent (h : FH) (id : Bytes) : NameSec same P (secSetParent h id) := name_file fun _ _ hn => hn
theorem name_unlink (h : FH) : NameSec same P (secUnlink h) := name_file fun _ _ hn => hn
theorem name_flush (h : FH) : NameSec same P (secFlush h) := name_file fun _ _ hn => hn
theorem name_attr (h : FH) (f : TimeSpec → FileAttr → FileAttr) : NameSec same P (secAttr h f) := name_file fun _ _ hn => hn
theorem name_stat (cfg : FsCfg) (ov : OwnerOverride) (h : FH) : NameSec same P (secStat cfg ov h) := name_file fun _ _ hn => hn
theorem name_readdir (cfg : FsCfg) (fill : Nat → Int) (h : FH) : NameSec same P (secReaddir cfg fill h) := name_dir fun _ _ hn => hn
theorem name_read (cfg : FsCfg) (h : FH) (off len : Nat) : NameSec same P (secRead cfg h off len) := name_reg fun _ _ hn => hn
theorem name_write (cfg : FsCfg) (h : FH) (off : Nat) (d : Bytes) : NameSec same P (secWrite cfg h off d) := name_reg fun _ _ hn => hn
theorem name_truncate (cfg : FsCfg) (h : FH) (size : Nat) : NameSec same P (secTruncate cfg h size) := name_reg fun _ _ hn => hn

theorem name_linkGet (cfg : FsCfg) (h : FH) : NameSec same P (secLinkGet cfg h) := by
  refine name_file fun t n hn => ?_
  cases castAs h typeSymlink n <;> exact hn

theorem name_linkSet (cfg : FsCfg) (h : FH) (target : Bytes) : NameSec same P (secLinkSet cfg h target) := by
  refine name_file fun t n hn => ?_
  cases castAs h typeSymlink n <;> exact hn

theorem name_get (cfg : FsCfg) (h : FH) (name : Bytes) : NameSec same P (secGet cfg h name) := by
  refine name_dir fun t n hn => ?_
  unfold Inode.getEntry
  dsimp only
  split <;> exact hn

theorem name_unlinkEmpty (cfg : FsCfg) (h : FH) : NameSec same P (secUnlinkEmpty cfg h) := by
  refine name_dir fun t n hn => ?_
  unfold Inode.unlinkEmpty
  dsimp only
  split <;> exact hn

theorem name_remove (cfg : FsCfg) (h : FH) (name : Bytes) : NameSec same P (secRemove cfg h name) := by
  refine name_dir fun t n hn => ?_
  unfold Inode.removeEntry
  dsimp only
  split
  · exact hn
  · exact ⟨fun e he => hn.1 e (List.mem_filter.mp he).1, hn.2.filter _⟩

theorem name_create (cfg : FsCfg) (id : Bytes) (type : Nat) (mode uid gid : UInt32) : NameSec same P (secCreate cfg id type mode uid gid) := by
  intro fs h
  unfold secCreate
  split
  · exact h
  · cases hg : fs.get id with
    | some n => exact h
    | none =>
      intro k x hx
      unfold FullFs.get at hx
      dsimp only at hx
      rw [lookup_append] at hx
      cases hl : fs.nodes.lookup k with
      | some y =>
        rw [hl] at hx
        have : y = x := by simpa using hx
        subst this
        exact h k y hl
      | none =>
        rw [hl] at hx
        by_cases hk : k = id
        · subst hk
          simp at hx
          subst hx
          exact ⟨(fun _ h => nomatch h), List.Pairwise.nil⟩
        · simp [hk] at hx

end

section
variable {cfg : FsCfg} {P : Bytes → Prop}

theorem name_add (h : FH) {e : DirEntry} (he : e.name.length ≤ 255 → P e.name) : NameSec cfg.same P (secAdd cfg h e) := by
  refine name_dir fun t n hn => ?_
  unfold Inode.addEntry
  dsimp only
  split
  · exact hn
  · rename_i hl
    split
    · exact hn
    · rename_i ha
      refine ⟨fun x hx => ?_, List.pairwise_cons.mpr ⟨fun x hx => ?_, hn.2⟩⟩
      · rcases List.mem_cons.mp hx with rfl | hx
        · exact he (Nat.le_of_not_lt hl)
        · exact hn.1 x hx
      · cases hs : cfg.same e.name x.name with
        | false => rfl
        | true => exact (ha (List.any_eq_true.mpr ⟨x, hx, hs⟩)).elim

theorem name_link (base : FH) {last : Bytes} (f : FH) (hl : last.length ≤ 255 → P last) : NameSec cfg.same P (secLink cfg base last f) := by
  refine name_bind (name_file fun _ _ hn => hn) fun type => name_bind (name_add _ hl) fun added => ?_
  split
  · exact name_file fun _ _ hn => hn
  · exact name_pure _

theorem name_rename (bf : FH) {lf : Bytes} (bt : FH) {lt : Bytes} (h1 : lf.length ≤ 255 → P lf) (h2 : lt.length ≤ 255 → P lt) :
    NameSec cfg.same P (secRename cfg bf lf bt lt) := by
  refine name_bind (name_remove _ _ _) fun r => ?_
  cases r with
  | none => exact name_pure _
  | some x =>
    refine name_bind (name_remove _ _ _) fun r2 => ?_
    cases r2 with
    | none => exact name_bind (name_add _ h2) fun _ => name_pure _
    | some y =>
      dsimp only
      split
      · exact name_bind (name_add _ h1) fun _ => name_bind (name_add _ h2) fun _ => name_pure _
      · exact name_bind (name_add _ h2) fun _ => name_pure _

end

/-! ## Programs -/

section
variable (same : Bytes → Bytes → Bool) (P : Bytes → Prop)

/-- All sections of a program keep names as they should be, and what it returns is as `Q` says. -/
def NameProg {α : Type} (Q : α → Prop) : Prog α → Prop
  | .ret a => Q a
  | .throw _ => True
  | .sec f k => NameSec same P f ∧ ∀ b, NameProg Q (k b)

variable {same P}

theorem NameProg.bind {α β : Type} {Q : α → Prop} {R : β → Prop} {g : α → Prog β} :
    ∀ {p : Prog α}, NameProg same P Q p → (∀ a, Q a → NameProg same P R (g a)) → NameProg same P R (p.bind g)
  | .ret a, h, hg => hg a h
  | .throw _, _, _ => trivial
  | .sec _ _, h, hg => ⟨h.1, fun b => NameProg.bind (h.2 b) hg⟩

theorem NameProg.one {α β : Type} {R : α → Prop} {f : Sec β} {g : β → Prog α} (h : NameSec same P f) (hg : ∀ b, NameProg same P R (g b)) :
    NameProg same P R ((Prog.one f).bind g) := ⟨h, hg⟩

/-- Nothing is asked of what is returned. -/
abbrev Any {α : Type} : α → Prop := fun _ => True

theorem nameProg_walk (cfg : FsCfg) {rec : Bytes → FH → List Bytes → Prog (Option FH)} (hr : ∀ i h l, NameProg same P Any (rec i h l)) :
    ∀ (l : List Bytes) (i : Bytes) (h : FH), NameProg same P Any (walk cfg rec i h l)
  | [], _, _ => trivial
  | s :: rest, i, h => by
    rw [walk]
    split
    · exact nameProg_walk cfg hr rest i h
    · split
      · exact .one (name_getParent _) fun _ => .one (name_openAs _ _) fun _ => nameProg_walk cfg hr rest _ _
      · refine .one (name_get _ _ _) fun found => ?_
        cases found with
        | none => trivial
        | some e =>
          refine .one (name_openAs _ _) fun _ => .one (name_setParent _ _) fun _ => ?_
          split
          · refine .one (name_linkGet _ _) fun t => NameProg.bind (hr _ _ _) fun r _ => ?_
            cases r with
            | none => trivial
            | some c => exact nameProg_walk cfg hr rest _ _
          · exact nameProg_walk cfg hr rest _ _

theorem nameProg_genericOpen (cfg : FsCfg) : ∀ (k : Nat) (i : Bytes) (h : FH) (l : List Bytes), NameProg same P Any (genericOpen cfg k i h l)
  | 0, _, _, _ => trivial
  | k + 1, i, h, l => nameProg_walk cfg (nameProg_genericOpen cfg k) l i h

theorem nameProg_openBase (cfg : FsCfg) (path : Bytes) : NameProg same P (fun x => x.2 = lastOf path) (openBase cfg path) := by
  unfold openBase lastOf
  refine .one (name_openAs _ _) fun root => ?_
  cases (splitPath path).getLast? with
  | none => exact rfl
  | some last =>
    dsimp only
    split
    · exact rfl
    · refine NameProg.bind (nameProg_genericOpen _ _ _ _ _) fun r _ => ?_
      cases r with
      | none => trivial
      | some d => exact rfl

theorem nameProg_openAll (cfg : FsCfg) (path : Bytes) (fl : Bool) : NameProg same P Any (openAll cfg path fl) := by
  unfold openAll
  split
  · exact .one (name_openAs _ _) fun _ => trivial
  · refine NameProg.bind (nameProg_openBase _ _) fun x _ => .one (name_get _ _ _) fun found => ?_
    cases found with
    | none => trivial
    | some e =>
      refine .one (name_openAs _ _) fun _ => .one (name_setParent _ _) fun _ => ?_
      split
      · exact .one (name_linkGet _ _) fun t => nameProg_genericOpen _ _ _ _ _
      · trivial

end

section
variable {cfg : FsCfg} {P : Bytes → Prop}

theorem nameProg_createFile {path : Bytes} (mode : UInt32) (type : Nat) (uid gid : UInt32) (id : Bytes) (hp : (lastOf path).length ≤ 255 → P (lastOf path)) :
    NameProg cfg.same P Any (createFile cfg path mode type uid gid id) := by
  unfold createFile
  refine NameProg.bind (nameProg_openBase _ _) fun x hx => .one (name_create _ _ _ _ _ _) fun h => .one (name_add _ (by rw [hx]; exact hp)) fun added => ?_
  split
  · exact .one (name_setParent _ _) fun _ => trivial
  · exact .one (name_unlink _) fun _ => trivial

theorem nameProg_withAttr {path : Bytes} {f : TimeSpec → FileAttr → FileAttr} : NameProg cfg.same P Any (withAttr cfg path false f) := by
  unfold withAttr
  refine NameProg.bind (nameProg_openAll _ _ _) fun r _ => ?_
  cases r with
  | none => trivial
  | some h => exact .one (name_attr _ _) fun _ => trivial

/-- All sections of all calls keep names as they should be. -/
theorem nameProg_op (op : FullOp) (hp : ∀ p ∈ placesOf op, (lastOf p).length ≤ 255 → P (lastOf p)) : NameProg cfg.same P Any (op.prog cfg) := by
  cases op with
  | create p m a b i => exact NameProg.bind (nameProg_createFile _ _ _ _ _ (hp p (by simp [placesOf]))) fun _ _ => trivial
  | mkdir p m a b i => exact NameProg.bind (nameProg_createFile _ _ _ _ _ (hp p (by simp [placesOf]))) fun _ _ => trivial
  | symlink t f a b i =>
    exact NameProg.bind (nameProg_createFile _ _ _ _ _ (hp f (by simp [placesOf]))) fun _ _ => .one (name_linkSet _ _ _) fun _ => trivial
  | unlink p =>
    refine NameProg.bind (nameProg_openBase _ _) fun x _ => .one (name_remove _ _ _) fun r => ?_
    cases r with
    | none => trivial
    | some e => exact .one (name_openAs _ _) fun _ => .one (name_unlink _) fun _ => trivial
  | rmdir p =>
    refine NameProg.bind (nameProg_openBase _ _) fun x _ => .one (name_remove _ _ _) fun r => ?_
    cases r with
    | none => trivial
    | some e => exact .one (name_openAs _ _) fun _ => .one (name_unlinkEmpty _ _) fun _ => trivial
  | link s t =>
    refine NameProg.bind (nameProg_openAll _ _ _) fun r _ => ?_
    cases r with
    | none => trivial
    | some h =>
      exact NameProg.bind (nameProg_openBase _ _) fun x hx => .one (name_link _ _ (by rw [hx]; exact hp t (by simp [placesOf]))) fun _ => trivial
  | rename f t =>
    refine NameProg.bind (nameProg_openBase _ _) fun x hx => NameProg.bind (nameProg_openBase _ _) fun y hy =>
      .one (name_rename _ _ (by rw [hx]; exact hp f (by simp [placesOf])) (by rw [hy]; exact hp t (by simp [placesOf]))) fun r => ?_
    cases r with
    | missing => trivial
    | done => trivial
    | replaced e => exact .one (name_openAs _ _) fun _ => .one (name_unlink _) fun _ => trivial
  | chmod p m => exact nameProg_withAttr
  | chown p a b => exact nameProg_withAttr
  | utimens p g ts => exact nameProg_withAttr
  | getattr p =>
    refine NameProg.bind (Q := Any) (NameProg.bind (nameProg_openAll _ _ _) fun r _ => ?_) fun _ _ => trivial
    cases r with
    | none => trivial
    | some h => exact .one (name_stat _ _ _) fun _ => trivial
  | «open» p tr =>
    refine NameProg.bind (Q := Any) (NameProg.bind (nameProg_openAll _ _ _) fun r _ => ?_) fun _ _ => trivial
    cases r with
    | none => trivial
    | some h =>
      cases tr with
      | false => trivial
      | true => exact .one (name_truncate _ _ _) fun _ => trivial
  | readlink p n =>
    refine NameProg.bind (Q := Any) ?_ fun _ _ => trivial
    unfold fullReadlink
    split
    · trivial
    · split
      · trivial
      · refine NameProg.bind (nameProg_openAll _ _ _) fun r _ => ?_
        cases r with
        | none => trivial
        | some h => exact .one (name_linkGet _ _) fun _ => trivial
  | opendir p =>
    refine NameProg.bind (Q := Any) (NameProg.bind (nameProg_openAll _ _ _) fun r _ => ?_) fun _ _ => trivial
    cases r with
    | none => trivial
    | some h => dsimp only; split <;> trivial
  | truncate p n =>
    refine NameProg.bind (nameProg_openAll _ _ _) fun r _ => ?_
    cases r with
    | none => trivial
    | some h => exact .one (name_truncate _ _ _) fun _ => trivial
  | read h off len => exact NameProg.one (name_read _ _ _ _) fun _ => trivial
  | write h off x => exact NameProg.one (name_write _ _ _ _) fun _ => trivial
  | ftruncate h n => exact NameProg.one (name_truncate _ _ _) fun _ => trivial
  | fgetattr h => exact NameProg.one (name_stat _ _ _) fun _ => trivial
  | readdir h fill =>
    refine NameProg.bind (Q := Any) ?_ fun _ _ => trivial
    unfold fullReaddir
    split
    · trivial
    · exact .one (name_readdir _ _ _) fun _ => trivial
  | flush h => exact NameProg.one (name_flush _) fun _ => trivial
  | fsync h => exact NameProg.one (name_file fun _ _ hn => hn) fun _ => trivial

/-! ## Histories -/

/-- Names are as they should be, and all threads keep them so. -/
def NameSys (cfg : FsCfg) (P : Bytes → Prop) (s : FullSys) : Prop := NamesAre cfg.same P s.fs ∧ ∀ p ∈ s.threads, NameProg cfg.same P Any p

theorem threads_set {s : FullSys} {i : Nat} {p : Prog Int} (h : ∀ p ∈ s.threads, NameProg cfg.same P Any p) (hp : NameProg cfg.same P Any p) :
    ∀ q ∈ s.threads.set i p, NameProg cfg.same P Any q := by
  intro q hq
  rcases List.mem_or_eq_of_mem_set hq with hq | rfl
  · exact h q hq
  · exact hp

theorem step_names {s : FullSys} (h : NameSys cfg P s) (e : FullEvent) (hp : ∀ op, e = .start op → ∀ p ∈ placesOf op, (lastOf p).length ≤ 255 → P (lastOf p)) :
    NameSys cfg P (s.step cfg e) := by
  cases e with
  | start op =>
    refine ⟨h.1, fun p hm => ?_⟩
    rcases List.mem_append.mp hm with hm | hm
    · exact h.2 p hm
    · obtain rfl := List.mem_singleton.mp hm
      exact nameProg_op op (hp op rfl)
  | tick now => exact h
  | fail i er =>
    unfold FullSys.step
    dsimp only
    split
    · exact ⟨h.1, threads_set h.2 trivial⟩
    · exact h
  | evict k =>
    unfold FullSys.step
    dsimp only
    cases hg : s.fs.get k with
    | none => exact h
    | some n => exact ⟨names_set hg h.1 (h.1 k n hg), h.2⟩
  | reap k =>
    unfold FullSys.step
    dsimp only
    cases hg : s.fs.get k with
    | none => exact h
    | some n =>
      dsimp only
      split
      · refine ⟨fun id y hy => ?_, h.2⟩
        have hy2 : (s.fs.nodes.filter fun p => p.1 ≠ k).lookup id = some y := hy
        rw [nodes_lookup_filter_ne] at hy2
        split at hy2
        · cases hy2
        · exact h.1 id y hy2
      · exact h
  | step i =>
    unfold FullSys.step FullSys.stepThread
    dsimp only
    cases ht : s.threads[i]? with
    | none => exact h
    | some p =>
      have hq := h.2 p (List.mem_of_getElem? ht)
      cases p with
      | ret a => exact h
      | throw er => exact h
      | sec f k =>
        have h1 := hq.1 s.fs h.1
        dsimp only
        revert h1
        cases f s.fs with
        | mk r fs' =>
          intro h1
          cases r with
          | error er => exact ⟨h1, threads_set h.2 trivial⟩
          | ok b => exact ⟨h1, threads_set h.2 (hq.2 b)⟩

theorem run_names : ∀ (evs : List FullEvent) (s : FullSys), NameSys cfg P s →
    (∀ op, .start op ∈ evs → ∀ p ∈ placesOf op, (lastOf p).length ≤ 255 → P (lastOf p)) → NameSys cfg P (s.run cfg evs)
  | [], _, h, _ => h
  | e :: evs, s, h, hp => run_names evs _ (step_names h e fun op he => hp op (by rw [he]; exact List.mem_cons_self))
      fun op ho => hp op (List.mem_cons_of_mem _ ho)

end

end Securefs.Ln
