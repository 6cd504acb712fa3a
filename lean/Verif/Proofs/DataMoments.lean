import Verif.Proofs.Moments
import Verif.Spec.DataMoments
/-!
# Helper lemmas: the moment at which contents are changed
-/

namespace Securefs.Dm
open Spec Mo

theorem contents_get {fs : FullFs} {id : Bytes} : contents fs id = (fs.get id).map (·.data) := by
  simp only [contents, viewOf, Option.map_map]
  cases fs.get id <;> rfl

theorem get_set {fs : FullFs} {id : Bytes} {n : Inode} (h : fs.get id = some n) (m : Inode) (d : Bytes) :
    (fs.set id m).get d = if d = id then some m else fs.get d := by
  by_cases hd : d = id
  · subst hd
    rw [if_pos rfl, get_set_self h m]
  · rw [if_neg hd, get_set_ne fs m hd]

theorem still_refl (fs : FullFs) : Moment.still (fs, fs) := fun _ => .inl rfl

theorem contents_set {fs : FullFs} {id : Bytes} {n : Inode} (h : fs.get id = some n) (m : Inode) (d : Bytes) :
    contents (fs.set id m) d = if d = id then some m.data else contents fs d := by
  rw [contents_get, get_set h, contents_get]
  split <;> rfl

theorem still_set {fs : FullFs} {id : Bytes} {n m : Inode} (h : fs.get id = some n) (e : m.data = n.data) : Moment.still (fs, fs.set id m) := by
  intro d
  refine .inl ?_
  show contents (fs.set id m) d = contents fs d
  rw [contents_set h]
  split
  · rename_i hd
    subst hd
    rw [contents_get, h, e]
    rfl
  · rfl

/-- A section that changes no contents. -/
def StillSec {β : Type} (f : Sec β) : Prop := ∀ fs, Moment.still (fs, (f fs).2)

theorem still_file {β : Type} {id : Bytes} {f : TimeSpec → Inode → Res β × Inode} (h : ∀ now n, (f now n).2.data = n.data) : StillSec (Sec.file id f) := by
  intro fs
  unfold Sec.file
  cases hg : fs.get id with
  | none => exact still_refl fs
  | some n => exact still_set hg (h _ _)

theorem still_dir {β : Type} {h : FH} {f : TimeSpec → Inode → Res β × Inode} (hf : ∀ now n, (f now n).2.data = n.data) : StillSec (Sec.dir h f) := by
  refine still_file fun now n => ?_
  cases castAs h typeDirectory n with
  | error e => rfl
  | ok _ => exact hf now n

theorem still_reg {β : Type} {h : FH} {f : TimeSpec → Inode → Res β × Inode} (hf : ∀ now n, (f now n).2.data = n.data) : StillSec (Sec.reg h f) := by
  refine still_file fun now n => ?_
  cases castAs h typeRegular n with
  | error e => rfl
  | ok _ => exact hf now n

theorem still_openAs (id : Bytes) (type : Nat) : StillSec (secOpenAs id type) := by
  intro fs
  unfold secOpenAs
  split
  · split <;> exact still_refl fs
  · split
    · exact still_refl fs
    · split <;> exact still_refl fs

theorem still_get (cfg : FsCfg) (h : FH) (name : Bytes) : StillSec (secGet cfg h name) := by
  refine still_dir fun now n => ?_
  simp only [Inode.getEntry]
  split <;> rfl

theorem still_getParent (h : FH) : StillSec (secGetParent h) := still_file fun _ _ => rfl
theorem still_setParent (h : FH) (id : Bytes) : StillSec (secSetParent h id) := still_file fun _ _ => rfl
theorem still_unlink (h : FH) : StillSec (secUnlink h) := still_file fun _ _ => rfl
theorem still_attr (h : FH) (f : TimeSpec → FileAttr → FileAttr) : StillSec (secAttr h f) := still_file fun _ _ => rfl
theorem still_flush (h : FH) : StillSec (secFlush h) := still_file fun _ _ => rfl
theorem still_stat (cfg : FsCfg) (ov : OwnerOverride) (h : FH) : StillSec (secStat cfg ov h) := still_file fun _ _ => rfl
theorem still_readdir (cfg : FsCfg) (fill : Nat → Int) (h : FH) : StillSec (secReaddir cfg fill h) := still_dir fun _ _ => rfl
theorem still_read (cfg : FsCfg) (h : FH) (off len : Nat) : StillSec (secRead cfg h off len) := still_reg fun _ _ => rfl

theorem still_linkGet (cfg : FsCfg) (h : FH) : StillSec (secLinkGet cfg h) := by
  refine still_file fun now n => ?_
  cases castAs h typeSymlink n <;> rfl

theorem still_unlinkEmpty (cfg : FsCfg) (h : FH) : StillSec (secUnlinkEmpty cfg h) := by
  refine still_dir fun now n => ?_
  unfold Inode.unlinkEmpty
  cases n.entries <;> rfl

theorem still_add (cfg : FsCfg) (h : FH) (e : DirEntry) : StillSec (secAdd cfg h e) := by
  refine still_dir fun now n => ?_
  simp only [Inode.addEntry]
  split
  · rfl
  · split <;> rfl

theorem still_remove (cfg : FsCfg) (h : FH) (name : Bytes) : StillSec (secRemove cfg h name) := by
  refine still_dir fun now n => ?_
  simp only [Inode.removeEntry]
  split <;> rfl

theorem still_trans {x y z : FullFs} (h1 : Moment.still (x, y)) (h2 : Moment.still (y, z)) : Moment.still (x, z) := by
  intro id
  have a := h1 id
  have b := h2 id
  dsimp only at a b ⊢
  rcases a with a | ⟨a, a'⟩ <;> rcases b with b | ⟨b, b'⟩
  · exact .inl (b.trans a)
  · exact .inr ⟨a.symm.trans b, b'⟩
  · exact .inr ⟨a, b.trans a'⟩
  · rw [a'] at b; cases b

theorem still_bind {α β : Type} {x : Sec α} {f : α → Sec β} (hx : StillSec x) (hf : ∀ a, StillSec (f a)) : StillSec (Sec.bind x f) := by
  intro fs
  have h1 := hx fs
  unfold Sec.bind
  revert h1
  cases x fs with
  | mk r fs1 =>
    intro h1
    cases r with
    | error e => exact h1
    | ok a => exact still_trans h1 (hf a fs1)

theorem still_pure {α : Type} (a : α) : StillSec (Sec.pure a) := fun fs => still_refl fs

theorem still_link (cfg : FsCfg) (base : FH) (last : Bytes) (f : FH) : StillSec (secLink cfg base last f) := by
  unfold secLink
  refine still_bind (still_file fun _ _ => rfl) fun t => still_bind (still_add _ _ _) fun added => ?_
  split
  · exact still_file fun _ _ => rfl
  · exact still_pure _

theorem still_rename (cfg : FsCfg) (bf : FH) (lf : Bytes) (bt : FH) (lt : Bytes) : StillSec (secRename cfg bf lf bt lt) := by
  unfold secRename
  refine still_bind (still_remove _ _ _) fun r => ?_
  cases r with
  | none => exact still_pure _
  | some x =>
    refine still_bind (still_remove _ _ _) fun r2 => ?_
    cases r2 with
    | none => exact still_bind (still_add _ _ _) fun _ => still_pure _
    | some y =>
      dsimp only
      split
      · exact still_bind (still_add _ _ _) fun _ => still_bind (still_add _ _ _) fun _ => still_pure _
      · exact still_bind (still_add _ _ _) fun _ => still_pure _

theorem still_create (cfg : FsCfg) (id : Bytes) (type : Nat) (mode uid gid : UInt32) : StillSec (secCreate cfg id type mode uid gid) := by
  intro fs
  unfold secCreate
  split
  · exact still_refl fs
  · cases hg : fs.get id with
    | some n => exact still_refl fs
    | none =>
      intro d
      by_cases hd : d = id
      · subst hd
        refine .inr ⟨?_, ?_⟩
        · show contents fs d = none
          rw [contents_get, hg]
          rfl
        · rw [contents_get]
          unfold FullFs.get at hg ⊢
          rw [lookup_append, hg]
          simp
      · refine .inl ?_
        rw [contents_get, contents_get]
        unfold FullFs.get
        rw [lookup_append]
        cases hl : fs.nodes.lookup d with
        | some n => rfl
        | none => simp [hd]

/-! ## Programs that change no contents -/

/-- No section of the program changes contents. -/
def StillProg {α : Type} : Prog α → Prop
  | .ret _ => True
  | .throw _ => True
  | .sec f k => StillSec f ∧ ∀ b, StillProg (k b)

theorem StillProg.bind {α β : Type} {g : α → Prog β} : ∀ {p : Prog α}, StillProg p → (∀ a, StillProg (g a)) → StillProg (p.bind g)
  | .ret a, _, hg => hg a
  | .throw _, _, _ => trivial
  | .sec _ _, h, hg => ⟨h.1, fun b => StillProg.bind (h.2 b) hg⟩

theorem StillProg.one {α β : Type} {f : Sec β} {g : β → Prog α} (h : StillSec f) (hg : ∀ b, StillProg (g b)) : StillProg ((Prog.one f).bind g) := ⟨h, hg⟩

theorem allStill_nil : AllStill [] := fun _ h => nomatch h

theorem allStill_cons {m : Moment} {ms : List Moment} (h : m.still) (hs : AllStill ms) : AllStill (m :: ms) := by
  intro x hx
  rcases List.mem_cons.mp hx with rfl | hx
  · exact h
  · exact hs x hx

theorem allStill_append {a b : List Moment} (ha : AllStill a) (hb : AllStill b) : AllStill (a ++ b) := by
  intro x hx
  rcases List.mem_append.mp hx with hx | hx
  · exact ha x hx
  · exact hb x hx

theorem StillProg.always {α : Type} : ∀ {p : Prog α}, StillProg p → Always p fun ms _ => AllStill ms
  | .ret _, _ => allStill_nil
  | .throw _, _ => allStill_nil
  | .sec f k, h => by
    refine ⟨allStill_nil, fun fs => ?_⟩
    have h1 := h.1 fs
    revert h1
    cases f fs with
    | mk x fs' =>
      intro h1
      cases x with
      | error e => exact allStill_cons h1 allStill_nil
      | ok b => exact (StillProg.always (h.2 b)).mono fun ms r hm => allStill_cons h1 hm

theorem always_and {α : Type} : ∀ {p : Prog α} {R R' : List Moment → Option (Res α) → Prop}, Always p R → Always p R' →
    Always p fun ms r => R ms r ∧ R' ms r
  | .ret _, _, _, h, h' => ⟨h, h'⟩
  | .throw _, _, _, h, h' => ⟨h, h'⟩
  | .sec f k, R, R', h, h' => by
    refine ⟨⟨h.1, h'.1⟩, fun fs => ?_⟩
    have h1 := h.2 fs
    have h2 := h'.2 fs
    revert h1 h2
    cases f fs with
    | mk x fs' =>
      intro h1 h2
      cases x with
      | error e => exact ⟨h1, h2⟩
      | ok b => exact always_and h1 h2

theorem stillProg_walk (cfg : FsCfg) {rec : Bytes → FH → List Bytes → Prog (Option FH)} (hr : ∀ i h l, StillProg (rec i h l)) :
    ∀ (l : List Bytes) (i : Bytes) (h : FH), StillProg (walk cfg rec i h l)
  | [], _, _ => trivial
  | s :: rest, i, h => by
    rw [walk]
    split
    · exact stillProg_walk cfg hr rest i h
    · split
      · exact .one (still_getParent _) fun _ => .one (still_openAs _ _) fun _ => stillProg_walk cfg hr rest _ _
      · refine .one (still_get _ _ _) fun found => ?_
        cases found with
        | none => trivial
        | some e =>
          refine .one (still_openAs _ _) fun _ => .one (still_setParent _ _) fun _ => ?_
          split
          · refine .one (still_linkGet _ _) fun t => StillProg.bind (hr _ _ _) fun r => ?_
            cases r with
            | none => trivial
            | some c => exact stillProg_walk cfg hr rest _ _
          · exact stillProg_walk cfg hr rest _ _

theorem stillProg_genericOpen (cfg : FsCfg) : ∀ (d : Nat) (i : Bytes) (h : FH) (l : List Bytes), StillProg (genericOpen cfg d i h l)
  | 0, _, _, _ => trivial
  | d + 1, i, h, l => stillProg_walk cfg (stillProg_genericOpen cfg d) l i h

theorem stillProg_openBase (cfg : FsCfg) (path : Bytes) : StillProg (openBase cfg path) := by
  unfold openBase
  refine .one (still_openAs _ _) fun root => ?_
  split
  · trivial
  · split
    · trivial
    · refine StillProg.bind (stillProg_genericOpen _ _ _ _ _) fun r => ?_
      cases r <;> trivial

theorem stillProg_openAll (cfg : FsCfg) (path : Bytes) (fl : Bool) : StillProg (openAll cfg path fl) := by
  unfold openAll
  split
  · exact .one (still_openAs _ _) fun _ => trivial
  · refine StillProg.bind (stillProg_openBase _ _) fun x => .one (still_get _ _ _) fun found => ?_
    cases found with
    | none => trivial
    | some e =>
      refine .one (still_openAs _ _) fun _ => .one (still_setParent _ _) fun _ => ?_
      split
      · exact .one (still_linkGet _ _) fun t => stillProg_genericOpen _ _ _ _ _
      · trivial

theorem stillProg_createFile (cfg : FsCfg) (path : Bytes) (mode : UInt32) (type : Nat) (uid gid : UInt32) (id : Bytes) :
    StillProg (createFile cfg path mode type uid gid id) := by
  unfold createFile
  refine StillProg.bind (stillProg_openBase _ _) fun x => .one (still_create _ _ _ _ _ _) fun _ => .one (still_add _ _ _) fun b => ?_
  split
  · exact .one (still_setParent _ _) fun _ => trivial
  · exact .one (still_unlink _) fun _ => trivial

theorem stillProg_withAttr (cfg : FsCfg) (path : Bytes) (fl : Bool) (f : TimeSpec → FileAttr → FileAttr) : StillProg (withAttr cfg path fl f) := by
  unfold withAttr
  refine StillProg.bind (stillProg_openAll _ _ _) fun r => ?_
  cases r with
  | none => trivial
  | some h => exact .one (still_attr _ _) fun _ => trivial

/-! ## Sections that change contents -/

theorem rewrites_set {fs : FullFs} {id : Bytes} {n m : Inode} {g : Bytes → Bytes} (h : fs.get id = some n) (e : m.data = g n.data) :
    Moment.rewrites (fs, fs.set id m) id g := by
  refine ⟨⟨n.data, ?_, ?_⟩, fun d hd => ?_⟩
  · show contents fs id = _
    rw [contents_get, h]
    rfl
  · show contents (fs.set id m) id = _
    rw [contents_set h, if_pos rfl, e]
  · show contents (fs.set id m) d = contents fs d
    rw [contents_set h, if_neg hd]

/-- A section on one file that changes its contents by `g` if it succeeds, and changes nothing otherwise. -/
def Changes {β : Type} (f : Sec β) (id : Bytes) (g : Bytes → Bytes) : Prop :=
  ∀ fs, match f fs with
    | (.ok _, fs') => Moment.rewrites (fs, fs') id g
    | (.error _, fs') => Moment.still (fs, fs')

theorem changes_file {β : Type} {id : Bytes} {f : TimeSpec → Inode → Res β × Inode} {g : Bytes → Bytes}
    (h : ∀ now n, ((∃ b, (f now n).1 = .ok b) ∧ (f now n).2.data = g n.data) ∨ ((∃ e, (f now n).1 = .error e) ∧ (f now n).2.data = n.data)) :
    Changes (Sec.file id f) id g := by
  intro fs
  unfold Sec.file
  cases hg : fs.get id with
  | none => exact still_refl fs
  | some n =>
    dsimp only
    rcases h fs.now n with ⟨⟨b, hb⟩, hd⟩ | ⟨⟨e, he⟩, hd⟩
    · rw [hb]; exact rewrites_set hg hd
    · rw [he]; exact still_set hg hd

theorem changes_reg {β : Type} {h : FH} {f : TimeSpec → Inode → Res β × Inode} {g : Bytes → Bytes}
    (hf : ∀ now n, (∃ b, (f now n).1 = .ok b) ∧ (f now n).2.data = g n.data) : Changes (Sec.reg h f) h.id g := by
  refine changes_file fun now n => ?_
  cases castAs h typeRegular n with
  | error e => exact .inr ⟨⟨e, rfl⟩, rfl⟩
  | ok _ => exact .inl (hf now n)

theorem changes_write (cfg : FsCfg) (h : FH) (off : Nat) (d : Bytes) : Changes (secWrite cfg h off d) h.id fun b => Spec.write b off d :=
  changes_reg fun _ _ => ⟨⟨(), rfl⟩, rfl⟩

theorem changes_truncate (cfg : FsCfg) (h : FH) (size : Nat) : Changes (secTruncate cfg h size) h.id fun b => resize b size :=
  changes_reg fun _ _ => ⟨⟨(), rfl⟩, rfl⟩

theorem changes_linkSet (cfg : FsCfg) (h : FH) (target : Bytes) : Changes (secLinkSet cfg h target) h.id fun b => target ++ b.drop target.length := by
  refine changes_file fun now n => ?_
  cases castAs h typeSymlink n with
  | error e => exact .inr ⟨⟨e, rfl⟩, rfl⟩
  | ok _ => exact .inl ⟨⟨(), rfl⟩, rfl⟩

theorem Changes.at {β : Type} {f : Sec β} {id : Bytes} {g : Bytes → Bytes} (h : Changes f id g) {fs fs' : FullFs} {b : β} (e : f fs = (.ok b, fs')) :
    Moment.rewrites (fs, fs') id g := by
  have := h fs
  rw [e] at this
  exact this

theorem Changes.at_error {β : Type} {f : Sec β} {id : Bytes} {g : Bytes → Bytes} (h : Changes f id g) {fs fs' : FullFs} {er : Err} (e : f fs = (.error er, fs')) :
    Moment.still (fs, fs') := by
  have := h fs
  rw [e] at this
  exact this

/-! ## The calls -/

/-- What is to hold of all executions of a call. -/
def DataR (same : Bytes → Bytes → Bool) (op : FullOp) (ms : List Moment) : Option (Res Int) → Prop
  | some (.ok v) => DataEffect same ms v op
  | _ => AllStill ms

theorem toCInt_small {n : Nat} (h : n < 2 ^ 31) : toCInt n = n := by
  unfold toCInt
  have : n % 2 ^ 32 = n := Nat.mod_eq_of_lt (by omega)
  rw [this, if_pos h]

theorem of_still {cfg : FsCfg} {same : Bytes → Bytes → Bool} {op : FullOp} (h : StillProg (op.prog cfg)) (he : ∀ ms v, AllStill ms → DataEffect same ms v op) :
    Always (op.prog cfg) (DataR same op) := by
  refine h.always.mono fun ms r hm => ?_
  match r, hm with
  | none, hm => exact hm
  | some (.error _), hm => exact hm
  | some (.ok v), hm => exact he ms v hm

/-- A section that changes contents, at the end of a call. -/
theorem always_last {β : Type} {same : Bytes → Bytes → Bool} {f : Sec β} {id : Bytes} {g : Bytes → Bytes} (hf : Changes f id g) {v : Int} {op : FullOp}
    {a : List Moment} (ha : AllStill a) (h : ∀ m : Moment, m.rewrites id g → DataEffect same (a ++ [m]) v op) :
    Always ((Prog.one f).bind fun _ => .ret v) fun ms r => DataR same op (a ++ ms) r := by
  refine Always.sec ?_ (fun fs e fs' he => ?_) fun fs b fs' hb => ?_
  · rw [List.append_nil]; exact ha
  · exact allStill_append ha (allStill_cons (hf.at_error he) allStill_nil)
  · exact h _ (hf.at hb)

/-- The same without anything before. -/
theorem always_only {β : Type} {same : Bytes → Bytes → Bool} {f : Sec β} {id : Bytes} {g : Bytes → Bytes} (hf : Changes f id g) {v : Int} {op : FullOp}
    (h : ∀ m : Moment, m.rewrites id g → DataEffect same [m] v op) : Always ((Prog.one f).bind fun _ => .ret v) (DataR same op) :=
  always_last (a := []) hf allStill_nil h

theorem always_openStill (cfg : FsCfg) (path : Bytes) (fl : Bool) :
    Always (openAll cfg path fl) fun ms r => AllR cfg.same path fl ms r ∧ AllStill ms :=
  always_and (always_openAll cfg path fl) (stillProg_openAll cfg path fl).always

theorem once_last {a : List Moment} {m : Moment} {P : List Moment → Moment → Prop} (ha : AllStill a) (h : P a m) : OnceData (a ++ [m]) P :=
  ⟨a, m, [], rfl, ha, allStill_nil, h⟩

theorem bind_assoc {α β γ : Type} {g : α → Prog β} {k : β → Prog γ} : ∀ (p : Prog α), (p.bind g).bind k = p.bind fun a => (g a).bind k
  | .ret _ => rfl
  | .throw _ => rfl
  | .sec f q => by
    show Prog.sec f _ = Prog.sec f _
    congr 1
    funext b
    exact bind_assoc (q b)

theorem always_createId (cfg : FsCfg) (path : Bytes) (mode : UInt32) (type : Nat) (uid gid : UInt32) (id : Bytes) :
    Always (createFile cfg path mode type uid gid id) fun _ r => ∀ h, r = some (.ok h) → h.id = id := by
  unfold createFile
  refine Always.bind (R' := fun _ _ => True) ((stillProg_openBase cfg path).always.mono fun _ _ _ => trivial) (fun a x _ => ?_)
    (fun _ _ _ h e => by cases e) (fun _ _ h e => by cases e)
  refine Always.sec (fun h e => by cases e) (fun _ _ _ _ h e => by cases e) fun fs h fs' hf => ?_
  have hh : h.id = id := by
    unfold secCreate at hf
    split at hf
    · cases hf
    · split at hf
      · cases hf
      · injection hf with hf _
        injection hf with hf
        rw [← hf]
  refine Always.sec (fun h e => by cases e) (fun _ _ _ _ h e => by cases e) fun fs2 ok fs2' _ => ?_
  cases ok with
  | true => exact Always.sec (fun h e => by cases e) (fun _ _ _ _ h e => by cases e) fun _ _ _ _ h' e => by cases e; exact hh
  | false => exact Always.sec (fun h e => by cases e) (fun _ _ _ _ h e => by cases e) fun _ _ _ _ h' e => by cases e

theorem always_data (cfg : FsCfg) (op : FullOp) : Always (op.prog cfg) (DataR cfg.same op) := by
  cases op with
  | create p m u g i => exact of_still (StillProg.bind (stillProg_createFile _ _ _ _ _ _ _) fun _ => trivial) fun _ _ h => h
  | mkdir p m u g i => exact of_still (StillProg.bind (stillProg_createFile _ _ _ _ _ _ _) fun _ => trivial) fun _ _ h => h
  | symlink t f u g i =>
    show Always (vsymlink cfg t f u g i) _
    unfold vsymlink
    have hid : Always (createFile cfg f 0x1a4 typeSymlink u g i) fun ms r => (∀ h, r = some (.ok h) → h.id = i) ∧ AllStill ms :=
      always_and (always_createId _ _ _ _ _ _ _) (stillProg_createFile _ _ _ _ _ _ _).always
    refine Always.bind hid (fun a h ha => ?_) (fun ms e h => h.2) fun ms h => h.2
    refine always_last (changes_linkSet cfg h t) ha.2 fun m hm => ?_
    rw [ha.1 h rfl] at hm
    exact ⟨rfl, once_last ha.2 hm⟩
  | unlink p =>
    refine of_still ?_ fun _ _ h => h
    refine StillProg.bind (stillProg_openBase _ _) fun x => .one (still_remove _ _ _) fun r => ?_
    cases r with
    | none => trivial
    | some e => exact .one (still_openAs _ _) fun _ => .one (still_unlink _) fun _ => trivial
  | rmdir p =>
    refine of_still ?_ fun _ _ h => h
    refine StillProg.bind (stillProg_openBase _ _) fun x => .one (still_remove _ _ _) fun r => ?_
    cases r with
    | none => trivial
    | some e => exact .one (still_openAs _ _) fun _ => .one (still_unlinkEmpty _ _) fun _ => trivial
  | link s d =>
    refine of_still ?_ fun _ _ h => h
    refine StillProg.bind (stillProg_openAll _ _ _) fun r => ?_
    cases r with
    | none => trivial
    | some h => exact StillProg.bind (stillProg_openBase _ _) fun x => .one (still_link _ _ _ _) fun _ => trivial
  | rename f t =>
    refine of_still ?_ fun _ _ h => h
    refine StillProg.bind (stillProg_openBase _ _) fun x => StillProg.bind (stillProg_openBase _ _) fun y => .one (still_rename _ _ _ _ _) fun r => ?_
    cases r with
    | missing => trivial
    | done => trivial
    | replaced e => exact .one (still_openAs _ _) fun _ => .one (still_unlink _) fun _ => trivial
  | chmod p m => exact of_still (stillProg_withAttr _ _ _ _) fun _ _ h => h
  | chown p u g => exact of_still (stillProg_withAttr _ _ _ _) fun _ _ h => h
  | utimens p ga ts => exact of_still (stillProg_withAttr _ _ _ _) fun _ _ h => h
  | getattr p =>
    refine of_still (StillProg.bind (StillProg.bind (stillProg_openAll _ _ _) fun r => ?_) fun _ => trivial) fun _ _ h => h
    cases r with
    | none => trivial
    | some h => exact .one (still_stat _ _ _) fun _ => trivial
  | «open» p tr =>
    cases tr with
    | false =>
      refine of_still (StillProg.bind (StillProg.bind (stillProg_openAll _ _ _) fun r => ?_) fun _ => trivial) fun _ _ h => h
      cases r <;> trivial
    | true =>
      show Always ((fullOpen cfg p true).bind fun r => .ret r.1) _
      unfold fullOpen
      rw [bind_assoc]
      refine Always.bind (always_openStill cfg p true) (fun a r ha => ?_) (fun ms e h => h.2) fun ms h => h.2
      cases r with
      | none =>
        show DataR cfg.same (.open p true) (a ++ []) (some (.ok (-2)))
        rw [List.append_nil]
        exact .inr ⟨rfl, ha.2⟩
      | some h => exact always_last (changes_truncate cfg h 0) ha.2 fun m hm => .inl ⟨rfl, once_last ha.2 ⟨h.id, ha.1.2, hm⟩⟩
  | readlink p n =>
    refine of_still (StillProg.bind ?_ fun _ => trivial) fun _ _ h => h
    unfold fullReadlink
    split
    · trivial
    · split
      · trivial
      · refine StillProg.bind (stillProg_openAll _ _ _) fun r => ?_
        cases r with
        | none => trivial
        | some h => exact .one (still_linkGet _ _) fun _ => trivial
  | opendir p =>
    refine of_still (StillProg.bind (StillProg.bind (stillProg_openAll _ _ _) fun r => ?_) fun _ => trivial) fun _ _ h => h
    cases r with
    | none => trivial
    | some h => dsimp only; split <;> trivial
  | truncate p n =>
    show Always (fullTruncate cfg p n) _
    unfold fullTruncate
    refine Always.bind (always_openStill cfg p true) (fun a r ha => ?_) (fun ms e h => h.2) fun ms h => h.2
    cases r with
    | none =>
      show DataR cfg.same (.truncate p n) (a ++ []) (some (.ok (-2)))
      rw [List.append_nil]
      exact .inr ⟨rfl, ha.2⟩
    | some h => exact always_last (changes_truncate cfg h n) ha.2 fun m hm => .inl ⟨rfl, once_last ha.2 ⟨h.id, ha.1.2, hm⟩⟩
  | read h off len =>
    show Always ((fullRead cfg h off len).bind fun r => .ret r.1) _
    refine Always.sec allStill_nil (fun fs e fs' he => ?_) fun fs b fs' hb => ?_
    · have := still_read cfg h off len fs
      rw [he] at this
      exact allStill_cons this allStill_nil
    · have hst := still_read cfg h off len fs
      rw [hb] at hst
      refine ⟨allStill_cons hst allStill_nil, (fs, fs'), ?_⟩
      unfold secRead Sec.reg Sec.file at hb
      cases hg : fs.get h.id with
      | none => rw [hg] at hb; cases hb
      | some n =>
        rw [hg] at hb
        refine ⟨n.data, rfl, ?_, fun hl => ?_⟩
        · show contents fs h.id = _
          rw [contents_get, hg]
          rfl
        · dsimp only at hb
          cases hc : castAs h typeRegular n with
          | error e => rw [hc] at hb; cases hb
          | ok _ =>
            rw [hc] at hb
            injection hb with hb _
            injection hb with hb
            subst hb
            exact toCInt_small hl
  | write h off d => exact always_only (changes_write cfg h off d) fun m hm => ⟨fun hl => toCInt_small hl, m, rfl, hm⟩
  | ftruncate h n => exact always_only (changes_truncate cfg h n) fun m hm => ⟨rfl, m, rfl, hm⟩
  | fgetattr h => exact of_still (StillProg.one (still_stat _ _ _) fun _ => trivial) fun _ _ h => h
  | readdir h fill =>
    refine of_still (StillProg.bind ?_ fun _ => trivial) fun _ _ h => h
    unfold fullReaddir
    split
    · trivial
    · exact .one (still_readdir _ _ _) fun _ => trivial
  | flush h => exact of_still (StillProg.one (still_flush _) fun _ => trivial) fun _ _ h => h
  | fsync h => exact of_still (StillProg.one (still_file fun _ _ => rfl) fun _ => trivial) fun _ _ h => h

/-! ## What the sections of a program give -/

theorem always_ran {α : Type} : ∀ (p : Prog α), Always p fun ms r => ∀ x, r = some x → Ran p ms x
  | .ret a => fun x h => by cases h; exact .ret a
  | .throw e => fun x h => by cases h; exact .throw e
  | .sec f k => by
    refine And.intro (fun x h => by cases h) fun fs => ?_
    cases hf : f fs with
    | mk r fs' =>
      cases r with
      | error e =>
        show ∀ x, some (Except.error e) = some x → _
        intro x h
        cases h
        exact .stop hf
      | ok b => exact (always_ran (k b)).mono fun ms r h x hx => .go hf (h x hx)

end Securefs.Dm
