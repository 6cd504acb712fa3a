import Verif.Spec.FullFs
import Mathlib.Data.List.Nodup
/-!
# Link counts: the credit invariant
-/

namespace Securefs

open Spec

/-! ## Association lists -/

theorem mem_of_get {fs : FullFs} {id : Bytes} {n : Inode} (h : fs.get id = some n) : (id, n) ∈ fs.nodes := by
  unfold FullFs.get at h
  revert h
  induction fs.nodes with
  | nil => intro h; cases h
  | cons p l ih =>
    intro h
    rw [List.lookup_cons] at h
    by_cases hp : id == p.1
    · rw [hp] at h
      simp only [Option.some.injEq] at h
      have := eq_of_beq hp
      subst h; subst this
      exact List.mem_cons_self
    · rw [Bool.not_eq_true] at hp
      rw [hp] at h
      exact List.mem_cons_of_mem _ (ih h)

theorem lookup_map_set (l : List (Bytes × Inode)) (id : Bytes) (n : Inode) (x : Bytes) :
    (l.map fun p => if p.1 = id then (id, n) else p).lookup x =
      if x = id then (l.lookup id).map fun _ => n else l.lookup x := by
  induction l with
  | nil => by_cases h : x = id <;> simp [h]
  | cons p l ih =>
    rw [List.map_cons, List.lookup_cons, List.lookup_cons, List.lookup_cons, ih]
    by_cases hp : p.1 = id
    · rw [if_pos hp]
      by_cases hx : x = id
      · subst hx
        rw [if_pos rfl]
        have e1 : (x == p.1) = true := by rw [hp]; exact beq_self_eq_true _
        rw [e1]
        simp
      · rw [if_neg hx, if_neg hx]
        have e1 : (x == id) = false := by simpa using hx
        have e2 : (x == p.1) = false := by rw [hp]; exact e1
        simp only [e1, e2]
    · rw [if_neg hp]
      by_cases hx : x = id
      · subst hx
        have e1 : (x == p.1) = false := by simpa using fun h => hp h.symm
        simp only [e1, if_pos]
      · rw [if_neg hx, if_neg hx]

theorem get_set (fs : FullFs) (id : Bytes) (n : Inode) (x : Bytes) :
    (fs.set id n).get x = if x = id then (fs.get id).map fun _ => n else fs.get x :=
  lookup_map_set fs.nodes id n x

theorem get_set_self {fs : FullFs} {id : Bytes} {m : Inode} (h : fs.get id = some m) (n : Inode) :
    (fs.set id n).get id = some n := by rw [get_set, if_pos rfl, h]; rfl

theorem get_set_ne (fs : FullFs) {id x : Bytes} (n : Inode) (h : x ≠ id) : (fs.set id n).get x = fs.get x := by
  rw [get_set, if_neg h]

theorem set_keys (fs : FullFs) (id : Bytes) (n : Inode) : (fs.set id n).nodes.map Prod.fst = fs.nodes.map Prod.fst := by
  unfold FullFs.set
  rw [List.map_map]
  apply List.map_congr_left
  intro p _
  simp only [Function.comp]
  by_cases h : p.1 = id
  · rw [if_pos h]; exact h.symm
  · rw [if_neg h]

/-- The number of entries of a directory that refer to a file. -/
def cnt (l : List DirEntry) (x : Bytes) : Nat := l.countP fun e => e.id == x

theorem nameCount_eq (fs : FullFs) (x : Bytes) : nameCount fs x = (fs.nodes.map fun p => cnt p.2.entries x).sum := by
  unfold nameCount cnt
  rw [← List.countP_eq_length_filter, List.countP_flatMap]
  rfl

theorem nodup_lookup_sum (l : List (Bytes × Inode)) (hl : (l.map Prod.fst).Nodup) (id : Bytes) (m n : Inode) (x : Bytes)
    (h : l.lookup id = some m) :
    ((l.map fun p => if p.1 = id then (id, n) else p).map fun p => cnt p.2.entries x).sum + cnt m.entries x =
      (l.map fun p => cnt p.2.entries x).sum + cnt n.entries x := by
  induction l with
  | nil => cases h
  | cons p l ih =>
    rw [List.map_cons, List.nodup_cons] at hl
    rw [List.lookup_cons] at h
    by_cases hp : p.1 = id
    · have e1 : (id == p.1) = true := by rw [hp]; exact beq_self_eq_true _
      rw [e1] at h
      simp only [Option.some.injEq] at h
      have hrest : (l.map fun p => if p.1 = id then (id, n) else p) = l := by
        conv_rhs => rw [← List.map_id l]
        apply List.map_congr_left
        intro q hq
        have : q.1 ≠ id := by
          intro hc
          apply hl.1
          rw [hp, ← hc]
          exact List.mem_map_of_mem hq
        rw [if_neg this]; rfl
      rw [List.map_cons, List.map_cons, List.map_cons, hrest, if_pos hp, List.sum_cons, List.sum_cons, h]
      dsimp only
      omega
    · have e1 : (id == p.1) = false := by simpa using fun h => hp h.symm
      rw [e1] at h
      have := ih hl.2 h
      rw [List.map_cons, List.map_cons, List.map_cons, if_neg hp, List.sum_cons, List.sum_cons]
      omega

theorem nameCount_set {fs : FullFs} (hk : (fs.nodes.map Prod.fst).Nodup) {id : Bytes} {m : Inode} (h : fs.get id = some m) (n : Inode)
    (x : Bytes) : nameCount (fs.set id n) x + cnt m.entries x = nameCount fs x + cnt n.entries x := by
  rw [nameCount_eq, nameCount_eq]
  exact nodup_lookup_sum fs.nodes hk id m n x h

theorem linkCount_set {fs : FullFs} {id : Bytes} {m : Inode} (h : fs.get id = some m) (n : Inode) (x : Bytes) :
    linkCount (fs.set id n) x = if x = id then n.attr.nlink.toNat else linkCount fs x := by
  unfold linkCount
  rw [get_set]
  by_cases hx : x = id
  · rw [if_pos hx, if_pos hx, h]; rfl
  · rw [if_neg hx, if_neg hx]

theorem linkCount_of {fs : FullFs} {id : Bytes} {m : Inode} (h : fs.get id = some m) : linkCount fs id = m.attr.nlink.toNat := by
  unfold linkCount; rw [h]

theorem le_sum_of_mem' : ∀ (l : List Nat) {a : Nat}, a ∈ l → a ≤ l.sum
  | b :: l, a, h => by
    rw [List.sum_cons]
    rcases List.mem_cons.mp h with h | h
    · omega
    · have := le_sum_of_mem' l h; omega

theorem cnt_le_nameCount {fs : FullFs} {id : Bytes} {m : Inode} (h : fs.get id = some m) (x : Bytes) :
    cnt m.entries x ≤ nameCount fs x := by
  rw [nameCount_eq]
  exact le_sum_of_mem' _ (List.mem_map_of_mem (f := fun p : Bytes × Inode => cnt p.2.entries x) (mem_of_get h))

/-- Link count minus number of names. -/
def bal (fs : FullFs) (x : Bytes) : Int := (linkCount fs x : Int) - nameCount fs x

theorem bal_set {fs : FullFs} (hk : (fs.nodes.map Prod.fst).Nodup) {id : Bytes} {m : Inode} (h : fs.get id = some m) (n : Inode)
    (x : Bytes) :
    bal (fs.set id n) x = bal fs x + (cnt m.entries x : Int) - cnt n.entries x +
      (if x = id then (n.attr.nlink.toNat : Int) - m.attr.nlink.toNat else 0) := by
  have h1 := nameCount_set hk h n x
  have h2 := linkCount_set h n x
  unfold bal
  rw [h2]
  by_cases hx : x = id
  · rw [if_pos hx, if_pos hx, hx, linkCount_of h]; rw [hx] at h1; omega
  · rw [if_neg hx, if_neg hx]; omega

theorem wf_set {cfg : FsCfg} {fs : FullFs} (hw : FsWF cfg fs) {id : Bytes} (n : Inode)
    (hn : n.entries.Pairwise fun a b => cfg.same a.name b.name = false) : FsWF cfg (fs.set id n) := by
  refine ⟨?_, ?_⟩
  · rw [set_keys]; exact hw.ids
  · intro p hp
    unfold FullFs.set at hp
    rw [List.mem_map] at hp
    obtain ⟨q, hq, hqp⟩ := hp
    by_cases h : q.1 = id
    · rw [if_pos h] at hqp; subst hqp; exact hn
    · rw [if_neg h] at hqp; subst hqp; exact hw.names q hq

theorem wf_entries {cfg : FsCfg} {fs : FullFs} (hw : FsWF cfg fs) {id : Bytes} {n : Inode} (h : fs.get id = some n) :
    n.entries.Pairwise fun a b => cfg.same a.name b.name = false := hw.names _ (mem_of_get h)

/-! ## Credits -/

/-- Credits held by a thread: for each file, how many more links than names it is responsible for. -/
abbrev Credit := Bytes → Int

def Credit.NonNeg (c : Credit) : Prop := ∀ x, 0 ≤ c x

/-- One credit for a file. -/
def Credit.one (id : Bytes) : Credit := fun x => if x = id then 1 else 0

theorem Credit.one_nonneg (id : Bytes) : (Credit.one id).NonNeg := by
  intro x; unfold Credit.one; by_cases h : x = id
  · rw [if_pos h]; decide
  · rw [if_neg h]; decide

/-- The credits are covered by the file system. -/
def CreditCovered (fs : FullFs) (c : Credit) : Prop := ∀ x, c x ≤ bal fs x

/-- A program that keeps the books whatever other threads do in between, and returns with the credits `Q`. -/
def Safe (cfg : FsCfg) {α : Type} (Q : α → Credit → Prop) : Prog α → Credit → Prop
  | .ret a, c => Q a c
  | .throw _, c => c.NonNeg
  | .sec f k, c => c.NonNeg ∧ ∀ fs, FsWF cfg fs → LinkRoom fs → CreditCovered fs c →
      ∃ c' : Credit, FsWF cfg (f fs).2 ∧ (∀ x, bal (f fs).2 x - c' x = bal fs x - c x) ∧
        (∀ b, (f fs).1 = .ok b → Safe cfg Q (k b) c') ∧ (∀ e, (f fs).1 = .error e → c'.NonNeg)

theorem Safe.bind {cfg : FsCfg} {α β : Type} {Q : α → Credit → Prop} {R : β → Credit → Prop} {g : α → Prog β}
    (hg : ∀ a c, Q a c → Safe cfg R (g a) c) : ∀ (p : Prog α) (c : Credit), Safe cfg Q p c → Safe cfg R (p.bind g) c
  | .ret a, c, h => hg a c h
  | .throw _, _, h => h
  | .sec f k, c, h => by
    refine ⟨h.1, ?_⟩
    intro fs hw hr hc
    obtain ⟨c', h1, h2, h3, h4⟩ := h.2 fs hw hr hc
    exact ⟨c', h1, h2, fun b hb => Safe.bind hg (k b) c' (h3 b hb), h4⟩

theorem Safe.mono {cfg : FsCfg} {α : Type} {Q R : α → Credit → Prop} (hg : ∀ a c, Q a c → R a c) :
    ∀ (p : Prog α) (c : Credit), Safe cfg Q p c → Safe cfg R p c
  | .ret a, c, h => hg a c h
  | .throw _, _, h => h
  | .sec f k, c, h => by
    refine ⟨h.1, ?_⟩
    intro fs hw hr hc
    obtain ⟨c', h1, h2, h3, h4⟩ := h.2 fs hw hr hc
    exact ⟨c', h1, h2, fun b hb => Safe.mono hg (k b) c' (h3 b hb), h4⟩

/-- A section that changes neither names nor link counts. -/
def Neutral (cfg : FsCfg) {β : Type} (f : Sec β) : Prop :=
  ∀ fs, FsWF cfg fs → FsWF cfg (f fs).2 ∧ ∀ x, bal (f fs).2 x = bal fs x

theorem Neutral.safe {cfg : FsCfg} {β : Type} {f : Sec β} (h : Neutral cfg f) {c : Credit} (hc : c.NonNeg) (P : β → Prop)
    (hP : ∀ fs b, (f fs).1 = .ok b → P b) : Safe cfg (fun b c' => c' = c ∧ P b) (Prog.one f) c := by
  refine ⟨hc, ?_⟩
  intro fs hw _ _
  obtain ⟨h1, h2⟩ := h fs hw
  refine ⟨c, h1, fun x => by rw [h2], fun b hb => ⟨rfl, hP fs b hb⟩, fun _ _ => hc⟩

theorem Neutral.safe' {cfg : FsCfg} {β : Type} {f : Sec β} (h : Neutral cfg f) {c : Credit} (hc : c.NonNeg) :
    Safe cfg (fun _ c' => c' = c) (Prog.one f) c :=
  Safe.mono (fun _ _ h => h.1) _ _ (Neutral.safe h hc (fun _ => True) (fun _ _ _ => trivial))

/-- An access to one file that leaves its entries and link count alone. -/
theorem neutral_file {cfg : FsCfg} {β : Type} {id : Bytes} {f : TimeSpec → Inode → Res β × Inode}
    (h : ∀ now n, (f now n).2.entries = n.entries ∧ (f now n).2.attr.nlink = n.attr.nlink) : Neutral cfg (Sec.file id f) := by
  intro fs hw
  unfold Sec.file
  cases hg : fs.get id with
  | none => exact ⟨hw, fun _ => rfl⟩
  | some n =>
    obtain ⟨h1, h2⟩ := h fs.now n
    refine ⟨wf_set hw _ (by rw [h1]; exact wf_entries hw hg), ?_⟩
    intro x
    rw [bal_set hw.ids hg, h1, h2]
    by_cases hx : x = id
    · rw [if_pos hx]; omega
    · rw [if_neg hx]; omega

/-- The same for a directory. -/
theorem neutral_dir {cfg : FsCfg} {β : Type} {h : FH} {f : TimeSpec → Inode → Res β × Inode}
    (hf : ∀ now n, (f now n).2.entries = n.entries ∧ (f now n).2.attr.nlink = n.attr.nlink) : Neutral cfg (Sec.dir h f) := by
  apply neutral_file
  intro now n
  cases castAs h typeDirectory n with
  | error e => exact ⟨rfl, rfl⟩
  | ok _ => exact hf now n

theorem touchAtime_nlink (st : Bool) (now : TimeSpec) (a : FileAttr) : (a.touchAtime st now).nlink = a.nlink := by
  unfold FileAttr.touchAtime; split <;> rfl

theorem touchMtime_nlink (st : Bool) (now : TimeSpec) (a : FileAttr) : (a.touchMtime st now).nlink = a.nlink := by
  unfold FileAttr.touchMtime; split <;> rfl

theorem neutral_get (cfg : FsCfg) (h : FH) (name : Bytes) : Neutral cfg (secGet cfg h name) := by
  apply neutral_dir
  intro now n
  unfold Inode.getEntry
  dsimp only
  split <;> exact ⟨rfl, touchAtime_nlink _ _ _⟩

theorem neutral_openAs (cfg : FsCfg) (id : Bytes) (type : Nat) : Neutral cfg (secOpenAs id type) := by
  intro fs hw
  have : (secOpenAs id type fs).2 = fs := by
    unfold secOpenAs
    split
    · split <;> rfl
    · cases fs.get id with
      | none => rfl
      | some _ => dsimp only; split <;> rfl
  rw [this]; exact ⟨hw, fun _ => rfl⟩

theorem openAs_id {id : Bytes} {type : Nat} {fs : FullFs} {h : FH} (e : (secOpenAs id type fs).1 = .ok h) : h = ⟨id, type⟩ := by
  unfold secOpenAs at e
  by_cases hr : id = kRootId
  · rw [if_pos hr] at e
    by_cases ht : type ≠ typeDirectory
    · rw [if_pos ht] at e; cases e
    · rw [if_neg ht] at e
      rw [ne_eq, not_not] at ht
      rw [hr, ht]
      injection e with e
      exact e.symm
  · rw [if_neg hr] at e
    cases hg : fs.get id with
    | none => rw [hg] at e; cases e
    | some n =>
      rw [hg] at e
      dsimp only at e
      split at e
      · injection e with e; exact e.symm
      · cases e

theorem neutral_getParent (cfg : FsCfg) (h : FH) : Neutral cfg (secGetParent h) := neutral_file fun _ _ => ⟨rfl, rfl⟩

theorem neutral_setParent (cfg : FsCfg) (h : FH) (id : Bytes) : Neutral cfg (secSetParent h id) := neutral_file fun _ _ => ⟨rfl, rfl⟩

theorem neutral_linkGet (cfg : FsCfg) (h : FH) : Neutral cfg (secLinkGet cfg h) := by
  apply neutral_file
  intro now n
  cases castAs h typeSymlink n with
  | error e => exact ⟨rfl, rfl⟩
  | ok _ => exact ⟨rfl, touchAtime_nlink _ _ _⟩

theorem neutral_linkSet (cfg : FsCfg) (h : FH) (target : Bytes) : Neutral cfg (secLinkSet cfg h target) := by
  apply neutral_file
  intro now n
  cases castAs h typeSymlink n with
  | error e => exact ⟨rfl, rfl⟩
  | ok _ => exact ⟨rfl, touchMtime_nlink _ _ _⟩

theorem neutral_attr {cfg : FsCfg} (h : FH) {f : TimeSpec → FileAttr → FileAttr} (hf : ∀ now a, (f now a).nlink = a.nlink) :
    Neutral cfg (secAttr h f) := neutral_file fun now n => ⟨rfl, hf now n.attr⟩

theorem neutral_reg {cfg : FsCfg} {β : Type} {h : FH} {f : TimeSpec → Inode → Res β × Inode}
    (hf : ∀ now n, (f now n).2.entries = n.entries ∧ (f now n).2.attr.nlink = n.attr.nlink) : Neutral cfg (Sec.reg h f) := by
  apply neutral_file
  intro now n
  cases castAs h typeRegular n with
  | error e => exact ⟨rfl, rfl⟩
  | ok _ => exact hf now n

theorem neutral_read (cfg : FsCfg) (h : FH) (off len : Nat) : Neutral cfg (secRead cfg h off len) :=
  neutral_reg fun _ _ => ⟨rfl, touchAtime_nlink _ _ _⟩

theorem neutral_write (cfg : FsCfg) (h : FH) (off : Nat) (d : Bytes) : Neutral cfg (secWrite cfg h off d) :=
  neutral_reg fun _ _ => ⟨rfl, touchMtime_nlink _ _ _⟩

theorem neutral_truncate (cfg : FsCfg) (h : FH) (size : Nat) : Neutral cfg (secTruncate cfg h size) :=
  neutral_reg fun _ _ => ⟨rfl, touchMtime_nlink _ _ _⟩

theorem neutral_flush (cfg : FsCfg) (h : FH) : Neutral cfg (secFlush h) := neutral_file fun _ _ => ⟨rfl, rfl⟩

theorem neutral_stat (cfg : FsCfg) (ov : OwnerOverride) (h : FH) : Neutral cfg (secStat cfg ov h) := neutral_file fun _ _ => ⟨rfl, rfl⟩

theorem neutral_readdir (cfg : FsCfg) (fill : Nat → Int) (h : FH) : Neutral cfg (secReaddir cfg fill h) :=
  neutral_dir fun _ _ => ⟨rfl, touchAtime_nlink _ _ _⟩

/-! ## Path resolution keeps the books -/

/-- The program returns with the credits it was called with. -/
def Keeps (cfg : FsCfg) {α : Type} (p : Prog α) : Prop := ∀ c : Credit, c.NonNeg → Safe cfg (fun _ c' => c' = c) p c

theorem Neutral.keeps {cfg : FsCfg} {β : Type} {f : Sec β} (h : Neutral cfg f) : Keeps cfg (Prog.one f) := fun _ hc => h.safe' hc

theorem Keeps.bind {cfg : FsCfg} {α β : Type} {p : Prog α} {g : α → Prog β} (hp : Keeps cfg p) (hg : ∀ a, Keeps cfg (g a)) :
    Keeps cfg (p.bind g) := fun c hc => Safe.bind (fun a c' h => by subst h; exact hg a _ hc) p c (hp c hc)

theorem keeps_ret {cfg : FsCfg} {α : Type} (a : α) : Keeps cfg (Prog.ret a) := fun _ _ => rfl

theorem keeps_throw {cfg : FsCfg} {α : Type} (e : Err) : Keeps cfg (Prog.throw e : Prog α) := fun _ hc => hc

theorem keeps_walk (cfg : FsCfg) {rec : Bytes → FH → List Bytes → Prog (Option FH)} (hr : ∀ i h l, Keeps cfg (rec i h l)) :
    ∀ (l : List Bytes) (i : Bytes) (h : FH), Keeps cfg (walk cfg rec i h l)
  | [], _, _ => keeps_ret _
  | s :: rest, i, h => by
    rw [walk]
    by_cases h1 : s = dotName
    · rw [if_pos h1]; exact keeps_walk cfg hr rest i h
    · rw [if_neg h1]
      by_cases h2 : s = dotDotName
      · rw [if_pos h2]
        exact (neutral_getParent cfg h).keeps.bind fun _ => (neutral_openAs cfg _ _).keeps.bind fun _ => keeps_walk cfg hr rest _ _
      · rw [if_neg h2]
        refine (neutral_get cfg h s).keeps.bind fun found => ?_
        cases found with
        | none => exact keeps_ret _
        | some e =>
          refine (neutral_openAs cfg _ _).keeps.bind fun child => (neutral_setParent cfg _ _).keeps.bind fun _ => ?_
          by_cases h3 : e.type = typeSymlink
          · rw [if_pos h3]
            refine (neutral_linkGet cfg _).keeps.bind fun target => (hr _ _ _).bind fun resolved => ?_
            cases resolved with
            | none => exact keeps_ret _
            | some c => exact keeps_walk cfg hr rest _ _
          · rw [if_neg h3]; exact keeps_walk cfg hr rest _ _

theorem keeps_genericOpen (cfg : FsCfg) : ∀ (d : Nat) (i : Bytes) (h : FH) (l : List Bytes), Keeps cfg (genericOpen cfg d i h l)
  | 0, _, _, _ => keeps_throw _
  | d + 1, i, h, l => keeps_walk cfg (keeps_genericOpen cfg d) l i h

theorem keeps_openBase (cfg : FsCfg) (path : Bytes) : Keeps cfg (openBase cfg path) := by
  unfold openBase
  refine (neutral_openAs cfg _ _).keeps.bind fun root => ?_
  cases (splitPath path).getLast? with
  | none => exact keeps_ret _
  | some last =>
    dsimp only
    split
    · exact keeps_ret _
    · refine (keeps_genericOpen cfg _ _ _ _).bind fun r => ?_
      cases r with
      | none => exact keeps_throw _
      | some d => exact keeps_ret _

theorem keeps_openAll (cfg : FsCfg) (path : Bytes) (rl : Bool) : Keeps cfg (openAll cfg path rl) := by
  unfold openAll
  split
  · exact (neutral_openAs cfg _ _).keeps.bind fun _ => keeps_ret _
  · refine (keeps_openBase cfg path).bind fun r => ?_
    obtain ⟨base, last⟩ := r
    refine (neutral_get cfg base last).keeps.bind fun found => ?_
    cases found with
    | none => exact keeps_ret _
    | some e =>
      refine (neutral_openAs cfg _ _).keeps.bind fun child => (neutral_setParent cfg _ _).keeps.bind fun _ => ?_
      split
      · exact (neutral_linkGet cfg _).keeps.bind fun target => keeps_genericOpen cfg _ _ _ _
      · exact keeps_ret _

/-! ## Sections that change names or link counts -/

/-- An access to a directory, at the level of the file system. -/
theorem dir_cases {β : Type} (h : FH) (f : TimeSpec → Inode → Res β × Inode) (fs : FullFs) :
    (∃ e, Sec.dir h f fs = (.error e, fs)) ∨ (∃ e n, fs.get h.id = some n ∧ Sec.dir h f fs = (.error e, fs.set h.id n)) ∨
    (∃ n, fs.get h.id = some n ∧ castAs h typeDirectory n = .ok () ∧
      Sec.dir h f fs = ((f fs.now n).1, fs.set h.id (f fs.now n).2)) := by
  unfold Sec.dir Sec.file
  cases hg : fs.get h.id with
  | none => exact .inl ⟨_, rfl⟩
  | some n =>
    dsimp only
    cases hc : castAs h typeDirectory n with
    | error e => exact .inr (.inl ⟨e, n, rfl, rfl⟩)
    | ok u => exact .inr (.inr ⟨n, rfl, hc, rfl⟩)

theorem bal_set_same {fs : FullFs} (hk : (fs.nodes.map Prod.fst).Nodup) {id : Bytes} {n : Inode} (h : fs.get id = some n) (x : Bytes) :
    bal (fs.set id n) x = bal fs x := by
  rw [bal_set hk h]
  split <;> omega

theorem cnt_cons (e : DirEntry) (l : List DirEntry) (x : Bytes) : (cnt (e :: l) x : Int) = cnt l x + Credit.one e.id x := by
  unfold cnt Credit.one
  rw [List.countP_cons]
  by_cases h : x = e.id
  · have : (e.id == x) = true := by rw [h]; exact beq_self_eq_true _
    rw [if_pos this, if_pos h]; omega
  · have : (e.id == x) = false := by simpa using fun hh => h hh.symm
    rw [if_neg h, this]; simp

/-- Removing a name from a directory whose names are different removes the entry found, and no other. -/
theorem cnt_remove {same : Bytes → Bytes → Bool} (hs : SameEquiv same) (name : Bytes) : ∀ (l : List DirEntry),
    l.Pairwise (fun a b => same a.name b.name = false) → ∀ x : Bytes,
    (cnt (l.filter fun e => !same name e.name) x : Int) =
      cnt l x - (match l.find? (fun e => same name e.name) with | none => 0 | some e => Credit.one e.id x)
  | [], _, x => by simp [cnt]
  | e :: l, hp, x => by
    rw [List.pairwise_cons] at hp
    rw [List.find?_cons, List.filter_cons]
    by_cases he : same name e.name = true
    · rw [he]
      have hf : (l.filter fun e => !same name e.name) = l := by
        rw [List.filter_eq_self]
        intro a ha
        have := hp.1 a ha
        cases hb : same name a.name with
        | false => rfl
        | true => rw [hs.trans _ _ _ (hs.symm _ _ he) hb] at this; cases this
      simp only [Bool.not_true, Bool.false_eq_true, if_false]
      rw [hf, cnt_cons]
      omega
    · rw [Bool.not_eq_true] at he
      rw [he]
      simp only [Bool.not_false, if_true]
      rw [cnt_cons, cnt_cons, cnt_remove hs name l hp.2 x]
      omega

/-- What `remove_entry` does to the books. -/
theorem remove_books {cfg : FsCfg} (hs : SameEquiv cfg.same) (h : FH) (name : Bytes) {fs : FullFs} (hw : FsWF cfg fs) :
    FsWF cfg (secRemove cfg h name fs).2 ∧ ∀ x, bal (secRemove cfg h name fs).2 x = bal fs x +
      (match (secRemove cfg h name fs).1 with | .ok (some e) => Credit.one e.id x | _ => 0) := by
  unfold secRemove
  rcases dir_cases h (fun now n => n.removeEntry cfg now name) fs with ⟨e, he⟩ | ⟨e, n, hg, he⟩ | ⟨n, hg, _, he⟩
  · rw [he]; exact ⟨hw, fun x => by simp⟩
  · rw [he]; exact ⟨wf_set hw _ (wf_entries hw hg), fun x => by rw [bal_set_same hw.ids hg]; simp⟩
  · rw [he]
    have hent := wf_entries hw hg
    by_cases hl : name.length > 255
    · have e1 : n.removeEntry cfg fs.now name = (.error (.vfs eNAMETOOLONG), { n with attr := n.attr.touchMtime cfg.storeTime fs.now }) := by
        unfold Inode.removeEntry; dsimp only; rw [if_pos hl]
      rw [e1]
      refine ⟨wf_set hw _ hent, fun x => ?_⟩
      rw [bal_set hw.ids hg]
      dsimp only
      rw [touchMtime_nlink]
      split <;> omega
    · have e1 : n.removeEntry cfg fs.now name = (.ok (n.entries.find? fun e => cfg.same name e.name),
          { n with attr := n.attr.touchMtime cfg.storeTime fs.now, entries := n.entries.filter fun e => !cfg.same name e.name }) := by
        unfold Inode.removeEntry; dsimp only; rw [if_neg hl]
      rw [e1]
      refine ⟨wf_set hw _ (hent.filter _), fun x => ?_⟩
      rw [bal_set hw.ids hg]
      dsimp only
      rw [touchMtime_nlink, cnt_remove hs name n.entries hent x]
      cases n.entries.find? (fun e => cfg.same name e.name) with
      | none => dsimp only; split <;> omega
      | some e => dsimp only; split <;> omega

/-- What `add_entry` does to the books. -/
theorem add_books {cfg : FsCfg} (h : FH) (e : DirEntry) {fs : FullFs} (hw : FsWF cfg fs) :
    FsWF cfg (secAdd cfg h e fs).2 ∧ ∀ x, bal (secAdd cfg h e fs).2 x = bal fs x -
      (match (secAdd cfg h e fs).1 with | .ok true => Credit.one e.id x | _ => 0) := by
  unfold secAdd
  rcases dir_cases h (fun now n => n.addEntry cfg now e) fs with ⟨er, he⟩ | ⟨er, n, hg, he⟩ | ⟨n, hg, _, he⟩
  · rw [he]; exact ⟨hw, fun x => by simp⟩
  · rw [he]; exact ⟨wf_set hw _ (wf_entries hw hg), fun x => by rw [bal_set_same hw.ids hg]; simp⟩
  · rw [he]
    have hent := wf_entries hw hg
    by_cases hl : e.name.length > 255
    · have e1 : n.addEntry cfg fs.now e = (.error (.vfs eNAMETOOLONG), { n with attr := n.attr.touchMtime cfg.storeTime fs.now }) := by
        unfold Inode.addEntry; dsimp only; rw [if_pos hl]
      rw [e1]
      refine ⟨wf_set hw _ hent, fun x => ?_⟩
      rw [bal_set hw.ids hg]
      dsimp only
      rw [touchMtime_nlink]
      split <;> omega
    · by_cases ha : n.entries.any (fun x => cfg.same e.name x.name) = true
      · have e1 : n.addEntry cfg fs.now e = (.ok false, { n with attr := n.attr.touchMtime cfg.storeTime fs.now }) := by
          unfold Inode.addEntry; dsimp only; rw [if_neg hl, if_pos ha]
        rw [e1]
        refine ⟨wf_set hw _ hent, fun x => ?_⟩
        rw [bal_set hw.ids hg]
        dsimp only
        rw [touchMtime_nlink]
        split <;> omega
      · have e1 : n.addEntry cfg fs.now e =
            (.ok true, { n with attr := n.attr.touchMtime cfg.storeTime fs.now, entries := e :: n.entries }) := by
          unfold Inode.addEntry; dsimp only; rw [if_neg hl, if_neg ha]
        rw [e1]
        refine ⟨wf_set hw _ ?_, fun x => ?_⟩
        · rw [List.pairwise_cons]
          refine ⟨?_, hent⟩
          intro a hm
          cases hb : cfg.same e.name a.name with
          | false => rfl
          | true => exact absurd (List.any_eq_true.mpr ⟨a, hm, hb⟩) ha
        · rw [bal_set hw.ids hg]
          dsimp only
          rw [touchMtime_nlink, cnt_cons]
          split <;> omega

/-! ## What is known about a held directory -/

/-- The held file is a directory with these entries. -/
def DirIs (fs : FullFs) (h : FH) (l : List DirEntry) : Prop :=
  ∃ n, fs.get h.id = some n ∧ castAs h typeDirectory n = .ok () ∧ n.entries = l

theorem castAs_mode {h : FH} {T : Nat} {n n' : Inode} (e : n'.attr.mode = n.attr.mode) : castAs h T n' = castAs h T n := by
  unfold castAs; rw [e]

theorem castAs_cls {h : FH} {T : Nat} {n : Inode} (e : castAs h T n = .ok ()) : h.cls = T := by
  unfold castAs at e
  by_cases h1 : modeForType h.cls ≠ n.attr.mode &&& sIfmt
  · rw [if_pos h1] at e; cases e
  · rw [if_neg h1] at e
    by_cases h2 : h.cls ≠ T
    · rw [if_pos h2] at e; cases e
    · simpa using h2

theorem DirIs.eq {fs : FullFs} {g h : FH} {l m : List DirEntry} (hg : DirIs fs g l) (hh : DirIs fs h m) (e : g.id = h.id) :
    g = h ∧ l = m := by
  obtain ⟨n, h1, h2, h3⟩ := hg
  obtain ⟨n', h1', h2', h3'⟩ := hh
  have hc := castAs_cls h2
  have hc' := castAs_cls h2'
  cases g; cases h
  dsimp only at *
  subst e
  rw [h1] at h1'
  injection h1' with h1'
  subst h1'
  exact ⟨by rw [hc, hc'], by rw [← h3, ← h3']⟩

theorem touchMtime_mode (st : Bool) (now : TimeSpec) (a : FileAttr) : (a.touchMtime st now).mode = a.mode := by
  unfold FileAttr.touchMtime; split <;> rfl

theorem touchAtime_mode (st : Bool) (now : TimeSpec) (a : FileAttr) : (a.touchAtime st now).mode = a.mode := by
  unfold FileAttr.touchAtime; split <;> rfl

theorem DirIs.set_ne {fs : FullFs} {g : FH} {m : List DirEntry} (h : DirIs fs g m) {id : Bytes} (n : Inode) (e : g.id ≠ id) :
    DirIs (fs.set id n) g m := by
  obtain ⟨n', h1, h2, h3⟩ := h
  exact ⟨n', by rw [get_set_ne _ _ e]; exact h1, h2, h3⟩

theorem DirIs.sec {β : Type} {fs : FullFs} {h : FH} {n : Inode} (h1 : fs.get h.id = some n) (h2 : castAs h typeDirectory n = .ok ())
    (f : TimeSpec → Inode → Res β × Inode) : Sec.dir h f fs = ((f fs.now n).1, fs.set h.id (f fs.now n).2) := by
  unfold Sec.dir Sec.file
  rw [h1]
  dsimp only
  rw [h2]

/-- `remove_entry` that does not throw. -/
theorem remove_ok {cfg : FsCfg} {h : FH} {name : Bytes} {fs fs' : FullFs} {r : Option DirEntry}
    (e : secRemove cfg h name fs = (.ok r, fs')) :
    name.length ≤ 255 ∧ ∃ l, DirIs fs h l ∧ r = l.find? (fun x => cfg.same name x.name) ∧
      DirIs fs' h (l.filter fun x => !cfg.same name x.name) ∧ ∀ g m, g.id ≠ h.id → DirIs fs g m → DirIs fs' g m := by
  unfold secRemove at e
  rcases dir_cases h (fun now n => n.removeEntry cfg now name) fs with ⟨er, he⟩ | ⟨er, n, hg, he⟩ | ⟨n, hg, hc, he⟩
  · rw [he] at e; cases e
  · rw [he] at e; cases e
  · rw [he] at e
    by_cases hl : name.length > 255
    · have e1 : n.removeEntry cfg fs.now name = (.error (.vfs eNAMETOOLONG), { n with attr := n.attr.touchMtime cfg.storeTime fs.now }) := by
        unfold Inode.removeEntry; dsimp only; rw [if_pos hl]
      rw [e1] at e; cases e
    · have e1 : n.removeEntry cfg fs.now name = (.ok (n.entries.find? fun e => cfg.same name e.name),
          { n with attr := n.attr.touchMtime cfg.storeTime fs.now, entries := n.entries.filter fun e => !cfg.same name e.name }) := by
        unfold Inode.removeEntry; dsimp only; rw [if_neg hl]
      rw [e1] at e
      injection e with e2 e3
      injection e2 with e2
      subst e3
      refine ⟨Nat.le_of_not_lt hl, n.entries, ⟨n, hg, hc, rfl⟩, e2.symm, ⟨_, get_set_self hg _, ?_, rfl⟩, ?_⟩
      · rw [castAs_mode (n := n) (touchMtime_mode _ _ _)]; exact hc
      · intro g m hne hd
        exact hd.set_ne _ hne

/-- `add_entry` on a directory. -/
theorem add_ok {cfg : FsCfg} {h : FH} {x : DirEntry} {fs : FullFs} {l : List DirEntry} (hd : DirIs fs h l) (hl : x.name.length ≤ 255) :
    ∃ fs', secAdd cfg h x fs = (.ok (!l.any fun y => cfg.same x.name y.name), fs') ∧
      DirIs fs' h (if l.any (fun y => cfg.same x.name y.name) then l else x :: l) ∧
      ∀ g m, g.id ≠ h.id → DirIs fs g m → DirIs fs' g m := by
  obtain ⟨n, hg, hc, rfl⟩ := hd
  unfold secAdd
  rw [DirIs.sec hg hc]
  have hl' : ¬ x.name.length > 255 := Nat.not_lt.mpr hl
  by_cases ha : n.entries.any (fun y => cfg.same x.name y.name) = true
  · have e1 : n.addEntry cfg fs.now x = (.ok false, { n with attr := n.attr.touchMtime cfg.storeTime fs.now }) := by
      unfold Inode.addEntry; dsimp only; rw [if_neg hl', if_pos ha]
    rw [e1, if_pos ha, ha]
    refine ⟨_, rfl, ⟨_, get_set_self hg _, ?_, rfl⟩, fun g m hne hd => hd.set_ne _ hne⟩
    rw [castAs_mode (n := n) (touchMtime_mode _ _ _)]; exact hc
  · have e1 : n.addEntry cfg fs.now x =
        (.ok true, { n with attr := n.attr.touchMtime cfg.storeTime fs.now, entries := x :: n.entries }) := by
      unfold Inode.addEntry; dsimp only; rw [if_neg hl', if_neg ha]
    rw [e1, if_neg ha]
    rw [Bool.not_eq_true] at ha
    rw [ha]
    refine ⟨_, rfl, ⟨_, get_set_self hg _, ?_, rfl⟩, fun g m hne hd => hd.set_ne _ hne⟩
    rw [castAs_mode (n := n) (touchMtime_mode _ _ _)]; exact hc

theorem any_remove_self {same : Bytes → Bytes → Bool} (name : Bytes) (l : List DirEntry) :
    ((l.filter fun x => !same name x.name).any fun y => same name y.name) = false := by
  rw [List.any_eq_false]
  intro x hx
  have := (List.mem_filter.mp hx).2
  simpa using this

/-! ## Credits of the sections -/

/-- No credits. -/
def Credit.zero : Credit := fun _ => 0

theorem Credit.zero_nonneg : Credit.zero.NonNeg := fun _ => Int.le_refl _

theorem safe_remove {cfg : FsCfg} (hs : SameEquiv cfg.same) (h : FH) (name : Bytes) :
    Safe cfg (fun (r : Option DirEntry) c => c = match r with | none => Credit.zero | some e => Credit.one e.id)
      (Prog.one (secRemove cfg h name)) Credit.zero := by
  refine ⟨Credit.zero_nonneg, ?_⟩
  intro fs hw _ _
  obtain ⟨h1, h2⟩ := remove_books hs h name hw
  refine ⟨match (secRemove cfg h name fs).1 with | .ok (some e) => Credit.one e.id | _ => Credit.zero, h1, ?_, ?_, ?_⟩
  · intro x
    rw [h2 x]
    cases (secRemove cfg h name fs).1 with
    | error e => simp
    | ok r => cases r with
      | none => simp
      | some e => simp [Credit.zero]
  · intro b hb
    rw [hb]
    cases b with
    | none => exact rfl
    | some e => exact rfl
  · intro e he
    rw [he]; exact Credit.zero_nonneg

theorem safe_add {cfg : FsCfg} (h : FH) (e : DirEntry) :
    Safe cfg (fun (b : Bool) c => c = if b then Credit.zero else Credit.one e.id)
      (Prog.one (secAdd cfg h e)) (Credit.one e.id) := by
  refine ⟨Credit.one_nonneg _, ?_⟩
  intro fs hw _ _
  obtain ⟨h1, h2⟩ := add_books h e hw
  refine ⟨match (secAdd cfg h e fs).1 with | .ok true => Credit.zero | _ => Credit.one e.id, h1, ?_, ?_, ?_⟩
  · intro x
    rw [h2 x]
    cases (secAdd cfg h e fs).1 with
    | error e => simp
    | ok r => cases r with
      | false => simp
      | true => simp [Credit.zero]
  · intro b hb
    rw [hb]
    cases b <;> exact rfl
  · intro er he
    rw [he]; exact Credit.one_nonneg _

theorem toNat_sub_one {a : UInt32} (h : 1 ≤ a.toNat) : ((a - 1).toNat : Int) = a.toNat - 1 := by
  have h1 : (1 : UInt32) ≤ a := by
    rw [UInt32.le_iff_toNat_le]; exact h
  rw [UInt32.toNat_sub_of_le _ _ h1]
  have : (1 : UInt32).toNat = 1 := rfl
  rw [this]; omega

/-- Taking back a link. -/
theorem unlink_books {cfg : FsCfg} {fs : FullFs} (hw : FsWF cfg fs) {id : Bytes} {n m : Inode} (hg : fs.get id = some n)
    (hc : CreditCovered fs (Credit.one id)) (he : m.entries = n.entries) (ha : m.attr.nlink = n.attr.nlink - 1) :
    FsWF cfg (fs.set id m) ∧ ∀ x, bal (fs.set id m) x - Credit.zero x = bal fs x - Credit.one id x := by
  refine ⟨wf_set hw _ (by rw [he]; exact wf_entries hw hg), ?_⟩
  intro x
  have hpos : 1 ≤ n.attr.nlink.toNat := by
    have := hc id
    unfold bal at this
    rw [linkCount_of hg] at this
    unfold Credit.one at this
    rw [if_pos rfl] at this
    omega
  rw [bal_set hw.ids hg, he, ha, toNat_sub_one hpos]
  unfold Credit.zero Credit.one
  by_cases hx : x = id
  · rw [if_pos hx, if_pos hx]; omega
  · rw [if_neg hx, if_neg hx]; omega

theorem safe_unlink (cfg : FsCfg) (h : FH) :
    Safe cfg (fun (_ : Unit) c => c = Credit.zero) (Prog.one (secUnlink h)) (Credit.one h.id) := by
  refine ⟨Credit.one_nonneg _, ?_⟩
  intro fs hw _ hc
  unfold secUnlink Sec.file
  cases hg : fs.get h.id with
  | none => dsimp only; exact ⟨Credit.one h.id, hw, fun _ => rfl, fun _ hb => (by cases hb), fun _ _ => Credit.one_nonneg _⟩
  | some n =>
    dsimp only
    obtain ⟨h1, h2⟩ := unlink_books hw hg hc (m := { n with attr := n.attr.unlink }) rfl rfl
    exact ⟨Credit.zero, h1, h2, fun _ _ => rfl, fun _ he => by cases he⟩

theorem safe_unlinkEmpty (cfg : FsCfg) (h : FH) :
    Safe cfg (fun (_ : Unit) c => c = Credit.zero) (Prog.one (secUnlinkEmpty cfg h)) (Credit.one h.id) := by
  refine ⟨Credit.one_nonneg _, ?_⟩
  intro fs hw _ hc
  unfold secUnlinkEmpty
  rcases dir_cases h (fun now n => n.unlinkEmpty cfg now) fs with
    ⟨er, he⟩ | ⟨er, n, hg, he⟩ | ⟨n, hg, _, he⟩
  · rw [he]
    exact ⟨Credit.one h.id, hw, fun _ => rfl, fun _ hb => (by cases hb), fun _ _ => Credit.one_nonneg _⟩
  · rw [he]
    exact ⟨Credit.one h.id, wf_set hw _ (wf_entries hw hg), fun x => (by rw [bal_set_same hw.ids hg]), fun _ hb => (by cases hb),
      fun _ _ => Credit.one_nonneg _⟩
  · rw [he]
    cases hn : n.entries with
    | cons a l =>
      have e1 : n.unlinkEmpty cfg fs.now = (.error (.vfs 39), { n with attr := n.attr.touchAtime cfg.storeTime fs.now }) := by
        unfold Inode.unlinkEmpty; dsimp only; rw [hn]
      rw [e1]
      have hent := wf_entries hw hg
      refine ⟨Credit.one h.id, wf_set hw _ hent, fun x => ?_, fun _ hb => (by cases hb), fun _ _ => Credit.one_nonneg _⟩
      rw [bal_set hw.ids hg]
      dsimp only
      rw [touchAtime_nlink]
      split <;> omega
    | nil =>
      have e1 : n.unlinkEmpty cfg fs.now = (.ok (), { n with attr := (n.attr.touchAtime cfg.storeTime fs.now).unlink }) := by
        unfold Inode.unlinkEmpty; dsimp only; rw [hn]
      rw [e1]
      have ha : ((n.attr.touchAtime cfg.storeTime fs.now).unlink).nlink = n.attr.nlink - 1 := by
        unfold FileAttr.unlink; dsimp only; rw [touchAtime_nlink]
      obtain ⟨h1, h2⟩ := unlink_books hw hg hc (m := { n with attr := (n.attr.touchAtime cfg.storeTime fs.now).unlink }) rfl ha
      exact ⟨Credit.zero, h1, h2, fun _ _ => rfl, fun _ he => by cases he⟩

theorem lookup_append (l : List (Bytes × Inode)) (p : Bytes × Inode) (x : Bytes) :
    (l ++ [p]).lookup x = match l.lookup x with | some n => some n | none => if x = p.1 then some p.2 else none := by
  induction l with
  | nil =>
    rw [List.nil_append, List.lookup_cons]
    by_cases h : x = p.1
    · rw [if_pos h, h, beq_self_eq_true]; rfl
    · have : (x == p.1) = false := by simpa using h
      rw [this, if_neg h]; rfl
  | cons q l ih =>
    rw [List.cons_append, List.lookup_cons, List.lookup_cons, ih]
    cases x == q.1 <;> rfl

theorem not_mem_of_get_none {fs : FullFs} {id : Bytes} (h : fs.get id = none) : id ∉ fs.nodes.map Prod.fst := by
  unfold FullFs.get at h
  revert h
  induction fs.nodes with
  | nil => intro _; simp
  | cons p l ih =>
    intro h
    rw [List.lookup_cons] at h
    by_cases hp : id == p.1
    · rw [hp] at h; cases h
    · rw [Bool.not_eq_true] at hp
      rw [hp] at h
      rw [List.map_cons, List.mem_cons, not_or]
      exact ⟨by simpa using hp, ih h⟩

/-- A new file adds one link and no name. -/
theorem create_books {cfg : FsCfg} {fs : FullFs} (hw : FsWF cfg fs) {id : Bytes} (hg : fs.get id = none) {n : Inode}
    (he : n.entries = []) (hn : n.attr.nlink = 1) :
    FsWF cfg { fs with nodes := fs.nodes ++ [(id, n)] } ∧
    ∀ x, bal { fs with nodes := fs.nodes ++ [(id, n)] } x = bal fs x + Credit.one id x := by
  refine ⟨⟨?_, ?_⟩, ?_⟩
  · rw [List.map_append, List.nodup_append]
    refine ⟨hw.ids, by simp, ?_⟩
    intro a ha b hb
    simp only [List.map_cons, List.map_nil, List.mem_singleton] at hb
    subst hb
    intro hc
    subst hc
    exact not_mem_of_get_none hg ha
  · intro p hp
    rcases List.mem_append.mp hp with hp | hp
    · exact hw.names p hp
    · rw [List.mem_singleton] at hp
      subst hp
      rw [he]; exact List.Pairwise.nil
  · intro x
    have h1 : nameCount { fs with nodes := fs.nodes ++ [(id, n)] } x = nameCount fs x := by
      rw [nameCount_eq, nameCount_eq]
      simp [he, cnt]
    have h2 : (linkCount { fs with nodes := fs.nodes ++ [(id, n)] } x : Int) = linkCount fs x + Credit.one id x := by
      unfold linkCount Credit.one
      have : FullFs.get { fs with nodes := fs.nodes ++ [(id, n)] } x =
          match fs.get x with | some n => some n | none => if x = id then some n else none := lookup_append _ _ _
      rw [this]
      by_cases hx : x = id
      · subst hx
        rw [hg]
        dsimp only
        rw [if_pos rfl, if_pos rfl]
        dsimp only
        rw [hn]; rfl
      · rw [if_neg hx, if_neg hx]
        cases fs.get x with
        | none => rfl
        | some m => simp
    unfold bal
    rw [h1, h2]; omega

theorem safe_create (cfg : FsCfg) (id : Bytes) (type : Nat) (mode uid gid : UInt32) :
    Safe cfg (fun (h : FH) c => h = ⟨id, type⟩ ∧ c = Credit.one id) (Prog.one (secCreate cfg id type mode uid gid)) Credit.zero := by
  refine ⟨Credit.zero_nonneg, ?_⟩
  intro fs hw _ _
  unfold secCreate
  by_cases hr : id = kRootId
  · rw [if_pos hr]
    exact ⟨Credit.zero, hw, fun _ => rfl, fun _ hb => (by cases hb), fun _ _ => Credit.zero_nonneg⟩
  · rw [if_neg hr]
    cases hg : fs.get id with
    | some n => dsimp only; exact ⟨Credit.zero, hw, fun _ => rfl, fun _ hb => (by cases hb), fun _ _ => Credit.zero_nonneg⟩
    | none =>
      dsimp only
      obtain ⟨h1, h2⟩ := create_books hw hg (n := ⟨(FileAttr.setNumFree 0 FileAttr.blank).initializeEmpty cfg.storeTime fs.now cfg.osUid cfg.osGid
        ((mode &&& 0x1ff) ||| modeForType type) uid gid, zeros 32, [], []⟩) rfl rfl
      refine ⟨Credit.one id, h1, fun x => ?_, fun b hb => ?_, fun _ he => by cases he⟩
      · rw [h2 x]; unfold Credit.zero; omega
      · injection hb with hb; exact ⟨hb.symm, rfl⟩

/-- `add_entry` leaves the link counts alone. -/
theorem add_links (cfg : FsCfg) (h : FH) (e : DirEntry) (fs : FullFs) (id : Bytes) (n : Inode) (hg : fs.get id = some n) :
    ∃ n', (secAdd cfg h e fs).2.get id = some n' ∧ n'.attr.nlink = n.attr.nlink := by
  unfold secAdd
  rcases dir_cases h (fun now n => n.addEntry cfg now e) fs with ⟨er, he⟩ | ⟨er, m, hm, he⟩ | ⟨m, hm, _, he⟩
  · rw [he]; exact ⟨n, hg, rfl⟩
  · rw [he]
    by_cases hx : id = h.id
    · subst hx
      rw [hm] at hg
      injection hg with hg
      exact ⟨m, get_set_self hm _, by rw [hg]⟩
    · exact ⟨n, by rw [get_set_ne _ _ hx]; exact hg, rfl⟩
  · rw [he]
    by_cases hx : id = h.id
    · subst hx
      rw [hm] at hg
      injection hg with hg
      subst hg
      refine ⟨_, get_set_self hm _, ?_⟩
      unfold Inode.addEntry
      dsimp only
      split
      · exact touchMtime_nlink _ _ _
      · split <;> exact touchMtime_nlink _ _ _
    · exact ⟨n, by rw [get_set_ne _ _ hx]; exact hg, rfl⟩

theorem setNlink_nlink (st : Bool) (now : TimeSpec) (v : UInt32) (a : FileAttr) : (a.setNlink st now v).nlink = v := by
  unfold FileAttr.setNlink
  split
  · assumption
  · dsimp only
    unfold FileAttr.touchCtime
    split <;> rfl

theorem toNat_add_one {a : UInt32} (h : a.toNat + 1 < 2 ^ 32) : (a + 1).toNat = a.toNat + 1 := by
  rw [UInt32.toNat_add]
  have : (1 : UInt32).toNat = 1 := rfl
  rw [this]
  exact Nat.mod_eq_of_lt h

theorem safe_link (cfg : FsCfg) (base : FH) (last : Bytes) (f : FH) :
    Safe cfg (fun (_ : Bool) c => c = Credit.zero) (Prog.one (secLink cfg base last f)) Credit.zero := by
  refine ⟨Credit.zero_nonneg, ?_⟩
  intro fs hw hroom _
  suffices h : FsWF cfg (secLink cfg base last f fs).2 ∧ ∀ x, bal (secLink cfg base last f fs).2 x = bal fs x from
    ⟨Credit.zero, h.1, fun x => by rw [h.2 x], fun _ _ => rfl, fun _ _ => Credit.zero_nonneg⟩
  have e0 : secLink cfg base last f fs = Sec.bind (Sec.file f.id fun _ n => (.ok n.attr.realType, n)) (fun type =>
      Sec.bind (secAdd cfg base ⟨last, f.id, type⟩) fun added =>
      if added then
        Sec.file f.id fun now n => (.ok true, { n with attr := n.attr.setNlink cfg.storeTime now (n.attr.nlink + 1) })
      else Sec.pure false) fs := rfl
  rw [e0]
  unfold Sec.bind
  cases hg : fs.get f.id with
  | none =>
    have e1 : (Sec.file f.id (fun _ n => (.ok n.attr.realType, n)) : Sec Nat) fs = (.error (.vfs 2), fs) := by
      unfold Sec.file; rw [hg]
    rw [e1]
    exact ⟨hw, fun _ => rfl⟩
  | some n =>
    have e1 : (Sec.file f.id (fun _ n => (.ok n.attr.realType, n)) : Sec Nat) fs = (.ok n.attr.realType, fs.set f.id n) := by
      unfold Sec.file; rw [hg]
    rw [e1]
    dsimp only
    have hw1 : FsWF cfg (fs.set f.id n) := wf_set hw _ (wf_entries hw hg)
    have hb1 := fun x => bal_set_same hw.ids hg x
    obtain ⟨hw2, hb2⟩ := add_books base ⟨last, f.id, n.attr.realType⟩ hw1
    obtain ⟨n', hg2, hn'⟩ := add_links cfg base ⟨last, f.id, n.attr.realType⟩ (fs.set f.id n) f.id n (get_set_self hg _)
    revert hw2 hb2 hg2
    generalize hr : secAdd cfg base ⟨last, f.id, n.attr.realType⟩ (fs.set f.id n) = r
    obtain ⟨r1, fs2⟩ := r
    intro hw2 hb2 hg2
    cases r1 with
    | error e =>
      dsimp only at *
      exact ⟨hw2, fun x => by rw [hb2 x, hb1 x]; omega⟩
    | ok b =>
      cases b with
      | false =>
        dsimp only at *
        exact ⟨hw2, fun x => by
          show bal fs2 x = _
          rw [hb2 x, hb1 x]; omega⟩
      | true =>
        dsimp only at *
        rw [if_pos rfl]
        unfold Sec.file
        rw [hg2]
        dsimp only
        have hent := wf_entries hw2 hg2
        refine ⟨wf_set hw2 _ hent, fun x => ?_⟩
        rw [bal_set hw2.ids hg2, hb2 x, hb1 x, setNlink_nlink, hn', toNat_add_one (hroom _ _ hg)]
        dsimp only
        unfold Credit.one
        by_cases hx : x = f.id
        · rw [if_pos hx, if_pos hx]; omega
        · rw [if_neg hx, if_neg hx]; omega

theorem find?_filter_of_some {same : Bytes → Bytes → Bool} (hs : SameEquiv same) {a b : Bytes} {l : List DirEntry} {e : DirEntry}
    (h : (l.filter fun x => !same a x.name).find? (fun x => same b x.name) = some e) : same b a = false := by
  have h1 := List.find?_some h
  have h2 := (List.mem_filter.mp (List.mem_of_find?_eq_some h)).2
  cases hb : same b a with
  | false => rfl
  | true =>
    have : same a e.name = true := hs.trans _ _ _ (hs.symm _ _ hb) h1
    rw [this] at h2; cases h2

theorem any_filter_false {p : DirEntry → Bool} {q : DirEntry → Bool} {l : List DirEntry} (h : l.any q = false) :
    (l.filter p).any q = false := by
  rw [List.any_eq_false] at h ⊢
  intro x hx
  exact h x (List.mem_filter.mp hx).1

/-- Adding the name back after both names have been removed. -/
theorem safe_rename {cfg : FsCfg} (hs : SameEquiv cfg.same) (bf : FH) (lf : Bytes) (bt : FH) (lt : Bytes) :
    Safe cfg (fun (r : RenameOut) c => c = match r with | .replaced e => Credit.one e.id | _ => Credit.zero)
      (Prog.one (secRename cfg bf lf bt lt)) Credit.zero := by
  refine ⟨Credit.zero_nonneg, ?_⟩
  intro fs hw _ _
  suffices h : FsWF cfg (secRename cfg bf lf bt lt fs).2 ∧ ∃ c' : Credit, c'.NonNeg ∧
      (∀ x, bal (secRename cfg bf lf bt lt fs).2 x = bal fs x + c' x) ∧
      ∀ r, (secRename cfg bf lf bt lt fs).1 = .ok r → c' = match r with | .replaced e => Credit.one e.id | _ => Credit.zero by
    obtain ⟨h1, c', h2, h3, h4⟩ := h
    exact ⟨c', h1, fun x => by rw [h3 x]; unfold Credit.zero; omega, h4, fun _ _ => h2⟩
  unfold secRename
  have hb1 := remove_books hs bf lf hw
  have ho1 := fun r fs' => @remove_ok cfg bf lf fs fs' r
  revert hb1 ho1
  unfold Sec.bind
  generalize hr : secRemove cfg bf lf fs = r
  obtain ⟨r1, fs1⟩ := r
  intro hb1 ho1
  obtain ⟨hw1, hb1⟩ := hb1
  cases r1 with
  | error e =>
    dsimp only at *
    exact ⟨hw1, Credit.zero, Credit.zero_nonneg, fun x => by rw [hb1 x]; rfl, fun r h => by cases h⟩
  | ok r1 =>
    obtain ⟨hlf, lF, hdF, hfF, hdF1, hoth1⟩ := ho1 r1 fs1 rfl
    cases r1 with
    | none =>
      dsimp only [Sec.pure] at *
      refine ⟨hw1, Credit.zero, Credit.zero_nonneg, fun x => by rw [hb1 x]; rfl, fun r h => ?_⟩
      injection h with h
      subst h
      rfl
    | some src =>
      dsimp only at *
      have hb2 := remove_books hs bt lt hw1
      have ho2 := fun r fs' => @remove_ok cfg bt lt fs1 fs' r
      revert hb2 ho2
      generalize hr2 : secRemove cfg bt lt fs1 = r
      obtain ⟨r2, fs2⟩ := r
      intro hb2 ho2
      obtain ⟨hw2, hb2⟩ := hb2
      cases r2 with
      | error e =>
        dsimp only at *
        exact ⟨hw2, Credit.one src.id, Credit.one_nonneg _, fun x => by rw [hb2 x, hb1 x]; omega, fun r h => by cases h⟩
      | ok r2 =>
        obtain ⟨hlt, lT, hdT, hfT, hdT2, hoth2⟩ := ho2 r2 fs2 rfl
        cases r2 with
        | none =>
          dsimp only at *
          obtain ⟨fs3, ha, _, _⟩ := add_ok (cfg := cfg) (x := ⟨lt, src.id, src.type⟩) hdT2 hlt
          have hb3 := add_books (cfg := cfg) bt ⟨lt, src.id, src.type⟩ hw2
          rw [ha] at hb3
          rw [ha]
          dsimp only [Sec.pure] at *
          rw [any_remove_self] at hb3
          obtain ⟨hw3, hb3⟩ := hb3
          refine ⟨hw3, Credit.zero, Credit.zero_nonneg, fun x => ?_, fun r h => ?_⟩
          · rw [hb3 x, hb2 x, hb1 x]
            show _ = bal fs x + 0
            simp only [Bool.not_false]
            omega
          · injection h with h
            subst h
            rfl
        | some dst =>
          dsimp only at *
          by_cases hid : src.id = dst.id
          · rw [if_pos hid]
            -- the entries of the source directory after both removals
            have hsrc : ∃ m, DirIs fs2 bf m ∧ (m.any fun y => cfg.same lf y.name) = false ∧
                (bf.id = bt.id → bf = bt ∧ cfg.same lt lf = false ∧ (m.any fun y => cfg.same lt y.name) = false) := by
              by_cases hbb : bf.id = bt.id
              · obtain ⟨e1, e2⟩ := hdF1.eq hdT hbb
                subst e1
                subst e2
                exact ⟨_, hdT2, any_filter_false (any_remove_self _ _), fun _ => ⟨rfl, find?_filter_of_some hs hfT.symm, any_remove_self _ _⟩⟩
              · exact ⟨_, hoth2 _ _ hbb hdF1, any_remove_self _ _, fun h => absurd h hbb⟩
            obtain ⟨m, hm, hma, hmb⟩ := hsrc
            obtain ⟨fs3, ha3, hd3, ho3⟩ := add_ok (cfg := cfg) (x := ⟨lf, src.id, src.type⟩) hm hlf
            have hb3 := add_books (cfg := cfg) bf ⟨lf, src.id, src.type⟩ hw2
            rw [ha3] at hb3 ⊢
            dsimp only at hb3 hd3 ⊢
            rw [hma] at hb3 hd3
            simp only [Bool.not_false, Bool.false_eq_true, if_false] at hb3 hd3
            obtain ⟨hw3, hb3⟩ := hb3
            have hdst : ∃ k, DirIs fs3 bt k ∧ (k.any fun y => cfg.same lt y.name) = false := by
              by_cases hbb : bf.id = bt.id
              · obtain ⟨e1, e2, e3⟩ := hmb hbb
                rw [← e1]
                refine ⟨_, hd3, ?_⟩
                rw [List.any_cons, e3, Bool.or_false]
                exact e2
              · exact ⟨_, ho3 _ _ (fun h => hbb h.symm) hdT2, any_remove_self _ _⟩
            obtain ⟨k, hk, hka⟩ := hdst
            obtain ⟨fs4, ha4, _, _⟩ := add_ok (cfg := cfg) (x := ⟨lt, dst.id, dst.type⟩) hk hlt
            have hb4 := add_books (cfg := cfg) bt ⟨lt, dst.id, dst.type⟩ hw3
            rw [ha4] at hb4 ⊢
            dsimp only [Sec.pure] at hb4 ⊢
            rw [hka] at hb4
            simp only [Bool.not_false] at hb4
            obtain ⟨hw4, hb4⟩ := hb4
            refine ⟨hw4, Credit.zero, Credit.zero_nonneg, fun x => ?_, fun r h => ?_⟩
            · rw [hb4 x, hb3 x, hb2 x, hb1 x]
              show _ = bal fs x + 0
              rw [hid]
              omega
            · injection h with h
              subst h
              rfl
          · rw [if_neg hid]
            obtain ⟨fs3, ha, _, _⟩ := add_ok (cfg := cfg) (x := ⟨lt, src.id, src.type⟩) hdT2 hlt
            have hb3 := add_books (cfg := cfg) bt ⟨lt, src.id, src.type⟩ hw2
            rw [ha] at hb3 ⊢
            dsimp only [Sec.pure] at hb3 ⊢
            rw [any_remove_self] at hb3
            simp only [Bool.not_false] at hb3
            obtain ⟨hw3, hb3⟩ := hb3
            refine ⟨hw3, Credit.one dst.id, Credit.one_nonneg _, fun x => ?_, fun r h => ?_⟩
            · rw [hb3 x, hb2 x, hb1 x]; omega
            · injection h with h
              subst h
              rfl

/-! ## Operations -/

/-- The operation keeps the books and returns without credits. -/
def Books (cfg : FsCfg) (p : Prog Int) : Prop := Safe cfg (fun _ c => c = Credit.zero) p Credit.zero

theorem Keeps.books {cfg : FsCfg} {p : Prog Int} (h : Keeps cfg p) : Books cfg p := h _ Credit.zero_nonneg

theorem safe_openAs (cfg : FsCfg) (id : Bytes) (type : Nat) :
    Safe cfg (fun h c => c = Credit.one id ∧ h = ⟨id, type⟩) (Prog.one (secOpenAs id type)) (Credit.one id) :=
  (neutral_openAs cfg id type).safe (Credit.one_nonneg _) _ fun _ _ h => openAs_id h

theorem safe_createFile (cfg : FsCfg) (path : Bytes) (mode : UInt32) (type : Nat) (uid gid : UInt32) (newId : Bytes) :
    Safe cfg (fun _ c => c = Credit.zero) (createFile cfg path mode type uid gid newId) Credit.zero := by
  unfold createFile
  refine Safe.bind ?_ _ _ (keeps_openBase cfg path _ Credit.zero_nonneg)
  rintro ⟨base, last⟩ c rfl
  refine Safe.bind ?_ _ _ (safe_create cfg newId type mode uid gid)
  rintro h c ⟨rfl, rfl⟩
  refine Safe.bind ?_ _ _ (safe_add base ⟨last, newId, type⟩)
  rintro b c rfl
  cases b with
  | true =>
    rw [if_pos rfl, if_pos rfl]
    refine Safe.bind ?_ _ _ ((neutral_setParent cfg _ _).safe' Credit.zero_nonneg)
    rintro _ c rfl
    rfl
  | false =>
    refine Safe.bind ?_ _ _ (safe_unlink cfg ⟨newId, type⟩)
    rintro _ c rfl
    exact Credit.zero_nonneg

theorem books_unlink {cfg : FsCfg} (hs : SameEquiv cfg.same) (path : Bytes) : Books cfg (vunlink cfg path) := by
  unfold vunlink
  refine Safe.bind ?_ _ _ (keeps_openBase cfg path _ Credit.zero_nonneg)
  rintro ⟨base, last⟩ c rfl
  refine Safe.bind ?_ _ _ (safe_remove hs base last)
  rintro r c rfl
  cases r with
  | none => exact rfl
  | some e =>
    refine Safe.bind ?_ _ _ (safe_openAs cfg e.id e.type)
    rintro h c ⟨rfl, rfl⟩
    refine Safe.bind ?_ _ _ (safe_unlink cfg ⟨e.id, e.type⟩)
    rintro _ c rfl
    rfl

theorem books_rmdir {cfg : FsCfg} (hs : SameEquiv cfg.same) (path : Bytes) : Books cfg (vrmdir cfg path) := by
  unfold vrmdir
  refine Safe.bind ?_ _ _ (keeps_openBase cfg path _ Credit.zero_nonneg)
  rintro ⟨base, last⟩ c rfl
  refine Safe.bind ?_ _ _ (safe_remove hs base last)
  rintro r c rfl
  cases r with
  | none => exact rfl
  | some e =>
    refine Safe.bind ?_ _ _ (safe_openAs cfg e.id e.type)
    rintro h c ⟨rfl, rfl⟩
    refine Safe.bind ?_ _ _ (safe_unlinkEmpty cfg ⟨e.id, e.type⟩)
    rintro _ c rfl
    rfl

theorem books_link (cfg : FsCfg) (src dest : Bytes) : Books cfg (vlink cfg src dest) := by
  unfold vlink
  refine Safe.bind ?_ _ _ (keeps_openAll cfg src true _ Credit.zero_nonneg)
  rintro r c rfl
  cases r with
  | none => exact rfl
  | some f =>
    refine Safe.bind ?_ _ _ (keeps_openBase cfg dest _ Credit.zero_nonneg)
    rintro ⟨base, last⟩ c rfl
    refine Safe.bind ?_ _ _ (safe_link cfg base last f)
    rintro _ c rfl
    rfl

theorem books_rename {cfg : FsCfg} (hs : SameEquiv cfg.same) (src dest : Bytes) : Books cfg (vrename cfg src dest) := by
  unfold vrename
  refine Safe.bind ?_ _ _ (keeps_openBase cfg src _ Credit.zero_nonneg)
  rintro ⟨bf, lf⟩ c rfl
  refine Safe.bind ?_ _ _ (keeps_openBase cfg dest _ Credit.zero_nonneg)
  rintro ⟨bt, lt⟩ c rfl
  refine Safe.bind ?_ _ _ (safe_rename hs bf lf bt lt)
  rintro r c rfl
  cases r with
  | missing => exact rfl
  | done => exact rfl
  | replaced e =>
    refine Safe.bind ?_ _ _ (safe_openAs cfg e.id e.type)
    rintro h c ⟨rfl, rfl⟩
    refine Safe.bind ?_ _ _ (safe_unlink cfg ⟨e.id, e.type⟩)
    rintro _ c rfl
    rfl

theorem keeps_withAttr {cfg : FsCfg} (path : Bytes) (rl : Bool) {f : TimeSpec → FileAttr → FileAttr}
    (hf : ∀ now a, (f now a).nlink = a.nlink) : Keeps cfg (withAttr cfg path rl f) := by
  unfold withAttr
  refine (keeps_openAll cfg path rl).bind fun r => ?_
  cases r with
  | none => exact keeps_ret _
  | some h => exact (neutral_attr h hf).keeps.bind fun _ => keeps_ret _

theorem keeps_readlink (cfg : FsCfg) (path : Bytes) (size : Nat) : Keeps cfg (fullReadlink cfg path size) := by
  unfold fullReadlink
  split
  · exact keeps_ret _
  · split
    · exact keeps_ret _
    · refine (keeps_openAll cfg path false).bind fun r => ?_
      cases r with
      | none => exact keeps_ret _
      | some h => exact (neutral_linkGet cfg h).keeps.bind fun _ => keeps_ret _

theorem keeps_getattr (cfg : FsCfg) (ov : OwnerOverride) (path : Bytes) : Keeps cfg (fullGetattr cfg ov path) := by
  unfold fullGetattr
  refine (keeps_openAll cfg path false).bind fun r => ?_
  cases r with
  | none => exact keeps_ret _
  | some h => exact (neutral_stat cfg ov h).keeps.bind fun _ => keeps_ret _

theorem keeps_open (cfg : FsCfg) (path : Bytes) (trunc : Bool) : Keeps cfg (fullOpen cfg path trunc) := by
  unfold fullOpen
  refine (keeps_openAll cfg path true).bind fun r => ?_
  cases r with
  | none => exact keeps_ret _
  | some h =>
    cases trunc with
    | false => exact keeps_ret _
    | true => exact (neutral_truncate cfg h 0).keeps.bind fun _ => keeps_ret _

theorem keeps_opendir (cfg : FsCfg) (path : Bytes) : Keeps cfg (fullOpendir cfg path) := by
  unfold fullOpendir
  refine (keeps_openAll cfg path true).bind fun r => ?_
  cases r with
  | none => exact keeps_ret _
  | some h => dsimp only; split <;> exact keeps_ret _

theorem keeps_truncate (cfg : FsCfg) (path : Bytes) (n : Nat) : Keeps cfg (fullTruncate cfg path n) := by
  unfold fullTruncate
  refine (keeps_openAll cfg path true).bind fun r => ?_
  cases r with
  | none => exact keeps_ret _
  | some h => exact (neutral_truncate cfg h n).keeps.bind fun _ => keeps_ret _

theorem keeps_readdir (cfg : FsCfg) (fill : Nat → Int) (h : FH) : Keeps cfg (fullReaddir cfg fill h) := by
  unfold fullReaddir
  split
  · exact keeps_ret _
  · exact (neutral_readdir cfg fill h).keeps.bind fun _ => keeps_ret _

theorem touchCtime_nlink (st : Bool) (now : TimeSpec) (a : FileAttr) : (a.touchCtime st now).nlink = a.nlink := by
  unfold FileAttr.touchCtime; split <;> rfl

theorem setUid_nlink (st : Bool) (now : TimeSpec) (v : UInt32) (a : FileAttr) : (a.setUid st now v).nlink = a.nlink := by
  unfold FileAttr.setUid; split
  · rfl
  · exact touchCtime_nlink _ _ _

theorem setGid_nlink (st : Bool) (now : TimeSpec) (v : UInt32) (a : FileAttr) : (a.setGid st now v).nlink = a.nlink := by
  unfold FileAttr.setGid; split
  · rfl
  · exact touchCtime_nlink _ _ _

theorem chmod_nlink (st : Bool) (now : TimeSpec) (m : UInt32) (a : FileAttr) : (a.chmod st now m).nlink = a.nlink := by
  unfold FileAttr.chmod FileAttr.setMode; split
  · rfl
  · exact touchCtime_nlink _ _ _

theorem chown_nlink (st : Bool) (now : TimeSpec) (u g : UInt32) (a : FileAttr) : (a.chown st now u g).nlink = a.nlink := by
  unfold FileAttr.chown
  dsimp only
  by_cases h1 : u ≠ 0xffffffff <;> by_cases h2 : g ≠ 0xffffffff
  · rw [if_pos h1, if_pos h2, setGid_nlink, setUid_nlink]
  · rw [if_pos h1, if_neg h2, setUid_nlink]
  · rw [if_neg h1, if_pos h2, setGid_nlink]
  · rw [if_neg h1, if_neg h2]

theorem utimens_nlink (st : Bool) (garbage : TimeSpec) (ts : Option (TimeSpec × TimeSpec)) (a : FileAttr) :
    (a.utimens st garbage ts).nlink = a.nlink := by
  unfold FileAttr.utimens
  split
  · cases ts with
    | none => rfl
    | some p => rfl
  · rfl

theorem books_op {cfg : FsCfg} (hs : SameEquiv cfg.same) (op : FullOp) : Books cfg (op.prog cfg) := by
  cases op with
  | create p m u g i =>
    exact Safe.bind (fun _ c h => by subst h; exact rfl) _ _ (safe_createFile cfg p m typeRegular u g i)
  | mkdir p m u g i =>
    exact Safe.bind (fun _ c h => by subst h; exact rfl) _ _ (safe_createFile cfg p m typeDirectory u g i)
  | symlink t f u g i =>
    refine Safe.bind ?_ _ _ (safe_createFile cfg f 0x1a4 typeSymlink u g i)
    rintro h c rfl
    refine Safe.bind ?_ _ _ ((neutral_linkSet cfg h t).safe' Credit.zero_nonneg)
    rintro _ c rfl
    rfl
  | unlink p => exact books_unlink hs p
  | rmdir p => exact books_rmdir hs p
  | link s d => exact books_link cfg s d
  | rename f t => exact books_rename hs f t
  | chmod p m => exact (keeps_withAttr p false fun now a => chmod_nlink _ _ _ _).books
  | chown p u g => exact (keeps_withAttr p false fun now a => chown_nlink _ _ _ _ _).books
  | utimens p g ts => exact (keeps_withAttr p false fun now a => utimens_nlink _ _ _ _).books
  | getattr p => exact ((keeps_getattr cfg _ p).bind fun _ => keeps_ret _).books
  | «open» p t => exact ((keeps_open cfg p t).bind fun _ => keeps_ret _).books
  | readlink p n => exact ((keeps_readlink cfg p n).bind fun _ => keeps_ret _).books
  | opendir p => exact ((keeps_opendir cfg p).bind fun _ => keeps_ret _).books
  | truncate p n => exact (keeps_truncate cfg p n).books
  | read h off len => exact (((neutral_read cfg h off len).keeps.bind fun _ => keeps_ret _).bind fun _ => keeps_ret _).books
  | write h off d => exact ((neutral_write cfg h off d).keeps.bind fun _ => keeps_ret _).books
  | ftruncate h n => exact ((neutral_truncate cfg h n).keeps.bind fun _ => keeps_ret _).books
  | fgetattr h => exact (((neutral_stat cfg _ h).keeps.bind fun _ => keeps_ret _).bind fun _ => keeps_ret _).books
  | readdir h fill => exact ((keeps_readdir cfg fill h).bind fun _ => keeps_ret _).books
  | flush h => exact ((neutral_flush cfg h).keeps.bind fun _ => keeps_ret _).books
  | fsync h =>
    exact ((neutral_file (id := h.id) (f := fun _ n => (.ok (), n)) fun _ _ => ⟨rfl, rfl⟩).keeps.bind fun _ => keeps_ret _).books

end Securefs
