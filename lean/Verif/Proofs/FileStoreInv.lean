import Verif.Proofs.FileStore
/-!
# The store of backing files: the invariant of the threads
-/

namespace Securefs

open Spec (StoreMap StoreStep)

/-- The paths of a file. -/
def OwnPath (P : Bytes → StorePaths) (i : Bytes) (q : List Bytes) : Prop := q = (P i).file ∨ q = (P i).metaFile ∨ q ∈ (P i).dirs

/-- The host shows the files that are stored for an identifier. -/
def StoreShows (P : Bytes → StorePaths) (h : HostDir) (M : StoreMap) (i : Bytes) : Prop :=
  h.look (P i).file = (M i).map (fun v => HostEnt.file v.1) ∧ h.look (P i).metaFile = (M i).map (fun v => HostEnt.file v.2)

/-- If there is such a directory, it is not empty. -/
def TidyDir (h : HostDir) (d : List Bytes) : Prop := h.look d = some .dir → ∃ q e, h.look q = some e ∧ q ≠ [] ∧ q.dropLast = d

/-- The file opened first and the one opened second. -/
def firstPath (S : StorePaths) (swap : Bool) : List Bytes := if swap then S.metaFile else S.file
@[inherit_doc firstPath] def secondPath (S : StorePaths) (swap : Bool) : List Bytes := if swap then S.file else S.metaFile

/-- What is known at each point of an operation. -/
inductive TaskOk (P : Bytes → StorePaths) (h : HostDir) (M : StoreMap) : StoreTask → Prop where
  | create1 (i : Bytes) (swap : Bool) (ds1 ds2 : List (List Bytes)) (hd : (P i).dirs = ds1 ++ ds2)
      (made : ∀ d ∈ ds1, h.look d = some .dir) (sh : StoreShows P h M i) :
      TaskOk P h M ⟨.create i, swap, ds2.map .mkdir ++ [.openNew (firstPath (P i) swap), .openNew (secondPath (P i) swap)], []⟩
  | create2 (i : Bytes) (swap : Bool) (n : Nat) (made : ∀ d ∈ (P i).dirs, h.look d = some .dir) (free : M i = none)
      (one : h.look (firstPath (P i) swap) = some (.file n)) (two : h.look (secondPath (P i) swap) = none) (un : M.Unused n) :
      TaskOk P h M ⟨.create i, swap, [.openNew (secondPath (P i) swap)], [n]⟩
  | open1 (i : Bytes) (swap : Bool) (sh : StoreShows P h M i) (td : TidyDir h (P i).file.dropLast) :
      TaskOk P h M ⟨.open i, swap, [.openOld (firstPath (P i) swap), .openOld (secondPath (P i) swap)], []⟩
  | open2 (i : Bytes) (swap : Bool) (v : Nat × Nat) (sh : StoreShows P h M i) (td : TidyDir h (P i).file.dropLast) (hv : M i = some v) :
      TaskOk P h M ⟨.open i, swap, [.openOld (secondPath (P i) swap)], [if swap then v.2 else v.1]⟩
  | unlink1 (i : Bytes) (swap : Bool) (sh : StoreShows P h M i) :
      TaskOk P h M ⟨.unlink i, swap, .rm (P i).file :: .rm (P i).metaFile :: (P i).removed.map .rmdir, []⟩
  | unlink2 (i : Bytes) (swap : Bool) (gone : h.look (P i).file = none) (sh : h.look (P i).metaFile = (M i).map (fun v => HostEnt.file v.2)) :
      TaskOk P h M ⟨.unlink i, swap, .rm (P i).metaFile :: (P i).removed.map .rmdir, []⟩
  | unlink3 (i : Bytes) (swap : Bool) (d : List Bytes) (ds : List (List Bytes)) (hd : ∀ x ∈ d :: ds, x = (P i).file.dropLast)
      (gone : h.look (P i).file = none) (gone2 : h.look (P i).metaFile = none) :
      TaskOk P h M ⟨.unlink i, swap, (d :: ds).map .rmdir, []⟩

/-- The directory of the host is as the code keeps it. -/
structure HostOk (P : Bytes → StorePaths) (h : HostDir) : Prop where
  closed : h.Closed
  noBlock : ∀ i, ∀ d ∈ (P i).dirs, ∀ n, h.look d ≠ some (.file n)
  notDir : ∀ i, h.look (P i).file ≠ some .dir ∧ h.look (P i).metaFile ≠ some .dir
  lt : ∀ p n, h.look p = some (.file n) → n < h.next
  inj : ∀ p q n, h.look p = some (.file n) → h.look q = some (.file n) → p = q

/-- The host changed only where one file is. -/
structure Touch (P : Bytes → StorePaths) (i : Bytes) (h h' : HostDir) : Prop where
  ok : HostOk P h'
  next : h.next ≤ h'.next
  frame : ∀ q, ¬ OwnPath P i q → h'.look q = h.look q

/-- The first component of the paths of a file. -/
def topOf (i : Bytes) : Bytes := hexDigits (i.take 1)

/-- The invariant. -/
structure StoreInv (P : Bytes → StorePaths) (h : HostDir) (tasks : List (Nat × StoreTask)) (M : StoreMap) : Prop where
  host : HostOk P h
  nodes : ∀ i v, M i = some v → v.1 < h.next ∧ v.2 < h.next
  shows_ : ∀ i, (∀ p ∈ tasks, p.2.op.id ≠ i) → StoreShows P h M i
  tidy : ∀ i, (∀ p ∈ tasks, (P p.2.op.id).file.dropLast ≠ (P i).file.dropLast) → TidyDir h (P i).file.dropLast
  ok : ∀ p ∈ tasks, TaskOk P h M p.2
  apart : tasks.Pairwise fun p q => topOf p.2.op.id ≠ topOf q.2.op.id ∧ p.1 ≠ q.1
  ids : ∀ p ∈ tasks, p.2.op.id.length = 32 ∧ ∃ s, FileTab.shardOf p.2.op.id = .ok s

section
variable {P : Bytes → StorePaths} (L : StoreLayout P)
include L

theorem OwnPath.head {i : Bytes} {q : List Bytes} (h : OwnPath P i q) : q.head? = some (topOf i) := L.top i q h

theorem OwnPath.other {i j : Bytes} (hij : topOf i ≠ topOf j) {q : List Bytes} (h : OwnPath P j q) : ¬ OwnPath P i q := by
  intro h'
  have h1 := OwnPath.head L h
  rw [OwnPath.head L h'] at h1
  exact hij (Option.some.inj h1)

theorem own_file {i j : Bytes} (hij : i ≠ j) : ¬ OwnPath P i (P j).file ∧ ¬ OwnPath P i (P j).metaFile := by
  constructor
  · rintro (h | h | h)
    · exact hij (L.fileInj _ _ h).symm
    · exact L.fileMeta _ _ h
    · exact (L.dirFile _ j _ h).1 rfl
  · rintro (h | h | h)
    · exact L.fileMeta _ _ h.symm
    · exact hij (L.metaInj _ _ h).symm
    · exact (L.dirFile _ j _ h).2 rfl

theorem Touch.shows_ {i j : Bytes} {h h' : HostDir} {M M' : StoreMap} (T : Touch P i h h') (hij : i ≠ j) (hM : M' j = M j) (hs : StoreShows P h M j) : StoreShows P h' M' j := by
  obtain ⟨h1, h2⟩ := own_file L hij
  unfold StoreShows
  rw [T.frame _ h1, T.frame _ h2, hM]
  exact hs

theorem lastDir_ne (i : Bytes) : (P i).file.dropLast ≠ [] := by
  intro h
  obtain ⟨l1, l2, h1⟩ := List.append_of_mem (L.fileDir i)
  exact (L.chain i _ _ _ h1).1 h

theorem dir_ne (i : Bytes) {d : List Bytes} (hd : d ∈ (P i).dirs) : d ≠ [] := by
  obtain ⟨l1, l2, h1⟩ := List.append_of_mem hd
  exact (L.chain i _ _ _ h1).1

/-- Directories of other files stay tidy. -/
theorem Touch.tidy {i j : Bytes} {h h' : HostDir} (T : Touch P i h h') (hij : (P i).file.dropLast ≠ (P j).file.dropLast)
    (hs : TidyDir h (P j).file.dropLast) : TidyDir h' (P j).file.dropLast := by
  have hD : ¬ OwnPath P i (P j).file.dropLast := by
    rintro (h1 | h1 | h1)
    · exact (L.dirFile j i _ (L.fileDir j)).1 h1
    · exact (L.dirFile j i _ (L.fileDir j)).2 h1
    · by_cases hx : (P j).file.dropLast = (P i).file.dropLast
      · exact hij hx.symm
      · exact L.lastDir i j _ h1 hx rfl
  intro hd
  rw [T.frame _ hD] at hd
  obtain ⟨q, e, h1, h2, h3⟩ := hs hd
  refine ⟨q, e, ?_, h2, h3⟩
  rw [T.frame q, h1]
  rintro (hx | hx | hx)
  · rw [hx] at h3; exact hij h3
  · rw [hx, L.metaDir] at h3; exact hij h3
  · exact L.below i j _ hx h3

theorem Touch.task {i : Bytes} {h h' : HostDir} {M M' : StoreMap} (T : Touch P i h h') {k : StoreTask} (hij : topOf i ≠ topOf k.op.id)
    (hM : M' k.op.id = M k.op.id)
    (hU : ∀ n q, M.Unused n → OwnPath P k.op.id q → h'.look q = some (.file n) → M'.Unused n) (hk : TaskOk P h M k) : TaskOk P h' M' k := by
  have hne : i ≠ k.op.id := fun e => hij (by rw [e])
  have fr : ∀ q, OwnPath P k.op.id q → h'.look q = h.look q := fun q hq => T.frame q (OwnPath.other L hij hq)
  have hdir : (P i).file.dropLast ≠ (P k.op.id).file.dropLast := by
    intro e
    have h1 := OwnPath.head L (i := i) (q := (P i).file.dropLast) (Or.inr (Or.inr (L.fileDir i)))
    have h2 := OwnPath.head L (i := k.op.id) (q := (P k.op.id).file.dropLast) (Or.inr (Or.inr (L.fileDir _)))
    rw [e, h2] at h1
    exact hij (Option.some.inj h1).symm
  have hF : ∀ (j : Bytes) (swap : Bool), OwnPath P j (firstPath (P j) swap) := fun j swap => by
    unfold firstPath; split
    · exact Or.inr (Or.inl rfl)
    · exact Or.inl rfl
  have hS : ∀ (j : Bytes) (swap : Bool), OwnPath P j (secondPath (P j) swap) := fun j swap => by
    unfold secondPath; split
    · exact Or.inl rfl
    · exact Or.inr (Or.inl rfl)
  cases hk with
  | create1 j swap ds1 ds2 hd made sh =>
    refine .create1 j swap ds1 ds2 hd (fun d hm => ?_) (T.shows_ L hne hM sh)
    rw [fr d (Or.inr (Or.inr (by show d ∈ (P j).dirs; rw [hd]; exact List.mem_append_left _ hm)))]
    exact made d hm
  | create2 j swap n made free one two un =>
    refine .create2 j swap n (fun d hm => ?_) (hM.trans free) ?_ ?_ (hU n _ un (hF j swap) ?_)
    · rw [fr d (Or.inr (Or.inr hm))]; exact made d hm
    · rw [fr _ (hF j swap)]; exact one
    · rw [fr _ (hS j swap)]; exact two
    · rw [fr _ (hF j swap)]; exact one
  | open1 j swap sh td => exact .open1 j swap (T.shows_ L hne hM sh) (T.tidy L hdir td)
  | open2 j swap v sh td hv => exact .open2 j swap v (T.shows_ L hne hM sh) (T.tidy L hdir td) (hM.trans hv)
  | unlink1 j swap sh => exact .unlink1 j swap (T.shows_ L hne hM sh)
  | unlink2 j swap gone sh =>
    refine .unlink2 j swap ?_ ?_
    · exact (fr (P j).file (Or.inl rfl)).trans gone
    · rw [show M' j = M j from hM]; exact (fr (P j).metaFile (Or.inr (Or.inl rfl))).trans sh
  | unlink3 j swap d ds hd gone gone2 =>
    refine .unlink3 j swap d ds hd ?_ ?_
    · exact (fr (P j).file (Or.inl rfl)).trans gone
    · exact (fr (P j).metaFile (Or.inr (Or.inl rfl))).trans gone2

/-- The calls of the code on its own paths keep the host in order. -/
theorem touch_call {i : Bytes} {h h' : HostDir} (H : HostOk P h) {c : HostCall} {r : Option Nat} (hc : h.call c = .ok (h', r))
    (hown : match c with
      | .mkdir p | .rmdir p => p ∈ (P i).dirs
      | .openNew p | .openOld p | .rm p => p = (P i).file ∨ p = (P i).metaFile) : Touch P i h h' := by
  have hpath : OwnPath P i c.path := by
    cases c with
    | mkdir p => exact Or.inr (Or.inr hown)
    | rmdir p => exact Or.inr (Or.inr hown)
    | openNew p => rcases hown with h | h <;> [exact Or.inl h; exact Or.inr (Or.inl h)]
    | openOld p => rcases hown with h | h <;> [exact Or.inl h; exact Or.inr (Or.inl h)]
    | rm p => rcases hown with h | h <;> [exact Or.inl h; exact Or.inr (Or.inl h)]
  have hpne : c.path ≠ [] := by
    intro e
    have := OwnPath.head L hpath
    rw [e] at this
    cases this
  have fr : ∀ q, q ≠ c.path → h'.look q = h.look q := fun q hq => HostDir.call_frame hc hq
  have hnext := HostDir.call_next hc
  refine ⟨⟨H.closed.call hpne hc, ?_, ?_, ?_, ?_⟩, hnext, fun q hq => fr q fun e => hq (e ▸ hpath)⟩
  all_goals
    have hnew : ∀ q n, h'.look q = some (.file n) → h.look q = some (.file n) ∨ (q = c.path ∧ (∃ p, c = .openNew p) ∧ n = h.next ∧ h'.next = h.next + 1) := by
      intro q n hq
      by_cases hqc : q = c.path
      · subst hqc
        unfold HostDir.call at hc
        split at hc
        · cases hc
        · cases c <;> simp only [HostCall.path] at hq hc ⊢ <;> split at hc <;> (try cases hc)
          · rw [HostDir.look_cons, if_pos rfl] at hq; cases hq
          · rw [HostDir.look_cons, if_pos rfl] at hq; cases hq
            exact Or.inr ⟨trivial, ⟨_, rfl⟩, rfl, rfl⟩
          · exact Or.inl hq
          · rw [HostDir.look_filter, if_pos rfl] at hq; cases hq
          · split at hc
            · cases hc
              rw [HostDir.look_filter, if_pos rfl] at hq; cases hq
            · cases hc
      · rw [fr q hqc] at hq; exact Or.inl hq
  · intro j d hd n hq
    rcases hnew d n hq with h1 | ⟨h1, ⟨p, rfl⟩, _⟩
    · exact H.noBlock j d hd n h1
    · rcases hown with h2 | h2
      · exact (L.dirFile j i d hd).1 (h1.trans h2)
      · exact (L.dirFile j i d hd).2 (h1.trans h2)
  · intro j
    have key : ∀ q, h'.look q = some .dir → h.look q ≠ some .dir → q ∈ (P i).dirs := by
      intro q hq hn
      by_cases hqc : q = c.path
      · subst hqc
        unfold HostDir.call at hc
        split at hc
        · cases hc
        · cases c <;> simp only [HostCall.path] at hq hc hn ⊢ <;> split at hc <;> (try cases hc)
          · exact hown
          · rw [HostDir.look_cons, if_pos rfl] at hq; cases hq
          · exact absurd hq hn
          · rw [HostDir.look_filter, if_pos rfl] at hq; cases hq
          · split at hc
            · cases hc
              rw [HostDir.look_filter, if_pos rfl] at hq; cases hq
            · cases hc
      · rw [fr q hqc] at hq; exact absurd hq hn
    exact ⟨fun hq => (L.dirFile i j _ (key _ hq (H.notDir j).1)).1 rfl, fun hq => (L.dirFile i j _ (key _ hq (H.notDir j).2)).2 rfl⟩
  · intro p n hq
    rcases hnew p n hq with h1 | ⟨_, _, h1, h2⟩
    · exact Nat.lt_of_lt_of_le (H.lt p n h1) hnext
    · omega
  · intro p q n hp hq
    rcases hnew p n hp with h1 | ⟨h1, _, h2, _⟩ <;> rcases hnew q n hq with h3 | ⟨h3, _, h4, _⟩
    · exact H.inj p q n h1 h3
    · exact absurd (H.lt p n h1) (by omega)
    · exact absurd (H.lt q n h3) (by omega)
    · rw [h1, h3]

omit L in
theorem HostOk.touch {i : Bytes} {h : HostDir} (H : HostOk P h) : Touch P i h h := ⟨H, Nat.le_refl _, fun _ _ => rfl⟩

omit L in
theorem StoreInv.other {h : HostDir} {tasks : List (Nat × StoreTask)} {M : StoreMap} (I : StoreInv P h tasks M) {t : Nat} {k : StoreTask}
    (hk : tasks.lookup t = some k) {p : Nat × StoreTask} (hp : p ∈ tasks) (hne : p.1 ≠ t) : topOf k.op.id ≠ topOf p.2.op.id := by
  have hm := FileTab.lookup_mem' hk
  have hsym : ∀ a b : Nat × StoreTask, (topOf a.2.op.id ≠ topOf b.2.op.id ∧ a.1 ≠ b.1) → (topOf b.2.op.id ≠ topOf a.2.op.id ∧ b.1 ≠ a.1) :=
    fun a b h => ⟨h.1.symm, h.2.symm⟩
  have : ∀ l : List (Nat × StoreTask), l.Pairwise (fun p q => topOf p.2.op.id ≠ topOf q.2.op.id ∧ p.1 ≠ q.1) → ∀ x ∈ l, ∀ y ∈ l, x.1 ≠ y.1 →
      topOf x.2.op.id ≠ topOf y.2.op.id := by
    intro l hl
    induction hl with
    | nil => intro x hx; cases hx
    | cons h1 _ ih =>
      intro x hx y hy hxy
      rcases List.mem_cons.mp hx with rfl | hx' <;> rcases List.mem_cons.mp hy with rfl | hy'
      · exact absurd rfl hxy
      · exact (h1 y hy').1
      · exact ((h1 x hx').1).symm
      · exact ih x hx' y hy' hxy
  exact this tasks I.apart _ hm p hp (fun e => hne e.symm)

omit L in
theorem StoreInv.only {h : HostDir} {tasks : List (Nat × StoreTask)} {M : StoreMap} (I : StoreInv P h tasks M) {t : Nat} {k : StoreTask}
    (hk : tasks.lookup t = some k) {p : Nat × StoreTask} (hp : p ∈ tasks) (he : p.1 = t) : p = (t, k) := by
  have hm := FileTab.lookup_mem' hk
  have : ∀ l : List (Nat × StoreTask), l.Pairwise (fun p q => topOf p.2.op.id ≠ topOf q.2.op.id ∧ p.1 ≠ q.1) → ∀ x ∈ l, ∀ y ∈ l, x.1 = y.1 → x = y := by
    intro l hl
    induction hl with
    | nil => intro x hx; cases hx
    | cons h1 _ ih =>
      intro x hx y hy hxy
      rcases List.mem_cons.mp hx with rfl | hx' <;> rcases List.mem_cons.mp hy with rfl | hy'
      · rfl
      · exact absurd hxy (h1 y hy').2
      · exact absurd hxy.symm (h1 x hx').2
      · exact ih x hx' y hy' hxy
  exact this tasks I.apart _ hp _ hm he

theorem StoreInv.rest {h h' : HostDir} {tasks : List (Nat × StoreTask)} {M : StoreMap} (I : StoreInv P h tasks M) {t : Nat} {k : StoreTask}
    (hk : tasks.lookup t = some k) (T : Touch P k.op.id h h') (M' : StoreMap) (hM : ∀ j, j ≠ k.op.id → M' j = M j)
    (hU : ∀ n j q, j ≠ k.op.id → M.Unused n → OwnPath P j q → h'.look q = some (.file n) → M'.Unused n) :
    ∀ p ∈ tasks.filter (fun p => p.1 != t), TaskOk P h' M' p.2 := by
  intro p hp
  obtain ⟨hp, hne⟩ := List.mem_filter.mp hp
  have hne : p.1 ≠ t := by simpa using hne
  have htop := I.other hk hp hne
  have hid : p.2.op.id ≠ k.op.id := fun e => htop (by rw [e])
  exact T.task L htop (hM _ hid) (fun n q h1 h2 h3 => hU n _ q hid h1 h2 h3) (I.ok p hp)

theorem StoreInv.replace {h h' : HostDir} {tasks : List (Nat × StoreTask)} {M : StoreMap} (I : StoreInv P h tasks M) {t : Nat} {k k' : StoreTask}
    (hk : tasks.lookup t = some k) (T : Touch P k.op.id h h') (hop : k'.op = k.op) (hok : TaskOk P h' M k') :
    StoreInv P h' ((t, k') :: tasks.filter fun p => p.1 != t) M := by
  have hmem : ∀ p, p ∈ tasks → p = (t, k) ∨ p ∈ tasks.filter fun p => p.1 != t := by
    intro p hp
    by_cases he : p.1 = t
    · exact Or.inl (I.only hk hp he)
    · exact Or.inr (List.mem_filter.mpr ⟨hp, by simpa using he⟩)
  constructor
  · exact T.ok
  · intro i v hv
    have := I.nodes i v hv
    have := T.next
    omega
  · intro i hi
    have h0 : k.op.id ≠ i := by have := hi (t, k') (by simp); rwa [hop] at this
    refine T.shows_ L h0 rfl (I.shows_ i fun p hp => ?_)
    rcases hmem p hp with rfl | hp
    · exact h0
    · exact hi p (List.mem_cons_of_mem _ hp)
  · intro i hi
    have h0 : (P k.op.id).file.dropLast ≠ (P i).file.dropLast := by have := hi (t, k') (by simp); rwa [hop] at this
    refine T.tidy L h0 (I.tidy i fun p hp => ?_)
    rcases hmem p hp with rfl | hp
    · exact h0
    · exact hi p (List.mem_cons_of_mem _ hp)
  · intro p hp
    rcases List.mem_cons.mp hp with rfl | hp
    · exact hok
    · exact I.rest L hk T M (fun _ _ => rfl) (fun n j q _ h1 _ _ => h1) p hp
  · refine List.Pairwise.cons ?_ (I.apart.filter _)
    intro p hp
    obtain ⟨hp, hne⟩ := List.mem_filter.mp hp
    have hne : p.1 ≠ t := by simpa using hne
    refine ⟨?_, fun e => hne e.symm⟩
    show topOf k'.op.id ≠ _
    rw [hop]
    exact I.other hk hp hne
  · intro p hp
    rcases List.mem_cons.mp hp with rfl | hp
    · show k'.op.id.length = 32 ∧ ∃ s, FileTab.shardOf k'.op.id = .ok s
      rw [hop]
      exact I.ids _ (FileTab.lookup_mem' hk)
    · exact I.ids p (List.mem_filter.mp hp).1

theorem StoreInv.done {h h' : HostDir} {tasks : List (Nat × StoreTask)} {M : StoreMap} (I : StoreInv P h tasks M) {t : Nat} {k : StoreTask}
    (hk : tasks.lookup t = some k) (T : Touch P k.op.id h h') (v : Option (Nat × Nat)) (sh : StoreShows P h' (M.put k.op.id v) k.op.id)
    (td : TidyDir h' (P k.op.id).file.dropLast) : StoreInv P h' (tasks.filter fun p => p.1 != t) (M.put k.op.id v) := by
  have hput : ∀ j, j ≠ k.op.id → (M.put k.op.id v) j = M j := fun j hj => by simp [StoreMap.put, hj]
  have hself : (M.put k.op.id v) k.op.id = v := by simp [StoreMap.put]
  have hmem : ∀ p, p ∈ tasks → p = (t, k) ∨ p ∈ tasks.filter fun p => p.1 != t := by
    intro p hp
    by_cases he : p.1 = t
    · exact Or.inl (I.only hk hp he)
    · exact Or.inr (List.mem_filter.mpr ⟨hp, by simpa using he⟩)
  constructor
  · exact T.ok
  · intro i w hw
    by_cases hi : i = k.op.id
    · subst hi
      unfold StoreShows at sh
      rw [hw] at sh
      exact ⟨T.ok.lt _ _ sh.1, T.ok.lt _ _ sh.2⟩
    · rw [hput i hi] at hw
      have := I.nodes i w hw
      have := T.next
      omega
  · intro i hi
    by_cases h0 : i = k.op.id
    · rw [h0]; exact sh
    · refine T.shows_ L (fun e => h0 e.symm) (hput i h0) (I.shows_ i fun p hp => ?_)
      rcases hmem p hp with rfl | hp
      · exact fun e => h0 e.symm
      · exact hi p hp
  · intro i hi
    by_cases h0 : (P k.op.id).file.dropLast = (P i).file.dropLast
    · rw [← h0]; exact td
    · refine T.tidy L h0 (I.tidy i fun p hp => ?_)
      rcases hmem p hp with rfl | hp
      · exact h0
      · exact hi p hp
  · refine I.rest L hk T _ hput ?_
    intro n j q hj hun hq hl i d m hi
    by_cases h0 : i = k.op.id
    · subst h0
      unfold StoreShows at sh
      rw [hi] at sh
      have hnot := fun q' (hq' : q' = (P k.op.id).file ∨ q' = (P k.op.id).metaFile) (e : q = q') => (by
        have h1 := own_file L hj
        subst e
        rcases hq' with rfl | rfl
        · exact h1.1 hq
        · exact h1.2 hq : False)
      exact ⟨fun e => hnot _ (Or.inl rfl) (T.ok.inj _ _ n hl (by rw [e]; exact sh.1)),
        fun e => hnot _ (Or.inr rfl) (T.ok.inj _ _ n hl (by rw [e]; exact sh.2))⟩
    · rw [hput i h0] at hi
      exact hun i d m hi
  · exact I.apart.filter _
  · intro p hp
    exact I.ids p (List.mem_filter.mp hp).1

end
end Securefs
