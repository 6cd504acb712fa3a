import Verif.Spec.Descriptors
import Mathlib.Data.Option.Basic
/-!
# C122: streams are for the file that they were opened for, and no descriptor is lost

Theorems: `C122_files`, `C122_exactly`, `C122_end`, `C122_limit_partial`, `C122_unlimited_violated`.
-/

namespace Securefs.Props

open Securefs.Spec Securefs.Descr

/-- An object with a descriptor as one without. -/
private def Rel (before t : Table) : Option Obj → Option (Kind × Onto) → Prop
  | none, none => True
  | some o, some (kind, .file d) => o.kind = kind ∧ 0 ≤ o.fd ∧ before o.fd.toNat = none ∧ t o.fd.toNat = some d
  | some o, some (kind, .shut) => o.kind = kind ∧ kind = .stream ∧ o.fd = -1
  | some o, some (kind, .cwd) => o.kind = kind ∧ kind = .service ∧ o.fd = atFdCwd
  | _, _ => False

private structure Inv (before : Table) (s : Sys) (w : Objects) : Prop where
  rel : ∀ k, Rel before s.table (s.objs k) (w k)
  inj : ∀ k k' o o', s.objs k = some o → s.objs k' = some o' → 0 ≤ o.fd → o.fd = o'.fd → k = k'
  cover : ∀ fd, before fd = none → s.table fd ≠ none → ∃ k o, s.objs k = some o ∧ o.fd = (fd : Int)
  others : ∀ fd, before fd ≠ none → s.table fd = before fd

private theorem rel_none {b t : Table} {x : Option Obj} {y : Option (Kind × Onto)} (h : Rel b t x y) : x = none ↔ y = none := by
  rcases x with _ | o <;> rcases y with _ | ⟨kd, _ | _ | _⟩ <;> simp_all [Rel]

/-- `Rel` looks at the table only where the object is. -/
private theorem rel_table {b t t' : Table} {x : Option Obj} {y : Option (Kind × Onto)} (h : Rel b t x y)
    (same : ∀ o, x = some o → 0 ≤ o.fd → t' o.fd.toNat = t o.fd.toNat) : Rel b t' x y := by
  rcases x with _ | o <;> rcases y with _ | ⟨kd, _ | _ | _⟩ <;> simp only [Rel] at h ⊢
  · exact ⟨h.1, h.2.1, h.2.2.1, (same o rfl h.2.1).trans h.2.2.2⟩
  · exact h
  · exact h

private theorem construct_inv {alloc : Nat → Table → Int} (fresh : FreshFd alloc) {b : Table} {s : Sys} {w : Objects} (I : Inv b s w) (kind : Kind)
    (k file : Nat) (new : s.objs k = none) :
    ∃ w', made w k (kind, .file file) (construct alloc s kind k file).1 = some w' ∧ Inv b (construct alloc s kind k file).2 w' := by
  by_cases neg : alloc s.clock s.table < 0
  · have e : construct alloc s kind k file = (.thrown, { s with clock := s.clock + 1 }) := by simp [construct, sysOpen, neg]
    rw [e]
    exact ⟨w, rfl, I.rel, I.inj, I.cover, I.others⟩
  · have e : construct alloc s kind k file =
        (.done, ⟨Function.update s.table (alloc s.clock s.table).toNat (some file),
          Function.update s.objs k (some ⟨kind, alloc s.clock s.table⟩), s.clock + 1⟩) := by simp [construct, sysOpen, neg]
    rw [e]
    have pos : 0 ≤ alloc s.clock s.table := by omega
    have free := fresh s.clock s.table pos
    generalize alloc s.clock s.table = fd at *
    have bfree : b fd.toNat = none := by
      by_contra h
      rw [I.others _ h] at free
      exact h free
    have apart : ∀ n o, s.objs n = some o → 0 ≤ o.fd → o.fd.toNat ≠ fd.toNat := by
      intro n o ho hp heq
      have r := I.rel n
      rw [ho] at r
      rcases hw : w n with _ | ⟨kd, d | _ | _⟩ <;> rw [hw] at r <;> simp only [Rel] at r
      · rw [heq, free] at r; exact absurd r.2.2.2 (by simp)
      · omega
      · simp only [atFdCwd] at r; omega
    refine ⟨_, rfl, ⟨?_, ?_, ?_, ?_⟩⟩
    · intro n
      by_cases hn : n = k
      · subst hn; simp [Rel, pos, bfree]
      · simp only [Function.update_of_ne hn, if_neg hn]
        exact rel_table (I.rel n) fun o ho hp => Function.update_of_ne (apart n o ho hp) ..
    · intro n n' o o' h h' hp heq
      simp only [Function.update_apply] at h h'
      split at h <;> split at h'
      · omega
      · obtain rfl := Option.some.inj h
        exact absurd (by rw [← heq]) (apart n' o' h' (by rw [← heq]; exact hp))
      · obtain rfl := Option.some.inj h'
        exact absurd (by rw [heq]) (apart n o h hp)
      · exact I.inj n n' o o' h h' hp heq
    · intro n hb ht
      by_cases hn : n = fd.toNat
      · exact ⟨k, _, Function.update_self .., by simp only; omega⟩
      · simp only [Function.update_of_ne hn] at ht
        obtain ⟨k', o, ho, hf⟩ := I.cover n hb ht
        exact ⟨k', o, by rw [← ho]; exact Function.update_of_ne (by rintro rfl; rw [new] at ho; cases ho) .., hf⟩
    · intro n hb
      rw [← I.others n hb]
      exact Function.update_of_ne (by rintro rfl; exact hb bfree) ..

/-- An object that no longer has its descriptor. -/
private theorem gone_inv {b : Table} {s : Sys} {w : Objects} (I : Inv b s w) {k : Nat} {o : Obj} (ho : s.objs k = some o) (o' : Option Obj)
    (y : Option (Kind × Onto)) (r : Rel b (sysClose s.table o.fd) o' y) (neg : ∀ p, o' = some p → p.fd < 0) (c : Nat) :
    Inv b ⟨sysClose s.table o.fd, Function.update s.objs k o', c⟩ (fun n => if n = k then y else w n) := by
  have at_other : ∀ n p, n ≠ k → s.objs n = some p → 0 ≤ p.fd → sysClose s.table o.fd p.fd.toNat = s.table p.fd.toNat := by
    intro n p hn hp pos
    unfold sysClose
    split
    · rfl
    · refine Function.update_of_ne (fun heq => hn (I.inj n k p o hp ho pos (by omega))) ..
  refine ⟨?_, ?_, ?_, ?_⟩
  · intro n
    by_cases hn : n = k
    · subst hn; simpa using r
    · simp only [Function.update_of_ne hn, if_neg hn]
      exact rel_table (I.rel n) fun p hp pos => at_other n p hn hp pos
  · intro n n' p p' h h' pos heq
    simp only [Function.update_apply] at h h'
    split at h <;> split at h'
    · omega
    · exact absurd (neg p h) (by omega)
    · exact absurd (neg p' h') (by omega)
    · exact I.inj n n' p p' h h' pos heq
  · intro fd hb ht
    have ne : ¬ o.fd = (fd : Int) := by
      intro heq
      apply ht
      simp [sysClose, heq, show ¬ ((fd : Int) < 0) by omega]
    have ht' : s.table fd ≠ none := by
      intro h
      apply ht
      simp only [sysClose]
      split
      · exact h
      · rw [Function.update_apply]; split <;> simp [h]
    obtain ⟨k', p, hp, hf⟩ := I.cover fd hb ht'
    have hk : k' ≠ k := by
      rintro rfl
      rw [ho] at hp
      obtain rfl := Option.some.inj hp
      exact ne hf
    exact ⟨k', p, by rw [← hp]; exact Function.update_of_ne hk .., hf⟩
  · intro fd hb
    rw [← I.others fd hb]
    simp only [sysClose]
    split
    · rfl
    · refine Function.update_of_ne ?_ ..
      rintro rfl
      have r' := I.rel k
      rw [ho] at r'
      rcases hw : w k with _ | ⟨kd, d | _ | _⟩ <;> rw [hw] at r' <;> simp only [Rel] at r'
      · exact hb r'.2.2.1
      · omega
      · simp only [atFdCwd] at r'; omega

private theorem step_inv {alloc : Nat → Table → Int} (fresh : FreshFd alloc) {b : Table} {s : Sys} {w : Objects} (I : Inv b s w) (op : Op) :
    ∃ w', mayBe w op (step alloc s op).1 = some w' ∧ Inv b (step alloc s op).2 w' := by
  have nn := fun k => rel_none (I.rel k)
  cases op with
  | openStream k file =>
    rcases ho : s.objs k with _ | o
    · have hw := (nn k).1 ho
      simpa [step, mayBe, ho, hw] using construct_inv fresh I .stream k file ho
    · have hw : w k ≠ none := fun h => by simp [(nn k).2 h] at ho
      exact ⟨w, by simp [step, mayBe, ho, hw], by simpa [step, ho] using I⟩
  | openTraverser k file =>
    rcases ho : s.objs k with _ | o
    · have hw := (nn k).1 ho
      simpa [step, mayBe, ho, hw] using construct_inv fresh I .traverser k file ho
    · have hw : w k ≠ none := fun h => by simp [(nn k).2 h] at ho
      exact ⟨w, by simp [step, mayBe, ho, hw], by simpa [step, ho] using I⟩
  | openService k file real =>
    rcases ho : s.objs k with _ | o
    · have hw := (nn k).1 ho
      cases real
      · exact ⟨w, by simp [step, mayBe, ho, hw, made], by simpa [step, ho] using I⟩
      · simpa [step, mayBe, ho, hw] using construct_inv fresh I .service k file ho
    · have hw : w k ≠ none := fun h => by simp [(nn k).2 h] at ho
      exact ⟨w, by simp [step, mayBe, ho, hw], by simpa [step, ho] using I⟩
  | defaultService k =>
    rcases ho : s.objs k with _ | o
    · have hw := (nn k).1 ho
      refine ⟨fun n => if n = k then some (.service, .cwd) else w n, by simp [step, mayBe, ho, hw, made], ?_⟩
      simp only [step, ho, Option.isSome_none, Bool.false_eq_true, if_false]
      refine ⟨?_, ?_, ?_, I.others⟩
      · intro n
        by_cases hn : n = k
        · subst hn; simp [Rel]
        · simpa [Function.update_of_ne hn, hn] using I.rel n
      · intro n n' p p' h h' pos heq
        simp only [Function.update_apply] at h h'
        split at h <;> split at h'
        · omega
        · obtain rfl := Option.some.inj h; simp [atFdCwd] at pos
        · obtain rfl := Option.some.inj h'; simp [atFdCwd] at heq; omega
        · exact I.inj n n' p p' h h' pos heq
      · intro fd hb ht
        obtain ⟨k', p, hp, hf⟩ := I.cover fd hb ht
        exact ⟨k', p, by rw [← hp]; exact Function.update_of_ne (by rintro rfl; rw [ho] at hp; cases hp) .., hf⟩
    · have hw : w k ≠ none := fun h => by simp [(nn k).2 h] at ho
      exact ⟨w, by simp [step, mayBe, ho, hw], by simpa [step, ho] using I⟩
  | close k =>
    rcases ho : s.objs k with _ | o
    · have hw := (nn k).1 ho
      exact ⟨w, by simp [step, mayBe, ho, hw], by simpa [step, ho] using I⟩
    · have r := I.rel k
      rw [ho] at r
      by_cases hs : o.kind = .stream
      · have G := gone_inv I ho (some { o with fd := -1 }) (some (.stream, .shut)) (by simp [Rel, hs])
          (by rintro p hp; obtain rfl := Option.some.inj hp; simp) s.clock
        refine ⟨fun n => if n = k then some (.stream, .shut) else w n, ?_, by simpa [step, ho, hs, closeStream] using G⟩
        rcases hw : w k with _ | ⟨kd, on⟩ <;> rw [hw] at r
        · simp [Rel] at r
        · have : kd = .stream := by cases on <;> simp only [Rel] at r <;> rw [← r.1, hs]
          subst this
          simp [step, mayBe, ho, hw, hs]
      · refine ⟨w, ?_, by simpa [step, ho, hs] using I⟩
        rcases hw : w k with _ | ⟨kd, on⟩ <;> rw [hw] at r
        · simp [Rel] at r
        · have : kd ≠ .stream := by cases on <;> simp only [Rel] at r <;> rw [← r.1] <;> exact hs
          cases kd <;> simp_all [step, mayBe]
  | destroy k =>
    rcases ho : s.objs k with _ | o
    · have hw := (nn k).1 ho
      exact ⟨w, by simp [step, mayBe, ho, hw], by simpa [step, ho] using I⟩
    · have hw : w k ≠ none := fun h => by simp [(nn k).2 h] at ho
      have G := gone_inv I ho none none trivial (by simp) s.clock
      have e : destructor s.table o = sysClose s.table o.fd := by
        unfold destructor
        split
        · rfl
        · rfl
        · split
          · rfl
          · rw [sysClose, if_pos (by omega)]
      refine ⟨fun n => if n = k then none else w n, ?_, by simpa [step, ho, e] using G⟩
      obtain ⟨y, hy⟩ := Option.ne_none_iff_exists'.1 hw
      simp [step, mayBe, ho, hy]
  | use k =>
    rcases ho : s.objs k with _ | o
    · have hw := (nn k).1 ho
      exact ⟨w, by simp [step, mayBe, ho, hw], by simpa [step, ho] using I⟩
    · have r := I.rel k
      rw [ho] at r
      refine ⟨w, ?_, by simpa [step, ho] using I⟩
      rcases hw : w k with _ | ⟨kd, d | _ | _⟩ <;> rw [hw] at r <;> simp only [Rel] at r
      · have h1 : ¬ o.fd = atFdCwd := by simp only [atFdCwd]; omega
        have h2 : ¬ o.fd < 0 := by omega
        simp [step, mayBe, ho, hw, sysUse, h1, h2, r.2.2.2]
      · have h1 : ¬ o.fd = atFdCwd := by simp only [atFdCwd]; omega
        have h2 : o.fd < 0 := by omega
        simp [step, mayBe, ho, hw, sysUse, h1, h2]
      · simp [step, mayBe, ho, hw, sysUse, r.1, r.2.1, r.2.2]

private theorem run_inv {alloc : Nat → Table → Int} (fresh : FreshFd alloc) {b : Table} (ops : List Op) :
    ∀ {s : Sys} {w : Objects}, Inv b s w → ∃ w', mayAll w (run alloc s ops).1 = some w' ∧ Inv b (run alloc s ops).2 w' := by
  induction ops with
  | nil => intro s w I; exact ⟨w, rfl, I⟩
  | cons op rest ih =>
    intro s w I
    obtain ⟨w1, h1, I1⟩ := step_inv fresh I op
    obtain ⟨w2, h2, I2⟩ := ih I1
    exact ⟨w2, by simp [run, mayAll, h1, h2], by simpa [run] using I2⟩

private theorem start_inv (b : Table) : Inv b (start b) (fun _ => none) :=
  ⟨fun _ => trivial, fun _ _ _ _ h => by simp [start] at h, fun _ hb ht => absurd hb ht, fun _ _ => rfl⟩

private theorem inv_exactly {b : Table} {s : Sys} {w : Objects} (I : Inv b s w) : Exactly b s.table w := by
  have at_ : ∀ k kind d, w k = some (kind, .file d) → ∃ o, s.objs k = some o ∧ 0 ≤ o.fd ∧ b o.fd.toNat = none ∧ s.table o.fd.toNat = some d := by
    intro k kind d hw
    have r := I.rel k
    rw [hw] at r
    rcases ho : s.objs k with _ | o <;> rw [ho] at r <;> simp only [Rel] at r
    exact ⟨o, rfl, r.2⟩
  refine ⟨fun k => ((s.objs k).map fun o => o.fd.toNat).getD 0, ?_, ?_, ?_, I.others⟩
  · intro k kind d hw
    obtain ⟨o, ho, _, h1, h2⟩ := at_ k kind d hw
    simp [ho, h1, h2]
  · intro k k' kind kind' d d' hw hw' heq
    obtain ⟨o, ho, hp, _⟩ := at_ k kind d hw
    obtain ⟨o', ho', hp', _⟩ := at_ k' kind' d' hw'
    simp only [ho, ho', Option.map_some, Option.getD_some] at heq
    exact I.inj k k' o o' ho ho' hp (by omega)
  · intro fd hb ht
    obtain ⟨k, o, ho, hf⟩ := I.cover fd hb ht
    have r := I.rel k
    rw [ho] at r
    rcases hw : w k with _ | ⟨kd, d | _ | _⟩ <;> rw [hw] at r <;> simp only [Rel] at r
    · exact ⟨k, kd, d, hw, by simp [ho, hf]⟩
    · omega
    · simp only [atFdCwd] at r; omega

/-- **C122 (files).**  Whatever a program does with streams, directories and services, and whichever free descriptors the system gives: what comes of it is
    what would come without descriptors.  Each call reaches the file that its object was opened for, also if others were opened and closed meanwhile; after
    `close` calls are refused. -/
theorem C122_files {alloc : Nat → Table → Int} (fresh : FreshFd alloc) (before : Table) (ops : List Op) :
    ∃ w, mayAll (fun _ => none) (run alloc (start before) ops).1 = some w := by
  obtain ⟨w, h, _⟩ := run_inv fresh ops (start_inv before)
  exact ⟨w, h⟩

/-- **C122 (exactly).**  At any time there is exactly one descriptor for each object that is open, none besides them, and the descriptors that were there
    before are untouched. -/
theorem C122_exactly {alloc : Nat → Table → Int} (fresh : FreshFd alloc) (before : Table) (ops : List Op) {w : Objects}
    (h : mayAll (fun _ => none) (run alloc (start before) ops).1 = some w) : Exactly before (run alloc (start before) ops).2.table w := by
  obtain ⟨w', h', I⟩ := run_inv fresh ops (start_inv before)
  obtain rfl := Option.some.inj (h.symm.trans h')
  exact inv_exactly I

/-- **C122 (end).**  When every object is shut or gone, or is for the current directory, the table is as it was: no descriptor is lost. -/
theorem C122_end {alloc : Nat → Table → Int} (fresh : FreshFd alloc) (before : Table) (ops : List Op) {w : Objects}
    (h : mayAll (fun _ => none) (run alloc (start before) ops).1 = some w) (ended : ∀ k kind d, w k ≠ some (kind, .file d)) :
    (run alloc (start before) ops).2.table = before := by
  obtain ⟨place, _, _, h3, h4⟩ := C122_exactly fresh before ops h
  funext fd
  by_cases hb : before fd = none
  · rw [hb]
    by_contra ht
    obtain ⟨k, kind, d, hw, _⟩ := h3 fd hb ht
    exact ended k kind d hw
  · exact h4 fd hb

/-- Descriptors 0, 1 and 2 are in use; the system gives 3 if it is free, else 4 if it is free, else nothing. -/
private def three : Table := fun n => if n < 3 then some (100 + n) else none
private def lowest (_ : Nat) (t : Table) : Int := if t 3 = none then 3 else if t 4 = none then 4 else -1

private theorem lowest_fresh : FreshFd lowest := by
  intro n t h
  unfold lowest at h ⊢
  split
  · simpa
  · split
    · simpa
    · simp_all

/-- A stream is closed, its descriptor goes to another one, and then the first is destroyed: the other one is not harmed.  A third does not fit. -/
private def program : List Op :=
  [.openStream 0 7, .use 0, .close 0, .openStream 1 8, .use 0, .destroy 0, .use 1, .openService 2 9 true, .use 2, .openTraverser 3 5, .defaultService 4, .use 4,
    .destroy 4, .destroy 2, .openTraverser 3 5, .use 3, .destroy 3, .destroy 1]

example : FreshFd lowest := lowest_fresh
example : (run lowest (start three) program).1.map Prod.snd =
    [.done, .file 7, .done, .done, .badf, .done, .file 8, .done, .file 9, .thrown, .done, .cwd, .done, .done, .done, .file 5, .done, .done] := by
  decide +kernel
example : ((mayAll (fun _ => none) (run lowest (start three) program).1).map fun w => [w 0, w 1, w 2, w 3, w 4]) = some [none, none, none, none, none] := by
  decide +kernel
/-- In the middle two objects are open. -/
example : ((mayAll (fun _ => none) (run lowest (start three) (program.take 9)).1).map fun w => (w 0, w 1, w 2)) =
    some (none, some (.stream, .file 8), some (.service, .file 9)) := by decide +kernel

/-- **C122 (limit, partial).**  Missing: limits of `2^63` and more.  If the limit can be asked for, the answer is the limit afterwards, which is not less than
    before and not more than allowed; it is the most that is allowed if it can be set. -/
theorem C122_limit_partial (sets : Bool) (cur max : Nat) (legal : cur ≤ max) (small : max < 2 ^ 63) :
    (raiseFdLimit true sets cur max).1 = ((raiseFdLimit true sets cur max).2 : Int) ∧ cur ≤ (raiseFdLimit true sets cur max).2 ∧
      (raiseFdLimit true sets cur max).2 ≤ max ∧ (sets = true → (raiseFdLimit true sets cur max).2 = max) := by
  have e1 : toI64 cur = (cur : Int) := by rw [toI64, if_pos (by omega)]
  have e2 : toI64 max = (max : Int) := by rw [toI64, if_pos small]
  unfold raiseFdLimit
  simp only [Bool.true_eq_false, if_false, e1, e2]
  split
  · exact ⟨rfl, Nat.le_refl _, legal, fun _ => by simp only; omega⟩
  · split
    · exact ⟨rfl, Nat.le_refl _, legal, fun h => by simp_all⟩
    · exact ⟨rfl, legal, Nat.le_refl _, fun _ => rfl⟩

example : raiseFdLimit true true 1024 524288 = (524288, 524288) := by decide
example : raiseFdLimit true false 1024 524288 = (1024, 1024) := by decide

/-- **C122 (no limit, violated).**  `RLIM_INFINITY` is told as −1. -/
theorem C122_unlimited_violated : raiseFdLimit true true 1024 (2 ^ 64 - 1) = (-1, 2 ^ 64 - 1) := by decide

end Securefs.Props
