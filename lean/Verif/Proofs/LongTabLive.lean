import Verif.Proofs.LongTabSim
/-! Helper lemmas about threads on the tables of long names: some thread can always go on. -/

namespace Securefs.LongTab

open Securefs.Spec.LongTab

/-- A thread has only one connection per directory. -/
def Single (s : St) : Prop := ∀ t ∈ s.threads, ∀ f ∈ t.pc.files, ∀ f' ∈ t.pc.files, f.1 = f'.1 → f = f'

/-- The tables of the new place of the thread. -/
theorem single_step {s s' : St} {i : Nat} {t : Th} {c : Call} {m : Move} (hsh : Shape s) (h : Single s) (ht : s.threads[i]? = some t)
    (hs : Step s i t c m s') : Single s' := by
  have hmem : t ∈ s.threads := List.mem_of_getElem? ht
  have frame : ∀ (s' : St) (t' : Th), s'.threads = s.threads.set i t' → (∀ f ∈ t'.pc.files, f ∈ t.pc.files) → Single s' := by
    intro s' t' h1 h2 u hu f hf f' hf' e
    rw [h1] at hu
    rcases mem_set hu with rfl | ⟨j, _, hj⟩
    · exact h t hmem f (h2 f hf) f' (h2 f' hf') e
    · exact h u (List.mem_of_getElem? hj) f hf f' hf' e
  have go : ∀ pc : Pc, (∀ f ∈ pc.files, f ∈ t.pc.files) → Single (s.go i t pc) := fun pc h2 => frame _ { t with pc := pc } rfl h2
  have ret : ∀ o, Single (s.ret i t o) := fun o => frame _ ⟨t.calls.tail, .idle, t.log ++ [o]⟩ rfl (fun f hf => by cases hf)
  cases hs with
  | list d hd hp => exact go _ (fun f hf => by cases hf)
  | refused m hl hp => exact ret _
  | opened hl hp hb hlv =>
    obtain ⟨o0, o1, o2, o3, o4, o5, o6⟩ := openTables_facts c.opens s hsh
    intro u hu f hf f' hf' e
    rcases mem_set hu with rfl | ⟨j, _, hj⟩
    · have a := o6 f hf
      have b := o6 f' hf'
      rw [← e, a] at b
      exact Prod.ext e (Option.some.inj b)
    · rw [o2] at hj
      exact h u (List.mem_of_getElem? hj) f hf f' hf' e
  | exec fs x todo held hp hf => exact go _ (fun f hf => by rw [hp]; exact hf)
  | gaveUp fs x todo held hp => exact ret _
  | unlinked fs held hp hr =>
    exact frame _ { t with pc := .inside fs held } (by show (s.unlinkTable c).threads.set i _ = _; rw [(unlinkTable_facts s c).1])
      (fun f hf => by rw [hp]; exact hf)
  | system fs held hp hl =>
    exact frame _ { t with pc := .finishing fs held (s.kernel c).1 } rfl (fun f hf => by rcases hp with hp | hp <;> [rw [hp.1]; rw [hp]] <;> exact hf)
  | fault e fs held hp => exact go _ (fun f hf => by rcases hp with hp | hp <;> [rw [hp.1]; rw [hp]] <;> exact hf)
  | failed fs held e hp => exact ret _
  | short fs hp => exact ret _
  | pend fs held hp hne => exact go _ (fun f hf => by rw [hp]; exact hf)
  | commit fs held hp hr => exact frame _ ⟨t.calls.tail, .idle, t.log ++ [.done none]⟩ rfl (fun f hf => by cases hf)
  | lost fs held hp => exact ret _
  | look m pc hp hq hw => exact go _ (fun f hf => by exfalso; revert hq hf; cases pc <;> intro hq hf <;> first | (cases hq; done) | cases hf)
  | listed conn out hp => exact ret _

/-- The thread waits for the table of `x`. -/
def Th.waits (t : Th) (x : Stmt) : Prop := ∃ fs todo held, t.pc = .running fs (x :: todo) held ∧ t.holds x.file = false

/-- A thread that holds a table and waits for another one is a `vrename` up the order. -/
theorem waits_up {rank : Nat → Nat} {s : St} (hsh : Shape s) (hsg : Single s) {t : Th} (hmem : t ∈ s.threads) (hasc : ∀ c ∈ t.calls, Ascending rank c)
    {x : Stmt} (hw : t.waits x) {f : File} (hf : t.holds f = true) : rank f.1 < rank x.file.1 := by
  obtain ⟨fs, todo, held, hp, hn⟩ := hw
  obtain ⟨c, cs, done, h1, h2, h3, h4, h5⟩ := (hsh.txn t hmem).call (by rw [hp]; rfl)
  have hsg := hsg t hmem
  have hc := hasc c (by rw [h1]; exact List.mem_cons_self)
  have hfd : f ∈ done.map Stmt.file := by
    unfold Th.holds at hf
    rw [h5, lookup_exec] at hf
    by_contra hm
    rw [if_neg hm] at hf
    cases hf
  rw [hp] at h3 h4 hsg
  dsimp only [Pc.files, Pc.todo] at h3 h4 hsg
  have hne : f ≠ x.file := by
    intro e
    rw [e, hn] at hf
    cases hf
  cases c with
  | list d => cases h2
  | op d n k =>
    exfalso
    have hl : ((Call.op d n k).stmts fs).length ≤ 1 := by
      unfold Call.stmts
      split
      · split <;> exact Nat.le_refl _
      · rename_i e; cases e
      · exact Nat.zero_le _
    rw [h4, List.length_append, List.length_cons] at hl
    cases done with
    | nil => cases hfd
    | cons y done => rw [List.length_cons] at hl; omega
  | rename d n d' n' =>
    have key : ∃ f0 f1, fs = [f0, f1] ∧ f0.1 = d ∧ f1.1 = d' := by
      unfold Call.opens at h3
      by_cases hb : (n.full.isEmpty && n'.full.isEmpty) = true
      · dsimp only at h3
        rw [if_pos hb] at h3
        have : fs = [] := by cases fs with
          | nil => rfl
          | cons f fs => cases h3
        subst this
        exfalso
        have h4' : [] = done ++ x :: todo := h4
        cases done <;> cases h4'
      · dsimp only at h3
        rw [if_neg hb] at h3
        match fs, h3 with
        | [f, f'], h => exact ⟨f, f', rfl, by injection h, by injection h with _ h; injection h⟩
    obtain ⟨f0, f1, rfl, e0, e1⟩ := key
    have h4' : (if n.full.isEmpty then [] else [Stmt.del f0 n.backing]) ++ (if n'.full.isEmpty then [] else [Stmt.put f1 n'.backing n'.full]) =
        done ++ x :: todo := h4
    cases done with
    | nil => cases hfd
    | cons y done =>
      by_cases hn1 : n.full = []
      · exfalso
        rw [hn1] at h4'
        by_cases hn2 : n'.full = []
        · rw [hn2] at h4'; cases h4'
        · rw [if_neg (show ¬ n'.full.isEmpty = true by simpa using hn2)] at h4'
          have := congrArg List.length h4'
          simp at this
      · by_cases hn2 : n'.full = []
        · exfalso
          rw [if_neg (show ¬ n.full.isEmpty = true by simpa using hn1), hn2] at h4'
          have := congrArg List.length h4'
          simp at this
        · rw [if_neg (show ¬ n.full.isEmpty = true by simpa using hn1), if_neg (show ¬ n'.full.isEmpty = true by simpa using hn2)] at h4'
          injection h4' with i1 i2
          cases done with
          | nil =>
            injection i2 with j1 j2
            subst i1 j1
            rw [List.map_cons, List.map_nil, List.mem_singleton] at hfd
            rw [hfd]
            show rank f0.1 < rank f1.1
            rw [e0, e1]
            refine hc hn1 hn2 ?_
            intro e
            apply hne
            rw [hfd]
            exact hsg f0 List.mem_cons_self f1 (List.mem_cons_of_mem _ List.mem_cons_self) (by rw [e0, e1, e])
          | cons z done =>
            exfalso
            have := congrArg List.length i2
            simp at this

theorem bounded (w : Th → Nat) (l : List Th) : ∃ b, ∀ t ∈ l, w t ≤ b := by
  induction l with
  | nil => exact ⟨0, fun t h => by cases h⟩
  | cons t l ih =>
    obtain ⟨b, hb⟩ := ih
    refine ⟨max b (w t), fun u hu => ?_⟩
    rcases List.mem_cons.mp hu with rfl | hu
    · exact Nat.le_max_right _ _
    · exact Nat.le_trans (hb u hu) (Nat.le_max_left _ _)

/-- Some thread that is not done can go on. -/
theorem progress {rank : Nat → Nat} {isLong : Bytes → Bool} {s : St} (hsh : Shape s) (hsg : Single s)
    (hasc : ∀ t ∈ s.threads, ∀ c ∈ t.calls, Ascending rank c) (hn : ¬ Finished s) : ∃ i s', s.step isLong i .go = some s' := by
  by_contra hno
  have stuck : ∀ i, s.step isLong i .go = none := by
    intro i
    cases h : s.step isLong i .go with
    | none => rfl
    | some s' => exact absurd ⟨i, s', h⟩ hno
  have noRead : ∀ t ∈ s.threads, ∀ held, t.reads held = false := by
    intro t ht held
    rw [Bool.eq_false_iff]
    intro e
    unfold Th.reads at e
    split at e
    · rename_i left f n out hp
      obtain ⟨d, cs, hc⟩ := (hsh.txn t ht).list (by rw [hp]; rfl)
      obtain ⟨i, hi⟩ := List.mem_iff_getElem?.mp ht
      have := stuck i
      unfold St.step at this
      rw [hi] at this
      dsimp only at this
      rw [hc, hp] at this
      cases this
    · cases e
  have noCommit : ∀ t ∈ s.threads, ∀ fs held, t.pc ≠ .committing fs held := by
    intro t ht fs held hp
    obtain ⟨c, cs, _, hc, _⟩ := (hsh.txn t ht).call (by rw [hp]; rfl)
    obtain ⟨i, hi⟩ := List.mem_iff_getElem?.mp ht
    have := stuck i
    unfold St.step at this
    rw [hi] at this
    dsimp only at this
    rw [hc, hp] at this
    dsimp only at this
    rw [if_neg] at this
    · cases this
    · intro e
      rw [List.any_eq_true] at e
      obtain ⟨u, hu, hr⟩ := e
      rw [noRead u hu] at hr
      cases hr
  have noLock : ∀ f, s.locked f = false := by
    intro f
    unfold St.locked
    rw [Bool.eq_false_iff]
    intro e
    rw [List.any_eq_true] at e
    obtain ⟨u, hu, hr⟩ := e
    unfold Th.commits at hr
    split at hr
    · rename_i hp; exact noCommit u hu _ _ hp
    · cases hr
  have noBlock : ∀ ds, s.blocks ds = false := by
    intro ds
    unfold St.blocks
    rw [Bool.eq_false_iff]
    intro e
    rw [List.any_eq_true] at e
    obtain ⟨d, _, hd⟩ := e
    split at hd
    · rw [noLock] at hd; cases hd
    · cases hd
  -- every thread that is not done waits for a table somebody holds
  have waiting : ∀ t ∈ s.threads, t.calls ≠ [] → ∃ x, t.waits x ∧ ∃ u ∈ s.threads, u.holds x.file = true := by
    intro t ht hne
    obtain ⟨i, hi⟩ := List.mem_iff_getElem?.mp ht
    have h := stuck i
    unfold St.step at h
    rw [hi] at h
    dsimp only at h
    cases hc : t.calls with
    | nil => exact absurd hc hne
    | cons c cs =>
      rw [hc] at h
      dsimp only at h
      cases hp : t.pc with
      | idle =>
        exfalso
        rw [hp] at h
        dsimp only at h
        unfold St.begin at h
        cases c with
        | list d => cases h
        | op d n k =>
          dsimp only at h
          rw [noBlock, if_neg (by simp)] at h
          split at h <;> cases h
        | rename d n d' n' =>
          dsimp only at h
          rw [noBlock, if_neg (by simp)] at h
          split at h <;> cases h
      | running fs todo held =>
        have hcl : c.isList = false := by
          obtain ⟨c', cs', _, h1, h2, _⟩ := (hsh.txn t ht).call (by rw [hp]; rfl)
          rw [hc] at h1
          cases h1
          exact h2
        cases todo with
        | nil =>
          exfalso
          rw [hp] at h
          cases c with
          | list d => cases hcl
          | op d n k => cases k <;> cases h
          | rename d n d' n' => cases h
        | cons x todo =>
          rw [hp] at h
          dsimp only at h
          unfold St.exec at h
          dsimp only at h
          split at h
          · cases h
          · rename_i hx
            rw [not_or, Classical.not_not] at hx
            refine ⟨x, ⟨fs, todo, held, hp, ?_⟩, ?_⟩
            · unfold Th.holds; rw [hp]
              exact Bool.eq_false_iff.mpr hx.1
            · obtain ⟨u, hu, hh⟩ := List.any_eq_true.mp hx.2
              exact ⟨u, hu, hh⟩
      | inside fs held =>
        exfalso
        have hcl : c.isList = false := by
          obtain ⟨c', cs', _, h1, h2, _⟩ := (hsh.txn t ht).call (by rw [hp]; rfl)
          rw [hc] at h1
          cases h1
          exact h2
        rw [hp] at h
        cases c with
        | list d => cases hcl
        | op d n k => cases h
        | rename d n d' n' => cases h
      | finishing fs held err =>
        exfalso
        rw [hp] at h
        dsimp only at h
        cases err with
        | some e => cases h
        | none => dsimp only at h; split at h <;> cases h
      | committing fs held => exact absurd hp (noCommit t ht fs held)
      | listing left conn out =>
        exfalso
        obtain ⟨d, cs', h1⟩ := (hsh.txn t ht).list (by rw [hp]; rfl)
        rw [hc] at h1
        cases h1
        rw [hp] at h
        cases left with
        | nil => cases h
        | cons n left =>
          dsimp only at h
          split at h
          · cases h
          · split at h
            · cases h
            · rw [noLock, if_neg (by simp)] at h; cases h
      | reading left f n out =>
        exfalso
        rw [hp] at h
        cases h
  -- a holder waits for something higher
  have up : ∀ k, (∃ t ∈ s.threads, ∃ x, t.waits x ∧ rank x.file.1 = k) → ∃ k', k < k' ∧ ∃ t ∈ s.threads, ∃ x, t.waits x ∧ rank x.file.1 = k' := by
    rintro k ⟨t, ht, x, hw, rfl⟩
    have hne : t.calls ≠ [] := by
      obtain ⟨fs, todo, held, hp, _⟩ := hw
      obtain ⟨c, cs, _, hc, _⟩ := (hsh.txn t ht).call (by rw [hp]; rfl)
      rw [hc]; intro e; cases e
    obtain ⟨y, hy, u, hu, hh⟩ := waiting t ht hne
    have hxy : y = x := by
      obtain ⟨fs, todo, held, hp, _⟩ := hw
      obtain ⟨fs', todo', held', hp', _⟩ := hy
      rw [hp] at hp'
      cases hp'
      rfl
    subst hxy
    have hune : u.calls ≠ [] := by
      have hc : u.pc.inCall = true := by
        cases h : u.pc.inCall with
        | true => rfl
        | false => rw [idle_holds h] at hh; cases hh
      obtain ⟨c, cs, _, hc, _⟩ := (hsh.txn u hu).call hc
      rw [hc]; intro e; cases e
    obtain ⟨z, hz, _⟩ := waiting u hu hune
    exact ⟨rank z.file.1, waits_up hsh hsg hu (hasc u hu) hz hh, u, hu, z, hz, rfl⟩
  obtain ⟨b, hb⟩ := bounded (fun t => match t.pc.todo with | x :: _ => rank x.file.1 | [] => 0) s.threads
  have climb : ∀ n, ∃ k, n ≤ k ∧ ∃ t ∈ s.threads, ∃ x, t.waits x ∧ rank x.file.1 = k := by
    intro n
    induction n with
    | zero =>
      unfold Finished at hn
      simp only [not_forall] at hn
      obtain ⟨t, ht, hne⟩ := hn
      obtain ⟨x, hx, _⟩ := waiting t ht hne
      exact ⟨_, Nat.zero_le _, t, ht, x, hx, rfl⟩
    | succ n ih =>
      obtain ⟨k, hk, hp⟩ := ih
      obtain ⟨k', hk', hp'⟩ := up k hp
      exact ⟨k', by omega, hp'⟩
  obtain ⟨k, hk, t, ht, x, ⟨fs, todo, held, hp, _⟩, rfl⟩ := climb (b + 1)
  have := hb t ht
  rw [hp] at this
  dsimp only [Pc.todo] at this
  omega

/-! ## Termination -/

/-- The calls a thread has not begun, twice, and those it has not finished. -/
def Th.calls2 (t : Th) : Nat :=
  match t.pc with
  | .idle => 2 * t.calls.length
  | _ => 2 * t.calls.length - 1

theorem sum_set (w : Th → Nat) (l : List Th) : ∀ (i : Nat) (t t' : Th), l[i]? = some t →
    ((l.set i t').map w).sum + w t = (l.map w).sum + w t' := by
  induction l with
  | nil => intro i t t' h; cases h
  | cons u l ih =>
    intro i t t' h
    cases i with
    | zero =>
      cases h
      simp only [List.set_cons_zero, List.map_cons, List.sum_cons]
      omega
    | succ i =>
      have := ih i t t' h
      simp only [List.set_cons_succ, List.map_cons, List.sum_cons]
      omega

/-- How much is left to do. -/
def St.measure (s : St) : Nat × Nat := ((s.threads.map Th.calls2).sum, (s.threads.map fun t => t.pc.weight).sum)

theorem measure_step {s s' : St} {i : Nat} {t : Th} {c : Call} {cs : List Call} (hsh : Shape s) (ht : s.threads[i]? = some t) (hc : t.calls = c :: cs)
    (hs : Step s i t c .go s') : Prod.Lex (· < ·) (· < ·) s'.measure s.measure := by
  have hlen : t.calls.length = cs.length + 1 := by rw [hc]; rfl
  have inner : ∀ t' : Th, s'.threads = s.threads.set i t' → t'.calls = t.calls → t.pc ≠ .idle → t'.pc ≠ .idle → t'.pc.weight < t.pc.weight →
      Prod.Lex (· < ·) (· < ·) s'.measure s.measure := by
    intro t' h1 h2 h3 h4 h5
    have a := sum_set Th.calls2 s.threads i t t' ht
    have b := sum_set (fun t => t.pc.weight) s.threads i t t' ht
    have e : t'.calls2 = t.calls2 := by
      unfold Th.calls2
      rw [h2]
      cases hp : t.pc <;> cases hp' : t'.pc <;> first | rfl | exact absurd hp h3 | exact absurd hp' h4
    unfold St.measure
    rw [h1]
    have e1 : ((s.threads.set i t').map Th.calls2).sum = (s.threads.map Th.calls2).sum := by omega
    rw [e1]
    refine Prod.Lex.right _ ?_
    omega
  have outer : ∀ t' : Th, s'.threads = s.threads.set i t' → t'.calls2 < t.calls2 → Prod.Lex (· < ·) (· < ·) s'.measure s.measure := by
    intro t' h1 h2
    have a := sum_set Th.calls2 s.threads i t t' ht
    unfold St.measure
    rw [h1]
    refine Prod.Lex.left _ _ ?_
    omega
  have start : ∀ t' : Th, s'.threads = s.threads.set i t' → t'.calls = t.calls → t.pc = .idle → t'.pc ≠ .idle →
      Prod.Lex (· < ·) (· < ·) s'.measure s.measure := by
    intro t' h1 h2 h3 h4
    refine outer t' h1 ?_
    unfold Th.calls2
    rw [h2, h3, hlen]
    cases hp' : t'.pc <;> first | exact absurd hp' h4 | (dsimp only; omega)
  have fin : ∀ t' : Th, s'.threads = s.threads.set i t' → t'.calls = t.calls.tail → t'.pc = .idle → Prod.Lex (· < ·) (· < ·) s'.measure s.measure := by
    intro t' h1 h2 h3
    refine outer t' h1 ?_
    unfold Th.calls2
    rw [h2, h3, hc]
    cases t.pc <;> (dsimp only [List.tail_cons]; rw [List.length_cons]; omega)
  cases hs with
  | list d hd hp => exact start { t with pc := _ } rfl rfl hp (by intro e; cases e)
  | refused m hl hp => exact fin ⟨t.calls.tail, .idle, _⟩ rfl rfl rfl
  | opened hl hp hb hlv =>
    obtain ⟨o0, o1, o2, _⟩ := openTables_facts c.opens s hsh
    refine start { t with pc := .running (s.openTables c.opens).1 (c.stmts (s.openTables c.opens).1) [] } ?_ rfl hp (by intro e; cases e)
    show (s.openTables c.opens).2.threads.set i _ = _
    rw [o2]
  | exec fs x todo held hp hf =>
    refine inner { t with pc := _ } rfl rfl (by rw [hp]; intro e; cases e) (by intro e; cases e) ?_
    rw [hp]; dsimp only [Pc.weight]; rw [List.length_cons]; omega
  | unlinked fs held hp hr =>
    refine inner { t with pc := .inside fs held } ?_ rfl (by rw [hp]; intro e; cases e) (by intro e; cases e) ?_
    · show (s.unlinkTable c).threads.set i _ = _
      rw [(unlinkTable_facts s c).1]
    · rw [hp]; dsimp only [Pc.weight]; omega
  | system fs held hp hl =>
    refine inner { t with pc := .finishing fs held (s.kernel c).1 } rfl rfl ?_ (by intro e; cases e) ?_
    · rcases hp with hp | hp <;> [rw [hp.1]; rw [hp]] <;> (intro e; cases e)
    · rcases hp with hp | hp <;> [rw [hp.1]; rw [hp]] <;> (dsimp only [Pc.weight]; omega)
  | failed fs held e hp => exact fin ⟨t.calls.tail, .idle, _⟩ rfl rfl rfl
  | short fs hp => exact fin ⟨t.calls.tail, .idle, _⟩ rfl rfl rfl
  | pend fs held hp hne =>
    refine inner { t with pc := _ } rfl rfl (by rw [hp]; intro e; cases e) (by intro e; cases e) ?_
    rw [hp]; dsimp only [Pc.weight]; omega
  | commit fs held hp hr => exact fin ⟨t.calls.tail, .idle, _⟩ rfl rfl rfl
  | look m pc hp hq hw =>
    refine inner { t with pc := pc } rfl rfl ?_ ?_ hw
    · intro e; rw [e] at hp; cases hp
    · intro e; dsimp only at e; rw [e] at hq; cases hq
  | listed conn out hp => exact fin ⟨t.calls.tail, .idle, _⟩ rfl rfl rfl

theorem asc_step {rank : Nat → Nat} {s s' : St} {i : Nat} {t : Th} {c : Call} {m : Move} (hsh : Shape s)
    (h : ∀ t ∈ s.threads, ∀ c ∈ t.calls, Ascending rank c) (ht : s.threads[i]? = some t)
    (hs : Step s i t c m s') : ∀ t ∈ s'.threads, ∀ c ∈ t.calls, Ascending rank c := by
  have hmem : t ∈ s.threads := List.mem_of_getElem? ht
  have frame : ∀ (s' : St) (t' : Th), s'.threads = s.threads.set i t' → (∀ c ∈ t'.calls, c ∈ t.calls) →
      ∀ t ∈ s'.threads, ∀ c ∈ t.calls, Ascending rank c := by
    intro s' t' h1 h2 u hu c hc
    rw [h1] at hu
    rcases mem_set hu with rfl | ⟨j, _, hj⟩
    · exact h t hmem c (h2 c hc)
    · exact h u (List.mem_of_getElem? hj) c hc
  have go : ∀ pc : Pc, ∀ u ∈ (s.go i t pc).threads, ∀ c ∈ u.calls, Ascending rank c := fun pc => frame _ { t with pc := pc } rfl (fun _ h => h)
  have ret : ∀ o, ∀ u ∈ (s.ret i t o).threads, ∀ c ∈ u.calls, Ascending rank c :=
    fun o => frame _ ⟨t.calls.tail, .idle, t.log ++ [o]⟩ rfl (fun _ h => List.mem_of_mem_tail h)
  cases hs with
  | list d hd hp => exact go _
  | refused m hl hp => exact ret _
  | opened hl hp hb hlv =>
    obtain ⟨o0, o1, o2, _⟩ := openTables_facts c.opens s hsh
    refine frame _ { t with pc := .running (s.openTables c.opens).1 (c.stmts (s.openTables c.opens).1) [] } ?_ (fun _ h => h)
    show (s.openTables c.opens).2.threads.set i _ = _
    rw [o2]
  | exec fs x todo held hp hf => exact go _
  | gaveUp fs x todo held hp => exact ret _
  | unlinked fs held hp hr =>
    exact frame _ { t with pc := .inside fs held } (by show (s.unlinkTable c).threads.set i _ = _; rw [(unlinkTable_facts s c).1]) (fun _ h => h)
  | system fs held hp hl => exact frame _ { t with pc := .finishing fs held (s.kernel c).1 } rfl (fun _ h => h)
  | fault e fs held hp => exact go _
  | failed fs held e hp => exact ret _
  | short fs hp => exact ret _
  | pend fs held hp hne => exact go _
  | commit fs held hp hr => exact frame _ ⟨t.calls.tail, .idle, t.log ++ [.done none]⟩ rfl (fun _ h => List.mem_of_mem_tail h)
  | lost fs held hp => exact ret _
  | look m pc hp hq hw => exact go _
  | listed conn out hp => exact ret _

/-- Without timeouts, everything gets done. -/
theorem completes {rank : Nat → Nat} {isLong : Bytes → Bool} : ∀ (s : St), Shape s → Single s → (∀ t ∈ s.threads, ∀ c ∈ t.calls, Ascending rank c) →
    ∃ run s', (∀ im ∈ run, im.2 = Move.go) ∧ s.run isLong run = some s' ∧ Finished s' := by
  intro s
  have wf : WellFounded (Prod.Lex (fun a b : Nat => a < b) (fun a b : Nat => a < b)) := (Prod.lex ⟨_, Nat.lt_wfRel.wf⟩ ⟨_, Nat.lt_wfRel.wf⟩).wf
  induction hm : s.measure using wf.induction generalizing s with
  | _ x ih =>
    intro h1 h2 h3
    by_cases hf : Finished s
    · exact ⟨[], s, fun im h => (by cases h), rfl, hf⟩
    · obtain ⟨i, s1, hs⟩ := progress (isLong := isLong) h1 h2 h3 hf
      obtain ⟨t, c, cs, ht, hc, hst⟩ := step_rel hs
      obtain ⟨run, s2, r1, r2, r3⟩ := ih s1.measure (by rw [← hm]; exact measure_step h1 ht hc hst) s1 rfl (shape_step h1 ht hc hst)
        (single_step h1 h2 ht hst) (asc_step h1 h3 ht hst)
      refine ⟨(i, .go) :: run, s2, ?_, ?_, r3⟩
      · intro im him
        rcases List.mem_cons.mp him with rfl | him
        · rfl
        · exact r1 im him
      · unfold St.run; rw [hs]; exact r2

/-- What holds along any run. -/
theorem reach {rank : Nat → Nat} {isLong : Bytes → Bool} (run : List (Nat × Move)) : ∀ (s s' : St), Shape s → Single s →
    (∀ t ∈ s.threads, ∀ c ∈ t.calls, Ascending rank c) → s.run isLong run = some s' →
    Shape s' ∧ Single s' ∧ ∀ t ∈ s'.threads, ∀ c ∈ t.calls, Ascending rank c := by
  induction run with
  | nil => intro s s' h1 h2 h3 hr; cases hr; exact ⟨h1, h2, h3⟩
  | cons im run ih =>
    obtain ⟨i, m⟩ := im
    intro s s' h1 h2 h3 hr
    unfold St.run at hr
    cases hs : s.step isLong i m with
    | none => rw [hs] at hr; cases hr
    | some s1 =>
      rw [hs] at hr
      obtain ⟨t, c, cs, ht, hc, hst⟩ := step_rel hs
      exact ih s1 s' (shape_step h1 ht hc hst) (single_step h1 h2 ht hst) (asc_step h1 h3 ht hst) hr

end Securefs.LongTab
