import Verif.Spec.LongTab
import Verif.Proofs.LiteFs
import Mathlib.Data.List.Induction
/-! Helper lemmas about threads on the tables of long names: the steps as a relation, and the shape of reachable states. -/

namespace Securefs.LongTab

/-! ## The steps as a relation -/

/-- The system call of a call. -/
def St.kernel (s : St) : Call → Option Nat × Dirs
  | .op d n k => s.dirs.call s.hasTable d n.backing k
  | .rename d n d' n' => s.dirs.rename s.hasTable d n.backing d' n'.backing
  | .list _ => (none, s.dirs)

/-- The call is a listing. -/
def Call.isList : Call → Bool
  | .list _ => true
  | _ => false

/-- The call is `vrmdir`. -/
def Call.isRmdir : Call → Bool
  | .op _ _ .rmdir => true
  | _ => false

/-- The place from which the (last) system call of `c` is made. -/
def Pc.ready (c : Call) (fs : List File) (held : List (File × Rows)) (pc : Pc) : Prop :=
  (pc = .running fs [] held ∧ c.isRmdir = false) ∨ pc = .inside fs held

/-- The place is inside a listing. -/
def Pc.inList : Pc → Bool
  | .listing _ _ _ => true
  | .reading _ _ _ _ => true
  | _ => false

/-- How much of a call is left. -/
def Pc.weight : Pc → Nat
  | .idle => 0
  | .running _ todo _ => 5 + todo.length
  | .inside _ _ => 4
  | .finishing _ _ _ => 3
  | .committing _ _ => 2
  | .listing left _ _ => 2 * left.length + 1
  | .reading left _ _ _ => 2 * left.length + 2

/-- What a step does. -/
inductive Step (s : St) (i : Nat) (t : Th) (c : Call) : Move → St → Prop where
  | list (d : Nat) (h : c = .list d) (hp : t.pc = .idle) : Step s i t c .go (s.go i t (.listing ((s.dirs.entries d).map Prod.fst) none []))
  | refused (m : Move) (h : c.isList = false) (hp : t.pc = .idle) : Step s i t c m (s.ret i t .sqlite)
  | opened (h : c.isList = false) (hp : t.pc = .idle) (hb : s.blocks c.opens = false) (hl : ∀ d ∈ c.opens, d ∈ s.dirs.live) :
      Step s i t c .go ((s.openTables c.opens).2.go i t (.running (s.openTables c.opens).1 (c.stmts (s.openTables c.opens).1) []))
  | exec (fs : List File) (x : Stmt) (todo : List Stmt) (held : List (File × Rows)) (hp : t.pc = .running fs (x :: todo) held)
      (hf : (held.lookup x.file).isSome = true ∨ ∀ u ∈ s.threads, u.holds x.file = false) :
      Step s i t c .go (s.go i t (.running fs todo (runStmt s.rows held x)))
  | gaveUp (fs : List File) (x : Stmt) (todo : List Stmt) (held : List (File × Rows)) (hp : t.pc = .running fs (x :: todo) held) :
      Step s i t c .timeout (s.ret i t .sqlite)
  | unlinked (fs : List File) (held : List (File × Rows)) (hp : t.pc = .running fs [] held) (h : c.isRmdir = true) :
      Step s i t c .go ((s.unlinkTable c).go i t (.inside fs held))
  | system (fs : List File) (held : List (File × Rows)) (hp : t.pc.ready c fs held) (h : c.isList = false) :
      Step s i t c .go (({ s with dirs := (s.kernel c).2 } : St).go i t (.finishing fs held (s.kernel c).1))
  | fault (e : Nat) (fs : List File) (held : List (File × Rows)) (hp : t.pc.ready c fs held) :
      Step s i t c (.fault e) (s.go i t (.finishing fs held (some e)))
  | failed (fs : List File) (held : List (File × Rows)) (e : Nat) (hp : t.pc = .finishing fs held (some e)) :
      Step s i t c .go (s.ret i t (.done (some e)))
  | short (fs : List File) (hp : t.pc = .finishing fs [] none) : Step s i t c .go (s.ret i t (.done none))
  | pend (fs : List File) (held : List (File × Rows)) (hp : t.pc = .finishing fs held none) (h : held ≠ []) :
      Step s i t c .go (s.go i t (.committing fs held))
  | commit (fs : List File) (held : List (File × Rows)) (hp : t.pc = .committing fs held) (h : ∀ u ∈ s.threads, u.reads held = false) :
      Step s i t c .go (({ s with rows := commitRows s.rows held } : St).ret i t (.done none))
  | lost (fs : List File) (held : List (File × Rows)) (hp : t.pc = .committing fs held) : Step s i t c .timeout (s.ret i t (.done none))
  | look (m : Move) (pc : Pc) (hp : t.pc.inList = true) (h : pc.inList = true) (hw : pc.weight < t.pc.weight) : Step s i t c m (s.go i t pc)
  | listed (conn : Option File) (out : List Bytes) (hp : t.pc = .listing [] conn out) : Step s i t c .go (s.ret i t (.names out))

theorem step_rel {isLong : Bytes → Bool} {s s' : St} {i : Nat} {m : Move} (h : s.step isLong i m = some s') :
    ∃ t c cs, s.threads[i]? = some t ∧ t.calls = c :: cs ∧ Step s i t c m s' := by
  unfold St.step at h
  cases ht : s.threads[i]? with
  | none => rw [ht] at h; cases h
  | some t =>
    rw [ht] at h
    dsimp only at h
    cases hc : t.calls with
    | nil => rw [hc] at h; cases h
    | cons c cs =>
      rw [hc] at h
      dsimp only at h
      refine ⟨t, c, cs, rfl, hc, ?_⟩
      cases hp : t.pc with
      | idle =>
        rw [hp] at h
        dsimp only at h
        unfold St.begin at h
        cases m with
        | go =>
          cases c with
          | list d => cases h; exact .list d rfl hp
          | op d n k =>
            dsimp only at h
            split at h
            · cases h; exact .refused _ rfl hp
            · split at h
              · cases h; exact .refused _ rfl hp
              · rename_i h1 h2
                cases h
                exact .opened rfl hp (by simpa using h1) (by simpa using h2)
          | rename d n d' n' =>
            dsimp only at h
            split at h
            · cases h
            · split at h
              · cases h; exact .refused _ rfl hp
              · rename_i h1 h2
                cases h
                exact .opened rfl hp (by simpa using h1) (by simpa using h2)
        | timeout =>
          dsimp only at h
          split at h
          · cases h
            cases c with
            | list d => rename_i hb; simp [Call.opens, St.blocks] at hb
            | op d n k => exact .refused _ rfl hp
            | rename d n d' n' => exact .refused _ rfl hp
          · cases h
        | fault e => cases h
      | running fs todo held =>
        cases todo with
        | cons x todo =>
          rw [hp] at h
          dsimp only at h
          unfold St.exec at h
          cases m with
          | go =>
            dsimp only at h
            split at h
            · rename_i h1
              cases h
              refine .exec fs x todo held hp ?_
              rcases h1 with h1 | h1
              · exact Or.inl h1
              · right
                intro u hu
                simp only [List.any_eq_true, not_exists, not_and, Bool.not_eq_true] at h1
                exact h1 u hu
            · cases h
          | timeout =>
            dsimp only at h
            split at h
            · cases h
            · cases h; exact .gaveUp fs x todo held hp
          | fault e => cases h
        | nil =>
          rw [hp] at h
          dsimp only at h
          cases c with
          | list d => cases m <;> cases h; exact .fault _ fs held (Or.inl ⟨hp, rfl⟩)
          | op d n k =>
            cases k with
            | rmdir =>
              cases m with
              | go => cases h; exact .unlinked fs held hp rfl
              | timeout => cases h
              | fault e => cases h
            | add node => cases m <;> cases h; exacts [.system fs held (Or.inl ⟨hp, rfl⟩) rfl, .fault _ fs held (Or.inl ⟨hp, rfl⟩)]
            | mkdir => cases m <;> cases h; exacts [.system fs held (Or.inl ⟨hp, rfl⟩) rfl, .fault _ fs held (Or.inl ⟨hp, rfl⟩)]
            | unlink => cases m <;> cases h; exacts [.system fs held (Or.inl ⟨hp, rfl⟩) rfl, .fault _ fs held (Or.inl ⟨hp, rfl⟩)]
          | rename d n d' n' => cases m <;> cases h; exacts [.system fs held (Or.inl ⟨hp, rfl⟩) rfl, .fault _ fs held (Or.inl ⟨hp, rfl⟩)]
      | inside fs held =>
        rw [hp] at h
        cases c with
        | list d => cases m <;> cases h; exact .fault _ fs held (Or.inr hp)
        | op d n k => cases m <;> cases h; exacts [.system fs held (Or.inr hp) rfl, .fault _ fs held (Or.inr hp)]
        | rename d n d' n' => cases m <;> cases h; exacts [.system fs held (Or.inr hp) rfl, .fault _ fs held (Or.inr hp)]
      | finishing fs held err =>
        rw [hp] at h
        cases m with
        | go =>
          cases err with
          | some e => cases h; exact .failed fs held e hp
          | none =>
            dsimp only at h
            split at h
            · rename_i he
              cases h
              rw [List.isEmpty_iff] at he
              subst he
              exact .short fs hp
            · rename_i he
              cases h
              exact .pend fs held hp (by simpa using he)
        | timeout => cases h
        | fault e => cases h
      | committing fs held =>
        rw [hp] at h
        cases m with
        | go =>
          dsimp only at h
          split at h
          · cases h
          · rename_i he
            cases h
            refine .commit fs held hp ?_
            intro u hu
            simp only [List.any_eq_true, not_exists, not_and, Bool.not_eq_true] at he
            exact he u hu
        | timeout =>
          dsimp only at h
          split at h
          · cases h; exact .lost fs held hp
          · cases h
        | fault e => cases h
      | listing left conn out =>
        rw [hp] at h
        cases left with
        | nil => cases m <;> cases h; exact .listed conn out hp
        | cons n left =>
          dsimp only at h
          have hl : t.pc.inList = true := by rw [hp]; rfl
          split at h
          · cases m <;> cases h; exact .look _ _ hl rfl (by rw [hp]; dsimp only [Pc.weight]; rw [List.length_cons]; omega)
          · cases c with
            | list d =>
              dsimp only at h
              split at h
              · cases m <;> cases h; exact .look _ _ hl rfl (by rw [hp]; dsimp only [Pc.weight]; rw [List.length_cons]; omega)
              · cases m with
                | go => dsimp only at h; split at h <;> cases h; exact .look _ _ hl rfl (by rw [hp]; dsimp only [Pc.weight]; rw [List.length_cons]; omega)
                | timeout => dsimp only at h; split at h <;> cases h; exact .look _ _ hl rfl (by rw [hp]; dsimp only [Pc.weight]; rw [List.length_cons]; omega)
                | fault e => cases h
            | op d n k => cases h
            | rename d n d' n' => cases h
      | reading left f n out =>
        rw [hp] at h
        cases m <;> cases h
        exact .look _ _ (by rw [hp]; rfl) rfl (by rw [hp]; dsimp only [Pc.weight]; omega)

/-! ## Transactions -/

theorem lookup_filter_file (held : List (File × Rows)) (f f' : File) :
    (held.filter (fun p => p.1 != f)).lookup f' = if f' = f then none else held.lookup f' := by
  induction held with
  | nil => simp
  | cons p l ih =>
    obtain ⟨k, x⟩ := p
    by_cases hk : k = f
    · rw [List.filter_cons_of_neg (by simp [hk]), ih]
      by_cases hm : f' = f
      · simp [hm]
      · rw [if_neg hm, if_neg hm, List.lookup_cons]
        have : (f' == k) = false := by rw [beq_eq_false_iff_ne]; exact fun e => hm (e.trans hk)
        rw [this]
    · rw [List.filter_cons_of_pos (by simp [hk]), List.lookup_cons, List.lookup_cons, ih]
      by_cases hm : f' = f
      · have : (f' == k) = false := by rw [beq_eq_false_iff_ne]; exact fun e => hk (e.symm.trans hm)
        rw [if_pos hm, this, if_pos hm]
      · rw [if_neg hm, if_neg hm]

theorem lookup_runStmt (rows : File → Rows) (held : List (File × Rows)) (x : Stmt) (f : File) :
    (runStmt rows held x).lookup f =
      if f = x.file then some (x.apply (match held.lookup x.file with | some r => r | none => rows x.file)) else held.lookup f := by
  unfold runStmt
  by_cases h : f = x.file
  · subst h
    rw [if_pos rfl]
    cases held.lookup x.file <;> simp
  · rw [if_neg h]
    have hb : (f == x.file) = false := by rw [beq_eq_false_iff_ne]; exact h
    cases held.lookup x.file with
    | some r => simp only [List.lookup_cons, hb]; rw [lookup_filter_file, if_neg h]
    | none => simp only [List.lookup_cons, hb]

/-- The transaction after several statements. -/
def exec (rows : File → Rows) (xs : List Stmt) : List (File × Rows) := xs.foldl (runStmt rows) []

theorem exec_snoc (rows : File → Rows) (xs : List Stmt) (x : Stmt) : exec rows (xs ++ [x]) = runStmt rows (exec rows xs) x := by
  unfold exec; rw [List.foldl_append]; rfl

/-- A table is held if and only if a statement has changed it, and then its rows are the result of these statements. -/
theorem lookup_exec (rows : File → Rows) (f : File) (xs : List Stmt) :
    (exec rows xs).lookup f =
      if f ∈ xs.map Stmt.file then some ((xs.filter (fun x => x.file == f)).foldl (fun r x => x.apply r) (rows f)) else none := by
  induction xs using List.reverseRecOn with
  | nil => rfl
  | append_singleton xs x ih =>
    rw [exec_snoc, lookup_runStmt, List.filter_append, List.foldl_append]
    by_cases h : f = x.file
    · subst h
      rw [if_pos rfl, if_pos (show x.file ∈ (xs ++ [x]).map Stmt.file by simp), ih]
      simp only [List.filter_cons, beq_self_eq_true, if_true, List.filter_nil, List.foldl_cons, List.foldl_nil]
      by_cases hm : x.file ∈ xs.map Stmt.file
      · rw [if_pos hm]
      · rw [if_neg hm]
        have : xs.filter (fun y => y.file == x.file) = [] := by
          rw [List.filter_eq_nil_iff]
          intro y hy e
          exact hm (List.mem_map.mpr ⟨y, hy, by simpa using e⟩)
        rw [this]
        rfl
    · have hb : (x.file == f) = false := by rw [beq_eq_false_iff_ne]; exact fun e => h e.symm
      rw [if_neg h, ih]
      simp only [List.filter_cons, hb, Bool.false_eq_true, if_false, List.filter_nil, List.foldl_nil, List.map_append, List.map_cons, List.map_nil,
        List.mem_append, List.mem_singleton, h, or_false]

theorem runStmt_congr {rows rows' : File → Rows} (held : List (File × Rows)) (x : Stmt) (h : rows x.file = rows' x.file) :
    runStmt rows held x = runStmt rows' held x := by
  unfold runStmt; rw [h]

theorem exec_congr {rows rows' : File → Rows} (xs : List Stmt) (h : ∀ x ∈ xs, rows x.file = rows' x.file) : exec rows xs = exec rows' xs := by
  induction xs using List.reverseRecOn with
  | nil => rfl
  | append_singleton xs x ih =>
    rw [exec_snoc, exec_snoc, ih (fun y hy => h y (List.mem_append_left _ hy)), runStmt_congr _ _ (h x (by simp))]

theorem stmts_file {c : Call} {fs : List File} {x : Stmt} (h : x ∈ c.stmts fs) : x.file ∈ fs := by
  unfold Call.stmts at h
  split at h
  · split at h <;> (rw [List.mem_singleton] at h; subst h; exact List.mem_singleton.mpr rfl)
  · rw [List.mem_append] at h
    rcases h with h | h
    · split at h
      · cases h
      · rw [List.mem_singleton] at h; subst h; exact List.mem_cons_self
    · split at h
      · cases h
      · rw [List.mem_singleton] at h; subst h; exact List.mem_cons_of_mem _ List.mem_cons_self
  · cases h

/-! ## The shape of a state -/

/-- The statements a thread has still to execute. -/
def Pc.todo : Pc → List Stmt
  | .running _ todo _ => todo
  | _ => []

/-- The place is inside a call other than a listing. -/
def Pc.inCall : Pc → Bool
  | .running _ _ _ => true
  | .inside _ _ => true
  | .finishing _ _ _ => true
  | .committing _ _ => true
  | _ => false

/-- The connections and the transaction of a thread belong to its call. -/
structure Th.Txn (rows : File → Rows) (t : Th) : Prop where
  call : t.pc.inCall = true → ∃ c cs done, t.calls = c :: cs ∧ c.isList = false ∧ t.pc.files.map Prod.fst = c.opens ∧
    c.stmts t.pc.files = done ++ t.pc.todo ∧ t.pc.held = exec rows done
  list : t.pc.inList = true → ∃ d cs, t.calls = .list d :: cs

/-- What holds in every reachable state. -/
structure Shape (s : St) : Prop where
  excl : ∀ (i j : Nat) (ti tj : Th) (f : File), s.threads[i]? = some ti → s.threads[j]? = some tj → ti.holds f = true → tj.holds f = true → i = j
  tables : ∀ d g, s.table d = some g → g < s.next
  files : ∀ t ∈ s.threads, ∀ f ∈ t.pc.files, f.2 < s.next
  txn : ∀ t ∈ s.threads, t.Txn s.rows

theorem held_files {rows : File → Rows} {t : Th} (h : t.Txn rows) {f : File} (hf : t.holds f = true) : f ∈ t.pc.files := by
  unfold Th.holds at hf
  have hc : t.pc.inCall = true := by
    revert hf; cases t.pc <;> intro hf <;> first | rfl | (exfalso; revert hf; simp [Pc.held])
  obtain ⟨c, cs, done, h1, h2, h3, h4, h5⟩ := h.call hc
  rw [h5, lookup_exec] at hf
  by_cases hm : f ∈ done.map Stmt.file
  · obtain ⟨x, hx, rfl⟩ := List.mem_map.mp hm
    exact stmts_file (c := c) (by rw [h4]; exact List.mem_append_left _ hx)
  · rw [if_neg hm] at hf; cases hf

theorem Txn.congr {rows rows' : File → Rows} {t : Th} (h : t.Txn rows) (hr : ∀ f, t.holds f = true → rows f = rows' f) : t.Txn rows' := by
  refine ⟨fun hc => ?_, h.list⟩
  obtain ⟨c, cs, done, h1, h2, h3, h4, h5⟩ := h.call hc
  refine ⟨c, cs, done, h1, h2, h3, h4, ?_⟩
  rw [h5]
  refine exec_congr _ fun x hx => hr _ ?_
  unfold Th.holds
  rw [h5, lookup_exec, if_pos (List.mem_map.mpr ⟨x, hx, rfl⟩)]
  rfl

theorem mem_set {l : List Th} {i : Nat} {t u : Th} (h : u ∈ l.set i t) : u = t ∨ ∃ j, j ≠ i ∧ l[j]? = some u := by
  obtain ⟨j, hj⟩ := List.mem_iff_getElem?.mp h
  by_cases e : j = i
  · subst e
    rw [List.getElem?_set_self' ] at hj
    cases hx : l[j]? with
    | none => rw [hx] at hj; cases hj
    | some x => rw [hx] at hj; cases hj; exact Or.inl rfl
  · rw [List.getElem?_set_ne (fun h => e h.symm)] at hj
    exact Or.inr ⟨j, e, hj⟩

/-- Replacing one thread, and rows that nobody else holds. -/
theorem Shape.set {s : St} (h : Shape s) {i : Nat} {t : Th} (ht : s.threads[i]? = some t) (t' : Th) (s' : St)
    (hth : s'.threads = s.threads.set i t') (htab : s'.table = s.table) (hnext : s'.next = s.next)
    (hrows : ∀ f, t.holds f = false → s'.rows f = s.rows f)
    (hold : ∀ f, t'.holds f = true → t.holds f = true ∨ ∀ u ∈ s.threads, u.holds f = false)
    (hfiles : ∀ f ∈ t'.pc.files, f.2 < s.next) (htxn : t'.Txn s'.rows) : Shape s' := by
  have other : ∀ {j u}, s'.threads[j]? = some u → (j = i ∧ u = t') ∨ (j ≠ i ∧ s.threads[j]? = some u) := by
    intro j u hj
    rw [hth] at hj
    by_cases e : j = i
    · subst e
      rw [List.getElem?_set_self', ht] at hj
      cases hj
      exact Or.inl ⟨rfl, rfl⟩
    · rw [List.getElem?_set_ne (fun h => e h.symm)] at hj
      exact Or.inr ⟨e, hj⟩
  have mem : ∀ {j u}, s.threads[j]? = some u → u ∈ s.threads := fun h => List.mem_of_getElem? h
  refine ⟨?_, ?_, ?_, ?_⟩
  · intro a b ta tb f ha hb fa fb
    rcases other ha with ⟨rfl, rfl⟩ | ⟨na, ha⟩ <;> rcases other hb with ⟨rfl, rfl⟩ | ⟨nb, hb⟩
    · rfl
    · rcases hold f fa with e | e
      · exact absurd (h.excl _ _ _ _ f ht hb e fb).symm nb
      · rw [e tb (mem hb)] at fb; cases fb
    · rcases hold f fb with e | e
      · exact absurd (h.excl _ _ _ _ f ht ha e fa).symm na
      · rw [e ta (mem ha)] at fa; cases fa
    · exact h.excl _ _ _ _ f ha hb fa fb
  · rw [htab, hnext]; exact h.tables
  · intro u hu f hf
    rw [hnext]
    obtain ⟨j, hj⟩ := List.mem_iff_getElem?.mp hu
    rcases other hj with ⟨rfl, rfl⟩ | ⟨_, hj⟩
    · exact hfiles f hf
    · exact h.files u (mem hj) f hf
  · intro u hu
    obtain ⟨j, hj⟩ := List.mem_iff_getElem?.mp hu
    rcases other hj with ⟨rfl, rfl⟩ | ⟨nj, hj⟩
    · exact htxn
    · refine Txn.congr (h.txn u (mem hj)) fun f hf => ?_
      refine (hrows f ?_).symm
      rw [Bool.eq_false_iff]
      exact fun e => nj (h.excl _ _ _ _ f hj ht hf e)

theorem openTable_facts (s : St) (d : Nat) :
    (s.openTable d).1.1 = d ∧ (s.openTable d).2.table d = some (s.openTable d).1.2 ∧ (s.openTable d).2.threads = s.threads ∧
      (s.openTable d).2.dirs = s.dirs ∧ s.next ≤ (s.openTable d).2.next ∧
      (∀ k, k ≠ d → (s.openTable d).2.table k = s.table k) ∧ (∀ g, s.table d = some g → (s.openTable d).2 = s ∧ (s.openTable d).1 = (d, g)) ∧
      (∀ f : File, f.2 < s.next → (s.openTable d).2.rows f = s.rows f) ∧
      (s.table d = none → (s.openTable d).2.rows (s.openTable d).1 = [] ∧ (s.openTable d).1.2 = s.next ∧ (s.openTable d).2.next = s.next + 1) := by
  unfold St.openTable
  cases h : s.table d with
  | some g => exact ⟨rfl, h, rfl, rfl, Nat.le_refl _, fun _ _ => rfl, fun g' e => (by cases e; exact ⟨rfl, rfl⟩), fun _ _ => rfl, fun e => by cases e⟩
  | none =>
    refine ⟨rfl, upd_same _ _ _, rfl, rfl, Nat.le_succ _, fun k hk => upd_other _ _ _ _ hk, fun g e => (by cases e), ?_, fun _ => ⟨if_pos rfl, rfl, rfl⟩⟩
    intro f hf
    refine if_neg ?_
    intro e
    rw [e] at hf
    exact Nat.lt_irrefl _ hf

theorem Shape.openTable {s : St} (h : Shape s) (d : Nat) : Shape (s.openTable d).2 := by
  obtain ⟨h1, h2, h3, h4, h5, h6, h7, h8, h9⟩ := openTable_facts s d
  cases ht : s.table d with
  | some g => rw [(h7 g ht).1]; exact h
  | none =>
    obtain ⟨g1, g2, g3⟩ := h9 ht
    refine ⟨by rw [h3]; exact h.excl, ?_, ?_, ?_⟩
    · intro k g hg
      by_cases e : k = d
      · subst e; rw [h2] at hg; cases hg; rw [g2, g3]; exact Nat.lt_succ_self _
      · rw [h6 k e] at hg; exact Nat.lt_of_lt_of_le (h.tables k g hg) h5
    · intro t ht f hf
      rw [h3] at ht
      exact Nat.lt_of_lt_of_le (h.files t ht f hf) h5
    · intro t ht
      rw [h3] at ht
      refine Txn.congr (h.txn t ht) fun f hf => ?_
      exact (h8 f (h.files t ht f (held_files (h.txn t ht) hf))).symm

theorem openTables_facts (ds : List Nat) : ∀ s : St, Shape s →
    Shape (s.openTables ds).2 ∧ (s.openTables ds).1.map Prod.fst = ds ∧ (s.openTables ds).2.threads = s.threads ∧
      (s.openTables ds).2.dirs = s.dirs ∧ s.next ≤ (s.openTables ds).2.next ∧ (∀ k g, s.table k = some g → (s.openTables ds).2.table k = some g) ∧
      (∀ f ∈ (s.openTables ds).1, (s.openTables ds).2.table f.1 = some f.2) := by
  induction ds with
  | nil => intro s h; exact ⟨h, rfl, rfl, rfl, Nat.le_refl _, fun _ _ e => e, fun f hf => by cases hf⟩
  | cons d ds ih =>
    intro s h
    obtain ⟨h1, h2, h3, h4, h5, h6, h7, h8, h9⟩ := openTable_facts s d
    obtain ⟨i0, i1, i2, i3, i4, i5, i6⟩ := ih (s.openTable d).2 (h.openTable d)
    unfold St.openTables
    dsimp only
    refine ⟨i0, by rw [List.map_cons, h1, i1], i2.trans h3, i3.trans h4, Nat.le_trans h5 i4, ?_, ?_⟩
    · intro k g hg
      refine i5 k g ?_
      by_cases e : k = d
      · subst e; rw [(h7 g hg).1]; exact hg
      · rw [h6 k e]; exact hg
    · intro f hf
      rcases List.mem_cons.mp hf with rfl | hf
      · exact i5 _ _ (by rw [h1]; exact h2)
      · exact i6 f hf

theorem unlinkTable_facts (s : St) (c : Call) : (s.unlinkTable c).threads = s.threads ∧ (s.unlinkTable c).next = s.next ∧
    (s.unlinkTable c).rows = s.rows ∧ (s.unlinkTable c).dirs = s.dirs ∧ (∀ d g, (s.unlinkTable c).table d = some g → s.table d = some g) ∧
    (∀ d, c.doomed s.dirs ≠ some d → (s.unlinkTable c).table d = s.table d) ∧
    (∀ d, c.doomed s.dirs = some d → (s.unlinkTable c).table = upd s.table d none) := by
  unfold St.unlinkTable
  cases h : c.doomed s.dirs with
  | none => exact ⟨rfl, rfl, rfl, rfl, fun _ _ e => e, fun _ _ => rfl, fun _ e => by cases e⟩
  | some id =>
    refine ⟨rfl, rfl, rfl, rfl, ?_, ?_, fun d e => by cases e; rfl⟩
    · intro d g hg
      dsimp only at hg
      by_cases e : d = id
      · subst e; rw [show upd s.table d none d = none from upd_same _ _ _] at hg; cases hg
      · rw [show upd s.table id none d = s.table d from upd_other _ _ _ _ e] at hg; exact hg
    · intro d hd
      exact upd_other _ _ _ _ (fun e => hd (by rw [e]))

theorem Shape.table_le {s s' : St} (h : Shape s) (h1 : s'.threads = s.threads) (h2 : s'.next = s.next) (h3 : s'.rows = s.rows)
    (h4 : ∀ d g, s'.table d = some g → s.table d = some g) : Shape s' :=
  ⟨by rw [h1]; exact h.excl, fun d g e => by rw [h2]; exact h.tables d g (h4 d g e), by rw [h1, h2]; exact h.files, by rw [h1, h3]; exact h.txn⟩

theorem idle_holds {t : Th} (h : t.pc.inCall = false) (f : File) : t.holds f = false := by
  unfold Th.holds
  revert h; cases t.pc <;> intro h <;> first | rfl | cases h

theorem shape_ret {s : St} (h : Shape s) {i : Nat} {t : Th} (ht : s.threads[i]? = some t) (o : Outcome) (rows : File → Rows)
    (hr : ∀ f, t.holds f = false → rows f = s.rows f) : Shape (({ s with rows := rows } : St).ret i t o) := by
  refine h.set ht ⟨t.calls.tail, .idle, t.log ++ [o]⟩ _ rfl rfl rfl hr ?_ (fun f hf => by cases hf) ⟨fun e => (by cases e), fun e => by cases e⟩
  intro f hf
  cases hf

theorem shape_step {s s' : St} {i : Nat} {t : Th} {c : Call} {cs : List Call} {m : Move} (h : Shape s) (ht : s.threads[i]? = some t)
    (hc : t.calls = c :: cs) (hs : Step s i t c m s') : Shape s' := by
  have hmem : t ∈ s.threads := List.mem_of_getElem? ht
  have hx := h.txn t hmem
  have setPc : ∀ (pc : Pc), (∀ f, (({ t with pc := pc } : Th).holds f = true → t.holds f = true ∨ ∀ u ∈ s.threads, u.holds f = false)) →
      (∀ f ∈ pc.files, f ∈ t.pc.files) → (({ t with pc := pc } : Th).Txn s.rows) → Shape (s.go i t pc) :=
    fun pc h1 h2 h3 => h.set ht { t with pc := pc } _ rfl rfl rfl (fun _ _ => rfl) h1 (fun f hf => h.files t hmem f (h2 f hf)) h3
  have inC : t.pc.inCall = true → ∃ done, c.isList = false ∧ t.pc.files.map Prod.fst = c.opens ∧
      c.stmts t.pc.files = done ++ t.pc.todo ∧ t.pc.held = exec s.rows done := by
    intro hi
    obtain ⟨c', cs', done, h1, h2⟩ := hx.call hi
    rw [hc] at h1
    cases h1
    exact ⟨done, h2⟩
  cases hs with
  | list d hd hp =>
    refine setPc _ (fun f hf => by cases hf) (fun f hf => by cases hf) ⟨fun e => (by cases e), fun _ => ⟨d, cs, ?_⟩⟩
    rw [← hd]; exact hc
  | refused m hl hp => exact shape_ret h ht _ _ (fun _ _ => rfl)
  | opened hl hp hb hlv =>
    obtain ⟨o0, o1, o2, o3, o4, o5, o6⟩ := openTables_facts c.opens s h
    have ht' : (s.openTables c.opens).2.threads[i]? = some t := by rw [o2]; exact ht
    refine o0.set ht' { t with pc := .running (s.openTables c.opens).1 (c.stmts (s.openTables c.opens).1) [] } _ rfl rfl rfl (fun _ _ => rfl)
      (fun f hf => by cases hf) (fun f hf => o0.tables f.1 f.2 (o6 f hf)) ⟨fun _ => ⟨c, cs, [], hc, hl, o1, rfl, rfl⟩, fun e => by cases e⟩
  | exec fs x todo held hp hf =>
    obtain ⟨done, i1, i2, i3, i4⟩ := inC (by rw [hp]; rfl)
    rw [hp] at i2 i3 i4
    refine setPc _ ?_ (fun f hf => by rw [hp]; exact hf) ⟨fun _ => ⟨c, cs, done ++ [x], hc, i1, i2, ?_, ?_⟩, fun e => by cases e⟩
    · intro f hh
      unfold Th.holds at hh
      dsimp only [Pc.held] at hh
      rw [lookup_runStmt] at hh
      by_cases e : f = x.file
      · subst e
        rcases hf with hf | hf
        · left; unfold Th.holds; rw [hp]; exact hf
        · exact Or.inr hf
      · rw [if_neg e] at hh
        left; unfold Th.holds; rw [hp]; exact hh
    · rw [List.append_assoc]; exact i3
    · rw [exec_snoc, ← i4]; rfl
  | gaveUp fs x todo held hp => exact shape_ret h ht _ _ (fun _ _ => rfl)
  | unlinked fs held hp hr =>
    obtain ⟨u1, u2, u3, u4, u5, _⟩ := unlinkTable_facts s c
    obtain ⟨done, i1, i2, i3, i4⟩ := inC (by rw [hp]; rfl)
    rw [hp] at i2 i3 i4
    have hs := h.table_le u1 u2 u3 u5
    refine hs.set (i := i) (t := t) (by rw [u1]; exact ht) { t with pc := .inside fs held } _ rfl rfl rfl (fun _ _ => rfl) ?_ ?_ ?_
    · intro f hh; left; unfold Th.holds at hh ⊢; rw [hp]; exact hh
    · intro f hf; rw [u2]; exact h.files t hmem f (by rw [hp]; exact hf)
    · exact ⟨fun _ => ⟨c, cs, done, hc, i1, i2, i3, by rw [show (St.go (s.unlinkTable c) i t (Pc.inside fs held)).rows = s.rows from u3]; exact i4⟩,
        fun e => by cases e⟩
  | system fs held hp hl =>
    obtain ⟨done, i1, i2, i3, i4⟩ := inC (by rcases hp with hp | hp <;> [rw [hp.1]; rw [hp]] <;> rfl)
    have e1 : t.pc.files = fs ∧ t.pc.held = held ∧ t.pc.todo = [] := by rcases hp with hp | hp <;> [rw [hp.1]; rw [hp]] <;> exact ⟨rfl, rfl, rfl⟩
    rw [e1.1] at i2 i3
    rw [e1.2.1] at i4
    rw [e1.2.2] at i3
    refine h.set ht { t with pc := .finishing fs held (s.kernel c).1 } _ rfl rfl rfl (fun _ _ => rfl) ?_ ?_ ⟨fun _ => ⟨c, cs, done, hc, i1, i2, i3, i4⟩,
      fun e => by cases e⟩
    · intro f hh; left; unfold Th.holds at hh ⊢; rw [e1.2.1]; exact hh
    · intro f hf; exact h.files t hmem f (by rw [e1.1]; exact hf)
  | fault e fs held hp =>
    obtain ⟨done, i1, i2, i3, i4⟩ := inC (by rcases hp with hp | hp <;> [rw [hp.1]; rw [hp]] <;> rfl)
    have e1 : t.pc.files = fs ∧ t.pc.held = held ∧ t.pc.todo = [] := by rcases hp with hp | hp <;> [rw [hp.1]; rw [hp]] <;> exact ⟨rfl, rfl, rfl⟩
    rw [e1.1] at i2 i3
    rw [e1.2.1] at i4
    rw [e1.2.2] at i3
    refine setPc _ ?_ ?_ ⟨fun _ => ⟨c, cs, done, hc, i1, i2, i3, i4⟩, fun e => by cases e⟩
    · intro f hh; left; unfold Th.holds at hh ⊢; rw [e1.2.1]; exact hh
    · intro f hf; rw [e1.1]; exact hf
  | failed fs held e hp => exact shape_ret h ht _ _ (fun _ _ => rfl)
  | short fs hp => exact shape_ret h ht _ _ (fun _ _ => rfl)
  | pend fs held hp hne =>
    obtain ⟨done, i1, i2, i3, i4⟩ := inC (by rw [hp]; rfl)
    rw [hp] at i2 i3 i4
    refine setPc _ ?_ (fun f hf => by rw [hp]; exact hf) ⟨fun _ => ⟨c, cs, done, hc, i1, i2, i3, i4⟩, fun e => by cases e⟩
    intro f hh; left; unfold Th.holds at hh ⊢; rw [hp]; exact hh
  | commit fs held hp hr =>
    refine shape_ret h ht _ _ ?_
    intro f hf
    unfold Th.holds at hf
    rw [hp] at hf
    unfold commitRows
    cases hl : held.lookup f with
    | none => rfl
    | some r => rw [show Pc.held (.committing fs held) = held from rfl, hl] at hf; cases hf
  | lost fs held hp => exact shape_ret h ht _ _ (fun _ _ => rfl)
  | look m pc hp hq hw =>
    have hh : pc.held = [] ∧ pc.files = [] ∧ pc.inCall = false := by cases pc <;> first | exact ⟨rfl, rfl, rfl⟩ | cases hq
    refine setPc _ ?_ ?_ ⟨fun e => ?_, fun _ => hx.list hp⟩
    · intro f hf; unfold Th.holds at hf; dsimp only at hf; rw [hh.1] at hf; cases hf
    · intro f hf; rw [hh.2.1] at hf; cases hf
    · dsimp only at e; rw [hh.2.2] at e; cases e
  | listed conn out hp => exact shape_ret h ht _ _ (fun _ _ => rfl)

end Securefs.LongTab
