import Verif.Proofs.LongTab
/-! Helper lemmas about threads on the tables of long names: they do what one call at a time does. -/

namespace Securefs.LongTab

open Securefs.Spec.LongTab

/-! ## Statements on volumes -/

/-- What a statement does to the function a table stands for. -/
def Stmt.onMap : Stmt → (Bytes → Option Bytes) → (Bytes → Option Bytes)
  | .put _ n enc, k => fun m => if m = n ∧ k n = none then some enc else k m
  | .del _ n, k => fun m => if m = n then none else k m

theorem lookup_apply (x : Stmt) (r : Rows) : (fun n => (x.apply r).lookup n) = x.onMap (fun n => r.lookup n) := by
  cases x with
  | put f n enc => funext m; exact lookup_insertOrIgnore r n m enc
  | del f n => funext m; exact lookup_dropKey r n m

theorem lookup_applies (xs : List Stmt) : ∀ r : Rows,
    (fun n => (xs.foldl (fun r x => x.apply r) r).lookup n) = xs.foldl (fun k x => x.onMap k) (fun n => r.lookup n) := by
  induction xs with
  | nil => intro r; rfl
  | cons x xs ih => intro r; rw [List.foldl_cons, List.foldl_cons, ih, lookup_apply]

/-- A statement on a volume. -/
def Stmt.edit (v : Vol) : Stmt → Vol
  | .put f n enc => v.record f.1 n enc
  | .del f n => v.forget f.1 n

theorem edit_names (v : Vol) (x : Stmt) (d : Nat) : (x.edit v).names d = if d = x.file.1 then some (x.onMap (v.known d)) else v.names d := by
  cases x with
  | put f n enc =>
    by_cases e : d = f.1
    · subst e; rfl
    · rw [if_neg (show ¬ d = (Stmt.put f n enc).file.1 from e)]; exact if_neg e
  | del f n =>
    by_cases e : d = f.1
    · subst e; rfl
    · rw [if_neg (show ¬ d = (Stmt.del f n).file.1 from e)]; exact if_neg e

theorem edits_names (d : Nat) (xs : List Stmt) : ∀ v : Vol, (xs.foldl Stmt.edit v).names d =
    if d ∈ xs.map (fun x => x.file.1) then some ((xs.filter (fun x => x.file.1 == d)).foldl (fun k x => x.onMap k) (v.known d)) else v.names d := by
  induction xs with
  | nil => intro v; rfl
  | cons x xs ih =>
    intro v
    rw [List.foldl_cons, ih]
    by_cases e : d = x.file.1
    · have hk : (x.edit v).known d = x.onMap (v.known d) := by
        funext n
        unfold Vol.known
        rw [edit_names, if_pos e]
        rfl
      rw [if_pos (show d ∈ (x :: xs).map (fun x => x.file.1) by simp [← e]),
        List.filter_cons_of_pos (by rw [beq_iff_eq]; exact e.symm), List.foldl_cons, hk]
      by_cases h2 : d ∈ xs.map (fun x => x.file.1)
      · rw [if_pos h2]
      · rw [if_neg h2, edit_names, if_pos e]
        have : xs.filter (fun y => y.file.1 == d) = [] := by
          rw [List.filter_eq_nil_iff]
          intro y hy hh
          exact h2 (List.mem_map.mpr ⟨y, hy, by simpa using hh⟩)
        rw [this]
        rfl
    · have hk : (x.edit v).known d = v.known d := by
        funext n
        unfold Vol.known
        rw [edit_names, if_neg e]
      rw [List.filter_cons_of_neg (by rw [beq_iff_eq]; exact fun h => e h.symm), hk, edit_names, if_neg e]
      simp only [List.map_cons, List.mem_cons, e, false_or]

theorem renamed_eq (v : Vol) (c : Call) (fs : List File) (h : fs.map Prod.fst = c.opens) (hl : c.isList = false) :
    v.renamed c = (c.stmts fs).foldl Stmt.edit v := by
  cases c with
  | list d => cases hl
  | op d n k =>
    unfold Call.opens at h
    dsimp only at h
    by_cases hn : n.full = []
    · rw [hn] at h
      have : fs = [] := by cases fs with
        | nil => rfl
        | cons f fs => cases h
      subst this
      cases k <;> exact if_pos hn
    · have hb : n.full.isEmpty = false := by rw [List.isEmpty_eq_false_iff]; exact hn
      rw [hb] at h
      obtain ⟨f, rfl, hf⟩ : ∃ f, fs = [f] ∧ f.1 = d := by
        match fs, h with
        | [f], h => exact ⟨f, rfl, by injection h⟩
      subst hf
      cases k <;> exact if_neg hn
  | rename d n d' n' =>
    unfold Call.opens at h
    by_cases hb : (n.full.isEmpty && n'.full.isEmpty) = true
    · dsimp only at h
      rw [if_pos hb] at h
      have : fs = [] := by cases fs with
        | nil => rfl
        | cons f fs => cases h
      subst this
      rw [Bool.and_eq_true, List.isEmpty_iff, List.isEmpty_iff] at hb
      show (let v1 := if n.full = [] then v else v.forget d n.backing
        if n'.full = [] then v1 else v1.record d' n'.backing n'.full) = v
      rw [if_pos hb.1, if_pos hb.2]
    · dsimp only at h
      rw [if_neg hb] at h
      obtain ⟨f, f', rfl, hf, hf'⟩ : ∃ f f', fs = [f, f'] ∧ f.1 = d ∧ f'.1 = d' := by
        match fs, h with
        | [f, f'], h => exact ⟨f, f', rfl, by injection h, by injection h with _ h; injection h⟩
      subst hf hf'
      show (let v1 := if n.full = [] then v else v.forget f.1 n.backing
        if n'.full = [] then v1 else v1.record f'.1 n'.backing n'.full) =
        ((if n.full.isEmpty then [] else [Stmt.del f n.backing]) ++ (if n'.full.isEmpty then [] else [Stmt.put f' n'.backing n'.full])).foldl Stmt.edit v
      simp only [List.isEmpty_iff]
      by_cases h1 : n.full = [] <;> by_cases h2 : n'.full = []
      · simp [h1, h2]
      · simp [h1, h2]; rfl
      · simp [h1, h2]; rfl
      · simp [h1, h2]; rfl

theorem renamed_dirs (v : Vol) (c : Call) : (v.renamed c).dirs = v.dirs := by
  cases c with
  | list d => rfl
  | op d n k => cases k <;> (unfold Vol.renamed; dsimp only; split <;> rfl)
  | rename d n d' n' => unfold Vol.renamed; dsimp only; split <;> split <;> rfl

/-! ## Views -/

theorem settled_holds {t : Th} {f : File} {r : Rows} (h : settled t f = some r) : t.holds f = true ∧ t.pc.held.lookup f = some r := by
  unfold settled at h
  unfold Th.holds
  split at h
  · rename_i hp; rw [hp]; exact ⟨by dsimp only [Pc.held]; rw [h]; rfl, h⟩
  · rename_i hp; rw [hp]; exact ⟨by dsimp only [Pc.held]; rw [h]; rfl, h⟩
  · cases h

theorem settled_none {t : Th} {f : File} (h : t.holds f = false) : settled t f = none := by
  cases hs : settled t f with
  | none => rfl
  | some r => rw [(settled_holds hs).1] at h; cases h

/-- The threads are connected to the tables that are there. -/
def Current (s : St) : Prop := ∀ t ∈ s.threads, ∀ f ∈ t.pc.files, s.table f.1 = some f.2

theorem getElem?_set_cases {l : List Th} {i j : Nat} {t t' u : Th} (ht : l[i]? = some t) (hj : (l.set i t')[j]? = some u) :
    (j = i ∧ u = t') ∨ (j ≠ i ∧ l[j]? = some u) := by
  by_cases e : j = i
  · subst e
    rw [List.getElem?_set_self', ht] at hj
    cases hj
    exact Or.inl ⟨rfl, rfl⟩
  · rw [List.getElem?_set_ne (fun h => e h.symm)] at hj
    exact Or.inr ⟨e, hj⟩

theorem mem_set_self {l : List Th} {i : Nat} {t : Th} (t' : Th) (ht : l[i]? = some t) : t' ∈ l.set i t' := by
  apply List.mem_of_getElem? (i := i)
  rw [List.getElem?_set_self', ht]
  rfl

theorem mem_set_ne {l : List Th} {i j : Nat} {u : Th} (t' : Th) (hj : l[j]? = some u) (e : j ≠ i) : u ∈ l.set i t' := by
  apply List.mem_of_getElem? (i := j)
  rw [List.getElem?_set_ne (fun h => e h.symm)]
  exact hj

/-- A step that changes nothing but the place of a thread, and nothing about what it has settled. -/
theorem view_set {s s' : St} {v : Vol} (h : View s v) {i : Nat} {t t' : Th} (ht : s.threads[i]? = some t) (h1 : s'.threads = s.threads.set i t')
    (h2 : s'.dirs = s.dirs) (h3 : s'.table = s.table) (h4 : s'.rows = s.rows) (h5 : ∀ f, settled t' f = settled t f) : View s' v := by
  refine ⟨by rw [h2]; exact h.dirs, fun d hd => h.absent d (by rw [← h3]; exact hd), ?_⟩
  intro d g hg
  rw [h3] at hg
  obtain ⟨m, m1, m2, m3⟩ := h.present d g hg
  refine ⟨m, m1, ?_, ?_⟩
  · intro u hu r hr
    rw [h1] at hu
    obtain ⟨j, hj⟩ := List.mem_iff_getElem?.mp hu
    rcases getElem?_set_cases ht hj with ⟨_, rfl⟩ | ⟨_, hj⟩
    · rw [h5] at hr; exact m2 t (List.mem_of_getElem? ht) r hr
    · exact m2 u (List.mem_of_getElem? hj) r hr
  · intro hn
    rw [h4]
    refine m3 ?_
    intro u hu
    obtain ⟨j, hj⟩ := List.mem_iff_getElem?.mp hu
    by_cases e : j = i
    · subst e
      rw [ht] at hj
      cases hj
      rw [← h5]
      exact hn t' (by rw [h1]; exact mem_set_self t' ht)
    · exact hn u (by rw [h1]; exact mem_set_ne t' hj e)

theorem Current.set {s s' : St} (h : Current s) {i : Nat} {t t' : Th} (ht : s.threads[i]? = some t) (h1 : s'.threads = s.threads.set i t')
    (h3 : s'.table = s.table) (h5 : ∀ f ∈ t'.pc.files, f ∈ t.pc.files) : Current s' := by
  intro u hu f hf
  rw [h3]
  rw [h1] at hu
  obtain ⟨j, hj⟩ := List.mem_iff_getElem?.mp hu
  rcases getElem?_set_cases ht hj with ⟨_, rfl⟩ | ⟨_, hj⟩
  · exact h t (List.mem_of_getElem? ht) f (h5 f hf)
  · exact h u (List.mem_of_getElem? hj) f hf

theorem view_hasTable {s : St} {v : Vol} (h : View s v) : v.hasTable = s.hasTable := by
  funext d
  unfold Vol.hasTable St.hasTable
  cases ht : s.table d with
  | none => rw [h.absent d ht]; rfl
  | some g => obtain ⟨m, m1, _⟩ := h.present d g ht; rw [m1]; rfl

theorem view_kernel {s : St} {v : Vol} (h : View s v) (c : Call) : v.kernel c = s.kernel c := by
  cases c with
  | op d n k => show v.dirs.call _ _ _ _ = s.dirs.call _ _ _ _; rw [h.dirs, view_hasTable h]
  | rename d n d' n' => show v.dirs.rename _ _ _ _ _ = s.dirs.rename _ _ _ _ _; rw [h.dirs, view_hasTable h]
  | list d => show (none, v.dirs) = (none, s.dirs); rw [h.dirs]

theorem kernel_fail {s : St} {c : Call} {e : Nat} (h : (s.kernel c).1 = some e) : (s.kernel c).2 = s.dirs := by
  cases c with
  | list d => cases h
  | op d n k =>
    revert h
    show (s.dirs.call s.hasTable d n.backing k).1 = some e → (s.dirs.call s.hasTable d n.backing k).2 = s.dirs
    unfold Dirs.call
    split
    · intro _; rfl
    · split <;> first | (intro h; cases h; done) | (intro _; rfl) | skip
      split
      · intro h; cases h
      · intro _; rfl
  | rename d n d' n' =>
    revert h
    show (s.dirs.rename s.hasTable d n.backing d' n'.backing).1 = some e → (s.dirs.rename s.hasTable d n.backing d' n'.backing).2 = s.dirs
    unfold Dirs.rename
    split
    · intro _; rfl
    · split
      · intro _; rfl
      · dsimp only
        split
        · intro h; cases h
        · split
          · intro h; cases h
          · split <;> first | (intro h; cases h; done) | (intro _; rfl) | skip
            split
            · intro h; cases h
            · intro _; rfl

/-- Opening a table is its being made, if it was not there. -/
theorem view_openTable {s : St} {v : Vol} (hsh : Shape s) (h : View s v) (d : Nat) : ∃ v', v.after (.made d) = some v' ∧ View (s.openTable d).2 v' := by
  obtain ⟨h1, h2, h3, h4, h5, h6, h7, h8, h9⟩ := openTable_facts s d
  refine ⟨_, rfl, ?_⟩
  cases ht : s.table d with
  | some g =>
    rw [(h7 g ht).1]
    refine ⟨h.dirs, ?_, ?_⟩
    · intro k hk
      have : k ≠ d := fun e => by rw [e, ht] at hk; cases hk
      show (if k = d then _ else _) = none
      rw [if_neg this]; exact h.absent k hk
    · intro k g' hg
      obtain ⟨m, m1, m2⟩ := h.present k g' hg
      refine ⟨m, ?_, m2⟩
      show (if k = d then _ else _) = some m
      by_cases e : k = d
      · subst e
        rw [if_pos rfl]
        congr 1
        funext n
        unfold Vol.known
        rw [m1]
      · rw [if_neg e]; exact m1
  | none =>
    obtain ⟨g1, g2, g3⟩ := h9 ht
    refine ⟨by rw [h4]; exact h.dirs, ?_, ?_⟩
    · intro k hk
      have : k ≠ d := fun e => by rw [e, h2] at hk; cases hk
      show (if k = d then _ else _) = none
      rw [if_neg this]
      exact h.absent k (by rw [← h6 k this]; exact hk)
    · intro k g' hg
      by_cases e : k = d
      · subst e
        rw [h2] at hg
        cases hg
        refine ⟨v.known k, if_pos rfl, ?_, ?_⟩
        · intro t htm r hr
          exfalso
          rw [h3] at htm
          have hf := hsh.files t htm _ (held_files (hsh.txn t htm) (settled_holds hr).1)
          dsimp only at hf
          rw [g2] at hf
          exact Nat.lt_irrefl _ hf
        · intro _ n
          have e1 : ((k, (s.openTable k).1.2) : File) = (s.openTable k).1 := Prod.ext h1.symm rfl
          rw [show (s.openTable k).2.rows (k, (s.openTable k).1.2) = [] from by
            have := g1; rw [← e1] at this; exact this]
          unfold Vol.known
          rw [h.absent k ht]
          rfl
      · rw [h6 k e] at hg
        obtain ⟨m, m1, m2, m3⟩ := h.present k g' hg
        refine ⟨m, ?_, ?_, ?_⟩
        · show (if k = d then _ else _) = some m
          rw [if_neg e]; exact m1
        · rw [h3]; exact m2
        · rw [h3]
          intro hn n
          rw [h8 (k, g') (hsh.tables k g' hg)]
          exact m3 hn n

theorem view_openTables (ds : List Nat) : ∀ (s : St) (v : Vol), Shape s → View s v →
    ∃ v', v.history (ds.map .made) = some v' ∧ View (s.openTables ds).2 v' := by
  induction ds with
  | nil => intro s v _ h; exact ⟨v, rfl, h⟩
  | cons d ds ih =>
    intro s v hs h
    obtain ⟨v1, a1, a2⟩ := view_openTable hs h d
    obtain ⟨v2, b1, b2⟩ := ih _ v1 (hs.openTable d) a2
    refine ⟨v2, ?_, b2⟩
    show Vol.history v (Event.made d :: ds.map .made) = some v2
    unfold Vol.history
    rw [a1]
    exact b1

theorem history_one (v v' : Vol) (e : Event) (h : v.after e = some v') : v.history [e] = some v' := by
  unfold Vol.history; rw [h]; rfl

theorem history_append (es es' : List Event) : ∀ v : Vol, v.history (es ++ es') = (v.history es).bind (fun w => w.history es') := by
  induction es with
  | nil => intro v; rfl
  | cons e es ih =>
    intro v
    rw [List.cons_append, Vol.history, Vol.history]
    cases v.after e with
    | none => rfl
    | some w => exact ih w

/-- The successful system call of a call. -/
theorem view_system {s : St} {v : Vol} (hsh : Shape s) (hcur : Current s) (h : View s v) {i : Nat} {t : Th} {c : Call} {cs : List Call}
    (ht : s.threads[i]? = some t) (hc : t.calls = c :: cs) {fs : List File} {held : List (File × Rows)} (hp : t.pc.ready c fs held) (D : Dirs) :
    View (({ s with dirs := D } : St).go i t (.finishing fs held none)) { v.renamed c with dirs := D } := by
  have hmem : t ∈ s.threads := List.mem_of_getElem? ht
  have hin : t.pc.inCall = true := by rcases hp with hp | hp <;> [rw [hp.1]; rw [hp]] <;> rfl
  have e1 : t.pc.files = fs ∧ t.pc.held = held ∧ t.pc.todo = [] := by rcases hp with hp | hp <;> [rw [hp.1]; rw [hp]] <;> exact ⟨rfl, rfl, rfl⟩
  have hset : ∀ f, settled t f = none := by
    intro f; unfold settled; rcases hp with hp | hp <;> [rw [hp.1]; rw [hp]]
  obtain ⟨c', cs', done, h1, i1, i2, i3, i4⟩ := (hsh.txn t hmem).call hin
  rw [hc] at h1
  cases h1
  rw [e1.1] at i2
  rw [e1.1, e1.2.2, List.append_nil] at i3
  rw [e1.2.1, ← i3] at i4
  have fsc : ∀ x ∈ c.stmts fs, s.table x.file.1 = some x.file.2 := fun x hx => hcur t hmem _ (by rw [e1.1]; exact stmts_file hx)
  have heldIff : ∀ f, t.holds f = true ↔ f ∈ (c.stmts fs).map Stmt.file := by
    intro f
    unfold Th.holds
    rw [e1.2.1, i4, lookup_exec]
    by_cases hm : f ∈ (c.stmts fs).map Stmt.file
    · rw [if_pos hm]; exact ⟨fun _ => hm, fun _ => rfl⟩
    · rw [if_neg hm]; exact ⟨fun e => (by cases e), fun e => absurd e hm⟩
  have names : ∀ d, (v.renamed c).names d = if d ∈ (c.stmts fs).map (fun x => x.file.1) then
      some (((c.stmts fs).filter (fun x => x.file.1 == d)).foldl (fun k x => x.onMap k) (v.known d)) else v.names d :=
    fun d => by rw [renamed_eq v c fs i2 i1]; exact edits_names d (c.stmts fs) v
  have inDir : ∀ d g, s.table d = some g → (d ∈ (c.stmts fs).map (fun x => x.file.1) ↔ (d, g) ∈ (c.stmts fs).map Stmt.file) := by
    intro d g hg
    constructor
    · intro hm
      obtain ⟨x, hx, hx'⟩ := List.mem_map.mp hm
      have := fsc x hx
      rw [hx', hg] at this
      refine List.mem_map.mpr ⟨x, hx, Prod.ext hx' ?_⟩
      exact (Option.some.inj this).symm
    · intro hm
      obtain ⟨x, hx, hx'⟩ := List.mem_map.mp hm
      exact List.mem_map.mpr ⟨x, hx, by rw [hx']⟩
  have filt : ∀ d g, s.table d = some g → (c.stmts fs).filter (fun x => x.file.1 == d) = (c.stmts fs).filter (fun x => x.file == (d, g)) := by
    intro d g hg
    refine List.filter_congr fun x hx => ?_
    have := fsc x hx
    rw [Bool.eq_iff_iff, beq_iff_eq, beq_iff_eq]
    constructor
    · intro e
      rw [e, hg] at this
      exact Prod.ext e (Option.some.inj this).symm
    · intro e; rw [e]
  refine ⟨rfl, ?_, ?_⟩
  · intro d hd
    show (v.renamed c).names d = none
    rw [names, if_neg, h.absent d hd]
    intro hm
    obtain ⟨x, hx, hx'⟩ := List.mem_map.mp hm
    have := fsc x hx
    rw [hx', show s.table d = none from hd] at this
    cases this
  · intro d g hg
    have hg' : s.table d = some g := hg
    obtain ⟨m, m1, m2, m3⟩ := h.present d g hg'
    have others : ∀ u, u ∈ (({ s with dirs := D } : St).go i t (.finishing fs held none)).threads →
        u = { t with pc := .finishing fs held none } ∨ ∃ j, j ≠ i ∧ s.threads[j]? = some u := fun u hu => mem_set hu
    by_cases hm : (d, g) ∈ (c.stmts fs).map Stmt.file
    · have hth : t.holds (d, g) = true := (heldIff _).mpr hm
      have hn : ∀ u ∈ s.threads, settled u (d, g) = none := by
        intro u hu
        obtain ⟨j, hj⟩ := List.mem_iff_getElem?.mp hu
        by_cases e : j = i
        · subst e; rw [ht] at hj; cases hj; exact hset _
        · refine settled_none ?_
          rw [Bool.eq_false_iff]
          exact fun hh => e (hsh.excl _ _ _ _ _ hj ht hh hth)
      have hk : v.known d = fun n => (s.rows (d, g)).lookup n := by
        funext n
        unfold Vol.known
        rw [m1]
        exact m3 hn n
      have hl : held.lookup (d, g) = some (((c.stmts fs).filter (fun x => x.file == (d, g))).foldl (fun r x => x.apply r) (s.rows (d, g))) := by
        rw [i4, lookup_exec, if_pos hm]
      refine ⟨_, by rw [names, if_pos ((inDir d g hg').mpr hm)], ?_, ?_⟩
      · intro u hu r hr n
        rcases others u hu with rfl | ⟨j, hj, hj'⟩
        · have hr' : held.lookup (d, g) = some r := hr
          rw [hl] at hr'
          cases hr'
          rw [filt d g hg', hk]
          exact (congrFun (lookup_applies _ _) n).symm
        · rw [hn u (List.mem_of_getElem? hj')] at hr; cases hr
      · intro hno
        have := hno { t with pc := .finishing fs held none } (mem_set_self _ ht)
        rw [show settled { t with pc := .finishing fs held none } (d, g) = held.lookup (d, g) from rfl, hl] at this
        cases this
    · have hl : held.lookup (d, g) = none := by rw [i4, lookup_exec, if_neg hm]
      refine ⟨m, by rw [names, if_neg (fun hh => hm ((inDir d g hg').mp hh))]; exact m1, ?_, ?_⟩
      · intro u hu r hr
        rcases others u hu with rfl | ⟨j, hj, hj'⟩
        · have hr' : held.lookup (d, g) = some r := hr
          rw [hl] at hr'; cases hr'
        · exact m2 u (List.mem_of_getElem? hj') r hr
      · intro hno
        refine m3 fun u hu => ?_
        obtain ⟨j, hj⟩ := List.mem_iff_getElem?.mp hu
        by_cases e : j = i
        · subst e; rw [ht] at hj; cases hj; exact hset _
        · exact hno u (mem_set_ne _ hj e)

/-- Where the events of a step come from. -/
inductive Origin (s : St) (i : Nat) (t : Th) (c : Call) : List Event → Prop where
  | made (ds : List Nat) : Origin s i t c (ds.map .made)
  | removed (id : Nat) (fs : List File) (held : List (File × Rows)) (hp : t.pc = .running fs [] held) (hd : c.doomed s.dirs = some id) :
      Origin s i t c [.removed id]
  | call (fault res : Option Nat) (fs : List File) (held : List (File × Rows)) (hp : t.pc.ready c fs held) : Origin s i t c [.call i c fault res]

/-- One step is a few events. -/
theorem sim_step {s s' : St} {i : Nat} {t : Th} {c : Call} {cs : List Call} {m : Move} {v : Vol} (hsh : Shape s) (hcur : Current s) (h : View s v)
    (ht : s.threads[i]? = some t) (hc : t.calls = c :: cs) (hcalm : Calm s i m) (hs : Step s i t c m s') :
    ∃ es v', v.history es = some v' ∧ View s' v' ∧ Current s' ∧ Origin s i t c es ∧
      ∃ t', s'.threads = s.threads.set i t' ∧
        ((t'.calls = t.calls ∧ t'.log = t.log ∧ inflight t' = inflight t ++ results i es) ∨
          ∃ o, t'.calls = cs ∧ t'.log = t.log ++ [o] ∧ inflight t' = [] ∧ inflight t ++ results i es = match o with | .done r => [(c, r)] | _ => []) := by
  have hmem : t ∈ s.threads := List.mem_of_getElem? ht
  have go : ∀ (pc : Pc), (∀ f, settled { t with pc := pc } f = settled t f) → (∀ f ∈ pc.files, f ∈ t.pc.files) →
      inflight { t with pc := pc } = inflight t →
      ∃ es v', v.history es = some v' ∧ View (s.go i t pc) v' ∧ Current (s.go i t pc) ∧ Origin s i t c es ∧
      ∃ t', (s.go i t pc).threads = s.threads.set i t' ∧
        ((t'.calls = t.calls ∧ t'.log = t.log ∧ inflight t' = inflight t ++ results i es) ∨
          ∃ o, t'.calls = cs ∧ t'.log = t.log ++ [o] ∧ inflight t' = [] ∧ inflight t ++ results i es = match o with | .done r => [(c, r)] | _ => []) := by
    intro pc h1 h2 h3
    refine ⟨[], v, rfl, view_set h ht rfl rfl rfl rfl h1, hcur.set ht rfl rfl h2, .made [], { t with pc := pc }, rfl, Or.inl ⟨rfl, rfl, ?_⟩⟩
    rw [h3]; exact (List.append_nil _).symm
  have ret : ∀ (o : Outcome), (∀ f, settled t f = none) → (inflight t = match o with | .done r => [(c, r)] | _ => []) →
      ∃ es v', v.history es = some v' ∧ View (s.ret i t o) v' ∧ Current (s.ret i t o) ∧ Origin s i t c es ∧
      ∃ t', (s.ret i t o).threads = s.threads.set i t' ∧
        ((t'.calls = t.calls ∧ t'.log = t.log ∧ inflight t' = inflight t ++ results i es) ∨
          ∃ o, t'.calls = cs ∧ t'.log = t.log ++ [o] ∧ inflight t' = [] ∧ inflight t ++ results i es = match o with | .done r => [(c, r)] | _ => []) := by
    intro o h1 h3
    refine ⟨[], v, rfl, view_set h ht rfl rfl rfl rfl (fun f => (h1 f).symm), hcur.set ht rfl rfl (fun f hf => by cases hf), .made [],
      ⟨t.calls.tail, .idle, t.log ++ [o]⟩, rfl, Or.inr ⟨o, by rw [hc]; rfl, rfl, rfl, ?_⟩⟩
    rw [← h3]; exact List.append_nil _
  cases hs with
  | list d hd hp => exact go _ (fun f => by unfold settled; rw [hp]) (fun f hf => by cases hf) (by unfold inflight; rw [hp])
  | refused m hl hp => exact ret _ (fun f => by unfold settled; rw [hp]) (by unfold inflight; rw [hp])
  | opened hl hp hb hlv =>
    obtain ⟨o0, o1, o2, o3, o4, o5, o6⟩ := openTables_facts c.opens s hsh
    obtain ⟨v', w1, w2⟩ := view_openTables c.opens s v hsh h
    have ht' : (s.openTables c.opens).2.threads[i]? = some t := by rw [o2]; exact ht
    refine ⟨_, v', w1, view_set w2 ht' rfl rfl rfl rfl (fun f => by unfold settled; rw [hp]), ?_, ?_,
      { t with pc := .running (s.openTables c.opens).1 (c.stmts (s.openTables c.opens).1) [] }, ?_, Or.inl ⟨rfl, rfl, ?_⟩⟩
    · intro u hu f hf
      rcases mem_set hu with rfl | ⟨j, hj, hj'⟩
      · exact o6 f hf
      · rw [o2] at hj'
        exact o5 _ _ (hcur u (List.mem_of_getElem? hj') f hf)
    · exact .made _
    · show (s.openTables c.opens).2.threads.set i _ = _
      rw [o2]
    · have : ∀ ds : List Nat, results i (ds.map Event.made) = [] := by
        intro ds
        induction ds with
        | nil => rfl
        | cons d ds ih => exact ih
      rw [this]
      unfold inflight
      rw [hp]
      rfl
  | exec fs x todo held hp hf => exact go _ (fun f => by unfold settled; rw [hp]) (fun f hf => by rw [hp]; exact hf) (by unfold inflight; rw [hp])
  | gaveUp fs x todo held hp => exact ret _ (fun f => by unfold settled; rw [hp]) (by unfold inflight; rw [hp])
  | unlinked fs held hp hr =>
    obtain ⟨u1, u2, u3, u4, u5, u6, u7⟩ := unlinkTable_facts s c
    have ht' : (s.unlinkTable c).threads[i]? = some t := by rw [u1]; exact ht
    cases hd : c.doomed s.dirs with
    | none =>
      have e1 : s.unlinkTable c = s := by unfold St.unlinkTable; rw [hd]
      rw [e1]
      exact go _ (fun f => by unfold settled; rw [hp]) (fun f hf => by rw [hp]; exact hf) (by unfold inflight; rw [hp])
    | some id =>
      have hv : View (s.unlinkTable c) { v with names := fun k => if k = id then none else v.names k } := by
        refine ⟨by rw [u4]; exact h.dirs, ?_, ?_⟩
        · intro d hd'
          show (if d = id then none else v.names d) = none
          by_cases e : d = id
          · rw [if_pos e]
          · rw [if_neg e]
            refine h.absent d ?_
            rw [← u6 d (fun hh => e (by rw [hd] at hh; exact (Option.some.inj hh).symm))]
            exact hd'
        · intro d g hg
          obtain ⟨m, m1, m2, m3⟩ := h.present d g (u5 d g hg)
          rw [u1, u3]
          refine ⟨m, ?_, m2, m3⟩
          show (if d = id then none else v.names d) = some m
          rw [if_neg, m1]
          intro e
          rw [u7 id hd, e, upd_same] at hg
          cases hg
      have hcur' : Current (s.unlinkTable c) := by
        intro u hu f hf
        rw [u1] at hu
        have := hcur u hu f hf
        rw [u6 f.1, this]
        intro e
        rw [hd] at e
        have e' : id = f.1 := Option.some.inj e
        refine (hcalm t ht).2 fs held c cs id f.2 hp hc hd (by rw [e']; exact this) u hu ?_
        rw [e']
        exact hf
      refine ⟨[.removed id], _, history_one _ _ _ rfl, view_set hv ht' rfl rfl rfl rfl (fun f => by unfold settled; rw [hp]),
        hcur'.set ht' rfl rfl (fun f hf => by rw [hp]; exact hf), ?_, { t with pc := .inside fs held }, ?_, Or.inl ⟨rfl, rfl, ?_⟩⟩
      · exact .removed id fs held hp hd
      · show (s.unlinkTable c).threads.set i _ = _
        rw [u1]
      · unfold inflight; rw [hp]; rfl
  | system fs held hp hl =>
    have hfl : inflight t = [] := by unfold inflight; rcases hp with hp | hp <;> [rw [hp.1]; rw [hp]]
    have hset : ∀ f, settled t f = none := by intro f; unfold settled; rcases hp with hp | hp <;> [rw [hp.1]; rw [hp]]
    have e1 : t.pc.files = fs := by rcases hp with hp | hp <;> [rw [hp.1]; rw [hp]] <;> rfl
    have hk := view_kernel h c
    have hres : results i [Event.call i c none (s.kernel c).1] = [(c, (s.kernel c).1)] := by
      unfold results; rw [if_pos rfl]; rfl
    have fin : ∀ w, Current (({ s with dirs := (s.kernel c).2 } : St).go i t (.finishing fs held w)) :=
      fun w => hcur.set ht rfl rfl (fun f hf => by rw [e1]; exact hf)
    have tail : ∃ t', (({ s with dirs := (s.kernel c).2 } : St).go i t (.finishing fs held (s.kernel c).1)).threads = s.threads.set i t' ∧
        ((t'.calls = t.calls ∧ t'.log = t.log ∧ inflight t' = inflight t ++ results i [Event.call i c none (s.kernel c).1]) ∨
          ∃ o, t'.calls = cs ∧ t'.log = t.log ++ [o] ∧ inflight t' = [] ∧
            inflight t ++ results i [Event.call i c none (s.kernel c).1] = match o with | .done r => [(c, r)] | _ => []) := by
      refine ⟨{ t with pc := .finishing fs held (s.kernel c).1 }, rfl, Or.inl ⟨rfl, rfl, ?_⟩⟩
      rw [hfl, hres]; unfold inflight; dsimp only; rw [hc]; rfl
    have byi : Origin s i t c [Event.call i c none (s.kernel c).1] := .call _ _ fs held hp
    cases hr : (s.kernel c).1 with
    | some e =>
      rw [hr] at tail byi
      refine ⟨[.call i c none (some e)], v, history_one _ _ _ ?_, ?_, fin _, byi, tail⟩
      · unfold Vol.after
        dsimp only
        rw [hk, hr, if_neg (fun hh => hh rfl)]
      · rw [kernel_fail hr]
        exact view_set h ht rfl rfl rfl rfl (fun f => by rw [hset]; rfl)
    | none =>
      rw [hr] at tail byi
      refine ⟨[.call i c none none], _, history_one _ _ _ ?_, view_system hsh hcur h ht hc hp _, fin _, byi, tail⟩
      unfold Vol.after
      dsimp only
      rw [hk, hr, if_neg (fun hh => hh rfl)]
  | fault e fs held hp =>
    have hfl : inflight t = [] := by unfold inflight; rcases hp with hp | hp <;> [rw [hp.1]; rw [hp]]
    have hset : ∀ f, settled t f = none := by intro f; unfold settled; rcases hp with hp | hp <;> [rw [hp.1]; rw [hp]]
    have e1 : t.pc.files = fs := by rcases hp with hp | hp <;> [rw [hp.1]; rw [hp]] <;> rfl
    refine ⟨[.call i c (some e) (some e)], v, history_one _ _ _ (if_pos rfl), view_set h ht rfl rfl rfl rfl (fun f => by rw [hset]; rfl),
      hcur.set ht rfl rfl (fun f hf => by rw [e1]; exact hf), ?_, { t with pc := .finishing fs held (some e) }, rfl, Or.inl ⟨rfl, rfl, ?_⟩⟩
    · exact .call _ _ fs held hp
    · rw [hfl]; unfold results; rw [if_pos rfl]; unfold inflight; dsimp only; rw [hc]; rfl
  | failed fs held e hp => exact ret _ (fun f => by unfold settled; rw [hp]) (by unfold inflight; rw [hp, hc])
  | short fs hp => exact ret _ (fun f => by unfold settled; rw [hp]; rfl) (by unfold inflight; rw [hp, hc])
  | pend fs held hp hne =>
    exact go _ (fun f => by unfold settled; rw [hp]) (fun f hf => by rw [hp]; exact hf) (by unfold inflight; dsimp only; rw [hp, hc])
  | commit fs held hp hr =>
    refine ⟨[], v, rfl, ?_, hcur.set ht rfl rfl (fun f hf => by cases hf), .made [],
      ⟨t.calls.tail, .idle, t.log ++ [.done none]⟩, rfl, Or.inr ⟨.done none, by rw [hc]; rfl, rfl, rfl, ?_⟩⟩
    · refine ⟨h.dirs, h.absent, ?_⟩
      intro d g hg
      obtain ⟨m, m1, m2, m3⟩ := h.present d g hg
      have hst : settled t (d, g) = held.lookup (d, g) := by unfold settled; rw [hp]
      refine ⟨m, m1, ?_, ?_⟩
      · intro u hu r hr'
        rcases mem_set hu with rfl | ⟨j, hj, hj'⟩
        · cases hr'
        · exact m2 u (List.mem_of_getElem? hj') r hr'
      · intro hno n
        show m n = (commitRows s.rows held (d, g)).lookup n
        unfold commitRows
        cases hl : held.lookup (d, g) with
        | some r => exact m2 t hmem r (by rw [hst, hl]) n
        | none =>
          refine m3 ?_ n
          intro u hu
          obtain ⟨j, hj⟩ := List.mem_iff_getElem?.mp hu
          by_cases e : j = i
          · subst e; rw [ht] at hj; cases hj; rw [hst, hl]
          · exact hno u (mem_set_ne _ hj e)
    · unfold inflight; rw [hp, hc]; rfl
  | lost fs held hp => exact absurd ((hcalm t ht).1 fs held hp) (fun e => by cases e)
  | look m pc hp hq hw =>
    have a1 : ∀ f, settled t f = none ∧ inflight t = [] := by
      intro f; unfold settled inflight; revert hp; cases t.pc <;> intro hp <;> first | exact ⟨rfl, rfl⟩ | cases hp
    refine go _ (fun f => ?_) (fun f hf => ?_) ?_
    · rw [(a1 f).1]; unfold settled; revert hq; cases pc <;> intro hq <;> first | rfl | cases hq
    · exfalso; revert hq hf; cases pc <;> intro hq hf <;> first | (cases hq; done) | cases hf
    · rw [(a1 (0, 0)).2]; unfold inflight; revert hq; cases pc <;> intro hq <;> first | rfl | cases hq
  | listed conn out hp => exact ret _ (fun f => by unfold settled; rw [hp]) (by unfold inflight; rw [hp])

end Securefs.LongTab
