import Verif.Proofs.SqliteRows
/-!
# C119: SQLite is used as documented, and the table of long names holds what it is told
-/

namespace Securefs.Props

open Sql Spec

/-- A SQLite that answers truly, for the examples: it computes its answers from what was done before; `busy` is the statement that it cannot
    execute. -/
private def toySql (start : Rows2) (busy : Bytes) : Lib := fun ev a =>
  match a with
  | .step h =>
    match (sqlContents start ev).jobs.find? (fun j => j.num = h) with
    | none => { code := 101 }
    | some j => { code := if j.pos < (j.results (sqlContents start ev).rows).length then 100 else 101 }
  | .columnText h _ =>
    match (sqlContents start ev).jobs.find? (fun j => j.num = h) with
    | none => {}
    | some j => { text := ((j.results (sqlContents start ev).rows)[j.pos - 1]?).getD [] }
  | .exec sql => { code := if sql = busy then 5 else 0 }
  | _ => {}

private theorem toySql_honest (start : Rows2) (busy : Bytes) : Honest start (toySql start busy) := by
  intro ev h j hj
  simp only [toySql, hj]
  refine ⟨?_, ?_, ?_, ?_⟩
  · split <;> simp
  · intro h; by_contra hc; simp [hc] at h
  · intro h; by_contra hc; simp [Nat.lt_of_not_le hc] at h
  · intro c x _ hx; simp [hx]

private def toyRows : Rows2 := fun t => if t then [] else [([1], [2, 3]), ([4], [5])]
private def toyL : Lib := toySql toyRows []
private def toyOps : List Op := [.lookup [4], .update false [6] [7, 8], .remove [1], .list 9]

/-- Whatever SQLite answers, a table object makes only calls that are allowed: no statement is used before it is prepared or after it is destroyed,
    all parameters are bound before a step, columns are read only when there is a row; in the end the connection is closed, once, if there is one, and no
    statement is left.  SQLite is only assumed to give a connection when it says that it opened one. -/
theorem C119_legal (L : Lib) (file : Bytes) (kind : Option (Option Bytes)) (sections : List Section)
    (hopen : ∀ flags, (L [] (.opening file flags)).code = 0 → (L [] (.opening file flags)).handle = true) :
    ∃ n, usage (life L file kind sections).2.events = some ⟨.gone, n, []⟩ := by
  unfold life
  have ho := hopen (openFlags kind.isSome)
  unfold call
  dsimp only
  generalize L [] (.opening file (openFlags kind.isSome)) = r at *
  have fin : ∀ s : St, Idle s → ∃ n, usage ((Api.close, L s.events .close) :: s.events) = some ⟨.gone, n, []⟩ := by
    intro s hs
    refine ⟨prepared s.events, (usage_cons hs.2 _ _).trans ?_⟩
    simp [Usage.next]
  by_cases hc : r.code = 0
  · rw [if_neg (by simp [hc])]
    rw [ho hc]
    have h0 : Idle ⟨[(Api.opening file (openFlags kind.isSome), r)], none⟩ := ⟨rfl, by simp [usage, Usage.next, hc, ho hc, prepared]⟩
    have hs := setUp_out (L := L) kind (Ext.refl _) h0
    rcases hx : setUp L kind ⟨[(Api.opening file (openFlags kind.isSome), r)], none⟩ with ⟨e | a, s'⟩
    · rw [hx] at hs
      exact fin s' (out_idle hs)
    · rw [hx] at hs
      exact fin _ (sections_idle sections (out_idle hs))
  · rw [if_pos hc]
    dsimp only
    cases hh : r.handle with
    | false => exact ⟨0, by simp [usage, Usage.next, hh]⟩
    | true => exact ⟨0, by simp [usage, Usage.next, hh, hc]⟩

/-- A table of two files in which a section is used. -/
example : (life toyL [9] (some (some [8])) [⟨toyOps, false⟩, ⟨[.lookup [6]], true⟩]).2.events.length = 42
    ∧ (∀ flags, (toyL [] (.opening [9] flags)).code = 0 → (toyL [] (.opening [9] flags)).handle = true) := by
  refine ⟨by decide +kernel, fun _ _ => rfl⟩

/-- After the constructor has returned, and between two sections, the table is at rest; so the state that the theorems below begin with is reached. -/
theorem C119_rest (L : Lib) (file : Bytes) (kind : Option (Option Bytes)) (sections : List Section) (r : Reply) (hc : r.code = 0) (hh : r.handle = true)
    (s : St) (hs : setUp L kind ⟨[(.opening file (openFlags kind.isSome), r)], none⟩ = (.ok (), s)) : AtRest (runSections L sections s).2 := by
  have h0 : Idle ⟨[(Api.opening file (openFlags kind.isSome), r)], none⟩ := ⟨rfl, by simp [usage, Usage.next, hc, hh, prepared]⟩
  have h1 := setUp_out (L := L) kind (Ext.refl _) h0
  rw [hs] at h1
  exact rest_idle.mpr (sections_idle sections h1.2)

private theorem okPair {α : Type} {x : Except Ex α × St} {a : α} (h : x.1 = .ok a) : x = (.ok a, x.2) := Prod.ext h (Eq.refl x.2)

@[irreducible] private def toyStart : St := (setUp toyL (some none) ⟨[(.opening [9] (openFlags true), {})], none⟩).2

private theorem toyStart_eq : setUp toyL (some none) ⟨[(.opening [9] (openFlags true), {})], none⟩ = (.ok (), toyStart) := by
  unfold toyStart
  exact okPair (by decide +kernel)

example : ∃ s, setUp toyL (some none) ⟨[(.opening [9] (openFlags true), {})], none⟩ = (.ok (), s) := ⟨toyStart, toyStart_eq⟩

private theorem toyStart_rest : AtRest toyStart := C119_rest toyL [9] (some none) [] {} rfl rfl toyStart toyStart_eq

/-- Errors are not lost: a function of the table returns only if each of its calls did what it should; and it throws nothing but the code of a call that
    did not.  A null statement is not used.  (`running` is the loop of `list_hashes` that has not come to its end.) -/
theorem C119_reported (L : Lib) (op : Op) (s : St) (hs : AtRest s) :
    AtRest (op.run L s).2 ∧ ∃ t, (op.run L s).2.events = t ++ s.events ∧
      match (op.run L s).1 with
      | .ok _ => ∀ e ∈ t, Fine e
      | .error (.sqlite code) => ∃ e ∈ t, Failed e code
      | .error .running => (∃ fuel, op = .list fuel) ∧ ∀ e ∈ t, Fine e
      | .error .null => False := by
  have h := op_out (L := L) op (Ext.refl s) (rest_idle.mp hs)
  refine ⟨rest_idle.mpr (out_idle h), ?_⟩
  rcases hx : op.run L s with ⟨e | a, s'⟩
  · rw [hx] at h
    cases e with
    | sqlite c =>
      obtain ⟨⟨t, h1, h2⟩, -⟩ := h
      exact ⟨t, h1, h2⟩
    | null => exact h.elim
    | running =>
      obtain ⟨⟨t, h1, h2⟩, -⟩ := h
      refine ⟨t, h1, ?_, h2⟩
      exact running_list hx
  · rw [hx] at h
    obtain ⟨⟨t, h1, h2⟩, -⟩ := h
    exact ⟨t, h1, h2⟩

/-- A function that throws: SQLite cannot prepare the statement. -/
example : AtRest toyStart ∧ ((Op.remove [1]).run (fun _ a => { code := match a with | .prepare _ => 8 | _ => 0 }) toyStart).1 = .error (.sqlite 8) :=
  ⟨toyStart_rest, by decide +kernel⟩

/-- The same for the constructor, whose error is that of opening or of the statements. -/
theorem C119_constructor (L : Lib) (file : Bytes) (kind : Option (Option Bytes)) (sections : List Section)
    (hopen : ∀ flags, (L [] (.opening file flags)).code = 0 → (L [] (.opening file flags)).handle = true) :
    match (life L file kind sections).1 with
    | .ok rs => rs.length = sections.length ∧ ∃ s, setUp L kind ⟨[(.opening file (openFlags kind.isSome), L [] (.opening file (openFlags kind.isSome)))], none⟩ = (.ok (), s)
        ∧ (∀ e ∈ s.events, Fine e) ∧ (runSections L sections s).1 = rs
    | .error e => ∃ code, e = .sqlite code ∧ ∃ e ∈ (life L file kind sections).2.events, Failed e code := by
  unfold life
  have ho := hopen (openFlags kind.isSome)
  unfold call
  dsimp only
  generalize L [] (.opening file (openFlags kind.isSome)) = r at *
  by_cases hc : r.code = 0
  · rw [if_neg (by simp [hc])]
    rw [ho hc]
    have h0 : Idle ⟨[(Api.opening file (openFlags kind.isSome), r)], none⟩ := ⟨rfl, by simp [usage, Usage.next, hc, ho hc, prepared]⟩
    have hs := setUp_out (L := L) kind (Ext.refl _) h0
    rcases hx : setUp L kind ⟨[(Api.opening file (openFlags kind.isSome), r)], none⟩ with ⟨e | a, s'⟩
    · rw [hx] at hs
      cases e with
      | sqlite c =>
        obtain ⟨⟨t, h1, e', h2, h3⟩, -⟩ := hs
        refine ⟨c, rfl, e', ?_, h3⟩
        simp only [if_true, h1]
        exact List.mem_cons_of_mem _ (List.mem_append_left _ h2)
      | null => exact hs.elim
      | running => exact absurd hx (setUp_running kind)
    · rw [hx] at hs
      obtain ⟨⟨t, h1, h2⟩, -⟩ := hs
      refine ⟨sections_length L sections s', s', rfl, ?_, rfl⟩
      rw [h1]
      intro e he
      rcases List.mem_append.mp he with he | he
      · exact h2 e he
      · simp only [List.mem_singleton] at he
        subst he
        exact hc
  · rw [if_pos hc]
    dsimp only
    refine ⟨r.code, rfl, (.opening file (openFlags kind.isSome), r), ?_, hc, rfl⟩
    split
    · exact List.mem_cons_of_mem _ (List.mem_singleton.mpr rfl)
    · exact List.mem_singleton.mpr rfl

/-- A file that cannot be opened, with a connection that has to be closed. -/
example : ∃ L : Lib, (∀ flags, (L [] (.opening [9] flags)).code = 0 → (L [] (.opening [9] flags)).handle = true) ∧
    (life L [9] none []).1 = .error (.sqlite 14) ∧ (life L [9] none []).2.events.length = 2 :=
  ⟨fun _ _ => { code := 14 }, fun _ _ => rfl, rfl, rfl⟩

/-- A constructor that has returned has made these calls, the last one first, and no others: a table for reading is opened for reading only and nothing is
    created; one for writing has its table, with two columns of which the hash is the key, if it was not there; and of two files both have.  All wait for
    two seconds when the file is locked. -/
theorem C119_set_up (L : Lib) (kind : Option (Option Bytes)) (s s' : St) (hs : AtRest s) (h : setUp L kind s = (.ok (), s')) :
    (∃ t, s'.events = t ++ s.events ∧
      match kind with
      | none => t.map Prod.fst = [.timeout 2000]
      | some none => ∃ sql, t.map Prod.fst = [.timeout 2000, .exec sql]
          ∧ sameSql sql "create table if not exists main.encrypted_mappings (keyed_hash text not null primary key, encrypted_name text not null);" = true
      | some (some other) => ∃ sql att n, t.map Prod.fst = [.exec sql, .finalize n, .step n, .bindText n 1 other, .prepare att, .timeout 2000]
          ∧ sameSql att "attach database ? as secondary;" = true
          ∧ sameSql sql "create table if not exists main.encrypted_mappings (keyed_hash text not null primary key, encrypted_name text not null);; create table if not exists secondary.encrypted_mappings (keyed_hash text not null primary key, encrypted_name text not null);" = true) ∧
    (kind = none → openFlags kind.isSome = 0x8000 + 1) ∧ (kind ≠ none → openFlags kind.isSome = 0x8000 + 2 + 4) := by
  refine ⟨?_, by rintro rfl; rfl, fun hk => by cases kind <;> simp_all [openFlags]⟩
  match kind, h with
  | none, h =>
    have h := congrArg (fun x => x.2.events) h
    simp only [setUp, checked_events] at h
    exact ⟨[_], h.symm, rfl⟩
  | some none, h =>
    obtain ⟨s1, _, h1, h2⟩ := bind_ok h
    have h1 := congrArg (fun x => x.2.events) h1
    have h2 := congrArg (fun x => x.2.events) h2
    simp only [checked_events] at h1 h2
    refine ⟨[_, _], by rw [← h2, ← h1]; rfl, createMain, rfl, by decide +kernel⟩
  | some (some other), h =>
    obtain ⟨s1, _, h1, h⟩ := bind_ok h
    have e1 := congrArg (fun x => x.2) h1
    simp only [checked_events] at e1
    obtain ⟨s2, _, h2, h3⟩ := bind_ok h
    have h3 := congrArg (fun x => x.2.events) h3
    simp only [checked_events] at h3
    obtain ⟨t, n, ht, h2⟩ := attach_calls (by rw [← e1]; exact hs.1) h2
    have e2 : s2.events = (t ++ [(.timeout 2000, L s.events (.timeout 2000))]) ++ s.events := by
      rw [h2, ← e1]
      simp only [List.append_assoc, List.cons_append, List.nil_append]
    have hmap : (t ++ [((.timeout 2000, L s.events (.timeout 2000)) : Event)]).map Prod.fst
        = [.finalize n, .step n, .bindText n 1 other, .prepare attach, .timeout 2000] := by
      rw [List.map_append, ht]
      rfl
    refine ⟨(.exec (createMain ++ literal ";\n" ++ createSecondary), L s2.events (.exec (createMain ++ literal ";\n" ++ createSecondary)))
      :: (t ++ [(.timeout 2000, L s.events (.timeout 2000))]), ?_, createMain ++ literal ";\n" ++ createSecondary, attach, n, ?_, by decide +kernel,
      by decide +kernel⟩
    · rw [← h3, List.cons_append, ← e2]
    · rw [List.map_cons, hmap]

example : AtRest toyStart ∧ ∃ s', setUp toyL (some (some [8])) toyStart = (.ok (), s') := ⟨toyStart_rest, _, okPair (by decide +kernel)⟩

/-- With a SQLite that answers truly, a function that returns does with the rows what it is for, and gives the answer that it should. -/
theorem C119_rows (start : Rows2) (L : Lib) (hL : Honest start L) (op : Op) (s s' : St) (v : List Bytes) (hs : AtRest s) (hr : op.run L s = (.ok v, s')) :
    v = (tableOp (sqlContents start s.events).rows op).2 ∧ (sqlContents start s'.events).rows = (tableOp (sqlContents start s.events).rows op).1 := by
  have h := op_rows hL op (R := (sqlContents start s.events).rows) ⟨rest_idle.mp hs, rfl⟩ v s' hr
  exact ⟨h.1, h.2.2⟩

example : Honest toyRows toyL ∧ AtRest toyStart ∧ (∃ s', (Op.update false [6] [7, 8]).run toyL toyStart = (.ok [], s'))
    ∧ tableOp toyRows (.lookup [4]) = (toyRows, [[5]]) :=
  ⟨toySql_honest _ _, toyStart_rest, ⟨_, okPair (by decide +kernel)⟩, rfl⟩

/-- A section is all or nothing, as long as its end is not refused: a section that returns has done all its functions, with their answers; one that fails
    has left the rows alone. -/
theorem C119_section_partial (start : Rows2) (L : Lib) (hL : Honest start L) (c : Section) (s : St) (hs : AtRest s) :
    (∀ rs, (c.run L s).1 = .ok rs → rs = (tableOps (sqlContents start s.events).rows c.ops).2) ∧
    (∀ rs e t, (c.run L s).1 = .ok rs → c.foreign = false → (c.run L s).2.events = e :: t → Fine e →
      (sqlContents start (e :: t)).rows = (tableOps (sqlContents start s.events).rows c.ops).1 ∧ (sqlContents start (e :: t)).before = none) ∧
    (∀ e t, (∃ x, (c.run L s).1 = .error x) ∨ c.foreign = true → (c.run L s).2.events = e :: t → Fine e ∨ t = s.events →
      (sqlContents start (e :: t)).rows = (sqlContents start s.events).rows) := by
  rcases section_cases hL c (R := (sqlContents start s.events).rows) ⟨rest_idle.mp hs, rfl⟩ with ⟨r, hc, hr⟩ | ⟨res, ev, r, failed, hf, hb, hres, hr⟩
  · rw [hr]
    refine ⟨by rintro _ ⟨⟩, by rintro _ _ _ ⟨⟩, ?_⟩
    rintro e t - he -
    cases he
    show ((sqlContents start s.events).next (_, _)).rows = _
    simp [Base.next, hc]
  · rw [hr]
    refine ⟨fun rs h => (hres rs h).1, ?_, ?_⟩
    · intro rs e t h hfor he hfine
      have hfl : failed = false := by
        cases failed
        · rfl
        · rcases hf.mp rfl with h1 | ⟨x, h1⟩
          · rw [hfor] at h1; cases h1
          · have h : res = .ok rs := h
            rw [h] at h1; cases h1
      subst hfl
      cases he
      have hcode : r.code = 0 := hfine
      refine ⟨?_, ?_⟩
      · show ((sqlContents start ev).next (_, _)).rows = _
        simp [Base.next, hcode, commit_begin, same_commit, (hres rs h).2]
      · show ((sqlContents start ev).next (_, _)).before = _
        simp [Base.next, hcode, commit_begin, same_commit]
    · intro e t h he hfine
      have hfl : failed = true := hf.mpr (h.symm)
      subst hfl
      cases he
      have key : r.code = 0 → ((sqlContents start ev).next (Api.exec (literal "rollback"), r)).rows = (sqlContents start s.events).rows := by
        intro hcode
        simp [Base.next, hcode, rollback_begin, rollback_commit, same_rollback, hb]
      rcases hfine with hfine | hfine
      · exact key hfine
      · exfalso
        subst hfine
        rcases section_longer L c s (rest_idle.mp hs) with ⟨r', h1, -⟩ | h1
        · rw [hr] at h1
          injection h1 with h1 _
          injection h1 with h1 _
          injection h1 with h1
          exact absurd h1 (by decide +kernel)
        · rw [hr] at h1
          simp only [List.length_cons] at h1
          omega

/-- A section of four functions that returns, and one that fails because of something else. -/
example : AtRest toyStart ∧ (Section.run toyL ⟨toyOps, false⟩ toyStart).1 = .ok [[[5]], [], [], [[4], [6]]]
    ∧ (Section.run toyL ⟨toyOps, true⟩ toyStart).2.events.head? = some (.exec (literal "rollback"), {}) :=
  ⟨toyStart_rest, by decide +kernel, by decide +kernel⟩

private def busyL : Lib := toySql toyRows (literal "commit")

/-- What is missing above: when SQLite refuses to commit, as it may with `SQLITE_BUSY`, the exception is only logged.  The section returns, and so does the
    whole program, but the row is lost; and the section after it cannot be used if SQLite refuses to begin within a transaction. -/
theorem C119_commit_violated :
    ∃ (start : Rows2) (L : Lib), Honest start L ∧
      (life L [9] (some none) [⟨[.update false [6] [7, 8]], false⟩]).1 = .ok [.ok [[]]] ∧
      (tableOps start [.update false [6] [7, 8]]).1 false = [([1], [2, 3]), ([4], [5]), ([6], [7, 8])] ∧
      (sqlContents start (life L [9] (some none) [⟨[.update false [6] [7, 8]], false⟩]).2.events).rows false = [([1], [2, 3]), ([4], [5])] :=
  ⟨toyRows, busyL, toySql_honest _ _, by decide +kernel, by decide +kernel, by decide +kernel⟩

end Securefs.Props
