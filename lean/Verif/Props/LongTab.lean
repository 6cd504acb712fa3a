import Verif.Proofs.LongTabRun
import Verif.Proofs.LongTabLive
/-!
# Properties C93 and C94: threads on the tables of long names
-/

namespace Securefs.Props

open Securefs.LongTab Securefs.Spec.LongTab

/-! ## A concrete volume -/

namespace LongTabToy

/-- Backing names of more than two bytes are long. -/
def isLong (n : Bytes) : Bool := n.length > 2

/-- The full encrypted name of a long one. -/
def enc (n : Bytes) : Bytes := 9 :: n

/-- A name. -/
def name (n : Bytes) : LName := ⟨n, if isLong n then enc n else []⟩

/-- Three long names and a short one. -/
def a : Bytes := [1, 1, 1]
/-- See `a`. -/
def b : Bytes := [2, 2, 2]
/-- See `a`. -/
def c : Bytes := [3, 3, 3]
/-- See `a`. -/
def sub : Bytes := [4]

/-- Directory 0 contains the directory 1, under a short name, and a file with the long name `c`, which its table records; directory 1 is empty. -/
def start (progs : List (List Call)) : St :=
  ⟨⟨[0, 1], 2, fun d => if d = 0 then [(sub, .dir 1), (c, .file 7)] else []⟩, fun d => if d = 0 then some 0 else none, 1,
    fun f => if f = (0, 0) then [(c, enc c)] else [], progs.map (fun p => ⟨p, .idle, []⟩)⟩

theorem start_fresh (progs : List (List Call)) : Fresh (start progs) progs := by
  refine ⟨rfl, ?_⟩
  intro d g h
  have h' : (if d = 0 then some 0 else none) = some g := h
  split at h'
  · cases h'; exact Nat.zero_lt_one
  · cases h'

theorem start_known (progs : List (List Call)) (d : Nat) (n : Bytes) :
    (volume (start progs)).known d n = if d = 0 ∧ n = c then some (enc c) else none := by
  show (match ((if d = 0 then some 0 else none).map fun g => fun n => ((start progs).rows (d, g)).lookup n) with | some m => m n | none => none) = _
  by_cases hd : d = 0
  · subst hd
    rw [if_pos rfl]
    show ((start progs).rows (0, 0)).lookup n = _
    show [(c, enc c)].lookup n = _
    by_cases hn : n = c
    · rw [if_pos ⟨rfl, hn⟩, hn]; rfl
    · rw [if_neg (fun e => hn e.2), List.lookup_cons]
      have : (n == c) = false := by rw [beq_eq_false_iff_ne]; exact hn
      rw [this]
      rfl
  · rw [if_neg hd, if_neg (fun e => hd e.1)]; rfl

theorem start_covered (progs : List (List Call)) : (volume (start progs)).Covered isLong enc := by
  intro d n node h hl
  rw [start_known]
  have h' : (if d = 0 then [(sub, LNode.dir 1), (c, LNode.file 7)] else []).lookup n = some node := h
  by_cases hd : d = 0
  · rw [if_pos hd] at h'
    by_cases h1 : n = sub
    · subst h1; cases hl
    · by_cases h2 : n = c
      · rw [if_pos ⟨hd, h2⟩, h2]
      · exfalso
        rw [List.lookup_cons, show (n == sub) = false by rw [beq_eq_false_iff_ne]; exact h1, List.lookup_cons,
          show (n == c) = false by rw [beq_eq_false_iff_ne]; exact h2] at h'
        cases h'
  · rw [if_neg hd] at h'; cases h'

theorem start_right (progs : List (List Call)) : (volume (start progs)).Right enc := by
  intro d n x h
  rw [start_known] at h
  split at h
  · rename_i e; cases h; rw [e.2]
  · cases h

theorem name_ok (n : Bytes) : NameOk isLong enc (name n) := by
  unfold NameOk name
  dsimp only
  split
  · exact ⟨rfl, fun e => by cases e⟩
  · rfl

/-- Checks that a step is calm and tidy. -/
def goodStep (s : St) (i : Nat) (m : Move) : Bool :=
  match s.threads[i]? with
  | none => true
  | some t =>
    (match t.pc, m with
      | .committing _ _, .timeout => false
      | .committing _ _, .fault _ => false
      | _, _ => true) &&
    (match t.calls with
      | [] => true
      | call :: _ =>
        match call.doomed s.dirs with
        | some id =>
          (s.dirs.entries id).all (fun p => !isLong p.1) &&
            match s.table id with
            | some g => s.threads.all (fun u => !u.pc.files.contains (id, g))
            | none => true
        | none =>
          match call with
          | .rename d n d' n' => (d == d' && n.backing == n'.backing) || (s.dirs.entries d').lookup n'.backing != (s.dirs.entries d).lookup n.backing
          | _ => true)

/-- Checks that all steps of a run are calm and tidy. -/
def goodRun : St → List (Nat × Move) → Bool
  | _, [] => true
  | s, (i, m) :: rest =>
    goodStep s i m &&
      match s.step isLong i m with
      | some s' => goodRun s' rest
      | none => true

theorem lookup_all {l : List (Bytes × LNode)} {p : Bytes → Bool} (h : l.all (fun q => p q.1) = true) {n : Bytes} {x : LNode} (hx : l.lookup n = some x) :
    p n = true := by
  induction l with
  | nil => cases hx
  | cons q l ih =>
    obtain ⟨k, y⟩ := q
    rw [List.all_cons, Bool.and_eq_true] at h
    rw [lookup_consKey] at hx
    by_cases e : n = k
    · rw [e]; exact h.1
    · rw [if_neg e] at hx; exact ih h.2 hx

theorem goodStep_sound {s : St} {i : Nat} {m : Move} (h : goodStep s i m = true) : Calm s i m ∧ Tidy isLong s i := by
  unfold goodStep at h
  refine ⟨fun t ht => ?_, fun t ht => ?_⟩
  · rw [ht] at h
    dsimp only at h
    rw [Bool.and_eq_true] at h
    refine ⟨?_, ?_⟩
    · intro fs held hp
      have h1 := h.1
      rw [hp] at h1
      cases m with
      | go => rfl
      | timeout => cases h1
      | fault e => cases h1
    · intro fs held cl cs id g hp hc hd hg u hu hmem
      have h2 := h.2
      rw [hc] at h2
      dsimp only at h2
      rw [hd] at h2
      dsimp only at h2
      rw [hg, Bool.and_eq_true] at h2
      have := List.all_eq_true.mp h2.2 u hu
      rw [Bool.not_eq_true', Bool.eq_false_iff] at this
      exact this (List.contains_iff_mem.mpr hmem)
  · rw [ht] at h
    dsimp only at h
    rw [Bool.and_eq_true] at h
    have h2 := h.2
    refine ⟨?_, ?_⟩
    · intro fs held cl cs id hp hc hd n node hl
      rw [hc] at h2
      dsimp only at h2
      rw [hd, Bool.and_eq_true] at h2
      have := lookup_all (p := fun n => !isLong n) h2.1 hl
      rwa [Bool.not_eq_true'] at this
    · intro fs held d n d' n' cs hp hc hl hne hx
      rw [hc] at h2
      have hd : (Call.rename d n d' n').doomed s.dirs = none := rfl
      dsimp only at h2
      rw [hd] at h2
      dsimp only at h2
      rw [Bool.or_eq_true, Bool.and_eq_true, beq_iff_eq, beq_iff_eq, bne_iff_ne] at h2
      rcases h2 with h2 | h2
      · exact absurd (Prod.ext h2.1 h2.2) hne
      · exact h2

theorem goodRun_sound (run : List (Nat × Move)) : ∀ s : St, goodRun s run = true → Along isLong (fun s i m => Calm s i m ∧ Tidy isLong s i) s run := by
  induction run with
  | nil => intro s _; trivial
  | cons im run ih =>
    obtain ⟨i, m⟩ := im
    intro s h
    unfold goodRun at h
    rw [Bool.and_eq_true] at h
    refine ⟨goodStep_sound h.1, fun s' hs => ih s' ?_⟩
    have h2 := h.2
    rw [hs] at h2
    exact h2

theorem along_calm {run : List (Nat × Move)} : ∀ {s : St}, Along isLong (fun s i m => Calm s i m ∧ Tidy isLong s i) s run → Along isLong Calm s run := by
  induction run with
  | nil => intro s _; trivial
  | cons im run ih =>
    obtain ⟨i, m⟩ := im
    intro s h
    exact ⟨h.1.1, fun s' hs => ih (h.2 s' hs)⟩

/-- One thread creates `a` in directory 0 and moves it to `b` in directory 1, another removes `c` and lists directory 0, a third lists it meanwhile. -/
def busy : List (List Call) :=
  [[.op 0 (name a) (.add (.file 8)), .rename 0 (name a) 1 (name b)], [.op 0 (name c) .unlink, .list 0], [.list 0]]

/-- They get in each other's way: the second thread waits for the first, and the first for the third, which reads. -/
def busyRun : List (Nat × Move) :=
  [0, 1, 2, 0, 2, 0, 2, 0, 2, 2, 0, 0, 1, 1, 1, 1, 0, 1, 0, 0, 0, 0, 1, 1, 1, 1].map (fun i => (i, .go))

/-- What the threads of a state have returned. -/
def logs (s : St) : List (List Outcome) := s.threads.map Th.log

/-- Every call has returned, as a check. -/
def isFinished (s : St) : Bool := s.threads.all (fun t => t.calls.isEmpty)

theorem isFinished_sound {s : St} (h : isFinished s = true) : Finished s := by
  intro t ht
  have := List.all_eq_true.mp h t ht
  exact List.isEmpty_iff.mp this

end LongTabToy

open LongTabToy

/-! ## C93 -/

/-- **C93, partial.** Threads create, remove, move and list entries with long names. As long as no `commit` times out and
    `vrmdir` unlinks no table a call is connected to, what they do is what the same calls do one at a time, in some order in which each call
    lies between its beginning and its end: each step of the run contributes its own events, the table of names and the tree change together in one
    event, and what the calls return is what they return there.  Missing: the two exceptions, in which names are lost (`C93_commit_violated`,
    `C93_rmdir_violated`). -/
theorem C93_history_partial (isLong : Bytes → Bool) (progs : List (List Call)) (s s' : St) (run : List (Nat × Move)) (h0 : Fresh s progs)
    (hc : Along isLong Calm s run) (hr : s.run isLong run = some s') :
    ∃ ess v', List.Forall₂ (fun im es => ∀ e ∈ es, Event.by im.1 e) run ess ∧ (volume s).history ess.flatten = some v' ∧ View s' v' ∧
      ∀ i p t, progs[i]? = some p → s'.threads[i]? = some t → results i ess.flatten = answers p t.log ++ inflight t := by
  obtain ⟨ess, v', h1, h2, h3, _, _, h6⟩ := sim_run run s s' (volume s) [] (fresh_shape h0) (fresh_current h0) (fresh_view h0) (fresh_served h0) hc hr
  exact ⟨ess, v', h1, h2, h3, fun i p t hp ht => (h6.2 i p t hp ht).2⟩

/-- **C93, partial.** When all calls have returned, the tables on disk and the tree are what that history leaves, and every call
    has a result. -/
theorem C93_finished_partial (isLong : Bytes → Bool) (progs : List (List Call)) (s s' : St) (run : List (Nat × Move)) (h0 : Fresh s progs)
    (hc : Along isLong Calm s run) (hr : s.run isLong run = some s') (hf : Finished s') :
    ∃ ess, List.Forall₂ (fun im es => ∀ e ∈ es, Event.by im.1 e) run ess ∧ (volume s).history ess.flatten = some (volume s') ∧
      ∀ i p t, progs[i]? = some p → s'.threads[i]? = some t → results i ess.flatten = answers p t.log ∧ p.length ≤ t.log.length := by
  obtain ⟨ess, v', h1, h2, h3, h4, _, h6⟩ := sim_run run s s' (volume s) [] (fresh_shape h0) (fresh_current h0) (fresh_view h0) (fresh_served h0) hc hr
  rw [finished_volume h3 h4 hf] at h2
  refine ⟨ess, h1, h2, fun i p t hp ht => ?_⟩
  obtain ⟨e1, e2⟩ := h6.2 i p t hp ht
  have hcalls := hf t (List.mem_of_getElem? ht)
  have hi : inflight t = [] := by unfold inflight; rw [hcalls]; cases t.pc <;> rfl
  rw [hi, List.append_nil] at e2
  refine ⟨e2, ?_⟩
  rw [hcalls] at e1
  have := congrArg List.length e1
  rw [List.length_drop, List.length_nil] at this
  omega

set_option maxRecDepth 100000 in
/-- Three threads that wait for each other: they finish, the moved file is there under its new name only, and so is its row. -/
example : Fresh (start busy) busy ∧ Along isLong Calm (start busy) busyRun ∧
    ∃ s', (start busy).run isLong busyRun = some s' ∧ Finished s' ∧
      logs s' = [[.done none, .done none], [.done none, .names [sub]], [.names [sub, c]]] ∧
      (s'.dirs.entries 0, s'.dirs.entries 1) = ([(sub, .dir 1)], [(b, .file 8)]) ∧
      ((volume s').known 0 a, (volume s').known 0 c, (volume s').known 1 b) = (none, none, some (enc b)) := by
  exact ⟨start_fresh _, along_calm (goodRun_sound _ _ (by decide +kernel)), _, rfl, isFinished_sound (by decide +kernel), by decide +kernel, by decide +kernel,
    by decide +kernel⟩

/-- **C93, partial.** If moreover `vrmdir` unlinks no table of a directory with long names and no long name is moved onto another link of the same
    file (both lose names in a single thread already), then in every state on the way the full name of every entry
    with a long name is on disk, in the table that is in its directory now, unless a call on that very entry has made its system call and not
    returned yet. -/
theorem C93_kept_partial (isLong : Bytes → Bool) (enc : Bytes → Bytes) (progs : List (List Call)) (s s' : St) (run : List (Nat × Move)) (h0 : Fresh s progs)
    (h1 : (volume s).Covered isLong enc) (h2 : (volume s).Right enc) (h3 : ∀ p ∈ progs, ∀ c ∈ p, CallOk isLong enc c)
    (hc : Along isLong (fun s i m => Calm s i m ∧ Tidy isLong s i) s run) (hr : s.run isLong run = some s') (d : Nat) (n : Bytes) (node : LNode)
    (hn : (s'.dirs.entries d).lookup n = some node) (hl : isLong n = true) (ht : ∀ t ∈ s'.threads, ∀ p ∈ inflight t, ¬ Call.touches d n p.1) :
    ∃ g, s'.table d = some g ∧ (s'.rows (d, g)).lookup n = some (enc n) := by
  obtain ⟨v', v1, v2, _, v4, _⟩ := history_view run s s' (volume s) (fresh_shape h0) (fresh_current h0) (fresh_view h0) h1 h2 (by
    intro t ht c hc
    rw [h0.1] at ht
    obtain ⟨p, hp, rfl⟩ := List.mem_map.mp ht
    exact h3 p hp c hc) hc hr
  refine known_committed v1 v4 (v2 d n node ?_ hl) ht
  rw [v1.dirs]
  exact hn

/-- **C93, partial.** Under the same conditions a listing that is looking such an entry up in the table of its directory shows it. -/
theorem C93_listed_partial (isLong : Bytes → Bool) (enc : Bytes → Bytes) (progs : List (List Call)) (s s' : St) (run : List (Nat × Move)) (h0 : Fresh s progs)
    (h1 : (volume s).Covered isLong enc) (h2 : (volume s).Right enc) (h3 : ∀ p ∈ progs, ∀ c ∈ p, CallOk isLong enc c)
    (hc : Along isLong (fun s i m => Calm s i m ∧ Tidy isLong s i) s run) (hr : s.run isLong run = some s') (d : Nat) (n : Bytes) (node : LNode)
    (hn : (s'.dirs.entries d).lookup n = some node) (hl : isLong n = true) (ht : ∀ t ∈ s'.threads, ∀ p ∈ inflight t, ¬ Call.touches d n p.1)
    (i g : Nat) (t : Th) (left out : List Bytes) (hi : s'.threads[i]? = some t) (hcl : t.calls ≠ []) (hp : t.pc = .reading left (d, g) n out)
    (hg : s'.table d = some g) (m : Move) (s2 : St) (hs : s'.step isLong i m = some s2) :
    ∃ t', s2.threads[i]? = some t' ∧ t'.pc = .listing left (some (d, g)) (out ++ [n]) := by
  obtain ⟨g', e1, e2⟩ := C93_kept_partial isLong enc progs s s' run h0 h1 h2 h3 hc hr d n node hn hl ht
  rw [hg] at e1
  cases e1
  unfold St.step at hs
  rw [hi] at hs
  dsimp only at hs
  cases hcalls : t.calls with
  | nil => exact absurd hcalls hcl
  | cons c cs =>
    rw [hcalls, hp] at hs
    dsimp only at hs
    cases m with
    | timeout => cases hs
    | fault e => cases hs
    | go =>
      rw [e2] at hs
      have := Option.some.inj hs
      subst this
      refine ⟨{ t with pc := .listing left (some (d, g)) (out ++ [n]) }, ?_, rfl⟩
      show (s'.threads.set i _)[i]? = _
      rw [List.getElem?_set_self', hi]
      rfl

theorem busy_ok : ∀ p ∈ busy, ∀ c ∈ p, CallOk isLong enc c := by
  intro p hp c hc
  simp only [busy, List.mem_cons, List.not_mem_nil, or_false] at hp
  rcases hp with rfl | rfl | rfl <;> simp only [List.mem_cons, List.not_mem_nil, or_false] at hc
  · rcases hc with rfl | rfl
    · exact name_ok _
    · exact ⟨name_ok _, name_ok _⟩
  · rcases hc with rfl | rfl
    · exact name_ok _
    · trivial
  · subst hc; trivial

set_option maxRecDepth 100000 in
/-- After eight steps the third thread is looking `c` up while the first is committing and the second waits to remove it: the hypotheses hold, so `c` is
    on disk and will be shown. -/
example : ∃ s', (start busy).run isLong (busyRun.take 8) = some s' ∧ Along isLong (fun s i m => Calm s i m ∧ Tidy isLong s i) (start busy) (busyRun.take 8) ∧
    (volume (start busy)).Covered isLong enc ∧ (volume (start busy)).Right enc ∧ (∀ p ∈ busy, ∀ x ∈ p, CallOk isLong enc x) ∧
    (s'.dirs.entries 0).lookup c = some (.file 7) ∧ isLong c = true ∧ (∀ t ∈ s'.threads, ∀ p ∈ inflight t, ¬ Call.touches 0 c p.1) ∧
    s'.table 0 = some 0 ∧ ∃ t, s'.threads[2]? = some t ∧ t.calls ≠ [] ∧ t.pc = .reading [] (0, 0) c [sub] := by
  refine ⟨_, rfl, goodRun_sound _ _ (by decide +kernel), start_covered _, start_right _, busy_ok, rfl, rfl, ?_, rfl, ?_⟩
  · intro t ht p hp
    rcases List.mem_cons.mp ht with rfl | ht
    · have : p = (.op 0 (name a) (.add (.file 8)), none) := List.mem_singleton.mp hp
      subst this
      intro h
      exact absurd h.2 (by decide)
    · rcases List.mem_cons.mp ht with rfl | ht
      · cases hp
      · have := List.mem_singleton.mp ht
        subst this
        cases hp
  · exact ⟨_, rfl, List.cons_ne_nil _ _, rfl⟩

/-- One thread creates `a`, another lists. -/
def stalledProgs : List (List Call) := [[.op 0 (name a) (.add (.file 8))], [.list 0]]

set_option maxRecDepth 100000 in
/-- **C93 violated.** `LongNameLookupTable::finish` ignores that `commit` fails: a listing that is stalled for two seconds while it looks a name up
    makes the `commit` of a creation fail with `SQLITE_BUSY`; the creation succeeds, the entry is there, and its name is lost. -/
theorem C93_commit_violated : ∃ (s : St) (run : List (Nat × Move)) (s' : St), Fresh s stalledProgs ∧ (volume s).Covered isLong enc ∧
    (∀ p ∈ stalledProgs, ∀ c ∈ p, CallOk isLong enc c) ∧ s.run isLong run = some s' ∧ Finished s' ∧ logs s' = [[.done none], [.names [sub, c]]] ∧
    (s'.dirs.entries 0).lookup a = some (.file 8) ∧ isLong a = true ∧ (volume s').known 0 a = none := by
  refine ⟨start stalledProgs, [(0, .go), (0, .go), (1, .go), (1, .go), (1, .go), (0, .go), (0, .go), (0, .timeout), (1, .go), (1, .go)], _, start_fresh _, start_covered _, ?_, rfl,
    isFinished_sound (by decide +kernel), by decide +kernel, by decide +kernel, rfl, by decide +kernel⟩
  intro p hp c hc
  simp only [stalledProgs, List.mem_cons, List.not_mem_nil, or_false] at hp
  rcases hp with rfl | rfl
  · rw [List.mem_singleton.mp hc]; exact name_ok _
  · rw [List.mem_singleton.mp hc]; trivial

/-- One thread creates `a` in directory 1, another tries to remove that directory. -/
def removedProgs : List (List Call) := [[.op 1 (name a) (.add (.file 8))], [.op 0 (name sub) .rmdir]]

set_option maxRecDepth 100000 in
/-- **C93 violated.** `vrmdir` unlinks the table of the directory before it knows whether the directory can be removed: another thread creates an entry with
    a long name there in between, with the unlinked table; `vrmdir` fails with `ENOTEMPTY`, the creation succeeds, and its name is
    lost, without any timeout. -/
theorem C93_rmdir_violated : ∃ (s : St) (run : List (Nat × Move)) (s' : St), Fresh s removedProgs ∧ (volume s).Covered isLong enc ∧
    (∀ p ∈ removedProgs, ∀ c ∈ p, CallOk isLong enc c) ∧ (∀ im ∈ run, im.2 = .go) ∧ s.run isLong run = some s' ∧ Finished s' ∧
    logs s' = [[.done none], [.done (some 39)]] ∧
    (s'.dirs.entries 1).lookup a = some (.file 8) ∧ isLong a = true ∧ (volume s').known 1 a = none := by
  refine ⟨start removedProgs, [0, 1, 1, 0, 0, 1, 0, 0, 1].map (fun i => (i, .go)), _, start_fresh _, start_covered _, ?_, ?_, rfl,
    isFinished_sound (by decide +kernel), by decide +kernel, by decide +kernel, rfl, by decide +kernel⟩
  · intro p hp c hc
    simp only [removedProgs, List.mem_cons, List.not_mem_nil, or_false] at hp
    rcases hp with rfl | rfl
    · rw [List.mem_singleton.mp hc]; exact name_ok _
    · rw [List.mem_singleton.mp hc]; exact name_ok _
  · intro im him
    obtain ⟨i, _, rfl⟩ := List.mem_map.mp him
    rfl

/-! ## C94 -/

/-- **C94, partial.** If every move of a long name to a long name in another directory goes up in some order of the directories, then
    whatever threads have done so far, all calls can be finished without any of them waiting for a lock until its timeout: there is no deadlock.
    Missing: moves in opposite directions, which can wait for each other (`C94_deadlock_violated`). -/
theorem C94_completes_partial (isLong : Bytes → Bool) (rank : Nat → Nat) (progs : List (List Call)) (s s' : St) (run : List (Nat × Move)) (h0 : Fresh s progs)
    (hc : ∀ p ∈ progs, ∀ c ∈ p, Ascending rank c) (hr : s.run isLong run = some s') :
    ∃ run' s2, (∀ im ∈ run', im.2 = Move.go) ∧ s'.run isLong run' = some s2 ∧ Finished s2 := by
  obtain ⟨r1, r2, r3⟩ := reach (rank := rank) run s s' (fresh_shape h0) (fun t ht f hf => by rw [fresh_idle h0 t ht] at hf; cases hf) (by
    intro t ht c hcc
    rw [h0.1] at ht
    obtain ⟨p, hp, rfl⟩ := List.mem_map.mp ht
    exact hc p hp c hcc) hr
  exact completes s' r1 r2 r3

/-- **C94, partial.** As long as calls are left, some thread can go on. -/
theorem C94_progress_partial (isLong : Bytes → Bool) (rank : Nat → Nat) (progs : List (List Call)) (s s' : St) (run : List (Nat × Move)) (h0 : Fresh s progs)
    (hc : ∀ p ∈ progs, ∀ c ∈ p, Ascending rank c) (hr : s.run isLong run = some s') (hf : ¬ Finished s') :
    ∃ i s2, s'.step isLong i .go = some s2 := by
  obtain ⟨run', s2, h1, h2, h3⟩ := C94_completes_partial isLong rank progs s s' run h0 hc hr
  cases run' with
  | nil => cases h2; exact absurd h3 hf
  | cons im run' =>
    obtain ⟨i, m⟩ := im
    have hm : m = .go := h1 (i, m) List.mem_cons_self
    subst hm
    unfold St.run at h2
    cases hs : s'.step isLong i .go with
    | none => rw [hs] at h2; cases h2
    | some s3 => exact ⟨i, s3, hs⟩

set_option maxRecDepth 100000 in
/-- Two threads that move long names from directory 0 to directory 1, and one that removes a name there: the hypotheses hold, and after five steps two of the three are waiting. -/
example : let progs : List (List Call) := [[.rename 0 (name c) 1 (name c)], [.rename 0 (name a) 1 (name a)], [.op 0 (name b) .unlink]]
    (∀ p ∈ progs, ∀ x ∈ p, Ascending (fun d => d) x) ∧ ∃ s', (start progs).run isLong ([0, 1, 2, 0, 0].map (fun i => (i, .go))) = some s' ∧ ¬ Finished s' ∧
      (s'.step isLong 1 .go).isNone = true ∧ (s'.step isLong 2 .go).isNone = true := by
  intro progs
  refine ⟨?_, _, rfl, ?_, by decide +kernel, by decide +kernel⟩
  · intro p hp x hx
    simp only [progs, List.mem_cons, List.not_mem_nil, or_false] at hp
    rcases hp with rfl | rfl | rfl <;> rw [List.mem_singleton.mp hx]
    · exact fun _ _ _ => Nat.zero_lt_one
    · exact fun _ _ _ => Nat.zero_lt_one
    · trivial
  · intro h
    exact absurd (h _ List.mem_cons_self) (fun e => by cases e)

/-- One thread moves `c` from directory 0 to directory 1, the other a long name that is not there back. -/
def crossProgs : List (List Call) := [[.rename 0 (name c) 1 (name c)], [.rename 1 (name a) 0 (name a)]]

set_option maxRecDepth 100000 in
/-- **C94 violated.** Two moves of long names in opposite directions between two directories deadlock: each holds the `RESERVED` lock of
    the one table and waits for the other's.  Nobody can go on, and the only move left is the timeout of one of them, which fails although
    it alone would have succeeded. -/
theorem C94_deadlock_violated : ∃ (s : St) (run : List (Nat × Move)) (s' : St), Fresh s crossProgs ∧ s.run isLong run = some s' ∧ ¬ Finished s' ∧
    (∀ i, s'.step isLong i .go = none) ∧ (∃ s2, s'.step isLong 0 .timeout = some s2 ∧ logs s2 = [[.sqlite], []]) ∧
    ∃ run1 s1, s.run isLong run1 = some s1 ∧ logs s1 = [[.done none], []] := by
  refine ⟨start crossProgs, [0, 1, 0, 1].map (fun i => (i, .go)), _, start_fresh _, rfl, ?_, ?_, ⟨_, rfl, by decide +kernel⟩,
    [0, 0, 0, 0, 0, 0].map (fun i => (i, .go)), _, rfl, by decide +kernel⟩
  · intro h
    exact absurd (h _ List.mem_cons_self) (fun e => by cases e)
  · intro i
    match i with
    | 0 => exact Option.isNone_iff_eq_none.mp (by decide +kernel)
    | 1 => exact Option.isNone_iff_eq_none.mp (by decide +kernel)
    | _ + 2 => rfl

/-- Two threads create entries with long names in the same directory. -/
def twoProgs : List (List Call) := [[.op 0 (name a) (.add (.file 8))], [.op 0 (name b) (.add (.file 9))]]

set_option maxRecDepth 100000 in
/-- **C94 violated.** The constructor of `LongNameLookupTable` uses the table before it sets the timeout: a call that begins while another
    commits fails at once, without waiting and without any timeout, where a moment later it succeeds. -/
theorem C94_busy_violated : ∃ (s : St) (run run1 : List (Nat × Move)) (s' s1 : St), Fresh s twoProgs ∧ (∀ im ∈ run, im.2 = .go) ∧
    s.run isLong run = some s' ∧ logs s' = [[.done none], [.sqlite]] ∧ s.run isLong run1 = some s1 ∧ logs s1 = [[.done none], [.done none]] := by
  refine ⟨start twoProgs, [0, 0, 0, 0, 1, 0].map (fun i => (i, .go)), [0, 0, 0, 0, 0, 1, 1, 1, 1, 1].map (fun i => (i, .go)), _, _, start_fresh _, ?_,
    rfl, by decide +kernel, rfl, by decide +kernel⟩
  intro im him
  obtain ⟨i, _, rfl⟩ := List.mem_map.mp him
  rfl

end Securefs.Props
