import Verif.Props.Faults
import Verif.Proofs.LiteThreadsBase
import Verif.Proofs.LiteThreadsLive
/-!
# Property C87: threads that use one file at once get the answers of some order

Any number of threads open a file of the lite format and call functions on its handles, and are interrupted between any two system calls.
The specification is `Verif/Spec/AtomicFile.lean`: each call takes effect at one moment between its beginning and its return.
-/

namespace Securefs.Props

deriving instance DecidableEq for Spec.FileCall
deriving instance DecidableEq for Spec.Task
deriving instance DecidableEq for Spec.Event

/-- Thread `t` makes `n` steps. -/
def gos (t n : Nat) : List (Nat × Choice) := List.replicate n (t, .go)

/-- **C87.**  Take a new file, or one with any content, on which no system call fails but perhaps `flock`, and any threads that open and use it, also
    at its creation, with calls within the limit of the format.  If locking is enabled, or if the file is opened only once, then all that the threads
    see is explained by calls that take effect at one moment each on a plain byte array. -/
theorem C87_linear (E : ThreadEnv) (hC : E.C.WF) (hf : E.faults = false) (st : LiteSt) (c : Bytes)
    (hst : st.file = [] ∧ c = [] ∨ ∃ o, LiteReached E.C o st c) (sched : List (Nat × Choice)) (s' : Threads) (evs : List Spec.Event)
    (h : E.exec (.fresh st) sched = some (s', evs)) (hx : E.flock = true ∨ s'.next ≤ 1)
    (hw : ∀ t call, .invoke t (.call call) ∈ evs → call.op.extent ≤ liteMaxBlocks * E.C.bs) :
    ∃ S', Spec.Shared.Run Spec.plainAct ⟨c, fun _ => .none⟩ evs S' := by
  have hB : PlainBase E.C st none c := by
    rcases hst with ⟨h1, h2⟩ | ⟨o, hr⟩
    · exact .inl ⟨h1, h2, rfl⟩
    · exact .inr ⟨o, .inl rfl, (hr.repr hC).1⟩
  have H : ThreadSim E (withinLite E.C) (PlainBase E.C) (.fresh st) ⟨c, fun _ => .none⟩ :=
    ⟨LockInv.fresh E st, fun _ => rfl, none, fun _ _ h => (by cases h), .inl ⟨fun _ _ _ _ h => (by cases h), hB⟩⟩
  obtain ⟨S', h1, _⟩ := H.exec (plain_repr hC hf) h hx (fun t task ht => by
    cases task with
    | «open» => trivial
    | call call => exact hw t call ht)
  exact ⟨S', h1⟩

/-- Two threads create a file at once, and write and read through two handles.  Thread 1 begins before thread 0 has returned, and waits; thread 0 reads what
    both have written. -/
def Toy.sched : List (Nat × Choice) :=
  [(0, .invokeOpen), (1, .invokeOpen)] ++ gos 0 2 ++ gos 0 6 ++ gos 1 6 ++
    [(0, .invoke 0 (.write 0 [5, 6])), (1, .invoke 1 (.write 0 [1]))] ++ gos 0 3 ++ gos 1 1 ++ gos 0 7 ++ gos 1 9 ++
    [(0, .invoke 1 (.read 0 9))] ++ gos 0 7

set_option maxRecDepth 100000 in
example : (Toy.lite false 0).WF ∧
    ((ThreadEnv.mk (Toy.lite false 0) true false).exec (.fresh ⟨[], 0⟩) Toy.sched).map (fun q => q.2) =
      some [.invoke 0 .open, .invoke 1 .open, .ret 0 (.ok .done), .ret 1 (.ok .done), .invoke 0 (.call (.write 0 [5, 6])),
        .invoke 1 (.call (.write 0 [1])), .ret 0 (.ok .done), .ret 1 (.ok .done), .invoke 0 (.call (.read 0 9)), .ret 0 (.ok (.bytes [1, 6]))] :=
  ⟨Toy.lite_wf false 0, by decide +kernel⟩

/-- **C87 (failures).**  Take a file with any content, any threads that open and use it, and any failures of system calls.  If locking is enabled, or if
    the file is opened only once, then all that the threads see is explained by calls that take effect at one moment each on a file of which a failing
    call may spoil the blocks that it covers (see C86).  A call fails only if one of its own system calls has, or if it is beyond the limit of the format,
    or if it needs a spoilt block. -/
theorem C87_faults (E : ThreadEnv) (hC : E.C.WF) (st : LiteSt) (c : Bytes) (o : LiteObj) (hst : LiteReached E.C o st c)
    (sched : List (Nat × Choice)) (s' : Threads) (evs : List Spec.Event) (h : E.exec (.fresh st) sched = some (s', evs))
    (hx : E.flock = true ∨ s'.next ≤ 1) :
    ∃ S', Spec.Shared.Run (Spec.frailAct E.C.bs (liteMaxBlocks * E.C.bs)) ⟨⟨c, fun _ => True⟩, fun _ => .none⟩ evs S' := by
  obtain ⟨⟨hR, hpad⟩, _⟩ := hst.repr hC
  have hB : FrailBase E.C st none ⟨c, fun _ => True⟩ := ⟨o, .inl rfl, LiteCfg.rel_init hC hR, hR.idLen, hpad⟩
  have H : ThreadSim E (fun _ => True) (FrailBase E.C) (.fresh st) ⟨⟨c, fun _ => True⟩, fun _ => .none⟩ :=
    ⟨LockInv.fresh E st, fun _ => rfl, none, fun _ _ h => (by cases h), .inl ⟨fun _ _ _ _ h => (by cases h), hB⟩⟩
  obtain ⟨S', h1, _⟩ := H.exec (frail_repr hC) h hx (fun _ _ _ => trivial)
  exact ⟨S', h1⟩

/-- A thread whose write stops halfway, while another one waits for the file.  The second one needs the block, and fails; a third call replaces it. -/
def Toy.schedFault : List (Nat × Choice) :=
  [(0, .invokeOpen)] ++ gos 0 6 ++ [(1, .invoke 0 (.write 40 [1])), (2, .invoke 0 (.read 33 1))] ++ gos 1 5 ++
    [(1, .fail ⟨28, 5⟩)] ++ gos 1 3 ++ gos 2 7 ++ [(0, .invoke 0 (.write 32 (List.replicate 32 9)))] ++ gos 0 9 ++ [(1, .invoke 0 (.read 32 1))] ++ gos 1 7

set_option maxRecDepth 100000 in
example : (Toy.lite false 0).WF ∧ (∃ o, LiteReached (Toy.lite false 0) o Toy.torn0 (List.replicate 70 7)) ∧
    ((ThreadEnv.mk (Toy.lite false 0) true true).exec (.fresh Toy.torn0) Toy.schedFault).map (fun q => q.2) =
      some [.invoke 0 .open, .ret 0 (.ok .done), .invoke 1 (.call (.write 40 [1])), .invoke 2 (.call (.read 33 1)), .hit 1, .ret 1 (.error (.vfs 28)),
        .ret 2 (.error .verify), .invoke 0 (.call (.write 32 (List.replicate 32 9))), .ret 0 (.ok .done), .invoke 1 (.call (.read 32 1)),
        .ret 1 (.ok (.bytes [9]))] := by
  have hl : ∀ op ∈ [Spec.Op.write 0 (List.replicate 70 7)], op.extent ≤ liteMaxBlocks * (Toy.lite false 0).bs := by
    simp [Spec.Op.extent, Toy.lite, liteMaxBlocks]
  refine ⟨Toy.lite_wf false 0, ⟨⟨List.replicate 16 1, []⟩, 0, ⟨⟨List.replicate 16 1, []⟩, ⟨List.replicate 16 1, 1⟩⟩, _, [.done], hl, ?_, ?_, ?_⟩, ?_⟩ <;>
    decide +kernel

/-- **C87 (progress).**  However threads have opened and used a file, with or without locking and failures: every thread that is in a call can
    return from it by steps of threads that are in calls, without failures or new calls.  So there is no deadlock, and an exception leaves no lock behind. -/
theorem C87_returns (E : ThreadEnv) (st : LiteSt) (sched : List (Nat × Choice)) (s' : Threads) (evs : List Spec.Event)
    (h : E.exec (.fresh st) sched = some (s', evs)) (t : Nat) (ht : s'.phase t ≠ .idle) :
    ∃ (l : List Nat) (s'' : Threads) (evs' : List Spec.Event) (r : Except Err Spec.Out),
      E.exec s' (l.map fun t => (t, .go)) = some (s'', evs') ∧ .ret t r ∈ evs' :=
  ThreadEnv.returns ((LockInv.fresh E st).exec h) ht

set_option maxRecDepth 100000 in
/-- The threads of `Toy.sched` when one is in the middle of a write and the other waits. -/
example : ((ThreadEnv.mk (Toy.lite false 0) true false).exec (.fresh ⟨[], 0⟩) (Toy.sched.take 22)).map (fun q => (q.1.flock, q.1.mutex 0, q.1.mutex 1)) =
      some (some 0, some 0, some 1) ∧
    (ThreadEnv.mk (Toy.lite false 0) true false).exec (.fresh ⟨[], 0⟩) (Toy.sched.take 22 ++ [(1, .go)]) = none := by
  refine ⟨?_, ?_⟩
  · decide +kernel
  · rfl

/-- Without bad luck, calls on the byte array succeed. -/
theorem plain_all_ok {S S' : Spec.Shared Bytes} {evs : List Spec.Event} (h : Spec.Shared.Run Spec.plainAct S evs S') :
    (∀ t, (∀ task, S.pending t ≠ .waiting task true) ∧ ∀ e, S.pending t ≠ .acted (.error e)) → (∀ t, .hit t ∉ evs) → ∀ t e, .ret t (.error e) ∉ evs := by
  induction h with
  | nil => intro _ _ t e h; cases h
  | @cons S S1 S' ev evs hs _ ih =>
    intro h0 hn t e he
    have hn1 : ∀ t, .hit t ∉ evs := fun t h => hn t (List.mem_append_right _ h)
    have upd : ∀ {q : Spec.InCall} {f : Bytes} {t0 : Nat}, (∀ task, q ≠ .waiting task true) → (∀ e, q ≠ .acted (.error e)) →
        ∀ t, (∀ task, (⟨f, Function.update S.pending t0 q⟩ : Spec.Shared Bytes).pending t ≠ .waiting task true) ∧
          ∀ e, (⟨f, Function.update S.pending t0 q⟩ : Spec.Shared Bytes).pending t ≠ .acted (.error e) := by
      intro q f t0 h1 h2 t
      by_cases ht : t = t0
      · subst ht; simp only [Function.update_self]; exact ⟨h1, h2⟩
      · simp only [Function.update_of_ne ht]; exact h0 t
    cases hs with
    | invoke h =>
      simp only [Option.toList, List.cons_append, List.nil_append, List.mem_cons, reduceCtorEq, false_or] at he
      exact ih (upd (by simp) (by simp)) hn1 t e he
    | @hit t0 task b h => exact hn t0 (by simp)
    | @act t0 task b r f' h ha =>
      have hb : b = false := by
        cases b with
        | false => rfl
        | true => exact absurd h ((h0 t0).1 task)
      have hr : ∀ e, r ≠ .error e := by
        intro e hr
        rcases ha with ⟨ha, _⟩ | ha
        · rw [hb] at ha; cases ha
        · cases task with
          | «open» => rw [ha.1] at hr; cases hr
          | call c => rw [ha.1] at hr; cases hr
      exact ih (upd (by simp) (by simpa using hr)) hn1 t e he
    | @ret t0 r h =>
      simp only [Option.toList, List.cons_append, List.nil_append, List.mem_cons, Spec.Event.ret.injEq] at he
      rcases he with ⟨rfl, rfl⟩ | he
      · exact (h0 t).2 e h
      · exact ih (upd (by simp) (by simp)) hn1 t e he

/-- Two handles.  Thread 0 reads a block to change a part of it; meanwhile thread 1 makes the block longer.  Then a read. -/
def Toy.schedTorn : List (Nat × Choice) :=
  [(0, .invokeOpen)] ++ gos 0 8 ++ [(1, .invokeOpen)] ++ gos 1 6 ++
    [(0, .invoke 0 (.write 0 [1])), (1, .invoke 1 (.write 0 [5, 6]))] ++ gos 0 4 ++ gos 1 10 ++ gos 0 6 ++
    [(0, .invoke 0 (.read 0 9))] ++ gos 0 7

set_option maxRecDepth 100000 in
/-- The condition of `C87_linear` is needed: with `--noflock` and two handles, two successful writes of a few bytes at once make the block unreadable for
    ever, without any failure of the system. -/
theorem C87_noflock_violated : ∃ (E : ThreadEnv) (sched : List (Nat × Choice)) (s' : Threads) (evs : List Spec.Event),
    E.C.WF ∧ E.faults = false ∧ E.flock = false ∧ E.exec (.fresh ⟨[], 0⟩) sched = some (s', evs) ∧
    (∀ t call, .invoke t (.call call) ∈ evs → call.op.extent ≤ liteMaxBlocks * E.C.bs) ∧
    .ret 0 (.error .verify) ∈ evs ∧ ¬ ∃ S', Spec.Shared.Run Spec.plainAct ⟨[], fun _ => .none⟩ evs S' := by
  have key : ((ThreadEnv.mk (Toy.lite false 0) false false).exec (.fresh ⟨[], 0⟩) Toy.schedTorn).map (fun q => q.2) =
      some [.invoke 0 .open, .ret 0 (.ok .done), .invoke 1 .open, .ret 1 (.ok .done), .invoke 0 (.call (.write 0 [1])),
        .invoke 1 (.call (.write 0 [5, 6])), .ret 1 (.ok .done), .ret 0 (.ok .done), .invoke 0 (.call (.read 0 9)), .ret 0 (.error .verify)] := by
    decide +kernel
  obtain ⟨⟨s', evs⟩, h1, h2⟩ := Option.map_eq_some_iff.1 key
  dsimp only at h2
  refine ⟨_, _, s', evs, Toy.lite_wf false 0, rfl, rfl, h1, ?_, ?_, ?_⟩
  · subst h2
    intro t call ht
    simp only [List.mem_cons, Spec.Event.invoke.injEq, reduceCtorEq, and_false, List.not_mem_nil, or_false, false_or, Spec.Task.call.injEq] at ht
    rcases ht with ⟨_, rfl⟩ | ⟨_, rfl⟩ | ⟨_, rfl⟩ <;> simp [Spec.FileCall.op, Spec.Op.extent, Toy.lite, liteMaxBlocks]
  · subst h2; simp
  · rintro ⟨S', hr⟩
    subst h2
    exact plain_all_ok hr (fun _ => ⟨fun _ h => (by cases h), fun _ h => (by cases h)⟩) (by simp) 0 .verify (by simp)

/-- A stand-in for AES-GCM whose MAC depends on the key. -/
def Toy.gcmOf (k : Bytes) : Gcm where
  enc iv aad pt := (pt, List.replicate 16 (Toy.sum (k ++ iv ++ aad ++ pt)))
  dec iv aad ct mac := (decide (mac = List.replicate 16 (Toy.sum (k ++ iv ++ aad ++ ct))), ct)

/-- A lite configuration in which the key of a file depends on its id. -/
def Toy.liteKeyed : LiteCfg := { Toy.lite false 0 with gcm := Toy.gcmOf }

/-- Two threads create a file at once; both find it empty, and write an id.  Then the first one writes, and the second one reads. -/
def Toy.schedCreate : List (Nat × Choice) :=
  [(0, .invokeOpen), (1, .invokeOpen)] ++ gos 0 2 ++ gos 1 2 ++ gos 0 6 ++ gos 1 6 ++ [(0, .invoke 0 (.write 0 [5]))] ++ gos 0 10 ++
    [(1, .invoke 1 (.read 0 1))] ++ gos 1 7

set_option maxRecDepth 100000 in
/-- With `--noflock` the creation of a file is not safe either: two threads that create it at once have different ids, and what one writes the other cannot
    read; when they have closed the file, only what the second one wrote can be read. -/
theorem C87_noflock_create_violated : ∃ (E : ThreadEnv) (sched : List (Nat × Choice)) (s' : Threads) (evs : List Spec.Event),
    E.C.WF ∧ E.faults = false ∧ E.flock = false ∧ E.exec (.fresh ⟨[], 0⟩) sched = some (s', evs) ∧
    (∃ o1 o2, s'.handle 0 = some o1 ∧ s'.handle 1 = some o2 ∧ o1.id ≠ o2.id) ∧
    .ret 1 (.error .verify) ∈ evs ∧ ¬ ∃ S', Spec.Shared.Run Spec.plainAct ⟨[], fun _ => .none⟩ evs S' := by
  have key : ((ThreadEnv.mk Toy.liteKeyed false false).exec (.fresh ⟨[], 0⟩) Toy.schedCreate).map (fun q => (q.2, (q.1.handle 0).map (·.id), (q.1.handle 1).map (·.id))) =
      some ([.invoke 0 .open, .invoke 1 .open, .ret 0 (.ok .done), .ret 1 (.ok .done), .invoke 0 (.call (.write 0 [5])), .ret 0 (.ok .done),
        .invoke 1 (.call (.read 0 1)), .ret 1 (.error .verify)], some (List.replicate 16 1), some (List.replicate 16 2)) := by
    decide +kernel
  obtain ⟨⟨s', evs⟩, h1, h2⟩ := Option.map_eq_some_iff.1 key
  simp only [Prod.mk.injEq] at h2
  obtain ⟨h2, h3, h4⟩ := h2
  obtain ⟨o1, h5, h6⟩ := Option.map_eq_some_iff.1 h3
  obtain ⟨o2, h7, h8⟩ := Option.map_eq_some_iff.1 h4
  refine ⟨_, _, s', evs, ?_, rfl, rfl, h1, ⟨o1, o2, h5, h7, ?_⟩, ?_, ?_⟩
  · exact ⟨by simp [Toy.liteKeyed, Toy.lite], by simp [Toy.liteKeyed, Toy.lite], by simp [Toy.liteKeyed, Toy.lite],
      fun k => ⟨fun _ _ _ => rfl, fun _ _ _ => by simp [Toy.liteKeyed, Toy.gcmOf], fun _ _ _ _ => rfl, fun _ _ _ => by simp [Toy.liteKeyed, Toy.gcmOf]⟩,
      Toy.rng_fair⟩
  · rw [h6, h8]; decide
  · subst h2; simp
  · rintro ⟨S', hr⟩
    subst h2
    exact plain_all_ok hr (fun _ => ⟨fun _ h => (by cases h), fun _ h => (by cases h)⟩) (by simp) 1 .verify (by simp)

end Securefs.Props
