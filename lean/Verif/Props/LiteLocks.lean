import Verif.Proofs.LiteLocks
/-!
# C113: calls of the lite format do not block each other for ever
-/

namespace Securefs.Props
open Securefs Securefs.Spec.Ll Securefs.Ll

/-- C113 (order): whatever a callback of the lite format meets, as long as its transactions begin, it waits for a lock only while all that it has are before it
    in the order handles of directories, tables, handles of files, backing files, log; it uses what a lock protects and gives the lock back only while it has
    it, and ends with nothing. -/
theorem C113_order (c : LiteCall) (h : Begun c) : Obeys (fun _ => False) c.acts := obeys_call c h

/- A file with a long name is created, and its lock is taken within the transaction, which cannot be committed; then it is truncated. -/
example : Begun (.open (some (7, { ended := false })) (some (3, .got)) 1 true (some .got)) ∧
    (LiteCall.open (some (7, { ended := false })) (some (3, .got)) 1 true (some .got)).acts =
      [.lock (.called 7), .use (.called 7), .lock (.flock 3), .use (.flock 3), .unlock (.flock 3), .lock .log, .use .log, .unlock .log, .unlock (.called 7),
        .lock (.file 1), .lock (.flock 3), .use (.flock 3), .use (.file 1), .unlock (.flock 3), .unlock (.file 1)] := ⟨rfl, by decide⟩

/-- C113 (use): a call on a file uses the handle with the mutex and, if locking is on, with the lock of the backing file; opening reads the header with that
    lock, and so does `getattr`; a listing uses its handle and, for each long name, the table. -/
theorem C113_uses :
    (∀ h ino fl, fl ≠ .refused → .use (.file h) ∈ (LiteCall.onFile h ino fl).acts) ∧
    (∀ h ino, .use (.flock ino) ∈ (LiteCall.onFile h ino .got).acts) ∧
    (∀ ino failed, .use (.flock ino) ∈ (LiteCall.getattr ino .got failed).acts) ∧
    (∀ ino h kept trunc, .use (.flock ino) ∈ (LiteCall.open none (some (ino, .got)) h kept trunc).acts) ∧
    (∀ n t ino h kept trunc, t.begun = true → .use (.flock ino) ∈ (LiteCall.open (some (n, t)) (some (ino, .got)) h kept trunc).acts ∧
      .use (.called n) ∈ (LiteCall.open (some (n, t)) (some (ino, .got)) h kept trunc).acts) ∧
    (∀ ino h fl fl', fl ≠ .refused → fl' ≠ .refused → .use (.file h) ∈ (LiteCall.truncate (some (ino, fl)) h true fl').acts) ∧
    (∀ h met, .use (.dir h) ∈ (LiteCall.readdir h met).acts ∧ ∀ t found, .long t found ∈ met → t.begun = true → .use (.listed h) ∈ (LiteCall.readdir h met).acts) ∧
    (∀ n t, t.begun = true → .use (.called n) ∈ (LiteCall.names n t).acts) := by
  have hf : ∀ h ino fl, fl ≠ .refused → Act.use (.file h) ∈ withFile h ino fl := by
    intro h ino fl hne
    cases fl <;> simp [withFile, withFlock] at hne ⊢
  refine ⟨hf, fun h ino => by simp [LiteCall.acts, withFile, withFlock], fun ino failed => by simp [LiteCall.acts, withFlock],
    fun ino h kept trunc => by simp [LiteCall.acts, openActs, openFile, withFlock],
    fun n t ino h kept trunc ht => by simp [LiteCall.acts, openActs, openFile, withFlock, withTable, ht], ?_, ?_, fun n t ht => by simp [LiteCall.acts, withTable, ht]⟩
  · intro ino h fl fl' h1 h2
    have e : openedIno (some (ino, fl)) true = some ino := by simp [openedIno, h1]
    simp only [LiteCall.acts, openActs, e]
    exact List.mem_append_right _ (hf h ino fl' h2)
  · intro h met
    refine ⟨by simp [LiteCall.acts], fun t found hm ht => ?_⟩
    simp only [LiteCall.acts]
    refine List.mem_append_left _ (List.mem_append_right _ (List.mem_flatMap.2 ⟨_, hm, ?_⟩))
    simp [metActs, withTable, ht]

/-- C113 (no deadlock): whatever calls have begun and in whatever order their threads have gone on, somebody can go on, unless all calls have ended. -/
theorem C113_no_deadlock (evs : List LockSys.Ev) (h : HistoryBegun evs) : ¬ Deadlocked (LockSys.init.run evs) :=
  LockSys.not_stuck (LockSys.good_run LockSys.good_init h)

/-- C113 (ends): from every moment on, the calls that have begun go on no more often than there are things left to do, in whatever order; when nobody can go on
    any more, all have ended; and there is such an order. -/
theorem C113_ends (evs : List LockSys.Ev) (h : HistoryBegun evs) :
    (∀ ts : List Nat, moves (LockSys.init.run evs) ts ≤ left (LockSys.init.run evs) ∧
      ((∀ t, ((LockSys.init.run evs).run (ts.map .step)).step t = none) → AllDone ((LockSys.init.run evs).run (ts.map .step)))) ∧
    ∃ ts : List Nat, AllDone ((LockSys.init.run evs).run (ts.map .step)) := by
  have hg := LockSys.good_run LockSys.good_init h
  refine ⟨fun ts => ⟨?_, fun hn => ?_⟩, LockSys.ends _ hg (Nat.le_refl _)⟩
  · have := LockSys.moves_le ts hg
    omega
  · by_contra hd
    refine LockSys.not_stuck (LockSys.good_run hg (evs := ts.map .step) fun c hc => ?_) ⟨hd, hn⟩
    obtain ⟨t, _, e⟩ := List.mem_map.1 hc
    cases e

/-- C113 (waiting): a call that cannot go on waits for a lock that another call has: never for one of its own, and it never uses or gives back a lock that it
    does not have. -/
theorem C113_waits_for_another (evs : List LockSys.Ev) (h : HistoryBegun evs) (t : Nat) (hw : Waits (LockSys.init.run evs) t) :
    ∃ m u r, (LockSys.init.run evs).owner m = some u ∧ u ≠ t ∧ (LockSys.init.run evs).threads[t]? = some (.lock m :: r) := by
  obtain ⟨⟨x, r, hx⟩, hs⟩ := hw
  obtain ⟨m, u, rfl, ho, hne⟩ := LockSys.waits_other (LockSys.good_run LockSys.good_init h) hx hs
  exact ⟨m, u, r, ho, hne, hx⟩

/- Two handles of one file: the second has its mutex and waits for the lock that the first has taken; a third call waits for the second. -/
private def chain : List LockSys.Ev :=
  [.begin (.onFile 1 3 .got), .begin (.onFile 2 3 .got), .begin (.onFile 2 3 .got), .begin (.readdir 5 [.short, .long {} true, .long { ended := false } false]),
    .step 0, .step 0, .step 1, .step 3]
example : HistoryBegun chain := by
  intro c hc
  simp only [chain, List.mem_cons, List.not_mem_nil, or_false, LockSys.Ev.begin.injEq, reduceCtorEq] at hc
  rcases hc with rfl | rfl | rfl | rfl
  · trivial
  · trivial
  · trivial
  · intro t found hm
    simp only [List.mem_cons, Met.long.injEq, List.not_mem_nil, or_false, reduceCtorEq, false_or] at hm
    rcases hm with ⟨rfl, _⟩ | ⟨rfl, _⟩ <;> rfl
example : Waits (LockSys.init.run chain) 1 ∧ Waits (LockSys.init.run chain) 2 ∧ ¬ Waits (LockSys.init.run chain) 3 :=
  ⟨⟨⟨_, _, rfl⟩, by decide +kernel⟩, ⟨⟨_, _, rfl⟩, by decide +kernel⟩, fun h => absurd h.2 (by decide +kernel)⟩

/-- A listing in which a transaction cannot be ended, so that the next one cannot begin, before one more long name. -/
private def spoilt : LiteCall := .readdir 5 [.long { ended := false } true, .long { begun := false } true, .long {} true]
private def spoiltRun : List LockSys.Ev := .begin spoilt :: List.replicate 13 (.step 0)

/-- C113 fails if `begin` fails in a listing: the mutex of the table stays locked because the guard does not exist yet, the exception is logged and the name
    skipped, and the next long name makes the thread wait for a mutex that it has itself.  Whatever happens afterwards, it waits for ever and keeps the handle,
    so that every other call on the handle waits for ever too. -/
theorem C113_begin_violated :
    ∃ (c : LiteCall) (evs : List LockSys.Ev), ¬ Begun c ∧ evs.head? = some (.begin c) ∧ Deadlocked (LockSys.init.run evs) ∧
      ∀ evs', (LockSys.init.run (evs ++ evs')).owner (.dir 5) = some 0 ∧ Waits (LockSys.init.run (evs ++ evs')) 0 := by
  have h0 : LockSys.SelfBlocked (LockSys.init.run spoiltRun) 0 (.listed 5) (fun x => x = .dir 5 ∨ x = .listed 5) :=
    ⟨by rintro x (rfl | rfl) <;> decide +kernel, .inr rfl, [.use (.listed 5), .unlock (.listed 5), .unlock (.dir 5)], by decide +kernel⟩
  refine ⟨spoilt, spoiltRun, fun h => ?_, rfl, ⟨fun h => ?_, fun t => ?_⟩, fun evs' => ?_⟩
  · exact absurd (h { begun := false } true (by simp)) (by decide)
  · obtain ⟨_, _, r, hr⟩ := h0
    exact absurd (h _ (List.mem_of_getElem? hr)) (by simp)
  · cases t with
    | zero => exact (LockSys.selfBlocked_waits h0).2
    | succ t =>
      have : (LockSys.init.run spoiltRun).threads.length = 1 := by decide +kernel
      unfold LockSys.step
      rw [List.getElem?_eq_none (by omega)]
  · rw [LockSys.run_append]
    have := LockSys.selfBlocked_run evs' h0
    exact ⟨this.1 _ (.inl rfl), LockSys.selfBlocked_waits this⟩

end Securefs.Props
