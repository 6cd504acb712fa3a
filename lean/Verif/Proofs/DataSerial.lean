import Verif.Proofs.DataMoments
/-!
# Calls through handles are as good as one after the other
-/

namespace Securefs.Dm

open Spec Mo

theorem run_append (cfg : FsCfg) : ∀ (a : List FullEvent) (s : FullSys) (b : List FullEvent), s.run cfg (a ++ b) = (s.run cfg a).run cfg b
  | [], _, _ => rfl
  | e :: a, s, b => run_append cfg a (s.step cfg e) b

theorem run_snoc (cfg : FsCfg) (s : FullSys) (a : List FullEvent) (e : FullEvent) : s.run cfg (a ++ [e]) = (s.run cfg a).step cfg e := by
  rw [run_append]; rfl

theorem moments_snoc (cfg : FsCfg) (i : Nat) (e : FullEvent) : ∀ (a : List FullEvent) (s : FullSys),
    moments cfg i s (a ++ [e]) = moments cfg i s a ++ momentOf cfg i (s.run cfg a) e
  | [], s => by show momentOf cfg i s e ++ [] = [] ++ _; rw [List.append_nil]; rfl
  | x :: a, s => by
    show momentOf cfg i s x ++ moments cfg i (s.step cfg x) (a ++ [e]) = (momentOf cfg i s x ++ moments cfg i (s.step cfg x) a) ++ _
    rw [moments_snoc cfg i e a, List.append_assoc]
    rfl

theorem started_append : ∀ (a b : List FullEvent), started (a ++ b) = started a ++ started b
  | [], _ => rfl
  | e :: a, b => by
    cases e with
    | start op =>
      show op :: started (a ++ b) = op :: (started a ++ started b)
      rw [started_append a b]
    | _ => exact started_append a b

/-- An event that is not one of thread `i` leaves it alone. -/
theorem step_other {cfg : FsCfg} {s : FullSys} {i : Nat} {p : Prog Int} (hp : s.threads[i]? = some p) (ev : FullEvent) (h1 : ev ≠ .step i)
    (h2 : ∀ e, ev ≠ .fail i e) : (s.step cfg ev).threads[i]? = some p ∧ momentOf cfg i s ev = [] := by
  have hlt : i < s.threads.length := by
    by_contra hc
    rw [List.getElem?_eq_none (Nat.le_of_not_lt hc)] at hp
    cases hp
  cases ev with
  | start op =>
    refine ⟨?_, rfl⟩
    show (s.threads ++ [op.prog cfg])[i]? = _
    rw [List.getElem?_append_left hlt]
    exact hp
  | tick now => exact ⟨hp, rfl⟩
  | evict id =>
    refine ⟨?_, rfl⟩
    unfold FullSys.step
    dsimp only
    split <;> exact hp
  | reap id =>
    refine ⟨?_, rfl⟩
    unfold FullSys.step
    dsimp only
    split
    · exact hp
    · split <;> exact hp
  | fail j e =>
    refine ⟨?_, rfl⟩
    have hj : j ≠ i := fun h => h2 e (by rw [h])
    unfold FullSys.step
    dsimp only
    split
    · rw [List.getElem?_set_ne hj]; exact hp
    · exact hp
  | step j =>
    have hj : j ≠ i := fun h => h1 (by rw [h])
    refine ⟨?_, ?_⟩
    · unfold FullSys.step FullSys.stepThread
      dsimp only
      split
      · split
        · show (s.threads.set j _)[i]? = _
          rw [List.getElem?_set_ne hj]; exact hp
        · show (s.threads.set j _)[i]? = _
          rw [List.getElem?_set_ne hj]; exact hp
      · exact hp
    · show (if j = i then _ else []) = []
      rw [if_neg hj]

/-- A thread that has ended stays as it is. -/
theorem step_ended {cfg : FsCfg} {s : FullSys} {i : Nat} {p : Prog Int} (hp : s.threads[i]? = some p) (hend : ∀ β f k, p ≠ .sec (β := β) f k) (ev : FullEvent) :
    (s.step cfg ev).threads[i]? = some p ∧ momentOf cfg i s ev = [] := by
  by_cases h1 : ev = .step i
  · subst h1
    show (s.stepThread i).threads[i]? = some p ∧ (if i = i then _ else []) = []
    rw [if_pos rfl]
    unfold FullSys.stepThread
    rw [hp]
    cases p with
    | ret a => exact ⟨hp, rfl⟩
    | throw e => exact ⟨hp, rfl⟩
    | sec f k => exact absurd rfl (hend _ f k)
  · by_cases h2 : ∃ e, ev = .fail i e
    · obtain ⟨e, rfl⟩ := h2
      refine ⟨?_, rfl⟩
      unfold FullSys.step
      dsimp only
      rw [hp]
      cases p with
      | ret a => exact hp
      | throw e => exact hp
      | sec f k => exact absurd rfl (hend _ f k)
    · exact step_other hp ev h1 fun e he => h2 ⟨e, he⟩

theorem returned_stays {cfg : FsCfg} {i : Nat} : ∀ (evs : List FullEvent) {s : FullSys}, Returned s i → Returned (s.run cfg evs) i
  | [], _, h => h
  | e :: evs, s, ⟨v, h⟩ => returned_stays evs (s := s.step cfg e) ⟨v, (step_ended h (fun _ _ _ h => nomatch h) e).1⟩

/-- The contents of the file are kept at all moments that are still to come. -/
def Keeps (id : Bytes) (m : Moment) : Prop := ∀ b, contents m.1 id = some b → contents m.2 id = some b

theorem keeps_still {id : Bytes} {m : Moment} (h : m.still) : Keeps id m := fun b hb => by
  rcases h id with h | ⟨h, _⟩
  · rw [h, hb]
  · rw [h] at hb; cases hb

theorem keeps_rewrites {id id' : Bytes} {m : Moment} {g : Bytes → Bytes} (h : m.rewrites id' g) (hne : id ≠ id') : Keeps id m := fun b hb => by
  rw [h.2 id hne, hb]

def KeepsAll (id : Bytes) (p : Prog Int) : Prop := Always p fun ms _ => ∀ m ∈ ms, Keeps id m

theorem keepsAll_op {cfg : FsCfg} {id : Bytes} {op : FullOp} (h1 : ¬ onData id op) (h2 : ¬ byPath id op) : KeepsAll id (op.prog cfg) := by
  refine (always_data cfg op).mono fun ms r hr => ?_
  have all : AllStill ms → ∀ m ∈ ms, Keeps id m := fun h m hm => keeps_still (h m hm)
  match r, hr with
  | none, hr => exact all hr
  | some (.error _), hr => exact all hr
  | some (.ok v), hr =>
    cases op with
    | write h off d =>
      obtain ⟨_, m, rfl, hm⟩ := hr
      intro m' hm'
      rw [List.mem_singleton.mp hm']
      exact keeps_rewrites hm fun e => h1 e.symm
    | ftruncate h n =>
      obtain ⟨_, m, rfl, hm⟩ := hr
      intro m' hm'
      rw [List.mem_singleton.mp hm']
      exact keeps_rewrites hm fun e => h1 e.symm
    | truncate p n => exact absurd trivial h2
    | «open» p tr =>
      cases tr with
      | true => exact absurd trivial h2
      | false => exact all hr
    | symlink t f u g i =>
      obtain ⟨_, a, m, b, rfl, ha, hb, hm⟩ := hr
      intro m' hm'
      rcases List.mem_append.mp hm' with h | h
      · exact keeps_still (ha _ h)
      · rcases List.mem_cons.mp h with rfl | h
        · exact keeps_rewrites hm fun e => h2 e.symm
        · exact keeps_still (hb _ h)
    | read h off len => exact all hr.1
    | create p m u g i => exact all hr
    | mkdir p m u g i => exact all hr
    | unlink p => exact all hr
    | rmdir p => exact all hr
    | link s d => exact all hr
    | rename f t => exact all hr
    | chmod p m => exact all hr
    | chown p u g => exact all hr
    | utimens p ga ts => exact all hr
    | getattr p => exact all hr
    | readlink p n => exact all hr
    | opendir p => exact all hr
    | fgetattr h => exact all hr
    | readdir h fill => exact all hr
    | flush h => exact all hr
    | fsync h => exact all hr

/-- A call through a handle is one section. -/
theorem one_section {cfg : FsCfg} {id : Bytes} {op : FullOp} (h : onData id op) :
    ∃ (β : Type) (f : Sec β) (ans : β → Int), op.prog cfg = .sec f (fun b => .ret (ans b)) ∧ Changes f id fun b => dataStep b op := by
  cases op with
  | read hd off len =>
    refine ⟨_, secRead cfg hd off len, fun b => toCInt b.length, rfl, ?_⟩
    have : hd.id = id := h
    subst this
    exact changes_reg fun _ _ => ⟨⟨_, rfl⟩, rfl⟩
  | write hd off d =>
    have : hd.id = id := h
    subst this
    exact ⟨_, secWrite cfg hd off d, fun _ => toCInt d.length, rfl, changes_write cfg hd off d⟩
  | ftruncate hd n =>
    have : hd.id = id := h
    subst this
    exact ⟨_, secTruncate cfg hd n, fun _ => 0, rfl, changes_truncate cfg hd n⟩
  | _ => exact h.elim

theorem inTurn_snoc (b : Bytes) (o : List (Nat × FullOp)) (x : Nat × FullOp) : inTurn b (o ++ [x]) = dataStep (inTurn b o) x.2 := by
  unfold inTurn
  rw [List.foldl_append]
  rfl

/-- How a thread on the file stands: not begun, ended with an exception, or returned and in the order. -/
def Stand (cfg : FsCfg) (id b : Bytes) (order : List (Nat × FullOp)) (i : Nat) (op : FullOp) (t : Option (Prog Int)) (ms : List Moment) : Prop :=
  (onData id op ∧ ((t = some (op.prog cfg) ∧ ms = [] ∧ i ∉ order.map Prod.fst) ∨ ((∃ e, t = some (.throw e)) ∧ i ∉ order.map Prod.fst) ∨
    ∃ k m v, order[k]? = some (i, op) ∧ ms = [m] ∧ contents m.1 id = some (inTurn b (order.take k)) ∧ contents m.2 id = some (inTurn b (order.take (k + 1))) ∧
      t = some (.ret v) ∧ Ran (op.prog cfg) [m] (.ok v))) ∨
  (¬ onData id op ∧ i ∉ order.map Prod.fst ∧ ∃ p, t = some p ∧ KeepsAll id p)

theorem Stand.later {cfg : FsCfg} {id b : Bytes} {order : List (Nat × FullOp)} {i : Nat} {op : FullOp} {t : Option (Prog Int)} {ms : List Moment}
    (h : Stand cfg id b order i op t ms) {x : Nat × FullOp} (hx : x.1 ≠ i) : Stand cfg id b (order ++ [x]) i op t ms := by
  have hn : i ∉ order.map Prod.fst → i ∉ (order ++ [x]).map Prod.fst := by
    intro h1 h2
    rw [List.map_append, List.mem_append] at h2
    rcases h2 with h2 | h2
    · exact h1 h2
    · exact hx (List.mem_singleton.mp h2).symm
  rcases h with ⟨ho, h⟩ | ⟨ho, h1, h2⟩
  · refine .inl ⟨ho, ?_⟩
    rcases h with ⟨h1, h2, h3⟩ | ⟨h1, h2⟩ | ⟨k, m, v, h1, h2, h3, h4, h5⟩
    · exact .inl ⟨h1, h2, hn h3⟩
    · exact .inr (.inl ⟨h1, hn h2⟩)
    · have hk : k < order.length := by
        by_contra hc
        rw [List.getElem?_eq_none (Nat.le_of_not_lt hc)] at h1
        cases h1
      refine .inr (.inr ⟨k, m, v, ?_, h2, ?_, ?_, h5⟩)
      · rw [List.getElem?_append_left hk]; exact h1
      · rw [List.take_append_of_le_length (Nat.le_of_lt hk)]; exact h3
      · rw [List.take_append_of_le_length hk]; exact h4
  · exact .inr ⟨ho, hn h1, h2⟩

/-- What holds after any events. -/
structure Inv (cfg : FsCfg) (fs : FullFs) (evs : List FullEvent) (id b : Bytes) (order : List (Nat × FullOp)) : Prop where
  count : (FullSys.run cfg ⟨fs, []⟩ evs).threads.length = (started evs).length
  once : (order.map Prod.fst).Nodup
  known : ∀ x ∈ order, (started evs)[x.1]? = some x.2 ∧ onData id x.2
  stand : ∀ i op, (started evs)[i]? = some op → Stand cfg id b order i op (FullSys.run cfg ⟨fs, []⟩ evs).threads[i]? (moments cfg i ⟨fs, []⟩ evs)
  silent : ∀ i, (started evs).length ≤ i → moments cfg i ⟨fs, []⟩ evs = []
  ends : contents (FullSys.run cfg ⟨fs, []⟩ evs).fs id = some (inTurn b order)
  time : ∀ evs1 evs2, evs = evs1 ++ evs2 → ∀ x y, x ∈ order → y ∈ order → Returned (FullSys.run cfg ⟨fs, []⟩ evs1) x.1 →
    (started evs1).length ≤ y.1 → ∃ p q : Nat, p < q ∧ order[p]? = some x ∧ order[q]? = some y

theorem started_lt {l : List FullOp} {i : Nat} {op : FullOp} (h : l[i]? = some op) : i < l.length := by
  by_contra hc
  rw [List.getElem?_eq_none (Nat.le_of_not_lt hc)] at h
  cases h

theorem started_lt' {α : Type _} {l : List α} {i : Nat} {x : α} (h : l[i]? = some x) : i < l.length := by
  by_contra hc
  rw [List.getElem?_eq_none (Nat.le_of_not_lt hc)] at h
  cases h

theorem Always.witness {α : Type} : ∀ {p : Prog α} {R : List Moment → Option (Res α) → Prop}, Always p R → ∃ ms r, R ms r
  | .ret _, _, h => ⟨_, _, h⟩
  | .throw _, _, h => ⟨_, _, h⟩
  | .sec _ _, _, h => ⟨_, _, h.1⟩

theorem snoc_split {α : Type} {a b c : List α} {e : α} (h : a ++ [e] = b ++ c) : (c = [] ∧ b = a ++ [e]) ∨ ∃ c', c = c' ++ [e] ∧ a = b ++ c' := by
  rcases List.eq_nil_or_concat c with rfl | ⟨c', x, rfl⟩
  · rw [List.append_nil] at h; exact .inl ⟨rfl, h.symm⟩
  · rw [List.concat_eq_append, ← List.append_assoc] at h
    have := List.append_inj' h rfl
    obtain ⟨h1, h2⟩ := this
    injection h2 with h2 _
    subst h2
    exact .inr ⟨c', by rw [List.concat_eq_append], h1⟩

/-- The times after one more event that adds no call to the order. -/
theorem time_same {cfg : FsCfg} {fs : FullFs} {evs : List FullEvent} {id b : Bytes} {order : List (Nat × FullOp)} (h : Inv cfg fs evs id b order) (e : FullEvent) :
    ∀ evs1 evs2, evs ++ [e] = evs1 ++ evs2 → ∀ x y, x ∈ order → y ∈ order → Returned (FullSys.run cfg ⟨fs, []⟩ evs1) x.1 →
      (started evs1).length ≤ y.1 → ∃ p q : Nat, p < q ∧ order[p]? = some x ∧ order[q]? = some y := by
  intro evs1 evs2 he x y hx hy hr hl
  rcases snoc_split he with ⟨_, h1⟩ | ⟨c, _, h1⟩
  · exfalso
    have := started_lt (h.known y hy).1
    rw [h1, started_append, List.length_append] at hl
    omega
  · exact h.time evs1 c h1 x y hx hy hr hl

/-- An event that is not a request: the calls that have been started are the same. -/
theorem started_snoc {evs : List FullEvent} {e : FullEvent} (h : ∀ op, e ≠ .start op) : started (evs ++ [e]) = started evs := by
  rw [started_append]
  have : started [e] = [] := by
    cases e with
    | start op => exact absurd rfl (h op)
    | _ => rfl
  rw [this, List.append_nil]

theorem step_length (cfg : FsCfg) (s : FullSys) (e : FullEvent) (h : ∀ op, e ≠ .start op) : (s.step cfg e).threads.length = s.threads.length := by
  cases e with
  | start op => exact absurd rfl (h op)
  | tick now => rfl
  | evict id => unfold FullSys.step; dsimp only; split <;> rfl
  | reap id =>
    unfold FullSys.step
    dsimp only
    split
    · rfl
    · split <;> rfl
  | fail j e =>
    unfold FullSys.step
    dsimp only
    split
    · exact List.length_set
    · rfl
  | step j =>
    unfold FullSys.step FullSys.stepThread
    dsimp only
    split
    · split <;> exact List.length_set
    · rfl

theorem momentOf_none {cfg : FsCfg} {s : FullSys} {i : Nat} (h : s.threads.length ≤ i) (e : FullEvent) : momentOf cfg i s e = [] := by
  cases e with
  | step j =>
    show (if j = i then (match s.threads[i]? with | some (.sec _ _) => [(s.fs, (s.step cfg (.step j)).fs)] | _ => []) else []) = []
    rw [List.getElem?_eq_none h]
    split <;> rfl
  | _ => rfl

/-- One more event that is not a request, and adds no call to the order. -/
theorem Inv.same {cfg : FsCfg} {fs : FullFs} {evs : List FullEvent} {id b : Bytes} {order : List (Nat × FullOp)} (h : Inv cfg fs evs id b order) {e : FullEvent}
    (hs : ∀ op, e ≠ .start op) (hk : contents ((FullSys.run cfg ⟨fs, []⟩ evs).step cfg e).fs id = some (inTurn b order))
    (ht : ∀ i op, (started evs)[i]? = some op → Stand cfg id b order i op (FullSys.run cfg ⟨fs, []⟩ evs).threads[i]? (moments cfg i ⟨fs, []⟩ evs) →
      Stand cfg id b order i op ((FullSys.run cfg ⟨fs, []⟩ evs).step cfg e).threads[i]? (moments cfg i ⟨fs, []⟩ evs ++ momentOf cfg i (FullSys.run cfg ⟨fs, []⟩ evs) e)) :
    Inv cfg fs (evs ++ [e]) id b order where
  count := by rw [run_snoc, step_length cfg _ e hs, started_snoc hs]; exact h.count
  once := h.once
  known := by rw [started_snoc hs]; exact h.known
  stand := fun i op hi => by
    rw [started_snoc hs] at hi
    rw [run_snoc, moments_snoc]
    exact ht i op hi (h.stand i op hi)
  silent := fun i hi => by
    rw [started_snoc hs] at hi
    rw [moments_snoc, h.silent i hi, momentOf_none (by rw [h.count]; exact hi)]
    rfl
  ends := by rw [run_snoc]; exact hk
  time := time_same h e

/-- Threads stand as they stood if an event is none of theirs. -/
theorem Stand.other {cfg : FsCfg} {id b : Bytes} {order : List (Nat × FullOp)} {i : Nat} {op : FullOp} {s : FullSys} {ms : List Moment}
    (h : Stand cfg id b order i op s.threads[i]? ms) {e : FullEvent} (h1 : (s.step cfg e).threads[i]? = s.threads[i]?) (h2 : momentOf cfg i s e = []) :
    Stand cfg id b order i op (s.step cfg e).threads[i]? (ms ++ momentOf cfg i s e) := by
  rw [h1, h2, List.append_nil]; exact h

theorem Stand.there {cfg : FsCfg} {id b : Bytes} {order : List (Nat × FullOp)} {i : Nat} {op : FullOp} {t : Option (Prog Int)} {ms : List Moment}
    (h : Stand cfg id b order i op t ms) : ∃ p, t = some p := by
  rcases h with ⟨_, ⟨h, _⟩ | ⟨⟨e, h⟩, _⟩ | ⟨_, _, v, _, _, _, _, h, _⟩⟩ | ⟨_, _, p, h, _⟩ <;> exact ⟨_, h⟩

/-- Events that are neither requests nor of threads. -/
theorem Inv.around {cfg : FsCfg} {fs : FullFs} {evs : List FullEvent} {id b : Bytes} {order : List (Nat × FullOp)} (h : Inv cfg fs evs id b order) {e : FullEvent}
    (hs : ∀ op, e ≠ .start op) (h1 : ∀ i, e ≠ .step i) (h2 : ∀ i er, e ≠ .fail i er)
    (hk : contents ((FullSys.run cfg ⟨fs, []⟩ evs).step cfg e).fs id = contents (FullSys.run cfg ⟨fs, []⟩ evs).fs id) : Inv cfg fs (evs ++ [e]) id b order := by
  refine h.same hs (by rw [hk]; exact h.ends) fun i op _ ht => ?_
  obtain ⟨p, hp⟩ := ht.there
  obtain ⟨h3, h4⟩ := step_other (cfg := cfg) hp e (h1 i) (h2 i)
  exact ht.other (by rw [h3, hp]) h4

theorem Stand.throws {cfg : FsCfg} {id b : Bytes} {order : List (Nat × FullOp)} {i : Nat} {op : FullOp} {β : Type} {f : Sec β} {k : β → Prog Int} {ms ms' : List Moment}
    (h : Stand cfg id b order i op (some (.sec f k)) ms) (e : Err) : Stand cfg id b order i op (some (.throw e)) ms' := by
  rcases h with ⟨ho, ⟨_, _, h⟩ | ⟨⟨e', h⟩, _⟩ | ⟨_, _, v, _, _, _, _, h, _⟩⟩ | ⟨ho, h, p, _, _⟩
  · exact .inl ⟨ho, .inr (.inl ⟨⟨e, rfl⟩, h⟩)⟩
  · cases h
  · cases h
  · exact .inr ⟨ho, h, .throw e, rfl, fun m hm => nomatch hm⟩

theorem Inv.fail {cfg : FsCfg} {fs : FullFs} {evs : List FullEvent} {id b : Bytes} {order : List (Nat × FullOp)} (h : Inv cfg fs evs id b order) (j : Nat) (e : Err) :
    Inv cfg fs (evs ++ [.fail j e]) id b order := by
  refine h.same (fun _ h => nomatch h) ?_ fun i op _ ht => ?_
  · have : ((FullSys.run cfg ⟨fs, []⟩ evs).step cfg (.fail j e)).fs = (FullSys.run cfg ⟨fs, []⟩ evs).fs := by
      unfold FullSys.step
      dsimp only
      split <;> rfl
    rw [this]; exact h.ends
  · obtain ⟨p, hp⟩ := ht.there
    by_cases hj : j = i
    · subst hj
      cases p with
      | ret a =>
        obtain ⟨h3, h4⟩ := step_ended (cfg := cfg) hp (fun _ _ _ h => nomatch h) (.fail j e)
        exact ht.other (by rw [h3, hp]) h4
      | throw e' =>
        obtain ⟨h3, h4⟩ := step_ended (cfg := cfg) hp (fun _ _ _ h => nomatch h) (.fail j e)
        exact ht.other (by rw [h3, hp]) h4
      | sec f k =>
        have hlt : j < (FullSys.run cfg ⟨fs, []⟩ evs).threads.length := by
          by_contra hc
          rw [List.getElem?_eq_none (Nat.le_of_not_lt hc)] at hp
          cases hp
        have h3 : ((FullSys.run cfg ⟨fs, []⟩ evs).step cfg (.fail j e)).threads[j]? = some (.throw e) := by
          unfold FullSys.step
          dsimp only
          rw [hp]
          exact List.getElem?_set_self hlt
        rw [h3]
        rw [hp] at ht
        exact ht.throws e
    · obtain ⟨h3, h4⟩ := step_other (cfg := cfg) hp (.fail j e) (fun h => nomatch h) (fun e' h => by injection h with h; exact hj h)
      exact ht.other (by rw [h3, hp]) h4

theorem Inv.start {cfg : FsCfg} {fs : FullFs} {evs : List FullEvent} {id b : Bytes} {order : List (Nat × FullOp)} (h : Inv cfg fs evs id b order) {op : FullOp}
    (hop : ¬ byPath id op) : Inv cfg fs (evs ++ [.start op]) id b order where
  count := by
    rw [run_snoc, started_append]
    show ((FullSys.run cfg ⟨fs, []⟩ evs).threads ++ [op.prog cfg]).length = _
    rw [List.length_append, List.length_append, h.count]
    rfl
  once := h.once
  known := fun x hx => by
    obtain ⟨h1, h2⟩ := h.known x hx
    refine ⟨?_, h2⟩
    rw [started_append, List.getElem?_append_left (started_lt h1)]
    exact h1
  stand := fun i op' hi => by
    rw [run_snoc, moments_snoc]
    rw [started_append] at hi
    by_cases hlt : i < (started evs).length
    · rw [List.getElem?_append_left hlt] at hi
      have ht := h.stand i op' hi
      obtain ⟨p, hp⟩ := ht.there
      obtain ⟨h3, h4⟩ := step_other (cfg := cfg) hp (.start op) (fun h => nomatch h) (fun e' h => nomatch h)
      exact ht.other (by rw [h3, hp]) h4
    · have hle := Nat.le_of_not_lt hlt
      have hi2 := started_lt hi
      rw [List.length_append] at hi2
      have hi3 : i = (started evs).length := by
        have : (started [FullEvent.start op]).length = 1 := rfl
        omega
      subst hi3
      rw [List.getElem?_append_right hle, Nat.sub_self] at hi
      have hi4 : op = op' := by injection hi
      subst hi4
      have ht : ((FullSys.run cfg ⟨fs, []⟩ evs).step cfg (.start op)).threads[(started evs).length]? = some (op.prog cfg) := by
        show ((FullSys.run cfg ⟨fs, []⟩ evs).threads ++ [op.prog cfg])[_]? = _
        rw [← h.count, List.getElem?_append_right (Nat.le_refl _), Nat.sub_self]
        rfl
      rw [ht, h.silent _ hle]
      have hnot : (started evs).length ∉ order.map Prod.fst := by
        intro hm
        obtain ⟨x, hx, he⟩ := List.mem_map.mp hm
        have := started_lt (h.known x hx).1
        omega
      by_cases ho : onData id op
      · exact .inl ⟨ho, .inl ⟨rfl, rfl, hnot⟩⟩
      · exact .inr ⟨ho, hnot, _, rfl, keepsAll_op ho hop⟩
  silent := fun i hi => by
    rw [started_append, List.length_append] at hi
    rw [moments_snoc, h.silent i (by omega)]
    rfl
  ends := by rw [run_snoc]; exact h.ends
  time := time_same h _

/-- The step of a thread that has a section to execute. -/
theorem step_sec {cfg : FsCfg} {s : FullSys} {i : Nat} {β : Type} {f : Sec β} {k : β → Prog Int} (hp : s.threads[i]? = some (.sec f k)) :
    (s.step cfg (.step i)).fs = (f s.fs).2 ∧ momentOf cfg i s (.step i) = [(s.fs, (f s.fs).2)] ∧
    (s.step cfg (.step i)).threads[i]? = some (match (f s.fs).1 with | .ok b => k b | .error e => .throw e) := by
  have hlt : i < s.threads.length := by
    by_contra hc
    rw [List.getElem?_eq_none (Nat.le_of_not_lt hc)] at hp
    cases hp
  have hst : s.step cfg (.step i) = s.stepThread i := rfl
  have hfs : (s.stepThread i).fs = (f s.fs).2 := by
    unfold FullSys.stepThread
    rw [hp]
    dsimp only
    cases f s.fs with
    | mk r fs' => cases r <;> rfl
  refine ⟨by rw [hst, hfs], ?_, ?_⟩
  · show (if i = i then (match s.threads[i]? with | some (.sec _ _) => [(s.fs, (s.step cfg (.step i)).fs)] | _ => []) else []) = _
    rw [if_pos rfl, hp, hst, hfs]
  · rw [hst]
    unfold FullSys.stepThread
    rw [hp]
    dsimp only
    cases f s.fs with
    | mk r fs' =>
      cases r with
      | ok b => exact List.getElem?_set_self hlt
      | error e => exact List.getElem?_set_self hlt

theorem nodup_snoc {l : List Nat} {i : Nat} (h : l.Nodup) (hi : i ∉ l) : (l ++ [i]).Nodup := by
  rw [List.nodup_append]
  refine ⟨h, List.nodup_singleton i, fun a ha b hb he => ?_⟩
  rw [List.mem_singleton.mp hb] at he
  exact hi (he ▸ ha)

/-- A step of a call on the file that succeeds: it is next in the order. -/
theorem Inv.next {cfg : FsCfg} {fs : FullFs} {evs : List FullEvent} {id b : Bytes} {order : List (Nat × FullOp)} (h : Inv cfg fs evs id b order) {i : Nat} {op : FullOp}
    (hi : (started evs)[i]? = some op) (ho : onData id op) {β : Type} {f : Sec β} {ans : β → Int} (hsh : op.prog cfg = .sec f fun b => .ret (ans b))
    (hch : Changes f id fun b => dataStep b op) (hp : (FullSys.run cfg ⟨fs, []⟩ evs).threads[i]? = some (op.prog cfg)) (hms : moments cfg i ⟨fs, []⟩ evs = [])
    (hnot : i ∉ order.map Prod.fst) {fs' : FullFs} {x : β} (hf : f (FullSys.run cfg ⟨fs, []⟩ evs).fs = (.ok x, fs')) :
    Inv cfg fs (evs ++ [.step i]) id b (order ++ [(i, op)]) := by
  have hp' := hp
  rw [hsh] at hp'
  obtain ⟨s1, s2, s3⟩ := step_sec (cfg := cfg) hp'
  rw [hf] at s1 s2 s3
  dsimp only at s1 s2 s3
  have hrw := hch.at hf
  obtain ⟨⟨c, hc1, hc2⟩, _⟩ := hrw
  have hc : c = inTurn b order := by
    have := h.ends
    rw [hc1] at this
    injection this
  subst hc
  have hstart : ∀ op', FullEvent.step i ≠ .start op' := fun _ h => nomatch h
  refine { count := ?_, once := ?_, known := ?_, stand := ?_, silent := ?_, ends := ?_, time := ?_ }
  · rw [run_snoc, step_length cfg _ _ hstart, started_snoc hstart]; exact h.count
  · rw [List.map_append]; exact nodup_snoc h.once hnot
  · rw [started_snoc hstart]
    intro y hy
    rcases List.mem_append.mp hy with hy | hy
    · exact h.known y hy
    · rw [List.mem_singleton.mp hy]; exact ⟨hi, ho⟩
  · intro j op' hj
    rw [started_snoc hstart] at hj
    rw [run_snoc, moments_snoc]
    by_cases hij : i = j
    · subst hij
      rw [hi] at hj
      injection hj with hj
      subst hj
      refine .inl ⟨ho, .inr (.inr ⟨order.length, ((FullSys.run cfg ⟨fs, []⟩ evs).fs, fs'), ans x, ?_, ?_, ?_, ?_, s3, ?_⟩)⟩
      · rw [List.getElem?_append_right (Nat.le_refl _), Nat.sub_self]; rfl
      · rw [hms, s2]; rfl
      · rw [List.take_append_of_le_length (Nat.le_refl _), List.take_length]
        exact hc1
      · rw [List.take_of_length_le (by rw [List.length_append]; exact Nat.le_refl _), inTurn_snoc]
        exact hc2
      · rw [hsh]
        exact .go hf (.ret _)
    · have ht := h.stand j op' hj
      obtain ⟨p, hp⟩ := ht.there
      obtain ⟨h3, h4⟩ := step_other (cfg := cfg) hp (.step i) (fun h => by injection h with h; exact hij h) (fun e' h => nomatch h)
      exact (ht.other (by rw [h3, hp]) h4).later hij
  · intro j hj
    rw [started_snoc hstart] at hj
    rw [moments_snoc, h.silent j hj, momentOf_none (by rw [h.count]; exact hj)]
    rfl
  · rw [run_snoc, s1, inTurn_snoc]
    exact hc2
  · intro evs1 evs2 he y z hy hz hr hl
    rcases snoc_split he with ⟨_, h1⟩ | ⟨c, _, h1⟩
    · exfalso
      rw [h1, started_snoc hstart] at hl
      rcases List.mem_append.mp hz with hz | hz
      · have := started_lt (h.known z hz).1
        omega
      · rw [List.mem_singleton.mp hz] at hl
        have := started_lt hi
        dsimp only at hl
        omega
    · have hy' : y ∈ order := by
        rcases List.mem_append.mp hy with hy | hy
        · exact hy
        · exfalso
          rw [List.mem_singleton.mp hy] at hr
          have := returned_stays (cfg := cfg) c hr
          rw [← run_append, ← h1] at this
          obtain ⟨v, hv⟩ := this
          dsimp only at hv
          rw [hp'] at hv
          cases hv
      rcases List.mem_append.mp hz with hz | hz
      · obtain ⟨p, q, h2, h3, h4⟩ := h.time evs1 c h1 y z hy' hz hr hl
        exact ⟨p, q, h2, by rw [List.getElem?_append_left (started_lt' h3)]; exact h3, by rw [List.getElem?_append_left (started_lt' h4)]; exact h4⟩
      · rw [List.mem_singleton.mp hz]
        obtain ⟨p, hp1, hp2⟩ := List.mem_iff_getElem.mp hy'
        refine ⟨p, order.length, hp1, ?_, ?_⟩
        · rw [List.getElem?_append_left hp1, List.getElem?_eq_getElem hp1, hp2]
        · rw [List.getElem?_append_right (Nat.le_refl _), Nat.sub_self]; rfl

theorem Inv.step {cfg : FsCfg} {fs : FullFs} {evs : List FullEvent} {id b : Bytes} {order : List (Nat × FullOp)} (h : Inv cfg fs evs id b order) (i : Nat) :
    ∃ order', Inv cfg fs (evs ++ [.step i]) id b order' := by
  have hstart : ∀ op', FullEvent.step i ≠ .start op' := fun _ h => nomatch h
  have others : ∀ j op', (started evs)[j]? = some op' → i ≠ j → Stand cfg id b order j op' (FullSys.run cfg ⟨fs, []⟩ evs).threads[j]? (moments cfg j ⟨fs, []⟩ evs) →
      Stand cfg id b order j op' ((FullSys.run cfg ⟨fs, []⟩ evs).step cfg (.step i)).threads[j]?
        (moments cfg j ⟨fs, []⟩ evs ++ momentOf cfg j (FullSys.run cfg ⟨fs, []⟩ evs) (.step i)) := by
    intro j op' _ hij ht
    obtain ⟨p, hp⟩ := ht.there
    obtain ⟨h3, h4⟩ := step_other (cfg := cfg) hp (.step i) (fun h => by injection h with h; exact hij h) (fun e' h => nomatch h)
    exact ht.other (by rw [h3, hp]) h4
  have idle : (∀ β f k, (FullSys.run cfg ⟨fs, []⟩ evs).threads[i]? ≠ some (.sec (β := β) f k)) → Inv cfg fs (evs ++ [.step i]) id b order := by
    intro hn
    refine h.same hstart ?_ fun j op' hj ht => ?_
    · have : (FullSys.run cfg ⟨fs, []⟩ evs).step cfg (.step i) = FullSys.run cfg ⟨fs, []⟩ evs := by
        show FullSys.stepThread _ i = _
        unfold FullSys.stepThread
        split
        · rename_i hc; exact absurd hc (hn _ _ _)
        · rfl
      rw [this]; exact h.ends
    · by_cases hij : i = j
      · subst hij
        obtain ⟨p, hp⟩ := ht.there
        obtain ⟨h3, h4⟩ := step_ended (cfg := cfg) hp (fun β f k hc => hn β f k (by rw [hp, hc])) (.step i)
        exact ht.other (by rw [h3, hp]) h4
      · exact others j op' hj hij ht
  cases hp : (FullSys.run cfg ⟨fs, []⟩ evs).threads[i]? with
  | none => exact ⟨order, idle fun β f k hc => by rw [hp] at hc; cases hc⟩
  | some p =>
    cases p with
    | ret a => exact ⟨order, idle fun β f k hc => by rw [hp] at hc; cases hc⟩
    | throw e => exact ⟨order, idle fun β f k hc => by rw [hp] at hc; cases hc⟩
    | sec f k =>
      have hlt : i < (started evs).length := by
        rw [← h.count]
        by_contra hc
        rw [List.getElem?_eq_none (Nat.le_of_not_lt hc)] at hp
        cases hp
      have hi : (started evs)[i]? = some (started evs)[i] := List.getElem?_eq_getElem hlt
      have ht := h.stand i _ hi
      generalize (started evs)[i] = op at hi ht
      obtain ⟨s1, s2, s3⟩ := step_sec (cfg := cfg) hp
      have ht0 := ht
      rw [hp] at ht
      rcases ht with ⟨ho, ⟨h1, h2, h3⟩ | ⟨⟨e', h1⟩, _⟩ | ⟨_, _, v, _, _, _, _, h1, _⟩⟩ | ⟨ho, hno, p, h1, hk⟩
      · obtain ⟨β', f', ans, hsh, hch⟩ := one_section (cfg := cfg) ho
        injection h1 with h1
        cases hf : f' (FullSys.run cfg ⟨fs, []⟩ evs).fs with
        | mk r fs' =>
          cases r with
          | ok x => exact ⟨_, h.next hi ho hsh hch (by rw [hp, h1]) h2 h3 hf⟩
          | error e =>
            refine ⟨order, h.same hstart ?_ fun j op' hj ht => ?_⟩
            · rw [hsh] at h1
              rw [h1] at hp
              obtain ⟨s1, _, _⟩ := step_sec (cfg := cfg) hp
              rw [s1, hf]
              exact keeps_still (hch.at_error hf) _ h.ends
            · by_cases hij : i = j
              · subst hij
                rw [hsh] at h1
                rw [h1] at hp
                obtain ⟨_, _, s3⟩ := step_sec (cfg := cfg) hp
                rw [hf] at s3
                rw [s3]
                rw [hp] at ht
                exact ht.throws e
              · exact others j op' hj hij ht
      · cases h1
      · cases h1
      · injection h1 with h1
        subst h1
        refine ⟨order, h.same hstart ?_ fun j op' hj ht => ?_⟩
        · rw [s1]
          have hk2 := hk.2 (FullSys.run cfg ⟨fs, []⟩ evs).fs
          have : Keeps id ((FullSys.run cfg ⟨fs, []⟩ evs).fs, (f (FullSys.run cfg ⟨fs, []⟩ evs).fs).2) := by
            revert hk2
            cases f (FullSys.run cfg ⟨fs, []⟩ evs).fs with
            | mk r fs' =>
              cases r with
              | error e =>
                intro hk2
                exact hk2 _ (List.mem_singleton.mpr rfl)
              | ok x =>
                intro hk2
                obtain ⟨ms, r, hr⟩ := Always.witness hk2
                exact hr _ (List.mem_cons_self ..)
          exact this _ h.ends
        · by_cases hij : i = j
          · subst hij
            rw [hi] at hj
            injection hj with hj
            subst hj
            rw [s3]
            refine .inr ⟨ho, hno, _, rfl, ?_⟩
            have hk2 := hk.2 (FullSys.run cfg ⟨fs, []⟩ evs).fs
            revert hk2
            cases f (FullSys.run cfg ⟨fs, []⟩ evs).fs with
            | mk r fs' =>
              cases r with
              | error e => exact fun _ m hm => nomatch hm
              | ok x => exact fun hk2 => Always.mono hk2 fun ms r hr m hm => hr m (List.mem_cons_of_mem _ hm)
          · exact others j op' hj hij ht

theorem contents_filter {fs : FullFs} {id id' : Bytes} (h : id' ≠ id) :
    contents { fs with nodes := fs.nodes.filter fun p => p.1 ≠ id' } id = contents fs id := by
  rw [contents_get, contents_get]
  unfold FullFs.get
  congr 1
  induction fs.nodes with
  | nil => rfl
  | cons x l ih =>
    obtain ⟨a, n⟩ := x
    by_cases ha : a = id'
    · subst ha
      rw [List.filter_cons_of_neg (by simp), ih]
      have : (id == a) = false := by simpa using fun e => h e.symm
      simp [List.lookup_cons, this]
    · rw [List.filter_cons_of_pos (by simpa using ha)]
      show (match id == a with | true => _ | false => _) = (match id == a with | true => _ | false => _)
      cases id == a with
      | true => rfl
      | false => exact ih

/-- The invariant holds after all events. -/
theorem inv_all {cfg : FsCfg} {fs : FullFs} {id b : Bytes} (hb : contents fs id = some b) : ∀ (n : Nat) (evs : List FullEvent), evs.length = n →
    FullEvent.reap id ∉ evs → (∀ op, FullEvent.start op ∈ evs → ¬ byPath id op) → ∃ order, Inv cfg fs evs id b order
  | 0, evs, hn, _, _ => by
    have : evs = [] := List.length_eq_zero_iff.mp hn
    subst this
    exact ⟨[], ⟨rfl, List.nodup_nil, fun x hx => (List.not_mem_nil hx).elim, fun i op hi => (by simp [started] at hi), fun _ _ => rfl, hb,
      fun _ _ _ x _ hx => (List.not_mem_nil hx).elim⟩⟩
  | n + 1, evs, hn, hr, ho => by
    rcases List.eq_nil_or_concat evs with rfl | ⟨evs', e, rfl⟩
    · cases hn
    · rw [List.concat_eq_append] at hn hr ho ⊢
      rw [List.length_append] at hn
      obtain ⟨order, h⟩ := inv_all hb n evs' (by simpa using hn) (fun hm => hr (List.mem_append_left _ hm)) (fun op hm => ho op (List.mem_append_left _ hm))
      cases e with
      | start op => exact ⟨order, h.start (ho op (List.mem_append_right _ (List.mem_singleton.mpr rfl)))⟩
      | step i => exact h.step i
      | fail j e => exact ⟨order, h.fail j e⟩
      | tick now => exact ⟨order, h.around (fun _ h => nomatch h) (fun _ h => nomatch h) (fun _ _ h => nomatch h) rfl⟩
      | evict id' =>
        refine ⟨order, h.around (fun _ h => nomatch h) (fun _ h => nomatch h) (fun _ _ h => nomatch h) ?_⟩
        unfold FullSys.step
        dsimp only
        cases hg : (FullSys.run cfg ⟨fs, []⟩ evs').fs.get id' with
        | none => rfl
        | some n =>
          dsimp only
          rw [contents_set hg]
          split
          · rename_i he
            subst he
            rw [contents_get, hg]
            rfl
          · rfl
      | reap id' =>
        refine ⟨order, h.around (fun _ h => nomatch h) (fun _ h => nomatch h) (fun _ _ h => nomatch h) ?_⟩
        have hne : id' ≠ id := fun he => hr (List.mem_append_right _ (by rw [he]; exact List.mem_singleton.mpr rfl))
        unfold FullSys.step
        dsimp only
        split
        · rfl
        · split
          · exact contents_filter hne
          · rfl

theorem Inv.serial {cfg : FsCfg} {fs : FullFs} {evs : List FullEvent} {id b : Bytes} {order : List (Nat × FullOp)} (h : Inv cfg fs evs id b order) :
    Serial cfg fs evs id b order where
  once := h.once
  calls := fun i op => by
    constructor
    · intro hm
      obtain ⟨h1, h2⟩ := h.known _ hm
      refine ⟨h1, h2, ?_⟩
      have hin : i ∈ order.map Prod.fst := List.mem_map.mpr ⟨_, hm, rfl⟩
      rcases h.stand i op h1 with ⟨_, ⟨_, _, h3⟩ | ⟨_, h3⟩ | ⟨_, _, v, _, _, _, _, h3, _⟩⟩ | ⟨_, h3, _⟩
      · exact absurd hin h3
      · exact absurd hin h3
      · exact ⟨v, h3⟩
      · exact absurd hin h3
    · rintro ⟨h1, h2, v, hv⟩
      rcases h.stand i op h1 with ⟨_, ⟨h3, _, _⟩ | ⟨⟨e, h3⟩, _⟩ | ⟨k, _, v, h3, _⟩⟩ | ⟨h3, _⟩
      · obtain ⟨_, f, ans, hsh, _⟩ := one_section (cfg := cfg) h2
        rw [hv, hsh] at h3
        cases h3
      · rw [hv] at h3; cases h3
      · exact List.mem_of_getElem? h3
      · exact absurd h2 h3
  turn := fun k i op hk => by
    have hm := List.mem_of_getElem? hk
    obtain ⟨h1, h2⟩ := h.known _ hm
    have hin : i ∈ order.map Prod.fst := List.mem_map.mpr ⟨_, hm, rfl⟩
    rcases h.stand i op h1 with ⟨_, ⟨_, _, h3⟩ | ⟨_, h3⟩ | ⟨k', m, v, h3, h4, h5, h6, h7, h8⟩⟩ | ⟨_, h3, _⟩
    · exact absurd hin h3
    · exact absurd hin h3
    · have hkk : k = k' := by
        have a1 : (order.map Prod.fst)[k]? = some i := by rw [List.getElem?_map, hk]; rfl
        have a2 : (order.map Prod.fst)[k']? = some i := by rw [List.getElem?_map, h3]; rfl
        exact (List.getElem?_inj (by by_contra hc; rw [List.getElem?_eq_none (Nat.le_of_not_lt hc)] at a1; cases a1) h.once).mp (by rw [a1, a2])
      subst hkk
      exact ⟨m, v, h4, h5, h6, h7, h8⟩
    · exact absurd hin h3
  ends := h.ends
  time := h.time

/-- A thread that has not returned is between two sections, or has thrown. -/
theorem not_returned {cfg : FsCfg} {i : Nat} {op : FullOp} {s : FullSys} (evs : List FullEvent) (hp : s.threads[i]? = some (op.prog cfg))
    (h : Always (op.prog cfg) (DataR cfg.same op)) (hn : ¬ Returned (s.run cfg evs) i) : AllStill (moments cfg i s evs) := by
  have done : ∀ evs e, (s.run cfg evs).threads[i]? = some (.throw e) → AllStill (moments cfg i s evs) := by
    intro evs e he
    rcases (Always.history evs hp h).2.1 e he with h | ⟨_, h⟩ <;> exact h
  have hex : ∃ p, (s.run cfg evs).threads[i]? = some p := by
    have hlen : ∀ (evs : List FullEvent) (s : FullSys), s.threads.length ≤ (s.run cfg evs).threads.length := by
      intro evs
      induction evs with
      | nil => exact fun s => Nat.le_refl _
      | cons e evs ih =>
        intro s
        refine Nat.le_trans ?_ (ih (s.step cfg e))
        by_cases hs : ∃ op, e = .start op
        · obtain ⟨op, rfl⟩ := hs
          show _ ≤ (s.threads ++ [op.prog cfg]).length
          rw [List.length_append]
          omega
        · rw [step_length cfg s e fun op he => hs ⟨op, he⟩]
          exact Nat.le_refl _
    have := Nat.lt_of_lt_of_le (started_lt' hp) (hlen evs s)
    exact ⟨_, List.getElem?_eq_getElem this⟩
  obtain ⟨p, hpe⟩ := hex
  cases p with
  | ret v => exact absurd ⟨v, hpe⟩ hn
  | throw e => exact done evs e hpe
  | sec f k =>
    have h1 := done (evs ++ [.fail i (.vfs 5)]) (.vfs 5) (by
      rw [run_snoc]
      unfold FullSys.step
      dsimp only
      rw [hpe]
      exact List.getElem?_set_self (started_lt' hpe))
    rw [moments_snoc] at h1
    have : momentOf cfg i (s.run cfg evs) (.fail i (.vfs 5)) = [] := rfl
    rw [this, List.append_nil] at h1
    exact h1

theorem contents_filter_self {fs : FullFs} {id : Bytes} : contents { fs with nodes := fs.nodes.filter fun p => p.1 ≠ id } id = none := by
  rw [contents_get]
  unfold FullFs.get
  have : ∀ l : List (Bytes × Inode), (l.filter fun p => p.1 ≠ id).lookup id = none := by
    intro l
    induction l with
    | nil => rfl
    | cons x l ih =>
      obtain ⟨a, n⟩ := x
      by_cases ha : a = id
      · rw [List.filter_cons_of_neg (by simpa using ha)]; exact ih
      · rw [List.filter_cons_of_pos (by simpa using ha)]
        have : (id == a) = false := by simpa using fun e => ha e.symm
        rw [List.lookup_cons, this]
        exact ih
  rw [this]
  rfl

theorem between (cfg : FsCfg) (s : FullSys) (e : FullEvent) (he : ∀ i, e ≠ .step i) (id : Bytes) :
    contents (s.step cfg e).fs id = contents s.fs id ∨ (e = .reap id ∧ linkCount s.fs id = 0 ∧ contents (s.step cfg e).fs id = none) := by
  cases e with
  | start op => exact .inl rfl
  | step i => exact absurd rfl (he i)
  | fail j e =>
    refine .inl ?_
    unfold FullSys.step
    dsimp only
    split <;> rfl
  | tick now => exact .inl rfl
  | evict id' =>
    refine .inl ?_
    unfold FullSys.step
    dsimp only
    cases hg : s.fs.get id' with
    | none => rfl
    | some n =>
      dsimp only
      rw [contents_set hg]
      split
      · rename_i he
        subst he
        rw [contents_get, hg]
        rfl
      · rfl
  | reap id' =>
    unfold FullSys.step
    dsimp only
    cases hg : s.fs.get id' with
    | none => exact .inl rfl
    | some n =>
      dsimp only
      split
      · rename_i hc
        by_cases hid : id' = id
        · subst hid
          refine .inr ⟨rfl, ?_, contents_filter_self⟩
          unfold linkCount
          rw [hg]
          dsimp only
          rw [hc.1]
          rfl
        · exact .inl (contents_filter hid)
      · exact .inl rfl

theorem ran_read {cfg : FsCfg} {h : FH} {off len : Nat} {ms : List Moment} {v : Int} (hr : Ran ((FullOp.read h off len).prog cfg) ms (.ok v)) :
    ∃ m b, ms = [m] ∧ contents m.1 h.id = some b ∧ Ran (fullRead cfg h off len) [m] (.ok (v, Spec.read b off len)) := by
  have hsh : (FullOp.read h off len).prog cfg = .sec (secRead cfg h off len) fun b => .ret (toCInt b.length) := rfl
  rw [hsh] at hr
  cases hr with
  | @go _ _ _ fs fs' x ms _ hf hk =>
    cases hk
    refine ⟨(fs, fs'), ?_⟩
    have hrun : Ran (fullRead cfg h off len) [(fs, fs')] (.ok (toCInt x.length, x)) := .go hf (.ret _)
    unfold secRead Sec.reg Sec.file at hf
    cases hg : fs.get h.id with
    | none => rw [hg] at hf; cases hf
    | some n =>
      rw [hg] at hf
      dsimp only at hf
      refine ⟨n.data, rfl, ?_, ?_⟩
      · show contents fs h.id = _
        rw [contents_get, hg]
        rfl
      · cases hc : castAs h typeRegular n with
        | error e => rw [hc] at hf; cases hf
        | ok _ =>
          rw [hc] at hf
          injection hf with hf _
          injection hf with hf
          rw [hf]
          exact hrun

theorem ran_stat {cfg : FsCfg} {h : FH} (hc : h.cls ≠ 4) {ms : List Moment} {v : Int} (hr : Ran ((FullOp.fgetattr h).prog cfg) ms (.ok v)) :
    ∃ m b st, ms = [m] ∧ contents m.1 h.id = some b ∧ Ran (fullFgetattr cfg ⟨none, none⟩ h) [m] (.ok (v, some st)) ∧ st.size = some b.length := by
  have hsh : (FullOp.fgetattr h).prog cfg = .sec (secStat cfg ⟨none, none⟩ h) fun _ => .ret 0 := rfl
  rw [hsh] at hr
  cases hr with
  | @go _ _ _ fs fs' x ms _ hf hk =>
    cases hk
    have hrun : Ran (fullFgetattr cfg ⟨none, none⟩ h) [(fs, fs')] (.ok (0, some x)) := .go hf (.ret _)
    unfold secStat Sec.file at hf
    cases hg : fs.get h.id with
    | none => rw [hg] at hf; cases hf
    | some n =>
      rw [hg] at hf
      refine ⟨(fs, fs'), n.data, x, rfl, ?_, hrun, ?_⟩
      · show contents fs h.id = _
        rw [contents_get, hg]
        rfl
      · injection hf with hf _
        injection hf with hf
        rw [← hf]
        exact if_neg hc

end Securefs.Dm
