import Verif.Proofs.DataSerial
import Verif.Spec.CutSerial
/-!
# All calls on the contents of a file, one after the other

An invariant over histories, with one case for calls that have taken their turn and one for all others.
-/

namespace Securefs.Cs

open Securefs Securefs.Spec Securefs.Mo Securefs.Dm

theorem leaves_still {id : Bytes} {m : Moment} (h : m.still) : m.leaves id := keeps_still h

theorem leaves_all {id : Bytes} {ms : List Moment} (h : AllStill ms) : ∀ m ∈ ms, m.leaves id := fun m hm => leaves_still (h m hm)

theorem leaves_rewrites {id id' : Bytes} {m : Moment} {g : Bytes → Bytes} (h : m.rewrites id' g) (hne : id ≠ id') : m.leaves id := keeps_rewrites h hne

/-- How a call has ended, for one file: on it, or not. -/
theorem ended {same : Bytes → Bytes → Bool} {id c : Bytes} {ms : List Moment} {m0 : Moment} {v : Int} {op : FullOp} (h : DataEffect same (ms ++ [m0]) v op)
    (hms : ∀ m ∈ ms, m.leaves id) (hc : contents m0.1 id = some c) :
    (OnFile same id ms op ∧ contents m0.2 id = some (cutStep c op) ∧ (¬ onData id op → v = 0)) ∨ (m0.leaves id ∧ ¬ onData id op) := by
  have single : ∀ {m : Moment}, ms ++ [m0] = [m] → ms = [] ∧ m0 = m := by
    intro m h
    cases ms with
    | nil => exact ⟨rfl, by injection h⟩
    | cons x l =>
      have := congrArg List.length h
      simp at this
  have last : AllStill (ms ++ [m0]) → m0.leaves id := fun h => leaves_still (h m0 (List.mem_append_right _ (List.mem_singleton.mpr rfl)))
  have found : ∀ {P : List Moment → Moment → Prop}, OnceData (ms ++ [m0]) P → m0.leaves id ∨ P ms m0 := by
    rintro P ⟨a, m, b, he, _, hb, hm⟩
    rcases List.eq_nil_or_concat b with rfl | ⟨b', x, rfl⟩
    · obtain ⟨h1, h2⟩ := List.append_inj' he rfl
      injection h2 with h2 _
      subst h1 h2
      exact .inr hm
    · refine .inl (leaves_still (hb m0 ?_))
      rw [List.concat_eq_append] at he ⊢
      have he' : ms ++ [m0] = (a ++ m :: b') ++ [x] := by rw [he]; simp
      obtain ⟨_, h2⟩ := List.append_inj' he' rfl
      injection h2 with h2 _
      rw [h2]
      exact List.mem_append_right _ (List.mem_singleton.mpr rfl)
  have rewr : ∀ {id' : Bytes} {g : Bytes → Bytes}, m0.rewrites id' g → id' = id → contents m0.2 id = some (g c) := by
    rintro id' g ⟨⟨b, h1, h2⟩, _⟩ rfl
    rw [hc] at h1
    injection h1 with h1
    rw [h2, h1]
  cases op with
  | write hd off d =>
    obtain ⟨_, m, he, hm⟩ := h
    obtain ⟨rfl, rfl⟩ := single he
    by_cases hid : hd.id = id
    · exact .inl ⟨⟨hid, rfl⟩, rewr hm hid, fun h => absurd hid h⟩
    · exact .inr ⟨leaves_rewrites hm fun e => hid e.symm, hid⟩
  | ftruncate hd n =>
    obtain ⟨_, m, he, hm⟩ := h
    obtain ⟨rfl, rfl⟩ := single he
    by_cases hid : hd.id = id
    · exact .inl ⟨⟨hid, rfl⟩, rewr hm hid, fun h => absurd hid h⟩
    · exact .inr ⟨leaves_rewrites hm fun e => hid e.symm, hid⟩
  | read hd off len =>
    obtain ⟨hs, m, b, he, _⟩ := h
    have hl := last hs
    obtain ⟨rfl, rfl⟩ := single he
    by_cases hid : hd.id = id
    · exact .inl ⟨⟨hid, rfl⟩, hl c hc, fun h => absurd hid h⟩
    · exact .inr ⟨hl, hid⟩
  | truncate p n =>
    rcases h with ⟨hv, h⟩ | ⟨_, h⟩
    · rcases found h with h | ⟨id', hf, hm⟩
      · exact .inr ⟨h, fun h => h⟩
      · by_cases hid : id' = id
        · subst hid
          exact .inl ⟨hf, rewr hm rfl, fun _ => hv⟩
        · exact .inr ⟨leaves_rewrites hm fun e => hid e.symm, fun h => h⟩
    · exact .inr ⟨last h, fun h => h⟩
  | «open» p tr =>
    cases tr with
    | false => exact .inr ⟨last h, fun h => h⟩
    | true =>
      rcases h with ⟨hv, h⟩ | ⟨_, h⟩
      · rcases found h with h | ⟨id', hf, hm⟩
        · exact .inr ⟨h, fun h => h⟩
        · by_cases hid : id' = id
          · subst hid
            exact .inl ⟨hf, rewr hm rfl, fun _ => hv⟩
          · exact .inr ⟨leaves_rewrites hm fun e => hid e.symm, fun h => h⟩
      · exact .inr ⟨last h, fun h => h⟩
  | symlink t f u g i =>
    have hv := h.1
    rcases found h.2 with h | hm
    · exact .inr ⟨h, fun h => h⟩
    · by_cases hid : i = id
      · exact .inl ⟨hid, rewr hm hid, fun _ => hv⟩
      · exact .inr ⟨leaves_rewrites hm fun e => hid e.symm, fun h => h⟩
  | create p m u g i => exact .inr ⟨last h, fun h => h⟩
  | mkdir p m u g i => exact .inr ⟨last h, fun h => h⟩
  | unlink p => exact .inr ⟨last h, fun h => h⟩
  | rmdir p => exact .inr ⟨last h, fun h => h⟩
  | link s d => exact .inr ⟨last h, fun h => h⟩
  | rename f t => exact .inr ⟨last h, fun h => h⟩
  | chmod p m => exact .inr ⟨last h, fun h => h⟩
  | chown p u g => exact .inr ⟨last h, fun h => h⟩
  | utimens p ga ts => exact .inr ⟨last h, fun h => h⟩
  | getattr p => exact .inr ⟨last h, fun h => h⟩
  | readlink p n => exact .inr ⟨last h, fun h => h⟩
  | opendir p => exact .inr ⟨last h, fun h => h⟩
  | fgetattr h' => exact .inr ⟨last h, fun h => h⟩
  | readdir h' fill => exact .inr ⟨last h, fun h => h⟩
  | flush h' => exact .inr ⟨last h, fun h => h⟩
  | fsync h' => exact .inr ⟨last h, fun h => h⟩

theorem cutTurn_snoc (b : Bytes) (o : List (Nat × FullOp)) (x : Nat × FullOp) : cutTurn b (o ++ [x]) = cutStep (cutTurn b o) x.2 := by
  unfold cutTurn
  rw [List.foldl_append]
  rfl

/-- A call that has taken its turn. -/
def Taken (cfg : FsCfg) (id b : Bytes) (order : List (Nat × FullOp)) (i : Nat) (op : FullOp) (t : Option (Prog Int)) (ms : List Moment) : Prop :=
  ∃ k a m v, order[k]? = some (i, op) ∧ ms = a ++ [m] ∧ OnFile cfg.same id a op ∧ (∀ m' ∈ a, m'.leaves id) ∧ contents m.1 id = some (cutTurn b (order.take k)) ∧
    contents m.2 id = some (cutTurn b (order.take (k + 1))) ∧ t = some (.ret v) ∧ Ran (op.prog cfg) (a ++ [m]) (.ok v) ∧ (¬ onData id op → v = 0)

/-- A call that has not: it goes on as the rest of its program does, or has ended without a turn. -/
structure Waits (cfg : FsCfg) (id : Bytes) (op : FullOp) (p : Prog Int) (ms : List Moment) : Prop where
  left : ∀ m ∈ ms, m.leaves id
  more : Always p fun ms' r => DataR cfg.same op (ms ++ ms') r
  ran : ∀ ms' v, Ran p ms' (.ok v) → Ran (op.prog cfg) (ms ++ ms') (.ok v)
  not : onData id op → ∀ v, p ≠ .ret v

def Stand (cfg : FsCfg) (id b : Bytes) (order : List (Nat × FullOp)) (i : Nat) (op : FullOp) (t : Option (Prog Int)) (ms : List Moment) : Prop :=
  Taken cfg id b order i op t ms ∨ (i ∉ order.map Prod.fst ∧ ∃ p, t = some p ∧ Waits cfg id op p ms)

theorem Stand.later {cfg : FsCfg} {id b : Bytes} {order : List (Nat × FullOp)} {i : Nat} {op : FullOp} {t : Option (Prog Int)} {ms : List Moment}
    (h : Stand cfg id b order i op t ms) {x : Nat × FullOp} (hx : x.1 ≠ i) : Stand cfg id b (order ++ [x]) i op t ms := by
  rcases h with ⟨k, a, m, v, h1, h2, h3, h3', h4, h5, h6⟩ | ⟨h1, h2⟩
  · have hk := started_lt' h1
    refine .inl ⟨k, a, m, v, ?_, h2, h3, h3', ?_, ?_, h6⟩
    · rw [List.getElem?_append_left hk]; exact h1
    · rw [List.take_append_of_le_length (Nat.le_of_lt hk)]; exact h4
    · rw [List.take_append_of_le_length hk]; exact h5
  · refine .inr ⟨fun h3 => ?_, h2⟩
    rw [List.map_append, List.mem_append] at h3
    rcases h3 with h3 | h3
    · exact h1 h3
    · exact hx (List.mem_singleton.mp h3).symm

theorem Stand.there {cfg : FsCfg} {id b : Bytes} {order : List (Nat × FullOp)} {i : Nat} {op : FullOp} {t : Option (Prog Int)} {ms : List Moment}
    (h : Stand cfg id b order i op t ms) : ∃ p, t = some p := by
  rcases h with ⟨_, _, _, v, _, _, _, _, _, _, h, _⟩ | ⟨_, p, h, _⟩ <;> exact ⟨_, h⟩

/-- What holds after any events. -/
structure Inv (cfg : FsCfg) (fs : FullFs) (evs : List FullEvent) (id b : Bytes) (order : List (Nat × FullOp)) : Prop where
  count : (FullSys.run cfg ⟨fs, []⟩ evs).threads.length = (started evs).length
  once : (order.map Prod.fst).Nodup
  known : ∀ x ∈ order, (started evs)[x.1]? = some x.2
  stand : ∀ i op, (started evs)[i]? = some op → Stand cfg id b order i op (FullSys.run cfg ⟨fs, []⟩ evs).threads[i]? (moments cfg i ⟨fs, []⟩ evs)
  silent : ∀ i, (started evs).length ≤ i → moments cfg i ⟨fs, []⟩ evs = []
  ends : contents (FullSys.run cfg ⟨fs, []⟩ evs).fs id = some (cutTurn b order)
  time : ∀ evs1 evs2, evs = evs1 ++ evs2 → ∀ x y, x ∈ order → y ∈ order → Returned (FullSys.run cfg ⟨fs, []⟩ evs1) x.1 →
    (started evs1).length ≤ y.1 → ∃ p q : Nat, p < q ∧ order[p]? = some x ∧ order[q]? = some y

/-- The times after one more event that adds no call to the order. -/
theorem time_same {cfg : FsCfg} {fs : FullFs} {evs : List FullEvent} {id b : Bytes} {order : List (Nat × FullOp)} (h : Inv cfg fs evs id b order) (e : FullEvent) :
    ∀ evs1 evs2, evs ++ [e] = evs1 ++ evs2 → ∀ x y, x ∈ order → y ∈ order → Returned (FullSys.run cfg ⟨fs, []⟩ evs1) x.1 →
      (started evs1).length ≤ y.1 → ∃ p q : Nat, p < q ∧ order[p]? = some x ∧ order[q]? = some y := by
  intro evs1 evs2 he x y hx hy hr hl
  rcases snoc_split he with ⟨_, h1⟩ | ⟨c, _, h1⟩
  · exfalso
    have := started_lt (h.known y hy)
    rw [h1, started_append, List.length_append] at hl
    omega
  · exact h.time evs1 c h1 x y hx hy hr hl

/-- One more event that is not a request, and adds no call to the order. -/
theorem Inv.same {cfg : FsCfg} {fs : FullFs} {evs : List FullEvent} {id b : Bytes} {order : List (Nat × FullOp)} (h : Inv cfg fs evs id b order) {e : FullEvent}
    (hs : ∀ op, e ≠ .start op) (hk : contents ((FullSys.run cfg ⟨fs, []⟩ evs).step cfg e).fs id = some (cutTurn b order))
    (ht : ∀ i op, (started evs)[i]? = some op → Stand cfg id b order i op (FullSys.run cfg ⟨fs, []⟩ evs).threads[i]? (moments cfg i ⟨fs, []⟩ evs) →
      Stand cfg id b order i op ((FullSys.run cfg ⟨fs, []⟩ evs).step cfg e).threads[i]? (moments cfg i ⟨fs, []⟩ evs ++ momentOf cfg i (FullSys.run cfg ⟨fs, []⟩ evs) e)) :
    Inv cfg fs (evs ++ [e]) id b order where
  count := by rw [run_snoc, step_length cfg _ e hs, started_snoc hs]; exact h.count
  once := h.once
  known := by rw [started_snoc hs]; exact h.known
  stand := fun i op hi => by
    rw [started_snoc hs] at hi
    rw [run_snoc, moments_snoc]
    exact ht i op hi (h.stand i op hi)
  silent := fun i hi => by
    rw [started_snoc hs] at hi
    rw [moments_snoc, h.silent i hi, momentOf_none (by rw [h.count]; exact hi)]
    rfl
  ends := by rw [run_snoc]; exact hk
  time := time_same h e

/-- Threads stand as they stood if an event is none of theirs. -/
theorem Stand.other {cfg : FsCfg} {id b : Bytes} {order : List (Nat × FullOp)} {i : Nat} {op : FullOp} {s : FullSys} {ms : List Moment}
    (h : Stand cfg id b order i op s.threads[i]? ms) {e : FullEvent} (h1 : (s.step cfg e).threads[i]? = s.threads[i]?) (h2 : momentOf cfg i s e = []) :
    Stand cfg id b order i op (s.step cfg e).threads[i]? (ms ++ momentOf cfg i s e) := by
  rw [h1, h2, List.append_nil]; exact h

/-- Events that are neither requests nor of threads. -/
theorem Inv.around {cfg : FsCfg} {fs : FullFs} {evs : List FullEvent} {id b : Bytes} {order : List (Nat × FullOp)} (h : Inv cfg fs evs id b order) {e : FullEvent}
    (hs : ∀ op, e ≠ .start op) (h1 : ∀ i, e ≠ .step i) (h2 : ∀ i er, e ≠ .fail i er)
    (hk : contents ((FullSys.run cfg ⟨fs, []⟩ evs).step cfg e).fs id = contents (FullSys.run cfg ⟨fs, []⟩ evs).fs id) : Inv cfg fs (evs ++ [e]) id b order := by
  refine h.same hs (by rw [hk]; exact h.ends) fun i op _ ht => ?_
  obtain ⟨p, hp⟩ := ht.there
  obtain ⟨h3, h4⟩ := step_other (cfg := cfg) hp e (h1 i) (h2 i)
  exact ht.other (by rw [h3, hp]) h4

theorem ran_throw {e : Err} {ms : List Moment} {v : Int} (h : Ran (.throw e) ms (.ok v)) : False := by cases h

/-- A call that is made to fail between two sections, or whose section fails. -/
theorem Waits.throws {cfg : FsCfg} {id : Bytes} {op : FullOp} {ms : List Moment} (e : Err) (h : AllStill ms) : Waits cfg id op (.throw e) ms where
  left := leaves_all h
  more := by
    show AllStill (ms ++ [])
    rw [List.append_nil]
    exact h
  ran := fun _ _ h => (ran_throw h).elim
  not := fun _ _ h => nomatch h

theorem Inv.fail {cfg : FsCfg} {fs : FullFs} {evs : List FullEvent} {id b : Bytes} {order : List (Nat × FullOp)} (h : Inv cfg fs evs id b order) (j : Nat) (e : Err) :
    Inv cfg fs (evs ++ [.fail j e]) id b order := by
  refine h.same (fun _ h => nomatch h) ?_ fun i op _ ht => ?_
  · have : ((FullSys.run cfg ⟨fs, []⟩ evs).step cfg (.fail j e)).fs = (FullSys.run cfg ⟨fs, []⟩ evs).fs := by
      unfold FullSys.step
      dsimp only
      split <;> rfl
    rw [this]; exact h.ends
  · obtain ⟨p, hp⟩ := ht.there
    by_cases hj : j = i
    · subst hj
      cases p with
      | ret a =>
        obtain ⟨h3, h4⟩ := step_ended (cfg := cfg) hp (fun _ _ _ h => nomatch h) (.fail j e)
        exact ht.other (by rw [h3, hp]) h4
      | throw e' =>
        obtain ⟨h3, h4⟩ := step_ended (cfg := cfg) hp (fun _ _ _ h => nomatch h) (.fail j e)
        exact ht.other (by rw [h3, hp]) h4
      | sec f k =>
        have h3 : ((FullSys.run cfg ⟨fs, []⟩ evs).step cfg (.fail j e)).threads[j]? = some (.throw e) := by
          unfold FullSys.step
          dsimp only
          rw [hp]
          exact List.getElem?_set_self (started_lt' hp)
        rw [h3]
        show Stand _ _ _ _ _ _ _ (_ ++ [])
        rw [List.append_nil]
        rw [hp] at ht
        rcases ht with ⟨_, _, _, v, _, _, _, _, _, _, h, _⟩ | ⟨h1, p, h2, h4⟩
        · cases h
        · injection h2 with h2
          subst h2
          have : AllStill _ := h4.more.1
          rw [List.append_nil] at this
          exact .inr ⟨h1, _, rfl, .throws e this⟩
    · obtain ⟨h3, h4⟩ := step_other (cfg := cfg) hp (.fail j e) (fun h => nomatch h) (fun e' h => by injection h with h; exact hj h)
      exact ht.other (by rw [h3, hp]) h4

/-- No program of a call on a handle is a result at once. -/
theorem prog_not {cfg : FsCfg} {id : Bytes} {op : FullOp} (h : onData id op) (v : Int) : op.prog cfg ≠ .ret v := by
  obtain ⟨β, f, ans, hsh, _⟩ := one_section (cfg := cfg) h
  rw [hsh]
  exact fun h => nomatch h

theorem Inv.start {cfg : FsCfg} {fs : FullFs} {evs : List FullEvent} {id b : Bytes} {order : List (Nat × FullOp)} (h : Inv cfg fs evs id b order) (op : FullOp) :
    Inv cfg fs (evs ++ [.start op]) id b order where
  count := by
    rw [run_snoc, started_append]
    show ((FullSys.run cfg ⟨fs, []⟩ evs).threads ++ [op.prog cfg]).length = _
    rw [List.length_append, List.length_append, h.count]
    rfl
  once := h.once
  known := fun x hx => by
    have h1 := h.known x hx
    rw [started_append, List.getElem?_append_left (started_lt h1)]
    exact h1
  stand := fun i op' hi => by
    rw [run_snoc, moments_snoc]
    rw [started_append] at hi
    by_cases hlt : i < (started evs).length
    · rw [List.getElem?_append_left hlt] at hi
      have ht := h.stand i op' hi
      obtain ⟨p, hp⟩ := ht.there
      obtain ⟨h3, h4⟩ := step_other (cfg := cfg) hp (.start op) (fun h => nomatch h) (fun e' h => nomatch h)
      exact ht.other (by rw [h3, hp]) h4
    · have hle := Nat.le_of_not_lt hlt
      have hi2 := started_lt hi
      rw [List.length_append] at hi2
      have hi3 : i = (started evs).length := by
        have : (started [FullEvent.start op]).length = 1 := rfl
        omega
      subst hi3
      rw [List.getElem?_append_right hle, Nat.sub_self] at hi
      have hi4 : op = op' := by injection hi
      subst hi4
      have ht : ((FullSys.run cfg ⟨fs, []⟩ evs).step cfg (.start op)).threads[(started evs).length]? = some (op.prog cfg) := by
        show ((FullSys.run cfg ⟨fs, []⟩ evs).threads ++ [op.prog cfg])[_]? = _
        rw [← h.count, List.getElem?_append_right (Nat.le_refl _), Nat.sub_self]
        rfl
      rw [ht, h.silent _ hle]
      have hnot : (started evs).length ∉ order.map Prod.fst := by
        intro hm
        obtain ⟨x, hx, he⟩ := List.mem_map.mp hm
        have := started_lt (h.known x hx)
        omega
      exact .inr ⟨hnot, _, rfl, ⟨fun m hm => (List.not_mem_nil hm).elim, always_data cfg op, fun _ _ h => h, fun ho v => prog_not ho v⟩⟩
  silent := fun i hi => by
    rw [started_append, List.length_append] at hi
    rw [moments_snoc, h.silent i (by omega)]
    rfl
  ends := by rw [run_snoc]; exact h.ends
  time := time_same h _

/-- The last step of a call on the file: it is next in the order. -/
theorem Inv.next {cfg : FsCfg} {fs : FullFs} {evs : List FullEvent} {id b : Bytes} {order : List (Nat × FullOp)} (h : Inv cfg fs evs id b order) {i : Nat} {op : FullOp}
    (hi : (started evs)[i]? = some op) {β : Type} {f : Sec β} {k : β → Prog Int} (hp : (FullSys.run cfg ⟨fs, []⟩ evs).threads[i]? = some (.sec f k))
    (hnot : i ∉ order.map Prod.fst) (hw : Waits cfg id op (.sec f k) (moments cfg i ⟨fs, []⟩ evs)) {fs' : FullFs} {x : β} {v : Int}
    (hf : f (FullSys.run cfg ⟨fs, []⟩ evs).fs = (.ok x, fs')) (hk : k x = .ret v) (hon : OnFile cfg.same id (moments cfg i ⟨fs, []⟩ evs) op)
    (hc2 : contents fs' id = some (cutStep (cutTurn b order) op)) (hv : ¬ onData id op → v = 0) : Inv cfg fs (evs ++ [.step i]) id b (order ++ [(i, op)]) := by
  obtain ⟨s1, s2, s3⟩ := step_sec (cfg := cfg) hp
  rw [hf] at s1 s2 s3
  dsimp only at s1 s2 s3
  rw [hk] at s3
  have hstart : ∀ op', FullEvent.step i ≠ .start op' := fun _ h => nomatch h
  refine { count := ?_, once := ?_, known := ?_, stand := ?_, silent := ?_, ends := ?_, time := ?_ }
  · rw [run_snoc, step_length cfg _ _ hstart, started_snoc hstart]; exact h.count
  · rw [List.map_append]; exact nodup_snoc h.once hnot
  · rw [started_snoc hstart]
    intro y hy
    rcases List.mem_append.mp hy with hy | hy
    · exact h.known y hy
    · rw [List.mem_singleton.mp hy]; exact hi
  · intro j op' hj
    rw [started_snoc hstart] at hj
    rw [run_snoc, moments_snoc]
    by_cases hij : i = j
    · subst hij
      rw [hi] at hj
      injection hj with hj
      subst hj
      refine .inl ⟨order.length, moments cfg i ⟨fs, []⟩ evs, ((FullSys.run cfg ⟨fs, []⟩ evs).fs, fs'), v, ?_, ?_, hon, hw.left, ?_, ?_, s3, ?_, hv⟩
      · rw [List.getElem?_append_right (Nat.le_refl _), Nat.sub_self]; rfl
      · rw [s2]
      · rw [List.take_append_of_le_length (Nat.le_refl _), List.take_length]
        exact h.ends
      · rw [List.take_of_length_le (by rw [List.length_append]; exact Nat.le_refl _), cutTurn_snoc]
        exact hc2
      · refine hw.ran _ v (.go hf ?_)
        rw [hk]
        exact .ret v
    · have ht := h.stand j op' hj
      obtain ⟨p, hp⟩ := ht.there
      obtain ⟨h3, h4⟩ := step_other (cfg := cfg) hp (.step i) (fun h => by injection h with h; exact hij h) (fun e' h => nomatch h)
      exact (ht.other (by rw [h3, hp]) h4).later hij
  · intro j hj
    rw [started_snoc hstart] at hj
    rw [moments_snoc, h.silent j hj, momentOf_none (by rw [h.count]; exact hj)]
    rfl
  · rw [run_snoc, s1, cutTurn_snoc]
    exact hc2
  · intro evs1 evs2 he y z hy hz hr hl
    rcases snoc_split he with ⟨_, h1⟩ | ⟨c, _, h1⟩
    · exfalso
      rw [h1, started_snoc hstart] at hl
      rcases List.mem_append.mp hz with hz | hz
      · have := started_lt (h.known z hz)
        omega
      · rw [List.mem_singleton.mp hz] at hl
        have := started_lt hi
        dsimp only at hl
        omega
    · have hy' : y ∈ order := by
        rcases List.mem_append.mp hy with hy | hy
        · exact hy
        · exfalso
          rw [List.mem_singleton.mp hy] at hr
          have := returned_stays (cfg := cfg) c hr
          rw [← run_append, ← h1] at this
          obtain ⟨v, hv⟩ := this
          dsimp only at hv
          rw [hp] at hv
          cases hv
      rcases List.mem_append.mp hz with hz | hz
      · obtain ⟨p, q, h2, h3, h4⟩ := h.time evs1 c h1 y z hy' hz hr hl
        exact ⟨p, q, h2, by rw [List.getElem?_append_left (started_lt' h3)]; exact h3, by rw [List.getElem?_append_left (started_lt' h4)]; exact h4⟩
      · rw [List.mem_singleton.mp hz]
        obtain ⟨p, hp1, hp2⟩ := List.mem_iff_getElem.mp hy'
        refine ⟨p, order.length, hp1, ?_, ?_⟩
        · rw [List.getElem?_append_left hp1, List.getElem?_eq_getElem hp1, hp2]
        · rw [List.getElem?_append_right (Nat.le_refl _), Nat.sub_self]; rfl

theorem Inv.step {cfg : FsCfg} {fs : FullFs} {evs : List FullEvent} {id b : Bytes} {order : List (Nat × FullOp)} (h : Inv cfg fs evs id b order) (i : Nat) :
    ∃ order', Inv cfg fs (evs ++ [.step i]) id b order' := by
  have hstart : ∀ op', FullEvent.step i ≠ .start op' := fun _ h => nomatch h
  have others : ∀ j op', (started evs)[j]? = some op' → i ≠ j → Stand cfg id b order j op' (FullSys.run cfg ⟨fs, []⟩ evs).threads[j]? (moments cfg j ⟨fs, []⟩ evs) →
      Stand cfg id b order j op' ((FullSys.run cfg ⟨fs, []⟩ evs).step cfg (.step i)).threads[j]?
        (moments cfg j ⟨fs, []⟩ evs ++ momentOf cfg j (FullSys.run cfg ⟨fs, []⟩ evs) (.step i)) := by
    intro j op' _ hij ht
    obtain ⟨p, hp⟩ := ht.there
    obtain ⟨h3, h4⟩ := step_other (cfg := cfg) hp (.step i) (fun h => by injection h with h; exact hij h) (fun e' h => nomatch h)
    exact ht.other (by rw [h3, hp]) h4
  have idle : (∀ β f k, (FullSys.run cfg ⟨fs, []⟩ evs).threads[i]? ≠ some (.sec (β := β) f k)) → Inv cfg fs (evs ++ [.step i]) id b order := by
    intro hn
    refine h.same hstart ?_ fun j op' hj ht => ?_
    · have : (FullSys.run cfg ⟨fs, []⟩ evs).step cfg (.step i) = FullSys.run cfg ⟨fs, []⟩ evs := by
        show FullSys.stepThread _ i = _
        unfold FullSys.stepThread
        split
        · rename_i hc; exact absurd hc (hn _ _ _)
        · rfl
      rw [this]; exact h.ends
    · by_cases hij : i = j
      · subst hij
        obtain ⟨p, hp⟩ := ht.there
        obtain ⟨h3, h4⟩ := step_ended (cfg := cfg) hp (fun β f k hc => hn β f k (by rw [hp, hc])) (.step i)
        exact ht.other (by rw [h3, hp]) h4
      · exact others j op' hj hij ht
  cases hp : (FullSys.run cfg ⟨fs, []⟩ evs).threads[i]? with
  | none => exact ⟨order, idle fun β f k hc => by rw [hp] at hc; cases hc⟩
  | some p =>
    cases p with
    | ret a => exact ⟨order, idle fun β f k hc => by rw [hp] at hc; cases hc⟩
    | throw e => exact ⟨order, idle fun β f k hc => by rw [hp] at hc; cases hc⟩
    | sec f k =>
      have hlt : i < (started evs).length := by
        rw [← h.count]
        exact started_lt' hp
      have hi : (started evs)[i]? = some (started evs)[i] := List.getElem?_eq_getElem hlt
      have ht := h.stand i _ hi
      generalize (started evs)[i] = op at hi ht
      obtain ⟨s1, s2, s3⟩ := step_sec (cfg := cfg) hp
      rw [hp] at ht
      rcases ht with ⟨_, _, _, v, _, _, _, _, _, _, h1, _⟩ | ⟨hnot, p, h1, hw⟩
      · cases h1
      injection h1 with h1
      subst h1
      -- a step without a turn
      have wait : ∀ {q : Prog Int} {fs' : FullFs}, ((FullSys.run cfg ⟨fs, []⟩ evs).step cfg (.step i)).fs = fs' →
          ((FullSys.run cfg ⟨fs, []⟩ evs).step cfg (.step i)).threads[i]? = some q →
          momentOf cfg i (FullSys.run cfg ⟨fs, []⟩ evs) (.step i) = [((FullSys.run cfg ⟨fs, []⟩ evs).fs, fs')] →
          Moment.leaves id ((FullSys.run cfg ⟨fs, []⟩ evs).fs, fs') →
          Waits cfg id op q (moments cfg i ⟨fs, []⟩ evs ++ [((FullSys.run cfg ⟨fs, []⟩ evs).fs, fs')]) → Inv cfg fs (evs ++ [.step i]) id b order := by
        intro q fs' e1 e2 e3 hl hq
        refine h.same hstart ?_ fun j op' hj ht => ?_
        · rw [e1]
          exact hl _ h.ends
        · by_cases hij : i = j
          · subst hij
            rw [hi] at hj
            injection hj with hj
            subst hj
            rw [e2, e3]
            exact .inr ⟨hnot, q, rfl, hq⟩
          · exact others j op' hj hij ht
      have hm := hw.more.2 (FullSys.run cfg ⟨fs, []⟩ evs).fs
      have hr := hw.ran
      cases hf : f (FullSys.run cfg ⟨fs, []⟩ evs).fs with
      | mk r fs' =>
        rw [hf] at hm s1 s2 s3
        cases r with
        | error e =>
          have hst : AllStill (moments cfg i ⟨fs, []⟩ evs ++ [((FullSys.run cfg ⟨fs, []⟩ evs).fs, fs')]) := hm
          exact ⟨order, wait s1 s3 s2 (leaves_all hst _ (List.mem_append_right _ (List.mem_singleton.mpr rfl))) (.throws e hst)⟩
        | ok x =>
          dsimp only at hm s1 s2 s3
          have hran : ∀ ms' v, Ran (k x) ms' (.ok v) →
              Ran (op.prog cfg) ((moments cfg i ⟨fs, []⟩ evs ++ [((FullSys.run cfg ⟨fs, []⟩ evs).fs, fs')]) ++ ms') (.ok v) := by
            intro ms' v h1
            rw [List.append_assoc]
            exact hr _ v (.go hf h1)
          have hmore : Always (k x) fun ms' r => DataR cfg.same op ((moments cfg i ⟨fs, []⟩ evs ++ [((FullSys.run cfg ⟨fs, []⟩ evs).fs, fs')]) ++ ms') r :=
            hm.mono fun ms' r h1 => by rw [List.append_assoc]; exact h1
          have quiet : AllStill (moments cfg i ⟨fs, []⟩ evs ++ [((FullSys.run cfg ⟨fs, []⟩ evs).fs, fs')]) → (∀ v, k x ≠ .ret v) →
              Inv cfg fs (evs ++ [.step i]) id b order := fun hst hn =>
            wait s1 s3 s2 (leaves_all hst _ (List.mem_append_right _ (List.mem_singleton.mpr rfl))) ⟨leaves_all hst, hmore, hran, fun _ => hn⟩
          cases hkx : k x with
          | sec f' k' =>
            rw [hkx] at hmore
            have : AllStill _ := hmore.1
            rw [List.append_nil] at this
            exact ⟨order, quiet this fun v h => by rw [hkx] at h; cases h⟩
          | throw e =>
            rw [hkx] at hmore
            have : AllStill _ := hmore
            rw [List.append_nil] at this
            exact ⟨order, quiet this fun v h => by rw [hkx] at h; cases h⟩
          | ret v =>
            have hmore' := hmore
            rw [hkx] at hmore
            have hd : DataEffect cfg.same _ v op := hmore
            rw [List.append_nil] at hd
            rcases ended hd hw.left h.ends with ⟨h1, h2, h3⟩ | ⟨h1, h2⟩
            · exact ⟨_, h.next hi hp hnot hw hf hkx h1 h2 h3⟩
            · refine ⟨order, wait s1 s3 s2 h1 ⟨fun m hm => ?_, hmore', hran, fun ho => absurd ho h2⟩⟩
              rcases List.mem_append.mp hm with hm | hm
              · exact hw.left m hm
              · rw [List.mem_singleton.mp hm]; exact h1

/-- The invariant holds after all events. -/
theorem inv_all {cfg : FsCfg} {fs : FullFs} {id b : Bytes} (hb : contents fs id = some b) : ∀ (n : Nat) (evs : List FullEvent), evs.length = n →
    FullEvent.reap id ∉ evs → ∃ order, Inv cfg fs evs id b order
  | 0, evs, hn, _ => by
    have : evs = [] := List.length_eq_zero_iff.mp hn
    subst this
    exact ⟨[], ⟨rfl, List.nodup_nil, fun x hx => (List.not_mem_nil hx).elim, fun i op hi => (by simp [started] at hi), fun _ _ => rfl, hb,
      fun _ _ _ x _ hx => (List.not_mem_nil hx).elim⟩⟩
  | n + 1, evs, hn, hr => by
    rcases List.eq_nil_or_concat evs with rfl | ⟨evs', e, rfl⟩
    · cases hn
    · rw [List.concat_eq_append] at hn hr ⊢
      rw [List.length_append] at hn
      obtain ⟨order, h⟩ := inv_all hb n evs' (by simpa using hn) (fun hm => hr (List.mem_append_left _ hm))
      cases e with
      | start op => exact ⟨order, h.start op⟩
      | step i => exact h.step i
      | fail j e => exact ⟨order, h.fail j e⟩
      | tick now => exact ⟨order, h.around (fun _ h => nomatch h) (fun _ h => nomatch h) (fun _ _ h => nomatch h) rfl⟩
      | evict id' =>
        refine ⟨order, h.around (fun _ h => nomatch h) (fun _ h => nomatch h) (fun _ _ h => nomatch h) ?_⟩
        unfold FullSys.step
        dsimp only
        cases hg : (FullSys.run cfg ⟨fs, []⟩ evs').fs.get id' with
        | none => rfl
        | some n =>
          dsimp only
          rw [contents_set hg]
          split
          · rename_i he
            subst he
            rw [contents_get, hg]
            rfl
          · rfl
      | reap id' =>
        refine ⟨order, h.around (fun _ h => nomatch h) (fun _ h => nomatch h) (fun _ _ h => nomatch h) ?_⟩
        have hne : id' ≠ id := fun he => hr (List.mem_append_right _ (by rw [he]; exact List.mem_singleton.mpr rfl))
        unfold FullSys.step
        dsimp only
        split
        · rfl
        · split
          · exact contents_filter hne
          · rfl

theorem Inv.serial {cfg : FsCfg} {fs : FullFs} {evs : List FullEvent} {id b : Bytes} {order : List (Nat × FullOp)} (h : Inv cfg fs evs id b order) :
    CutSerial cfg fs evs id b order where
  once := h.once
  calls := fun i op hm => by
    have h1 := h.known _ hm
    refine ⟨h1, ?_⟩
    rcases h.stand i op h1 with ⟨_, _, _, v, _, _, _, _, _, _, h3, _⟩ | ⟨h3, _⟩
    · exact ⟨v, h3⟩
    · exact absurd (List.mem_map.mpr ⟨_, hm, rfl⟩) h3
  handles := fun i op hi ho ⟨v, hv⟩ => by
    rcases h.stand i op hi with ⟨k, _, _, _, h3, _⟩ | ⟨_, p, h3, h4⟩
    · exact List.mem_of_getElem? h3
    · rw [hv] at h3
      injection h3 with h3
      exact absurd h3.symm (h4.not ho v)
  others := fun i op hi hn => by
    rcases h.stand i op hi with ⟨k, _, _, _, h3, _⟩ | ⟨_, p, _, h4⟩
    · exact absurd (List.mem_map.mpr ⟨_, List.mem_of_getElem? h3, rfl⟩) hn
    · exact h4.left
  turn := fun k i op hk => by
    have hm := List.mem_of_getElem? hk
    have h1 := h.known _ hm
    rcases h.stand i op h1 with ⟨k', a, m, v, h3, h4, h5, h5', h6, h7, h8, h9⟩ | ⟨h3, _⟩
    · have hkk : k = k' := by
        have a1 : (order.map Prod.fst)[k]? = some i := by rw [List.getElem?_map, hk]; rfl
        have a2 : (order.map Prod.fst)[k']? = some i := by rw [List.getElem?_map, h3]; rfl
        exact (List.getElem?_inj (started_lt' a1) h.once).mp (by rw [a1, a2])
      subst hkk
      exact ⟨a, m, v, h4, h5, h5', h6, h7, h8, h9⟩
    · exact absurd (List.mem_map.mpr ⟨_, hm, rfl⟩) h3
  ends := h.ends
  time := h.time

end Securefs.Cs
