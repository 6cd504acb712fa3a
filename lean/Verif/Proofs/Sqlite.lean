import Verif.Spec.Sqlite
/-!
# Lemmas about the wrapper of SQLite
-/

namespace Securefs.Sql

open Spec

/-- Between two calls: the statement object has the statement that is there, and nothing else is in hand. -/
def InBody (s : St) (l : Option Live) : Prop :=
  s.holder = l.map (·.num) ∧ usage s.events = some ⟨.usable, prepared s.events, l.toList⟩

def Ext (s0 s : St) : Prop := ∃ t, s.events = t ++ s0.events ∧ ∀ e ∈ t, Fine e
def ExtF (s0 s : St) (c : Nat) : Prop := ∃ t, s.events = t ++ s0.events ∧ ∃ e ∈ t, Failed e c

/-- What a function does: it returns after calls that did what they should, or it throws the code of a call that did not. -/
def Out {α : Type} (s0 : St) (E : St → Prop) (P : α → St → Prop) (r : Except Ex α × St) : Prop :=
  match r with
  | (.ok a, s) => Ext s0 s ∧ P a s
  | (.error (.sqlite c), s) => ExtF s0 s c ∧ E s
  | (.error .running, s) => Ext s0 s ∧ E s
  | (.error .null, _) => False

theorem Ext.refl (s : St) : Ext s s := ⟨[], rfl, by simp⟩

theorem Ext.push {s0 s : St} (h : Ext s0 s) {e : Event} (he : Fine e) {o : Option Nat} : Ext s0 ⟨e :: s.events, o⟩ := by
  obtain ⟨t, h1, h2⟩ := h
  exact ⟨e :: t, by simp [h1], by simpa using ⟨he, fun a b => h2 (a, b)⟩⟩

theorem Ext.failed {s0 s : St} (h : Ext s0 s) {e : Event} {c : Nat} (he : Failed e c) {o : Option Nat} : ExtF s0 ⟨e :: s.events, o⟩ c := by
  obtain ⟨t, h1, _⟩ := h
  exact ⟨e :: t, by simp [h1], e, by simp, he⟩

theorem ExtF.push {s0 s : St} {c : Nat} (h : ExtF s0 s c) (e : Event) {o : Option Nat} : ExtF s0 ⟨e :: s.events, o⟩ c := by
  obtain ⟨t, h1, e', h2, h3⟩ := h
  exact ⟨e :: t, by simp [h1], e', List.mem_cons_of_mem _ h2, h3⟩

theorem Ext.holder {s0 s : St} (h : Ext s0 s) (o : Option Nat) : Ext s0 ⟨s.events, o⟩ := h
theorem ExtF.holder {s0 s : St} {c : Nat} (h : ExtF s0 s c) (o : Option Nat) : ExtF s0 ⟨s.events, o⟩ c := h

theorem out_bind {α β : Type} {s0 s : St} {E : St → Prop} {P : α → St → Prop} {Q : β → St → Prop} {x : M α} {f : α → M β}
    (h : Out s0 E P (x s)) (hf : ∀ a s', Ext s0 s' → P a s' → Out s0 E Q (f a s')) : Out s0 E Q ((x >>= f) s) := by
  show Out s0 E Q (andThen x f s)
  unfold andThen
  rcases hx : x s with ⟨_ | a, s'⟩
  · rw [hx] at h
    dsimp only
    rename_i e
    cases e <;> exact h
  · rw [hx] at h
    exact hf a s' h.1 h.2

theorem out_ret {α : Type} {s0 s : St} {E : St → Prop} {P : α → St → Prop} {a : α} (h : Ext s0 s) (hp : P a s) : Out s0 E P (ret a s) := ⟨h, hp⟩

theorem out_mono {α : Type} {s0 : St} {E E' : St → Prop} {P P' : α → St → Prop} {r : Except Ex α × St} (h : Out s0 E P r)
    (hE : ∀ s, E s → E' s) (hP : ∀ a s, P a s → P' a s) : Out s0 E' P' r := by
  rcases r with ⟨e | a, s⟩
  · cases e
    · exact ⟨h.1, hE _ h.2⟩
    · exact h
    · exact ⟨h.1, hE _ h.2⟩
  · exact ⟨h.1, hP _ _ h.2⟩

/-- Some statement or none. -/
def Some_ (s : St) : Prop := ∃ l, InBody s l

theorem usage_cons {s : St} {u : Usage} (h : usage s.events = some u) (a : Api) (r : Reply) : usage ((a, r) :: s.events) = u.next a r := by
  show (match usage s.events with | none => none | some u => u.next a r) = _
  rw [h]

theorem checked_eq (L : Lib) (a : Api) (s : St) : checked L a s =
    if (L s.events a).code ≠ 0 then (.error (.sqlite (L s.events a).code), ⟨(a, L s.events a) :: s.events, s.holder⟩)
    else (.ok (), ⟨(a, L s.events a) :: s.events, s.holder⟩) := by
  show andThen (call L a) (fun r => check r.code) s = _
  unfold andThen call check
  dsimp only
  split <;> rfl

/-- A checked call that is neither a step nor a column: what it needs is that it is allowed. -/
theorem checked_out {L : Lib} {a : Api} {s0 s : St} {E : St → Prop} {P : Unit → St → Prop} (h : Ext s0 s)
    (hfine : ∀ r, Fine (a, r) ↔ r.code = 0)
    (hok : ∀ r, r.code = 0 → P () ⟨(a, r) :: s.events, s.holder⟩) (herr : ∀ r, r.code ≠ 0 → E ⟨(a, r) :: s.events, s.holder⟩) :
    Out s0 E P (checked L a s) := by
  rw [checked_eq]
  split
  · rename_i hc
    exact ⟨h.failed ⟨fun hf => hc ((hfine _).mp hf), rfl⟩, herr _ hc⟩
  · rename_i hc
    have hc : (L s.events a).code = 0 := Classical.not_not.mp hc
    exact ⟨h.push ((hfine _).mpr hc), hok _ hc⟩

theorem prologue_none {L : Lib} {sql : Bytes} {s0 s : St} (h : Ext s0 s) (hb : InBody s none) :
    Out s0 Some_ (fun n s' => InBody s' (some ⟨n, paramCount sql, [], .ready⟩)) (prologue L sql s) := by
  obtain ⟨h1, h2⟩ := hb
  unfold prologue
  have h1 : s.holder = none := h1
  rw [h1]
  dsimp only
  have key := checked_out (L := L) (a := .prepare sql) (s0 := s0) (s := s) (E := Some_)
    (P := fun _ s' => InBody ⟨s'.events, some (prepared s.events)⟩ (some ⟨prepared s.events, paramCount sql, [], .ready⟩)) h (fun r => Iff.rfl)
    (fun r hr => ⟨rfl, by
      show usage ((_, r) :: s.events) = _
      rw [usage_cons h2]
      simp [Usage.next, hr, prepared]⟩)
    (fun r hr => ⟨none, h1, by
      show usage ((_, r) :: s.events) = _
      rw [usage_cons h2]
      simp [Usage.next, hr, prepared]⟩)
  rcases hc : checked L (.prepare sql) s with ⟨e | a, s'⟩
  · rw [hc] at key
    cases e <;> exact key
  · rw [hc] at key
    exact key

theorem prologue_some {L : Lib} {sql : Bytes} {s : St} {l : Live} (hb : InBody s (some l)) : prologue L sql s = (.ok l.num, s) := by
  have h1 : s.holder = some l.num := hb.1
  unfold prologue
  rw [h1]

theorem reset_none {L : Lib} {sql : Bytes} {s0 s : St} (h : Ext s0 s) (hb : InBody s none) :
    Out s0 Some_ (fun _ s' => ∃ n, InBody s' (some ⟨n, paramCount sql, [], .ready⟩)) (reset L sql s) := by
  have h1 : s.holder = none := hb.1
  unfold reset
  rw [h1]
  dsimp only
  exact out_bind (prologue_none h hb) fun n s' he hp => out_ret he ⟨n, hp⟩

theorem bind_checked {L : Lib} {column : Nat} {text : Bytes} {s0 s : St} {l : Live} (h : Ext s0 s) (hb : InBody s (some l))
    (hr : l.phase = .ready) (h1 : 1 ≤ column) (h2 : column ≤ l.params) :
    Out s0 Some_ (fun _ s' => InBody s' (some { l with bound := column :: l.bound })) (checked L (.bindText l.num column text) s) := by
  refine checked_out h (fun r => Iff.rfl) (fun r hc => ⟨hb.1, ?_⟩) (fun r hc => ⟨some l, hb.1, ?_⟩)
  · show usage ((_, r) :: s.events) = _
    rw [usage_cons hb.2]
    simp [Usage.next, Usage.next.change, hc, hr, h1, h2, prepared]
  · show usage ((_, r) :: s.events) = _
    rw [usage_cons hb.2]
    simp [Usage.next, Usage.next.change, hc, hr, h1, h2, prepared]

theorem bind_some {L : Lib} {sql : Bytes} {column : Nat} {text : Bytes} {s0 s : St} {l : Live} (h : Ext s0 s) (hb : InBody s (some l))
    (hr : l.phase = .ready) (h1 : 1 ≤ column) (h2 : column ≤ l.params) :
    Out s0 Some_ (fun _ s' => InBody s' (some { l with bound := column :: l.bound })) (bindText L sql column text s) := by
  unfold bindText
  refine out_bind (P := fun n s' => n = l.num ∧ s' = s) (by rw [prologue_some hb]; exact ⟨h, rfl, rfl⟩) ?_
  rintro n s' - ⟨rfl, rfl⟩
  exact bind_checked h hb hr h1 h2

theorem bind_none {L : Lib} {sql : Bytes} {column : Nat} {text : Bytes} {s0 s : St} (h : Ext s0 s) (hb : InBody s none) (h1 : 1 ≤ column)
    (h2 : column ≤ paramCount sql) :
    Out s0 Some_ (fun _ s' => ∃ n, InBody s' (some ⟨n, paramCount sql, [column], .ready⟩)) (bindText L sql column text s) := by
  unfold bindText
  refine out_bind (prologue_none h hb) fun n s' h' b' => ?_
  exact out_mono (bind_checked h' b' rfl h1 h2) (fun _ h => h) fun _ _ hh => ⟨n, hh⟩

/-- The phase after a step. -/
def phaseOf (b : Bool) : Phase := if b then .row else .done

theorem step_some {L : Lib} {sql : Bytes} {s0 s : St} {l : Live} (h : Ext s0 s) (hb : InBody s (some l))
    (hr : l.phase = .ready ∨ l.phase = .row) (hp : ∀ i, i < l.params → i + 1 ∈ l.bound) :
    Out s0 Some_ (fun b s' => InBody s' (some { l with phase := phaseOf b })) (step L sql s) := by
  unfold step
  refine out_bind (P := fun n s' => n = l.num ∧ s' = s) (by rw [prologue_some hb]; exact ⟨h, rfl, rfl⟩) ?_
  rintro n s' - ⟨rfl, rfl⟩
  have hu : ∀ r : Reply, usage ((Api.step l.num, r) :: s'.events) = some ⟨.usable, prepared s'.events,
      [{ l with phase := if r.code = 100 then .row else if r.code = 101 ∨ r.code = 0 then .done else .failed }]⟩ := by
    intro r
    rw [usage_cons hb.2]
    have : ∀ i ∈ List.range l.params, i + 1 ∈ l.bound := fun i hi => hp i (List.mem_range.mp hi)
    have hq : (l.phase = .ready ∨ l.phase = .row) ∧ ∀ i ∈ List.range l.params, i + 1 ∈ l.bound := ⟨hr, this⟩
    simp only [Usage.next, Usage.next.change, Option.toList_some, List.mem_singleton, exists_eq_left, forall_eq, true_and, forall_const, if_pos hq,
      List.map_cons, List.map_nil, if_true]
  show Out s0 Some_ _ (andThen (call L (.step l.num)) _ s')
  unfold andThen call
  dsimp only
  generalize L s'.events (.step l.num) = r at *
  by_cases h100 : r.code = 100
  · rw [if_pos h100]
    refine out_ret (h.push (show Fine (Api.step l.num, r) from Or.inl h100)) ⟨hb.1, ?_⟩
    rw [hu]
    simp [h100, phaseOf, prepared]
  · rw [if_neg h100]
    by_cases h101 : r.code = 101 ∨ r.code = 0
    · rw [if_pos h101]
      refine out_ret (h.push (show Fine (Api.step l.num, r) from Or.inr h101)) ⟨hb.1, ?_⟩
      rw [hu]
      simp [h100, h101, phaseOf, prepared]
    · rw [if_neg h101]
      have hf : Failed (Api.step l.num, r) r.code := ⟨fun hf => (show r.code = 100 ∨ r.code = 101 ∨ r.code = 0 from hf).elim h100 h101, rfl⟩
      refine ⟨h.failed hf, some { l with phase := .failed }, hb.1, ?_⟩
      rw [hu]
      simp [h100, h101, prepared]

theorem text_row {L : Lib} {s0 s : St} {l : Live} (h : Ext s0 s) (hb : InBody s (some l)) (hr : l.phase = .row) :
    Out s0 Some_ (fun _ s' => InBody s' (some l)) (getText L 0 s) := by
  have h1 : s.holder = some l.num := hb.1
  unfold getText
  rw [h1]
  dsimp only
  have hu : ∀ {s : St}, InBody s (some l) → ∀ a, a = Api.columnText l.num 0 ∨ a = Api.columnBytes l.num 0 → ∀ r,
      InBody ⟨(a, r) :: s.events, s.holder⟩ (some l) := by
    intro s hb a ha r
    refine ⟨hb.1, ?_⟩
    show usage ((a, r) :: s.events) = _
    rw [usage_cons hb.2]
    rcases ha with rfl | rfl <;> simp [Usage.next, Usage.next.change, hr, prepared]
  have h2 := hu hb _ (.inl rfl) (L s.events (.columnText l.num 0))
  have h3 := hu h2 _ (.inr rfl) (L ((.columnText l.num 0, L s.events (.columnText l.num 0)) :: s.events) (.columnBytes l.num 0))
  exact ⟨(h.push (e := (.columnText _ _, _)) trivial).push (e := (.columnBytes _ _, _)) trivial, h3⟩

theorem with_out {α : Type} {L : Lib} {body : M α} {s0 s : St} (hb : InBody s none)
    (h : Out s0 Some_ (fun _ s' => Some_ s') (body s)) :
    Out s0 (fun s' => InBody s' none) (fun _ s' => InBody s' none) (withStatement L body s) := by
  have h1 : s.holder = none := hb.1
  unfold withStatement
  have hs : ({ s with holder := none } : St) = s := by rw [← h1]
  rw [hs]
  dsimp only
  rw [h1]
  have fin : ∀ s' : St, Some_ s' → InBody ⟨(destroy L s').events, none⟩ none := by
    rintro s' ⟨l, hl1, hl2⟩
    unfold destroy
    cases l with
    | none =>
      have : s'.holder = none := hl1
      rw [this]
      exact ⟨rfl, hl2⟩
    | some l =>
      have : s'.holder = some l.num := hl1
      rw [this]
      refine ⟨rfl, ?_⟩
      show usage ((_, _) :: s'.events) = _
      rw [usage_cons hl2]
      simp [Usage.next, prepared]
  have ev : ∀ s' : St, ∃ t : List Event, (∀ e ∈ t, Fine e) ∧ (destroy L s').events = t ++ s'.events := by
    intro s'
    unfold destroy
    cases s'.holder with
    | none => exact ⟨[], by simp, rfl⟩
    | some x => exact ⟨[(.finalize x, _)], by simp [Fine], rfl⟩
  generalize body s = r at h
  obtain ⟨x, s'⟩ := r
  obtain ⟨t, ht, hev⟩ := ev s'
  have xe : Ext s0 s' → Ext s0 ⟨(destroy L s').events, none⟩ := fun ⟨t', e1, e2⟩ =>
    ⟨t ++ t', by rw [hev, e1, List.append_assoc], fun e he => (List.mem_append.mp he).elim (ht e) (e2 e)⟩
  have xf : ∀ c, ExtF s0 s' c → ExtF s0 ⟨(destroy L s').events, none⟩ c := fun c ⟨t', e1, e', e2, e3⟩ =>
    ⟨t ++ t', by rw [hev, e1, List.append_assoc], e', List.mem_append_right _ e2, e3⟩
  cases x with
  | ok a => exact ⟨xe h.1, fin s' h.2⟩
  | error ex =>
    cases ex with
    | sqlite c => exact ⟨xf c h.1, fin s' h.2⟩
    | null => exact h
    | running => exact ⟨xe h.1, fin s' h.2⟩

/-! ### The functions of the table -/

abbrev Idle (s : St) : Prop := InBody s none

theorem lookup_out {L : Lib} {hash : Bytes} {s0 s : St} (h : Ext s0 s) (hb : Idle s) : Out s0 Idle (fun _ s' => Idle s') (lookup L hash s) := by
  refine with_out hb ?_
  refine out_bind (reset_none h hb) ?_
  rintro _ s1 h1 ⟨n, b1⟩
  refine out_bind (bind_some h1 b1 rfl (Nat.le_refl 1) (by show 1 ≤ paramCount selectName; decide +kernel)) fun _ s2 h2 b2 => ?_
  refine out_bind (step_some h2 b2 (.inl rfl) fun i hi => ?_) fun b s3 h3 b3 => ?_
  · have : i < paramCount selectName := hi
    rw [show paramCount selectName = 1 by decide +kernel] at this
    simp [show i = 0 by omega]
  · cases b with
    | true => exact out_mono (text_row h3 b3 rfl) (fun _ h => h) fun _ _ h => ⟨_, h⟩
    | false => exact out_ret h3 ⟨_, b3⟩

theorem listLoop_out {L : Lib} {s0 : St} {n : Nat} : ∀ (fuel : Nat) (acc : List Bytes) (s : St) (ph : Phase), ph = .ready ∨ ph = .row → Ext s0 s →
    InBody s (some ⟨n, 0, [], ph⟩) → Out s0 Some_ (fun _ s' => Some_ s') (listLoop L fuel acc s) := by
  intro fuel
  induction fuel with
  | zero => intro acc s ph _ h hb; exact ⟨h, _, hb⟩
  | succ fuel ih =>
    intro acc s ph hph h hb
    refine out_bind (step_some h hb hph fun i hi => absurd hi (Nat.not_lt_zero i)) fun b s3 h3 b3 => ?_
    cases b with
    | true => exact out_bind (text_row h3 b3 rfl) fun t s4 h4 b4 => ih _ s4 .row (.inr rfl) h4 b4
    | false => exact out_ret h3 ⟨_, b3⟩

theorem list_out {L : Lib} {fuel : Nat} {s0 s : St} (h : Ext s0 s) (hb : Idle s) : Out s0 Idle (fun _ s' => Idle s') (listHashes L fuel s) := by
  refine with_out hb ?_
  refine out_bind (reset_none h hb) ?_
  rintro _ s1 h1 ⟨n, b1⟩
  rw [show paramCount selectHashes = 0 by decide +kernel] at b1
  exact listLoop_out fuel [] s1 .ready (.inl rfl) h1 b1

theorem update_out {L : Lib} {sql hash name : Bytes} {s0 s : St} (hsql : paramCount sql = 2) (h : Ext s0 s) (hb : Idle s) :
    Out s0 Idle (fun _ s' => Idle s') (update L sql hash name s) := by
  refine with_out hb ?_
  refine out_bind (reset_none h hb) ?_
  rintro _ s1 h1 ⟨n, b1⟩
  rw [hsql] at b1
  refine out_bind (bind_some h1 b1 rfl (Nat.le_refl 1) (show 1 ≤ 2 by decide)) fun _ s2 h2 b2 => ?_
  refine out_bind (bind_some h2 b2 rfl (by decide) (Nat.le_refl 2)) fun _ s3 h3 b3 => ?_
  refine out_bind (step_some h3 b3 (.inl rfl) fun i hi => ?_) fun b s4 h4 b4 => out_ret h4 ⟨_, b4⟩
  have : i < 2 := hi
  have : i = 0 ∨ i = 1 := by omega
  rcases this with rfl | rfl <;> simp

theorem remove_out {L : Lib} {hash : Bytes} {s0 s : St} (h : Ext s0 s) (hb : Idle s) : Out s0 Idle (fun _ s' => Idle s') (remove L hash s) := by
  refine with_out hb ?_
  refine out_bind (reset_none h hb) ?_
  rintro _ s1 h1 ⟨n, b1⟩
  rw [show paramCount deleteMain = 1 by decide +kernel] at b1
  refine out_bind (bind_some h1 b1 rfl (Nat.le_refl 1) (Nat.le_refl 1)) fun _ s2 h2 b2 => ?_
  refine out_bind (step_some h2 b2 (.inl rfl) fun i hi => ?_) fun b s4 h4 b4 => out_ret h4 ⟨_, b4⟩
  have : i < 1 := hi
  simp [show i = 0 by omega]

theorem op_out {L : Lib} (op : Op) {s0 s : St} (h : Ext s0 s) (hb : Idle s) : Out s0 Idle (fun _ s' => Idle s') (op.run L s) := by
  cases op with
  | lookup hash => exact out_bind (lookup_out h hb) fun v s' h' b' => out_ret h' b'
  | list fuel => exact list_out h hb
  | update other hash name =>
    refine out_bind (update_out ?_ h hb) fun v s' h' b' => out_ret h' b'
    cases other <;> decide +kernel
  | remove hash => exact out_bind (remove_out h hb) fun v s' h' b' => out_ret h' b'

theorem ops_out {L : Lib} {s0 : St} : ∀ (ops : List Op) (s : St), Ext s0 s → Idle s → Out s0 Idle (fun _ s' => Idle s') (runOps L ops s) := by
  intro ops
  induction ops with
  | nil => intro s h hb; exact out_ret h hb
  | cons op rest ih =>
    intro s h hb
    refine out_bind (op_out op h hb) fun r s1 h1 b1 => ?_
    exact out_bind (ih s1 h1 b1) fun rs s2 h2 b2 => out_ret h2 b2

/-- A checked call on the connection while no statement is there. -/
theorem conn_out {L : Lib} {a : Api} (ha : (∃ sql, a = .exec sql) ∨ ∃ ms, a = .timeout ms) {s0 s : St} (h : Ext s0 s) (hb : Idle s) :
    Out s0 Idle (fun _ s' => Idle s') (checked L a s) := by
  have key : ∀ r, Idle ⟨(a, r) :: s.events, s.holder⟩ := by
    intro r
    refine ⟨hb.1, ?_⟩
    show usage ((a, r) :: s.events) = _
    rw [usage_cons hb.2]
    rcases ha with ⟨_, rfl⟩ | ⟨_, rfl⟩ <;> simp [Usage.next, prepared]
  refine checked_out h (fun r => ?_) (fun r _ => key r) fun r _ => key r
  rcases ha with ⟨_, rfl⟩ | ⟨_, rfl⟩ <;> exact Iff.rfl

theorem out_idle {α : Type} {s0 : St} {r : Except Ex α × St} (h : Out s0 Idle (fun _ s' => Idle s') r) : Idle r.2 := by
  rcases r with ⟨e | a, s⟩
  · cases e
    · exact h.2
    · exact h.elim
    · exact h.2
  · exact h.2

theorem finish_idle {L : Lib} {b : Bool} {s : St} (hb : Idle s) : Idle (finish L b s).2 := by
  have h := out_idle (conn_out (L := L) (a := .exec (literal (if b then "rollback" else "commit"))) (.inl ⟨_, rfl⟩) (Ext.refl s) hb)
  exact h

theorem section_idle {L : Lib} (c : Section) {s : St} (hb : Idle s) : Idle (c.run L s).2 := by
  unfold Section.run
  have h := conn_out (L := L) (a := .exec (literal "begin;")) (.inl ⟨_, rfl⟩) (Ext.refl s) hb
  have h : Out s Idle (fun _ s' => Idle s') (begin_ L s) := h
  rcases hx : begin_ L s with ⟨e | a, s'⟩
  · rw [hx] at h
    have := out_idle h
    exact this
  · rw [hx] at h
    exact finish_idle (out_idle (ops_out c.ops s' h.1 h.2))

theorem sections_idle {L : Lib} : ∀ (cs : List Section) {s : St}, Idle s → Idle (runSections L cs s).2 := by
  intro cs
  induction cs with
  | nil => intro s hb; exact hb
  | cons c rest ih => intro s hb; exact ih (section_idle c hb)

theorem setUp_out {L : Lib} (kind : Option (Option Bytes)) {s0 s : St} (h : Ext s0 s) (hb : Idle s) :
    Out s0 Idle (fun _ s' => Idle s') (setUp L kind s) := by
  match kind with
  | none => exact conn_out (.inr ⟨_, rfl⟩) h hb
  | some none => exact out_bind (conn_out (.inl ⟨_, rfl⟩) h hb) fun _ s1 h1 b1 => conn_out (.inr ⟨_, rfl⟩) h1 b1
  | some (some other) =>
    refine out_bind (conn_out (.inr ⟨_, rfl⟩) h hb) fun _ s1 h1 b1 => ?_
    refine out_bind (with_out b1 ?_) fun _ s2 h2 b2 => conn_out (.inl ⟨_, rfl⟩) h2 b2
    refine out_bind (bind_none h1 b1 (Nat.le_refl 1) (by decide +kernel)) ?_
    rintro _ s3 h3 ⟨n, b3⟩
    rw [show paramCount attach = 1 by decide +kernel] at b3
    refine out_bind (step_some h3 b3 (.inl rfl) fun i hi => ?_) fun b s4 h4 b4 => out_ret h4 ⟨_, b4⟩
    have : i < 1 := hi
    simp [show i = 0 by omega]

end Securefs.Sql
