import Verif.Proofs.Sqlite
/-!
# Lemmas about the rows of the table of long names
-/

namespace Securefs.Sql

open Spec

/-- What a function does if it returns. -/
def OkP {α : Type} (P : α → St → Prop) (r : Except Ex α × St) : Prop := ∀ a s, r = (.ok a, s) → P a s

theorem okp_ret {α : Type} {P : α → St → Prop} {a : α} {s : St} (h : P a s) : OkP P (ret a s) := by
  intro a' s' e
  cases e
  exact h

theorem okp_bind {α β : Type} {P : α → St → Prop} {Q : β → St → Prop} {x : M α} {f : α → M β} {s : St} (h : OkP P (x s))
    (hf : ∀ a s', P a s' → OkP Q (f a s')) : OkP Q ((x >>= f) s) := by
  show OkP Q (andThen x f s)
  unfold andThen
  rcases hx : x s with ⟨_ | a, s'⟩
  · intro a s e; cases e
  · exact hf a s' (h a s' hx)

/-! ### The statements of the specification are those of the usage -/

theorem jobs_live (start : Rows2) : ∀ (ev : List Event) (u : Usage), usage ev = some u →
    (sqlContents start ev).jobs.map Job.num = u.live.map Live.num ∧ (sqlContents start ev).made = u.made ∧ u.made = prepared ev := by
  intro ev
  induction ev with
  | nil => intro u h; cases h; exact ⟨rfl, rfl, rfl⟩
  | cons e rest ih =>
    obtain ⟨a, r⟩ := e
    intro u h
    have h' : (match usage rest with | none => none | some u => u.next a r) = some u := h
    cases hu : usage rest with
    | none => rw [hu] at h'; cases h'
    | some v =>
      rw [hu] at h'
      obtain ⟨i1, i2, i3⟩ := ih v hu
      have mp : ∀ (f : Job → Job) (g : Live → Live) (h : Nat), (∀ j, (f j).num = j.num) → (∀ l, (g l).num = l.num) →
          ((sqlContents start rest).jobs.map fun j => if j.num = h then f j else j).map Job.num
            = (v.live.map fun l => if l.num = h then g l else l).map Live.num := by
        intro f g h hf hg
        rw [List.map_map, List.map_map]
        have e1 : (Job.num ∘ fun j => if j.num = h then f j else j) = Job.num := by funext j; simp only [Function.comp]; split <;> simp [hf]
        have e2 : (Live.num ∘ fun l => if l.num = h then g l else l) = Live.num := by funext j; simp only [Function.comp]; split <;> simp [hg]
        rw [e1, e2, i1]
      have mp' : ∀ (g : Live → Live) (h : Nat), (∀ l, (g l).num = l.num) →
          (sqlContents start rest).jobs.map Job.num = (v.live.map fun l => if l.num = h then g l else l).map Live.num := by
        intro g h hg
        have := mp id g h (fun _ => rfl) hg
        rw [← this]
        congr 1
        rw [show (fun j : Job => if j.num = h then id j else j) = id by funext j; simp, List.map_id]
      have flt : ∀ h : Nat, ((sqlContents start rest).jobs.filter fun j => j.num != h).map Job.num = (v.live.filter fun l => l.num != h).map Live.num := by
        intro h
        have e1 : ((sqlContents start rest).jobs.filter fun j => j.num != h).map Job.num = ((sqlContents start rest).jobs.map Job.num).filter (· != h) := by
          rw [List.filter_map]; rfl
        have e2 : (v.live.filter fun j => j.num != h).map Live.num = (v.live.map Live.num).filter (· != h) := by
          rw [List.filter_map]; rfl
        rw [e1, e2, i1]
      show ((sqlContents start rest).next (a, r)).jobs.map Job.num = _ ∧ ((sqlContents start rest).next (a, r)).made = _ ∧ _
      have h' : v.next a r = some u := h'
      clear h
      cases a with
      | opening f fl =>
        simp only [Usage.next] at h'
        split at h' <;> cases h'
        exact ⟨i1, i2, i3⟩
      | close =>
        simp only [Usage.next] at h'
        split at h' <;> cases h'
        exact ⟨i1, i2, i3⟩
      | timeout ms =>
        simp only [Usage.next] at h'
        split at h' <;> cases h'
        exact ⟨i1, i2, i3⟩
      | exec sql =>
        simp only [Usage.next] at h'
        split at h' <;> cases h'
        refine ⟨?_, ?_, i3⟩ <;> simp only [Base.next] <;> repeat' split
        all_goals first | exact i1 | exact i2
      | prepare sql =>
        simp only [Usage.next] at h'
        by_cases hc : r.code = 0
        · simp only [hc, if_true] at h'
          split at h' <;> cases h'
          simp [Base.next, hc, i1, i2, i3, prepared]
        · simp only [hc, if_false] at h'
          split at h' <;> cases h'
          simp [Base.next, hc, i1, i2, i3, prepared]
      | reset h =>
        simp only [Usage.next, Usage.next.change] at h'
        split at h' <;> cases h'
        exact ⟨mp' _ h fun _ => rfl, i2, i3⟩
      | bindText h column text =>
        simp only [Usage.next, Usage.next.change] at h'
        split at h' <;> cases h'
        by_cases hc : r.code = 0
        · simp only [Base.next, hc, if_true]
          exact ⟨mp _ (fun l => { l with bound := column :: l.bound }) h (fun _ => rfl) fun _ => rfl, i2, i3⟩
        · simp only [Base.next, hc, if_false]
          exact ⟨mp' id h fun _ => rfl, i2, i3⟩
      | step h =>
        simp only [Usage.next, Usage.next.change] at h'
        split at h' <;> cases h'
        by_cases h100 : r.code = 100
        · simp only [Base.next, h100, if_true]
          exact ⟨mp _ (fun l => { l with phase := .row }) h (fun _ => rfl) fun _ => rfl, i2, i3⟩
        · simp only [Base.next, h100, if_false]
          split
          · exact ⟨mp' _ h fun _ => rfl, i2, i3⟩
          · exact ⟨mp' _ h fun _ => rfl, i2, i3⟩
      | columnText h c =>
        simp only [Usage.next, Usage.next.change] at h'
        split at h' <;> cases h'
        exact ⟨mp' id h fun _ => rfl, i2, i3⟩
      | columnBytes h c =>
        simp only [Usage.next, Usage.next.change] at h'
        split at h' <;> cases h'
        exact ⟨mp' id h fun _ => rfl, i2, i3⟩
      | finalize h =>
        simp only [Usage.next] at h'
        split at h' <;> cases h'
        exact ⟨flt h, i2, i3⟩

theorem rest_idle {s : St} : AtRest s ↔ Idle s := by
  constructor
  · rintro ⟨h1, n, h2⟩
    have := (jobs_live (fun _ => []) _ _ h2).2.2
    exact ⟨h1, by rw [h2]; simp only at this; rw [← this]; rfl⟩
  · rintro ⟨h1, h2⟩
    exact ⟨h1, _, h2⟩

/-- Between two functions, with these rows. -/
def Calm (start : Rows2) (R : Rows2) (s : St) : Prop := Idle s ∧ (sqlContents start s.events).rows = R

/-- In a function: the statement of its object is the only one. -/
def Busy (start : Rows2) (R : Rows2) (j : Job) (s : St) : Prop :=
  s.holder = some j.num ∧ (sqlContents start s.events).rows = R ∧ (sqlContents start s.events).jobs = [j]

theorem calm_jobs {start R : Rows2} {s : St} (h : Calm start R s) : (sqlContents start s.events).jobs = [] ∧ (sqlContents start s.events).made = prepared s.events := by
  obtain ⟨h1, h2, h3⟩ := jobs_live start _ _ h.1.2
  exact ⟨by simpa using h1, h2.trans h3⟩

theorem reset_busy {L : Lib} {start R : Rows2} {sql : Bytes} {s : St} (h : Calm start R s) :
    OkP (fun _ s' => ∃ n, Busy start R ⟨n, sql, [], 0⟩ s') (reset L sql s) := by
  have h1 : s.holder = none := h.1.1
  unfold reset
  rw [h1]
  dsimp only
  refine okp_bind (P := fun _ s' => ∃ n, Busy start R ⟨n, sql, [], 0⟩ s') ?_ fun n s' hp => okp_ret hp
  unfold prologue
  rw [h1]
  dsimp only
  rw [checked_eq]
  split
  · rename_i hx
    split at hx
    · intro _ _ e; cases e
    · cases hx
  · rename_i hx
    split at hx
    · cases hx
    · rename_i hc
      have hc : (L s.events (.prepare sql)).code = 0 := Classical.not_not.mp hc
      cases hx
      intro n s' e
      cases e
      refine ⟨prepared s.events, rfl, ?_, ?_⟩
      · show ((sqlContents start s.events).next (_, _)).rows = R
        simp [Base.next, hc, h.2]
      · show ((sqlContents start s.events).next (_, _)).jobs = _
        simp [Base.next, hc, calm_jobs h]

theorem busy_prologue {L : Lib} {start R : Rows2} {sql : Bytes} {j : Job} {s : St} (h : Busy start R j s) : prologue L sql s = (.ok j.num, s) := by
  have h1 : s.holder = some j.num := h.1
  unfold prologue
  rw [h1]

theorem bind_busy {L : Lib} {start R : Rows2} {sql text : Bytes} {c : Nat} {j : Job} {s : St} (h : Busy start R j s) :
    OkP (fun _ s' => Busy start R { j with args := (c, text) :: j.args } s') (bindText L sql c text s) := by
  unfold bindText
  refine okp_bind (P := fun n s' => n = j.num ∧ s' = s) (by rw [busy_prologue h]; intro _ _ e; cases e; exact ⟨rfl, rfl⟩) ?_
  rintro n s' ⟨rfl, rfl⟩
  rw [checked_eq]
  split
  · intro _ _ e; cases e
  · rename_i hc
    have hc : (L s'.events (.bindText j.num c text)).code = 0 := Classical.not_not.mp hc
    intro _ _ e
    cases e
    refine ⟨h.1, ?_, ?_⟩
    · show ((sqlContents start s'.events).next (_, _)).rows = R
      simp [Base.next, hc, h.2.1]
    · show ((sqlContents start s'.events).next (_, _)).jobs = _
      simp [Base.next, hc, h.2.2]

theorem step_busy {L : Lib} {start R : Rows2} (hL : Honest start L) {sql : Bytes} {j : Job} {s : St} (h : Busy start R j s) :
    OkP (fun b s' => if b then j.pos < (j.results R).length ∧ Busy start R { j with pos := j.pos + 1 } s'
      else (j.results R).length ≤ j.pos ∧ Busy start (j.effect R) j s') (step L sql s) := by
  unfold step
  refine okp_bind (P := fun n s' => n = j.num ∧ s' = s) (by rw [busy_prologue h]; intro _ _ e; cases e; exact ⟨rfl, rfl⟩) ?_
  rintro n s' ⟨rfl, rfl⟩
  obtain ⟨g1, g2, g3, -⟩ := hL s'.events j.num j (by rw [h.2.2]; simp)
  rw [h.2.1] at g2 g3
  show OkP _ (andThen (call L (.step j.num)) _ s')
  unfold andThen call
  dsimp only
  generalize L s'.events (.step j.num) = r at *
  by_cases h100 : r.code = 100
  · rw [if_pos h100]
    refine okp_ret ?_
    simp only [if_true]
    refine ⟨g2 h100, h.1, ?_, ?_⟩
    · show ((sqlContents start s'.events).next (_, _)).rows = R
      simp [Base.next, h100, h.2.1]
    · show ((sqlContents start s'.events).next (_, _)).jobs = _
      simp [Base.next, h100, h.2.2]
  · rw [if_neg h100]
    by_cases h101 : r.code = 101
    · rw [if_pos (.inl h101)]
      refine okp_ret ?_
      simp only [Bool.false_eq_true, if_false]
      refine ⟨g3 h101, h.1, ?_, ?_⟩
      · show ((sqlContents start s'.events).next (_, _)).rows = _
        simp [Base.next, h101, h.2.1, h.2.2, effectOf]
      · show ((sqlContents start s'.events).next (_, _)).jobs = _
        simp [Base.next, h101, h.2.2]
    · rw [if_neg (by tauto)]
      intro _ _ e; cases e

theorem text_busy {L : Lib} {start R : Rows2} (hL : Honest start L) {j : Job} {s : St} (h : Busy start R j s) {x : Bytes} (h0 : 0 < j.pos)
    (hx : (j.results R)[j.pos - 1]? = some x) : OkP (fun t s' => t = x ∧ Busy start R j s') (getText L 0 s) := by
  have h1 : s.holder = some j.num := h.1
  obtain ⟨-, -, -, g⟩ := hL s.events j.num j (by rw [h.2.2]; simp)
  rw [h.2.1] at g
  have g := g 0 x h0 hx
  unfold getText
  rw [h1]
  dsimp only
  intro t s' e
  cases e
  exact ⟨g, h1, h.2.1, h.2.2⟩

/-- The destructor leaves the rows alone. -/
theorem destroy_rows {L : Lib} {start : Rows2} (s : St) : (sqlContents start (destroy L s).events).rows = (sqlContents start s.events).rows := by
  unfold destroy
  cases s.holder <;> rfl

theorem with_calm {α : Type} {L : Lib} {start R : Rows2} {body : M α} {s : St} {P : α → Rows2 → Prop} (h : Calm start R s)
    (hb : OkP (fun a s' => P a (sqlContents start s'.events).rows) (body s)) :
    OkP (fun a s' => P a (sqlContents start s'.events).rows) (withStatement L body s) := by
  have h1 : s.holder = none := h.1.1
  unfold withStatement
  have hs : ({ s with holder := none } : St) = s := by rw [← h1]
  rw [hs]
  dsimp only
  intro a s' e
  cases hr : body s with
  | mk x s2 =>
    rw [hr] at e
    cases e
    have := hb a s2 hr
    dsimp only
    rw [destroy_rows]
    exact this

theorem meaning_select : meaning selectName = some .find := by decide +kernel
theorem meaning_hashes : meaning selectHashes = some .keys := by decide +kernel
theorem meaning_main : meaning updateMain = some (.insert false) := by decide +kernel
theorem meaning_second : meaning updateSecondary = some (.insert true) := by decide +kernel
theorem meaning_delete : meaning deleteMain = some .delete := by decide +kernel

theorem lookup_rows {L : Lib} {start R : Rows2} (hL : Honest start L) {hash : Bytes} {s : St} (h : Calm start R s) :
    OkP (fun v s' => v = ((R false).lookup hash).getD [] ∧ (sqlContents start s'.events).rows = R) (lookup L hash s) := by
  refine with_calm (P := fun v R' => v = ((R false).lookup hash).getD [] ∧ R' = R) h ?_
  refine okp_bind (reset_busy h) ?_
  rintro _ s1 ⟨n, b1⟩
  refine okp_bind (bind_busy (c := 1) (text := hash) b1) fun _ s2 b2 => ?_
  have hres : ∀ p, (⟨n, selectName, [(1, hash)], p⟩ : Job).results R = ((R false).lookup hash).toList := by
    intro p
    simp [Job.results, meaning_select, Job.arg]
  refine okp_bind (step_busy hL b2) fun b s3 b3 => ?_
  cases b with
  | true =>
    simp only [if_true] at b3 ⊢
    obtain ⟨b3, b4⟩ := b3
    have b3 : 0 < ((⟨n, selectName, [(1, hash)], 0⟩ : Job).results R).length := b3
    rw [hres] at b3
    cases hv : (R false).lookup hash with
    | none => rw [hv] at b3; simp at b3
    | some v =>
      have := text_busy hL (x := v) b4 (Nat.succ_pos _) (by
        show ((⟨n, selectName, [(1, hash)], 1⟩ : Job).results R)[0]? = some v
        rw [hres, hv]; rfl)
      intro a s' e
      obtain ⟨rfl, c⟩ := this a s' e
      exact ⟨rfl, c.2.1⟩
  | false =>
    simp only [Bool.false_eq_true, if_false] at b3 ⊢
    obtain ⟨b3, b4⟩ := b3
    have b3 : ((⟨n, selectName, [(1, hash)], 0⟩ : Job).results R).length ≤ 0 := b3
    rw [hres] at b3
    refine okp_ret ⟨?_, ?_⟩
    · cases hv : (R false).lookup hash with
      | none => rfl
      | some v => rw [hv] at b3; simp at b3
    · rw [b4.2.1]; simp [Job.effect, meaning_select]

theorem listLoop_rows {L : Lib} {start R : Rows2} (hL : Honest start L) {n : Nat} : ∀ (fuel pos : Nat) (acc : List Bytes) (s : St),
    Busy start R ⟨n, selectHashes, [], pos⟩ s → acc = ((R false).map Prod.fst).take pos →
    OkP (fun v s' => v = (R false).map Prod.fst ∧ (sqlContents start s'.events).rows = R) (listLoop L fuel acc s) := by
  intro fuel
  have hres : ∀ p, (⟨n, selectHashes, [], p⟩ : Job).results R = (R false).map Prod.fst := by
    intro p
    simp [Job.results, meaning_hashes]
  induction fuel with
  | zero => intro pos acc s _ _ a s' e; cases e
  | succ fuel ih =>
    intro pos acc s hb hacc
    refine okp_bind (step_busy hL hb) fun b s3 b3 => ?_
    rw [hres] at b3
    cases b with
    | true =>
      simp only [if_true] at b3 ⊢
      obtain ⟨b3, b4⟩ := b3
      have b3 : pos < ((R false).map Prod.fst).length := b3
      refine okp_bind (text_busy hL (x := ((R false).map Prod.fst)[pos]) b4 (Nat.succ_pos _) (by
        show ((⟨n, selectHashes, [], pos + 1⟩ : Job).results R)[pos]? = _
        rw [hres]; exact List.getElem?_eq_getElem b3)) ?_
      rintro t s4 ⟨rfl, b5⟩
      refine ih (pos + 1) _ s4 b5 ?_
      rw [hacc, List.take_add_one, List.getElem?_eq_getElem b3]; rfl
    | false =>
      simp only [Bool.false_eq_true, if_false] at b3 ⊢
      obtain ⟨b3, b4⟩ := b3
      have b3 : ((R false).map Prod.fst).length ≤ pos := b3
      refine okp_ret ⟨?_, ?_⟩
      · rw [hacc, List.take_of_length_le b3]
      · rw [b4.2.1]; simp [Job.effect, meaning_hashes]

theorem list_rows {L : Lib} {start R : Rows2} (hL : Honest start L) {fuel : Nat} {s : St} (h : Calm start R s) :
    OkP (fun v s' => v = (R false).map Prod.fst ∧ (sqlContents start s'.events).rows = R) (listHashes L fuel s) := by
  refine with_calm (P := fun v R' => v = (R false).map Prod.fst ∧ R' = R) h ?_
  refine okp_bind (reset_busy h) ?_
  rintro _ s1 ⟨n, b1⟩
  exact listLoop_rows hL fuel 0 [] s1 b1 (by simp)

theorem update_rows {L : Lib} {start R : Rows2} (hL : Honest start L) {sql hash name : Bytes} {t : Bool} (hm : meaning sql = some (.insert t)) {s : St}
    (h : Calm start R s) : OkP (fun _ s' => (sqlContents start s'.events).rows = insertRow R t hash name) (update L sql hash name s) := by
  refine with_calm (P := fun _ R' => R' = insertRow R t hash name) h ?_
  refine okp_bind (reset_busy h) ?_
  rintro _ s1 ⟨n, b1⟩
  refine okp_bind (bind_busy (c := 1) (text := hash) b1) fun _ s2 b2 => ?_
  refine okp_bind (bind_busy (c := 2) (text := name) b2) fun _ s3 b3 => ?_
  refine okp_bind (step_busy hL b3) fun b s4 b4 => okp_ret ?_
  cases b with
  | true =>
    simp only [if_true] at b4
    have := b4.1
    simp [Job.results, hm] at this
  | false =>
    simp only [Bool.false_eq_true, if_false] at b4
    rw [b4.2.2.1]
    simp [Job.effect, hm, Job.arg, List.lookup]

theorem remove_rows {L : Lib} {start R : Rows2} (hL : Honest start L) {hash : Bytes} {s : St}
    (h : Calm start R s) : OkP (fun _ s' => (sqlContents start s'.events).rows = deleteRow R hash) (remove L hash s) := by
  refine with_calm (P := fun _ R' => R' = deleteRow R hash) h ?_
  refine okp_bind (reset_busy h) ?_
  rintro _ s1 ⟨n, b1⟩
  refine okp_bind (bind_busy (c := 1) (text := hash) b1) fun _ s2 b2 => ?_
  refine okp_bind (step_busy hL b2) fun b s4 b4 => okp_ret ?_
  cases b with
  | true =>
    simp only [if_true] at b4
    have := b4.1
    simp [Job.results, meaning_delete] at this
  | false =>
    simp only [Bool.false_eq_true, if_false] at b4
    rw [b4.2.2.1]
    simp [Job.effect, meaning_delete, Job.arg]

theorem op_rows {L : Lib} {start R : Rows2} (hL : Honest start L) (op : Op) {s : St} (h : Calm start R s) :
    OkP (fun v s' => v = (tableOp R op).2 ∧ Calm start (tableOp R op).1 s') (op.run L s) := by
  have hi := out_idle (op_out (L := L) op (Ext.refl s) h.1)
  have key : OkP (fun v s' => v = (tableOp R op).2 ∧ (sqlContents start s'.events).rows = (tableOp R op).1) (op.run L s) := by
    cases op with
    | lookup hash => exact okp_bind (lookup_rows hL h) fun v s' ⟨e1, e2⟩ => okp_ret ⟨by rw [e1]; rfl, e2⟩
    | list fuel => exact list_rows hL h
    | update other hash name =>
      refine okp_bind (update_rows hL (t := other) ?_ h) fun v s' e => okp_ret ⟨rfl, e⟩
      cases other
      · exact meaning_main
      · exact meaning_second
    | remove hash => exact okp_bind (remove_rows hL h) fun v s' e => okp_ret ⟨rfl, e⟩
  intro a s' e
  rw [e] at hi
  exact ⟨(key a s' e).1, hi, (key a s' e).2⟩

theorem ops_rows {L : Lib} {start : Rows2} (hL : Honest start L) : ∀ (ops : List Op) (R : Rows2) (s : St), Calm start R s →
    OkP (fun v s' => v = (tableOps R ops).2 ∧ Calm start (tableOps R ops).1 s') (runOps L ops s) := by
  intro ops
  induction ops with
  | nil => intro R s h; exact okp_ret ⟨rfl, h⟩
  | cons op rest ih =>
    intro R s h
    refine okp_bind (op_rows hL op h) ?_
    rintro r s1 ⟨rfl, h1⟩
    refine okp_bind (ih _ s1 h1) ?_
    rintro rs s2 ⟨rfl, h2⟩
    exact okp_ret ⟨rfl, h2⟩

/-! ### The rows from before the transaction stay -/

def Pres {α : Type} (m : M α) : Prop := ∀ start s, (sqlContents start (m s).2.events).before = (sqlContents start s.events).before

theorem pres_ret {α : Type} (a : α) : Pres (ret a) := fun _ _ => rfl
theorem pres_fail {α : Type} (e : Ex) : Pres (fail (α := α) e) := fun _ _ => rfl

theorem pres_bind {α β : Type} {x : M α} {f : α → M β} (h : Pres x) (hf : ∀ a, Pres (f a)) : Pres (x >>= f) := by
  intro start s
  show (sqlContents start (andThen x f s).2.events).before = _
  unfold andThen
  have := h start s
  rcases hx : x s with ⟨_ | a, s'⟩
  · rw [hx] at this
    exact this
  · rw [hx] at this
    exact (hf a start s').trans this

theorem pres_call {L : Lib} {a : Api} (h : ∀ b r, (Base.next b (a, r)).before = b.before) : Pres (call L a) := fun _ _ => h _ _

theorem pres_check (c : Nat) : Pres (check c) := by
  unfold check
  split
  · exact pres_fail _
  · exact pres_ret _

theorem pres_checked {L : Lib} {a : Api} (h : ∀ b r, (Base.next b (a, r)).before = b.before) : Pres (checked L a) :=
  pres_bind (pres_call h) fun _ => pres_check _

theorem keep_prepare (sql : Bytes) (b : Base) (r : Reply) : (b.next (.prepare sql, r)).before = b.before := by
  simp only [Base.next]; split <;> rfl
theorem keep_bind (h c : Nat) (t : Bytes) (b : Base) (r : Reply) : (b.next (.bindText h c t, r)).before = b.before := by
  simp only [Base.next]; split <;> rfl
theorem keep_step (h : Nat) (b : Base) (r : Reply) : (b.next (.step h, r)).before = b.before := by
  simp only [Base.next]; split
  · rfl
  · split <;> rfl

theorem pres_prologue (L : Lib) (sql : Bytes) : Pres (prologue L sql) := by
  intro start s
  unfold prologue
  split
  · rfl
  · have := pres_checked (L := L) (keep_prepare sql) start s
    split <;> rename_i hx <;> rw [hx] at this <;> exact this

theorem pres_reset (L : Lib) (sql : Bytes) : Pres (reset L sql) := by
  intro start s
  unfold reset
  split
  · rename_i h _
    exact pres_checked (L := L) (a := .reset h) (fun _ _ => rfl) start s
  · exact pres_bind (pres_prologue L sql) (fun _ => pres_ret _) start s

theorem pres_step (L : Lib) (sql : Bytes) : Pres (step L sql) := by
  refine pres_bind (pres_prologue L sql) fun h => pres_bind (pres_call (keep_step h)) fun r => ?_
  split
  · exact pres_ret _
  · split
    · exact pres_ret _
    · exact pres_fail _

theorem pres_bindText (L : Lib) (sql : Bytes) (c : Nat) (t : Bytes) : Pres (bindText L sql c t) :=
  pres_bind (pres_prologue L sql) fun h => pres_checked (keep_bind h c t)

theorem pres_getText (L : Lib) (c : Nat) : Pres (getText L c) := by
  intro start s
  unfold getText
  split <;> rfl

theorem pres_with {α : Type} {L : Lib} {m : M α} (h : Pres m) : Pres (withStatement L m) := by
  intro start s
  have h := h start { s with holder := none }
  unfold withStatement
  dsimp only at h ⊢
  rw [← h]
  unfold destroy
  split <;> rfl

theorem pres_listLoop (L : Lib) : ∀ fuel acc, Pres (listLoop L fuel acc) := by
  intro fuel
  induction fuel with
  | zero => intro acc; exact pres_fail _
  | succ fuel ih =>
    intro acc
    refine pres_bind (pres_step L _) fun b => ?_
    cases b
    · exact pres_ret _
    · exact pres_bind (pres_getText L 0) fun t => ih _

theorem pres_op (L : Lib) (op : Op) : Pres (op.run L) := by
  cases op with
  | lookup hash =>
    refine pres_bind (pres_with (pres_bind (pres_reset _ _) fun _ => pres_bind (pres_bindText _ _ _ _) fun _ => pres_bind (pres_step _ _) fun b => ?_))
      fun _ => pres_ret _
    cases b
    · exact pres_ret _
    · exact pres_getText L 0
  | list fuel => exact pres_with (pres_bind (pres_reset _ _) fun _ => pres_listLoop L fuel [])
  | update other hash name =>
    exact pres_bind (pres_with (pres_bind (pres_reset _ _) fun _ => pres_bind (pres_bindText _ _ _ _) fun _ => pres_bind (pres_bindText _ _ _ _) fun _ =>
      pres_bind (pres_step _ _) fun b => pres_ret _)) fun _ => pres_ret _
  | remove hash =>
    exact pres_bind (pres_with (pres_bind (pres_reset _ _) fun _ => pres_bind (pres_bindText _ _ _ _) fun _ =>
      pres_bind (pres_step _ _) fun b => pres_ret _)) fun _ => pres_ret _

theorem pres_ops (L : Lib) : ∀ ops, Pres (runOps L ops) := by
  intro ops
  induction ops with
  | nil => exact pres_ret _
  | cons op rest ih => exact pres_bind (pres_op L op) fun _ => pres_bind ih fun _ => pres_ret _

/-! ### Sections -/

theorem checked_events (L : Lib) (a : Api) (s : St) : (checked L a s).2 = ⟨(a, L s.events a) :: s.events, s.holder⟩ := by
  rw [checked_eq]; split <;> rfl

theorem same_begin : sameSql (literal "begin;") "begin;" = true := by decide +kernel
theorem commit_begin : sameSql (literal "commit") "begin;" = false := by decide +kernel
theorem rollback_begin : sameSql (literal "rollback") "begin;" = false := by decide +kernel
theorem rollback_commit : sameSql (literal "rollback") "commit" = false := by decide +kernel
theorem same_commit : sameSql (literal "commit") "commit" = true := by decide +kernel
theorem same_rollback : sameSql (literal "rollback") "rollback" = true := by decide +kernel

/-- A section: it could not begin; or it began, its functions ran, and its end was told. -/
theorem section_cases {L : Lib} {start : Rows2} (hL : Honest start L) (c : Section) {R : Rows2} {s : St} (h : Calm start R s) :
    (∃ r, r.code ≠ 0 ∧ c.run L s = (.error (.sqlite r.code), ⟨(.exec (literal "begin;"), r) :: s.events, s.holder⟩)) ∨
    ∃ (res : Except Ex (List (List Bytes))) (ev : List Event) (r : Reply) (failed : Bool),
      (failed = true ↔ c.foreign = true ∨ ∃ e, res = .error e) ∧ (sqlContents start ev).before = some R ∧
      (∀ rs, res = .ok rs → rs = (tableOps R c.ops).2 ∧ (sqlContents start ev).rows = (tableOps R c.ops).1) ∧
      c.run L s = (res, ⟨(.exec (literal (if failed then "rollback" else "commit")), r) :: ev, none⟩) := by
  unfold Section.run
  have hb := checked_eq L (.exec (literal "begin;")) s
  have hb : begin_ L s = _ := hb
  rw [hb]
  split at hb
  · rename_i hc
    rw [if_pos hc]
    exact .inl ⟨_, hc, rfl⟩
  · rename_i hc
    rw [if_neg hc]
    right
    have hc : (L s.events (.exec (literal "begin;"))).code = 0 := Classical.not_not.mp hc
    generalize L s.events (.exec (literal "begin;")) = r0 at *
    dsimp only
    have h1 : Calm start R ⟨(.exec (literal "begin;"), r0) :: s.events, s.holder⟩ := by
      refine ⟨⟨h.1.1, ?_⟩, ?_⟩
      · show usage ((_, _) :: s.events) = _
        rw [usage_cons h.1.2]
        simp [Usage.next, prepared]
      · show ((sqlContents start s.events).next (_, _)).rows = R
        simp [Base.next, hc, same_begin, h.2]
    have hbf : (sqlContents start ((Api.exec (literal "begin;"), r0) :: s.events)).before = some R := by
      show ((sqlContents start s.events).next (_, _)).before = some R
      simp [Base.next, hc, same_begin, h.2]
    have hops := ops_rows hL c.ops R _ h1
    have hpres := pres_ops L c.ops start ⟨(.exec (literal "begin;"), r0) :: s.events, s.holder⟩
    have hidle := out_idle (ops_out (L := L) c.ops _ (Ext.refl _) h1.1)
    rcases hr : runOps L c.ops ⟨(.exec (literal "begin;"), r0) :: s.events, s.holder⟩ with ⟨res, s'⟩
    rw [hr] at hpres hidle
    refine ⟨res, s'.events, L s'.events (.exec (literal (if (c.foreign || (match res with | .error _ => true | .ok _ => false)) then "rollback" else "commit"))),
      (c.foreign || (match res with | .error _ => true | .ok _ => false)), ?_, hpres.trans hbf, ?_, ?_⟩
    · cases res <;> simp
    · rintro rs rfl
      obtain ⟨e1, e2⟩ := hops rs s' hr
      exact ⟨e1, e2.2⟩
    · unfold finish
      rw [checked_events]
      dsimp only
      rw [show s'.holder = none from hidle.1]
      cases res <;> rfl

/-! ### Only the loop can be running -/

def NoRun {α : Type} (m : M α) : Prop := ∀ s, (m s).1 ≠ .error .running

theorem norun_ret {α : Type} (a : α) : NoRun (ret a) := fun _ h => by cases h
theorem norun_fail {α : Type} {e : Ex} (he : e ≠ .running) : NoRun (fail (α := α) e) := fun _ h => by cases h; exact he rfl

theorem norun_bind {α β : Type} {x : M α} {f : α → M β} (h : NoRun x) (hf : ∀ a, NoRun (f a)) : NoRun (x >>= f) := by
  intro s
  show (andThen x f s).1 ≠ _
  unfold andThen
  have := h s
  rcases hx : x s with ⟨e | a, s'⟩
  · rw [hx] at this
    intro h
    cases h
    exact this rfl
  · exact hf a s'

theorem norun_checked (L : Lib) (a : Api) : NoRun (checked L a) := by
  intro s
  rw [checked_eq]
  split <;> simp

theorem norun_prologue (L : Lib) (sql : Bytes) : NoRun (prologue L sql) := by
  intro s
  unfold prologue
  split
  · simp
  · have := norun_checked L (.prepare sql) s
    split <;> rename_i hx <;> rw [hx] at this
    · intro h; cases h; exact this rfl
    · simp

theorem norun_reset (L : Lib) (sql : Bytes) : NoRun (reset L sql) := by
  intro s
  unfold reset
  split
  · exact norun_checked L _ s
  · exact norun_bind (norun_prologue L sql) (fun _ => norun_ret _) s

theorem norun_step (L : Lib) (sql : Bytes) : NoRun (step L sql) := by
  refine norun_bind (norun_prologue L sql) fun h => norun_bind (fun _ h => by cases h) fun r => ?_
  split
  · exact norun_ret _
  · split
    · exact norun_ret _
    · exact norun_fail (by simp)

theorem norun_bindText (L : Lib) (sql : Bytes) (c : Nat) (t : Bytes) : NoRun (bindText L sql c t) :=
  norun_bind (norun_prologue L sql) fun _ => norun_checked L _

theorem norun_getText (L : Lib) (c : Nat) : NoRun (getText L c) := by
  intro s
  unfold getText
  split
  · simp
  · intro h; cases h

theorem norun_with {α : Type} {L : Lib} {m : M α} (h : NoRun m) : NoRun (withStatement L m) := fun s => h { s with holder := none }

theorem running_list {L : Lib} {op : Op} {s s' : St} (h : op.run L s = (.error .running, s')) : ∃ fuel, op = .list fuel := by
  have h : (op.run L s).1 = .error .running := by rw [h]
  cases op with
  | list fuel => exact ⟨fuel, rfl⟩
  | lookup hash =>
    refine absurd h (norun_bind (norun_with (norun_bind (norun_reset _ _) fun _ => norun_bind (norun_bindText _ _ _ _) fun _ =>
      norun_bind (norun_step _ _) fun b => ?_)) (fun _ => norun_ret _) s)
    cases b
    · exact norun_ret _
    · exact norun_getText L 0
  | update other hash name =>
    exact absurd h (norun_bind (norun_with (norun_bind (norun_reset _ _) fun _ => norun_bind (norun_bindText _ _ _ _) fun _ =>
      norun_bind (norun_bindText _ _ _ _) fun _ => norun_bind (norun_step _ _) fun b => norun_ret _)) (fun _ => norun_ret _) s)
  | remove hash =>
    exact absurd h (norun_bind (norun_with (norun_bind (norun_reset _ _) fun _ => norun_bind (norun_bindText _ _ _ _) fun _ =>
      norun_bind (norun_step _ _) fun b => norun_ret _)) (fun _ => norun_ret _) s)

theorem setUp_running {L : Lib} (kind : Option (Option Bytes)) {s s' : St} : setUp L kind s ≠ (.error .running, s') := by
  intro h
  have h : (setUp L kind s).1 = .error .running := by rw [h]
  match kind, h with
  | none, h => exact norun_checked L _ s h
  | some none, h => exact norun_bind (norun_checked L _) (fun _ => norun_checked L _) s h
  | some (some other), h =>
    exact norun_bind (norun_checked L _) (fun _ => norun_bind (norun_with (norun_bind (norun_bindText _ _ _ _) fun _ =>
      norun_bind (norun_step _ _) fun b => norun_ret _)) fun _ => norun_checked L _) s h

theorem sections_length (L : Lib) : ∀ (cs : List Section) (s : St), (runSections L cs s).1.length = cs.length := by
  intro cs
  induction cs with
  | nil => intro s; rfl
  | cons c rest ih => intro s; exact congrArg (· + 1) (ih _)

/-! ### The calls of the constructor -/

theorem bind_ok {α β : Type} {x : M α} {f : α → M β} {s s' : St} {b : β} (h : (x >>= f) s = (.ok b, s')) :
    ∃ s1, ∃ a, x s = (.ok a, s1) ∧ f a s1 = (.ok b, s') := by
  have h : andThen x f s = (.ok b, s') := h
  unfold andThen at h
  rcases hx : x s with ⟨e | a, s1⟩
  · rw [hx] at h; cases h
  · rw [hx] at h; exact ⟨s1, a, rfl, h⟩

theorem attach_calls {L : Lib} {other : Bytes} {s s' : St} (hs : s.holder = none)
    (h : withStatement L (do bindText L attach 1 other; let _ ← step L attach; ret ()) s = (.ok (), s')) :
    ∃ (t : List Event) (n : Nat), t.map Prod.fst = [.finalize n, .step n, .bindText n 1 other, .prepare attach] ∧ s'.events = t ++ s.events := by
  unfold withStatement at h
  have hs' : ({ s with holder := none } : St) = s := by rw [← hs]
  rw [hs'] at h
  dsimp only at h
  generalize hb : (do bindText L attach 1 other; let _ ← step L attach; ret () : M Unit) s = r at h
  obtain ⟨x, s2⟩ := r
  cases h
  obtain ⟨s3, _, hbind, hb⟩ := bind_ok hb
  obtain ⟨s4, b, hstep, hb⟩ := bind_ok hb
  cases hb
  obtain ⟨s5, n, hpro, hbind⟩ := bind_ok hbind
  unfold prologue at hpro
  rw [hs] at hpro
  dsimp only at hpro
  rw [checked_eq] at hpro
  split at hpro
  · rename_i hx; cases hpro
  · rename_i hx
    split at hx
    · cases hx
    · cases hx
      cases hpro
      rw [checked_eq] at hbind
      split at hbind
      · cases hbind
      · cases hbind
        obtain ⟨s6, m, hpro, hstep⟩ := bind_ok hstep
        cases hpro
        obtain ⟨s7, r, hcall, hstep⟩ := bind_ok hstep
        cases hcall
        have : ∃ r1 r2 r3, s2.events = (.step (prepared s.events), r1) :: (.bindText (prepared s.events) 1 other, r2) :: (.prepare attach, r3) :: s.events
            ∧ s2.holder = some (prepared s.events) := by
          split at hstep
          · cases hstep; exact ⟨_, _, _, rfl, rfl⟩
          · split at hstep
            · cases hstep; exact ⟨_, _, _, rfl, rfl⟩
            · cases hstep
        obtain ⟨r1, r2, r3, k1, k2⟩ := this
        have hd : (destroy L s2).events = (.finalize (prepared s.events), L s2.events (.finalize (prepared s.events))) :: s2.events := by
          unfold destroy
          rw [k2]
        exact ⟨[(.finalize (prepared s.events), L s2.events (.finalize (prepared s.events))), (.step (prepared s.events), r1),
          (.bindText (prepared s.events) 1 other, r2), (.prepare attach, r3)], prepared s.events, rfl, hd.trans (by rw [k1]; rfl)⟩

/-! ### A section that begins has at least two calls -/

theorem section_longer (L : Lib) (c : Section) (s : St) (hs : Idle s) :
    (∃ r, (c.run L s).2.events = (.exec (literal "begin;"), r) :: s.events ∧ r.code ≠ 0) ∨ s.events.length + 2 ≤ (c.run L s).2.events.length := by
  unfold Section.run
  have hb := checked_eq L (.exec (literal "begin;")) s
  have hb : begin_ L s = _ := hb
  rw [hb]
  split at hb
  · rename_i hc
    rw [if_pos hc]
    exact .inl ⟨_, rfl, hc⟩
  · rename_i hc
    rw [if_neg hc]
    right
    have h1 : Idle ⟨(.exec (literal "begin;"), L s.events (.exec (literal "begin;"))) :: s.events, s.holder⟩ :=
      ⟨hs.1, by
        show usage ((_, _) :: s.events) = _
        rw [usage_cons hs.2]
        simp [Usage.next, prepared]⟩
    have ho := ops_out (L := L) c.ops _ (Ext.refl _) h1
    have hl : ∀ {r : Except Ex (List (List Bytes)) × St} {s0 : St}, Out s0 Idle (fun _ s' => Idle s') r → s0.events.length ≤ r.2.events.length := by
      rintro ⟨e | a, s'⟩ s0 h
      · cases e with
        | sqlite c => obtain ⟨⟨t, h, -⟩, -⟩ := h; simp [h]
        | null => exact h.elim
        | running => obtain ⟨⟨t, h, -⟩, -⟩ := h; simp [h]
      · obtain ⟨⟨t, h, -⟩, -⟩ := h; simp [h]
    have := hl ho
    simp only [List.length_cons] at this
    dsimp only
    unfold finish
    rw [checked_events]
    simp only [List.length_cons]
    omega

end Securefs.Sql
