import Verif.Proofs.LongTabSim
/-! Helper lemmas about threads on the tables of long names: runs, and the names that are recorded. -/

namespace Securefs.LongTab

open Securefs.Spec.LongTab

/-! ## Results -/

theorem results_append (i : Nat) (es es' : List Event) : results i (es ++ es') = results i es ++ results i es' := by
  induction es with
  | nil => rfl
  | cons e es ih =>
    cases e with
    | made d => exact ih
    | removed d => exact ih
    | call j c f r =>
      rw [List.cons_append, results, results]
      by_cases h : j = i
      · rw [if_pos h, if_pos h, List.cons_append, ih]
      · rw [if_neg h, if_neg h, ih]

theorem results_other {i j : Nat} (h : j ≠ i) (es : List Event) (he : ∀ e ∈ es, e.by i) : results j es = [] := by
  induction es with
  | nil => rfl
  | cons e es ih =>
    have ih' := ih (fun e' h' => he e' (List.mem_cons_of_mem _ h'))
    cases e with
    | made d => exact ih'
    | removed d => exact ih'
    | call k c f r =>
      have hk : k = i := he _ List.mem_cons_self
      rw [results, if_neg (fun e => h (e.symm.trans hk))]
      exact ih'

theorem origin_by {s : St} {i : Nat} {t : Th} {c : Call} {es : List Event} (h : Origin s i t c es) : ∀ e ∈ es, e.by i := by
  cases h with
  | made ds =>
    intro e he
    obtain ⟨d, _, rfl⟩ := List.mem_map.mp he
    trivial
  | removed id fs held hp hd =>
    intro e he
    rw [List.mem_singleton] at he
    subst he
    trivial
  | call fault res fs held hp =>
    intro e he
    rw [List.mem_singleton] at he
    subst he
    rfl

theorem answers_snoc (o : Outcome) (c : Call) (cs : List Call) : ∀ (p : List Call) (log : List Outcome), p.drop log.length = c :: cs →
    answers p (log ++ [o]) = answers p log ++ (match o with | .done r => [(c, r)] | _ => []) := by
  intro p log
  induction log generalizing p with
  | nil =>
    intro h
    rw [List.length_nil, List.drop_zero] at h
    subst h
    cases o <;> simp [answers]
  | cons x log ih =>
    intro h
    cases p with
    | nil => cases h
    | cons c0 p =>
      rw [List.length_cons, List.drop_succ_cons] at h
      have := ih p h
      cases x <;> (rw [List.cons_append]; simp only [answers]; rw [this]; try rfl)

/-- The threads have got so far in their programs, with the results of the events. -/
def Served (progs : List (List Call)) (s : St) (es : List Event) : Prop :=
  s.threads.length = progs.length ∧ ∀ i p t, progs[i]? = some p → s.threads[i]? = some t →
    t.calls = p.drop t.log.length ∧ results i es = answers p t.log ++ inflight t

/-- A run of calm steps is the history of a volume. -/
theorem sim_run {isLong : Bytes → Bool} {progs : List (List Call)} (run : List (Nat × Move)) : ∀ (s s' : St) (v : Vol) (pre : List Event),
    Shape s → Current s → View s v → Served progs s pre → Along isLong Calm s run → s.run isLong run = some s' →
    ∃ ess v', List.Forall₂ (fun im es => ∀ e ∈ es, Event.by im.1 e) run ess ∧ v.history ess.flatten = some v' ∧ View s' v' ∧ Shape s' ∧ Current s' ∧
      Served progs s' (pre ++ ess.flatten) := by
  induction run with
  | nil =>
    intro s s' v pre h1 h2 h3 h4 _ hr
    cases hr
    exact ⟨[], v, .nil, rfl, h3, h1, h2, by rw [List.flatten_nil, List.append_nil]; exact h4⟩
  | cons im run ih =>
    obtain ⟨i, m⟩ := im
    intro s s' v pre h1 h2 h3 h4 hcalm hr
    unfold St.run at hr
    cases hs : s.step isLong i m with
    | none => rw [hs] at hr; cases hr
    | some s1 =>
      rw [hs] at hr
      obtain ⟨t, c, cs, ht, hc, hst⟩ := step_rel hs
      obtain ⟨es, v1, a1, a2, a3, a4, t', a5, a6⟩ := sim_step h1 h2 h3 ht hc hcalm.1 hst
      have hby := origin_by a4
      have hsv : Served progs s1 (pre ++ es) := by
        refine ⟨by rw [a5, List.length_set]; exact h4.1, ?_⟩
        intro j p u hp hu
        rw [a5] at hu
        rcases getElem?_set_cases ht hu with ⟨rfl, rfl⟩ | ⟨hj, hu⟩
        · obtain ⟨b1, b2⟩ := h4.2 j p t hp ht
          rw [results_append, b2]
          rcases a6 with ⟨c1, c2, c3⟩ | ⟨o, c1, c2, c3, c4⟩
          · rw [c1, c2, c3, List.append_assoc]
            exact ⟨b1, rfl⟩
          · rw [c1, c2, c3, List.append_assoc, c4, List.append_nil]
            rw [hc] at b1
            refine ⟨?_, ?_⟩
            · rw [List.length_append, List.length_singleton, ← List.drop_drop, ← b1]
              rfl
            · exact (answers_snoc o c cs p t.log b1.symm).symm
        · obtain ⟨b1, b2⟩ := h4.2 j p u hp hu
          refine ⟨b1, ?_⟩
          rw [results_append, results_other hj es hby, List.append_nil]
          exact b2
      obtain ⟨ess, v2, d1, d2, d3, d4, d5, d6⟩ := ih s1 s' v1 (pre ++ es) (shape_step h1 ht hc hst) a3 a2 hsv (hcalm.2 s1 hs) hr
      refine ⟨es :: ess, v2, .cons hby d1, ?_, d3, d4, d5, ?_⟩
      · rw [List.flatten_cons, history_append, a1]; exact d2
      · rw [List.flatten_cons, ← List.append_assoc]; exact d6

/-! ## The beginning -/

theorem fresh_idle {s : St} {progs : List (List Call)} (h : Fresh s progs) : ∀ t ∈ s.threads, t.pc = .idle := by
  intro t ht
  rw [h.1] at ht
  obtain ⟨p, _, rfl⟩ := List.mem_map.mp ht
  rfl

theorem fresh_shape {s : St} {progs : List (List Call)} (h : Fresh s progs) : Shape s := by
  have hi := fresh_idle h
  refine ⟨?_, h.2, ?_, ?_⟩
  · intro i j ti tj f hti _ hf _
    rw [idle_holds (by rw [hi ti (List.mem_of_getElem? hti)]; rfl)] at hf
    cases hf
  · intro t ht f hf; rw [hi t ht] at hf; cases hf
  · intro t ht
    exact ⟨fun e => (by rw [hi t ht] at e; cases e), fun e => (by rw [hi t ht] at e; cases e)⟩

theorem fresh_current {s : St} {progs : List (List Call)} (h : Fresh s progs) : Current s := by
  intro t ht f hf; rw [fresh_idle h t ht] at hf; cases hf

theorem fresh_view {s : St} {progs : List (List Call)} (h : Fresh s progs) : View s (volume s) := by
  refine ⟨rfl, ?_, ?_⟩
  · intro d hd; show (s.table d).map _ = none; rw [hd]; rfl
  · intro d g hg
    refine ⟨fun n => (s.rows (d, g)).lookup n, by show (s.table d).map _ = _; rw [hg]; rfl, ?_, fun _ _ => rfl⟩
    intro t ht r hr
    unfold settled at hr
    rw [fresh_idle h t ht] at hr
    cases hr

theorem fresh_served {s : St} {progs : List (List Call)} (h : Fresh s progs) : Served progs s [] := by
  refine ⟨by rw [h.1, List.length_map], ?_⟩
  intro i p t hp ht
  rw [h.1, List.getElem?_map, hp] at ht
  cases ht
  refine ⟨rfl, ?_⟩
  cases p <;> rfl

/-! ## The recorded names -/

theorem known_record (v : Vol) (d k : Nat) (n enc m : Bytes) :
    (v.record d n enc).known k m = if k = d ∧ m = n ∧ v.known d n = none then some enc else v.known k m := by
  unfold Vol.record
  show (match (if k = d then _ else v.names k) with | some m' => m' m | none => none) = _
  by_cases h : k = d
  · subst h
    rw [if_pos rfl]
    simp only [true_and]
  · rw [if_neg h, if_neg (fun e => h e.1)]
    rfl

theorem known_forget (v : Vol) (d k : Nat) (n m : Bytes) : (v.forget d n).known k m = if k = d ∧ m = n then none else v.known k m := by
  unfold Vol.forget
  show (match (if k = d then _ else v.names k) with | some m' => m' m | none => none) = _
  by_cases h : k = d
  · subst h
    rw [if_pos rfl]
    simp only [true_and]
  · rw [if_neg h, if_neg (fun e => h e.1)]
    rfl

/-- The entries after a successful call are those before, without the one deleted, and the one created. -/
theorem call_entries {D D' : Dirs} {hasTable : Nat → Bool} {d : Nat} {n : Bytes} {k : Kind} (h : D.call hasTable d n k = (none, D'))
    {x : Nat} {m : Bytes} {node : LNode} (hm : (D'.entries x).lookup m = some node) :
    (x = d ∧ m = n ∧ k.action = .create) ∨ ((D.entries x).lookup m = some node ∧ (k.action = .delete → ¬ (x = d ∧ m = n))) := by
  have del : (upd D.entries d (dropKey (D.entries d) n) x).lookup m = some node →
      (D.entries x).lookup m = some node ∧ ¬ (x = d ∧ m = n) := by
    intro hm
    by_cases e : x = d
    · subst e
      rw [upd_same, lookup_dropKey] at hm
      by_cases e2 : m = n
      · rw [if_pos e2] at hm; cases hm
      · rw [if_neg e2] at hm; exact ⟨hm, fun h => e2 h.2⟩
    · rw [upd_other _ _ _ _ e] at hm
      exact ⟨hm, fun h => e h.1⟩
  have add : ∀ (E : Nat → List (Bytes × LNode)) (nd : LNode), (upd E d ((n, nd) :: E d) x).lookup m = some node →
      (x = d ∧ m = n) ∨ (E x).lookup m = some node := by
    intro E nd hm
    by_cases e : x = d
    · subst e
      rw [upd_same, lookup_consKey] at hm
      by_cases e2 : m = n
      · exact Or.inl ⟨rfl, e2⟩
      · rw [if_neg e2] at hm; exact Or.inr hm
    · rw [upd_other _ _ _ _ e] at hm
      exact Or.inr hm
  unfold Dirs.call at h
  split at h
  · cases h
  · split at h <;> first | (cases h; done) | skip
    · cases h
      rcases add _ _ hm with e | e
      · exact Or.inl ⟨e.1, e.2, rfl⟩
      · exact Or.inr ⟨e, fun h => by cases h⟩
    · cases h
      rcases add _ _ hm with e | e
      · exact Or.inl ⟨e.1, e.2, rfl⟩
      · refine Or.inr ⟨?_, fun h => by cases h⟩
        by_cases e1 : x = D.nextDir
        · rw [e1, upd_same] at e; cases e
        · rw [upd_other _ _ _ _ e1] at e; exact e
    · cases h
      exact Or.inr ⟨(del hm).1, fun _ => (del hm).2⟩
    · split at h
      · cases h
        exact Or.inr ⟨(del hm).1, fun _ => (del hm).2⟩
      · cases h

/-- The entries after a successful `rename`: either nothing has happened because both names mean the same file, or the entry has moved. -/
theorem rename_entries {D D' : Dirs} {hasTable : Nat → Bool} {d d' : Nat} {n n' : Bytes} (h : D.rename hasTable d n d' n' = (none, D')) :
    (D' = D ∧ (D.entries d).lookup n ≠ none ∧ (D.entries d').lookup n' = (D.entries d).lookup n) ∨
    ∀ {x : Nat} {m : Bytes} {node : LNode}, (D'.entries x).lookup m = some node →
      (x = d' ∧ m = n') ∨ ((D.entries x).lookup m = some node ∧ ¬ (x = d ∧ m = n)) := by
  have mv : ∀ (src : LNode) {x : Nat} {m : Bytes} {node : LNode},
      (upd (upd D.entries d (dropKey (D.entries d) n)) d' ((n', src) :: dropKey ((upd D.entries d (dropKey (D.entries d) n)) d') n') x).lookup m = some node →
      (x = d' ∧ m = n') ∨ ((D.entries x).lookup m = some node ∧ ¬ (x = d ∧ m = n)) := by
    intro src x m node hm
    have base : (upd D.entries d (dropKey (D.entries d) n) x).lookup m = some node → (D.entries x).lookup m = some node ∧ ¬ (x = d ∧ m = n) := by
      intro hm
      by_cases e : x = d
      · subst e
        rw [upd_same, lookup_dropKey] at hm
        by_cases e2 : m = n
        · rw [if_pos e2] at hm; cases hm
        · rw [if_neg e2] at hm; exact ⟨hm, fun h => e2 h.2⟩
      · rw [upd_other _ _ _ _ e] at hm
        exact ⟨hm, fun h => e h.1⟩
    by_cases e : x = d'
    · subst e
      rw [upd_same, lookup_consKey] at hm
      by_cases e2 : m = n'
      · exact Or.inl ⟨rfl, e2⟩
      · rw [if_neg e2, lookup_dropKey, if_neg e2] at hm
        exact Or.inr (base hm)
    · rw [upd_other _ _ _ _ e] at hm
      exact Or.inr (base hm)
  unfold Dirs.rename at h
  split at h
  · cases h
  · split at h
    · cases h
    · rename_i src hsrc
      dsimp only at h
      split at h
      · cases h; exact Or.inr (mv src)
      · rename_i dst hdst
        split at h
        · rename_i e
          cases h
          left
          refine ⟨rfl, ?_, ?_⟩
          · rw [hsrc]; intro e; cases e
          · rw [hdst, hsrc, e]
        · split at h <;> first | (cases h; done) | skip
          · split at h
            · cases h; exact Or.inr (mv _)
            · cases h
          · cases h; exact Or.inr (mv _)

theorem right_record {enc : Bytes → Bytes} {v : Vol} (h : v.Right enc) (d : Nat) (n : Bytes) : (v.record d n (enc n)).Right enc := by
  intro k m x hx
  rw [known_record] at hx
  split at hx
  · rename_i e; cases hx; rw [e.2.1]
  · exact h k m x hx

theorem right_forget {enc : Bytes → Bytes} {v : Vol} (h : v.Right enc) (d : Nat) (n : Bytes) : (v.forget d n).Right enc := by
  intro k m x hx
  rw [known_forget] at hx
  split at hx
  · cases hx
  · exact h k m x hx

theorem right_dirs {enc : Bytes → Bytes} {v : Vol} (h : v.Right enc) (D : Dirs) : ({ v with dirs := D } : Vol).Right enc := h

theorem right_renamed {isLong : Bytes → Bool} {enc : Bytes → Bytes} {v : Vol} (h : v.Right enc) {c : Call} (hc : CallOk isLong enc c) :
    (v.renamed c).Right enc := by
  have nm : ∀ n : LName, NameOk isLong enc n → n.full ≠ [] → n.full = enc n.backing := by
    intro n hn hne
    unfold NameOk at hn
    split at hn
    · exact hn.1
    · exact absurd hn hne
  cases c with
  | list d => exact h
  | op d n k =>
    cases k <;> (unfold Vol.renamed; dsimp only; split <;> first | exact h | skip)
    · rename_i hne; rw [nm n hc hne]; exact right_record h d _
    · rename_i hne; rw [nm n hc hne]; exact right_record h d _
    · exact right_forget h d _
    · exact right_forget h d _
  | rename d n d' n' =>
    have h1 : (if n.full = [] then v else v.forget d n.backing).Right enc := by
      split
      · exact h
      · exact right_forget h d _
    show Vol.Right enc (if n'.full = [] then _ else _)
    split
    · exact h1
    · rename_i hne; rw [nm n' hc.2 hne]; exact right_record h1 d' _

theorem covered_call {isLong : Bytes → Bool} {enc : Bytes → Bytes} {v : Vol} (h : v.Covered isLong enc) (hr : v.Right enc) {c : Call}
    (hc : CallOk isLong enc c) {D : Dirs} (hk : v.kernel c = (none, D))
    (ht : ∀ d n d' n', c = .rename d n d' n' → isLong n.backing = true → (d, n.backing) ≠ (d', n'.backing) →
      (v.dirs.entries d).lookup n.backing ≠ none → (v.dirs.entries d').lookup n'.backing ≠ (v.dirs.entries d).lookup n.backing) :
    ({ v.renamed c with dirs := D } : Vol).Covered isLong enc := by
  have nm : ∀ n : LName, NameOk isLong enc n → isLong n.backing = true → n.full = enc n.backing ∧ n.full ≠ [] := by
    intro n hn hl
    unfold NameOk at hn
    rw [if_pos hl] at hn
    exact hn
  have keep : ∀ (w : Vol) (d : Nat) (n e : Bytes) (x : Nat) (m y : Bytes), w.known x m = some y → (w.record d n e).known x m = some y := by
    intro w d n e x m y hy
    rw [known_record, if_neg]
    · exact hy
    · rintro ⟨rfl, rfl, e⟩
      rw [e] at hy; cases hy
  have recorded : ∀ (w : Vol), w.Right enc → ∀ (d : Nat) (n : Bytes), (w.record d n (enc n)).known d n = some (enc n) := by
    intro w hw d n
    rw [known_record]
    cases hx : w.known d n with
    | none => rw [if_pos ⟨rfl, rfl, rfl⟩]
    | some y => rw [if_neg (fun e => by cases e.2.2), hw d n y hx]
  intro x m node hm hl
  show (v.renamed c).known x m = some (enc m)
  cases c with
  | list d =>
    refine h x m node ?_ hl
    cases hk
    exact hm
  | op d n k =>
    rcases call_entries hk hm with ⟨rfl, rfl, ha⟩ | ⟨ho, ha⟩
    · obtain ⟨f1, f2⟩ := nm n hc hl
      cases k <;> first | (cases ha; done) | skip
      all_goals
        unfold Vol.renamed
        dsimp only
        rw [if_neg f2, f1]
        exact recorded v hr _ _
    · have hv := h x m node ho hl
      cases k <;> (unfold Vol.renamed; dsimp only; split <;> first | exact hv | skip)
      · exact keep _ _ _ _ _ _ _ hv
      · exact keep _ _ _ _ _ _ _ hv
      · rw [known_forget, if_neg (ha rfl)]; exact hv
      · rw [known_forget, if_neg (ha rfl)]; exact hv
  | rename d n d' n' =>
    have r1 : (if n.full = [] then v else v.forget d n.backing).Right enc := by
      split
      · exact hr
      · exact right_forget hr d _
    have target : isLong n'.backing = true → (v.renamed (.rename d n d' n')).known d' n'.backing = some (enc n'.backing) := by
      intro hl'
      obtain ⟨f1, f2⟩ := nm n' hc.2 hl'
      unfold Vol.renamed
      dsimp only
      rw [if_neg f2, f1]
      exact recorded _ r1 _ _
    have others : v.known x m = some (enc m) → ¬ (n.full ≠ [] ∧ x = d ∧ m = n.backing) →
        (v.renamed (.rename d n d' n')).known x m = some (enc m) := by
      intro hv hne
      have h1 : (if n.full = [] then v else v.forget d n.backing).known x m = some (enc m) := by
        split
        · exact hv
        · rename_i hf
          rw [known_forget, if_neg (fun e => hne ⟨hf, e⟩)]
          exact hv
      unfold Vol.renamed
      dsimp only
      split
      · exact h1
      · exact keep _ _ _ _ _ _ _ h1
    rcases rename_entries hk with ⟨rfl, e1, e2⟩ | hmv
    · have hm' : (v.dirs.entries x).lookup m = some node := hm
      by_cases hx : n.full ≠ [] ∧ x = d ∧ m = n.backing
      · obtain ⟨hf, rfl, rfl⟩ := hx
        by_cases hs : (x, n.backing) = (d', n'.backing)
        · injection hs with s1 s2
          subst s1; rw [← s2] at target
          exact target hl
        · exact absurd e2 (ht x n d' n' rfl hl hs e1)
      · exact others (h x m node hm' hl) hx
    · rcases hmv hm with ⟨rfl, rfl⟩ | ⟨ho, hne⟩
      · exact target hl
      · exact others (h x m node ho hl) (fun e => hne e.2)

theorem after_covered {isLong : Bytes → Bool} {enc : Bytes → Bytes} {s : St} {i : Nat} {t : Th} {c : Call} {cs : List Call} {v v' : Vol} {es : List Event}
    (hv : View s v) (h : v.Covered isLong enc) (hr : v.Right enc) (ho : Origin s i t c es) (ht : s.threads[i]? = some t) (hc : t.calls = c :: cs)
    (hok : CallOk isLong enc c) (htd : Tidy isLong s i) (he : v.history es = some v') : v'.Covered isLong enc ∧ v'.Right enc := by
  cases ho with
  | made ds =>
    have key : ∀ (ds : List Nat) (v : Vol), v.Covered isLong enc → v.Right enc → v.history (ds.map .made) = some v' →
        v'.Covered isLong enc ∧ v'.Right enc := by
      intro ds
      induction ds with
      | nil => intro v h hr he; cases he; exact ⟨h, hr⟩
      | cons d ds ih =>
        intro v h hr he
        have hk : ({ v with names := fun k => if k = d then some (v.known d) else v.names k } : Vol).known = v.known := by
          funext k m
          show (match (if k = d then some (v.known d) else v.names k) with | some m' => m' m | none => none) = _
          by_cases e : k = d
          · rw [if_pos e, e]
          · rw [if_neg e]; rfl
        refine ih _ ?_ ?_ he
        · intro k m node hm hl; rw [hk]; exact h k m node hm hl
        · intro k m y hy; rw [hk] at hy; exact hr k m y hy
    exact key ds v h hr he
  | removed id fs held hp hd =>
    cases he
    have hk : ∀ k m, ({ v with names := fun k => if k = id then none else v.names k } : Vol).known k m = if k = id then none else v.known k m := by
      intro k m
      show (match (if k = id then none else v.names k) with | some m' => m' m | none => none) = _
      by_cases e : k = id
      · rw [if_pos e, if_pos e]
      · rw [if_neg e, if_neg e]; rfl
    refine ⟨?_, ?_⟩
    · intro k m node hm hl
      rw [hk]
      by_cases e : k = id
      · subst e
        have := (htd t ht).1 fs held c cs k hp hc hd m node (by rw [← hv.dirs]; exact hm)
        rw [hl] at this
        cases this
      · rw [if_neg e]; exact h k m node hm hl
    · intro k m y hy
      rw [hk] at hy
      by_cases e : k = id
      · rw [if_pos e] at hy; cases hy
      · rw [if_neg e] at hy; exact hr k m y hy
  | call fault res fs held hp =>
    unfold Vol.history at he
    cases fault with
    | some e =>
      unfold Vol.after at he
      by_cases hres : res = some e
      · simp only [hres, if_true] at he
        cases he; exact ⟨h, hr⟩
      · simp only [hres, if_false] at he
        cases he
    | none =>
      unfold Vol.after at he
      dsimp only at he
      by_cases hk : (v.kernel c).1 = res
      · rw [if_neg (fun e => e hk)] at he
        cases res with
        | some e => cases he; exact ⟨h, hr⟩
        | none =>
          cases he
          refine ⟨covered_call h hr hok (Prod.ext hk rfl) ?_, right_dirs (right_renamed hr hok) _⟩
          intro d n d' n' e hl hne hx
          subst e
          rw [hv.dirs] at hx ⊢
          refine (htd t ht).2 fs held d n d' n' cs ?_ hc hl hne hx
          rcases hp with hp | hp
          · exact Or.inl hp.1
          · exact Or.inr hp
      · rw [if_pos hk] at he
        cases he

theorem history_view {isLong : Bytes → Bool} {enc : Bytes → Bytes} (run : List (Nat × Move)) : ∀ (s s' : St) (v : Vol),
    Shape s → Current s → View s v → v.Covered isLong enc → v.Right enc → (∀ t ∈ s.threads, ∀ c ∈ t.calls, CallOk isLong enc c) →
    Along isLong (fun s i m => Calm s i m ∧ Tidy isLong s i) s run → s.run isLong run = some s' →
    ∃ v', View s' v' ∧ v'.Covered isLong enc ∧ v'.Right enc ∧ Shape s' ∧ Current s' := by
  induction run with
  | nil =>
    intro s s' v h1 h2 h3 h4 h5 _ _ hr
    cases hr
    exact ⟨v, h3, h4, h5, h1, h2⟩
  | cons im run ih =>
    obtain ⟨i, m⟩ := im
    intro s s' v h1 h2 h3 h4 h5 h6 hcalm hr
    unfold St.run at hr
    cases hs : s.step isLong i m with
    | none => rw [hs] at hr; cases hr
    | some s1 =>
      rw [hs] at hr
      obtain ⟨t, c, cs, ht, hc, hst⟩ := step_rel hs
      obtain ⟨es, v1, a1, a2, a3, a4, t', a5, a6⟩ := sim_step h1 h2 h3 ht hc hcalm.1.1 hst
      have hmem := List.mem_of_getElem? ht
      obtain ⟨b1, b2⟩ := after_covered h3 h4 h5 a4 ht hc (h6 t hmem c (by rw [hc]; exact List.mem_cons_self)) hcalm.1.2 a1
      refine ih s1 s' v1 (shape_step h1 ht hc hst) a3 a2 b1 b2 ?_ (hcalm.2 s1 hs) hr
      intro u hu c' hc'
      rw [a5] at hu
      rcases mem_set hu with rfl | ⟨j, _, hj⟩
      · rcases a6 with ⟨e, _⟩ | ⟨o, e, _⟩
        · rw [e] at hc'; exact h6 t hmem c' hc'
        · rw [e] at hc'; exact h6 t hmem c' (by rw [hc]; exact List.mem_cons_of_mem _ hc')
      · exact h6 u (List.mem_of_getElem? hj) c' hc'

/-! ## Names that nobody touches -/

/-- The statements of a call change only what the call touches. -/
theorem stmt_touches {c : Call} {fs : List File} (h : fs.map Prod.fst = c.opens) {x : Stmt} (hx : x ∈ c.stmts fs) {n : Bytes}
    (hn : ¬ Call.touches x.file.1 n c) (k : Bytes → Option Bytes) : x.onMap k n = k n := by
  have put : ∀ (f : File) (m e : Bytes), m ≠ n → (Stmt.put f m e).onMap k n = k n := fun f m e hm => if_neg (fun e => hm e.1.symm)
  have del : ∀ (f : File) (m : Bytes), m ≠ n → (Stmt.del f m).onMap k n = k n := fun f m hm => if_neg (fun e => hm e.symm)
  cases c with
  | list d => cases fs <;> cases hx
  | op d m a =>
    unfold Call.opens at h
    dsimp only at h
    split at h
    · cases fs with
      | nil => cases hx
      | cons f fs => cases h
    · match fs, h with
      | [f], h =>
        have hf : f.1 = d := by injection h
        unfold Call.stmts at hx
        dsimp only at hx
        split at hx
        · rw [List.mem_singleton] at hx; subst hx; exact put f m.backing m.full (fun e => hn ⟨hf.symm, e⟩)
        · rw [List.mem_singleton] at hx; subst hx; exact del f m.backing (fun e => hn ⟨hf.symm, e⟩)
  | rename d m d' m' =>
    unfold Call.opens at h
    dsimp only at h
    split at h
    · cases fs with
      | nil => cases hx
      | cons f fs => cases h
    · match fs, h with
      | [f, f'], h =>
        have hf : f.1 = d := by injection h
        have hf' : f'.1 = d' := by injection h with _ h; injection h
        unfold Call.stmts at hx
        dsimp only at hx
        rw [List.mem_append] at hx
        rcases hx with hx | hx
        · split at hx
          · cases hx
          · rw [List.mem_singleton] at hx; subst hx; exact del f m.backing (fun e => hn (Or.inl ⟨hf.symm, e⟩))
        · split at hx
          · cases hx
          · rw [List.mem_singleton] at hx; subst hx; exact put f' m'.backing m'.full (fun e => hn (Or.inr ⟨hf'.symm, e⟩))

theorem settled_inflight {t : Th} {f : File} {r : Rows} {c : Call} {cs : List Call} (h : settled t f = some r) (hc : t.calls = c :: cs) :
    inflight t = [(c, none)] ∧ t.pc.todo = [] ∧ t.pc.inCall = true := by
  unfold settled at h
  unfold inflight
  split at h
  · rename_i hp; rw [hp, hc]; exact ⟨rfl, rfl, rfl⟩
  · rename_i hp; rw [hp, hc]; exact ⟨rfl, rfl, rfl⟩
  · cases h

theorem settled_inCall {t : Th} {f : File} {r : Rows} (h : settled t f = some r) : t.pc.inCall = true := by
  unfold settled at h
  split at h
  · rename_i hp; rw [hp]; rfl
  · rename_i hp; rw [hp]; rfl
  · cases h

theorem foldl_onMap {n : Bytes} (xs : List Stmt) (h : ∀ x ∈ xs, ∀ k, x.onMap k n = k n) : ∀ k, xs.foldl (fun k x => x.onMap k) k n = k n := by
  induction xs with
  | nil => intro k; rfl
  | cons x xs ih =>
    intro k
    rw [List.foldl_cons, ih (fun y hy => h y (List.mem_cons_of_mem _ hy)), h x List.mem_cons_self]

/-- What the volume knows about a name that no call under way has touched is committed. -/
theorem known_committed {s : St} {v : Vol} (hv : View s v) (hsh : Shape s) {d : Nat} {n x : Bytes} (hk : v.known d n = some x)
    (hn : ∀ t ∈ s.threads, ∀ p ∈ inflight t, ¬ Call.touches d n p.1) : ∃ g, s.table d = some g ∧ (s.rows (d, g)).lookup n = some x := by
  cases ht : s.table d with
  | none =>
    unfold Vol.known at hk
    rw [hv.absent d ht] at hk
    cases hk
  | some g =>
    obtain ⟨m, hm, h1, h2⟩ := hv.present d g ht
    unfold Vol.known at hk
    rw [hm] at hk
    refine ⟨g, rfl, ?_⟩
    by_cases he : ∃ t ∈ s.threads, ∃ r, settled t (d, g) = some r
    · obtain ⟨t, hmem, r, hr⟩ := he
      rw [← hk]
      show _ = m n
      rw [h1 t hmem r hr n]
      obtain ⟨c, cs, done, c1, c2, c3, c4, c5⟩ := (hsh.txn t hmem).call (settled_inCall hr)
      obtain ⟨i1, i2, _⟩ := settled_inflight hr c1
      have hnt := hn t hmem (c, none) (by rw [i1]; exact List.mem_singleton.mpr rfl)
      have hh := (settled_holds hr).2
      rw [i2, List.append_nil] at c4
      rw [c5, lookup_exec] at hh
      split at hh
      · cases hh
        have e := congrFun (lookup_applies (done.filter (fun x => x.file == (d, g))) (s.rows (d, g))) n
        rw [e, foldl_onMap]
        intro y hy k
        rw [List.mem_filter, beq_iff_eq] at hy
        refine stmt_touches c3 (x := y) (by rw [c4]; exact hy.1) ?_ k
        rw [hy.2]
        exact hnt
      · cases hh
    · rw [← hk]
      exact (h2 (fun t hmem => by
        cases hs : settled t (d, g) with
        | none => rfl
        | some r => exact absurd ⟨t, hmem, r, hs⟩ he) n).symm

/-- A state in which every call has returned amounts to one volume only. -/
theorem finished_volume {s : St} {v : Vol} (hv : View s v) (hsh : Shape s) (hf : Finished s) : v = volume s := by
  have hs : ∀ t ∈ s.threads, ∀ f, settled t f = none := by
    intro t ht f
    cases h : settled t f with
    | none => rfl
    | some r =>
      obtain ⟨c, cs, _, h1, _⟩ := (hsh.txn t ht).call (settled_inCall h)
      rw [hf t ht] at h1
      cases h1
  obtain ⟨D, names⟩ := v
  have hd : D = s.dirs := hv.dirs
  subst hd
  unfold volume
  congr 1
  funext d
  cases ht : s.table d with
  | none => exact hv.absent d ht
  | some g =>
    obtain ⟨m, hm, _, h2⟩ := hv.present d g ht
    have hm' : names d = some m := hm
    rw [hm']
    show some m = some _
    congr 1
    funext n
    exact h2 (fun t h => hs t h _) n

end Securefs.LongTab
