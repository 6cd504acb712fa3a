import Verif.Proofs.FullFs
/-!
# Link counts under any interleaving
-/

namespace Securefs

open Spec

theorem Safe.nonneg {cfg : FsCfg} {α : Type} {Q : α → Credit → Prop} (hQ : ∀ a c, Q a c → c.NonNeg) {p : Prog α} {c : Credit}
    (h : Safe cfg Q p c) : c.NonNeg := by
  cases p with
  | ret a => exact hQ a c h
  | throw e => exact h
  | sec f k => exact h.1

/-- A started operation with its credits. -/
def Running (cfg : FsCfg) (p : Prog Int) (c : Credit) : Prop := Safe cfg (fun _ c => c = Credit.zero) p c

theorem Running.nonneg {cfg : FsCfg} {p : Prog Int} {c : Credit} (h : Running cfg p c) : c.NonNeg :=
  Safe.nonneg (fun _ c h => by subst h; exact Credit.zero_nonneg) h

/-- The sum of the credits for a file. -/
def total (cs : List Credit) (x : Bytes) : Int := (cs.map fun c => c x).sum

theorem total_set : ∀ (cs : List Credit) (i : Nat) (c c' : Credit) (x : Bytes), cs[i]? = some c →
    total (cs.set i c') x = total cs x - c x + c' x
  | [], i, c, c', x, h => by cases i <;> cases h
  | a :: cs, 0, c, c', x, h => by
    simp only [List.getElem?_cons_zero, Option.some.injEq] at h
    subst h
    simp only [List.set_cons_zero, total, List.map_cons, List.sum_cons]
    omega
  | a :: cs, i + 1, c, c', x, h => by
    rw [List.getElem?_cons_succ] at h
    have := total_set cs i c c' x h
    simp only [List.set_cons_succ, total, List.map_cons, List.sum_cons] at *
    omega

theorem total_nonneg : ∀ (ps : List (Prog Int)) (cs : List Credit) (cfg : FsCfg), List.Forall₂ (Running cfg) ps cs → ∀ x, 0 ≤ total cs x
  | _, _, _, .nil, x => by simp [total]
  | _, _, cfg, .cons (a := p) (b := c) h hr, x => by
    have h1 := h.nonneg x
    have h2 := total_nonneg _ _ cfg hr x
    simp only [total, List.map_cons, List.sum_cons] at *
    omega

theorem le_total : ∀ {ps : List (Prog Int)} {cs : List Credit} {cfg : FsCfg}, List.Forall₂ (Running cfg) ps cs →
    ∀ {i : Nat} {c : Credit}, cs[i]? = some c → ∀ x, c x ≤ total cs x
  | _, _, _, .nil, i, c, h, x => by cases i <;> cases h
  | _, _, cfg, .cons (a := p) (b := c0) h0 hr, i, c, h, x => by
    have h1 := h0.nonneg x
    have h2 := total_nonneg _ _ cfg hr x
    cases i with
    | zero =>
      simp only [List.getElem?_cons_zero, Option.some.injEq] at h
      subst h
      simp only [total, List.map_cons, List.sum_cons] at *
      omega
    | succ i =>
      rw [List.getElem?_cons_succ] at h
      have := le_total hr h x
      simp only [total, List.map_cons, List.sum_cons] at *
      omega

theorem forall₂_getElem? {cfg : FsCfg} : ∀ {ps : List (Prog Int)} {cs : List Credit}, List.Forall₂ (Running cfg) ps cs →
    ∀ {i : Nat} {p : Prog Int}, ps[i]? = some p → ∃ c, cs[i]? = some c ∧ Running cfg p c
  | _, _, .nil, i, p, h => by cases i <;> cases h
  | _, _, .cons (b := c0) h0 hr, i, p, h => by
    cases i with
    | zero =>
      simp only [List.getElem?_cons_zero, Option.some.injEq] at h
      subst h
      exact ⟨c0, rfl, h0⟩
    | succ i =>
      rw [List.getElem?_cons_succ] at h
      obtain ⟨c, h1, h2⟩ := forall₂_getElem? hr h
      exact ⟨c, by rw [List.getElem?_cons_succ]; exact h1, h2⟩

theorem forall₂_set {cfg : FsCfg} : ∀ {ps : List (Prog Int)} {cs : List Credit}, List.Forall₂ (Running cfg) ps cs →
    ∀ (i : Nat) {p : Prog Int} {c : Credit}, Running cfg p c → List.Forall₂ (Running cfg) (ps.set i p) (cs.set i c)
  | _, _, .nil, i, p, c, _ => by cases i <;> exact .nil
  | _, _, .cons h0 hr, i, p, c, h => by
    cases i with
    | zero => exact .cons h hr
    | succ i => exact .cons h0 (forall₂_set hr i h)

theorem forall₂_snoc {cfg : FsCfg} {p : Prog Int} {c : Credit} (h : Running cfg p c) : ∀ {ps : List (Prog Int)} {cs : List Credit},
    List.Forall₂ (Running cfg) ps cs → List.Forall₂ (Running cfg) (ps ++ [p]) (cs ++ [c])
  | _, _, .nil => .cons h .nil
  | _, _, .cons h0 hr => .cons h0 (forall₂_snoc h hr)

theorem total_snoc (cs : List Credit) (c : Credit) (x : Bytes) : total (cs ++ [c]) x = total cs x + c x := by
  unfold total
  rw [List.map_append, List.sum_append]
  simp

/-- The invariant: every link is accounted for by a name, by an operation under way (or one that failed), or is lost. -/
structure BooksInv (cfg : FsCfg) (s : FullSys) (lost : Credit) : Prop where
  wf : FsWF cfg s.fs
  acct : ∃ cs, List.Forall₂ (Running cfg) s.threads cs ∧ ∀ x, bal s.fs x = total cs x + lost x
  lost_nonneg : lost.NonNeg

theorem bal_tick (fs : FullFs) (now : TimeSpec) (x : Bytes) : bal { fs with now := now } x = bal fs x := rfl

theorem nodes_lookup_filter_ne (l : List (Bytes × Inode)) (id x : Bytes) :
    (l.filter fun p => p.1 ≠ id).lookup x = if x = id then none else l.lookup x := by
  induction l with
  | nil => split <;> rfl
  | cons p l ih =>
    rw [List.filter_cons]
    by_cases hp : p.1 = id
    · rw [if_neg (by simpa using hp), ih]
      by_cases hx : x = id
      · rw [if_pos hx, if_pos hx]
      · rw [if_neg hx, if_neg hx, List.lookup_cons]
        have : (x == p.1) = false := by rw [hp]; simpa using hx
        rw [this]
    · rw [if_pos (by simpa using hp), List.lookup_cons, ih, List.lookup_cons]
      by_cases hx : x = id
      · rw [if_pos hx, if_pos hx]
        have : (x == p.1) = false := by rw [hx]; simpa using fun h => hp h.symm
        rw [this]
      · rw [if_neg hx, if_neg hx]

theorem filter_sum (l : List (Bytes × Inode)) (hl : (l.map Prod.fst).Nodup) (id : Bytes) (m : Inode) (x : Bytes)
    (h : l.lookup id = some m) :
    ((l.filter fun p => p.1 ≠ id).map fun p => cnt p.2.entries x).sum + cnt m.entries x =
      (l.map fun p => cnt p.2.entries x).sum := by
  induction l with
  | nil => cases h
  | cons p l ih =>
    rw [List.map_cons, List.nodup_cons] at hl
    rw [List.lookup_cons] at h
    rw [List.filter_cons]
    by_cases hp : p.1 = id
    · rw [if_neg (by simpa using hp)]
      have e1 : (id == p.1) = true := by rw [hp]; exact beq_self_eq_true _
      rw [e1] at h
      simp only [Option.some.injEq] at h
      have hrest : (l.filter fun p => p.1 ≠ id) = l := by
        rw [List.filter_eq_self]
        intro q hq
        have : q.1 ≠ id := by
          intro hc
          apply hl.1
          rw [hp, ← hc]
          exact List.mem_map_of_mem hq
        simpa using this
      rw [hrest, List.map_cons, List.sum_cons, h]
      omega
    · rw [if_pos (by simpa using hp)]
      have e1 : (id == p.1) = false := by simpa using fun h => hp h.symm
      rw [e1] at h
      have := ih hl.2 h
      rw [List.map_cons, List.map_cons, List.sum_cons, List.sum_cons]
      omega

/-- Removing a file without links loses the names it holds as a directory. -/
theorem reap_books {cfg : FsCfg} {fs : FullFs} (hw : FsWF cfg fs) {id : Bytes} {n : Inode} (hg : fs.get id = some n)
    (h0 : n.attr.nlink = 0) :
    FsWF cfg { fs with nodes := fs.nodes.filter fun p => p.1 ≠ id } ∧
    ∀ x, bal { fs with nodes := fs.nodes.filter fun p => p.1 ≠ id } x = bal fs x + cnt n.entries x := by
  refine ⟨⟨?_, ?_⟩, ?_⟩
  · exact hw.ids.sublist ((List.filter_sublist (l := fs.nodes)).map Prod.fst)
  · intro p hp
    exact hw.names p (List.mem_filter.mp hp).1
  · intro x
    have h1 : nameCount { fs with nodes := fs.nodes.filter fun p => p.1 ≠ id } x + cnt n.entries x = nameCount fs x := by
      rw [nameCount_eq, nameCount_eq]
      exact filter_sum fs.nodes hw.ids id n x hg
    have h2 : linkCount { fs with nodes := fs.nodes.filter fun p => p.1 ≠ id } x = linkCount fs x := by
      have : FullFs.get { fs with nodes := fs.nodes.filter fun p => p.1 ≠ id } x = if x = id then none else fs.get x :=
        nodes_lookup_filter_ne _ _ _
      by_cases hx : x = id
      · rw [if_pos hx] at this
        unfold linkCount
        rw [this, hx, hg]
        dsimp only
        rw [h0]; rfl
      · rw [if_neg hx] at this
        unfold linkCount
        rw [this]
    unfold bal
    rw [h2]
    omega

theorem books_step {cfg : FsCfg} (hs : SameEquiv cfg.same) {s : FullSys} {lost : Credit} (hi : BooksInv cfg s lost)
    (hroom : LinkRoom s.fs) (e : FullEvent) :
    ∃ lost', BooksInv cfg (s.step cfg e) lost' ∧ (∀ x, lost x ≤ lost' x) ∧
      ((match e with
        | .reap id => ∀ n, s.fs.get id = some n → n.attr.nlink = 0 → n.entries = []
        | _ => True) → lost' = lost) := by
  obtain ⟨hw, ⟨cs, hcs, hbal⟩, hl⟩ := hi
  cases e with
  | start op =>
    refine ⟨lost, ⟨hw, ⟨cs ++ [Credit.zero], forall₂_snoc (books_op hs op) hcs, fun x => ?_⟩, hl⟩, fun x => Int.le_refl _, fun _ => rfl⟩
    rw [total_snoc]
    have := hbal x
    show bal s.fs x = _
    unfold Credit.zero
    omega
  | step i =>
    show ∃ lost', BooksInv cfg (s.stepThread i) lost' ∧ _
    refine ⟨lost, ?_, fun x => Int.le_refl _, fun _ => rfl⟩
    unfold FullSys.stepThread
    cases hp : s.threads[i]? with
    | none => exact ⟨hw, ⟨cs, hcs, hbal⟩, hl⟩
    | some p =>
      cases p with
      | ret v => exact ⟨hw, ⟨cs, hcs, hbal⟩, hl⟩
      | throw er => exact ⟨hw, ⟨cs, hcs, hbal⟩, hl⟩
      | sec f k =>
        obtain ⟨c, hc1, hc2⟩ := forall₂_getElem? hcs hp
        have hcov : CreditCovered s.fs c := by
          intro x
          rw [hbal x]
          have := le_total hcs hc1 x
          have := hl x
          omega
        obtain ⟨c', h1, h2, h3, h4⟩ := hc2.2 s.fs hw hroom hcov
        dsimp only
        revert h1 h2 h3 h4
        generalize f s.fs = r
        obtain ⟨r1, fs'⟩ := r
        intro h1 h2 h3 h4
        have hb : ∀ x, bal fs' x = total (cs.set i c') x + lost x := by
          intro x
          rw [total_set cs i c c' x hc1]
          have := h2 x
          have := hbal x
          dsimp only at *
          omega
        cases r1 with
        | ok b => exact ⟨h1, ⟨_, forall₂_set hcs i (h3 b rfl), hb⟩, hl⟩
        | error er => exact ⟨h1, ⟨_, forall₂_set hcs i (h4 er rfl : Running cfg (.throw er) c'), hb⟩, hl⟩
  | fail i er =>
    refine ⟨lost, ?_, fun x => Int.le_refl _, fun _ => rfl⟩
    show BooksInv cfg (match s.threads[i]? with
      | some (.sec _ _) => { s with threads := s.threads.set i (.throw er) }
      | _ => s) lost
    cases hp : s.threads[i]? with
    | none => exact ⟨hw, ⟨cs, hcs, hbal⟩, hl⟩
    | some p =>
      cases p with
      | ret v => exact ⟨hw, ⟨cs, hcs, hbal⟩, hl⟩
      | throw er => exact ⟨hw, ⟨cs, hcs, hbal⟩, hl⟩
      | sec f k =>
        obtain ⟨c, hc1, hc2⟩ := forall₂_getElem? hcs hp
        refine ⟨hw, ⟨_, forall₂_set hcs i (hc2.1 : Running cfg (.throw er) c), fun x => ?_⟩, hl⟩
        rw [total_set cs i c c x hc1]
        have := hbal x
        show bal s.fs x = _
        omega
  | tick now => exact ⟨lost, ⟨⟨hw.ids, hw.names⟩, ⟨cs, hcs, hbal⟩, hl⟩, fun x => Int.le_refl _, fun _ => rfl⟩
  | evict id =>
    refine ⟨lost, ?_, fun x => Int.le_refl _, fun _ => rfl⟩
    show BooksInv cfg (match s.fs.get id with
      | none => s
      | some n => { s with fs := s.fs.set id { n with parent := zeros 32 } }) lost
    cases hg : s.fs.get id with
    | none => exact ⟨hw, ⟨cs, hcs, hbal⟩, hl⟩
    | some n =>
      have hent := wf_entries hw hg
      refine ⟨wf_set hw _ hent, ⟨cs, hcs, fun x => ?_⟩, hl⟩
      rw [← hbal x]
      show bal (s.fs.set id _) x = _
      rw [bal_set hw.ids hg]
      dsimp only
      split <;> omega
  | reap id =>
    show ∃ lost', BooksInv cfg (match s.fs.get id with
      | none => s
      | some n =>
        if n.attr.nlink = 0 ∧ id ≠ kRootId then { s with fs := { s.fs with nodes := s.fs.nodes.filter fun p => p.1 ≠ id } } else s) lost' ∧ _
    cases hg : s.fs.get id with
    | none => exact ⟨lost, ⟨hw, ⟨cs, hcs, hbal⟩, hl⟩, fun x => Int.le_refl _, fun _ => rfl⟩
    | some n =>
      dsimp only
      by_cases hc : n.attr.nlink = 0 ∧ id ≠ kRootId
      · rw [if_pos hc]
        obtain ⟨h1, h2⟩ := reap_books hw hg hc.1
        refine ⟨fun x => lost x + cnt n.entries x, ⟨h1, ⟨cs, hcs, fun x => ?_⟩, fun x => ?_⟩, fun x => ?_, fun h => ?_⟩
        · have := hbal x
          rw [h2 x]; omega
        · have := hl x
          show 0 ≤ lost x + _
          omega
        · show lost x ≤ lost x + _
          omega
        · have := h n hg hc.1
          rw [this]
          funext x
          simp [cnt]
      · rw [if_neg hc]
        exact ⟨lost, ⟨hw, ⟨cs, hcs, hbal⟩, hl⟩, fun x => Int.le_refl _, fun _ => rfl⟩

theorem books_run {cfg : FsCfg} (hs : SameEquiv cfg.same) : ∀ (evs : List FullEvent) (s : FullSys) (lost : Credit), BooksInv cfg s lost →
    Throughout cfg (fun s => LinkRoom s.fs) s evs →
    ∃ lost', BooksInv cfg (s.run cfg evs) lost' ∧ (∀ x, lost x ≤ lost' x) ∧ (NoOrphans cfg s evs → lost' = lost)
  | [], s, lost, hi, _ => ⟨lost, hi, fun _ => Int.le_refl _, fun _ => rfl⟩
  | e :: evs, s, lost, hi, hr => by
    obtain ⟨l1, h1, h2, h3⟩ := books_step hs hi hr.1 e
    obtain ⟨l2, k1, k2, k3⟩ := books_run hs evs (s.step cfg e) l1 h1 hr.2
    refine ⟨l2, k1, fun x => Int.le_trans (h2 x) (k2 x), fun h => ?_⟩
    rw [k3 h.2, h3 h.1]

theorem total_returned {cfg : FsCfg} : ∀ {ps : List (Prog Int)} {cs : List Credit}, List.Forall₂ (Running cfg) ps cs →
    (∀ p ∈ ps, ∃ v, p = Prog.ret v) → ∀ x, total cs x = 0
  | _, _, .nil, _, x => rfl
  | _, _, .cons (a := p) (b := c) h hr, hp, x => by
    obtain ⟨v, rfl⟩ := hp p List.mem_cons_self
    have hc : c = Credit.zero := h
    have := total_returned hr (fun q hq => hp q (List.mem_cons_of_mem _ hq)) x
    subst hc
    simp only [total, List.map_cons, List.sum_cons] at *
    rw [this]; rfl

theorem fresh_books (cfg : FsCfg) (now : TimeSpec) : BooksInv cfg ⟨FullFs.fresh cfg now, []⟩ (Credit.one kRootId) := by
  refine ⟨⟨by simp [FullFs.fresh], ?_⟩, ⟨[], .nil, fun x => ?_⟩, Credit.one_nonneg _⟩
  · intro p hp
    simp only [FullFs.fresh, List.mem_singleton] at hp
    subst hp
    exact List.Pairwise.nil
  · show bal (FullFs.fresh cfg now) x = 0 + Credit.one kRootId x
    unfold bal Credit.one
    have h1 : nameCount (FullFs.fresh cfg now) x = 0 := rfl
    rw [h1]
    unfold linkCount FullFs.get FullFs.fresh
    dsimp only
    rw [List.lookup_cons]
    by_cases hx : x = kRootId
    · rw [if_pos hx, hx, beq_self_eq_true]; rfl
    · have : (x == kRootId) = false := by simpa using hx
      rw [if_neg hx, this]; rfl

end Securefs
