import Verif.Proofs.BtreeTree
/-! Helper lemmas: inserting into a B-tree directory. -/

namespace Securefs
open BT

theorem Core.cast {s : BSt} {np : Nat} {R R' : Multiset Rec} {F : List Nat} (h : Core s np R F) (e : R = R') : Core s np R' F :=
  e ▸ h

theorem isLeaf_true {n : BNode} (h : n.children = []) (s : BSt) : isLeaf n s = .ok (true, s) := by
  rw [isLeaf, if_pos h]; rfl

theorem isLeaf_false {n : BNode} (h : n.children.length = n.entries.length + 1) (s : BSt) : isLeaf n s = .ok (false, s) := by
  rw [isLeaf, if_neg (by intro h0; rw [h0] at h; simp at h), if_pos h]; rfl

/-- `adjust_children_in_cache` gives a list of subtrees a new parent. -/
theorem adjust_run {np : Nat} {F : List Nat} {p : Nat} (q : Nat) : ∀ (cs : List BT) (s : BSt) (R : Multiset Rec),
    Core s np (nodesL p cs + R) F →
    ∃ s', adjustChildren q (cs.map page) s = .ok ((), s') ∧ Core s' np (nodesL q cs + R) F ∧ Keep s s'
  | [], s, R, h => ⟨s, rfl, by simpa using h, Keep.refl s⟩
  | .node cp es cc :: cs, s, R, h => by
    have h1 : Core s np (⟨p, cp, cc.map page, es⟩ ::ₘ (nodesL p cs + (nodesL cp cc + R))) F := by
      refine h.cast ?_
      rw [nodesL_cons, nodes_node]; ms
    by_cases hc : InC s cp
    · obtain ⟨s1, e1, h2, k1⟩ := h1.setParent hc q
      obtain ⟨s2, e2, h3, k2⟩ := adjust_run q cs s1 (⟨q, cp, cc.map page, es⟩ ::ₘ (nodesL cp cc + R)) (h2.cast (by ms))
      refine ⟨s2, ?_, h3.cast (by rw [nodesL_cons, nodes_node]; ms), k1.trans k2⟩
      obtain ⟨n, hn⟩ := hc
      rw [List.map_cons, adjustChildren, bind_run (getSt_run s)]
      show (match cacheFind s cp with | some _ => _ | none => _ : BM Unit) s = _
      rw [hn]
      dsimp only
      rw [show page (.node cp es cc) = cp from rfl, bind_run e1, e2]
    · have h2 := h1.repar hc q
      obtain ⟨s2, e2, h3, k2⟩ := adjust_run q cs s (⟨q, cp, cc.map page, es⟩ ::ₘ (nodesL cp cc + R)) (h2.cast (by ms))
      refine ⟨s2, ?_, h3.cast (by rw [nodesL_cons, nodes_node]; ms), k2⟩
      have hn : cacheFind s cp = none := by
        cases hx : cacheFind s cp with
        | none => rfl
        | some n => exact absurd ⟨n, hx⟩ hc
      rw [List.map_cons, adjustChildren, bind_run (getSt_run s)]
      show (match cacheFind s cp with | some _ => _ | none => _ : BM Unit) s = _
      rw [hn]
      exact e2

/-- Moving the upper part of a node into an empty sibling. -/
theorem split_run {s : BSt} {np : Nat} {F : List Nat} {a p q : Nat} {A B : List DirEntry} {m : DirEntry} {CA CB : List BT}
    {R : Multiset Rec}
    (h : Core s np (⟨a, p, (CA ++ CB).map page, A ++ m :: B⟩ ::ₘ ⟨a, q, [], []⟩ ::ₘ (nodesL p CA + nodesL p CB + R)) F)
    (hp : InC s p) (hq : InC s q)
    (hl : CA = [] ∧ CB = [] ∨ CA.length = A.length + 1 ∧ CB.length = B.length + 1) :
    ∃ s', splitInto p q A.length s = .ok ((), s') ∧
      Core s' np (⟨a, p, CA.map page, A⟩ ::ₘ ⟨a, q, CB.map page, B⟩ ::ₘ (nodesL p CA + nodesL q CB + R)) F ∧ Keep s s' := by
  obtain ⟨d, hcf, hde⟩ := h.deref (Multiset.mem_cons_self _ _) hp
  have eB : (A ++ m :: B).drop (A.length + 1) = B := by
    rw [List.drop_append, List.drop_of_length_le (by omega), show A.length + 1 - A.length = 1 by omega]; rfl
  have eA : (A ++ m :: B).take A.length = A := List.take_left
  rw [splitInto, bind_run hde]
  dsimp only
  rcases hl with ⟨rfl, rfl⟩ | ⟨hl1, hl2⟩
  · rw [bind_run (isLeaf_true rfl s), if_pos rfl, eA, eB]
    obtain ⟨s1, e1, h1, k1⟩ := Core.setEntries (h.cast (Multiset.cons_swap _ _ _)) hq B
    obtain ⟨s2, e2, h2, k2⟩ := Core.setEntries (h1.cast (Multiset.cons_swap _ _ _)) (k1.2 p hp) A
    rw [bind_run e1]
    exact ⟨s2, e2, h2, k1.trans k2⟩
  · have hlen : ((CA ++ CB).map page).length = (A ++ m :: B).length + 1 := by
      simp only [List.length_map, List.length_append, List.length_cons]; omega
    have cA : ((CA ++ CB).map page).take (A.length + 1) = CA.map page := by
      rw [List.map_append, List.take_left' (by simpa using hl1)]
    have cB : ((CA ++ CB).map page).drop (A.length + 1) = CB.map page := by
      rw [List.map_append, List.drop_left' (by simpa using hl1)]
    rw [bind_run (isLeaf_false hlen s), if_neg (by simp), eA, eB, cA, cB]
    obtain ⟨s1, e1, h1, k1⟩ := Core.setChildren (h.cast (Multiset.cons_swap _ _ _)) hq (CB.map page)
    obtain ⟨s2, e2, h2, k2⟩ := Core.setChildren (h1.cast (Multiset.cons_swap _ _ _)) (k1.2 p hp) (CA.map page)
    obtain ⟨s3, e3, h3, k3⟩ := adjust_run (p := p) q CB s2
      (⟨a, p, CA.map page, A ++ m :: B⟩ ::ₘ ⟨a, q, CB.map page, []⟩ ::ₘ (nodesL p CA + R)) (h2.cast (by ms))
    have k13 := (k1.trans k2).trans k3
    obtain ⟨s4, e4, h4, k4⟩ := Core.setEntries (a := a) (p := q) (cs := CB.map page) (es := [])
      (R := ⟨a, p, CA.map page, A ++ m :: B⟩ ::ₘ (nodesL p CA + nodesL q CB + R)) (h3.cast (by ms)) (k13.2 q hq) B
    obtain ⟨s5, e5, h5, k5⟩ := Core.setEntries (h4.cast (Multiset.cons_swap _ _ _)) ((k13.trans k4).2 p hp) A
    rw [bind_run e1, bind_run e2, bind_run e3, bind_run e4]
    exact ⟨s5, e5, h5, (k13.trans k4).trans k5⟩

/-- Getting a new page and its empty node. -/
theorem fresh_run {s : BSt} {np : Nat} {R : Multiset Rec} {F : List Nat} (h : Core s np R F) (hlt : F = [] → np < 2 ^ 20) (par : Nat) :
    ∃ a s1 s2 np' F', allocatePage s = .ok (a, s1) ∧ retrieveNode par a s1 = .ok (a, s2) ∧
      Core s2 np' (⟨par, a, [], []⟩ ::ₘ R) F' ∧ Keep s s2 ∧ InC s2 a := by
  obtain ⟨a, s1, np', F', e1, h1, c1, r1⟩ := h.alloc hlt
  obtain ⟨s2, e2, h2, k2, i2, _⟩ := (h1 par).retrieve (Multiset.mem_cons_self _ _)
  refine ⟨a, s1, s2, np', F', e1, e2, h2, ?_, i2⟩
  refine ⟨k2.1.trans r1, fun x ⟨n, hn⟩ => k2.2 x ⟨n, ?_⟩⟩
  rw [cacheFind_cache c1]; exact hn

/-- A new root above two nodes. -/
theorem growRoot_run {s : BSt} {np : Nat} {F : List Nat} {p q : Nat} {A B : List DirEntry} {m : DirEntry} {CA CB : List BT}
    (h : Core s np (nodes invalidPage (.node p A CA) + nodes invalidPage (.node q B CB)) F) (hlt : F = [] → np < 2 ^ 20)
    (hp : InC s p) (hq : InC s q) :
    ∃ s' np' F' a, growRoot p q m s = .ok ((), s') ∧
      Core s' np' (nodes invalidPage (.node a [m] [.node p A CA, .node q B CB])) F' ∧ s'.root = a := by
  obtain ⟨a, s1, s2, np', F', e1, e2, h2, k2, i2⟩ := fresh_run h hlt invalidPage
  obtain ⟨s3, e3, h3, k3⟩ := h2.setChildren i2 [p, q]
  obtain ⟨s4, e4, h4, k4⟩ := h3.setEntries (k3.2 _ i2) [m]
  have h5 := h4.setRoot a
  have kk := (k2.trans k3).trans k4
  have hp4 : InC { s4 with root := a } p := kk.2 p hp
  obtain ⟨s6, e6, h6, k6⟩ := Core.setParent (a := invalidPage) (p := p) (cs := CA.map page) (es := A)
    (R := nodesL p CA + (⟨invalidPage, a, [p, q], [m]⟩ ::ₘ nodes invalidPage (.node q B CB)))
    (h5.cast (by rw [nodes_node]; ms)) hp4 a
  have hq6 : InC s6 q := k6.2 q (kk.2 q hq)
  obtain ⟨s7, e7, h7, k7⟩ := Core.setParent (a := invalidPage) (p := q) (cs := CB.map page) (es := B)
    (R := nodesL q CB + (⟨invalidPage, a, [p, q], [m]⟩ ::ₘ nodes a (.node p A CA)))
    (h6.cast (by rw [nodes_node, nodes_node]; ms)) hq6 a
  refine ⟨s7, np', F', a, ?_, h7.cast ?_, ?_⟩
  · rw [growRoot, bind_run e1, bind_run e2, bind_run e3, bind_run e4,
      bind_run (setRoot_run (Nat.lt_of_lt_of_le (h4.lt (Multiset.mem_cons_self _ _)) (Nat.le_trans h4.npLe (by norm_num))) s4), bind_run e6, e7]
  · rw [nodes_node invalidPage, nodesL_cons, nodesL_cons, nodesL_nil, nodes_node a q, List.map_cons, List.map_cons, List.map_nil]
    show _ = (⟨invalidPage, a, [p, q], [m]⟩ : Rec) ::ₘ _
    ms
  · rw [k7.1, k6.1]

/-- Directories are modelled up to this number of entries: beyond it pages could reach the number `2 ^ 20`, where
    the 32-bit page offset wraps. -/
def maxDirEntries : Nat := 6 * (2 ^ 20 - 2)

/-- The insertion of an entry, and of a subtree right of it, into a node. -/
theorem insertHere_run {s : BSt} {np : Nat} {F : List Nat} {h a p : Nat} {e1 e2 : List DirEntry} {e : DirEntry} {c1 X c2 : List BT}
    {R : Multiset Rec} (hC : Core s np (⟨a, p, (c1 ++ c2).map page, e1 ++ e2⟩ ::ₘ R) F) (hp : InC s p)
    (hl : (h = 0 ∧ c1 = [] ∧ c2 = [] ∧ X = []) ∨
      (∃ x, X = [x] ∧ x.page ≠ invalidPage ∧ c1.length = e1.length + 1 ∧ c2.length = e2.length)) :
    ∃ s', insertHere p e1.length e ((X.head?.map page).getD invalidPage) s = .ok ((), s') ∧
      Core s' np (⟨a, p, (c1 ++ X ++ c2).map page, e1 ++ e :: e2⟩ ::ₘ R) F ∧ Keep s s' := by
  obtain ⟨d, hcf, hde⟩ := hC.deref (Multiset.mem_cons_self _ _) hp
  rw [insertHere, bind_run hde]
  dsimp only
  have eE : (e1 ++ e2).take e1.length ++ e :: (e1 ++ e2).drop e1.length = e1 ++ e :: e2 := by
    rw [List.take_left, List.drop_left]
  rw [eE]
  rcases hl with ⟨_, rfl, rfl, rfl⟩ | ⟨x, rfl, hx, h1, h2⟩
  · rw [if_pos (show ((([] : List BT).head?.map page).getD invalidPage) = invalidPage from rfl)]
    exact hC.setEntries hp _
  · rw [if_neg (show ¬ (([x].head?.map page).getD invalidPage) = invalidPage from hx)]
    have hlen : ((c1 ++ c2).map page).length = (e1 ++ e2).length + 1 := by
      simp only [List.length_map, List.length_append]; omega
    rw [bind_run (isLeaf_false hlen s), if_neg (by simp)]
    have hle : decide (e1.length + 1 ≤ ((c1 ++ c2).map page).length) = true := by
      simp only [List.length_map, List.length_append, decide_eq_true_eq]; omega
    rw [hle, bind_run (dirCheck_run s)]
    have eC : ((c1 ++ c2).map page).take (e1.length + 1) ++ ((([x].head?.map page).getD invalidPage) ::
        ((c1 ++ c2).map page).drop (e1.length + 1)) = (c1 ++ [x] ++ c2).map page := by
      rw [List.map_append, List.take_left' (by simpa using h1), List.drop_left' (by simpa using h1)]
      simp
    rw [eC]
    obtain ⟨s1, r1, g1, k1⟩ := hC.setChildren hp ((c1 ++ [x] ++ c2).map page)
    obtain ⟨s2, r2, g2, k2⟩ := g1.setEntries (k1.2 p hp) (e1 ++ e :: e2)
    rw [bind_run r1]
    exact ⟨s2, r2, g2, k1.trans k2⟩

theorem cut14 (E : List DirEntry) (h : E.length = 14) : ∃ A m B, E = A ++ m :: B ∧ A.length = 6 ∧ B.length = 7 := by
  refine ⟨E.take 6, E[6], E.drop 7, ?_, by simp [h], by simp [h]⟩
  rw [List.getElem_cons_drop, List.take_append_drop]

theorem Shape.mono {lo lo' h : Nat} {t : BT} (hl : lo' ≤ lo) (hs : Shape lo h t) : Shape lo' h t := by
  cases t with
  | node p es cs =>
    cases h with
    | zero => exact ⟨hs.1, by have := hs.2.1; omega, hs.2.2⟩
    | succ h => exact ⟨hs.1, by have := hs.2.1; omega, hs.2.2⟩

/-- `insert_and_balance`. -/
theorem insert_run (C : BCfg) (hC : CmpOk C.cmp) : ∀ (K : List Frame) (fuel h p : Nat) (e1 e2 : List DirEntry) (e : DirEntry)
    (c1 X c2 : List BT) (s : BSt) (np : Nat) (F : List Nat), K.length < fuel → KOk h K →
    ((h = 0 ∧ c1 = [] ∧ c2 = [] ∧ X = []) ∨
      (∃ h' x, h = h' + 1 ∧ X = [x] ∧ x.page ≠ invalidPage ∧ c1.length = e1.length + 1 ∧ c2.length = e2.length ∧
        ∀ c ∈ c1 ++ X ++ c2, Shape 6 h' c)) →
    (e1 ++ e2).length ≤ 13 → (K ≠ [] → 6 ≤ (e1 ++ e2).length) →
    Core s np (⟨parOf K, p, (c1 ++ c2).map page, e1 ++ e2⟩ ::ₘ (nodesL p (c1 ++ X ++ c2) + ctx K p)) F →
    InC s p → (∀ f ∈ K, InC s f.p) → s.root = rootOf K p →
    Asc C (Lk K ++ weave (e1 ++ e :: e2) (flats (c1 ++ X ++ c2)) ++ Rk K) →
    (Lk K ++ weave (e1 ++ e :: e2) (flats (c1 ++ X ++ c2)) ++ Rk K).length ≤ maxDirEntries →
    ∃ s' np' F' t' h', insertBalance C fuel p e ((X.head?.map page).getD invalidPage) s = .ok ((), s') ∧
      Core s' np' (nodes invalidPage t') F' ∧ s'.root = t'.page ∧ Shape (rootLo h') h' t' ∧
      flat t' = Lk K ++ weave (e1 ++ e :: e2) (flats (c1 ++ X ++ c2)) ++ Rk K := by
  intro K
  induction K with
  | nil => ?_
  | cons f K ih => ?_
  all_goals
    intro fuel h p e1 e2 e c1 X c2 s np F hfuel hK hX hlen hmin hcore hp hKc hroot hasc hmax
    obtain ⟨fuel, rfl⟩ : ∃ n, fuel = n + 1 := ⟨fuel - 1, by simp at hfuel; omega⟩
    have hX' : (h = 0 ∧ c1 = [] ∧ c2 = [] ∧ X = []) ∨
      (∃ x, X = [x] ∧ x.page ≠ invalidPage ∧ c1.length = e1.length + 1 ∧ c2.length = e2.length) := by
      rcases hX with hX | ⟨h', x, _, q1, q2, q3, q4, _⟩
      · exact Or.inl hX
      · exact Or.inr ⟨x, q1, q2, q3, q4⟩
    have hwl : flats (c1 ++ X ++ c2) = [] ∨ (flats (c1 ++ X ++ c2)).length = (e1 ++ e :: e2).length + 1 := by
      rcases hX' with ⟨_, rfl, rfl, rfl⟩ | ⟨x, rfl, _, q3, q4⟩
      · left; simp
      · right
        simp only [flats_length, List.length_append, List.length_cons, List.length_nil]; omega
    have hE : Asc C (e1 ++ e :: e2) := by
      refine List.Pairwise.sublist ?_ hasc
      refine (sublist_weave (e1 ++ e :: e2) (flats (c1 ++ X ++ c2)) (hwl.imp id (fun w => by omega))).trans ?_
      exact (List.sublist_append_right _ _).trans (List.sublist_append_left _ _)
    obtain ⟨d, hcf, hde⟩ := hcore.deref (Multiset.mem_cons_self _ _) hp
    obtain ⟨s1, r1, g1, k1⟩ := insertHere_run (e := e) hcore hp hX'
    obtain ⟨d1, hcf1, hde1⟩ := g1.deref (Multiset.mem_cons_self _ _) (k1.2 p hp)
    rw [insertBalance, bind_run hde]
    dsimp only
    rw [lowerBound_asc hC e1 e2 e hE, bind_run r1, bind_run hde1]
    dsimp only
    generalize hEe : e1 ++ e :: e2 = E at *
    have hElen : E.length = (e1 ++ e2).length + 1 := by
      rw [← hEe]; simp only [List.length_append, List.length_cons]; omega
    generalize hCs : c1 ++ X ++ c2 = Cs at *
  -- the tree fits without a split
  · by_cases hbig : E.length > btMaxEntries
    · rw [if_pos hbig]
      have h14 : E.length = 14 := by simp only [btMaxEntries] at hbig; omega
      obtain ⟨A, m, B, rfl, hA, hB⟩ := cut14 E h14
      have hsh : ∃ CA CB, Cs = CA ++ CB ∧ (CA = [] ∧ CB = [] ∨ CA.length = A.length + 1 ∧ CB.length = B.length + 1) := by
        rcases hwl with hw | hw
        · refine ⟨[], [], ?_, Or.inl ⟨rfl, rfl⟩⟩
          have := congrArg List.length hw
          simpa using this
        · refine ⟨Cs.take 7, Cs.drop 7, (List.take_append_drop _ _).symm, Or.inr ?_⟩
          simp only [flats_length] at hw
          simp only [List.length_take, List.length_drop]
          omega
      obtain ⟨CA, CB, rfl, hcut⟩ := hsh
      have hchild : (CA = [] ∧ CB = [] ∧ h = 0) ∨ ∃ h', h = h' + 1 ∧ (∀ c ∈ CA, Shape 6 h' c) ∧ (∀ c ∈ CB, Shape 6 h' c) ∧
          CA.length = A.length + 1 ∧ CB.length = B.length + 1 := by
        rcases hX with ⟨q0, q1, q2, q3⟩ | ⟨h', x, q0, q1, q2, q3, q4, q5⟩
        · left
          rw [q1, q2, q3] at hCs
          simp only [List.append_nil] at hCs
          have := List.append_eq_nil_iff.1 hCs.symm
          exact ⟨this.1, this.2, q0⟩
        · right
          rcases hcut with ⟨w1, w2⟩ | ⟨w1, w2⟩
          · rw [w1, w2, q1] at hCs; simp at hCs
          · exact ⟨h', q0, fun c hc => q5 c (by simp [hc]), fun c hc => q5 c (by simp [hc]), w1, w2⟩
      have hS : Shape 6 h (.node p A CA) ∧ ∀ q, Shape 6 h (.node q B CB) := by
        rcases hchild with ⟨rfl, rfl, rfl⟩ | ⟨h', rfl, w1, w2, w3, w4⟩
        · exact ⟨⟨rfl, by omega, by omega⟩, fun q => ⟨rfl, by omega, by omega⟩⟩
        · exact ⟨⟨w3, by omega, by omega, w1⟩, fun q => ⟨w4, by omega, by omega, w2⟩⟩
      have hfl : weave (A ++ m :: B) (flats (CA ++ CB)) = weave A (flats CA) ++ m :: weave B (flats CB) := by
        rw [flats_append]
        refine weave_cut A B m _ _ (hcut.imp (fun w => ?_) (fun w => by simpa using w))
        rw [w.1, w.2]; simp
      -- counting
      have hsum : sumEs ((⟨parOf [], p, (CA ++ CB).map page, A ++ m :: B⟩ : Rec) ::ₘ (nodesL p (CA ++ CB) + ctx [] p)) ≤ maxDirEntries := by
        have e1' := Shape.sum h 6 _ hS.1 0
        have e2' := Shape.sum h 6 _ (hS.2 p) 0
        rw [nodes_node, sumEs_cons, flat_node] at e1' e2'
        simp only [Lk, Rk, List.nil_append, List.append_nil] at hmax
        rw [hfl] at hmax
        simp only [List.length_append, List.length_cons] at hmax
        rw [sumEs_cons, sumEs_add, nodesL_append, sumEs_add, ctx, sumEs_zero]
        simp only [List.length_append, List.length_cons] at e1' e2' ⊢
        omega
      have hfillL : ∀ r ∈ nodesL p (CA ++ CB), 6 ≤ r.es.length := by
        intro r hr
        rcases hchild with ⟨rfl, rfl, rfl⟩ | ⟨h', rfl, w1, w2, w3, w4⟩
        · simp at hr
        · exact nodesL_fill' h' p _ (fun c hc => by
            rw [List.mem_append] at hc
            rcases hc with hc | hc
            · exact w1 c hc
            · exact w2 c hc) r hr
      have hroom : F = [] → np < 2 ^ 20 := by
        rintro rfl
        have := g1.pages_le p (by
          intro r hr
          rw [Multiset.mem_cons, Multiset.mem_add] at hr
          rcases hr with rfl | hr | hr
          · left; rfl
          · right; exact hfillL r hr
          · simp [ctx] at hr)
        simp only [maxDirEntries] at hsum; omega
      obtain ⟨q, s2, s3, np', F', r2, r3, g3, k3, i3⟩ := fresh_run g1 hroom (parOf [])
      have k13 := k1.trans k3
      obtain ⟨s4, r4, g4, k4⟩ := split_run (A := A) (B := B) (m := m) (CA := CA) (CB := CB) (q := q) (R := 0)
        (g3.cast (by rw [nodesL_append, ctx]; ms)) (k13.2 p hp) i3 hcut
      have hmid : (A ++ m :: B).length / 2 - 1 = A.length := by
        simp only [List.length_append, List.length_cons]; omega
      have hget : (A ++ m :: B)[A.length]? = some m := by simp
      rw [bind_run r2, bind_run r3, hmid, hget]
      dsimp only
      rw [bind_run r4, if_pos (show parOf [] = invalidPage from rfl)]
      -- a new root
      have k14 := k13.trans k4
      have hroom2 : F' = [] → np' < 2 ^ 20 := by
        rintro rfl
        have := g4.pages_le p (by
          intro r hr
          rw [Multiset.mem_cons, Multiset.mem_cons, add_zero, Multiset.mem_add] at hr
          rcases hr with rfl | rfl | hr | hr
          · left; rfl
          · right; show 6 ≤ B.length; omega
          · right; exact (Shape.fill h _ hS.1 0) r (by rw [nodes_node]; exact Multiset.mem_cons_of_mem hr)
          · right; exact (Shape.fill h _ (hS.2 q) 0) r (by rw [nodes_node]; exact Multiset.mem_cons_of_mem hr))
        have hsum2 : sumEs ((⟨parOf [], p, CA.map page, A⟩ : Rec) ::ₘ ⟨parOf [], q, CB.map page, B⟩ ::ₘ
            (nodesL p CA + nodesL q CB + 0)) ≤ maxDirEntries := by
          have e1' := Shape.sum h 6 _ hS.1 0
          have e2' := Shape.sum h 6 _ (hS.2 q) 0
          rw [nodes_node, sumEs_cons, flat_node] at e1' e2'
          simp only [Lk, Rk, List.nil_append, List.append_nil] at hmax
          rw [hfl] at hmax
          simp only [List.length_append, List.length_cons] at hmax
          simp only [sumEs_cons, sumEs_add, sumEs_zero] at e1' e2' ⊢
          omega
        simp only [maxDirEntries] at hsum2; omega
      obtain ⟨s5, np5, F5, a, r5, g5, q5⟩ := growRoot_run (p := p) (q := q) (A := A) (B := B) (m := m) (CA := CA) (CB := CB)
        (g4.cast (by rw [nodes_node, nodes_node, parOf]; ms)) hroom2 (k14.2 p hp) (k4.2 q i3)
      refine ⟨s5, np5, F5, _, h + 1, r5, g5, q5, ?_, ?_⟩
      · refine ⟨rfl, by simp [rootLo], by simp, ?_⟩
        intro c hc
        simp only [List.mem_cons, List.not_mem_nil, or_false] at hc
        rcases hc with rfl | rfl
        · exact hS.1
        · exact hS.2 q
      · rw [flat_node, flats_cons, flats_cons, flats_nil, weave, weave, flat_node, flat_node, hfl]
        simp [Lk, Rk]
    · rw [if_neg hbig]
      have h13 : E.length ≤ 13 := by simp only [btMaxEntries] at hbig; omega
      refine ⟨s1, np, F, .node p E Cs, h, rfl, g1.cast (by rw [nodes_node, ctx, parOf]; ms), ?_, ?_, ?_⟩
      · rw [k1.1, hroot]; rfl
      · rcases hX with ⟨rfl, rfl, rfl, rfl⟩ | ⟨h', x, rfl, rfl, q2, q3, q4, q5⟩
        · exact ⟨by rw [← hCs]; rfl, by simp [rootLo], h13⟩
        · refine ⟨?_, by simp [rootLo]; omega, h13, q5⟩
          rw [← hCs]
          simp only [List.length_append, List.length_cons, List.length_nil] at *; omega
      · rw [flat_node]; simp [Lk, Rk]
  · obtain ⟨f1, f2, f3, f4, f5, f6, f7, f8⟩ := hK
    by_cases hbig : E.length > btMaxEntries
    · rw [if_pos hbig]
      have h14 : E.length = 14 := by simp only [btMaxEntries] at hbig; omega
      obtain ⟨A, m, B, rfl, hA, hB⟩ := cut14 E h14
      have hsh : ∃ CA CB, Cs = CA ++ CB ∧ (CA = [] ∧ CB = [] ∨ CA.length = A.length + 1 ∧ CB.length = B.length + 1) := by
        rcases hwl with hw | hw
        · refine ⟨[], [], ?_, Or.inl ⟨rfl, rfl⟩⟩
          have := congrArg List.length hw
          simpa using this
        · refine ⟨Cs.take 7, Cs.drop 7, (List.take_append_drop _ _).symm, Or.inr ?_⟩
          simp only [flats_length] at hw
          simp only [List.length_take, List.length_drop]
          omega
      obtain ⟨CA, CB, rfl, hcut⟩ := hsh
      have hchild : (CA = [] ∧ CB = [] ∧ h = 0) ∨ ∃ h', h = h' + 1 ∧ (∀ c ∈ CA, Shape 6 h' c) ∧ (∀ c ∈ CB, Shape 6 h' c) ∧
          CA.length = A.length + 1 ∧ CB.length = B.length + 1 := by
        rcases hX with ⟨q0, q1, q2, q3⟩ | ⟨h', x, q0, q1, q2, q3, q4, q5⟩
        · left
          rw [q1, q2, q3] at hCs
          simp only [List.append_nil] at hCs
          have := List.append_eq_nil_iff.1 hCs.symm
          exact ⟨this.1, this.2, q0⟩
        · right
          rcases hcut with ⟨w1, w2⟩ | ⟨w1, w2⟩
          · rw [w1, w2, q1] at hCs; simp at hCs
          · exact ⟨h', q0, fun c hc => q5 c (by simp [hc]), fun c hc => q5 c (by simp [hc]), w1, w2⟩
      have hS : Shape 6 h (.node p A CA) ∧ ∀ q, Shape 6 h (.node q B CB) := by
        rcases hchild with ⟨rfl, rfl, rfl⟩ | ⟨h', rfl, w1, w2, w3, w4⟩
        · exact ⟨⟨rfl, by omega, by omega⟩, fun q => ⟨rfl, by omega, by omega⟩⟩
        · exact ⟨⟨w3, by omega, by omega, w1⟩, fun q => ⟨w4, by omega, by omega, w2⟩⟩
      have hfl : weave (A ++ m :: B) (flats (CA ++ CB)) = weave A (flats CA) ++ m :: weave B (flats CB) := by
        rw [flats_append]
        refine weave_cut A B m _ _ (hcut.imp (fun w => ?_) (fun w => by simpa using w))
        rw [w.1, w.2]; simp
      have hsum : sumEs ((⟨parOf (f :: K), p, (CA ++ CB).map page, A ++ m :: B⟩ : Rec) ::ₘ
          (nodesL p (CA ++ CB) + ctx (f :: K) p)) ≤ maxDirEntries := by
        have e1' := Shape.sum h 6 _ hS.1 0
        have e2' := Shape.sum h 6 _ (hS.2 p) 0
        rw [nodes_node, sumEs_cons, flat_node] at e1' e2'
        have e3' := sum_ctx h (f :: K) p ⟨f1, f2, f3, f4, f5, f6, f7, f8⟩
        rw [hfl] at hmax
        simp only [List.length_append, List.length_cons] at hmax
        rw [sumEs_cons, sumEs_add, nodesL_append, sumEs_add, e3']
        simp only [List.length_append, List.length_cons] at e1' e2' ⊢
        omega
      have hfillL : ∀ r ∈ nodesL p (CA ++ CB), 6 ≤ r.es.length := by
        intro r hr
        rcases hchild with ⟨rfl, rfl, rfl⟩ | ⟨h', rfl, w1, w2, w3, w4⟩
        · simp at hr
        · exact nodesL_fill' h' p _ (fun c hc => by
            rw [List.mem_append] at hc
            rcases hc with hc | hc
            · exact w1 c hc
            · exact w2 c hc) r hr
      have hroom : F = [] → np < 2 ^ 20 := by
        rintro rfl
        have := g1.pages_le (rootOf (f :: K) p) (by
          intro r hr
          rw [Multiset.mem_cons, Multiset.mem_add] at hr
          rcases hr with rfl | hr | hr
          · right; show 6 ≤ (A ++ m :: B).length; omega
          · right; exact hfillL r hr
          · exact ctx_fill h (f :: K) p ⟨f1, f2, f3, f4, f5, f6, f7, f8⟩ r hr)
        simp only [maxDirEntries] at hsum; omega
      obtain ⟨q, s2, s3, np', F', r2, r3, g3, k3, i3⟩ := fresh_run g1 hroom (parOf (f :: K))
      have k13 := k1.trans k3
      obtain ⟨s4, r4, g4, k4⟩ := split_run (A := A) (B := B) (m := m) (CA := CA) (CB := CB) (q := q) (R := ctx (f :: K) p)
        (g3.cast (by rw [nodesL_append]; ms)) (k13.2 p hp) i3 hcut
      have hmid : (A ++ m :: B).length / 2 - 1 = A.length := by
        simp only [List.length_append, List.length_cons]; omega
      have hget : (A ++ m :: B)[A.length]? = some m := by simp
      have k14 := k13.trans k4
      have hfp : InC s4 f.p := k14.2 f.p (hKc f (by simp))
      have hfrec : (⟨parOf K, f.p, f.cL.map page ++ p :: f.cR.map page, f.eL ++ f.eR⟩ : Rec) ∈ ((⟨parOf (f :: K), p, CA.map page, A⟩ : Rec) ::ₘ
          ⟨parOf (f :: K), q, CB.map page, B⟩ ::ₘ (nodesL p CA + nodesL q CB + ctx (f :: K) p)) := by
        rw [ctx]; simp
      have hfne : f.p ≠ invalidPage := ne_invalid g4.npLe (g4.lt hfrec)
      have hqne : q ≠ invalidPage := ne_invalid g4.npLe (g4.lt (r := ⟨parOf (f :: K), q, CB.map page, B⟩) (by simp))
      obtain ⟨df, _, hdf⟩ := g4.deref hfrec hfp
      have hrun : insertBalance C fuel f.p m q s4 = insertBalance C fuel f.p m ((([(.node q B CB : BT)]).head?.map page).getD invalidPage) s4 := rfl
      have hseq : Lk K ++ weave (f.eL ++ m :: f.eR) (flats ((f.cL ++ [.node p A CA]) ++ [.node q B CB] ++ f.cR)) ++ Rk K =
          Lk (f :: K) ++ weave (A ++ m :: B) (flats (CA ++ CB)) ++ Rk (f :: K) := by
        rw [hfl, Lk, Rk]
        have hw := weave_split f.eL (flats f.cL) (m :: f.eR) (flat (.node p A CA)) (flat (.node q B CB) :: flats f.cR) (by simpa using f1)
        have hw2 := weave_cons f.eR (flat (.node q B CB)) (flats f.cR) (by simpa using f2)
        simp only [flats_append, flats_cons, flats_nil, List.append_assoc, List.cons_append, List.nil_append]
        rw [hw, weave, hw2, flat_node, flat_node]
        simp
      have := ih fuel (h + 1) f.p f.eL f.eR m (f.cL ++ [.node p A CA]) [.node q B CB] f.cR s4 np' F'
        (by simp at hfuel; omega) f8
        (Or.inr ⟨h, .node q B CB, rfl, rfl, hqne, by simp [f1], f2, by
          intro c hc
          simp only [List.mem_append, List.mem_cons, List.not_mem_nil, or_false] at hc
          rcases hc with ((hc | rfl) | rfl) | hc
          · exact f6 c hc
          · exact hS.1
          · exact hS.2 q
          · exact f7 c hc⟩)
        (by simp only [List.length_append]; omega)
        (by intro hn; have := f4 hn; simp only [List.length_append]; omega)
        (g4.cast (by
          rw [ctx, parOf]
          simp only [nodesL_append, nodesL_cons, nodesL_nil, nodes_node, List.map_append, List.map_cons, List.map_nil,
            List.append_assoc, List.singleton_append, show page (.node p A CA) = p from rfl]
          ms))
        hfp (fun g hg => k14.2 g.p (hKc g (by simp [hg])))
        (by rw [k14.1, hroot]; rfl)
        (by rw [hseq]; exact hasc) (by rw [hseq]; exact hmax)
      obtain ⟨s5, np5, F5, t5, h5, r5, g5, q5, w5, v5⟩ := this
      refine ⟨s5, np5, F5, t5, h5, ?_, g5, q5, w5, by rw [v5, hseq]⟩
      rw [bind_run r2, bind_run r3, hmid, hget]
      dsimp only
      rw [bind_run r4, if_neg (show ¬ parOf (f :: K) = invalidPage from hfne), bind_run (show deref (parOf (f :: K)) s4 = _ from hdf)]
      exact r5
    · rw [if_neg hbig]
      have h13 : E.length ≤ 13 := by simp only [btMaxEntries] at hbig; omega
      refine ⟨s1, np, F, plug (f :: K) (.node p E Cs), h + (f :: K).length, rfl, g1.cast ?_, ?_, ?_, ?_⟩
      · rw [nodes_plug, nodes_node, show page (.node p E Cs) = p from rfl]; ms
      · rw [k1.1, hroot, page_plug]; rfl
      · refine shape_plug h (f :: K) _ ⟨f1, f2, f3, f4, f5, f6, f7, f8⟩ (by intro hn; cases hn) ?_
        intro _
        have h6 := hmin (by simp)
        rcases hX with ⟨rfl, rfl, rfl, rfl⟩ | ⟨h', x, rfl, rfl, q2, q3, q4, q5⟩
        · exact ⟨by rw [← hCs]; rfl, by omega, h13⟩
        · refine ⟨?_, by omega, h13, q5⟩
          rw [← hCs]
          simp only [List.length_append, List.length_cons, List.length_nil] at *; omega
      · rw [flat_plug h (f :: K) _ ⟨f1, f2, f3, f4, f5, f6, f7, f8⟩, flat_node]

end Securefs
