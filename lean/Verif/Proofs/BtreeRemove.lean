import Verif.Proofs.BtreeFind
/-! Helper lemmas: removing from a B-tree directory. -/

namespace Securefs
open BT

/-! ## Subtrees with different parents -/

/-- The records of subtrees, each with its parent page. -/
def nodesP : List (Nat × BT) → Multiset Rec
  | [] => 0
  | (a, t) :: l => nodes a t + nodesP l

theorem nodesP_append : ∀ a b : List (Nat × BT), nodesP (a ++ b) = nodesP a + nodesP b
  | [], b => by simp [nodesP]
  | (x, t) :: a, b => by rw [List.cons_append, nodesP, nodesP, nodesP_append a b, add_assoc]

theorem nodesP_map (p : Nat) : ∀ cs : List BT, nodesP (cs.map fun c => (p, c)) = nodesL p cs
  | [] => by simp [nodesP]
  | c :: cs => by rw [List.map_cons, nodesP, nodesP_map p cs, nodesL_cons]

theorem adjustP_run {np : Nat} {F : List Nat} (q : Nat) : ∀ (ps : List (Nat × BT)) (s : BSt) (R : Multiset Rec),
    Core s np (nodesP ps + R) F →
    ∃ s', adjustChildren q (ps.map fun x => x.2.page) s = .ok ((), s') ∧ Core s' np (nodesL q (ps.map Prod.snd) + R) F ∧ Keep s s'
  | [], s, R, h => ⟨s, rfl, by simpa [nodesP] using h, Keep.refl s⟩
  | (p, .node cp es cc) :: ps, s, R, h => by
    have h1 : Core s np (⟨p, cp, cc.map page, es⟩ ::ₘ (nodesP ps + (nodesL cp cc + R))) F := by
      refine h.cast ?_
      rw [nodesP, nodes_node]; ms
    by_cases hc : InC s cp
    · obtain ⟨s1, e1, h2, k1⟩ := h1.setParent hc q
      obtain ⟨s2, e2, h3, k2⟩ := adjustP_run q ps s1 (⟨q, cp, cc.map page, es⟩ ::ₘ (nodesL cp cc + R)) (h2.cast (by ms))
      refine ⟨s2, ?_, h3.cast (by rw [List.map_cons, nodesL_cons, nodes_node]; ms), k1.trans k2⟩
      obtain ⟨n, hn⟩ := hc
      rw [List.map_cons, adjustChildren, bind_run (getSt_run s)]
      show (match cacheFind s cp with | some _ => _ | none => _ : BM Unit) s = _
      rw [hn]
      dsimp only
      rw [show page (.node cp es cc) = cp from rfl, bind_run e1, e2]
    · have h2 := h1.repar hc q
      obtain ⟨s2, e2, h3, k2⟩ := adjustP_run q ps s (⟨q, cp, cc.map page, es⟩ ::ₘ (nodesL cp cc + R)) (h2.cast (by ms))
      refine ⟨s2, ?_, h3.cast (by rw [List.map_cons, nodesL_cons, nodes_node]; ms), k2⟩
      have hn : cacheFind s cp = none := by
        cases hx : cacheFind s cp with
        | none => rfl
        | some n => exact absurd ⟨n, hx⟩ hc
      rw [List.map_cons, adjustChildren, bind_run (getSt_run s)]
      show (match cacheFind s cp with | some _ => _ | none => _ : BM Unit) s = _
      rw [hn]
      exact e2

theorem set_mid (a b : List DirEntry) (x y : DirEntry) : (a ++ x :: b).set a.length y = a ++ y :: b := by
  rw [List.set_append_right _ _ (Nat.le_refl _), Nat.sub_self]; rfl

theorem erase_mid {α : Type} (a b : List α) (x : α) : (a ++ x :: b).eraseIdx a.length = a ++ b := by
  rw [List.eraseIdx_append_of_length_le (Nat.le_refl _), Nat.sub_self]; rfl

theorem get_mid {α : Type} (a b : List α) (x : α) : (a ++ x :: b)[a.length]? = some x := by simp

theorem idxOf_mid (a b : List Nat) (x : Nat) (h : x ∉ a) : (a ++ x :: b).idxOf? x = some a.length := by
  induction a with
  | nil => simp [List.idxOf?, List.findIdx?_cons]
  | cons y a ih =>
    have hy : (y == x) = false := by
      simp only [beq_eq_false_iff_ne]
      intro h0; exact h (by simp [h0])
    have := ih (fun hx => h (by simp [hx]))
    simp only [List.idxOf?, List.cons_append, List.findIdx?_cons, hy] at this ⊢
    rw [this]; rfl

/-- `rotate`. -/
theorem rotate_run {s : BSt} {np : Nat} {F : List Nat} {a f l r : Nat} {chs : List Nat} {dL dR A B A' B' : List DirEntry} {sep m : DirEntry}
    {CA CB CA' CB' : List BT} {R : Multiset Rec}
    (h : Core s np (⟨a, f, chs, dL ++ sep :: dR⟩ ::ₘ ⟨f, l, CA.map page, A⟩ ::ₘ ⟨f, r, CB.map page, B⟩ ::ₘ
      (nodesL l CA + nodesL r CB + R)) F)
    (hf : InC s f) (hl : InC s l) (hr : InC s r)
    (hE : A ++ sep :: B = A' ++ m :: B') (hmid : A'.length = (A ++ sep :: B).length / 2) (hCs : CA ++ CB = CA' ++ CB')
    (hc : CA = [] ∧ CB = [] ∨ CA ≠ [] ∧ CB ≠ [] ∧ CA'.length = A'.length + 1) :
    ∃ s', rotate l r f dL.length s = .ok ((), s') ∧
      Core s' np (⟨a, f, chs, dL ++ m :: dR⟩ ::ₘ ⟨f, l, CA'.map page, A'⟩ ::ₘ ⟨f, r, CB'.map page, B'⟩ ::ₘ
        (nodesL l CA' + nodesL r CB' + R)) F ∧ Keep s s' := by
  obtain ⟨dl, _, hdl⟩ := h.deref (r := ⟨f, l, CA.map page, A⟩) (by simp) hl
  obtain ⟨dr, _, hdr⟩ := h.deref (r := ⟨f, r, CB.map page, B⟩) (by simp) hr
  obtain ⟨df, _, hdf⟩ := h.deref (r := ⟨a, f, chs, dL ++ sep :: dR⟩) (by simp) hf
  obtain ⟨s1, e1, h1, k1⟩ := h.setEntries hf (dL ++ m :: dR)
  obtain ⟨s2, e2, h2, k2⟩ := Core.setEntries (a := f) (p := l) (cs := CA.map page) (es := A)
    (R := ⟨a, f, chs, dL ++ m :: dR⟩ ::ₘ ⟨f, r, CB.map page, B⟩ ::ₘ (nodesL l CA + nodesL r CB + R)) (h1.cast (by ms)) (k1.2 l hl) A'
  have k12 := k1.trans k2
  obtain ⟨s3, e3, h3, k3⟩ := Core.setEntries (a := f) (p := r) (cs := CB.map page) (es := B)
    (R := ⟨a, f, chs, dL ++ m :: dR⟩ ::ₘ ⟨f, l, CA.map page, A'⟩ ::ₘ (nodesL l CA + nodesL r CB + R)) (h2.cast (by ms)) (k12.2 r hr) B'
  have k13 := k12.trans k3
  have eA : (A ++ sep :: B).take ((A ++ sep :: B).length / 2) = A' := by rw [← hmid, hE]; exact List.take_left
  have eB : (A ++ sep :: B).drop ((A ++ sep :: B).length / 2 + 1) = B' := by
    rw [← hmid, hE, List.drop_append, List.drop_of_length_le (by omega), show A'.length + 1 - A'.length = 1 by omega]; rfl
  have hrun : rotate l r f dL.length s = rotateChildren l r ((A ++ sep :: B).length / 2) (CA.map page) (CB.map page) s3 := by
    rw [rotate, bind_run hdl, bind_run hdr, bind_run hdf]
    dsimp only
    rw [get_mid]
    dsimp only
    rw [eA, eB]
    rw [show (A ++ sep :: B)[(A ++ sep :: B).length / 2]? = some m by rw [← hmid, hE, get_mid]]
    dsimp only
    rw [set_mid, bind_run e1, bind_run e2, bind_run e3]
  rw [hrun, ← hmid, rotateChildren]
  rcases hc with ⟨rfl, rfl⟩ | ⟨hc1, hc2, hc3⟩
  · have hnil : CA' = [] ∧ CB' = [] := List.append_eq_nil_iff.1 hCs.symm
    obtain ⟨rfl, rfl⟩ := hnil
    rw [if_pos (Or.inl List.map_nil)]
    refine ⟨s3, rfl, h3.cast ?_, k13⟩
    ms
  · rw [if_neg (by simp [hc1, hc2])]
    have cA : (CA.map page ++ CB.map page).take (A'.length + 1) = CA'.map page := by
      rw [← List.map_append, hCs, List.map_append, List.take_left' (by simpa using hc3)]
    have cB : (CA.map page ++ CB.map page).drop (A'.length + 1) = CB'.map page := by
      rw [← List.map_append, hCs, List.map_append, List.drop_left' (by simpa using hc3)]
    rw [cA, cB]
    obtain ⟨s4, e4, h4, k4⟩ := Core.setChildren (a := f) (p := l) (cs := CA.map page) (es := A')
      (R := ⟨a, f, chs, dL ++ m :: dR⟩ ::ₘ ⟨f, r, CB.map page, B'⟩ ::ₘ (nodesL l CA + nodesL r CB + R)) (h3.cast (by ms)) (k13.2 l hl) (CA'.map page)
    have k14 := k13.trans k4
    obtain ⟨s5, e5, h5, k5⟩ := Core.setChildren (a := f) (p := r) (cs := CB.map page) (es := B')
      (R := ⟨a, f, chs, dL ++ m :: dR⟩ ::ₘ ⟨f, l, CA'.map page, A'⟩ ::ₘ (nodesL l CA + nodesL r CB + R)) (h4.cast (by ms)) (k14.2 r hr) (CB'.map page)
    have k15 := k14.trans k5
    -- the children, in two groups
    let ps : List (Nat × BT) := CA.map (fun c => (l, c)) ++ CB.map (fun c => (r, c))
    have hps : nodesP ps = nodesL l CA + nodesL r CB := by
      show nodesP (CA.map (fun c => (l, c)) ++ CB.map (fun c => (r, c))) = _
      rw [nodesP_append, nodesP_map, nodesP_map]
    have hsnd : ps.map Prod.snd = CA' ++ CB' := by
      rw [← hCs]
      show (CA.map (fun c => (l, c)) ++ CB.map (fun c => (r, c))).map Prod.snd = _
      simp [Function.comp_def]
    have hcut : nodesP ps = nodesP (ps.take (A'.length + 1)) + nodesP (ps.drop (A'.length + 1)) := by
      rw [← nodesP_append, List.take_append_drop]
    have ht : (ps.take (A'.length + 1)).map Prod.snd = CA' := by
      rw [List.map_take, hsnd, List.take_left' hc3]
    have hd : (ps.drop (A'.length + 1)).map Prod.snd = CB' := by
      rw [List.map_drop, hsnd, List.drop_left' hc3]
    have htp : (ps.take (A'.length + 1)).map (fun x => x.2.page) = CA'.map page := by
      rw [← ht, List.map_map]; rfl
    have hdp : (ps.drop (A'.length + 1)).map (fun x => x.2.page) = CB'.map page := by
      rw [← hd, List.map_map]; rfl
    obtain ⟨s6, e6, h6, k6⟩ := adjustP_run l (ps.take (A'.length + 1)) s5
      (⟨a, f, chs, dL ++ m :: dR⟩ ::ₘ ⟨f, l, CA'.map page, A'⟩ ::ₘ ⟨f, r, CB'.map page, B'⟩ ::ₘ (nodesP (ps.drop (A'.length + 1)) + R))
      (h5.cast (by rw [← hps, hcut]; ms))
    obtain ⟨s7, e7, h7, k7⟩ := adjustP_run r (ps.drop (A'.length + 1)) s6
      (⟨a, f, chs, dL ++ m :: dR⟩ ::ₘ ⟨f, l, CA'.map page, A'⟩ ::ₘ ⟨f, r, CB'.map page, B'⟩ ::ₘ (nodesL l CA' + R))
      (h6.cast (by rw [ht]; ms))
    rw [htp] at e6
    rw [hdp] at e7
    rw [hd] at h7
    refine ⟨s7, ?_, h7.cast (by ms), (k15.trans k6).trans k7⟩
    rw [bind_run e4, bind_run e5, bind_run e6, e7]

/-- `merge`. -/
theorem merge_run {s : BSt} {np : Nat} {F : List Nat} {a f l r : Nat} {gL gR : List Nat} {dL dR A B : List DirEntry} {sep : DirEntry}
    {CA CB : List BT} {R : Multiset Rec}
    (h : Core s np (⟨a, f, gL ++ l :: r :: gR, dL ++ sep :: dR⟩ ::ₘ ⟨f, l, CA.map page, A⟩ ::ₘ ⟨f, r, CB.map page, B⟩ ::ₘ
      (nodesL l CA + nodesL r CB + R)) F)
    (hf : InC s f) (hl : InC s l) (hr : InC s r) (hrg : r ∉ gL ++ [l]) :
    ∃ s', merge l r f dL.length s = .ok ((), s') ∧
      Core s' np (⟨a, f, gL ++ l :: gR, dL ++ dR⟩ ::ₘ ⟨f, l, (CA ++ CB).map page, A ++ sep :: B⟩ ::ₘ
        (nodesL l (CA ++ CB) + R)) (r :: F) ∧ s'.root = s.root ∧ ∀ x, x ≠ r → InC s x → InC s' x := by
  obtain ⟨dl, _, hdl⟩ := h.deref (r := ⟨f, l, CA.map page, A⟩) (by simp) hl
  obtain ⟨df, _, hdf⟩ := h.deref (r := ⟨a, f, gL ++ l :: r :: gR, dL ++ sep :: dR⟩) (by simp) hf
  -- the separator moves
  obtain ⟨s1, e1, h1, k1⟩ := Core.setEntries (a := f) (p := l) (cs := CA.map page) (es := A)
    (R := ⟨a, f, gL ++ l :: r :: gR, dL ++ sep :: dR⟩ ::ₘ ⟨f, r, CB.map page, B⟩ ::ₘ (nodesL l CA + nodesL r CB + R))
    (h.cast (by ms)) hl (A ++ [sep])
  obtain ⟨s2, e2, h2, k2⟩ := Core.setEntries (a := a) (p := f) (cs := gL ++ l :: r :: gR) (es := dL ++ sep :: dR)
    (R := ⟨f, l, CA.map page, A ++ [sep]⟩ ::ₘ ⟨f, r, CB.map page, B⟩ ::ₘ (nodesL l CA + nodesL r CB + R))
    (h1.cast (by ms)) (k1.2 f hf) (dL ++ dR)
  have k12 := k1.trans k2
  obtain ⟨s3, e3, h3, k3⟩ := h2.setChildren (k12.2 f hf) (gL ++ l :: gR)
  have k13 := k12.trans k3
  obtain ⟨dr, _, hdr⟩ := h3.deref (r := ⟨f, r, CB.map page, B⟩) (by simp) (k13.2 r hr)
  obtain ⟨dl3, _, hdl3⟩ := h3.deref (r := ⟨f, l, CA.map page, A ++ [sep]⟩) (by simp) (k13.2 l hl)
  obtain ⟨s4, e4, h4, k4⟩ := Core.setEntries (a := f) (p := l) (cs := CA.map page) (es := A ++ [sep])
    (R := ⟨a, f, gL ++ l :: gR, dL ++ dR⟩ ::ₘ ⟨f, r, CB.map page, B⟩ ::ₘ (nodesL l CA + nodesL r CB + R))
    (h3.cast (by ms)) (k13.2 l hl) (A ++ [sep] ++ B)
  have k14 := k13.trans k4
  obtain ⟨s5, e5, h5, k5⟩ := adjust_run (p := r) l CB s4
    (⟨f, l, CA.map page, A ++ [sep] ++ B⟩ ::ₘ ⟨a, f, gL ++ l :: gR, dL ++ dR⟩ ::ₘ ⟨f, r, CB.map page, B⟩ ::ₘ (nodesL l CA + R))
    (h4.cast (by ms))
  have k15 := k14.trans k5
  obtain ⟨dl5, _, hdl5⟩ := h5.deref (r := ⟨f, l, CA.map page, A ++ [sep] ++ B⟩) (by simp) (k15.2 l hl)
  obtain ⟨s6, e6, h6, k6⟩ := Core.setChildren (a := f) (p := l) (cs := CA.map page) (es := A ++ [sep] ++ B)
    (R := ⟨a, f, gL ++ l :: gR, dL ++ dR⟩ ::ₘ ⟨f, r, CB.map page, B⟩ ::ₘ (nodesL l CA + nodesL l CB + R))
    (h5.cast (by ms)) (k15.2 l hl) (CA.map page ++ CB.map page)
  have k16 := k15.trans k6
  obtain ⟨s7, e7, h7, q7, i7⟩ := Core.del (r := ⟨f, r, CB.map page, B⟩)
    (R := ⟨f, l, CA.map page ++ CB.map page, A ++ [sep] ++ B⟩ ::ₘ ⟨a, f, gL ++ l :: gR, dL ++ dR⟩ ::ₘ (nodesL l CA + nodesL l CB + R))
    (h6.cast (by ms)) (k16.2 r hr)
  refine ⟨s7, ?_, h7.cast ?_, by rw [q7, k16.1], ?_⟩
  · have eidx : (gL ++ l :: r :: gR).idxOf? r = some (gL ++ [l]).length := by
      rw [show gL ++ l :: r :: gR = (gL ++ [l]) ++ r :: gR by simp]
      exact idxOf_mid _ _ _ hrg
    have eer : (gL ++ l :: r :: gR).eraseIdx (gL ++ [l]).length = gL ++ l :: gR := by
      rw [show gL ++ l :: r :: gR = (gL ++ [l]) ++ r :: gR by simp, erase_mid]; simp
    rw [merge, bind_run hdl, bind_run hdf]
    dsimp only
    rw [get_mid]
    dsimp only
    rw [erase_mid, bind_run e1, bind_run e2, eidx]
    dsimp only
    rw [eer, bind_run e3, bind_run hdr, bind_run hdl3, bind_run e4, bind_run e5, bind_run hdl5, bind_run e6]
    exact e7
  · rw [nodesL_append, List.map_append]
    simp only [List.append_assoc, List.singleton_append]
    ms
  · intro x hx hin
    obtain ⟨n, hn⟩ := k16.2 x hin
    exact ⟨n, by rw [i7 x hx]; exact hn⟩

/-! ## Repairing a node with its sibling -/

theorem page_mem_nodesL (p : Nat) : ∀ (cs : List BT) (c : BT), c ∈ cs → ∃ r ∈ nodesL p cs, r.page = c.page
  | [], _, h => by simp at h
  | x :: cs, c, h => by
    rcases List.mem_cons.1 h with rfl | h
    · obtain ⟨r, hr, h1, _⟩ := nodes_mem_top p c
      exact ⟨r, by rw [nodesL_cons]; exact Multiset.mem_add.2 (Or.inl hr), h1⟩
    · obtain ⟨r, hr, h1⟩ := page_mem_nodesL p cs c h
      exact ⟨r, by rw [nodesL_cons]; exact Multiset.mem_add.2 (Or.inr hr), h1⟩

/-- The children of a node of height `h` with `k` entries. -/
def Kids (h : Nat) (k : Nat) (cs : List BT) : Prop :=
  (h = 0 ∧ cs = []) ∨ ∃ h', h = h' + 1 ∧ cs.length = k + 1 ∧ ∀ c ∈ cs, Shape 6 h' c

theorem Kids.shape {h lo p : Nat} {es : List DirEntry} {cs : List BT} (hk : Kids h es.length cs) (h1 : lo ≤ es.length) (h2 : es.length ≤ 13) :
    Shape lo h (.node p es cs) := by
  rcases hk with ⟨rfl, rfl⟩ | ⟨h', rfl, h3, h4⟩
  · exact ⟨rfl, h1, h2⟩
  · exact ⟨h3, h1, h2, h4⟩

theorem BT.Shape.kids {h lo p : Nat} {es : List DirEntry} {cs : List BT} (hs : Shape lo h (.node p es cs)) :
    Kids h es.length cs ∧ lo ≤ es.length ∧ es.length ≤ 13 := by
  cases h with
  | zero => exact ⟨Or.inl ⟨rfl, hs.1⟩, hs.2.1, hs.2.2⟩
  | succ h => exact ⟨Or.inr ⟨h, rfl, hs.1, hs.2.2.2⟩, hs.2.1, hs.2.2.1⟩

theorem Kids.cut {h : Nat} {A B : List DirEntry} {CA CB : List BT} (ha : Kids h A.length CA) (hb : Kids h B.length CB) :
    CA = [] ∧ CB = [] ∨ CA.length = A.length + 1 ∧ CB.length = B.length + 1 := by
  rcases ha with ⟨rfl, rfl⟩ | ⟨h', rfl, h3, h4⟩
  · rcases hb with ⟨_, rfl⟩ | ⟨h', h0, _⟩
    · exact Or.inl ⟨rfl, rfl⟩
    · omega
  · rcases hb with ⟨h0, _⟩ | ⟨h'', h0, h5, _⟩
    · omega
    · exact Or.inr ⟨h3, h5⟩

theorem weave_pair (dL dR : List DirEntry) (sep : DirEntry) (gL gR : List BT) (L R : BT) (h1 : gL.length = dL.length) (h2 : gR.length = dR.length) :
    weave (dL ++ sep :: dR) (flats (gL ++ L :: R :: gR)) =
      preS dL (flats gL) ++ (flat L ++ sep :: flat R) ++ postS dR (flats gR) := by
  rw [flats_append, flats_cons, flats_cons, weave_split dL (flats gL) (sep :: dR) (flat L) _ (by simpa using h1), weave,
    weave_cons dR (flat R) (flats gR) (by simpa using h2)]
  simp

theorem pair_run (C : BCfg) (hC : CmpOk C.cmp) {s : BSt} {np : Nat} {F : List Nat} {h fp l r : Nat} {K : List Frame} {dL dR A B : List DirEntry} {sep : DirEntry}
    {CA CB gL gR : List BT}
    (hcore : Core s np (nodes invalidPage (plug K (.node fp (dL ++ sep :: dR) (gL ++ .node l A CA :: .node r B CB :: gR)))) F)
    (hf : InC s fp) (hl : InC s l) (hr : InC s r)
    (hkA : Kids h A.length CA) (hkB : Kids h B.length CB) (hg : ∀ c ∈ gL ++ gR, Shape 6 h c)
    (hgl : gL.length = dL.length) (hgr : gR.length = dR.length) (hd : (dL ++ sep :: dR).length ≤ 13)
    (hsz : A.length = 5 ∧ 6 ≤ B.length ∧ B.length ≤ 13 ∨ B.length = 5 ∧ 6 ≤ A.length ∧ A.length ≤ 13)
    (hasc : Asc C (flat (.node l A CA) ++ sep :: flat (.node r B CB))) (p sib : Nat) (hps : p = l ∧ sib = r ∨ p = r ∧ sib = l) :
    ∃ s' F' es' cs', rebalance C p sib fp dL.length s = .ok ((), s') ∧
      Core s' np (nodes invalidPage (plug K (.node fp es' cs'))) F' ∧ Kids (h + 1) es'.length cs' ∧ es'.length ≤ 13 ∧
      (dL ++ sep :: dR).length ≤ es'.length + 1 ∧
      weave es' (flats cs') = weave (dL ++ sep :: dR) (flats (gL ++ .node l A CA :: .node r B CB :: gR)) ∧
      s'.root = s.root ∧ ∀ x, x ≠ r → InC s x → InC s' x := by
  have hcut := Kids.cut hkA hkB
  -- the records
  have hcore' : Core s np (⟨parOf K, fp, gL.map page ++ l :: r :: gR.map page, dL ++ sep :: dR⟩ ::ₘ ⟨fp, l, CA.map page, A⟩ ::ₘ
      ⟨fp, r, CB.map page, B⟩ ::ₘ (nodesL l CA + nodesL r CB + (nodesL fp gL + nodesL fp gR + ctx K fp))) F := by
    refine hcore.cast ?_
    rw [nodes_plug, nodes_node, nodesL_append, nodesL_cons, nodesL_cons, nodes_node, nodes_node, List.map_append, List.map_cons, List.map_cons]
    simp only [show page (.node fp (dL ++ sep :: dR) (gL ++ .node l A CA :: .node r B CB :: gR)) = fp from rfl,
      show page (.node l A CA) = l from rfl, show page (.node r B CB) = r from rfl]
    ms
  have hrg : r ∉ gL.map page ++ [l] := by
    have hne := (hcore'.cast (R' := ⟨fp, r, CB.map page, B⟩ ::ₘ ⟨parOf K, fp, gL.map page ++ l :: r :: gR.map page, dL ++ sep :: dR⟩ ::ₘ
      ⟨fp, l, CA.map page, A⟩ ::ₘ (nodesL l CA + nodesL r CB + (nodesL fp gL + nodesL fp gR + ctx K fp))) (by ms)).ne.1
    intro hm
    rcases List.mem_append.1 hm with hm | hm
    · obtain ⟨c, hc, rfl⟩ := List.mem_map.1 hm
      obtain ⟨x, hx, hxp⟩ := page_mem_nodesL fp gL c hc
      exact hne x (by simp [hx]) hxp
    · simp only [List.mem_singleton] at hm
      exact hne ⟨fp, l, CA.map page, A⟩ (by simp) hm.symm
  -- the order of the two nodes
  have hA0 : A ≠ [] := by intro h0; rw [h0] at hsz; simp at hsz
  have hB0 : B ≠ [] := by intro h0; rw [h0] at hsz; simp at hsz
  obtain ⟨dl, _, hdl⟩ := hcore'.deref (r := ⟨fp, l, CA.map page, A⟩) (by simp) hl
  obtain ⟨dr, _, hdr⟩ := hcore'.deref (r := ⟨fp, r, CB.map page, B⟩) (by simp) hr
  have hAsub : A.Sublist (flat (.node l A CA)) := by
    rw [flat_node]; refine sublist_weave _ _ (hcut.imp (fun w => by rw [w.1]; simp) (fun w => by simp; omega))
  have hBsub : B.Sublist (flat (.node r B CB)) := by
    rw [flat_node]; refine sublist_weave _ _ (hcut.imp (fun w => by rw [w.2]; simp) (fun w => by simp; omega))
  have hAB : ∀ x ∈ A, ∀ y ∈ B, C.cmp x.name y.name < 0 := by
    intro x hx y hy
    exact (List.pairwise_append.1 hasc).2.2 x (hAsub.subset hx) y (List.mem_cons_of_mem _ (hBsub.subset hy))
  have hchoice : rebalance C p sib fp dL.length s =
      (if A.length + B.length < btMaxEntries then merge l r fp dL.length else rotate l r fp dL.length) s := by
    rcases hps with ⟨rfl, rfl⟩ | ⟨rfl, rfl⟩
    · obtain ⟨x, hx⟩ : ∃ x, A.getLast? = some x := ⟨A.getLast hA0, List.getLast?_eq_getLast_of_ne_nil hA0⟩
      obtain ⟨y, hy⟩ : ∃ y, B.head? = some y := ⟨B.head hB0, List.head?_eq_some_head hB0⟩
      have hb : C.before y.name x = true := before_iff.2 (hAB x (List.mem_of_getLast? hx) y (List.mem_of_head? hy))
      rw [rebalance, bind_run hdl, bind_run hdr]
      dsimp only
      rw [hx, hy]
      dsimp only
      rw [hb]; rfl
    · obtain ⟨x, hx⟩ : ∃ x, B.getLast? = some x := ⟨B.getLast hB0, List.getLast?_eq_getLast_of_ne_nil hB0⟩
      obtain ⟨y, hy⟩ : ∃ y, A.head? = some y := ⟨A.head hA0, List.head?_eq_some_head hA0⟩
      have hb : C.before y.name x = false := by
        have := hAB y (List.mem_of_head? hy) x (List.mem_of_getLast? hx)
        have h2 := hC.lt_iff y.name x.name
        simp only [BCfg.before, decide_eq_false_iff_not]; omega
      rw [rebalance, bind_run hdr, bind_run hdl]
      dsimp only
      rw [hx, hy]
      dsimp only
      rw [hb, Nat.add_comm]; rfl
  rw [hchoice]
  by_cases hsmall : A.length + B.length < btMaxEntries
  · rw [if_pos hsmall]
    simp only [btMaxEntries] at hsmall
    obtain ⟨s', e1, h1, k1, k2⟩ := merge_run hcore' hf hl hr hrg
    refine ⟨s', r :: F, dL ++ dR, gL ++ .node l (A ++ sep :: B) (CA ++ CB) :: gR, e1, h1.cast ?_, ?_, ?_, ?_, ?_, k1, k2⟩
    · rw [nodes_plug, nodes_node, nodesL_append fp, nodesL_cons, nodes_node, List.map_append (l₁ := gL), List.map_cons]
      simp only [show page (.node fp (dL ++ dR) (gL ++ .node l (A ++ sep :: B) (CA ++ CB) :: gR)) = fp from rfl,
        show page (.node l (A ++ sep :: B) (CA ++ CB)) = l from rfl]
      ms
    · refine Or.inr ⟨h, rfl, by simp; omega, ?_⟩
      intro c hc
      rw [List.mem_append, List.mem_cons] at hc
      rcases hc with hc | rfl | hc
      · exact hg c (List.mem_append_left _ hc)
      · refine Kids.shape ?_ (by simp; omega) (by simp; omega)
        rcases hcut with ⟨rfl, rfl⟩ | ⟨w1, w2⟩
        · rcases hkA with ⟨rfl, _⟩ | ⟨_, _, w, _⟩
          · exact Or.inl ⟨rfl, rfl⟩
          · simp at w
        · rcases hkA with ⟨_, rfl⟩ | ⟨h', rfl, _, u1⟩
          · simp at w1
          · rcases hkB with ⟨_, rfl⟩ | ⟨h'', u0, _, u2⟩
            · simp at w2
            · obtain rfl : h' = h'' := by omega
              refine Or.inr ⟨h', rfl, by simp; omega, ?_⟩
              intro c hc
              rcases List.mem_append.1 hc with hc | hc
              · exact u1 c hc
              · exact u2 c hc
      · exact hg c (List.mem_append_right _ hc)
    · simp at hd ⊢; omega
    · simp; omega
    · rw [weave_pair _ _ _ _ _ _ _ hgl hgr, flats_append, flats_cons, weave_hole _ _ _ _ _ (by simpa using hgl) (by simpa using hgr),
        flat_node, flat_node, flat_node, flats_append, weave_cut A B sep _ _ (hcut.imp (fun w => by rw [w.1, w.2]; simp) (fun w => by simpa using w))]
  · rw [if_neg hsmall]
    simp only [btMaxEntries] at hsmall
    have hElen : (A ++ sep :: B).length = A.length + B.length + 1 := by simp; omega
    obtain ⟨A', m, B', hE, hA', hB'⟩ : ∃ A' m B', A ++ sep :: B = A' ++ m :: B' ∧ A'.length = (A ++ sep :: B).length / 2 ∧
        B'.length = (A ++ sep :: B).length - (A ++ sep :: B).length / 2 - 1 := by
      have hlt : (A ++ sep :: B).length / 2 < (A ++ sep :: B).length := by omega
      refine ⟨(A ++ sep :: B).take ((A ++ sep :: B).length / 2), (A ++ sep :: B)[(A ++ sep :: B).length / 2], (A ++ sep :: B).drop ((A ++ sep :: B).length / 2 + 1),
        ?_, by rw [List.length_take]; omega, by rw [List.length_drop]; omega⟩
      rw [List.getElem_cons_drop, List.take_append_drop]
    obtain ⟨CA', CB', hCs, hcut'⟩ : ∃ CA' CB', CA ++ CB = CA' ++ CB' ∧
        (CA = [] ∧ CB = [] ∧ CA' = [] ∧ CB' = [] ∨ CA ≠ [] ∧ CB ≠ [] ∧ CA'.length = A'.length + 1 ∧ CB'.length = B'.length + 1) := by
      rcases hcut with ⟨rfl, rfl⟩ | ⟨w1, w2⟩
      · exact ⟨[], [], rfl, Or.inl ⟨rfl, rfl, rfl, rfl⟩⟩
      · refine ⟨(CA ++ CB).take (A'.length + 1), (CA ++ CB).drop (A'.length + 1), (List.take_append_drop _ _).symm, Or.inr ⟨?_, ?_, ?_, ?_⟩⟩
        · intro h0; rw [h0] at w1; simp at w1
        · intro h0; rw [h0] at w2; simp at w2
        · rw [List.length_take, List.length_append]; omega
        · rw [List.length_drop, List.length_append]; omega
    obtain ⟨s', e1, h1, k1⟩ := rotate_run hcore' hf hl hr hE hA' hCs (hcut'.imp (fun w => ⟨w.1, w.2.1⟩) (fun w => ⟨w.1, w.2.1, w.2.2.1⟩))
    have hkids : Kids h A'.length CA' ∧ Kids h B'.length CB' := by
      rcases hcut' with ⟨rfl, rfl, rfl, rfl⟩ | ⟨w1, w2, w3, w4⟩
      · rcases hkA with ⟨rfl, _⟩ | ⟨_, _, w, _⟩
        · exact ⟨Or.inl ⟨rfl, rfl⟩, Or.inl ⟨rfl, rfl⟩⟩
        · simp at w
      · rcases hkA with ⟨_, rfl⟩ | ⟨h', rfl, _, u1⟩
        · exact absurd rfl w1
        · rcases hkB with ⟨_, rfl⟩ | ⟨h'', u0, _, u2⟩
          · exact absurd rfl w2
          · obtain rfl : h' = h'' := by omega
            have hall : ∀ c ∈ CA' ++ CB', Shape 6 h' c := by
              rw [← hCs]
              intro c hc
              rcases List.mem_append.1 hc with hc | hc
              · exact u1 c hc
              · exact u2 c hc
            exact ⟨Or.inr ⟨h', rfl, w3, fun c hc => hall c (List.mem_append_left _ hc)⟩,
              Or.inr ⟨h', rfl, w4, fun c hc => hall c (List.mem_append_right _ hc)⟩⟩
    refine ⟨s', F, dL ++ m :: dR, gL ++ .node l A' CA' :: .node r B' CB' :: gR, e1, h1.cast ?_, ?_, ?_, ?_, ?_, k1.1, fun x _ hx => k1.2 x hx⟩
    · rw [nodes_plug, nodes_node, nodesL_append, nodesL_cons, nodesL_cons, nodes_node, nodes_node, List.map_append, List.map_cons, List.map_cons]
      simp only [show page (.node fp (dL ++ m :: dR) (gL ++ .node l A' CA' :: .node r B' CB' :: gR)) = fp from rfl,
        show page (.node l A' CA') = l from rfl, show page (.node r B' CB') = r from rfl]
      ms
    · refine Or.inr ⟨h, rfl, by simp; omega, ?_⟩
      intro c hc
      rw [List.mem_append, List.mem_cons, List.mem_cons] at hc
      rcases hc with hc | rfl | rfl | hc
      · exact hg c (List.mem_append_left _ hc)
      · exact hkids.1.shape (by omega) (by omega)
      · exact hkids.2.shape (by omega) (by omega)
      · exact hg c (List.mem_append_right _ hc)
    · simp at hd ⊢; omega
    · simp
    · rw [weave_pair _ _ _ _ _ _ _ hgl hgr, weave_pair _ _ _ _ _ _ _ hgl hgr]
      simp only [flat_node]
      rw [← weave_cut A' B' m _ _ (by
          rcases hcut' with ⟨_, _, rfl, rfl⟩ | ⟨_, _, w3, w4⟩
          · simp
          · right; simp; omega),
        ← weave_cut A B sep _ _ (hcut.imp (fun w => by rw [w.1, w.2]; simp) (fun w => by simpa using w)), ← flats_append, ← flats_append, hE, hCs]

/-! ## Moving up -/

theorem frame_mem : ∀ (K : List Frame) (p : Nat) (f : Frame), f ∈ K → ∃ r ∈ ctx K p, r.page = f.p
  | [], _, _, h => by simp at h
  | g :: K, p, f, h => by
    rcases List.mem_cons.1 h with rfl | h
    · exact ⟨_, by rw [ctx]; exact Multiset.mem_cons_self _ _, rfl⟩
    · obtain ⟨r, hr, h1⟩ := frame_mem K g.p f h
      exact ⟨r, by rw [ctx]; simp [hr], h1⟩

theorem asc_mid {C : BCfg} {a b c : List DirEntry} (h : Asc C (a ++ b ++ c)) : Asc C b :=
  (List.pairwise_append.1 (List.pairwise_append.1 h).1).2.1

theorem shrink_run {s : BSt} {np p : Nat} {c : BT} {F : List Nat} (h : Core s np (nodes invalidPage (.node p [] [c])) F) (hp : InC s p) :
    ∃ s', shrinkRoot p s = .ok ((), s') ∧ Core s' np (nodes invalidPage c) (p :: F) ∧ s'.root = c.page := by
  obtain ⟨d, _, hde⟩ := h.deref (r := ⟨invalidPage, p, [c].map page, []⟩) (by rw [nodes_node]; simp) hp
  obtain ⟨s1, e1, h1, k1⟩ := adjust_run (p := p) invalidPage [c] s {⟨invalidPage, p, [c].map page, []⟩}
    (h.cast (by rw [nodes_node, add_comm]; rfl))
  have h2 := h1.setRoot c.page
  obtain ⟨s3, e3, h3, q3, _⟩ := Core.del (s := { s1 with root := c.page }) (r := ⟨invalidPage, p, [c].map page, []⟩) (R := nodesL invalidPage [c])
    (h2.cast (by rw [add_comm]; rfl)) (k1.2 p hp)
  refine ⟨s3, ?_, h3.cast (by rw [nodesL_cons, nodesL_nil, add_zero]), q3⟩
  rw [shrinkRoot, bind_run hde]
  show (adjustChildren invalidPage [c.page] >>= fun _ => setRoot c.page >>= fun _ => delNode p) s = _
  rw [bind_run (show adjustChildren invalidPage [c.page] s = _ from e1),
    bind_run (setRoot_run (v := c.page) ?_ s1)]
  · exact e3
  · obtain ⟨r, hr1, hr2, _⟩ := nodes_mem_top p c
    have := h.lt (r := r) (by rw [nodes_node, nodesL_cons]; simp [hr1])
    have := h.npLe
    omega

/-- The sibling that `find_sibling` chooses: the node and its sibling are neighbours. -/
theorem sibling_run {s : BSt} {np : Nat} {F : List Nat} {h : Nat} {f : Frame} {K : List Frame} {t : BT}
    (hcore : Core s np (nodes invalidPage (plug (f :: K) t)) F) (hK : KOk h (f :: K)) (hp : InC s t.page) (hf : InC s f.p) :
    ∃ s' i sb gL gR dL dR sep L R, findSibling f.p t.page s = .ok ((i, page sb), s') ∧
      Core s' np (nodes invalidPage (plug (f :: K) t)) F ∧ Keep s s' ∧ InC s' sb.page ∧
      f.eL ++ f.eR = dL ++ sep :: dR ∧ f.cL ++ t :: f.cR = gL ++ L :: R :: gR ∧ gL.length = dL.length ∧ gR.length = dR.length ∧ i = dL.length ∧
      (L = t ∧ R = sb ∨ R = t ∧ L = sb) ∧ Shape 6 h sb ∧ ∀ c ∈ gL ++ gR, Shape 6 h c := by
  obtain ⟨k1, k2, k3, k4, k5, k6, k7, k8⟩ := hK
  have hpos : 1 ≤ f.eL.length + f.eR.length := by
    by_cases h0 : K = []
    · exact k3 h0
    · have := k4 h0; omega
  obtain ⟨tp, tes, tcs⟩ := t
  obtain ⟨dp, _, hdp⟩ := hcore.deref (r := ⟨f.p, tp, tcs.map page, tes⟩)
    (mem_plug (by rw [nodes_node]; exact Multiset.mem_cons_self _ _)) hp
  have hfrec : (⟨parOf K, f.p, f.cL.map page ++ tp :: f.cR.map page, f.eL ++ f.eR⟩ : Rec) ∈ nodes invalidPage (plug (f :: K) (.node tp tes tcs)) := by
    rw [nodes_plug]
    exact Multiset.mem_add.2 (Or.inl (by rw [ctx]; exact Multiset.mem_cons_self _ _))
  obtain ⟨df, _, hdf⟩ := hcore.deref hfrec hf
  have hnot : tp ∉ f.cL.map page := by
    intro hm
    obtain ⟨c, hc, hcp⟩ := List.mem_map.1 hm
    obtain ⟨x, hx, hxp⟩ := page_mem_nodesL f.p f.cL c hc
    have hne := (hcore.cast (R' := ⟨f.p, tp, tcs.map page, tes⟩ ::ₘ (nodesL tp tcs + ctx (f :: K) tp))
      (by rw [nodes_plug, nodes_node]; show ctx (f :: K) tp + (⟨f.p, tp, tcs.map page, tes⟩ ::ₘ nodesL tp tcs) = _; ms)).ne.1
    exact hne x (Multiset.mem_add.2 (Or.inr (by rw [ctx]; simp [hx]))) (hxp.trans hcp)
  have hidx : (f.cL.map page ++ tp :: f.cR.map page).idxOf? tp = some f.cL.length := by
    rw [idxOf_mid _ _ _ hnot, List.length_map]
  have hchild : ∀ c ∈ f.cL ++ f.cR, ∃ s', retrieveNode f.p c.page s = .ok (c.page, s') ∧
      Core s' np (nodes invalidPage (plug (f :: K) (.node tp tes tcs))) F ∧ Keep s s' ∧ InC s' c.page := by
    intro c hc
    obtain ⟨r, hr, hr1, hr2⟩ := nodes_mem_top f.p c
    have hr3 : r ∈ nodes invalidPage (plug (f :: K) (.node tp tes tcs)) := by
      rw [nodes_plug]
      refine Multiset.mem_add.2 (Or.inl ?_)
      rw [ctx]
      rcases List.mem_append.1 hc with hc | hc
      · obtain ⟨a, b, hab⟩ := List.append_of_mem hc
        rw [hab, nodesL_append, nodesL_cons]; simp [hr]
      · obtain ⟨a, b, hab⟩ := List.append_of_mem hc
        rw [hab, nodesL_append, nodesL_cons]; simp [hr]
    obtain ⟨s1, e1, g1, k1, i1, _⟩ := hcore.retrieve hr3
    rw [hr1] at i1
    rw [hr1, hr2] at e1
    exact ⟨s1, e1, g1, k1, i1⟩
  have hstart : findSibling f.p tp s = (if f.cL.length + 1 = (f.cL.map page ++ tp :: f.cR.map page).length then
        if f.cL.length = 0 then bthrow .outOfRange
        else
          match (f.cL.map page ++ tp :: f.cR.map page)[f.cL.length - 1]? with
          | none => bthrow .outOfRange
          | some c => do
            let q ← retrieveNode f.p c
            pure (f.cL.length - 1, q)
      else
        match (f.cL.map page ++ tp :: f.cR.map page)[f.cL.length + 1]? with
        | none => bthrow .outOfRange
        | some c => do
          let q ← retrieveNode f.p c
          pure (f.cL.length, q)) s := by
    rw [findSibling, bind_run hdf, bind_run hdp]
    dsimp only
    rw [bind_run (show dirCheck (f.p == f.p) s = .ok ((), s) by rw [beq_self_eq_true]; rfl), hidx]
    rfl
  rw [show page (.node tp tes tcs) = tp from rfl, hstart]
  cases hcR : f.cR with
  | nil =>
    have heR : f.eR = [] := by rw [hcR] at k2; exact List.eq_nil_of_length_eq_zero k2.symm
    have hcLne : f.cL ≠ [] := by intro h0; rw [h0] at k1; rw [heR] at hpos; simp at k1 hpos; omega
    have heLne : f.eL ≠ [] := by intro h0; rw [h0] at k1; simp at k1; exact hcLne k1
    have e1 : f.cL = f.cL.dropLast ++ [f.cL.getLast hcLne] := (List.dropLast_concat_getLast hcLne).symm
    have e2 : f.eL = f.eL.dropLast ++ [f.eL.getLast heLne] := (List.dropLast_concat_getLast heLne).symm
    obtain ⟨s', w1, w2, w3, w4⟩ := hchild (f.cL.getLast hcLne) (List.mem_append_left _ (List.getLast_mem hcLne))
    refine ⟨s', f.cL.length - 1, f.cL.getLast hcLne, f.cL.dropLast, [], f.eL.dropLast, [], f.eL.getLast heLne, f.cL.getLast hcLne,
      .node tp tes tcs, ?_, w2, w3, w4, by rw [heR, List.append_nil]; exact e2, ?_, by simp; omega, rfl, by simp; omega, Or.inr ⟨rfl, rfl⟩,
      k6 _ (List.getLast_mem hcLne), ?_⟩
    · have hlen : f.cL.length ≠ 0 := by intro h0; exact hcLne (List.eq_nil_of_length_eq_zero h0)
      rw [if_pos (by simp), if_neg hlen]
      have hg : (f.cL.map page ++ tp :: List.map page [])[f.cL.length - 1]? = some (f.cL.getLast hcLne).page := by
        rw [List.getElem?_append_left (by rw [List.length_map]; omega), List.getElem?_map, ← List.getLast?_eq_getElem?, List.getLast?_eq_getLast_of_ne_nil hcLne]; rfl
      rw [hg]
      dsimp only
      rw [bind_run w1]; rfl
    · conv_lhs => rw [e1]
      simp
    · intro c hc
      rw [List.append_nil] at hc
      exact k6 c (List.dropLast_subset _ hc)
  | cons sb cR =>
    obtain ⟨sep, eR, heR⟩ : ∃ sep eR, f.eR = sep :: eR := by
      cases hx : f.eR with
      | nil => rw [hcR, hx] at k2; simp at k2
      | cons a b => exact ⟨a, b, rfl⟩
    obtain ⟨s', w1, w2, w3, w4⟩ := hchild sb (List.mem_append_right _ (by rw [hcR]; simp))
    rw [hcR, heR] at k2
    refine ⟨s', f.cL.length, sb, f.cL, cR, f.eL, eR, sep, .node tp tes tcs, sb, ?_, w2, w3, w4, by rw [heR], rfl, k1, by simpa using k2, k1,
      Or.inl ⟨rfl, rfl⟩, k7 sb (by rw [hcR]; simp), ?_⟩
    · have hne : ¬ f.cL.length + 1 = (f.cL.map page ++ tp :: List.map page (sb :: cR)).length := by simp
      rw [if_neg hne]
      have hg : (f.cL.map page ++ tp :: List.map page (sb :: cR))[f.cL.length + 1]? = some sb.page := by
        rw [List.getElem?_append_right (by rw [List.length_map]; omega), List.length_map, show f.cL.length + 1 - f.cL.length = 1 by omega]; rfl
      rw [hg]
      dsimp only
      rw [bind_run w1]; rfl
    · intro c hc
      rcases List.mem_append.1 hc with hc | hc
      · exact k6 c hc
      · exact k7 c (by rw [hcR]; simp [hc])

/-- `balance_up`. -/
theorem balance_run (C : BCfg) (hC : CmpOk C.cmp) : ∀ (K : List Frame) (fuel h p : Nat) (es : List DirEntry) (cs : List BT)
    (s : BSt) (np : Nat) (F : List Nat), K.length < fuel → KOk h K → Kids h es.length cs → es.length ≤ 13 → (K ≠ [] → 5 ≤ es.length) →
    Core s np (nodes invalidPage (plug K (.node p es cs))) F → InC s p → (∀ f ∈ K, InC s f.p) → s.root = rootOf K p →
    Asc C (flat (plug K (.node p es cs))) →
    ∃ s' F' t' h', balanceUp C fuel p s = .ok ((), s') ∧ Core s' np (nodes invalidPage t') F' ∧ s'.root = t'.page ∧
      Shape (rootLo h') h' t' ∧ flat t' = flat (plug K (.node p es cs)) := by
  intro K
  induction K with
  | nil =>
    intro fuel h p es cs s np F hfuel hK hk h13 h5 hcore hp hKc hroot hasc
    obtain ⟨fuel, rfl⟩ : ∃ n, fuel = n + 1 := ⟨fuel - 1, by omega⟩
    obtain ⟨d, _, hde⟩ := hcore.deref (r := ⟨invalidPage, p, cs.map page, es⟩) (mem_plug (K := []) (by rw [nodes_node]; exact Multiset.mem_cons_self _ _)) hp
    rw [balanceUp, bind_run hde]
    dsimp only
    by_cases hempty : es = [] ∧ cs ≠ []
    · obtain ⟨rfl, hcs⟩ := hempty
      rw [if_pos ⟨rfl, rfl, by simpa using hcs⟩]
      rcases hk with ⟨_, h0⟩ | ⟨h', rfl, hl, hsh⟩
      · exact absurd h0 hcs
      · obtain ⟨c, rfl⟩ := List.length_eq_one_iff.1 hl
        obtain ⟨s', e1, h1, r1⟩ := shrink_run hcore hp
        refine ⟨s', _, c, h', e1, h1, r1, Shape.mono (by simp only [rootLo]; omega) (hsh c (by simp)), ?_⟩
        show flat c = flat (.node p [] [c])
        rw [flat_node, flats_cons]; rfl
    · rw [if_neg (by
        rintro ⟨_, h1, h2⟩
        exact hempty ⟨h1, fun h3 => h2 (by rw [h3]; rfl)⟩), if_pos (Or.inl rfl)]
      refine ⟨s, F, .node p es cs, h, rfl, hcore, hroot, hk.shape ?_ h13, rfl⟩
      rcases hk with ⟨rfl, _⟩ | ⟨h', rfl, hl, _⟩
      · simp [rootLo]
      · have : es ≠ [] := fun h0 => hempty ⟨h0, by intro h1; rw [h1] at hl; simp at hl⟩
        have := List.length_pos_of_ne_nil this
        simp only [rootLo]; omega
  | cons f K ih =>
    intro fuel h p es cs s np F hfuel hK hk h13 h5 hcore hp hKc hroot hasc
    obtain ⟨fuel, rfl⟩ : ∃ n, fuel = n + 1 := ⟨fuel - 1, by omega⟩
    have h5 := h5 (by simp)
    obtain ⟨d, _, hde⟩ := hcore.deref (r := ⟨f.p, p, cs.map page, es⟩) (mem_plug (by rw [nodes_node]; exact Multiset.mem_cons_self _ _)) hp
    have hf := hKc f (by simp)
    have hfne : f.p ≠ invalidPage := by
      obtain ⟨r, hr, hrp⟩ := frame_mem (f :: K) p f (by simp)
      rw [← hrp]
      refine ne_invalid hcore.npLe (hcore.lt (r := r) ?_)
      rw [nodes_plug]
      exact Multiset.mem_add.2 (Or.inl hr)
    rw [balanceUp, bind_run hde]
    dsimp only
    rw [if_neg (fun h0 => hfne h0.1)]
    by_cases hbig : 6 ≤ es.length
    · rw [if_pos (Or.inr (by show es.length ≥ 13 / 2; omega))]
      refine ⟨s, F, plug (f :: K) (.node p es cs), h + (f :: K).length, rfl, hcore, by rw [page_plug]; exact hroot,
        shape_plug h _ _ hK (by simp) (fun _ => hk.shape hbig h13), rfl⟩
    · rw [if_neg (by
        rintro (h0 | h0)
        · exact hfne h0
        · exact hbig h0), bind_run (getSt_run s)]
      obtain ⟨nf, hnf⟩ := hf
      rw [bind_run (show dirCheck (cacheFind s f.p).isSome s = .ok ((), s) by rw [hnf]; rfl)]
      obtain ⟨s1, i, sb, gL, gR, dL, dR, sep, L, R, e1, g1, q1, i1, he, hc, hgl, hgr, rfl, hLR, hsb, hg⟩ := sibling_run hcore hK hp ⟨nf, hnf⟩
      rw [bind_run (show findSibling f.p p s = _ from e1)]
      dsimp only
      obtain ⟨k1, k2, k3, k4, k5, k6, k7, k8⟩ := hK
      obtain ⟨l, A, CA⟩ := L
      obtain ⟨r, B, CB⟩ := R
      -- the tree with the two nodes side by side
      have htree : plug (f :: K) (.node p es cs) = plug K (.node f.p (dL ++ sep :: dR) (gL ++ .node l A CA :: .node r B CB :: gR)) := by
        rw [plug, he, hc]
      have hd : (dL ++ sep :: dR).length ≤ 13 := by rw [← he, List.length_append]; exact k5
      have hdlen : (dL ++ sep :: dR).length = f.eL.length + f.eR.length := by rw [← he, List.length_append]
      rw [htree] at g1 hasc
      have hscope : Kids h A.length CA ∧ Kids h B.length CB ∧ InC s1 l ∧ InC s1 r ∧
          (A.length = 5 ∧ 6 ≤ B.length ∧ B.length ≤ 13 ∨ B.length = 5 ∧ 6 ≤ A.length ∧ A.length ≤ 13) ∧
          (p = l ∧ sb.page = r ∨ p = r ∧ sb.page = l) := by
        rcases hLR with ⟨hL, hR⟩ | ⟨hR, hL⟩
        · injection hL with hL1 hL2 hL3
          subst hL1 hL2 hL3
          subst hR
          exact ⟨hk, hsb.kids.1, q1.2 _ hp, i1, Or.inl ⟨by omega, hsb.kids.2.1, hsb.kids.2.2⟩, Or.inl ⟨rfl, rfl⟩⟩
        · injection hR with hR1 hR2 hR3
          subst hR1 hR2 hR3
          subst hL
          exact ⟨hsb.kids.1, hk, i1, q1.2 _ hp, Or.inr ⟨by omega, hsb.kids.2.1, hsb.kids.2.2⟩, Or.inr ⟨rfl, rfl⟩⟩
      obtain ⟨u1, u2, u3, u4, u5, u6⟩ := hscope
      have hfl := flat_plug (h + 1) K (.node f.p (dL ++ sep :: dR) (gL ++ .node l A CA :: .node r B CB :: gR)) k8
      obtain ⟨s2, F2, es', cs', e2, g2, v1, v2, v3, v4, v5, v6⟩ := pair_run C hC g1 (q1.2 _ ⟨nf, hnf⟩) u3 u4 u1 u2 hg hgl hgr hd u5
        (by
          rw [hfl, flat_node, weave_pair _ _ _ _ _ _ _ hgl hgr] at hasc
          exact asc_mid (asc_mid hasc)) p sb.page u6
      rw [bind_run e2]
      -- the page given up is not above
      have hner : ∀ x ∈ f :: K, x.p ≠ r := by
        intro x hx hxr
        have hcr := (g1.cast (R' := ⟨f.p, r, CB.map page, B⟩ ::ₘ (⟨parOf K, f.p, (gL ++ .node l A CA :: .node r B CB :: gR).map page, dL ++ sep :: dR⟩ ::ₘ
          (nodesL r CB + (nodesL f.p gL + nodes f.p (.node l A CA) + nodesL f.p gR + ctx K f.p)))) (by
            rw [nodes_plug, nodes_node, nodesL_append, nodesL_cons, nodesL_cons, nodes_node f.p r]
            simp only [show page (.node f.p (dL ++ sep :: dR) (gL ++ .node l A CA :: .node r B CB :: gR)) = f.p from rfl]
            ms)).ne.1
        rcases List.mem_cons.1 hx with rfl | hx
        · exact hcr ⟨parOf K, x.p, (gL ++ .node l A CA :: .node r B CB :: gR).map page, dL ++ sep :: dR⟩ (by simp) hxr
        · obtain ⟨y, hy, hyp⟩ := frame_mem K f.p x hx
          exact hcr y (by simp [hy]) (hyp.trans hxr)
      have hflat2 : flat (plug K (.node f.p es' cs')) = flat (plug (f :: K) (.node p es cs)) := by
        rw [htree, flat_plug (h + 1) K _ k8, flat_plug (h + 1) K _ k8, flat_node, flat_node, v4]
      obtain ⟨s3, F3, t', h', e3, w1, w2, w3, w4⟩ := ih fuel (h + 1) f.p es' cs' s2 np F2 (by simp at hfuel; omega) k8 v1 v2
        (by intro hn; have := k4 hn; omega) g2 (v6 _ (hner f (by simp)) (q1.2 _ ⟨nf, hnf⟩))
        (fun x hx => v6 _ (hner x (by simp [hx])) (q1.2 _ (hKc x (by simp [hx]))))
        (by rw [v5, q1.1, hroot]; rfl)
        (by rw [hflat2, htree]; exact hasc)
      exact ⟨s3, F3, t', h', e3, w1, w2, w3, by rw [w4, hflat2]⟩

/-! ## The entry before an entry of an inner node -/

theorem plug_append : ∀ (A B : List Frame) (t : BT), plug (A ++ B) t = plug B (plug A t)
  | [], _, _ => rfl
  | f :: A, B, t => by rw [List.cons_append, plug, plug, plug_append A B]

theorem Lk_append : ∀ A B : List Frame, Lk (A ++ B) = Lk B ++ Lk A
  | [], B => by simp [Lk]
  | f :: A, B => by rw [List.cons_append, Lk, Lk, Lk_append A B, List.append_assoc]

theorem Rk_append : ∀ A B : List Frame, Rk (A ++ B) = Rk A ++ Rk B
  | [], B => by simp [Rk]
  | f :: A, B => by rw [List.cons_append, Rk, Rk, Rk_append A B, List.append_assoc]

theorem lastLeaf_run : ∀ (h : Nat) (t : BT) (K : List Frame) (fuel : Nat) (s : BSt) (np : Nat) (F : List Nat), h < fuel → Shape 6 h t →
    Core s np (nodes invalidPage (plug K t)) F → InC s t.page →
    ∃ s' K1 p es, lastLeaf fuel t.page s = .ok (p, s') ∧ Core s' np (nodes invalidPage (plug K t)) F ∧ Keep s s' ∧
      t = plug K1 (.node p es []) ∧ (∀ K2, KOk h K2 → K2 ≠ [] → KOk 0 (K1 ++ K2)) ∧ Rk K1 = [] ∧ Lk K1 ++ es = flat t ∧
      6 ≤ es.length ∧ es.length ≤ 13 ∧ InC s' p ∧ (∀ f ∈ K1, InC s' f.p) ∧ K1.length = h := by
  intro h
  induction h with
  | zero =>
    intro t K fuel s np F hf hs hcore hp
    obtain ⟨p, es, cs⟩ := t
    obtain ⟨fuel, rfl⟩ : ∃ n, fuel = n + 1 := ⟨fuel - 1, by omega⟩
    obtain ⟨rfl, h1, h2⟩ := hs
    obtain ⟨d, _, hde⟩ := hcore.deref (r := ⟨parOf K, p, [], es⟩) (mem_plug (by rw [nodes_node]; exact Multiset.mem_cons_self _ _)) hp
    refine ⟨s, [], p, es, ?_, hcore, Keep.refl s, rfl, fun K2 h2 _ => h2, rfl, by rw [flat_node]; simp [Lk, weave], h1, h2, hp, by simp, rfl⟩
    rw [show page (.node p es []) = p from rfl, lastLeaf, bind_run hde, bind_run (isLeaf_true rfl s), if_pos rfl]
    rfl
  | succ h ih =>
    intro t K fuel s np F hf hs hcore hp
    obtain ⟨p, es, cs⟩ := t
    obtain ⟨fuel, rfl⟩ : ∃ n, fuel = n + 1 := ⟨fuel - 1, by omega⟩
    obtain ⟨h1, h2, h3, h4⟩ := hs
    have hcs : cs ≠ [] := by intro h0; rw [h0] at h1; simp at h1
    obtain ⟨cL, c, rfl⟩ : ∃ cL c, cs = cL ++ [c] := ⟨cs.dropLast, cs.getLast hcs, (List.dropLast_concat_getLast hcs).symm⟩
    have hcL : cL.length = es.length := by simpa using h1
    obtain ⟨d, _, hde⟩ := hcore.deref (r := ⟨parOf K, p, (cL ++ [c]).map page, es⟩) (mem_plug (by rw [nodes_node]; exact Multiset.mem_cons_self _ _)) hp
    let f : Frame := ⟨p, es, [], cL, []⟩
    have hplug : plug K (.node p es (cL ++ [c])) = plug (f :: K) c := by
      rw [plug, show f.eL ++ f.eR = es from List.append_nil es]
    have hplug1 : (.node p es (cL ++ [c]) : BT) = plug [f] c := by
      rw [plug, plug, show f.eL ++ f.eR = es from List.append_nil es]
    rw [hplug] at hcore
    obtain ⟨r, hr, hr1, hr2⟩ := nodes_mem_top p c
    obtain ⟨s1, e1, g1, k1, i1, _⟩ := hcore.retrieve (mem_plug (K := f :: K) hr)
    rw [hr1] at i1
    rw [hr1, hr2] at e1
    obtain ⟨s', K1, p', es', w1, w2, w3, w4, w5, w6, w7, w8, w9, w10, w11, w12⟩ := ih c (f :: K) fuel s1 np F (by omega) (h4 c (by simp)) g1 i1
    refine ⟨s', K1 ++ [f], p', es', ?_, by rw [hplug]; exact w2, k1.trans w3, ?_, ?_, ?_, ?_, w8, w9, w10, ?_, by simp [w12]⟩
    · rw [show page (.node p es (cL ++ [c])) = p from rfl, lastLeaf, bind_run hde,
        bind_run (isLeaf_false (by simpa using hcL) s), if_neg (by simp)]
      dsimp only
      rw [List.map_append, List.map_cons, List.map_nil, List.getLast?_concat]
      dsimp only
      rw [bind_run e1, w1]
    · rw [plug_append, ← w4]; exact hplug1
    · intro K2 hK2 hne
      rw [List.append_assoc, List.singleton_append]
      refine w5 (f :: K2) ⟨hcL, rfl, fun _ => ?_, fun _ => ?_, ?_, fun x hx => h4 x (List.mem_append_left _ hx), fun x hx => (by cases hx), hK2⟩ (by simp)
      · show 1 ≤ es.length + 0; omega
      · show 6 ≤ es.length + 0; omega
      · show es.length + 0 ≤ 13; omega
    · rw [Rk_append, w6]; rfl
    · rw [Lk_append, List.append_assoc, w7, flat_node, flats_append, flats_cons]
      have := weave_hole es [] (flats cL) [] (flat c) (by simpa using hcL) rfl
      rw [List.append_nil] at this
      show Lk [f] ++ flat c = weave es (flats cL ++ [flat c])
      rw [this]; simp [Lk, postS, f]
    · intro g hg
      rcases List.mem_append.1 hg with hg | hg
      · exact w11 g hg
      · rw [List.mem_singleton] at hg
        subst hg
        exact w3.2 _ (k1.2 _ hp)

/-! ## Removing -/

theorem asc_drop {C : BCfg} {P Q : List DirEntry} {e : DirEntry} (h : Asc C (P ++ e :: Q)) : Asc C (P ++ Q) :=
  List.Pairwise.sublist (List.Sublist.append (List.Sublist.refl P) (List.sublist_cons_self e Q)) h

/-- `remove_entry_impl` after the search. -/
theorem removeAt_run (C : BCfg) (hC : CmpOk C.cmp) {s : BSt} {np h p : Nat} {K : List Frame} {F : List Nat} {e1 e2 : List DirEntry} {e : DirEntry} {cs : List BT}
    (hK : KOk h K) (hs : TopShape K h (.node p (e1 ++ e :: e2) cs)) (hh : h + K.length ≤ 20)
    (hcore : Core s np (nodes invalidPage (plug K (.node p (e1 ++ e :: e2) cs))) F) (hp : InC s p) (hKc : ∀ f ∈ K, InC s f.p)
    (hroot : s.root = rootOf K p) (hasc : Asc C (flat (plug K (.node p (e1 ++ e :: e2) cs)))) (hnp : h < np) :
    ∃ s' F' t' h' P Q, removeAt C p e1.length s = .ok (some e, s') ∧ flat (plug K (.node p (e1 ++ e :: e2) cs)) = P ++ e :: Q ∧
      Core s' np (nodes invalidPage t') F' ∧ s'.root = t'.page ∧ Shape (rootLo h') h' t' ∧ flat t' = P ++ Q := by
  obtain ⟨lo, hlo⟩ := hs.weak
  obtain ⟨hkid, _, h13⟩ := hlo.kids
  obtain ⟨d, _, hde⟩ := hcore.deref (r := ⟨parOf K, p, cs.map page, e1 ++ e :: e2⟩) (mem_plug (by rw [nodes_node]; exact Multiset.mem_cons_self _ _)) hp
  have hlen : (e1 ++ e :: e2).length = e1.length + e2.length + 1 := by simp; omega
  have hi : e1.length < (e1 ++ e :: e2).length := by omega
  rcases hkid with ⟨rfl, rfl⟩ | ⟨h', rfl, hl, hsh⟩
  · -- a leaf
    obtain ⟨s1, x1, g1, k1⟩ := Core.setEntries (a := parOf K) (p := p) (cs := []) (es := e1 ++ e :: e2) (R := ctx K p)
      (hcore.cast (by rw [nodes_plug, nodes_node]; show ctx K p + (⟨parOf K, p, [], e1 ++ e :: e2⟩ ::ₘ nodesL p []) = _; rw [nodesL_nil]; ms)) hp (e1 ++ e2)
    have hflat : flat (plug K (.node p (e1 ++ e :: e2) [])) = (Lk K ++ e1) ++ e :: (e2 ++ Rk K) := by
      rw [flat_plug 0 K _ hK, flat_node]; simp [weave]
    have hflat' : flat (plug K (.node p (e1 ++ e2) [])) = (Lk K ++ e1) ++ (e2 ++ Rk K) := by
      rw [flat_plug 0 K _ hK, flat_node]; simp [weave]
    obtain ⟨s2, F2, t', h', x2, w1, w2, w3, w4⟩ := balance_run C hC K btMaxDepth 0 p (e1 ++ e2) [] s1 np F (by simp only [btMaxDepth]; omega) hK
      (Or.inl ⟨rfl, rfl⟩) (by rw [List.length_append]; omega)
      (by intro hn; have := (hs.2 hn).2.1; rw [List.length_append]; omega)
      (g1.cast (by rw [nodes_plug, nodes_node]; show _ = ctx K p + (⟨parOf K, p, [], e1 ++ e2⟩ ::ₘ nodesL p []); rw [nodesL_nil]; ms))
      (k1.2 p hp) (fun f hf => k1.2 _ (hKc f hf)) (by rw [k1.1, hroot])
      (by rw [hflat']; rw [hflat] at hasc; exact asc_drop hasc)
    refine ⟨s2, F2, t', h', _, _, ?_, hflat, w1, w2, w3, by rw [w4, hflat']⟩
    rw [removeAt, bind_run hde]
    dsimp only
    rw [get_mid]
    dsimp only
    rw [bind_run (show replaceWithSub p e1.length s = .ok (p, s1) by
      rw [replaceWithSub, bind_run hde, bind_run (isLeaf_true rfl s), if_pos rfl]
      dsimp only
      rw [bind_run (show dirCheck (decide (e1.length < (e1 ++ e :: e2).length)) s = .ok ((), s) by rw [decide_eq_true hi]; rfl),
        erase_mid, bind_run x1]
      rfl), bind_run x2]
    rfl
  · -- an inner node
    obtain ⟨cL, c, cR, rfl, hcL⟩ : ∃ cL c cR, cs = cL ++ c :: cR ∧ cL.length = e1.length := by
      refine ⟨cs.take e1.length, cs[e1.length]'(by omega), cs.drop (e1.length + 1), ?_, by simp; omega⟩
      rw [List.getElem_cons_drop, List.take_append_drop]
    have hcR : cR.length = e2.length + 1 := by simp at hl; omega
    have hget : ((cL ++ c :: cR).map page)[e1.length]? = some c.page := by
      rw [List.map_append, List.getElem?_append_right (by simp; omega)]; simp [hcL]
    let f : Frame := ⟨p, e1, e :: e2, cL, cR⟩
    obtain ⟨r, hr, hr1, hr2⟩ := nodes_mem_top p c
    obtain ⟨s1, x1, g1, k1, i1, _⟩ := hcore.retrieve (mem_plug (K := f :: K) (t := c) hr)
    rw [hr1] at i1
    rw [hr1, hr2] at x1
    have hfuel : h' < s1.data.length / pageSize + 1 := by
      rw [g1.len, show pageSize = 4096 from rfl, Nat.mul_div_cancel _ (by norm_num)]; omega
    obtain ⟨s2, K1, l, es, x2, g2, k2, a4, a5, a6, a7, a8, a9, a10, a11, a12⟩ :=
      lastLeaf_run h' c (f :: K) _ s1 np F hfuel (hsh c (by simp)) g1 i1
    have hes : es ≠ [] := by intro h0; rw [h0] at a8; simp at a8
    obtain ⟨E, x, rfl⟩ : ∃ E x, es = E ++ [x] := ⟨es.dropLast, es.getLast hes, (List.dropLast_concat_getLast hes).symm⟩
    have k12 := k1.trans k2
    have hp2 := k12.2 p hp
    -- the node gets the predecessor
    obtain ⟨d2, _, hde2⟩ := g2.deref (r := ⟨parOf K, p, (cL ++ c :: cR).map page, e1 ++ e :: e2⟩)
      (mem_plug (K := K) (t := .node p (e1 ++ e :: e2) (cL ++ c :: cR)) (by rw [nodes_node]; exact Multiset.mem_cons_self _ _)) hp2
    obtain ⟨s3, x3, g3, k3⟩ := Core.setEntries (a := parOf K) (p := p) (cs := (cL ++ c :: cR).map page) (es := e1 ++ e :: e2)
      (R := nodesL p (cL ++ c :: cR) + ctx K p)
      (g2.cast (by
        rw [show plug (f :: K) c = plug K (.node p (e1 ++ e :: e2) (cL ++ c :: cR)) from rfl, nodes_plug, nodes_node]
        show ctx K p + _ = _
        ms)) hp2 (e1 ++ x :: e2)
    -- the leaf gives it away
    let f' : Frame := ⟨p, e1, x :: e2, cL, cR⟩
    have htree : plug K (.node p (e1 ++ x :: e2) (cL ++ c :: cR)) = plug (K1 ++ f' :: K) (.node l (E ++ [x]) []) := by
      rw [plug_append, ← a4]; rfl
    have hKf : KOk h' (f' :: K) := by
      refine ⟨hcL, hcR, fun _ => ?_, fun hn => ?_, ?_, fun y hy => hsh y (List.mem_append_left _ hy),
        fun y hy => hsh y (List.mem_append_right _ (List.mem_cons_of_mem _ hy)), hK⟩
      · show 1 ≤ e1.length + (e2.length + 1); omega
      · have := (hs.2 hn).2.1
        show 6 ≤ e1.length + (e2.length + 1)
        omega
      · show e1.length + (e2.length + 1) ≤ 13; omega
    have hKbig := a5 (f' :: K) hKf (by simp)
    have g3' : Core s3 np (⟨parOf (K1 ++ f' :: K), l, [], E ++ [x]⟩ ::ₘ ctx (K1 ++ f' :: K) l) F := by
      refine g3.cast ?_
      have := nodes_plug (K1 ++ f' :: K) (.node l (E ++ [x]) [])
      rw [← htree, nodes_plug, nodes_node, nodes_node] at this
      have this : ctx K p + (⟨parOf K, p, (cL ++ c :: cR).map page, e1 ++ x :: e2⟩ ::ₘ nodesL p (cL ++ c :: cR)) =
        ctx (K1 ++ f' :: K) l + (⟨parOf (K1 ++ f' :: K), l, [], E ++ [x]⟩ ::ₘ nodesL l []) := this
      rw [nodesL_nil] at this
      rw [show (⟨parOf (K1 ++ f' :: K), l, [], E ++ [x]⟩ ::ₘ ctx (K1 ++ f' :: K) l : Multiset Rec) =
        ctx (K1 ++ f' :: K) l + (⟨parOf (K1 ++ f' :: K), l, [], E ++ [x]⟩ ::ₘ 0) by ms, ← this]
      ms
    have hl3 := k3.2 l a10
    obtain ⟨d3, _, hde3⟩ := g3'.deref (Multiset.mem_cons_self _ _) hl3
    obtain ⟨s4, x4, g4, k4⟩ := g3'.setEntries hl3 E
    obtain ⟨dl2, _, hdl2⟩ := g2.deref (r := ⟨parOf (K1 ++ f :: K), l, [], E ++ [x]⟩)
      (by
        rw [show plug (f :: K) c = plug (K1 ++ f :: K) (.node l (E ++ [x]) []) by rw [plug_append, ← a4]]
        exact mem_plug (by rw [nodes_node]; exact Multiset.mem_cons_self _ _)) a10
    have k14 := (k12.trans k3).trans k4
    have hFc : flat c = (Lk K1 ++ E) ++ [x] := by rw [← a7]; simp
    have hflat : flat (plug K (.node p (e1 ++ e :: e2) (cL ++ c :: cR))) =
        (Lk K ++ preS e1 (flats cL) ++ flat c) ++ e :: (weave e2 (flats cR) ++ Rk K) := by
      rw [flat_plug (h' + 1) K _ hK, flat_node, flats_append, flats_cons, weave_split e1 (flats cL) (e :: e2) (flat c) _ (by simpa using hcL), weave]
      simp
    have hflat' : flat (plug (K1 ++ f' :: K) (.node l E [])) =
        (Lk K ++ preS e1 (flats cL) ++ flat c) ++ (weave e2 (flats cR) ++ Rk K) := by
      have hpost : postS (x :: e2) (flats cR) = x :: weave e2 (flats cR) := by
        cases cR with
        | nil => simp at hcR
        | cons c1 cR => rw [flats_cons, postS, weave_cons e2 _ _ (by simpa using hcR)]
      rw [flat_plug 0 _ _ hKbig, flat_node, Lk_append, Rk_append, a6, hFc]
      show Lk (f' :: K) ++ Lk K1 ++ weave E [] ++ ([] ++ (postS (x :: e2) (flats cR) ++ Rk K)) = _
      rw [hpost, show Lk (f' :: K) = Lk K ++ preS e1 (flats cL) from rfl]
      cases E <;> simp [weave]
    obtain ⟨s5, F5, t', h5, x5, w1, w2, w3, w4⟩ := balance_run C hC (K1 ++ f' :: K) btMaxDepth 0 l E [] s4 np F
      (by simp only [btMaxDepth, List.length_append, List.length_cons, a12]; omega) hKbig
      (Or.inl ⟨rfl, rfl⟩) (by simp at a9; omega) (by intro _; simp at a8; omega)
      (g4.cast (by
        rw [nodes_plug, nodes_node]
        show _ = ctx (K1 ++ f' :: K) l + (⟨parOf (K1 ++ f' :: K), l, [], E⟩ ::ₘ nodesL l [])
        rw [nodesL_nil]; ms))
      (k4.2 l hl3)
      (by
        intro g hg
        rcases List.mem_append.1 hg with hg | hg
        · exact k4.2 _ (k3.2 _ (a11 g hg))
        · rcases List.mem_cons.1 hg with rfl | hg
          · exact k14.2 _ hp
          · exact k14.2 _ (hKc g hg))
      (by
        rw [k14.1, hroot]
        have := page_plug (K1 ++ f' :: K) (.node l (E ++ [x]) [])
        rw [← htree, page_plug] at this
        exact this)
      (by rw [hflat']; rw [hflat] at hasc; exact asc_drop hasc)
    refine ⟨s5, F5, t', h5, _, _, ?_, hflat, w1, w2, w3, by rw [w4, hflat']⟩
    rw [removeAt, bind_run hde]
    dsimp only
    rw [get_mid]
    dsimp only
    rw [bind_run (show replaceWithSub p e1.length s = .ok (l, s4) by
      rw [replaceWithSub, bind_run hde, bind_run (isLeaf_false (by simpa using hl) s), if_neg (by simp), replaceInner, bind_run hde]
      dsimp only
      rw [hget]
      dsimp only
      rw [bind_run x1, bind_run (getSt_run s1), bind_run x2, bind_run hdl2]
      dsimp only
      rw [List.getLast?_concat]
      dsimp only
      rw [bind_run hde2]
      dsimp only
      rw [bind_run (show dirCheck (decide (e1.length < (e1 ++ e :: e2).length)) s2 = .ok ((), s2) by rw [decide_eq_true hi]; rfl),
        set_mid, bind_run x3, bind_run hde3]
      dsimp only
      rw [List.dropLast_concat, bind_run x4]
      rfl), bind_run x5]
    rfl

/-- The file keeps its length. -/
theorem removeEntry_len {C : BCfg} (hC : CmpOk C.cmp) (name : Bytes) (hn : name.length ≤ maxFilename) {s : BSt} {l : List DirEntry} (hd : Dir C s l) :
    ((∀ x ∈ l, C.cmp name x.name ≠ 0) → ∃ s', removeEntry C name s = .ok (none, s') ∧ s'.data.length = s.data.length ∧ Dir C s' l) ∧
    (∀ x ∈ l, C.cmp name x.name = 0 → ∃ s' P Q, l = P ++ x :: Q ∧ removeEntry C name s = .ok (some x, s') ∧
      s'.data.length = s.data.length ∧ Dir C s' (P ++ Q)) := by
  obtain ⟨hasc, hok, np, F, hcase⟩ := hd
  have hnl : ¬ name.length > maxFilename := by omega
  rcases hcase with ⟨hr, rfl, hcore⟩ | ⟨t, h, hr, rfl, hs, hcore⟩
  · refine ⟨fun _ => ⟨s, ?_, rfl, hasc, hok, np, F, Or.inl ⟨hr, rfl, hcore⟩⟩, by simp⟩
    rw [removeEntry, if_neg hnl, bind_run (show findNode C name s = .ok (none, s) by rw [findNode, bind_run (noroot_run hr)]; rfl)]
    rfl
  · obtain ⟨s1, K, h', p, es, cs, i, found, w1, w2, w3, w4, w5, w6, w7, w8, w9, w10, w11⟩ := findNode_run hC name hr hs hasc hcore
    cases found with
    | true =>
      obtain ⟨e1, y, e2, rfl, rfl, hy⟩ := w10 rfl
      have hym : y ∈ flat t := by rw [w4]; exact mem_flat_node w5 w6 (by simp)
      refine ⟨fun hno => absurd hy (hno y hym), fun x hx hx0 => ?_⟩
      obtain rfl : x = y := asc_unique hC hasc hx hym (by
        have a1 := hC.anti x.name name; have a2 := hC.anti name x.name
        have a3 := hC.anti name y.name; have a4 := hC.anti y.name name
        have b1 := hC.trans x.name name y.name (by omega) (by omega)
        have b2 := hC.trans y.name name x.name (by omega) (by omega)
        have := hC.anti x.name y.name; have := hC.anti y.name x.name; omega)
      have hnp : h < np := by
        have h1 := Shape.card h _ t hs (by cases h with | zero => left; rfl | succ n => right; simp [rootLo]) invalidPage
        have h2 : Multiset.card (nodes invalidPage t) ≤ np := by
          have := congrArg Multiset.card hcore.part
          simp only [Multiset.card_add, Multiset.card_map, Multiset.card_range, Multiset.coe_card] at this
          omega
        have := Nat.lt_two_pow_self (n := h)
        omega
      obtain ⟨s2, F2, t', h2, P, Q, x2, u1, u2, u3, u4, u5⟩ := removeAt_run C hC w5 w6 (by have := hcore.height hs; omega) (w4 ▸ w2) w7 w8
        (by rw [w3.1, hr, w4, page_plug]; rfl) (w4 ▸ hasc) (by omega)
      rw [← w4] at u1
      refine ⟨s2, P, Q, u1, ?_, by rw [u2.len, hcore.len], ?_, ?_, np, F2, Or.inr ⟨t', h2, u3, u5, u4, u2⟩⟩
      · rw [removeEntry, if_neg hnl, bind_run w1]
        exact x2
      · rw [u1] at hasc; exact asc_drop hasc
      · intro z hz
        refine hok z ?_
        rw [u1]
        rcases List.mem_append.1 hz with hz | hz <;> simp [hz]
    | false =>
      obtain ⟨rfl, rfl, e1, e2, rfl, rfl, hlt, hgt⟩ := w11 rfl
      have hflat : flat t = (Lk K ++ e1) ++ (e2 ++ Rk K) := by
        rw [w4, flat_plug 0 K _ w5, flat_node]; simp [weave]
      have hno : ∀ x ∈ flat t, C.cmp name x.name ≠ 0 := by
        intro x hx hx0
        rw [hflat] at hx
        have hsym := hC.eq_comm name x.name
        rcases List.mem_append.1 hx with hx | hx
        · have := hlt x hx; omega
        · have := hgt x hx; omega
      refine ⟨fun _ => ⟨s1, ?_, by rw [w2.len, hcore.len], hasc, hok, np, F, Or.inr ⟨t, h, by rw [w3.1, hr], rfl, hs, w2⟩⟩, fun x hx hx0 => absurd hx0 (hno x hx)⟩
      rw [removeEntry, if_neg hnl, bind_run w1]
      rfl

theorem removeEntry_run {C : BCfg} (hC : CmpOk C.cmp) (name : Bytes) (hn : name.length ≤ maxFilename) {s : BSt} {l : List DirEntry} (hd : Dir C s l) :
    ((∀ x ∈ l, C.cmp name x.name ≠ 0) → ∃ s', removeEntry C name s = .ok (none, s') ∧ Dir C s' l) ∧
    (∀ x ∈ l, C.cmp name x.name = 0 → ∃ s' P Q, l = P ++ x :: Q ∧ removeEntry C name s = .ok (some x, s') ∧ Dir C s' (P ++ Q)) := by
  obtain ⟨h1, h2⟩ := removeEntry_len hC name hn hd
  refine ⟨fun h => ?_, fun x hx h0 => ?_⟩
  · obtain ⟨s', a, _, b⟩ := h1 h
    exact ⟨s', a, b⟩
  · obtain ⟨s', P, Q, a, b, _, c⟩ := h2 x hx h0
    exact ⟨s', P, Q, a, b, c⟩

end Securefs
