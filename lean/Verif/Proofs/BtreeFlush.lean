import Verif.Proofs.BtreeRemove
/-! Helper lemmas: listing, rebuilding and flushing a B-tree directory. -/

namespace Securefs
open BT

/-! ## Listing -/

theorem weave_perm : ∀ (es : List DirEntry) (fs : List (List DirEntry)), fs = [] ∨ fs.length = es.length + 1 → (weave es fs).Perm (es ++ fs.flatten)
  | es, [], _ => by cases es <;> simp [weave]
  | [], f :: fs, h => by
    have : fs = [] := by
      rcases h with h | h
      · cases h
      · simpa using h
    simp [weave, this]
  | e :: es, f :: fs, h => by
    have h' : fs.length = es.length + 1 := by
      rcases h with h | h
      · cases h
      · simpa using h
    rw [weave, List.flatten_cons, List.cons_append]
    refine List.Perm.trans List.perm_middle (List.Perm.cons e ?_)
    refine (List.Perm.append_left f (weave_perm es fs (Or.inr h'))).trans ?_
    rw [← List.append_assoc, ← List.append_assoc]
    exact List.Perm.append_right _ List.perm_append_comm

theorem iterChildren_run {np : Nat} {F : List Nat} (p fuel : Nat) :
    ∀ (cs : List BT) (s : BSt) (R : Multiset Rec),
      (∀ c ∈ cs, ∀ (s : BSt) (R : Multiset Rec), Core s np (nodes p c + R) F → InC s c.page →
        ∃ s' L, iterNode fuel c.page s = .ok (L, s') ∧ Core s' np (nodes p c + R) F ∧ Keep s s' ∧ L.Perm (flat c)) →
      Core s np (nodesL p cs + R) F →
      ∃ s' L, iterChildren (iterNode fuel) p (cs.map page) s = .ok (L, s') ∧ Core s' np (nodesL p cs + R) F ∧ Keep s s' ∧
        L.Perm (flats cs).flatten
  | [], s, R, _, h => ⟨s, [], rfl, h, Keep.refl s, by simp⟩
  | c :: cs, s, R, ih, h => by
    obtain ⟨r, hr, hr1, hr2⟩ := nodes_mem_top p c
    obtain ⟨s1, e1, g1, k1, i1, _⟩ := h.retrieve (r := r) (by rw [nodesL_cons]; simp [hr])
    rw [hr1] at i1
    rw [hr1, hr2] at e1
    obtain ⟨s2, L1, e2, g2, k2, q2⟩ := ih c (by simp) s1 (nodesL p cs + R) (g1.cast (by rw [nodesL_cons, add_assoc])) i1
    obtain ⟨s3, L2, e3, g3, k3, q3⟩ := iterChildren_run p fuel cs s2 (nodes p c + R) (fun x hx => ih x (by simp [hx])) (g2.cast (add_left_comm _ _ _))
    refine ⟨s3, L1 ++ L2, ?_, g3.cast (by rw [nodesL_cons, add_assoc, add_left_comm]), (k1.trans k2).trans k3, ?_⟩
    · rw [List.map_cons, iterChildren, bind_run e1, bind_run e2, bind_run e3]; rfl
    · rw [flats_cons, List.flatten_cons]; exact List.Perm.append q2 q3

theorem iter_run {np : Nat} {F : List Nat} : ∀ (h lo : Nat) (t : BT) (fuel q : Nat) (s : BSt) (R : Multiset Rec), h < fuel → Shape lo h t →
    Core s np (nodes q t + R) F → InC s t.page →
    ∃ s' L, iterNode fuel t.page s = .ok (L, s') ∧ Core s' np (nodes q t + R) F ∧ Keep s s' ∧ L.Perm (flat t) := by
  intro h
  induction h with
  | zero =>
    intro lo t fuel q s R hf hs hcore hp
    obtain ⟨p, es, cs⟩ := t
    obtain ⟨fuel, rfl⟩ : ∃ n, fuel = n + 1 := ⟨fuel - 1, by omega⟩
    obtain ⟨rfl, _, _⟩ := hs
    obtain ⟨d, _, hde⟩ := hcore.deref (r := ⟨q, p, [], es⟩) (by rw [nodes_node]; simp) hp
    refine ⟨s, es ++ [], ?_, hcore, Keep.refl s, by rw [flat_node]; simp [weave]⟩
    rw [show page (.node p es []) = p from rfl, iterNode, bind_run hde]
    rfl
  | succ h ih =>
    intro lo t fuel q s R hf hs hcore hp
    obtain ⟨p, es, cs⟩ := t
    obtain ⟨fuel, rfl⟩ : ∃ n, fuel = n + 1 := ⟨fuel - 1, by omega⟩
    obtain ⟨h1, _, _, h4⟩ := hs
    obtain ⟨d, _, hde⟩ := hcore.deref (r := ⟨q, p, cs.map page, es⟩) (by rw [nodes_node]; simp) hp
    obtain ⟨s1, L, e1, g1, k1, q1⟩ := iterChildren_run (np := np) (F := F) p fuel cs s (⟨q, p, cs.map page, es⟩ ::ₘ R)
      (fun c hc s R hcr hin => ih 6 c fuel p s R (by omega) (h4 c hc) hcr hin) (hcore.cast (by rw [nodes_node]; ms))
    refine ⟨s1, es ++ L, ?_, g1.cast (by rw [nodes_node]; ms), k1, ?_⟩
    · rw [show page (.node p es cs) = p from rfl, iterNode, bind_run hde, bind_run e1]
      rfl
    · rw [flat_node]
      exact (List.Perm.append_left es q1).trans (weave_perm es (flats cs) (Or.inr (by simpa using h1))).symm

/-- Listing. -/
theorem iterate_run {C : BCfg} {s : BSt} {l : List DirEntry} (hd : Dir C s l) :
    ∃ s' L, iterateEntries s = .ok (L, s') ∧ L.Perm l ∧ Dir C s' l := by
  obtain ⟨hasc, hok, np, F, hcase⟩ := hd
  rcases hcase with ⟨hr, rfl, hcore⟩ | ⟨t, h, hr, rfl, hs, hcore⟩
  · refine ⟨s, [], ?_, List.Perm.refl _, hasc, hok, np, F, Or.inl ⟨hr, rfl, hcore⟩⟩
    rw [iterateEntries, bind_run (noroot_run hr)]; rfl
  · obtain ⟨s1, e1, g1, k1, i1⟩ := root_run hr hcore
    obtain ⟨s2, L, e2, g2, k2, q2⟩ := iter_run (np := np) (F := F) h _ t btMaxDepth invalidPage s1 0 (by have := hcore.height hs; simp only [btMaxDepth]; omega) hs
      (g1.cast (by ms)) i1
    refine ⟨s2, L, ?_, q2, hasc, hok, np, F, Or.inr ⟨t, h, by rw [k2.1, k1.1, hr], rfl, hs, g2.cast (by ms)⟩⟩
    rw [iterateEntries, bind_run e1]
    exact e2

/-- `empty`. -/
theorem dirEmpty_run {C : BCfg} {s : BSt} {l : List DirEntry} (hd : Dir C s l) :
    ∃ s', dirEmpty s = .ok (l == [], s') ∧ Dir C s' l := by
  obtain ⟨hasc, hok, np, F, hcase⟩ := hd
  rcases hcase with ⟨hr, rfl, hcore⟩ | ⟨t, h, hr, rfl, hs, hcore⟩
  · refine ⟨s, ?_, hasc, hok, np, F, Or.inl ⟨hr, rfl, hcore⟩⟩
    rw [dirEmpty, bind_run (noroot_run hr)]; rfl
  · obtain ⟨s1, e1, g1, k1, i1⟩ := root_run hr hcore
    refine ⟨s1, ?_, hasc, hok, np, F, Or.inr ⟨t, h, by rw [k1.1, hr], rfl, hs, g1⟩⟩
    obtain ⟨p, es, cs⟩ := t
    obtain ⟨d, _, hde⟩ := g1.deref (r := ⟨invalidPage, p, cs.map page, es⟩) (by rw [nodes_node]; simp) i1
    rw [dirEmpty, bind_run e1]
    dsimp only
    rw [show page (.node p es cs) = p from rfl, bind_run hde]
    dsimp only
    have : (es == []) = (flat (.node p es cs) == []) := by
      rw [flat_node]
      cases h with
      | zero =>
        obtain ⟨rfl, _, _⟩ := hs
        simp [weave]
      | succ h =>
        obtain ⟨h1, h2, _, _⟩ := hs
        simp only [rootLo] at h2
        have hne : es ≠ [] := by intro h0; rw [h0] at h2; simp at h2
        have hne' : weave es (flats cs) ≠ [] := by
          intro h0
          have := sublist_weave es (flats cs) (Or.inr (by simp; omega))
          rw [h0] at this
          exact hne (List.eq_nil_of_sublist_nil this)
        rw [beq_eq_false_iff_ne.2 hne, beq_eq_false_iff_ne.2 hne']
    rw [this]
    rfl

/-! ## Rebuilding -/

theorem asc_pairwise_ne {C : BCfg} (hC : CmpOk C.cmp) {l : List DirEntry} (h : Asc C l) : l.Pairwise fun x y => C.cmp x.name y.name ≠ 0 :=
  List.Pairwise.imp (R := Lt C) (fun {a b} (hab : C.cmp a.name b.name < 0) => by omega) h

theorem asc_perm {C : BCfg} (hC : CmpOk C.cmp) : ∀ {l l' : List DirEntry}, Asc C l → Asc C l' → l.Perm l' → l = l' := by
  intro l l' h h' hp
  refine List.Perm.eq_of_pairwise ?_ h h' hp
  intro a b _ _ hab hba
  have h1 : C.cmp a.name b.name < 0 := hab
  have h2 : C.cmp b.name a.name < 0 := hba
  have := hC.anti a.name b.name
  omega

theorem addAll_run {C : BCfg} (hC : CmpOk C.cmp) : ∀ (es acc : List DirEntry) (s : BSt), Dir C s acc → (∀ e ∈ es, EntryOk e) →
    (es.Pairwise fun x y => C.cmp x.name y.name ≠ 0) → (∀ e ∈ es, ∀ x ∈ acc, C.cmp e.name x.name ≠ 0) →
    acc.length + es.length ≤ maxDirEntries →
    ∃ s' l', addAll C es s = .ok ((), s') ∧ Dir C s' l' ∧ l'.Perm (acc ++ es)
  | [], acc, s, hd, _, _, _, _ => ⟨s, acc, rfl, hd, by simp⟩
  | e :: es, acc, s, hd, hok, hpw, hdis, hlen => by
    rw [List.length_cons] at hlen
    obtain ⟨s1, P, Q, rfl, e1, hd1⟩ := (addEntry_run hC e (hok e (by simp)) hd (by omega)).2 (hdis e (by simp))
    have hpw' := List.pairwise_cons.1 hpw
    obtain ⟨s2, l', e2, hd2, hp2⟩ := addAll_run hC es (P ++ e :: Q) s1 hd1 (fun x hx => hok x (by simp [hx])) hpw'.2
      (by
        intro y hy x hx
        rw [List.mem_append, List.mem_cons] at hx
        rcases hx with hx | rfl | hx
        · exact hdis y (by simp [hy]) x (List.mem_append_left _ hx)
        · intro h0
          exact hpw'.1 y hy ((hC.eq_comm y.name x.name).1 h0)
        · exact hdis y (by simp [hy]) x (List.mem_append_right _ hx))
      (by simp only [List.length_append, List.length_cons] at hlen ⊢; omega)
    refine ⟨s2, l', ?_, hd2, hp2.trans ?_⟩
    · rw [addAll, bind_run e1, e2]
    · rw [List.append_assoc, List.append_assoc, List.cons_append]
      refine List.Perm.append_left P ?_
      exact List.perm_middle.symm

/-- The state without pages. -/
theorem dir_reset (C : BCfg) (s : BSt) :
    Dir C { s with cache := [], data := Spec.resize s.data 0, nfree := 0, start := invalidPage, root := invalidPage } [] := by
  refine ⟨List.Pairwise.nil, by simp, 0, [], Or.inl ⟨rfl, rfl, ?_⟩⟩
  exact
    { len := by simp [Spec.resize]
      npLe := by norm_num
      part := by simp
      rep := by simp
      par := by simp
      keys := by intro p n h; simp [cacheFind] at h
      clean := by intro p n h; simp [cacheFind] at h
      free := rfl
      nfree := rfl }

theorem rebuild_run {C : BCfg} (hC : CmpOk C.cmp) {s : BSt} {l : List DirEntry} (hd : Dir C s l) (hmax : l.length ≤ maxDirEntries) :
    ∃ s', rebuild C s = .ok ((), s') ∧ Dir C s' l := by
  obtain ⟨hasc, hok, np, F, hcase⟩ := hd
  rcases hcase with ⟨hr, rfl, hcore⟩ | ⟨t, h, hr, rfl, hs, hcore⟩
  · refine ⟨s, ?_, hasc, hok, np, F, Or.inl ⟨hr, rfl, hcore⟩⟩
    rw [rebuild, bind_run (noroot_run hr)]; rfl
  · obtain ⟨s1, e1, g1, k1, i1⟩ := root_run hr hcore
    obtain ⟨s2, L, e2, g2, k2, q2⟩ := iter_run (np := np) (F := F) h _ t btMaxDepth invalidPage s1 0 (by have := hcore.height hs; simp only [btMaxDepth]; omega) hs
      (g1.cast (by ms)) i1
    have hsym : ∀ {x y : DirEntry}, C.cmp x.name y.name ≠ 0 → C.cmp y.name x.name ≠ 0 := by
      intro x y h0 h1; exact h0 ((hC.eq_comm _ _).1 h1)
    obtain ⟨s3, l', e3, hd3, hp3⟩ := addAll_run hC L [] _ (dir_reset C s2) (fun e he => hok e (q2.subset he))
      ((q2.pairwise_iff hsym).2 (asc_pairwise_ne hC hasc)) (by simp) (by simpa using q2.length_eq ▸ hmax)
    have : l' = flat t := asc_perm hC hd3.1 hasc (hp3.trans (by simpa using q2))
    subst this
    refine ⟨s3, ?_, hd3⟩
    rw [rebuild, bind_run e1]
    dsimp only
    rw [bind_run e2, bind_run (getSt_run s2)]
    exact e3

/-! ## Flushing -/

/-- What a record needs to be written. -/
def RecOk (r : Rec) : Prop := r.chs.length ≤ 14 ∧ r.es.length ≤ 13 ∧ (∀ e ∈ r.es, EntryOk e) ∧ ∀ c ∈ r.chs, c < 2 ^ 32

theorem recs_nodesL (p : Nat) : ∀ (cs : List BT) (r : Rec), r ∈ nodesL p cs → ∃ c ∈ cs, r ∈ nodes p c
  | [], r, h => by simp at h
  | c :: cs, r, h => by
    rw [nodesL_cons, Multiset.mem_add] at h
    rcases h with h | h
    · exact ⟨c, by simp, h⟩
    · obtain ⟨c', h1, h2⟩ := recs_nodesL p cs r h
      exact ⟨c', by simp [h1], h2⟩

theorem nodesL_mem (p : Nat) (cs : List BT) {c : BT} {r : Rec} (hc : c ∈ cs) (hr : r ∈ nodes p c) : r ∈ nodesL p cs := by
  obtain ⟨a, b, rfl⟩ := List.append_of_mem hc
  rw [nodesL_append, nodesL_cons]; simp [hr]

/-- The records of a well-shaped tree. -/
theorem Shape.recs : ∀ (h lo : Nat) (t : BT), Shape lo h t → ∀ q, ∀ r ∈ nodes q t,
    r.chs.length ≤ 14 ∧ r.es.length ≤ 13 ∧ (∀ e ∈ r.es, e ∈ flat t) ∧ ∀ c ∈ r.chs, ∃ r' ∈ nodes q t, r'.page = c
  | 0, lo, .node p es cs, hs, q, r, hr => by
    obtain ⟨rfl, _, h3⟩ := hs
    rw [nodes_node, nodesL_nil] at hr
    simp only [Multiset.mem_cons, Multiset.notMem_zero, or_false] at hr
    subst hr
    refine ⟨by simp, h3, fun e he => by rw [flat_node]; simpa [weave] using he, by simp⟩
  | h + 1, lo, .node p es cs, hs, q, r, hr => by
    obtain ⟨h1, _, h3, h4⟩ := hs
    have hmw := mem_weave es (flats cs) (Or.inr (by simpa using h1))
    rw [nodes_node, Multiset.mem_cons] at hr
    rcases hr with rfl | hr
    · refine ⟨by simp; omega, h3, fun e he => by rw [flat_node]; exact (hmw e).2 (Or.inl he), ?_⟩
      intro c hc
      obtain ⟨t, ht, rfl⟩ := List.mem_map.1 hc
      obtain ⟨x, hx, hxp⟩ := page_mem_nodesL p cs t ht
      exact ⟨x, by rw [nodes_node]; simp [hx], hxp⟩
    · obtain ⟨c, hc, hrc⟩ := recs_nodesL p cs r hr
      obtain ⟨w1, w2, w3, w4⟩ := Shape.recs h 6 c (h4 c hc) p r hrc
      refine ⟨w1, w2, ?_, ?_⟩
      · intro e he
        rw [flat_node]
        exact (hmw e).2 (Or.inr ⟨flat c, by rw [flats_eq]; exact List.mem_map_of_mem hc, w3 e he⟩)
      · intro x hx
        obtain ⟨r', hr', hp'⟩ := w4 x hx
        exact ⟨r', by rw [nodes_node]; exact Multiset.mem_cons_of_mem (nodesL_mem p cs hc hr'), hp'⟩

theorem recOk_of {s : BSt} {np h lo : Nat} {q : Nat} {t : BT} {F : List Nat} (hs : Shape lo h t) (hok : ∀ e ∈ flat t, EntryOk e)
    (hcore : Core s np (nodes q t) F) : ∀ r ∈ nodes q t, RecOk r := by
  intro r hr
  obtain ⟨w1, w2, w3, w4⟩ := Shape.recs h lo t hs q r hr
  refine ⟨w1, w2, fun e he => hok e (w3 e he), fun c hc => ?_⟩
  obtain ⟨r', hr', rfl⟩ := w4 c hc
  have := hcore.lt hr'
  have := hcore.npLe
  omega

theorem fit_page (a b : Nat) (ha : a ≤ 14) (hb : b ≤ 13) : 8 + 4 * a + 292 * b ≤ 4096 := by omega

/-- Writing one cached node. -/
theorem Core.flushOne {C : BCfg} {s : BSt} {np : Nat} {R : Multiset Rec} {F : List Nat} (h : Core s np R F) (hR : ∀ r ∈ R, RecOk r)
    {p : Nat} {n : BNode} (hn : cacheFind s p = some n) :
    ∃ s1, writeNode C n.num n s = .ok ((), s1) ∧ Core (putNode s1 p { n with dirty := false }) np R F ∧ s1.root = s.root ∧ s1.cache = s.cache ∧
      s1.nfree = s.nfree ∧ s1.start = s.start := by
  obtain ⟨hnum, hpm⟩ := h.keys p n hn
  obtain ⟨r, hr, rfl⟩ := Multiset.mem_map.1 hpm
  obtain ⟨c1, c2, c3, c4⟩ := h.node hr hn
  obtain ⟨o1, o2, o3, o4⟩ := hR r hr
  have hp := h.lt hr
  have hlen := h.len
  have hnp := h.npLe
  have hfit : 8 + 4 * n.children.length + 292 * n.entries.length ≤ 4096 := by rw [c1, c2]; exact fit_page _ _ o1 o2
  have hbuf := toBuffer_ok pageSize n (by rw [c2]; exact o3) hfit
  have hel := encNode_length n.children n.entries (by rw [c2]; exact o3)
  let tail := (C.junk n.num ++ zeros pageSize).take (pageSize - (encNode n.children n.entries).length)
  have htl : (encNode n.children n.entries ++ tail).length = 4096 := by
    have h1 : (encNode n.children n.entries).length ≤ 4096 := by rw [hel]; exact hfit
    show (encNode n.children n.entries ++ (C.junk n.num ++ zeros pageSize).take (pageSize - (encNode n.children n.entries).length)).length = 4096
    rw [List.length_append, List.length_take, List.length_append, zeros_length, show pageSize = 4096 from rfl]
    generalize (encNode n.children n.entries).length = a at *
    omega
  have hpage := wr_page (s := s) hlen hp htl
  have hdec : nodeOf (encNode n.children n.entries ++ tail) = some (n.children, n.entries) :=
    nodeOf_encNode _ _ _ (by rw [c1]; exact o4) (by rw [c2]; exact o3) (by rw [c1]; omega) (by rw [c2]; omega)
  refine ⟨wr s r.page (encNode n.children n.entries ++ tail), ?_, ?_, rfl, rfl, rfl, rfl⟩
  · rw [writeNode, hnum, if_neg (ne_invalid hnp hp), bind_run (lift_run _ _ hbuf s), writePage_run hnp hp]
    show _ = Except.ok ((), { s with data := Spec.write s.data (r.page * 4096) (encNode n.children n.entries ++
      (C.junk n.num ++ zeros pageSize).take (pageSize - (encNode n.children n.entries).length)) })
    rw [hnum]
  · have hcf : ∀ x, cacheFind (putNode (wr s r.page (encNode n.children n.entries ++ tail)) r.page { n with dirty := false }) x =
        if x = r.page then some { n with dirty := false } else cacheFind s x := by
      intro x; rw [cacheFind_put]; rfl
    exact
      { len := wr_len hlen hp htl
        npLe := hnp
        part := h.part
        rep := by
          intro r' hr'
          have h0 := h.rep r' hr'
          by_cases he : r'.page = r.page
          · rw [he] at h0
            simp only [view, hn] at h0
            simp only [view, hcf, he, if_pos]
            exact h0
          · rw [← h0]
            refine view_frame (by rw [hcf, if_neg he]) ?_
            show pageOf (wr s r.page (encNode n.children n.entries ++ tail)).data r'.page = _
            rw [hpage, if_neg he]
        par := by
          intro r' hr' m hm
          rw [hcf] at hm
          by_cases he : r'.page = r.page
          · rw [if_pos he] at hm
            cases hm
            have := h.par r' hr' n (by rw [he]; exact hn)
            exact this
          · rw [if_neg he] at hm
            exact h.par r' hr' m hm
        keys := by
          intro x m hm
          rw [hcf] at hm
          by_cases he : x = r.page
          · rw [if_pos he] at hm
            cases hm
            subst he
            exact ⟨hnum, hpm⟩
          · rw [if_neg he] at hm
            exact h.keys x m hm
        clean := by
          intro x m hm hd
          rw [hcf] at hm
          show nodeOf (pageOf (wr s r.page (encNode n.children n.entries ++ tail)).data x) = _
          rw [hpage]
          by_cases he : x = r.page
          · rw [if_pos he] at hm ⊢
            cases hm
            exact hdec
          · rw [if_neg he] at hm ⊢
            exact h.clean x m hm hd
        free := by
          refine FL.frame ?_ h.free
          intro x hx
          show pageOf (wr s r.page (encNode n.children n.entries ++ tail)).data x = _
          rw [hpage, if_neg]
          intro he
          subst he
          exact h.notF hx hpm
        nfree := h.nfree }

theorem flushPages_run {C : BCfg} {np : Nat} {R : Multiset Rec} {F : List Nat} (hR : ∀ r ∈ R, RecOk r) : ∀ (ps : List Nat) (s : BSt), Core s np R F →
    (∀ p ∈ ps, InC s p) →
    ∃ s', flushPages C ps s = .ok ((), s') ∧ Core s' np R F ∧ s'.root = s.root ∧ (∀ x, InC s' x ↔ InC s x) ∧
      (∀ x n, cacheFind s' x = some n → n.dirty = true → x ∉ ps ∧ cacheFind s x = some n)
  | [], s, h, _ => ⟨s, rfl, h, rfl, fun _ => Iff.rfl, fun x n hx _ => ⟨by simp, hx⟩⟩
  | p :: ps, s, h, hin => by
    obtain ⟨n, hn⟩ := hin p (by simp)
    rw [flushPages, bind_run (deref_run hn)]
    cases hd : n.dirty with
    | false =>
      obtain ⟨s1, e1, g1, r1, i1, d1⟩ := flushPages_run (C := C) hR ps s h (fun x hx => hin x (by simp [hx]))
      refine ⟨s1, ?_, g1, r1, i1, ?_⟩
      · rw [if_neg (by simp)]; exact e1
      · intro x m hx hm
        obtain ⟨w1, w2⟩ := d1 x m hx hm
        refine ⟨?_, w2⟩
        rw [List.mem_cons, not_or]
        refine ⟨?_, w1⟩
        rintro rfl
        rw [hn] at w2
        cases w2
        rw [hd] at hm
        cases hm
    | true =>
      obtain ⟨s1, e1, g1, r1, c1, _, _⟩ := h.flushOne (C := C) hR hn
      have hcf : ∀ x, cacheFind (putNode s1 p { n with dirty := false }) x = if x = p then some { n with dirty := false } else cacheFind s x := by
        intro x
        rw [cacheFind_put]
        have : cacheFind s1 x = cacheFind s x := by rw [cacheFind, c1]; rfl
        rw [this]
      have hinc : ∀ x, InC (putNode s1 p { n with dirty := false }) x ↔ InC s x := by
        intro x
        simp only [InC, hcf]
        by_cases he : x = p
        · subst he; simp [hn]
        · simp [he]
      obtain ⟨s2, e2, g2, r2, i2, d2⟩ := flushPages_run (C := C) hR ps (putNode s1 p { n with dirty := false }) g1
        (fun x hx => (hinc x).2 (hin x (by simp [hx])))
      refine ⟨s2, ?_, g2, ?_, fun x => (i2 x).trans (hinc x), ?_⟩
      · rw [if_pos rfl, bind_run e1, bind_run (cachePut_run s1 p _)]; rw [hd] at *; exact e2
      · rw [r2]; exact r1
      · intro x m hx hm
        obtain ⟨w1, w2⟩ := d2 x m hx hm
        rw [hcf] at w2
        by_cases he : x = p
        · rw [if_pos he] at w2
          cases w2
          cases hm
        · rw [if_neg he] at w2
          exact ⟨by rw [List.mem_cons, not_or]; exact ⟨he, w1⟩, w2⟩

theorem lookup_mem_keys : ∀ (l : List (Nat × BNode)) (x : Nat), (∃ n, l.lookup x = some n) ↔ x ∈ l.map Prod.fst
  | [], x => by simp
  | (a, m) :: l, x => by
    rw [List.lookup_cons, List.map_cons, List.mem_cons]
    by_cases h : x = a
    · subst h; simp
    · have : (x == a) = false := by simpa using h
      rw [this]
      simp only [h, false_or]
      exact lookup_mem_keys l x

/-- The cache can be dropped once nothing in it is dirty. -/
theorem Core.drop {s : BSt} {np : Nat} {R : Multiset Rec} {F : List Nat} (h : Core s np R F)
    (hcl : ∀ x n, cacheFind s x = some n → n.dirty = false) : Core { s with cache := [] } np R F :=
  { len := h.len
    npLe := h.npLe
    part := h.part
    rep := by
      intro r hr
      have h0 := h.rep r hr
      show nodeOf (pageOf s.data r.page) = _
      cases hx : cacheFind s r.page with
      | none => simpa only [view, hx] using h0
      | some n =>
        rw [h.clean _ n hx (hcl _ n hx)]
        simpa only [view, hx] using h0
    par := by intro r _ n hn; simp [cacheFind] at hn
    keys := by intro p n hn; simp [cacheFind] at hn
    clean := by intro p n hn; simp [cacheFind] at hn
    free := h.free
    nfree := h.nfree }

/-- The order in which the cache is walked is any order. -/
def OrderOk (C : BCfg) : Prop := ∀ l : List Nat, (C.order l).Perm l

theorem flush_core {C : BCfg} (hO : OrderOk C) {s : BSt} {np : Nat} {R : Multiset Rec} {F : List Nat} (h : Core s np R F) (hR : ∀ r ∈ R, RecOk r) :
    ∃ s', flushCache C s = .ok ((), s') ∧ Core s' np R F ∧ s'.root = s.root ∧ (∀ x n, cacheFind s' x = some n → n.dirty = false) := by
  obtain ⟨s', e1, g1, r1, i1, d1⟩ := flushPages_run (C := C) hR (C.order (s.cache.map Prod.fst)) s h
    (fun p hp => (lookup_mem_keys s.cache p).2 ((hO _).subset hp))
  refine ⟨s', ?_, g1, r1, ?_⟩
  · rw [flushCache, bind_run (getSt_run s)]; exact e1
  · intro x n hx
    cases hd : n.dirty with
    | false => rfl
    | true =>
      obtain ⟨w1, w2⟩ := d1 x n hx hd
      exact absurd ((hO _).symm.subset ((lookup_mem_keys s.cache x).1 ⟨n, w2⟩)) w1

/-- The cached nodes of `s` are all clean. -/
def Clean (s : BSt) : Prop := ∀ x n, cacheFind s x = some n → n.dirty = false

theorem flushCache_run {C : BCfg} (hO : OrderOk C) {s : BSt} {l : List DirEntry} (hd : Dir C s l) :
    ∃ s', flushCache C s = .ok ((), s') ∧ Dir C s' l ∧ Clean s' := by
  obtain ⟨hasc, hok, np, F, hcase⟩ := hd
  rcases hcase with ⟨hr, rfl, hcore⟩ | ⟨t, h, hr, rfl, hs, hcore⟩
  · obtain ⟨s', e1, g1, r1, c1⟩ := flush_core hO hcore (by simp)
    exact ⟨s', e1, ⟨hasc, hok, np, F, Or.inl ⟨by rw [r1, hr], rfl, g1⟩⟩, c1⟩
  · obtain ⟨s', e1, g1, r1, c1⟩ := flush_core hO hcore (recOk_of hs hok hcore)
    exact ⟨s', e1, ⟨hasc, hok, np, F, Or.inr ⟨t, h, by rw [r1, hr], rfl, hs, g1⟩⟩, c1⟩

theorem subflush_run {C : BCfg} (hC : CmpOk C.cmp) (hO : OrderOk C) {s : BSt} {l : List DirEntry} (hd : Dir C s l) (hmax : l.length ≤ maxDirEntries) :
    ∃ s', subflush C s = .ok ((), s') ∧ Dir C s' l ∧ Clean s' := by
  rw [subflush, bind_run (getSt_run s)]
  by_cases hb : s.nfree > 5 ∧ s.nfree > s.data.length / (pageSize * 3 / 2)
  · rw [if_pos hb]
    obtain ⟨s1, e1, d1⟩ := rebuild_run hC hd hmax
    rw [bind_run e1]
    exact flushCache_run hO d1
  · rw [if_neg hb]
    exact flushCache_run hO hd

theorem reopen_run {C : BCfg} (hC : CmpOk C.cmp) (hO : OrderOk C) {s : BSt} {l : List DirEntry} (hd : Dir C s l) (hmax : l.length ≤ maxDirEntries) :
    ∃ s', reopenDir C s = .ok ((), s') ∧ Dir C s' l ∧ s'.cache = [] := by
  obtain ⟨s1, e1, d1, c1⟩ := subflush_run hC hO hd hmax
  refine ⟨{ s1 with cache := [] }, ?_, ?_, rfl⟩
  · rw [reopenDir, bind_run e1, bind_run (getSt_run s1)]; rfl
  · obtain ⟨hasc, hok, np, F, hcase⟩ := d1
    rcases hcase with ⟨hr, rfl, hcore⟩ | ⟨t, h, hr, rfl, hs, hcore⟩
    · exact ⟨hasc, hok, np, F, Or.inl ⟨hr, rfl, hcore.drop c1⟩⟩
    · exact ⟨hasc, hok, np, F, Or.inr ⟨t, h, hr, rfl, hs, hcore.drop c1⟩⟩

/-! ## The free list -/

theorem validateLoop_run {s : BSt} {np : Nat} (hl : s.data.length = np * 4096) (hnp : np ≤ 2 ^ 20) : ∀ (F : List Nat) (prev start : Nat),
    (∀ p ∈ F, p < np) → prev < 2 ^ 32 → FL s.data prev start F → validateFreeLoop F.length start prev s = .ok (true, s)
  | [], prev, start, _, _, h => by
    have h : start = invalidPage := h
    subst h; rfl
  | a :: F, prev, start, hF, hpv, ⟨h1, next, h2, h3, h4⟩ => by
    subst h1
    have ha := hF start (by simp)
    rw [List.length_cons, validateFreeLoop, bind_run (readFreePage_run hl hnp ha h2 h3 hpv)]
    dsimp only
    rw [if_neg (by simp)]
    exact validateLoop_run hl hnp F start next (fun p hp => hF p (by simp [hp])) (by omega) h4

theorem Core.validate {s : BSt} {np : Nat} {R : Multiset Rec} {F : List Nat} (h : Core s np R F) : validateFreeList s = .ok (true, s) := by
  rw [validateFreeList, bind_run (getSt_run s), h.nfree]
  exact validateLoop_run h.len h.npLe F _ _ (fun p hp => h.ltF hp) (by decide) h.free

end Securefs
