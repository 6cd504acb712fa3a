import Verif.Proofs.BtreeFlush
import Verif.Spec.Btree
import Verif.Model.NameOrder
/-! Helper lemmas: the B-tree directory against its specification. -/

namespace Securefs
open BT Spec

theorem interleave_eq : ∀ (es : List DirEntry) (fs : List (List DirEntry)), fs = [] ∨ fs.length = es.length + 1 → interleave es fs = weave es fs
  | [], [], _ => rfl
  | _ :: _, [], _ => rfl
  | [], f :: fs, h => by
    have : fs = [] := by
      rcases h with h | h
      · cases h
      · simpa using h
    subst this
    simp [interleave, weave]
  | e :: es, f :: fs, h => by
    have h' : fs.length = es.length + 1 := by
      rcases h with h | h
      · cases h
      · simpa using h
    rw [interleave, weave, interleave_eq es fs (Or.inr h')]

theorem pageAt_eq (d : Bytes) (p : Nat) : pageAt d p = pageOf d p := rfl

theorem nodeAt_eq (s : BSt) (p : Nat) : nodeAt s p = view s p := by
  simp only [nodeAt, view, cacheFind, nodeOf, pageAt_eq]
  cases s.cache.lookup p with
  | some n => rfl
  | none =>
    dsimp only
    cases fromBuffer (pageOf s.data p) with
    | error e => rfl
    | ok r => cases r <;> rfl

/-- The pages of a well-shaped tree of height `h`. -/
def pagesH : Nat → BT → List Nat
  | 0, t => [t.page]
  | h + 1, .node p _ cs => p :: (cs.map (pagesH h)).flatten

theorem pagesH_nodesL (h p : Nat) : ∀ cs : List BT, (∀ c ∈ cs, ∀ q, (nodes q c).map Rec.page = (pagesH h c : Multiset Nat)) →
    (nodesL p cs).map Rec.page = ((cs.map (pagesH h)).flatten : Multiset Nat)
  | [], _ => by simp
  | c :: cs, hc => by
    rw [nodesL_cons, Multiset.map_add, hc c (by simp), pagesH_nodesL h p cs (fun x hx => hc x (by simp [hx])), List.map_cons, List.flatten_cons, Multiset.coe_add]

theorem pagesH_eq : ∀ (h lo : Nat) (t : BT), Shape lo h t → ∀ q, (nodes q t).map Rec.page = (pagesH h t : Multiset Nat)
  | 0, lo, .node p es cs, hs, q => by
    obtain ⟨rfl, _⟩ := hs
    rw [nodes_node]; simp [pagesH, page]
  | h + 1, lo, .node p es cs, hs, q => by
    obtain ⟨h1, _, _, h4⟩ := hs
    rw [nodes_node, Multiset.map_cons, pagesH_nodesL h p cs (fun c hc q => pagesH_eq h 6 c (h4 c hc) q), pagesH]
    rfl

theorem isTree_of {node : Nat → Option (List Nat × List DirEntry)} : ∀ (h lo : Nat) (t : BT) (q : Nat), Shape lo h t →
    (∀ r ∈ nodes q t, node r.page = some (r.chs, r.es)) → IsTree node lo h t.page (flat t) (pagesH h t)
  | 0, lo, .node p es cs, q, hs, hn => by
    obtain ⟨rfl, h1, h2⟩ := hs
    have hf : flat (.node p es []) = es := by rw [flat_node]; simp [weave]
    rw [hf]
    exact ⟨hn ⟨q, p, [], es⟩ (by rw [nodes_node]; simp), h1, h2, rfl⟩
  | h + 1, lo, .node p es cs, q, hs, hn => by
    obtain ⟨h1, h2, h3, h4⟩ := hs
    refine ⟨es, cs.map page, cs.map (fun c => (flat c, pagesH h c)), hn ⟨q, p, cs.map page, es⟩ (by rw [nodes_node]; simp), by simpa using h1, h2, h3, ?_, ?_, ?_⟩
    · rw [List.forall₂_map_left_iff, List.forall₂_map_right_iff, List.forall₂_same]
      intro c hc
      refine isTree_of h 6 c p (h4 c hc) ?_
      intro r hr
      exact hn r (by rw [nodes_node]; exact Multiset.mem_cons_of_mem (nodesL_mem p cs hc hr))
    · rw [flat_node, List.map_map, interleave_eq _ _ (Or.inr (by simpa using h1)), flats_eq]
      rfl
    · rw [pagesH, List.map_map]; rfl

theorem isFree_of {d : Bytes} : ∀ (F : List Nat) (prev start : Nat), FL d prev start F → IsFreeList d prev start F
  | [], _, _, h => h
  | a :: F, prev, start, ⟨h1, next, h2, h3, h4⟩ => by
    have e0 : freeBytes next prev = toLE 4 0 ++ (toLE 4 next ++ (toLE 4 prev ++ zeros (pageSize - 12))) := by
      rw [freeBytes, zeros4]; simp only [List.append_assoc]
    have e4 : (freeBytes next prev).drop 4 = toLE 4 next ++ (toLE 4 prev ++ zeros (pageSize - 12)) := by
      rw [e0, List.drop_left' (toLE_length 4 0)]
    have e8 : (freeBytes next prev).drop 8 = toLE 4 prev ++ zeros (pageSize - 12) := by
      rw [show (8 : Nat) = 4 + 4 from rfl, ← List.drop_drop, e4, List.drop_left' (toLE_length 4 next)]
    refine ⟨h1, ?_, ?_, next, ?_, h3, isFree_of F a next h4⟩
    · rw [pageAt_eq, h2, e0, List.take_left' (toLE_length 4 0)]; decide
    · rw [pageAt_eq, h2, e8, List.take_left' (toLE_length 4 prev)]
    · rw [pageAt_eq, h2, e4, List.take_left' (toLE_length 4 next)]

theorem wellFormed_core {C : BCfg} {s : BSt} {l : List DirEntry} (hd : Dir C s l) : ∃ np R, ∃ treePages freePages : List Nat,
    Core s np R freePages ∧ R.map Rec.page = (treePages : Multiset Nat) ∧ WellFormed C.cmp s l treePages freePages := by
  obtain ⟨hasc, hok, np, F, hcase⟩ := hd
  have hnode : ∀ {R : Multiset Rec}, Core s np R F → ∀ r ∈ R, nodeAt s r.page = some (r.chs, r.es) := by
    intro R h r hr
    rw [nodeAt_eq]; exact h.rep r hr
  have hfin : ∀ {R : Multiset Rec} (ps : List Nat), Core s np R F → R.map Rec.page = (ps : Multiset Nat) →
      IsFreeList s.data invalidPage s.start F ∧ s.nfree = F.length ∧ (ps ++ F).Perm (List.range (s.data.length / 4096)) ∧ s.data.length % 4096 = 0 := by
    intro R ps h hp
    refine ⟨isFree_of _ _ _ h.free, h.nfree, ?_, by rw [h.len]; exact Nat.mul_mod_left _ _⟩
    rw [h.len, Nat.mul_div_cancel _ (by norm_num)]
    have := h.part
    rw [hp, Multiset.coe_add] at this
    exact Multiset.coe_eq_coe.1 this
  rcases hcase with ⟨hr, rfl, hcore⟩ | ⟨t, h, hr, rfl, hs, hcore⟩
  · exact ⟨np, 0, [], F, hcore, by simp, hasc, Or.inl ⟨hr, rfl, rfl⟩, hfin [] hcore (by simp)⟩
  · refine ⟨np, _, pagesH h t, F, hcore, pagesH_eq h _ t hs _, hasc, Or.inr ⟨h, ?_⟩, hfin _ hcore (pagesH_eq h _ t hs _)⟩
    rw [hr]
    exact isTree_of h _ t invalidPage hs (hnode hcore)

theorem wellFormed_of {C : BCfg} {s : BSt} {l : List DirEntry} (hd : Dir C s l) : ∃ treePages freePages, WellFormed C.cmp s l treePages freePages := by
  obtain ⟨_, _, t, f, _, _, h⟩ := wellFormed_core hd
  exact ⟨t, f, h⟩

theorem alloc_of {C : BCfg} {s : BSt} {l : List DirEntry} (hd : Dir C s l) (hroom : s.data.length < 2 ^ 32) :
    ∃ t f, WellFormed C.cmp s l t f ∧ validateFreeList s = .ok (true, s) ∧ ∃ a s', allocatePage s = .ok (a, s') ∧ a ∉ t ∧ a = f.headD (s.data.length / 4096) ∧
      IsFreeList s'.data invalidPage s'.start f.tail ∧ s'.nfree = f.tail.length := by
  obtain ⟨np, R, t, f, hcore, hmap, hw⟩ := wellFormed_core hd
  refine ⟨t, f, hw, hcore.validate, ?_⟩
  have hlen := hcore.len
  have hdiv : s.data.length / 4096 = np := by rw [hlen, Nat.mul_div_cancel _ (by norm_num)]
  rcases hcore.start_lt with ⟨h1, rfl⟩ | ⟨rest, rfl, h2⟩
  · obtain ⟨s', e1, e2, e3, e4⟩ := hcore.extend (by omega)
    refine ⟨np, s', by rw [allocatePage, bind_run (getSt_run s), if_pos h1, e1], ?_, hdiv.symm, isFree_of _ _ _ (e2 0).free, (e2 0).nfree⟩
    intro hm
    have : np ∈ Multiset.range np := by rw [← hcore.part, hmap]; exact Multiset.mem_add.2 (Or.inl (Multiset.mem_coe.2 hm))
    simp at this
  · obtain ⟨s', e1, e2, e3, e4⟩ := hcore.pop
    refine ⟨s.start, s', by rw [allocatePage, bind_run (getSt_run s), if_neg (ne_invalid hcore.npLe h2), e1], ?_, rfl, isFree_of _ _ _ (e2 0).free, (e2 0).nfree⟩
    intro hm
    exact hcore.notF (p := s.start) (by simp) (by rw [hmap]; exact Multiset.mem_coe.2 hm)

theorem cmpOk_of {cmp : Bytes → Bytes → Int} (h : TotalPreorder cmp) : CmpOk cmp := ⟨h.1, h.2⟩

/-! ## Histories -/

theorem find_perm {C : BCfg} (hC : CmpOk C.cmp) {l m : List DirEntry} (hasc : Asc C l) (hp : l.Perm m) (n : Bytes) :
    l.find? (fun x => sameName C.cmp n x.name) = m.find? (fun x => sameName C.cmp n x.name) := by
  cases h1 : l.find? (fun x => sameName C.cmp n x.name) with
  | none =>
    rw [List.find?_eq_none] at h1
    exact (List.find?_eq_none.2 fun x hx => h1 x (hp.symm.subset hx)).symm
  | some a =>
    cases h2 : m.find? (fun x => sameName C.cmp n x.name) with
    | none =>
      rw [List.find?_eq_none] at h2
      exact absurd (List.find?_some h1) (by simpa using h2 a (hp.subset (List.mem_of_find?_eq_some h1)))
    | some b =>
      have ha := List.find?_some h1
      have hb := List.find?_some h2
      simp only [sameName, beq_iff_eq] at ha hb
      have hma := List.mem_of_find?_eq_some h1
      have hmb := hp.symm.subset (List.mem_of_find?_eq_some h2)
      rw [asc_unique hC hasc hma hmb]
      have a1 := hC.anti a.name n; have a2 := hC.anti n a.name
      have a3 := hC.anti n b.name; have a4 := hC.anti b.name n
      have b1 := hC.trans a.name n b.name (by omega) (by omega)
      have b2 := hC.trans b.name n a.name (by omega) (by omega)
      have := hC.anti a.name b.name; have := hC.anti b.name a.name; omega

theorem capacity_eq : dirCapacity = maxDirEntries := by decide

/-- One call. -/
theorem dirStep_run {C : BCfg} (hC : CmpOk C.cmp) (hO : OrderOk C) {s : BSt} {l m : List DirEntry} (hd : Dir C s l) (hp : l.Perm m) (op : DirOp)
    (hv : op.Valid) (hm : m.length ≤ dirCapacity) (hfit : (dirStep (sameName C.cmp) m op).2.length ≤ dirCapacity) :
    ∃ l', Dir C (dirStepModel C s op).2 l' ∧ l'.Perm (dirStep (sameName C.cmp) m op).2 ∧
      DirOut.Agrees (dirStepModel C s op).1 (dirStep (sameName C.cmp) m op).1 := by
  rw [capacity_eq] at hm hfit
  have hlen := hp.length_eq
  cases op with
  | add e =>
    obtain ⟨v1, v2, v3⟩ := hv
    by_cases hlong : e.name.length > 255
    · have e1 : addEntry C e s = .error (.vfs 36) := by rw [addEntry, if_pos (show e.name.length > maxFilename from hlong)]; rfl
      have e2 : dirStepModel C s (.add e) = (.fail (.vfs 36), s) := by rw [dirStepModel, dirCall, bind_err e1]
      rw [e2, dirStep, if_pos hlong]
      exact ⟨l, hd, hp, rfl⟩
    · have hok : EntryOk e := ⟨by simp only [maxFilename]; omega, v1, v2, v3⟩
      rw [dirStep, if_neg hlong] at hfit ⊢
      by_cases hany : m.any (fun x => sameName C.cmp e.name x.name) = true
      · rw [if_pos hany]
        -- the entry is there
        have hex : ∃ x ∈ l, C.cmp e.name x.name = 0 := by
          obtain ⟨x, hx, hx0⟩ := List.any_eq_true.1 hany
          exact ⟨x, hp.symm.subset hx, by simpa [sameName] using hx0⟩
        have key : ∃ s', addEntry C e s = .ok (false, s') ∧ Dir C s' l := by
          obtain ⟨hasc, hokl, np, F, hcase⟩ := hd
          rcases hcase with ⟨_, rfl, _⟩ | ⟨t, h, hr, rfl, hs, hcore⟩
          · obtain ⟨x, hx, _⟩ := hex; simp at hx
          · obtain ⟨s1, K, h', p, es, cs, i, found, w1, w2, w3, w4, w5, w6, w7, w8, w9, w10, w11⟩ := findNode_run hC e.name hr hs hasc hcore
            cases found with
            | true =>
              refine ⟨s1, ?_, hasc, hokl, np, F, Or.inr ⟨t, h, by rw [w3.1, hr], rfl, hs, w2⟩⟩
              rw [addEntry, if_neg (show ¬ e.name.length > maxFilename from hlong), bind_run w1]
              rfl
            | false =>
              exfalso
              obtain ⟨rfl, rfl, e1, e2, rfl, rfl, hlt, hgt⟩ := w11 rfl
              obtain ⟨x, hx, hx0⟩ := hex
              rw [w4, flat_plug 0 K _ w5, flat_node] at hx
              have hx : x ∈ (Lk K ++ e1) ++ (e2 ++ Rk K) := by simpa [weave] using hx
              have hsym := hC.eq_comm e.name x.name
              rcases List.mem_append.1 hx with hx | hx
              · have := hlt x hx; omega
              · have := hgt x hx; omega
        obtain ⟨s', e1, hd'⟩ := key
        have e2 : dirStepModel C s (.add e) = (.flag false, s') := by rw [dirStepModel, dirCall, bind_run e1]; rfl
        rw [e2]
        exact ⟨l, hd', hp, rfl⟩
      · rw [if_neg hany] at hfit ⊢
        simp only [List.length_cons] at hfit
        have hno : ∀ x ∈ l, C.cmp e.name x.name ≠ 0 := by
          intro x hx h0
          exact hany (List.any_eq_true.2 ⟨x, hp.subset hx, by simp [sameName, h0]⟩)
        obtain ⟨s', P, Q, rfl, e1, hd'⟩ := (addEntry_run hC e hok hd (by omega)).2 hno
        have e2 : dirStepModel C s (.add e) = (.flag true, s') := by rw [dirStepModel, dirCall, bind_run e1]; rfl
        rw [e2]
        exact ⟨P ++ e :: Q, hd', List.perm_middle.trans (List.Perm.cons e hp), rfl⟩
  | remove n =>
    by_cases hlong : n.length > 255
    · have e1 : removeEntry C n s = .error (.vfs 36) := by rw [removeEntry, if_pos (show n.length > maxFilename from hlong)]; rfl
      have e2 : dirStepModel C s (.remove n) = (.fail (.vfs 36), s) := by rw [dirStepModel, dirCall, bind_err e1]
      rw [e2, dirStep, if_pos hlong]
      exact ⟨l, hd, hp, rfl⟩
    · rw [dirStep, if_neg hlong]
      have hr := removeEntry_run hC n (by simp only [maxFilename]; omega) hd
      have hfp := find_perm hC hd.1 hp n
      cases hf : l.find? (fun x => sameName C.cmp n x.name) with
      | none =>
        have hno : ∀ x ∈ l, C.cmp n x.name ≠ 0 := by
          intro x hx h0
          have := List.find?_eq_none.1 hf x hx
          simp [sameName, h0] at this
        obtain ⟨s', e1, hd'⟩ := hr.1 hno
        have e2 : dirStepModel C s (.remove n) = (.entry none, s') := by rw [dirStepModel, dirCall, bind_run e1]; rfl
        rw [e2, ← hfp, hf]
        refine ⟨l, hd', ?_, rfl⟩
        rw [List.filter_eq_self.2]
        · exact hp
        · intro x hx
          simpa [sameName] using hno x (hp.symm.subset hx)
      | some x =>
        have hx0 := List.find?_some hf
        simp only [sameName, beq_iff_eq] at hx0
        obtain ⟨s', P, Q, rfl, e1, hd'⟩ := hr.2 x (List.mem_of_find?_eq_some hf) hx0
        have e2 : dirStepModel C s (.remove n) = (.entry (some x), s') := by rw [dirStepModel, dirCall, bind_run e1]; rfl
        rw [e2, ← hfp, hf]
        refine ⟨P ++ Q, hd', ?_, rfl⟩
        have hother : ∀ y ∈ P ++ Q, (!sameName C.cmp n y.name) = true := by
          intro y hy
          simp only [sameName, Bool.not_eq_true', beq_eq_false_iff_ne]
          intro h0
          have hpw := List.pairwise_append.1 hd.1
          have hxy : C.cmp x.name y.name ≠ 0 := by
            rcases List.mem_append.1 hy with hy | hy
            · have h2 : C.cmp y.name x.name < 0 := hpw.2.2 y hy x (by simp)
              have := hC.lt_iff y.name x.name; omega
            · have h2 : C.cmp x.name y.name < 0 := (List.pairwise_cons.1 hpw.2.1).1 y hy
              omega
          apply hxy
          have a1 := hC.anti x.name n; have a2 := hC.anti n x.name
          have a3 := hC.anti n y.name; have a4 := hC.anti y.name n
          have b1 := hC.trans x.name n y.name (by omega) (by omega)
          have b2 := hC.trans y.name n x.name (by omega) (by omega)
          have := hC.anti x.name y.name; have := hC.anti y.name x.name; omega
        have hfil : (P ++ x :: Q).filter (fun y => !sameName C.cmp n y.name) = P ++ Q := by
          rw [List.filter_append, List.filter_cons_of_neg (by simp [sameName, hx0]), ← List.filter_append, List.filter_eq_self.2 hother]
        rw [← hfil]
        exact hp.filter _
  | get n =>
    by_cases hlong : n.length > 255
    · have e1 : getEntry C n s = .error (.vfs 36) := by rw [getEntry, if_pos (show n.length > maxFilename from hlong)]; rfl
      have e2 : dirStepModel C s (.get n) = (.fail (.vfs 36), s) := by rw [dirStepModel, dirCall, bind_err e1]
      rw [e2, dirStep, if_pos hlong]
      exact ⟨l, hd, hp, rfl⟩
    · rw [dirStep, if_neg hlong]
      obtain ⟨s', e1, hd'⟩ := getEntry_run hC n (by simp only [maxFilename]; omega) hd
      have e2 : dirStepModel C s (.get n) = (.entry (l.find? (fun x => C.cmp n x.name == 0)), s') := by rw [dirStepModel, dirCall, bind_run e1]; rfl
      rw [e2, ← find_perm hC hd.1 hp n]
      exact ⟨l, hd', hp, rfl⟩
  | list =>
    obtain ⟨s', L, e1, q1, hd'⟩ := iterate_run hd
    have e2 : dirStepModel C s .list = (.entries L, s') := by rw [dirStepModel, dirCall, bind_run e1]; rfl
    rw [e2]
    exact ⟨l, hd', hp, q1.trans hp⟩
  | empty =>
    obtain ⟨s', e1, hd'⟩ := dirEmpty_run hd
    have e2 : dirStepModel C s .empty = (.flag (l == []), s') := by rw [dirStepModel, dirCall, bind_run e1]; rfl
    rw [e2]
    refine ⟨l, hd', hp, ?_⟩
    show DirOut.flag (l == []) = DirOut.flag m.isEmpty
    cases l with
    | nil => rw [List.nil_perm] at hp; subst hp; rfl
    | cons a l =>
      cases m with
      | nil => simp at hlen
      | cons b m => rfl
  | flush =>
    obtain ⟨s', e1, hd', _⟩ := subflush_run hC hO hd (by omega)
    have e2 : dirStepModel C s .flush = (.done, s') := by rw [dirStepModel, dirCall, bind_run e1]; rfl
    rw [e2]
    exact ⟨l, hd', hp, rfl⟩
  | rebuild =>
    obtain ⟨s', e1, hd'⟩ := rebuild_run hC hd (by omega)
    have e2 : dirStepModel C s .rebuild = (.done, s') := by rw [dirStepModel, dirCall, bind_run e1]; rfl
    rw [e2]
    exact ⟨l, hd', hp, rfl⟩
  | reopen =>
    obtain ⟨s', e1, hd', _⟩ := reopen_run hC hO hd (by omega)
    have e2 : dirStepModel C s .reopen = (.done, s') := by rw [dirStepModel, dirCall, bind_run e1]; rfl
    rw [e2]
    exact ⟨l, hd', hp, rfl⟩

theorem dir_empty (C : BCfg) : Dir C emptyDir [] := dir_reset C emptyDir

theorem dirRun_run {C : BCfg} (hC : CmpOk C.cmp) (hO : OrderOk C) : ∀ (ops : List DirOp) (s : BSt) (l m : List DirEntry), Dir C s l → l.Perm m →
    (∀ op ∈ ops, op.Valid) → m.length ≤ dirCapacity → Fits (sameName C.cmp) m ops →
    ∃ l', Dir C (dirRunModel C s ops).2 l' ∧ l'.Perm (dirRun (sameName C.cmp) m ops).2 ∧
      List.Forall₂ DirOut.Agrees (dirRunModel C s ops).1 (dirRun (sameName C.cmp) m ops).1
  | [], s, l, m, hd, hp, _, _, _ => ⟨l, hd, hp, List.Forall₂.nil⟩
  | op :: ops, s, l, m, hd, hp, hv, hm, hfit => by
    obtain ⟨l1, hd1, hp1, ha1⟩ := dirStep_run hC hO hd hp op (hv op (by simp)) hm hfit.1
    obtain ⟨l2, hd2, hp2, ha2⟩ := dirRun_run hC hO ops _ l1 _ hd1 hp1 (fun o ho => hv o (by simp [ho])) hfit.1 hfit.2
    exact ⟨l2, hd2, hp2, List.Forall₂.cons ha1 ha2⟩

/-! ## The orders -/

theorem codePoint_pre : (∀ a b, codePointCompare a b ≤ 0 ↔ 0 ≤ codePointCompare b a) ∧
    ∀ a b c, codePointCompare a b ≤ 0 → codePointCompare b c ≤ 0 → codePointCompare a c ≤ 0 := by
  constructor
  · intro a
    induction a with
    | nil => intro b; cases b <;> simp [codePointCompare]
    | cons x a ih =>
      intro b
      cases b with
      | nil => simp [codePointCompare]
      | cons y b =>
        simp only [codePointCompare]
        rcases Nat.lt_trichotomy x y with h | h | h
        · rw [if_pos h, if_neg (by omega), if_pos h]; simp
        · subst h; simpa using ih b
        · rw [if_neg (by omega), if_pos h, if_pos h]; simp
  · intro a
    induction a with
    | nil => intro b c _ _; cases c <;> simp [codePointCompare]
    | cons x a ih =>
      intro b c
      cases b with
      | nil => intro h _; simp [codePointCompare] at h
      | cons y b =>
        cases c with
        | nil => intro _ h; simp [codePointCompare] at h
        | cons z c =>
          intro h1 h2
          simp only [codePointCompare] at h1 h2 ⊢
          by_cases a1 : x < y
          · by_cases a2 : y < z
            · rw [if_pos (by omega)]; omega
            · rw [if_neg a2] at h2
              by_cases a3 : z < y
              · rw [if_pos a3] at h2; omega
              · rw [if_pos (by omega)]; omega
          · rw [if_neg a1] at h1
            by_cases a4 : y < x
            · rw [if_pos a4] at h1; omega
            · rw [if_neg a4] at h1
              obtain rfl : x = y := by omega
              by_cases a2 : x < z
              · rw [if_pos a2]; omega
              · rw [if_neg a2] at h2 ⊢
                by_cases a3 : z < x
                · rw [if_pos a3] at h2; omega
                · rw [if_neg a3] at h2 ⊢
                  exact ih b c h1 h2

theorem binary_eq : ∀ a b : Bytes, binaryCompare a b = codePointCompare (a.map UInt8.toNat) (b.map UInt8.toNat)
  | [], [] => rfl
  | [], _ :: _ => rfl
  | _ :: _, [] => rfl
  | x :: a, y :: b => by
    simp only [binaryCompare, List.map_cons, codePointCompare, binary_eq a b, UInt8.lt_iff_toNat_lt]

theorem pre_key (f : Bytes → List Nat) {cmp : Bytes → Bytes → Int} (h : ∀ a b, cmp a b = codePointCompare (f a) (f b)) : TotalPreorder cmp :=
  ⟨fun a b => by rw [h, h]; exact codePoint_pre.1 _ _, fun a b c => by rw [h, h, h]; exact codePoint_pre.2 _ _ _⟩

theorem fits_last {same : Bytes → Bytes → Bool} : ∀ (ops : List DirOp) (m : List DirEntry), m.length ≤ dirCapacity → Fits same m ops →
    (dirRun same m ops).2.length ≤ dirCapacity
  | [], _, h, _ => h
  | _ :: ops, _, _, h => fits_last ops _ h.1 h.2

theorem dir_drop {C : BCfg} {s : BSt} {l : List DirEntry} (hd : Dir C s l) (hc : Clean s) : Dir C { s with cache := [] } l := by
  obtain ⟨hasc, hok, np, F, hcase⟩ := hd
  rcases hcase with ⟨hr, rfl, hcore⟩ | ⟨t, h, hr, rfl, hs, hcore⟩
  · exact ⟨hasc, hok, np, F, Or.inl ⟨hr, rfl, hcore.drop hc⟩⟩
  · exact ⟨hasc, hok, np, F, Or.inr ⟨t, h, hr, rfl, hs, hcore.drop hc⟩⟩

theorem page_fit (c e a b : Nat) (hc : c ≤ a) (he : e ≤ b) : 8 + 4 * c + 292 * e ≤ 8 + 4 * a + 292 * b := by omega

end Securefs
