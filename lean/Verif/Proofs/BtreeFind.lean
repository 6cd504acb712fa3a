import Verif.Proofs.BtreeInsert
/-! Helper lemmas: searching a B-tree directory, and adding to it. -/

namespace Securefs
open BT

/-- The shape a subtree must have in a hole. -/
def TopShape (K : List Frame) (h : Nat) (t : BT) : Prop := (K = [] → Shape (rootLo h) h t) ∧ (K ≠ [] → Shape 6 h t)

theorem TopShape.weak {K : List Frame} {h : Nat} {t : BT} (hs : TopShape K h t) : ∃ lo, Shape lo h t := by
  by_cases hK : K = []
  · exact ⟨_, hs.1 hK⟩
  · exact ⟨_, hs.2 hK⟩

theorem before_iff {C : BCfg} {name : Bytes} {x : DirEntry} : C.before name x = true ↔ C.cmp x.name name < 0 := by
  simp [BCfg.before]

/-- A sorted node splits at a name. -/
theorem split_at {C : BCfg} (hC : CmpOk C.cmp) (name : Bytes) : ∀ es : List DirEntry, Asc C es →
    ∃ A B, es = A ++ B ∧ (∀ x ∈ A, C.before name x = true) ∧ (∀ x ∈ B, C.before name x = false)
  | [], _ => ⟨[], [], rfl, by simp, by simp⟩
  | e :: es, h => by
    have h' := List.pairwise_cons.1 h
    by_cases hb : C.before name e = true
    · obtain ⟨A, B, rfl, h1, h2⟩ := split_at hC name es h'.2
      refine ⟨e :: A, B, rfl, ?_, h2⟩
      intro x hx
      rcases List.mem_cons.1 hx with rfl | hx
      · exact hb
      · exact h1 x hx
    · refine ⟨[], e :: es, rfl, by simp, ?_⟩
      intro x hx
      rcases List.mem_cons.1 hx with rfl | hx
      · simpa using hb
      · have h3 : C.cmp e.name x.name < 0 := h'.1 x hx
        simp only [BCfg.before, decide_eq_true_eq, decide_eq_false_iff_not] at hb ⊢
        intro h4
        exact hb (hC.lt_trans h3 h4)

theorem preS_last (A : List DirEntry) (a : DirEntry) (fs : List (List DirEntry)) (h : fs.length = (A ++ [a]).length) :
    ∃ P, preS (A ++ [a]) fs = P ++ [a] := by
  obtain ⟨fL, g, rfl⟩ : ∃ fL g, fs = fL ++ [g] := by
    refine ⟨fs.dropLast, fs.getLast (by intro h0; simp [h0] at h), ?_⟩
    rw [List.dropLast_concat_getLast]
  rw [preS_append A fL [a] [g] (by simpa using h)]
  exact ⟨preS A fL ++ g, by simp [preS]⟩

theorem preS_lt {C : BCfg} (hC : CmpOk C.cmp) (name : Bytes) (A : List DirEntry) (fs : List (List DirEntry)) (hl : fs.length = A.length)
    (hA : ∀ x ∈ A, C.cmp x.name name < 0) (hs : Asc C (preS A fs)) : ∀ x ∈ preS A fs, C.cmp x.name name < 0 := by
  rcases List.eq_nil_or_concat A with rfl | ⟨A', a, rfl⟩
  · simp [preS]
  · simp only [List.concat_eq_append] at *
    obtain ⟨P, hP⟩ := preS_last A' a fs hl
    rw [hP] at hs ⊢
    have ha := hA a (by simp)
    intro x hx
    rcases List.mem_append.1 hx with hx | hx
    · have := (List.pairwise_append.1 hs).2.2 x hx a (by simp)
      exact hC.lt_trans this ha
    · simp at hx; rw [hx]; exact ha

theorem postS_gt {C : BCfg} (hC : CmpOk C.cmp) (name : Bytes) (B : List DirEntry) (fs : List (List DirEntry)) (hl : fs.length = B.length)
    (hB : ∀ x ∈ B, C.cmp name x.name < 0) (hs : Asc C (postS B fs)) : ∀ x ∈ postS B fs, C.cmp name x.name < 0 := by
  cases B with
  | nil => cases fs <;> simp [postS]
  | cons b B =>
    cases fs with
    | nil => simp at hl
    | cons g fs =>
      rw [postS] at hs ⊢
      have hb := hB b (by simp)
      intro x hx
      rcases List.mem_cons.1 hx with rfl | hx
      · exact hb
      · exact hC.lt_trans hb ((List.pairwise_cons.1 hs).1 x hx)

theorem nodes_mem_top (par : Nat) (t : BT) : ∃ r ∈ nodes par t, r.page = t.page ∧ r.par = par := by
  cases t with
  | node p es cs => exact ⟨_, by rw [nodes_node]; exact Multiset.mem_cons_self _ _, rfl, rfl⟩

theorem mem_plug {K : List Frame} {t : BT} {r : Rec} (h : r ∈ nodes (parOf K) t) : r ∈ nodes invalidPage (plug K t) := by
  rw [nodes_plug]; exact Multiset.mem_add.2 (Or.inr h)

theorem asc_gt {C : BCfg} (hC : CmpOk C.cmp) {name : Bytes} {B : List DirEntry} (hs : Asc C B) (hb : ∀ x ∈ B, C.before name x = false)
    (hhit : ∀ b, B.head? = some b → C.cmp name b.name ≠ 0) : ∀ x ∈ B, C.cmp name x.name < 0 := by
  cases B with
  | nil => simp
  | cons b B =>
    have h1 := hhit b rfl
    have h2 := hb b (by simp)
    simp only [BCfg.before, decide_eq_false_iff_not] at h2
    have h3 : C.cmp name b.name < 0 := by
      have := hC.anti name b.name; omega
    intro x hx
    rcases List.mem_cons.1 hx with rfl | hx
    · exact h3
    · exact hC.lt_trans h3 ((List.pairwise_cons.1 hs).1 x hx)

theorem find_run (C : BCfg) (hC : CmpOk C.cmp) (name : Bytes) : ∀ (h : Nat) (t : BT) (K : List Frame) (fuel : Nat) (s : BSt) (np : Nat)
    (F : List Nat), h < fuel → TopShape K h t → KOk h K → Core s np (nodes invalidPage (plug K t)) F → InC s t.page →
    (∀ f ∈ K, InC s f.p) → Asc C (flat t) → (∀ x ∈ Lk K, C.cmp x.name name < 0) → (∀ x ∈ Rk K, C.cmp name x.name < 0) →
    ∃ s' K' h' p es cs i found, findLoop C name fuel t.page s = .ok ((p, i, found), s') ∧
      Core s' np (nodes invalidPage (plug K t)) F ∧ Keep s s' ∧ plug K t = plug K' (.node p es cs) ∧ KOk h' K' ∧
      TopShape K' h' (.node p es cs) ∧ InC s' p ∧ (∀ f ∈ K', InC s' f.p) ∧ h' + K'.length = h + K.length ∧
      (found = true → ∃ e1 e e2, es = e1 ++ e :: e2 ∧ i = e1.length ∧ C.cmp name e.name = 0) ∧
      (found = false → h' = 0 ∧ cs = [] ∧ ∃ e1 e2, es = e1 ++ e2 ∧ i = e1.length ∧
        (∀ x ∈ Lk K' ++ e1, C.cmp x.name name < 0) ∧ (∀ x ∈ e2 ++ Rk K', C.cmp name x.name < 0)) := by
  intro h
  induction h with
  | zero =>
    intro t K fuel s np F hf hsh hK hcore hp hKc hasc hL hR
    obtain ⟨p, es, cs⟩ := t
    obtain ⟨fuel, rfl⟩ : ∃ n, fuel = n + 1 := ⟨fuel - 1, by omega⟩
    obtain ⟨lo, hlo⟩ := hsh.weak
    obtain ⟨rfl, _, _⟩ := hlo
    obtain ⟨d, _, hde⟩ := hcore.deref (r := ⟨parOf K, p, [], es⟩) (mem_plug (by rw [nodes_node]; exact Multiset.mem_cons_self _ _)) hp
    have hes : Asc C es := by simpa [flat_node, weave] using hasc
    obtain ⟨A, B, rfl, hA, hB⟩ := split_at hC name es hes
    have hlb := lowerBound_eq _ A B hA hB
    rw [show page (.node p (A ++ B) []) = p from rfl, findLoop, bind_run hde]
    dsimp only
    rw [hlb]
    by_cases hhit : C.hit name (A ++ B) A.length = true
    · rw [if_pos hhit]
      cases B with
      | nil => simp [BCfg.hit] at hhit
      | cons b B =>
        simp [BCfg.hit] at hhit
        exact ⟨s, K, 0, p, A ++ b :: B, [], A.length, true, rfl, hcore, Keep.refl s, rfl, hK, hsh, hp, hKc, rfl,
          fun _ => ⟨A, b, B, rfl, rfl, hhit⟩, by simp⟩
    · rw [if_neg hhit, bind_run (isLeaf_true rfl s), if_pos rfl]
      refine ⟨s, K, 0, p, A ++ B, [], A.length, false, rfl, hcore, Keep.refl s, rfl, hK, hsh, hp, hKc, rfl, by simp,
        fun _ => ⟨rfl, rfl, A, B, rfl, rfl, ?_, ?_⟩⟩
      · intro x hx
        rcases List.mem_append.1 hx with hx | hx
        · exact hL x hx
        · exact before_iff.1 (hA x hx)
      · intro x hx
        rcases List.mem_append.1 hx with hx | hx
        · refine asc_gt hC (List.pairwise_append.1 hes).2.1 hB ?_ x hx
          intro b hb h0
          apply hhit
          cases B with
          | nil => cases hb
          | cons b' B => cases hb; simp [BCfg.hit, h0]
        · exact hR x hx
  | succ h ih =>
    intro t K fuel s np F hf hsh hK hcore hp hKc hasc hL hR
    obtain ⟨p, es, cs⟩ := t
    obtain ⟨fuel, rfl⟩ : ∃ n, fuel = n + 1 := ⟨fuel - 1, by omega⟩
    obtain ⟨lo, hlo⟩ := hsh.weak
    obtain ⟨hl1, _, hl3, hl4⟩ := hlo
    obtain ⟨d, _, hde⟩ := hcore.deref (r := ⟨parOf K, p, cs.map page, es⟩) (mem_plug (by rw [nodes_node]; exact Multiset.mem_cons_self _ _)) hp
    have hes : Asc C es := by
      rw [flat_node] at hasc
      exact List.Pairwise.sublist (sublist_weave es _ (Or.inr (by simp; omega))) hasc
    obtain ⟨A, B, rfl, hA, hB⟩ := split_at hC name es hes
    have hlb := lowerBound_eq _ A B hA hB
    rw [show page (.node p (A ++ B) cs) = p from rfl, findLoop, bind_run hde]
    dsimp only
    rw [hlb]
    by_cases hhit : C.hit name (A ++ B) A.length = true
    · rw [if_pos hhit]
      cases B with
      | nil => simp [BCfg.hit] at hhit
      | cons b B =>
        simp [BCfg.hit] at hhit
        exact ⟨s, K, h + 1, p, A ++ b :: B, cs, A.length, true, rfl, hcore, Keep.refl s, rfl, hK, hsh, hp, hKc, rfl,
          fun _ => ⟨A, b, B, rfl, rfl, hhit⟩, by simp⟩
    · have hlen : (cs.map page).length = (A ++ B).length + 1 := by simpa using hl1
      rw [if_neg hhit, bind_run (isLeaf_false hlen s), if_neg (by simp)]
      simp only [List.length_append] at hl1 hl3
      obtain ⟨cL, c, cR, rfl, hcL⟩ : ∃ cL c cR, cs = cL ++ c :: cR ∧ cL.length = A.length := by
        refine ⟨cs.take A.length, cs[A.length]'(by omega), cs.drop (A.length + 1), ?_, by simp; omega⟩
        rw [List.getElem_cons_drop, List.take_append_drop]
      have hcR : cR.length = B.length := by simp at hl1; omega
      have hget : ((cL ++ c :: cR).map page)[A.length]? = some c.page := by
        rw [List.map_append, List.getElem?_append_right (by simp; omega)]; simp [hcL]
      rw [hget]
      dsimp only
      let f : Frame := ⟨p, A, B, cL, cR⟩
      have hplug : plug K (.node p (A ++ B) (cL ++ c :: cR)) = plug (f :: K) c := rfl
      have hBgt : ∀ x ∈ B, C.cmp name x.name < 0 := by
        refine asc_gt hC (List.pairwise_append.1 hes).2.1 hB ?_
        intro b hb h0
        apply hhit
        cases B with
        | nil => cases hb
        | cons b' B => cases hb; simp [BCfg.hit, h0]
      rw [flat_node, flats_append, flats_cons, weave_hole _ _ _ _ _ (by simpa using hcL) (by simpa using hcR)] at hasc
      have ha1 := List.pairwise_append.1 hasc
      have ha2 := List.pairwise_append.1 ha1.1
      rw [hplug] at hcore ⊢
      obtain ⟨r, hr, hr1, hr2⟩ := nodes_mem_top p c
      have hr3 : r ∈ nodes invalidPage (plug (f :: K) c) := mem_plug hr
      obtain ⟨s1, e1, g1, k1, i1, _⟩ := hcore.retrieve hr3
      rw [hr1] at i1
      rw [hr1, hr2] at e1
      have hcS : Shape 6 h c := hl4 c (by simp)
      have hKf : KOk h (f :: K) := by
        refine ⟨hcL, hcR, ?_, ?_, hl3, fun x hx => hl4 x (List.mem_append_left _ hx),
          fun x hx => hl4 x (List.mem_append_right _ (List.mem_cons_of_mem _ hx)), hK⟩
        · intro hn
          have := (hsh.1 hn).2.1
          simp only [rootLo, List.length_append] at this
          show 1 ≤ A.length + B.length
          omega
        · intro hn
          have := (hsh.2 hn).2.1
          simp only [List.length_append] at this
          exact this
      obtain ⟨s', K', h', p', es', cs', i, found, w1, w2, w3, w4, w5, w6, w7, w8, w9, w10, w11⟩ := ih c (f :: K) fuel s1 np F (by omega)
        ⟨fun h0 => (by cases h0), fun _ => hcS⟩
        hKf
        g1 i1 (by
          intro g hg
          rcases List.mem_cons.1 hg with rfl | hg
          · exact k1.2 _ hp
          · exact k1.2 _ (hKc g hg)) ha2.2.1
        (by
          intro x hx
          rw [Lk] at hx
          rcases List.mem_append.1 hx with hx | hx
          · exact hL x hx
          · exact preS_lt hC name A _ (by simpa using hcL) (fun y hy => before_iff.1 (hA y hy)) ha2.1 x hx)
        (by
          intro x hx
          rw [Rk] at hx
          rcases List.mem_append.1 hx with hx | hx
          · exact postS_gt hC name B _ (by simpa using hcR) hBgt ha1.2.1 x hx
          · exact hR x hx)
      refine ⟨s', K', h', p', es', cs', i, found, ?_, w2, k1.trans w3, w4, w5, w6, w7, w8, ?_, w10, w11⟩
      · rw [bind_run e1, w1]
      · rw [w9, List.length_cons]; omega

/-! ## The directory as a whole -/

/-- The state `s` holds the entries `l`, in ascending order. -/
def Dir (C : BCfg) (s : BSt) (l : List DirEntry) : Prop :=
  Asc C l ∧ (∀ e ∈ l, EntryOk e) ∧ ∃ np F,
    ((s.root = invalidPage ∧ l = [] ∧ Core s np 0 F) ∨
      ∃ t h, s.root = t.page ∧ flat t = l ∧ Shape (rootLo h) h t ∧ Core s np (nodes invalidPage t) F)

theorem root_run {s : BSt} {np : Nat} {t : BT} {F : List Nat} (hr : s.root = t.page) (h : Core s np (nodes invalidPage t) F) :
    ∃ s', getRootNode s = .ok (some t.page, s') ∧ Core s' np (nodes invalidPage t) F ∧ Keep s s' ∧ InC s' t.page := by
  obtain ⟨r, hr1, hr2, hr3⟩ := nodes_mem_top invalidPage t
  obtain ⟨s1, e1, g1, k1, i1, _⟩ := h.retrieve hr1
  rw [hr2, hr3] at e1
  rw [hr2] at i1
  refine ⟨s1, ?_, g1, k1, i1⟩
  have hne : s.root ≠ invalidPage := by rw [hr, ← hr2]; exact ne_invalid h.npLe (h.lt hr1)
  rw [getRootNode, bind_run (getSt_run s), if_neg hne, hr, bind_run e1]
  rfl

theorem noroot_run {s : BSt} (hr : s.root = invalidPage) : getRootNode s = .ok (none, s) := by
  rw [getRootNode, bind_run (getSt_run s), if_pos hr]; rfl

/-- `find_node` in a directory with a root. -/
theorem findNode_run {C : BCfg} (hC : CmpOk C.cmp) (name : Bytes) {s : BSt} {np h : Nat} {t : BT} {F : List Nat} (hr : s.root = t.page)
    (hs : Shape (rootLo h) h t) (hasc : Asc C (flat t)) (hcore : Core s np (nodes invalidPage t) F) :
    ∃ s' K h' p es cs i found, findNode C name s = .ok (some (p, i, found), s') ∧
      Core s' np (nodes invalidPage t) F ∧ Keep s s' ∧ t = plug K (.node p es cs) ∧ KOk h' K ∧
      TopShape K h' (.node p es cs) ∧ InC s' p ∧ (∀ f ∈ K, InC s' f.p) ∧ h' + K.length = h ∧
      (found = true → ∃ e1 e e2, es = e1 ++ e :: e2 ∧ i = e1.length ∧ C.cmp name e.name = 0) ∧
      (found = false → h' = 0 ∧ cs = [] ∧ ∃ e1 e2, es = e1 ++ e2 ∧ i = e1.length ∧
        (∀ x ∈ Lk K ++ e1, C.cmp x.name name < 0) ∧ (∀ x ∈ e2 ++ Rk K, C.cmp name x.name < 0)) := by
  obtain ⟨s1, e1, g1, k1, i1⟩ := root_run hr hcore
  have hh := hcore.height hs
  obtain ⟨s2, K', h', p, es, cs, i, found, w1, w2, w3, w4, w5, w6, w7, w8, w9, w10, w11⟩ :=
    find_run C hC name h t [] btMaxDepth s1 np F (by simp only [btMaxDepth]; omega) ⟨fun _ => hs, by simp⟩ trivial g1 i1 (by simp) hasc
      (by simp [Lk]) (by simp [Rk])
  refine ⟨s2, K', h', p, es, cs, i, found, ?_, w2, k1.trans w3, w4, w5, w6, w7, w8, by simpa using w9, w10, w11⟩
  rw [findNode, bind_run e1]
  dsimp only
  rw [bind_run w1]
  rfl

theorem asc_insert {C : BCfg} {P Q : List DirEntry} {e : DirEntry} (h : Asc C (P ++ Q)) (hP : ∀ x ∈ P, Lt C x e) (hQ : ∀ x ∈ Q, Lt C e x) :
    Asc C (P ++ e :: Q) := by
  have h' := List.pairwise_append.1 h
  refine List.pairwise_append.2 ⟨h'.1, List.pairwise_cons.2 ⟨hQ, h'.2.1⟩, ?_⟩
  intro x hx y hy
  rcases List.mem_cons.1 hy with rfl | hy
  · exact hP x hx
  · exact h'.2.2 x hx y hy

/-- At most one entry of a sorted list has a given name. -/
theorem asc_unique {C : BCfg} (hC : CmpOk C.cmp) {l : List DirEntry} (h : Asc C l) {x y : DirEntry} (hx : x ∈ l) (hy : y ∈ l)
    (he : C.cmp x.name y.name = 0) : x = y := by
  induction l with
  | nil => simp at hx
  | cons a l ih =>
    have h' := List.pairwise_cons.1 h
    have hsym := hC.eq_comm x.name y.name
    rcases List.mem_cons.1 hx with hxa | hxl <;> rcases List.mem_cons.1 hy with hya | hyl
    · rw [hxa, hya]
    · have : C.cmp a.name y.name < 0 := h'.1 y hyl
      rw [← hxa] at this
      omega
    · have : C.cmp a.name x.name < 0 := h'.1 x hxl
      rw [← hya] at this
      omega
    · exact ih h'.2 hxl hyl

theorem mem_flat_node {p : Nat} {es : List DirEntry} {cs : List BT} {K : List Frame} {h : Nat} (hK : KOk h K)
    (hs : TopShape K h (.node p es cs)) {x : DirEntry} (hx : x ∈ es) : x ∈ flat (plug K (.node p es cs)) := by
  rw [flat_plug h K _ hK, flat_node]
  obtain ⟨lo, hlo⟩ := hs.weak
  have : x ∈ weave es (flats cs) := by
    refine (sublist_weave es (flats cs) ?_).subset hx
    cases h with
    | zero => left; rw [hlo.1]; simp
    | succ h => right; have := hlo.1; simp; omega
  simp [this]

/-- Adding an entry. -/
theorem addEntry_run {C : BCfg} (hC : CmpOk C.cmp) (e : DirEntry) (he : EntryOk e) {s : BSt} {l : List DirEntry} (hd : Dir C s l)
    (hmax : l.length < maxDirEntries) :
    ((∃ x ∈ l, C.cmp e.name x.name = 0) → ∃ s', addEntry C e s = .ok (false, s') ∧ Dir C s' l) ∧
    ((∀ x ∈ l, C.cmp e.name x.name ≠ 0) → ∃ s' P Q, l = P ++ Q ∧ addEntry C e s = .ok (true, s') ∧ Dir C s' (P ++ e :: Q)) := by
  obtain ⟨hasc, hok, np, F, hcase⟩ := hd
  have hnl : ¬ e.name.length > maxFilename := by have := he.1; omega
  rcases hcase with ⟨hr, rfl, hcore⟩ | ⟨t, h, hr, rfl, hs, hcore⟩
  · refine ⟨by simp, fun _ => ?_⟩
    have hroom : F = [] → np < 2 ^ 20 := by
      rintro rfl
      have := hcore.pages_le 0 (by simp)
      simp at this; omega
    obtain ⟨a, s1, np', F', e1, h1, c1, r1⟩ := hcore.alloc hroom
    have h2 := (h1 invalidPage).setRoot a
    obtain ⟨s3, e3, g3, k3, i3⟩ := root_run (t := .node a [] []) (s := { s1 with root := a }) rfl
      (h2.cast (by rw [nodes_node]; simp))
    obtain ⟨d, _, hde⟩ := g3.deref (r := ⟨invalidPage, a, [], []⟩) (by rw [nodes_node]; simp) i3
    obtain ⟨s4, e4, g4, k4⟩ := Core.setEntries (a := invalidPage) (p := a) (cs := []) (es := []) (R := 0) (g3.cast (by rw [nodes_node]; simp)) i3 [e]
    refine ⟨s4, [], [], rfl, ?_, ?_⟩
    · rw [addEntry, if_neg hnl, bind_run (show findNode C e.name s = .ok (none, s) by rw [findNode, bind_run (noroot_run hr)]; rfl)]
      dsimp only
      rw [addFirst]
      rw [bind_run (s' := s4) (a := ()) (by
        rw [bind_run e1, bind_run (setRoot_run (Nat.lt_of_lt_of_le ((h1 invalidPage).lt (Multiset.mem_cons_self _ _)) (Nat.le_trans (h1 invalidPage).npLe (by norm_num))) s1), bind_run e3]
        dsimp only
        rw [bind_run (show deref (page (.node a [] [])) s3 = _ from hde)]
        exact e4)]
      rfl
    · refine ⟨List.pairwise_singleton _ _, by intro x hx; simp at hx; rw [hx]; exact he, np', F', Or.inr ⟨.node a [e] [], 0, ?_, ?_, ?_, ?_⟩⟩
      · rw [k4.1, k3.1]; rfl
      · rw [flat_node]; simp [weave]
      · exact ⟨rfl, by simp [rootLo], by simp⟩
      · exact g4.cast (by rw [nodes_node]; simp)
  · obtain ⟨s1, K, h', p, es, cs, i, found, w1, w2, w3, w4, w5, w6, w7, w8, w9, w10, w11⟩ := findNode_run hC e.name hr hs hasc hcore
    cases found with
    | true =>
      obtain ⟨e1, x, e2, he1, _, hx⟩ := w10 rfl
      have hxm : x ∈ flat t := by rw [w4]; exact mem_flat_node w5 w6 (by rw [he1]; simp)
      refine ⟨fun _ => ⟨s1, ?_, hasc, hok, np, F, Or.inr ⟨t, h, by rw [w3.1, hr], rfl, hs, w2⟩⟩, fun hno => absurd hx (hno x hxm)⟩
      rw [addEntry, if_neg hnl, bind_run w1]
      rfl
    | false =>
      obtain ⟨rfl, rfl, e1, e2, rfl, rfl, hlt, hgt⟩ := w11 rfl
      have hflat : flat t = (Lk K ++ e1) ++ (e2 ++ Rk K) := by
        rw [w4, flat_plug 0 K _ w5, flat_node]; simp [weave]
      constructor
      · rintro ⟨x, hx, hx0⟩
        exfalso
        rw [hflat] at hx
        have hsym := hC.eq_comm e.name x.name
        rcases List.mem_append.1 hx with hx | hx
        · have := hlt x hx; omega
        · have := hgt x hx; omega
      · intro _
        have hseq : Lk K ++ weave (e1 ++ e :: e2) (flats ([] ++ [] ++ [])) ++ Rk K = (Lk K ++ e1) ++ e :: (e2 ++ Rk K) := by
          simp [weave]
        have hnew : Asc C ((Lk K ++ e1) ++ e :: (e2 ++ Rk K)) := asc_insert (hflat ▸ hasc) hlt hgt
        have hhk : K.length ≤ 20 := by have := hcore.height hs; omega
        obtain ⟨lo, hlo⟩ := w6.weak
        obtain ⟨s2, np', F', t', h2, r2, g2, q2, v2, u2⟩ := insert_run C hC K btMaxDepth 0 p e1 e2 e [] [] [] s1 np F
          (by simp only [btMaxDepth]; omega) w5 (Or.inl ⟨rfl, rfl, rfl, rfl⟩) hlo.2.2 (fun hn => (w6.2 hn).2.1)
          (w2.cast (by rw [w4, nodes_plug, nodes_node, show page (.node p (e1 ++ e2) []) = p from rfl]; simp only [List.append_nil, nodesL_nil, List.map_nil]; ms))
          w7 w8 (by rw [w3.1, hr, w4, page_plug]; rfl)
          (by rw [hseq]; exact hnew)
          (by rw [hseq]; rw [hflat] at hmax; simp only [List.length_append, List.length_cons] at hmax ⊢; omega)
        refine ⟨s2, Lk K ++ e1, e2 ++ Rk K, hflat, ?_, hnew, ?_, np', F', Or.inr ⟨t', h2, q2, by rw [u2, hseq], v2, g2⟩⟩
        · rw [addEntry, if_neg hnl, bind_run w1]
          dsimp only
          rw [if_neg (by simp), bind_run (show insertBalance C btMaxDepth p e invalidPage s1 = .ok ((), s2) from r2)]
          rfl
        · intro x hx
          rw [List.mem_append, List.mem_cons] at hx
          rcases hx with hx | rfl | hx
          · exact hok x (by rw [hflat]; exact List.mem_append_left _ hx)
          · exact he
          · exact hok x (by rw [hflat]; exact List.mem_append_right _ hx)

/-- Looking an entry up. -/
theorem getEntry_run {C : BCfg} (hC : CmpOk C.cmp) (name : Bytes) (hn : name.length ≤ maxFilename) {s : BSt} {l : List DirEntry} (hd : Dir C s l) :
    ∃ s', getEntry C name s = .ok (l.find? (fun x => C.cmp name x.name == 0), s') ∧ Dir C s' l := by
  obtain ⟨hasc, hok, np, F, hcase⟩ := hd
  have hnl : ¬ name.length > maxFilename := by omega
  rcases hcase with ⟨hr, rfl, hcore⟩ | ⟨t, h, hr, rfl, hs, hcore⟩
  · refine ⟨s, ?_, hasc, hok, np, F, Or.inl ⟨hr, rfl, hcore⟩⟩
    rw [getEntry, if_neg hnl, bind_run (show findNode C name s = .ok (none, s) by rw [findNode, bind_run (noroot_run hr)]; rfl)]
    rfl
  · obtain ⟨s1, K, h', p, es, cs, i, found, w1, w2, w3, w4, w5, w6, w7, w8, w9, w10, w11⟩ := findNode_run hC name hr hs hasc hcore
    have hD : Dir C s1 (flat t) := ⟨hasc, hok, np, F, Or.inr ⟨t, h, by rw [w3.1, hr], rfl, hs, w2⟩⟩
    refine ⟨s1, ?_, hD⟩
    cases found with
    | true =>
      obtain ⟨e1, x, e2, rfl, rfl, hx⟩ := w10 rfl
      have hxm : x ∈ flat t := by rw [w4]; exact mem_flat_node w5 w6 (by simp)
      have hfind : (flat t).find? (fun x => C.cmp name x.name == 0) = some x := by
        cases hf : (flat t).find? (fun x => C.cmp name x.name == 0) with
        | none =>
          have := List.find?_eq_none.1 hf x hxm
          simp [hx] at this
        | some y =>
          have hy := List.find?_some hf
          simp only [beq_iff_eq] at hy
          have hym := List.mem_of_find?_eq_some hf
          have hyx : C.cmp y.name x.name = 0 := by
            have a1 := hC.anti y.name name; have a2 := hC.anti name y.name
            have a3 := hC.anti name x.name; have a4 := hC.anti x.name name
            have b1 := hC.trans y.name name x.name (by omega) (by omega)
            have b2 := hC.trans x.name name y.name (by omega) (by omega)
            have := hC.anti y.name x.name; have := hC.anti x.name y.name; omega
          rw [asc_unique hC hasc hym hxm hyx]
      obtain ⟨d, _, hde⟩ := w2.deref (r := ⟨parOf K, p, cs.map page, e1 ++ x :: e2⟩)
        (by rw [w4]; exact mem_plug (by rw [nodes_node]; exact Multiset.mem_cons_self _ _)) w7
      rw [getEntry, if_neg hnl, bind_run w1]
      dsimp only
      rw [entryAt, bind_run hde]
      dsimp only
      rw [show (e1 ++ x :: e2)[e1.length]? = some x by simp, hfind]
      dsimp only
      rw [hx]; rfl
    | false =>
      obtain ⟨rfl, rfl, e1, e2, rfl, rfl, hlt, hgt⟩ := w11 rfl
      have hflat : flat t = (Lk K ++ e1) ++ (e2 ++ Rk K) := by
        rw [w4, flat_plug 0 K _ w5, flat_node]; simp [weave]
      have hfind : (flat t).find? (fun x => C.cmp name x.name == 0) = none := by
        rw [List.find?_eq_none]
        intro x hx
        rw [hflat] at hx
        have hsym := hC.eq_comm name x.name
        simp only [beq_iff_eq]
        rcases List.mem_append.1 hx with hx | hx
        · have := hlt x hx; omega
        · have := hgt x hx; omega
      rw [getEntry, if_neg hnl, bind_run w1, hfind]
      rfl

end Securefs
