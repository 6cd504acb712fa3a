import Verif.Proofs.BtreeHeap
import Mathlib.Tactic.Abel
import Mathlib.Algebra.Group.Action.Defs
import Mathlib.Algebra.BigOperators.Group.Multiset.Basic
import Mathlib.Algebra.Order.BigOperators.Group.Multiset
/-! Helper lemmas: the tree behind the records of a B-tree directory. -/

namespace Securefs

/-- Multiset rearrangement. -/
macro "ms" : tactic => `(tactic| (simp only [← Multiset.singleton_add, zero_add, add_zero] <;> try abel))

/-- The tree that the pages form. -/
inductive BT where
  | node (p : Nat) (es : List DirEntry) (cs : List BT)

namespace BT

def page : BT → Nat
  | node p _ _ => p

mutual
/-- The records of a tree whose parent page is `par`. -/
def nodes (par : Nat) : BT → Multiset Rec
  | node p es cs => ⟨par, p, cs.map page, es⟩ ::ₘ nodesL p cs
/-- The records of a list of trees with the same parent page. -/
def nodesL (p : Nat) : List BT → Multiset Rec
  | [] => 0
  | c :: cs => nodes p c + nodesL p cs
end

end BT

/-- The entries of a node between those of its children. -/
def weave : List DirEntry → List (List DirEntry) → List DirEntry
  | es, [] => es
  | [], f :: _ => f
  | e :: es, f :: fs => f ++ e :: weave es fs

/-- The part of `weave` left of a child. -/
def preS : List DirEntry → List (List DirEntry) → List DirEntry
  | e :: es, f :: fs => f ++ e :: preS es fs
  | _, _ => []

/-- The part of `weave` right of a child. -/
def postS : List DirEntry → List (List DirEntry) → List DirEntry
  | e :: es, f :: fs => e :: (f ++ postS es fs)
  | _, _ => []

namespace BT

mutual
/-- All entries, in order. -/
def flat : BT → List DirEntry
  | node _ es cs => weave es (flats cs)
def flats : List BT → List (List DirEntry)
  | [] => []
  | c :: cs => flat c :: flats cs
end

theorem nodes_node (par p : Nat) (es : List DirEntry) (cs : List BT) :
    nodes par (node p es cs) = ⟨par, p, cs.map page, es⟩ ::ₘ nodesL p cs := by rw [nodes]

@[simp] theorem nodesL_nil (p : Nat) : nodesL p [] = 0 := by rw [nodesL]

theorem nodesL_cons (p : Nat) (c : BT) (cs : List BT) : nodesL p (c :: cs) = nodes p c + nodesL p cs := by rw [nodesL]

theorem nodesL_append (p : Nat) : ∀ a b : List BT, nodesL p (a ++ b) = nodesL p a + nodesL p b
  | [], b => by simp
  | c :: a, b => by rw [List.cons_append, nodesL_cons, nodesL_cons, nodesL_append p a b, add_assoc]

theorem flat_node (p : Nat) (es : List DirEntry) (cs : List BT) : flat (node p es cs) = weave es (flats cs) := by rw [flat]

@[simp] theorem flats_nil : flats [] = [] := by rw [flats]

theorem flats_cons (c : BT) (cs : List BT) : flats (c :: cs) = flat c :: flats cs := by rw [flats]

theorem flats_eq : ∀ cs : List BT, flats cs = cs.map flat
  | [] => by simp
  | c :: cs => by rw [flats_cons, flats_eq cs, List.map_cons]

theorem flats_append (a b : List BT) : flats (a ++ b) = flats a ++ flats b := by simp [flats_eq]

@[simp] theorem flats_length (a : List BT) : (flats a).length = a.length := by simp [flats_eq]

/-- Every node below the top has 6 to 13 entries, the top one `lo` to 13; all leaves are at depth `h`. -/
def Shape (lo : Nat) : Nat → BT → Prop
  | 0, node _ es cs => cs = [] ∧ lo ≤ es.length ∧ es.length ≤ 13
  | h + 1, node _ es cs => cs.length = es.length + 1 ∧ lo ≤ es.length ∧ es.length ≤ 13 ∧ ∀ c ∈ cs, Shape 6 h c

end BT

open BT

/-! ## `weave` -/

theorem weave_split : ∀ (eL : List DirEntry) (fL : List (List DirEntry)) (eR : List DirEntry) (f : List DirEntry)
    (fR : List (List DirEntry)), fL.length = eL.length →
    weave (eL ++ eR) (fL ++ f :: fR) = preS eL fL ++ weave eR (f :: fR)
  | [], [], _, _, _, _ => by simp [preS]
  | e :: eL, g :: fL, eR, f, fR, h => by
    simp only [List.cons_append, weave, preS]
    rw [weave_split eL fL eR f fR (by simpa using h)]
    simp
  | [], _ :: _, _, _, _, h => by simp at h
  | _ :: _, [], _, _, _, h => by simp at h

theorem weave_cons : ∀ (eR : List DirEntry) (f : List DirEntry) (fR : List (List DirEntry)), fR.length = eR.length →
    weave eR (f :: fR) = f ++ postS eR fR
  | [], f, [], _ => by simp [weave, postS]
  | e :: eR, f, g :: fR, h => by
    rw [weave, weave_cons eR g fR (by simpa using h), postS]
  | [], _, _ :: _, h => by simp at h
  | _ :: _, _, [], h => by simp at h

theorem weave_hole (eL eR : List DirEntry) (fL fR : List (List DirEntry)) (f : List DirEntry) (h1 : fL.length = eL.length)
    (h2 : fR.length = eR.length) : weave (eL ++ eR) (fL ++ f :: fR) = preS eL fL ++ f ++ postS eR fR := by
  rw [weave_split eL fL eR f fR h1, weave_cons eR f fR h2, List.append_assoc]

theorem preS_append : ∀ (a : List DirEntry) (fa : List (List DirEntry)) (b : List DirEntry) (fb : List (List DirEntry)),
    fa.length = a.length → preS (a ++ b) (fa ++ fb) = preS a fa ++ preS b fb
  | [], [], _, _, _ => by simp [preS]
  | e :: a, g :: fa, b, fb, h => by
    simp only [List.cons_append, preS]
    rw [preS_append a fa b fb (by simpa using h)]; simp
  | [], _ :: _, _, _, h => by simp at h
  | _ :: _, [], _, _, h => by simp at h

/-- Cutting a node at entry `m`. -/
theorem weave_cut (A B : List DirEntry) (m : DirEntry) (fA fB : List (List DirEntry))
    (h : fA = [] ∧ fB = [] ∨ fA.length = A.length + 1 ∧ fB.length = B.length + 1) :
    weave (A ++ m :: B) (fA ++ fB) = weave A fA ++ m :: weave B fB := by
  rcases h with ⟨rfl, rfl⟩ | ⟨h1, h2⟩
  · simp [weave]
  · obtain ⟨fL, g, rfl⟩ : ∃ fL g, fA = fL ++ [g] := by
      refine ⟨fA.dropLast, fA.getLast (by intro h; simp [h] at h1), ?_⟩
      rw [List.dropLast_concat_getLast]
    obtain ⟨f, fR, rfl⟩ : ∃ f fR, fB = f :: fR := by
      cases fB with
      | nil => simp at h2
      | cons f fR => exact ⟨f, fR, rfl⟩
    simp only [List.length_append, List.length_cons, List.length_nil] at h1 h2
    rw [List.append_assoc, List.singleton_append, weave_split A fL (m :: B) g (f :: fR) (by omega)]
    have := weave_split A fL [] g [] (by omega)
    rw [List.append_nil] at this
    rw [this]
    simp [weave]

theorem sublist_weave : ∀ (es : List DirEntry) (fs : List (List DirEntry)), fs = [] ∨ es.length < fs.length → es.Sublist (weave es fs)
  | es, [], _ => by cases es <;> simp [weave]
  | [], f :: fs, _ => by simp [weave]
  | e :: es, f :: fs, h => by
    rw [weave]
    refine List.Sublist.trans ?_ (List.sublist_append_right f _)
    refine List.Sublist.cons_cons e ?_
    cases fs with
    | nil => simp at h
    | cons g fs => exact sublist_weave es (g :: fs) (Or.inr (by simpa using h))

theorem weave_length : ∀ (es : List DirEntry) (fs : List (List DirEntry)), fs = [] ∨ fs.length = es.length + 1 →
    (weave es fs).length = es.length + (fs.map List.length).sum
  | es, [], _ => by cases es <;> simp [weave]
  | [], f :: fs, h => by
    have : fs = [] := by
      rcases h with h | h
      · cases h
      · simpa using h
    simp [weave, this]
  | e :: es, f :: fs, h => by
    have h' : fs.length = es.length + 1 := by
      rcases h with h | h
      · cases h
      · simpa using h
    rw [weave, List.length_append, List.length_cons, weave_length es fs (Or.inr h'), List.length_cons, List.map_cons, List.sum_cons]
    omega

theorem mem_weave : ∀ (es : List DirEntry) (fs : List (List DirEntry)), fs = [] ∨ fs.length = es.length + 1 →
    ∀ x, x ∈ weave es fs ↔ x ∈ es ∨ ∃ f ∈ fs, x ∈ f
  | es, [], _, x => by cases es <;> simp [weave]
  | [], f :: fs, h, x => by
    have : fs = [] := by
      rcases h with h | h
      · cases h
      · simpa using h
    simp [weave, this]
  | e :: es, f :: fs, h, x => by
    have h' : fs.length = es.length + 1 := by
      rcases h with h | h
      · cases h
      · simpa using h
    rw [weave, List.mem_append, List.mem_cons, mem_weave es fs (Or.inr h')]
    simp only [List.mem_cons, exists_eq_or_imp]
    tauto

/-! ## Frames -/

/-- A node with one child taken out. -/
structure Frame where
  p : Nat
  eL : List DirEntry
  eR : List DirEntry
  cL : List BT
  cR : List BT

def plug : List Frame → BT → BT
  | [], t => t
  | f :: K, t => plug K (.node f.p (f.eL ++ f.eR) (f.cL ++ t :: f.cR))

/-- The page of the parent of the hole. -/
def parOf : List Frame → Nat
  | [] => invalidPage
  | f :: _ => f.p

/-- The page of the root when the hole holds page `p`. -/
def rootOf : List Frame → Nat → Nat
  | [], p => p
  | f :: K, _ => rootOf K f.p

/-- The records around the hole. -/
def ctx : List Frame → Nat → Multiset Rec
  | [], _ => 0
  | f :: K, p => ⟨parOf K, f.p, f.cL.map page ++ p :: f.cR.map page, f.eL ++ f.eR⟩ ::ₘ
      (nodesL f.p f.cL + nodesL f.p f.cR + ctx K f.p)

/-- The entries left of the hole. -/
def Lk : List Frame → List DirEntry
  | [] => []
  | f :: K => Lk K ++ preS f.eL (flats f.cL)

/-- The entries right of the hole. -/
def Rk : List Frame → List DirEntry
  | [] => []
  | f :: K => postS f.eR (flats f.cR) ++ Rk K

/-- The frames fit a hole of height `h`. -/
def KOk : Nat → List Frame → Prop
  | _, [] => True
  | h, f :: K => f.cL.length = f.eL.length ∧ f.cR.length = f.eR.length ∧ (K = [] → 1 ≤ f.eL.length + f.eR.length) ∧
      (K ≠ [] → 6 ≤ f.eL.length + f.eR.length) ∧ f.eL.length + f.eR.length ≤ 13 ∧ (∀ c ∈ f.cL, Shape 6 h c) ∧
      (∀ c ∈ f.cR, Shape 6 h c) ∧ KOk (h + 1) K

/-- The smallest number of entries of the root of a tree of height `h`. -/
def rootLo (h : Nat) : Nat := min h 1

theorem nodes_plug : ∀ (K : List Frame) (t : BT), nodes invalidPage (plug K t) = ctx K t.page + nodes (parOf K) t
  | [], t => by simp [plug, ctx, parOf]
  | f :: K, t => by
    rw [plug, nodes_plug K, nodes_node, nodesL_append, nodesL_cons, ctx, List.map_append, List.map_cons]
    show ctx K f.p + _ = _
    rw [parOf]
    ms

theorem page_plug : ∀ (K : List Frame) (t : BT), (plug K t).page = rootOf K t.page
  | [], t => rfl
  | f :: K, t => by rw [plug, page_plug K, rootOf]; rfl

theorem flat_plug : ∀ (h : Nat) (K : List Frame) (t : BT), KOk h K → flat (plug K t) = Lk K ++ flat t ++ Rk K
  | _, [], t, _ => by simp [plug, Lk, Rk]
  | h, f :: K, t, hK => by
    obtain ⟨h1, h2, _, _, _, _, _, h8⟩ := hK
    rw [plug, flat_plug (h + 1) K _ h8, flat_node, flats_append, flats_cons, weave_hole _ _ _ _ _ (by simpa using h1) (by simpa using h2), Lk, Rk]
    simp

theorem shape_plug : ∀ (h : Nat) (K : List Frame) (t : BT), KOk h K → (K = [] → Shape (rootLo h) h t) →
    (K ≠ [] → Shape 6 h t) → Shape (rootLo (h + K.length)) (h + K.length) (plug K t)
  | _, [], _, _, h1, _ => h1 rfl
  | h, f :: K, t, hK, _, h2 => by
    obtain ⟨k1, k2, k3, k4, k5, k6, k7, k8⟩ := hK
    have hcs : ∀ c ∈ f.cL ++ t :: f.cR, Shape 6 h c := by
      intro c hc
      rw [List.mem_append, List.mem_cons] at hc
      rcases hc with hc | rfl | hc
      · exact k6 c hc
      · exact h2 (by simp)
      · exact k7 c hc
    have := shape_plug (h + 1) K (.node f.p (f.eL ++ f.eR) (f.cL ++ t :: f.cR)) k8 ?_ ?_
    · rw [List.length_cons, show h + (K.length + 1) = h + 1 + K.length by omega]; exact this
    · intro hn
      refine ⟨by simp; omega, ?_, by simp; omega, hcs⟩
      have := k3 hn
      simp [rootLo]; omega
    · intro hn
      refine ⟨by simp; omega, ?_, by simp; omega, hcs⟩
      have := k4 hn
      simp; omega

/-! ## Counting -/

/-- The number of entries of a heap of records. -/
def sumEs (R : Multiset Rec) : Nat := (R.map fun r => r.es.length).sum

@[simp] theorem sumEs_zero : sumEs 0 = 0 := rfl
@[simp] theorem sumEs_cons (r : Rec) (R : Multiset Rec) : sumEs (r ::ₘ R) = r.es.length + sumEs R := by simp [sumEs]
@[simp] theorem sumEs_add (R R' : Multiset Rec) : sumEs (R + R') = sumEs R + sumEs R' := by simp [sumEs]

theorem sumEs_nodesL (p : Nat) : ∀ cs : List BT, (∀ c ∈ cs, ∀ q, sumEs (nodes q c) = (flat c).length) →
    sumEs (nodesL p cs) = ((flats cs).map List.length).sum
  | [], _ => by simp
  | c :: cs, h => by
    rw [nodesL_cons, sumEs_add, h c (by simp), sumEs_nodesL p cs (fun x hx => h x (by simp [hx])), flats_cons]; simp

theorem Shape.sum : ∀ (h : Nat) (lo : Nat) (t : BT), Shape lo h t → ∀ q, sumEs (nodes q t) = (flat t).length
  | 0, lo, .node p es cs, hs, q => by
    obtain ⟨rfl, _⟩ := hs
    rw [nodes_node, flat_node, sumEs_cons]; simp [weave]
  | h + 1, lo, .node p es cs, hs, q => by
    obtain ⟨h1, _, _, h4⟩ := hs
    rw [nodes_node, flat_node, sumEs_cons, weave_length _ _ (Or.inr (by simpa using h1)),
      sumEs_nodesL p cs (fun c hc q' => Shape.sum h 6 c (h4 c hc) q')]

theorem sum_nodesL (h p : Nat) (cs : List BT) (hs : ∀ c ∈ cs, Shape 6 h c) :
    sumEs (nodesL p cs) = ((flats cs).map List.length).sum :=
  sumEs_nodesL p cs fun c hc q => Shape.sum h 6 c (hs c hc) q

theorem preS_length : ∀ (es : List DirEntry) (fs : List (List DirEntry)), fs.length = es.length →
    (preS es fs).length = es.length + (fs.map List.length).sum
  | [], [], _ => by simp [preS]
  | e :: es, f :: fs, h => by
    simp only [preS, List.length_append, List.length_cons, List.map_cons, List.sum_cons]
    rw [preS_length es fs (by simpa using h)]; omega
  | [], _ :: _, h => by simp at h
  | _ :: _, [], h => by simp at h

theorem postS_length : ∀ (es : List DirEntry) (fs : List (List DirEntry)), fs.length = es.length →
    (postS es fs).length = es.length + (fs.map List.length).sum
  | [], [], _ => by simp [postS]
  | e :: es, f :: fs, h => by
    simp only [postS, List.length_append, List.length_cons, List.map_cons, List.sum_cons]
    rw [postS_length es fs (by simpa using h)]; omega
  | [], _ :: _, h => by simp at h
  | _ :: _, [], h => by simp at h

theorem sum_ctx : ∀ (h : Nat) (K : List Frame) (p : Nat), KOk h K → sumEs (ctx K p) = (Lk K).length + (Rk K).length
  | _, [], _, _ => by simp [ctx, Lk, Rk]
  | h, f :: K, p, hK => by
    obtain ⟨k1, k2, _, _, _, k6, k7, k8⟩ := hK
    rw [ctx, sumEs_cons, sumEs_add, sumEs_add, sum_ctx (h + 1) K f.p k8, sum_nodesL h f.p f.cL k6, sum_nodesL h f.p f.cR k7, Lk, Rk,
      List.length_append (as := Lk K), List.length_append (bs := Rk K), preS_length _ _ (by simpa using k1), postS_length _ _ (by simpa using k2)]
    simp only [List.length_append]
    omega

theorem nodesL_fill (p : Nat) : ∀ cs : List BT, (∀ c ∈ cs, ∀ q, ∀ r ∈ nodes q c, 6 ≤ r.es.length) →
    ∀ r ∈ nodesL p cs, 6 ≤ r.es.length
  | [], _, r, hr => by simp at hr
  | c :: cs, h, r, hr => by
    rw [nodesL_cons, Multiset.mem_add] at hr
    rcases hr with hr | hr
    · exact h c (by simp) p r hr
    · exact nodesL_fill p cs (fun x hx => h x (by simp [hx])) r hr

theorem Shape.fill : ∀ (h : Nat) (t : BT), Shape 6 h t → ∀ q, ∀ r ∈ nodes q t, 6 ≤ r.es.length
  | 0, .node p es cs, hs, q, r, hr => by
    obtain ⟨rfl, h2, _⟩ := hs
    rw [nodes_node] at hr
    simp at hr
    rw [hr]; exact h2
  | h + 1, .node p es cs, hs, q, r, hr => by
    obtain ⟨h1, h2, _, h4⟩ := hs
    rw [nodes_node, Multiset.mem_cons] at hr
    rcases hr with rfl | hr
    · exact h2
    · exact nodesL_fill p cs (fun c hc q' => Shape.fill h c (h4 c hc) q') r hr

theorem nodesL_fill' (h p : Nat) (cs : List BT) (hs : ∀ c ∈ cs, Shape 6 h c) : ∀ r ∈ nodesL p cs, 6 ≤ r.es.length :=
  nodesL_fill p cs fun c hc q => Shape.fill h c (hs c hc) q

theorem ctx_fill : ∀ (h : Nat) (K : List Frame) (p : Nat), KOk h K → ∀ r ∈ ctx K p, r.page = rootOf K p ∨ 6 ≤ r.es.length
  | _, [], _, _, r, hr => by simp [ctx] at hr
  | h, f :: K, p, hK, r, hr => by
    obtain ⟨k1, k2, k3, k4, k5, k6, k7, k8⟩ := hK
    rw [ctx, Multiset.mem_cons, Multiset.mem_add, Multiset.mem_add] at hr
    rcases hr with rfl | (hr | hr) | hr
    · by_cases hn : K = []
      · left; subst hn; rfl
      · right; simp; exact k4 hn
    · right; exact nodesL_fill' h _ _ k6 r hr
    · right; exact nodesL_fill' h _ _ k7 r hr
    · exact ctx_fill (h + 1) K f.p k8 r hr

/-- With the free list empty, the number of pages is bounded by the number of entries. -/
theorem Core.pages_le {s : BSt} {np : Nat} {R : Multiset Rec} (h : Core s np R []) (root : Nat)
    (hf : ∀ r ∈ R, r.page = root ∨ 6 ≤ r.es.length) : 6 * np ≤ sumEs R + 6 := by
  have hcard : np = Multiset.card R := by
    have := congrArg Multiset.card h.part
    simpa using this.symm
  have key : ∀ R' : Multiset Rec, (∀ r ∈ R', 6 ≤ r.es.length) → 6 * Multiset.card R' ≤ sumEs R' := by
    intro R' hR'
    have := Multiset.card_nsmul_le_sum (s := R'.map fun r => r.es.length) (a := 6) (by
      intro x hx
      obtain ⟨r, hr, rfl⟩ := Multiset.mem_map.1 hx
      exact hR' r hr)
    simp only [Multiset.card_map, smul_eq_mul] at this
    rw [sumEs]; omega
  by_cases hroot : ∃ r ∈ R, r.page = root
  · obtain ⟨r, hr, hrp⟩ := hroot
    obtain ⟨R', rfl⟩ := Multiset.exists_cons_of_mem hr
    have := key R' (fun r' hr' => (hf r' (Multiset.mem_cons_of_mem hr')).resolve_left (by
      rw [← hrp]; exact h.ne.1 r' hr'))
    rw [Multiset.card_cons] at hcard
    rw [sumEs_cons]; omega
  · have := key R (fun r hr => (hf r hr).resolve_left (fun he => hroot ⟨r, hr, he⟩))
    omega

theorem card_nodesL (p k : Nat) : ∀ cs : List BT, (∀ c ∈ cs, ∀ q, k ≤ Multiset.card (nodes q c)) →
    cs.length * k ≤ Multiset.card (nodesL p cs)
  | [], _ => by simp
  | c :: cs, h => by
    have h1 := h c (by simp) p
    have h2 := card_nodesL p k cs (fun x hx => h x (by simp [hx]))
    rw [nodesL_cons, Multiset.card_add, List.length_cons, Nat.succ_mul]; omega

/-- A tree of height `h` has at least `2 ^ h` nodes. -/
theorem Shape.card : ∀ (h lo : Nat) (t : BT), Shape lo h t → (h = 0 ∨ 1 ≤ lo) → ∀ q, 2 ^ h ≤ Multiset.card (nodes q t)
  | 0, lo, .node p es cs, hs, _, q => by rw [nodes_node]; simp
  | h + 1, lo, .node p es cs, hs, hlo, q => by
    obtain ⟨h1, h2, _, h4⟩ := hs
    have h3 := card_nodesL p (2 ^ h) cs (fun c hc q' => Shape.card h 6 c (h4 c hc) (Or.inr (by omega)) q')
    rw [nodes_node, Multiset.card_cons, Nat.pow_succ]
    have : 2 * 2 ^ h ≤ cs.length * 2 ^ h := Nat.mul_le_mul_right _ (by omega)
    omega

theorem Core.height {s : BSt} {np : Nat} {F : List Nat} {h : Nat} {t : BT} {q : Nat} (hc : Core s np (nodes q t) F)
    (hs : Shape (rootLo h) h t) : h ≤ 20 := by
  have h1 := Shape.card h _ t hs (by cases h with | zero => left; rfl | succ n => right; simp [rootLo]) q
  have h2 : Multiset.card (nodes q t) ≤ np := by
    have := congrArg Multiset.card hc.part
    simp only [Multiset.card_add, Multiset.card_map, Multiset.card_range, Multiset.coe_card] at this
    omega
  have h3 := hc.npLe
  have : 2 ^ h ≤ 2 ^ 20 := by omega
  exact (Nat.pow_le_pow_iff_right (by norm_num)).1 this

/-! ## Comparison and binary search -/

/-- The comparison is a total preorder. -/
structure CmpOk (cmp : Bytes → Bytes → Int) : Prop where
  anti : ∀ a b, cmp a b ≤ 0 ↔ 0 ≤ cmp b a
  trans : ∀ a b c, cmp a b ≤ 0 → cmp b c ≤ 0 → cmp a c ≤ 0

/-- Strictly before. -/
def Lt (C : BCfg) (a b : DirEntry) : Prop := C.cmp a.name b.name < 0

/-- Strictly ascending. -/
def Asc (C : BCfg) (l : List DirEntry) : Prop := l.Pairwise (Lt C)

theorem CmpOk.self {cmp : Bytes → Bytes → Int} (h : CmpOk cmp) (a : Bytes) : cmp a a = 0 := by
  have := h.anti a a; omega

theorem CmpOk.lt_iff {cmp : Bytes → Bytes → Int} (h : CmpOk cmp) (a b : Bytes) : cmp a b < 0 ↔ 0 < cmp b a := by
  have := h.anti a b; have := h.anti b a; omega

theorem CmpOk.eq_comm {cmp : Bytes → Bytes → Int} (h : CmpOk cmp) (a b : Bytes) : cmp a b = 0 ↔ cmp b a = 0 := by
  have := h.anti a b; have := h.anti b a; omega

theorem CmpOk.lt_of_lt_of_le {cmp : Bytes → Bytes → Int} (h : CmpOk cmp) {a b c : Bytes} (h1 : cmp a b < 0) (h2 : cmp b c ≤ 0) :
    cmp a c < 0 := by
  have e1 := h.trans a b c (by omega) h2
  have e2 := h.anti a c; have e3 := h.anti c a; have e4 := h.lt_iff a b
  by_contra hn
  have := h.trans b c a h2 (by omega)
  omega

theorem CmpOk.lt_of_le_of_lt {cmp : Bytes → Bytes → Int} (h : CmpOk cmp) {a b c : Bytes} (h1 : cmp a b ≤ 0) (h2 : cmp b c < 0) :
    cmp a c < 0 := by
  have e1 := h.trans a b c h1 (by omega)
  have e2 := h.anti a c; have e3 := h.anti c a; have e4 := h.lt_iff b c
  by_contra hn
  have := h.trans c a b (by omega) h1
  omega

theorem CmpOk.lt_trans {cmp : Bytes → Bytes → Int} (h : CmpOk cmp) {a b c : Bytes} (h1 : cmp a b < 0) (h2 : cmp b c < 0) :
    cmp a c < 0 := h.lt_of_lt_of_le h1 (by omega)

theorem lowerBoundLoop_eq (lt : DirEntry → Bool) (A B : List DirEntry) (hA : ∀ e ∈ A, lt e = true) (hB : ∀ e ∈ B, lt e = false) :
    ∀ fuel first len, len ≤ fuel → first ≤ A.length → A.length ≤ first + len → first + len ≤ (A ++ B).length →
    lowerBoundLoop lt (A ++ B) fuel first len = A.length
  | 0, first, len, h1, h2, h3, _ => by rw [lowerBoundLoop]; omega
  | fuel + 1, first, len, h1, h2, h3, h4 => by
    rw [lowerBoundLoop]
    by_cases h0 : len = 0
    · rw [if_pos h0]; omega
    · rw [if_neg h0]
      have hi : first + len / 2 < (A ++ B).length := by omega
      rw [List.getElem?_eq_getElem hi]
      dsimp only
      by_cases hm : first + len / 2 < A.length
      · have : lt (A ++ B)[first + len / 2] = true := by
          rw [List.getElem_append_left hm]; exact hA _ (List.getElem_mem _)
        rw [if_pos this]
        exact lowerBoundLoop_eq lt A B hA hB fuel _ _ (by omega) (by omega) (by omega) (by omega)
      · have : lt (A ++ B)[first + len / 2] = false := by
          rw [List.getElem_append_right (by omega)]; exact hB _ (List.getElem_mem _)
        rw [if_neg (by rw [this]; simp)]
        exact lowerBoundLoop_eq lt A B hA hB fuel _ _ (by omega) (by omega) (by omega) (by omega)

theorem lowerBound_eq (lt : DirEntry → Bool) (A B : List DirEntry) (hA : ∀ e ∈ A, lt e = true) (hB : ∀ e ∈ B, lt e = false) :
    lowerBound lt (A ++ B) = A.length :=
  lowerBoundLoop_eq lt A B hA hB _ 0 _ (Nat.le_refl _) (Nat.zero_le _) (by simp) (by simp)

theorem before_true {C : BCfg} {e x : DirEntry} (h : Lt C x e) : C.before e.name x = true := by
  simp only [BCfg.before, decide_eq_true_eq]; exact h

theorem before_false {C : BCfg} (hC : CmpOk C.cmp) {e x : DirEntry} (h : Lt C e x) : C.before e.name x = false := by
  have := hC.lt_iff e.name x.name
  have h' : C.cmp e.name x.name < 0 := h
  simp only [BCfg.before, decide_eq_false_iff_not]; omega

/-- The lower bound of an entry that is about to go between `A` and `B`. -/
theorem lowerBound_asc {C : BCfg} (hC : CmpOk C.cmp) (A B : List DirEntry) (e : DirEntry) (h : Asc C (A ++ e :: B)) :
    lowerBound (C.before e.name) (A ++ B) = A.length := by
  unfold Asc at h
  rw [List.pairwise_append, List.pairwise_cons] at h
  exact lowerBound_eq _ A B (fun x hx => before_true (h.2.2 x hx e (by simp))) (fun x hx => before_false hC (h.2.1.1 x hx))

end Securefs
