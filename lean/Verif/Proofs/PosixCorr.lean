import Verif.Spec.Posix
/-!
# Two trees that differ in their names, contents and link targets

If every node of a tree is the image of the node of another under an injective renaming of the names, then the calls of the system do the
same on both.
-/

namespace Securefs.Posix

/-- The entries with other names. -/
def mp (enc : Bytes → Bytes) (es : List (Bytes × Nat)) : List (Bytes × Nat) := es.map fun p => (enc p.1, p.2)

/-- How nodes correspond: the same attributes, and for files and links a given relation of the bytes. -/
inductive NodeRel (enc : Bytes → Bytes) (FR LR : Bytes → Bytes → Prop) : Option Node → Option Node → Prop where
  | none : NodeRel enc FR LR none none
  | dir (es : List (Bytes × Nat)) (a : Attr) : NodeRel enc FR LR (some ⟨.dir es, a⟩) (some ⟨.dir (mp enc es), a⟩)
  | file (c b : Bytes) (a : Attr) : FR c b → NodeRel enc FR LR (some ⟨.file c, a⟩) (some ⟨.file b, a⟩)
  | link (t s : Bytes) (a : Attr) : LR t s → NodeRel enc FR LR (some ⟨.link t, a⟩) (some ⟨.link s, a⟩)

/-- The assumptions on a pair of trees. -/
structure Corr (enc : Bytes → Bytes) (U : Bytes → Prop) (FR LR : Bytes → Bytes → Prop) (A B : Fs) : Prop where
  inj : ∀ c c', U c → U c' → enc c = enc c' → c = c'
  nodes : ∀ i, NodeRel enc FR LR (A i) (B i)
  names : ∀ d es a, A d = some ⟨.dir es, a⟩ → ∀ p ∈ es, U p.1

/-- The same result, up to a relation of the values. -/
def ExRel {α β : Type} (R : α → β → Prop) : Except Nat α → Except Nat β → Prop
  | .error e, .error e' => e = e'
  | .ok x, .ok y => R x y
  | _, _ => False

section
variable {enc : Bytes → Bytes} {U : Bytes → Prop} {FR LR : Bytes → Bytes → Prop} {A B : Fs}

theorem lookup_mp (inj : ∀ c c', U c → U c' → enc c = enc c' → c = c') (es : List (Bytes × Nat)) (h : ∀ p ∈ es, U p.1) (c : Bytes) (hc : U c) :
    (mp enc es).lookup (enc c) = es.lookup c := by
  induction es with
  | nil => rfl
  | cons p es ih =>
    obtain ⟨n, i⟩ := p
    show ((enc n, i) :: mp enc es).lookup (enc c) = _
    rw [List.lookup_cons, List.lookup_cons, ih fun p hp => h p (List.mem_cons_of_mem _ hp)]
    have hn : U n := h (n, i) List.mem_cons_self
    by_cases e : c = n
    · subst e; simp
    · have e' : ¬ enc c = enc n := fun x => e (inj _ _ hc hn x)
      rw [beq_eq_false_iff_ne.mpr e, beq_eq_false_iff_ne.mpr e']

theorem without_mp (inj : ∀ c c', U c → U c' → enc c = enc c' → c = c') (es : List (Bytes × Nat)) (h : ∀ p ∈ es, U p.1) (c : Bytes) (hc : U c) :
    without (mp enc es) (enc c) = mp enc (without es c) := by
  induction es with
  | nil => rfl
  | cons p es ih =>
    obtain ⟨n, i⟩ := p
    have hn : U n := h (n, i) List.mem_cons_self
    have ih := ih fun p hp => h p (List.mem_cons_of_mem _ hp)
    unfold without mp at *
    rw [List.map_cons, List.filter_cons, List.filter_cons]
    by_cases e : n = c
    · subst e; simpa using ih
    · have e' : ¬ enc n = enc c := fun x => e (inj _ _ hn hc x)
      have g1 : ((enc n) != (enc c)) = true := by simpa using e'
      have g2 : (n != c) = true := by simpa using e
      dsimp only
      rw [g1, g2, if_pos rfl, if_pos rfl, List.map_cons, ih]

theorem mem_without {es : List (Bytes × Nat)} {c : Bytes} {p : Bytes × Nat} (h : p ∈ without es c) : p ∈ es ∧ p.1 ≠ c := by
  unfold without at h
  rw [List.mem_filter] at h
  exact ⟨h.1, by simpa using h.2⟩

variable (H : Corr enc U FR LR A B)
include H

theorem Corr.entries (d : Nat) : B.entries d = Except.map (mp enc) (A.entries d) := by
  have := H.nodes d
  unfold Fs.entries
  generalize A d = x at this
  generalize B d = y at this
  cases this <;> rfl

theorem Corr.entries_names {d : Nat} {es : List (Bytes × Nat)} (h : A.entries d = .ok es) : (∃ a, A d = some ⟨.dir es, a⟩) ∧ ∀ p ∈ es, U p.1 := by
  have : ∃ a, A d = some ⟨.dir es, a⟩ := by
    unfold Fs.entries at h
    split at h
    · cases h
    · cases h; exact ⟨_, by assumption⟩
    · cases h
    · cases h
  obtain ⟨a, ha⟩ := this
  exact ⟨⟨a, ha⟩, H.names d es a ha⟩

theorem Corr.child (d : Nat) (c : Bytes) (hc : U c) : B.child d (enc c) = A.child d c := by
  unfold Fs.child
  rw [H.entries d]
  cases h : A.entries d with
  | error e => rfl
  | ok es =>
    dsimp only [Except.map]
    rw [lookup_mp H.inj es (H.entries_names h).2 c hc]

theorem Corr.walk : ∀ (cs : List Bytes) (d : Nat), (∀ c ∈ cs, U c) → B.walk d (cs.map enc) = A.walk d cs := by
  intro cs
  induction cs with
  | nil => intro d _; rfl
  | cons c cs ih =>
    intro d h
    rw [List.map_cons, Fs.walk, Fs.walk, H.child d c (h c List.mem_cons_self)]
    cases A.child d c with
    | error e => rfl
    | ok i => exact ih i fun c hc => h c (List.mem_cons_of_mem _ hc)

/-- The slot with other names. -/
def mapSlot (enc : Bytes → Bytes) (s : Slot) : Slot := ⟨s.dir, mp enc s.entries, enc s.name⟩

theorem Corr.slot (cs : List Bytes) (h : ∀ c ∈ cs, U c) : B.slot (cs.map enc) = Except.map (mapSlot enc) (A.slot cs) := by
  unfold Fs.slot
  rw [List.getLast?_map, ← List.map_dropLast, H.walk _ _ fun c hc => h c (List.dropLast_subset _ hc)]
  cases cs.getLast? with
  | none => rfl
  | some c =>
    show (match A.walk 0 cs.dropLast with | .error e => _ | .ok d => _) = _
    dsimp only
    cases A.walk 0 cs.dropLast with
    | error e => rfl
    | ok d =>
      dsimp only
      rw [H.entries d]
      cases A.entries d <;> rfl

theorem Corr.slot_facts {cs : List Bytes} (h : ∀ c ∈ cs, U c) {s : Slot} (e : A.slot cs = .ok s) :
    cs = cs.dropLast ++ [s.name] ∧ U s.name ∧ A.walk 0 cs.dropLast = .ok s.dir ∧ (∃ a, A s.dir = some ⟨.dir s.entries, a⟩) ∧ ∀ p ∈ s.entries, U p.1 := by
  unfold Fs.slot at e
  cases hl : cs.getLast? with
  | none => rw [hl] at e; cases e
  | some c =>
    rw [hl] at e
    dsimp only at e
    cases hw : A.walk 0 cs.dropLast with
    | error x => rw [hw] at e; cases e
    | ok d =>
      rw [hw] at e
      dsimp only at e
      cases he : A.entries d with
      | error x => rw [he] at e; cases e
      | ok es =>
        rw [he] at e
        cases e
        have hmem : cs.getLast? = some c → cs = cs.dropLast ++ [c] := fun hl => by
          obtain ⟨ys, rfl⟩ := List.getLast?_eq_some_iff.mp hl
          rw [List.dropLast_concat]
        refine ⟨hmem hl, h c (List.mem_of_getLast? hl), rfl, (H.entries_names he).1, (H.entries_names he).2⟩

theorem Corr.isDir (i : Nat) : B.isDir i = A.isDir i := by
  have := H.nodes i
  unfold Fs.isDir
  generalize A i = x at this
  generalize B i = y at this
  cases this <;> rfl

theorem Corr.isEmptyDir (i : Nat) : B.isEmptyDir i = A.isEmptyDir i := by
  have := H.nodes i
  unfold Fs.isEmptyDir
  generalize A i = x at this
  generalize B i = y at this
  cases this with
  | dir es a => cases es <;> rfl
  | _ => rfl

theorem Corr.set (i : Nat) {n m : Node} (h : NodeRel enc FR LR (some n) (some m)) (hn : ∀ es a, n = ⟨.dir es, a⟩ → ∀ p ∈ es, U p.1) :
    Corr enc U FR LR (A.set i n) (B.set i m) := by
  refine ⟨H.inj, fun k => ?_, fun d es a hd => ?_⟩
  · unfold Fs.set
    split
    · exact h
    · exact H.nodes k
  · unfold Fs.set at hd
    split at hd
    · exact hn es a (Option.some.inj hd)
    · exact H.names d es a hd

theorem Corr.alterDir (d : Nat) {f g : List (Bytes × Nat) → List (Bytes × Nat)}
    (h : ∀ es a, A d = some ⟨.dir es, a⟩ → g (mp enc es) = mp enc (f es) ∧ ∀ p ∈ f es, U p.1) :
    Corr enc U FR LR (A.alterDir d f) (B.alterDir d g) := by
  have hd := H.nodes d
  unfold Fs.alterDir
  cases hA : A d with
  | none => rw [hA] at hd; cases hB : B d with
    | none => exact H
    | some m => rw [hB] at hd; cases hd
  | some n =>
    rw [hA] at hd
    cases hB : B d with
    | none => rw [hB] at hd; cases hd
    | some m =>
      rw [hB] at hd
      cases hd with
      | dir es a =>
        dsimp only
        refine H.set d ?_ ?_
        · rw [(h es a hA).1]; exact .dir _ _
        · intro es' a' e; cases e; exact (h es a hA).2
      | file c b a => exact H
      | link t s a => exact H

theorem Corr.setData (i : Nat) {c b : Bytes} (h : FR c b) : Corr enc U FR LR (A.setData i c) (B.setData i b) := by
  have hd := H.nodes i
  unfold Fs.setData
  cases hA : A i with
  | none => rw [hA] at hd; cases hB : B i with
    | none => exact H
    | some m => rw [hB] at hd; cases hd
  | some n =>
    rw [hA] at hd
    cases hB : B i with
    | none => rw [hB] at hd; cases hd
    | some m =>
      rw [hB] at hd
      cases hd with
      | dir es a => exact H
      | file c' b' a => exact H.set i (.file c b a h) (fun es a e => by cases e)
      | link t s a => exact H

theorem Corr.data (i : Nat) : (A.data i = none ∧ B.data i = none) ∨ ∃ c b, A.data i = some c ∧ B.data i = some b ∧ FR c b := by
  have := H.nodes i
  unfold Fs.data
  generalize A i = x at this
  generalize B i = y at this
  cases this with
  | file c b a h => exact Or.inr ⟨c, b, rfl, rfl, h⟩
  | _ => exact Or.inl ⟨rfl, rfl⟩

/-! ## The calls -/

theorem Corr.add (cs : List Bytes) (h : ∀ c ∈ cs, U c) (id : Nat) {n m : Node} (hr : NodeRel enc FR LR (some n) (some m))
    (hn : ∀ es a, n = ⟨.dir es, a⟩ → es = []) :
    ExRel (Corr enc U FR LR) (A.add cs id n) (B.add (cs.map enc) id m) := by
  unfold Fs.add
  rw [H.slot cs h]
  cases hs : A.slot cs with
  | error e => exact rfl
  | ok s =>
    obtain ⟨_, h2, _, _, h4⟩ := H.slot_facts h hs
    show ExRel _ _ (match (mp enc s.entries).lookup (enc s.name) with | some _ => _ | none => _)
    rw [lookup_mp H.inj _ h4 _ h2]
    dsimp only
    cases s.entries.lookup s.name with
    | some _ => exact rfl
    | none =>
      have H1 := H.set id hr (fun es a e => by rw [hn es a e]; simp)
      refine H1.alterDir s.dir (fun es a e => ⟨rfl, fun p hp => ?_⟩)
      rcases List.mem_cons.mp hp with rfl | hp
      · exact h2
      · exact H1.names _ _ _ e p hp

theorem Corr.link (src dst : List Bytes) (hs : ∀ c ∈ src, U c) (hd : ∀ c ∈ dst, U c) :
    ExRel (Corr enc U FR LR) (A.link src dst) (B.link (src.map enc) (dst.map enc)) := by
  unfold Fs.link
  rw [H.walk src 0 hs, H.slot dst hd]
  cases A.walk 0 src with
  | error e => exact rfl
  | ok i =>
    dsimp only
    cases ht : A.slot dst with
    | error e => exact rfl
    | ok s =>
      obtain ⟨_, h2, _, _, h4⟩ := H.slot_facts hd ht
      show ExRel _ _ (match (mp enc s.entries).lookup (enc s.name) with | some _ => _ | none => _)
      rw [lookup_mp H.inj _ h4 _ h2]
      dsimp only
      cases s.entries.lookup s.name with
      | some _ => exact rfl
      | none =>
        dsimp only
        rw [H.isDir i]
        split
        · exact rfl
        · refine H.alterDir s.dir (fun es a e => ⟨rfl, fun p hp => ?_⟩)
          rcases List.mem_cons.mp hp with rfl | hp
          · exact h2
          · exact H.names _ _ _ e p hp

theorem Corr.drop (d : Nat) (c : Bytes) (hc : U c) :
    Corr enc U FR LR (A.alterDir d fun es => without es c) (B.alterDir d fun es => without es (enc c)) :=
  H.alterDir d fun es a e => ⟨without_mp H.inj es (H.names d es a e) c hc, fun p hp => H.names d es a e p (mem_without hp).1⟩

theorem Corr.unlink (cs : List Bytes) (h : ∀ c ∈ cs, U c) : ExRel (Corr enc U FR LR) (A.unlink cs) (B.unlink (cs.map enc)) := by
  unfold Fs.unlink
  rw [H.slot cs h]
  cases hs : A.slot cs with
  | error e => exact rfl
  | ok s =>
    obtain ⟨_, h2, _, _, h4⟩ := H.slot_facts h hs
    show ExRel _ _ (match (mp enc s.entries).lookup (enc s.name) with | none => _ | some i => _)
    rw [lookup_mp H.inj _ h4 _ h2]
    dsimp only
    cases s.entries.lookup s.name with
    | none => exact rfl
    | some i =>
      dsimp only
      rw [H.isDir i]
      split
      · exact rfl
      · exact H.drop s.dir s.name h2

theorem Corr.rmdir (cs : List Bytes) (h : ∀ c ∈ cs, U c) (full : Nat → Bool)
    (hf : ∀ i, A.walk 0 cs = .ok i → full i = false) :
    ExRel (Corr enc U FR LR) (A.rmdir (fun _ => false) cs) (B.rmdir full (cs.map enc)) := by
  unfold Fs.rmdir
  rw [H.slot cs h]
  cases hs : A.slot cs with
  | error e => exact rfl
  | ok s =>
    obtain ⟨h1, h2, h3, ⟨a, h5⟩, h4⟩ := H.slot_facts h hs
    show ExRel _ _ (match (mp enc s.entries).lookup (enc s.name) with | none => _ | some i => _)
    rw [lookup_mp H.inj _ h4 _ h2]
    dsimp only
    cases hl : s.entries.lookup s.name with
    | none => exact rfl
    | some i =>
      have hw : A.walk 0 cs = .ok i := by
        have app : ∀ (ds : List Bytes) (d : Nat), A.walk d ds = .ok s.dir → A.walk d (ds ++ [s.name]) = .ok i := by
          intro ds
          induction ds with
          | nil =>
            intro d e
            cases e
            simp only [List.nil_append, Fs.walk, Fs.child, Fs.entries, h5, hl]
          | cons c ds ih =>
            intro d e
            rw [Fs.walk] at e
            rw [List.cons_append, Fs.walk]
            cases hc : A.child d c with
            | error x => rw [hc] at e; cases e
            | ok j => rw [hc] at e; exact ih j e
        rw [h1]
        exact app _ _ h3
      dsimp only
      rw [H.isDir i, H.isEmptyDir i, hf i hw]
      split
      · exact rfl
      · split
        · exact H.drop s.dir s.name h2
        · exact rfl

theorem Corr.move (s t : Slot) (i : Nat) (hs : U s.name) (ht : U t.name) :
    Corr enc U FR LR (A.move s t i) (B.move (mapSlot enc s) (mapSlot enc t) i) := by
  unfold Fs.move
  have H1 := H.drop s.dir s.name hs
  refine H1.alterDir t.dir fun es a e => ?_
  have hn := H1.names _ _ _ e
  constructor
  · show (enc t.name, i) :: without (mp enc es) (enc t.name) = _
    rw [without_mp H.inj es hn t.name ht]
    rfl
  · intro p hp
    rcases List.mem_cons.mp hp with rfl | hp
    · exact ht
    · exact hn p (mem_without hp).1

omit H in
theorem isPrefixOf_map (inj : ∀ c c', U c → U c' → enc c = enc c' → c = c') : ∀ (a b : List Bytes), (∀ c ∈ a, U c) → (∀ c ∈ b, U c) →
    (a.map enc).isPrefixOf (b.map enc) = a.isPrefixOf b := by
  intro a
  induction a with
  | nil => intro b _ _; simp
  | cons x a ih =>
    intro b ha hb
    cases b with
    | nil => rfl
    | cons y b =>
      simp only [List.map_cons, List.isPrefixOf]
      rw [ih b (fun c hc => ha c (List.mem_cons_of_mem _ hc)) (fun c hc => hb c (List.mem_cons_of_mem _ hc))]
      congr 1
      by_cases e : x = y
      · subst e; simp
      · have e' : ¬ enc x = enc y := fun h => e (inj _ _ (ha x List.mem_cons_self) (hb y List.mem_cons_self) h)
        rw [beq_eq_false_iff_ne.mpr e, beq_eq_false_iff_ne.mpr e']

omit H in
theorem map_bne (inj : ∀ c c', U c → U c' → enc c = enc c' → c = c') : ∀ (a b : List Bytes), (∀ c ∈ a, U c) → (∀ c ∈ b, U c) →
    ((a.map enc) != (b.map enc)) = (a != b) := by
  intro a b ha hb
  by_cases e : a = b
  · subst e; simp
  · have : ¬ a.map enc = b.map enc := by
      intro h
      apply e
      clear e
      induction a generalizing b with
      | nil => cases b with
        | nil => rfl
        | cons y b => simp at h
      | cons x a ih =>
        cases b with
        | nil => simp at h
        | cons y b =>
          simp only [List.map_cons, List.cons.injEq] at h
          rw [inj _ _ (ha x List.mem_cons_self) (hb y List.mem_cons_self) h.1,
            ih b (fun c hc => ha c (List.mem_cons_of_mem _ hc)) (fun c hc => hb c (List.mem_cons_of_mem _ hc)) h.2]
    rw [bne_iff_ne.mpr e, bne_iff_ne.mpr this]

theorem Corr.rename (src dst : List Bytes) (hs : ∀ c ∈ src, U c) (hd : ∀ c ∈ dst, U c) (full : Nat → Bool)
    (hf : ∀ t i, A.slot dst = .ok t → t.entries.lookup t.name = some i → A.isEmptyDir i = true →
      (∃ s j, A.slot src = .ok s ∧ s.entries.lookup s.name = some j ∧ j ≠ i ∧ A.isDir j = true) → full i = false) :
    ExRel (Corr enc U FR LR) (A.rename (fun _ => false) src dst) (B.rename full (src.map enc) (dst.map enc)) := by
  unfold Fs.rename
  rw [H.slot src hs, H.slot dst hd]
  cases h1 : A.slot src with
  | error e => exact rfl
  | ok s =>
    cases h2 : A.slot dst with
    | error e => exact rfl
    | ok t =>
      obtain ⟨_, hsn, _, _, hse⟩ := H.slot_facts hs h1
      obtain ⟨_, htn, _, _, hte⟩ := H.slot_facts hd h2
      show ExRel _ _ (match (mp enc s.entries).lookup (enc s.name) with | none => _ | some i => _)
      rw [lookup_mp H.inj _ hse _ hsn]
      dsimp only
      cases h3 : s.entries.lookup s.name with
      | none => exact rfl
      | some i =>
        dsimp only
        rw [H.isDir i, isPrefixOf_map H.inj src dst hs hd, map_bne H.inj src dst hs hd]
        split
        · exact rfl
        · show ExRel _ _ (match (mp enc t.entries).lookup (enc t.name) with | none => _ | some j => _)
          rw [lookup_mp H.inj _ hte _ htn]
          cases h4 : t.entries.lookup t.name with
          | none => exact H.move s t i hsn htn
          | some j =>
            dsimp only
            rw [H.isDir j, H.isEmptyDir j]
            by_cases hij : i = j
            · rw [if_pos hij, if_pos hij]; exact H
            · rw [if_neg hij, if_neg hij]
              by_cases hdi : A.isDir i = true
              · rw [if_pos hdi, if_pos hdi]
                split
                · exact rfl
                · by_cases he : A.isEmptyDir j = true
                  · rw [hf t j h2 h4 he ⟨s, i, h1, h3, hij, hdi⟩]
                    simp only [he, Bool.not_false, Bool.and_self, if_true]
                    exact H.move s t i hsn htn
                  · rw [Bool.not_eq_true] at he
                    simp only [he, Bool.false_and, Bool.false_eq_true, if_false]
                    exact rfl
              · rw [if_neg hdi, if_neg hdi]
                split
                · exact rfl
                · exact H.move s t i hsn htn

theorem Corr.setAttr (f : Attr → Attr) (cs : List Bytes) (h : ∀ c ∈ cs, U c) :
    ExRel (Corr enc U FR LR) (A.setAttr f cs) (B.setAttr f (cs.map enc)) := by
  unfold Fs.setAttr
  rw [H.walk cs 0 h]
  cases A.walk 0 cs with
  | error e => exact rfl
  | ok i =>
    dsimp only
    have hi := H.nodes i
    cases hA : A i with
    | none => rw [hA] at hi; cases hB : B i with
      | none => exact rfl
      | some m => rw [hB] at hi; cases hi
    | some n =>
      rw [hA] at hi
      cases hB : B i with
      | none => rw [hB] at hi; cases hi
      | some m =>
        rw [hB] at hi
        cases hi with
        | dir es a =>
          exact H.set i (.dir es (f a)) (fun es' a' e => by cases e; exact H.names i es a hA)
        | file c b a hr => exact H.set i (.file c b (f a) hr) (fun es a e => by cases e)
        | link t s a hr => exact H.set i (.link t s (f a) hr) (fun es a e => by cases e)

theorem Corr.opendir (cs : List Bytes) (h : ∀ c ∈ cs, U c) : B.opendir (cs.map enc) = A.opendir cs := by
  unfold Fs.opendir
  rw [H.walk cs 0 h]
  cases A.walk 0 cs with
  | error e => rfl
  | ok i =>
    dsimp only
    rw [H.entries i]
    cases A.entries i <;> rfl

end
end Securefs.Posix

namespace Securefs.Posix

/-! ## What stays -/

/-- Files keep their bytes and directories stay directories. -/
def Keeps (A A' : Fs) : Prop := (∀ i c, A.data i = some c → A'.data i = some c) ∧ ∀ i, A.isDir i = true → A'.isDir i = true

theorem Keeps.refl (A : Fs) : Keeps A A := ⟨fun _ _ h => h, fun _ h => h⟩

theorem Keeps.trans {A B C : Fs} (h : Keeps A B) (h' : Keeps B C) : Keeps A C :=
  ⟨fun i c e => h'.1 i c (h.1 i c e), fun i e => h'.2 i (h.2 i e)⟩

theorem keeps_alterDir (A : Fs) (d : Nat) (f : List (Bytes × Nat) → List (Bytes × Nat)) : Keeps A (A.alterDir d f) := by
  unfold Fs.alterDir
  split
  · rename_i es a h
    constructor
    · intro i c e
      unfold Fs.data Fs.set
      by_cases hi : i = d
      · subst hi; unfold Fs.data at e; rw [h] at e; cases e
      · rw [if_neg hi]; exact e
    · intro i e
      unfold Fs.isDir Fs.set
      by_cases hi : i = d
      · rw [if_pos hi]
      · rw [if_neg hi]; exact e
  · exact Keeps.refl A

theorem keeps_set (A : Fs) (i : Nat) (n : Node) (h : A i = none) : Keeps A (A.set i n) := by
  constructor
  · intro k c e
    unfold Fs.data Fs.set
    by_cases hk : k = i
    · subst hk; unfold Fs.data at e; rw [h] at e; cases e
    · rw [if_neg hk]; exact e
  · intro k e
    unfold Fs.isDir Fs.set
    by_cases hk : k = i
    · subst hk; unfold Fs.isDir at e; rw [h] at e; cases e
    · rw [if_neg hk]; exact e

theorem keeps_add {A A' : Fs} {cs : List Bytes} {id : Nat} {n : Node} (hid : A id = none) (h : A.add cs id n = .ok A') : Keeps A A' := by
  unfold Fs.add at h
  split at h
  · cases h
  · split at h
    · cases h
    · cases h; exact (keeps_set A id n hid).trans (keeps_alterDir _ _ _)

theorem keeps_link {A A' : Fs} {src dst : List Bytes} (h : A.link src dst = .ok A') : Keeps A A' := by
  unfold Fs.link at h
  split at h
  · cases h
  · split at h
    · cases h
    · split at h
      · cases h
      · split at h
        · cases h
        · cases h; exact keeps_alterDir _ _ _

theorem keeps_unlink {A A' : Fs} {cs : List Bytes} (h : A.unlink cs = .ok A') : Keeps A A' := by
  unfold Fs.unlink at h
  split at h
  · cases h
  · split at h
    · cases h
    · split at h
      · cases h
      · cases h; exact keeps_alterDir _ _ _

theorem keeps_rmdir {A A' : Fs} {cs : List Bytes} {full : Nat → Bool} (h : A.rmdir full cs = .ok A') : Keeps A A' := by
  unfold Fs.rmdir at h
  split at h
  · cases h
  · split at h
    · cases h
    · split at h
      · cases h
      · split at h
        · cases h; exact keeps_alterDir _ _ _
        · cases h

theorem keeps_move (A : Fs) (s t : Slot) (i : Nat) : Keeps A (A.move s t i) := (keeps_alterDir _ _ _).trans (keeps_alterDir _ _ _)

theorem keeps_rename {A A' : Fs} {src dst : List Bytes} {full : Nat → Bool} (h : A.rename full src dst = .ok A') : Keeps A A' := by
  unfold Fs.rename at h
  split at h
  · cases h
  split at h
  · cases h
  split at h
  · cases h
  split at h
  · cases h
  split at h
  · cases h; exact keeps_move _ _ _ _
  split at h
  · cases h; exact Keeps.refl _
  split at h
  · split at h
    · cases h
    · split at h
      · cases h; exact keeps_move _ _ _ _
      · cases h
  · split at h
    · cases h
    · cases h; exact keeps_move _ _ _ _

theorem keeps_setAttr {A A' : Fs} {f : Attr → Attr} {cs : List Bytes} (h : A.setAttr f cs = .ok A') : Keeps A A' := by
  unfold Fs.setAttr at h
  split at h
  · cases h
  split at h
  · cases h
  · rename_i i _ _ n hn
    cases h
    constructor
    · intro k c e
      unfold Fs.data Fs.set
      by_cases hk : k = i
      · subst hk
        rw [if_pos rfl]
        unfold Fs.data at e
        rw [hn] at e
        obtain ⟨kd, at'⟩ := n
        cases kd <;> first | exact e | cases e
      · rw [if_neg hk]; exact e
    · intro k e
      unfold Fs.isDir Fs.set
      by_cases hk : k = i
      · subst hk
        rw [if_pos rfl]
        unfold Fs.isDir at e
        rw [hn] at e
        obtain ⟨kd, at'⟩ := n
        cases kd <;> first | exact e | cases e
      · rw [if_neg hk]; exact e

theorem data_setData (A : Fs) (i k : Nat) (c : Bytes) : (A.setData i c).data k = if k = i then (A.data i).map fun _ => c else A.data k := by
  unfold Fs.setData
  split
  · rename_i c' a h
    unfold Fs.data Fs.set
    by_cases hk : k = i
    · rw [if_pos hk, if_pos hk, h]; rfl
    · rw [if_neg hk, if_neg hk]
  · rename_i h
    by_cases hk : k = i
    · rw [if_pos hk, hk]
      unfold Fs.data
      split
      · rename_i c' a e; exact absurd e (h c' a)
      · rfl
    · rw [if_neg hk]

theorem isDir_setData (A : Fs) (i k : Nat) (c : Bytes) : (A.setData i c).isDir k = A.isDir k := by
  unfold Fs.setData
  split
  · rename_i c' a h
    unfold Fs.isDir Fs.set
    by_cases hk : k = i
    · rw [if_pos hk, hk, h]
    · rw [if_neg hk]
  · rfl

theorem setData_self (A : Fs) (i : Nat) (c : Bytes) (h : A.data i = some c) : A.setData i c = A := by
  unfold Fs.data at h
  unfold Fs.setData
  split at h
  · rename_i c' a e
    cases h
    funext k
    unfold Fs.set
    split
    · rename_i hk; rw [hk, e]
    · rfl
  · cases h

/-! ## Which entries there are afterwards -/

/-- An entry of a directory. -/
def HasEntry (A : Fs) (d : Nat) (p : Bytes × Nat) : Prop := ∃ es a, A d = some ⟨.dir es, a⟩ ∧ p ∈ es

theorem hasEntry_alterDir {A : Fs} {d d' : Nat} {f : List (Bytes × Nat) → List (Bytes × Nat)} {p : Bytes × Nat}
    (h : HasEntry (A.alterDir d f) d' p) : (d' ≠ d ∧ HasEntry A d' p) ∨ (d' = d ∧ ∃ es a, A d = some ⟨.dir es, a⟩ ∧ p ∈ f es) := by
  obtain ⟨es, a, h1, h2⟩ := h
  by_cases hd : d' = d
  · subst hd
    refine Or.inr ⟨rfl, ?_⟩
    unfold Fs.alterDir at h1
    cases hA : A d' with
    | none => rw [hA] at h1; dsimp only at h1; rw [hA] at h1; cases h1
    | some n =>
      obtain ⟨kd, at'⟩ := n
      rw [hA] at h1
      cases kd with
      | dir es' =>
        dsimp only [Fs.set] at h1
        rw [if_pos rfl] at h1
        cases h1
        exact ⟨es', _, rfl, h2⟩
      | file c => dsimp only at h1; rw [hA] at h1; cases h1
      | link t => dsimp only at h1; rw [hA] at h1; cases h1
  · refine Or.inl ⟨hd, es, a, ?_, h2⟩
    unfold Fs.alterDir at h1
    cases hA : A d with
    | none => rw [hA] at h1; exact h1
    | some n =>
      obtain ⟨kd, at'⟩ := n
      rw [hA] at h1
      cases kd with
      | dir es' =>
        dsimp only [Fs.set] at h1
        rw [if_neg hd] at h1
        exact h1
      | file c => exact h1
      | link t => exact h1

theorem hasEntry_set {A : Fs} {i d : Nat} {n : Node} {p : Bytes × Nat} (hn : ∀ es a, n = ⟨.dir es, a⟩ → es = [])
    (h : HasEntry (A.set i n) d p) : HasEntry A d p := by
  obtain ⟨es, a, h1, h2⟩ := h
  unfold Fs.set at h1
  split at h1
  · rw [hn es a (Option.some.inj h1)] at h2; cases h2
  · exact ⟨es, a, h1, h2⟩

theorem slot_eq {A : Fs} {cs : List Bytes} {s : Slot} (h : A.slot cs = .ok s) : A.walk 0 cs.dropLast = .ok s.dir ∧ cs.getLast? = some s.name := by
  unfold Fs.slot at h
  split at h
  · cases h
  split at h
  · cases h
  split at h
  · cases h
  · cases h; exact ⟨by assumption, by assumption⟩

theorem hasEntry_add {A A' : Fs} {cs : List Bytes} {id : Nat} {n : Node} (hn : ∀ es a, n = ⟨.dir es, a⟩ → es = []) (h : A.add cs id n = .ok A') :
    ∃ d c, A.walk 0 cs.dropLast = .ok d ∧ cs.getLast? = some c ∧
      ∀ d' p, HasEntry A' d' p → HasEntry A d' p ∨ (d' = d ∧ p.1 = c) := by
  unfold Fs.add at h
  split at h
  · cases h
  rename_i s hs
  split at h
  · cases h
  cases h
  refine ⟨s.dir, s.name, (slot_eq hs).1, (slot_eq hs).2, fun d' p hp => ?_⟩
  rcases hasEntry_alterDir hp with ⟨_, h⟩ | ⟨rfl, es, a, h1, h2⟩
  · exact Or.inl (hasEntry_set hn h)
  · rcases List.mem_cons.mp h2 with rfl | h2
    · exact Or.inr ⟨rfl, rfl⟩
    · exact Or.inl (hasEntry_set hn ⟨es, a, h1, h2⟩)

theorem hasEntry_link {A A' : Fs} {src dst : List Bytes} (h : A.link src dst = .ok A') :
    ∃ d c, A.walk 0 dst.dropLast = .ok d ∧ dst.getLast? = some c ∧
      ∀ d' p, HasEntry A' d' p → HasEntry A d' p ∨ (d' = d ∧ p.1 = c) := by
  unfold Fs.link at h
  split at h
  · cases h
  split at h
  · cases h
  rename_i s hs
  split at h
  · cases h
  split at h
  · cases h
  cases h
  refine ⟨s.dir, s.name, (slot_eq hs).1, (slot_eq hs).2, fun d' p hp => ?_⟩
  rcases hasEntry_alterDir hp with ⟨_, h⟩ | ⟨rfl, es, a, h1, h2⟩
  · exact Or.inl h
  · rcases List.mem_cons.mp h2 with rfl | h2
    · exact Or.inr ⟨rfl, rfl⟩
    · exact Or.inl ⟨es, a, h1, h2⟩

theorem hasEntry_without {A : Fs} {d d' : Nat} {c : Bytes} {p : Bytes × Nat} (h : HasEntry (A.alterDir d fun es => without es c) d' p) :
    HasEntry A d' p ∧ ¬ (d' = d ∧ p.1 = c) := by
  rcases hasEntry_alterDir h with ⟨h1, h2⟩ | ⟨rfl, es, a, h1, h2⟩
  · exact ⟨h2, fun e => h1 e.1⟩
  · exact ⟨⟨es, a, h1, (mem_without h2).1⟩, fun e => (mem_without h2).2 e.2⟩

theorem hasEntry_unlink {A A' : Fs} {cs : List Bytes} (h : A.unlink cs = .ok A') :
    ∃ d c, A.walk 0 cs.dropLast = .ok d ∧ cs.getLast? = some c ∧
      ∀ d' p, HasEntry A' d' p → HasEntry A d' p ∧ ¬ (d' = d ∧ p.1 = c) := by
  unfold Fs.unlink at h
  split at h
  · cases h
  rename_i s hs
  split at h
  · cases h
  split at h
  · cases h
  cases h
  exact ⟨s.dir, s.name, (slot_eq hs).1, (slot_eq hs).2, fun d' p hp => hasEntry_without hp⟩

theorem hasEntry_rmdir {A A' : Fs} {cs : List Bytes} {full : Nat → Bool} (h : A.rmdir full cs = .ok A') :
    ∃ d c, A.walk 0 cs.dropLast = .ok d ∧ cs.getLast? = some c ∧
      ∀ d' p, HasEntry A' d' p → HasEntry A d' p ∧ ¬ (d' = d ∧ p.1 = c) := by
  unfold Fs.rmdir at h
  split at h
  · cases h
  rename_i s hs
  split at h
  · cases h
  split at h
  · cases h
  split at h
  · cases h
    exact ⟨s.dir, s.name, (slot_eq hs).1, (slot_eq hs).2, fun d' p hp => hasEntry_without hp⟩
  · cases h

theorem hasEntry_move {A : Fs} {s t : Slot} {i d' : Nat} {p : Bytes × Nat} (h : HasEntry (A.move s t i) d' p) :
    (HasEntry A d' p ∧ ¬ (d' = s.dir ∧ p.1 = s.name)) ∨ (d' = t.dir ∧ p.1 = t.name) := by
  rcases hasEntry_alterDir h with ⟨_, h2⟩ | ⟨rfl, es, a, h1, h2⟩
  · exact Or.inl (hasEntry_without h2)
  · rcases List.mem_cons.mp h2 with rfl | h2
    · exact Or.inr ⟨rfl, rfl⟩
    · exact Or.inl (hasEntry_without ⟨es, a, h1, (mem_without h2).1⟩)

/-- After a rename: the entry of the source is gone, unless both are the same node and nothing has happened. -/
theorem hasEntry_rename {A A' : Fs} {src dst : List Bytes} {full : Nat → Bool} (h : A.rename full src dst = .ok A') :
    ∃ s t, A.slot src = .ok s ∧ A.slot dst = .ok t ∧
      ((∀ d' p, HasEntry A' d' p → (HasEntry A d' p ∧ ¬ (d' = s.dir ∧ p.1 = s.name)) ∨ (d' = t.dir ∧ p.1 = t.name)) ∨
       (A' = A ∧ ∃ i, s.entries.lookup s.name = some i ∧ t.entries.lookup t.name = some i)) := by
  unfold Fs.rename at h
  split at h
  · cases h
  rename_i s hs
  split at h
  · cases h
  rename_i t ht
  split at h
  · cases h
  rename_i i hi
  refine ⟨s, t, hs, ht, ?_⟩
  split at h
  · cases h
  split at h
  · cases h; exact Or.inl fun d' p hp => hasEntry_move hp
  rename_i j hj
  split at h
  · rename_i e; cases h; exact Or.inr ⟨rfl, i, hi, by rw [hj, e]⟩
  split at h
  · split at h
    · cases h
    · split at h
      · cases h; exact Or.inl fun d' p hp => hasEntry_move hp
      · cases h
  · split at h
    · cases h
    · cases h; exact Or.inl fun d' p hp => hasEntry_move hp

theorem hasEntry_setAttr {A A' : Fs} {f : Attr → Attr} {cs : List Bytes} (h : A.setAttr f cs = .ok A') {d : Nat} {p : Bytes × Nat}
    (hp : HasEntry A' d p) : HasEntry A d p := by
  unfold Fs.setAttr at h
  split at h
  · cases h
  split at h
  · cases h
  · rename_i i _ _ n hn
    cases h
    obtain ⟨es, a, h1, h2⟩ := hp
    unfold Fs.set at h1
    split at h1
    · rename_i hd
      obtain ⟨kd, at'⟩ := n
      cases h1
      exact ⟨es, at', hd ▸ hn, h2⟩
    · exact ⟨es, a, h1, h2⟩

theorem hasEntry_setData {A : Fs} {i d : Nat} {c : Bytes} {p : Bytes × Nat} (h : HasEntry (A.setData i c) d p) : HasEntry A d p := by
  unfold Fs.setData at h
  split at h
  · exact hasEntry_set (fun es a e => by cases e) h
  · exact h

end Securefs.Posix
