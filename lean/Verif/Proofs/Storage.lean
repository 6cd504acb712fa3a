import Verif.Model.Storage
import Verif.Proofs.LiteVolumeRun
/-! Helper lemmas: the lite volume on a storage that is not honest. -/

namespace Securefs

open Posix Props
open Spec (SameVal Agrees Terms Deed Happening)

section
variable {V : LVol} {U L : Bytes → Prop} {enc full : Bytes → Bytes} {s : LSys} {a : Spec.Vol} {A : Fs}

/-- The relation without handles. -/
def Pictures (V : LVol) (U L : Bytes → Prop) (enc full : Bytes → Bytes) (s : LSys) (A : Fs) : Prop :=
  Shows V U L enc full { s with handles := [] } ⟨A, []⟩

theorem Shows.pictures (H : Shows V U L enc full s a) : Pictures V U L enc full s a.fs := ⟨H.tree, H.covered, H.good, H.tables, .nil⟩

theorem Pictures.tree (H : Pictures V U L enc full s A) : Corr enc U (FileRel V.cfg) (LinkRel V.tr L) A s.back := Shows.tree H

theorem Pictures.covered (H : Pictures V U L enc full s A) : ∀ d p, HasEntry A d p → full p.1 ≠ [] → (s.rows d).lookup (enc p.1) = some (full p.1) :=
  Shows.covered H

theorem Pictures.good (H : Pictures V U L enc full s A) :
    ∀ d b e, (s.rows d).lookup b = some e → ∃ c, U c ∧ full c ≠ [] ∧ b = enc c ∧ e = full c := fun d b e h => Shows.good H d b e h

theorem Pictures.tables (H : Pictures V U L enc full s A) : ∀ d, (s.tables d).isSome = true → A.isDir d = true ∧ ∃ c, full c ≠ [] := Shows.tables H

theorem seen_get {α β : Type} {R : α → β → Prop} {l : List α} {l' : List β} (h : List.Forall₂ R l l') (t : Nat) :
    (l[t]? = none ∧ l'[t]? = none) ∨ ∃ x y, l[t]? = some x ∧ l'[t]? = some y ∧ R x y := by
  induction h generalizing t with
  | nil => exact Or.inl ⟨rfl, rfl⟩
  | @cons x y l l' h _ ih =>
    cases t with
    | zero => exact Or.inr ⟨x, y, rfl, rfl, h⟩
    | succ t => exact ih t

theorem isDir_set_leaf {A : Fs} {j : Nat} {m n : Node} (hm : A j = some m) (h1 : Spec.isLeaf m.kind = true) (h2 : Spec.isLeaf n.kind = true) (k : Nat) :
    (A.set j n).isDir k = A.isDir k := by
  unfold Fs.isDir Fs.set
  by_cases hk : k = j
  · subst hk
    rw [if_pos rfl, hm]
    obtain ⟨mk, ma⟩ := m
    obtain ⟨nk, na⟩ := n
    cases mk <;> cases nk <;> simp_all [Spec.isLeaf]
  · rw [if_neg hk]

theorem isDir_set_kind {A : Fs} {j : Nat} {m : Node} (hm : A j = some m) (at' : Attr) (k : Nat) : (A.set j ⟨m.kind, at'⟩).isDir k = A.isDir k := by
  unfold Fs.isDir Fs.set
  by_cases hk : k = j
  · subst hk
    rw [if_pos rfl, hm]
    obtain ⟨mk, ma⟩ := m
    cases mk <;> rfl
  · rw [if_neg hk]

theorem hasEntry_set_kind {A : Fs} {j d : Nat} {m : Node} {at' : Attr} {p : Bytes × Nat} (hm : A j = some m) (h : HasEntry (A.set j ⟨m.kind, at'⟩) d p) :
    HasEntry A d p := by
  obtain ⟨es, a, h1, h2⟩ := h
  unfold Fs.set at h1
  split at h1
  · rename_i e
    subst e
    obtain ⟨mk, ma⟩ := m
    simp only [Option.some.injEq, Node.mk.injEq] at h1
    obtain ⟨rfl, rfl⟩ := h1
    exact ⟨es, ma, hm, h2⟩
  · exact ⟨es, a, h1, h2⟩

theorem isDir_alterDir' (A : Fs) (d k : Nat) (f : List (Bytes × Nat) → List (Bytes × Nat)) : (A.alterDir d f).isDir k = A.isDir k := by
  unfold Fs.alterDir
  split
  · rename_i es at' hd
    unfold Fs.isDir Fs.set
    by_cases hk : k = d
    · subst hk; rw [if_pos rfl, hd]
    · rw [if_neg hk]
  · rfl

/-- A change that adds no entries. -/
theorem Pictures.shrink (H : Pictures V U L enc full s A) {A' B' : Fs} (hc : Corr enc U (FileRel V.cfg) (LinkRel V.tr L) A' B')
    (he : ∀ d p, HasEntry A' d p → HasEntry A d p) (hd : ∀ d, A'.isDir d = A.isDir d) : Pictures V U L enc full { s with back := B' } A' := by
  refine ⟨hc, ?_, ?_, ?_, .nil⟩
  · exact fun d p hp hf => Pictures.covered H d p (he d p hp) hf
  · exact fun d b e h => Pictures.good H d b e h
  · intro d h
    have := Pictures.tables H d h
    exact ⟨by show A'.isDir d = true; rw [hd]; exact this.1, this.2⟩

theorem corr_leaf {A B : Fs} (H : Corr enc U FR LR A B) (i : Nat) : (A i = none ∧ B i = none) ∨
    ∃ n m, A i = some n ∧ B i = some m ∧ n.attr = m.attr ∧ NodeRel enc FR LR (some n) (some m) ∧ Spec.isLeaf m.kind = Spec.isLeaf n.kind := by
  have := H.nodes i
  generalize A i = x at this
  generalize B i = y at this
  cases this with
  | none => exact Or.inl ⟨rfl, rfl⟩
  | dir es at' => exact Or.inr ⟨_, _, rfl, rfl, rfl, .dir es at', rfl⟩
  | file c b at' h => exact Or.inr ⟨_, _, rfl, rfl, rfl, .file c b at' h, rfl⟩
  | link t s at' h => exact Or.inr ⟨_, _, rfl, rfl, rfl, .link t s at' h, rfl⟩

theorem nodeRel_attr {FR LR : Bytes → Bytes → Prop} {n m : Node} (h : NodeRel enc FR LR (some n) (some m)) (at' : Attr) :
    NodeRel enc FR LR (some ⟨n.kind, at'⟩) (some ⟨m.kind, at'⟩) := by
  cases h with
  | dir es _ => exact .dir es at'
  | file c b _ h => exact .file c b at' h
  | link t s _ h => exact .link t s at' h

theorem entryAt_corr {FR LR : Bytes → Bytes → Prop} {A B : Fs} (H : Corr enc U FR LR A B) (d k : Nat) :
    (Spec.entryAt A d k = none ∧ Spec.entryAt B d k = none) ∨
    ∃ c i, Spec.entryAt A d k = some (c, i) ∧ Spec.entryAt B d k = some (enc c, i) ∧ U c ∧ HasEntry A d (c, i) := by
  have h := H.nodes d
  have hn := H.names d
  unfold Spec.entryAt HasEntry
  generalize A d = x at h hn
  generalize B d = y at h
  cases h with
  | none => exact Or.inl ⟨rfl, rfl⟩
  | file c b at' h => exact Or.inl ⟨rfl, rfl⟩
  | link t s at' h => exact Or.inl ⟨rfl, rfl⟩
  | dir es at' =>
    dsimp only [mp]
    rw [List.getElem?_map]
    cases he : es[k]? with
    | none => exact Or.inl ⟨rfl, rfl⟩
    | some p =>
      obtain ⟨c, i⟩ := p
      have hm := List.mem_of_getElem? he
      exact Or.inr ⟨c, i, rfl, rfl, hn es at' rfl (c, i) hm, es, at', rfl, hm⟩

theorem mp_eraseIdx (es : List (Bytes × Nat)) (k : Nat) : (mp enc es).eraseIdx k = mp enc (es.eraseIdx k) := by
  unfold mp
  induction es generalizing k with
  | nil => rfl
  | cons p es ih =>
    cases k with
    | zero => rfl
    | succ k => simp only [List.map_cons, List.eraseIdx_cons_succ, ih]

/-- What the storage does to the backing tree, it does to the plain tree. -/
theorem Pictures.deed {pastB : List LSys} {pastA : List Fs} (hp : List.Forall₂ (Pictures V U L enc full) pastB pastA)
    (H : Pictures V U L enc full s A) (x : Deed) : Pictures V U L enc full (s.deed pastB x) (x.apply pastA A) := by
  have hget : ∀ t : Nat, (pastA[t]? = none ∧ (pastB.map LSys.back)[t]? = none ∧ pastB[t]? = none) ∨
      ∃ p S, pastA[t]? = some S ∧ (pastB.map LSys.back)[t]? = some p.back ∧ pastB[t]? = some p ∧ Pictures V U L enc full p S := by
    intro t
    rw [List.getElem?_map]
    rcases seen_get hp t with ⟨h1, h2⟩ | ⟨p, S, h1, h2, h3⟩
    · exact Or.inl ⟨h2, by rw [h1]; rfl, h1⟩
    · exact Or.inr ⟨p, S, h2, by rw [h1]; rfl, h1, h3⟩
  cases x with
  | replace j i t =>
    show Pictures V U L enc full { s with back := _, tables := s.tables } _
    simp only [Deed.apply]
    rcases hget t with ⟨h1, h2, _⟩ | ⟨p, S, h1, h2, _, h3⟩
    · rw [h1, h2]; exact H
    · rw [h1, h2]
      dsimp only
      unfold Spec.putContents
      rcases corr_leaf H.tree j with ⟨g1, g2⟩ | ⟨n, m, g1, g2, g3, g4, g5⟩
      · rw [g1, g2]; exact H
      · rw [g1, g2]
        rcases corr_leaf h3.tree i with ⟨k1, k2⟩ | ⟨n', m', k1, k2, k3, k4, k5⟩
        · rw [k1, k2]; exact H
        · rw [k1, k2]
          dsimp only
          rw [g5, k5]
          by_cases hl : (Spec.isLeaf n.kind && Spec.isLeaf n'.kind) = true
          · rw [if_pos hl, if_pos hl, ← g3]
            rw [Bool.and_eq_true] at hl
            refine H.shrink (H.tree.set j (nodeRel_attr k4 _) ?_) ?_ (isDir_set_leaf g1 hl.1 hl.2)
            · intro es at' e
              simp only [Node.mk.injEq] at e
              rw [e.1] at hl
              exact absurd hl.2 (by simp [Spec.isLeaf])
            · intro d q hq
              refine hasEntry_set ?_ hq
              intro es at' e
              simp only [Node.mk.injEq] at e
              rw [e.1] at hl
              exact absurd hl.2 (by simp [Spec.isLeaf])
          · rw [if_neg hl, if_neg hl]; exact H
  | attr j at' =>
    show Pictures V U L enc full { s with back := _, tables := s.tables } _
    simp only [Deed.apply]
    rcases corr_leaf H.tree j with ⟨g1, g2⟩ | ⟨n, m, g1, g2, g3, g4, g5⟩
    · rw [g1, g2]; exact H
    · rw [g1, g2]
      dsimp only
      refine H.shrink (H.tree.set j (nodeRel_attr g4 at') ?_) (fun d q hq => hasEntry_set_kind g1 hq) (isDir_set_kind g1 at')
      intro es a2 e
      simp only [Node.mk.injEq] at e
      obtain ⟨nk, na⟩ := n
      dsimp only at e
      rw [e.1] at g1
      exact H.tree.names j es na g1
  | unname d k =>
    show Pictures V U L enc full { s with back := _, tables := s.tables } _
    simp only [Deed.apply]
    refine H.shrink (H.tree.alterDir d ?_) ?_ (fun x => isDir_alterDir' A d x _)
    · intro es at' h
      exact ⟨mp_eraseIdx es k, fun p hp => H.tree.names d es at' h p (List.mem_of_mem_eraseIdx hp)⟩
    · intro x q hq
      rcases hasEntry_alterDir hq with ⟨_, h⟩ | ⟨rfl, es, at', h1, h2⟩
      · exact h
      · exact ⟨es, at', h1, List.mem_of_mem_eraseIdx h2⟩
  | name d d' t k i =>
    show Pictures V U L enc full { s with back := _, tables := s.deedTables pastB (.name d d' t k i) } _
    simp only [Deed.apply, LSys.deedTables]
    rcases hget t with ⟨h1, h2, h2'⟩ | ⟨p, S, h1, h2, h2', h3⟩
    · rw [h1, h2, h2']; exact H
    · rw [h1, h2, h2']
      dsimp only
      rcases entryAt_corr h3.tree d' k with ⟨e1, e2⟩ | ⟨c, x, e1, e2, e3, e4⟩
      · rw [e1, e2]; exact H
      · rw [e1, e2]
        dsimp only [Spec.putName]
        have hsome : (s.back i).isSome = (A i).isSome := by
          rcases corr_leaf H.tree i with ⟨g1, g2⟩ | ⟨n, m, g1, g2, _⟩ <;> rw [g1, g2]
          rfl
        rw [hsome]
        have hcorr : Corr enc U (FileRel V.cfg) (LinkRel V.tr L) (A.alterDir d fun es => if (es.lookup c).isSome then es else (c, i) :: es)
            (s.back.alterDir d fun es => if (es.lookup (enc c)).isSome then es else (enc c, i) :: es) := by
          refine H.tree.alterDir d fun es at' h => ⟨?_, ?_⟩
          · rw [lookup_mp H.tree.inj es (H.tree.names d es at' h) c e3]
            split <;> rfl
          · intro q hq
            split at hq
            · exact H.tree.names d es at' h q hq
            · rcases List.mem_cons.mp hq with rfl | hq
              · exact e3
              · exact H.tree.names d es at' h q hq
        -- the tables
        have htab : ∀ (B' A' : Fs), Corr enc U (FileRel V.cfg) (LinkRel V.tr L) A' B' → (∀ x, A'.isDir x = A.isDir x) →
            (∀ x q, HasEntry A' x q → HasEntry A x q ∨ (x = d ∧ q.1 = c ∧ A.isDir d = true)) →
            Pictures V U L enc full
              { s with back := B', tables := (match (p.rows d').lookup (enc c) with
                  | none => s.tables
                  | some e => if s.back.isDir d then upd s.tables d (some ((enc c, e) :: s.rows d)) else s.tables) } A' := by
          intro B' A' hc hdir hent
          have hcov := fun hf => Pictures.covered h3 d' (c, x) e4 hf
          change full c ≠ [] → (p.rows d').lookup (enc c) = some (full c) at hcov
          have hgood := Pictures.good h3 d' (enc c)
          change ∀ e, (p.rows d').lookup (enc c) = some e → _ at hgood
          cases hl : (p.rows d').lookup (enc c) with
          | none =>
            dsimp only
            have hfull : full c = [] := by
              by_contra hne
              rw [hcov hne] at hl
              cases hl
            refine ⟨hc, ?_, fun d b e h => Pictures.good H d b e h, ?_, .nil⟩
            · intro y q hq hf
              rcases hent y q hq with h | ⟨_, h, _⟩
              · exact Pictures.covered H y q h hf
              · rw [h] at hf; exact absurd hfull hf
            · intro y hy
              have := Pictures.tables H y hy
              exact ⟨by show A'.isDir y = true; rw [hdir]; exact this.1, this.2⟩
          | some e =>
            dsimp only
            obtain ⟨c', u1, u2, u3, u4⟩ := hgood e hl
            have hcc : c = c' := H.tree.inj c c' e3 u1 u3
            subst hcc
            have hBdir : s.back.isDir d = A.isDir d := H.tree.isDir d
            by_cases hd : A.isDir d = true
            · rw [hBdir, if_pos hd]
              have hrows : ∀ y, LSys.rows { s with back := B', tables := upd s.tables d (some ((enc c, e) :: s.rows d)), handles := [] } y
                  = if y = d then (enc c, e) :: s.rows d else s.rows y :=
                fun y => rows_upd s d y _ _ rfl _ rfl
              refine ⟨hc, ?_, ?_, ?_, .nil⟩
              · intro y q hq hf
                change (LSys.rows { s with back := B', tables := upd s.tables d (some ((enc c, e) :: s.rows d)), handles := [] } y).lookup _ = _
                rw [hrows]
                by_cases hy : y = d
                · rw [if_pos hy, List.lookup_cons]
                  by_cases hqc : enc q.1 = enc c
                  · rw [hqc, beq_self_eq_true, u4]
                    have hUq : U q.1 := by
                      obtain ⟨es, a2, r1, r2⟩ := hq
                      exact hc.names y es a2 r1 q r2
                    rw [H.tree.inj q.1 c hUq e3 hqc]
                  · rw [beq_eq_false_iff_ne.mpr hqc]
                    rcases hent y q hq with h | ⟨_, h, _⟩
                    · have := Pictures.covered H y q h hf
                      rw [hy] at this
                      exact this
                    · rw [h] at hqc; exact absurd rfl hqc
                · rw [if_neg hy]
                  rcases hent y q hq with h | ⟨h, _, _⟩
                  · exact Pictures.covered H y q h hf
                  · exact absurd h hy
              · intro y b e' hb
                change (LSys.rows { s with back := B', tables := upd s.tables d (some ((enc c, e) :: s.rows d)), handles := [] } y).lookup _ = _ at hb
                rw [hrows] at hb
                by_cases hy : y = d
                · rw [if_pos hy, List.lookup_cons] at hb
                  by_cases hqc : b = enc c
                  · rw [hqc, beq_self_eq_true] at hb
                    cases hb
                    exact ⟨c, u1, u2, hqc, u4⟩
                  · rw [beq_eq_false_iff_ne.mpr hqc] at hb
                    exact Pictures.good H d b e' hb
                · rw [if_neg hy] at hb
                  exact Pictures.good H y b e' hb
              · intro y hy
                refine ⟨?_, c, u2⟩
                show A'.isDir y = true
                rw [hdir]
                change (upd s.tables d (some ((enc c, e) :: s.rows d)) y).isSome = true at hy
                unfold upd at hy
                by_cases hyd : y = d
                · rw [hyd]; exact hd
                · rw [if_neg hyd] at hy
                  exact (Pictures.tables H y hy).1
            · rw [hBdir, if_neg hd]
              refine ⟨hc, ?_, fun d b e h => Pictures.good H d b e h, ?_, .nil⟩
              · intro y q hq hf
                rcases hent y q hq with h | ⟨_, _, h⟩
                · exact Pictures.covered H y q h hf
                · exact absurd h hd
              · intro y hy
                have := Pictures.tables H y hy
                exact ⟨by show A'.isDir y = true; rw [hdir]; exact this.1, this.2⟩
        by_cases hi : (A i).isSome = true
        · rw [if_pos hi, if_pos hi]
          refine htab _ _ hcorr (fun x => isDir_alterDir' A d x _) ?_
          intro y q hq
          rcases hasEntry_alterDir hq with ⟨_, h⟩ | ⟨rfl, es, at', g1, g2⟩
          · exact Or.inl h
          · split at g2
            · exact Or.inl ⟨es, at', g1, g2⟩
            · rcases List.mem_cons.mp g2 with rfl | g2
              · refine Or.inr ⟨rfl, rfl, ?_⟩
                unfold Fs.isDir
                rw [g1]
              · exact Or.inl ⟨es, at', g1, g2⟩
        · rw [if_neg hi, if_neg hi]
          exact htab _ _ H.tree (fun _ => rfl) (fun _ _ h => Or.inl h)

theorem Pictures.away {pastB : List LSys} {pastA : List Fs} (hp : List.Forall₂ (Pictures V U L enc full) pastB pastA) :
    ∀ (xs : List Deed) {s : LSys} {A : Fs}, Pictures V U L enc full s A → Pictures V U L enc full (xs.foldl (LSys.deed pastB) s) (xs.foldl (Deed.apply pastA) A)
  | [], _, _, H => H
  | x :: xs, _, _, H => Pictures.away hp xs (H.deed hp x)

theorem deed_handles (pastB : List LSys) : ∀ (xs : List Deed) (s : LSys), (xs.foldl (LSys.deed pastB) s).handles = s.handles
  | [], _ => rfl
  | x :: xs, s => deed_handles pastB xs (s.deed pastB x)

/-- Where the storage makes tables. -/
theorem deed_marks {X : Terms} {pastB : List LSys} {pastA : List Fs} (hX : ∀ c, X.long c = true ↔ full c ≠ [])
    (hp : List.Forall₂ (Pictures V U L enc full) pastB pastA) (H : Pictures V U L enc full s A) (x : Deed) (d : Nat)
    (h : ((s.deed pastB x).tables d).isSome = true) : (s.tables d).isSome = true ∨ d ∈ X.deedMarks pastA x := by
  cases x with
  | replace j i t => exact Or.inl h
  | attr j at' => exact Or.inl h
  | unname d k => exact Or.inl h
  | name e d' t k i =>
    change ((s.deedTables pastB (.name e d' t k i)) d).isSome = true at h
    simp only [LSys.deedTables, Terms.deedMarks] at h ⊢
    rcases seen_get hp t with ⟨h1, h2⟩ | ⟨p, S, h1, h2, h3⟩
    · rw [h1] at h; exact Or.inl h
    · rw [h1] at h
      rw [h2]
      dsimp only at h ⊢
      rcases entryAt_corr h3.tree d' k with ⟨e1, e2⟩ | ⟨c, y, e1, e2, e3, e4⟩
      · rw [e2] at h; exact Or.inl h
      · rw [e2] at h
        rw [e1]
        dsimp only at h ⊢
        cases hl : (p.rows d').lookup (enc c) with
        | none => rw [hl] at h; exact Or.inl h
        | some r =>
          rw [hl] at h
          dsimp only at h
          split at h
          · unfold upd at h
            by_cases hd : d = e
            · right
              obtain ⟨c', u1, u2, u3, _⟩ := Pictures.good h3 d' (enc c) r hl
              have hcc : c = c' := H.tree.inj c c' e3 u1 u3
              subst hcc
              rw [if_pos ((hX c).mpr u2), hd]
              exact List.mem_singleton.mpr rfl
            · rw [if_neg hd] at h; exact Or.inl h
          · exact Or.inl h

theorem away_marks {X : Terms} {pastB : List LSys} {pastA : List Fs} (hX : ∀ c, X.long c = true ↔ full c ≠ [])
    (hp : List.Forall₂ (Pictures V U L enc full) pastB pastA) : ∀ (xs : List Deed) {s : LSys} {A : Fs} (_ : Pictures V U L enc full s A) (d : Nat),
    ((xs.foldl (LSys.deed pastB) s).tables d).isSome = true → (s.tables d).isSome = true ∨ d ∈ xs.flatMap (X.deedMarks pastA)
  | [], _, _, _, _, h => Or.inl h
  | x :: xs, _, _, H, d, h => by
    rw [List.flatMap_cons]
    rcases away_marks hX hp xs (H.deed hp x) d h with h | h
    · rcases deed_marks hX hp H x d h with h | h
      · exact Or.inl h
      · exact Or.inr (List.mem_append_left _ h)
    · exact Or.inr (List.mem_append_right _ h)

/-- The volume answers as the plain tree to which the storage has done the same. -/
theorem sim_watch (hC : V.cfg.WF) {aes : Bytes → Bytes} (hpad : V.cfg.padding = LiteCfg.computePadding V.maxPad aes)
    (horder : ∀ l, (V.order l).Perm l) (hT : Scheme V.tr U L enc full) {X : Terms} (hX : Describes X V U L full) :
    ∀ (hs : List Happening) {s : LSys} {a : Spec.Vol} (_ : Shows V U L enc full s a) {pastB : List LSys} {pastA : List Fs}
    (_ : List.Forall₂ (Pictures V U L enc full) pastB pastA) (marked : List Nat)
    (_ : ∀ d, (s.tables d).isSome = true → d ∈ marked) (_ : X.WatchFits marked pastA a hs),
    List.Forall₂ Agrees (a.watch pastA hs) (V.watch pastB s hs)
  | [], _, _, _, _, _, _, _, _, _ => .nil
  | .call fault c :: rest, s, a, H, pastB, pastA, hp, marked, hM, hf => by
    obtain ⟨h1, h2⟩ := sim_step hC hpad horder hT hX H marked hM fault c hf.1
    refine .cons h1 (sim_watch hC hpad horder hT hX rest h2 (.cons h2.pictures hp) _ ?_ hf.2)
    intro d hd
    rcases tables_step hT H hX.long hX.name marked fault c hf.1 d hd with h | h
    · exact List.mem_append_right _ (hM d h)
    · exact List.mem_append_left _ h
  | .away deeds :: rest, s, a, H, pastB, pastA, hp, marked, hM, hf => by
    have h0 : Pictures V U L enc full { s with handles := [] } a.fs := H.pictures
    have h1 := h0.away hp deeds
    have h2 : Shows V U L enc full (LVol.away pastB s deeds) ⟨deeds.foldl (Deed.apply pastA) a.fs, []⟩ := by
      have h3 : (LVol.away pastB s deeds).handles = [] := deed_handles pastB deeds _
      refine ⟨h1.tree, Pictures.covered h1, Pictures.good h1, Pictures.tables h1, ?_⟩
      show List.Forall₂ _ [] (LVol.away pastB s deeds).handles
      rw [h3]
      exact .nil
    refine sim_watch hC hpad horder hT hX rest h2 (.cons h1 hp) _ ?_ hf
    intro d hd
    rcases away_marks hX.long hp deeds h0 d hd with h | h
    · exact List.mem_append_right _ (hM d h)
    · exact List.mem_append_left _ h


/-! ## Nothing that was never there -/

/-- A content that was there. -/
def Known (seen : List Fs) (n : Node) : Prop := Spec.isLeaf n.kind = true → ∃ t ∈ seen, ∃ i' n', t i' = some n' ∧ n'.kind = n.kind

/-- A name that was there. -/
def NameKnown (seen : List Fs) (c : Bytes) : Prop := ∃ t ∈ seen, ∃ d' es' a', t d' = some ⟨.dir es', a'⟩ ∧ ∃ j, (c, j) ∈ es'

/-- A tree in which nothing is new. -/
structure Old (seen : List Fs) (fs g : Fs) : Prop where
  node : ∀ i n, g i = some n → Known seen n
  name : ∀ d es a, g d = some ⟨.dir es, a⟩ → ∀ p ∈ es, NameKnown seen p.1
  keeps : ∀ i, (g i).isSome = (fs i).isSome
  dir : ∀ i, g.isDir i = fs.isDir i

theorem Old.set {seen : List Fs} {fs g : Fs} (H : Old seen fs g) {j : Nat} {m n : Node} (hm : g j = some m) (h1 : Known seen n)
    (h2 : ∀ es, n.kind = .dir es → ∀ p ∈ es, NameKnown seen p.1) (h3 : Spec.isLeaf n.kind = Spec.isLeaf m.kind) : Old seen fs (g.set j n) := by
  refine ⟨fun i x hi => ?_, fun d es a hd => ?_, fun i => ?_, fun i => ?_⟩
  · unfold Fs.set at hi
    split at hi
    · cases hi; exact h1
    · exact H.node i x hi
  · unfold Fs.set at hd
    split at hd
    · cases hd; exact h2 es rfl
    · exact H.name d es a hd
  · rw [← H.keeps i]
    unfold Fs.set
    split
    · rename_i h; rw [h, hm]; rfl
    · rfl
  · rw [← H.dir i]
    unfold Fs.set Fs.isDir
    dsimp only
    by_cases h : i = j
    · rw [if_pos h, h, hm]
      obtain ⟨mk, ma⟩ := m
      obtain ⟨nk, na⟩ := n
      cases mk <;> cases nk <;> simp_all [Spec.isLeaf]
    · rw [if_neg h]

theorem Old.alterDir {seen : List Fs} {fs g : Fs} (H : Old seen fs g) (d : Nat) {f : List (Bytes × Nat) → List (Bytes × Nat)}
    (h : ∀ es, (∀ p ∈ es, NameKnown seen p.1) → ∀ p ∈ f es, NameKnown seen p.1) : Old seen fs (g.alterDir d f) := by
  unfold Fs.alterDir
  split
  · rename_i es a hd
    refine H.set hd (fun h => by cases h) ?_ rfl
    intro es' he
    cases he
    exact h es (H.name d es a hd)
  · exact H

theorem Old.deed {past : List Fs} {fs g : Fs} (H : Old (fs :: past) fs g) (x : Deed) : Old (fs :: past) fs (x.apply past g) := by
  cases x with
  | replace j i t =>
    simp only [Deed.apply]
    cases ht : past[t]? with
    | none => exact H
    | some seen =>
      dsimp only
      unfold Spec.putContents
      split
      · rename_i m n hm hn
        split
        · rename_i hc
          rw [Bool.and_eq_true] at hc
          refine H.set hm (fun _ => ⟨seen, List.mem_cons_of_mem _ (List.mem_of_getElem? ht), i, n, hn, rfl⟩) ?_ ?_
          · intro es he
            have he : n.kind = .dir es := he
            rw [he] at hc
            cases hc.2
          · rw [hc.1]; exact hc.2
        · exact H
      · exact H
  | attr j a =>
    simp only [Deed.apply]
    cases hj : g j with
    | none => exact H
    | some n =>
      dsimp only
      refine H.set hj (H.node j n hj) ?_ rfl
      intro es he
      obtain ⟨nk, na⟩ := n
      have he : nk = .dir es := he
      subst he
      exact H.name j es na hj
  | name d d' t k i =>
    simp only [Deed.apply]
    cases ht : past[t]? with
    | none => exact H
    | some seen =>
      dsimp only
      unfold Spec.putName
      cases he : Spec.entryAt seen d' k with
      | none => exact H
      | some e =>
        obtain ⟨c, j⟩ := e
        dsimp only
        split
        · refine H.alterDir d fun es hes => ?_
          split
          · exact hes
          · intro p hp
            rcases List.mem_cons.mp hp with h | h
            · subst h
              unfold Spec.entryAt at he
              split at he
              · rename_i es' a' hd
                exact ⟨seen, List.mem_cons_of_mem _ (List.mem_of_getElem? ht), d', es', a', hd, j, List.mem_of_getElem? he⟩
              · cases he
            · exact hes p h
        · exact H
  | unname d k =>
    exact H.alterDir d fun es hes p hp => hes p ((List.eraseIdx_sublist es k).subset hp)

theorem nothing_new (past : List Fs) (fs : Fs) (deeds : List Deed) : Old (fs :: past) fs (deeds.foldl (Deed.apply past) fs) := by
  have h0 : Old (fs :: past) fs fs :=
    ⟨fun i n h _ => ⟨fs, List.mem_cons_self, i, n, h, rfl⟩, fun d es a h p hp => ⟨fs, List.mem_cons_self, d, es, a, h, p.2, hp⟩, fun _ => rfl, fun _ => rfl⟩
  generalize hg : fs = g at h0 ⊢
  have : ∀ (l : List Deed) (x : Fs), Old (g :: past) g x → Old (g :: past) g (l.foldl (Deed.apply past) x) := by
    intro l
    induction l with
    | nil => exact fun x h => h
    | cons y l ih => exact fun x h => ih _ (h.deed y)
  exact this deeds g h0

/-! ## An answer that deceives -/

theorem not_right {l hon : List (Except Nat Spec.Val)} {got : List (Res Spec.Val)} (h : List.Forall₂ Agrees l got) (k : Nat) {v w : Spec.Val}
    (h1 : l[k]? = some (.ok w)) (h2 : hon[k]? = some (.ok v)) (h3 : ∀ x, SameVal w x → ¬ SameVal v x) : ¬ List.Forall₂ Spec.Right hon got := by
  intro h'
  rcases seen_get h k with ⟨g, _⟩ | ⟨x, y, g1, g2, g3⟩
  · rw [h1] at g; cases g
  · rw [h1] at g1
    cases g1
    rcases seen_get h' k with ⟨g, _⟩ | ⟨x', y', g4, g5, g6⟩
    · rw [h2] at g; cases g
    · rw [h2] at g4
      cases g4
      rw [g2] at g5
      cases g5
      cases y with
      | error e => exact g3
      | ok z =>
        rcases g6 with g6 | ⟨e, g6⟩
        · exact h3 z g3 g6
        · cases g6


/-! ## The name of a file stays the same -/

theorem stream_refines_id {C : LiteCfg} (hC : C.WF) (o : LiteObj) :
    C.stream.Refines (fun p c => LiteCfg.SRepr C p c ∧ p.1 = o) (liteMaxBlocks * C.bs) := by
  refine ⟨?_, ?_, ?_, ?_, ?_⟩
  · intro p c off len hR hl
    exact (LiteCfg.refines hC).read_refines hR.1.1 off len hl
  · intro p c off d hR hl
    obtain ⟨st', h1, h2⟩ := (LiteCfg.refines hC).write_refines hR.1.1 off d hl
    refine ⟨(p.1, st'), ?_, ⟨h2, hR.1.2⟩, hR.2⟩
    simp only [LiteCfg.stream, h1, bind, Except.bind]
  · intro p c n hR hl
    obtain ⟨st', h1, h2⟩ := (LiteCfg.refines hC).resize_refines hR.1.1 n hl
    refine ⟨(p.1, st'), ?_, ⟨h2, hR.1.2⟩, hR.2⟩
    simp only [LiteCfg.stream, h1, bind, Except.bind]
  · intro p c hR
    exact LiteCfg.dev_size hC hR.1.1
  · intro p c hR
    exact ⟨p, LiteCfg.openFile_existing hC hR.1.1 hR.1.2, hR⟩

end
end Securefs
