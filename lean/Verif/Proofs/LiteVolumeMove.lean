import Verif.Proofs.LiteVolume
import Mathlib.Data.List.Forall2
import Mathlib.Data.List.TakeWhile
/-!
# The lite volume shows a plain tree: renaming, attributes and links
-/

namespace Securefs

open Posix Props
open Spec (SameVal Agrees)

section
variable {V : LVol} {U L : Bytes → Prop} {enc full : Bytes → Bytes} {s : LSys} {a : Spec.Vol}

/-! ## Renaming -/

theorem rows_setRows (s : LSys) (d k : Nat) (r : List (Bytes × Bytes)) : (s.setRows d r).rows k = if k = d then r else s.rows k :=
  rows_upd s d k r _ rfl _ rfl

theorem some_setRows {s : LSys} {d k : Nat} {r : List (Bytes × Bytes)} (h : ((s.setRows d r).tables k).isSome = true) :
    k = d ∨ (s.tables k).isSome = true := by
  by_cases e : k = d
  · exact Or.inl e
  · right
    unfold LSys.setRows upd at h
    dsimp only at h
    rwa [if_neg e] at h

/-- The rows of the source's directory without the source. -/
def rowsGone (p : Bytes × Bytes) (d : Nat) (s : LSys) (k : Nat) : List (Bytes × Bytes) :=
  if p.2 ≠ [] ∧ k = d then dropKey (s.rows d) (afterSlash p.1) else s.rows k

/-- The rows after a rename. -/
def rowsMoved (p q : Bytes × Bytes) (d e : Nat) (s : LSys) (k : Nat) : List (Bytes × Bytes) :=
  if q.2 ≠ [] ∧ k = e then insertOrIgnore (rowsGone p d s k) (afterSlash q.1) q.2 else rowsGone p d s k

theorem renameRows_eq (p q : Bytes × Bytes) (d e : Nat) (s : LSys) :
    ∃ t, LVol.renameRows p q d e s = { s with tables := t } ∧ (∀ k, LSys.rows { s with tables := t } k = rowsMoved p q d e s k) ∧
      ∀ k, (t k).isSome = true → (s.tables k).isSome = true ∨ k = d ∨ k = e := by
  refine ⟨(LVol.renameRows p q d e s).tables, ?_, ?_, ?_⟩
  · unfold LVol.renameRows LSys.setRows
    cases p.2 <;> cases q.2 <;> rfl
  · intro k
    show (LVol.renameRows p q d e s).rows k = _
    unfold LVol.renameRows rowsMoved rowsGone
    have h2 : ∀ k, ((s.setRows d (s.rows d)).setRows e ((s.setRows d (s.rows d)).rows e)).rows k = s.rows k := by
      intro k
      rw [rows_setRows, rows_setRows, rows_setRows]
      split
      · rename_i h; rw [h]; split
        · rename_i h; rw [h]
        · rfl
      · split
        · rename_i h; rw [h]
        · rfl
    dsimp only
    generalize (s.setRows d (s.rows d)).setRows e ((s.setRows d (s.rows d)).rows e) = s2 at h2
    have h3 : ∀ k, LSys.rows (if p.2.isEmpty = true then s2 else s2.setRows d (dropKey (s2.rows d) (afterSlash p.1))) k =
        if p.2 ≠ [] ∧ k = d then dropKey (s.rows d) (afterSlash p.1) else s.rows k := by
      intro k
      by_cases hp : p.2 = []
      · rw [if_pos (by rw [hp]; rfl), if_neg (fun h => h.1 hp), h2]
      · rw [if_neg (by simpa using hp), rows_setRows, h2, h2]
        by_cases hk : k = d
        · rw [if_pos hk, if_pos ⟨hp, hk⟩]
        · rw [if_neg hk, if_neg (fun h => hk h.2)]
    generalize (if p.2.isEmpty = true then s2 else s2.setRows d (dropKey (s2.rows d) (afterSlash p.1))) = s3 at h3
    by_cases hq : q.2 = []
    · rw [if_pos (by rw [hq]; rfl), if_neg (fun h => h.1 hq), h3]
    · rw [if_neg (by simpa using hq), rows_setRows, h3, h3]
      by_cases hk : k = e
      · rw [if_pos hk, if_pos (c := q.2 ≠ [] ∧ k = e) ⟨hq, hk⟩, hk]
      · rw [if_neg hk, if_neg (c := q.2 ≠ [] ∧ k = e) (fun h => hk h.2)]
  · intro k hk
    unfold LVol.renameRows at hk
    have h2 : (((s.setRows d (s.rows d)).setRows e ((s.setRows d (s.rows d)).rows e)).tables k).isSome = true → (s.tables k).isSome = true ∨ k = d ∨ k = e := by
      intro h
      rcases some_setRows h with h | h
      · exact Or.inr (Or.inr h)
      · rcases some_setRows h with h | h
        · exact Or.inr (Or.inl h)
        · exact Or.inl h
    dsimp only at hk
    generalize (s.setRows d (s.rows d)).setRows e ((s.setRows d (s.rows d)).rows e) = s2 at h2 hk
    have h3 : ((if p.2.isEmpty = true then s2 else s2.setRows d (dropKey (s2.rows d) (afterSlash p.1))).tables k).isSome = true →
        (s.tables k).isSome = true ∨ k = d ∨ k = e := by
      intro h
      split at h
      · exact h2 h
      · rcases some_setRows h with h | h
        · exact Or.inr (Or.inl h)
        · exact h2 h
    generalize (if p.2.isEmpty = true then s2 else s2.setRows d (dropKey (s2.rows d) (afterSlash p.1))) = s3 at h3 hk
    split at hk
    · exact h3 hk
    · rcases some_setRows hk with h | h
      · exact Or.inr (Or.inr h)
      · exact h3 h

/-- After a rename. -/
theorem Shows.renamed (hT : Scheme V.tr U L enc full) (H : Shows V U L enc full s a) {A' B' : Fs}
    (hc : Corr enc U (FileRel V.cfg) (LinkRel V.tr L) A' B') (hA : Keeps a.fs A') (hB : Keeps s.back B') (p q : Bytes × Bytes) (d e : Nat)
    (c c' : Bytes) (hU : U c) (hU' : U c') (hp : p.2 = full c) (hq : q.2 = full c') (hpn : full c ≠ [] → afterSlash p.1 = enc c)
    (hqn : full c' ≠ [] → afterSlash q.1 = enc c')
    (hg : ∀ k x, HasEntry A' k x → full x.1 ≠ [] →
      (HasEntry a.fs k x ∧ (full c ≠ [] → ¬ (k = d ∧ x.1 = c))) ∨ (k = e ∧ x.1 = c'))
    (t : Nat → Option (List (Bytes × Bytes))) (hr : ∀ k, LSys.rows { s with tables := t } k = rowsMoved p q d e s k)
    (ht : ∀ k, (t k).isSome = true → a.fs.isDir k = true ∧ ∃ c, full c ≠ []) :
    Shows V U L enc full { s with tables := t, back := B' } { a with fs := A' } := by
  have hgone : ∀ k b x, (rowsGone p d s k).lookup b = some x → (s.rows k).lookup b = some x := by
    intro k b x h
    unfold rowsGone at h
    split at h
    · rename_i hk
      rw [lookup_dropKey] at h
      split at h
      · cases h
      · rw [hk.2]; exact h
    · exact h
  refine ⟨hc, ?_, ?_, ?_, H.handles_keep hA hB⟩
  · intro k x hx hf
    show (LSys.rows { s with tables := t } k).lookup (enc x.1) = _
    rw [hr k]
    unfold rowsMoved
    rcases hg k x hx hf with ⟨h1, h2⟩ | ⟨rfl, h2⟩
    · have h3 : (rowsGone p d s k).lookup (enc x.1) = some (full x.1) := by
        have := H.covered k x h1 hf
        unfold rowsGone
        split
        · rename_i hk
          obtain ⟨hk1, rfl⟩ := hk
          rw [hp] at hk1
          rw [lookup_dropKey, if_neg, this]
          rw [hpn hk1]
          intro e1
          obtain ⟨es, at', q1, q2⟩ := h1
          exact h2 hk1 ⟨rfl, hT.inj _ _ (H.tree.names _ _ _ q1 x q2) hU e1⟩
        · exact this
      split
      · rw [lookup_insertOrIgnore]
        split
        · rename_i e1; rw [← e1.1, h3] at e1; cases e1.2
        · exact h3
      · exact h3
    · rw [h2] at hf ⊢
      rw [if_pos ⟨hq ▸ hf, rfl⟩, hqn hf, hq, lookup_insertOrIgnore]
      split
      · rfl
      · rename_i hn
        cases hl : (rowsGone p d s k).lookup (enc c') with
        | none => exact absurd ⟨rfl, hl⟩ hn
        | some x =>
          obtain ⟨c2, u1, _, u3, u4⟩ := H.good k _ _ (hgone k _ x hl)
          rw [hT.inj _ _ hU' u1 u3, u4]
  · intro k b x hx
    change (LSys.rows { s with tables := t } k).lookup b = _ at hx
    rw [hr k] at hx
    unfold rowsMoved at hx
    split at hx
    · rename_i hk
      rw [lookup_insertOrIgnore] at hx
      split at hx
      · rename_i hb
        cases hx
        rw [hq] at hk ⊢
        exact ⟨c', hU', hk.1, by rw [hb.1, hqn hk.1], rfl⟩
      · exact H.good k b x (hgone k b x hx)
    · exact H.good k b x (hgone k b x hx)
  · intro k hk
    obtain ⟨r1, r2⟩ := ht k hk
    exact ⟨hA.2 k r1, r2⟩

theorem sim_rename (hT : Scheme V.tr U L enc full) (H : Shows V U L enc full s a) (fault : Option Nat) (src dst : List Bytes)
    (hs : ∀ c ∈ src, U c) (hd : ∀ c ∈ dst, U c) (hs0 : src ≠ []) (hd0 : dst ≠ []) (hps : ∃ d, a.fs.opendir src.dropLast = .ok d)
    (hpd : ∃ d, a.fs.opendir dst.dropLast = .ok d)
    (hsame : ∀ i c, a.fs.walk 0 src = .ok i → a.fs.walk 0 dst = .ok i → src.getLast? = some c → full c ≠ [] → src = dst)
    (htab : ∀ i j, a.fs.walk 0 src = .ok i → a.fs.walk 0 dst = .ok j → i ≠ j → a.fs.isDir i = true → a.fs.isEmptyDir j = true → s.tables j = none) :
    VolSim V U L enc full (V.step s fault (.rename src dst)) (a.step fault (.rename src dst)) := by
  rw [step_fault rfl]
  show VolSim V U L enc full (LVol.val (fun _ => .done) (V.rename fault src dst s)) (refuse a fault (a.change (a.fs.rename (fun _ => false) src dst)))
  obtain ⟨b, f, b1, b2, _, b4⟩ := hT.path src hs
  obtain ⟨b', f', c1, c2, _, c4⟩ := hT.path dst hd
  obtain ⟨ds, c, rfl⟩ : ∃ ds c, src = ds ++ [c] := ⟨src.dropLast, src.getLast hs0, (List.dropLast_concat_getLast hs0).symm⟩
  obtain ⟨ds', c', rfl⟩ : ∃ ds c, dst = ds ++ [c] := ⟨dst.dropLast, dst.getLast hd0, (List.dropLast_concat_getLast hd0).symm⟩
  obtain ⟨b5, b6⟩ := b4 ds c rfl
  obtain ⟨c5, c6⟩ := c4 ds' c' rfl
  have hUc : U c := hs c (by simp)
  have hUc' : U c' := hd c' (by simp)
  subst b5
  subst c5
  -- the entries after a rename
  have hent : ∀ A', a.fs.rename (fun _ => false) (ds ++ [c]) (ds' ++ [c']) = .ok A' → ∃ d e, a.fs.walk 0 ds = .ok d ∧ a.fs.walk 0 ds' = .ok e ∧
      ∀ k x, HasEntry A' k x → full x.1 ≠ [] → (HasEntry a.fs k x ∧ (full c ≠ [] → ¬ (k = d ∧ x.1 = c))) ∨ (k = e ∧ x.1 = c') := by
    intro A' hA
    obtain ⟨u, w, k1, k2, k3⟩ := hasEntry_rename hA
    obtain ⟨p1, p2⟩ := slot_eq k1
    obtain ⟨q1, q2⟩ := slot_eq k2
    rw [List.dropLast_concat] at p1 q1
    have p2 : c = u.name := by simpa using p2
    have q2 : c' = w.name := by simpa using q2
    refine ⟨u.dir, w.dir, p1, q1, ?_⟩
    rw [p2, q2]
    rcases k3 with k3 | ⟨rfl, i, k4, k5⟩
    · intro k x hx _
      rcases k3 k x hx with h | h
      · exact Or.inl ⟨h.1, fun _ => h.2⟩
      · exact Or.inr h
    · intro k x hx hfx
      by_cases hkx : k = u.dir ∧ x.1 = u.name
      · by_cases hfc : full u.name = []
        · exact Or.inl ⟨hx, fun h => absurd hfc h⟩
        · right
          have := hsame i c (slot_lookup k1 k4).1 (slot_lookup k2 k5).1 (by simp) (p2 ▸ hfc)
          have h1 := List.append_inj' this rfl
          have h2 : c = c' := by simpa using h1.2
          refine ⟨?_, by rw [hkx.2, ← p2, ← q2, h2]⟩
          rw [h1.1, q1] at p1
          injection p1 with p1
          rw [hkx.1, p1]
      · exact Or.inl ⟨hx, fun _ => hkx⟩
  -- which tables matter
  have hfull : ∀ t : Nat → Option (List (Bytes × Bytes)), (∀ k, (t k).isSome = true → (s.tables k).isSome = true ∨ a.fs.walk 0 ds = .ok k ∨ a.fs.walk 0 ds' = .ok k) →
      ExRel (Corr enc U (FileRel V.cfg) (LinkRel V.tr L)) (a.fs.rename (fun _ => false) (ds ++ [c]) (ds' ++ [c']))
        (s.back.rename (LSys.full { s with tables := t }) ((ds ++ [c]).map enc) ((ds' ++ [c']).map enc)) := by
    intro t ht
    refine H.tree.rename _ _ hs hd _ ?_
    intro w j k2 k5 hej ⟨u, i, k1, k4, hij, hdi⟩
    obtain ⟨p1, p2⟩ := slot_eq k1
    obtain ⟨q1, q2⟩ := slot_eq k2
    rw [List.dropLast_concat] at p1 q1
    obtain ⟨w1, ua, w2⟩ := slot_lookup k1 k4
    obtain ⟨x1, wa, x2⟩ := slot_lookup k2 k5
    unfold LSys.full
    dsimp only
    cases htj : (t j).isSome with
    | false => rfl
    | true =>
      exfalso
      have hne : ∀ (sl : Slot) (k : Nat) (at' : Attr), sl.entries.lookup sl.name = some k → a.fs sl.dir = some ⟨.dir sl.entries, at'⟩ → j = sl.dir → False := by
        intro sl k at' h1 h2 h3
        rw [h3] at hej
        unfold Fs.isEmptyDir at hej
        rw [h2] at hej
        cases he : sl.entries with
        | nil => rw [he] at h1; cases h1
        | cons y ys => rw [he] at hej; cases hej
      rcases ht j htj with h | h | h
      · rw [htab i j w1 x1 hij hdi hej] at h; cases h
      · rw [p1] at h; injection h with h; exact hne u i ua k4 w2 h.symm
      · rw [q1] at h; injection h with h; exact hne w j wa k5 x2 h.symm
  unfold LVol.rename
  rw [b1, c1]
  dsimp only
  by_cases hsh : full c = [] ∧ full c' = []
  · rw [if_pos (by rw [hsh.1, hsh.2]; rfl), b2, c2]
    cases fault with
    | some e => exact ⟨rfl, H⟩
    | none =>
      have hr := hfull s.tables (fun k h => Or.inl h)
      change ExRel _ _ (s.back.rename s.full _ _) at hr
      dsimp only [refuse]
      cases hA : a.fs.rename (fun _ => false) (ds ++ [c]) (ds' ++ [c']) with
      | error e =>
        cases hB : s.back.rename s.full ((ds ++ [c]).map enc) ((ds' ++ [c']).map enc) with
        | error e' => rw [hA, hB] at hr; cases hr; exact ⟨rfl, H⟩
        | ok B' => rw [hA, hB] at hr; exact hr.elim
      | ok A' =>
        cases hB : s.back.rename s.full ((ds ++ [c]).map enc) ((ds' ++ [c']).map enc) with
        | error e' => rw [hA, hB] at hr; exact hr.elim
        | ok B' =>
          rw [hA, hB] at hr
          obtain ⟨d, e, w1, w2, w3⟩ := hent A' hA
          refine ⟨rfl, ?_⟩
          refine H.renamed (B' := B') hT hr (keeps_rename hA) (keeps_rename hB) (b, full c) (b', full c') d e c c' hUc hUc' rfl rfl
            (fun h => absurd hsh.1 h) (fun h => absurd hsh.2 h) w3 s.tables (fun k => ?_) H.tables
          unfold rowsMoved rowsGone
          rw [if_neg (fun h => h.1 hsh.2), if_neg (fun h => h.1 hsh.1)]
  · rw [if_neg (by simpa using hsh)]
    have hlong : ∃ x, full x ≠ [] := by
      by_cases h : full c = []
      · exact ⟨c', fun h' => hsh ⟨h, h'⟩⟩
      · exact ⟨c, h⟩
    obtain ⟨b7, b8⟩ := b6 hlong
    obtain ⟨c7, c8⟩ := c6 hlong
    obtain ⟨d, hd'⟩ := hps
    obtain ⟨e, he'⟩ := hpd
    rw [List.dropLast_concat] at hd' he'
    have hds : ∀ x ∈ ds, U x := fun x hx => hs x (List.mem_append_left _ hx)
    have hds' : ∀ x ∈ ds', U x := fun x hx => hd x (List.mem_append_left _ hx)
    have htd : s.tableDir b = .ok d := by
      unfold LSys.tableDir
      rw [b7, H.tree.opendir ds hds, hd']
    have hte : s.tableDir b' = .ok e := by
      unfold LSys.tableDir
      rw [c7, H.tree.opendir ds' hds', he']
    rw [htd, hte]
    dsimp only
    obtain ⟨hwd, hdird⟩ := opendir_ok hd'
    obtain ⟨hwe, hdire⟩ := opendir_ok he'
    obtain ⟨t, r1, r2, r3⟩ := renameRows_eq (b, full c) (b', full c') d e s
    have ht : ∀ k, (t k).isSome = true → a.fs.isDir k = true ∧ ∃ c, full c ≠ [] := by
      intro k hk
      rcases r3 k hk with h | h | h
      · exact H.tables k h
      · rw [h]; exact ⟨hdird, hlong⟩
      · rw [h]; exact ⟨hdire, hlong⟩
    have H' : Shows V U L enc full ((LSys.setRows { s with tables := t } d (s.rows d)).setRows e (s.rows e)) a := by
      refine H.retable (t := ((LSys.setRows { s with tables := t } d (s.rows d)).setRows e (s.rows e)).tables) (fun k => ?_) (fun k hk => ?_) hlong
      · show ((LSys.setRows { s with tables := t } d (s.rows d)).setRows e (s.rows e)).rows k = _
        rw [rows_setRows, rows_setRows, r2]
        split
        · rename_i h; rw [h]
        · rename_i hke
          split
          · rename_i h; rw [h]
          · rename_i hkd
            unfold rowsMoved rowsGone
            rw [if_neg (fun h => hke h.2), if_neg (fun h => hkd h.2)]
      · right
        rcases some_setRows hk with h | h
        · rw [h]; exact hdire
        · rcases some_setRows h with h | h
          · rw [h]; exact hdird
          · exact (ht k h).1
    rw [r1, b2, c2]
    cases fault with
    | some x => exact ⟨rfl, H'⟩
    | none =>
      have hr := hfull t (fun k h => by
        rcases r3 k h with h | h | h
        · exact Or.inl h
        · rw [h]; exact Or.inr (Or.inl hwd)
        · rw [h]; exact Or.inr (Or.inr hwe))
      dsimp only [refuse]
      cases hA : a.fs.rename (fun _ => false) (ds ++ [c]) (ds' ++ [c']) with
      | error e =>
        cases hB : s.back.rename (LSys.full { s with tables := t }) ((ds ++ [c]).map enc) ((ds' ++ [c']).map enc) with
        | error e' => rw [hA, hB] at hr; cases hr; exact ⟨rfl, H'⟩
        | ok B' => rw [hA, hB] at hr; exact hr.elim
      | ok A' =>
        cases hB : s.back.rename (LSys.full { s with tables := t }) ((ds ++ [c]).map enc) ((ds' ++ [c']).map enc) with
        | error e' => rw [hA, hB] at hr; exact hr.elim
        | ok B' =>
          rw [hA, hB] at hr
          obtain ⟨d', e', w1, w2, w3⟩ := hent A' hA
          rw [hwd] at w1
          rw [hwe] at w2
          cases w1
          cases w2
          refine ⟨rfl, ?_⟩
          exact H.renamed (B' := B') hT hr (keeps_rename hA) (keeps_rename hB) (b, full c) (b', full c') d e c c' hUc hUc' rfl rfl
            (fun _ => b8) (fun _ => c8) w3 t r2 ht

/-! ## Attributes -/

theorem sim_plain (H : Shows V U L enc full s a) (fault : Option Nat) (rA rB : Except Nat Fs)
    (hr : ExRel (Corr enc U (FileRel V.cfg) (LinkRel V.tr L)) rA rB)
    (hkA : ∀ A', rA = .ok A' → Keeps a.fs A') (hkB : ∀ B', rB = .ok B' → Keeps s.back B')
    (hg : ∀ A', rA = .ok A' → ∀ d p, HasEntry A' d p → HasEntry a.fs d p) :
    VolSim V U L enc full (LVol.val (fun _ => .done) (s.sys fault rB)) (refuse a fault (a.change rA)) := by
  cases fault with
  | some e => exact ⟨rfl, H⟩
  | none =>
    cases rA with
    | error e =>
      cases rB with
      | error e' => cases hr; exact ⟨rfl, H⟩
      | ok B' => exact hr.elim
    | ok A' =>
      cases rB with
      | error e' => exact hr.elim
      | ok B' =>
        refine ⟨rfl, hr, fun d p hp => H.covered d p (hg A' rfl d p hp), H.good, fun k hk => ?_, H.handles_keep (hkA A' rfl) (hkB B' rfl)⟩
        obtain ⟨r1, r2⟩ := H.tables k hk
        exact ⟨(hkA A' rfl).2 k r1, r2⟩

theorem sim_setAttr (hT : Scheme V.tr U L enc full) (H : Shows V U L enc full s a) (fault : Option Nat) (f : Attr → Attr) (cs : List Bytes)
    (hcs : ∀ c ∈ cs, U c) :
    VolSim V U L enc full (LVol.val (fun _ => .done) (V.setAttr fault f cs s)) (refuse a fault (a.change (a.fs.setAttr f cs))) := by
  obtain ⟨b, g1, g2⟩ := hT.encPath hcs
  unfold LVol.setAttr
  rw [g1]
  dsimp only
  rw [g2]
  exact sim_plain H fault _ _ (H.tree.setAttr f cs hcs) (fun _ h => keeps_setAttr h) (fun _ h => keeps_setAttr h)
    (fun _ h _ _ hp => hasEntry_setAttr h hp)

/-! ## Looking -/

theorem sim_look {α : Type} (H : Shows V U L enc full s a) (fault : Option Nat) (f : α → Spec.Val) (g : Res Spec.Val) (r : Except Nat α)
    (h0 : ∀ e, fault = some e → g = .error (.vfs e)) (h1 : fault = none → Agrees (a.look f r).1 g) :
    VolSim V U L enc full (g, s) (refuse a fault (a.look f r)) := by
  cases fault with
  | some e => exact ⟨by rw [h0 e rfl]; rfl, H⟩
  | none =>
    refine ⟨h1 rfl, ?_⟩
    cases r <;> exact H

theorem size_ok {C : LiteCfg} (hC : C.WF) {maxPad : Nat} {aes : Bytes → Bytes} (hpad : C.padding = LiteCfg.computePadding maxPad aes) {c b : Bytes} {o : LiteObj}
    (h : LiteCfg.SRepr C (o, ⟨b, 0⟩) c) (n : Nat) : C.statSize maxPad ⟨b, n⟩ = .ok c.length := by
  have hR : LiteCfg.Repr C o ⟨b, n⟩ c := ⟨h.1.header, h.1.idLen, h.1.enc⟩
  have hp : o.pad.length = C.padding o.id := h.2
  have hlen := hR.len
  have hb : 0 < C.bs := by have := hC.bs_ge; omega
  unfold LiteCfg.statSize
  rw [if_neg (by rw [hlen]; unfold LiteObj.headerSize; omega)]
  by_cases h0 : maxPad = 0
  · rw [if_pos h0]
    have hp0 : o.pad.length = 0 := by rw [hp, hpad]; simp [LiteCfg.computePadding, h0]
    rw [hlen, show o.headerSize = 16 by unfold LiteObj.headerSize; omega, LiteCfg.realSize_encLen hb]
  · rw [if_neg h0]
    simp only [LiteCfg.openFile_existing hC hR hp, bind, Except.bind, LiteCfg.dev_size hC hR]

theorem sim_getattr (hC : V.cfg.WF) {aes : Bytes → Bytes} (hpad : V.cfg.padding = LiteCfg.computePadding V.maxPad aes)
    (hT : Scheme V.tr U L enc full) (H : Shows V U L enc full s a) (fault : Option Nat) (cs : List Bytes) (hcs : ∀ c ∈ cs, U c) :
    VolSim V U L enc full (V.step s fault (.getattr cs)) (a.step fault (.getattr cs)) := by
  rw [step_fault rfl]
  obtain ⟨b, g1, g2⟩ := hT.encPath hcs
  have hstep : V.step s fault (.getattr cs) = ((match V.getattr fault cs s with | .error e => .error e | .ok x => .ok (.stat x)), s) := by
    show LVol.val .stat (V.getattr fault cs s, s) = _
    unfold LVol.val
    dsimp only
    cases V.getattr fault cs s <;> rfl
  rw [hstep]
  show VolSim V U L enc full _ (refuse a fault (a.look .stat (a.fs.stat cs)))
  refine sim_look H fault .stat _ _ (fun e he => ?_) (fun he => ?_)
  · unfold LVol.getattr
    rw [g1, he]
    rfl
  · unfold LVol.getattr
    rw [g1, he]
    dsimp only
    rw [g2]
    unfold Fs.stat
    rw [H.tree.walk cs 0 hcs]
    cases hw : a.fs.walk 0 cs with
    | error e => exact rfl
    | ok i =>
      dsimp only
      unfold Fs.statNode
      have hn := H.tree.nodes i
      cases hA : a.fs i with
      | none =>
        rw [hA] at hn
        have hB : s.back i = none := by generalize s.back i = x at hn; cases hn; rfl
        rw [hB]; rfl
      | some n =>
        rw [hA] at hn
        generalize hB : s.back i = x at hn
        cases hn with
        | dir es a =>
          dsimp only [osRes]
          rw [hB]
          exact rfl
        | file c b' a hf =>
          dsimp only [osRes]
          rw [hB]
          obtain ⟨o, ho⟩ := hf
          dsimp only
          rw [size_ok hC hpad ho]
          exact rfl
        | link t st a hl =>
          dsimp only [osRes]
          rw [hB]
          obtain ⟨hl1, hl2⟩ := hl
          obtain ⟨st', k1, k2, _, k4, k5⟩ := hT.link t hl1
          rw [hl2] at k1; cases k1
          dsimp only
          have : V.linkSize st = .ok t.length := by
            unfold LVol.linkSize
            rw [if_neg (by simpa using k4)]
            split
            · rename_i hn; rw [k5 hn]
            · rw [k2]
          rw [this]
          exact rfl

theorem sim_readlink (hT : Scheme V.tr U L enc full) (H : Shows V U L enc full s a) (fault : Option Nat) (cs : List Bytes) (size : Nat)
    (hcs : ∀ c ∈ cs, U c) (hsize : 1 < size)
    (hfit : ∀ t st, a.fs.readlink cs = .ok t → V.tr.encLink t = .ok st → t.length < size ∧ st.length ≤ 2 * size + 126) :
    VolSim V U L enc full (V.step s fault (.readlink cs size)) (a.step fault (.readlink cs size)) := by
  rw [step_fault rfl]
  obtain ⟨b, g1, g2⟩ := hT.encPath hcs
  have hstep : V.step s fault (.readlink cs size) = ((match V.readlink fault cs size s with | .error e => .error e | .ok x => .ok (.bytes x)), s) := by
    show LVol.val .bytes (V.readlink fault cs size s, s) = _
    unfold LVol.val
    dsimp only
    cases V.readlink fault cs size s <;> rfl
  rw [hstep]
  show VolSim V U L enc full _ (refuse a fault (a.look (fun t => .bytes (Spec.linkBuffer size t)) (a.fs.readlink cs)))
  refine sim_look H fault (fun t => .bytes (Spec.linkBuffer size t)) _ _ (fun e he => ?_) (fun he => ?_)
  · unfold LVol.readlink
    rw [if_neg (by omega), g1, he]
    rfl
  · unfold LVol.readlink
    rw [if_neg (by omega), g1, he]
    dsimp only
    rw [g2]
    unfold Fs.readlink at hfit ⊢
    rw [H.tree.walk cs 0 hcs]
    cases hw : a.fs.walk 0 cs with
    | error e => exact rfl
    | ok i =>
      rw [hw] at hfit
      dsimp only at hfit ⊢
      have hn := H.tree.nodes i
      cases hA : a.fs i with
      | none =>
        rw [hA] at hn
        have hB : s.back i = none := by generalize s.back i = x at hn; cases hn; rfl
        rw [hB]; rfl
      | some n =>
        rw [hA] at hn hfit
        generalize hB : s.back i = x at hn
        cases hn with
        | dir es a => exact rfl
        | file c b' a hf => exact rfl
        | link t st a hl =>
          obtain ⟨hl1, hl2⟩ := hl
          obtain ⟨st', k1, k2, k3, _, _⟩ := hT.link t hl1
          rw [hl2] at k1; cases k1
          obtain ⟨z1, z2⟩ := hfit t st rfl hl2
          dsimp only [osRes]
          have h1 : (st.take (size * 2 + 127 - 1)).takeWhile (· != 0) = st := by
            rw [List.take_of_length_le (by omega), List.takeWhile_eq_self_iff]
            intro x hx
            rw [bne_iff_ne]
            intro e
            exact k3 (e ▸ hx)
          have h2 : vreadlink V.tr.decLink st size = .ok (Spec.linkBuffer size t) := by
            unfold vreadlink
            rw [if_neg (by omega), h1, k2]
            dsimp only
            rw [List.take_of_length_le (by omega), Nat.min_eq_left (by omega)]
            rfl
          rw [h2]
          exact rfl

/-! ## Handles -/

theorem forall2_append {α β : Type} {R : α → β → Prop} {l m : List α} {l' m' : List β} (h : List.Forall₂ R l l') (h' : List.Forall₂ R m m') :
    List.Forall₂ R (l ++ m) (l' ++ m') := by
  induction h with
  | nil => exact h'
  | cons h _ ih => exact .cons h ih

theorem Shows.newHandle (H : Shows V U L enc full s a) {x : Spec.Handle} {y : LHandle} (h : HandleRel V U a.fs s.back (some x) (some y)) :
    Shows V U L enc full { s with handles := s.handles ++ [some y] } { a with handles := a.handles ++ [some x] } :=
  ⟨H.tree, H.covered, H.good, H.tables, forall2_append H.handles (.cons h .nil)⟩

theorem Shows.length (H : Shows V U L enc full s a) : s.handles.length = a.handles.length := H.handles.length_eq.symm

theorem sim_opendir (hT : Scheme V.tr U L enc full) (H : Shows V U L enc full s a) (fault : Option Nat) (cs : List Bytes) (hcs : ∀ c ∈ cs, U c) :
    VolSim V U L enc full (V.step s fault (.opendir cs)) (a.step fault (.opendir cs)) := by
  rw [step_fault rfl]
  obtain ⟨b, g1, g2⟩ := hT.encPath hcs
  show VolSim V U L enc full (LVol.val .handle (V.opendir fault cs s)) (refuse a fault (a.act (.opendir cs)))
  unfold LVol.opendir
  rw [g1]
  dsimp only
  rw [g2, H.tree.opendir cs hcs]
  cases fault with
  | some e => exact ⟨rfl, H⟩
  | none =>
    show VolSim V U L enc full _ (a.act (.opendir cs))
    unfold Spec.Vol.act
    dsimp only
    cases ho : a.fs.opendir cs with
    | error e => exact ⟨rfl, H⟩
    | ok d => exact ⟨congrArg Spec.Val.handle H.length.symm, H.newHandle (.dir d cs b hcs g1)⟩

theorem forall2_get {α β : Type} {R : α → β → Prop} {l : List α} {l' : List β} (h : List.Forall₂ R l l') (i : Nat) :
    (l[i]? = none ∧ l'[i]? = none) ∨ ∃ x y, l[i]? = some x ∧ l'[i]? = some y ∧ R x y := by
  induction h generalizing i with
  | nil => exact Or.inl ⟨rfl, rfl⟩
  | cons h _ ih =>
    cases i with
    | zero => exact Or.inr ⟨_, _, rfl, rfl, h⟩
    | succ i => exact ih i

theorem forall2_set {α β : Type} {R : α → β → Prop} {l : List α} {l' : List β} (h : List.Forall₂ R l l') (i : Nat) {x : α} {y : β} (hxy : R x y) :
    List.Forall₂ R (l.set i x) (l'.set i y) := by
  induction h generalizing i with
  | nil => exact .nil
  | cons h hs ih =>
    cases i with
    | zero => exact .cons hxy hs
    | succ i => exact .cons h (ih i)

/-- The same handle on both sides. -/
theorem Shows.handle (H : Shows V U L enc full s a) {h : Nat} {x : Spec.Handle} (hx : a.handles[h]? = some (some x)) :
    ∃ y, s.handles[h]? = some (some y) ∧ HandleRel V U a.fs s.back (some x) (some y) := by
  rcases forall2_get H.handles h with ⟨h1, _⟩ | ⟨x', y, h1, h2, h3⟩
  · rw [hx] at h1; cases h1
  · rw [hx] at h1; cases h1
    cases h3 with
    | file i o c b p1 p2 p3 => exact ⟨_, h2, .file i o c b p1 p2 p3⟩
    | dir i path b p1 p2 => exact ⟨_, h2, .dir i path b p1 p2⟩

theorem sim_release (H : Shows V U L enc full s a) (fault : Option Nat) (h : Nat) {x : Spec.Handle} (hx : a.handles[h]? = some (some x)) :
    VolSim V U L enc full (V.step s fault (.release h)) (a.step fault (.release h)) := by
  obtain ⟨y, hy, hr⟩ := H.handle hx
  have hi : a.step fault (.release h) = (.ok .done, { a with handles := a.handles.set h none }) := by
    have : a.act (.release h) = (.ok .done, { a with handles := a.handles.set h none }) := by
      unfold Spec.Vol.act
      dsimp only
      rw [hx]
    cases fault <;> exact this
  rw [hi]
  show VolSim V U L enc full (LVol.val (fun _ => .done) (LVol.release h s)) _
  unfold LVol.release
  rw [hy]
  exact ⟨rfl, H.tree, H.covered, H.good, H.tables, forall2_set H.handles h .closed⟩

theorem perm_lift {α β : Type} {f : α → β} {l m : List β} (h : l.Perm m) : ∀ {R : List α}, R.map f = m → ∃ R' : List α, R'.Perm R ∧ R'.map f = l := by
  induction h with
  | nil => intro R hR; exact ⟨R, .refl _, hR⟩
  | cons x _ ih =>
    intro R hR
    obtain ⟨r, R2, rfl, rfl, h3⟩ := List.map_eq_cons_iff.mp hR
    obtain ⟨R', p1, p2⟩ := ih h3
    exact ⟨r :: R', p1.cons r, by rw [List.map_cons, p2]⟩
  | swap x y l =>
    intro R hR
    obtain ⟨r, R2, rfl, rfl, h3⟩ := List.map_eq_cons_iff.mp hR
    obtain ⟨r', R3, rfl, rfl, h4⟩ := List.map_eq_cons_iff.mp h3
    exact ⟨r' :: r :: R3, .swap _ _ _, by rw [List.map_cons, List.map_cons, h4]⟩
  | trans _ _ ih1 ih2 =>
    intro R hR
    obtain ⟨R2, p1, p2⟩ := ih2 hR
    obtain ⟨R', p3, p4⟩ := ih1 p2
    exact ⟨R', p3.trans p1, p4⟩

theorem sim_readdir (horder : ∀ l, (V.order l).Perm l) (hT : Scheme V.tr U L enc full) (H : Shows V U L enc full s a) (fault : Option Nat) (h : Nat)
    {i : Nat} {path : List Bytes} (hx : a.handles[h]? = some (some (.dir i path)))
    (hplace : a.fs.walk 0 path = .ok i ∨ ∀ p, HasEntry a.fs i p → full p.1 = []) :
    VolSim V U L enc full (V.step s fault (.readdir h)) (a.step fault (.readdir h)) := by
  obtain ⟨y, hy, hr⟩ := H.handle hx
  have hi : a.step fault (.readdir h) = a.look (fun es => .names ([46] :: [46, 46] :: es.map Prod.fst)) (a.fs.entries i) := by
    have : a.act (.readdir h) = a.look (fun es => .names ([46] :: [46, 46] :: es.map Prod.fst)) (a.fs.entries i) := by
      unfold Spec.Vol.act
      dsimp only
      rw [hx]
    cases fault <;> exact this
  rw [hi]
  cases hr with
  | dir _ _ b hU hb =>
    show VolSim V U L enc full (LVol.val .names (V.readdir h s, s)) _
    unfold LVol.readdir
    rw [hy]
    dsimp only
    rw [H.tree.entries i]
    cases he : a.fs.entries i with
    | error e => exact ⟨rfl, H⟩
    | ok es =>
      obtain ⟨⟨at', hn⟩, hnames⟩ := H.tree.entries_names he
      dsimp only [Except.map, osRes]
      have hlk : ∀ p ∈ es, full p.1 ≠ [] → LVol.tableAt b s (enc p.1) = .ok (full p.1) := by
        intro p hp hfp
        rcases hplace with hw | hno
        · obtain ⟨b', g1, g2⟩ := hT.encPath hU
          rw [hb] at g1; cases g1
          have ho : a.fs.opendir path = .ok i := by
            unfold Fs.opendir
            rw [hw]
            dsimp only
            rw [he]
          have hc := H.covered i p ⟨es, at', hn, hp⟩ hfp
          unfold LVol.tableAt
          rw [g2, H.tree.opendir path hU, ho]
          dsimp only
          unfold LSys.rows at hc
          cases ht : s.tables i with
          | none => rw [ht] at hc; cases hc
          | some rows =>
            rw [ht] at hc
            dsimp only at hc ⊢
            unfold tableLookup
            rw [hc]
        · exact absurd (hno p ⟨es, at', hn, hp⟩) hfp
      let R : List (Bytes × Option Bytes) := ([dot], some [dot]) :: ([dot, dot], some [dot, dot]) ::
        ((if s.full i then [(longTableName, none)] else []) ++ es.map fun p => (enc p.1, some p.1))
      have hR : R.map Prod.fst = [dot] :: [dot, dot] :: ((if s.full i then [longTableName] else []) ++ (mp enc es).map Prod.fst) := by
        show [dot] :: [dot, dot] :: List.map Prod.fst ((if s.full i then [(longTableName, none)] else []) ++ es.map fun p => (enc p.1, some p.1)) = _
        rw [List.map_append, List.map_map]
        unfold mp
        rw [List.map_map]
        cases s.full i <;> rfl
      obtain ⟨R', p1, p2⟩ := perm_lift (horder _) hR
      have hraw : V.rawNames i (mp enc es) s = R'.map Prod.fst := p2.symm
      have hem : ∀ p ∈ R, Emits ⟨V.tr.noOp, V.tr.decode⟩ (LVol.tableAt b s) p.1 p.2 := by
        intro p hp
        rcases List.mem_cons.mp hp with rfl | hp
        · intro rest name; rfl
        rcases List.mem_cons.mp hp with rfl | hp
        · intro rest name; rfl
        rcases List.mem_append.mp hp with hp | hp
        · split at hp
          · rename_i hfi
            rw [List.mem_singleton] at hp
            subst hp
            exact hT.table (H.tables i hfi).2 _
          · cases hp
        · obtain ⟨q, hq, rfl⟩ := List.mem_map.mp hp
          exact hT.shown q.1 (hnames q hq) _ (hlk q hq)
      rw [hraw, list_emits _ _ R' (fun p hp => hem p (p1.mem_iff.mp hp))]
      refine ⟨?_, H⟩
      have hfil : R.filterMap Prod.snd = [dot] :: [dot, dot] :: es.map Prod.fst := by
        show [dot] :: [dot, dot] :: List.filterMap Prod.snd ((if s.full i then [(longTableName, none)] else []) ++ es.map fun p => (enc p.1, some p.1)) = _
        rw [List.filterMap_append, List.filterMap_map]
        have : List.filterMap (Prod.snd ∘ fun p : Bytes × Nat => (enc p.1, some p.1)) es = es.map Prod.fst := by
          rw [← List.filterMap_eq_map]
          rfl
        rw [this]
        cases s.full i <;> rfl
      have := (p1.filterMap Prod.snd).symm
      rw [hfil] at this
      exact this

end
end Securefs
