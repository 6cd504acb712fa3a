import Verif.Model.LiteVolume
import Verif.Proofs.PosixCorr
import Verif.Props.LiteFs
/-!
# The lite volume shows a plain tree

The simulation between the backing tree and the tree that the user sees.
-/

namespace Securefs

open Posix Props
open Spec (SameVal Agrees)

/-! ## What is needed of a translator -/

/-- The translator maps a component `c` of `U` to `enc c`; `full c` is empty unless the name is long.  `L` are the link targets that can
    be stored. -/
structure Scheme (T : Translator) (U L : Bytes → Prop) (enc full : Bytes → Bytes) : Prop where
  path : ∀ cs : List Bytes, (∀ c ∈ cs, U c) → ∃ b f, T.fullPath (fusePath cs) = .ok (b, f) ∧ osParts b = cs.map enc ∧
    (cs = [] → f = []) ∧ ∀ ds c, cs = ds ++ [c] → f = full c ∧ ((∃ x, full x ≠ []) → osParts (uptoSlash b) = ds.map enc ∧ afterSlash b = enc c)
  inj : ∀ c c', U c → U c' → enc c = enc c' → c = c'
  shown : ∀ c, U c → ∀ lookup : Lookup, (full c ≠ [] → lookup (enc c) = .ok (full c)) → Emits ⟨T.noOp, T.decode⟩ lookup (enc c) (some c)
  table : (∃ c, full c ≠ []) → ∀ lookup : Lookup, Emits ⟨T.noOp, T.decode⟩ lookup longTableName none
  link : ∀ t, L t → ∃ s, T.encLink t = .ok s ∧ T.decLink s = .ok t ∧ (0 : UInt8) ∉ s ∧ s ≠ [] ∧ (T.noOp = true → s = t)

/-- The bytes of a backing file and what they stand for. -/
def FileRel (C : LiteCfg) (c b : Bytes) : Prop := ∃ o, LiteCfg.SRepr C (o, ⟨b, 0⟩) c

/-- A stored link and its target. -/
def LinkRel (T : Translator) (L : Bytes → Prop) (t s : Bytes) : Prop := L t ∧ T.encLink t = .ok s

/-- How handles correspond. -/
inductive HandleRel (V : LVol) (U : Bytes → Prop) (A B : Fs) : Option Spec.Handle → Option LHandle → Prop where
  | closed : HandleRel V U A B none none
  | file (i : Nat) (o : LiteObj) (c b : Bytes) : A.data i = some c → B.data i = some b → LiteCfg.SRepr V.cfg (o, ⟨b, 0⟩) c →
      HandleRel V U A B (some (.file i)) (some (.file i o))
  | dir (i : Nat) (path : List Bytes) (b : Bytes) : (∀ c ∈ path, U c) → V.encPath path = .ok b →
      HandleRel V U A B (some (.dir i path)) (some (.dir i b))

/-- The invariant. -/
structure Shows (V : LVol) (U L : Bytes → Prop) (enc full : Bytes → Bytes) (s : LSys) (a : Spec.Vol) : Prop where
  tree : Corr enc U (FileRel V.cfg) (LinkRel V.tr L) a.fs s.back
  covered : ∀ d p, HasEntry a.fs d p → full p.1 ≠ [] → (s.rows d).lookup (enc p.1) = some (full p.1)
  good : ∀ d b e, (s.rows d).lookup b = some e → ∃ c, U c ∧ full c ≠ [] ∧ b = enc c ∧ e = full c
  tables : ∀ d, (s.tables d).isSome = true → a.fs.isDir d = true ∧ ∃ c, full c ≠ []
  handles : List.Forall₂ (HandleRel V U a.fs s.back) a.handles s.handles

section
variable {V : LVol} {U L : Bytes → Prop} {enc full : Bytes → Bytes} {s : LSys} {a : Spec.Vol}

/-- The step of the volume corresponds to the ideal step. -/
def VolSim (V : LVol) (U L : Bytes → Prop) (enc full : Bytes → Bytes) (r : Res Spec.Val × LSys) (i : Spec.Outcome) : Prop :=
  Agrees i.1 r.1 ∧ Shows V U L enc full r.2 i.2

theorem Scheme.encPath (hT : Scheme V.tr U L enc full) {cs : List Bytes} (h : ∀ c ∈ cs, U c) :
    ∃ b, V.encPath cs = .ok b ∧ osParts b = cs.map enc := by
  obtain ⟨b, f, h1, h2, _⟩ := hT.path cs h
  exact ⟨b, by unfold LVol.encPath; rw [h1], h2⟩

theorem HandleRel.keep {A B A' B' : Fs} {x : Option Spec.Handle} {y : Option LHandle} (h : HandleRel V U A B x y)
    (hA : ∀ i c, A.data i = some c → A'.data i = some c) (hB : ∀ i c, B.data i = some c → B'.data i = some c) : HandleRel V U A' B' x y := by
  cases h with
  | closed => exact .closed
  | file i o c b h1 h2 h3 => exact .file i o c b (hA i c h1) (hB i b h2) h3
  | dir i path b h1 h2 => exact .dir i path b h1 h2

theorem forall2_map {α β : Type} {R R' : α → β → Prop} {l : List α} {l' : List β} (f : ∀ x y, R x y → R' x y) (h : List.Forall₂ R l l') :
    List.Forall₂ R' l l' := by
  induction h with
  | nil => exact .nil
  | cons h _ ih => exact .cons (f _ _ h) ih

theorem Shows.handles_keep (H : Shows V U L enc full s a) {A' B' : Fs} (hA : Keeps a.fs A') (hB : Keeps s.back B') :
    List.Forall₂ (HandleRel V U A' B') a.handles s.handles :=
  forall2_map (fun _ _ h => h.keep hA.1 hB.1) H.handles

theorem rows_upd (s : LSys) (d k : Nat) (rows : List (Bytes × Bytes)) (t : Nat → Option (List (Bytes × Bytes))) (ht : t = upd s.tables d (some rows))
    (s' : LSys) (hs : s'.tables = t) : s'.rows k = if k = d then rows else s.rows k := by
  unfold LSys.rows
  rw [hs, ht]
  unfold upd
  by_cases h : k = d
  · rw [if_pos h, if_pos h]
  · rw [if_neg h, if_neg h]

/-- The same rows in other tables. -/
theorem Shows.retable (H : Shows V U L enc full s a) {t : Nat → Option (List (Bytes × Bytes))} (hr : ∀ k, LSys.rows { s with tables := t } k = s.rows k)
    (ht : ∀ k, (t k).isSome = true → (s.tables k).isSome = true ∨ a.fs.isDir k = true) (hf : ∃ c, full c ≠ []) :
    Shows V U L enc full { s with tables := t } a := by
  refine ⟨H.tree, ?_, ?_, ?_, H.handles⟩
  · intro k p; rw [hr]; exact H.covered k p
  · intro k b e; rw [hr]; exact H.good k b e
  · intro k hk
    rcases ht k hk with h | h
    · exact H.tables k h
    · exact ⟨h, hf⟩

/-- Opening a table creates it. -/
theorem Shows.touch (H : Shows V U L enc full s a) (d : Nat) (hd : a.fs.isDir d = true) (hf : ∃ c, full c ≠ []) :
    Shows V U L enc full { s with tables := upd s.tables d (some (s.rows d)) } a := by
  refine H.retable (fun k => ?_) (fun k hk => ?_) hf
  · rw [rows_upd s d k (s.rows d) _ rfl _ rfl]
    split
    · rename_i h; rw [h]
    · rfl
  · unfold upd at hk
    by_cases h : k = d
    · rw [h]; exact Or.inr hd
    · rw [if_neg h] at hk; exact Or.inl hk

/-- The outcome of a callback that gives a value, a tree and a number of random requests, or fails; the tables are the first then or the
    second. -/
def tameOut {α : Type} (s : LSys) (t1 t2 : Nat → Option (List (Bytes × Bytes))) (g : Res (α × Fs × Nat)) : Res α × LSys :=
  match g with
  | .error e => (.error e, { s with tables := t1 })
  | .ok x => (.ok x.1, { s with tables := t2, back := x.2.1, rng := x.2.2 })

/-- What the callbacks do that do not touch the tables. -/
def Tame {α : Type} (cb : Bytes → LSys → Res α × LSys) (b : Bytes) (s : LSys) (g : Res (α × Fs × Nat)) : Prop :=
  ∀ t, cb b { s with tables := t } = tameOut s t t g

theorem isDir_of_entries {A : Fs} {d : Nat} {es : List (Bytes × Nat)} (h : A.entries d = .ok es) : A.isDir d = true := by
  unfold Fs.entries at h
  unfold Fs.isDir
  split at h
  · cases h
  · rename_i e; rw [e]
  · cases h
  · cases h

theorem opendir_ok {A : Fs} {cs : List Bytes} {d : Nat} (h : A.opendir cs = .ok d) : A.walk 0 cs = .ok d ∧ A.isDir d = true := by
  unfold Fs.opendir at h
  split at h
  · cases h
  rename_i i hi
  split at h
  · cases h
  · rename_i he
    cases h
    exact ⟨hi, isDir_of_entries he⟩

/-- `process_possible_long_name` around a tame callback. -/
theorem withLong_eq {α : Type} (hT : Scheme V.tr U L enc full) (H : Shows V U L enc full s a) (action : LAction) (cs : List Bytes) (hcs : ∀ c ∈ cs, U c)
    (hpar : ∃ d, a.fs.opendir cs.dropLast = .ok d) (cb : Bytes → LSys → Res α × LSys) (g : Res (α × Fs × Nat))
    (hcb : ∀ b, osParts b = cs.map enc → Tame cb b s g) :
    (∃ t : (Nat → Option (List (Bytes × Bytes))) × (Nat → Option (List (Bytes × Bytes))), V.withLong (some action) cs cb s = tameOut s t.1 t.2 g ∧
      Shows V U L enc full { s with tables := t.1 } a ∧
      ((t.2 = s.tables ∧ ∀ c, cs.getLast? = some c → full c = []) ∨
       ∃ d c, a.fs.walk 0 cs.dropLast = .ok d ∧ cs.getLast? = some c ∧ full c ≠ [] ∧ a.fs.isDir d = true ∧
        t.2 = upd s.tables d (some (action.apply ⟨enc c, full c⟩ (s.rows d))))) := by
  obtain ⟨b, f, h1, h2, h3, h4⟩ := hT.path cs hcs
  have hself : ({ s with tables := s.tables } : LSys) = s := rfl
  unfold LVol.withLong
  rw [h1]
  dsimp only
  by_cases hf : f = []
  · rw [if_pos (by simpa using hf)]
    refine ⟨(s.tables, s.tables), ?_, by rw [hself]; exact H, Or.inl ⟨rfl, ?_⟩⟩
    · have := hcb b h2 s.tables
      rw [hself] at this
      rw [this]
    · intro c hc
      obtain ⟨ys, rfl⟩ := List.getLast?_eq_some_iff.mp hc
      rw [← (h4 ys c rfl).1, hf]
  · rw [if_neg (by simpa using hf)]
    have hne : cs ≠ [] := fun e => hf (h3 e)
    obtain ⟨ds, c, rfl⟩ : ∃ ds c, cs = ds ++ [c] := ⟨cs.dropLast, cs.getLast hne, (List.dropLast_concat_getLast hne).symm⟩
    obtain ⟨e1, e2⟩ := h4 ds c rfl
    obtain ⟨e3, e4⟩ := e2 ⟨c, e1 ▸ hf⟩
    obtain ⟨d, hd⟩ := hpar
    rw [List.dropLast_concat] at hd ⊢
    have hds : ∀ x ∈ ds, U x := fun x hx => hcs x (List.mem_append_left _ hx)
    have htd : s.tableDir b = .ok d := by
      unfold LSys.tableDir
      rw [e3, H.tree.opendir ds hds, hd]
    rw [htd]
    dsimp only
    have hfc : full c ≠ [] := e1 ▸ hf
    obtain ⟨hw, hdir⟩ := opendir_ok hd
    refine ⟨(upd s.tables d (some (s.rows d)), upd s.tables d (some (action.apply ⟨enc c, full c⟩ (s.rows d)))), ?_, H.touch d hdir ⟨c, hfc⟩,
      Or.inr ⟨d, c, hw, by simp, hfc, hdir, rfl⟩⟩
    rw [e4, e1]
    unfold LSys.setRows
    rw [hcb b h2]
    cases g with
    | error e =>
      dsimp only
      refine Prod.ext rfl ?_
      show ({ s with tables := upd (upd s.tables d _) d _ } : LSys) = _
      congr 1
      funext k
      unfold upd
      split <;> rfl
    | ok x => rfl

/-- The result of a call of the system. -/
def tameRes (fault : Option Nat) (r : Except Nat Fs) (n : Nat) : Res (Unit × Fs × Nat) :=
  match osRes fault r with
  | .error e => .error e
  | .ok fs => .ok ((), fs, n)

theorem tame_sys {b : Bytes} {fault : Option Nat} (F : Bytes → Fs → Except Nat Fs) :
    Tame (fun b s => LSys.sys s fault (F b s.back)) b s
      (tameRes fault (F b s.back) s.rng) := by
  intro t
  show LSys.sys { s with tables := t } fault (F b s.back) = _
  unfold LSys.sys tameRes
  cases osRes fault (F b s.back) <;> rfl

/-- After a call that adds at most one entry, for which there is a row. -/
theorem Shows.grown (hT : Scheme V.tr U L enc full) (H : Shows V U L enc full s a) {A' B' : Fs} {n : Nat}
    (hc : Corr enc U (FileRel V.cfg) (LinkRel V.tr L) A' B') (hA : Keeps a.fs A') (hB : Keeps s.back B') (cs : List Bytes) (hcs : ∀ c ∈ cs, U c)
    (hg : ∃ d c, a.fs.walk 0 cs.dropLast = .ok d ∧ cs.getLast? = some c ∧ ∀ d' p, HasEntry A' d' p → HasEntry a.fs d' p ∨ (d' = d ∧ p.1 = c))
    (t : Nat → Option (List (Bytes × Bytes)))
    (ht : (t = s.tables ∧ ∀ c, cs.getLast? = some c → full c = []) ∨
       ∃ d c, a.fs.walk 0 cs.dropLast = .ok d ∧ cs.getLast? = some c ∧ full c ≠ [] ∧ a.fs.isDir d = true ∧
        t = upd s.tables d (some (LAction.create.apply ⟨enc c, full c⟩ (s.rows d)))) :
    Shows V U L enc full { s with tables := t, back := B', rng := n } { a with fs := A' } := by
  obtain ⟨d, c, g1, g2, g3⟩ := hg
  have hU : U c := hcs c (List.mem_of_getLast? g2)
  rcases ht with ⟨rfl, hf⟩ | ⟨d', c', k1, k2, k3, k4, rfl⟩
  · refine ⟨hc, ?_, H.good, fun k hk => ?_, H.handles_keep hA hB⟩
    · intro k p hp hfp
      rcases g3 k p hp with h | ⟨_, h⟩
      · exact H.covered k p h hfp
      · rw [h, hf c g2] at hfp; exact absurd rfl hfp
    · obtain ⟨r1, r2⟩ := H.tables k hk; exact ⟨hA.2 k r1, r2⟩
  · rw [g1] at k1; cases k1
    rw [g2] at k2; cases k2
    have hr : ∀ k, LSys.rows { s with tables := upd s.tables d (some (LAction.create.apply ⟨enc c, full c⟩ (s.rows d))), back := B', rng := n } k =
        if k = d then insertOrIgnore (s.rows d) (enc c) (full c) else s.rows k :=
      fun k => rows_upd s d k _ _ rfl _ rfl
    have old : ∀ e, (s.rows d).lookup (enc c) = some e → e = full c := by
      intro e he
      obtain ⟨c', u1, u2, u3, u4⟩ := H.good d _ _ he
      rw [hT.inj c c' hU u1 u3]; exact u4
    refine ⟨hc, ?_, ?_, ?_, H.handles_keep hA hB⟩
    · intro k p hp hfp
      rw [hr k]
      rcases g3 k p hp with h | ⟨h, h'⟩
      · have := H.covered k p h hfp
        split
        · rename_i e
          subst e
          rw [lookup_insertOrIgnore]
          split
          · rename_i e; rw [e.1, e.2] at this; cases this
          · exact this
        · exact this
      · rw [if_pos h, h', lookup_insertOrIgnore]
        split
        · rfl
        · rename_i hn
          cases hl : (s.rows d).lookup (enc c) with
          | none => exact absurd ⟨rfl, hl⟩ hn
          | some e => rw [old e hl]
    · intro k b e he
      rw [hr k] at he
      split at he
      · rw [lookup_insertOrIgnore] at he
        split at he
        · rename_i h; cases he; exact ⟨c, hU, k3, h.1, rfl⟩
        · exact H.good d b e he
      · exact H.good k b e he
    · intro k hk
      dsimp only at hk
      unfold upd at hk
      by_cases h : k = d
      · rw [h]; exact ⟨hA.2 d k4, c, k3⟩
      · rw [if_neg h] at hk
        obtain ⟨r1, r2⟩ := H.tables k hk; exact ⟨hA.2 k r1, r2⟩

/-- After a call that removes an entry, and its row. -/
theorem Shows.shrunk (hT : Scheme V.tr U L enc full) (H : Shows V U L enc full s a) {A' B' : Fs} {n : Nat}
    (hc : Corr enc U (FileRel V.cfg) (LinkRel V.tr L) A' B') (hA : Keeps a.fs A') (hB : Keeps s.back B') (cs : List Bytes) (hcs : ∀ c ∈ cs, U c)
    (hg : ∃ d c, a.fs.walk 0 cs.dropLast = .ok d ∧ cs.getLast? = some c ∧ ∀ d' p, HasEntry A' d' p → HasEntry a.fs d' p ∧ ¬ (d' = d ∧ p.1 = c))
    (t : Nat → Option (List (Bytes × Bytes)))
    (ht : (t = s.tables ∧ ∀ c, cs.getLast? = some c → full c = []) ∨
       ∃ d c, a.fs.walk 0 cs.dropLast = .ok d ∧ cs.getLast? = some c ∧ full c ≠ [] ∧ a.fs.isDir d = true ∧
        t = upd s.tables d (some (LAction.delete.apply ⟨enc c, full c⟩ (s.rows d)))) :
    Shows V U L enc full { s with tables := t, back := B', rng := n } { a with fs := A' } := by
  obtain ⟨d, c, g1, g2, g3⟩ := hg
  have hU : U c := hcs c (List.mem_of_getLast? g2)
  rcases ht with ⟨rfl, hf⟩ | ⟨d', c', k1, k2, k3, k4, rfl⟩
  · refine ⟨hc, fun k p hp => H.covered k p (g3 k p hp).1, H.good, fun k hk => ?_, H.handles_keep hA hB⟩
    obtain ⟨r1, r2⟩ := H.tables k hk; exact ⟨hA.2 k r1, r2⟩
  · rw [g1] at k1; cases k1
    rw [g2] at k2; cases k2
    have hr : ∀ k, LSys.rows { s with tables := upd s.tables d (some (LAction.delete.apply ⟨enc c, full c⟩ (s.rows d))), back := B', rng := n } k =
        if k = d then dropKey (s.rows d) (enc c) else s.rows k :=
      fun k => rows_upd s d k _ _ rfl _ rfl
    refine ⟨hc, ?_, ?_, ?_, H.handles_keep hA hB⟩
    · intro k p hp hfp
      obtain ⟨h1, h2⟩ := g3 k p hp
      have := H.covered k p h1 hfp
      rw [hr k]
      split
      · rename_i e
        subst e
        rw [lookup_dropKey, if_neg]
        · exact this
        · intro e
          obtain ⟨es, at', q1, q2⟩ := h1
          exact h2 ⟨rfl, hT.inj _ _ (H.tree.names _ _ _ q1 p q2) hU e⟩
      · exact this
    · intro k b e he
      rw [hr k] at he
      split at he
      · rw [lookup_dropKey] at he
        split at he
        · cases he
        · exact H.good d b e he
      · exact H.good k b e he
    · intro k hk
      dsimp only at hk
      unfold upd at hk
      by_cases h : k = d
      · rw [h]; exact ⟨hA.2 d k4, c, k3⟩
      · rw [if_neg h] at hk
        obtain ⟨r1, r2⟩ := H.tables k hk; exact ⟨hA.2 k r1, r2⟩

/-! ## The calls that change names -/

/-- The ideal outcome if the system may refuse. -/
def refuse (a : Spec.Vol) (fault : Option Nat) (o : Spec.Outcome) : Spec.Outcome :=
  match fault with
  | some e => (.error e, a)
  | none => o

theorem step_fault {c : Spec.Call} (hc : c.refusable = true) (fault : Option Nat) :
    a.step fault c = refuse a fault (a.act c) := by
  unfold Spec.Vol.step refuse
  cases fault with
  | none => rfl
  | some e => dsimp only; rw [if_pos hc]

/-- Which entries there may be after a call. -/
def entryAfter (action : LAction) (old named : Prop) : Prop :=
  match action with
  | .create => old ∨ named
  | .delete => old ∧ ¬ named

/-- A call of the system inside `process_possible_long_name`. -/
theorem sim_change (hT : Scheme V.tr U L enc full) (H : Shows V U L enc full s a) (fault : Option Nat) (action : LAction) (cs : List Bytes) (hcs : ∀ c ∈ cs, U c)
    (hpar : ∃ d, a.fs.opendir cs.dropLast = .ok d) (cb : Bytes → LSys → Res Unit × LSys) (rA rB : Except Nat Fs)
    (hcb : ∀ b, osParts b = cs.map enc → Tame cb b s (tameRes fault rB s.rng))
    (hr : ExRel (Corr enc U (FileRel V.cfg) (LinkRel V.tr L)) rA rB)
    (hkA : ∀ A', rA = .ok A' → Keeps a.fs A') (hkB : ∀ B', rB = .ok B' → Keeps s.back B')
    (hg : ∀ A', rA = .ok A' → ∃ d c, a.fs.walk 0 cs.dropLast = .ok d ∧ cs.getLast? = some c ∧ ∀ d' p, HasEntry A' d' p →
      entryAfter action (HasEntry a.fs d' p) (d' = d ∧ p.1 = c)) :
    VolSim V U L enc full (LVol.val (fun _ => .done) (V.withLong (some action) cs cb s))
      (refuse a fault (a.change rA)) := by
  obtain ⟨t, h1, h2, h3⟩ := withLong_eq hT H action cs hcs hpar cb _ hcb
  rw [h1]
  cases fault with
  | some e => exact ⟨rfl, h2⟩
  | none =>
    cases hA : rA with
    | error e =>
      cases hB : rB with
      | error e' => rw [hA, hB] at hr; cases hr; exact ⟨rfl, h2⟩
      | ok B' => rw [hA, hB] at hr; exact hr.elim
    | ok A' =>
      cases hB : rB with
      | error e' => rw [hA, hB] at hr; exact hr.elim
      | ok B' =>
        rw [hA, hB] at hr
        refine ⟨rfl, ?_⟩
        show Shows V U L enc full { s with tables := t.2, back := B', rng := s.rng } { a with fs := A' }
        cases action with
        | create => exact H.grown hT hr (hkA A' hA) (hkB B' hB) cs hcs (hg A' hA) t.2 h3
        | delete => exact H.shrunk hT hr (hkA A' hA) (hkB B' hB) cs hcs (hg A' hA) t.2 h3

theorem back_none (H : Shows V U L enc full s a) {i : Nat} (h : a.fs i = none) : s.back i = none := by
  have := H.tree.nodes i
  rw [h] at this
  generalize s.back i = x at this
  cases this
  rfl

theorem sim_mkdir (hT : Scheme V.tr U L enc full) (H : Shows V U L enc full s a) (fault : Option Nat) (cs : List Bytes) (at' : Attr) (id : Nat)
    (hcs : ∀ c ∈ cs, U c) (hpar : ∃ d, a.fs.opendir cs.dropLast = .ok d) (hid : a.fs id = none) :
    VolSim V U L enc full (V.step s fault (.mkdir cs at' id)) (a.step fault (.mkdir cs at' id)) := by
  rw [step_fault rfl]
  refine sim_change hT H fault .create cs hcs hpar _ _ (s.back.add (cs.map enc) id ⟨.dir [], at'⟩) (fun b hb => ?_) (H.tree.add cs hcs id (.dir [] at') ?_)
    (fun A' h => keeps_add hid h) (fun B' h => keeps_add (back_none H hid) h) (fun A' h => hasEntry_add ?_ h)
  · rw [← hb]; exact tame_sys fun b fs => fs.add (osParts b) id ⟨.dir [], at'⟩
  · intro es a e; cases e; rfl
  · intro es a e; cases e; rfl

theorem sim_symlink (hT : Scheme V.tr U L enc full) (H : Shows V U L enc full s a) (fault : Option Nat) (t : Bytes) (cs : List Bytes) (at' : Attr) (id : Nat)
    (hcs : ∀ c ∈ cs, U c) (hpar : ∃ d, a.fs.opendir cs.dropLast = .ok d) (hid : a.fs id = none) (ht : L t) :
    VolSim V U L enc full (V.step s fault (.symlink t cs at' id)) (a.step fault (.symlink t cs at' id)) := by
  rw [step_fault rfl]
  obtain ⟨st, g1, _⟩ := hT.link t ht
  refine sim_change hT H fault .create cs hcs hpar _ _ (s.back.add (cs.map enc) id ⟨.link st, at'⟩) (fun b hb => ?_) (H.tree.add cs hcs id (.link t st at' ⟨ht, g1⟩) ?_)
    (fun A' h => keeps_add hid h) (fun B' h => keeps_add (back_none H hid) h) (fun A' h => hasEntry_add ?_ h)
  · rw [g1, ← hb]; exact tame_sys fun b fs => fs.add (osParts b) id ⟨.link st, at'⟩
  · intro es a e; cases e
  · intro es a e; cases e

theorem sim_link (hT : Scheme V.tr U L enc full) (H : Shows V U L enc full s a) (fault : Option Nat) (src dst : List Bytes)
    (hs : ∀ c ∈ src, U c) (hd : ∀ c ∈ dst, U c) (hpar : ∃ d, a.fs.opendir dst.dropLast = .ok d) :
    VolSim V U L enc full (V.step s fault (.link src dst)) (a.step fault (.link src dst)) := by
  rw [step_fault rfl]
  obtain ⟨x, g1, g2⟩ := hT.encPath hs
  refine sim_change hT H fault .create dst hd hpar _ _ (s.back.link (src.map enc) (dst.map enc)) (fun b hb => ?_) (H.tree.link src dst hs hd)
    (fun A' h => keeps_link h) (fun B' h => keeps_link h) (fun A' h => hasEntry_link h)
  rw [g1, ← hb, ← g2]
  exact tame_sys fun b fs => fs.link (osParts x) (osParts b)

theorem sim_unlink (hT : Scheme V.tr U L enc full) (H : Shows V U L enc full s a) (fault : Option Nat) (cs : List Bytes)
    (hcs : ∀ c ∈ cs, U c) (hpar : ∃ d, a.fs.opendir cs.dropLast = .ok d) :
    VolSim V U L enc full (V.step s fault (.unlink cs)) (a.step fault (.unlink cs)) := by
  rw [step_fault rfl]
  refine sim_change hT H fault .delete cs hcs hpar _ _ (s.back.unlink (cs.map enc)) (fun b hb => ?_) (H.tree.unlink cs hcs)
    (fun A' h => keeps_unlink h) (fun B' h => keeps_unlink h) (fun A' h => hasEntry_unlink h)
  rw [← hb]
  exact tame_sys fun b fs => fs.unlink (osParts b)

theorem posix_walk_append {A : Fs} : ∀ (ds cs : List Bytes) (d k : Nat), A.walk d ds = .ok k → A.walk d (ds ++ cs) = A.walk k cs := by
  intro ds
  induction ds with
  | nil => intro cs d k h; cases h; rfl
  | cons c ds ih =>
    intro cs d k h
    rw [Fs.walk] at h
    rw [List.cons_append, Fs.walk]
    cases hc : A.child d c with
    | error e => rw [hc] at h; cases h
    | ok j => rw [hc] at h; exact ih cs j k h

theorem slot_lookup {A : Fs} {cs : List Bytes} {t : Slot} {i : Nat} (h : A.slot cs = .ok t) (hi : t.entries.lookup t.name = some i) :
    A.walk 0 cs = .ok i ∧ ∃ a, A t.dir = some ⟨.dir t.entries, a⟩ := by
  obtain ⟨h1, h2⟩ := slot_eq h
  obtain ⟨ys, rfl⟩ := List.getLast?_eq_some_iff.mp h2
  have he : A.entries t.dir = .ok t.entries := by
    unfold Fs.slot at h
    rw [h2] at h
    dsimp only at h
    rw [h1] at h
    dsimp only at h
    cases he : A.entries t.dir with
    | error e => rw [he] at h; cases h
    | ok es => rw [he] at h; injection h with h; rw [← h]
  rw [List.dropLast_concat] at h1
  constructor
  · rw [posix_walk_append ys _ 0 _ h1]
    simp only [Fs.walk, Fs.child, he, hi]
  · unfold Fs.entries at he
    split at he
    · cases he
    · cases he; exact ⟨_, by assumption⟩
    · cases he
    · cases he

/-- Removing the table of a directory that has no long names. -/
theorem Shows.cleared (H : Shows V U L enc full s a) (k : Nat) (hk : ∀ p, HasEntry a.fs k p → full p.1 = []) :
    Shows V U L enc full { s with tables := upd s.tables k none } a := by
  have hr : ∀ j, LSys.rows { s with tables := upd s.tables k none } j = if j = k then [] else s.rows j := by
    intro j
    unfold LSys.rows upd
    dsimp only
    by_cases h : j = k
    · rw [if_pos h, if_pos h]
    · rw [if_neg h, if_neg h]
  refine ⟨H.tree, ?_, ?_, ?_, H.handles⟩
  · intro j p hp hf
    rw [hr]
    split
    · rename_i h; exact absurd (hk p (h ▸ hp)) hf
    · exact H.covered j p hp hf
  · intro j b e he
    rw [hr] at he
    split at he
    · cases he
    · exact H.good j b e he
  · intro j hj
    dsimp only at hj
    unfold upd at hj
    split at hj
    · cases hj
    · exact H.tables j hj

theorem sys_none (s : LSys) (fs : Fs) : s.sys none (.ok fs) = (.ok (), { s with back := fs }) := rfl

theorem sim_rmdir (hT : Scheme V.tr U L enc full) (H : Shows V U L enc full s a) (fault : Option Nat) (cs : List Bytes)
    (hcs : ∀ c ∈ cs, U c) (hpar : ∃ d, a.fs.opendir cs.dropLast = .ok d)
    (hlong : ∀ k, a.fs.walk 0 cs = .ok k → ∀ p, HasEntry a.fs k p → full p.1 = []) :
    VolSim V U L enc full (V.step s fault (.rmdir cs)) (a.step fault (.rmdir cs)) := by
  rw [step_fault rfl]
  show VolSim V U L enc full (LVol.val (fun _ => .done) (V.rmdir fault cs s)) (refuse a fault (a.change (a.fs.rmdir (fun _ => false) cs)))
  obtain ⟨b, f, h1, h2, h3, h4⟩ := hT.path cs hcs
  -- the tables after the callback
  have hdrop : ∀ t, ∃ t', LVol.dropTable b { s with tables := t } = { s with tables := t' } ∧
      ((t' = t ∧ ∀ k, a.fs.opendir cs ≠ .ok k) ∨ ∃ k, a.fs.opendir cs = .ok k ∧ t' = upd t k none) := by
    intro t
    unfold LVol.dropTable
    dsimp only
    rw [h2, H.tree.opendir cs hcs]
    cases ho : a.fs.opendir cs with
    | error e => exact ⟨t, rfl, Or.inl ⟨rfl, by intro k e; cases e⟩⟩
    | ok k => exact ⟨_, rfl, Or.inr ⟨k, rfl, rfl⟩⟩
  have hfull : ∀ t t', ((t' = t ∧ ∀ k, a.fs.opendir cs ≠ .ok k) ∨ ∃ k, a.fs.opendir cs = .ok k ∧ t' = upd t k none) →
      (∀ k, (t k).isSome = true → a.fs.isDir k = true) → ∀ i, a.fs.walk 0 cs = .ok i → LSys.full { s with tables := t' } i = false := by
    intro t t' ht hd i hi
    unfold LSys.full
    dsimp only
    rcases ht with ⟨rfl, ht⟩ | ⟨k, hk, rfl⟩
    · cases hti : (t' i).isSome with
      | false => rfl
      | true =>
        have := hd i hti
        exfalso
        apply ht i
        unfold Fs.opendir
        rw [hi]
        dsimp only
        unfold Fs.isDir at this
        unfold Fs.entries
        split at this
        · rename_i e; rw [e]
        · cases this
    · rw [(opendir_ok hk).1] at hi
      cases hi
      unfold upd
      rw [if_pos rfl]
      rfl
  have hclear : ∀ k, a.fs.opendir cs = .ok k → ∀ p, HasEntry a.fs k p → full p.1 = [] := fun k hk => hlong k (opendir_ok hk).1
  unfold LVol.rmdir LVol.withLong
  rw [h1]
  dsimp only
  by_cases hf : f = []
  · rw [if_pos (by simpa using hf)]
    obtain ⟨t', g1, g2⟩ := hdrop s.tables
    have hfl := hfull _ _ g2 (fun k hk => (H.tables k hk).1)
    change LVol.dropTable b s = _ at g1
    have H' : Shows V U L enc full { s with tables := t' } a := by
      rcases g2 with ⟨rfl, _⟩ | ⟨k, hk, rfl⟩
      · exact H
      · exact H.cleared k (hclear k hk)
    rw [g1, h2]
    cases fault with
    | some e => exact ⟨rfl, H'⟩
    | none =>
      have hr := H.tree.rmdir cs hcs _ hfl
      show VolSim V U L enc full (LVol.val _ (LSys.sys { s with tables := t' } none (s.back.rmdir (LSys.full { s with tables := t' }) (cs.map enc))))
        (a.change (a.fs.rmdir (fun _ => false) cs))
      cases hA : a.fs.rmdir (fun _ => false) cs with
      | error e =>
        cases hB : s.back.rmdir (LSys.full { s with tables := t' }) (cs.map enc) with
        | error e' => rw [hA, hB] at hr; cases hr; exact ⟨rfl, H'⟩
        | ok B' => rw [hA, hB] at hr; exact hr.elim
      | ok A' =>
        cases hB : s.back.rmdir (LSys.full { s with tables := t' }) (cs.map enc) with
        | error e' => rw [hA, hB] at hr; exact hr.elim
        | ok B' =>
          rw [hA, hB] at hr
          refine ⟨rfl, ?_⟩
          refine H'.shrunk (n := s.rng) hT hr (keeps_rmdir hA) (keeps_rmdir hB) cs hcs (hasEntry_rmdir hA) t' (Or.inl ⟨rfl, ?_⟩)
          intro c hc
          obtain ⟨ys, rfl⟩ := List.getLast?_eq_some_iff.mp hc
          rw [← (h4 ys c rfl).1, hf]
  · rw [if_neg (by simpa using hf)]
    have hne : cs ≠ [] := fun e => hf (h3 e)
    obtain ⟨ds, c, rfl⟩ : ∃ ds c, cs = ds ++ [c] := ⟨cs.dropLast, cs.getLast hne, (List.dropLast_concat_getLast hne).symm⟩
    obtain ⟨e1, e2⟩ := h4 ds c rfl
    have hfc : full c ≠ [] := e1 ▸ hf
    obtain ⟨e3, e4⟩ := e2 ⟨c, hfc⟩
    obtain ⟨d, hd⟩ := hpar
    rw [List.dropLast_concat] at hd
    have hds : ∀ x ∈ ds, U x := fun x hx => hcs x (List.mem_append_left _ hx)
    have htd : s.tableDir b = .ok d := by
      unfold LSys.tableDir
      rw [e3, H.tree.opendir ds hds, hd]
    rw [htd, e4, e1]
    dsimp only
    obtain ⟨hw, hdir⟩ := opendir_ok hd
    unfold LSys.setRows
    generalize htt : upd s.tables d (some (LAction.delete.apply ⟨enc c, full c⟩ (s.rows d))) = t
    obtain ⟨t', g1, g2⟩ := hdrop t
    have hfl := hfull _ _ g2 (fun k hk => by
      rw [← htt] at hk
      unfold upd at hk
      by_cases h : k = d
      · rw [h]; exact hdir
      · rw [if_neg h] at hk; exact (H.tables k hk).1)
    -- the tables after a failure
    have H' : Shows V U L enc full { s with tables := upd t' d (some (s.rows d)) } a := by
      rcases g2 with ⟨rfl, _⟩ | ⟨k, hk, rfl⟩
      · have : upd t' d (some (s.rows d)) = upd s.tables d (some (s.rows d)) := by
          rw [← htt]; funext k; unfold upd; split <;> rfl
        rw [this]
        exact H.touch d hdir ⟨c, hfc⟩
      · by_cases hkd : k = d
        · have : upd (upd t k none) d (some (s.rows d)) = upd s.tables d (some (s.rows d)) := by
            rw [← htt, hkd]; funext k; unfold upd; split <;> rfl
          rw [this]
          exact H.touch d hdir ⟨c, hfc⟩
        · have H1 := (H.cleared k (hclear k hk)).touch d hdir ⟨c, hfc⟩
          have : upd (upd t k none) d (some (s.rows d)) =
              upd (upd s.tables k none) d (some (LSys.rows { s with tables := upd s.tables k none } d)) := by
            have hr : LSys.rows { s with tables := upd s.tables k none } d = s.rows d := by
              unfold LSys.rows
              dsimp only
              unfold upd
              rw [if_neg (Ne.symm hkd)]
            rw [hr, ← htt]
            funext j
            unfold upd
            split
            · rfl
            · split <;> rfl
          rw [this]
          exact H1
    rw [g1, h2]
    cases fault with
    | some e => exact ⟨rfl, H'⟩
    | none =>
      have hr := H.tree.rmdir (ds ++ [c]) hcs _ hfl
      dsimp only
      cases hA : a.fs.rmdir (fun _ => false) (ds ++ [c]) with
      | error e =>
        cases hB : s.back.rmdir (LSys.full { s with tables := t' }) ((ds ++ [c]).map enc) with
        | error e' => rw [hA, hB] at hr; cases hr; exact ⟨rfl, H'⟩
        | ok B' => rw [hA, hB] at hr; exact hr.elim
      | ok A' =>
        cases hB : s.back.rmdir (LSys.full { s with tables := t' }) ((ds ++ [c]).map enc) with
        | error e' => rw [hA, hB] at hr; exact hr.elim
        | ok B' =>
          rw [hA, hB] at hr
          refine ⟨rfl, ?_⟩
          have hg := hasEntry_rmdir hA
          have H1 := H.shrunk (n := s.rng) hT hr (keeps_rmdir hA) (keeps_rmdir hB) (ds ++ [c]) hcs hg t
            (Or.inr ⟨d, c, by rw [List.dropLast_concat]; exact hw, by simp, hfc, hdir, htt.symm⟩)
          show Shows V U L enc full { s with tables := t', back := B' } { a with fs := A' }
          rcases g2 with ⟨rfl, _⟩ | ⟨k, hk, rfl⟩
          · exact H1
          · obtain ⟨_, _, _, _, hg⟩ := hg
            exact H1.cleared k (fun p hp => hclear k hk p (hg k p hp).1)

end
end Securefs
