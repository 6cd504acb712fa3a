import Verif.Model.LiteFs
import Verif.Props.Names
/-! Helper lemmas about attribute values, listing and the tables of long names. -/

namespace Securefs

open Props

/-! ## Association lists -/

theorem lookup_dropKey {α : Type} (l : List (Bytes × α)) (n m : Bytes) :
    (dropKey l n).lookup m = if m = n then none else l.lookup m := by
  unfold dropKey
  induction l with
  | nil => simp
  | cons p l ih =>
    obtain ⟨k, x⟩ := p
    by_cases hk : k = n
    · rw [List.filter_cons_of_neg (by simp [hk]), ih]
      by_cases hm : m = n
      · simp [hm]
      · rw [if_neg hm, if_neg hm, List.lookup_cons]
        have : (m == k) = false := by rw [beq_eq_false_iff_ne]; exact fun e => hm (e.trans hk)
        rw [this]
    · rw [List.filter_cons_of_pos (by simp [hk]), List.lookup_cons, List.lookup_cons, ih]
      by_cases hm : m = n
      · have : (m == k) = false := by rw [beq_eq_false_iff_ne]; exact fun e => hk (e.symm.trans hm)
        rw [if_pos hm, this, if_pos hm]
      · rw [if_neg hm, if_neg hm]

theorem lookup_consKey {α : Type} (l : List (Bytes × α)) (n m : Bytes) (x : α) :
    ((n, x) :: l).lookup m = if m = n then some x else l.lookup m := by
  rw [List.lookup_cons]
  by_cases h : m = n
  · simp [h]
  · have : (m == n) = false := by rw [beq_eq_false_iff_ne]; exact h
    rw [this, if_neg h]

theorem lookup_insertOrIgnore (l : List (Bytes × Bytes)) (n m enc : Bytes) :
    (insertOrIgnore l n enc).lookup m = if m = n ∧ l.lookup n = none then some enc else l.lookup m := by
  unfold insertOrIgnore
  cases h : l.lookup n with
  | some x => simp
  | none =>
    simp only [and_true]
    rw [lookup_consKey]

theorem upd_same {α : Type} (f : Nat → α) (d : Nat) (x : α) : upd f d x d = x := if_pos rfl
theorem upd_other {α : Type} (f : Nat → α) (d k : Nat) (x : α) (h : k ≠ d) : upd f d x k = f k := if_neg h

/-! ## The invariant of the tables -/

/-- A row for the backing name `n` decrypts to a component whose backing name is `n`. -/
def GoodRow (T : NewStyle) (n enc : Bytes) : Prop :=
  ∃ v, T.decryptComponent enc = .ok (.name v) ∧ T.encodeComponent v = .ok n

/-- All rows are good. -/
def RowsGood (T : NewStyle) (rows : Nat → List (Bytes × Bytes)) : Prop :=
  ∀ d n enc, (rows d).lookup n = some enc → GoodRow T n enc

/-- Every entry with the suffix has a row. -/
def Covered (T : NewStyle) (entries : Nat → List (Bytes × LNode)) (rows : Nat → List (Bytes × Bytes)) : Prop :=
  ∀ d n node, (entries d).lookup n = some node → endsWith n T.suffix = true → (rows d).lookup n ≠ none

theorem lname_spec {T : NewStyle} (hS : T.siv.WF) (hf : ForeignSuffix T) (v : Bytes) : ∃ n, T.lname v = .ok n ∧
    T.encodeComponent v = .ok n.backing ∧
    ((n.full = [] ∧ v.length ≤ T.threshold ∧ endsWith n.backing T.suffix = false) ∨
     (n.full ≠ [] ∧ T.threshold < v.length ∧ GoodRow T n.backing n.full)) := by
  unfold NewStyle.lname
  obtain ⟨b, hb⟩ := encodeComponent_total hS v
  rw [hb]
  dsimp only
  by_cases hl : v.length > T.threshold
  · rw [if_pos hl]
    obtain ⟨s, c, w, g1, _, _, _, _, _, _, _, g9⟩ := encodeName_spec hS v
    rw [g1]
    refine ⟨_, rfl, rfl, Or.inr ⟨encodeName_ne hS v s g1, hl, v, ?_, hb⟩⟩
    unfold NewStyle.decryptComponent
    rw [not_endsWith_of_foreign hf s g9]
    exact decodeName_encodeName hS v s (by intro e; subst e; simp at hl) g1
  · rw [if_neg hl]
    refine ⟨_, rfl, rfl, Or.inl ⟨rfl, by omega, ?_⟩⟩
    apply not_endsWith_of_foreign hf
    by_cases hv : v = []
    · subst hv; cases hb; simp
    · rw [encodeComponent_inline v hv (by omega)] at hb
      obtain ⟨s, c, w, g1, _, _, _, _, _, _, _, g9⟩ := encodeName_spec hS v
      rw [hb] at g1; cases g1
      exact g9

theorem rowsGood_insert {T : NewStyle} {rows : Nat → List (Bytes × Bytes)} (h : RowsGood T rows) (d : Nat) (n enc : Bytes)
    (hg : GoodRow T n enc) : RowsGood T (upd rows d (insertOrIgnore (rows d) n enc)) := by
  intro k m e hm
  by_cases hk : k = d
  · subst hk
    rw [upd_same, lookup_insertOrIgnore] at hm
    split at hm
    · rename_i hc
      cases hm
      rw [hc.1]; exact hg
    · exact h _ _ _ hm
  · rw [upd_other _ _ _ _ hk] at hm
    exact h _ _ _ hm

theorem rowsGood_drop {T : NewStyle} {rows : Nat → List (Bytes × Bytes)} (h : RowsGood T rows) (d : Nat) (n : Bytes) :
    RowsGood T (upd rows d (dropKey (rows d) n)) := by
  intro k m e hm
  by_cases hk : k = d
  · subst hk
    rw [upd_same, lookup_dropKey] at hm
    split at hm
    · cases hm
    · exact h _ _ _ hm
  · rw [upd_other _ _ _ _ hk] at hm
    exact h _ _ _ hm

theorem rowsGood_clear {T : NewStyle} {rows : Nat → List (Bytes × Bytes)} (h : RowsGood T rows) (d : Nat) :
    RowsGood T (upd rows d []) := by
  intro k m e hm
  by_cases hk : k = d
  · subst hk; rw [upd_same] at hm; cases hm
  · rw [upd_other _ _ _ _ hk] at hm; exact h _ _ _ hm

theorem rowsGood_restore {T : NewStyle} {rows rows' : Nat → List (Bytes × Bytes)} (h : RowsGood T rows) (h' : RowsGood T rows') (d : Nat) :
    RowsGood T (upd rows' d (rows d)) := by
  intro k m e hm
  by_cases hk : k = d
  · subst hk; rw [upd_same] at hm; exact h _ _ _ hm
  · rw [upd_other _ _ _ _ hk] at hm; exact h' _ _ _ hm

/-- The invariant. -/
def LInv (T : NewStyle) (t : LTree) : Prop := RowsGood T t.rows ∧ Covered T t.entries t.rows

theorem upd_upd_self {α : Type} (f : Nat → α) (d : Nat) (x : α) : upd (upd f d x) d (f d) = f := by
  funext k
  unfold upd
  split
  · rename_i h; rw [h]
  · rfl

/-- A callback that leaves the rows alone and, when it fails, everything. -/
theorem withLongName_simple {T : NewStyle} (t : LTree) (h : LInv T t) (d : Nat) (n : LName) (action : LAction) (cb : LTree → LOutcome)
    (hn : (n.full = [] ∧ endsWith n.backing T.suffix = false) ∨ (n.full ≠ [] ∧ GoodRow T n.backing n.full))
    (hrows : ∀ t, (cb t).2.rows = t.rows) (hfail : ∀ t e, (cb t).1 = some e → (cb t).2 = t)
    (hadd : ∀ t k m node, (cb t).1 = none → ((cb t).2.entries k).lookup m = some node →
      ((t.entries k).lookup m = some node ∧ (action matches .delete → ¬ (k = d ∧ m = n.backing))) ∨
      (k = d ∧ m = n.backing ∧ action matches .create)) :
    LInv T (withLongName d n action true cb t).2 := by
  unfold withLongName
  by_cases hf : n.full = []
  · rw [if_pos (by simpa using hf)]
    have hne : endsWith n.backing T.suffix = false := by
      rcases hn with h | h
      · exact h.2
      · exact absurd hf h.1
    refine ⟨by rw [hrows]; exact h.1, ?_⟩
    rw [hrows]
    cases hc : (cb t).1 with
    | some e => rw [hfail t e hc]; exact h.2
    | none =>
      intro k m node hm he
      rcases hadd t k m node hc hm with ⟨g, _⟩ | ⟨rfl, rfl, _⟩
      · exact h.2 k m node g he
      · rw [hne] at he; cases he
  · rw [if_neg (by simpa using hf)]
    have hg : GoodRow T n.backing n.full := by
      rcases hn with h | h
      · exact absurd h.1 hf
      · exact h.2
    generalize hrw : action.apply n (t.rows d) = rows
    generalize ht1 : ({ entries := t.entries, rows := upd t.rows d rows } : LTree) = t1
    have e1 : t1.entries = t.entries := by rw [← ht1]
    have e2 : t1.rows = upd t.rows d rows := by rw [← ht1]
    dsimp only
    cases hc : (cb t1).1 with
    | some e =>
      dsimp only
      rw [hfail t1 e hc]
      refine ⟨?_, ?_⟩
      · rw [e2, upd_upd_self]; exact h.1
      · rw [e2, e1, upd_upd_self]; exact h.2
    | none =>
      dsimp only
      rw [if_pos rfl]
      refine ⟨?_, ?_⟩
      · rw [hrows, e2, ← hrw]
        cases action with
        | create => exact rowsGood_insert h.1 d _ _ hg
        | delete => exact rowsGood_drop h.1 d _
      · rw [hrows, e2]
        intro k m node hm he
        have hm' := hadd t1 k m node hc hm
        rw [e1] at hm'
        cases action with
        | create =>
          by_cases hk : k = d
          · subst hk
            rw [upd_same, ← hrw, LAction.apply, lookup_insertOrIgnore]
            split
            · simp
            · rename_i hx
              rcases hm' with ⟨g, _⟩ | ⟨_, rfl, _⟩
              · exact h.2 k m node g he
              · exact fun e => hx ⟨rfl, e⟩
          · rw [upd_other _ _ _ _ hk]
            rcases hm' with ⟨g, _⟩ | ⟨e, _⟩
            · exact h.2 k m node g he
            · exact absurd e hk
        | delete =>
          rcases hm' with ⟨g, g2⟩ | ⟨_, _, g⟩
          · have g3 := g2 rfl
            by_cases hk : k = d
            · subst hk
              rw [upd_same, ← hrw, LAction.apply, lookup_dropKey, if_neg (fun e => g3 ⟨rfl, e⟩)]
              exact h.2 k m node g he
            · rw [upd_other _ _ _ _ hk]
              exact h.2 k m node g he
          · cases g

theorem sysCall_none_iff (fault : Option Nat) (body : LTree → LOutcome) (t : LTree) (h : (sysCall fault body t).1 = none) :
    sysCall fault body t = body t := by
  unfold sysCall at h ⊢
  cases fault with
  | none => rfl
  | some e => cases h

theorem sysAdd_facts (fault : Option Nat) (d : Nat) (n : Bytes) (node : LNode) :
    (∀ t, (sysCall fault (sysAdd d n node) t).2.rows = t.rows) ∧
    (∀ t e, (sysCall fault (sysAdd d n node) t).1 = some e → (sysCall fault (sysAdd d n node) t).2 = t) ∧
    (∀ t k m x, (sysCall fault (sysAdd d n node) t).1 = none → ((sysCall fault (sysAdd d n node) t).2.entries k).lookup m = some x →
      ((t.entries k).lookup m = some x) ∨ (k = d ∧ m = n)) := by
  refine ⟨?_, ?_, ?_⟩
  · intro t
    unfold sysCall sysAdd
    cases fault with
    | some e => rfl
    | none => dsimp only; split <;> rfl
  · intro t e h
    unfold sysCall sysAdd at h ⊢
    cases fault with
    | some e => rfl
    | none =>
      dsimp only at h ⊢
      split at h
      · rfl
      · cases h
  · intro t k m x h hm
    rw [sysCall_none_iff _ _ _ h] at hm h
    unfold sysAdd at hm h
    split at hm
    · exact Or.inl hm
    · by_cases hk : k = d
      · subst hk
        dsimp only at hm
        rw [upd_same, lookup_consKey] at hm
        split at hm
        · rename_i hx; exact Or.inr ⟨rfl, hx⟩
        · exact Or.inl hm
      · dsimp only at hm
        rw [upd_other _ _ _ _ hk] at hm
        exact Or.inl hm

theorem sysUnlink_facts (fault : Option Nat) (d : Nat) (n : Bytes) :
    (∀ t, (sysCall fault (sysUnlink d n) t).2.rows = t.rows) ∧
    (∀ t e, (sysCall fault (sysUnlink d n) t).1 = some e → (sysCall fault (sysUnlink d n) t).2 = t) ∧
    (∀ t k m x, (sysCall fault (sysUnlink d n) t).1 = none → ((sysCall fault (sysUnlink d n) t).2.entries k).lookup m = some x →
      ((t.entries k).lookup m = some x) ∧ ¬ (k = d ∧ m = n)) := by
  refine ⟨?_, ?_, ?_⟩
  · intro t
    unfold sysCall sysUnlink
    cases fault with
    | some e => rfl
    | none => dsimp only; split <;> rfl
  · intro t e h
    unfold sysCall sysUnlink at h ⊢
    cases fault with
    | some e => rfl
    | none =>
      dsimp only at h ⊢
      split at h
      · rfl
      · rfl
      · cases h
  · intro t k m x h hm
    rw [sysCall_none_iff _ _ _ h] at hm h
    unfold sysUnlink at hm h
    split at hm
    · rename_i hx; rw [hx] at h; cases h
    · rename_i hx; rw [hx] at h; cases h
    · by_cases hk : k = d
      · subst hk
        dsimp only at hm
        rw [upd_same, lookup_dropKey] at hm
        split at hm
        · cases hm
        · rename_i hx; exact ⟨hm, fun e => hx e.2⟩
      · dsimp only at hm
        rw [upd_other _ _ _ _ hk] at hm
        exact ⟨hm, fun e => hk e.1⟩

theorem withLongName_full {d : Nat} {n : LName} {action : LAction} {cb : LTree → LOutcome} {t : LTree} (h : n.full ≠ []) :
    withLongName d n action true cb t =
      let r := cb { t with rows := upd t.rows d (action.apply n (t.rows d)) }
      match r.1 with
      | some e => (some e, { r.2 with rows := upd r.2.rows d (t.rows d) })
      | none => (none, r.2) := by
  unfold withLongName
  rw [if_neg (by simpa using h)]
  rfl

theorem withLongName_short {d : Nat} {n : LName} {action : LAction} {commit : Bool} {cb : LTree → LOutcome} {t : LTree} (h : n.full = []) :
    withLongName d n action commit cb t = cb t := by
  unfold withLongName
  rw [if_pos (by simpa using h)]

/-- Clearing a fresh directory keeps the invariant. -/
theorem linv_clear {T : NewStyle} {t : LTree} (h : LInv T t) (id : Nat) :
    LInv T ⟨upd t.entries id [], upd t.rows id []⟩ := by
  refine ⟨rowsGood_clear h.1 id, ?_⟩
  intro k m node hm he
  dsimp only at hm ⊢
  by_cases hk : k = id
  · subst hk; rw [upd_same] at hm; cases hm
  · rw [upd_other _ _ _ _ hk] at hm ⊢
    exact h.2 k m node hm he

theorem upd_comm {α : Type} (f : Nat → α) (a b : Nat) (x y : α) (h : a ≠ b) : upd (upd f a x) b y = upd (upd f b y) a x := by
  funext k
  unfold upd
  by_cases h1 : k = a
  · rw [if_pos h1, if_neg (fun e => h (h1 ▸ e)), if_pos h1]
  · rw [if_neg h1, if_neg h1]

theorem mkdir_inv {T : NewStyle} {t : LTree} (h : LInv T t) (d id : Nat) (n : LName) (hid : id ≠ d) (fault : Option Nat)
    (hn : (n.full = [] ∧ endsWith n.backing T.suffix = false) ∨ (n.full ≠ [] ∧ GoodRow T n.backing n.full)) :
    LInv T (withLongName d n .create true (sysCall fault (sysMkdir d n.backing id)) t).2 := by
  have hd : d ≠ id := fun e => hid e.symm
  have triv : LInv T (withLongName d n .create true (sysCall (some 0) (sysAdd d n.backing (.dir id))) t).2 := by
    obtain ⟨f1, f2, f3⟩ := sysAdd_facts (some 0) d n.backing (.dir id)
    exact withLongName_simple t h d n .create _ hn f1 f2 (fun t k m x a b => by
      rcases f3 t k m x a b with e | ⟨e1, e2⟩
      · exact Or.inl ⟨e, fun e => by cases e⟩
      · exact Or.inr ⟨e1, e2, rfl⟩)
  have fail : ∀ e, LInv T (withLongName d n .create true (fun t => (some e, t)) t).2 := by
    intro e
    by_cases hf : n.full = []
    · rw [withLongName_short hf]; exact h
    · rw [withLongName_full hf]
      dsimp only
      rw [upd_upd_self]; exact h
  cases fault with
  | some e => exact fail e
  | none =>
    cases hl : (t.entries d).lookup n.backing with
    | some x =>
      have := fail 17
      by_cases hf : n.full = []
      · rw [withLongName_short hf] at this ⊢
        simp only [sysCall, sysMkdir, hl]
        exact this
      · rw [withLongName_full hf] at this ⊢
        simp only [sysCall, sysMkdir, hl]
        exact this
    | none =>
      have hc := linv_clear h id
      obtain ⟨f1, f2, f3⟩ := sysAdd_facts none d n.backing (.dir id)
      have := withLongName_simple _ hc d n .create _ hn f1 f2 (fun t k m x a b => by
        rcases f3 t k m x a b with e | ⟨e1, e2⟩
        · exact Or.inl ⟨e, fun e => by cases e⟩
        · exact Or.inr ⟨e1, e2, rfl⟩)
      have hl' : ((upd t.entries id []) d).lookup n.backing = none := by rw [upd_other _ _ _ _ hd]; exact hl
      by_cases hf : n.full = []
      · rw [withLongName_short hf] at this ⊢
        simp only [sysCall, sysMkdir, sysAdd, hl, hl'] at this ⊢
        exact this
      · rw [withLongName_full hf] at this ⊢
        simp only [sysCall, sysMkdir, sysAdd, hl, hl'] at this ⊢
        rw [upd_other _ _ _ _ hd, upd_comm t.rows _ _ _ _ hid] at this
        rw [upd_other _ _ _ _ hd]
        rw [upd_other _ _ _ _ hd] at this
        exact this

theorem rmdir_inv {T : NewStyle} {t : LTree} (h : LInv T t) (d : Nat) (n : LName) (fault : Option Nat)
    (hb : ∀ id, (t.entries d).lookup n.backing = some (.dir id) → ∀ m node, (t.entries id).lookup m = some node →
      endsWith m T.suffix = false) :
    LInv T (withLongName d n .delete true (sysRmdir fault d n.backing) t).2 := by
  have fail : ∀ e, LInv T (withLongName d n .delete true (fun t => (some e, t)) t).2 := by
    intro e
    by_cases hf : n.full = []
    · rw [withLongName_short hf]; exact h
    · rw [withLongName_full hf]
      dsimp only
      rw [upd_upd_self]; exact h
  have other : ∀ e, sysRmdir fault d n.backing t = (some e, t) →
      (∀ rows, sysRmdir fault d n.backing { t with rows := rows } = (some e, { t with rows := rows })) →
      LInv T (withLongName d n .delete true (sysRmdir fault d n.backing) t).2 := by
    intro e e1 e2
    have := fail e
    by_cases hf : n.full = []
    · rw [withLongName_short hf] at this ⊢
      rw [e1]; exact this
    · rw [withLongName_full hf] at this ⊢
      rw [e2]; exact this
  cases hl : (t.entries d).lookup n.backing with
  | none => exact other 2 (by simp only [sysRmdir, hl]) (by intro r; simp only [sysRmdir, hl])
  | some node =>
    cases node with
    | file i => exact other 20 (by simp only [sysRmdir, hl]) (by intro r; simp only [sysRmdir, hl])
    | symlink i => exact other 20 (by simp only [sysRmdir, hl]) (by intro r; simp only [sysRmdir, hl])
    | dir id =>
      have hb := hb id hl
      -- the rows of the directory itself do not matter: none of its entries has the suffix
      have hcov : ∀ rows : Nat → List (Bytes × Bytes), Covered T t.entries rows → Covered T t.entries (upd rows id []) := by
        intro rows hr k m x hm he
        by_cases hk : k = id
        · subst hk; rw [hb m x hm] at he; cases he
        · rw [upd_other _ _ _ _ hk]; exact hr k m x hm he
      have hdrop : ∀ rows : Nat → List (Bytes × Bytes), Covered T t.entries rows →
          Covered T (upd t.entries d (dropKey (t.entries d) n.backing)) (upd rows d (dropKey (rows d) n.backing)) := by
        intro rows hr k m x hm he
        by_cases hk : k = d
        · subst hk
          rw [upd_same, lookup_dropKey] at hm ⊢
          split at hm
          · cases hm
          · rename_i hne; rw [if_neg hne]; exact hr k m x hm he
        · rw [upd_other _ _ _ _ hk] at hm ⊢; exact hr k m x hm he
      have hdrop' : ∀ rows : Nat → List (Bytes × Bytes), Covered T t.entries rows →
          Covered T (upd t.entries d (dropKey (t.entries d) n.backing)) rows := by
        intro rows hr k m x hm he
        by_cases hk : k = d
        · subst hk
          rw [upd_same, lookup_dropKey] at hm
          split at hm
          · cases hm
          · exact hr k m x hm he
        · rw [upd_other _ _ _ _ hk] at hm; exact hr k m x hm he
      by_cases hf : n.full = []
      · rw [withLongName_short hf]
        simp only [sysRmdir, hl, sysCall]
        cases fault with
        | some e => exact ⟨rowsGood_clear h.1 id, hcov _ h.2⟩
        | none =>
          dsimp only
          split
          · exact ⟨rowsGood_clear h.1 id, hdrop' _ (hcov _ h.2)⟩
          · exact ⟨rowsGood_clear h.1 id, hcov _ h.2⟩
      · rw [withLongName_full hf]
        have hfail : LInv T { entries := t.entries, rows := upd (upd (upd t.rows d (dropKey (t.rows d) n.backing)) id []) d (t.rows d) } := by
          by_cases hid : id = d
          · subst hid
            have : upd (upd (upd t.rows id (dropKey (t.rows id) n.backing)) id []) id (t.rows id) = t.rows := by
              funext k; unfold upd; split
              · rename_i hk; rw [hk]
              · rfl
            rw [this]; exact h
          · rw [upd_comm _ _ _ _ _ hid, upd_upd_self]
            exact ⟨rowsGood_clear h.1 id, hcov _ h.2⟩
        simp only [sysRmdir, hl, sysCall, LAction.apply]
        cases fault with
        | some e => exact hfail
        | none =>
          by_cases he : (t.entries id).isEmpty = true
          · simp only [he, if_true]
            have hid : id ≠ d := by
              intro e; subst e
              rw [List.isEmpty_iff.mp he] at hl
              cases hl
            refine ⟨rowsGood_clear (rowsGood_drop h.1 d _) id, ?_⟩
            dsimp only
            intro k m x hm hs
            by_cases hk : k = id
            · subst hk
              rw [upd_other _ _ _ _ hid, List.isEmpty_iff.mp he] at hm
              cases hm
            · rw [upd_other _ _ _ _ hk]
              exact hdrop _ h.2 k m x hm hs
          · simp only [he]
            exact hfail

theorem rename_inv {T : NewStyle} {t : LTree} (h : LInv T t) (d d' : Nat) (n n' : LName) (fault : Option Nat)
    (hn' : (n'.full = [] ∧ endsWith n'.backing T.suffix = false) ∨ (n'.full ≠ [] ∧ GoodRow T n'.backing n'.full))
    (hb : n.full ≠ [] → (d, n.backing) ≠ (d', n'.backing) → (t.entries d).lookup n.backing ≠ none →
      (t.entries d').lookup n'.backing ≠ (t.entries d).lookup n.backing) :
    LInv T (lRename d n d' n' fault true t).2 := by
  -- the tree after the call of the system, for any rows
  have sys : ∀ rows : Nat → List (Bytes × Bytes), ∃ o, sysCall fault (sysRename d n.backing d' n'.backing) { t with rows := rows } = o ∧
      o.2.rows = rows ∧ (∀ e, o.1 = some e → o.2.entries = t.entries) ∧
      (o.1 = none → (o.2.entries = t.entries ∧ (t.entries d').lookup n'.backing = (t.entries d).lookup n.backing ∧
          (t.entries d).lookup n.backing ≠ none) ∨
        ∀ k m x, (o.2.entries k).lookup m = some x → (k = d' ∧ m = n'.backing) ∨
          ((t.entries k).lookup m = some x ∧ ¬ (k = d ∧ m = n.backing))) := by
    intro rows
    refine ⟨_, rfl, ?_, ?_, ?_⟩
    · unfold sysCall sysRename
      cases fault with
      | some e => rfl
      | none =>
        dsimp only
        split
        · rfl
        · split
          · rfl
          · split
            · rfl
            · split
              · split <;> rfl
              · rfl
              · rfl
              · rfl
    · intro e he
      unfold sysCall sysRename at he ⊢
      cases fault with
      | some e => rfl
      | none =>
        dsimp only at he ⊢
        cases hs : (t.entries d).lookup n.backing with
        | none => rfl
        | some src =>
          rw [hs] at he
          dsimp only at he ⊢
          cases hd : (t.entries d').lookup n'.backing with
          | none => rw [hd] at he; cases he
          | some dst =>
            rw [hd] at he
            dsimp only at he ⊢
            by_cases hsd : src = dst
            · rw [if_pos hsd] at he; cases he
            · rw [if_neg hsd] at he ⊢
              cases src <;> cases dst <;> dsimp only at he ⊢ <;> first | (cases he; done) | rfl | skip
              split at he
              · cases he
              · rename_i hx; rw [if_neg hx]
    · intro he
      rw [sysCall_none_iff _ _ _ he]
      rw [sysCall_none_iff _ _ _ he] at he
      have move : ∀ src k m x, ((upd (upd t.entries d (dropKey (t.entries d) n.backing)) d'
          ((n'.backing, src) :: dropKey (upd t.entries d (dropKey (t.entries d) n.backing) d') n'.backing)) k).lookup m = some x →
          (k = d' ∧ m = n'.backing) ∨ ((t.entries k).lookup m = some x ∧ ¬ (k = d ∧ m = n.backing)) := by
        intro src k m x hm
        have inner : ∀ k m x, ((upd t.entries d (dropKey (t.entries d) n.backing)) k).lookup m = some x →
            (t.entries k).lookup m = some x ∧ ¬ (k = d ∧ m = n.backing) := by
          intro k m x hm
          by_cases hk : k = d
          · subst hk
            rw [upd_same, lookup_dropKey] at hm
            split at hm
            · cases hm
            · rename_i hx; exact ⟨hm, fun e => hx e.2⟩
          · rw [upd_other _ _ _ _ hk] at hm
            exact ⟨hm, fun e => hk e.1⟩
        by_cases hk : k = d'
        · subst hk
          rw [upd_same, lookup_consKey] at hm
          split at hm
          · rename_i hx; exact Or.inl ⟨rfl, hx⟩
          · rw [lookup_dropKey] at hm
            split at hm
            · cases hm
            · exact Or.inr (inner _ _ _ hm)
        · rw [upd_other _ _ _ _ hk] at hm
          exact Or.inr (inner _ _ _ hm)
      unfold sysRename at he ⊢
      dsimp only at he ⊢
      cases hs : (t.entries d).lookup n.backing with
      | none => rw [hs] at he; cases he
      | some src =>
        rw [hs] at he
        dsimp only at he ⊢
        cases hd : (t.entries d').lookup n'.backing with
        | none => exact Or.inr (move src)
        | some dst =>
          rw [hd] at he
          dsimp only at he ⊢
          by_cases hsd : src = dst
          · left
            rw [if_pos hsd]
            exact ⟨rfl, by rw [hsd], by simp⟩
          · right
            rw [if_neg hsd] at he ⊢
            cases src <;> cases dst <;> dsimp only at he ⊢ <;> first | exact move _ | (cases he; done) | skip
            split at he
            · rename_i hx; rw [if_pos hx]; exact move _
            · cases he
  unfold lRename
  by_cases hboth : n.full = [] ∧ n'.full = []
  · rw [if_pos (by simp [hboth])]
    obtain ⟨o, h1, h2, h3, h4⟩ := sys t.rows
    rw [show ({ t with rows := t.rows } : LTree) = t from rfl] at h1
    rw [h1]
    refine ⟨by rw [h2]; exact h.1, ?_⟩
    rw [h2]
    cases ho : o.1 with
    | some e => rw [h3 e ho]; exact h.2
    | none =>
      rcases h4 ho with ⟨g, _⟩ | g
      · rw [g]; exact h.2
      · intro k m x hm he
        rcases g k m x hm with ⟨rfl, rfl⟩ | ⟨g1, _⟩
        · rcases hn' with ⟨_, e⟩ | ⟨e, _⟩
          · rw [e] at he; cases he
          · exact absurd hboth.2 e
        · exact h.2 k m x g1 he
  · rw [if_neg (by simpa using hboth)]
    dsimp only
    generalize hr1 : (if n.full.isEmpty then t.rows else upd t.rows d (dropKey (t.rows d) n.backing)) = rows1
    generalize hr2 : (if n'.full.isEmpty then rows1 else upd rows1 d' (insertOrIgnore (rows1 d') n'.backing n'.full)) = rows2
    have g1 : RowsGood T rows1 := by
      rw [← hr1]; split
      · exact h.1
      · exact rowsGood_drop h.1 d _
    have g2 : RowsGood T rows2 := by
      rw [← hr2]; split
      · exact g1
      · rename_i hx
        rcases hn' with ⟨e, _⟩ | ⟨_, e⟩
        · rw [e] at hx; simp at hx
        · exact rowsGood_insert g1 d' _ _ e
    have l1 : ∀ k m, (t.rows k).lookup m ≠ none → (n.full = [] ∨ ¬ (k = d ∧ m = n.backing)) → (rows1 k).lookup m ≠ none := by
      intro k m hm hc
      rw [← hr1]
      by_cases hf : n.full = []
      · rw [if_pos (by simpa using hf)]; exact hm
      · rw [if_neg (by simpa using hf)]
        have hc := hc.resolve_left hf
        by_cases hk : k = d
        · subst hk
          rw [upd_same, lookup_dropKey, if_neg (fun e => hc ⟨rfl, e⟩)]
          exact hm
        · rw [upd_other _ _ _ _ hk]; exact hm
    have l2 : ∀ k m, (rows1 k).lookup m ≠ none → (rows2 k).lookup m ≠ none := by
      intro k m hm
      rw [← hr2]
      split
      · exact hm
      · by_cases hk : k = d'
        · subst hk
          rw [upd_same, lookup_insertOrIgnore]
          split
          · simp
          · exact hm
        · rw [upd_other _ _ _ _ hk]; exact hm
    have l3 : endsWith n'.backing T.suffix = true → (rows2 d').lookup n'.backing ≠ none := by
      intro he
      have hf : n'.full ≠ [] := by
        rcases hn' with ⟨_, e⟩ | ⟨e, _⟩
        · rw [e] at he; cases he
        · exact e
      rw [← hr2, if_neg (by simpa using hf), upd_same, lookup_insertOrIgnore]
      split
      · simp
      · rename_i hx
        exact fun e => hx ⟨rfl, e⟩
    obtain ⟨o, h1, h2, h3, h4⟩ := sys rows2
    rw [h1]
    cases ho : o.1 with
    | some e =>
      dsimp only
      exact ⟨h.1, by rw [h3 e ho]; exact h.2⟩
    | none =>
      dsimp only
      rw [if_pos rfl]
      refine ⟨by rw [h2]; exact g2, ?_⟩
      rw [h2]
      intro k m x hm he
      rcases h4 ho with ⟨g, ge, gn⟩ | g
      · rw [g] at hm
        by_cases hsame : k = d' ∧ m = n'.backing
        · obtain ⟨rfl, rfl⟩ := hsame; exact l3 he
        · apply l2; apply l1
          · exact h.2 k m x hm he
          · by_cases hf : n.full = []
            · exact Or.inl hf
            · right
              rintro ⟨rfl, rfl⟩
              exact hb hf (fun e => hsame ⟨(Prod.mk.inj e).1, (Prod.mk.inj e).2⟩) gn ge
      · rcases g k m x hm with ⟨rfl, rfl⟩ | ⟨a, b⟩
        · exact l3 he
        · exact l2 _ _ (l1 _ _ (h.2 k m x a he) (Or.inr b))

/-! ## Listing -/

theorem next_shorter (L : ListCfg) (lookup : Lookup) : ∀ (under : List Bytes) (name n : Bytes) (rest : List Bytes),
    L.next lookup under name = some (n, rest) → rest.length < under.length := by
  intro under
  induction under with
  | nil => intro name n rest h; cases h
  | cons u us ih =>
    intro name n rest h
    unfold ListCfg.next at h
    split at h
    · have := ih _ _ _ h; simp only [List.length_cons]; omega
    · split at h
      · cases h; simp
      · split at h
        · cases h; simp
        · split at h
          · have := ih _ _ _ h; simp only [List.length_cons]; omega
          · split at h
            · have := ih _ _ _ h; simp only [List.length_cons]; omega
            · cases h; simp

end Securefs
