import Verif.Model.SimpleDir
import Verif.Spec.SimpleDir
import Verif.Proofs.Encoding
import Mathlib.Data.List.TakeWhile
/-!
# Lemmas on the flat directory
-/

namespace Securefs

open Spec

/-- An entry that can be written. -/
def SdValid (e : DirEntry) : Prop := e.name.length ≤ 255 ∧ (∀ c ∈ e.name, c ≠ 0) ∧ e.id.length = 32 ∧ e.type < 2 ^ 32

/-- The record of an entry. -/
def sdBytes (e : DirEntry) : Bytes := e.name ++ zeros (256 - e.name.length) ++ e.id ++ toLE 4 e.type

theorem sdBytes_length {e : DirEntry} (h : SdValid e) : (sdBytes e).length = 292 := by
  unfold sdBytes zeros
  rw [List.length_append, List.length_append, List.length_append, List.length_replicate, toLE_length, h.2.2.1]
  have := h.1
  omega

theorem sdRecord_eq {e : DirEntry} (h : SdValid e) : sdRecord e = .ok (sdBytes e) := by
  obtain ⟨h1, _, h3, h4⟩ := h
  have hs : sdRecordSize = 292 := rfl
  have hm : sdMaxName = 255 := rfl
  unfold sdRecord
  rw [if_neg (by omega)]
  have e1 : memcpyAt (zeros sdRecordSize) 0 e.name = .ok (e.name ++ zeros (292 - e.name.length)) := by
    unfold memcpyAt zeros
    rw [if_pos (by rw [List.length_replicate]; omega), List.take_zero, List.nil_append, Nat.zero_add, List.drop_replicate, hs]
  rw [e1]
  dsimp only
  have e2 : memcpyAt (e.name ++ zeros (292 - e.name.length)) (sdMaxName + 1) e.id = .ok (e.name ++ zeros (256 - e.name.length) ++ e.id ++ zeros 4) := by
    unfold memcpyAt zeros
    rw [if_pos (by rw [List.length_append, List.length_replicate]; omega), hm, h3]
    have a1 : (e.name ++ List.replicate (292 - e.name.length) 0).take 256 = e.name ++ List.replicate (256 - e.name.length) (0 : UInt8) := by
      rw [List.take_append, List.take_of_length_le (by omega), List.take_replicate]
      congr 2
      omega
    have a2 : (e.name ++ List.replicate (292 - e.name.length) (0 : UInt8)).drop (256 + 32) = List.replicate 4 0 := by
      rw [List.drop_append, List.drop_eq_nil_of_le (by omega), List.nil_append, List.drop_replicate]
      congr 1
      omega
    rw [a1, a2]
  rw [e2]
  dsimp only
  unfold memcpyAt
  have hl : (e.name ++ zeros (256 - e.name.length) ++ e.id).length = 288 := by
    unfold zeros
    rw [List.length_append, List.length_append, List.length_replicate]
    omega
  rw [if_pos (by rw [List.length_append, hl, toLE_length]; decide), toLE_length, hs, Nat.mod_eq_of_lt h4]
  have a1 : (e.name ++ zeros (256 - e.name.length) ++ e.id ++ zeros 4).take (292 - 4) = e.name ++ zeros (256 - e.name.length) ++ e.id := by
    rw [show 292 - 4 = (e.name ++ zeros (256 - e.name.length) ++ e.id).length from hl.symm, List.take_left]
  have a2 : (e.name ++ zeros (256 - e.name.length) ++ e.id ++ zeros 4).drop (292 - 4 + 4) = [] := by
    apply List.drop_eq_nil_of_le
    rw [List.length_append, hl]
    decide
  rw [a1, a2, List.append_nil]
  rfl

theorem sdRecords_eq : ∀ {l : List DirEntry}, (∀ e ∈ l, SdValid e) → sdRecords l = .ok (l.flatMap sdBytes) := by
  intro l
  induction l with
  | nil => intro _; rfl
  | cons e l ih =>
    intro h
    rw [sdRecords, sdRecord_eq (h e List.mem_cons_self)]
    dsimp only
    rw [ih fun x hx => h x (List.mem_cons_of_mem _ hx)]
    rfl

/-- Sorted without two names that are the same. -/
def SdSorted (cmp : Bytes → Bytes → Int) (l : List DirEntry) : Prop := l.Pairwise fun a b => cmp a.name b.name < 0

theorem sd_emplace_last {cmp : Bytes → Bytes → Int} (hc : TotalPreorder cmp) (e : DirEntry) : ∀ {l : List DirEntry}, (∀ x ∈ l, cmp x.name e.name < 0) →
    sdEmplace cmp e l = (l ++ [e], true) := by
  intro l
  induction l with
  | nil => intro _; rfl
  | cons x l ih =>
    intro h
    have hx := h x List.mem_cons_self
    rw [sdEmplace, if_neg (by have := (hc.1 x.name e.name).mp (by omega); omega), if_pos hx]
    dsimp only
    rw [ih fun y hy => h y (List.mem_cons_of_mem _ hy)]
    rfl

theorem sd_takeWhile_name {l r : Bytes} (h : ∀ c ∈ l, c ≠ 0) : (l ++ 0 :: r).takeWhile (· ≠ 0) = l := by
  rw [List.takeWhile_append_of_pos (fun c hc => by simpa using h c hc), List.takeWhile_cons_of_neg (by simp), List.append_nil]

/-- One record is read back. -/
theorem sd_load_step {cmp : Bytes → Bytes → Int} {e : DirEntry} (h : SdValid e) (pre rest : Bytes) (fuel : Nat) (table : List DirEntry) :
    sdLoad cmp (pre ++ (sdBytes e ++ rest)) (fuel + 1) pre.length table = sdLoad cmp (pre ++ (sdBytes e ++ rest)) fuel (pre.length + 292) (sdEmplace cmp e table).1 := by
  obtain ⟨h1, h2, h3, h4⟩ := h
  have hl := sdBytes_length ⟨h1, h2, h3, h4⟩
  have hs : sdRecordSize = 292 := rfl
  have hm : sdMaxName = 255 := rfl
  rw [sdLoad]
  dsimp only
  have hbuf : ((pre ++ (sdBytes e ++ rest)).drop pre.length).take sdRecordSize = sdBytes e := by
    rw [List.drop_left, hs, ← hl, List.take_left]
  rw [hbuf, if_neg (by omega)]
  have hset : memcpyAt (sdBytes e) sdMaxName [0] = .ok (sdBytes e) := by
    unfold memcpyAt
    rw [if_pos (by rw [hl]; decide), hm]
    have hz : sdBytes e = (e.name ++ zeros (255 - e.name.length)) ++ (0 :: (e.id ++ toLE 4 e.type)) := by
      unfold sdBytes zeros
      rw [show 256 - e.name.length = (255 - e.name.length) + 1 by omega, List.replicate_succ']
      simp only [List.append_assoc, List.cons_append, List.nil_append]
    have hlen : (e.name ++ zeros (255 - e.name.length)).length = 255 := by
      unfold zeros; rw [List.length_append, List.length_replicate]; omega
    have a1 : (sdBytes e).take 255 = e.name ++ zeros (255 - e.name.length) := by
      rw [hz]
      exact List.take_left' hlen
    have a2 : (sdBytes e).drop (255 + [(0 : UInt8)].length) = e.id ++ toLE 4 e.type := by
      rw [hz, show 255 + [(0 : UInt8)].length = (e.name ++ zeros (255 - e.name.length) ++ [0]).length by rw [List.length_append, hlen]]
      rw [show (e.name ++ zeros (255 - e.name.length)) ++ (0 :: (e.id ++ toLE 4 e.type)) = (e.name ++ zeros (255 - e.name.length) ++ [0]) ++ (e.id ++ toLE 4 e.type) by
        simp only [List.append_assoc, List.cons_append, List.nil_append], List.drop_left]
    rw [a1, a2, hz]
    simp only [List.append_assoc, List.cons_append, List.nil_append]
  rw [hset]
  dsimp only
  have h256 : (e.name ++ zeros (256 - e.name.length)).length = 256 := by
    unfold zeros; rw [List.length_append, List.length_replicate]; omega
  have hty : (sdBytes e).drop (sdRecordSize - 4) = toLE 4 e.type := by
    unfold sdBytes
    rw [hs, show 292 - 4 = (e.name ++ zeros (256 - e.name.length) ++ e.id).length by rw [List.length_append, h256, h3], List.drop_left]
  have hid : ((sdBytes e).drop (sdMaxName + 1)).take 32 = e.id := by
    unfold sdBytes
    rw [hm, show 255 + 1 = (e.name ++ zeros (256 - e.name.length)).length from h256.symm, List.append_assoc (e.name ++ _), List.drop_left, ← h3, List.take_left]
  have hname : (sdBytes e).takeWhile (· ≠ 0) = e.name := by
    unfold sdBytes zeros
    rw [show 256 - e.name.length = (255 - e.name.length) + 1 by omega, List.replicate_succ]
    simp only [List.append_assoc, List.cons_append]
    exact sd_takeWhile_name h2
  have hle := fromLE_toLE 4 e.type h4 []
  rw [List.append_nil] at hle
  rw [hty, hle]
  dsimp only
  rw [hid, hname, hs]

/-- All records are read back. -/
theorem sd_load_all {cmp : Bytes → Bytes → Int} (hc : TotalPreorder cmp) : ∀ (l table : List DirEntry) (pre : Bytes) (fuel : Nat), (∀ e ∈ l, SdValid e) →
    SdSorted cmp (table ++ l) → l.length < fuel → sdLoad cmp (pre ++ l.flatMap sdBytes) fuel pre.length table = .ok (table ++ l) := by
  intro l
  induction l with
  | nil =>
    intro table pre fuel _ _ hf
    cases fuel with
    | zero => cases hf
    | succ fuel =>
      rw [sdLoad]
      dsimp only
      rw [if_pos (by rw [List.flatMap_nil, List.append_nil, List.drop_length, List.take_nil]; decide), List.append_nil]
  | cons e l ih =>
    intro table pre fuel hv hs hf
    cases fuel with
    | zero => cases hf
    | succ fuel =>
      have hve := hv e List.mem_cons_self
      rw [List.flatMap_cons, sd_load_step hve, sd_emplace_last hc e (fun x hx => (List.pairwise_append.mp hs).2.2 x hx e List.mem_cons_self)]
      dsimp only
      have := ih (table ++ [e]) (pre ++ sdBytes e) fuel (fun x hx => hv x (List.mem_cons_of_mem _ hx)) (by rw [List.append_assoc]; exact hs)
        (Nat.lt_of_succ_lt_succ hf)
      rw [List.length_append, sdBytes_length hve, List.append_assoc, List.append_assoc] at this
      exact this

theorem sd_records_length {l : List DirEntry} (h : ∀ e ∈ l, SdValid e) : l.length ≤ (l.flatMap sdBytes).length := by
  induction l with
  | nil => exact Nat.le_refl _
  | cons e l ih =>
    rw [List.flatMap_cons, List.length_append, List.length_cons, sdBytes_length (h e List.mem_cons_self)]
    have := ih fun x hx => h x (List.mem_cons_of_mem _ hx)
    omega

/-- What is written is opened as the same table, whatever the mark is. -/
theorem sd_open_records {cmp : Bytes → Bytes → Int} (hc : TotalPreorder cmp) {l : List DirEntry} (h : ∀ e ∈ l, SdValid e) (hs : SdSorted cmp l) (dirty : Bool) :
    sdOpen cmp dirty (l.flatMap sdBytes) = .ok ⟨l, dirty, l.flatMap sdBytes⟩ := by
  have := sd_load_all hc l [] [] ((l.flatMap sdBytes).length + 1) h hs (by have := sd_records_length h; omega)
  unfold sdOpen
  rw [List.nil_append, List.length_nil, List.nil_append] at this
  rw [this]

/-! ## The map -/

theorem sd_same_eq {cmp : Bytes → Bytes → Int} (hc : TotalPreorder cmp) (a b : Bytes) : sdSame cmp a b = sameName cmp a b := by
  have h1 := hc.1 a b
  have h2 := hc.1 b a
  unfold sdSame sameName
  rw [Bool.eq_iff_iff, Bool.and_eq_true, Bool.not_eq_true', Bool.not_eq_true', decide_eq_false_iff_not, decide_eq_false_iff_not, beq_iff_eq]
  omega

theorem sd_emplace_spec {cmp : Bytes → Bytes → Int} (hc : TotalPreorder cmp) (e : DirEntry) : ∀ {l : List DirEntry}, SdSorted cmp l →
    if l.any (fun x => sdSame cmp e.name x.name) then sdEmplace cmp e l = (l, false)
    else (sdEmplace cmp e l).2 = true ∧ (sdEmplace cmp e l).1.Perm (e :: l) ∧ SdSorted cmp (sdEmplace cmp e l).1 := by
  intro l
  have lt_le : ∀ {a b : Bytes}, cmp a b < 0 → ¬ cmp b a < 0 := fun {a b} h => by have := (hc.1 a b).mp (by omega); omega
  have nlt : ∀ {a b : Bytes}, ¬ cmp a b < 0 → cmp b a ≤ 0 := fun {a b} h => by have := (hc.1 b a).mpr (by omega); omega
  have trans : ∀ {a b c : Bytes}, cmp a b < 0 → cmp b c ≤ 0 → cmp a c < 0 := by
    intro a b c h1 h2
    by_contra h
    have h3 := hc.2 b c a h2 (nlt h)
    have := (hc.1 b a).mp h3
    omega
  induction l with
  | nil => intro _; exact ⟨rfl, List.Perm.refl _, List.pairwise_singleton _ _⟩
  | cons x l ih =>
    intro hs
    have hs' := List.pairwise_cons.mp hs
    rw [sdEmplace, List.any_cons]
    by_cases h1 : cmp e.name x.name < 0
    · have hx : sdSame cmp e.name x.name = false := by unfold sdSame; rw [decide_eq_true h1]; rfl
      have hl : l.any (fun y => sdSame cmp e.name y.name) = false := by
        rw [List.any_eq_false]
        intro y hy
        have : cmp e.name y.name < 0 := trans h1 (by have := hs'.1 y hy; omega)
        unfold sdSame
        rw [decide_eq_true this]
        nofun
      rw [hx, hl, if_pos h1]
      refine ⟨rfl, List.Perm.refl _, List.pairwise_cons.mpr ⟨fun y hy => ?_, hs⟩⟩
      rcases List.mem_cons.mp hy with rfl | hy
      · exact h1
      · exact trans h1 (by have := hs'.1 y hy; omega)
    · rw [if_neg h1]
      by_cases h2 : cmp x.name e.name < 0
      · rw [if_pos h2]
        have hx : sdSame cmp e.name x.name = false := by unfold sdSame; rw [decide_eq_true h2, Bool.not_true, Bool.and_false]
        rw [hx, Bool.false_or]
        have := ih hs'.2
        split
        · rename_i ha
          rw [if_pos ha] at this
          dsimp only
          rw [this]
        · rename_i ha
          rw [if_neg ha] at this
          refine ⟨this.1, ?_, ?_⟩
          · exact (List.Perm.cons x this.2.1).trans (List.Perm.swap e x l)
          · refine List.pairwise_cons.mpr ⟨fun y hy => ?_, this.2.2⟩
            rcases List.mem_cons.mp (this.2.1.mem_iff.mp hy) with rfl | hy
            · exact h2
            · exact hs'.1 y hy
      · have hx : sdSame cmp e.name x.name = true := by unfold sdSame; rw [decide_eq_false h1, decide_eq_false h2]; rfl
        rw [if_neg h2, hx, Bool.true_or, if_pos rfl]

/-- Two entries of a sorted table with the same name are one. -/
theorem sd_sorted_unique {cmp : Bytes → Bytes → Int} (hc : TotalPreorder cmp) {l : List DirEntry} (hs : SdSorted cmp l) {n : Bytes} {x y : DirEntry} (hx : x ∈ l) (hy : y ∈ l)
    (h1 : sdSame cmp n x.name = true) (h2 : sdSame cmp n y.name = true) : x = y := by
  rw [sd_same_eq hc, sameName, beq_iff_eq] at h1 h2
  have e1 := hc.1 n x.name
  have e2 := hc.1 x.name n
  have e3 := hc.1 n y.name
  have e4 := hc.1 y.name n
  have l1 := hc.2 x.name n y.name (by omega) (by omega)
  have l2 := hc.2 y.name n x.name (by omega) (by omega)
  have f1 := hc.1 x.name y.name
  have f2 := hc.1 y.name x.name
  induction l with
  | nil => cases hx
  | cons a l ih =>
    have hs' := List.pairwise_cons.mp hs
    rcases List.mem_cons.mp hx with hxa | hx' <;> rcases List.mem_cons.mp hy with hya | hy'
    · rw [hxa, hya]
    · have := hs'.1 y hy'; rw [← hxa] at this; omega
    · have := hs'.1 x hx'; rw [← hya] at this; omega
    · exact ih hs'.2 hx' hy'

theorem sd_find_perm {cmp : Bytes → Bytes → Int} (hc : TotalPreorder cmp) {l m : List DirEntry} (hs : SdSorted cmp l) (hp : l.Perm m) (n : Bytes) :
    l.find? (fun x => sdSame cmp n x.name) = m.find? fun x => sdSame cmp n x.name := by
  cases h : m.find? fun x => sdSame cmp n x.name with
  | none =>
    rw [List.find?_eq_none] at h ⊢
    exact fun x hx => h x (hp.mem_iff.mp hx)
  | some y =>
    have hy := hp.mem_iff.mpr (List.mem_of_find?_eq_some h)
    have hyn := List.find?_some h
    cases h' : l.find? fun x => sdSame cmp n x.name with
    | none => rw [List.find?_eq_none] at h'; exact absurd hyn (h' y hy)
    | some x =>
      have hxn := List.find?_some h'
      rw [sd_sorted_unique hc hs (List.mem_of_find?_eq_some h') hy hxn hyn]

theorem sd_erase_filter {cmp : Bytes → Bytes → Int} (hc : TotalPreorder cmp) {l : List DirEntry} (hs : SdSorted cmp l) (n : Bytes) :
    l.eraseP (fun x => sdSame cmp n x.name) = l.filter fun x => !sdSame cmp n x.name := by
  induction l with
  | nil => rfl
  | cons x l ih =>
    have hs' := List.pairwise_cons.mp hs
    cases h : sdSame cmp n x.name with
    | true =>
      rw [List.eraseP_cons_of_pos (by exact h), List.filter_cons_of_neg (by rw [h]; nofun)]
      refine (List.filter_eq_self.mpr fun y hy => ?_).symm
      cases hy' : sdSame cmp n y.name with
      | false => rfl
      | true =>
        have := sd_sorted_unique hc hs List.mem_cons_self (List.mem_cons_of_mem _ hy) h hy'
        subst this
        have := hs'.1 x hy
        have e := hc.1 x.name x.name
        omega
    | false => rw [List.eraseP_cons_of_neg (by rw [h]; nofun), List.filter_cons_of_pos (by rw [h]; rfl), ih hs'.2]

/-! ## The history -/

/-- One call; `d` is what the constructor finds in the mark it does not set. -/
def sdStep (cmp : Bytes → Bytes → Int) (s : SDirState) : DirOp × Bool → Res (DirOut × SDirState)
  | (.add e, _) =>
    match sdAdd cmp s e with
    | .ok r => .ok (.flag r.2, r.1)
    | .error (.vfs n) => .ok (.fail (.vfs n), s)
    | .error err => .error err
  | (.remove n, _) => .ok (.entry (sdRemove cmp s n).2, (sdRemove cmp s n).1)
  | (.get n, _) => .ok (.entry (sdGet cmp s n), s)
  | (.list, _) => .ok (.entries (sdList s), s)
  | (.empty, _) => .ok (.flag (sdEmpty s), s)
  | (.flush, _) =>
    match sdFlush s with
    | .ok s => .ok (.done, s)
    | .error err => .error err
  | (.rebuild, _) => .ok (.done, s)
  | (.reopen, d) =>
    match sdReopen cmp d s with
    | .ok s => .ok (.done, s)
    | .error err => .error err

/-- A history. -/
def sdRun (cmp : Bytes → Bytes → Int) : SDirState → List (DirOp × Bool) → Res (List DirOut × SDirState)
  | s, [] => .ok ([], s)
  | s, op :: ops =>
    match sdStep cmp s op with
    | .error err => .error err
    | .ok r =>
      match sdRun cmp r.2 ops with
      | .error err => .error err
      | .ok r' => .ok (r.1 :: r'.1, r'.2)

/-- What holds between calls. -/
structure SdInv (cmp : Bytes → Bytes → Int) (s : SDirState) (m : List DirEntry) : Prop where
  perm : s.table.Perm m
  sorted : SdSorted cmp s.table
  valid : ∀ e ∈ s.table, SdValid e
  clean : s.dirty = false → s.stream = s.table.flatMap sdBytes

theorem sd_flush_inv {cmp : Bytes → Bytes → Int} {s : SDirState} {m : List DirEntry} (h : SdInv cmp s m) :
    ∃ s', sdFlush s = .ok s' ∧ SdInv cmp s' m ∧ s'.table = s.table ∧ s'.stream = s.table.flatMap sdBytes := by
  unfold sdFlush
  cases hd : s.dirty with
  | true =>
    rw [if_pos rfl, sdRecords_eq h.valid]
    exact ⟨_, rfl, ⟨h.perm, h.sorted, h.valid, fun _ => rfl⟩, rfl, rfl⟩
  | false =>
    rw [if_neg (by nofun)]
    exact ⟨s, rfl, h, rfl, h.clean hd⟩

theorem sd_any_perm {l m : List DirEntry} (hp : l.Perm m) (p : DirEntry → Bool) : l.any p = m.any p := by
  rw [Bool.eq_iff_iff, List.any_eq_true, List.any_eq_true]
  exact ⟨fun ⟨x, h1, h2⟩ => ⟨x, hp.mem_iff.mp h1, h2⟩, fun ⟨x, h1, h2⟩ => ⟨x, hp.mem_iff.mpr h1, h2⟩⟩

theorem sd_step_inv {cmp : Bytes → Bytes → Int} (hc : TotalPreorder cmp) {s : SDirState} {m : List DirEntry} (h : SdInv cmp s m) (op : DirOp) (d : Bool) (hv : op.Valid) :
    ∃ r, sdStep cmp s (op, d) = .ok r ∧ DirOut.Agrees r.1 (flatStep (sameName cmp) m op).1 ∧ SdInv cmp r.2 (flatStep (sameName cmp) m op).2 := by
  have hsame : (fun a b => sameName cmp a b) = fun a b => sdSame cmp a b := by
    funext a b; exact (sd_same_eq hc a b).symm
  have hsame' : sameName cmp = sdSame cmp := hsame
  rw [hsame']
  cases op with
  | add e =>
    unfold sdStep flatStep
    dsimp only
    unfold sdAdd
    by_cases hl : e.name.length > 255
    · rw [if_pos (show e.name.length > sdMaxName from hl), if_pos hl]
      exact ⟨_, rfl, rfl, h⟩
    · rw [if_neg (show ¬ e.name.length > sdMaxName from hl), if_neg hl]
      dsimp only
      have he := sd_emplace_spec hc e h.sorted
      rw [sd_any_perm h.perm] at he
      refine ⟨_, rfl, ?_⟩
      split
      · rename_i ha
        rw [if_pos ha] at he
        dsimp only
        rw [he]
        exact ⟨rfl, h.perm, h.sorted, h.valid, fun hd => h.clean (by rw [Bool.or_false] at hd; exact hd)⟩
      · rename_i ha
        rw [if_neg ha] at he
        refine ⟨congrArg DirOut.flag he.1, he.2.1.trans (List.Perm.cons e h.perm), he.2.2, fun x hx => ?_, fun hd => ?_⟩
        · rcases List.mem_cons.mp (he.2.1.mem_iff.mp hx) with rfl | hx
          · exact ⟨by omega, hv.1, hv.2.1, hv.2.2⟩
          · exact h.valid x hx
        · dsimp only at hd
          rw [he.1, Bool.or_true] at hd
          cases hd
  | remove n =>
    refine ⟨_, rfl, ?_⟩
    unfold flatStep sdRemove sdGet
    dsimp only
    rw [sd_find_perm hc h.sorted h.perm n]
    cases hf : m.find? fun x => sdSame cmp n x.name with
    | none =>
      refine ⟨rfl, ?_⟩
      dsimp only
      rw [List.filter_eq_self.mpr fun x hx => by rw [List.find?_eq_none] at hf; have := hf x hx; revert this; cases sdSame cmp n x.name <;> decide]
      exact h
    | some e =>
      refine ⟨rfl, ?_⟩
      dsimp only
      rw [sd_erase_filter hc h.sorted]
      exact ⟨h.perm.filter _, h.sorted.filter _, fun x hx => h.valid x (List.mem_filter.mp hx).1, nofun⟩
  | get n =>
    refine ⟨_, rfl, ?_, h⟩
    show DirOut.entry _ = DirOut.entry _
    unfold sdGet
    rw [sd_find_perm hc h.sorted h.perm n]
  | list => exact ⟨_, rfl, h.perm, h⟩
  | empty =>
    refine ⟨_, rfl, ?_, h⟩
    show DirOut.flag _ = DirOut.flag _
    unfold sdEmpty
    rw [h.perm.isEmpty_eq]
  | flush =>
    obtain ⟨s', h1, h2, _⟩ := sd_flush_inv h
    refine ⟨(.done, s'), ?_, rfl, h2⟩
    unfold sdStep
    dsimp only
    rw [h1]
  | rebuild => exact ⟨_, rfl, rfl, h⟩
  | reopen =>
    obtain ⟨s', h1, h2, h3, h4⟩ := sd_flush_inv h
    refine ⟨(.done, ⟨s.table, d, s.table.flatMap sdBytes⟩), ?_, rfl, h.perm, h.sorted, h.valid, fun _ => rfl⟩
    unfold sdStep sdReopen
    dsimp only
    rw [h1]
    dsimp only
    rw [h4, sd_open_records hc h.valid h.sorted d]

theorem sd_run_inv {cmp : Bytes → Bytes → Int} (hc : TotalPreorder cmp) : ∀ (ops : List (DirOp × Bool)) {s : SDirState} {m : List DirEntry}, SdInv cmp s m →
    (∀ op ∈ ops, op.1.Valid) → ∃ r, sdRun cmp s ops = .ok r ∧
      List.Forall₂ DirOut.Agrees r.1 (flatRun (sameName cmp) m (ops.map Prod.fst)).1 ∧ SdInv cmp r.2 (flatRun (sameName cmp) m (ops.map Prod.fst)).2 := by
  intro ops
  induction ops with
  | nil => intro s m h _; exact ⟨_, rfl, .nil, h⟩
  | cons op ops ih =>
    intro s m h hv
    obtain ⟨r, h1, h2, h3⟩ := sd_step_inv hc h op.1 op.2 (hv op List.mem_cons_self)
    obtain ⟨r', h4, h5, h6⟩ := ih h3 fun o ho => hv o (List.mem_cons_of_mem _ ho)
    refine ⟨(r.1 :: r'.1, r'.2), ?_, .cons h2 h5, h6⟩
    rw [sdRun, show op = (op.1, op.2) from rfl, h1]
    dsimp only
    rw [h4]

/-! ## Arbitrary streams -/

theorem sd_emplace_mem {cmp : Bytes → Bytes → Int} (e : DirEntry) : ∀ {l : List DirEntry} {x : DirEntry}, x ∈ (sdEmplace cmp e l).1 → x = e ∨ x ∈ l := by
  intro l
  induction l with
  | nil => intro x hx; exact .inl (List.mem_singleton.mp hx)
  | cons y l ih =>
    intro x hx
    rw [sdEmplace] at hx
    split at hx
    · exact List.mem_cons.mp hx
    · split at hx
      · rcases List.mem_cons.mp hx with rfl | hx
        · exact .inr List.mem_cons_self
        · exact (ih hx).imp id fun h => List.mem_cons_of_mem _ h
      · exact .inr hx

theorem sd_emplace_sorted {cmp : Bytes → Bytes → Int} (hc : TotalPreorder cmp) (e : DirEntry) {l : List DirEntry} (h : SdSorted cmp l) : SdSorted cmp (sdEmplace cmp e l).1 := by
  have := sd_emplace_spec hc e h
  split at this
  · rw [this]; exact h
  · exact this.2.2

theorem sd_load_total {cmp : Bytes → Bytes → Int} (hc : TotalPreorder cmp) (stream : Bytes) : ∀ (fuel off : Nat) (table : List DirEntry), stream.length < off + fuel → 0 < fuel →
    SdSorted cmp table → (∀ e ∈ table, SdValid e) → ∃ t, sdLoad cmp stream fuel off table = .ok t ∧ SdSorted cmp t ∧ ∀ e ∈ t, SdValid e := by
  intro fuel
  have hs : sdRecordSize = 292 := rfl
  have hm : sdMaxName = 255 := rfl
  induction fuel with
  | zero =>
    intro off table _ h0
    cases h0
  | succ fuel ih =>
    intro off table hf _ hso hv
    rw [sdLoad]
    dsimp only
    split
    · exact ⟨_, rfl, hso, hv⟩
    · rename_i hlen
      have hl : ((stream.drop off).take sdRecordSize).length = 292 := by
        have := List.length_take_le sdRecordSize (stream.drop off)
        omega
      have hpos : 0 < fuel := by
        rw [List.length_take, List.length_drop] at hl
        omega
      generalize (stream.drop off).take sdRecordSize = buf at hl
      have h1 : memcpyAt buf sdMaxName [0] = .ok (buf.take 255 ++ 0 :: buf.drop 256) := by
        unfold memcpyAt
        rw [if_pos (by rw [hl]; decide), hm]
        simp only [List.append_assoc, List.cons_append, List.nil_append, List.length_singleton]
      rw [h1]
      dsimp only
      have hl2 : (buf.take 255 ++ 0 :: buf.drop 256).length = 292 := by
        rw [List.length_append, List.length_cons, List.length_take, List.length_drop]; omega
      obtain ⟨v, h2, h3, _⟩ := fromLE_bits 4 ((buf.take 255 ++ 0 :: buf.drop 256).drop (sdRecordSize - 4)) (by rw [List.length_drop, hl2, hs])
      rw [h2]
      dsimp only
      refine ih _ _ (by omega) hpos (sd_emplace_sorted hc _ hso) fun e he => ?_
      rcases sd_emplace_mem _ he with rfl | he
      · refine ⟨?_, fun c hcm => ?_, ?_, h3⟩
        · dsimp only
          by_contra hgt
          have hpre := List.takeWhile_prefix (l := buf.take 255 ++ 0 :: buf.drop 256) (fun c : UInt8 => decide (c ≠ 0))
          have hg := hpre.getElem (i := 255) (by omega)
          have hmem := List.mem_takeWhile_imp (List.getElem_mem (l := (buf.take 255 ++ 0 :: buf.drop 256).takeWhile (fun c : UInt8 => decide (c ≠ 0))) (n := 255) (by omega))
          rw [hg, List.getElem_append_right (by rw [List.length_take]; omega)] at hmem
          have h255 : 255 - (buf.take 255).length = 0 := by rw [List.length_take]; omega
          simp only [h255, List.getElem_cons_zero] at hmem
          exact absurd hmem (by decide)
        · have := List.mem_takeWhile_imp hcm
          simpa using this
        · dsimp only
          rw [List.length_take, List.length_drop, hl2, hm]
          decide
      · exact hv e he

end Securefs
