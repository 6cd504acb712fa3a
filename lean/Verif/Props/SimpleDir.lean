import Verif.Proofs.SimpleDir
import Verif.Proofs.BtreeSpec
/-!
# Property C52: the flat directory

The model is `Verif/Model/SimpleDir.lean`, the specification `Verif/Spec/SimpleDir.lean`.  `cmp` is the order on names.  The flag beside each call
is what the constructor finds in `m_dirty`, which it does not initialise; it is arbitrary and different at each opening.
-/

namespace Securefs.Props

open Securefs Spec

/-- A map that can be written: names of at most 255 bytes without NUL, identifiers of 32 bytes, types of 32 bits, in the order of the map. -/
def FlatMap (cmp : Bytes → Bytes → Int) (l : List DirEntry) : Prop :=
  l.Pairwise (fun a b => cmp a.name b.name < 0) ∧ ∀ e ∈ l, e.name.length ≤ 255 ∧ (∀ c ∈ e.name, c ≠ 0) ∧ e.id.length = 32 ∧ e.type < 2 ^ 32

/-- C52: writing a map and opening what was written gives the same map.  What is written has 292 bytes for each entry and does not depend on what
    was in the stream before. -/
theorem C52_round_trip (cmp : Bytes → Bytes → Int) (hc : TotalPreorder cmp) (l : List DirEntry) (h : FlatMap cmp l) (old : Bytes) (dirty : Bool) :
    ∃ s t, sdFlush ⟨l, true, old⟩ = .ok s ∧ s.dirty = false ∧ s.stream.length = 292 * l.length ∧ sdFlush ⟨l, true, []⟩ = .ok s ∧
      sdOpen cmp dirty s.stream = .ok t ∧ t.table = l ∧ sdFlush t = .ok { t with dirty := false } := by
  have hr := sdRecords_eq h.2
  have hlen : ∀ l : List DirEntry, (∀ e ∈ l, SdValid e) → (l.flatMap sdBytes).length = 292 * l.length := by
    intro l
    induction l with
    | nil => intro _; rfl
    | cons e l ih =>
      intro hv
      rw [List.flatMap_cons, List.length_append, sdBytes_length (hv e List.mem_cons_self), ih fun x hx => hv x (List.mem_cons_of_mem _ hx), List.length_cons]
      omega
  refine ⟨⟨l, false, l.flatMap sdBytes⟩, ⟨l, dirty, l.flatMap sdBytes⟩, ?_, rfl, hlen l h.2, ?_, sd_open_records hc h.2 h.1 dirty, rfl, ?_⟩
  · unfold sdFlush; rw [if_pos rfl]; dsimp only; rw [hr]
  · unfold sdFlush; rw [if_pos rfl]; dsimp only; rw [hr]
  · unfold sdFlush
    cases dirty with
    | true => rw [if_pos rfl]; dsimp only; rw [hr]
    | false => rw [if_neg (by nofun)]

/-- C52: on every history, from a new stream, the directory gives the answers of a finite set of entries with different names, and closing and
    opening it changes nothing, whatever the uninitialised mark holds. -/
theorem C52_history (cmp : Bytes → Bytes → Int) (hc : TotalPreorder cmp) (first : Bool) (ops : List (DirOp × Bool)) (h : ∀ op ∈ ops, op.1.Valid) :
    ∃ s outs last, sdOpen cmp first [] = .ok s ∧ sdRun cmp s ops = .ok (outs, last) ∧
      List.Forall₂ DirOut.Agrees outs (flatRun (sameName cmp) [] (ops.map Prod.fst)).1 ∧
      last.table.Perm (flatRun (sameName cmp) [] (ops.map Prod.fst)).2 := by
  obtain ⟨r, h1, h2, h3⟩ := sd_run_inv hc ops (s := ⟨[], first, []⟩) (m := []) ⟨List.Perm.refl _, .nil, nofun, fun _ => rfl⟩ h
  exact ⟨⟨[], first, []⟩, r.1, r.2, rfl, h1, h2, h3.perm⟩

/-- C52: every stream at all can be opened, without reading outside the buffer; the result is a map that can be written, and reading it back gives
    the same map.  Only whole records are taken: a rest of less than 292 bytes is dropped. -/
theorem C52_any_stream (cmp : Bytes → Bytes → Int) (hc : TotalPreorder cmp) (stream : Bytes) (dirty again : Bool) :
    ∃ s, sdOpen cmp dirty stream = .ok s ∧ FlatMap cmp s.table ∧ ∃ s', sdReopen cmp again { s with dirty := true } = .ok s' ∧ s'.table = s.table := by
  obtain ⟨t, h1, h2, h3⟩ := sd_load_total hc stream (stream.length + 1) 0 [] (by omega) (by omega) .nil nofun
  refine ⟨⟨t, dirty, stream⟩, by unfold sdOpen; rw [h1], ⟨h2, h3⟩, ⟨t, again, t.flatMap sdBytes⟩, ?_, rfl⟩
  unfold sdReopen sdFlush
  rw [if_pos rfl]
  dsimp only
  rw [sdRecords_eq h3]
  dsimp only
  rw [sd_open_records hc h3 h2]

/-! ## Concrete cases -/

theorem flat_order : TotalPreorder binaryCompare := pre_key (fun a => a.map UInt8.toNat) binary_eq

def flatEntry (i : Nat) : DirEntry := ⟨[102, UInt8.ofNat (i + 1)], List.replicate 32 (UInt8.ofNat i), i + 70000⟩

/-- Adding, refusing, closing with a wrong mark, removing, closing with the other mark, and asking. -/
def flatOps : List (DirOp × Bool) :=
  [(.add (flatEntry 2), false), (.add (flatEntry 1), false), (.add (flatEntry 2), false), (.reopen, true), (.remove (flatEntry 2).name, false), (.reopen, false),
    (.get (flatEntry 1).name, false), (.get (flatEntry 2).name, false), (.add ⟨List.replicate 256 1, List.replicate 32 0, 1⟩, false), (.get (List.replicate 256 1), false)]

example : FlatMap binaryCompare [flatEntry 1, flatEntry 2, ⟨List.replicate 255 120, List.replicate 32 9, 4⟩] := by
  unfold FlatMap
  decide +kernel

example : (∀ op ∈ flatOps, op.1.Valid) ∧ (flatRun (sameName binaryCompare) [] (flatOps.map Prod.fst)).1 =
    [.flag true, .flag true, .flag false, .done, .entry (some (flatEntry 2)), .done, .entry (some (flatEntry 1)), .entry none, .fail (.vfs 36), .entry none] := by
  decide +kernel

/-- A stream that no directory has written: a name of 256 bytes without an end, and a rest. -/
example : (sdOpen binaryCompare false (List.replicate 300 65)).map (fun s => s.table.map fun e => (e.name.length, e.id.length, e.type)) = .ok [(255, 32, 1094795585)] := by
  decide +kernel

/-- C52: the assumption on NUL is needed: an entry whose name has one is found before closing, and under another name after it. -/
theorem C52_nul_violated : ∃ s s', sdAdd binaryCompare ⟨[], false, []⟩ ⟨[97, 0, 98], List.replicate 32 5, 1⟩ = .ok (s, true) ∧
    sdGet binaryCompare s [97, 0, 98] = some ⟨[97, 0, 98], List.replicate 32 5, 1⟩ ∧ sdReopen binaryCompare false s = .ok s' ∧
    sdGet binaryCompare s' [97, 0, 98] = none ∧ sdGet binaryCompare s' [97] = some ⟨[97], List.replicate 32 5, 1⟩ := by
  refine ⟨⟨[⟨[97, 0, 98], List.replicate 32 5, 1⟩], true, []⟩,
    ⟨[⟨[97], List.replicate 32 5, 1⟩], false, [97, 0, 98] ++ List.replicate 253 0 ++ List.replicate 32 5 ++ [1, 0, 0, 0]⟩, ?_, ?_, ?_, ?_, ?_⟩
  all_goals decide +kernel

end Securefs.Props
