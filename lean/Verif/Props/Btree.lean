import Verif.Proofs.BtreeSpec
/-!
# Properties C27 to C33: directories of the full format

The model is `Verif/Model/Btree.lean`, the specification `Verif/Spec/Btree.lean`.  `C.cmp` is the order on names,
`C.junk` the uninitialised bytes that reach the disk, `C.order` the order in which the hash map of cached nodes is
walked; all three are arbitrary.
-/

namespace Securefs.Props

open Securefs Spec

/-- A history that `C27` to `C32` speak of: valid arguments, never too many entries, started in a new directory. -/
def GoodHistory (C : BCfg) (ops : List DirOp) : Prop := (∀ op ∈ ops, op.Valid) ∧ Fits (sameName C.cmp) [] ops

/-- The assumptions on the parameters. -/
def GoodConfig (C : BCfg) : Prop := TotalPreorder C.cmp ∧ ∀ l : List Nat, (C.order l).Perm l

/-! ## A concrete case -/

/-- A configuration: names by their bytes, junk `7`, the cache walked backwards. -/
def demoCfg : BCfg := ⟨binaryCompare, fun _ => List.replicate 5000 7, List.reverse⟩

def demoEntry (i : Nat) : DirEntry := ⟨[102, UInt8.ofNat (i + 1)], List.replicate 32 (UInt8.ofNat i), i⟩

/-- Forty additions, a flush, thirty removals, closing, opening and a few questions. -/
def demoOps : List DirOp :=
  (List.range 40).map (fun i => .add (demoEntry (i * 7 % 40))) ++ [.flush] ++
    (List.range 30).map (fun i => .remove (demoEntry (i * 11 % 40)).name) ++
    [.reopen, .get (demoEntry 33).name, .get (demoEntry 29).name, .add (demoEntry 29), .remove (List.replicate 256 1), .list, .empty]

theorem demo_config : GoodConfig demoCfg := by
  refine ⟨pre_key (fun a => a.map UInt8.toNat) binary_eq, fun l => List.reverse_perm l⟩

set_option maxRecDepth 100000 in
theorem demo_history : GoodHistory demoCfg demoOps := by
  unfold GoodHistory
  decide +kernel

/-! ## C27 -/

/-- C27: on every history a directory gives the answers of a finite set of entries with different names: adding a
    name that is present is refused, removing returns what was there, lookup finds what was added and not removed since,
    overlong names are refused, and flushing, rebuilding and reopening change nothing. -/
theorem C27_map (C : BCfg) (hC : GoodConfig C) (ops : List DirOp) (h : GoodHistory C ops) :
    List.Forall₂ DirOut.Agrees (dirRunModel C emptyDir ops).1 (dirRun (sameName C.cmp) [] ops).1 := by
  obtain ⟨l, _, _, h3⟩ := dirRun_run (cmpOk_of hC.1) hC.2 ops emptyDir [] [] (dir_empty C) (List.Perm.refl _) h.1 (by simp) h.2
  exact h3

example : GoodConfig demoCfg ∧ GoodHistory demoCfg demoOps := ⟨demo_config, demo_history⟩

set_option maxRecDepth 100000 in
/-- The ideal answers at the end of the concrete history: closed, not found, found, refused, too long, 10 entries,
    not empty. -/
example : ((dirRun (sameName binaryCompare) [] demoOps).1.drop 71).take 5 =
      [.done, .entry none, .entry (some (demoEntry 29)), .flag false, .fail (.vfs 36)] ∧
    (dirRun (sameName binaryCompare) [] demoOps).2.length = 10 := by decide +kernel

/-- C27: the ideal directory itself does what the property says: what was added is found under every name that is the
    same, until a call removes it. -/
theorem C27_spec_lookup (cmp : Bytes → Bytes → Int) (hc : TotalPreorder cmp) (ops : List DirOp) (m : List DirEntry) (e : DirEntry) (he : e ∈ m)
    (hm : m.Pairwise fun x y => sameName cmp x.name y.name = false) (n : Bytes) (hn : sameName cmp n e.name = true) (hlen : n.length ≤ 255)
    (hno : ∀ k, DirOp.remove k ∈ ops → sameName cmp k e.name = false) :
    (dirStep (sameName cmp) (dirRun (sameName cmp) m ops).2 (.get n)).1 = .entry (some e) := by
  have hC := cmpOk_of hc
  have htr : ∀ a b c, sameName cmp a b = true → sameName cmp a c = true → sameName cmp b c = true := by
    intro a b c h1 h2
    simp only [sameName, beq_iff_eq] at *
    have a1 := hC.anti a b; have a2 := hC.anti b a
    have a3 := hC.anti a c; have a4 := hC.anti c a
    have b1 := hC.trans b a c (by omega) (by omega)
    have b2 := hC.trans c a b (by omega) (by omega)
    have := hC.anti b c; have := hC.anti c b; omega
  have hsy : ∀ a b, sameName cmp a b = sameName cmp b a := by
    intro a b
    have := hC.eq_comm a b
    simp only [sameName]
    by_cases h : cmp a b = 0
    · rw [h, this.1 h]
    · rw [beq_eq_false_iff_ne.2 h, beq_eq_false_iff_ne.2 (fun h' => h (this.2 h'))]
  induction ops generalizing m with
  | nil =>
    simp only [dirRun, dirStep]
    rw [if_neg (by omega)]
    have : m.find? (fun x => sameName cmp n x.name) = some e := by
      induction m with
      | nil => simp at he
      | cons a m ih =>
        rw [List.find?_cons]
        rcases List.mem_cons.1 he with rfl | he
        · rw [hn]
        · have hpw := List.pairwise_cons.1 hm
          have hne : sameName cmp n a.name = false := by
            cases h0 : sameName cmp n a.name with
            | false => rfl
            | true =>
              have := htr n a.name e.name h0 hn
              rw [hpw.1 e he] at this
              cases this
          rw [hne]
          exact ih he hpw.2
    rw [this]
  | cons op ops ih =>
    rw [dirRun]
    dsimp only
    refine ih _ ?_ ?_ (fun k hk => hno k (List.mem_cons_of_mem _ hk))
    · cases op with
      | add x =>
        simp only [dirStep]
        split
        · exact he
        · split
          · exact he
          · simp [he]
      | remove k =>
        simp only [dirStep]
        split
        · exact he
        · rw [List.mem_filter]
          exact ⟨he, by simp [hno k (by simp)]⟩
      | get k => simp only [dirStep]; split <;> exact he
      | list => exact he
      | empty => exact he
      | flush => exact he
      | rebuild => exact he
      | reopen => exact he
    · cases op with
      | add x =>
        simp only [dirStep]
        split
        · exact hm
        · split
          · exact hm
          · rename_i hany
            refine List.pairwise_cons.2 ⟨fun y hy => ?_, hm⟩
            cases h0 : sameName cmp x.name y.name with
            | false => rfl
            | true => exact absurd (List.any_eq_true.2 ⟨y, hy, h0⟩) hany
      | remove k =>
        simp only [dirStep]
        split
        · exact hm
        · exact List.Pairwise.filter _ hm
      | get k => simp only [dirStep]; split <;> exact hm
      | list => exact hm
      | empty => exact hm
      | flush => exact hm
      | rebuild => exact hm
      | reopen => exact hm

/-- The assumptions of `C27_spec_lookup` hold, e.g. after three additions, with other names removed meanwhile. -/
example : (dirStep (sameName binaryCompare) (dirRun (sameName binaryCompare) [demoEntry 3, demoEntry 2, demoEntry 1]
    [.remove (demoEntry 1).name, .add (demoEntry 2), .add (demoEntry 9)]).2 (.get (demoEntry 2).name)).1 = .entry (some (demoEntry 2)) :=
  C27_spec_lookup binaryCompare demo_config.1 _ _ (demoEntry 2) (by decide) (by decide) _ (by decide) (by decide)
    (by intro k hk; simp only [List.mem_cons, DirOp.remove.injEq, List.not_mem_nil, or_false, reduceCtorEq] at hk; subst hk; decide)

/-- C27: a call with an overlong name throws `ENAMETOOLONG`, in every state. -/
theorem C27_overlong (C : BCfg) (s : BSt) (n : Bytes) (hn : n.length > 255) :
    getEntry C n s = .error (.vfs 36) ∧ removeEntry C n s = .error (.vfs 36) ∧
      ∀ e : DirEntry, e.name = n → addEntry C e s = .error (.vfs 36) := by
  refine ⟨?_, ?_, ?_⟩
  · rw [getEntry, if_pos (show n.length > maxFilename from hn)]; rfl
  · rw [removeEntry, if_pos (show n.length > maxFilename from hn)]; rfl
  · rintro e rfl
    rw [addEntry, if_pos (show e.name.length > maxFilename from hn)]; rfl

example : (List.replicate 256 (65 : UInt8)).length > 255 := by rw [List.length_replicate]; decide

/-- C27: the four orders on names that a file system can be created with are total preorders, whatever the case folding
    is, and whatever the normalisation is, if it leaves ASCII names alone. -/
theorem C27_orders (nfd : Bytes → Bytes) (hn : ∀ a, (∀ c ∈ a, c < 128) → nfd a = a) (fold : Bytes → List Nat) :
    TotalPreorder binaryCompare ∧ TotalPreorder (caselessCompare fold) ∧ TotalPreorder (uniNormCompare nfd) ∧
      TotalPreorder (caseUniNormCompare nfd fold) := by
  have hasc : ∀ a, isAscii a = true → nfd a = a := by
    intro a ha
    refine hn a fun c hc => ?_
    have := List.all_eq_true.1 ha c hc
    simpa using this
  refine ⟨pre_key _ binary_eq, pre_key fold fun _ _ => rfl, pre_key (fun a => (nfd a).map UInt8.toNat) ?_, pre_key (fun a => fold (nfd a)) ?_⟩
  · intro a b
    rw [uniNormCompare]
    cases ha : isAscii a <;> cases hb : isAscii b <;> simp only [Bool.and_true, Bool.and_false, Bool.false_eq_true, if_true, if_false, binary_eq]
    rw [hasc a ha, hasc b hb]
  · intro a b
    rw [caseUniNormCompare]
    cases ha : isAscii a <;> cases hb : isAscii b <;> simp only [Bool.and_true, Bool.and_false, Bool.false_eq_true, if_true, if_false, caselessCompare]
    rw [hasc a ha, hasc b hb]

/-- A normalisation that changes some names and leaves ASCII alone. -/
example : ∃ nfd : Bytes → Bytes, (∀ a, (∀ c ∈ a, c < 128) → nfd a = a) ∧ nfd [195, 169] = [101, 204, 129] := by
  refine ⟨fun a => if a = [195, 169] then [101, 204, 129] else a, ?_, rfl⟩
  intro a ha
  dsimp only
  rw [if_neg]
  rintro rfl
  exact absurd (ha 195 (by simp)) (by decide)

/-! ## C28 and C30 -/

/-- C28 and C30: after every history the directory is well formed.  All leaves are at the same depth, every node except
    the root has 6 to 13 entries, an inner node has one child more than entries, and the entries are strictly ascending
    over the whole tree; every page of the file is in the tree or in the free list exactly once, the free list is linked
    correctly in both directions, and the counter is its length.  The entries are those of the ideal directory. -/
theorem C28_C30_well_formed (C : BCfg) (hC : GoodConfig C) (ops : List DirOp) (h : GoodHistory C ops) :
    ∃ l treePages freePages, WellFormed C.cmp (dirRunModel C emptyDir ops).2 l treePages freePages ∧
      l.Perm (dirRun (sameName C.cmp) [] ops).2 := by
  obtain ⟨l, h1, h2, _⟩ := dirRun_run (cmpOk_of hC.1) hC.2 ops emptyDir [] [] (dir_empty C) (List.Perm.refl _) h.1 (by simp) h.2
  obtain ⟨t, f, h3⟩ := wellFormed_of h1
  exact ⟨l, t, f, h3, h2⟩

set_option maxRecDepth 100000 in
/-- In the concrete history the directory holds 40 entries after the additions, more than three nodes can. -/
example : GoodConfig demoCfg ∧ GoodHistory demoCfg (demoOps.take 40) ∧
    (dirRun (sameName binaryCompare) [] (demoOps.take 40)).2.length = 40 := by
  refine ⟨demo_config, ?_⟩
  unfold GoodHistory
  decide +kernel

/-- C28: the tree is never deeper than 21 levels, well below the limit of 32 at which the code gives up. -/
theorem C28_depth (C : BCfg) (hC : GoodConfig C) (ops : List DirOp) (h : GoodHistory C ops) :
    (dirRunModel C emptyDir ops).2.root = invalidPage ∨ ∃ h' l ps, h' ≤ 20 ∧
      IsTree (nodeAt (dirRunModel C emptyDir ops).2) (min h' 1) h' (dirRunModel C emptyDir ops).2.root l ps := by
  obtain ⟨l, ⟨_, _, np, F, hcase⟩, _, _⟩ := dirRun_run (cmpOk_of hC.1) hC.2 ops emptyDir [] [] (dir_empty C) (List.Perm.refl _) h.1 (by simp) h.2
  rcases hcase with ⟨hr, _, _⟩ | ⟨t, h', hr, rfl, hs, hcore⟩
  · exact Or.inl hr
  · have := isTree_of (node := nodeAt (dirRunModel C emptyDir ops).2) h' _ t invalidPage hs (fun r hr => by rw [nodeAt_eq]; exact hcore.rep r hr)
    rw [← hr] at this
    exact Or.inr ⟨h', _, _, hcore.height hs, this⟩

/-- C30: at any time allocating a page succeeds and never returns a page that the tree uses: it is the first free page,
    or else a new page at the end of the file; the rest of the free list stays as it was; and `validate_free_list` accepts. -/
theorem C30_allocate (C : BCfg) (hC : GoodConfig C) (ops : List DirOp) (h : GoodHistory C ops)
    (hroom : (dirRunModel C emptyDir ops).2.data.length < 2 ^ 32) :
    ∃ l treePages freePages, WellFormed C.cmp (dirRunModel C emptyDir ops).2 l treePages freePages ∧
      validateFreeList (dirRunModel C emptyDir ops).2 = .ok (true, (dirRunModel C emptyDir ops).2) ∧
      ∃ a s', allocatePage (dirRunModel C emptyDir ops).2 = .ok (a, s') ∧ a ∉ treePages ∧
        a = freePages.headD ((dirRunModel C emptyDir ops).2.data.length / 4096) ∧
        IsFreeList s'.data invalidPage s'.start freePages.tail ∧ s'.nfree = freePages.tail.length := by
  obtain ⟨l, hd, _, _⟩ := dirRun_run (cmpOk_of hC.1) hC.2 ops emptyDir [] [] (dir_empty C) (List.Perm.refl _) h.1 (by simp) h.2
  exact ⟨l, alloc_of hd hroom⟩

set_option maxRecDepth 100000 in
example : GoodConfig demoCfg ∧ GoodHistory demoCfg [.add (demoEntry 1), .add (demoEntry 2), .remove (demoEntry 1).name] ∧
    (dirRunModel demoCfg emptyDir [.add (demoEntry 1), .add (demoEntry 2), .remove (demoEntry 1).name]).2.data.length < 2 ^ 32 := by
  refine ⟨demo_config, ?_⟩
  unfold GoodHistory
  decide +kernel

/-! ## C29 -/

/-- An entry that the page format can hold. -/
def GoodEntry (e : DirEntry) : Prop := e.name.length ≤ 255 ∧ (0 : UInt8) ∉ e.name ∧ e.id.length = 32 ∧ e.type < 2 ^ 32

theorem goodEntry_ok {e : DirEntry} (h : GoodEntry e) : EntryOk e :=
  ⟨h.1, fun _ hc h0 => h.2.1 (h0 ▸ hc), h.2.2⟩

/-- C29: a node within the fill limit fits its page; the bytes are a flag, the two counts, the children and the entries
    with their names padded to 256 bytes; and reading the page gives the node back, whatever is in the rest of it. -/
theorem C29_round_trip (n : BNode) (hc : n.children.length ≤ 14) (he : n.entries.length ≤ 13) (hv : ∀ c ∈ n.children, c < 2 ^ 32)
    (hg : ∀ e ∈ n.entries, GoodEntry e) (rest : Bytes) :
    ∃ buf, toBuffer 4096 n = .ok buf ∧ buf.length ≤ 4096 ∧
      buf = toLE 4 1 ++ toLE 2 n.children.length ++ toLE 2 n.entries.length ++ (n.children.map (toLE 4)).flatten ++
        (n.entries.map fun e => e.name ++ List.replicate (256 - e.name.length) 0 ++ e.id ++ toLE 4 e.type).flatten ∧
      fromBuffer (buf ++ rest) = .ok (some (n.children, n.entries)) := by
  have hok : ∀ e ∈ n.entries, EntryOk e := fun e h => goodEntry_ok (hg e h)
  have hlen := encNode_length n.children n.entries hok
  have hfit : 8 + 4 * n.children.length + 292 * n.entries.length ≤ 4096 :=
    (page_fit _ _ 14 13 hc he).trans (by norm_num)
  refine ⟨_, toBuffer_ok 4096 n hok hfit, by omega, ?_, fromBuffer_encNode _ _ _ hv hok (by omega) (by omega)⟩
  rw [encNode, List.flatMap_def, List.flatMap_def]
  rfl

example : (List.replicate 14 5).length ≤ 14 ∧ ∀ e ∈ (List.range 13).map demoEntry, GoodEntry e := by
  refine ⟨by simp, ?_⟩
  unfold GoodEntry
  decide

/-- C29: a page written to the free list is not read as a node, nor is a page of zeros. -/
theorem C29_free (next prev : Nat) (num : Nat) (s s' : BSt) (h : writeFreePage num next prev s = .ok ((), s')) :
    ∃ page, page.length = 4096 ∧ fromBuffer page = .ok none ∧ s'.data = Spec.write s.data (pageOff num) page := by
  refine ⟨freeBytes next prev, freeBytes_length _ _, ?_, ?_⟩
  · simp only [freeBytes, List.append_assoc]
    rw [fromBuffer, zeros4, readLEFwd_ok 4 0 (by norm_num)]
    rfl
  · simp only [writeFreePage, writePage, Except.ok.injEq, Prod.mk.injEq, true_and] at h
    rw [← h]; rfl

example : ∃ s', writeFreePage 0 1 2 emptyDir = .ok ((), s') := ⟨_, rfl⟩

/-- The page format cannot hold a NUL in a name: such a name is cut short. -/
theorem C29_nul_truncates : ∃ (n : BNode) (buf : Bytes), toBuffer 4096 n = .ok buf ∧ (n.entries.map (·.name)) = [[97, 0, 98]] ∧
    ∃ e, fromBuffer buf = .ok (some ([], [e])) ∧ e.name = [97] := by
  refine ⟨⟨0, 0, [], [⟨[97, 0, 98], List.replicate 32 1, 1⟩], true⟩,
    toLE 4 1 ++ toLE 2 0 ++ toLE 2 1 ++ [97, 0, 98] ++ zeros 253 ++ List.replicate 32 1 ++ toLE 4 1, by decide +kernel, rfl, ⟨[97], List.replicate 32 1, 1⟩, ?_, rfl⟩
  decide +kernel

/-! ## C31 -/

/-- C31: after any history a flush succeeds, and what is then on disk, read without the cache, is the same directory:
    well formed, with the same entries; also if the flush rebuilt the tree, and also after an explicit rebuild. -/
theorem C31_reload (C : BCfg) (hC : GoodConfig C) (ops : List DirOp) (h : GoodHistory C ops) (again : Bool) :
    ∃ s0 s' l treePages freePages, (if again then rebuild C else pure ()) (dirRunModel C emptyDir ops).2 = .ok ((), s0) ∧
      subflush C s0 = .ok ((), s') ∧
      WellFormed C.cmp { s' with cache := [] } l treePages freePages ∧ l.Perm (dirRun (sameName C.cmp) [] ops).2 := by
  obtain ⟨l, hd, hp, _⟩ := dirRun_run (cmpOk_of hC.1) hC.2 ops emptyDir [] [] (dir_empty C) (List.Perm.refl _) h.1 (by simp) h.2
  have hlen : l.length ≤ maxDirEntries := by rw [hp.length_eq, ← capacity_eq]; exact fits_last ops [] (by simp [dirCapacity]) h.2
  have : ∃ s0, (if again then rebuild C else pure ()) (dirRunModel C emptyDir ops).2 = .ok ((), s0) ∧ Dir C s0 l := by
    cases again
    · exact ⟨_, rfl, hd⟩
    · exact rebuild_run (cmpOk_of hC.1) hd hlen
  obtain ⟨s0, e0, d0⟩ := this
  obtain ⟨s1, e1, d1, c1⟩ := subflush_run (cmpOk_of hC.1) hC.2 d0 hlen
  obtain ⟨t, f, hw⟩ := wellFormed_of (dir_drop d1 c1)
  exact ⟨s0, s1, l, t, f, e0, e1, hw, hp⟩

example : GoodConfig demoCfg ∧ GoodHistory demoCfg demoOps := ⟨demo_config, demo_history⟩

/-! ## C32 -/

/-- C32: after any history the listing has every entry of the ideal directory exactly once and nothing else, and the
    directory is reported empty exactly when it has none. -/
theorem C32_listing (C : BCfg) (hC : GoodConfig C) (ops : List DirOp) (h : GoodHistory C ops) :
    (∃ L s', iterateEntries (dirRunModel C emptyDir ops).2 = .ok (L, s') ∧ L.Perm (dirRun (sameName C.cmp) [] ops).2 ∧ L.Nodup) ∧
    ∃ b s', dirEmpty (dirRunModel C emptyDir ops).2 = .ok (b, s') ∧ (b = true ↔ (dirRun (sameName C.cmp) [] ops).2 = []) := by
  obtain ⟨l, hd, hp, _⟩ := dirRun_run (cmpOk_of hC.1) hC.2 ops emptyDir [] [] (dir_empty C) (List.Perm.refl _) h.1 (by simp) h.2
  obtain ⟨s1, L, e1, p1, _⟩ := iterate_run hd
  obtain ⟨s2, e2, _⟩ := dirEmpty_run hd
  refine ⟨⟨L, s1, e1, p1.trans hp, p1.nodup_iff.2 ?_⟩, _, s2, e2, ?_⟩
  · refine List.Pairwise.imp ?_ hd.1
    rintro a b hab rfl
    have := (hC.1.1 a.name a.name)
    have hab' : C.cmp a.name a.name < 0 := hab
    omega
  · rw [beq_iff_eq]
    constructor
    · rintro rfl; exact List.nil_perm.1 hp
    · intro h0; rw [h0] at hp; exact List.perm_nil.1 hp

example : GoodConfig demoCfg ∧ GoodHistory demoCfg demoOps := ⟨demo_config, demo_history⟩

/-! ## C33 -/

/-- C33, for pages below number 2^20: distinct pages occupy distinct byte ranges.
    Missing: pages from number 2^20 on, which can be allocated, see `C33_violated`. -/
theorem C33_addressing_partial (p q : Nat) (hp : p < 2 ^ 20) (hq : q < 2 ^ 20) (hne : p ≠ q) :
    pageOff p + 4096 ≤ pageOff q ∨ pageOff q + 4096 ≤ pageOff p := by
  rw [pageOff_eq p hp, pageOff_eq q hq]
  omega

example : (2 ^ 20 - 1 : Nat) < 2 ^ 20 ∧ (2 ^ 20 - 1 : Nat) ≠ 0 := by decide

/-- Allocating `n` pages. -/
def allocateMany : Nat → BM (List Nat)
  | 0 => pure []
  | n + 1 => do
    let ps ← allocateMany n
    let p ← allocatePage
    pure (ps ++ [p])

theorem allocateMany_run : ∀ n, n < 2 ^ 32 → allocateMany n emptyDir = .ok (List.range n, { emptyDir with data := zeros (n * 4096) })
  | 0, _ => rfl
  | n + 1, hn => by
    rw [allocateMany, bind_run (allocateMany_run n (by omega)), allocatePage,
      bind_run (s' := { emptyDir with data := zeros ((n + 1) * 4096) }) (a := n)]
    · rw [List.range_succ]; rfl
    · rw [bind_run (getSt_run _), if_pos (show ({ emptyDir with data := zeros (n * 4096) } : BSt).start = invalidPage from rfl), extendFile]
      have h1 : (zeros (n * 4096)).length / pageSize % 2 ^ 32 = n := by
        rw [zeros_length, show pageSize = 4096 from rfl, Nat.mul_div_cancel _ (by norm_num), Nat.mod_eq_of_lt hn.le]
      have h2 : Spec.resize (zeros (n * 4096)) ((zeros (n * 4096)).length + pageSize) = zeros ((n + 1) * 4096) := by
        rw [show pageSize = 4096 from rfl, extend_eq, Nat.succ_mul]
        exact List.replicate_append_replicate
      dsimp only
      rw [h1, h2]

/-- C33 does not hold: after 2^20 + 1 allocations page 0 and page 2^20 have both been handed out, they are at the same
    place, and writing page 2^20 replaces page 0. -/
theorem C33_violated : ∃ s ps, allocateMany (2 ^ 20 + 1) emptyDir = .ok (ps, s) ∧ 0 ∈ ps ∧ 2 ^ 20 ∈ ps ∧
    pageOff (2 ^ 20) = pageOff 0 ∧
    ∀ buf : Bytes, buf.length = 4096 → ∃ s', writePage (2 ^ 20) buf s = .ok ((), s') ∧ readPage 0 s' = .ok (buf, s') := by
  have h0 : pageOff (2 ^ 20) = 0 := by rw [pageOff, show pageSize = 4096 from rfl]; norm_num
  have h1 : pageOff 0 = 0 := by rw [pageOff, Nat.zero_mul]
  refine ⟨_, _, allocateMany_run _ (by norm_num), List.mem_range.2 (Nat.succ_pos _), List.mem_range.2 (Nat.lt_succ_self _), by rw [h0, h1], ?_⟩
  intro buf hb
  generalize hd : zeros ((2 ^ 20 + 1) * 4096) = d
  have hl : 4096 ≤ d.length := by rw [← hd, zeros_length]; norm_num
  refine ⟨{ emptyDir with data := Spec.write d 0 buf }, by rw [writePage, h0], ?_⟩
  have hr : Spec.read (Spec.write d 0 buf) (pageOff 0) pageSize = buf := by
    have hne : buf ≠ [] := by rintro rfl; cases hb
    rw [h1, Spec.write, if_neg hne, Spec.read, List.take_zero, List.nil_append, List.drop_zero, show pageSize = buf.length from hb.symm,
      List.take_left]
  rw [readPage, bind_run (getSt_run _)]
  dsimp only
  rw [hr, hb]
  rfl

end Securefs.Props
