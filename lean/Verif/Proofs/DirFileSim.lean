import Verif.Model.DirFile
import Verif.Proofs.FileObj
/-! Helper lemmas: the directory in its encrypted file does what the directory in an ideal byte array does. -/

namespace Securefs.DirFile

open Securefs Spec FileEnv

/-- The object `d` is the directory `s`, with the attributes `A` beside the page numbers. -/
structure Rel (E : FileEnv) (id : Bytes) (A : Attrs) (s : BSt) (d : DirObj) : Prop where
  env : d.env = E
  idq : d.id = id
  cache : d.cache = s.cache
  repr : ∃ stored H, ObjRepr E id d.file s.data stored H
  attrs : attrsOf E.storeTime d.file.attr = { A with pages := (s.root, s.start, s.nfree) }

/-- The size up to which the stream behaves as a byte array. -/
def room (E : FileEnv) : Nat := 2 ^ 30 * E.blockSize - E.maxPadding.toNat

/-- What a size counts for: pages have 32-bit offsets. -/
def ext (s : BSt) : Nat := max s.data.length (2 ^ 32)

/-- Where the run of `m` ends well, so does that of `m'`, in related states; where it throws, so does that of `m'`.  The file grows by
    at most `n` pages. -/
def SimAt (E : FileEnv) (id : Bytes) (n : Nat) (s : BSt) (d : DirObj) {α : Type} (m : BM α) (m' : DM α) : Prop :=
  ∀ A, Rel E id A s d → ext s + 4096 * n ≤ room E →
    match m s with
    | .ok (a, s') => ∃ d', m' d = (.ok a, d') ∧ Rel E id A s' d' ∧ ext s' ≤ ext s + 4096 * n
    | .error e => ∃ d', m' d = (.error e, d')

def Sim (E : FileEnv) (id : Bytes) (n : Nat) {α : Type} (m : BM α) (m' : DM α) : Prop := ∀ s d, SimAt E id n s d m m'

variable {E : FileEnv} {id : Bytes}

theorem Rel.root {A s d} (h : Rel E id A s d) : d.root = s.root := congrArg (fun a => a.pages.1) h.attrs
theorem Rel.start {A s d} (h : Rel E id A s d) : d.start = s.start := congrArg (fun a => a.pages.2.1) h.attrs
theorem Rel.nfree {A s d} (h : Rel E id A s d) : d.nfree = s.nfree := congrArg (fun a => a.pages.2.2) h.attrs
theorem Rel.find {A s d} (h : Rel E id A s d) (p : Nat) : cacheFind d p = Securefs.cacheFind s p := by
  simp only [cacheFind, Securefs.cacheFind, h.cache]

theorem Rel.stream (hE : FileEnvOk E) {A s d} (h : Rel E id A s d) :
    ∃ R lim, (E.stream id d.file).Refines R lim ∧ room E ≤ lim ∧ R d.file.st s.data ∧
      ∀ st c, R st c → ∃ stored H, ObjRepr E id { d.file with st := st } c stored H := by
  obtain ⟨stored, H, hR⟩ := h.repr
  refine ⟨_, _, stream_ok hE id d.file (hR.room hE) stored.isSome H, ?_, hR.repr, ?_⟩
  · have := hR.padle
    unfold room fullMaxBlocks
    omega
  · intro st c hr
    exact ⟨stored, H, hR.keys, hR.pad, hR.padle, hr, hR.hdr, hR.inv⟩

theorem Rel.size (hE : FileEnvOk E) {A s d} (h : Rel E id A s d) : d.size = s.data.length := by
  obtain ⟨R, lim, h1, _, h3, _⟩ := h.stream hE
  rw [DirObj.size, h.env, h.idq]
  exact h1.size_ok h3

/-! ## Composition -/

theorem Sim.pure {α : Type} (a : α) : Sim E id 0 (pure a) (pure a) := fun _ d _ hr _ => ⟨d, rfl, hr, Nat.le_add_right _ _⟩

theorem Sim.throw {α : Type} (e : Err) : Sim E id 0 (Securefs.bthrow e : BM α) (bthrow e) := fun _ d _ _ _ => ⟨d, rfl⟩

theorem Sim.lift {α : Type} (r : Res α) : Sim E id 0 (Securefs.lift r) (lift r) := by
  intro s d A hr _
  cases r with
  | ok a => exact ⟨d, rfl, hr, Nat.le_add_right _ _⟩
  | error e => exact ⟨d, rfl⟩

theorem Sim.mono {α : Type} {n k : Nat} {m : BM α} {m' : DM α} (h : Sim E id n m m') (hk : n ≤ k) : Sim E id k m m' := by
  intro s d A hr hl
  have h1 : 4096 * n ≤ 4096 * k := Nat.mul_le_mul_left _ hk
  have h2 := h s d A hr (by omega)
  revert h2
  cases m s with
  | ok p =>
    rintro ⟨d', e, r, l⟩
    exact ⟨d', e, r, by omega⟩
  | error e => exact fun h => h

theorem bind_ok {α β : Type} {m : DM α} {f : α → DM β} {d d' : DirObj} {a : α} (h : m d = (.ok a, d')) : (m >>= f) d = f a d' := by
  show (match m d with | (.ok a, s') => f a s' | (.error e, s') => (.error e, s')) = _
  rw [h]

theorem bind_err {α β : Type} {m : DM α} {f : α → DM β} {d d' : DirObj} {e : Err} (h : m d = (.error e, d')) : (m >>= f) d = (.error e, d') := by
  show (match m d with | (.ok a, s') => f a s' | (.error e, s') => (.error e, s')) = _
  rw [h]

theorem SimAt.bind {α β : Type} {n k : Nat} {m : BM α} {m' : DM α} {f : α → BM β} {f' : α → DM β} {s d} (h : SimAt E id n s d m m')
    (hf : ∀ a, Sim E id k (f a) (f' a)) : SimAt E id (n + k) s d (m >>= f) (m' >>= f') := by
  intro A hr hl
  have h1 := h A hr (by omega)
  revert h1
  have e1 : (m >>= f) s = match m s with | .ok (a, s') => f a s' | .error e => .error e := by
    show StateT.bind m f s = _
    unfold StateT.bind
    show Except.bind (m s) _ = _
    cases m s <;> rfl
  rw [e1]
  cases m s with
  | error e =>
    rintro ⟨d', e⟩
    exact ⟨d', bind_err e⟩
  | ok p =>
    obtain ⟨a, s1⟩ := p
    rintro ⟨d1, e, r, l⟩
    have h2 := hf a s1 d1 A r (by omega)
    dsimp only
    revert h2
    rw [bind_ok e]
    cases f a s1 with
    | error e => exact fun h => h
    | ok q =>
      rintro ⟨d2, e', r', l'⟩
      exact ⟨d2, e', r', by omega⟩

theorem Sim.bind {α β : Type} {n k : Nat} {m : BM α} {m' : DM α} {f : α → BM β} {f' : α → DM β} (h : Sim E id n m m')
    (hf : ∀ a, Sim E id k (f a) (f' a)) : Sim E id (n + k) (m >>= f) (m' >>= f') := fun s d => (h s d).bind hf

/-- Nothing of the budget is used by the first part. -/
theorem Sim.bind0 {α β : Type} {k : Nat} {m : BM α} {m' : DM α} {f : α → BM β} {f' : α → DM β} (h : Sim E id 0 m m')
    (hf : ∀ a, Sim E id k (f a) (f' a)) : Sim E id k (m >>= f) (m' >>= f') := (h.bind hf).mono (by omega)

theorem Sim.get {α : Type} {n : Nat} {f : BSt → BM α} {f' : DirObj → DM α}
    (h : ∀ A s d, Rel E id A s d → SimAt E id n s d (f s) (f' d)) : Sim E id n (Securefs.getSt >>= f) (getSt >>= f') :=
  fun s d A hr hl => h A s d hr A hr hl

theorem Sim.ite {α : Type} {n : Nat} (c : Prop) [Decidable c] {a b : BM α} {a' b' : DM α} (h1 : c → Sim E id n a a') (h2 : ¬ c → Sim E id n b b') :
    Sim E id n (if c then a else b) (if c then a' else b') := by
  by_cases hc : c
  · rw [if_pos hc, if_pos hc]; exact h1 hc
  · rw [if_neg hc, if_neg hc]; exact h2 hc

theorem sim_dirCheck (c : Bool) : Sim E id 0 (Securefs.dirCheck c) (dirCheck c) := by
  unfold Securefs.dirCheck dirCheck
  cases c
  · exact Sim.throw _
  · exact Sim.pure _

/-! ## The file -/

theorem pageOff_lt (p : Nat) : pageOff p + 4096 ≤ 2 ^ 32 := by
  unfold pageOff pageSize
  omega

theorem ext_ge (s : BSt) : 2 ^ 32 ≤ ext s := by unfold ext; exact Nat.le_max_right _ _

theorem ext_len (s : BSt) : s.data.length ≤ ext s := by unfold ext; exact Nat.le_max_left _ _

theorem sim_readPage (hE : FileEnvOk E) (p : Nat) : Sim E id 0 (Securefs.readPage p) (readPage p) := by
  have h : Sim E id 0 (fun s => .ok (Spec.read s.data (pageOff p) pageSize, s)) (readStream (pageOff p) pageSize) := by
    intro s d A hr hl
    obtain ⟨R, lim, h1, h2, h3, _⟩ := hr.stream hE
    refine ⟨d, ?_, hr, by omega⟩
    have hx := ext_ge s
    have hp := pageOff_lt p
    unfold readStream
    rw [hr.env, hr.idq, h1.read_ok (pageOff p) pageSize h3 (by unfold pageSize; omega)]
  have e : Securefs.readPage p = (do
      let b ← (fun s => .ok (Spec.read s.data (pageOff p) pageSize, s) : BM Bytes)
      Securefs.dirCheck (b.length == pageSize)
      pure b) := rfl
  rw [e]
  exact h.bind0 fun b => (sim_dirCheck _).bind0 fun _ => Sim.pure _

theorem Rel.withFile {A s d} (hr : Rel E id A s d) {st c} (h : ∃ stored H, ObjRepr E id { d.file with st := st } c stored H) :
    Rel E id A { s with data := c } { d with file := { d.file with st := st } } :=
  ⟨hr.env, hr.idq, hr.cache, h, hr.attrs⟩

theorem sim_writePage (hE : FileEnvOk E) (p : Nat) (buf : Bytes) (hb : buf.length ≤ 4096) : Sim E id 0 (Securefs.writePage p buf) (writePage p buf) := by
  intro s d A hr hl
  obtain ⟨R, lim, h1, h2, h3, h4⟩ := hr.stream hE
  have hx := ext_ge s
  have hp := pageOff_lt p
  obtain ⟨st', e, r⟩ := h1.write_ok (pageOff p) buf h3 (by omega)
  refine ⟨{ d with file := { d.file with st := st' } }, ?_, hr.withFile (h4 _ _ r), ?_⟩
  · unfold writePage writeStream
    rw [hr.env, hr.idq, e]
  · have : (Spec.write s.data (pageOff p) buf).length ≤ max s.data.length (2 ^ 32) := by
      unfold Spec.write
      split
      · exact Nat.le_max_left _ _
      · simp only [List.length_append, List.length_take, List.length_replicate, List.length_drop]
        omega
    unfold ext
    dsimp only
    omega

theorem Rel.resize (hE : FileEnvOk E) {A s d} (hr : Rel E id A s d) (n : Nat) (hn : n ≤ room E) :
    ∃ d', resizeStream n d = (.ok (), d') ∧ Rel E id A { s with data := Spec.resize s.data n } d' := by
  obtain ⟨R, lim, h1, h2, h3, h4⟩ := hr.stream hE
  obtain ⟨st', e, r⟩ := h1.resize_ok n h3 (by omega)
  refine ⟨{ d with file := { d.file with st := st' } }, ?_, hr.withFile (h4 _ _ r)⟩
  unfold resizeStream
  rw [hr.env, hr.idq, e]

theorem resize_len (c : Bytes) (n : Nat) : (Spec.resize c n).length = n := by
  unfold Spec.resize
  simp only [List.length_append, List.length_take, List.length_replicate]
  omega

theorem Rel.attr {A s d} (hr : Rel E id A s d) (op : AttrOp) (hv : AttrOpValid op) {A' s'} (hd : s'.data = s.data) (hc : s'.cache = s.cache)
    (now : TimeSpec) (hn : ValidTime now)
    (ha : attrStep { A with pages := (s.root, s.start, s.nfree) } (stamp now) op = { A' with pages := (s'.root, s'.start, s'.nfree) }) :
    Rel E id A' s' { d with file := { d.file with attr := E.attrCall now op d.file.attr } } := by
  obtain ⟨stored, H, hR⟩ := hr.repr
  obtain ⟨h1, h2⟩ := attr_step hR now hn op hv
  refine ⟨hr.env, hr.idq, hr.cache.trans hc.symm, ⟨stored, H, ?_⟩, ?_⟩
  · rw [hd]; exact h1
  · rw [← ha, ← hr.attrs]; exact h2

theorem validZero : ValidTime TimeSpec.zero := by unfold ValidTime; decide

theorem ofNat_mod (v : Nat) : (UInt32.ofNat v).toNat = v % 2 ^ 32 := by simp

theorem sim_setRoot (v : Nat) : Sim E id 0 (Securefs.setRoot v) (setRoot v) := by
  intro s d A hr hl
  refine ⟨_, rfl, hr.attr (s' := { s with root := v % 2 ^ 32 }) (.setRootPage (UInt32.ofNat v)) trivial rfl rfl .zero validZero ?_, Nat.le_add_right _ _⟩
  simp only [attrStep, ofNat_mod]

theorem sim_setStart (v : Nat) : Sim E id 0 (Securefs.setStart v) (setStart v) := by
  intro s d A hr hl
  refine ⟨_, rfl, hr.attr (s' := { s with start := v % 2 ^ 32 }) (.setStartFree (UInt32.ofNat v)) trivial rfl rfl .zero validZero ?_, Nat.le_add_right _ _⟩
  simp only [attrStep, ofNat_mod]

theorem sim_setNfree (v : Nat) : Sim E id 0 (Securefs.setNfree v) (setNfree v) := by
  intro s d A hr hl
  refine ⟨_, rfl, hr.attr (s' := { s with nfree := v % 2 ^ 32 }) (.setNumFree (UInt32.ofNat v)) trivial rfl rfl .zero validZero ?_, Nat.le_add_right _ _⟩
  simp only [attrStep, ofNat_mod]

theorem sim_readFreePage (hE : FileEnvOk E) (p : Nat) : Sim E id 0 (Securefs.readFreePage p) (readFreePage p) := by
  unfold Securefs.readFreePage readFreePage
  exact (sim_readPage hE p).bind0 fun _ => (Sim.lift _).bind0 fun _ => (sim_dirCheck _).bind0 fun _ => (Sim.lift _).bind0 fun _ =>
    (Sim.lift _).bind0 fun _ => Sim.pure _

theorem sim_writeFreePage (hE : FileEnvOk E) (p next prev : Nat) : Sim E id 0 (Securefs.writeFreePage p next prev) (writeFreePage p next prev) := by
  unfold Securefs.writeFreePage writeFreePage
  refine sim_writePage hE p _ ?_
  simp only [List.length_append, toLE_length, zeros, List.length_replicate, pageSize]
  omega

theorem sim_extendFile (hE : FileEnvOk E) : Sim E id 1 Securefs.extendFile extendFile := by
  intro s d A hr hl
  have hsz := hr.size hE
  have hle := ext_len s
  obtain ⟨d', e, r⟩ := hr.resize hE (s.data.length + 4096) (by omega)
  refine ⟨d', ?_, r, ?_⟩
  · rw [extendFile, bind_ok (show getSt d = (.ok d, d) from rfl), hsz, bind_ok (show resizeStream (s.data.length + pageSize) d = _ from e)]
    rfl
  · unfold ext
    dsimp only
    rw [resize_len]
    unfold pageSize
    omega

theorem sim_fixHead (hE : FileEnvOk E) (next : Nat) : Sim E id 0 (Securefs.fixHead next) (fixHead next) := by
  unfold Securefs.fixHead fixHead
  refine Sim.ite _ (fun _ => Sim.pure _) fun _ => (sim_readFreePage hE next).bind0 fun fp => Sim.get fun A s d hr => ?_
  rw [hr.start]
  exact sim_writeFreePage hE _ _ _ s d

theorem sim_popFree (hE : FileEnvOk E) (p : Nat) : Sim E id 0 (Securefs.popFree p) (popFree p) := by
  unfold Securefs.popFree popFree
  refine (sim_readFreePage hE p).bind0 fun fp => Sim.get fun A s d hr => ?_
  rw [hr.nfree]
  exact ((sim_setNfree _).bind0 fun _ => (sim_setStart _).bind0 fun _ => (sim_fixHead hE _).bind0 fun _ => Sim.pure _) s d

theorem sim_allocatePage (hE : FileEnvOk E) : Sim E id 1 Securefs.allocatePage allocatePage := by
  unfold Securefs.allocatePage allocatePage
  refine Sim.get fun A s d hr => ?_
  rw [hr.start]
  exact (Sim.ite _ (fun _ => sim_extendFile hE) fun _ => (sim_popFree hE _).mono (by omega)) s d

theorem sim_linkBack (hE : FileEnvOk E) (start num : Nat) : Sim E id 0 (Securefs.linkBack start num) (linkBack start num) := by
  unfold Securefs.linkBack linkBack
  exact Sim.ite _ (fun _ => Sim.pure _) fun _ => (sim_readFreePage hE _).bind0 fun _ => sim_writeFreePage hE _ _ _

theorem sim_deallocatePage (hE : FileEnvOk E) (num : Nat) : Sim E id 0 (Securefs.deallocatePage num) (deallocatePage num) := by
  unfold Securefs.deallocatePage deallocatePage
  refine Sim.get fun A s d hr => ?_
  rw [hr.start, hr.nfree, hr.size hE]
  by_cases hc : pageOff num = s.data.length
  · rw [if_pos hc, if_pos hc]
    intro A' hr' hl
    have hx := ext_ge s
    have hb : (num + (2 ^ 32 - 1)) * pageSize % 2 ^ 32 ≤ 2 ^ 32 := Nat.le_of_lt (Nat.mod_lt _ (by norm_num))
    obtain ⟨d', e, r⟩ := hr'.resize hE ((num + (2 ^ 32 - 1)) * pageSize % 2 ^ 32) (by omega)
    refine ⟨d', e, r, ?_⟩
    unfold ext
    dsimp only
    rw [resize_len]
    omega
  · rw [if_neg hc, if_neg hc]
    exact ((sim_writeFreePage hE _ _ _).bind0 fun _ => (sim_linkBack hE _ _).bind0 fun _ => (sim_setStart _).bind0 fun _ => sim_setNfree _) s d

/-! ## The cache -/

theorem sim_isLeaf (n : BNode) : Sim E id 0 (Securefs.isLeaf n) (isLeaf n) := by
  unfold Securefs.isLeaf isLeaf
  exact Sim.ite _ (fun _ => Sim.pure _) fun _ => Sim.ite _ (fun _ => Sim.pure _) fun _ => Sim.throw _

theorem sim_deref (p : Nat) : Sim E id 0 (Securefs.deref p) (deref p) := by
  intro s d A hr hl
  have h := hr.find p
  unfold Securefs.deref deref
  rw [h]
  cases Securefs.cacheFind s p with
  | some n => exact ⟨d, rfl, hr, Nat.le_add_right _ _⟩
  | none => exact ⟨d, rfl⟩

theorem sim_cacheErase (p : Nat) : Sim E id 0 (Securefs.cacheErase p) (cacheErase p) := by
  intro s d A hr hl
  exact ⟨_, rfl, ⟨hr.env, hr.idq, by dsimp only; rw [hr.cache], hr.repr, hr.attrs⟩, Nat.le_add_right _ _⟩

theorem sim_cachePut (p : Nat) (n : BNode) : Sim E id 0 (Securefs.cachePut p n) (cachePut p n) := by
  intro s d A hr hl
  exact ⟨_, rfl, ⟨hr.env, hr.idq, by dsimp only; rw [hr.cache], hr.repr, hr.attrs⟩, Nat.le_add_right _ _⟩

theorem sim_setEntries (p : Nat) (es : List DirEntry) : Sim E id 0 (Securefs.setEntries p es) (setEntries p es) := by
  unfold Securefs.setEntries setEntries
  exact (sim_deref p).bind0 fun _ => sim_cachePut _ _

theorem sim_setChildren (p : Nat) (cs : List Nat) : Sim E id 0 (Securefs.setChildren p cs) (setChildren p cs) := by
  unfold Securefs.setChildren setChildren
  exact (sim_deref p).bind0 fun _ => sim_cachePut _ _

theorem sim_setParent (p q : Nat) : Sim E id 0 (Securefs.setParent p q) (setParent p q) := by
  unfold Securefs.setParent setParent
  exact (sim_deref p).bind0 fun _ => sim_cachePut _ _

theorem sim_readNode (hE : FileEnvOk E) (p : Nat) : Sim E id 0 (Securefs.readNode p) (readNode p) := by
  unfold Securefs.readNode readNode
  exact Sim.ite _ (fun _ => Sim.throw _) fun _ => (sim_readPage hE p).bind0 fun _ => (Sim.lift _).bind0 fun _ => Sim.pure _

theorem toBuffer_le {size : Nat} {n : BNode} {b : Bytes} (h : toBuffer size n = .ok b) : b.length ≤ size := by
  have hw : ∀ {acc d r : Bytes}, writeFwd size acc d = .ok r → r.length ≤ size := by
    intro acc d r h
    unfold writeFwd at h
    split at h
    · injection h with h
      rw [← h, List.length_append]
      assumption
    · cases h
  have hc : ∀ (cs : List Nat) (acc r : Bytes), acc.length ≤ size → writeChildren size cs acc = .ok r → r.length ≤ size := by
    intro cs
    induction cs with
    | nil => intro acc r h1 h2; injection h2 with h2; rw [← h2]; exact h1
    | cons c cs ih =>
      intro acc r h1 h2
      unfold writeChildren at h2
      split at h2
      · cases h2
      · rename_i a ha
        exact ih a r (hw ha) h2
  have he : ∀ (es : List DirEntry) (acc r : Bytes), acc.length ≤ size → writeEntries size es acc = .ok r → r.length ≤ size := by
    intro es
    induction es with
    | nil => intro acc r h1 h2; injection h2 with h2; rw [← h2]; exact h1
    | cons e es ih =>
      intro acc r h1 h2
      unfold writeEntries at h2
      split at h2
      · cases h2
      · rename_i a ha
        refine ih a r ?_ h2
        unfold writeEntry at ha
        repeat' split at ha
        all_goals first | cases ha | exact hw ha
  unfold toBuffer at h
  repeat' split at h
  all_goals first | cases h | skip
  rename_i h3 _ _ h4
  exact he _ _ _ (hc _ _ _ (hw h3) h4) h

theorem sim_writeNode (hE : FileEnvOk E) (C : BCfg) (p : Nat) (n : BNode) : Sim E id 0 (Securefs.writeNode C p n) (writeNode C p n) := by
  unfold Securefs.writeNode writeNode
  refine Sim.ite _ (fun _ => Sim.throw _) fun _ => ?_
  cases h : toBuffer pageSize n with
  | error e => exact fun _ d _ _ _ => ⟨d, rfl⟩
  | ok b =>
    refine fun s d => ?_
    have hb := toBuffer_le h
    exact sim_writePage hE p (b ++ (C.junk p ++ zeros pageSize).take (pageSize - b.length)) (by
      rw [List.length_append, List.length_take]
      unfold pageSize at hb ⊢
      omega) s d

theorem sim_loadNode (hE : FileEnvOk E) (parent num : Nat) : Sim E id 0 (Securefs.loadNode parent num) (loadNode parent num) := by
  unfold Securefs.loadNode loadNode
  exact (sim_readNode hE num).bind0 fun _ => (sim_cachePut _ _).bind0 fun _ => Sim.pure _

theorem sim_retrieveNode (hE : FileEnvOk E) (parent num : Nat) : Sim E id 0 (Securefs.retrieveNode parent num) (retrieveNode parent num) := by
  unfold Securefs.retrieveNode retrieveNode
  refine Sim.get fun A s d hr => ?_
  rw [hr.find]
  cases Securefs.cacheFind s num with
  | some n => exact ((sim_dirCheck _).bind0 fun _ => Sim.pure _) s d
  | none => exact sim_loadNode hE parent num s d

theorem sim_getRootNode (hE : FileEnvOk E) : Sim E id 0 Securefs.getRootNode getRootNode := by
  unfold Securefs.getRootNode getRootNode
  refine Sim.get fun A s d hr => ?_
  rw [hr.root]
  exact (Sim.ite _ (fun _ => Sim.pure _) fun _ => (sim_retrieveNode hE _ _).bind0 fun _ => Sim.pure _) s d

/-! ## Looking up -/

theorem sim_findLoop (hE : FileEnvOk E) (C : BCfg) (name : Bytes) : ∀ fuel p, Sim E id 0 (Securefs.findLoop C name fuel p) (findLoop C name fuel p)
  | 0, _ => Sim.throw _
  | fuel + 1, p => by
    unfold Securefs.findLoop findLoop
    refine (sim_deref p).bind0 fun n => Sim.ite _ (fun _ => Sim.pure _) fun _ => (sim_isLeaf n).bind0 fun leaf => Sim.ite _ (fun _ => Sim.pure _) fun _ => ?_
    cases n.children[lowerBound (C.before name) n.entries]? with
    | none => exact Sim.throw _
    | some c => exact (sim_retrieveNode hE _ _).bind0 fun q => sim_findLoop hE C name fuel q

theorem sim_findNode (hE : FileEnvOk E) (C : BCfg) (name : Bytes) : Sim E id 0 (Securefs.findNode C name) (findNode C name) := by
  unfold Securefs.findNode findNode
  refine (sim_getRootNode hE).bind0 fun r => ?_
  cases r with
  | none => exact Sim.pure _
  | some p => exact (sim_findLoop hE C name _ p).bind0 fun _ => Sim.pure _

theorem sim_entryAt (C : BCfg) (name : Bytes) (p i : Nat) : Sim E id 0 (Securefs.entryAt C name p i) (entryAt C name p i) := by
  unfold Securefs.entryAt entryAt
  refine (sim_deref p).bind0 fun n => ?_
  cases n.entries[i]? with
  | none => exact Sim.throw _
  | some e => exact Sim.pure _

theorem sim_getEntry (hE : FileEnvOk E) (C : BCfg) (name : Bytes) : Sim E id 0 (Securefs.getEntry C name) (getEntry C name) := by
  unfold Securefs.getEntry getEntry
  refine Sim.ite _ (fun _ => Sim.throw _) fun _ => (sim_findNode hE C name).bind0 fun r => ?_
  rcases r with _ | ⟨p, i, _ | _⟩
  · exact Sim.pure _
  · exact Sim.pure _
  · exact sim_entryAt C name p i

/-! ## Adding -/

theorem sim_adjustChildren (parent : Nat) : ∀ cs, Sim E id 0 (Securefs.adjustChildren parent cs) (adjustChildren parent cs)
  | [] => Sim.pure _
  | c :: cs => by
    unfold Securefs.adjustChildren adjustChildren
    refine Sim.get fun A s d hr => ?_
    rw [hr.find]
    cases Securefs.cacheFind s c with
    | some n => exact ((sim_setParent _ _).bind0 fun _ => sim_adjustChildren parent cs) s d
    | none => exact sim_adjustChildren parent cs s d

theorem sim_insertHere (p i : Nat) (e : DirEntry) (a : Nat) : Sim E id 0 (Securefs.insertHere p i e a) (insertHere p i e a) := by
  unfold Securefs.insertHere insertHere
  exact (sim_deref p).bind0 fun n => Sim.ite _ (fun _ => sim_setEntries _ _) fun _ => (sim_isLeaf n).bind0 fun leaf =>
    Sim.ite _ (fun _ => sim_setEntries _ _) fun _ => (sim_dirCheck _).bind0 fun _ => (sim_setChildren _ _).bind0 fun _ => sim_setEntries _ _

theorem sim_splitInto (p q m : Nat) : Sim E id 0 (Securefs.splitInto p q m) (splitInto p q m) := by
  unfold Securefs.splitInto splitInto
  exact (sim_deref p).bind0 fun n => (sim_isLeaf n).bind0 fun leaf =>
    Sim.ite _ (fun _ => (sim_setEntries _ _).bind0 fun _ => sim_setEntries _ _) fun _ => (sim_setChildren _ _).bind0 fun _ =>
      (sim_setChildren _ _).bind0 fun _ => (sim_adjustChildren _ _).bind0 fun _ => (sim_setEntries _ _).bind0 fun _ => sim_setEntries _ _

theorem sim_growRoot (hE : FileEnvOk E) (p q : Nat) (e : DirEntry) : Sim E id 1 (Securefs.growRoot p q e) (growRoot p q e) := by
  unfold Securefs.growRoot growRoot
  exact (sim_allocatePage hE).bind (k := 0) fun a => (sim_retrieveNode hE _ _).bind0 fun r => (sim_setChildren _ _).bind0 fun _ =>
    (sim_setEntries _ _).bind0 fun _ => (sim_setRoot _).bind0 fun _ => (sim_setParent _ _).bind0 fun _ => sim_setParent _ _

theorem sim_insertBalance (hE : FileEnvOk E) (C : BCfg) : ∀ fuel p e a, Sim E id (fuel + 1) (Securefs.insertBalance C fuel p e a) (insertBalance C fuel p e a)
  | 0, _, _, _ => (Sim.throw _).mono (by omega)
  | fuel + 1, p, e, a => by
    unfold Securefs.insertBalance insertBalance
    refine (sim_deref p).bind0 fun n => (sim_insertHere _ _ _ _).bind0 fun _ => (sim_deref p).bind0 fun n =>
      Sim.ite _ (fun _ => ?_) fun _ => (Sim.pure _).mono (by omega)
    rw [show fuel + 1 + 1 = 1 + (fuel + 1) by omega]
    refine (sim_allocatePage hE).bind fun a => (sim_retrieveNode hE _ _).bind0 fun q => ?_
    cases n.entries[n.entries.length / 2 - 1]? with
    | none => exact (Sim.throw _).mono (by omega)
    | some e =>
      exact (sim_splitInto _ _ _).bind0 fun _ => Sim.ite _ (fun _ => (sim_growRoot hE _ _ _).mono (by omega)) fun _ =>
        (sim_deref _).bind0 fun _ => sim_insertBalance hE C fuel _ _ _

theorem sim_addFirst (hE : FileEnvOk E) (e : DirEntry) : Sim E id 1 (Securefs.addFirst e) (addFirst e) := by
  unfold Securefs.addFirst addFirst
  refine (sim_allocatePage hE).bind (k := 0) fun a => (sim_setRoot _).bind0 fun _ => (sim_getRootNode hE).bind0 fun r => ?_
  cases r with
  | none => exact Sim.throw _
  | some p => exact (sim_deref p).bind0 fun n => sim_setEntries _ _

theorem sim_addEntry (hE : FileEnvOk E) (C : BCfg) (e : DirEntry) : Sim E id 33 (Securefs.addEntry C e) (addEntry C e) := by
  unfold Securefs.addEntry addEntry
  refine Sim.ite _ (fun _ => (Sim.throw _).mono (by omega)) fun _ => (sim_findNode hE C _).bind0 fun r => ?_
  rcases r with _ | ⟨p, i, found⟩
  · exact ((sim_addFirst hE e).bind fun _ => Sim.pure _).mono (by omega)
  · exact Sim.ite _ (fun _ => (Sim.pure _).mono (by omega)) fun _ => (sim_insertBalance hE C btMaxDepth p e invalidPage).bind (k := 0) fun _ => Sim.pure _

/-! ## Removing -/

theorem sim_lastLeaf (hE : FileEnvOk E) : ∀ fuel p, Sim E id 0 (Securefs.lastLeaf fuel p) (lastLeaf fuel p)
  | 0, _ => Sim.throw _
  | fuel + 1, p => by
    unfold Securefs.lastLeaf lastLeaf
    refine (sim_deref p).bind0 fun n => (sim_isLeaf n).bind0 fun leaf => Sim.ite _ (fun _ => Sim.pure _) fun _ => ?_
    cases n.children.getLast? with
    | none => exact Sim.throw _
    | some c => exact (sim_retrieveNode hE _ _).bind0 fun q => sim_lastLeaf hE fuel q

theorem sim_replaceInner (hE : FileEnvOk E) (p i : Nat) : Sim E id 0 (Securefs.replaceInner p i) (replaceInner p i) := by
  unfold Securefs.replaceInner replaceInner
  refine (sim_deref p).bind0 fun n => ?_
  cases n.children[i]? with
  | none => exact Sim.throw _
  | some c =>
    refine (sim_retrieveNode hE _ _).bind0 fun q => Sim.get fun A s d hr => ?_
    rw [hr.size hE]
    refine ((sim_lastLeaf hE _ q).bind0 fun l => (sim_deref l).bind0 fun ln => ?_ : Sim E id 0 _ _) s d
    cases ln.entries.getLast? with
    | none => exact Sim.throw _
    | some e =>
      exact (sim_deref p).bind0 fun n => (sim_dirCheck _).bind0 fun _ => (sim_setEntries _ _).bind0 fun _ => (sim_deref l).bind0 fun ln =>
        (sim_setEntries _ _).bind0 fun _ => Sim.pure _

theorem sim_replaceWithSub (hE : FileEnvOk E) (p i : Nat) : Sim E id 0 (Securefs.replaceWithSub p i) (replaceWithSub p i) := by
  unfold Securefs.replaceWithSub replaceWithSub
  exact (sim_deref p).bind0 fun n => (sim_isLeaf n).bind0 fun leaf =>
    Sim.ite _ (fun _ => (sim_dirCheck _).bind0 fun _ => (sim_setEntries _ _).bind0 fun _ => Sim.pure _) fun _ => sim_replaceInner hE p i

theorem sim_delNode (hE : FileEnvOk E) (p : Nat) : Sim E id 0 (Securefs.delNode p) (delNode p) := by
  unfold Securefs.delNode delNode
  exact (sim_deref p).bind0 fun n => (sim_deallocatePage hE _).bind0 fun _ => sim_cacheErase _

theorem sim_findSibling (hE : FileEnvOk E) (parent node : Nat) : Sim E id 0 (Securefs.findSibling parent node) (findSibling parent node) := by
  unfold Securefs.findSibling findSibling
  refine (sim_deref _).bind0 fun pn => (sim_deref _).bind0 fun n => (sim_dirCheck _).bind0 fun _ => ?_
  cases pn.children.idxOf? node with
  | none => exact Sim.throw _
  | some i =>
    refine Sim.ite _ (fun _ => Sim.ite _ (fun _ => Sim.throw _) fun _ => ?_) fun _ => ?_
    · cases pn.children[i - 1]? with
      | none => exact Sim.throw _
      | some c => exact (sim_retrieveNode hE _ _).bind0 fun _ => Sim.pure _
    · cases pn.children[i + 1]? with
      | none => exact Sim.throw _
      | some c => exact (sim_retrieveNode hE _ _).bind0 fun _ => Sim.pure _

theorem sim_rotateChildren (l r m : Nat) (lc rc : List Nat) : Sim E id 0 (Securefs.rotateChildren l r m lc rc) (rotateChildren l r m lc rc) := by
  unfold Securefs.rotateChildren rotateChildren
  exact Sim.ite _ (fun _ => Sim.pure _) fun _ => (sim_setChildren _ _).bind0 fun _ => (sim_setChildren _ _).bind0 fun _ =>
    (sim_adjustChildren _ _).bind0 fun _ => sim_adjustChildren _ _

theorem sim_rotate (l r p i : Nat) : Sim E id 0 (Securefs.rotate l r p i) (rotate l r p i) := by
  unfold Securefs.rotate rotate
  refine (sim_deref _).bind0 fun ln => (sim_deref _).bind0 fun rn => (sim_deref _).bind0 fun pn => ?_
  cases pn.entries[i]? with
  | none => exact Sim.throw _
  | some sep =>
    dsimp only
    cases (ln.entries ++ sep :: rn.entries)[(ln.entries ++ sep :: rn.entries).length / 2]? with
    | none => exact Sim.throw _
    | some e => exact (sim_setEntries _ _).bind0 fun _ => (sim_setEntries _ _).bind0 fun _ => (sim_setEntries _ _).bind0 fun _ => sim_rotateChildren _ _ _ _ _

theorem sim_merge (hE : FileEnvOk E) (l r p i : Nat) : Sim E id 0 (Securefs.merge l r p i) (merge l r p i) := by
  unfold Securefs.merge merge
  refine (sim_deref _).bind0 fun ln => (sim_deref _).bind0 fun pn => ?_
  cases pn.entries[i]? with
  | none => exact Sim.throw _
  | some sep =>
    refine (sim_setEntries _ _).bind0 fun _ => (sim_setEntries _ _).bind0 fun _ => ?_
    cases pn.children.idxOf? r with
    | none => exact Sim.throw _
    | some j =>
      exact (sim_setChildren _ _).bind0 fun _ => (sim_deref _).bind0 fun rn => (sim_deref _).bind0 fun ln => (sim_setEntries _ _).bind0 fun _ =>
        (sim_adjustChildren _ _).bind0 fun _ => (sim_deref _).bind0 fun ln => (sim_setChildren _ _).bind0 fun _ => sim_delNode hE _

theorem sim_rebalance (hE : FileEnvOk E) (C : BCfg) (p q parent i : Nat) : Sim E id 0 (Securefs.rebalance C p q parent i) (rebalance C p q parent i) := by
  unfold Securefs.rebalance rebalance
  refine (sim_deref _).bind0 fun n => (sim_deref _).bind0 fun sn => ?_
  cases n.entries.getLast? with
  | none => exact Sim.throw _
  | some a =>
    cases sn.entries.head? with
    | none => exact Sim.throw _
    | some b =>
      exact Sim.ite _ (fun _ => Sim.ite _ (fun _ => sim_merge hE _ _ _ _) fun _ => sim_merge hE _ _ _ _)
        fun _ => Sim.ite _ (fun _ => sim_rotate _ _ _ _) fun _ => sim_rotate _ _ _ _

theorem sim_shrinkRoot (hE : FileEnvOk E) (p : Nat) : Sim E id 0 (Securefs.shrinkRoot p) (shrinkRoot p) := by
  unfold Securefs.shrinkRoot shrinkRoot
  refine (sim_deref _).bind0 fun n => ?_
  rcases n.children with _ | ⟨c, _ | ⟨c', cs⟩⟩
  · exact Sim.throw _
  · exact (sim_adjustChildren _ _).bind0 fun _ => (sim_setRoot _).bind0 fun _ => sim_delNode hE _
  · exact Sim.throw _

theorem sim_balanceUp (hE : FileEnvOk E) (C : BCfg) : ∀ fuel p, Sim E id 0 (Securefs.balanceUp C fuel p) (balanceUp C fuel p)
  | 0, _ => Sim.throw _
  | fuel + 1, p => by
    unfold Securefs.balanceUp balanceUp
    refine (sim_deref p).bind0 fun n => Sim.ite _ (fun _ => sim_shrinkRoot hE p) fun _ => Sim.ite _ (fun _ => Sim.pure _) fun _ =>
      Sim.get fun A s d hr => ?_
    rw [hr.find]
    exact ((sim_dirCheck _).bind0 fun _ => (sim_findSibling hE _ _).bind0 fun sib => (sim_rebalance hE C _ _ _ _).bind0 fun _ =>
      sim_balanceUp hE C fuel _) s d

theorem sim_removeAt (hE : FileEnvOk E) (C : BCfg) (p i : Nat) : Sim E id 0 (Securefs.removeAt C p i) (removeAt C p i) := by
  unfold Securefs.removeAt removeAt
  refine (sim_deref p).bind0 fun n => ?_
  cases n.entries[i]? with
  | none => exact Sim.throw _
  | some e => exact (sim_replaceWithSub hE p i).bind0 fun l => (sim_balanceUp hE C _ _).bind0 fun _ => Sim.pure _

theorem sim_removeEntry (hE : FileEnvOk E) (C : BCfg) (name : Bytes) : Sim E id 0 (Securefs.removeEntry C name) (removeEntry C name) := by
  unfold Securefs.removeEntry removeEntry
  refine Sim.ite _ (fun _ => Sim.throw _) fun _ => (sim_findNode hE C name).bind0 fun r => ?_
  rcases r with _ | ⟨p, i, _ | _⟩
  · exact Sim.pure _
  · exact Sim.pure _
  · exact sim_removeAt hE C p i

/-! ## Listing and flushing -/

theorem sim_iterChildren (hE : FileEnvOk E) {f : Nat → BM (List DirEntry)} {f' : Nat → DM (List DirEntry)} (hf : ∀ q, Sim E id 0 (f q) (f' q)) (p : Nat) :
    ∀ cs, Sim E id 0 (Securefs.iterChildren f p cs) (iterChildren f' p cs)
  | [] => Sim.pure _
  | c :: cs => by
    unfold Securefs.iterChildren iterChildren
    exact (sim_retrieveNode hE _ _).bind0 fun q => (hf q).bind0 fun _ => (sim_iterChildren hE hf p cs).bind0 fun _ => Sim.pure _

theorem sim_iterNode (hE : FileEnvOk E) : ∀ fuel p, Sim E id 0 (Securefs.iterNode fuel p) (iterNode fuel p)
  | 0, _ => Sim.throw _
  | fuel + 1, p => by
    unfold Securefs.iterNode iterNode
    exact (sim_deref p).bind0 fun n => (sim_iterChildren hE (sim_iterNode hE fuel) p _).bind0 fun _ => Sim.pure _

theorem sim_iterateEntries (hE : FileEnvOk E) : Sim E id 0 Securefs.iterateEntries iterateEntries := by
  unfold Securefs.iterateEntries iterateEntries
  refine (sim_getRootNode hE).bind0 fun r => ?_
  cases r with
  | none => exact Sim.pure _
  | some p => exact sim_iterNode hE _ p

theorem sim_dirEmpty (hE : FileEnvOk E) : Sim E id 0 Securefs.dirEmpty dirEmpty := by
  unfold Securefs.dirEmpty dirEmpty
  refine (sim_getRootNode hE).bind0 fun r => ?_
  cases r with
  | none => exact Sim.pure _
  | some p => exact (sim_deref p).bind0 fun _ => Sim.pure _

theorem sim_flushPages (hE : FileEnvOk E) (C : BCfg) : ∀ ps, Sim E id 0 (Securefs.flushPages C ps) (flushPages C ps)
  | [] => Sim.pure _
  | p :: ps => by
    unfold Securefs.flushPages flushPages
    exact (sim_deref p).bind0 fun n => Sim.ite _ (fun _ => (sim_writeNode hE C _ _).bind0 fun _ => (sim_cachePut _ _).bind0 fun _ => sim_flushPages hE C ps)
      fun _ => sim_flushPages hE C ps

theorem sim_flushCache (hE : FileEnvOk E) (C : BCfg) : Sim E id 0 (Securefs.flushCache C) (flushCache C) := by
  unfold Securefs.flushCache flushCache
  refine Sim.get fun A s d hr => ?_
  rw [hr.cache]
  exact sim_flushPages hE C _ s d

end Securefs.DirFile
