import Verif.Spec.BtreeFaults
import Verif.Proofs.BtreeSpec
/-! Helper lemmas: the directory over a file that fails does what the directory over a file does, as long as nothing fails. -/

namespace Securefs
open Spec

/-- The calls at the head of the plan that succeed. -/
def Fine (k : Nat) (plan : List (Option PageFault)) : Prop := ∀ x ∈ plan.take k, x = none

theorem Fine.split {k l : Nat} {plan : List (Option PageFault)} (h : Fine (k + l) plan) : Fine k plan ∧ Fine l (plan.drop k) := by
  rw [Fine, List.take_add] at h
  exact ⟨fun x hx => h x (List.mem_append_left _ hx), fun x hx => h x (List.mem_append_right _ hx)⟩

theorem Fine.join {k l : Nat} {plan : List (Option PageFault)} (h : Fine k plan) (h' : Fine l (plan.drop k)) : Fine (k + l) plan := by
  rw [Fine, List.take_add]
  intro x hx
  rcases List.mem_append.1 hx with hx | hx
  · exact h x hx
  · exact h' x hx

/-- `mF` does what `m` does unless a call on the stream fails, and then it tells so. -/
structure Impl {α : Type} (mF : FM α) (m : BM α) : Prop where
  does : ∀ s a s', m s = .ok (a, s') → ∃ k, ∀ plan, Fine k plan → mF ⟨s, plan⟩ = (.ok a, ⟨s', plan.drop k⟩)
  sound : ∀ F a F', mF F = (.ok a, F') → m F.st = .ok (a, F'.st) ∧ ∃ k, F'.plan = F.plan.drop k ∧ Fine k F.plan
  tells : ∀ F e F', mF F = (.error e, F') → (m F.st = .error e ∨ ∃ x, some x ∈ F.plan ∧ e = .vfs x.errno)

/-- Only nodes that are as in the file have come into the cache. -/
def Grows (s s' : BSt) : Prop :=
  s'.data = s.data ∧ s'.root = s.root ∧ s'.start = s.start ∧ s'.nfree = s.nfree ∧
    (∀ p n, cacheFind s p = some n → cacheFind s' p = some n) ∧
    ∀ p n, cacheFind s p = none → cacheFind s' p = some n → n.dirty = false

theorem Grows.refl (s : BSt) : Grows s s := ⟨rfl, rfl, rfl, rfl, fun _ _ h => h, fun p n h h' => by rw [h] at h'; cases h'⟩

theorem Grows.trans {a b c : BSt} (h : Grows a b) (h' : Grows b c) : Grows a c := by
  refine ⟨h'.1.trans h.1, h'.2.1.trans h.2.1, h'.2.2.1.trans h.2.2.1, h'.2.2.2.1.trans h.2.2.2.1,
    fun p n hn => h'.2.2.2.2.1 p n (h.2.2.2.2.1 p n hn), fun p n hn hn' => ?_⟩
  cases hb : cacheFind b p with
  | none => exact h'.2.2.2.2.2 p n hb hn'
  | some n' =>
    have := h'.2.2.2.2.1 p n' hb
    rw [hn'] at this
    rw [Option.some.inj this]
    exact h.2.2.2.2.2 p n' hn hb

/-- `mF` changes nothing but the cache. -/
structure Reads {α : Type} (mF : FM α) (m : BM α) : Prop extends Impl mF m where
  grows : ∀ s a s', m s = .ok (a, s') → Grows s s'
  keeps : ∀ F e F', mF F = (.error e, F') → ∀ a s', m F.st = .ok (a, s') → Grows F'.st s'

/-! ## Composition -/

theorem fbind_run {α β : Type} {m : FM α} {f : α → FM β} {F F' : FDir} {a : α} (h : m F = (.ok a, F')) : (m >>= f) F = f a F' := by
  show (ExceptT.bind m f) F = _
  unfold ExceptT.bind ExceptT.mk
  show (let p := m F; (ExceptT.bindCont f p.1) p.2) = _
  rw [h]
  rfl

theorem fbind_err {α β : Type} {m : FM α} {f : α → FM β} {F F' : FDir} {e : Err} (h : m F = (.error e, F')) :
    (m >>= f) F = (.error e, F') := by
  show (let p := m F; (ExceptT.bindCont f p.1) p.2) = _
  rw [h]
  rfl

theorem Impl.up {α : Type} (m : BM α) : Impl (up m) m where
  does s a s' h := ⟨0, fun plan _ => by simp [Securefs.up, h]⟩
  sound F a F' h := by
    unfold Securefs.up at h
    split at h
    · next b s hb =>
      cases h
      exact ⟨hb, 0, by simp, by intro x hx; simp at hx⟩
    · cases h
  tells F e F' h := by
    unfold Securefs.up at h
    split at h
    · cases h
    · next e' hb =>
      cases h
      exact Or.inl hb

theorem Impl.pure {α : Type} (a : α) : Impl (pure a : FM α) (pure a : BM α) where
  does s b s' h := ⟨0, fun plan _ => by cases h; rfl⟩
  sound F b F' h := by cases h; exact ⟨rfl, 0, by simp, by intro x hx; simp at hx⟩
  tells F e F' h := by cases h

theorem Impl.bind {α β : Type} {mF : FM α} {m : BM α} {fF : α → FM β} {f : α → BM β} (h : Impl mF m) (h' : ∀ a, Impl (fF a) (f a)) :
    Impl (mF >>= fF) (m >>= f) where
  does s b s' hs := by
    cases hm : m s with
    | error e => rw [bind_err hm] at hs; cases hs
    | ok r =>
      obtain ⟨a, s1⟩ := r
      rw [bind_run hm] at hs
      obtain ⟨k, hk⟩ := h.does s a s1 hm
      obtain ⟨l, hl⟩ := (h' a).does s1 b s' hs
      refine ⟨k + l, fun plan hp => ?_⟩
      rw [fbind_run (hk plan hp.split.1), hl _ hp.split.2, List.drop_drop]
  sound F b F' hs := by
    cases hm : mF F with
    | mk r F1 =>
      cases r with
      | error e => rw [fbind_err hm] at hs; cases hs
      | ok a =>
        rw [fbind_run hm] at hs
        obtain ⟨h1, k, h2, h3⟩ := h.sound F a F1 hm
        obtain ⟨g1, l, g2, g3⟩ := (h' a).sound F1 b F' hs
        refine ⟨by rw [bind_run h1, g1], k + l, by rw [g2, h2, List.drop_drop], h3.join (by rw [← h2]; exact g3)⟩
  tells F e F' hs := by
    cases hm : mF F with
    | mk r F1 =>
      cases r with
      | error e' =>
        rw [fbind_err hm] at hs
        cases hs
        rcases h.tells F e _ hm with h1 | h1
        · exact Or.inl (bind_err h1)
        · exact Or.inr h1
      | ok a =>
        rw [fbind_run hm] at hs
        obtain ⟨h1, k, h2, h3⟩ := h.sound F a F1 hm
        rcases (h' a).tells F1 e F' hs with g | ⟨x, g, rfl⟩
        · exact Or.inl (by rw [bind_run h1, g])
        · exact Or.inr ⟨x, by rw [h2] at g; exact List.mem_of_mem_drop g, rfl⟩

theorem Impl.call {α : Type} (works : BSt → α × BSt) : Impl (call works) (fun s => .ok (works s)) where
  does s a s' h := by
    refine ⟨1, fun plan hp => ?_⟩
    have h1 : works s = (a, s') := Except.ok.inj h
    obtain rfl : (works s).1 = a := by rw [h1]
    obtain rfl : (works s).2 = s' := by rw [h1]
    cases plan with
    | nil => rfl
    | cons x p =>
      have : x = none := hp x (by simp)
      subst this
      rfl
  sound F a F' h := by
    obtain ⟨s, plan⟩ := F
    cases plan with
    | nil => cases h; exact ⟨rfl, 0, by simp, by intro x hx; simp at hx⟩
    | cons x p =>
      cases x with
      | none => cases h; exact ⟨rfl, 1, by simp, by intro x hx; simpa using hx⟩
      | some x => cases h
  tells F e F' h := by
    obtain ⟨s, plan⟩ := F
    cases plan with
    | nil => cases h
    | cons x p =>
      cases x with
      | none => cases h
      | some x => cases h; exact Or.inr ⟨x, by simp, rfl⟩

theorem Impl.onThrow {α : Type} {mF : FM α} {m : BM α} (h : Impl mF m) (g : BSt → BSt) : Impl (onThrow mF g) m where
  does s a s' hs := by
    obtain ⟨k, hk⟩ := h.does s a s' hs
    exact ⟨k, fun plan hp => by simp only [Securefs.onThrow, hk plan hp]⟩
  sound F a F' hs := by
    unfold Securefs.onThrow at hs
    split at hs
    · next b F1 hb => cases hs; exact h.sound F a _ hb
    · cases hs
  tells F e F' hs := by
    unfold Securefs.onThrow at hs
    split at hs
    · cases hs
    · next e' F1 hb => cases hs; exact h.tells F e _ hb

/-- A computation without calls on the stream that changes nothing. -/
def Still {α : Type} (m : BM α) : Prop := ∀ s a s', m s = .ok (a, s') → s' = s

theorem Reads.still {α : Type} {m : BM α} (h : Still m) : Reads (up m) m where
  toImpl := Impl.up m
  grows s a s' hs := by rw [h s a s' hs]; exact Grows.refl s
  keeps F e F' hs a s' hm := by
    unfold up at hs
    rw [hm] at hs
    cases hs

theorem Reads.pure {α : Type} (a : α) : Reads (pure a : FM α) (pure a : BM α) where
  toImpl := Impl.pure a
  grows s b s' hs := by cases hs; exact Grows.refl s
  keeps F e F' hs := by cases hs

theorem Reads.bind {α β : Type} {mF : FM α} {m : BM α} {fF : α → FM β} {f : α → BM β} (h : Reads mF m) (h' : ∀ a, Reads (fF a) (f a)) :
    Reads (mF >>= fF) (m >>= f) where
  toImpl := h.toImpl.bind fun a => (h' a).toImpl
  grows s b s' hs := by
    cases hm : m s with
    | error e => rw [bind_err hm] at hs; cases hs
    | ok r =>
      obtain ⟨a, s1⟩ := r
      rw [bind_run hm] at hs
      exact (h.grows s a s1 hm).trans ((h' a).grows s1 b s' hs)
  keeps F e F' hs b s' hb := by
    cases hm : m F.st with
    | error e => rw [bind_err hm] at hb; cases hb
    | ok r =>
      obtain ⟨a, s1⟩ := r
      rw [bind_run hm] at hb
      cases hF : mF F with
      | mk r F1 =>
        cases r with
        | error e' =>
          rw [fbind_err hF] at hs
          cases hs
          exact (h.keeps F e _ hF a s1 hm).trans ((h' a).grows s1 b s' hb)
        | ok a' =>
          rw [fbind_run hF] at hs
          obtain ⟨h1, _⟩ := h.sound F a' F1 hF
          rw [hm] at h1
          obtain ⟨rfl, rfl⟩ : a = a' ∧ s1 = F1.st := by
            have := Except.ok.inj h1
            exact ⟨congrArg Prod.fst this, congrArg Prod.snd this⟩
          exact (h' a).keeps F1 e F' hs b s' hb

theorem Still.getSt : Still getSt := fun s a s' h => by cases h; rfl
theorem Still.deref (p : Nat) : Still (deref p) := fun s a s' h => by
  unfold Securefs.deref at h
  split at h
  · cases h; rfl
  · cases h
theorem Still.bthrow {α : Type} (e : Err) : Still (bthrow e : BM α) := fun s a s' h => by cases h
theorem Still.lift {α : Type} (r : Res α) : Still (lift r) := fun s a s' h => by
  cases r with
  | ok b => cases h; rfl
  | error e => cases h
theorem Still.dirCheck (c : Bool) : Still (dirCheck c) := fun s a s' h => by
  cases c <;> cases h
  rfl
theorem Still.isLeaf (n : BNode) : Still (isLeaf n) := fun s a s' h => by
  unfold Securefs.isLeaf at h
  split at h
  · cases h; rfl
  · split at h
    · cases h; rfl
    · cases h

/-! ## The functions -/

namespace BF

theorem readPage_reads (num : Nat) : Reads (readPage num) (Securefs.readPage num) := by
  have h0 : Securefs.readPage num = ((fun s => .ok (Spec.read s.data (pageOff num) pageSize, s) : BM Bytes) >>= fun buf => do
      dirCheck (buf.length == pageSize)
      Pure.pure buf) := rfl
  rw [h0, readPage]
  refine Reads.bind ?_ fun buf => Reads.bind (Reads.still (Still.dirCheck _)) fun _ => Reads.pure _
  exact
    { toImpl := Impl.call fun s => (Spec.read s.data (pageOff num) pageSize, s)
      grows := fun s a s' h => by cases h; exact Grows.refl s
      keeps := fun F e F' h a s' h' => by
        cases h'
        obtain ⟨s, plan⟩ := F
        cases plan with
        | nil => cases h
        | cons x p =>
          cases x with
          | none => cases h
          | some x =>
            cases h
            dsimp only
            rw [ite_self]
            exact Grows.refl s }

theorem readNode_reads (num : Nat) : Reads (readNode num) (Securefs.readNode num) := by
  unfold readNode Securefs.readNode
  by_cases h : num = invalidPage
  · rw [if_pos h, if_pos h]; exact Reads.still (Still.bthrow _)
  · rw [if_neg h, if_neg h]
    exact Reads.bind (readPage_reads num) fun buf => Reads.bind (Reads.still (Still.lift _)) fun r => Reads.pure _

theorem readNode_still (num : Nat) : Still (Securefs.readNode num) := by
  intro s c s1 hr
  unfold Securefs.readNode at hr
  split at hr
  · cases hr
  · have hp : ∀ b s2, Securefs.readPage num s = .ok (b, s2) → s2 = s := by
      intro b s2 h
      rw [Securefs.readPage, bind_run (getSt_run s)] at h
      cases hl : ((Spec.read s.data (pageOff num) pageSize).length == pageSize) with
      | false => rw [hl] at h; cases h
      | true => rw [hl, bind_run (dirCheck_run s)] at h; cases h; rfl
    cases hq : Securefs.readPage num s with
    | error e => rw [bind_err hq] at hr; cases hr
    | ok r =>
      obtain ⟨b, s2⟩ := r
      obtain rfl := hp b s2 hq
      rw [bind_run hq] at hr
      cases hb : fromBuffer b with
      | error e => rw [hb] at hr; cases hr
      | ok o => rw [hb, bind_run (lift_run _ _ rfl _)] at hr; cases hr; rfl

theorem loadNode_impl (parent num : Nat) : Impl (loadNode parent num) (Securefs.loadNode parent num) :=
  Impl.bind (readNode_reads num).toImpl fun _ => Impl.bind (Impl.up _) fun _ => Impl.pure _

theorem retrieveNode_reads (parent num : Nat) : Reads (retrieveNode parent num) (Securefs.retrieveNode parent num) := by
  have hI : Impl (retrieveNode parent num) (Securefs.retrieveNode parent num) := by
    refine Impl.bind (Impl.up _) fun s => ?_
    cases cacheFind s num with
    | some n => exact Impl.bind (Impl.up _) fun _ => Impl.pure _
    | none => exact loadNode_impl parent num
  have hgrow : ∀ s a s', Securefs.retrieveNode parent num s = .ok (a, s') → Grows s s' := by
    intro s a s' h
    rw [Securefs.retrieveNode, bind_run (getSt_run s)] at h
    cases hc : cacheFind s num with
    | some n =>
      rw [hc] at h
      dsimp only at h
      cases hd : (parent == invalidPage || parent == n.parent) with
      | true =>
        rw [hd, bind_run (dirCheck_run s)] at h
        cases h
        exact Grows.refl _
      | false => rw [hd] at h; cases h
    | none =>
      rw [hc] at h
      dsimp only at h
      rw [Securefs.loadNode] at h
      cases hr : Securefs.readNode num s with
      | error e => rw [bind_err hr] at h; cases h
      | ok r =>
        obtain ⟨c, s1⟩ := r
        rw [bind_run hr] at h
        have hg := (readNode_reads num).grows s c s1 hr
        have h1 : s' = putNode s1 num ⟨parent, num, c.1, c.2, false⟩ := by cases h; rfl
        have hs1 : s1 = s := readNode_still num s c s1 hr
        subst hs1
        subst h1
        refine ⟨rfl, rfl, rfl, rfl, fun p n hn => ?_, fun p n hn hn' => ?_⟩
        · rw [cacheFind_put, if_neg (by rintro rfl; rw [hc] at hn; cases hn)]; exact hn
        · rw [cacheFind_put] at hn'
          split at hn'
          · cases hn'; rfl
          · rw [hn] at hn'; cases hn'
  refine ⟨hI, hgrow, fun F e F' h a s' h' => ?_⟩
  · have hcl := h'
    rw [retrieveNode, fbind_run (show up getSt F = (.ok F.st, F) from rfl)] at h
    rw [Securefs.retrieveNode, bind_run (getSt_run F.st)] at h'
    cases hc : cacheFind F.st num with
    | some n =>
      rw [hc] at h h'
      dsimp only at h h'
      cases hd : (parent == invalidPage || parent == n.parent) with
      | true =>
        rw [hd, fbind_run (show up (dirCheck true) F = (.ok (), F) from rfl)] at h
        cases h
      | false => rw [hd] at h'; cases h'
    | none =>
      rw [hc] at h h'
      dsimp only at h h'
      rw [Securefs.loadNode] at h'
      rw [loadNode] at h
      cases hr : Securefs.readNode num F.st with
      | error e => rw [bind_err hr] at h'; cases h'
      | ok r =>
        obtain ⟨c, s1⟩ := r
        obtain rfl := readNode_still num F.st c s1 hr
        cases hF : readNode num F with
        | mk r F1 =>
          cases r with
          | error e' =>
            rw [fbind_err hF] at h
            cases h
            exact ((readNode_reads num).keeps F e _ hF c _ hr).trans (hgrow _ _ _ hcl)
          | ok c' => rw [fbind_run hF] at h; cases h

theorem getRootNode_reads : Reads getRootNode Securefs.getRootNode := by
  refine Reads.bind (Reads.still Still.getSt) fun s => ?_
  split
  · exact Reads.pure _
  · exact Reads.bind (retrieveNode_reads _ _) fun _ => Reads.pure _

theorem findLoop_reads (C : BCfg) (name : Bytes) : ∀ (fuel p : Nat), Reads (findLoop C name fuel p) (Securefs.findLoop C name fuel p)
  | 0, p => by rw [findLoop, Securefs.findLoop]; exact Reads.still (Still.bthrow _)
  | fuel + 1, p => by
    rw [findLoop, Securefs.findLoop]
    refine Reads.bind (Reads.still (Still.deref p)) fun n => ?_
    split
    · exact Reads.pure _
    · refine Reads.bind (Reads.still (Still.isLeaf n)) fun leaf => ?_
      split
      · exact Reads.pure _
      · cases n.children[lowerBound (C.before name) n.entries]? with
        | none => exact Reads.still (Still.bthrow _)
        | some c => exact Reads.bind (retrieveNode_reads _ _) fun q => findLoop_reads C name fuel q

theorem findNode_reads (C : BCfg) (name : Bytes) : Reads (findNode C name) (Securefs.findNode C name) := by
  refine Reads.bind getRootNode_reads fun r => ?_
  cases r with
  | none => exact Reads.pure _
  | some p => exact Reads.bind (findLoop_reads C name _ p) fun _ => Reads.pure _

theorem entryAt_still (C : BCfg) (name : Bytes) (p i : Nat) : Still (entryAt C name p i) := by
  intro s a s' h
  rw [entryAt] at h
  cases hd : deref p s with
  | error e => rw [bind_err hd] at h; cases h
  | ok r =>
    obtain ⟨n, s1⟩ := r
    obtain rfl := Still.deref p s n s1 hd
    rw [bind_run hd] at h
    cases hn : n.entries[i]? with
    | none => rw [hn] at h; cases h
    | some e => rw [hn] at h; cases h; rfl

theorem getEntry_reads (C : BCfg) (name : Bytes) : Reads (getEntry C name) (Securefs.getEntry C name) := by
  unfold getEntry Securefs.getEntry
  split
  · exact Reads.still (Still.bthrow _)
  · refine Reads.bind (findNode_reads C name) fun r => ?_
    rcases r with _ | ⟨p, i, _ | _⟩
    · exact Reads.pure _
    · exact Reads.pure _
    · exact Reads.still (entryAt_still C name _ _)

theorem iterChildren_reads {recF : Nat → FM (List DirEntry)} {rec : Nat → BM (List DirEntry)} (h : ∀ p, Reads (recF p) (rec p)) (p : Nat) :
    ∀ cs : List Nat, Reads (iterChildren recF p cs) (Securefs.iterChildren rec p cs)
  | [] => by rw [iterChildren, Securefs.iterChildren]; exact Reads.pure _
  | c :: cs => by
    rw [iterChildren, Securefs.iterChildren]
    exact Reads.bind (retrieveNode_reads _ _) fun q => Reads.bind (h q) fun a => Reads.bind (iterChildren_reads h p cs) fun b => Reads.pure _

theorem iterNode_reads : ∀ (fuel p : Nat), Reads (iterNode fuel p) (Securefs.iterNode fuel p)
  | 0, p => by rw [iterNode, Securefs.iterNode]; exact Reads.still (Still.bthrow _)
  | fuel + 1, p => by
    rw [iterNode, Securefs.iterNode]
    exact Reads.bind (Reads.still (Still.deref p)) fun n => Reads.bind (iterChildren_reads (iterNode_reads fuel) p _) fun r => Reads.pure _

theorem iterateEntries_reads : Reads iterateEntries Securefs.iterateEntries := by
  refine Reads.bind getRootNode_reads fun r => ?_
  cases r with
  | none => exact Reads.pure _
  | some p => exact iterNode_reads _ p

theorem dirEmpty_reads : Reads dirEmpty Securefs.dirEmpty := by
  refine Reads.bind getRootNode_reads fun r => ?_
  cases r with
  | none => exact Reads.pure _
  | some p => exact Reads.bind (Reads.still (Still.deref p)) fun n => Reads.pure _

theorem lastLeaf_reads : ∀ (fuel p : Nat), Reads (lastLeaf fuel p) (Securefs.lastLeaf fuel p)
  | 0, p => by rw [lastLeaf, Securefs.lastLeaf]; exact Reads.still (Still.bthrow _)
  | fuel + 1, p => by
    rw [lastLeaf, Securefs.lastLeaf]
    refine Reads.bind (Reads.still (Still.deref p)) fun n => Reads.bind (Reads.still (Still.isLeaf n)) fun leaf => ?_
    split
    · exact Reads.pure _
    · cases n.children.getLast? with
      | none => exact Reads.still (Still.bthrow _)
      | some c => exact Reads.bind (retrieveNode_reads _ _) fun q => lastLeaf_reads fuel q

/-! ### Functions that change the file -/

theorem writePage_impl (num : Nat) (buf : Bytes) : Impl (writePage num buf) (Securefs.writePage num buf) := Impl.call _

theorem readFreePage_impl (num : Nat) : Impl (readFreePage num) (Securefs.readFreePage num) :=
  Impl.bind (readPage_reads num).toImpl fun _ => Impl.bind (Impl.up _) fun _ => Impl.bind (Impl.up _) fun _ =>
    Impl.bind (Impl.up _) fun _ => Impl.bind (Impl.up _) fun _ => Impl.pure _

theorem writeFreePage_impl (num next prev : Nat) : Impl (writeFreePage num next prev) (Securefs.writeFreePage num next prev) :=
  writePage_impl _ _

theorem extendFile_impl : Impl extendFile Securefs.extendFile := Impl.call _

theorem fixHead_impl (next : Nat) : Impl (fixHead next) (Securefs.fixHead next) := by
  unfold fixHead Securefs.fixHead
  split
  · exact Impl.pure _
  · exact Impl.bind (readFreePage_impl _) fun _ => Impl.bind (Impl.up _) fun _ => writeFreePage_impl _ _ _

theorem popFree_impl (pg : Nat) : Impl (popFree pg) (Securefs.popFree pg) :=
  Impl.bind (readFreePage_impl _) fun _ => Impl.bind (Impl.up _) fun _ => Impl.bind (Impl.up _) fun _ => Impl.bind (Impl.up _) fun _ =>
    Impl.bind (fixHead_impl _) fun _ => Impl.pure _

theorem allocatePage_impl : Impl allocatePage Securefs.allocatePage := by
  refine Impl.bind (Impl.up _) fun s => ?_
  split
  · exact extendFile_impl
  · exact popFree_impl _

theorem linkBack_impl (start num : Nat) : Impl (linkBack start num) (Securefs.linkBack start num) := by
  unfold linkBack Securefs.linkBack
  split
  · exact Impl.pure _
  · exact Impl.bind (readFreePage_impl _) fun _ => writeFreePage_impl _ _ _

theorem deallocatePage_impl (num : Nat) : Impl (deallocatePage num) (Securefs.deallocatePage num) := by
  have h0 : Securefs.deallocatePage num = (getSt >>= fun s0 =>
      if pageOff num = s0.data.length then
        (fun s => .ok ((), { s with data := Spec.resize s.data ((num + (2 ^ 32 - 1)) * pageSize % 2 ^ 32) }) : BM Unit)
      else do
        Securefs.writeFreePage num s0.start invalidPage
        Securefs.linkBack s0.start num
        setStart num
        setNfree (s0.nfree + 1)) := by
    funext s
    rw [Securefs.deallocatePage, bind_run (getSt_run s), bind_run (getSt_run s)]
    split <;> rfl
  rw [h0]
  refine Impl.bind (Impl.up _) fun s => ?_
  split
  · exact Impl.call _
  · exact Impl.bind (writeFreePage_impl _ _ _) fun _ => Impl.bind (linkBack_impl _ _) fun _ => Impl.bind (Impl.up _) fun _ => Impl.up _

theorem writeNode_impl (C : BCfg) (num : Nat) (n : BNode) : Impl (writeNode C num n) (Securefs.writeNode C num n) := by
  unfold writeNode Securefs.writeNode
  split
  · exact Impl.up _
  · exact Impl.bind (Impl.up _) fun _ => writePage_impl _ _

theorem growRoot_impl (p q : Nat) (e : DirEntry) : Impl (growRoot p q e) (Securefs.growRoot p q e) :=
  Impl.bind allocatePage_impl fun _ => Impl.bind (retrieveNode_reads _ _).toImpl fun _ => Impl.bind (Impl.up _) fun _ =>
    Impl.bind (Impl.up _) fun _ => Impl.bind (Impl.up _) fun _ => Impl.bind (Impl.up _) fun _ => Impl.up _

theorem insertBalance_impl (C : BCfg) : ∀ (fuel p : Nat) (e : DirEntry) (additional : Nat),
    Impl (insertBalance C fuel p e additional) (Securefs.insertBalance C fuel p e additional)
  | 0, p, e, additional => by rw [insertBalance, Securefs.insertBalance]; exact Impl.up _
  | fuel + 1, p, e, additional => by
    rw [insertBalance, Securefs.insertBalance]
    refine Impl.bind (Impl.up _) fun n => Impl.bind (Impl.up _) fun _ => Impl.bind (Impl.up _) fun n => ?_
    split
    · refine Impl.bind allocatePage_impl fun a => Impl.bind (retrieveNode_reads _ _).toImpl fun q => ?_
      cases n.entries[n.entries.length / 2 - 1]? with
      | none => exact Impl.up _
      | some e =>
        refine Impl.bind (Impl.up _) fun _ => ?_
        split
        · exact growRoot_impl _ _ _
        · exact Impl.bind (Impl.up _) fun _ => insertBalance_impl C fuel _ _ _
    · exact Impl.pure _

theorem addFirst_impl (e : DirEntry) : Impl (addFirst e) (Securefs.addFirst e) := by
  refine Impl.bind allocatePage_impl fun a => Impl.bind (Impl.up _) fun _ => Impl.bind getRootNode_reads.toImpl fun r => ?_
  cases r with
  | none => exact Impl.up _
  | some p => exact Impl.bind (Impl.up _) fun _ => Impl.up _

theorem addEntry_impl (C : BCfg) (e : DirEntry) : Impl (addEntry C e) (Securefs.addEntry C e) := by
  unfold addEntry Securefs.addEntry
  split
  · exact Impl.up _
  · refine Impl.bind (findNode_reads C _).toImpl fun r => ?_
    rcases r with _ | ⟨p, i, found⟩
    · exact Impl.bind (addFirst_impl e) fun _ => Impl.pure _
    · dsimp only
      split
      · exact Impl.pure _
      · exact Impl.bind (insertBalance_impl C _ _ _ _) fun _ => Impl.pure _

theorem replaceInner_impl (p i : Nat) : Impl (replaceInner p i) (Securefs.replaceInner p i) := by
  refine Impl.bind (Impl.up _) fun n => ?_
  cases n.children[i]? with
  | none => exact Impl.up _
  | some c =>
    refine Impl.bind (retrieveNode_reads _ _).toImpl fun q => Impl.bind (Impl.up _) fun s => Impl.bind (lastLeaf_reads _ _).toImpl fun l =>
      Impl.bind (Impl.up _) fun ln => ?_
    cases ln.entries.getLast? with
    | none => exact Impl.up _
    | some e => exact Impl.bind (Impl.up _) fun _ => Impl.bind (Impl.up _) fun _ => Impl.bind (Impl.up _) fun _ => Impl.bind (Impl.up _) fun _ =>
        Impl.bind (Impl.up _) fun _ => Impl.pure _

theorem replaceWithSub_impl (p i : Nat) : Impl (replaceWithSub p i) (Securefs.replaceWithSub p i) := by
  refine Impl.bind (Impl.up _) fun n => Impl.bind (Impl.up _) fun leaf => ?_
  split
  · exact Impl.bind (Impl.up _) fun _ => Impl.bind (Impl.up _) fun _ => Impl.pure _
  · exact replaceInner_impl p i

theorem delNode_impl (p : Nat) : Impl (delNode p) (Securefs.delNode p) :=
  Impl.bind (Impl.up _) fun _ => Impl.bind (deallocatePage_impl _) fun _ => Impl.up _

theorem findSibling_impl (parent node : Nat) : Impl (findSibling parent node) (Securefs.findSibling parent node) := by
  refine Impl.bind (Impl.up _) fun pn => Impl.bind (Impl.up _) fun n => Impl.bind (Impl.up _) fun _ => ?_
  cases pn.children.idxOf? node with
  | none => exact Impl.up _
  | some i =>
    dsimp only
    split
    · split
      · exact Impl.up _
      · cases pn.children[i - 1]? with
        | none => exact Impl.up _
        | some c => exact Impl.bind (retrieveNode_reads _ _).toImpl fun _ => Impl.pure _
    · cases pn.children[i + 1]? with
      | none => exact Impl.up _
      | some c => exact Impl.bind (retrieveNode_reads _ _).toImpl fun _ => Impl.pure _

theorem merge_impl (left right parent i : Nat) : Impl (merge left right parent i) (Securefs.merge left right parent i) := by
  refine Impl.bind (Impl.up _) fun ln => Impl.bind (Impl.up _) fun pn => ?_
  cases pn.entries[i]? with
  | none => exact Impl.up _
  | some sep =>
    refine Impl.bind (Impl.up _) fun _ => Impl.bind (Impl.up _) fun _ => ?_
    cases pn.children.idxOf? right with
    | none => exact Impl.up _
    | some j => exact Impl.bind (Impl.up _) fun _ => Impl.bind (Impl.up _) fun _ => Impl.bind (Impl.up _) fun _ => Impl.bind (Impl.up _) fun _ =>
        Impl.bind (Impl.up _) fun _ => Impl.bind (Impl.up _) fun _ => Impl.bind (Impl.up _) fun _ => delNode_impl _

theorem rebalance_impl (C : BCfg) (p sibling parent i : Nat) : Impl (rebalance C p sibling parent i) (Securefs.rebalance C p sibling parent i) := by
  refine Impl.bind (Impl.up _) fun n => Impl.bind (Impl.up _) fun sn => ?_
  cases n.entries.getLast? with
  | none => exact Impl.up _
  | some a =>
    cases sn.entries.head? with
    | none => exact Impl.up _
    | some b =>
      dsimp only
      split
      · split
        · exact merge_impl _ _ _ _
        · exact merge_impl _ _ _ _
      · split
        · exact Impl.up _
        · exact Impl.up _

theorem shrinkRoot_impl (p : Nat) : Impl (shrinkRoot p) (Securefs.shrinkRoot p) := by
  refine Impl.bind (Impl.up _) fun n => ?_
  rcases n.children with _ | ⟨c, _ | ⟨c', cs⟩⟩
  · exact Impl.up _
  · exact Impl.bind (Impl.up _) fun _ => Impl.bind (Impl.up _) fun _ => delNode_impl _
  · exact Impl.up _

theorem balanceUp_impl (C : BCfg) : ∀ (fuel p : Nat), Impl (balanceUp C fuel p) (Securefs.balanceUp C fuel p)
  | 0, p => by rw [balanceUp, Securefs.balanceUp]; exact Impl.up _
  | fuel + 1, p => by
    rw [balanceUp, Securefs.balanceUp]
    refine Impl.bind (Impl.up _) fun n => ?_
    split
    · exact shrinkRoot_impl p
    · split
      · exact Impl.pure _
      · exact Impl.bind (Impl.up _) fun s => Impl.bind (Impl.up _) fun _ => Impl.bind (findSibling_impl _ _) fun sib =>
          Impl.bind (rebalance_impl C _ _ _ _) fun _ => balanceUp_impl C fuel _

theorem removeAt_impl (C : BCfg) (p i : Nat) : Impl (removeAt C p i) (Securefs.removeAt C p i) := by
  refine Impl.bind (Impl.up _) fun n => ?_
  cases n.entries[i]? with
  | none => exact Impl.up _
  | some e => exact Impl.bind (replaceWithSub_impl p i) fun l => Impl.bind (balanceUp_impl C _ l) fun _ => Impl.pure _

theorem removeEntry_impl (C : BCfg) (name : Bytes) : Impl (removeEntry C name) (Securefs.removeEntry C name) := by
  unfold removeEntry Securefs.removeEntry
  split
  · exact Impl.up _
  · refine Impl.bind (findNode_reads C name).toImpl fun r => ?_
    rcases r with _ | ⟨p, i, _ | _⟩
    · exact Impl.pure _
    · exact Impl.pure _
    · exact removeAt_impl C _ _

theorem moveChildren_impl {recF : Nat → FM (List DirEntry)} {rec : Nat → BM (List DirEntry)} (h : ∀ p, Impl (recF p) (rec p)) (fuel p : Nat) :
    ∀ cs : List Nat, Impl (moveChildren fuel recF p cs) (Securefs.iterChildren rec p cs)
  | [] => by rw [moveChildren, Securefs.iterChildren]; exact Impl.pure _
  | c :: cs => by
    rw [moveChildren, Securefs.iterChildren]
    exact Impl.bind (retrieveNode_reads _ _).toImpl fun q => Impl.bind (h q) fun a =>
      Impl.bind ((moveChildren_impl h fuel p cs).onThrow _) fun b => Impl.pure _

theorem moveNode_impl : ∀ (fuel p : Nat), Impl (moveNode fuel p) (Securefs.iterNode fuel p)
  | 0, p => by rw [moveNode, Securefs.iterNode]; exact Impl.up _
  | fuel + 1, p => by
    rw [moveNode, Securefs.iterNode]
    exact Impl.bind (Impl.up _) fun n => Impl.bind ((moveChildren_impl (moveNode_impl fuel) fuel p _).onThrow _) fun r => Impl.pure _

theorem addAll_impl (C : BCfg) : ∀ es : List DirEntry, Impl (addAll C es) (Securefs.addAll C es)
  | [] => by rw [addAll, Securefs.addAll]; exact Impl.pure _
  | e :: es => by
    rw [addAll, Securefs.addAll]
    exact Impl.bind (addEntry_impl C e) fun _ => addAll_impl C es

theorem rebuild_impl (C : BCfg) : Impl (rebuild C) (Securefs.rebuild C) := by
  have h0 : Securefs.rebuild C = (Securefs.getRootNode >>= fun r => match r with
    | none => Pure.pure ()
    | some p => do
      let es ← Securefs.iterNode btMaxDepth p
      let s ← getSt
      setSt { s with cache := [] }
      (fun s => .ok ((), { s with data := Spec.resize s.data 0 }) : BM Unit)
      setNfree 0
      setStart invalidPage
      setRoot invalidPage
      Securefs.addAll C es) := by
    unfold Securefs.rebuild
    refine congrArg _ (funext fun r => ?_)
    cases r with
    | none => rfl
    | some p => exact congrArg _ (funext fun es => funext fun s => rfl)
  rw [h0]
  refine Impl.bind getRootNode_reads.toImpl fun r => ?_
  cases r with
  | none => exact Impl.pure _
  | some p =>
    exact Impl.bind (moveNode_impl _ p) fun es => Impl.bind (Impl.up _) fun s => Impl.bind (Impl.up _) fun _ => Impl.bind (Impl.call _) fun _ =>
      Impl.bind (Impl.up _) fun _ => Impl.bind (Impl.up _) fun _ => Impl.bind (Impl.up _) fun _ => addAll_impl C es

theorem flushPages_impl (C : BCfg) : ∀ ps : List Nat, Impl (flushPages C ps) (Securefs.flushPages C ps)
  | [] => by rw [flushPages, Securefs.flushPages]; exact Impl.pure _
  | p :: ps => by
    rw [flushPages, Securefs.flushPages]
    refine Impl.bind (Impl.up _) fun n => ?_
    split
    · exact Impl.bind (writeNode_impl C _ n) fun _ => Impl.bind (Impl.up _) fun _ => flushPages_impl C ps
    · exact flushPages_impl C ps

theorem flushCache_impl (C : BCfg) : Impl (flushCache C) (Securefs.flushCache C) :=
  Impl.bind (Impl.up _) fun _ => flushPages_impl C _

theorem subflush_impl (C : BCfg) : Impl (subflush C) (Securefs.subflush C) := by
  refine Impl.bind (Impl.up _) fun s => ?_
  split
  · exact Impl.bind (rebuild_impl C) fun _ => flushCache_impl C
  · exact flushCache_impl C

theorem reopenDir_impl (C : BCfg) : Impl (reopenDir C) (Securefs.reopenDir C) :=
  Impl.bind (subflush_impl C) fun _ => Impl.bind (Impl.up _) fun _ => Impl.up _

theorem dirCall_impl (C : BCfg) : ∀ op : DirOp, Impl (dirCall C op) (Securefs.dirCall C op)
  | .add e => Impl.bind (addEntry_impl C e) fun _ => Impl.pure _
  | .remove n => Impl.bind (removeEntry_impl C n) fun _ => Impl.pure _
  | .get n => Impl.bind (getEntry_reads C n).toImpl fun _ => Impl.pure _
  | .list => Impl.bind iterateEntries_reads.toImpl fun _ => Impl.pure _
  | .empty => Impl.bind dirEmpty_reads.toImpl fun _ => Impl.pure _
  | .flush => Impl.bind (subflush_impl C) fun _ => Impl.pure _
  | .rebuild => Impl.bind (rebuild_impl C) fun _ => Impl.pure _
  | .reopen => Impl.bind (reopenDir_impl C) fun _ => Impl.pure _

/-! ## What a call that fails leaves -/

/-- Between two states of which the later has only more cached, the directory is the same. -/
theorem core_between {s s' : BSt} {np : Nat} {R : Multiset Rec} {F : List Nat} (h : Core s' np R F) (hg : Grows s s') : Core s np R F := by
  obtain ⟨g1, g2, g3, g4, g5, g6⟩ := hg
  exact
  { len := by rw [← g1]; exact h.len
    npLe := h.npLe
    part := h.part
    rep := by
      intro r hr
      have h0 := h.rep r hr
      cases hc : cacheFind s r.page with
      | some n =>
        rw [view, g5 _ n hc] at h0
        rw [view, hc]
        exact h0
      | none =>
        rw [view, hc]
        cases hc' : cacheFind s' r.page with
        | none =>
          rw [view, hc', g1] at h0
          exact h0
        | some n =>
          rw [view, hc'] at h0
          have := h.clean r.page n hc' (g6 _ n hc hc')
          rw [g1] at this
          exact this.trans h0
    par := fun r hr n hn => h.par r hr n (g5 _ n hn)
    keys := fun p n hn => h.keys p n (g5 _ n hn)
    clean := fun p n hn hd => by rw [← g1]; exact h.clean p n (g5 _ n hn) hd
    free := by rw [← g1, ← g3]; exact h.free
    nfree := by rw [← g4]; exact h.nfree }

theorem dir_between {C : BCfg} {s s' : BSt} {l : List DirEntry} (hd : Dir C s' l) (hg : Grows s s') : Dir C s l := by
  obtain ⟨hasc, hok, np, F, hcase⟩ := hd
  refine ⟨hasc, hok, np, F, ?_⟩
  rcases hcase with ⟨hr, rfl, hcore⟩ | ⟨t, h, hr, rfl, hs, hcore⟩
  · exact Or.inl ⟨by rw [← hg.2.1]; exact hr, rfl, core_between hcore hg⟩
  · exact Or.inr ⟨t, h, by rw [← hg.2.1]; exact hr, rfl, hs, core_between hcore hg⟩

/-- A name that is there is refused, or a call on the stream fails while it is looked for. -/
theorem addEntry_keeps {C : BCfg} {e : DirEntry} {s s' : BSt} (hok : Securefs.addEntry C e s = .ok (false, s')) {F F' : FDir} (hF : F.st = s)
    {er : Err} (h : addEntry C e F = (.error er, F')) : Grows F'.st s' := by
  subst hF
  unfold addEntry at h
  unfold Securefs.addEntry at hok
  by_cases hlong : e.name.length > maxFilename
  · rw [if_pos hlong] at hok; cases hok
  · rw [if_neg hlong] at h hok
    cases hm : Securefs.findNode C e.name F.st with
    | error x => rw [bind_err hm] at hok; cases hok
    | ok r =>
      obtain ⟨r, s1⟩ := r
      rw [bind_run hm] at hok
      rcases r with _ | ⟨p, i, found⟩
      · dsimp only at hok
        cases hf : Securefs.addFirst e s1 with
        | error x => rw [bind_err hf] at hok; cases hok
        | ok u => rw [bind_run hf] at hok; cases hok
      · cases found with
        | false =>
          dsimp only at hok
          rw [if_neg (by simp)] at hok
          cases hf : Securefs.insertBalance C btMaxDepth p e invalidPage s1 with
          | error x => rw [bind_err hf] at hok; cases hok
          | ok u => rw [bind_run hf] at hok; cases hok
        | true =>
          dsimp only at hok
          rw [if_pos rfl] at hok
          cases hok
          cases hfn : findNode C e.name F with
          | mk r F1 =>
            cases r with
            | error x =>
              rw [fbind_err hfn] at h
              cases h
              exact (findNode_reads C e.name).keeps F _ _ hfn _ _ hm
            | ok r =>
              obtain ⟨w, _⟩ := (findNode_reads C e.name).sound F r F1 hfn
              rw [hm] at w
              have w' := congrArg Prod.fst (Except.ok.inj w)
              dsimp only at w'
              subst w'
              rw [fbind_run hfn] at h
              dsimp only at h
              rw [if_pos rfl] at h
              cases h

/-- A name that is not there is not removed, or a call on the stream fails while it is looked for. -/
theorem removeEntry_keeps {C : BCfg} {name : Bytes} {s s' : BSt} (hok : Securefs.removeEntry C name s = .ok (none, s')) {F F' : FDir} (hF : F.st = s)
    {er : Err} (h : removeEntry C name F = (.error er, F')) : Grows F'.st s' := by
  subst hF
  unfold removeEntry at h
  unfold Securefs.removeEntry at hok
  by_cases hlong : name.length > maxFilename
  · rw [if_pos hlong] at hok; cases hok
  · rw [if_neg hlong] at h hok
    cases hm : Securefs.findNode C name F.st with
    | error x => rw [bind_err hm] at hok; cases hok
    | ok r =>
      obtain ⟨r, s1⟩ := r
      rw [bind_run hm] at hok
      have key : (∃ p i, r = some (p, i, true)) ∨ ((∀ p i, r ≠ some (p, i, true)) ∧ s' = s1) := by
        rcases r with _ | ⟨p, i, _ | _⟩
        · cases hok; exact Or.inr ⟨by simp, rfl⟩
        · cases hok; exact Or.inr ⟨by simp, rfl⟩
        · exact Or.inl ⟨p, i, rfl⟩
      rcases key with ⟨p, i, rfl⟩ | ⟨hne, rfl⟩
      · exfalso
        dsimp only at hok
        rw [Securefs.removeAt] at hok
        cases hd : deref p s1 with
        | error x => rw [bind_err hd] at hok; cases hok
        | ok u =>
          obtain ⟨n, s2⟩ := u
          rw [bind_run hd] at hok
          cases he : n.entries[i]? with
          | none => rw [he] at hok; cases hok
          | some e =>
            rw [he] at hok
            dsimp only at hok
            cases h1 : Securefs.replaceWithSub p i s2 with
            | error x => rw [bind_err h1] at hok; cases hok
            | ok u =>
              obtain ⟨l, s3⟩ := u
              rw [bind_run h1] at hok
              cases h2 : Securefs.balanceUp C btMaxDepth l s3 with
              | error x => rw [bind_err h2] at hok; cases hok
              | ok u => rw [bind_run h2] at hok; cases hok
      · cases hfn : findNode C name F with
        | mk r' F1 =>
          cases r' with
          | error x =>
            rw [fbind_err hfn] at h
            cases h
            exact (findNode_reads C name).keeps F _ _ hfn _ _ hm
          | ok r' =>
            obtain ⟨w, _⟩ := (findNode_reads C name).sound F r' F1 hfn
            rw [hm] at w
            have w' := congrArg Prod.fst (Except.ok.inj w)
            dsimp only at w'
            subst w'
            rw [fbind_run hfn] at h
            rcases r with _ | ⟨p, i, _ | _⟩
            · cases h
            · cases h
            · exact absurd rfl (hne p i)

/-- A node that has been written but is still taken for dirty. -/
theorem core_redirty {s : BSt} {np : Nat} {R : Multiset Rec} {F : List Nat} {p : Nat} {n : BNode} (hn : cacheFind s p = some n) (hd : n.dirty = true)
    (h : Core (putNode s p { n with dirty := false }) np R F) : Core s np R F := by
  have hcf : ∀ x, cacheFind (putNode s p { n with dirty := false }) x = if x = p then some { n with dirty := false } else cacheFind s x :=
    fun x => by rw [cacheFind_put]
  exact
  { len := h.len
    npLe := h.npLe
    part := h.part
    rep := by
      intro r hr
      have h0 := h.rep r hr
      by_cases he : r.page = p
      · rw [view, hcf, if_pos he] at h0
        rw [view, he, hn]
        exact h0
      · rw [view, hcf, if_neg he] at h0
        exact h0
    par := by
      intro r hr m hm
      by_cases he : r.page = p
      · rw [he, hn] at hm
        cases hm
        exact h.par r hr { n with dirty := false } (by rw [hcf, if_pos he])
      · exact h.par r hr m (by rw [hcf, if_neg he]; exact hm)
    keys := by
      intro x m hm
      by_cases he : x = p
      · subst he
        rw [hn] at hm
        cases hm
        exact h.keys x { n with dirty := false } (by rw [hcf, if_pos rfl])
      · exact h.keys x m (by rw [hcf, if_neg he]; exact hm)
    clean := by
      intro x m hm hm'
      by_cases he : x = p
      · subst he
        rw [hn] at hm
        cases hm
        rw [hd] at hm'
        cases hm'
      · exact h.clean x m (by rw [hcf, if_neg he]; exact hm) hm'
    free := h.free
    nfree := h.nfree }

theorem call_fails {α : Type} {works : BSt → α × BSt} {D D' : FDir} {e : Err} (h : call works D = (.error e, D')) :
    D'.st = D.st ∨ D'.st = (works D.st).2 := by
  obtain ⟨s, plan⟩ := D
  cases plan with
  | nil => cases h
  | cons x plan =>
    cases x with
    | none => cases h
    | some x =>
      obtain ⟨errno, done⟩ := x
      cases done with
      | true => cases h; exact Or.inr rfl
      | false => cases h; exact Or.inl rfl

theorem writeNode_fails {C : BCfg} {num : Nat} {n : BNode} {D D' : FDir} {e : Err} {s1 : BSt} (hok : Securefs.writeNode C num n D.st = .ok ((), s1))
    (h : writeNode C num n D = (.error e, D')) : D'.st = D.st ∨ D'.st = s1 := by
  unfold writeNode at h
  unfold Securefs.writeNode at hok
  by_cases hi : num = invalidPage
  · rw [if_pos hi] at hok; cases hok
  · rw [if_neg hi] at h hok
    cases hb : toBuffer pageSize n with
    | error x =>
      rw [hb] at hok
      cases hok
    | ok buf =>
      rw [hb] at h hok
      rw [bind_run (lift_run _ _ rfl _)] at hok
      have hup : up (lift (.ok buf)) D = (.ok buf, D) := rfl
      rw [fbind_run hup] at h
      cases hok
      exact call_fails h

/-- Writing pages back, up to a failure. -/
theorem flushPages_keeps {C : BCfg} {np : Nat} {R : Multiset Rec} {F : List Nat} (hR : ∀ r ∈ R, RecOk r) :
    ∀ (ps : List Nat) (D D' : FDir) (e : Err), Core D.st np R F → (∀ p ∈ ps, InC D.st p) → flushPages C ps D = (.error e, D') →
    Core D'.st np R F ∧ D'.st.root = D.st.root
  | [], D, D', e, h, _, he => by rw [flushPages] at he; cases he
  | p :: ps, D, D', e, h, hin, he => by
    obtain ⟨n, hn⟩ := hin p (by simp)
    have hup : up (deref p) D = (.ok n, D) := by rw [up, deref_run hn]
    rw [flushPages, fbind_run hup] at he
    cases hd : n.dirty with
    | false =>
      rw [hd, if_neg (by simp)] at he
      exact flushPages_keeps hR ps D D' e h (fun x hx => hin x (by simp [hx])) he
    | true =>
      rw [if_pos hd] at he
      obtain ⟨s1, e1, g1, r1, c1, _⟩ := h.flushOne (C := C) hR hn
      have hcs : ∀ x, cacheFind s1 x = cacheFind D.st x := fun x => cacheFind_cache c1 x
      cases hw : writeNode C n.num n D with
      | mk r D1 =>
        cases r with
        | error x =>
          rw [fbind_err hw] at he
          cases he
          rcases writeNode_fails e1 hw with h1 | h1
          · rw [h1]; exact ⟨h, rfl⟩
          · rw [h1]; exact ⟨core_redirty (by rw [hcs]; exact hn) hd g1, r1⟩
        | ok u =>
          obtain ⟨w, _⟩ := (writeNode_impl C n.num n).sound D u D1 hw
          rw [e1] at w
          have w' : s1 = D1.st := congrArg Prod.snd (Except.ok.inj w)
          subst w'
          rw [fbind_run hw] at he
          have hput : up (cachePut p { n with dirty := false }) D1 = (.ok (), ⟨putNode D1.st p { n with dirty := false }, D1.plan⟩) := rfl
          rw [fbind_run hput] at he
          obtain ⟨a1, a2⟩ := flushPages_keeps hR ps _ D' e g1 (by
            intro x hx
            obtain ⟨m, hm⟩ := hin x (by simp [hx])
            show ∃ k, cacheFind (putNode _ _ _) x = some k
            rw [cacheFind_put]
            by_cases hxp : x = p
            · exact ⟨_, if_pos hxp⟩
            · exact ⟨m, by rw [if_neg hxp, hcs]; exact hm⟩) he
          exact ⟨a1, a2.trans r1⟩

theorem flushCache_keeps {C : BCfg} (hO : OrderOk C) {D D' : FDir} {l : List DirEntry} {e : Err} (hd : Dir C D.st l)
    (h : flushCache C D = (.error e, D')) : Dir C D'.st l := by
  have hin : ∀ p ∈ C.order (D.st.cache.map Prod.fst), InC D.st p := fun p hp => (lookup_mem_keys D.st.cache p).2 ((hO _).subset hp)
  have hup : up getSt D = (.ok D.st, D) := rfl
  rw [flushCache, fbind_run hup] at h
  obtain ⟨hasc, hok, np, F, hcase⟩ := hd
  rcases hcase with ⟨hr, rfl, hcore⟩ | ⟨t, k, hr, rfl, hs, hcore⟩
  · obtain ⟨a1, a2⟩ := flushPages_keeps (by simp) _ D D' e hcore hin h
    exact ⟨hasc, hok, np, F, Or.inl ⟨by rw [a2, hr], rfl, a1⟩⟩
  · obtain ⟨a1, a2⟩ := flushPages_keeps (recOk_of hs hok hcore) _ D D' e hcore hin h
    exact ⟨hasc, hok, np, F, Or.inr ⟨t, k, by rw [a2, hr], rfl, hs, a1⟩⟩

theorem subflush_keeps {C : BCfg} (hO : OrderOk C) {D D' : FDir} {l : List DirEntry} {e : Err} (hd : Dir C D.st l)
    (hb : ¬ (D.st.nfree > 5 ∧ D.st.nfree > D.st.data.length / (pageSize * 3 / 2))) (h : subflush C D = (.error e, D')) : Dir C D'.st l := by
  have hup : up getSt D = (.ok D.st, D) := rfl
  rw [subflush, fbind_run hup, if_neg hb] at h
  exact flushCache_keeps hO hd h

/-- A reading call that fails. -/
theorem reads_fails {α : Type} {C : BCfg} {mF : FM α} {m : BM α} (hm : Reads mF m) {D D' : FDir} {l : List DirEntry} {e : Err} {a : α} {s' : BSt}
    (hok : m D.st = .ok (a, s')) (hd : Dir C s' l) (h : mF D = (.error e, D')) : Dir C D'.st l :=
  dir_between hd (hm.keeps D e D' h a s' hok)

theorem fbind_pure_err {α β : Type} {m : FM α} {f : α → β} {F F' : FDir} {e : Err} (h : (m >>= fun a => pure (f a)) F = (.error e, F')) :
    m F = (.error e, F') := by
  cases hm : m F with
  | mk r F1 =>
    cases r with
    | error x => rw [fbind_err hm] at h; cases h; rfl
    | ok a => rw [fbind_run hm] at h; cases h

theorem bind_pure_ok {α β : Type} {m : BM α} {f : α → β} {s s' : BSt} {b : β} (h : (m >>= fun a => pure (f a)) s = .ok (b, s')) :
    ∃ a, m s = .ok (a, s') ∧ f a = b := by
  cases hm : m s with
  | error x => rw [bind_err hm] at h; cases h
  | ok r =>
    obtain ⟨a, s1⟩ := r
    rw [bind_run hm] at h
    cases h
    exact ⟨a, rfl, rfl⟩

/-- What a failure leaves where nothing is to change. -/
theorem dirCall_quiet {C : BCfg} {s s' : BSt} {l m : List DirEntry} {op : DirOp} {o : DirOut} {plan : List (Option PageFault)} {D : FDir} {e : Err}
    (hok : Securefs.dirCall C op s = .ok (o, s')) (hd : Dir C s' l) (hag : DirOut.Agrees o (dirStep (sameName C.cmp) m op).1)
    (hq : op.quiet (sameName C.cmp) m) (h : dirCall C op ⟨s, plan⟩ = (.error e, D)) : Dir C D.st l := by
  cases op with
  | add x =>
    obtain ⟨b, w, rfl⟩ := bind_pure_ok hok
    have h' := fbind_pure_err h
    have hlong : ¬ x.name.length > 255 := by
      intro hl
      rw [Securefs.addEntry, if_pos (show x.name.length > maxFilename from hl)] at w
      cases w
    rw [dirStep, if_neg hlong, if_pos (hq.resolve_left hlong)] at hag
    have hb : b = false := by injection (show DirOut.flag b = DirOut.flag false from hag)
    subst hb
    exact dir_between hd (addEntry_keeps w rfl h')
  | remove n =>
    obtain ⟨b, w, rfl⟩ := bind_pure_ok hok
    have h' := fbind_pure_err h
    have hlong : ¬ n.length > 255 := by
      intro hl
      rw [Securefs.removeEntry, if_pos (show n.length > maxFilename from hl)] at w
      cases w
    have hq' : m.find? (fun x => sameName C.cmp n x.name) = none := by
      have := hq.resolve_left hlong
      rw [List.find?_eq_none]
      intro x hx hx'
      rw [List.any_eq_true.2 ⟨x, hx, hx'⟩] at this
      cases this
    rw [dirStep, if_neg hlong, hq'] at hag
    have hb : b = none := by injection (show DirOut.entry b = DirOut.entry none from hag)
    subst hb
    exact dir_between hd (removeEntry_keeps w rfl h')
  | get n =>
    obtain ⟨b, w, rfl⟩ := bind_pure_ok hok
    exact dir_between hd ((getEntry_reads C n).keeps _ _ _ (fbind_pure_err h) _ _ w)
  | list =>
    obtain ⟨b, w, rfl⟩ := bind_pure_ok hok
    exact dir_between hd (iterateEntries_reads.keeps _ _ _ (fbind_pure_err h) _ _ w)
  | empty =>
    obtain ⟨b, w, rfl⟩ := bind_pure_ok hok
    exact dir_between hd (dirEmpty_reads.keeps _ _ _ (fbind_pure_err h) _ _ w)
  | flush => exact hq.elim
  | rebuild => exact hq.elim
  | reopen => exact hq.elim

theorem reopenDir_fails {C : BCfg} {D D' : FDir} {e : Err} (h : reopenDir C D = (.error e, D')) : subflush C D = (.error e, D') := by
  cases hm : subflush C D with
  | mk r F1 =>
    cases r with
    | error x => rw [reopenDir, fbind_err hm] at h; exact h
    | ok a =>
      rw [reopenDir, fbind_run hm] at h
      cases h

/-- A call that is refused at once. -/
theorem dirCall_long {C : BCfg} {s : BSt} {m : List DirEntry} {op : DirOp} {e0 : Err} {plan : List (Option PageFault)}
    (hag : DirOut.Agrees (.fail e0) (dirStep (sameName C.cmp) m op).1) : dirCall C op ⟨s, plan⟩ = (.error e0, ⟨s, plan⟩) := by
  cases op with
  | add x =>
    rw [dirStep] at hag
    by_cases hl : x.name.length > 255
    · rw [if_pos hl] at hag
      cases (show DirOut.fail e0 = .fail (.vfs 36) from hag)
      rw [dirCall, addEntry, if_pos (show x.name.length > maxFilename from hl)]
      rfl
    · rw [if_neg hl] at hag
      split at hag <;> cases hag
  | remove n =>
    rw [dirStep] at hag
    by_cases hl : n.length > 255
    · rw [if_pos hl] at hag
      cases (show DirOut.fail e0 = .fail (.vfs 36) from hag)
      rw [dirCall, removeEntry, if_pos (show n.length > maxFilename from hl)]
      rfl
    · rw [if_neg hl] at hag
      cases hag
  | get n =>
    rw [dirStep] at hag
    by_cases hl : n.length > 255
    · rw [if_pos hl] at hag
      cases (show DirOut.fail e0 = .fail (.vfs 36) from hag)
      rw [dirCall, getEntry, if_pos (show n.length > maxFilename from hl)]
      rfl
    · rw [if_neg hl] at hag
      cases hag
  | list => cases hag
  | empty => cases hag
  | flush => cases hag
  | rebuild => cases hag
  | reopen => cases hag

/-- Looking for a name, whether or not it fails. -/
theorem findNode_dir {C : BCfg} (hC : CmpOk C.cmp) (name : Bytes) {s : BSt} {l : List DirEntry} (hd : Dir C s l) :
    ∃ r s1, Securefs.findNode C name s = .ok (r, s1) ∧ Dir C s1 l := by
  obtain ⟨hasc, hok, np, F, hcase⟩ := hd
  rcases hcase with ⟨hr, rfl, hcore⟩ | ⟨t, h, hr, rfl, hs, hcore⟩
  · exact ⟨none, s, by rw [Securefs.findNode, bind_run (noroot_run hr)]; rfl, hasc, hok, np, F, Or.inl ⟨hr, rfl, hcore⟩⟩
  · obtain ⟨s1, K, h', p, es, cs, i, found, w1, w2, w3, _⟩ := findNode_run hC name hr hs hasc hcore
    exact ⟨_, s1, w1, hasc, hok, np, F, Or.inr ⟨t, h, by rw [w3.1, hr], rfl, hs, w2⟩⟩

theorem findNode_fails {C : BCfg} (hC : CmpOk C.cmp) {name : Bytes} {D D' : FDir} {l : List DirEntry} {e : Err} (hd : Dir C D.st l)
    (h : findNode C name D = (.error e, D')) : Dir C D'.st l := by
  obtain ⟨r, s1, w1, w2⟩ := findNode_dir hC name hd
  exact reads_fails (findNode_reads C name) w1 w2 h

/-- What fails after the name has been found is not a call on the stream. -/
theorem getEntry_fails {C : BCfg} (hC : CmpOk C.cmp) {name : Bytes} (hn : ¬ name.length > maxFilename) {D D' : FDir} {l : List DirEntry} {e : Err}
    (hd : Dir C D.st l) (h : getEntry C name D = (.error e, D')) : findNode C name D = (.error e, D') := by
  cases hf : findNode C name D with
  | mk r D1 =>
    cases r with
    | error x =>
      rw [getEntry, if_neg hn, fbind_err hf] at h
      cases h
      rfl
    | ok r =>
      exfalso
      obtain ⟨w, _⟩ := (findNode_reads C name).sound D r D1 hf
      obtain ⟨s', g, _⟩ := getEntry_run hC name (by omega) hd
      rw [Securefs.getEntry, if_neg hn, bind_run w] at g
      rw [getEntry, if_neg hn, fbind_run hf] at h
      rcases r with _ | ⟨p, i, _ | _⟩
      · cases h
      · cases h
      · dsimp only at g h
        rw [up, g] at h
        cases h

/-- A tree with few entries is one node. -/
theorem small_leaf {h : Nat} {t : BT} (hs : BT.Shape (rootLo h) h t) (hl : (BT.flat t).length ≤ 12) : h = 0 := by
  obtain ⟨p, es, cs⟩ := t
  cases h with
  | zero => rfl
  | succ h =>
    exfalso
    obtain ⟨h1, h2, _, h6⟩ := hs
    simp only [rootLo] at h2
    rw [BT.flat_node] at hl
    have h7 := weave_length es (BT.flats cs) (Or.inr (by simpa using h1))
    rw [h7] at hl
    have hge : ∀ c ∈ cs, 6 ≤ (BT.flat c).length := by
      intro c hc
      have h8 := h6 c hc
      obtain ⟨q, ds, ks⟩ := c
      rw [BT.flat_node]
      cases h with
      | zero =>
        obtain ⟨rfl, g, _⟩ := h8
        simpa [weave] using g
      | succ k =>
        obtain ⟨g1, g2, _⟩ := h8
        have := weave_length ds (BT.flats ks) (Or.inr (by simpa using g1))
        omega
    match cs, h1, hge with
    | [], h1, _ => simp at h1
    | [c], h1, _ =>
      simp only [List.length_cons, List.length_nil] at h1
      omega
    | c :: c' :: cs, h1, hge =>
      have a1 := hge c (by simp)
      have a2 := hge c' (by simp)
      simp only [BT.flats, List.map_cons, List.sum_cons] at hl
      omega

/-- Adding to a leaf with room needs no call on the stream. -/
theorem insertBalance_room {C : BCfg} {fuel p : Nat} {e : DirEntry} {D : FDir} {n : BNode} (hn : cacheFind D.st p = some n)
    (hr : n.entries.length < btMaxEntries) : ∃ D', insertBalance C (fuel + 1) p e invalidPage D = (.ok (), D') := by
  generalize hE : n.entries.take (lowerBound (C.before e.name) n.entries) ++ e :: n.entries.drop (lowerBound (C.before e.name) n.entries) = E
  have hEl : E.length = n.entries.length + 1 := by
    rw [← hE, List.length_append, List.length_cons, List.length_take, List.length_drop]
    omega
  have t1 : up (deref p) D = (.ok n, D) := by rw [up, deref_run hn]
  have t2 : up (insertHere p (lowerBound (C.before e.name) n.entries) e invalidPage) D =
      (.ok (), ⟨putNode D.st p { n with entries := E, dirty := true }, D.plan⟩) := by
    rw [up, insertHere, bind_run (deref_run hn), if_pos rfl, setEntries_run hn, hE]
  have t3 : up (deref p) ⟨putNode D.st p { n with entries := E, dirty := true }, D.plan⟩ =
      (.ok { n with entries := E, dirty := true }, ⟨putNode D.st p { n with entries := E, dirty := true }, D.plan⟩) := by
    rw [up, deref_run (n := { n with entries := E, dirty := true }) (by rw [cacheFind_put, if_pos rfl])]
  refine ⟨⟨putNode D.st p { n with entries := E, dirty := true }, D.plan⟩, ?_⟩
  rw [insertBalance, fbind_run t1, fbind_run t2, fbind_run t3, if_neg (by dsimp only; omega)]
  rfl

/-- Removing from a root without children needs no call on the stream. -/
theorem removeAt_leaf {C : BCfg} {p i : Nat} {D : FDir} {n : BNode} (hn : cacheFind D.st p = some n) (hc : n.children = [])
    (hp : n.parent = invalidPage) (hi : i < n.entries.length) : ∃ r D', removeAt C p i D = (.ok r, D') := by
  have t1 : up (deref p) D = (.ok n, D) := by rw [up, deref_run hn]
  have t2 : up (isLeaf n) D = (.ok true, D) := by rw [up, isLeaf_true hc]
  have t3 : up (dirCheck (decide (i < n.entries.length))) D = (.ok (), D) := by rw [decide_eq_true hi]; rfl
  have t4 : up (setEntries p (n.entries.eraseIdx i)) D =
      (.ok (), ⟨putNode D.st p { n with entries := n.entries.eraseIdx i, dirty := true }, D.plan⟩) := by
    rw [up, setEntries_run hn]
  have t5 : replaceWithSub p i D = (.ok p, ⟨putNode D.st p { n with entries := n.entries.eraseIdx i, dirty := true }, D.plan⟩) := by
    rw [replaceWithSub, fbind_run t1, fbind_run t2, if_pos rfl, fbind_run t3, fbind_run t4]
    rfl
  have t6 : ∀ D1 : FDir, D1.st = putNode D.st p { n with entries := n.entries.eraseIdx i, dirty := true } →
      balanceUp C btMaxDepth p D1 = (.ok (), D1) := by
    intro D1 h1
    have t7 : up (deref p) D1 = (.ok { n with entries := n.entries.eraseIdx i, dirty := true }, D1) := by
      rw [up, deref_run (n := { n with entries := n.entries.eraseIdx i, dirty := true }) (by rw [h1, cacheFind_put, if_pos rfl])]
    rw [show btMaxDepth = (btMaxDepth - 1) + 1 from rfl, balanceUp, fbind_run t7, if_neg (by simp [hc]), if_pos (Or.inl hp)]
    rfl
  refine ⟨some n.entries[i], ⟨putNode D.st p { n with entries := n.entries.eraseIdx i, dirty := true }, D.plan⟩, ?_⟩
  rw [removeAt, fbind_run t1, List.getElem?_eq_getElem hi]
  dsimp only
  rw [fbind_run t5, fbind_run (t6 _ rfl)]
  rfl

/-- In a directory of few entries, the node found is a root without children. -/
theorem findNode_small {C : BCfg} (hC : CmpOk C.cmp) {name : Bytes} {s s1 : BSt} {l : List DirEntry} {r : Option (Nat × Nat × Bool)} (hd : Dir C s l)
    (hl : l.length ≤ 12) (hf : Securefs.findNode C name s = .ok (r, s1)) :
    (r = none ∧ l = []) ∨ ∃ p i found n, r = some (p, i, found) ∧ cacheFind s1 p = some n ∧ n.children = [] ∧ n.parent = invalidPage ∧
      n.entries.length ≤ 12 ∧ (found = true → i < n.entries.length) := by
  obtain ⟨hasc, hok, np, F, hcase⟩ := hd
  rcases hcase with ⟨hr, rfl, hcore⟩ | ⟨t, h, hr, rfl, hs, hcore⟩
  · rw [Securefs.findNode, bind_run (noroot_run hr)] at hf
    cases hf
    exact Or.inl ⟨rfl, rfl⟩
  · right
    obtain rfl := small_leaf hs hl
    obtain ⟨s2, K, h', p, es, cs, i, found, w1, w2, w3, w4, w5, w6, w7, w8, w9, w10, w11⟩ := findNode_run hC name hr hs hasc hcore
    rw [hf] at w1
    cases w1
    have hK : K = [] := by
      cases K with
      | nil => rfl
      | cons a K => simp at w9
    subst hK
    have h0 : h' = 0 := by simpa using w9
    subst h0
    obtain ⟨rfl, _⟩ := w6.1 rfl
    simp only [plug] at w4
    subst w4
    obtain ⟨d, hcf, _⟩ := w2.deref (r := ⟨invalidPage, p, [], es⟩) (by rw [BT.nodes_node]; simp) w7
    refine ⟨p, i, found, _, rfl, hcf, rfl, rfl, ?_, ?_⟩
    · rw [BT.flat_node] at hl
      simpa [weave] using hl
    · intro hf'
      obtain ⟨e1, x, e2, he, hi, _⟩ := w10 hf'
      dsimp only
      rw [he, hi]
      simp

/-- A failure while a name is looked for ends the call. -/
theorem target_search {C : BCfg} {op : DirOp} {n : Bytes} (ht : op.target = some n) (hn : ¬ n.length > maxFilename) {D D' : FDir} {e : Err}
    (h : findNode C n D = (.error e, D')) : dirCall C op D = (.error e, D') := by
  cases op with
  | add x =>
    obtain rfl : x.name = n := Option.some.inj ht
    rw [dirCall]
    refine fbind_err ?_
    rw [addEntry, if_neg hn]
    exact fbind_err h
  | remove m =>
    obtain rfl : m = n := Option.some.inj ht
    rw [dirCall]
    refine fbind_err ?_
    rw [removeEntry, if_neg hn]
    exact fbind_err h
  | get _ => cases ht
  | list => cases ht
  | empty => cases ht
  | flush => cases ht
  | rebuild => cases ht
  | reopen => cases ht

/-- In a directory of few entries only looking for the name can fail. -/
theorem small_search {C : BCfg} (hC : CmpOk C.cmp) {op : DirOp} {D D' : FDir} {l : List DirEntry} {e : Err} (hd : Dir C D.st l) (hs : op.small l)
    (h : dirCall C op D = (.error e, D')) (hok : ∃ r, Securefs.dirCall C op D.st = .ok r) :
    ∃ n, op.target = some n ∧ findNode C n D = (.error e, D') := by
  cases op with
  | add x =>
    refine ⟨x.name, rfl, ?_⟩
    have h' := fbind_pure_err h
    have hlong : ¬ x.name.length > maxFilename := by
      intro hl
      obtain ⟨r, hr⟩ := hok
      obtain ⟨b, w, _⟩ := bind_pure_ok (show (Securefs.addEntry C x >>= fun b => pure (DirOut.flag b)) D.st = .ok (r.1, r.2) from hr)
      rw [Securefs.addEntry, if_pos hl] at w
      cases w
    rw [addEntry, if_neg hlong] at h'
    cases hf : findNode C x.name D with
    | mk r D1 =>
      cases r with
      | error y => rw [fbind_err hf] at h'; cases h'; rfl
      | ok r =>
        exfalso
        rw [fbind_run hf] at h'
        obtain ⟨w, _⟩ := (findNode_reads C x.name).sound D r D1 hf
        rcases findNode_small hC hd hs.2 w with ⟨rfl, rfl⟩ | ⟨p, i, found, n, rfl, hcf, _, _, hle, _⟩
        · have := hs.1; simp at this
        · cases found with
          | true => cases h'
          | false =>
            dsimp only at h'
            rw [if_neg (by simp)] at h'
            obtain ⟨D2, hD2⟩ := insertBalance_room (C := C) (fuel := btMaxDepth - 1) (e := x) hcf (by simp only [btMaxEntries]; omega)
            rw [show btMaxDepth = (btMaxDepth - 1) + 1 from rfl, fbind_run hD2] at h'
            cases h'
  | remove m =>
    refine ⟨m, rfl, ?_⟩
    have h' := fbind_pure_err h
    have hlong : ¬ m.length > maxFilename := by
      intro hl
      obtain ⟨r, hr⟩ := hok
      obtain ⟨b, w, _⟩ := bind_pure_ok (show (Securefs.removeEntry C m >>= fun b => pure (DirOut.entry b)) D.st = .ok (r.1, r.2) from hr)
      rw [Securefs.removeEntry, if_pos hl] at w
      cases w
    rw [removeEntry, if_neg hlong] at h'
    cases hf : findNode C m D with
    | mk r D1 =>
      cases r with
      | error y => rw [fbind_err hf] at h'; cases h'; rfl
      | ok r =>
        exfalso
        rw [fbind_run hf] at h'
        obtain ⟨w, _⟩ := (findNode_reads C m).sound D r D1 hf
        rcases findNode_small hC hd hs w with ⟨rfl, rfl⟩ | ⟨p, i, found, n, rfl, hcf, hch, hpar, _, hi⟩
        · cases h'
        · cases found with
          | false => cases h'
          | true =>
            obtain ⟨r, D2, hD2⟩ := removeAt_leaf (C := C) hcf hch hpar (hi rfl)
            dsimp only at h'
            rw [hD2] at h'
            cases h'
  | get _ => cases hs
  | list => cases hs
  | empty => cases hs
  | flush => cases hs
  | rebuild => cases hs
  | reopen => cases hs

/-- A leaf with enough entries is balanced. -/
theorem balanceUp_room {C : BCfg} {p : Nat} {D : FDir} {n : BNode} (hn : cacheFind D.st p = some n) (hr : 6 ≤ n.entries.length) :
    balanceUp C btMaxDepth p D = (.ok (), D) := by
  have t7 : up (deref p) D = (.ok n, D) := by rw [up, deref_run hn]
  rw [show btMaxDepth = (btMaxDepth - 1) + 1 from rfl, balanceUp, fbind_run t7, if_neg, if_pos (Or.inr (by simp only [btMaxEntries]; omega))]
  · rfl
  · rintro ⟨_, h, _⟩
    rw [h] at hr
    simp at hr

theorem fbind_up_err {α β : Type} {m : BM α} {f : α → FM β} {D D' : FDir} {e : Err} {a : α} {s : BSt} (hok : m D.st = .ok (a, s))
    (h : (up m >>= f) D = (.error e, D')) : f a ⟨s, D.plan⟩ = (.error e, D') := by
  have t : up m D = (.ok a, ⟨s, D.plan⟩) := by rw [up, hok]
  rw [fbind_run t] at h
  exact h

/-- `mF` makes no calls on the stream. -/
def Ups {α : Type} (mF : FM α) (m : BM α) : Prop := ∀ D a s, m D.st = .ok (a, s) → mF D = (.ok a, ⟨s, D.plan⟩)

theorem Ups.up {α : Type} (m : BM α) : Ups (up m) m := fun D a s h => by rw [Securefs.up, h]

theorem Ups.pure {α : Type} (a : α) : Ups (pure a : FM α) (pure a : BM α) := fun D b s h => by cases h; rfl

theorem Ups.bind {α β : Type} {mF : FM α} {m : BM α} {fF : α → FM β} {f : α → BM β} (h : Ups mF m) (h' : ∀ a, Ups (fF a) (f a)) :
    Ups (mF >>= fF) (m >>= f) := by
  intro D b s hb
  cases hm : m D.st with
  | error e => rw [bind_err hm] at hb; cases hb
  | ok r =>
    obtain ⟨a, s1⟩ := r
    rw [bind_run hm] at hb
    rw [fbind_run (h D a s1 hm)]
    exact h' a ⟨s1, D.plan⟩ b s hb

theorem Ups.ne {α : Type} {mF : FM α} {m : BM α} (h : Ups mF m) {D D' : FDir} {e : Err} {r : α × BSt} (hok : m D.st = .ok r)
    (hf : mF D = (.error e, D')) : False := by
  rw [h D r.1 r.2 hok] at hf
  cases hf

open BT in
/-- While an entry is replaced by one of a leaf, only reading can fail. -/
theorem replaceWithSub_fails {h p : Nat} {K : List Frame} {F : List Nat} {np : Nat} {e1 e2 : List DirEntry} {x : DirEntry} {cs : List BT} {D D' : FDir}
    {e : Err} {r : Nat × BSt} (hs : TopShape K h (.node p (e1 ++ x :: e2) cs))
    (hcore : Core D.st np (nodes invalidPage (plug K (.node p (e1 ++ x :: e2) cs))) F) (hp : InC D.st p) (hnp : h < np)
    (hok : Securefs.replaceWithSub p e1.length D.st = .ok r) (hf : replaceWithSub p e1.length D = (.error e, D')) :
    ∃ s', Core s' np (nodes invalidPage (plug K (.node p (e1 ++ x :: e2) cs))) F ∧ Keep D.st s' ∧ Grows D'.st s' := by
  obtain ⟨lo, hlo⟩ := hs.weak
  obtain ⟨hkid, _, _⟩ := hlo.kids
  obtain ⟨d, hcf, hde⟩ := hcore.deref (r := ⟨parOf K, p, cs.map page, e1 ++ x :: e2⟩)
    (mem_plug (by rw [nodes_node]; exact Multiset.mem_cons_self _ _)) hp
  rw [replaceWithSub] at hf
  rw [Securefs.replaceWithSub, bind_run hde] at hok
  have hf := fbind_up_err hde hf
  have hD : (⟨D.st, D.plan⟩ : FDir) = D := rfl
  rw [hD] at hf
  rcases hkid with ⟨rfl, rfl⟩ | ⟨h', rfl, hl, hsh⟩
  · exfalso
    rw [bind_run (isLeaf_true rfl D.st), if_pos rfl] at hok
    have hf := fbind_up_err (isLeaf_true rfl D.st) hf
    rw [if_pos rfl] at hf
    exact Ups.ne (Ups.bind (Ups.up _) fun _ => Ups.bind (Ups.up _) fun _ => Ups.pure _) hok hf
  · obtain ⟨cL, c, cR, rfl, hcL⟩ : ∃ cL c cR, cs = cL ++ c :: cR ∧ cL.length = e1.length := by
      have hlen : (e1 ++ x :: e2).length = e1.length + e2.length + 1 := by simp; omega
      refine ⟨cs.take e1.length, cs[e1.length]'(by omega), cs.drop (e1.length + 1), ?_, by simp; omega⟩
      rw [List.getElem_cons_drop, List.take_append_drop]
    have hget : ((cL ++ c :: cR).map page)[e1.length]? = some c.page := by
      rw [List.map_append, List.getElem?_append_right (by simp; omega)]; simp [hcL]
    rw [bind_run (isLeaf_false (by simpa using hl) D.st), if_neg (by simp), Securefs.replaceInner, bind_run hde] at hok
    have hf := fbind_up_err (isLeaf_false (by simpa using hl) D.st) hf
    rw [if_neg (by simp), replaceInner] at hf
    have hf := fbind_up_err hde hf
    dsimp only at hok hf
    rw [hget] at hok hf
    dsimp only at hok hf
    let f : Frame := ⟨p, e1, x :: e2, cL, cR⟩
    obtain ⟨r', hr, hr1, hr2⟩ := nodes_mem_top p c
    obtain ⟨s1, x1, g1, k1, i1, _⟩ := hcore.retrieve (mem_plug (K := f :: K) (t := c) hr)
    rw [hr1] at i1
    rw [hr1, hr2] at x1
    have hfuel : h' < s1.data.length / pageSize + 1 := by
      rw [g1.len, show pageSize = 4096 from rfl, Nat.mul_div_cancel _ (by norm_num)]; omega
    obtain ⟨s2, K1, l, es, x2, g2, k2, _⟩ := lastLeaf_run h' c (f :: K) _ s1 np F hfuel (hsh c (by simp)) g1 i1
    rw [bind_run x1, bind_run (getSt_run s1), bind_run x2] at hok
    refine ⟨s2, g2, k1.trans k2, ?_⟩
    cases hq : retrieveNode p c.page D with
    | mk r1 D1 =>
      cases r1 with
      | error y =>
        rw [fbind_err hq] at hf
        cases hf
        exact ((retrieveNode_reads _ _).keeps _ _ _ hq _ _ x1).trans ((lastLeaf_reads _ _).grows _ _ _ x2)
      | ok q =>
        rw [fbind_run hq] at hf
        obtain ⟨v, _⟩ := (retrieveNode_reads p c.page).sound D q D1 hq
        rw [x1] at v
        obtain ⟨rfl, hst⟩ := Prod.mk.inj (Except.ok.inj v)
        have hf := fbind_up_err (getSt_run D1.st) hf
        rw [hst] at x2
        cases hq2 : lastLeaf (D1.st.data.length / pageSize + 1) c.page D1 with
        | mk r2 D2 =>
          cases r2 with
          | error y =>
            have hf := (fbind_err hq2).symm.trans hf
            cases hf
            exact (lastLeaf_reads _ _).keeps _ _ _ hq2 _ _ x2
          | ok l' =>
            exfalso
            have hf := (fbind_run hq2).symm.trans hf
            obtain ⟨v, _⟩ := (lastLeaf_reads _ _).sound D1 l' D2 hq2
            rw [x2] at v
            obtain ⟨rfl, hst⟩ := Prod.mk.inj (Except.ok.inj v)
            rw [hst] at hok
            refine Ups.ne (Ups.bind (Ups.up _) fun ln => ?_) hok hf
            cases ln.entries.getLast? with
            | none => exact Ups.up _
            | some e =>
              exact Ups.bind (Ups.up _) fun n => Ups.bind (Ups.up _) fun _ => Ups.bind (Ups.up _) fun _ => Ups.bind (Ups.up _) fun _ =>
                Ups.bind (Ups.up _) fun _ => Ups.pure _

open BT in
/-- If there is room, only reading can fail. -/
theorem roomy_keeps {C : BCfg} (hC : CmpOk C.cmp) {op : DirOp} {D D' : FDir} {l : List DirEntry} {e : Err} (hd : Dir C D.st l) (hs : Roomy C D.st op)
    (h : dirCall C op D = (.error e, D')) (hok : ∃ r, Securefs.dirCall C op D.st = .ok r) : Dir C D'.st l := by
  cases op with
  | add x =>
    have h' := fbind_pure_err h
    have hlong : ¬ x.name.length > maxFilename := by
      intro hl
      obtain ⟨r, hr⟩ := hok
      obtain ⟨b, w, _⟩ := bind_pure_ok (show (Securefs.addEntry C x >>= fun b => pure (DirOut.flag b)) D.st = .ok (r.1, r.2) from hr)
      rw [Securefs.addEntry, if_pos hl] at w
      cases w
    rw [addEntry, if_neg hlong] at h'
    cases hf : findNode C x.name D with
    | mk r D1 =>
      cases r with
      | error y => rw [fbind_err hf] at h'; cases h'; exact findNode_fails hC hd hf
      | ok r =>
        exfalso
        rw [fbind_run hf] at h'
        obtain ⟨w, _⟩ := (findNode_reads C x.name).sound D r D1 hf
        simp only [Roomy, w] at hs
        rcases r with _ | ⟨p, i, found⟩
        · exact hs
        · dsimp only at hs
          cases hcf : cacheFind D1.st p with
          | none => rw [hcf] at hs; exact hs
          | some n =>
            rw [hcf] at hs
            dsimp only at hs
            cases found with
            | true => cases h'
            | false =>
              dsimp only at h'
              rw [if_neg (by simp)] at h'
              obtain ⟨D2, hD2⟩ := insertBalance_room (C := C) (fuel := btMaxDepth - 1) (e := x) hcf (by simp only [btMaxEntries]; omega)
              rw [show btMaxDepth = (btMaxDepth - 1) + 1 from rfl, fbind_run hD2] at h'
              cases h'
  | remove m =>
    have h' := fbind_pure_err h
    have hlong : ¬ m.length > maxFilename := by
      intro hl
      obtain ⟨r, hr⟩ := hok
      obtain ⟨b, w, _⟩ := bind_pure_ok (show (Securefs.removeEntry C m >>= fun b => pure (DirOut.entry b)) D.st = .ok (r.1, r.2) from hr)
      rw [Securefs.removeEntry, if_pos hl] at w
      cases w
    rw [removeEntry, if_neg hlong] at h'
    cases hf : findNode C m D with
    | mk r D1 =>
      cases r with
      | error y => rw [fbind_err hf] at h'; cases h'; exact findNode_fails hC hd hf
      | ok r =>
        rw [fbind_run hf] at h'
        obtain ⟨w, _⟩ := (findNode_reads C m).sound D r D1 hf
        simp only [Roomy, w] at hs
        rcases r with _ | ⟨p, i, _ | _⟩
        · exact hs.elim
        · exact hs.elim
        · dsimp only at hs h'
          obtain ⟨hasc, hok', np, F, hcase⟩ := hd
          rcases hcase with ⟨hr, rfl, hcore⟩ | ⟨t, ht, hr, rfl, hsh, hcore⟩
          · rw [Securefs.findNode, bind_run (noroot_run hr)] at w
            cases w
          · obtain ⟨s2, K, hh, p', es, cs, i', found, w1, w2, w3, w4, w5, w6, w7, w8, w9, w10, w11⟩ := findNode_run hC m hr hsh hasc hcore
            rw [w] at w1
            cases w1
            obtain ⟨e1, x, e2, rfl, rfl, _⟩ := w10 rfl
            obtain ⟨d, hcf, hde⟩ := w2.deref (r := ⟨parOf K, p, cs.map page, e1 ++ x :: e2⟩)
              (by rw [w4]; exact mem_plug (by rw [nodes_node]; exact Multiset.mem_cons_self _ _)) w7
            rw [removeAt] at h'
            have h' := fbind_up_err hde h'
            dsimp only at h'
            rw [get_mid] at h'
            dsimp only at h'
            cases hrep : replaceWithSub p e1.length D1 with
            | mk r D2 =>
              cases r with
              | error y =>
                rw [fbind_err hrep] at h'
                cases h'
                have hnp : hh < np := by
                  have h1 := Shape.card ht _ t hsh (by cases ht with | zero => left; rfl | succ n => right; simp [rootLo]) invalidPage
                  have h2 : Multiset.card (nodes invalidPage t) ≤ np := by
                    have := congrArg Multiset.card hcore.part
                    simp only [Multiset.card_add, Multiset.card_map, Multiset.card_range, Multiset.coe_card] at this
                    omega
                  have := Nat.lt_two_pow_self (n := ht)
                  omega
                obtain ⟨rs, hrs⟩ : ∃ r, Securefs.replaceWithSub p e1.length D1.st = .ok r := by
                  cases hr0 : Securefs.replaceWithSub p e1.length D1.st with
                  | error z => rw [hr0] at hs; exact hs.elim
                  | ok r => exact ⟨r, rfl⟩
                obtain ⟨s3, g1, g2, g3⟩ := replaceWithSub_fails w6 (by rw [← w4]; exact w2) w7 hnp hrs hrep
                rw [← w4] at g1
                refine dir_between ⟨hasc, hok', np, F, Or.inr ⟨t, ht, ?_, rfl, hsh, g1⟩⟩ g3
                rw [g2.1, w3.1, hr]
              | ok l =>
                exfalso
                rw [fbind_run hrep] at h'
                obtain ⟨v, _⟩ := (replaceWithSub_impl p e1.length).sound D1 l D2 hrep
                rw [v] at hs
                dsimp only at hs
                cases hcl : cacheFind D2.st l with
                | none => rw [hcl] at hs; exact hs
                | some n =>
                  rw [hcl] at hs
                  dsimp only at hs
                  rw [fbind_run (balanceUp_room hcl hs)] at h'
                  cases h'
  | get _ => cases hs
  | list => cases hs
  | empty => cases hs
  | flush => cases hs
  | rebuild => cases hs
  | reopen => cases hs

/-- Calls that report an error are to change nothing. -/
theorem dirStep_fail {same : Bytes → Bytes → Bool} {m : List DirEntry} {op : DirOp} {e : Err} (h : DirOut.Agrees (.fail e) (dirStep same m op).1) :
    (dirStep same m op).2 = m := by
  have h : DirOut.fail e = (dirStep same m op).1 := h
  cases op with
  | add x =>
    rw [dirStep] at h ⊢
    by_cases hl : x.name.length > 255
    · rw [if_pos hl]
    · rw [if_neg hl] at h
      split at h <;> cases h
  | remove n =>
    rw [dirStep] at h ⊢
    by_cases hl : n.length > 255
    · rw [if_pos hl]
    · rw [if_neg hl] at h
      cases h
  | get n =>
    rw [dirStep]
    split <;> rfl
  | list => rfl
  | empty => rfl
  | flush => rfl
  | rebuild => rfl
  | reopen => rfl

theorem dirAfter_agrees {same : Bytes → Bytes → Bool} {m : List DirEntry} {op : DirOp} {o : DirOut} (h : DirOut.Agrees o (dirStep same m op).1) :
    dirAfter same m op o = (dirStep same m op).2 := by
  cases o with
  | fail e => exact (dirStep_fail h).symm
  | flag _ => rfl
  | entry _ => rfl
  | entries _ => rfl
  | done => rfl

theorem small_perm {l m : List DirEntry} (hp : l.Perm m) {op : DirOp} (h : op.small m) : op.small l := by
  cases op <;> simp only [DirOp.small, hp.length_eq] at h ⊢ <;> exact h

/-- What is not to change is not changed. -/
theorem quiet_same {same : Bytes → Bytes → Bool} {m : List DirEntry} {op : DirOp} (h : op.quiet same m) : (dirStep same m op).2 = m := by
  cases op with
  | add x =>
    rw [dirStep]
    split
    · rfl
    · next hl => rw [if_pos (h.resolve_left hl)]
  | remove n =>
    rw [dirStep]
    split
    · rfl
    · next hl =>
      have := h.resolve_left hl
      refine List.filter_eq_self.2 fun x hx => ?_
      cases hs : same n x.name with
      | false => rfl
      | true => rw [List.any_eq_true.2 ⟨x, hx, hs⟩] at this; cases this
  | get n =>
    rw [dirStep]
    split <;> rfl
  | list => rfl
  | empty => rfl
  | flush => rfl
  | rebuild => rfl
  | reopen => rfl

/-- One call whose failures leave what was there. -/
theorem dirStep_calm {C : BCfg} (hC : CmpOk C.cmp) (hO : OrderOk C) {s : BSt} {l m : List DirEntry} (hd : Dir C s l) (hp : l.Perm m) (op : DirOp)
    (plan : List (Option PageFault)) (hv : op.Valid) (hm : m.length ≤ dirCapacity) (hfit : (dirStep (sameName C.cmp) m op).2.length ≤ dirCapacity)
    (hcalm : op.quiet (sameName C.cmp) m ∨ (∀ x ∈ plan, x = none) ∨ (isFlush op = true ∧ ¬ dueRebuild s) ∨ op.small m ∨ SearchFails C s op plan ∨ Roomy C s op) :
    ∃ l', Dir C (dirStepModel C s op plan).2 l' ∧ l'.Perm (dirAfter (sameName C.cmp) m op (dirStepModel C s op plan).1) ∧
      (DirOut.Agrees (dirStepModel C s op plan).1 (dirStep (sameName C.cmp) m op).1 ∨
        ∃ x, some x ∈ plan ∧ (dirStepModel C s op plan).1 = .fail (.vfs x.errno)) := by
  obtain ⟨l', h1, h2, h3⟩ := dirStep_run hC hO hd hp op hv hm hfit
  unfold SearchFails at hcalm
  unfold dirStepModel at hcalm ⊢
  cases hF : dirCall C op ⟨s, plan⟩ with
  | mk r D =>
    cases r with
    | ok o =>
      obtain ⟨w, _⟩ := (dirCall_impl C op).sound _ _ _ hF
      have w' : Securefs.dirStepModel C s op = (o, D.st) := by rw [Securefs.dirStepModel]; dsimp only at w; rw [w]
      rw [w'] at h1 h3
      exact ⟨l', h1, by rw [dirAfter_agrees h3]; exact h2, Or.inl h3⟩
    | error e =>
      dsimp only
      cases hcl : Securefs.dirCall C op s with
      | error e0 =>
        have w' : Securefs.dirStepModel C s op = (.fail e0, s) := by rw [Securefs.dirStepModel, hcl]
        rw [w'] at h1 h3
        rw [dirCall_long h3] at hF
        cases hF
        exact ⟨l', h1, by rw [dirAfter_agrees h3]; exact h2, Or.inl h3⟩
      | ok r =>
        obtain ⟨o, s'⟩ := r
        have w' : Securefs.dirStepModel C s op = (o, s') := by rw [Securefs.dirStepModel, hcl]
        rw [w'] at h1 h3
        have key : ∀ n, op.target = some n → findNode C n ⟨s, plan⟩ = (.error e, D) → Dir C D.st l :=
          fun n _ hf => findNode_fails (D := ⟨s, plan⟩) hC hd hf
        rcases (dirCall_impl C op).tells _ _ _ hF with h4 | ⟨x, hx, rfl⟩
        · dsimp only at h4; rw [hcl] at h4; cases h4
        · rcases hcalm with hq | hq | ⟨hq, hb⟩ | hq | hq | hq
          · exact ⟨l', dirCall_quiet hcl h1 h3 hq hF, by rw [quiet_same hq] at h2; exact h2, Or.inr ⟨x, hx, rfl⟩⟩
          · exact absurd (hq _ hx) (by simp)
          · have hsub : subflush C ⟨s, plan⟩ = (.error (.vfs x.errno), D) := by
              rcases (show op = .flush ∨ op = .reopen by cases op <;> simp [isFlush] at hq ⊢) with rfl | rfl
              · exact fbind_pure_err hF
              · exact reopenDir_fails (fbind_pure_err hF)
            exact ⟨l, subflush_keeps (D := ⟨s, plan⟩) hO hd hb hsub, hp, Or.inr ⟨x, hx, rfl⟩⟩
          · obtain ⟨n, hn1, hn2⟩ := small_search (D := ⟨s, plan⟩) hC hd (small_perm hp hq) hF ⟨_, hcl⟩
            exact ⟨l, key n hn1 hn2, hp, Or.inr ⟨x, hx, rfl⟩⟩
          · cases ht : op.target with
            | none => rw [ht] at hq; exact hq.elim
            | some n =>
              rw [ht] at hq
              dsimp only at hq
              have hlong : ¬ n.length > maxFilename := by
                intro hl
                cases op with
                | add y =>
                  obtain rfl : y.name = n := Option.some.inj ht
                  obtain ⟨b, w, _⟩ := bind_pure_ok hcl
                  rw [Securefs.addEntry, if_pos hl] at w
                  cases w
                | remove y =>
                  obtain rfl : y = n := Option.some.inj ht
                  obtain ⟨b, w, _⟩ := bind_pure_ok hcl
                  rw [Securefs.removeEntry, if_pos hl] at w
                  cases w
                | get _ => cases ht
                | list => cases ht
                | empty => cases ht
                | flush => cases ht
                | rebuild => cases ht
                | reopen => cases ht
              cases hg : dirCall C (.get n) ⟨s, plan⟩ with
              | mk r D2 =>
                rw [hg] at hq
                cases r with
                | ok o2 =>
                  exfalso
                  rw [dirCall] at hg
                  cases hge : getEntry C n ⟨s, plan⟩ with
                  | mk r3 D3 =>
                    cases r3 with
                    | error y => rw [fbind_err hge] at hg; cases hg
                    | ok y =>
                      rw [fbind_run hge] at hg
                      cases hg
                      exact hq
                | error y =>
                  have hf := getEntry_fails (D := ⟨s, plan⟩) hC hlong hd (fbind_pure_err hg)
                  rw [target_search ht hlong hf] at hF
                  cases hF
                  exact ⟨l, key n ht hf, hp, Or.inr ⟨x, hx, rfl⟩⟩
          · exact ⟨l, roomy_keeps (D := ⟨s, plan⟩) hC hd hq hF ⟨_, hcl⟩, hp, Or.inr ⟨x, hx, rfl⟩⟩

/-- Histories of such calls. -/
theorem dirRun_calm {C : BCfg} (hC : CmpOk C.cmp) (hO : OrderOk C) : ∀ (ops : List (DirOp × List (Option PageFault))) (s : BSt) (l m : List DirEntry),
    Dir C s l → l.Perm m → (∀ op ∈ ops, op.1.Valid) → m.length ≤ dirCapacity → Calm C s m ops →
    ∃ l', Dir C (dirRunModel C s ops).2 l' ∧ l'.Perm (dirLeft (sameName C.cmp) m (ops.zip (dirRunModel C s ops).1)) ∧
      DirFollows (sameName C.cmp) m (ops.zip (dirRunModel C s ops).1)
  | [], s, l, m, hd, hp, _, _, _ => ⟨l, hd, hp, trivial⟩
  | (op, plan) :: ops, s, l, m, hd, hp, hv, hm, hcalm => by
    obtain ⟨l1, hd1, hp1, ha1⟩ := dirStep_calm hC hO hd hp op plan (hv (op, plan) (by simp)) hm hcalm.2.1 hcalm.1
    have hm1 : (dirAfter (sameName C.cmp) m op (dirStepModel C s op plan).1).length ≤ dirCapacity := by
      cases (dirStepModel C s op plan).1 with
      | fail e => exact hm
      | flag _ => exact hcalm.2.1
      | entry _ => exact hcalm.2.1
      | entries _ => exact hcalm.2.1
      | done => exact hcalm.2.1
    obtain ⟨l2, hd2, hp2, ha2⟩ := dirRun_calm hC hO ops _ l1 _ hd1 hp1 (fun o ho => hv o (by simp [ho])) hm1 hcalm.2.2
    exact ⟨l2, hd2, hp2, ha1, ha2⟩

/-! ## Rebuilding -/

theorem getRootNode_some {C : BCfg} {s : BSt} {l : List DirEntry} (hd : Dir C s l) (hne : l ≠ []) :
    ∃ p s' es s'', Securefs.getRootNode s = .ok (some p, s') ∧ Securefs.iterNode btMaxDepth p s' = .ok (es, s'') ∧ es ≠ [] ∧ es.Perm l := by
  obtain ⟨s'', L, e1, q1, _⟩ := iterate_run hd
  rw [Securefs.iterateEntries] at e1
  cases hr : Securefs.getRootNode s with
  | error x => rw [bind_err hr] at e1; cases e1
  | ok r =>
    obtain ⟨r, s'⟩ := r
    rw [bind_run hr] at e1
    cases r with
    | none =>
      cases e1
      exact absurd (List.nil_perm.1 q1) hne
    | some p =>
      refine ⟨p, s', L, s'', rfl, e1, ?_, q1⟩
      rintro rfl
      exact hne (List.nil_perm.1 q1)

/-- The entry that is to come into the directory first finds no page. -/
theorem addAll_first {C : BCfg} {e : DirEntry} {es : List DirEntry} (hn : ¬ e.name.length > maxFilename) (x : PageFault) (hx : x.done = false)
    (p : List (Option PageFault)) : addAll C (e :: es) ⟨emptyDir, some x :: p⟩ = (.error (.vfs x.errno), ⟨emptyDir, p⟩) := by
  have hf : findNode C e.name ⟨emptyDir, some x :: p⟩ = (.ok none, ⟨emptyDir, some x :: p⟩) := rfl
  have ha : addFirst e ⟨emptyDir, some x :: p⟩ = (.error (.vfs x.errno), ⟨emptyDir, p⟩) := by
    have : allocatePage ⟨emptyDir, some x :: p⟩ = (.error (.vfs x.errno), ⟨emptyDir, p⟩) := by
      obtain ⟨n, d⟩ := x
      subst hx
      rfl
    exact fbind_err this
  have : addEntry C e ⟨emptyDir, some x :: p⟩ = (.error (.vfs x.errno), ⟨emptyDir, p⟩) := by
    rw [addEntry, if_neg hn, fbind_run hf]
    exact fbind_err ha
  rw [addAll]
  exact fbind_err this

theorem fine_rep (a b : Nat) (t : List (Option PageFault)) : Fine a (List.replicate (a + b) none ++ t) := by
  intro x hx
  rw [List.take_append_of_le_length (by simp)] at hx
  exact List.eq_of_mem_replicate (List.mem_of_mem_take hx)

theorem drop_rep (a b : Nat) (t : List (Option PageFault)) : (List.replicate (a + b) none ++ t).drop a = List.replicate b none ++ t := by
  rw [List.drop_append_of_le_length (by simp), List.drop_replicate, Nat.add_sub_cancel_left]

theorem rebuild_loses {C : BCfg} {s : BSt} {l : List DirEntry} (hd : Dir C s l) (hne : l ≠ []) (hdue : dueRebuild s) :
    ∃ k, dirStepModel C s .flush (List.replicate k none ++ [some ⟨28, false⟩]) = (.fail (.vfs 28), emptyDir) := by
  obtain ⟨p, s', es, s'', e1, e2, e3, e4⟩ := getRootNode_some hd hne
  obtain ⟨k1, h1⟩ := getRootNode_reads.does s _ s' e1
  obtain ⟨k2, h2⟩ := (moveNode_impl btMaxDepth p).does s' _ s'' e2
  cases es with
  | nil => exact absurd rfl e3
  | cons e es =>
    have hok : ¬ e.name.length > maxFilename := by
      have := (hd.2.1 e (e4.subset (by simp))).1
      omega
    refine ⟨k1 + (k2 + 1), ?_⟩
    have g1 := h1 _ (fine_rep k1 (k2 + 1) [some ⟨28, false⟩])
    rw [drop_rep] at g1
    have g2 := h2 _ (fine_rep k2 1 [some ⟨28, false⟩])
    rw [drop_rep] at g2
    have hreb : rebuild C ⟨s, List.replicate (k1 + (k2 + 1)) none ++ [some ⟨28, false⟩]⟩ = (.error (.vfs 28), ⟨emptyDir, []⟩) := by
      rw [rebuild, fbind_run g1]
      dsimp only
      rw [fbind_run g2]
      have hz : Spec.resize s''.data 0 = [] := by simp [Spec.resize, zeros]
      have t1 : up getSt ⟨s'', [none, some ⟨28, false⟩]⟩ = (.ok s'', ⟨s'', [none, some ⟨28, false⟩]⟩) := rfl
      have t2 : up (setSt { s'' with cache := [] }) ⟨s'', [none, some ⟨28, false⟩]⟩ =
          (.ok (), ⟨{ s'' with cache := [] }, [none, some ⟨28, false⟩]⟩) := rfl
      have t3 : call (fun s => ((), { s with data := Spec.resize s.data 0 })) ⟨{ s'' with cache := [] }, [none, some ⟨28, false⟩]⟩ =
          (.ok (), ⟨{ s'' with cache := [], data := [] }, [some ⟨28, false⟩]⟩) := by
        show (Except.ok (), FDir.mk { s'' with cache := [], data := Spec.resize s''.data 0 } [some ⟨28, false⟩]) = _
        rw [hz]
      show (up getSt >>= _) ⟨s'', [none, some ⟨28, false⟩]⟩ = _
      rw [fbind_run t1, fbind_run t2, fbind_run t3]
      exact addAll_first (C := C) (e := e) (es := es) hok ⟨28, false⟩ rfl []
    have hup : ∀ D : FDir, up getSt D = (.ok D.st, D) := fun _ => rfl
    have hsub : subflush C ⟨s, List.replicate (k1 + (k2 + 1)) none ++ [some ⟨28, false⟩]⟩ = (.error (.vfs 28), ⟨emptyDir, []⟩) := by
      have hdue' : s.nfree > 5 ∧ s.nfree > s.data.length / (pageSize * 3 / 2) := hdue
      rw [subflush, fbind_run (hup _)]
      dsimp only
      rw [if_pos hdue']
      exact fbind_err hreb
    have : dirCall C .flush ⟨s, List.replicate (k1 + (k2 + 1)) none ++ [some ⟨28, false⟩]⟩ = (.error (.vfs 28), ⟨emptyDir, []⟩) := fbind_err hsub
    rw [dirStepModel, this]

/-- Removing entries gives no page back to the file system. -/
theorem removes_len {C : BCfg} (hC : CmpOk C.cmp) (hr0 : ∀ a, C.cmp a a = 0) : ∀ (es rest l : List DirEntry) (s : BSt), Dir C s l →
    l.Perm (es ++ rest) → (∀ e ∈ es, EntryOk e) →
    ∃ l', Dir C (Securefs.dirRunModel C s (es.map fun e => .remove e.name)).2 l' ∧ l'.Perm rest ∧
      (Securefs.dirRunModel C s (es.map fun e => .remove e.name)).2.data.length = s.data.length
  | [], rest, l, s, hd, hp, _ => ⟨l, hd, hp, rfl⟩
  | e :: es, rest, l, s, hd, hp, hok => by
    obtain ⟨s1, P, Q, rfl, e1, hlen, hd1⟩ := (removeEntry_len hC e.name (hok e (by simp)).1 hd).2 e (hp.symm.subset (by simp)) (hr0 _)
    have hp1 : (P ++ Q).Perm (es ++ rest) := List.Perm.cons_inv (List.perm_middle.symm.trans hp)
    obtain ⟨l', h1, h2, h3⟩ := removes_len hC hr0 es rest (P ++ Q) s1 hd1 hp1 (fun x hx => hok x (by simp [hx]))
    have hc : Securefs.dirStepModel C s (.remove e.name) = (.entry (some e), s1) := by
      rw [Securefs.dirStepModel, Securefs.dirCall, bind_run e1]; rfl
    rw [List.map_cons, Securefs.dirRunModel, hc]
    exact ⟨l', h1, h2, h3.trans hlen⟩

theorem dirRunModel_append (C : BCfg) (ops ops' : List DirOp) : ∀ s,
    (Securefs.dirRunModel C s (ops ++ ops')).2 = (Securefs.dirRunModel C (Securefs.dirRunModel C s ops).2 ops').2 := by
  induction ops with
  | nil => intro s; rfl
  | cons op ops ih => intro s; exact ih _

end BF
end Securefs
