import Verif.Proofs.BtreePage
import Mathlib.Data.Multiset.Basic
import Mathlib.Data.Multiset.Range
import Mathlib.Data.Multiset.Dedup
/-!
Helper lemmas: the pages of a B-tree directory as a heap of records.

`Core s np R F` says that the state `s` with `np` pages holds exactly the node records `R`, and that the pages
`F` form the free list.  Each step of the code gets a rule in terms of `Core`.
-/

namespace Securefs

/-- A node as the rest of the proof sees it: its parent page, its page, its children's pages and its entries. -/
structure Rec where
  par : Nat
  page : Nat
  chs : List Nat
  es : List DirEntry

/-- What the directory takes the node in page `p` to be. -/
def view (s : BSt) (p : Nat) : Option (List Nat × List DirEntry) :=
  match cacheFind s p with
  | some n => some (n.children, n.entries)
  | none => nodeOf (pageOf s.data p)

/-- The free list on disk: doubly linked from `start`, `prev` being the page before it. -/
def FL (data : Bytes) : (prev start : Nat) → List Nat → Prop
  | _, start, [] => start = invalidPage
  | prev, start, a :: rest => start = a ∧ ∃ next, pageOf data a = freeBytes next prev ∧ next < 2 ^ 32 ∧ FL data a next rest

structure Core (s : BSt) (np : Nat) (R : Multiset Rec) (F : List Nat) : Prop where
  len : s.data.length = np * 4096
  npLe : np ≤ 2 ^ 20
  part : R.map Rec.page + (F : Multiset Nat) = Multiset.range np
  rep : ∀ r ∈ R, view s r.page = some (r.chs, r.es)
  par : ∀ r ∈ R, ∀ n, cacheFind s r.page = some n → n.parent = r.par
  keys : ∀ p n, cacheFind s p = some n → n.num = p ∧ p ∈ R.map Rec.page
  clean : ∀ p n, cacheFind s p = some n → n.dirty = false → nodeOf (pageOf s.data p) = some (n.children, n.entries)
  free : FL s.data invalidPage s.start F
  nfree : s.nfree = F.length

/-- Page `p` is cached. -/
def InC (s : BSt) (p : Nat) : Prop := ∃ n, cacheFind s p = some n

/-- The root page is the same and no page has left the cache. -/
def Keep (s s' : BSt) : Prop := s'.root = s.root ∧ ∀ x, InC s x → InC s' x

theorem Keep.refl (s : BSt) : Keep s s := ⟨rfl, fun _ h => h⟩

theorem Keep.trans {a b c : BSt} (h : Keep a b) (h' : Keep b c) : Keep a c :=
  ⟨h'.1.trans h.1, fun x hx => h'.2 x (h.2 x hx)⟩

/-! ## Running computations -/

theorem bind_run {α β : Type} {m : BM α} {f : α → BM β} {s s' : BSt} {a : α} (h : m s = .ok (a, s')) :
    (m >>= f) s = f a s' := by
  show StateT.bind m f s = _
  simp only [StateT.bind, h]
  rfl

theorem bind_err {α β : Type} {m : BM α} {f : α → BM β} {s : BSt} {e : Err} (h : m s = .error e) :
    (m >>= f) s = .error e := by
  show StateT.bind m f s = _
  simp only [StateT.bind, h]
  rfl

theorem pure_run {α : Type} (a : α) (s : BSt) : (pure a : BM α) s = .ok (a, s) := rfl

theorem getSt_run (s : BSt) : getSt s = .ok (s, s) := rfl

theorem dirCheck_run (s : BSt) : dirCheck true s = .ok ((), s) := rfl

theorem lift_run {α : Type} (r : Res α) (a : α) (h : r = .ok a) (s : BSt) : lift r s = .ok (a, s) := by
  subst h; rfl

theorem deref_run {s : BSt} {p : Nat} {n : BNode} (h : cacheFind s p = some n) : deref p s = .ok (n, s) := by
  simp only [deref, h]

/-! ## The cache -/

theorem lookup_filter_ne (l : List (Nat × BNode)) (p x : Nat) :
    (l.filter (·.1 != p)).lookup x = if x = p then none else l.lookup x := by
  induction l with
  | nil => simp
  | cons a l ih =>
    obtain ⟨k, n⟩ := a
    by_cases hk : k = p
    · subst hk
      rw [List.filter_cons_of_neg (by simp), ih]
      by_cases hx : x = k
      · simp [hx]
      · rw [if_neg hx, if_neg hx, List.lookup_cons]
        have : (x == k) = false := by simpa using hx
        rw [this]
    · rw [List.filter_cons_of_pos (by simpa using hk), List.lookup_cons, ih, List.lookup_cons]
      by_cases hxk : x = k
      · subst hxk; simp [hk]
      · have : (x == k) = false := by simpa using hxk
        rw [this]

/-- The state with node `n` in the cache for page `p`. -/
def putNode (s : BSt) (p : Nat) (n : BNode) : BSt := { s with cache := (p, n) :: s.cache.filter (·.1 != p) }

theorem cacheFind_put (s : BSt) (p : Nat) (n : BNode) (x : Nat) :
    cacheFind (putNode s p n) x = if x = p then some n else cacheFind s x := by
  simp only [cacheFind, putNode, List.lookup_cons]
  by_cases h : x = p
  · simp [h]
  · have : (x == p) = false := by simpa using h
    rw [this, if_neg h]
    have := lookup_filter_ne s.cache p x
    rw [if_neg h] at this
    exact this

theorem cachePut_run (s : BSt) (p : Nat) (n : BNode) : cachePut p n s = .ok ((), putNode s p n) := rfl

theorem setEntries_run {s : BSt} {p : Nat} {n : BNode} (h : cacheFind s p = some n) (es : List DirEntry) :
    setEntries p es s = .ok ((), putNode s p { n with entries := es, dirty := true }) := by
  rw [setEntries, bind_run (deref_run h)]; rfl

theorem setChildren_run {s : BSt} {p : Nat} {n : BNode} (h : cacheFind s p = some n) (cs : List Nat) :
    setChildren p cs s = .ok ((), putNode s p { n with children := cs, dirty := true }) := by
  rw [setChildren, bind_run (deref_run h)]; rfl

theorem setParent_run {s : BSt} {p : Nat} {n : BNode} (h : cacheFind s p = some n) (q : Nat) :
    setParent p q s = .ok ((), putNode s p { n with parent := q, dirty := true }) := by
  rw [setParent, bind_run (deref_run h)]; rfl

theorem keep_put (s : BSt) (p : Nat) (n : BNode) : Keep s (putNode s p n) := by
  refine ⟨rfl, fun x ⟨m, hm⟩ => ?_⟩
  by_cases h : x = p
  · exact ⟨n, by rw [cacheFind_put, if_pos h]⟩
  · exact ⟨m, by rw [cacheFind_put, if_neg h, hm]⟩

/-! ## Consequences of `Core` -/

theorem Core.nodup {s : BSt} {np : Nat} {R : Multiset Rec} {F : List Nat} (h : Core s np R F) :
    (R.map Rec.page + (F : Multiset Nat)).Nodup := by rw [h.part]; exact Multiset.nodup_range np

theorem Core.lt {s : BSt} {np : Nat} {R : Multiset Rec} {F : List Nat} (h : Core s np R F) {r : Rec} (hr : r ∈ R) :
    r.page < np := by
  rw [← Multiset.mem_range, ← h.part]
  exact Multiset.mem_add.2 (Or.inl (Multiset.mem_map_of_mem _ hr))

theorem Core.ltF {s : BSt} {np : Nat} {R : Multiset Rec} {F : List Nat} (h : Core s np R F) {p : Nat} (hp : p ∈ F) :
    p < np := by
  rw [← Multiset.mem_range, ← h.part]
  exact Multiset.mem_add.2 (Or.inr hp)

theorem Core.ne {s : BSt} {np : Nat} {r : Rec} {R : Multiset Rec} {F : List Nat} (h : Core s np (r ::ₘ R) F) :
    (∀ r' ∈ R, r'.page ≠ r.page) ∧ r.page ∉ F := by
  have hn := h.nodup
  rw [Multiset.map_cons, Multiset.cons_add, Multiset.nodup_cons] at hn
  refine ⟨fun r' hr' he => hn.1 ?_, fun hF => hn.1 (Multiset.mem_add.2 (Or.inr hF))⟩
  rw [← he]; exact Multiset.mem_add.2 (Or.inl (Multiset.mem_map_of_mem _ hr'))

theorem Core.nodupF {s : BSt} {np : Nat} {R : Multiset Rec} {F : List Nat} (h : Core s np R F) : F.Nodup := by
  have := h.nodup
  rw [Multiset.nodup_add] at this
  exact Multiset.coe_nodup.1 this.2.1

theorem Core.notF {s : BSt} {np : Nat} {R : Multiset Rec} {F : List Nat} (h : Core s np R F) {p : Nat}
    (hp : p ∈ F) : p ∉ R.map Rec.page := by
  have := h.nodup
  rw [Multiset.nodup_add] at this
  intro h1
  exact (Multiset.disjoint_left.1 this.2.2) h1 hp

/-- The cached node of a record. -/
theorem Core.node {s : BSt} {np : Nat} {R : Multiset Rec} {F : List Nat} (h : Core s np R F) {r : Rec} (hr : r ∈ R)
    {n : BNode} (hn : cacheFind s r.page = some n) : n.children = r.chs ∧ n.entries = r.es ∧ n.parent = r.par ∧ n.num = r.page := by
  have h1 := h.rep r hr
  simp only [view, hn, Option.some.injEq, Prod.mk.injEq] at h1
  exact ⟨h1.1, h1.2, h.par r hr n hn, (h.keys _ _ hn).1⟩

/-- Dereferencing a cached record. -/
theorem Core.deref {s : BSt} {np : Nat} {R : Multiset Rec} {F : List Nat} (h : Core s np R F) {r : Rec} (hr : r ∈ R)
    (hc : InC s r.page) : ∃ d, cacheFind s r.page = some ⟨r.par, r.page, r.chs, r.es, d⟩ ∧
      deref r.page s = .ok (⟨r.par, r.page, r.chs, r.es, d⟩, s) := by
  obtain ⟨n, hn⟩ := hc
  obtain ⟨h1, h2, h3, h4⟩ := h.node hr hn
  refine ⟨n.dirty, ?_, ?_⟩
  · rw [hn, ← h1, ← h2, ← h3, ← h4]
  · rw [deref_run hn, ← h1, ← h2, ← h3, ← h4]

/-! ## Rules -/

/-- A cached node is overwritten. -/
theorem Core.put {s : BSt} {np : Nat} {r : Rec} {R : Multiset Rec} {F : List Nat} (h : Core s np (r ::ₘ R) F)
    (hc : InC s r.page) (n : BNode) (hn : n.num = r.page) (hd : n.dirty = true) :
    Core (putNode s r.page n) np (⟨n.parent, r.page, n.children, n.entries⟩ ::ₘ R) F where
  len := h.len
  npLe := h.npLe
  part := by rw [← h.part]; simp
  rep := by
    intro r' hr'
    rw [Multiset.mem_cons] at hr'
    rcases hr' with rfl | hr'
    · simp [view, cacheFind_put]
    · have h1 := h.ne.1 r' hr'
      have h2 := h.rep r' (Multiset.mem_cons_of_mem hr')
      simp only [view, cacheFind_put, if_neg h1] at h2 ⊢
      exact h2
  par := by
    intro r' hr' m hm
    rw [Multiset.mem_cons] at hr'
    rcases hr' with rfl | hr'
    · rw [cacheFind_put, if_pos rfl] at hm
      cases hm; rfl
    · rw [cacheFind_put, if_neg (h.ne.1 r' hr')] at hm
      exact h.par r' (Multiset.mem_cons_of_mem hr') m hm
  keys := by
    intro p m hm
    rw [cacheFind_put] at hm
    by_cases hp : p = r.page
    · rw [if_pos hp] at hm; cases hm
      exact ⟨by rw [hn, hp], by rw [hp]; simp⟩
    · rw [if_neg hp] at hm
      have := h.keys p m hm
      rw [Multiset.map_cons] at this ⊢
      exact this
  clean := by
    intro p m hm hdm
    rw [cacheFind_put] at hm
    by_cases hp : p = r.page
    · rw [if_pos hp] at hm; cases hm; rw [hd] at hdm; cases hdm
    · rw [if_neg hp] at hm; exact h.clean p m hm hdm
  free := h.free
  nfree := h.nfree

theorem Core.setEntries {s : BSt} {np : Nat} {a p : Nat} {cs : List Nat} {es : List DirEntry} {R : Multiset Rec} {F : List Nat}
    (h : Core s np (⟨a, p, cs, es⟩ ::ₘ R) F) (hc : InC s p) (es' : List DirEntry) :
    ∃ s', setEntries p es' s = .ok ((), s') ∧ Core s' np (⟨a, p, cs, es'⟩ ::ₘ R) F ∧ Keep s s' := by
  obtain ⟨d, h1, _⟩ := h.deref (Multiset.mem_cons_self _ _) hc
  refine ⟨_, setEntries_run h1 es', ?_, keep_put _ _ _⟩
  exact h.put hc ⟨a, p, cs, es', true⟩ rfl rfl

theorem Core.setChildren {s : BSt} {np : Nat} {a p : Nat} {cs : List Nat} {es : List DirEntry} {R : Multiset Rec} {F : List Nat}
    (h : Core s np (⟨a, p, cs, es⟩ ::ₘ R) F) (hc : InC s p) (cs' : List Nat) :
    ∃ s', setChildren p cs' s = .ok ((), s') ∧ Core s' np (⟨a, p, cs', es⟩ ::ₘ R) F ∧ Keep s s' := by
  obtain ⟨d, h1, _⟩ := h.deref (Multiset.mem_cons_self _ _) hc
  refine ⟨_, setChildren_run h1 cs', ?_, keep_put _ _ _⟩
  exact h.put hc ⟨a, p, cs', es, true⟩ rfl rfl

theorem Core.setParent {s : BSt} {np : Nat} {a p : Nat} {cs : List Nat} {es : List DirEntry} {R : Multiset Rec} {F : List Nat}
    (h : Core s np (⟨a, p, cs, es⟩ ::ₘ R) F) (hc : InC s p) (b : Nat) :
    ∃ s', setParent p b s = .ok ((), s') ∧ Core s' np (⟨b, p, cs, es⟩ ::ₘ R) F ∧ Keep s s' := by
  obtain ⟨d, h1, _⟩ := h.deref (Multiset.mem_cons_self _ _) hc
  refine ⟨_, setParent_run h1 b, ?_, keep_put _ _ _⟩
  exact h.put hc ⟨b, p, cs, es, true⟩ rfl rfl

/-- The parent of a node that is not cached is recorded nowhere. -/
theorem Core.repar {s : BSt} {np : Nat} {a p : Nat} {cs : List Nat} {es : List DirEntry} {R : Multiset Rec} {F : List Nat}
    (h : Core s np (⟨a, p, cs, es⟩ ::ₘ R) F) (hc : ¬ InC s p) (b : Nat) : Core s np (⟨b, p, cs, es⟩ ::ₘ R) F where
  len := h.len
  npLe := h.npLe
  part := by rw [← h.part]; simp
  rep := by
    intro r hr
    rw [Multiset.mem_cons] at hr
    rcases hr with rfl | hr
    · exact h.rep ⟨a, p, cs, es⟩ (Multiset.mem_cons_self _ _)
    · exact h.rep _ (Multiset.mem_cons_of_mem hr)
  par := by
    intro r hr n hn
    rw [Multiset.mem_cons] at hr
    rcases hr with rfl | hr
    · exact absurd ⟨n, hn⟩ hc
    · exact h.par _ (Multiset.mem_cons_of_mem hr) n hn
  keys := by
    intro p' n hn
    have := h.keys p' n hn
    rw [Multiset.map_cons] at this ⊢
    exact this
  clean := h.clean
  free := h.free
  nfree := h.nfree

theorem setRoot_run {v : Nat} (hv : v < 2 ^ 32) (s : BSt) : Securefs.setRoot v s = .ok ((), { s with root := v }) := by
  rw [Securefs.setRoot, Nat.mod_eq_of_lt hv]

theorem setStart_run {v : Nat} (hv : v < 2 ^ 32) (s : BSt) : setStart v s = .ok ((), { s with start := v }) := by
  rw [setStart, Nat.mod_eq_of_lt hv]

theorem Core.setRoot {s : BSt} {np : Nat} {R : Multiset Rec} {F : List Nat} (h : Core s np R F) (v : Nat) :
    Core { s with root := v } np R F :=
  { len := h.len, npLe := h.npLe, part := h.part, rep := h.rep, par := h.par, keys := h.keys, clean := h.clean,
    free := h.free, nfree := h.nfree }

/-- A node that is not dirty enters the cache. -/
theorem Core.putClean {s : BSt} {np : Nat} {R : Multiset Rec} {F : List Nat} (h : Core s np R F) {r : Rec} (hr : r ∈ R)
    (hc : cacheFind s r.page = none) : Core (putNode s r.page ⟨r.par, r.page, r.chs, r.es, false⟩) np R F := by
  have hv : nodeOf (pageOf s.data r.page) = some (r.chs, r.es) := by
    have := h.rep r hr
    simpa only [view, hc] using this
  have huniq : ∀ r' ∈ R, r'.page = r.page → r' = r := by
    intro r' hr' he
    obtain ⟨R', rfl⟩ := Multiset.exists_cons_of_mem hr
    rw [Multiset.mem_cons] at hr'
    rcases hr' with rfl | hr'
    · rfl
    · exact absurd he (h.ne.1 r' hr')
  exact
  { len := h.len
    npLe := h.npLe
    part := h.part
    rep := by
      intro r' hr'
      by_cases he : r'.page = r.page
      · have := huniq r' hr' he; subst this
        simp [view, cacheFind_put]
      · have h2 := h.rep r' hr'
        simp only [view, cacheFind_put, if_neg he] at h2 ⊢
        exact h2
    par := by
      intro r' hr' n hn
      by_cases he : r'.page = r.page
      · have := huniq r' hr' he; subst this
        rw [cacheFind_put, if_pos rfl] at hn; cases hn; rfl
      · rw [cacheFind_put, if_neg he] at hn
        exact h.par r' hr' n hn
    keys := by
      intro p n hn
      rw [cacheFind_put] at hn
      by_cases hp : p = r.page
      · rw [if_pos hp] at hn; cases hn
        exact ⟨hp.symm, by rw [hp]; exact Multiset.mem_map_of_mem _ hr⟩
      · rw [if_neg hp] at hn; exact h.keys p n hn
    clean := by
      intro p n hn hd
      rw [cacheFind_put] at hn
      by_cases hp : p = r.page
      · rw [if_pos hp] at hn; cases hn
        show nodeOf (pageOf s.data p) = _
        rw [hp, hv]
      · rw [if_neg hp] at hn; exact h.clean p n hn hd
    free := h.free
    nfree := h.nfree }

/-! ## Reading and writing pages -/

theorem page_lt {np p : Nat} (hnp : np ≤ 2 ^ 20) (hp : p < np) : p < 2 ^ 20 := by omega

theorem readPage_run {s : BSt} {np p : Nat} (hl : s.data.length = np * 4096) (hnp : np ≤ 2 ^ 20) (hp : p < np) :
    readPage p s = .ok (pageOf s.data p, s) := by
  have e : Spec.read s.data (pageOff p) pageSize = pageOf s.data p := by
    rw [pageOff_eq p (page_lt hnp hp)]; rfl
  rw [readPage, bind_run (getSt_run s), e, pageOf_length s.data np p hl hp]
  rfl

theorem writePage_run {s : BSt} {np p : Nat} (hnp : np ≤ 2 ^ 20) (hp : p < np) (buf : Bytes) :
    writePage p buf s = .ok ((), { s with data := Spec.write s.data (p * 4096) buf }) := by
  rw [writePage, pageOff_eq p (page_lt hnp hp)]

theorem invalid_lt : invalidPage < 2 ^ 32 := by decide

theorem readFreePage_run {s : BSt} {np p next prev : Nat} (hl : s.data.length = np * 4096) (hnp : np ≤ 2 ^ 20) (hp : p < np)
    (hpg : pageOf s.data p = freeBytes next prev) (hn : next < 2 ^ 32) (hv : prev < 2 ^ 32) :
    readFreePage p s = .ok ((next, prev), s) := by
  have e0 : freeBytes next prev = toLE 4 0 ++ (toLE 4 next ++ (toLE 4 prev ++ zeros (pageSize - 12))) := by
    rw [freeBytes, zeros4]; simp only [List.append_assoc]
  have e4 : (freeBytes next prev).drop 4 = toLE 4 next ++ (toLE 4 prev ++ zeros (pageSize - 12)) := by
    rw [e0, List.drop_left' (toLE_length 4 0)]
  have e8 : (freeBytes next prev).drop 8 = toLE 4 prev ++ zeros (pageSize - 12) := by
    rw [show (8 : Nat) = 4 + 4 from rfl, ← List.drop_drop, e4, List.drop_left' (toLE_length 4 next)]
  rw [readFreePage, bind_run (readPage_run hl hnp hp), hpg]
  rw [bind_run (lift_run _ 0 (by rw [e0]; exact fromLE_toLE 4 0 (by norm_num) _) s)]
  rw [bind_run (show dirCheck (0 == 0) s = .ok ((), s) from rfl)]
  rw [bind_run (lift_run _ next (by rw [e4]; exact fromLE_toLE 4 next hn _) s)]
  rw [bind_run (lift_run _ prev (by rw [e8]; exact fromLE_toLE 4 prev hv _) s)]
  rfl

theorem FL.frame {data data' : Bytes} : ∀ {F : List Nat} {prev start : Nat}, (∀ p ∈ F, pageOf data' p = pageOf data p) →
    FL data prev start F → FL data' prev start F
  | [], _, _, _, h => h
  | a :: F, prev, start, hf, ⟨h1, next, h2, h3, h4⟩ =>
    ⟨h1, next, by rw [hf a (by simp), h2], h3, FL.frame (fun p hp => hf p (by simp [hp])) h4⟩

/-- Changing the back link of the first free page. -/
theorem FL.start_eq {data : Bytes} {prev start : Nat} {F : List Nat} (h : FL data prev start F) :
    start = F.head?.getD invalidPage := by
  cases F with
  | nil => simpa [FL] using h
  | cons a F => exact h.1

theorem Core.start_lt {s : BSt} {np : Nat} {R : Multiset Rec} {F : List Nat} (h : Core s np R F) :
    s.start = invalidPage ∧ F = [] ∨ ∃ rest, F = s.start :: rest ∧ s.start < np := by
  have := h.free.start_eq
  cases F with
  | nil => left; exact ⟨this, rfl⟩
  | cons a F =>
    right
    have : s.start = a := h.free.1
    subst this
    exact ⟨F, rfl, h.ltF (by simp)⟩

/-- The state after `buf` has been written to page `p`. -/
def wr (s : BSt) (p : Nat) (buf : Bytes) : BSt := { s with data := Spec.write s.data (p * 4096) buf }

theorem writeFreePage_run {s : BSt} {np p : Nat} (hnp : np ≤ 2 ^ 20) (hp : p < np) (next prev : Nat) :
    writeFreePage p next prev s = .ok ((), wr s p (freeBytes next prev)) := by
  rw [writeFreePage, writePage_run hnp hp]; rfl

theorem wr_len {s : BSt} {np p : Nat} {buf : Bytes} (hl : s.data.length = np * 4096) (hp : p < np) (hb : buf.length = 4096) :
    (wr s p buf).data.length = np * 4096 := write_page_length s.data np p buf hl hp hb

theorem wr_page {s : BSt} {np p : Nat} {buf : Bytes} (hl : s.data.length = np * 4096) (hp : p < np) (hb : buf.length = 4096)
    (q : Nat) : pageOf (wr s p buf).data q = if q = p then buf else pageOf s.data q :=
  pageOf_write s.data np p q buf hl hp hb

theorem view_frame {s s' : BSt} {p : Nat} (hc : cacheFind s' p = cacheFind s p)
    (hd : pageOf s'.data p = pageOf s.data p) : view s' p = view s p := by
  simp only [view, hc, hd]

theorem ne_invalid {np p : Nat} (hnp : np ≤ 2 ^ 20) (hp : p < np) : p ≠ invalidPage := by
  intro h; rw [h, invalidPage] at hp; omega

/-- Extending the file by a page. -/
theorem Core.extend {s : BSt} {np : Nat} {R : Multiset Rec} (h : Core s np R []) (hlt : np < 2 ^ 20) :
    ∃ s', extendFile s = .ok (np, s') ∧ (∀ a, Core s' (np + 1) (⟨a, np, [], []⟩ ::ₘ R) []) ∧ s'.cache = s.cache ∧
      s'.root = s.root := by
  have hlen := h.len
  have hres : Spec.resize s.data (s.data.length + pageSize) = Spec.resize s.data (s.data.length + 4096) := rfl
  refine ⟨{ s with data := Spec.resize s.data (s.data.length + pageSize) }, ?_, ?_, rfl, rfl⟩
  · rw [extendFile]
    have : s.data.length / pageSize % 2 ^ 32 = np := by
      rw [hlen, show pageSize = 4096 from rfl, Nat.mul_div_cancel _ (by norm_num), Nat.mod_eq_of_lt (by omega)]
    rw [this]
  · intro a
    have hpg := pageOf_extend s.data np
    have hnot : np ∉ R.map Rec.page := by
      intro hm
      have : np ∈ Multiset.range np := by rw [← h.part]; exact Multiset.mem_add.2 (Or.inl hm)
      simp at this
    have hcn : cacheFind s np = none := by
      cases hx : cacheFind s np with
      | none => rfl
      | some n => exact absurd (h.keys _ _ hx).2 hnot
    exact
    { len := by
        show (Spec.resize s.data (s.data.length + pageSize)).length = _
        rw [hres, extend_length, hlen, Nat.succ_mul]
      npLe := hlt
      part := by
        have := h.part
        rw [Multiset.range_succ, ← this]; simp
      rep := by
        intro r hr
        rw [Multiset.mem_cons] at hr
        rcases hr with rfl | hr
        · show (match cacheFind s np with | some n => _ | none => nodeOf (pageOf (Spec.resize s.data (s.data.length + pageSize)) np)) = _
          rw [hcn]
          show nodeOf (pageOf (Spec.resize s.data (s.data.length + pageSize)) np) = _
          rw [hres, (hpg np hlen).2, nodeOf_zeros]
        · rw [← h.rep r hr]
          exact view_frame rfl ((hpg r.page hlen).1 (h.lt hr))
      par := by
        intro r hr n hn
        rw [Multiset.mem_cons] at hr
        rcases hr with rfl | hr
        · have hn' : cacheFind s np = some n := hn
          rw [hcn] at hn'; cases hn'
        · exact h.par r hr n hn
      keys := by
        intro p n hn
        have := h.keys p n hn
        exact ⟨this.1, by rw [Multiset.map_cons]; exact Multiset.mem_cons_of_mem this.2⟩
      clean := by
        intro p n hn hd
        have hk := (h.keys p n hn).2
        obtain ⟨r, hr, rfl⟩ := Multiset.mem_map.1 hk
        show nodeOf (pageOf (Spec.resize s.data (s.data.length + pageSize)) r.page) = _
        rw [hres, (hpg r.page hlen).1 (h.lt hr)]
        exact h.clean _ _ hn hd
      free := h.free
      nfree := h.nfree }

/-- Taking the first page of the free list. -/
theorem Core.pop {s : BSt} {np : Nat} {R : Multiset Rec} {p : Nat} {F : List Nat} (h : Core s np R (p :: F)) :
    ∃ s', popFree p s = .ok (p, s') ∧ (∀ a, Core s' np (⟨a, p, [], []⟩ ::ₘ R) F) ∧ s'.cache = s.cache ∧ s'.root = s.root := by
  obtain ⟨hst, next, hpg, hnx, hfl⟩ := h.free
  have hlen := h.len
  have hnp := h.npLe
  have hp : p < np := h.ltF (by simp)
  have hpR : p ∉ R.map Rec.page := h.notF (by simp)
  have hcn : cacheFind s p = none := by
    cases hx : cacheFind s p with
    | none => rfl
    | some n => exact absurd (h.keys _ _ hx).2 hpR
  have hcount : (s.nfree + (2 ^ 32 - 1)) % 2 ^ 32 = F.length := by
    have hF : (p :: F).length ≤ np := by
      have h1 : (Multiset.card (R.map Rec.page + ((p :: F : List Nat) : Multiset Nat))) = np := by
        rw [h.part]; simp
      rw [Multiset.card_add] at h1
      simp only [Multiset.coe_card] at h1; omega
    have := h.nfree
    rw [List.length_cons] at this hF
    omega
  -- the state before the back link is fixed
  let s1 : BSt := { s with nfree := (s.nfree + (2 ^ 32 - 1)) % 2 ^ 32, start := next }
  have hrun0 : popFree p s = (do fixHead next; pure p : BM Nat) s1 := by
    rw [popFree, bind_run (readFreePage_run hlen hnp hp hpg hnx invalid_lt), bind_run (getSt_run s),
      bind_run (show setNfree (s.nfree + (2 ^ 32 - 1)) s = _ from rfl), bind_run (setStart_run hnx _)]
  -- what has to be shown of the final state
  have key : ∀ s2 : BSt, s2.data.length = np * 4096 → s2.cache = s.cache → s2.nfree = F.length →
      (∀ q, q ∉ F → pageOf s2.data q = pageOf s.data q) → FL s2.data invalidPage s2.start F →
      ∀ a, Core s2 np (⟨a, p, [], []⟩ ::ₘ R) F := by
    intro s2 h1 h2 h3 h4 h5 a
    have hcf : ∀ x, cacheFind s2 x = cacheFind s x := by intro x; simp only [cacheFind, h2]
    have hpF : p ∉ F := (List.nodup_cons.1 h.nodupF).1
    have hRF : ∀ x, x ∈ R.map Rec.page → x ∉ F := by
      intro x hx hF; exact h.notF (List.mem_cons_of_mem p hF) hx
    exact
    { len := h1
      npLe := hnp
      part := by
        rw [← h.part, Multiset.map_cons, Multiset.cons_add, ← Multiset.cons_coe, Multiset.add_cons]
      rep := by
        intro r hr
        rw [Multiset.mem_cons] at hr
        rcases hr with rfl | hr
        · rw [view_frame (hcf p) (h4 p hpF), view, hcn]
          show nodeOf (pageOf s.data p) = _
          rw [hpg, nodeOf_free]
        · rw [← h.rep r hr]
          exact view_frame (hcf _) (h4 _ (hRF _ (Multiset.mem_map_of_mem _ hr)))
      par := by
        intro r hr n hn
        rw [hcf] at hn
        rw [Multiset.mem_cons] at hr
        rcases hr with rfl | hr
        · rw [hcn] at hn; cases hn
        · exact h.par r hr n hn
      keys := by
        intro x n hn
        rw [hcf] at hn
        have := h.keys x n hn
        exact ⟨this.1, by rw [Multiset.map_cons]; exact Multiset.mem_cons_of_mem this.2⟩
      clean := by
        intro x n hn hd
        rw [hcf] at hn
        rw [h4 x (hRF x (h.keys x n hn).2)]
        exact h.clean x n hn hd
      free := h5
      nfree := h3 }
  cases F with
  | nil =>
    have hni : next = invalidPage := hfl
    refine ⟨s1, ?_, key s1 hlen rfl hcount (fun _ _ => rfl) hni, rfl, rfl⟩
    rw [hrun0, bind_run (show fixHead next s1 = .ok ((), s1) by rw [fixHead, if_pos hni]; rfl)]
    rfl
  | cons b F =>
    obtain ⟨hb, next2, hpg2, hnx2, hfl2⟩ := hfl
    subst hb
    have hnlt : next < np := h.ltF (by simp)
    have hne : next ≠ invalidPage := ne_invalid hnp hnlt
    have hnd := (List.nodup_cons.1 (List.nodup_cons.1 h.nodupF).2)
    have hp32 : p < 2 ^ 32 := by omega
    refine ⟨wr s1 next (freeBytes next2 invalidPage), ?_, key _ (wr_len hlen hnlt (freeBytes_length _ _)) rfl hcount ?_ ?_, rfl, rfl⟩
    · have hfix : fixHead next s1 = .ok ((), wr s1 next (freeBytes next2 invalidPage)) := by
        rw [fixHead, if_neg hne, bind_run (readFreePage_run (s := s1) hlen hnp hnlt hpg2 hnx2 hp32), bind_run (getSt_run s1)]
        exact writeFreePage_run hnp hnlt _ _
      rw [hrun0, bind_run hfix]; rfl
    · intro q hq
      rw [wr_page (s := s1) hlen hnlt (freeBytes_length _ _), if_neg (by intro he; exact hq (by simp [he]))]
    · refine ⟨rfl, next2, ?_, hnx2, ?_⟩
      · rw [wr_page (s := s1) hlen hnlt (freeBytes_length _ _), if_pos rfl]
      · refine FL.frame ?_ hfl2
        intro q hq
        rw [wr_page (s := s1) hlen hnlt (freeBytes_length _ _), if_neg (by intro he; rw [he] at hq; exact hnd.1 hq)]

theorem Core.alloc {s : BSt} {np : Nat} {R : Multiset Rec} {F : List Nat} (h : Core s np R F) (hlt : F = [] → np < 2 ^ 20) :
    ∃ a s' np' F', allocatePage s = .ok (a, s') ∧ (∀ b, Core s' np' (⟨b, a, [], []⟩ ::ₘ R) F') ∧ s'.cache = s.cache ∧
      s'.root = s.root := by
  rcases h.start_lt with ⟨h1, rfl⟩ | ⟨rest, rfl, h2⟩
  · obtain ⟨s', e1, e2, e3, e4⟩ := h.extend (hlt rfl)
    refine ⟨np, s', np + 1, [], ?_, e2, e3, e4⟩
    rw [allocatePage, bind_run (getSt_run s), if_pos h1, e1]
  · obtain ⟨s', e1, e2, e3, e4⟩ := h.pop
    refine ⟨s.start, s', np, rest, ?_, e2, e3, e4⟩
    rw [allocatePage, bind_run (getSt_run s), if_neg (ne_invalid h.npLe h2), e1]

theorem cacheFind_cache {s s' : BSt} (h : s'.cache = s.cache) (x : Nat) : cacheFind s' x = cacheFind s x := by
  simp only [cacheFind, h]

/-- Getting the node of a record into the cache. -/
theorem Core.retrieve {s : BSt} {np : Nat} {R : Multiset Rec} {F : List Nat} (h : Core s np R F) {r : Rec} (hr : r ∈ R) :
    ∃ s', retrieveNode r.par r.page s = .ok (r.page, s') ∧ Core s' np R F ∧ Keep s s' ∧ InC s' r.page ∧
      (∀ x, x ≠ r.page → cacheFind s' x = cacheFind s x) ∧ s'.data = s.data ∧ s'.nfree = s.nfree ∧ s'.start = s.start := by
  cases hx : cacheFind s r.page with
  | some n =>
    refine ⟨s, ?_, h, Keep.refl s, ⟨n, hx⟩, fun _ _ => rfl, rfl, rfl, rfl⟩
    rw [retrieveNode, bind_run (getSt_run s), hx]
    dsimp only
    rw [bind_run (show dirCheck (r.par == invalidPage || r.par == n.parent) s = .ok ((), s) by
      rw [h.par r hr n hx]; simp [dirCheck_run])]
    rfl
  | none =>
    have hnode : nodeOf (pageOf s.data r.page) = some (r.chs, r.es) := by
      have := h.rep r hr
      simpa only [view, hx] using this
    have hp := h.lt hr
    refine ⟨putNode s r.page ⟨r.par, r.page, r.chs, r.es, false⟩, ?_, h.putClean hr hx, keep_put _ _ _,
      ⟨_, by rw [cacheFind_put, if_pos rfl]⟩, fun x hxp => by rw [cacheFind_put, if_neg hxp], rfl, rfl, rfl⟩
    rw [retrieveNode, bind_run (getSt_run s), hx]
    dsimp only
    have hread : readNode r.page s = .ok ((r.chs, r.es), s) := by
      rw [readNode, if_neg (ne_invalid h.npLe hp), bind_run (readPage_run h.len h.npLe hp)]
      unfold nodeOf at hnode
      cases hfb : fromBuffer (pageOf s.data r.page) with
      | error e => rw [hfb] at hnode; cases hnode
      | ok o =>
        rw [hfb] at hnode
        simp only [Option.some.injEq] at hnode
        rw [bind_run (lift_run _ o rfl s)]
        rw [hnode]; rfl
    rw [loadNode, bind_run hread]
    rfl

/-- Giving a node back. -/
theorem Core.del {s : BSt} {np : Nat} {r : Rec} {R : Multiset Rec} {F : List Nat} (h : Core s np (r ::ₘ R) F)
    (hc : InC s r.page) : ∃ s', delNode r.page s = .ok ((), s') ∧ Core s' np R (r.page :: F) ∧ s'.root = s.root ∧
      ∀ x, x ≠ r.page → cacheFind s' x = cacheFind s x := by
  obtain ⟨d, hcf, hde⟩ := h.deref (Multiset.mem_cons_self _ _) hc
  have hlen := h.len
  have hnp := h.npLe
  have hp : r.page < np := h.lt (Multiset.mem_cons_self _ _)
  have hpF := h.ne.2
  have hoff : ¬ pageOff r.page = s.data.length := by
    rw [pageOff_eq _ (page_lt hnp hp), hlen]; omega
  have hFl : F.length + 1 ≤ np := by
    have h1 : (Multiset.card ((r ::ₘ R).map Rec.page + ((F : List Nat) : Multiset Nat))) = np := by
      rw [h.part]; simp
    simp only [Multiset.card_add, Multiset.map_cons, Multiset.card_cons, Multiset.coe_card] at h1
    omega
  -- the state after the link from the page to the old list
  let s1 := wr s r.page (freeBytes s.start invalidPage)
  have hl1 : s1.data.length = np * 4096 := wr_len hlen hp (freeBytes_length _ _)
  have hpg1 : ∀ q, pageOf s1.data q = if q = r.page then freeBytes s.start invalidPage else pageOf s.data q :=
    wr_page hlen hp (freeBytes_length _ _)
  have hst32 : s.start < 2 ^ 32 := by
    rcases h.start_lt with ⟨h1, _⟩ | ⟨_, _, h2⟩
    · rw [h1]; exact invalid_lt
    · omega
  -- linking back
  have hlink : ∃ s2, linkBack s.start r.page s1 = .ok ((), s2) ∧ s2.data.length = np * 4096 ∧ s2.cache = s.cache ∧
      s2.root = s.root ∧ s2.nfree = s.nfree ∧
      (∀ q, q ∉ F → pageOf s2.data q = pageOf s1.data q) ∧ FL s2.data r.page s.start F := by
    rcases h.start_lt with ⟨h1, rfl⟩ | ⟨rest, hF, h2⟩
    · refine ⟨s1, ?_, hl1, rfl, rfl, rfl, fun _ _ => rfl, h1⟩
      rw [linkBack, if_pos h1]; rfl
    · subst hF
      obtain ⟨_, next, hpg, hnx, hfl⟩ := h.free
      have hne : s.start ≠ r.page := by intro he; exact hpF (by simp [he])
      have hpgs : pageOf s1.data s.start = freeBytes next invalidPage := by rw [hpg1, if_neg hne, hpg]
      have hnd := List.nodup_cons.1 h.nodupF
      refine ⟨wr s1 s.start (freeBytes next r.page), ?_, wr_len hl1 h2 (freeBytes_length _ _), rfl, rfl, rfl, ?_, ?_⟩
      · rw [linkBack, if_neg (ne_invalid hnp h2), bind_run (readFreePage_run hl1 hnp h2 hpgs hnx invalid_lt)]
        exact writeFreePage_run hnp h2 _ _
      · intro q hq
        rw [wr_page hl1 h2 (freeBytes_length _ _), if_neg (by intro he; exact hq (by simp [he]))]
      · refine ⟨rfl, next, ?_, hnx, ?_⟩
        · rw [wr_page hl1 h2 (freeBytes_length _ _), if_pos rfl]
        · refine FL.frame ?_ hfl
          intro q hq
          rw [wr_page hl1 h2 (freeBytes_length _ _), if_neg (by intro he; rw [he] at hq; exact hnd.1 hq), hpg1,
            if_neg (by intro he; exact hpF (by rw [← he]; simp [hq]))]
  obtain ⟨s2, hrun2, hl2, hca2, hro2, hnf2, hpg2, hfl2⟩ := hlink
  let s3 : BSt := { s2 with start := r.page, nfree := (s.nfree + 1) % 2 ^ 32 }
  have hdea : deallocatePage r.page s = .ok ((), s3) := by
    rw [deallocatePage, bind_run (getSt_run s), if_neg hoff, bind_run (writeFreePage_run hnp hp _ _), bind_run hrun2,
      bind_run (setStart_run (show r.page < 2 ^ 32 by omega) _)]
    rfl
  let s4 : BSt := { s3 with cache := s3.cache.filter (·.1 != r.page) }
  have hcf4 : ∀ x, cacheFind s4 x = if x = r.page then none else cacheFind s x := by
    intro x
    have := lookup_filter_ne s3.cache r.page x
    simp only [cacheFind] at this ⊢
    rw [this]
    show (if x = r.page then none else s2.cache.lookup x) = _
    rw [hca2]
  refine ⟨s4, ?_, ?_, hro2, fun x hx => by rw [hcf4, if_neg hx]⟩
  · rw [delNode, bind_run hde, bind_run hdea]; rfl
  · have hRne := h.ne.1
    have hRF : ∀ x, x ∈ R.map Rec.page → x ∉ F := by
      intro x hx hF; exact h.notF hF (by rw [Multiset.map_cons]; exact Multiset.mem_cons_of_mem hx)
    have hpgR : ∀ r' ∈ R, pageOf s4.data r'.page = pageOf s.data r'.page := by
      intro r' hr'
      show pageOf s2.data r'.page = _
      rw [hpg2 _ (hRF _ (Multiset.mem_map_of_mem _ hr')), hpg1, if_neg (hRne r' hr')]
    exact
    { len := hl2
      npLe := hnp
      part := by
        rw [← h.part, Multiset.map_cons, Multiset.cons_add, ← Multiset.cons_coe, Multiset.add_cons]
      rep := by
        intro r' hr'
        rw [← h.rep r' (Multiset.mem_cons_of_mem hr')]
        exact view_frame (by rw [hcf4, if_neg (hRne r' hr')]) (hpgR r' hr')
      par := by
        intro r' hr' n hn
        rw [hcf4, if_neg (hRne r' hr')] at hn
        exact h.par r' (Multiset.mem_cons_of_mem hr') n hn
      keys := by
        intro x n hn
        rw [hcf4] at hn
        by_cases hx : x = r.page
        · rw [if_pos hx] at hn; cases hn
        · rw [if_neg hx] at hn
          have := h.keys x n hn
          rw [Multiset.map_cons, Multiset.mem_cons] at this
          exact ⟨this.1, this.2.resolve_left hx⟩
      clean := by
        intro x n hn hd
        rw [hcf4] at hn
        by_cases hx : x = r.page
        · rw [if_pos hx] at hn; cases hn
        · rw [if_neg hx] at hn
          have hk := (h.keys x n hn).2
          rw [Multiset.map_cons, Multiset.mem_cons] at hk
          obtain ⟨r', hr', rfl⟩ := Multiset.mem_map.1 (hk.resolve_left hx)
          rw [hpgR r' hr']
          exact h.clean _ n hn hd
      free := by
        refine ⟨rfl, s.start, ?_, hst32, hfl2⟩
        show pageOf s2.data r.page = _
        rw [hpg2 _ hpF, hpg1, if_pos rfl]
      nfree := by
        show (s.nfree + 1) % 2 ^ 32 = _
        rw [h.nfree, List.length_cons, Nat.mod_eq_of_lt (by omega)] }

end Securefs
