import Verif.Proofs.FullFsConc
/-!
# Path resolution
-/

namespace Securefs

open Spec

/-! ## Sequential execution -/

theorem run_bind {α β : Type} (g : α → Prog β) : ∀ (p : Prog α) (fs : FullFs),
    (p.bind g).run fs = match p.run fs with
      | (.error e, fs') => (.error e, fs')
      | (.ok a, fs') => (g a).run fs'
  | .ret _, _ => rfl
  | .throw _, _ => rfl
  | .sec f k, fs => by
    simp only [Prog.bind, Prog.run]
    generalize f fs = r
    obtain ⟨r1, fs'⟩ := r
    cases r1 with
    | error e => rfl
    | ok b => exact run_bind g (k b) fs'

theorem run_one {β : Type} (f : Sec β) (fs : FullFs) : (Prog.one f).run fs = f fs := by
  simp only [Prog.one, Prog.run]
  generalize f fs = r
  obtain ⟨r1, fs'⟩ := r
  cases r1 <;> rfl

theorem run_one_ok {β γ : Type} {f : Sec β} {k : β → Prog γ} {fs fs' : FullFs} {b : β} (h : f fs = (.ok b, fs')) :
    ((Prog.one f).bind k).run fs = (k b).run fs' := by
  rw [run_bind, run_one, h]

theorem run_one_error {β γ : Type} {f : Sec β} {k : β → Prog γ} {fs fs' : FullFs} {e : Err} (h : f fs = (.error e, fs')) :
    ((Prog.one f).bind k).run fs = (.error e, fs') := by
  rw [run_bind, run_one, h]

theorem run_bind_ok {α β : Type} {p : Prog α} {k : α → Prog β} {fs fs' : FullFs} {b : α} (h : p.run fs = (.ok b, fs')) :
    (p.bind k).run fs = (k b).run fs' := by
  rw [run_bind, h]

theorem run_bind_error {α β : Type} {p : Prog α} {k : α → Prog β} {fs fs' : FullFs} {e : Err} (h : p.run fs = (.error e, fs')) :
    (p.bind k).run fs = (.error e, fs') := by
  rw [run_bind, h]

/-! ## Views -/

theorem view_of_get {fs : FullFs} {id : Bytes} {n : Inode} (h : fs.get id = some n) : viewOf fs id = some (viewFile n) := by
  unfold viewOf; rw [h]; rfl

theorem get_of_view {fs : FullFs} {id : Bytes} {f : AFile} (h : viewOf fs id = some f) : ∃ n, fs.get id = some n ∧ viewFile n = f := by
  unfold viewOf at h
  cases hg : fs.get id with
  | none => rw [hg] at h; cases h
  | some n => rw [hg] at h; injection h with h; exact ⟨n, rfl, h⟩

theorem view_set {fs : FullFs} {id : Bytes} {n : Inode} (h : fs.get id = some n) (m : Inode) :
    viewOf (fs.set id m) = fun x => if x = id then some (viewFile m) else viewOf fs x := by
  funext x
  unfold viewOf
  rw [get_set]
  by_cases hx : x = id
  · rw [if_pos hx, if_pos hx, h]; rfl
  · rw [if_neg hx, if_neg hx]

theorem view_set_same {fs : FullFs} {id : Bytes} {n m : Inode} (h : fs.get id = some n) (hv : viewFile m = viewFile n) :
    viewOf (fs.set id m) = viewOf fs := by
  rw [view_set h]
  funext x
  by_cases hx : x = id
  · rw [if_pos hx, hx, view_of_get h, hv]
  · rw [if_neg hx]

/-- The types an open file can have. -/
def GoodCls (c : Nat) : Prop := c = 4 ∨ c = 8 ∨ c = 10

theorem kind_good {f : AFile} (h : f.kind ≠ 0) : GoodCls f.kind := by
  unfold AFile.kind at *
  unfold GoodCls
  split
  · exact .inl rfl
  · split
    · exact .inr (.inl rfl)
    · split
      · exact .inr (.inr rfl)
      · rename_i h1 h2 h3
        rw [if_neg h1, if_neg h2, if_neg h3] at h
        exact absurd rfl h

theorem kind_mode {f : AFile} {c : Nat} (hc : GoodCls c) (h : f.kind = c) : modeForType c = f.mode &&& sIfmt := by
  have h4 : modeForType 4 = 0x4000 := rfl
  have h8 : modeForType 8 = 0x8000 := rfl
  have h10 : modeForType 10 = 0xa000 := rfl
  have hs : sIfmt = 0xf000 := rfl
  unfold AFile.kind at h
  rw [hs]
  by_cases h1 : f.mode &&& 0xf000 = 0x4000
  · rw [if_pos h1] at h; subst h; rw [h4, h1]
  · rw [if_neg h1] at h
    by_cases h2 : f.mode &&& 0xf000 = 0x8000
    · rw [if_pos h2] at h; subst h; rw [h8, h2]
    · rw [if_neg h2] at h
      by_cases h3 : f.mode &&& 0xf000 = 0xa000
      · rw [if_pos h3] at h; subst h; rw [h10, h3]
      · rw [if_neg h3] at h
        subst h
        rcases hc with h | h | h <;> cases h

theorem castAs_of_kind {h : FH} {n : Inode} (hc : GoodCls h.cls) (hk : (viewFile n).kind = h.cls) (T : Nat) :
    castAs h T n = if h.cls = T then .ok () else .error (.vfs 1) := by
  unfold castAs
  have := kind_mode hc hk
  rw [if_neg (by rw [ne_eq, not_not]; exact this)]
  by_cases hT : h.cls = T
  · rw [if_neg (by rw [ne_eq, not_not]; exact hT), if_pos hT]
  · rw [if_pos hT, if_neg hT]

theorem file_run {β : Type} {id : Bytes} {f : TimeSpec → Inode → Res β × Inode} {fs : FullFs} {n : Inode} (h : fs.get id = some n) :
    Sec.file id f fs = ((f fs.now n).1, fs.set id (f fs.now n).2) := by
  unfold Sec.file; rw [h]

theorem view_touchAtime (cfg : FsCfg) (now : TimeSpec) (n : Inode) :
    viewFile { n with attr := n.attr.touchAtime cfg.storeTime now } = viewFile n := by
  unfold viewFile FileAttr.touchAtime
  split <;> rfl

theorem view_touchMtime (cfg : FsCfg) (now : TimeSpec) (n : Inode) :
    viewFile { n with attr := n.attr.touchMtime cfg.storeTime now } = viewFile n := by
  unfold viewFile FileAttr.touchMtime
  split <;> rfl

/-! ## Splitting -/

theorem modifyHead_append (cur : Bytes) (c : UInt8) (l : List (List UInt8)) :
    (List.modifyHead (List.cons c) l).modifyHead (cur ++ ·) = l.modifyHead ((cur ++ [c]) ++ ·) := by
  cases l with
  | nil => rfl
  | cons a l => simp

theorem splitSlash_eq : ∀ (l cur : Bytes), splitSlash cur l = (l.splitOn slash).modifyHead (cur ++ ·)
  | [], cur => by simp [splitSlash, List.splitOn]
  | c :: l, cur => by
    rw [splitSlash]
    unfold List.splitOn
    rw [List.splitOnP_cons_eq_if_modifyHead]
    by_cases hc : c = slash
    · rw [if_pos hc, if_pos (by simpa using hc), splitSlash_eq l []]
      unfold List.splitOn
      have : (List.splitOnP (fun x => x == slash) l).modifyHead (fun x => [] ++ x) = List.splitOnP (fun x => x == slash) l := by
        cases List.splitOnP (fun x => x == slash) l <;> simp
      rw [this]; simp
    · rw [if_neg hc, if_neg (by simpa using hc), splitSlash_eq l (cur ++ [c]), modifyHead_append]
      rfl

theorem splitPath_eq (p : Bytes) : splitPath p = parts p := by
  unfold splitPath parts
  have h1 : splitSlash [] p = p.splitOn 47 := by
    rw [splitSlash_eq]
    show (p.splitOn slash).modifyHead (fun x => [] ++ x) = _
    cases h : p.splitOn slash with
    | nil => simp only [List.modifyHead_nil]; exact h.symm
    | cons a l => simp only [List.modifyHead_cons, List.nil_append]; exact h.symm
  rw [h1]
  apply List.filter_congr
  intro x _
  cases x <;> simp

/-! ## Chains of parents -/

/-- The `parent_id` of an object. -/
def ParentIs (fs : FullFs) (a b : Bytes) : Prop := ∃ n, fs.get a = some n ∧ n.parent = b

/-- Each object is contained in the next, and its `parent_id` says so. -/
def Chain (A : AFs) (fs : FullFs) : List Bytes → Prop
  | [] => False
  | [r] => r = kRootId ∧ ParentIs fs r kRootId
  | a :: b :: l => ParentIs fs a b ∧ (∃ f e, A b = some f ∧ f.kind = 4 ∧ e ∈ f.entries ∧ e.id = a) ∧ Chain A fs (b :: l)

theorem Chain.mono {A : AFs} {fs fs' : FullFs} (h : ∀ a b, ParentIs fs a b → ParentIs fs' a b) : ∀ {L : List Bytes}, Chain A fs L → Chain A fs' L
  | [_], hc => ⟨hc.1, h _ _ hc.2⟩
  | _ :: b :: l, hc => ⟨h _ _ hc.1, hc.2.1, Chain.mono h (L := b :: l) hc.2.2⟩

theorem parentIs_set_attr {fs : FullFs} {id : Bytes} {n m : Inode} (hg : fs.get id = some n) (hp : m.parent = n.parent) {a b : Bytes}
    (h : ParentIs fs a b) : ParentIs (fs.set id m) a b := by
  obtain ⟨k, h1, h2⟩ := h
  by_cases ha : a = id
  · subst ha
    rw [hg] at h1
    injection h1 with h1
    subst h1
    exact ⟨m, get_set_self hg _, by rw [hp]; exact h2⟩
  · exact ⟨k, by rw [get_set_ne _ _ ha]; exact h1, h2⟩

theorem Chain.setParent {A : AFs} (ht : DirTree A) {fs : FullFs} {c d : Bytes} {n : Inode} (hg : fs.get c = some n)
    {fd : AFile} {e : DirEntry} (hd : A d = some fd) (he : e ∈ fd.entries) (hid : e.id = c) : ∀ {L : List Bytes} {a : Bytes} {fa : AFile},
    Chain A fs (a :: L) → A a = some fa → fa.kind = 4 → Chain A (fs.set c { n with parent := d }) (a :: L)
  | [], a, fa, hc, _, _ => by
    refine ⟨hc.1, ?_⟩
    obtain ⟨k, h1, h2⟩ := hc.2
    have hne : a ≠ c := by
      rw [hc.1, ← hid]
      exact fun h => (ht.entry d fd e hd he).1 h.symm
    exact ⟨k, by rw [get_set_ne _ _ hne]; exact h1, h2⟩
  | b :: L, a, fa, hc, ha, hk => by
    obtain ⟨⟨k, h1, h2⟩, ⟨f, e', hb, hbk, he', hid'⟩, h3⟩ := hc
    refine ⟨?_, ⟨f, e', hb, hbk, he', hid'⟩, Chain.setParent ht hg hd he hid h3 hb hbk⟩
    by_cases hac : a = c
    · have htype : e.type = 4 := by
        obtain ⟨_, _, g, hga, hgk⟩ := ht.entry d fd e hd he
        rw [hid, ← hac, ha] at hga
        injection hga with hga
        rw [← hgk, ← hga, hk]
      have := (ht.once d b fd f e e' hd hb he he' (by rw [hid, hid', hac]) htype).1
      subst hac
      exact ⟨_, get_set_self hg _, this⟩
    · exact ⟨k, by rw [get_set_ne _ _ hac]; exact h1, h2⟩

/-- The state of the loop in the code corresponds to a place. -/
structure Sim (A : AFs) (fs : FullFs) (h : FH) (p : Place) : Prop where
  id : h.id = p.1
  obj : ∃ f, A h.id = some f ∧ f.kind = h.cls
  good : GoodCls h.cls
  chain : Chain A fs (p.1 :: p.2)

theorem Sim.mono {A : AFs} {fs fs' : FullFs} (hm : ∀ a b, ParentIs fs a b → ParentIs fs' a b) {h : FH} {p : Place} (hs : Sim A fs h p) :
    Sim A fs' h p := ⟨hs.id, hs.obj, hs.good, hs.chain.mono hm⟩

/-- What resolving a path leaves: the same view, the same parent of the root, the same names. -/
structure Calm (fs fs' : FullFs) : Prop where
  view : viewOf fs' = viewOf fs
  root : RootParent fs → RootParent fs'
  keys : fs'.nodes.map Prod.fst = fs.nodes.map Prod.fst
  now : fs'.now = fs.now

theorem Calm.refl (fs : FullFs) : Calm fs fs := ⟨rfl, fun h => h, rfl, rfl⟩

theorem Calm.trans {a b c : FullFs} (h : Calm a b) (h' : Calm b c) : Calm a c :=
  ⟨h'.view.trans h.view, fun hr => h'.root (h.root hr), h'.keys.trans h.keys, h'.now.trans h.now⟩

theorem calm_set {fs : FullFs} {id : Bytes} {n m : Inode} (hg : fs.get id = some n) (hv : viewFile m = viewFile n)
    (hp : id = kRootId → m.parent = n.parent) : Calm fs (fs.set id m) := by
  refine ⟨view_set_same hg hv, ?_, set_keys _ _ _, rfl⟩
  rintro ⟨k, h1, h2⟩
  by_cases hx : kRootId = id
  · rw [hx] at h1
    rw [hg] at h1
    injection h1 with h1
    subst h1
    refine ⟨m, by rw [hx]; exact get_set_self hg _, ?_⟩
    rw [hp hx.symm]; exact h2
  · exact ⟨k, by rw [get_set_ne _ _ hx]; exact h1, h2⟩

/-- The lookup of a name by a thread that holds the object. -/
theorem get_run {cfg : FsCfg} {fs : FullFs} {h : FH} {f : AFile} (ho : viewOf fs h.id = some f) (hk : f.kind = h.cls) (hg : GoodCls h.cls)
    (name : Bytes) : ∃ fs', secGet cfg h name fs = (lookupIn cfg.same (viewOf fs) h.id name, fs') ∧ Calm fs fs' ∧
      ∀ a b, ParentIs fs a b → ParentIs fs' a b := by
  obtain ⟨n, hn, rfl⟩ := get_of_view ho
  have hc := castAs_of_kind (h := h) hg hk typeDirectory
  unfold secGet Sec.dir
  rw [file_run hn, hc]
  unfold lookupIn
  rw [ho]
  dsimp only
  by_cases h4 : h.cls = typeDirectory
  · rw [if_pos h4]
    have hk4 : ¬ (viewFile n).kind ≠ 4 := by rw [hk, h4]; decide
    rw [if_neg hk4]
    dsimp only
    unfold Inode.getEntry
    dsimp only
    by_cases hl : name.length > 255
    · rw [if_pos hl, if_pos hl]
      exact ⟨_, rfl, calm_set hn (view_touchAtime cfg _ n) (fun _ => rfl), fun a b hp => parentIs_set_attr hn (by rfl) hp⟩
    · rw [if_neg hl, if_neg hl]
      exact ⟨_, rfl, calm_set hn (view_touchAtime cfg _ n) (fun _ => rfl), fun a b hp => parentIs_set_attr hn (by rfl) hp⟩
  · rw [if_neg h4]
    have hk4 : (viewFile n).kind ≠ 4 := by rw [hk]; exact h4
    rw [if_pos hk4]
    exact ⟨_, rfl, calm_set hn rfl (fun _ => rfl), fun a b hp => parentIs_set_attr hn (by rfl) hp⟩

theorem openAs_run {fs : FullFs} {id : Bytes} {type : Nat} {f : AFile} (hv : viewOf fs id = some f) (ht : GoodCls type)
    (hr : id = kRootId → type = 4) : secOpenAs id type fs = (.ok ⟨id, type⟩, fs) := by
  unfold secOpenAs
  by_cases h : id = kRootId
  · rw [if_pos h, if_neg (by rw [ne_eq, not_not]; exact hr h), h, hr h]; rfl
  · rw [if_neg h]
    obtain ⟨n, hn, _⟩ := get_of_view hv
    rw [hn]
    dsimp only
    rw [if_pos]
    rcases ht with h | h | h
    · exact .inr (.inl h)
    · exact .inl h
    · exact .inr (.inr h)

theorem linkGet_run {cfg : FsCfg} {fs : FullFs} {h : FH} {f : AFile} (ho : viewOf fs h.id = some f) (hk : f.kind = 10) (hc : h.cls = 10) :
    ∃ fs', secLinkGet cfg h fs = (.ok f.data, fs') ∧ Calm fs fs' ∧ ∀ a b, ParentIs fs a b → ParentIs fs' a b := by
  obtain ⟨n, hn, rfl⟩ := get_of_view ho
  have hcast := castAs_of_kind (h := h) (n := n) (by rw [hc]; exact .inr (.inr rfl)) (by rw [hk, hc]) typeSymlink
  rw [if_pos (by rw [hc]; rfl)] at hcast
  unfold secLinkGet
  rw [file_run hn, hcast]
  exact ⟨_, rfl, calm_set hn (view_touchAtime cfg _ n) (fun _ => rfl), fun a b hp => parentIs_set_attr hn (by rfl) hp⟩

/-! ## The loop -/

/-- What a resolution by the code has to return for what the specification says. -/
def Agrees (A : AFs) (fs : FullFs) (spec : Res (Option Place)) (out : Res (Option FH) × FullFs) : Prop :=
  Calm fs out.2 ∧
  match spec with
  | .error e => out.1 = .error e
  | .ok none => out.1 = .ok none
  | .ok (some p) => ∃ h, out.1 = .ok (some h) ∧ Sim A out.2 h p

theorem Agrees.calm {A : AFs} {fs fs' : FullFs} (hc : Calm fs fs') {spec : Res (Option Place)} {out : Res (Option FH) × FullFs}
    (h : Agrees A fs' spec out) : Agrees A fs spec out := ⟨hc.trans h.1, h.2⟩

theorem walk_agrees {cfg : FsCfg} {A : AFs} (ht : DirTree A) {rec : Bytes → FH → List Bytes → Prog (Option FH)}
    {link : Place → List Bytes → Res (Option Place)}
    (hrec : ∀ fs h p l, viewOf fs = A → Sim A fs h p → Agrees A fs (link p l) ((rec h.id h l).run fs)) :
    ∀ (l : List Bytes) (fs : FullFs) (h : FH) (p : Place), viewOf fs = A → Sim A fs h p →
      Agrees A fs (resolveWith cfg.same A link p l) ((walk cfg rec h.id h l).run fs)
  | [], fs, h, p, hv, hs => ⟨Calm.refl fs, h, rfl, hs⟩
  | s :: rest, fs, h, p, hv, hs => by
    rw [walk, resolveWith]
    by_cases h1 : s = dotName
    · rw [if_pos h1, if_pos (show s = [46] from h1)]
      exact walk_agrees ht hrec rest fs h p hv hs
    · rw [if_neg h1, if_neg (show ¬ s = [46] from h1)]
      by_cases h2 : s = dotDotName
      · rw [if_pos h2, if_pos (show s = [46, 46] from h2)]
        have hch := hs.chain
        obtain ⟨pd, pu⟩ := p
        have hpar : ∃ b, ParentIs fs h.id b ∧ b = (Place.up (pd, pu)).1 ∧ (∃ f, A b = some f ∧ f.kind = 4) ∧
            Chain A fs ((Place.up (pd, pu)).1 :: (Place.up (pd, pu)).2) := by
          rw [hs.id]
          cases pu with
          | nil =>
            obtain ⟨e1, e2⟩ := hch
            dsimp only at e1 e2
            exact ⟨kRootId, e2, e1.symm, ht.root, ⟨e1, e2⟩⟩
          | cons u us =>
            obtain ⟨e1, ⟨f, e, hf, hk, _⟩, e3⟩ := hch
            exact ⟨u, e1, rfl, ⟨f, hf, hk⟩, e3⟩
        obtain ⟨b, ⟨n, hn, hnb⟩, hb, ⟨f, hf, hk⟩, hch'⟩ := hpar
        have hgp : secGetParent h fs = (.ok b, fs.set h.id n) := by
          unfold secGetParent; rw [file_run hn, hnb]
        have hcalm : Calm fs (fs.set h.id n) := calm_set hn rfl fun _ => rfl
        have hv' : viewOf (fs.set h.id n) = A := by rw [hcalm.view, hv]
        rw [run_one_ok hgp, run_one_ok (openAs_run (type := typeDirectory) (f := f) (by rw [hv']; exact hf) (.inl rfl) fun _ => rfl)]
        refine Agrees.calm hcalm (walk_agrees ht hrec rest _ ⟨b, typeDirectory⟩ _ hv' ?_)
        exact ⟨hb, ⟨f, hf, hk⟩, .inl rfl, hch'.mono fun a b hp => parentIs_set_attr hn (by rfl) hp⟩
      · rw [if_neg h2, if_neg (show ¬ s = [46, 46] from h2)]
        obtain ⟨f, hf, hk⟩ := hs.obj
        obtain ⟨fs1, hg, hc1, hp1⟩ := get_run (cfg := cfg) (by rw [hv]; exact hf) hk hs.good s
        rw [hv, hs.id] at hg
        have hv1 : viewOf fs1 = A := by rw [hc1.view, hv]
        have hs1 := hs.mono hp1
        cases hl : lookupIn cfg.same A p.1 s with
        | error e =>
          rw [hl] at hg
          rw [run_one_error hg]
          exact ⟨hc1, rfl⟩
        | ok r =>
          rw [hl] at hg
          rw [run_one_ok hg]
          cases r with
          | none => exact ⟨hc1, rfl⟩
          | some e =>
            dsimp only
            -- the entry is in the directory
            have hmem : e ∈ f.entries ∧ f.kind = 4 := by
              unfold lookupIn at hl
              rw [hs.id] at hf
              rw [hf] at hl
              dsimp only at hl
              by_cases h4 : f.kind ≠ 4
              · rw [if_pos h4] at hl; cases hl
              · rw [if_neg h4] at hl
                by_cases h5 : s.length > 255
                · rw [if_pos h5] at hl; cases hl
                · rw [if_neg h5] at hl
                  injection hl with hl
                  exact ⟨List.mem_of_find?_eq_some hl, by simpa using h4⟩
            obtain ⟨hmem, hk4⟩ := hmem
            obtain ⟨hne, ht0, g, hge, hgk⟩ := ht.entry _ f e hf hmem
            have hgood : GoodCls e.type := by rw [← hgk]; exact kind_good (by rw [hgk]; exact ht0)
            rw [run_one_ok (openAs_run (f := g) (by rw [hv1]; exact hge) hgood fun h => absurd h hne)]
            obtain ⟨n, hn, hng⟩ := get_of_view (show viewOf fs1 e.id = some g by rw [hv1]; exact hge)
            have hsp : secSetParent ⟨e.id, e.type⟩ h.id fs1 = (.ok (), fs1.set e.id { n with parent := h.id }) := by
              unfold secSetParent; rw [file_run hn]
            rw [run_one_ok hsp]
            have hc2 : Calm fs1 (fs1.set e.id { n with parent := h.id }) := calm_set hn rfl fun h => absurd h hne
            have hv2 : viewOf (fs1.set e.id { n with parent := h.id }) = A := by rw [hc2.view, hv1]
            have hch2 : Chain A (fs1.set e.id { n with parent := h.id }) (p.1 :: p.2) :=
              hs1.chain.setParent ht hn hf hmem rfl (by rw [← hs.id]; exact hf) hk4
            by_cases h3 : e.type = typeSymlink
            · rw [if_pos h3, if_pos (show e.type = 10 from h3)]
              rw [hge]
              dsimp only
              obtain ⟨fs3, hlg, hc3, hp3⟩ := linkGet_run (cfg := cfg) (h := ⟨e.id, e.type⟩) (by rw [hv2]; exact hge) (by rw [hgk]; exact h3) h3
              rw [run_one_ok hlg]
              have hv3 : viewOf fs3 = A := by rw [hc3.view, hv2]
              have hs3 : Sim A fs3 h p := ⟨hs.id, ⟨f, hf, hk⟩, hs.good, hch2.mono hp3⟩
              have hrr := hrec fs3 h p (splitPath g.data) hv3 hs3
              rw [run_bind]
              rw [splitPath_eq] at hrr ⊢
              revert hrr
              generalize (rec h.id h (parts g.data)).run fs3 = out
              obtain ⟨o1, fs4⟩ := out
              intro hrr
              have hcc : Calm fs fs4 := hc1.trans (hc2.trans (hc3.trans hrr.1))
              cases hlink : link p (parts g.data) with
              | error er =>
                rw [hlink] at hrr
                have := hrr.2
                dsimp only at this
                subst this
                exact ⟨hcc, rfl⟩
              | ok o =>
                rw [hlink] at hrr
                cases o with
                | none =>
                  have := hrr.2
                  dsimp only at this
                  subst this
                  exact ⟨hcc, rfl⟩
                | some p' =>
                  obtain ⟨h', e1, hs'⟩ := hrr.2
                  dsimp only at e1 hs'
                  subst e1
                  dsimp only
                  refine Agrees.calm hcc (walk_agrees ht hrec rest fs4 h' p' ?_ hs')
                  rw [hcc.view, hv]
            · rw [if_neg h3, if_neg (show ¬ e.type = 10 from h3)]
              refine Agrees.calm (hc1.trans hc2) (walk_agrees ht hrec rest _ ⟨e.id, e.type⟩ _ hv2 ?_)
              refine ⟨rfl, ⟨g, hge, hgk⟩, hgood, ?_, ⟨f, e, by rw [← hs.id]; exact hf, hk4, hmem, rfl⟩, hch2⟩
              exact ⟨_, get_set_self hn _, hs.id⟩

theorem genericOpen_agrees {cfg : FsCfg} {A : AFs} (ht : DirTree A) : ∀ (d : Nat) (fs : FullFs) (h : FH) (p : Place) (l : List Bytes),
    viewOf fs = A → Sim A fs h p → Agrees A fs (resolve cfg.same A d p l) ((genericOpen cfg d h.id h l).run fs)
  | 0, fs, _, _, _, _, _ => ⟨Calm.refl fs, rfl⟩
  | d + 1, fs, h, p, l, hv, hs => walk_agrees ht (fun fs h p l => genericOpen_agrees ht d fs h p l) l fs h p hv hs

theorem root_sim {A : AFs} (ht : DirTree A) {fs : FullFs} (hr : RootParent fs) : Sim A fs ⟨kRootId, typeDirectory⟩ rootPlace := by
  obtain ⟨f, hf, hk⟩ := ht.root
  exact ⟨rfl, ⟨f, hf, hk⟩, .inl rfl, rfl, hr⟩

theorem openRoot_run {A : AFs} (ht : DirTree A) {fs : FullFs} (hv : viewOf fs = A) :
    secOpenAs kRootId typeDirectory fs = (.ok ⟨kRootId, typeDirectory⟩, fs) := by
  obtain ⟨f, hf, _⟩ := ht.root
  exact openAs_run (f := f) (by rw [hv]; exact hf) (.inl rfl) fun _ => rfl

/-- `open_base` against the specification. -/
theorem openBase_agrees {cfg : FsCfg} {fs : FullFs} (ht : DirTree (viewOf fs)) (hr : RootParent fs) (path : Bytes) :
    Calm fs ((openBase cfg path).run fs).2 ∧
    match resolveParent cfg.same (viewOf fs) path with
    | .error e => ((openBase cfg path).run fs).1 = .error e
    | .ok (p, last) => ∃ h, ((openBase cfg path).run fs).1 = .ok (h, last) ∧ Sim (viewOf fs) ((openBase cfg path).run fs).2 h p := by
  unfold openBase resolveParent
  rw [run_one_ok (openRoot_run ht rfl), splitPath_eq]
  cases hl : (parts path).getLast? with
  | none => exact ⟨Calm.refl fs, _, rfl, root_sim ht hr⟩
  | some last =>
    dsimp only
    by_cases h1 : (parts path).length = 1
    · rw [if_pos h1]
      have hd : (parts path).dropLast = [] := by
        rw [← List.length_eq_zero_iff, List.length_dropLast, h1]
      rw [hd]
      exact ⟨Calm.refl fs, _, rfl, root_sim ht hr⟩
    · rw [if_neg h1, run_bind]
      have ha := genericOpen_agrees (cfg := cfg) ht maxDepth fs ⟨kRootId, typeDirectory⟩ rootPlace (parts path).dropLast rfl (root_sim ht hr)
      have he : resolve cfg.same (viewOf fs) 16 rootPlace (parts path).dropLast =
        resolve cfg.same (viewOf fs) maxDepth rootPlace (parts path).dropLast := rfl
      rw [he]
      revert ha
      generalize (genericOpen cfg maxDepth kRootId ⟨kRootId, typeDirectory⟩ (parts path).dropLast).run fs = out
      obtain ⟨o1, fs1⟩ := out
      intro ha
      cases hres : resolve cfg.same (viewOf fs) maxDepth rootPlace (parts path).dropLast with
      | error e =>
        rw [hres] at ha
        have := ha.2
        dsimp only at this
        subst this
        exact ⟨ha.1, rfl⟩
      | ok o =>
        rw [hres] at ha
        cases o with
        | none =>
          have := ha.2
          dsimp only at this
          subst this
          exact ⟨ha.1, rfl⟩
        | some p =>
          obtain ⟨h, e1, hs⟩ := ha.2
          dsimp only at e1 hs
          subst e1
          exact ⟨ha.1, h, rfl, hs⟩

/-- `open_all` against the specification. -/
theorem openAll_agrees {cfg : FsCfg} {fs : FullFs} (ht : DirTree (viewOf fs)) (hr : RootParent fs) (path : Bytes) (follow : Bool) :
    Agrees (viewOf fs) fs (resolvePath cfg.same (viewOf fs) path follow) ((openAll cfg path follow).run fs) := by
  unfold openAll resolvePath
  by_cases h0 : path = [] ∨ path = [slash]
  · rw [if_pos h0, if_pos (show path = [] ∨ path = [47] from h0), run_one_ok (openRoot_run ht rfl)]
    exact ⟨Calm.refl fs, _, rfl, root_sim ht hr⟩
  · rw [if_neg h0, if_neg (show ¬ (path = [] ∨ path = [47]) from h0), run_bind]
    have hb := openBase_agrees (cfg := cfg) ht hr path
    revert hb
    generalize (openBase cfg path).run fs = out
    obtain ⟨o1, fs1⟩ := out
    intro hb
    cases hres : resolveParent cfg.same (viewOf fs) path with
    | error e =>
      rw [hres] at hb
      have := hb.2
      dsimp only at this
      subst this
      exact ⟨hb.1, rfl⟩
    | ok o =>
      rw [hres] at hb
      obtain ⟨p, last⟩ := o
      obtain ⟨h, e1, hs⟩ := hb.2
      have hc0 := hb.1
      dsimp only at e1 hs hc0
      subst e1
      dsimp only
      have hv0 : viewOf fs1 = viewOf fs := hc0.view
      obtain ⟨f, hf, hk⟩ := hs.obj
      obtain ⟨fs2, hg, hc1, hp1⟩ := get_run (cfg := cfg) (by rw [hv0]; exact hf) hk hs.good last
      rw [hv0, hs.id] at hg
      have hv1 : viewOf fs2 = viewOf fs := by rw [hc1.view, hv0]
      have hs1 := hs.mono hp1
      cases hl : lookupIn cfg.same (viewOf fs) p.1 last with
      | error e =>
        rw [hl] at hg
        rw [run_one_error hg]
        exact ⟨hc0.trans hc1, rfl⟩
      | ok r =>
        rw [hl] at hg
        rw [run_one_ok hg]
        cases r with
        | none => exact ⟨hc0.trans hc1, rfl⟩
        | some e =>
          dsimp only
          have hmem : e ∈ f.entries ∧ f.kind = 4 := by
            unfold lookupIn at hl
            rw [hs.id] at hf
            rw [hf] at hl
            dsimp only at hl
            by_cases h4 : f.kind ≠ 4
            · rw [if_pos h4] at hl; cases hl
            · rw [if_neg h4] at hl
              by_cases h5 : last.length > 255
              · rw [if_pos h5] at hl; cases hl
              · rw [if_neg h5] at hl
                injection hl with hl
                exact ⟨List.mem_of_find?_eq_some hl, by simpa using h4⟩
          obtain ⟨hmem, hk4⟩ := hmem
          obtain ⟨hne, ht0, g, hge, hgk⟩ := ht.entry _ f e hf hmem
          have hgood : GoodCls e.type := by rw [← hgk]; exact kind_good (by rw [hgk]; exact ht0)
          rw [run_one_ok (openAs_run (f := g) (by rw [hv1]; exact hge) hgood fun h => absurd h hne)]
          obtain ⟨n, hn, hng⟩ := get_of_view (show viewOf fs2 e.id = some g by rw [hv1]; exact hge)
          have hsp : secSetParent ⟨e.id, e.type⟩ h.id fs2 = (.ok (), fs2.set e.id { n with parent := h.id }) := by
            unfold secSetParent; rw [file_run hn]
          rw [run_one_ok hsp]
          have hc2 : Calm fs2 (fs2.set e.id { n with parent := h.id }) := calm_set hn rfl fun h => absurd h hne
          have hv2 : viewOf (fs2.set e.id { n with parent := h.id }) = viewOf fs := by rw [hc2.view, hv1]
          have hch2 : Chain (viewOf fs) (fs2.set e.id { n with parent := h.id }) (p.1 :: p.2) :=
            hs1.chain.setParent ht hn hf hmem rfl (by rw [← hs.id]; exact hf) hk4
          dsimp only
          by_cases h3 : follow = true ∧ e.type = typeSymlink
          · rw [if_pos h3, if_pos (show follow = true ∧ e.type = 10 from h3), hge]
            dsimp only
            obtain ⟨fs3, hlg, hc3, hp3⟩ := linkGet_run (cfg := cfg) (h := ⟨e.id, e.type⟩) (by rw [hv2]; exact hge) (by rw [hgk]; exact h3.2) h3.2
            rw [run_one_ok hlg, splitPath_eq]
            have hv3 : viewOf fs3 = viewOf fs := by rw [hc3.view, hv2]
            have hs3 : Sim (viewOf fs) fs3 h p := ⟨hs.id, ⟨f, hf, hk⟩, hs.good, hch2.mono hp3⟩
            exact Agrees.calm (hc0.trans (hc1.trans (hc2.trans hc3))) (genericOpen_agrees ht maxDepth fs3 h p (parts g.data) hv3 hs3)
          · rw [if_neg h3, if_neg (show ¬ (follow = true ∧ e.type = 10) from h3)]
            refine ⟨hc0.trans (hc1.trans hc2), _, rfl, rfl, ⟨g, hge, hgk⟩, hgood, ?_, ⟨f, e, by rw [← hs.id]; exact hf, hk4, hmem, rfl⟩, hch2⟩
            exact ⟨_, get_set_self hn _, hs.id⟩

end Securefs
