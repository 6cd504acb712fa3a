import Verif.Spec.VolThreads
import Verif.Proofs.FullVolumeEvents
/-! Helper lemmas: operations on a volume, section by section, under threads. -/

namespace Securefs.Vt

open Securefs Spec FileEnv Vol

variable {V : VolEnv} {τ : Bytes → Nat}

/-! ## Programs that do the same -/

/-- Two programs that do the same, whatever other threads do between their sections; `G` is what the operation holds. -/
inductive PSim (V : VolEnv) (τ : Bytes → Nat) {α β : Type} (Q : List FH → α → β → Prop) : List FH → VProg α → Prog β → Prop
  | ret {G : List FH} {a : α} {b : β} (h : Q G a b) : PSim V τ Q G (.ret a) (.ret b)
  | throw {G : List FH} (e : Err) : PSim V τ Q G (.throw e) (.throw e)
  | sec {G : List FH} {γ δ : Type} {f : VM γ} {g : Sec δ} {k : γ → VProg α} {k' : δ → Prog β} (K : γ → δ → Prop)
      (hs : ∀ v fs, R V τ v fs → (∀ h ∈ G, LiveIs v h) → DirRoom fs → Out V τ (fun a b _ _ => K a b) v fs (f v) (g fs))
      (hk : ∀ a b, K a b → PSim V τ Q G (k a) (k' b)) : PSim V τ Q G (.sec f k) (.sec g k')
  | take {G : List FH} {f : VM FH} {g : Sec FH} {k : FH → VProg α} {k' : FH → Prog β} (K : FH → Prop)
      (hs : ∀ v fs, R V τ v fs → (∀ h ∈ G, LiveIs v h) → DirRoom fs → Out V τ (fun a b v' _ => a = b ∧ LiveIs v' a ∧ K a) v fs (f v) (g fs))
      (hk : ∀ a, K a → PSim V τ Q (a :: G) (k a) (k' a)) : PSim V τ Q G (.take f k) (.sec g k')

theorem PSim.bind {α β γ δ : Type} {Q : List FH → α → β → Prop} {Q' : List FH → γ → δ → Prop} {G : List FH} {p : VProg α} {q : Prog β}
    {f : α → VProg γ} {g : β → Prog δ} (h : PSim V τ Q G p q) :
    (∀ G' a b, G ⊆ G' → Q G' a b → PSim V τ Q' G' (f a) (g b)) → PSim V τ Q' G (p.bind f) (q.bind g) := by
  induction h with
  | ret h => exact fun H => H _ _ _ (fun _ h => h) h
  | throw e => exact fun _ => .throw e
  | sec K hs hk ih => exact fun H => .sec K hs fun a b hab => ih a b hab H
  | take K hs hk ih => exact fun H => .take K hs fun a ha => ih a ha fun G' a b hG => H G' a b fun x hx => hG (List.mem_cons_of_mem _ hx)

theorem PSim.bind1 {α β γ δ : Type} {Q : List FH → α → β → Prop} {G : List FH} {f : VM γ} {g : Sec δ} {k : γ → VProg α} {k' : δ → Prog β}
    (K : γ → δ → Prop)
    (hs : ∀ v fs, R V τ v fs → (∀ h ∈ G, LiveIs v h) → DirRoom fs → Out V τ (fun a b _ _ => K a b) v fs (f v) (g fs))
    (hk : ∀ a b, K a b → PSim V τ Q G (k a) (k' b)) : PSim V τ Q G ((VProg.one f).bind k) ((Prog.one g).bind k') :=
  .sec K hs hk

theorem PSim.bindT {α β : Type} {Q : List FH → α → β → Prop} {G : List FH} {id : Bytes} {type : Nat} {f : VM FH} {g : Sec FH} {k : FH → VProg α}
    {k' : FH → Prog β}
    (hs : ∀ v fs, R V τ v fs → (∀ h ∈ G, LiveIs v h) → DirRoom fs → Out V τ (fun a b v' _ => a = b ∧ a = ⟨id, type⟩ ∧ LiveIs v' a) v fs (f v) (g fs))
    (hk : PSim V τ Q (⟨id, type⟩ :: G) (k ⟨id, type⟩) (k' ⟨id, type⟩)) : PSim V τ Q G ((VProg.get f).bind k) ((Prog.one g).bind k') :=
  .take (fun a => a = ⟨id, type⟩) (fun v fs hR hG hd => (hs v fs hR hG hd).mono fun _ _ _ _ _ _ ⟨h1, h2, h3⟩ => ⟨h1, h3, h2⟩)
    fun a ha => by subst ha; exact hk

section
variable (hV : VolEnvOk V)
include hV

/-! ## Paths -/

/-- Two handles, held. -/
def FoundG (G : List FH) (a b : Option FH) : Prop := a = b ∧ ∀ h, a = some h → h ∈ G

theorem p_walk {rec : Bytes → FH → List Bytes → VProg (Option FH)} {rec' : Bytes → FH → List Bytes → Prog (Option FH)}
    (hrec : ∀ G h l, h ∈ G → PSim V τ FoundG G (rec h.id h l) (rec' h.id h l)) :
    ∀ (l : List Bytes) (G : List FH) (h : FH), h ∈ G → PSim V τ FoundG G (vpWalk V rec h.id h l) (walk (idealCfg V) rec' h.id h l)
  | [], G, h, hl => .ret ⟨rfl, fun _ e => by injection e with e; subst e; exact hl⟩
  | s :: rest, G, h, hl => by
    rw [vpWalk, walk]
    by_cases h1 : s = dotName
    · rw [if_pos h1, if_pos h1]
      exact p_walk hrec rest G h hl
    · rw [if_neg h1, if_neg h1]
      by_cases h2 : s = dotDotName
      · rw [if_pos h2, if_pos h2]
        refine PSim.bind1 _ (fun v fs hR hG _ => sim_getParent hR (hG h hl)) fun p p' ⟨hp, hdir⟩ => ?_
        subst hp
        refine PSim.bindT (fun v fs hR hG _ => sim_openAs hR hdir) ?_
        exact p_walk hrec rest _ _ List.mem_cons_self
      · rw [if_neg h2, if_neg h2]
        refine PSim.bind1 _ (fun v fs hR hG _ => sim_get hV hR (hG h hl) s) fun p p' ⟨hp, hdir, hkind⟩ => ?_
        subst hp
        cases p with
        | none => exact .ret ⟨rfl, fun _ e => by cases e⟩
        | some e =>
          have hk := hkind e rfl
          refine PSim.bindT (fun v fs hR hG _ => sim_openAs hR hk) ?_
          refine PSim.bind1 _ (fun v fs hR hG _ => sim_setParent hR (hG _ List.mem_cons_self) hdir) fun _ _ _ => ?_
          by_cases hs : e.type = typeSymlink
          · rw [if_pos hs, if_pos hs]
            refine PSim.bind1 _ (fun v fs hR hG _ => sim_linkGet hV hR (hG _ List.mem_cons_self)) fun t t' ht => ?_
            subst ht
            refine PSim.bind (hrec _ h (splitPath t) (List.mem_cons_of_mem _ hl)) fun G' c c' _ ⟨hc, hcl⟩ => ?_
            subst hc
            cases c with
            | none => exact .ret ⟨rfl, fun _ e => by cases e⟩
            | some c => exact p_walk hrec rest G' c (hcl c rfl)
          · rw [if_neg hs, if_neg hs]
            exact p_walk hrec rest _ ⟨e.id, e.type⟩ List.mem_cons_self

theorem p_genericOpen : ∀ (d : Nat) (G : List FH) (h : FH) (l : List Bytes), h ∈ G →
    PSim V τ FoundG G (vpGenericOpen V d h.id h l) (genericOpen (idealCfg V) d h.id h l)
  | 0, G, h, l, _ => .throw _
  | d + 1, G, h, l, hl => p_walk hV (fun G h l hl => p_genericOpen d G h l hl) l G h hl

/-- The directory of a path, held, and the last part. -/
def BaseG (path : Bytes) (G : List FH) (a b : FH × Bytes) : Prop := a = b ∧ a.1 ∈ G ∧ ((0 : UInt8) ∉ path → (0 : UInt8) ∉ a.2)

theorem p_openBase (G : List FH) (path : Bytes) : PSim V τ (BaseG path) G (vpOpenBase V path) (openBase (idealCfg V) path) := by
  unfold vpOpenBase openBase
  refine PSim.bindT (fun v fs hR _ _ => sim_openAs hR (hR.kind_live hR.root)) ?_
  cases hlast : (splitPath path).getLast? with
  | none => exact .ret ⟨rfl, List.mem_cons_self, fun _ h => by cases h⟩
  | some last =>
    dsimp only
    by_cases h1 : (splitPath path).length = 1
    · rw [if_pos h1, if_pos h1]
      exact .ret ⟨rfl, List.mem_cons_self, fun hz => last_clean hlast hz⟩
    · rw [if_neg h1, if_neg h1]
      refine PSim.bind (p_genericOpen hV maxDepth _ ⟨kRootId, typeDirectory⟩ _ List.mem_cons_self) fun G' c c' _ ⟨hc, hcl⟩ => ?_
      subst hc
      cases c with
      | none => exact .throw _
      | some c => exact .ret ⟨rfl, hcl c rfl, fun hz => last_clean hlast hz⟩

theorem p_openAll (G : List FH) (path : Bytes) (rl : Bool) : PSim V τ FoundG G (vpOpenAll V path rl) (openAll (idealCfg V) path rl) := by
  unfold vpOpenAll openAll
  by_cases hp : path = [] ∨ path = [slash]
  · rw [if_pos hp, if_pos hp]
    refine PSim.bindT (fun v fs hR _ _ => sim_openAs hR (hR.kind_live hR.root)) ?_
    exact .ret ⟨rfl, fun h e => by injection e with e; subst e; exact List.mem_cons_self⟩
  · rw [if_neg hp, if_neg hp]
    refine PSim.bind (p_openBase hV G path) fun G1 a b _ ⟨ha, hl1, _⟩ => ?_
    subst ha
    obtain ⟨base, last⟩ := a
    dsimp only at hl1 ⊢
    refine PSim.bind1 _ (fun v fs hR hG _ => sim_get hV hR (hG _ hl1) last) fun p p' ⟨hp, hdir, hkind⟩ => ?_
    subst hp
    cases p with
    | none => exact .ret ⟨rfl, fun _ e => by cases e⟩
    | some e =>
      have hk := hkind e rfl
      refine PSim.bindT (fun v fs hR hG _ => sim_openAs hR hk) ?_
      refine PSim.bind1 _ (fun v fs hR hG _ => sim_setParent hR (hG _ List.mem_cons_self) hdir) fun _ _ _ => ?_
      dsimp only
      by_cases hs : rl = true ∧ e.type = typeSymlink
      · rw [if_pos hs, if_pos hs]
        refine PSim.bind1 _ (fun v fs hR hG _ => sim_linkGet hV hR (hG _ List.mem_cons_self)) fun t t' ht => ?_
        subst ht
        exact p_genericOpen hV maxDepth _ base _ (List.mem_cons_of_mem _ hl1)
      · rw [if_neg hs, if_neg hs]
        exact .ret ⟨rfl, fun h e => by injection e with e; subst e; exact List.mem_cons_self⟩

theorem p_createFile (G : List FH) (path : Bytes) (mode : UInt32) {type : Nat} (hgood : GoodCls type) (uid gid : UInt32)
    (newId : Bytes) (hz : (0 : UInt8) ∉ path) (hkind : newId.length = 32 ∧ τ newId = type) :
    PSim V τ (fun G a b => a = b ∧ a ∈ G) G (vpCreateFile V path mode type uid gid newId) (createFile (idealCfg V) path mode type uid gid newId) := by
  unfold vpCreateFile createFile
  have hk : KindIs τ newId type := ⟨hgood, hkind.1, hkind.2.symm⟩
  refine PSim.bind (p_openBase hV G path) fun G1 a b _ ⟨ha, hl1, hz1⟩ => ?_
  subst ha
  obtain ⟨base, last⟩ := a
  dsimp only at hl1 hz1 ⊢
  refine PSim.bindT (fun v fs hR hG _ => sim_create hV hR hgood (fun _ => hk) mode uid gid) ?_
  refine PSim.bind1 _ (fun v fs hR hG hd => sim_add hV hR (hG _ (List.mem_cons_of_mem _ hl1)) ⟨last, newId, type⟩ hk (hz1 hz)
    (fun n hn => by have := hd _ _ hn; omega)) fun a b ⟨ha, hdir⟩ => ?_
  subst ha
  cases a with
  | true =>
    rw [if_pos rfl, if_pos rfl]
    refine PSim.bind1 _ (fun v fs hR hG _ => sim_setParent hR (hG _ List.mem_cons_self) hdir) fun _ _ _ => ?_
    exact .ret ⟨rfl, List.mem_cons_self⟩
  | false =>
    rw [if_neg (by decide), if_neg (by decide)]
    refine PSim.bind1 _ (fun v fs hR hG _ => sim_attr hR (hG _ List.mem_cons_self) .unlink trivial fun _ _ => rfl) fun _ _ _ => ?_
    exact .throw _

/-! ## Operations -/

/-- Two answers, with a handle that is held. -/
def AnsG (G : List FH) (a b : VolAnswer) : Prop := VolAnswerLike a b ∧ ∀ h, VolAnswer.given (.ok a) = some h → h ∈ G

omit hV in
theorem g_code {G : List FH} (n : Int) : AnsG G (.code n) (.code n) := ⟨rfl, fun _ e => by cases e⟩

omit hV in
theorem g_bytes {G : List FH} (n : Int) (d : Bytes) : AnsG G (.bytes n d) (.bytes n d) := ⟨rfl, fun _ e => by cases e⟩

omit hV in
theorem g_handle {G : List FH} (n : Int) {h : FH} (hl : h ∈ G) : AnsG G (.handle n (some h)) (.handle n (some h)) :=
  ⟨rfl, fun _ e => by injection e with e; subst e; exact hl⟩

omit hV in
theorem g_handle_none {G : List FH} (n : Int) : AnsG G (.handle n none) (.handle n none) := ⟨rfl, fun _ e => by cases e⟩

omit hV in
theorem g_stat_none {G : List FH} (n : Int) : AnsG G (.stat n none) (.stat n none) := ⟨rfl, fun _ e => by cases e⟩

omit hV in
theorem g_stat {G : List FH} (n : Int) {a b : FullStat} (h : StatLike a b) : AnsG G (.stat n (some a)) (.stat n (some b)) :=
  ⟨⟨rfl, h⟩, fun _ e => by cases e⟩

omit hV in
theorem g_items {G : List FH} (n : Int) {a b : List DirItem} (h : a.Perm b) : AnsG G (.items n a) (.items n b) :=
  ⟨⟨rfl, h⟩, fun _ e => by cases e⟩

theorem p_with (G : List FH) (path : Bytes) (rl : Bool) {absent : VolAnswer} {f : FH → VProg VolAnswer}
    {k : Option FH → Prog VolAnswer} (hn : k none = .ret absent) (ha : ∀ G, AnsG G absent absent)
    (hs : ∀ G' h, h ∈ G' → PSim V τ AnsG G' (f h) (k (some h))) :
    PSim V τ AnsG G (vpWith V path rl absent f) ((openAll (idealCfg V) path rl).bind k) := by
  unfold vpWith
  refine PSim.bind (p_openAll hV G path rl) fun G1 a b _ ⟨hab, hl⟩ => ?_
  subst hab
  cases a with
  | none =>
    rw [hn]
    exact .ret (ha _)
  | some h => exact hs G1 h (hl h rfl)

theorem p_removeName (G : List FH) (path : Bytes) {f : FH → VM Unit} {s : FH → Sec Unit}
    (hs : ∀ h v' fs', R V τ v' fs' → LiveIs v' h → Out V τ (fun _ _ _ _ => True) v' fs' (f h v') (s h fs')) :
    PSim V τ AnsG G (vpRemoveName V path f) ((((openBase (idealCfg V) path).bind fun (dir, last) =>
      (Prog.one (secRemove (idealCfg V) dir last)).bind fun r =>
      match r with
      | none => .ret (-2)
      | some e =>
        (Prog.one (secOpenAs e.id e.type)).bind fun fp =>
        (Prog.one (s fp)).bind fun _ => .ret 0) : Prog Int).bind fun n => .ret (.code n)) := by
  unfold vpRemoveName
  rw [bind_assoc]
  refine PSim.bind (p_openBase hV G path) fun G1 a b _ ⟨hab, hl1, _⟩ => ?_
  subst hab
  obtain ⟨dir, last⟩ := a
  dsimp only at hl1 ⊢
  rw [bind_assoc]
  refine PSim.bind1 _ (fun v fs hR hG _ => sim_remove hV hR (hG _ hl1) last) fun a b ⟨hab, hk⟩ => ?_
  subst hab
  cases a with
  | none => exact .ret (g_code _)
  | some e =>
    dsimp only
    have hk := hk e rfl
    rw [bind_assoc]
    refine PSim.bindT (fun v fs hR hG _ => sim_openAs hR hk) ?_
    rw [bind_assoc]
    refine PSim.bind1 _ (fun v fs hR hG _ => hs _ v fs hR (hG _ List.mem_cons_self)) fun _ _ _ => ?_
    exact .ret (g_code _)

theorem p_renameOp (G : List FH) (p q : Bytes) (hzp : (0 : UInt8) ∉ p) (hzq : (0 : UInt8) ∉ q) :
    PSim V τ AnsG G (vpRenameOp V p q) ((vrename (idealCfg V) p q).bind fun n => .ret (.code n)) := by
  unfold vpRenameOp vrename
  rw [bind_assoc]
  refine PSim.bind (p_openBase hV G p) fun G1 a b _ ⟨hab, hl1, hz1⟩ => ?_
  subst hab
  obtain ⟨bf, lf⟩ := a
  dsimp only at hl1 hz1 ⊢
  rw [bind_assoc]
  refine PSim.bind (p_openBase hV G1 q) fun G2 a b hG2 ⟨hab, hl2, hz2⟩ => ?_
  subst hab
  obtain ⟨bt, lt⟩ := a
  dsimp only at hl2 hz2 ⊢
  rw [bind_assoc]
  refine PSim.bind1 _ (fun v fs hR hG hd => sim_rename hV hR (hG _ (hG2 hl1)) (hG _ hl2) lf lt (hz1 hzp) (hz2 hzq) hd) fun a b ⟨hab, hk⟩ => ?_
  subst hab
  cases a with
  | missing => exact .ret (g_code _)
  | done => exact .ret (g_code _)
  | replaced e =>
    dsimp only
    have hk := hk e rfl
    rw [bind_assoc]
    refine PSim.bindT (fun v fs hR hG _ => sim_openAs hR hk) ?_
    rw [bind_assoc]
    refine PSim.bind1 _ (fun v fs hR hG _ => sim_attr hR (hG _ List.mem_cons_self) .unlink trivial fun _ _ => rfl) fun _ _ _ => ?_
    exact .ret (g_code _)

theorem p_linkOp (G : List FH) (src dest : Bytes) (hz : (0 : UInt8) ∉ dest) :
    PSim V τ AnsG G (vpLinkOp V src dest) ((vlink (idealCfg V) src dest).bind fun n => .ret (.code n)) := by
  unfold vpLinkOp vlink
  rw [bind_assoc]
  refine p_with hV G src true rfl (fun _ => g_code _) fun G1 h hl1 => ?_
  dsimp only
  rw [bind_assoc]
  refine PSim.bind (p_openBase hV G1 dest) fun G2 a b hG2 ⟨hab, hl2, hz2⟩ => ?_
  subst hab
  obtain ⟨base, last⟩ := a
  dsimp only at hl2 hz2 ⊢
  rw [bind_assoc]
  refine PSim.bind1 _ (fun v fs hR hG hd => sim_link hV hR (hG _ hl2) (hG _ (hG2 hl1)) last (hz2 hz) hd) fun a b hab => ?_
  subst hab
  exact .ret (g_code _)

theorem p_op {I : IdealThreads} {op : FullOp} (hw : StartWithin V.env τ I op) :
    PSim V τ AnsG op.through (vpOp V op) (idealOp (idealCfg V) op) := by
  have hnames := hw.names
  have hids := hw.kinds
  have hsize := hw.size
  have htimes := hw.times
  cases op with
  | create path mode uid gid newId =>
    simp only [vpOp, idealOp, fullCreate, bind_assoc]
    refine PSim.bind (p_createFile hV _ path mode (.inr (.inl rfl)) uid gid newId (hnames path (by simp [FullOp.adds])) (hids newId _ rfl))
      fun G a b _ ⟨hab, hl⟩ => ?_
    subst hab
    exact .ret (g_handle _ hl)
  | mkdir path mode uid gid newId =>
    simp only [vpOp, idealOp, FullOp.prog, vmkdir, bind_assoc]
    exact PSim.bind (p_createFile hV _ path mode (.inl rfl) uid gid newId (hnames path (by simp [FullOp.adds])) (hids newId _ rfl))
      fun G a b _ _ => .ret (g_code _)
  | symlink target path uid gid newId =>
    simp only [vpOp, idealOp, FullOp.prog, vsymlink, bind_assoc]
    refine PSim.bind (p_createFile hV _ path _ (.inr (.inr rfl)) uid gid newId (hnames path (by simp [FullOp.adds])) (hids newId _ rfl))
      fun G a b _ ⟨hab, hl⟩ => ?_
    subst hab
    exact PSim.bind1 _ (fun v fs hR hG _ => sim_linkSet hV hR (hG _ hl) target hsize) fun _ _ _ => .ret (g_code _)
  | unlink path => exact p_removeName hV _ path (s := secUnlink) fun h v fs hR hl => sim_attr hR hl .unlink trivial fun _ _ => rfl
  | rmdir path => exact p_removeName hV _ path (s := secUnlinkEmpty (idealCfg V)) fun h v fs hR hl => sim_unlinkEmpty hV hR hl
  | link src dest => exact p_linkOp hV _ src dest (hnames dest (by simp [FullOp.adds]))
  | rename p q => exact p_renameOp hV _ p q (hnames p (by simp [FullOp.adds])) (hnames q (by simp [FullOp.adds]))
  | chmod path m =>
    simp only [vpOp, idealOp, FullOp.prog, withAttr, bind_assoc]
    refine p_with hV _ path false rfl (fun _ => g_code _) fun G h hl => ?_
    dsimp only
    rw [bind_assoc]
    exact PSim.bind1 _ (fun v fs hR hG _ => sim_attr hR (hG _ hl) (.chmod m) trivial fun _ _ => rfl) fun _ _ _ => .ret (g_code _)
  | chown path u g =>
    simp only [vpOp, idealOp, FullOp.prog, withAttr, bind_assoc]
    refine p_with hV _ path false rfl (fun _ => g_code _) fun G h hl => ?_
    dsimp only
    rw [bind_assoc]
    exact PSim.bind1 _ (fun v fs hR hG _ => sim_attr hR (hG _ hl) (.chown u g) trivial fun _ _ => rfl) fun _ _ _ => .ret (g_code _)
  | utimens path garbage ts =>
    simp only [vpOp, idealOp, FullOp.prog, withAttr, bind_assoc]
    refine p_with hV _ path false rfl (fun _ => g_code _) fun G h hl => ?_
    dsimp only
    rw [bind_assoc]
    exact PSim.bind1 _ (fun v fs hR hG _ => sim_attr hR (hG _ hl) (.utimens garbage ts) (htimes path garbage ts rfl) fun _ _ => rfl)
      fun _ _ _ => .ret (g_code _)
  | getattr path =>
    simp only [vpOp, idealOp, fullGetattr, bind_assoc]
    refine p_with hV _ path false rfl (fun _ => g_stat_none _) fun G h hl => ?_
    dsimp only
    rw [bind_assoc]
    exact PSim.bind1 _ (fun v fs hR hG _ => sim_stat hV hR (hG _ hl)) fun _ _ hs => .ret (g_stat _ hs)
  | «open» path trunc =>
    simp only [vpOp, idealOp, fullOpen, bind_assoc]
    refine p_with hV _ path true rfl (fun _ => g_handle_none _) fun G h hl => ?_
    dsimp only
    cases trunc with
    | false => exact .ret (g_handle _ hl)
    | true =>
      rw [if_pos rfl, if_pos rfl, bind_assoc]
      exact PSim.bind1 _ (fun v fs hR hG _ => sim_truncate hV hR (hG _ hl) 0 (Nat.zero_le _)) fun _ _ _ => .ret (g_handle _ hl)
  | readlink path size =>
    simp only [vpOp, idealOp, fullReadlink]
    by_cases h0 : size = 0
    · rw [if_pos h0, if_pos h0]
      exact .ret (g_bytes _ _)
    · rw [if_neg h0, if_neg h0]
      by_cases h1 : path = [slash]
      · rw [if_pos h1, if_pos h1]
        exact .ret (g_bytes _ _)
      · rw [if_neg h1, if_neg h1, bind_assoc]
        refine p_with hV _ path false rfl (fun _ => g_bytes _ _) fun G h hl => ?_
        dsimp only
        rw [bind_assoc]
        exact PSim.bind1 _ (fun v fs hR hG _ => sim_linkGet hV hR (hG _ hl)) fun a b hab => by
          subst hab
          exact .ret (g_bytes _ _)
  | opendir path =>
    simp only [vpOp, idealOp, fullOpendir, bind_assoc]
    refine p_with hV _ path true rfl (fun _ => g_handle_none _) fun G h hl => ?_
    dsimp only
    by_cases h1 : h.cls ≠ typeDirectory
    · rw [if_pos h1, if_pos h1]
      exact .ret (g_handle_none _)
    · rw [if_neg h1, if_neg h1]
      exact .ret (g_handle _ hl)
  | truncate path n =>
    simp only [vpOp, idealOp, FullOp.prog, fullTruncate, bind_assoc]
    refine p_with hV _ path true rfl (fun _ => g_code _) fun G h hl => ?_
    dsimp only
    rw [bind_assoc]
    exact PSim.bind1 _ (fun v fs hR hG _ => sim_truncate hV hR (hG _ hl) n hsize) fun _ _ _ => .ret (g_code _)
  | read h off len =>
    simp only [vpOp, idealOp, fullRead, bind_assoc]
    exact PSim.bind1 _ (fun v fs hR hG _ => sim_read hV hR (hG h List.mem_cons_self) off len hsize) fun a b hab => by
      subst hab
      exact .ret (g_bytes _ _)
  | write h off d =>
    simp only [vpOp, idealOp, FullOp.prog, fullWrite, bind_assoc]
    exact PSim.bind1 _ (fun v fs hR hG _ => sim_write hV hR (hG h List.mem_cons_self) off d hsize) fun _ _ _ => .ret (g_code _)
  | ftruncate h n =>
    simp only [vpOp, idealOp, FullOp.prog, fullFtruncate, bind_assoc]
    exact PSim.bind1 _ (fun v fs hR hG _ => sim_truncate hV hR (hG h List.mem_cons_self) n hsize) fun _ _ _ => .ret (g_code _)
  | fgetattr h =>
    simp only [vpOp, idealOp, fullFgetattr, bind_assoc]
    exact PSim.bind1 _ (fun v fs hR hG _ => sim_stat hV hR (hG h List.mem_cons_self)) fun _ _ hs => .ret (g_stat _ hs)
  | readdir h fill =>
    simp only [vpOp, idealOp, fullReaddir]
    by_cases h1 : h.cls ≠ typeDirectory
    · rw [if_pos h1, if_pos h1]
      exact .ret (g_items _ (.refl _))
    · rw [if_neg h1, if_neg h1, bind_assoc]
      exact PSim.bind1 _ (fun v fs hR hG _ => sim_readdir hV hR fill (hG h List.mem_cons_self)) fun _ _ hs => .ret (g_items _ hs)
  | flush h =>
    simp only [vpOp, idealOp, FullOp.prog, fullFlush, bind_assoc]
    exact PSim.bind1 _ (fun v fs hR hG _ => sim_flush hV hR (hG h List.mem_cons_self)) fun _ _ _ => .ret (g_code _)
  | fsync h =>
    simp only [vpOp, idealOp, FullOp.prog, fullFsync, bind_assoc]
    exact PSim.bind1 _ (fun v fs hR hG _ => sim_fsync hR (hG h List.mem_cons_self)) fun _ _ _ => .ret (g_code _)

end

end Securefs.Vt
