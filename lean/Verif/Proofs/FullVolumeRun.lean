import Verif.Proofs.FullVolumeSim
/-! Helper lemmas: the operations of a volume and those of the ideal file system. -/

namespace Securefs.Vol

open Securefs Spec FileEnv

variable {V : VolEnv} {τ : Bytes → Nat}

/-! ## Programs -/

theorem along_bind {α β : Type} {P : FullFs → Prop} {g : α → Prog β} : ∀ {p : Prog α} {fs : FullFs}, Along P (p.bind g) fs →
    Along P p fs ∧ ∀ a fs', p.run fs = (.ok a, fs') → Along P (g a) fs'
  | .ret a, fs, h => ⟨trivial, fun b fs' e => by simp only [Prog.run] at e; injection e with e1 e2; injection e1 with e1; subst e1 e2; exact h⟩
  | .throw _, _, _ => ⟨trivial, fun b fs' e => by simp only [Prog.run] at e; injection e with e1 e2; cases e1⟩
  | .sec f k, fs, h => by
    obtain ⟨h1, h2⟩ := h
    refine ⟨⟨h1, fun b hb => (along_bind (h2 b hb)).1⟩, fun a fs' e => ?_⟩
    cases hf : f fs with
    | mk r fs1 =>
      simp only [Prog.run, hf] at e
      cases r with
      | error er => cases e
      | ok b =>
        have := (along_bind (h2 b (by rw [hf]))).2 a fs'
        rw [hf] at this
        exact this e

theorem along_one {β : Type} {P : FullFs → Prop} {f : Sec β} {fs : FullFs} (h : Along P (Prog.one f) fs) : P fs := h.1

theorem bind_assoc {α β γ : Type} (f : α → Prog β) (g : β → Prog γ) : ∀ p : Prog α, (p.bind f).bind g = p.bind fun a => (f a).bind g
  | .ret _ => rfl
  | .throw _ => rfl
  | .sec s k => by
    simp only [Prog.bind]
    congr 1
    funext b
    exact bind_assoc f g (k b)

theorem Out.bindP {α β γ δ : Type} {Q : α → β → FullVol → FullFs → Prop} {Q' : γ → δ → FullVol → FullFs → Prop} {v : FullVol} {fs : FullFs}
    {m : VM α} {f : α → VM γ} {p : Prog β} {g : β → Prog δ} (h : Out V τ Q v fs (m v) (p.run fs))
    (hok : ∀ a b v' fs', p.run fs = (.ok b, fs') → R V τ v' fs' → Mono v fs v' fs' → Q a b v' fs' → Out V τ Q' v' fs' (f a v') ((g b).run fs')) :
    Out V τ Q' v fs (VM.bind m f v) ((p.bind g).run fs) := by
  refine Out.bind h (fun a b v' fs' e hR hM hQ => ?_) (fun e fs' he => ?_)
  · rw [run_bind_ok e]; exact hok a b v' fs' e hR hM hQ
  · exact run_bind_error he

theorem Out.bind1 {α β γ δ : Type} {Q : α → β → FullVol → FullFs → Prop} {Q' : γ → δ → FullVol → FullFs → Prop} {v : FullVol} {fs : FullFs}
    {m : VM α} {f : α → VM γ} {s : Sec β} {g : β → Prog δ} (h : Out V τ Q v fs (m v) (s fs))
    (hok : ∀ a b v' fs', s fs = (.ok b, fs') → R V τ v' fs' → Mono v fs v' fs' → Q a b v' fs' → Out V τ Q' v' fs' (f a v') ((g b).run fs')) :
    Out V τ Q' v fs (VM.bind m f v) (((Prog.one s).bind g).run fs) :=
  Out.bindP (by rw [run_one]; exact h) (by rw [run_one]; exact hok)

theorem Out.throw {α β : Type} {Q : α → β → FullVol → FullFs → Prop} {v : FullVol} {fs : FullFs} (hR : R V τ v fs) (e : Err) :
    Out V τ Q v fs ((VM.throw e : VM α) v) ((Prog.throw e : Prog β).run fs) := Out.err hR e

theorem Out.retP {α β : Type} {Q : α → β → FullVol → FullFs → Prop} {v : FullVol} {fs : FullFs} (hR : R V τ v fs) {a : α} {b : β} (hq : Q a b v fs) :
    Out V τ Q v fs (VM.ret a v) ((Prog.ret b).run fs) := ⟨hR, Mono.refl _ _, hq⟩

section
variable (hV : VolEnvOk V)
include hV

/-! ## Paths -/

/-- Two handles, in memory. -/
def FoundQ (a b : Option FH) (v : FullVol) (_ : FullFs) : Prop := a = b ∧ ∀ h, a = some h → LiveIs v h

theorem sim_walk {rec : Bytes → FH → List Bytes → VM (Option FH)} {rec' : Bytes → FH → List Bytes → Prog (Option FH)}
    (hrec : ∀ v fs h l, R V τ v fs → LiveIs v h → Out V τ FoundQ v fs (rec h.id h l v) ((rec' h.id h l).run fs)) :
    ∀ (l : List Bytes) (v : FullVol) (fs : FullFs) (h : FH), R V τ v fs → LiveIs v h →
      Out V τ FoundQ v fs (volWalk V rec h.id h l v) ((walk (idealCfg V) rec' h.id h l).run fs)
  | [], v, fs, h, hR, hl => Out.retP hR ⟨rfl, fun _ e => by injection e with e; subst e; exact hl⟩
  | s :: rest, v, fs, h, hR, hl => by
    rw [volWalk, walk]
    by_cases h1 : s = dotName
    · rw [if_pos h1, if_pos h1]
      exact sim_walk hrec rest v fs h hR hl
    · rw [if_neg h1, if_neg h1]
      by_cases h2 : s = dotDotName
      · rw [if_pos h2, if_pos h2]
        refine Out.bind1 (sim_getParent hR hl) fun p p' v1 fs1 _ hR1 hM1 ⟨hp, hdir⟩ => ?_
        subst hp
        refine Out.bind1 (sim_openAs hR1 hdir) fun a b v2 fs2 _ hR2 hM2 ⟨ha, ha', hl2⟩ => ?_
        subst ha
        subst ha'
        exact sim_walk hrec rest v2 fs2 _ hR2 hl2
      · rw [if_neg h2, if_neg h2]
        refine Out.bind1 (sim_get hV hR hl s) fun p p' v1 fs1 _ hR1 hM1 ⟨hp, hdir, hkind⟩ => ?_
        subst hp
        cases p with
        | none => exact Out.retP hR1 ⟨rfl, fun _ e => by cases e⟩
        | some e =>
          have hk := hkind e rfl
          refine Out.bind1 (sim_openAs hR1 hk) fun a b v2 fs2 _ hR2 hM2 ⟨ha, ha', hl2⟩ => ?_
          subst ha
          subst ha'
          refine Out.bind1 (sim_setParent hR2 hl2 hdir) fun _ _ v3 fs3 _ hR3 hM3 _ => ?_
          have hl3 := hM3.live _ hl2
          by_cases hs : e.type = typeSymlink
          · rw [if_pos hs, if_pos hs]
            refine Out.bind1 (sim_linkGet hV hR3 hl3) fun t t' v4 fs4 _ hR4 hM4 ht => ?_
            subst ht
            have hl4 := hM4.live _ (hM3.live _ (hM2.live _ (hM1.live _ hl)))
            refine Out.bindP (hrec v4 fs4 h (splitPath t) hR4 hl4) fun c c' v5 fs5 _ hR5 hM5 ⟨hc, hcl⟩ => ?_
            subst hc
            cases c with
            | none => exact Out.retP hR5 ⟨rfl, fun _ e => by cases e⟩
            | some c => exact sim_walk hrec rest v5 fs5 c hR5 (hcl c rfl)
          · rw [if_neg hs, if_neg hs]
            exact sim_walk hrec rest v3 fs3 ⟨e.id, e.type⟩ hR3 hl3

theorem sim_genericOpen : ∀ (d : Nat) (v : FullVol) (fs : FullFs) (h : FH) (l : List Bytes), R V τ v fs → LiveIs v h →
    Out V τ FoundQ v fs (volGenericOpen V d h.id h l v) ((genericOpen (idealCfg V) d h.id h l).run fs)
  | 0, v, fs, h, l, hR, _ => Out.throw hR _
  | d + 1, v, fs, h, l, hR, hl => sim_walk hV (fun v fs h l hR hl => sim_genericOpen d v fs h l hR hl) l v fs h hR hl

omit hV in
theorem splitSlash_mem : ∀ (l cur s : Bytes), s ∈ splitSlash cur l → ∀ c ∈ s, c ∈ cur ∨ c ∈ l
  | [], cur, s, h, c, hc => by
    simp only [splitSlash, List.mem_singleton] at h
    subst h
    exact .inl hc
  | x :: l, cur, s, h, c, hc => by
    rw [splitSlash] at h
    split at h
    · rcases List.mem_cons.1 h with rfl | h
      · exact .inl hc
      · rcases splitSlash_mem l [] s h c hc with h | h
        · cases h
        · exact .inr (List.mem_cons_of_mem _ h)
    · rcases splitSlash_mem l _ s h c hc with h | h
      · rcases List.mem_append.1 h with h | h
        · exact .inl h
        · rw [List.mem_singleton] at h
          subst h
          exact .inr List.mem_cons_self
      · exact .inr (List.mem_cons_of_mem _ h)

omit hV in
theorem last_clean {path last : Bytes} (h : (splitPath path).getLast? = some last) (hz : (0 : UInt8) ∉ path) : (0 : UInt8) ∉ last := by
  have hm : last ∈ splitPath path := List.mem_of_getLast? h
  unfold splitPath at hm
  intro h0
  rcases splitSlash_mem path [] last (List.mem_filter.1 hm).1 0 h0 with h | h
  · cases h
  · exact hz h

/-- The directory of a path, and the last part. -/
def BaseQ (path : Bytes) (a b : FH × Bytes) (v : FullVol) (_ : FullFs) : Prop := a = b ∧ LiveIs v a.1 ∧ ((0 : UInt8) ∉ path → (0 : UInt8) ∉ a.2)

theorem sim_openBase {v : FullVol} {fs : FullFs} (hR : R V τ v fs) (path : Bytes) :
    Out V τ (BaseQ path) v fs (volOpenBase V path v) ((openBase (idealCfg V) path).run fs) := by
  unfold volOpenBase openBase
  refine Out.bind1 (sim_openAs hR (hR.kind_live hR.root)) fun a b v1 fs1 _ hR1 hM1 ⟨ha, ha', hl1⟩ => ?_
  · subst ha
    subst ha'
    cases hlast : (splitPath path).getLast? with
    | none => exact Out.retP hR1 ⟨rfl, hl1, fun _ h => by cases h⟩
    | some last =>
      dsimp only
      by_cases h1 : (splitPath path).length = 1
      · rw [if_pos h1, if_pos h1]
        exact Out.retP hR1 ⟨rfl, hl1, fun hz => last_clean hlast hz⟩
      · rw [if_neg h1, if_neg h1]
        refine Out.bindP (sim_genericOpen hV maxDepth v1 fs1 ⟨kRootId, typeDirectory⟩ _ hR1 hl1) fun c c' v2 fs2 _ hR2 hM2 ⟨hc, hcl⟩ => ?_
        subst hc
        cases c with
        | none => exact Out.throw hR2 _
        | some c => exact Out.retP hR2 ⟨rfl, hcl c rfl, fun hz => last_clean hlast hz⟩

theorem sim_openAll {v : FullVol} {fs : FullFs} (hR : R V τ v fs) (path : Bytes) (rl : Bool) :
    Out V τ FoundQ v fs (volOpenAll V path rl v) ((openAll (idealCfg V) path rl).run fs) := by
  unfold volOpenAll openAll
  by_cases hp : path = [] ∨ path = [slash]
  · rw [if_pos hp, if_pos hp]
    refine Out.bind1 (sim_openAs hR (hR.kind_live hR.root)) fun a b v1 fs1 _ hR1 hM1 ⟨ha, ha', hl1⟩ => ?_
    subst ha
    exact Out.retP hR1 ⟨rfl, fun h e => by injection e with e; subst e; exact hl1⟩
  · rw [if_neg hp, if_neg hp]
    refine Out.bindP (sim_openBase hV hR path) fun a b v1 fs1 _ hR1 hM1 ⟨ha, hl1, _⟩ => ?_
    subst ha
    obtain ⟨base, last⟩ := a
    dsimp only at hl1 ⊢
    refine Out.bind1 (sim_get hV hR1 hl1 last) fun p p' v2 fs2 _ hR2 hM2 ⟨hp, hdir, hkind⟩ => ?_
    subst hp
    cases p with
    | none => exact Out.retP hR2 ⟨rfl, fun _ e => by cases e⟩
    | some e =>
      have hk := hkind e rfl
      refine Out.bind1 (sim_openAs hR2 hk) fun a b v3 fs3 _ hR3 hM3 ⟨ha, ha', hl3⟩ => ?_
      subst ha
      subst ha'
      refine Out.bind1 (sim_setParent hR3 hl3 hdir) fun _ _ v4 fs4 _ hR4 hM4 _ => ?_
      have hl4 := hM4.live _ hl3
      dsimp only
      by_cases hs : rl = true ∧ e.type = typeSymlink
      · rw [if_pos hs, if_pos hs]
        refine Out.bind1 (sim_linkGet hV hR4 hl4) fun t t' v5 fs5 _ hR5 hM5 ht => ?_
        subst ht
        exact sim_genericOpen hV maxDepth v5 fs5 base _ hR5 (hM5.live _ (hM4.live _ (hM3.live _ (hM2.live _ hl1))))
      · rw [if_neg hs, if_neg hs]
        exact Out.retP hR4 ⟨rfl, fun h e => by injection e with e; subst e; exact hl4⟩

theorem sim_createFile {v : FullVol} {fs : FullFs} (hR : R V τ v fs) (path : Bytes) (mode : UInt32) {type : Nat} (hgood : GoodCls type) (uid gid : UInt32)
    (newId : Bytes) (hz : (0 : UInt8) ∉ path) (hkind : fs.get newId = none → newId.length = 32 ∧ τ newId = type)
    (hroom : Along DirRoom (createFile (idealCfg V) path mode type uid gid newId) fs) :
    Out V τ (fun a b v' _ => a = b ∧ LiveIs v' a) v fs (volCreateFile V path mode type uid gid newId v)
      ((createFile (idealCfg V) path mode type uid gid newId).run fs) := by
  unfold volCreateFile
  unfold createFile at hroom ⊢
  refine Out.bindP (sim_openBase hV hR path) fun a b v1 fs1 e1 hR1 hM1 ⟨ha, hl1, hz1⟩ => ?_
  subst ha
  replace hroom := (along_bind hroom).2 _ _ e1
  obtain ⟨base, last⟩ := a
  dsimp only at hl1 hz1 hroom ⊢
  refine Out.bind1 (sim_create hV hR1 hgood
    (fun hx => let ⟨h1, h2⟩ := hkind (hM1.keep _ hx); ⟨hgood, h1, h2.symm⟩) mode uid gid) fun a b v2 fs2 e2 hR2 hM2 ⟨ha, ha', hl2⟩ => ?_
  subst ha
  subst ha'
  replace hroom := (along_bind hroom).2 _ _ (by rw [run_one]; exact e2)
  have hr2 : DirRoom fs2 := along_one (along_bind hroom).1
  refine Out.bind1 (sim_add hV hR2 (hM2.live _ hl1) ⟨last, newId, type⟩ (hR2.kind_live hl2) (hz1 hz) (fun n hn => by have := hr2 _ _ hn; omega))
    fun a b v3 fs3 e3 hR3 hM3 ⟨ha, hdir⟩ => ?_
  subst ha
  have hl3 := hM3.live _ hl2
  cases a with
  | true =>
    rw [if_pos rfl, if_pos rfl]
    refine Out.bind1 (sim_setParent hR3 hl3 hdir) fun _ _ v4 fs4 _ hR4 hM4 _ => ?_
    exact Out.retP hR4 ⟨rfl, hM4.live _ hl3⟩
  | false =>
    rw [if_neg (by decide), if_neg (by decide)]
    refine Out.bind1 (sim_attr hR3 hl3 .unlink trivial fun _ _ => rfl) fun _ _ v4 fs4 _ hR4 hM4 _ => ?_
    exact Out.throw hR4 _

/-! ## Operations -/

omit hV in
theorem like_refl (a : VolAnswer) : VolAnswerLike a a := by
  cases a with
  | stat n s =>
    cases s with
    | none => rfl
    | some s => exact ⟨rfl, rfl, rfl, rfl, rfl, rfl, fun _ => ⟨rfl, rfl⟩⟩
  | items n l => exact ⟨rfl, .refl _⟩
  | _ => rfl

/-- Two answers, with a handle that is in memory. -/
def AnsQ (a b : VolAnswer) (v : FullVol) (_ : FullFs) : Prop := VolAnswerLike a b ∧ ∀ h, VolAnswer.given (.ok a) = some h → LiveIs v h

omit hV in
theorem ans_code {v : FullVol} {fs : FullFs} (n : Int) : AnsQ (.code n) (.code n) v fs := ⟨rfl, fun _ e => by cases e⟩

omit hV in
theorem ans_bytes {v : FullVol} {fs : FullFs} (n : Int) (d : Bytes) : AnsQ (.bytes n d) (.bytes n d) v fs := ⟨rfl, fun _ e => by cases e⟩

omit hV in
theorem ans_handle {v : FullVol} {fs : FullFs} (n : Int) {h : FH} (hl : LiveIs v h) : AnsQ (.handle n (some h)) (.handle n (some h)) v fs :=
  ⟨rfl, fun _ e => by injection e with e; subst e; exact hl⟩

omit hV in
theorem ans_handle_none {v : FullVol} {fs : FullFs} (n : Int) : AnsQ (.handle n none) (.handle n none) v fs := ⟨rfl, fun _ e => by cases e⟩

omit hV in
theorem ans_stat_none {v : FullVol} {fs : FullFs} (n : Int) : AnsQ (.stat n none) (.stat n none) v fs := ⟨rfl, fun _ e => by cases e⟩

omit hV in
theorem ans_stat {v : FullVol} {fs : FullFs} (n : Int) {a b : FullStat} (h : StatLike a b) : AnsQ (.stat n (some a)) (.stat n (some b)) v fs :=
  ⟨⟨rfl, h⟩, fun _ e => by cases e⟩

omit hV in
theorem ans_items {v : FullVol} {fs : FullFs} (n : Int) {a b : List DirItem} (h : a.Perm b) : AnsQ (.items n a) (.items n b) v fs :=
  ⟨⟨rfl, h⟩, fun _ e => by cases e⟩

theorem sim_with {v : FullVol} {fs : FullFs} (hR : R V τ v fs) (path : Bytes) (rl : Bool) {absent : VolAnswer} {f : FH → VM VolAnswer}
    {k : Option FH → Prog VolAnswer} (hn : k none = .ret absent) (ha : ∀ v fs, AnsQ absent absent v fs)
    (hs : ∀ h v' fs', (openAll (idealCfg V) path rl).run fs = (.ok (some h), fs') → R V τ v' fs' → Mono v fs v' fs' → LiveIs v' h →
      Out V τ AnsQ v' fs' (f h v') ((k (some h)).run fs')) :
    Out V τ AnsQ v fs (volWith V path rl absent f v) (((openAll (idealCfg V) path rl).bind k).run fs) := by
  unfold volWith
  refine Out.bindP (sim_openAll hV hR path rl) fun a b v1 fs1 e1 hR1 hM1 ⟨hab, hl⟩ => ?_
  subst hab
  cases a with
  | none =>
    rw [hn]
    exact Out.retP hR1 (ha _ _)
  | some h => exact hs h v1 fs1 e1 hR1 hM1 (hl h rfl)

theorem sim_removeName {v : FullVol} {fs : FullFs} (hR : R V τ v fs) (path : Bytes) {f : FH → VM Unit} {s : FH → Sec Unit}
    (hs : ∀ h v' fs', R V τ v' fs' → LiveIs v' h → Out V τ (fun _ _ _ _ => True) v' fs' (f h v') (s h fs')) :
    Out V τ AnsQ v fs (volRemoveName V path f v) (((((openBase (idealCfg V) path).bind fun (dir, last) =>
      (Prog.one (secRemove (idealCfg V) dir last)).bind fun r =>
      match r with
      | none => .ret (-2)
      | some e =>
        (Prog.one (secOpenAs e.id e.type)).bind fun fp =>
        (Prog.one (s fp)).bind fun _ => .ret 0) : Prog Int).bind fun n => .ret (.code n)).run fs) := by
  unfold volRemoveName
  rw [bind_assoc]
  refine Out.bindP (sim_openBase hV hR path) fun a b v1 fs1 e1 hR1 hM1 ⟨hab, hl1, _⟩ => ?_
  subst hab
  obtain ⟨dir, last⟩ := a
  dsimp only at hl1 ⊢
  rw [bind_assoc]
  refine Out.bind1 (sim_remove hV hR1 hl1 last) fun a b v2 fs2 e2 hR2 hM2 ⟨hab, hk⟩ => ?_
  subst hab
  cases a with
  | none => exact Out.retP hR2 (ans_code _)
  | some e =>
    dsimp only
    have hk := hk e rfl
    rw [bind_assoc]
    refine Out.bind1 (sim_openAs hR2 hk) fun a b v3 fs3 _ hR3 hM3 ⟨ha, ha', hl3⟩ => ?_
    subst ha
    subst ha'
    rw [bind_assoc]
    refine Out.bind1 (hs _ v3 fs3 hR3 hl3) fun _ _ v4 fs4 _ hR4 hM4 _ => ?_
    exact Out.retP hR4 (ans_code _)

theorem sim_renameOp {v : FullVol} {fs : FullFs} (hR : R V τ v fs) (p q : Bytes) (hzp : (0 : UInt8) ∉ p) (hzq : (0 : UInt8) ∉ q)
    (hroom : Along DirRoom (vrename (idealCfg V) p q) fs) :
    Out V τ AnsQ v fs (volRenameOp V p q v) (((vrename (idealCfg V) p q).bind fun n => .ret (.code n)).run fs) := by
  unfold volRenameOp
  unfold vrename at hroom ⊢
  rw [bind_assoc]
  refine Out.bindP (sim_openBase hV hR p) fun a b v1 fs1 e1 hR1 hM1 ⟨hab, hl1, hz1⟩ => ?_
  subst hab
  replace hroom := (along_bind hroom).2 _ _ e1
  obtain ⟨bf, lf⟩ := a
  dsimp only at hl1 hz1 hroom ⊢
  rw [bind_assoc]
  refine Out.bindP (sim_openBase hV hR1 q) fun a b v2 fs2 e2 hR2 hM2 ⟨hab, hl2, hz2⟩ => ?_
  subst hab
  replace hroom := (along_bind hroom).2 _ _ e2
  obtain ⟨bt, lt⟩ := a
  dsimp only at hl2 hz2 hroom ⊢
  rw [bind_assoc]
  refine Out.bind1 (sim_rename hV hR2 (hM2.live _ hl1) hl2 lf lt (hz1 hzp) (hz2 hzq) (along_one (along_bind hroom).1))
    fun a b v3 fs3 e3 hR3 hM3 ⟨hab, hk⟩ => ?_
  subst hab
  cases a with
  | missing => exact Out.retP hR3 (ans_code _)
  | done => exact Out.retP hR3 (ans_code _)
  | replaced e =>
    dsimp only
    have hk := hk e rfl
    rw [bind_assoc]
    refine Out.bind1 (sim_openAs hR3 hk) fun a b v4 fs4 _ hR4 hM4 ⟨ha, ha', hl4⟩ => ?_
    subst ha
    subst ha'
    rw [bind_assoc]
    refine Out.bind1 (sim_attr hR4 hl4 .unlink trivial fun _ _ => rfl) fun _ _ v5 fs5 _ hR5 hM5 _ => ?_
    exact Out.retP hR5 (ans_code _)

theorem sim_linkOp {v : FullVol} {fs : FullFs} (hR : R V τ v fs) (src dest : Bytes) (hz : (0 : UInt8) ∉ dest)
    (hroom : Along DirRoom (vlink (idealCfg V) src dest) fs) :
    Out V τ AnsQ v fs (volLinkOp V src dest v) (((vlink (idealCfg V) src dest).bind fun n => .ret (.code n)).run fs) := by
  unfold volLinkOp
  unfold vlink at hroom ⊢
  rw [bind_assoc]
  refine sim_with hV hR src true rfl (fun _ _ => ans_code _) fun h v1 fs1 e1 hR1 hM1 hl1 => ?_
  replace hroom := (along_bind hroom).2 _ _ e1
  dsimp only at hroom ⊢
  rw [bind_assoc]
  refine Out.bindP (sim_openBase hV hR1 dest) fun a b v2 fs2 e2 hR2 hM2 ⟨hab, hl2, hz2⟩ => ?_
  subst hab
  replace hroom := (along_bind hroom).2 _ _ e2
  obtain ⟨base, last⟩ := a
  dsimp only at hl2 hz2 hroom ⊢
  rw [bind_assoc]
  refine Out.bind1 (sim_link hV hR2 hl2 (hM2.live _ hl1) last (hz2 hz) (along_one (along_bind hroom).1)) fun a b v3 fs3 e3 hR3 hM3 hab => ?_
  subst hab
  exact Out.retP hR3 (ans_code _)

theorem sim_op {v : FullVol} {I : IdealVol} (hR : R V τ v I.fs) (hheld : ∀ h ∈ I.held, LiveIs v h) {op : FullOp} (hw : OpFits V.env (idealCfg V) τ I op) :
    Out V τ AnsQ v I.fs (volOp V op v) ((idealOp (idealCfg V) op).run I.fs) := by
  obtain ⟨fs, held⟩ := I
  have hh := hw.handle
  have hnames := hw.names
  have hids := hw.kinds
  have hsize := hw.size
  have hdirs := hw.dirs
  have htimes := hw.times
  dsimp only at hR hheld hdirs hids hh ⊢
  cases op with
  | create path mode uid gid newId =>
    simp only [volOp, idealOp, fullCreate, bind_assoc]
    refine Out.bindP (sim_createFile hV hR path mode (.inr (.inl rfl)) uid gid newId (hnames path (by simp [FullOp.adds])) (hids newId _ rfl) (along_bind hdirs).1)
      fun a b v1 fs1 _ hR1 hM1 ⟨hab, hl⟩ => ?_
    subst hab
    exact Out.retP hR1 (ans_handle _ hl)
  | mkdir path mode uid gid newId =>
    simp only [volOp, idealOp, FullOp.prog, vmkdir, bind_assoc]
    refine Out.bindP (sim_createFile hV hR path mode (.inl rfl) uid gid newId (hnames path (by simp [FullOp.adds])) (hids newId _ rfl) (along_bind hdirs).1)
      fun a b v1 fs1 _ hR1 hM1 ⟨hab, hl⟩ => ?_
    exact Out.retP hR1 (ans_code _)
  | symlink target path uid gid newId =>
    simp only [volOp, idealOp, FullOp.prog, vsymlink, bind_assoc]
    refine Out.bindP (sim_createFile hV hR path _ (.inr (.inr rfl)) uid gid newId (hnames path (by simp [FullOp.adds])) (hids newId _ rfl) (along_bind hdirs).1)
      fun a b v1 fs1 _ hR1 hM1 ⟨hab, hl⟩ => ?_
    subst hab
    refine Out.bind1 (sim_linkSet hV hR1 hl target hsize) fun _ _ v2 fs2 _ hR2 hM2 _ => ?_
    exact Out.retP hR2 (ans_code _)
  | unlink path => exact sim_removeName hV hR path (s := secUnlink) fun h v fs hR hl => sim_attr hR hl .unlink trivial fun _ _ => rfl
  | rmdir path => exact sim_removeName hV hR path (s := secUnlinkEmpty (idealCfg V)) fun h v fs hR hl => sim_unlinkEmpty hV hR hl
  | link src dest => exact sim_linkOp hV hR src dest (hnames dest (by simp [FullOp.adds])) hdirs
  | rename p q => exact sim_renameOp hV hR p q (hnames p (by simp [FullOp.adds])) (hnames q (by simp [FullOp.adds])) hdirs
  | chmod path m =>
    simp only [volOp, idealOp, FullOp.prog, withAttr, bind_assoc]
    refine sim_with hV hR path false rfl (fun _ _ => ans_code _) fun h v1 fs1 e1 hR1 hM1 hl1 => ?_
    dsimp only
    rw [bind_assoc]
    exact Out.bind1 (sim_attr hR1 hl1 (.chmod m) trivial fun _ _ => rfl) fun _ _ v2 fs2 _ hR2 hM2 _ => Out.retP hR2 (ans_code _)
  | chown path u g =>
    simp only [volOp, idealOp, FullOp.prog, withAttr, bind_assoc]
    refine sim_with hV hR path false rfl (fun _ _ => ans_code _) fun h v1 fs1 e1 hR1 hM1 hl1 => ?_
    dsimp only
    rw [bind_assoc]
    exact Out.bind1 (sim_attr hR1 hl1 (.chown u g) trivial fun _ _ => rfl) fun _ _ v2 fs2 _ hR2 hM2 _ => Out.retP hR2 (ans_code _)
  | utimens path garbage ts =>
    simp only [volOp, idealOp, FullOp.prog, withAttr, bind_assoc]
    refine sim_with hV hR path false rfl (fun _ _ => ans_code _) fun h v1 fs1 e1 hR1 hM1 hl1 => ?_
    dsimp only
    rw [bind_assoc]
    exact Out.bind1 (sim_attr hR1 hl1 (.utimens garbage ts) (htimes path garbage ts rfl) fun _ _ => rfl)
      fun _ _ v2 fs2 _ hR2 hM2 _ => Out.retP hR2 (ans_code _)
  | getattr path =>
    simp only [volOp, idealOp, fullGetattr, bind_assoc]
    refine sim_with hV hR path false rfl (fun _ _ => ans_stat_none _) fun h v1 fs1 e1 hR1 hM1 hl1 => ?_
    dsimp only
    rw [bind_assoc]
    exact Out.bind1 (sim_stat hV hR1 hl1) fun _ _ v2 fs2 _ hR2 hM2 hs => Out.retP hR2 (ans_stat _ hs)
  | «open» path trunc =>
    simp only [volOp, idealOp, fullOpen, bind_assoc]
    refine sim_with hV hR path true rfl (fun _ _ => ans_handle_none _) fun h v1 fs1 e1 hR1 hM1 hl1 => ?_
    dsimp only
    cases trunc with
    | false => exact Out.retP hR1 (ans_handle _ hl1)
    | true =>
      rw [if_pos rfl, if_pos rfl, bind_assoc]
      exact Out.bind1 (sim_truncate hV hR1 hl1 0 (Nat.zero_le _)) fun _ _ v2 fs2 _ hR2 hM2 _ => Out.retP hR2 (ans_handle _ (hM2.live _ hl1))
  | readlink path size =>
    simp only [volOp, idealOp, fullReadlink]
    by_cases h0 : size = 0
    · rw [if_pos h0, if_pos h0]
      exact Out.retP hR (ans_bytes _ _)
    · rw [if_neg h0, if_neg h0]
      by_cases h1 : path = [slash]
      · rw [if_pos h1, if_pos h1]
        exact Out.retP hR (ans_bytes _ _)
      · rw [if_neg h1, if_neg h1, bind_assoc]
        refine sim_with hV hR path false rfl (fun _ _ => ans_bytes _ _) fun h v1 fs1 e1 hR1 hM1 hl1 => ?_
        dsimp only
        rw [bind_assoc]
        exact Out.bind1 (sim_linkGet hV hR1 hl1) fun a b v2 fs2 _ hR2 hM2 hab => by
          subst hab
          exact Out.retP hR2 (ans_bytes _ _)
  | opendir path =>
    simp only [volOp, idealOp, fullOpendir, bind_assoc]
    refine sim_with hV hR path true rfl (fun _ _ => ans_handle_none _) fun h v1 fs1 e1 hR1 hM1 hl1 => ?_
    dsimp only
    by_cases h1 : h.cls ≠ typeDirectory
    · rw [if_pos h1, if_pos h1]
      exact Out.retP hR1 (ans_handle_none _)
    · rw [if_neg h1, if_neg h1]
      exact Out.retP hR1 (ans_handle _ hl1)
  | truncate path n =>
    simp only [volOp, idealOp, FullOp.prog, fullTruncate, bind_assoc]
    refine sim_with hV hR path true rfl (fun _ _ => ans_code _) fun h v1 fs1 e1 hR1 hM1 hl1 => ?_
    dsimp only
    rw [bind_assoc]
    exact Out.bind1 (sim_truncate hV hR1 hl1 n hsize) fun _ _ v2 fs2 _ hR2 hM2 _ => Out.retP hR2 (ans_code _)
  | read h off len =>
    simp only [volOp, idealOp, fullRead, bind_assoc]
    exact Out.bind1 (sim_read hV hR (hheld h (hh h rfl)) off len hsize) fun a b v2 fs2 _ hR2 hM2 hab => by
      subst hab
      exact Out.retP hR2 (ans_bytes _ _)
  | write h off d =>
    simp only [volOp, idealOp, FullOp.prog, fullWrite, bind_assoc]
    exact Out.bind1 (sim_write hV hR (hheld h (hh h rfl)) off d hsize) fun _ _ v2 fs2 _ hR2 hM2 _ => Out.retP hR2 (ans_code _)
  | ftruncate h n =>
    simp only [volOp, idealOp, FullOp.prog, fullFtruncate, bind_assoc]
    exact Out.bind1 (sim_truncate hV hR (hheld h (hh h rfl)) n hsize) fun _ _ v2 fs2 _ hR2 hM2 _ => Out.retP hR2 (ans_code _)
  | fgetattr h =>
    simp only [volOp, idealOp, fullFgetattr, bind_assoc]
    exact Out.bind1 (sim_stat hV hR (hheld h (hh h rfl))) fun _ _ v2 fs2 _ hR2 hM2 hs => Out.retP hR2 (ans_stat _ hs)
  | readdir h fill =>
    simp only [volOp, idealOp, fullReaddir]
    by_cases h1 : h.cls ≠ typeDirectory
    · rw [if_pos h1, if_pos h1]
      exact Out.retP hR (ans_items _ (.refl _))
    · rw [if_neg h1, if_neg h1, bind_assoc]
      exact Out.bind1 (sim_readdir hV hR fill (hheld h (hh h rfl))) fun _ _ v2 fs2 _ hR2 hM2 hs => Out.retP hR2 (ans_items _ hs)
  | flush h =>
    simp only [volOp, idealOp, FullOp.prog, fullFlush, bind_assoc]
    exact Out.bind1 (sim_flush hV hR (hheld h (hh h rfl))) fun _ _ v2 fs2 _ hR2 hM2 _ => Out.retP hR2 (ans_code _)
  | fsync h =>
    simp only [volOp, idealOp, FullOp.prog, fullFsync, bind_assoc]
    exact Out.bind1 (sim_fsync hR (hheld h (hh h rfl))) fun _ _ v2 fs2 _ hR2 hM2 _ => Out.retP hR2 (ans_code _)

end

end Securefs.Vol
