import Verif.Proofs.VolThreads
/-! Helper lemmas: histories of threads on a volume. -/

namespace Securefs.Vt

open Securefs Spec FileEnv Vol

variable {V : VolEnv} {τ : Bytes → Nat}

/-! ## One operation alone -/

theorem vm_assoc {α β γ : Type} (m : VM α) (f : α → VM β) (g : β → VM γ) : VM.bind (VM.bind m f) g = VM.bind m fun a => VM.bind (f a) g := by
  funext v
  rcases h : m v with ⟨e | a, v1⟩
  · simp only [VM.bind, h]
  · simp only [VM.bind, h]

theorem vm_ret {α : Type} (m : VM α) : VM.bind m VM.ret = m := by
  funext v
  rcases h : m v with ⟨e | a, v1⟩
  · simp only [VM.bind, h]
  · simp only [VM.bind, h, VM.ret]

theorem bind_congr {α β : Type} {m : VM α} {f g : α → VM β} (h : ∀ a, f a = g a) : VM.bind m f = VM.bind m g := by
  rw [show f = g from funext h]

theorem run_bind {α β : Type} (f : α → VProg β) : ∀ p : VProg α, (p.bind f).run = VM.bind p.run fun a => (f a).run
  | .ret _ => rfl
  | .throw _ => rfl
  | .sec g k => by
    simp only [VProg.bind, VProg.run]
    rw [vm_assoc]
    congr 1
    funext b
    exact run_bind f (k b)
  | .take g k => by
    simp only [VProg.bind, VProg.run]
    rw [vm_assoc]
    congr 1
    funext b
    exact run_bind f (k b)

theorem run_one {β : Type} (f : VM β) : (VProg.one f).run = f := vm_ret f

theorem run_get (f : VM FH) : (VProg.get f).run = f := vm_ret f

theorem run_ite {α : Type} (c : Prop) [Decidable c] (a b : VProg α) : (if c then a else b).run = if c then a.run else b.run := by
  split <;> rfl

theorem walk_run {rec : Bytes → FH → List Bytes → VProg (Option FH)} {rec' : Bytes → FH → List Bytes → VM (Option FH)}
    (hrec : ∀ p h l, (rec p h l).run = rec' p h l) :
    ∀ (l : List Bytes) (p : Bytes) (h : FH), (vpWalk V rec p h l).run = volWalk V rec' p h l
  | [], p, h => rfl
  | s :: rest, p, h => by
    rw [vpWalk, volWalk]
    simp only [run_ite, run_bind, run_one, run_get, walk_run hrec rest]
    congr 2
    refine bind_congr fun found => ?_
    cases found with
    | none => rfl
    | some e =>
      simp only [run_ite, run_bind, run_one, run_get, walk_run hrec rest, hrec]
      refine bind_congr fun child => bind_congr fun _ => ?_
      congr 1
      refine bind_congr fun target => bind_congr fun c => ?_
      cases c with
      | none => rfl
      | some c => exact walk_run hrec rest _ _

theorem genericOpen_run : ∀ (d : Nat) (p : Bytes) (h : FH) (l : List Bytes), (vpGenericOpen V d p h l).run = volGenericOpen V d p h l
  | 0, _, _, _ => rfl
  | d + 1, p, h, l => walk_run (genericOpen_run d) l p h

theorem openBase_run (path : Bytes) : (vpOpenBase V path).run = volOpenBase V path := by
  unfold vpOpenBase volOpenBase
  rw [run_bind, run_get]
  refine bind_congr fun root => ?_
  cases (splitPath path).getLast? with
  | none => rfl
  | some last =>
    simp only [run_ite, run_bind, genericOpen_run]
    congr 1
    refine bind_congr fun r => ?_
    cases r <;> rfl

theorem openAll_run (path : Bytes) (rl : Bool) : (vpOpenAll V path rl).run = volOpenAll V path rl := by
  unfold vpOpenAll volOpenAll
  simp only [run_ite, run_bind, run_one, run_get, openBase_run]
  congr 1
  refine bind_congr fun a => bind_congr fun found => ?_
  cases found with
  | none => rfl
  | some e =>
    simp only [run_ite, run_bind, run_one, run_get, genericOpen_run]
    rfl

theorem createFile_run (path : Bytes) (mode : UInt32) (type : Nat) (uid gid : UInt32) (newId : Bytes) :
    (vpCreateFile V path mode type uid gid newId).run = volCreateFile V path mode type uid gid newId := by
  unfold vpCreateFile volCreateFile
  simp only [run_ite, run_bind, run_one, run_get, openBase_run]
  rfl

theorem with_run (path : Bytes) (rl : Bool) (absent : VolAnswer) {f : FH → VProg VolAnswer} {f' : FH → VM VolAnswer} (hf : ∀ h, (f h).run = f' h) :
    (vpWith V path rl absent f).run = volWith V path rl absent f' := by
  unfold vpWith volWith
  rw [run_bind, openAll_run]
  refine bind_congr fun o => ?_
  cases o with
  | none => rfl
  | some h => exact hf h

theorem removeName_run (path : Bytes) (f : FH → VM Unit) : (vpRemoveName V path f).run = volRemoveName V path f := by
  unfold vpRemoveName volRemoveName
  simp only [run_bind, run_one, openBase_run]
  refine bind_congr fun a => bind_congr fun r => ?_
  cases r with
  | none => rfl
  | some e =>
    simp only [run_bind, run_one, run_get]
    rfl

theorem renameOp_run (p q : Bytes) : (vpRenameOp V p q).run = volRenameOp V p q := by
  unfold vpRenameOp volRenameOp
  simp only [run_bind, run_one, openBase_run]
  refine bind_congr fun a => bind_congr fun b => bind_congr fun r => ?_
  cases r with
  | replaced e => simp only [run_bind, run_one, run_get]; rfl
  | _ => rfl

theorem op_run (op : FullOp) : (vpOp V op).run = volOp V op := by
  cases op with
  | unlink path => exact removeName_run path _
  | rmdir path => exact removeName_run path _
  | rename p q => exact renameOp_run p q
  | link src dest =>
    refine with_run src true _ fun h => ?_
    simp only [run_bind, run_one, openBase_run]
    rfl
  | create | mkdir | symlink =>
    simp only [vpOp, volOp, run_bind, run_one, createFile_run]
    rfl
  | chmod | chown | utimens | getattr | truncate =>
    refine with_run _ _ _ fun h => ?_
    simp only [run_bind, run_one]
    rfl
  | «open» path trunc =>
    refine with_run _ _ _ fun h => ?_
    simp only [run_ite, run_bind, run_one]
    rfl
  | opendir path =>
    refine with_run _ _ _ fun h => ?_
    simp only [run_ite]
    rfl
  | readlink path size =>
    simp only [vpOp, volOp, run_ite]
    rw [with_run (f' := fun h => (volLinkGet V h).bind fun d => .ret (.bytes 0 (d.take (size - 1)))) path false _ fun h => by
      simp only [run_bind, run_one]
      rfl]
    rfl
  | readdir h fill =>
    simp only [vpOp, volOp, run_ite, run_bind, run_one]
    rfl
  | read | write | ftruncate | fgetattr | flush | fsync =>
    simp only [vpOp, volOp, run_bind, run_one]
    rfl

/-! ## The relation -/

/-- An operation on the volume and one on the ideal volume. -/
inductive TRel (V : VolEnv) (τ : Bytes → Nat) : VolThread → Prog VolAnswer → Prop
  | run {p : VProg VolAnswer} {mine : List FH} {q : Prog VolAnswer} (he : p.ended = false) (h : PSim V τ AnsG mine p q) : TRel V τ ⟨p, mine⟩ q
  | ret {a b : VolAnswer} (h : VolAnswerLike a b) : TRel V τ ⟨.ret a, []⟩ (.ret b)
  | throw (e : Err) : TRel V τ ⟨.throw e, []⟩ (.throw e)

/-- What the operations hold. -/
def mines (l : List VolThread) : List FH := (l.map VolThread.mine).flatten

/-- The volume with its operations, and the ideal volume with its operations. -/
structure SysRel (V : VolEnv) (τ : Bytes → Nat) (s : VolSys) (I : IdealThreads) : Prop where
  rel : R V τ s.vol I.fs
  live : ∀ h ∈ s.vol.held, LiveIs s.vol h
  held : s.vol.held.Perm (I.held ++ mines s.threads)
  threads : List.Forall₂ (TRel V τ) s.threads I.threads

theorem R.withHeld {v : FullVol} {fs : FullFs} (hR : R V τ v fs) (l : List FH) : R V τ { v with held := l } fs :=
  ⟨hR.now, hR.time, hR.nodes, hR.root, hR.typed, hR.parents, hR.ids, hR.uniq⟩

theorem giveBack_perm : ∀ (m l r : List FH), l.Perm (m ++ r) → (giveBack m l).Perm r
  | [], _, _, h => h
  | x :: m, l, r, h => by
    rw [giveBack]
    refine giveBack_perm m _ r ?_
    have := h.erase x
    rwa [List.cons_append, List.erase_cons_head] at this

theorem giveBack_mem : ∀ (m l : List FH) (x : FH), x ∈ giveBack m l → x ∈ l
  | [], _, _, h => h
  | _ :: m, l, x, h => List.mem_of_mem_erase (giveBack_mem m _ x h)

theorem handed_like {a b : VolAnswer} (hl : VolAnswerLike a b) : (VolAnswer.given (.ok a)).toList = handed (.ret b) := by
  cases a with
  | code n => rw [show b = .code n from (by cases b <;> exact Eq.symm hl)]; rfl
  | bytes n d => rw [show b = .bytes n d from (by cases b <;> exact Eq.symm hl)]; rfl
  | handle n d => rw [show b = .handle n d from (by cases b <;> exact Eq.symm hl)]; cases d <;> rfl
  | stat n s =>
    cases s with
    | none => rw [show b = .stat n none from (by cases b <;> exact Eq.symm hl)]; rfl
    | some s =>
      cases b with
      | stat m t => rfl
      | _ => cases hl
  | items n s =>
    cases b with
    | items m t => rfl
    | _ => cases hl

/-- An operation comes to a point. -/
theorem settle {p : VProg VolAnswer} {q : Prog VolAnswer} {mine A rest held : List FH} (h : PSim V τ AnsG mine p q)
    (hp : held.Perm (A ++ (mine ++ rest))) :
    (heldAfter p mine held).Perm ((handed q ++ A) ++ ((threadAt p mine).mine ++ rest)) ∧ (∀ x ∈ heldAfter p mine held, x ∈ held) ∧
      TRel V τ (threadAt p mine) q := by
  have hback : (giveBack mine held).Perm (A ++ rest) := by
    refine giveBack_perm mine held _ (hp.trans ?_)
    rw [← List.append_assoc, ← List.append_assoc]
    exact List.perm_append_comm.append_right _
  have hmine : ∀ x ∈ mine, x ∈ held := fun x hx => hp.mem_iff.2 (List.mem_append_right _ (List.mem_append_left _ hx))
  cases h with
  | ret h =>
    refine ⟨?_, fun x hx => ?_, .ret h.1⟩
    · show (_ ++ giveBack mine held).Perm ((_ ++ A) ++ ([] ++ rest))
      rw [handed_like h.1, List.nil_append, List.append_assoc]
      exact hback.append_left _
    · rcases List.mem_append.1 hx with hx | hx
      · exact hmine x (h.2 x (by simpa using hx))
      · exact giveBack_mem _ _ _ hx
  | throw e => exact ⟨hback, fun x hx => giveBack_mem _ _ _ hx, .throw e⟩
  | sec K hs hk => exact ⟨hp, fun x hx => hx, .run rfl (.sec K hs hk)⟩
  | take K hs hk => exact ⟨hp, fun x hx => hx, .run rfl (.take K hs hk)⟩

theorem mines_set : ∀ {l : List VolThread} {i : Nat} {t : VolThread}, l[i]? = some t →
    ∃ rest, (mines l).Perm (t.mine ++ rest) ∧ ∀ t', (mines (l.set i t')).Perm (t'.mine ++ rest)
  | [], i, t, h => by cases h
  | x :: l, 0, t, h => by
    injection h with h
    subst h
    exact ⟨mines l, .refl _, fun t' => .refl _⟩
  | x :: l, i + 1, t, h => by
    obtain ⟨rest, h1, h2⟩ := mines_set (l := l) (i := i) h
    have swap : ∀ {a b c : List FH}, (a ++ (b ++ c)).Perm (b ++ (a ++ c)) := by
      intro a b c
      rw [← List.append_assoc, ← List.append_assoc]
      exact List.perm_append_comm.append_right _
    exact ⟨x.mine ++ rest, (h1.append_left _).trans swap, fun t' => ((h2 t').append_left _).trans swap⟩

theorem forall2_set {α β : Type _} {P : α → β → Prop} : ∀ {l : List α} {m : List β} (_ : List.Forall₂ P l m) (i : Nat) {a : α} {b : β}, P a b →
    List.Forall₂ P (l.set i a) (m.set i b)
  | _, _, .nil, _, _, _, _ => .nil
  | _, _, .cons _ h, 0, _, _, hab => .cons hab h
  | _, _, .cons h0 h, i + 1, _, _, hab => .cons h0 (forall2_set h i hab)

theorem forall2_get {α β : Type _} {P : α → β → Prop} : ∀ {l : List α} {m : List β} (_ : List.Forall₂ P l m) (i : Nat) {a : α}, l[i]? = some a →
    ∃ b, m[i]? = some b ∧ P a b
  | _, _, .nil, _, _, h => by cases h
  | _, _, .cons h0 _, 0, _, h => by injection h with h; subst h; exact ⟨_, rfl, h0⟩
  | _, _, .cons _ h, i + 1, _, ha => forall2_get h i ha

theorem forall2_none {α β : Type _} {P : α → β → Prop} {l : List α} {m : List β} (h : List.Forall₂ P l m) {i : Nat} (hn : l[i]? = none) :
    m[i]? = none := by
  rw [List.getElem?_eq_none_iff] at hn ⊢
  rw [← h.length_eq]
  exact hn

/-- A thread goes on. -/
theorem SysRel.put {s : VolSys} {I : IdealThreads} (h : SysRel V τ s I) {i : Nat} {t : VolThread} (hi : s.threads[i]? = some t)
    {p : VProg VolAnswer} {q : Prog VolAnswer} {mine : List FH} {v : FullVol} {fs : FullFs} (hq : PSim V τ AnsG mine p q) (hR : R V τ v fs)
    (hl : ∀ x ∈ v.held, LiveIs v x) (hmine : ∃ more, mine = more ++ t.mine ∧ v.held = more ++ s.vol.held) :
    SysRel V τ (s.put i p mine v) ⟨fs, I.threads.set i q, handed q ++ I.held⟩ := by
  obtain ⟨more, hm1, hm2⟩ := hmine
  obtain ⟨rest, h1, h2⟩ := mines_set hi
  have hp : v.held.Perm (I.held ++ (mine ++ rest)) := by
    rw [hm1, hm2]
    refine (h.held.append_left more).trans ?_
    refine (List.Perm.append_left more (h1.append_left I.held)).trans ?_
    rw [← List.append_assoc more, List.append_assoc more, ← List.append_assoc I.held]
    rw [← List.append_assoc I.held, ← List.append_assoc I.held, ← List.append_assoc more]
    refine List.Perm.append_right _ ?_
    rw [← List.append_assoc]
    exact List.perm_append_comm.append_right _
  obtain ⟨k1, k2, k3⟩ := settle hq hp
  exact ⟨R.withHeld hR _, fun x hx => hl x (k2 x hx), k1.trans ((h2 (threadAt p mine)).symm.append_left _), forall2_set h.threads i k3⟩

section
variable (hV : VolEnvOk V) {s : VolSys} {I : IdealThreads} (h : SysRel V τ s I)
include h

theorem SysRel.vol : VolRel V τ s.vol ⟨I.fs, s.vol.held⟩ := ⟨h.rel, rfl, h.live⟩

theorem SysRel.ofVol {v' : FullVol} {fs' : FullFs} (hJ : VolRel V τ v' ⟨fs', s.vol.held⟩) : SysRel V τ { s with vol := v' } ⟨fs', I.threads, I.held⟩ := by
  have hh : v'.held = s.vol.held := hJ.held
  refine ⟨hJ.rel, fun x hx => hJ.live x ?_, ?_, h.threads⟩
  · dsimp only at hx
    rwa [hh] at hx
  · dsimp only
    rw [hh]
    exact h.held

theorem SysRel.mem {x : FH} (hx : x ∈ I.held) : x ∈ s.vol.held := h.held.mem_iff.2 (List.mem_append_left _ hx)

theorem start_move (hV : VolEnvOk V) {op : FullOp} (hw : StartWithin V.env τ I op) :
    SysRel V τ (s.step V (.start op)) ⟨I.fs, I.threads ++ [idealOp (idealCfg V) op], handed (idealOp (idealCfg V) op) ++ I.held⟩ := by
  have hin : ∀ x ∈ op.through, x ∈ s.vol.held := by
    intro x hx
    refine h.mem (hw.handle x ?_)
    cases op <;> simp only [FullOp.through, List.mem_singleton, List.not_mem_nil] at hx <;> rw [hx] <;> rfl
  have hp : (op.through ++ s.vol.held).Perm (I.held ++ (op.through ++ mines s.threads)) := by
    refine (h.held.append_left _).trans ?_
    rw [← List.append_assoc, ← List.append_assoc]
    exact List.perm_append_comm.append_right _
  obtain ⟨k1, k2, k3⟩ := settle (p_op hV hw) hp
  have hlive : ∀ x ∈ op.through ++ s.vol.held, LiveIs s.vol x := by
    intro x hx
    rcases List.mem_append.1 hx with hx | hx
    · exact h.live x (hin x hx)
    · exact h.live x hx
  refine ⟨R.withHeld h.rel _, fun x hx => hlive x (k2 x hx), k1.trans (List.Perm.append_left _ ?_), ?_⟩
  · have : mines (s.threads ++ [threadAt (vpOp V op) op.through]) = mines s.threads ++ (threadAt (vpOp V op) op.through).mine := by
      unfold mines
      simp
    show List.Perm _ (mines (s.threads ++ [threadAt (vpOp V op) op.through]))
    rw [this]
    exact List.perm_append_comm
  · exact List.rel_append h.threads (.cons k3 .nil)

theorem step_move (i : Nat) (hd : DirRoom I.fs) : ∃ I', IdealMove (idealCfg V) I (.step i) I' ∧ SysRel V τ (s.step V (.step i)) I' := by
  have idle : (∀ β (f : Sec β) k, I.threads[i]? ≠ some (.sec f k)) → s.stepThread i = s →
      ∃ I', IdealMove (idealCfg V) I (.step i) I' ∧ SysRel V τ (s.step V (.step i)) I' := by
    intro h1 h2
    refine ⟨I, .idle h1, ?_⟩
    show SysRel V τ (s.stepThread i) I
    rw [h2]
    exact h
  cases ht : s.threads[i]? with
  | none =>
    have hn := forall2_none h.threads ht
    refine idle (fun β f k => ?_) (by unfold VolSys.stepThread; rw [ht])
    rw [hn]
    exact fun h => by cases h
  | some t =>
    obtain ⟨q, hq, hT⟩ := forall2_get h.threads i ht
    cases hT with
    | ret hl =>
      refine idle (fun β f k => ?_) (by unfold VolSys.stepThread; rw [ht])
      rw [hq]
      exact fun h => by cases h
    | throw e =>
      refine idle (fun β f k => ?_) (by unfold VolSys.stepThread; rw [ht])
      rw [hq]
      exact fun h => by cases h
    | @run p mine q he hP =>
      have hin : ∀ x ∈ mine, LiveIs s.vol x := by
        intro x hx
        obtain ⟨rest, h1, _⟩ := mines_set ht
        exact h.live x (h.held.mem_iff.2 (List.mem_append_right _ (h1.mem_iff.2 (List.mem_append_left _ hx))))
      cases hP with
      | ret => cases he
      | throw => cases he
      | @sec _ γ δ f g k k' K hs hk =>
        obtain ⟨hR, hM, hS⟩ := hs s.vol I.fs h.rel hin hd
        have hlive : ∀ x ∈ (f s.vol).2.held, LiveIs (f s.vol).2 x := by
          intro x hx
          rw [hM.held] at hx
          exact hM.live x (h.live x hx)
        have hheld := hM.held
        have hstep : s.step V (.step i) = match f s.vol with
          | (.ok b, v) => s.put i (k b) mine v
          | (.error e, v) => s.put i (.throw e) mine v := by
          simp only [VolSys.step, VolSys.stepThread, ht]
          rfl
        rw [hstep]
        rcases hf : f s.vol with ⟨e | a, v1⟩
        · rcases hg : g I.fs with ⟨e' | b, fs1⟩
          · rw [hf, hg] at hS
            have hS : e = e' := hS
            subst hS
            rw [hf] at hlive hheld hR
            rw [hg] at hR
            exact ⟨_, .stepError hq hg, SysRel.put h ht (.throw e) hR hlive ⟨[], rfl, hheld⟩⟩
          · rw [hf, hg] at hS
            exact hS.elim
        · rcases hg : g I.fs with ⟨e' | b, fs1⟩
          · rw [hf, hg] at hS
            exact hS.elim
          · rw [hf, hg] at hS
            rw [hf] at hlive hheld hR
            rw [hg] at hR
            exact ⟨_, .step hq hg, SysRel.put h ht (hk a b hS) hR hlive ⟨[], rfl, hheld⟩⟩
      | @take _ f g k k' K hs hk =>
        obtain ⟨hR, hM, hS⟩ := hs s.vol I.fs h.rel hin hd
        have hlive : ∀ x ∈ (f s.vol).2.held, LiveIs (f s.vol).2 x := by
          intro x hx
          rw [hM.held] at hx
          exact hM.live x (h.live x hx)
        have hheld := hM.held
        have hstep : s.step V (.step i) = match f s.vol with
          | (.ok b, v) => s.put i (k b) (b :: mine) { v with held := b :: v.held }
          | (.error e, v) => s.put i (.throw e) mine v := by
          simp only [VolSys.step, VolSys.stepThread, ht]
          rfl
        rw [hstep]
        rcases hf : f s.vol with ⟨e | a, v1⟩
        · rcases hg : g I.fs with ⟨e' | b, fs1⟩
          · rw [hf, hg] at hS
            have hS : e = e' := hS
            subst hS
            rw [hf] at hlive hheld hR
            rw [hg] at hR
            exact ⟨_, .stepError hq hg, SysRel.put h ht (.throw e) hR hlive ⟨[], rfl, hheld⟩⟩
          · rw [hf, hg] at hS
            exact hS.elim
        · rcases hg : g I.fs with ⟨e' | b, fs1⟩
          · rw [hf, hg] at hS
            exact hS.elim
          · rw [hf, hg] at hS
            obtain ⟨hab, hla, hK⟩ := hS
            dsimp only at hla
            subst hab
            rw [hf] at hlive hheld hR
            rw [hg] at hR
            dsimp only at hlive hheld hR
            refine ⟨_, .step hq hg, SysRel.put h ht (hk a hK) (R.withHeld hR _) ?_ ⟨[a], rfl, by rw [← hheld]; rfl⟩⟩
            intro x hx
            rcases List.mem_cons.1 hx with hx | hx
            · subst hx
              exact hla
            · exact hlive x hx

theorem fail_move (i : Nat) (e : Err) : ∃ I', IdealMove (idealCfg V) I (.fail i e) I' ∧ SysRel V τ (s.step V (.fail i e)) I' := by
  have idle : (∀ β (f : Sec β) k, I.threads[i]? ≠ some (.sec f k)) → s.step V (.fail i e) = s →
      ∃ I', IdealMove (idealCfg V) I (.fail i e) I' ∧ SysRel V τ (s.step V (.fail i e)) I' := by
    intro h1 h2
    rw [h2]
    exact ⟨I, .noFail h1, h⟩
  cases ht : s.threads[i]? with
  | none =>
    have hn := forall2_none h.threads ht
    refine idle (fun β f k => ?_) (by simp only [VolSys.step, ht])
    rw [hn]
    exact fun h => by cases h
  | some t =>
    obtain ⟨q, hq, hT⟩ := forall2_get h.threads i ht
    cases hT with
    | ret hl =>
      refine idle (fun β f k => ?_) (by simp only [VolSys.step, ht]; rfl)
      rw [hq]
      exact fun h => by cases h
    | throw e =>
      refine idle (fun β f k => ?_) (by simp only [VolSys.step, ht]; rfl)
      rw [hq]
      exact fun h => by cases h
    | @run p mine q he hP =>
      have hstep : s.step V (.fail i e) = s.put i (.throw e) mine s.vol := by
        simp only [VolSys.step, ht]
        rw [if_neg (by rw [he]; decide)]
      rw [hstep]
      have key : SysRel V τ (s.put i (.throw e) mine s.vol) ⟨I.fs, I.threads.set i (.throw e), I.held⟩ :=
        SysRel.put h ht (.throw e) h.rel h.live ⟨[], rfl, rfl⟩
      cases hP with
      | ret => cases he
      | throw => cases he
      | sec => exact ⟨_, .fail hq, key⟩
      | take => exact ⟨_, .fail hq, key⟩

theorem ended_all (hall : (s.threads.all fun t => t.prog.ended) = true) : mines s.threads = [] ∧ ∀ β (f : Sec β) k, Prog.sec f k ∉ I.threads := by
  have ht := h.threads
  revert hall ht
  generalize s.threads = l
  generalize I.threads = m
  intro hall ht
  induction ht with
  | nil => exact ⟨rfl, fun _ _ _ h => by cases h⟩
  | cons h0 h1 ih =>
    simp only [List.all_cons, Bool.and_eq_true] at hall
    obtain ⟨i1, i2⟩ := ih hall.2
    have e := hall.1
    cases h0 with
    | run he =>
      rw [he] at e
      cases e
    | ret =>
      refine ⟨i1, fun β f k hm => ?_⟩
      rcases List.mem_cons.1 hm with hm | hm
      · cases hm
      · exact i2 β f k hm
    | throw =>
      refine ⟨i1, fun β f k hm => ?_⟩
      rcases List.mem_cons.1 hm with hm | hm
      · cases hm
      · exact i2 β f k hm

theorem not_ended (hall : ¬ (s.threads.all fun t => t.prog.ended) = true) : ∃ β, ∃ f : Sec β, ∃ k, Prog.sec f k ∈ I.threads := by
  have ht := h.threads
  revert hall ht
  generalize s.threads = l
  generalize I.threads = m
  intro hall ht
  induction ht with
  | nil => exact absurd rfl hall
  | cons h0 h1 ih =>
    cases h0 with
    | run he hP =>
      cases hP with
      | ret => cases he
      | throw => cases he
      | sec => exact ⟨_, _, _, List.mem_cons_self⟩
      | take => exact ⟨_, _, _, List.mem_cons_self⟩
    | ret =>
      obtain ⟨β, f, k, hm⟩ := ih fun hx => hall (by simpa [VProg.ended] using hx)
      exact ⟨β, f, k, List.mem_cons_of_mem _ hm⟩
    | throw =>
      obtain ⟨β, f, k, hm⟩ := ih fun hx => hall (by simpa [VProg.ended] using hx)
      exact ⟨β, f, k, List.mem_cons_of_mem _ hm⟩

theorem sys_step (hV : VolEnvOk V) {ev : VolSysEvent} (hw : MoveWithin V.env τ I ev) :
    ∃ I', IdealMove (idealCfg V) I ev I' ∧ SysRel V τ (s.step V ev) I' := by
  have erase : ∀ x, x ∈ I.held → SysRel V τ { s with vol := { s.vol with held := s.vol.held.erase x } } ⟨I.fs, I.threads, I.held.erase x⟩ := by
    intro x hx
    refine ⟨R.withHeld h.rel _, fun y hy => h.live y (List.mem_of_mem_erase hy), ?_, h.threads⟩
    have := h.held.erase x
    rwa [List.erase_append_left _ hx] at this
  cases ev with
  | start op => exact ⟨_, .start op, start_move h hV hw⟩
  | step i => exact step_move h i hw
  | fail i e => exact fail_move h i e
  | release x =>
    refine ⟨_, .release x, ?_⟩
    show SysRel V τ { s with vol := if (fullRelease x).2 then { s.vol with held := s.vol.held.erase x } else s.vol } _
    cases (fullRelease x).2 with
    | true => exact erase x hw
    | false => exact h
  | releasedir x =>
    refine ⟨_, .releasedir x, ?_⟩
    show SysRel V τ { s with vol := if (fullReleasedir x).2 then { s.vol with held := s.vol.held.erase x } else s.vol } _
    cases (fullReleasedir x).2 with
    | true => exact erase x hw
    | false => exact h
  | tick now =>
    have hR := h.rel
    exact ⟨_, .tick now, ⟨rfl, hw, hR.nodes, hR.root, hR.typed, hR.parents, hR.ids, hR.uniq⟩, h.live, h.held, h.threads⟩
  | close id =>
    obtain ⟨r, J, hs, _, hJ⟩ := close_step hV h.vol id
    cases hs with
    | close => exact ⟨I, .close id, h.ofVol hJ⟩
    | gone _ hh => exact ⟨_, .gone id fun fh hfh => hh fh (h.mem hfh), h.ofVol hJ⟩
  | eject id =>
    obtain ⟨r, J, hs, _, hJ⟩ := eject_step h.vol id
    cases hs with
    | eject _ ids => exact ⟨_, .eject id ids, h.ofVol hJ⟩
  | remount =>
    by_cases hall : (s.threads.all fun t => t.prog.ended) = true
    · obtain ⟨h1, h2⟩ := ended_all h hall
      obtain ⟨r, J, hs, _, hJ⟩ := remount_step hV h.vol
      have hstep : s.step V .remount = { s with vol := (volStep V s.vol .remount).2 } := by
        simp only [VolSys.step]
        rw [if_pos hall]
      rw [hstep]
      cases hs with
      | remount ids =>
        have hh : (volStep V s.vol .remount).2.held = [] := hJ.held
        refine ⟨_, .remount ids h2, hJ.rel, fun x hx => ?_, ?_, h.threads⟩
        · dsimp only at hx
          rw [hh] at hx
          cases hx
        · show List.Perm (volStep V s.vol .remount).2.held ([] ++ mines s.threads)
          rw [hh, h1]
          exact .refl _
    · obtain ⟨β, f, k, hm⟩ := not_ended h hall
      have hstep : s.step V .remount = s := by
        simp only [VolSys.step]
        rw [if_neg hall]
      rw [hstep]
      exact ⟨I, .busy hm, h⟩

end

/-- A history, up to the first event that is beyond the limits. -/
theorem sys_run (hV : VolEnvOk V) : ∀ (evs : List VolSysEvent) {s : VolSys} {I : IdealThreads}, SysRel V τ s I →
    ∃ done rest I', done ++ rest = evs ∧ IdealMoves V.env (idealCfg V) τ I done I' ∧ SysRel V τ (s.run V done) I' ∧
      ∀ e, rest.head? = some e → ¬ MoveWithin V.env τ I' e
  | [], s, I, h => ⟨[], [], I, rfl, .nil, h, fun e he => by cases he⟩
  | e :: evs, s, I, h => by
    by_cases hw : MoveWithin V.env τ I e
    · obtain ⟨I1, hs, h1⟩ := sys_step h hV hw
      obtain ⟨done, rest, I2, hd, hr, h2, hx⟩ := sys_run hV evs h1
      exact ⟨e :: done, rest, I2, by rw [← hd]; rfl, .cons hw hs hr, h2, hx⟩
    · exact ⟨[], e :: evs, I, rfl, .nil, h, fun e' he => by injection he with he; subst he; exact hw⟩

/-! ## The ideal volume is `FullSys` -/

theorem numbered_bind {α : Type} (g : α → VolAnswer) (n : α → Int) (hg : ∀ a, VolAnswer.result (g a) = n a) (p : Prog α) :
    numbered (p.bind fun a => .ret (g a)) = p.bind fun a => .ret (n a) := by
  unfold numbered
  rw [Vol.bind_assoc]
  congr 1
  funext a
  simp only [Prog.bind, hg]

theorem bind_ret {α : Type} : ∀ p : Prog α, (p.bind fun a => .ret a) = p
  | .ret _ => rfl
  | .throw _ => rfl
  | .sec f k => by
    simp only [Prog.bind]
    congr 1
    funext b
    exact bind_ret (k b)

theorem numbered_op (cfg : FsCfg) (op : FullOp) : numbered (idealOp cfg op) = op.prog cfg := by
  have code : ∀ p : Prog Int, numbered (p.bind fun n => .ret (.code n)) = p := fun p => (numbered_bind _ (fun n => n) (fun _ => rfl) p).trans (bind_ret p)
  cases op with
  | getattr | «open» | readlink | opendir | read | fgetattr | readdir =>
    exact numbered_bind _ Prod.fst (fun _ => rfl) _
  | create path mode uid gid newId =>
    show numbered ((fullCreate cfg path mode uid gid newId).bind fun r => .ret (.handle r.1 r.2)) = vcreate cfg path mode uid gid newId
    rw [numbered_bind _ Prod.fst (fun _ => rfl)]
    unfold fullCreate vcreate
    rw [Vol.bind_assoc]
    rfl
  | _ => exact code _

theorem run_append (cfg : FsCfg) : ∀ (l m : List FullEvent) (s : FullSys), FullSys.run cfg s (l ++ m) = FullSys.run cfg (FullSys.run cfg s l) m
  | [], _, _ => rfl
  | e :: l, m, s => run_append cfg l m (s.step cfg e)

theorem evict_run (cfg : FsCfg) (T : List (Prog Int)) : ∀ (ids : List Bytes) (fs : FullFs),
    FullSys.run cfg ⟨fs, T⟩ (ids.map .evict) = ⟨forget cfg ids fs, T⟩
  | [], _ => rfl
  | id :: ids, fs => by
    have : FullSys.step cfg ⟨fs, T⟩ (.evict id) = ⟨(FullSys.step cfg ⟨fs, []⟩ (.evict id)).fs, T⟩ := by
      simp only [FullSys.step]
      cases fs.get id <;> rfl
    simp only [List.map_cons, FullSys.run, forget]
    rw [this]
    exact evict_run cfg T ids _

theorem as_full {cfg : FsCfg} {I I' : IdealThreads} {e : VolSysEvent} (h : IdealMove cfg I e I') :
    ∃ l, AsFull e l ∧ FullSys.run cfg ⟨I.fs, I.threads.map numbered⟩ l = ⟨I'.fs, I'.threads.map numbered⟩ := by
  have noSec : ∀ {i : Nat}, (∀ β (f : Sec β) k, I.threads[i]? ≠ some (.sec f k)) →
      ∀ β (f : Sec β) k, (I.threads.map numbered)[i]? ≠ some (.sec f k) := by
    intro i hi β f k hx
    rw [List.getElem?_map] at hx
    cases hq : I.threads[i]? with
    | none => rw [hq] at hx; cases hx
    | some q =>
      rw [hq] at hx
      cases q with
      | ret => cases hx
      | throw => cases hx
      | sec g k => exact hi _ g k hq
  cases h with
  | start op =>
    refine ⟨_, .start op, ?_⟩
    simp only [FullSys.run, FullSys.step, List.map_append, List.map_cons, List.map_nil, numbered_op]
  | @step i β f k b fs' hi hf =>
    refine ⟨_, .step i, ?_⟩
    have hi' : (I.threads.map numbered)[i]? = some (.sec f fun b => numbered (k b)) := by rw [List.getElem?_map, hi]; rfl
    simp only [FullSys.run, FullSys.step, FullSys.stepThread, hi', hf, List.map_set]
  | @stepError i β f k e fs' hi hf =>
    refine ⟨_, .step i, ?_⟩
    have hi' : (I.threads.map numbered)[i]? = some (.sec f fun b => numbered (k b)) := by rw [List.getElem?_map, hi]; rfl
    simp only [FullSys.run, FullSys.step, FullSys.stepThread, hi', hf, List.map_set]
    rfl
  | @idle i hi =>
    refine ⟨_, .step i, ?_⟩
    have := noSec hi
    simp only [FullSys.run, FullSys.step, FullSys.stepThread]
  | @fail i e β f k hi =>
    refine ⟨_, .fail i e, ?_⟩
    have hi' : (I.threads.map numbered)[i]? = some (.sec f fun b => numbered (k b)) := by rw [List.getElem?_map, hi]; rfl
    simp only [FullSys.run, FullSys.step, hi', List.map_set]
    rfl
  | @noFail i e hi =>
    refine ⟨_, .fail i e, ?_⟩
    have := noSec hi
    simp only [FullSys.run, FullSys.step]
  | release x => exact ⟨_, .release x, rfl⟩
  | releasedir x => exact ⟨_, .releasedir x, rfl⟩
  | tick now => exact ⟨_, .tick now, rfl⟩
  | close id => exact ⟨_, .close id, rfl⟩
  | gone id hh =>
    refine ⟨_, .gone id, ?_⟩
    simp only [FullSys.run, FullSys.step]
    cases I.fs.get id with
    | none => rfl
    | some n => dsimp only; split <;> rfl
  | eject id ids => exact ⟨_, .eject id ids, evict_run cfg _ ids _⟩
  | remount ids hh => exact ⟨_, .remount ids, evict_run cfg _ ids _⟩
  | busy hh => exact ⟨_, .remount [], rfl⟩

theorem all_as_full {E : FileEnv} {cfg : FsCfg} {kind : Bytes → Nat} {I I' : IdealThreads} {es : List VolSysEvent}
    (h : IdealMoves E cfg kind I es I') :
    ∃ l, AllAsFull es l ∧ FullSys.run cfg ⟨I.fs, I.threads.map numbered⟩ l = ⟨I'.fs, I'.threads.map numbered⟩ := by
  induction h with
  | nil => exact ⟨[], .nil, rfl⟩
  | cons _ hs _ ih =>
    obtain ⟨l, h1, h2⟩ := as_full hs
    obtain ⟨m, h3, h4⟩ := ih
    exact ⟨l ++ m, .cons h1 h3, by rw [run_append, h2, h4]⟩

end Securefs.Vt
