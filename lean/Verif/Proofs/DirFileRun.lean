import Verif.Proofs.DirFileSim
import Verif.Proofs.BtreeSpec
import Verif.Spec.DirFile
/-! Helper lemmas: histories of the directory in its encrypted file. -/

namespace Securefs.DirFile

open Securefs Spec FileEnv

variable {E : FileEnv} {id : Bytes} {C : BCfg}

theorem dir_len {s : BSt} {l : List DirEntry} (hd : Dir C s l) : s.data.length ≤ 2 ^ 32 ∧ s.data.length % 4096 = 0 := by
  obtain ⟨_, _, np, F, hcase⟩ := hd
  have key : s.data.length = np * 4096 ∧ np ≤ 2 ^ 20 := by
    rcases hcase with ⟨_, _, h⟩ | ⟨_, _, _, _, _, h⟩
    · exact ⟨h.len, h.npLe⟩
    · exact ⟨h.len, h.npLe⟩
  omega

theorem dir_ext {s : BSt} {l : List DirEntry} (hd : Dir C s l) : ext s = 2 ^ 32 := by
  have := (dir_len hd).1
  unfold ext
  omega

/-- Where the ideal directory answers, so does the real one. -/
theorem use {α : Type} {n : Nat} {m : BM α} {m' : DM α} (h : Sim E id n m m') {A s d l} (hr : Rel E id A s d) (hd : Dir C s l)
    (hroom : RoomForDirs E) (hn : n ≤ 33) {a s'} (e : m s = .ok (a, s')) : ∃ d', m' d = (.ok a, d') ∧ Rel E id A s' d' := by
  have hx := dir_ext hd
  have h1 : 4096 * n ≤ 4096 * 33 := Nat.mul_le_mul_left _ hn
  have h2 := h s d A hr (by unfold RoomForDirs at hroom; unfold room; omega)
  rw [e] at h2
  obtain ⟨d', h3, h4, _⟩ := h2
  exact ⟨d', h3, h4⟩

theorem step_pages (A : Attrs) (t : Int × Int) (op : AttrOp) (h : DirCallValid (.attr op)) (p : Nat × Nat × Nat) :
    attrStep { A with pages := p } t op = { attrStep A t op with pages := p } := by
  obtain ⟨m, u, g, n, q, ts⟩ := A
  cases op with
  | setRootPage => exact h.elim
  | setStartFree => exact h.elim
  | setNumFree => exact h.elim
  | chmod v => simp only [attrStep, Attrs.changed]; split <;> rfl
  | setNlink v => simp only [attrStep, Attrs.changed]; split <;> rfl
  | chown a b =>
    simp only [attrStep, Attrs.changed, Attrs.mk.injEq, true_and, and_true]
    by_cases h1 : (if a.toNat = keepOwner then u else a.toNat) = u ∧ (if b.toNat = keepOwner then g else b.toNat) = g
    · rw [if_pos h1, if_pos h1]
    · rw [if_neg h1, if_neg h1]
  | _ => rfl

theorem attr_valid {op : AttrOp} (h : DirCallValid (.attr op)) : AttrOpValid op := by
  cases op <;> first | exact h | exact h.elim | trivial

theorem Rel.call {A s d} (hr : Rel E id A s d) (op : AttrOp) (h : DirCallValid (.attr op)) (now : TimeSpec) (hn : ValidTime now) :
    Rel E id (attrStep A (stamp now) op) s { d with file := { d.file with attr := E.attrCall now op d.file.attr } } :=
  hr.attr op (attr_valid h) rfl rfl now hn (step_pages A _ op h _)

theorem touchMtime_ok {A s d} (hr : Rel E id A s d) (now : TimeSpec) (hn : ValidTime now) :
    ∃ d', touchMtime now d = (.ok (), d') ∧ Rel E id (attrStep A (stamp now) .write) s d' := by
  refine ⟨_, rfl, ?_⟩
  have := hr.call .write trivial now hn
  simpa only [attrCall, hr.env] using this

theorem touchAtime_ok {A s d} (hr : Rel E id A s d) (now : TimeSpec) (hn : ValidTime now) :
    ∃ d', touchAtime now d = (.ok (), d') ∧ Rel E id (attrStep A (stamp now) .read) s d' := by
  refine ⟨_, rfl, ?_⟩
  have := hr.call .read trivial now hn
  simpa only [attrCall, hr.env] using this

theorem write_twice (A : Attrs) (t : Int × Int) : attrStep (attrStep A t .write) t .write = attrStep A t .write := by
  obtain ⟨m, u, g, n, q, ts⟩ := A
  cases ts <;> rfl

/-! ## Rebuilding and flushing -/

theorem addAll_ok (hE : FileEnvOk E) (hroom : RoomForDirs E) (hC : CmpOk C.cmp) (now : TimeSpec) (hn : ValidTime now) :
    ∀ (es acc : List DirEntry) (A : Attrs) (s : BSt) (d : DirObj), Rel E id A s d → Dir C s acc → (∀ e ∈ es, EntryOk e) →
    (es.Pairwise fun x y => C.cmp x.name y.name ≠ 0) → (∀ e ∈ es, ∀ x ∈ acc, C.cmp e.name x.name ≠ 0) →
    acc.length + es.length ≤ maxDirEntries →
    ∃ s' d' l', addAll C now es d = (.ok (), d') ∧ Rel E id (if es = [] then A else attrStep A (stamp now) .write) s' d' ∧
      Dir C s' l' ∧ l'.Perm (acc ++ es)
  | [], acc, A, s, d, hr, hd, _, _, _, _ => ⟨s, d, acc, rfl, hr, hd, by simp⟩
  | e :: es, acc, A, s, d, hr, hd, hok, hpw, hdis, hlen => by
    rw [List.length_cons] at hlen
    obtain ⟨s1, P, Q, rfl, e1, hd1⟩ := (addEntry_run hC e (hok e (by simp)) hd (by omega)).2 (hdis e (by simp))
    obtain ⟨d0, t0, r0⟩ := touchMtime_ok hr now hn
    obtain ⟨d1, t1, r1⟩ := use (sim_addEntry hE C e) r0 hd hroom (Nat.le_refl _) e1
    have hpw' := List.pairwise_cons.1 hpw
    obtain ⟨s2, d2, l', e2, r2, hd2, hp2⟩ := addAll_ok hE hroom hC now hn es (P ++ e :: Q) _ s1 d1 r1 hd1 (fun x hx => hok x (by simp [hx])) hpw'.2
      (by
        intro y hy x hx
        rw [List.mem_append, List.mem_cons] at hx
        rcases hx with hx | rfl | hx
        · exact hdis y (by simp [hy]) x (List.mem_append_left _ hx)
        · intro h0
          exact hpw'.1 y hy ((hC.eq_comm y.name x.name).1 h0)
        · exact hdis y (by simp [hy]) x (List.mem_append_right _ hx))
      (by simp only [List.length_append, List.length_cons] at hlen ⊢; omega)
    refine ⟨s2, d2, l', ?_, ?_, hd2, hp2.trans ?_⟩
    · rw [addAll, bind_ok t0, bind_ok t1, e2]
    · rw [if_neg (by simp)]
      rw [write_twice, ite_self] at r2
      exact r2
    · rw [List.append_assoc, List.append_assoc, List.cons_append]
      refine List.Perm.append_left P ?_
      exact List.perm_middle.symm

theorem rebuild_ok (hE : FileEnvOk E) (hroom : RoomForDirs E) (hC : CmpOk C.cmp) (now : TimeSpec) (hn : ValidTime now) {A s d} {l : List DirEntry}
    (hr : Rel E id A s d) (hd : Dir C s l) (hmax : l.length ≤ maxDirEntries) :
    ∃ s' d', rebuild C now d = (.ok (), d') ∧ Rel E id (if l = [] then A else attrStep A (stamp now) .write) s' d' ∧ Dir C s' l := by
  have hd0 := hd
  obtain ⟨hasc, hok, np, F, hcase⟩ := hd
  rcases hcase with ⟨h0, rfl, hcore⟩ | ⟨t, h, h0, rfl, hs, hcore⟩
  · obtain ⟨d', t, r⟩ := use (sim_getRootNode hE) hr hd0 hroom (by omega) (noroot_run h0)
    refine ⟨s, d', ?_, ?_, hd0⟩
    · rw [rebuild, bind_ok t]; rfl
    · rw [if_pos rfl]; exact r
  · obtain ⟨s1, e1, g1, k1, i1⟩ := root_run h0 hcore
    have hd1 : Dir C s1 (BT.flat t) := ⟨hasc, hok, np, F, Or.inr ⟨t, h, by rw [k1.1, h0], rfl, hs, g1⟩⟩
    obtain ⟨s2, L, e2, g2, k2, q2⟩ := iter_run (np := np) (F := F) h _ t btMaxDepth invalidPage s1 0 (by have := hcore.height hs; simp only [btMaxDepth]; omega) hs
      (g1.cast (by ms)) i1
    obtain ⟨d1, t1, r1⟩ := use (sim_getRootNode hE) hr hd0 hroom (by omega) e1
    obtain ⟨d2, t2, r2⟩ := use (sim_iterNode hE _ _) r1 hd1 hroom (by omega) e2
    -- the file is emptied
    have r3 : Rel E id A { s2 with cache := [] } { d2 with cache := [] } := ⟨r2.env, r2.idq, rfl, r2.repr, r2.attrs⟩
    obtain ⟨d4, t4, r4⟩ := r3.resize hE 0 (Nat.zero_le _)
    have hd5 := dir_reset C s2
    have nx : ∀ {m : BM Unit} {m' : DM Unit}, Sim E id 0 m m' → ∀ {x y : BSt} {z : DirObj}, m x = .ok ((), y) → x.data.length = 0 → Rel E id A x z →
        ∃ z', m' z = (.ok (), z') ∧ Rel E id A y z' := by
      intro m m' hS x y z ex hx0 hxr
      have hx : ext x = 2 ^ 32 := by unfold ext; omega
      have h2 := hS x z A hxr (by unfold RoomForDirs at hroom; unfold room; omega)
      rw [ex] at h2
      obtain ⟨z', h3, h4, _⟩ := h2
      exact ⟨z', h3, h4⟩
    obtain ⟨d5, t5, r5⟩ := nx (sim_setNfree 0) rfl (by simp [Spec.resize]) r4
    obtain ⟨d6, t6, r6⟩ := nx (sim_setStart invalidPage) rfl (by simp [Spec.resize]) r5
    obtain ⟨d7, t7, r7⟩ := nx (sim_setRoot invalidPage) rfl (by simp [Spec.resize]) r6
    have hsym : ∀ {x y : DirEntry}, C.cmp x.name y.name ≠ 0 → C.cmp y.name x.name ≠ 0 := by
      intro x y h0 h1; exact h0 ((hC.eq_comm _ _).1 h1)
    obtain ⟨s3, d8, l', e3, r8, hd3, hp3⟩ := addAll_ok hE hroom hC now hn L [] A
      { s2 with cache := [], data := Spec.resize s2.data 0, nfree := 0, start := invalidPage, root := invalidPage } d7 r7 hd5 (fun e he => hok e (q2.subset he)) ((q2.pairwise_iff hsym).2 (asc_pairwise_ne hC hasc)) (by simp) (by simpa using q2.length_eq ▸ hmax)
    have : l' = BT.flat t := asc_perm hC hd3.1 hasc (hp3.trans (by simpa using q2))
    subst this
    refine ⟨s3, d8, ?_, ?_, hd3⟩
    · rw [rebuild, bind_ok t1]
      dsimp only
      rw [bind_ok t2, bind_ok (show clearCache d2 = (.ok (), { d2 with cache := [] }) from rfl), bind_ok t4, bind_ok t5, bind_ok t6, bind_ok t7, e3]
    · have : (L = []) ↔ (BT.flat t = []) := by
        rw [← List.length_eq_zero_iff, ← List.length_eq_zero_iff, q2.length_eq]
      simpa only [this] using r8

theorem subflush_ok (hE : FileEnvOk E) (hroom : RoomForDirs E) (hC : CmpOk C.cmp) (hO : OrderOk C) (now : TimeSpec) (hn : ValidTime now) {A s d}
    {l : List DirEntry} (hr : Rel E id A s d) (hd : Dir C s l) (hmax : l.length ≤ maxDirEntries) :
    ∃ s' d' A', subflush C now d = (.ok (), d') ∧ Rel E id A' s' d' ∧ Dir C s' l ∧ Clean s' ∧
      A' = if l ≠ [] ∧ s.nfree > 5 ∧ s.nfree > s.data.length / 6144 then attrStep A (stamp now) .write else A := by
  by_cases hb : s.nfree > 5 ∧ s.nfree > s.data.length / (pageSize * 3 / 2)
  · obtain ⟨s1, d1, e1, r1, hd1⟩ := rebuild_ok hE hroom hC now hn hr hd hmax
    obtain ⟨s2, e2, hd2, hc2⟩ := flushCache_run hO hd1
    obtain ⟨d2, t2, r2⟩ := use (sim_flushCache hE C) r1 hd1 hroom (by omega) e2
    refine ⟨s2, d2, _, ?_, r2, hd2, hc2, ?_⟩
    · rw [subflush, bind_ok (show getSt d = (.ok d, d) from rfl), hr.nfree, hr.size hE, if_pos hb, bind_ok e1, t2]
    · by_cases hl : l = []
      · rw [if_pos hl, if_neg (by simp [hl])]
      · rw [if_neg hl, if_pos ⟨hl, hb⟩]
  · obtain ⟨s2, e2, hd2, hc2⟩ := flushCache_run hO hd
    obtain ⟨d2, t2, r2⟩ := use (sim_flushCache hE C) hr hd hroom (by omega) e2
    refine ⟨s2, d2, A, ?_, r2, hd2, hc2, ?_⟩
    · rw [subflush, bind_ok (show getSt d = (.ok d, d) from rfl), hr.nfree, hr.size hE, if_neg hb, t2]
    · rw [if_neg]
      exact fun h => hb h.2

/-- The backing files of `d` hold the directory `s`. -/
def Stored (E : FileEnv) (id : Bytes) (A : Attrs) (s : BSt) (d : DirObj) : Prop :=
  ∀ rng, ∃ f, E.openObj id d.file.st.data d.file.st.metaS.file rng = .ok f ∧ Rel E id A { s with cache := [] } ⟨E, id, f, []⟩

theorem flush_dir_ok (hE : FileEnvOk E) (hroom : RoomForDirs E) (hC : CmpOk C.cmp) (hO : OrderOk C) (now : TimeSpec) (hn : ValidTime now) {A s d}
    {l : List DirEntry} (hr : Rel E id A s d) (hd : Dir C s l) (hmax : l.length ≤ maxDirEntries) :
    ∃ s' d' A', flush C now d = (.ok (), d') ∧ Rel E id A' s' d' ∧ Dir C s' l ∧ Clean s' ∧ Stored E id A' s' d' ∧
      A' = if l ≠ [] ∧ s.nfree > 5 ∧ s.nfree > s.data.length / 6144 then attrStep A (stamp now) .write else A := by
  obtain ⟨s1, d1, A1, e1, r1, hd1, hc1, hA⟩ := subflush_ok hE hroom hC hO now hn hr hd hmax
  obtain ⟨stored, H, hR⟩ := r1.repr
  obtain ⟨f2, h, H2, k1, R2, ea, hdirty⟩ := flushObj_ok hE hR
  refine ⟨s1, { d1 with file := f2 }, A1, ?_, ⟨r1.env, r1.idq, r1.cache, ⟨some h, H2, R2⟩, ?_⟩, hd1, hc1, ?_, hA⟩
  · rw [flush, bind_ok e1]
    unfold onFile
    dsimp only
    rw [r1.env, r1.idq, k1]
  · rw [ea]; exact r1.attrs
  · intro rng
    obtain ⟨st, k2, R3⟩ := openObj_ok hE R2 hdirty (by rw [ea]) rng
    refine ⟨_, k2, rfl, rfl, rfl, ⟨some h, H2, R3⟩, ?_⟩
    show attrsOf E.storeTime f2.attr = _
    rw [ea]; exact r1.attrs

/-! ## Histories -/

/-- The object is the ideal directory. -/
def Good (E : FileEnv) (id : Bytes) (C : BCfg) (p : PlainDir) (d : DirObj) : Prop :=
  ∃ s l, Rel E id p.attrs s d ∧ Dir C s l ∧ l.Perm p.entries

theorem model_ok {C : BCfg} {s : BSt} {op : DirOp} (h : ∀ e, (dirStepModel C s op).1 ≠ .fail e) :
    dirCall C op s = .ok (dirStepModel C s op) := by
  unfold dirStepModel at h ⊢
  cases hc : dirCall C op s with
  | ok p => rfl
  | error e => rw [hc] at h; exact absurd rfl (h e)

theorem agrees_fail {e : Err} {o : DirOut} (h : DirOut.Agrees (.fail e) o) : o = .fail e := by
  cases o <;> first | exact h.symm | exact h.elim | exact (h : _ = _).symm

/-- A call on the entries that is not refused. -/
theorem entry_call (hroom : RoomForDirs E) (hC : CmpOk C.cmp) (hO : OrderOk C) {A : Attrs} {s : BSt} {d : DirObj} {l m : List DirEntry}
    (hr : Rel E id A s d) (hd : Dir C s l) (hp : l.Perm m) (op : DirOp) (hv : op.Valid) (hm : m.length ≤ dirCapacity)
    (hfit : (dirStep (sameName C.cmp) m op).2.length ≤ dirCapacity) (hnf : ∀ e, (dirStep (sameName C.cmp) m op).1 ≠ .fail e)
    {m' : DM DirOut} (hS : Sim E id 33 (dirCall C op) m') :
    ∃ o d', m' d = (.ok o, d') ∧ Good E id C ⟨(dirStep (sameName C.cmp) m op).2, A⟩ d' ∧ o.Agrees (dirStep (sameName C.cmp) m op).1 := by
  obtain ⟨l', h1, h2, h3⟩ := dirStep_run hC hO hd hp op hv hm hfit
  have hok := model_ok (C := C) (s := s) (op := op) (by
    intro e he
    rw [he] at h3
    exact hnf e (agrees_fail h3))
  obtain ⟨d', t, r⟩ := use hS hr hd hroom (Nat.le_refl _) (show dirCall C op s = .ok ((dirStepModel C s op).1, (dirStepModel C s op).2) from hok)
  exact ⟨_, d', t, ⟨_, l', r, h1, h2⟩, h3⟩

theorem touch_call {α β : Type} {T : DM Unit} {m : DM α} {f : α → DM β} {d d1 : DirObj} (t : T d = (.ok (), d1)) :
    ((T >>= fun _ => m) >>= f) d = (m >>= f) d1 := by
  have e : (T >>= fun _ => m) d = m d1 := bind_ok t
  show (match (T >>= fun _ => m) d with | (.ok a, s') => f a s' | (.error e, s') => (.error e, s')) =
    (match m d1 with | (.ok a, s') => f a s' | (.error e, s') => (.error e, s'))
  rw [e]

theorem out_call {α : Type} {m : DM α} {f : α → DirOut} {d d' : DirObj} {o : DirOut} (h : (m >>= fun a => pure (f a)) d = (.ok o, d')) :
    (m >>= fun a => pure (DirAnswer.out (f a))) d = (.ok (DirAnswer.out o), d') := by
  cases hm : m d with
  | mk r d2 =>
    cases r with
    | error e => rw [bind_err hm] at h; cases h
    | ok a =>
      rw [bind_ok hm] at h ⊢
      have h : ((.ok (f a), d2) : Res DirOut × DirObj) = (.ok o, d') := h
      injection h with h1 h2
      injection h1 with h1
      subst h1 h2
      rfl

/-- One call. -/
theorem call_ok (hE : FileEnvOk E) (hroom : RoomForDirs E) (hC : CmpOk C.cmp) (hO : OrderOk C) {p : PlainDir} {d : DirObj} (hg : Good E id C p d)
    (now : TimeSpec) (hn : ValidTime now) (c : DirCall) (hv : DirCallValid c) (hm : p.entries.length ≤ dirCapacity)
    (hfit : ∀ op, entryOp c = some op → (dirStep (sameName C.cmp) p.entries op).2.length ≤ dirCapacity) :
    ∃ a d' o p', (call C now c d = (.ok a, d') ∨ ∃ e, a = .out (.fail e) ∧ call C now c d = (.error e, d')) ∧
      PlainDirStep (sameName C.cmp) (stamp now) p c o p' ∧ AnswersLike a o ∧ Good E id C p' d' := by
  obtain ⟨m, A⟩ := p
  have hg0 := hg
  obtain ⟨s, l, hr, hd, hp⟩ := hg
  dsimp only at hr hp hm hfit
  have hmax : l.length ≤ maxDirEntries := by rw [hp.length_eq, ← capacity_eq]; exact hm
  have hnil : l = [] ↔ m = [] := by rw [← List.length_eq_zero_iff, ← List.length_eq_zero_iff, hp.length_eq]
  cases c with
  | add e =>
    obtain ⟨d1, t1, r1⟩ := touchMtime_ok hr now hn
    have hf := hfit _ rfl
    by_cases hlong : e.name.length > 255
    · have hs : dirStep (sameName C.cmp) m (.add e) = (.fail (.vfs 36), m) := by rw [dirStep, if_pos hlong]
      refine ⟨.out (.fail (.vfs 36)), d1, .out (.fail (.vfs 36)), ⟨m, attrStep A (stamp now) .write⟩, Or.inr ⟨_, rfl, ?_⟩,
        ⟨rfl, by simp [entryOp, hs]⟩, rfl, ⟨s, l, r1, hd, hp⟩⟩
      have e1 : addEntry C e d1 = (.error (.vfs 36), d1) := by rw [addEntry, if_pos (show e.name.length > maxFilename from hlong)]; rfl
      rw [call, bind_err]
      rw [addEntryT, bind_ok t1, e1]
    · obtain ⟨o, d', e1, hg', ha⟩ := entry_call hroom hC hO r1 hd hp (.add e) hv hm hf (by
        intro x; rw [dirStep, if_neg hlong]; split <;> simp) ((sim_addEntry hE C e).bind (k := 0) fun b => Sim.pure (DirOut.flag b))
      refine ⟨.out o, d', _, ⟨_, attrStep A (stamp now) .write⟩, Or.inl ?_, ⟨rfl, rfl, rfl⟩, ha, hg'⟩
      exact (touch_call t1).trans (out_call e1)
  | remove n =>
    obtain ⟨d1, t1, r1⟩ := touchMtime_ok hr now hn
    have hf := hfit _ rfl
    by_cases hlong : n.length > 255
    · have hs : dirStep (sameName C.cmp) m (.remove n) = (.fail (.vfs 36), m) := by rw [dirStep, if_pos hlong]
      refine ⟨.out (.fail (.vfs 36)), d1, .out (.fail (.vfs 36)), ⟨m, attrStep A (stamp now) .write⟩, Or.inr ⟨_, rfl, ?_⟩,
        ⟨rfl, by simp [entryOp, hs]⟩, rfl, ⟨s, l, r1, hd, hp⟩⟩
      have e1 : removeEntry C n d1 = (.error (.vfs 36), d1) := by rw [removeEntry, if_pos (show n.length > maxFilename from hlong)]; rfl
      rw [call, bind_err]
      rw [removeEntryT, bind_ok t1, e1]
    · obtain ⟨o, d', e1, hg', ha⟩ := entry_call hroom hC hO r1 hd hp (.remove n) hv hm hf (by
        intro x; rw [dirStep, if_neg hlong]; simp) (((sim_removeEntry hE C n).bind (k := 0) fun b => Sim.pure (DirOut.entry b)).mono (by omega))
      refine ⟨.out o, d', _, ⟨_, attrStep A (stamp now) .write⟩, Or.inl ?_, ⟨rfl, rfl, rfl⟩, ha, hg'⟩
      exact (touch_call t1).trans (out_call e1)
  | get n =>
    obtain ⟨d1, t1, r1⟩ := touchAtime_ok hr now hn
    have hf := hfit _ rfl
    by_cases hlong : n.length > 255
    · have hs : dirStep (sameName C.cmp) m (.get n) = (.fail (.vfs 36), m) := by rw [dirStep, if_pos hlong]
      refine ⟨.out (.fail (.vfs 36)), d1, .out (.fail (.vfs 36)), ⟨m, attrStep A (stamp now) .read⟩, Or.inr ⟨_, rfl, ?_⟩,
        ⟨rfl, by simp [entryOp, hs]⟩, rfl, ⟨s, l, r1, hd, hp⟩⟩
      have e1 : getEntry C n d1 = (.error (.vfs 36), d1) := by rw [getEntry, if_pos (show n.length > maxFilename from hlong)]; rfl
      rw [call, bind_err]
      rw [getEntryT, bind_ok t1, e1]
    · obtain ⟨o, d', e1, hg', ha⟩ := entry_call hroom hC hO r1 hd hp (.get n) hv hm hf (by
        intro x; rw [dirStep, if_neg hlong]; simp) (((sim_getEntry hE C n).bind (k := 0) fun b => Sim.pure (DirOut.entry b)).mono (by omega))
      refine ⟨.out o, d', _, ⟨_, attrStep A (stamp now) .read⟩, Or.inl ?_, ⟨rfl, rfl, rfl⟩, ha, hg'⟩
      exact (touch_call t1).trans (out_call e1)
  | list =>
    obtain ⟨d1, t1, r1⟩ := touchAtime_ok hr now hn
    obtain ⟨o, d', e1, hg', ha⟩ := entry_call hroom hC hO r1 hd hp .list trivial hm (hfit _ rfl) (by intro x; simp [dirStep])
      (((sim_iterateEntries hE).bind (k := 0) fun b => Sim.pure (DirOut.entries b)).mono (by omega))
    refine ⟨.out o, d', _, ⟨_, attrStep A (stamp now) .read⟩, Or.inl ?_, ⟨rfl, rfl, rfl⟩, ha, hg'⟩
    exact (touch_call t1).trans (out_call e1)
  | empty =>
    obtain ⟨o, d', e1, hg', ha⟩ := entry_call hroom hC hO hr hd hp .empty trivial hm (hfit _ rfl) (by intro x; simp [dirStep])
      (((sim_dirEmpty hE).bind (k := 0) fun b => Sim.pure (DirOut.flag b)).mono (by omega))
    exact ⟨.out o, d', _, ⟨_, A⟩, Or.inl (out_call e1), ⟨rfl, rfl, rfl⟩, ha, hg'⟩
  | flush =>
    obtain ⟨s1, d1, A1, e1, r1, hd1, hc1, _, hA⟩ := flush_dir_ok hE hroom hC hO now hn hr hd hmax
    refine ⟨.out .done, d1, .out .done, ⟨m, A1⟩, Or.inl ?_, ⟨?_, rfl, rfl⟩, rfl, ⟨s1, l, r1, hd1, hp⟩⟩
    · rw [call, bind_ok e1]; rfl
    · show A1 = A ∨ (m ≠ [] ∧ A1 = _)
      by_cases hb : l ≠ [] ∧ s.nfree > 5 ∧ s.nfree > s.data.length / 6144
      · rw [if_pos hb] at hA
        exact Or.inr ⟨fun h => hb.1 (hnil.2 h), hA⟩
      · rw [if_neg hb] at hA
        exact Or.inl hA
  | rebuild =>
    obtain ⟨s1, d1, e1, r1, hd1⟩ := rebuild_ok hE hroom hC now hn hr hd hmax
    refine ⟨.out .done, d1, .out .done, ⟨m, if l = [] then A else attrStep A (stamp now) .write⟩, Or.inl ?_, ⟨?_, rfl, rfl⟩, rfl, ⟨s1, l, r1, hd1, hp⟩⟩
    · rw [call, bind_ok e1]; rfl
    · show (if l = [] then A else attrStep A (stamp now) .write) = if m = [] then A else attrStep A (stamp now) .write
      simp only [hnil]
  | reopen rng =>
    obtain ⟨s1, d1, A1, e1, r1, hd1, hc1, hst, hA⟩ := flush_dir_ok hE hroom hC hO now hn hr hd hmax
    obtain ⟨f, e2, r2⟩ := hst rng
    refine ⟨.out .done, ⟨E, id, f, []⟩, .out .done, ⟨m, A1⟩, Or.inl ?_, ⟨?_, rfl, rfl⟩, rfl, ⟨_, l, r2, dir_drop hd1 hc1, hp⟩⟩
    · rw [call, bind_ok (a := ()) (d' := ⟨E, id, f, []⟩)]
      · rfl
      · rw [reopen, bind_ok e1, bind_ok (a := ()) (d' := { d1 with file := f })]
        · unfold clearCache; rw [r1.env, r1.idq]
        · unfold onFile
          dsimp only
          rw [r1.env, r1.idq, e2]
    · show A1 = A ∨ (m ≠ [] ∧ A1 = _)
      by_cases hb : l ≠ [] ∧ s.nfree > 5 ∧ s.nfree > s.data.length / 6144
      · rw [if_pos hb] at hA
        exact Or.inr ⟨fun h => hb.1 (hnil.2 h), hA⟩
      · rw [if_neg hb] at hA
        exact Or.inl hA
  | attr op =>
    refine ⟨.out .done, _, .out .done, ⟨m, attrStep A (stamp now) op⟩, Or.inl rfl, ⟨rfl, rfl, rfl⟩, rfl, ⟨s, l, ?_, hd, hp⟩⟩
    have := hr.call op hv now hn
    simpa only [hr.env] using this
  | stat =>
    refine ⟨_, d, .stat A.mode A.uid A.gid A.nlink A.times, ⟨m, A⟩, Or.inl rfl, ⟨rfl, rfl, rfl⟩, ?_, hg0⟩
    have ha := hr.attrs
    refine ⟨?_, congrArg Attrs.mode ha, congrArg Attrs.uid ha, congrArg Attrs.gid ha, congrArg Attrs.nlink ha, ?_⟩
    · rw [hr.size hE]; exact (dir_len hd).2
    · rw [hr.env, show A.times = (attrsOf E.storeTime d.file.attr).times from (congrArg Attrs.times ha).symm]
      show Option.map _ (if _ then _ else _) = (if _ then _ else _)
      cases E.storeTime <;> rfl

theorem step_entries {same : Bytes → Bytes → Bool} {t : Int × Int} {p p' : PlainDir} {c : DirCall} {o : PlainDirAnswer}
    (h : PlainDirStep same t p c o p') (op : DirOp) (hc : entryOp c = some op) : p'.entries = (dirStep same p.entries op).2 := by
  have h2 := h.2
  rw [hc] at h2
  exact h2.2

theorem step_same {same : Bytes → Bytes → Bool} {t : Int × Int} {p p' : PlainDir} {c : DirCall} {o : PlainDirAnswer}
    (h : PlainDirStep same t p c o p') (hc : entryOp c = none) : p'.entries = p.entries := by
  have h2 := h.2
  rw [hc] at h2
  exact h2.1

theorem runDir_ok (hE : FileEnvOk E) (hroom : RoomForDirs E) (hC : CmpOk C.cmp) (hO : OrderOk C) (cs : List (TimeSpec × DirCall)) :
    ∀ {p : PlainDir} {d : DirObj}, Good E id C p d → p.entries.length ≤ dirCapacity → GoodDirHistory (sameName C.cmp) p.entries cs →
    ∃ os p', PlainDirRun (sameName C.cmp) p cs os p' ∧ List.Forall₂ AnswersLike (runDir C d cs).1 os ∧ Good E id C p' (runDir C d cs).2 ∧
      p'.entries.length ≤ dirCapacity ∧ p'.entries = entriesAfter (sameName C.cmp) p.entries cs := by
  induction cs with
  | nil => intro p d hg hm _; exact ⟨[], p, .nil, .nil, hg, hm, rfl⟩
  | cons x cs ih =>
    intro p d hg hm hh
    obtain ⟨now, c⟩ := x
    have h0 := hh.1 (now, c) (by simp)
    have hfit : ∀ op, entryOp c = some op → (dirStep (sameName C.cmp) p.entries op).2.length ≤ dirCapacity := by
      intro op hop
      have h2 := hh.2
      rw [List.filterMap_cons_some (f := fun c : TimeSpec × DirCall => entryOp c.2) (a := (now, c)) (b := op) hop] at h2
      exact h2.1
    obtain ⟨a, d1, o, p1, e1, hs, hl, hg1⟩ := call_ok hE hroom hC hO hg now h0.1 c h0.2 hm hfit
    have hnext : p1.entries.length ≤ dirCapacity ∧ GoodDirHistory (sameName C.cmp) p1.entries cs ∧
        entriesAfter (sameName C.cmp) p.entries ((now, c) :: cs) = entriesAfter (sameName C.cmp) p1.entries cs := by
      have h2 := hh.2
      cases hop : entryOp c with
      | none =>
        rw [List.filterMap_cons_none (f := fun c : TimeSpec × DirCall => entryOp c.2) (a := (now, c)) hop] at h2
        rw [step_same hs hop]
        refine ⟨hm, ⟨fun y hy => hh.1 y (by simp [hy]), h2⟩, ?_⟩
        unfold entriesAfter
        rw [List.filterMap_cons_none (f := fun c : TimeSpec × DirCall => entryOp c.2) (a := (now, c)) hop]
      | some op =>
        rw [List.filterMap_cons_some (f := fun c : TimeSpec × DirCall => entryOp c.2) (a := (now, c)) (b := op) hop] at h2
        rw [step_entries hs op hop]
        refine ⟨hfit op hop, ⟨fun y hy => hh.1 y (by simp [hy]), h2.2⟩, ?_⟩
        unfold entriesAfter
        rw [List.filterMap_cons_some (f := fun c : TimeSpec × DirCall => entryOp c.2) (a := (now, c)) (b := op) hop]
        rfl
    obtain ⟨os, p2, hrun, hall, hg2, hm2, he2⟩ := ih hg1 hnext.1 hnext.2.1
    refine ⟨o :: os, p2, .cons hs hrun, ?_, ?_, hm2, by rw [he2, hnext.2.2]⟩
    · rcases e1 with e1 | ⟨e, rfl, e1⟩
      · rw [runDir, e1]; exact .cons hl hall
      · rw [runDir, e1]; exact .cons hl hall
    · rcases e1 with e1 | ⟨e, rfl, e1⟩
      · rw [runDir, e1]; exact hg2
      · rw [runDir, e1]; exact hg2

/-- When a flush changes the attributes, and to what. -/
theorem flush_attrs (hE : FileEnvOk E) (hroom : RoomForDirs E) (hC : CmpOk C.cmp) (hO : OrderOk C) {p : PlainDir} {d : DirObj} (hg : Good E id C p d)
    (hm : p.entries.length ≤ dirCapacity) (now : TimeSpec) (hn : ValidTime now) :
    ∃ d', flush C now d = (.ok (), d') ∧ Good E id C ⟨p.entries, if p.entries ≠ [] ∧ d.nfree > 5 ∧ d.nfree > d.size / 6144
      then attrStep p.attrs (stamp now) .write else p.attrs⟩ d' := by
  obtain ⟨s, l, hr, hd, hp⟩ := hg
  obtain ⟨s1, d1, A1, e1, r1, hd1, hc1, _, hA⟩ := flush_dir_ok hE hroom hC hO now hn hr hd (by rw [hp.length_eq, ← capacity_eq]; exact hm)
  have hnil : l = [] ↔ p.entries = [] := by rw [← List.length_eq_zero_iff, ← List.length_eq_zero_iff, hp.length_eq]
  refine ⟨d1, e1, s1, l, ?_, hd1, hp⟩
  rw [hr.nfree, hr.size hE]
  simp only [hnil, ne_eq] at hA
  simp only [ne_eq]
  rw [← hA]
  exact r1

theorem createDir_ok (hE : FileEnvOk E) (C : BCfg) (id : Bytes) (now : TimeSpec) (hn : ValidTime now) (osUid osGid mode uid gid : UInt32) (rng : Nat) :
    ∃ d, createDir E id now osUid osGid mode uid gid rng = .ok d ∧ Good E id C (newDir E.storeTime now osUid osGid mode uid gid) d := by
  obtain ⟨f, e1, stored, H, R, ha⟩ := createObj_ok hE id now hn osUid osGid mode uid gid rng
  refine ⟨⟨E, id, f, []⟩, ?_, emptyDir, [], ⟨rfl, rfl, rfl, ⟨stored, H, R⟩, ?_⟩, dir_empty C, List.Perm.refl _⟩
  · unfold createDir
    simp only [bind, Except.bind, e1]
  · rw [ha]; rfl

end Securefs.DirFile
