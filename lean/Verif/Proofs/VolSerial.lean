import Verif.Proofs.VolThreadsRun
import Verif.Proofs.DataSerial
import Verif.Spec.VolSerial
/-!
# Helper lemmas: from the order of calls on the ideal volume to the order of calls on the encrypted volume
-/

namespace Securefs.Vt

open Securefs Spec Vol

variable {V : VolEnv} {τ : Bytes → Nat}

/-! ## The beginning -/

/-- A new volume after a history of operations one after the other that stays within the limits. -/
theorem begin_ok (hV : VolEnvOk V) {now : TimeSpec} (hn : ValidTime now) (hk : τ kRootId = 4) (pre : List VolEvent)
    (hp : ∀ done e rest rs I, done ++ e :: rest = pre → IdealFits V.env (idealCfg V) τ ⟨FullFs.fresh (idealCfg V) now, []⟩ done rs I →
      EventFits V.env (idealCfg V) τ I e) :
    ∃ v, volMount V [] 0 now = .ok v ∧ ∃ rs J, IdealFits V.env (idealCfg V) τ ⟨FullFs.fresh (idealCfg V) now, []⟩ pre rs J ∧
      List.Forall₂ ResultLike (volRun V v pre).1 rs ∧ SysRel V τ ⟨(volRun V v pre).2, []⟩ ⟨J.fs, [], J.held⟩ := by
  obtain ⟨v, e, hv⟩ := mount_old hV (τ := τ) (st := []) (old := ⟨[], now⟩)
    ⟨fun _ _ h => (by cases h), fun _ _ => rfl, fun _ _ _ h => (by cases h), fun _ _ h => (by cases h)⟩ hk 0 hn (J := FullFs.fresh (idealCfg V) now) rfl
    fun x => rfl
  obtain ⟨done, rest, rs, J, h1, h2, h3, h4, h5⟩ := run_fits hV pre hv
  cases rest with
  | cons e rest => exact absurd (hp done e rest rs J h1 h2) (h5 e rfl)
  | nil =>
    rw [List.append_nil] at h1
    subst h1
    refine ⟨v, e, rs, J, h2, h3, h4.rel, fun x hx => h4.live x (h4.held ▸ hx), ?_, .nil⟩
    show List.Perm (volRun V v done).2.held (J.held ++ [])
    rw [List.append_nil, h4.held]

theorem TRel.like {t : VolThread} {q : Prog VolAnswer} (h : TRel V τ t q) : ThreadLike t.prog q := by
  cases h with
  | ret h => exact h
  | throw e => rfl
  | run he h =>
    cases h with
    | ret => cases he
    | throw => cases he
    | sec => trivial
    | take => trivial

/-! ## What a thread of the ideal volume has come to -/

/-- How the threads have come from one state to another one, in terms of the moments of `FullSys`. -/
structure Came (cfg : FsCfg) (I : IdealThreads) (l : List FullEvent) (I' : IdealThreads) : Prop where
  run : FullSys.run cfg ⟨I.fs, I.threads.map numbered⟩ l = ⟨I'.fs, I'.threads.map numbered⟩
  count : I'.threads.length = I.threads.length + (started l).length
  old : ∀ i p, I.threads[i]? = some p → ∃ p', I'.threads[i]? = some p' ∧
    ∀ ms a, Ran p' ms (.ok a) → Ran p (moments cfg i ⟨I.fs, I.threads.map numbered⟩ l ++ ms) (.ok a)
  new : ∀ j op, (started l)[j]? = some op → ∃ p', I'.threads[I.threads.length + j]? = some p' ∧
    ∀ ms a, Ran p' ms (.ok a) → Ran (idealOp cfg op) (moments cfg (I.threads.length + j) ⟨I.fs, I.threads.map numbered⟩ l ++ ms) (.ok a)

theorem moments_append (cfg : FsCfg) (i : Nat) : ∀ (a b : List FullEvent) (s : FullSys),
    moments cfg i s (a ++ b) = moments cfg i s a ++ moments cfg i (s.run cfg a) b
  | [], _, _ => rfl
  | e :: a, b, s => by
    show momentOf cfg i s e ++ moments cfg i (s.step cfg e) (a ++ b) = (momentOf cfg i s e ++ moments cfg i (s.step cfg e) a) ++ _
    rw [moments_append cfg i a b, List.append_assoc]
    rfl

theorem Came.nil (cfg : FsCfg) (I : IdealThreads) : Came cfg I [] I :=
  ⟨rfl, rfl, fun _ p h => ⟨p, h, fun _ _ h => h⟩, fun j op h => by cases h⟩

theorem Came.trans {cfg : FsCfg} {I I' I'' : IdealThreads} {l m : List FullEvent} (h : Came cfg I l I') (h' : Came cfg I' m I'') : Came cfg I (l ++ m) I'' := by
  refine ⟨by rw [run_append, h.run, h'.run], by rw [h'.count, h.count, Dm.started_append, List.length_append, Nat.add_assoc], fun i p hp => ?_, fun j op hj => ?_⟩
  · obtain ⟨p1, e1, f1⟩ := h.old i p hp
    obtain ⟨p2, e2, f2⟩ := h'.old i p1 e1
    refine ⟨p2, e2, fun ms a hr => ?_⟩
    rw [moments_append, h.run, List.append_assoc]
    exact f1 _ a (f2 ms a hr)
  · rw [Dm.started_append] at hj
    by_cases hlt : j < (started l).length
    · rw [List.getElem?_append_left hlt] at hj
      obtain ⟨p1, e1, f1⟩ := h.new j op hj
      obtain ⟨p2, e2, f2⟩ := h'.old _ p1 e1
      refine ⟨p2, e2, fun ms a hr => ?_⟩
      rw [moments_append, h.run, List.append_assoc]
      exact f1 _ a (f2 ms a hr)
    · rw [List.getElem?_append_right (Nat.le_of_not_lt hlt)] at hj
      obtain ⟨p2, e2, f2⟩ := h'.new _ op hj
      have hidx : I'.threads.length + (j - (started l).length) = I.threads.length + j := by
        rw [h.count]
        omega
      rw [hidx] at e2 f2
      refine ⟨p2, e2, fun ms a hr => ?_⟩
      rw [moments_append, h.run]
      have hno : moments cfg (I.threads.length + j) ⟨I.fs, I.threads.map numbered⟩ l = [] := by
        have : ∀ (l : List FullEvent) (s : FullSys), s.threads.length + (started l).length ≤ I.threads.length + j →
            moments cfg (I.threads.length + j) s l = [] := by
          intro l
          induction l with
          | nil => intros; rfl
          | cons e l ih =>
            intro s hs
            show momentOf cfg _ s e ++ moments cfg _ (s.step cfg e) l = []
            have h0 : (started (e :: l)).length = (started [e]).length + (started l).length := by
              rw [← List.length_append, ← Dm.started_append]; rfl
            rw [Dm.momentOf_none (by omega), ih]
            · rfl
            · by_cases hst : ∃ op, e = .start op
              · obtain ⟨op, rfl⟩ := hst
                have : ((s.step cfg (.start op)).threads).length = s.threads.length + 1 := by
                  show (s.threads ++ [_]).length = _
                  simp
                rw [this]
                have : (started [FullEvent.start op]).length = 1 := rfl
                omega
              · rw [Dm.step_length cfg s e fun op he => hst ⟨op, he⟩]
                omega
        refine this l _ ?_
        dsimp only
        rw [List.length_map]
        omega
      rw [hno]
      exact f2 ms a hr

/-- An event that starts nothing and executes no section. -/
theorem Came.quiet {cfg : FsCfg} {I I' : IdealThreads} {l : List FullEvent} (hT : I'.threads = I.threads)
    (hr : FullSys.run cfg ⟨I.fs, I.threads.map numbered⟩ l = ⟨I'.fs, I'.threads.map numbered⟩)
    (hl : ∀ e ∈ l, (∀ op, e ≠ .start op) ∧ ∀ i, e ≠ .step i) : Came cfg I l I' := by
  have hs : started l = [] := by
    clear hr
    induction l with
    | nil => rfl
    | cons e l ih =>
      have := hl e List.mem_cons_self
      cases e with
      | start op => exact absurd rfl (this.1 op)
      | _ => exact ih fun e he => hl e (List.mem_cons_of_mem _ he)
  have hm : ∀ i s, moments cfg i s l = [] := by
    clear hr
    intro i
    induction l with
    | nil => intro s; rfl
    | cons e l ih =>
      intro s
      have := hl e List.mem_cons_self
      have h1 : momentOf cfg i s e = [] := by
        cases e with
        | step j => exact absurd rfl (this.2 j)
        | _ => rfl
      show momentOf cfg i s e ++ moments cfg i (s.step cfg e) l = []
      rw [h1, ih (fun e he => hl e (List.mem_cons_of_mem _ he)) (by
        cases e with
        | start op => exact absurd rfl (this.1 op)
        | _ => exact hs)]
      rfl
  refine ⟨hr, by rw [hT, hs]; rfl, fun i p hp => ⟨p, by rw [hT]; exact hp, fun ms a h => ?_⟩, fun j op h => by rw [hs] at h; cases h⟩
  rw [hm]
  exact h

theorem lt_of_get {α : Type _} {l : List α} {i : Nat} {x : α} (h : l[i]? = some x) : i < l.length := Dm.started_lt' h

/-- One move. -/
theorem came {cfg : FsCfg} {I I' : IdealThreads} {e : VolSysEvent} (h : IdealMove cfg I e I') : ∃ l, AsFull e l ∧ Came cfg I l I' := by
  obtain ⟨l, hl, hr⟩ := as_full h
  have quietEvict : ∀ ids : List Bytes, ∀ e ∈ (ids.map FullEvent.evict), (∀ op, e ≠ .start op) ∧ ∀ i, e ≠ .step i := by
    intro ids e he
    obtain ⟨x, _, rfl⟩ := List.mem_map.1 he
    exact ⟨fun _ h => (nomatch h), fun _ h => (nomatch h)⟩
  cases h with
  | start op =>
    cases hl
    refine ⟨_, .start op, hr, by simp [started], fun i p hp => ⟨p, ?_, fun ms a h => h⟩, fun j op' hj => ?_⟩
    · show (I.threads ++ [_])[i]? = _
      rw [List.getElem?_append_left (lt_of_get hp)]
      exact hp
    · cases j with
      | succ j => cases hj
      | zero =>
        injection hj with hj
        subst hj
        refine ⟨idealOp cfg op, ?_, fun ms a h => h⟩
        show (I.threads ++ [_])[I.threads.length + 0]? = _
        simp
  | @step i β f k b fs' hi hf =>
    cases hl
    refine ⟨_, .step i, hr, by simp [started], fun j p hp => ?_, fun j op h => by cases h⟩
    have hi' : (I.threads.map numbered)[i]? = some (.sec f fun b => numbered (k b)) := by rw [List.getElem?_map, hi]; rfl
    have hfs : (FullSys.step cfg ⟨I.fs, I.threads.map numbered⟩ (.step i)).fs = fs' := congrArg FullSys.fs hr
    by_cases hj : i = j
    · subst hj
      rw [hi] at hp
      injection hp with hp
      subst hp
      refine ⟨k b, ?_, fun ms a h => ?_⟩
      · show (I.threads.set i (k b))[i]? = _
        rw [List.getElem?_set_self (lt_of_get hi)]
      · have hm : moments cfg i ⟨I.fs, I.threads.map numbered⟩ [.step i] = [(I.fs, fs')] := by
          simp only [moments, momentOf, if_true, hi', hfs, List.append_nil]
        rw [hm]
        exact .go hf h
    · refine ⟨p, ?_, fun ms a h => ?_⟩
      · show (I.threads.set i (k b))[j]? = _
        rw [List.getElem?_set_ne hj]
        exact hp
      · have hm : moments cfg j ⟨I.fs, I.threads.map numbered⟩ [.step i] = [] := by
          simp only [moments, momentOf, if_neg hj, List.append_nil]
        rw [hm]
        exact h
  | @stepError i β f k er fs' hi hf =>
    cases hl
    refine ⟨_, .step i, hr, by simp [started], fun j p hp => ?_, fun j op h => by cases h⟩
    by_cases hj : i = j
    · subst hj
      refine ⟨.throw er, ?_, fun ms a h => nomatch h⟩
      show (I.threads.set i _)[i]? = _
      rw [List.getElem?_set_self (lt_of_get hi)]
    · refine ⟨p, ?_, fun ms a h => ?_⟩
      · show (I.threads.set i _)[j]? = _
        rw [List.getElem?_set_ne hj]
        exact hp
      · have hm : moments cfg j ⟨I.fs, I.threads.map numbered⟩ [.step i] = [] := by
          simp only [moments, momentOf, if_neg hj, List.append_nil]
        rw [hm]
        exact h
  | @idle i hi =>
    cases hl
    refine ⟨_, .step i, hr, rfl, fun j p hp => ⟨p, hp, fun ms a h => ?_⟩, fun j op h => by cases h⟩
    have hm : moments cfg j ⟨I.fs, I.threads.map numbered⟩ [.step i] = [] := by
      by_cases hj : i = j
      · subst hj
        cases p with
        | sec f k => exact absurd hp (hi _ f k)
        | ret x =>
          have : (I.threads.map numbered)[i]? = some (.ret (VolAnswer.result x)) := by rw [List.getElem?_map, hp]; rfl
          simp only [moments, momentOf, if_true, this, List.append_nil]
        | throw x =>
          have : (I.threads.map numbered)[i]? = some (.throw x) := by rw [List.getElem?_map, hp]; rfl
          simp only [moments, momentOf, if_true, this, List.append_nil]
      · simp only [moments, momentOf, if_neg hj, List.append_nil]
    rw [hm]
    exact h
  | @fail i e β f k hi =>
    cases hl
    refine ⟨_, .fail i e, hr, by simp [started], fun j p hp => ?_, fun j op h => by cases h⟩
    by_cases hj : i = j
    · subst hj
      refine ⟨.throw e, ?_, fun ms a h => nomatch h⟩
      show (I.threads.set i _)[i]? = _
      rw [List.getElem?_set_self (lt_of_get hi)]
    · refine ⟨p, ?_, fun ms a h => h⟩
      show (I.threads.set i _)[j]? = _
      rw [List.getElem?_set_ne hj]
      exact hp
  | @noFail i e hi =>
    cases hl
    exact ⟨_, .fail i e, .quiet rfl hr fun e he => by
      obtain rfl := List.mem_singleton.1 he
      exact ⟨fun _ h => (nomatch h), fun _ h => (nomatch h)⟩⟩
  | release x => cases hl; exact ⟨_, .release x, .quiet rfl hr fun e he => nomatch he⟩
  | releasedir x => cases hl; exact ⟨_, .releasedir x, .quiet rfl hr fun e he => nomatch he⟩
  | tick now =>
    cases hl
    exact ⟨_, .tick now, .quiet rfl hr fun e he => by
      obtain rfl := List.mem_singleton.1 he
      exact ⟨fun _ h => (nomatch h), fun _ h => (nomatch h)⟩⟩
  | close id => exact ⟨[], .close id, .nil cfg I⟩
  | gone id hh =>
    refine ⟨l, hl, .quiet rfl hr fun e he => ?_⟩
    cases hl with
    | close => cases he
    | gone =>
      obtain rfl := List.mem_singleton.1 he
      exact ⟨fun _ h => (nomatch h), fun _ h => (nomatch h)⟩
  | eject id ids =>
    refine ⟨l, hl, .quiet rfl hr fun e he => ?_⟩
    cases hl
    exact quietEvict _ e he
  | remount ids hh =>
    refine ⟨l, hl, .quiet rfl hr fun e he => ?_⟩
    cases hl
    exact quietEvict _ e he
  | busy hh => exact ⟨[], .remount [], .nil cfg I⟩

/-! ## A history of the volume, of the ideal volume and of `FullSys` -/

/-- The three side by side. -/
inductive SimFull (V : VolEnv) (τ : Bytes → Nat) : VolSys → IdealThreads → List VolSysEvent → List FullEvent → IdealThreads → Prop
  | nil {s I} : SysRel V τ s I → SimFull V τ s I [] [] I
  | cons {s I e l I1 es ls I2} : SysRel V τ s I → AsFull e l → Came (idealCfg V) I l I1 → SimFull V τ (s.step V e) I1 es ls I2 →
      SimFull V τ s I (e :: es) (l ++ ls) I2

theorem sim_run (hV : VolEnvOk V) : ∀ (evs : List VolSysEvent) {s : VolSys} {I : IdealThreads}, SysRel V τ s I →
    ∃ done rest l I', done ++ rest = evs ∧ IdealMoves V.env (idealCfg V) τ I done I' ∧ SimFull V τ s I done l I' ∧
      ∀ e, rest.head? = some e → ¬ MoveWithin V.env τ I' e
  | [], s, I, h => ⟨[], [], [], I, rfl, .nil, .nil h, fun e he => by cases he⟩
  | e :: evs, s, I, h => by
    by_cases hw : MoveWithin V.env τ I e
    · obtain ⟨I1, hs, h1⟩ := sys_step h hV hw
      obtain ⟨l, hl, hc⟩ := came hs
      obtain ⟨done, rest, ls, I2, hd, hr, h2, hx⟩ := sim_run hV evs h1
      exact ⟨e :: done, rest, l ++ ls, I2, by rw [← hd]; rfl, .cons hw hs hr, .cons h hl hc h2, hx⟩
    · exact ⟨[], e :: evs, [], I, rfl, .nil, .nil h, fun e' he => by injection he with he; subst he; exact hw⟩

theorem SimFull.first {s : VolSys} {I I' : IdealThreads} {es : List VolSysEvent} {l : List FullEvent} (h : SimFull V τ s I es l I') : SysRel V τ s I := by
  cases h with
  | nil h => exact h
  | cons h => exact h

theorem SimFull.last {s : VolSys} {I I' : IdealThreads} {es : List VolSysEvent} {l : List FullEvent} (h : SimFull V τ s I es l I') :
    SysRel V τ (s.run V es) I' := by
  induction h with
  | nil h => exact h
  | cons _ _ _ _ ih => exact ih

theorem SimFull.came {s : VolSys} {I I' : IdealThreads} {es : List VolSysEvent} {l : List FullEvent} (h : SimFull V τ s I es l I') :
    Came (idealCfg V) I l I' := by
  induction h with
  | nil h => exact .nil _ _
  | cons _ _ hc _ ih => exact hc.trans ih

theorem SimFull.full {s : VolSys} {I I' : IdealThreads} {es : List VolSysEvent} {l : List FullEvent} (h : SimFull V τ s I es l I') : AllAsFull es l := by
  induction h with
  | nil h => exact .nil
  | cons _ ha _ _ ih => exact .cons ha ih

theorem SimFull.split : ∀ (e1 : List VolSysEvent) {e2 : List VolSysEvent} {s : VolSys} {I I' : IdealThreads} {l : List FullEvent},
    SimFull V τ s I (e1 ++ e2) l I' → ∃ l1 l2 M, l = l1 ++ l2 ∧ SimFull V τ s I e1 l1 M ∧ SimFull V τ (s.run V e1) M e2 l2 I'
  | [], _, _, I, _, l, h => ⟨[], l, I, rfl, .nil h.first, h⟩
  | e :: e1, e2, s, I, I', l, h => by
    cases h with
    | cons h0 ha hc hr =>
      obtain ⟨l1, l2, M, rfl, h1, h2⟩ := SimFull.split e1 hr
      exact ⟨_ ++ l1, l2, M, (List.append_assoc _ _ _).symm, .cons h0 ha hc h1, h2⟩

theorem started_as {e : VolSysEvent} {l : List FullEvent} (h : AsFull e l) : started l = volStarted [e] := by
  have ev : ∀ ids : List Bytes, started (ids.map FullEvent.evict) = [] := by
    intro ids
    induction ids with
    | nil => rfl
    | cons _ _ ih => exact ih
  cases h with
  | eject id ids => exact ev ids
  | remount ids => exact ev ids
  | _ => rfl

theorem volStarted_append : ∀ (a b : List VolSysEvent), volStarted (a ++ b) = volStarted a ++ volStarted b
  | [], _ => rfl
  | e :: a, b => by
    cases e with
    | start op =>
      show op :: volStarted (a ++ b) = op :: (volStarted a ++ volStarted b)
      rw [volStarted_append a b]
    | _ => exact volStarted_append a b

theorem started_all {es : List VolSysEvent} {l : List FullEvent} (h : AllAsFull es l) : started l = volStarted es := by
  induction h with
  | nil => rfl
  | @cons e es l ls ha _ ih =>
    rw [Dm.started_append, ih, started_as ha, ← volStarted_append]
    rfl

theorem mem_as {es : List VolSysEvent} {l : List FullEvent} (h : AllAsFull es l) :
    (∀ op, FullEvent.start op ∈ l → VolSysEvent.start op ∈ es) ∧ ∀ id, FullEvent.reap id ∈ l → VolSysEvent.close id ∈ es := by
  induction h with
  | nil => exact ⟨fun _ h => (nomatch h), fun _ h => (nomatch h)⟩
  | @cons e es l ls ha _ ih =>
    refine ⟨fun op hm => ?_, fun id hm => ?_⟩
    · rcases List.mem_append.1 hm with hm | hm
      · cases ha <;> simp_all
      · exact List.mem_cons_of_mem _ (ih.1 op hm)
    · rcases List.mem_append.1 hm with hm | hm
      · cases ha <;> simp_all
      · exact List.mem_cons_of_mem _ (ih.2 id hm)

/-- An operation has returned on the volume if it has on the ideal volume, and then the answers are alike. -/
theorem SysRel.answer {s : VolSys} {I : IdealThreads} (h : SysRel V τ s I) (i : Nat) :
    (∀ a, volAnswer s i = some a → ∃ b, I.threads[i]? = some (.ret b) ∧ VolAnswerLike a b) ∧
      ∀ b, I.threads[i]? = some (.ret b) → ∃ a, volAnswer s i = some a ∧ VolAnswerLike a b := by
  unfold volAnswer
  cases ht : s.threads[i]? with
  | none =>
    have hn := forall2_none h.threads ht
    refine ⟨fun a ha => (by cases ha), fun b hb => ?_⟩
    rw [hn] at hb
    cases hb
  | some t =>
    obtain ⟨q, hq, hr⟩ := forall2_get h.threads i ht
    have hl := hr.like
    rw [hq]
    obtain ⟨p, mine⟩ := t
    dsimp only at hl
    cases p with
    | ret a =>
      refine ⟨fun a' ha => ?_, fun b hb => ?_⟩
      · injection ha with ha
        subst ha
        cases q with
        | ret b => exact ⟨b, rfl, hl⟩
        | throw e => exact absurd hl id
        | sec f k => exact absurd hl id
      · injection hb with hb
        subst hb
        exact ⟨a, rfl, hl⟩
    | throw e =>
      refine ⟨fun a' ha => (by cases ha), fun b hb => ?_⟩
      injection hb with hb
      subst hb
      exact absurd hl id
    | sec f k =>
      refine ⟨fun a' ha => (by cases ha), fun b hb => ?_⟩
      injection hb with hb
      subst hb
      exact absurd hl id
    | take f k =>
      refine ⟨fun a' ha => (by cases ha), fun b hb => ?_⟩
      injection hb with hb
      subst hb
      exact absurd hl id

theorem numbered_ret {p : Prog VolAnswer} {v : Int} (h : numbered p = .ret v) : ∃ a, p = .ret a ∧ VolAnswer.result a = v := by
  cases p with
  | ret a =>
    have : Prog.ret (VolAnswer.result a) = .ret v := h
    injection this with this
    exact ⟨a, rfl, this⟩
  | throw => cases h
  | sec => cases h

theorem returned_iff {I : IdealThreads} (fs : FullFs) (i : Nat) :
    Returned ⟨fs, I.threads.map numbered⟩ i ↔ ∃ b, I.threads[i]? = some (.ret b) := by
  unfold Returned
  dsimp only
  rw [List.getElem?_map]
  constructor
  · rintro ⟨v, hv⟩
    cases hp : I.threads[i]? with
    | none => rw [hp] at hv; cases hv
    | some p =>
      rw [hp] at hv
      injection hv with hv
      obtain ⟨a, rfl, _⟩ := numbered_ret hv
      exact ⟨a, rfl⟩
  · rintro ⟨b, hb⟩
    rw [hb]
    exact ⟨_, rfl⟩

/-- What a call on contents gives. -/
theorem ran_answer {cfg : FsCfg} {id b : Bytes} {op : FullOp} (ho : onData id op) {m : Moment} {a : VolAnswer} (hb : contents m.1 id = some b)
    (h : Ran (idealOp cfg op) [m] (.ok a)) : DataAnswer b op a := by
  cases op with
  | read h' off len =>
    have hid : h'.id = id := ho
    subst hid
    have hsh : idealOp cfg (.read h' off len) = .sec (secRead cfg h' off len) fun b => .ret (.bytes (toCInt b.length) b) := rfl
    rw [hsh] at h
    cases h with
    | @go _ _ _ fs fs' x ms _ hf hk =>
      cases hk
      have hx : x = Spec.read b off len := by
        unfold secRead Sec.reg Sec.file at hf
        rw [Dm.contents_get] at hb
        cases hg : fs.get h'.id with
        | none => rw [hg] at hf; cases hf
        | some n =>
          rw [hg] at hf hb
          dsimp only at hf
          injection hb with hb
          cases hc : castAs h' typeRegular n with
          | error e => rw [hc] at hf; cases hf
          | ok _ =>
            rw [hc] at hf
            injection hf with hf _
            injection hf with hf
            rw [← hf, ← hb]
      subst hx
      exact ⟨_, rfl, fun hl => Dm.toCInt_small hl⟩
  | write h' off d =>
    have hsh : idealOp cfg (.write h' off d) = .sec (secWrite cfg h' off d) fun _ => .ret (.code (toCInt d.length)) := rfl
    rw [hsh] at h
    cases h with
    | go hf hk =>
      cases hk
      exact ⟨_, rfl, fun hl => Dm.toCInt_small hl⟩
  | ftruncate h' n =>
    have hsh : idealOp cfg (.ftruncate h' n) = .sec (secTruncate cfg h' n) fun _ => .ret (.code 0) := rfl
    rw [hsh] at h
    cases h with
    | go hf hk =>
      cases hk
      rfl
  | _ => exact False.elim ho

theorem like_eq {a a' : VolAnswer} (h1 : ∀ n st, a ≠ .stat n st) (h2 : ∀ n l, a ≠ .items n l) (h : VolAnswerLike a' a) : a' = a := by
  cases a with
  | stat n st => exact absurd rfl (h1 n st)
  | items n l => exact absurd rfl (h2 n l)
  | _ =>
    cases a' with
    | stat n st => cases st <;> exact h
    | _ => exact h

theorem answer_like {b : Bytes} {op : FullOp} {a a' : VolAnswer} (h : DataAnswer b op a) (hl : VolAnswerLike a' a) : DataAnswer b op a' := by
  have : a' = a := by
    cases op with
    | read _ off len => obtain ⟨n, rfl, _⟩ := h; exact like_eq (fun _ _ h => (nomatch h)) (fun _ _ h => (nomatch h)) hl
    | write _ _ d => obtain ⟨n, rfl, _⟩ := h; exact like_eq (fun _ _ h => (nomatch h)) (fun _ _ h => (nomatch h)) hl
    | ftruncate _ _ => cases h; exact like_eq (fun _ _ h => (nomatch h)) (fun _ _ h => (nomatch h)) hl
    | _ => exact absurd h id
  rw [this]
  exact h

/-- The order on the ideal volume is one on the volume. -/
theorem serial_ok {s : VolSys} {I I' : IdealThreads} {es : List VolSysEvent} {l : List FullEvent} (hI : I.threads = []) (h : SimFull V τ s I es l I')
    {id b : Bytes} {order : List (Nat × FullOp)} (hs : Serial (idealCfg V) I.fs l id b order) : VolSerial V s es id b order := by
  have hst := started_all h.full
  have hc := h.came
  have hrun : ∀ {e1 l1 M}, SimFull V τ s I e1 l1 M → FullSys.run (idealCfg V) ⟨I.fs, []⟩ l1 = ⟨M.fs, M.threads.map numbered⟩ := by
    intro e1 l1 M h1
    have := h1.came.run
    rw [hI] at this
    exact this
  have hret : ∀ {e1 l1 M} (_ : SimFull V τ s I e1 l1 M) (i : Nat),
      Returned (FullSys.run (idealCfg V) ⟨I.fs, []⟩ l1) i ↔ ∃ a, volAnswer (s.run V e1) i = some a := by
    intro e1 l1 M h1 i
    rw [hrun h1, returned_iff]
    have := h1.last.answer i
    exact ⟨fun ⟨b, hb⟩ => (this.2 b hb).imp fun _ h => h.1, fun ⟨a, ha⟩ => (this.1 a ha).imp fun _ h => h.1⟩
  refine ⟨hs.once, fun i op => ?_, fun k i op hk => ?_, fun e1 e2 he x y hx hy hr hlen => ?_⟩
  · rw [hs.calls i op, hst, hret h i]
  · obtain ⟨m, v, hm, hb, _, hv, _⟩ := hs.turn k i op hk
    obtain ⟨hop, hon, a, ha⟩ := ((hs.calls i op).trans (and_congr_right fun _ => and_congr_right fun _ => hret h i)).1 (List.mem_of_getElem? hk)
    obtain ⟨c, hc1, hl⟩ := (h.last.answer i).1 a ha
    refine ⟨a, ha, answer_like (ran_answer (cfg := idealCfg V) hon hb ?_) hl⟩
    obtain ⟨p', e1, f1⟩ := hc.new i op hop
    rw [hI, List.length_nil, Nat.zero_add] at e1 f1
    rw [hc1] at e1
    injection e1 with e1
    subst e1
    have := f1 [] c (.ret c)
    rw [List.append_nil] at this
    rw [← hm]
    exact this
  · subst he
    obtain ⟨l1, l2, M, rfl, h1, h2⟩ := SimFull.split e1 h
    exact hs.time l1 l2 rfl x y hx hy ((hret h1 x.1).2 hr) (by rw [started_all h1.full]; exact hlen)

end Securefs.Vt
