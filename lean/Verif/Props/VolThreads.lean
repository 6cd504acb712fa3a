import Verif.Proofs.VolSerial
import Verif.Props.FullMix
/-!
# C107: threads on an encrypted volume of the full format

C85 speaks of operations on the encrypted volume one after the other, C60, C101 and C106 of threads on the plain file system.  Here threads run on
the encrypted volume, with objects being closed, dropped and read back from the backing files between any two sections.

The model is `Verif/Model/VolThreads.lean`, the specification `Verif/Spec/VolThreads.lean`.
-/

namespace Securefs.Props

open Securefs Spec Vol

/-- C107: a new volume is mounted, used for a while, and then by any number of threads at once.  At each time the operations of the volume are where those of
    the ideal volume are: under way, or at their ends with like answers or the same exceptions, up to the first event that exceeds a limit, if there is one.
    The objects in use are those that the caller holds and those that operations under way hold. -/
theorem C107_threads {V : VolEnv} (hV : VolEnvOk V) {kind : Bytes → Nat} (hk : kind kRootId = 4) {now : TimeSpec} (hn : ValidTime now) (pre : List VolEvent)
    (hp : ∀ done e rest rs I, done ++ e :: rest = pre → IdealFits V.env (idealCfg V) kind ⟨FullFs.fresh (idealCfg V) now, []⟩ done rs I →
      EventFits V.env (idealCfg V) kind I e) (evs : List VolSysEvent) :
    ∃ v, volMount V [] 0 now = .ok v ∧ ∃ rs J, IdealFits V.env (idealCfg V) kind ⟨FullFs.fresh (idealCfg V) now, []⟩ pre rs J ∧
      List.Forall₂ ResultLike (volRun V v pre).1 rs ∧ ∃ done rest I, done ++ rest = evs ∧
      IdealMoves V.env (idealCfg V) kind ⟨J.fs, [], J.held⟩ done I ∧
      List.Forall₂ ThreadLike ((VolSys.run V ⟨(volRun V v pre).2, []⟩ done).threads.map VolThread.prog) I.threads ∧
      (VolSys.run V ⟨(volRun V v pre).2, []⟩ done).vol.held.Perm
        (I.held ++ ((VolSys.run V ⟨(volRun V v pre).2, []⟩ done).threads.map VolThread.mine).flatten) ∧
      ∀ e, rest.head? = some e → ¬ MoveWithin V.env kind I e := by
  obtain ⟨v, e, rs, J, h1, h2, h3⟩ := Vt.begin_ok hV hn hk pre hp
  obtain ⟨done, rest, I, h4, h5, h6, h7⟩ := Vt.sys_run hV evs h3
  refine ⟨v, e, rs, J, h1, h2, done, rest, I, h4, h5, ?_, h6.held, h7⟩
  rw [List.forall₂_map_left_iff]
  exact h6.threads.imp fun _ _ h => h.like

/-- C107: if the ideal volume stays within the limits in all that it may do, this holds for the whole history. -/
theorem C107_whole {V : VolEnv} (hV : VolEnvOk V) {kind : Bytes → Nat} (hk : kind kRootId = 4) {now : TimeSpec} (hn : ValidTime now) (pre : List VolEvent)
    (hp : ∀ done e rest rs I, done ++ e :: rest = pre → IdealFits V.env (idealCfg V) kind ⟨FullFs.fresh (idealCfg V) now, []⟩ done rs I →
      EventFits V.env (idealCfg V) kind I e) (evs : List VolSysEvent)
    (hw : ∀ rs J done e rest I, IdealFits V.env (idealCfg V) kind ⟨FullFs.fresh (idealCfg V) now, []⟩ pre rs J → done ++ e :: rest = evs →
      IdealMoves V.env (idealCfg V) kind ⟨J.fs, [], J.held⟩ done I → MoveWithin V.env kind I e) :
    ∃ v, volMount V [] 0 now = .ok v ∧ ∃ rs J I, IdealFits V.env (idealCfg V) kind ⟨FullFs.fresh (idealCfg V) now, []⟩ pre rs J ∧
      IdealMoves V.env (idealCfg V) kind ⟨J.fs, [], J.held⟩ evs I ∧
      List.Forall₂ ThreadLike ((VolSys.run V ⟨(volRun V v pre).2, []⟩ evs).threads.map VolThread.prog) I.threads := by
  obtain ⟨v, e, rs, J, h1, h2, done, rest, I, h3, h4, h5, _, h6⟩ := C107_threads hV hk hn pre hp evs
  cases rest with
  | nil =>
    rw [List.append_nil] at h3
    subst h3
    exact ⟨v, e, rs, J, I, h1, h4, h5⟩
  | cons x rest => exact absurd (hw rs J done x rest I h1 h3 h4) (h6 x rfl)

/-- C107: a history of the ideal volume is a history of `FullSys`, with the same files, and with the same operations, of which `FullSys` keeps the numbers
    that they return.  So what C60, C101 and C106 say about all histories of `FullSys` holds for it. -/
theorem C107_full {E : FileEnv} {cfg : FsCfg} {kind : Bytes → Nat} {I I' : IdealThreads} {evs : List VolSysEvent} (h : IdealMoves E cfg kind I evs I') :
    ∃ l, AllAsFull evs l ∧ FullSys.run cfg ⟨I.fs, I.threads.map numbered⟩ l = ⟨I'.fs, I'.threads.map numbered⟩ :=
  Vt.all_as_full h

/-- C107: the answer of each operation on the volume that has returned is like the one that the plain operation gives when its sections are executed at the
    moments of one history of `FullSys`, which is the same for all operations. -/
theorem C107_answers {V : VolEnv} (hV : VolEnvOk V) {kind : Bytes → Nat} (hk : kind kRootId = 4) {now : TimeSpec} (hn : ValidTime now) (pre : List VolEvent)
    (hp : ∀ done e rest rs I, done ++ e :: rest = pre → IdealFits V.env (idealCfg V) kind ⟨FullFs.fresh (idealCfg V) now, []⟩ done rs I →
      EventFits V.env (idealCfg V) kind I e) (evs : List VolSysEvent) :
    ∃ v, volMount V [] 0 now = .ok v ∧ ∃ rs J, IdealFits V.env (idealCfg V) kind ⟨FullFs.fresh (idealCfg V) now, []⟩ pre rs J ∧
      ∃ done rest I l, done ++ rest = evs ∧ IdealMoves V.env (idealCfg V) kind ⟨J.fs, [], J.held⟩ done I ∧ AllAsFull done l ∧ started l = volStarted done ∧
      (∀ i op a, (volStarted done)[i]? = some op → volAnswer (VolSys.run V ⟨(volRun V v pre).2, []⟩ done) i = some a →
        ∃ b, VolAnswerLike a b ∧ Ran (idealOp (idealCfg V) op) (moments (idealCfg V) i ⟨J.fs, []⟩ l) (.ok b)) ∧
      ∀ e, rest.head? = some e → ¬ MoveWithin V.env kind I e := by
  obtain ⟨v, e, rs, J, h1, h2, h3⟩ := Vt.begin_ok hV hn hk pre hp
  obtain ⟨done, rest, l, I, h4, h5, h6, h7⟩ := Vt.sim_run hV evs h3
  refine ⟨v, e, rs, J, h1, done, rest, I, l, h4, h5, h6.full, Vt.started_all h6.full, fun i op a hop ha => ?_, h7⟩
  obtain ⟨c, hc, hl⟩ := (h6.last.answer i).1 a ha
  rw [← Vt.started_all h6.full] at hop
  obtain ⟨p', e1, f1⟩ := h6.came.new i op hop
  rw [List.length_nil, Nat.zero_add] at e1 f1
  rw [hc] at e1
  injection e1 with e1
  subst e1
  have := f1 [] c (.ret c)
  rw [List.append_nil] at this
  exact ⟨c, hl, this⟩

/-- C107: an operation of the volume that is cut into sections, and is not disturbed, is the operation of C85. -/
theorem C107_alone (V : VolEnv) (op : FullOp) : (vpOp V op).run = volOp V op := Vt.op_run op

/-! ## A case -/

/-- What the ideal volume does at starts and sections, which leave no choice. -/
def idealNext (cfg : FsCfg) (I : IdealThreads) : VolSysEvent → IdealThreads
  | .start op => ⟨I.fs, I.threads ++ [idealOp cfg op], handed (idealOp cfg op) ++ I.held⟩
  | .step i =>
    match I.threads[i]? with
    | some (.sec f k) =>
      match f I.fs with
      | (.ok b, fs') => ⟨fs', I.threads.set i (k b), handed (k b) ++ I.held⟩
      | (.error e, fs') => ⟨fs', I.threads.set i (.throw e), I.held⟩
    | _ => I
  | _ => I

/-- A check of the limits. -/
def startCheck (E : FileEnv) (kind : Bytes → Nat) (I : IdealThreads) (op : FullOp) : Bool :=
  (match FullOp.handle? op with | some h => I.held.contains h | none => true) &&
  (FullOp.adds op).all (fun p => !p.contains 0) &&
  (match FullOp.makes? op with | some (id, k) => decide (id.length = 32) && decide (kind id = k) | none => true) &&
  (match op with | .utimens _ _ _ => false | _ => true) &&
  decide (FullOp.reach op ≤ fileLimit E)

theorem startCheck_sound {E : FileEnv} {kind : Bytes → Nat} {I : IdealThreads} {op : FullOp} (h : startCheck E kind I op = true) : StartWithin E kind I op := by
  unfold startCheck at h
  simp only [Bool.and_eq_true] at h
  obtain ⟨⟨⟨⟨h1, h2⟩, h3⟩, h4⟩, h5⟩ := h
  refine ⟨fun x hx => ?_, fun p hp => ?_, fun id k hid => ?_, fun p g ts ht => ?_, by simpa using h5⟩
  · rw [hx] at h1
    simpa using h1
  · have := List.all_eq_true.1 h2 p hp
    simpa using this
  · rw [hid] at h3
    simpa using h3
  · subst ht
    cases h4

/-- The same along a history of starts and sections. -/
def movesCheck (E : FileEnv) (cfg : FsCfg) (kind : Bytes → Nat) : IdealThreads → List VolSysEvent → Bool
  | _, [] => true
  | I, e :: es =>
    (match e with
      | .start op => startCheck E kind I op
      | .step _ => I.fs.nodes.all fun p => decide (p.2.entries.length + 2 ≤ dirCapacity)
      | _ => false) && movesCheck E cfg kind (idealNext cfg I e) es

theorem next_unique {cfg : FsCfg} {I I' : IdealThreads} {e : VolSysEvent} (he : (∃ op, e = .start op) ∨ ∃ i, e = .step i) (h : IdealMove cfg I e I') :
    I' = idealNext cfg I e := by
  cases h with
  | start op => rfl
  | step hi hf => simp only [idealNext, hi, hf]
  | stepError hi hf => simp only [idealNext, hi, hf]
  | @idle i hi =>
    simp only [idealNext]
  | _ => rcases he with ⟨_, h⟩ | ⟨_, h⟩ <;> cases h

theorem movesCheck_sound {E : FileEnv} {cfg : FsCfg} {kind : Bytes → Nat} : ∀ (done : List VolSysEvent) (e : VolSysEvent) (rest : List VolSysEvent)
    (I I' : IdealThreads), movesCheck E cfg kind I (done ++ e :: rest) = true → IdealMoves E cfg kind I done I' → MoveWithin E kind I' e
  | [], e, rest, I, I', h, hm => by
    cases hm
    simp only [List.nil_append, movesCheck, Bool.and_eq_true] at h
    have h1 := h.1
    cases e with
    | start op => exact startCheck_sound h1
    | step i =>
      intro id n hg
      have := List.all_eq_true.1 h1 (id, n) (mem_of_get hg)
      simpa using this
    | _ => cases h1
  | d :: done, e, rest, I, I', h, hm => by
    simp only [List.cons_append, movesCheck, Bool.and_eq_true] at h
    cases hm with
    | cons hw hs hr =>
      have hd : (∃ op, d = .start op) ∨ ∃ i, d = .step i := by
        have h1 := h.1
        cases d with
        | start op => exact .inl ⟨op, rfl⟩
        | step i => exact .inr ⟨i, rfl⟩
        | _ => cases h1
      rw [next_unique hd hs] at hr
      exact movesCheck_sound done e rest _ I' h.2 hr

/-- The same for operations one after the other. -/
def preCheck (E : FileEnv) (cfg : FsCfg) (kind : Bytes → Nat) : IdealVol → List VolEvent → Bool
  | _, [] => true
  | I, .op op :: es => fitsCheck E cfg kind I op &&
      preCheck E cfg kind ⟨((idealOp cfg op).run I.fs).2, (VolAnswer.given ((idealOp cfg op).run I.fs).1).toList ++ I.held⟩ es
  | _, _ => false

/-- What the ideal volume comes to. -/
def preEnd (cfg : FsCfg) : IdealVol → List VolEvent → IdealVol
  | I, .op op :: es => preEnd cfg ⟨((idealOp cfg op).run I.fs).2, (VolAnswer.given ((idealOp cfg op).run I.fs).1).toList ++ I.held⟩ es
  | I, _ => I

theorem preCheck_sound {E : FileEnv} {cfg : FsCfg} {kind : Bytes → Nat} : ∀ (done : List VolEvent) (e : VolEvent) (rest : List VolEvent) (rs : List (Res VolAnswer))
    (I I' : IdealVol), preCheck E cfg kind I (done ++ e :: rest) = true → IdealFits E cfg kind I done rs I' → EventFits E cfg kind I' e
  | [], e, rest, rs, I, I', h, hm => by
    cases hm
    cases e with
    | op op =>
      simp only [List.nil_append, preCheck, Bool.and_eq_true] at h
      exact fitsCheck_sound h.1
    | _ => cases h
  | d :: done, e, rest, rs, I, I', h, hm => by
    cases d with
    | op op =>
      simp only [List.cons_append, preCheck, Bool.and_eq_true] at h
      cases hm with
      | cons hw hs hr =>
        cases hs
        exact preCheck_sound done e rest _ _ I' h.2 hr
    | _ => cases h

theorem preEnd_unique {E : FileEnv} {cfg : FsCfg} {kind : Bytes → Nat} : ∀ (es : List VolEvent) (rs : List (Res VolAnswer)) (I I' : IdealVol),
    preCheck E cfg kind I es = true → IdealFits E cfg kind I es rs I' → I' = preEnd cfg I es
  | [], _, _, _, _, hm => by cases hm; rfl
  | d :: es, rs, I, I', h, hm => by
    cases d with
    | op op =>
      simp only [preCheck, Bool.and_eq_true] at h
      cases hm with
      | cons hw hs hr =>
        cases hs
        exact preEnd_unique es _ _ I' h.2 hr
    | _ => cases h

/-- A directory `/d` and a file `/d/f`. -/
def c107pre : List VolEvent := [.op (.mkdir [47, 100] 0x1ed 1 2 (fullDemoId 1)), .op (.create [47, 100, 47, 102] 0x1a4 1 2 (fullDemoId 2))]

/-- Three operations at once: one writes to the file, one moves it to `/g`, one asks for its attributes by the old name, finds it, and shows it as it is
    after it has been written and moved. -/
def c107evs : List VolSysEvent :=
  [.start (.getattr [47, 100, 47, 102]), .start (.rename [47, 100, 47, 102] [47, 103]), .start (.write c85file 3 [1, 2, 3]), .step 0, .step 1, .step 0, .step 0,
    .step 1, .step 0, .step 0, .step 1, .step 2, .step 1, .step 1, .step 1, .step 1, .step 0, .step 0, .step 0]

/-- The kinds that the new identifiers are drawn for. -/
def c107kind (id : Bytes) : Nat := if id = fullDemoId 2 then 8 else 4

theorem c107pre_ok : preCheck c85vol.env (idealCfg c85vol) c107kind ⟨FullFs.fresh (idealCfg c85vol) ⟨1, 0⟩, []⟩ c107pre = true := by decide +kernel

theorem c107evs_ok : movesCheck c85vol.env (idealCfg c85vol) c107kind
    ⟨(preEnd (idealCfg c85vol) ⟨FullFs.fresh (idealCfg c85vol) ⟨1, 0⟩, []⟩ c107pre).fs, [],
      (preEnd (idealCfg c85vol) ⟨FullFs.fresh (idealCfg c85vol) ⟨1, 0⟩, []⟩ c107pre).held⟩ c107evs = true := by decide +kernel

/-- The hypotheses of `C107_whole` hold. -/
example : VolEnvOk c85vol ∧ c107kind kRootId = 4 ∧ ValidTime ⟨1, 0⟩ ∧
    (∀ done e rest rs I, done ++ e :: rest = c107pre →
      IdealFits c85vol.env (idealCfg c85vol) c107kind ⟨FullFs.fresh (idealCfg c85vol) ⟨1, 0⟩, []⟩ done rs I →
      EventFits c85vol.env (idealCfg c85vol) c107kind I e) ∧
    ∀ rs J done e rest I, IdealFits c85vol.env (idealCfg c85vol) c107kind ⟨FullFs.fresh (idealCfg c85vol) ⟨1, 0⟩, []⟩ c107pre rs J →
      done ++ e :: rest = c107evs → IdealMoves c85vol.env (idealCfg c85vol) c107kind ⟨J.fs, [], J.held⟩ done I → MoveWithin c85vol.env c107kind I e := by
  refine ⟨c85vol_ok, by decide +kernel, by decide, fun done e rest rs I hd hf => ?_, fun rs J done e rest I hf hd hm => ?_⟩
  · exact preCheck_sound done e rest rs _ I (hd ▸ c107pre_ok) hf
  · have hJ := preEnd_unique _ _ _ _ c107pre_ok hf
    subst hJ
    exact movesCheck_sound done e rest _ I (hd ▸ c107evs_ok) hm

/-- What the operations on the volume have come to after a part of the history: their answers. -/
def c107seen (n : Nat) : List (Option VolAnswer) :=
  match volMount c85vol [] 0 ⟨1, 0⟩ with
  | .ok v => (List.range 3).map (volAnswer (VolSys.run c85vol ⟨(volRun c85vol v c107pre).2, []⟩ (c107evs.take n)))
  | .error _ => []

set_option maxRecDepth 100000 in
/-- When the other two have returned, the first is under way; it then shows the file with six bytes. -/
example : c107seen 16 = [none, some (.code 0), some (.code 3)] ∧
    (c107seen 19).map (fun a => match a with | some (.stat 0 (some st)) => some (st.size, st.nlink) | _ => none) = [some (some 6, 1), none, none] := by
  decide +kernel

end Securefs.Props
