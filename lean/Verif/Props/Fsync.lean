import Verif.Spec.Fsync
import Verif.Props.FileObj
import Verif.Props.Streams
/-!
# C80: what was there at an fsync is there after a crash
-/

namespace Securefs.Props

open Securefs Spec FileEnv

theorem quiet_call {E : FileEnv} {id : Bytes} {now : TimeSpec} {f f' : OpenFile} {c : FileCall} {a : FileAnswer} (hq : Quiet c)
    (h : E.callObj id now f c = .ok (f', a)) : f'.st = f.st := by
  cases c with
  | read off len =>
    unfold callObj readObj at h
    simp only [bind, Except.bind] at h
    split at h
    · cases h
    · next v hv =>
      split at hv
      · cases hv
      · cases hv
        cases h
        rfl
  | stat => cases h; rfl
  | attr op => cases h; rfl
  | write => exact hq.elim
  | truncate => exact hq.elim
  | flush => exact hq.elim
  | reopen => exact hq.elim

theorem quiet_run {E : FileEnv} {id : Bytes} (cs : List (TimeSpec × FileCall)) : ∀ {f f' : OpenFile} {as : List FileAnswer},
    (∀ c ∈ cs, Quiet c.2) → E.runObj id f cs = .ok (f', as) → f'.st = f.st := by
  induction cs with
  | nil => intro f f' as _ h; cases h; rfl
  | cons c cs ih =>
    intro f f' as hq h
    obtain ⟨now, c⟩ := c
    unfold runObj at h
    simp only [bind, Except.bind] at h
    split at h
    · cases h
    · next v hv =>
      split at h
      · cases h
      · next w hw =>
        cases h
        obtain ⟨f1, a⟩ := v
        obtain ⟨f2, as⟩ := w
        rw [ih (fun c hc => hq c (List.mem_cons_of_mem _ hc)) hw, quiet_call (hq (now, c) (List.mem_cons_self)) hv]

/-- C80, full format, in part: an fsync that comes after a flush and no later write keeps the file: whatever a crash leaves of the backing
    files, they open, and the file is as it was at the flush.  Missing: the flush, which `fsync` does not do (`C80_full_violated`). -/
theorem C80_full_partial {E : FileEnv} (hE : FileEnvOk E) (id : Bytes) (now : TimeSpec) (hn : ValidTime now) (osUid osGid mode uid gid : UInt32)
    (rng rng' : Nat) (cs q1 q2 cs' : List (TimeSpec × FileCall))
    (hw : ∀ c ∈ cs, ValidTime c.1 ∧ CallWithin (2 ^ 30 * E.blockSize - E.maxPadding.toNat) c.2)
    (hw' : ∀ c ∈ cs', ValidTime c.1 ∧ CallWithin (2 ^ 30 * E.blockSize - E.maxPadding.toNat) c.2)
    (hq1 : ∀ c ∈ q1, Quiet c.2) (hq2 : ∀ c ∈ q2, Quiet c.2) {f f1 f2 : OpenFile} {as : List FileAnswer} (sd sm : Bytes)
    (h0 : E.createObj id now osUid osGid mode uid gid rng = .ok f) (h1 : E.runObj id f cs = .ok (f1, as)) (h2 : E.flushObj id f1 = .ok f2)
    {s s' : SyncedObj} {as1 as2 : List FileAnswer} (h3 : E.syncedRun id ⟨f2, sd, sm⟩ q1 = .ok (s, as1))
    (h4 : E.syncedRun id (fsyncObj s) q2 = .ok (s', as2)) {data metaF : Bytes} (hc : FoundFull s' data metaF) :
    ∃ g g' as', E.openObj id data metaF rng' = .ok g ∧ E.runObj id g cs' = .ok (g', as') ∧
      as'.map plainAnswer = (plainRun (plainRun (plainNew E.storeTime now osUid osGid mode uid gid) cs).1 cs').2 := by
  obtain ⟨f', f1', as0, f2', e0, e1, e2, g, g', as', e3, e4, e5⟩ := C77_durable hE id now hn osUid osGid mode uid gid rng rng' cs cs' hw hw'
  rw [h0] at e0; cases e0
  rw [h1] at e1; cases e1
  rw [h2] at e2; cases e2
  have hs : s.obj.st = f2.st := by
    unfold syncedRun at h3
    simp only [bind, Except.bind] at h3
    split at h3
    · cases h3
    · next v hv => cases h3; exact quiet_run q1 hq1 hv
  have hs' : s'.obj.st = s.obj.st ∧ s'.diskData = s.obj.st.data ∧ s'.diskMeta = s.obj.st.metaS.file := by
    unfold syncedRun at h4
    simp only [bind, Except.bind] at h4
    split at h4
    · cases h4
    · next v hv => cases h4; exact ⟨quiet_run q2 hq2 hv, rfl, rfl⟩
  obtain ⟨c1, c2⟩ := hc
  have d1 : data = f2.st.data := by rw [c1 (by rw [hs'.1, hs'.2.1]), hs'.2.1, hs]
  have d2 : metaF = f2.st.metaS.file := by rw [c2 (by rw [hs'.1, hs'.2.2]), hs'.2.2, hs]
  rw [d1, d2]
  exact ⟨g, g', as', e3, e4, e5⟩

/-- A file that is written, flushed, read, synced and looked at; a crash leaves what was synced. -/
example : (do let f ← (Toy.env 5 true).createObj [1, 2, 3] ⟨1, 1⟩ 500 500 0o100644 0 0 0
              let p ← (Toy.env 5 true).runObj [1, 2, 3] f [(⟨2, 0⟩, .write 60 [1, 2, 3, 4, 5, 6, 7])]
              let f2 ← (Toy.env 5 true).flushObj [1, 2, 3] p.1
              let s ← (Toy.env 5 true).syncedRun [1, 2, 3] ⟨f2, [], []⟩ [(⟨3, 0⟩, .read 0 5)]
              let s' ← (Toy.env 5 true).syncedRun [1, 2, 3] (fsyncObj s.1) [(⟨4, 0⟩, .stat)]
              let g ← (Toy.env 5 true).openObj [1, 2, 3] s'.1.diskData s'.1.diskMeta 70
              let q ← (Toy.env 5 true).runObj [1, 2, 3] g [(⟨5, 0⟩, .read 59 4)]
              .ok (decide (s'.1.obj.st.data = s'.1.diskData ∧ s'.1.obj.st.metaS.file = s'.1.diskMeta), q.2)) =
    (.ok (true, [.bytes [0, 1, 2, 3]]) : Res _) := by decide +kernel

/-- C80, violated for the full format: a file is written and flushed; then a byte is written and the file is synced, and both calls
    succeed.  After a crash that leaves exactly what was synced, the file cannot be opened any more. -/
theorem C80_full_violated :
    ∃ (f f2 f3 : OpenFile) (as : List FileAnswer), FileEnvOk (Toy.env 0 true) ∧
      (Toy.env 0 true).createObj [1, 2, 3] ⟨1, 1⟩ 500 500 0o100644 0 0 0 = .ok f ∧
      (Toy.env 0 true).runObj [1, 2, 3] f [(⟨2, 0⟩, .write 0 [1, 2, 3]), (⟨3, 0⟩, .flush)] = .ok (f2, as) ∧
      (Toy.env 0 true).runObj [1, 2, 3] f2 [(⟨4, 0⟩, .write 1 [9])] = .ok (f3, [.done]) ∧
      FoundFull (fsyncObj ⟨f3, [], []⟩) f3.st.data f3.st.metaS.file ∧
      (Toy.env 0 true).openObj [1, 2, 3] f3.st.data f3.st.metaS.file 70 = .error .hmac := by
  have hE := Toy.env_ok 0 true (by decide)
  obtain ⟨f, h0, f2, as, h1, _⟩ := C77_file hE [1, 2, 3] ⟨1, 1⟩ (by unfold ValidTime; decide) 500 500 0o100644 0 0 0
    [(⟨2, 0⟩, .write 0 [1, 2, 3]), (⟨3, 0⟩, .flush)] (by
      intro c hc
      simp only [List.mem_cons, List.not_mem_nil, or_false] at hc
      rcases hc with rfl | rfl <;> exact ⟨by unfold ValidTime; decide, by simp [CallWithin, Toy.env]⟩)
  have key : (do let f ← (Toy.env 0 true).createObj [1, 2, 3] ⟨1, 1⟩ 500 500 0o100644 0 0 0
                 let p ← (Toy.env 0 true).runObj [1, 2, 3] f [(⟨2, 0⟩, .write 0 [1, 2, 3]), (⟨3, 0⟩, .flush)]
                 let q ← (Toy.env 0 true).runObj [1, 2, 3] p.1 [(⟨4, 0⟩, .write 1 [9])]
                 .ok (q.2, match (Toy.env 0 true).openObj [1, 2, 3] q.1.st.data q.1.st.metaS.file 70 with
                   | .ok _ => none
                   | .error e => some e)) = (.ok ([.done], some .hmac) : Res _) := by decide +kernel
  simp only [bind, Except.bind, h0, h1] at key
  cases h3 : (Toy.env 0 true).runObj [1, 2, 3] f2 [(⟨4, 0⟩, .write 1 [9])] with
  | error e => rw [h3] at key; cases key
  | ok q =>
    obtain ⟨f3, as3⟩ := q
    rw [h3] at key
    simp only [Except.ok.injEq, Prod.mk.injEq] at key
    obtain ⟨k1, k2⟩ := key
    refine ⟨f, f2, f3, as, hE, h0, h1, by rw [h3, k1], ⟨fun _ => rfl, fun _ => rfl⟩, ?_⟩
    cases h4 : (Toy.env 0 true).openObj [1, 2, 3] f3.st.data f3.st.metaS.file 70 with
    | ok g => rw [h4] at k2; cases k2
    | error e =>
      rw [h4] at k2
      injection k2 with k2
      rw [k2]

theorem quiet_ops {C : LiteCfg} (ops : List Spec.Op) : ∀ {p p' : LiteObj × LiteSt} {outs : List Spec.Out}, (∀ op ∈ ops, QuietOp op) →
    C.stream.run p ops = .ok (p', outs) → p' = p := by
  induction ops with
  | nil => intro p p' outs _ h; cases h; rfl
  | cons op ops ih =>
    intro p p' outs hq h
    unfold Stream.run at h
    simp only [bind, Except.bind] at h
    split at h
    · cases h
    · next v hv =>
      split at h
      · cases h
      · next w hw =>
        cases h
        rw [ih (fun o ho => hq o (List.mem_cons_of_mem _ ho)) hw]
        have := hq op List.mem_cons_self
        cases op with
        | read off len =>
          unfold Stream.step at hv
          simp only [bind, Except.bind] at hv
          split at hv
          · cases hv
          · cases hv; rfl
        | size => cases hv; rfl
        | write => exact this.elim
        | resize => exact this.elim
        | reopen => exact this.elim

/-- C80, lite format: after any history and an fsync, whatever a crash leaves of the backing file while nothing more is written, it opens,
    and the file is as it was at the fsync. -/
theorem C80_lite (C : LiteCfg) (hC : C.WF) (n n' : Nat) (ops qs ops2 : List Spec.Op)
    (hlim : ∀ op ∈ ops, op.extent ≤ liteMaxBlocks * C.bs) (hlim2 : ∀ op ∈ ops2, op.extent ≤ liteMaxBlocks * C.bs) (hq : ∀ op ∈ qs, QuietOp op)
    {p} (h1 : C.openFile ⟨[], n⟩ = .ok p) (disk : Bytes) {s s' : SyncedLite} {outs outs'} (h2 : C.syncedRun ⟨p, disk⟩ ops = .ok (s, outs))
    (h3 : C.syncedRun (LiteCfg.fsyncLite s) qs = .ok (s', outs')) {file : Bytes} (hc : FoundLite s' file) :
    ∃ q q', C.openFile ⟨file, n'⟩ = .ok q ∧ C.stream.run q ops2 = .ok (q', (Spec.run (Spec.run [] ops).1 ops2).2) := by
  unfold LiteCfg.syncedRun at h2 h3
  simp only [bind, Except.bind] at h2 h3
  split at h2
  · cases h2
  · next v hv =>
    cases h2
    split at h3
    · cases h3
    · next w hw =>
      cases h3
      have hp : w.1 = v.1 := quiet_ops qs hq hw
      obtain ⟨q, q', e1, _, _, e2⟩ := C03_lite_reopen C hC n n' ops ops2 hlim hlim2 h1 hv
      have : file = v.1.2.file := hc (by rw [hp]; rfl)
      rw [this]
      exact ⟨q, q', e1, e2⟩

/-- A file that is written, synced and read; a crash leaves what was synced. -/
example : (do let p ← (Toy.lite true 5).openFile ⟨[], 0⟩
              let s ← (Toy.lite true 5).syncedRun ⟨p, []⟩ [.write 40 [1, 2, 3]]
              let s' ← (Toy.lite true 5).syncedRun (LiteCfg.fsyncLite s.1) [.read 0 3]
              let q ← (Toy.lite true 5).openFile ⟨s'.1.disk, 9⟩
              let r ← (Toy.lite true 5).stream.run q [.read 39 9]
              .ok (decide (s'.1.obj.2.file = s'.1.disk), r.2)) = (.ok (true, [.bytes [0, 1, 2, 3]]) : Res _) := by decide +kernel

end Securefs.Props
