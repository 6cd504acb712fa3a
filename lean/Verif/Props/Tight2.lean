import Verif.Spec.Tight
import Verif.Props.Mount
import Verif.Props.Adapter
import Verif.Props.Shutdown
/-!
# C68, C69, C72, C75: what is logged, servers that nobody stops, and names and numbers that other programs know
-/

namespace Securefs.Props

open Spec

/-- C72: without `--config`, `create` writes the file `.config.pb` of the directory, and every other command reads that file if it is there, or else
    `.securefs.json`, and fails if neither is. -/
theorem C72_found (fs : PathFs) (dir : Bytes) :
    (∀ a : CreateArgs, a.config = [] → createTarget a = a.dataDir ++ word "/.config.pb") ∧
    (∀ path, configPathForReading fs dir [] = .ok path ↔ ConfigIs (fs · ≠ none) dir path) ∧
    (∀ config, config ≠ [] → configPathForReading fs dir config = .ok config ∧ ∀ a : CreateArgs, a.config = config → createTarget a = config) := by
  have e1 : configName = word "/.config.pb" := by decide
  have e2 : legacyConfigName = word "/.securefs.json" := by decide
  refine ⟨fun a h => by unfold createTarget; rw [if_pos h, e1], fun path => ?_, fun config h => ⟨by unfold configPathForReading; rw [if_pos h], fun a ha => by
    unfold createTarget; rw [if_neg (by rw [ha]; exact h), ha]⟩⟩
  unfold configPathForReading ConfigIs
  rw [if_neg (by simp), e1, e2]
  by_cases h1 : fs (dir ++ word "/.config.pb") ≠ none
  · rw [if_pos h1]
    constructor
    · intro h; injection h with h; subst h; exact ⟨h1, .inl rfl⟩
    · rintro ⟨_, h | ⟨_, h⟩⟩
      · rw [h]
      · exact absurd h1 h
  · rw [if_neg h1]
    by_cases h2 : fs (dir ++ word "/.securefs.json") ≠ none
    · rw [if_pos h2]
      constructor
      · intro h; injection h with h; subst h; exact ⟨h2, .inr ⟨rfl, h1⟩⟩
      · rintro ⟨h, h3 | ⟨h3, _⟩⟩
        · exact absurd (h3 ▸ h) h1
        · rw [h3]
    · rw [if_neg h2]
      constructor
      · intro h; cases h
      · rintro ⟨h, h3 | ⟨h3, _⟩⟩
        · exact absurd (h3 ▸ h) h1
        · exact absurd (h3 ▸ h) h2

example : configPathForReading (fun p => if p = word "d/.securefs.json" then some [] else none) (word "d") [] = .ok (word "d/.securefs.json") ∧
    configPathForReading (fun p => if p = word "d/.securefs.json" ∨ p = word "d/.config.pb" then some [] else none) (word "d") [] = .ok (word "d/.config.pb") ∧
    configPathForReading (fun _ => none) (word "d") [] = .error .runtime := by decide +kernel

/-- C75: with `--use-ino auto`, which is the default, libfuse shows the inode numbers of securefs if those of the file system below are known to stay. -/
theorem C75_stable (exe : Bytes) (a : MountArgs) (E : MountEnv) (d : DecParams) (m : MountData) (hauto : a.useIno = word "auto")
    (h : buildMountData exe a E d = .ok m) :
    ∃ ino t, m.fuseArgs = FuseCommand exe a ino ∧ E.fsType = .ok t ∧ (ino = true ↔ StableInodes t) := by
  obtain ⟨ino, hm, ⟨hx, _⟩ | ⟨hx, _⟩ | ⟨_, t, ht, hi⟩⟩ := C75_use_ino exe a E d m h
  · rw [hauto] at hx; exact absurd hx (by decide)
  · rw [hauto] at hx; exact absurd hx (by decide)
  · exact ⟨ino, t, hm, ht, hi.trans (by simp only [stableInodeTypes, List.mem_cons, List.not_mem_nil, or_false, StableInodes])⟩

/- By default; a file system that is known, and one that is not. -/
example : (∃ m, buildMountData [115] { dataDir := [100], mountPoint := [109] } ⟨none, true, .ok 0x4244⟩ {} = .ok m ∧ word "use_ino" ∈ m.fuseArgs) ∧
    (∃ m, buildMountData [115] { dataDir := [100], mountPoint := [109] } ⟨none, true, .ok 0x794C7630⟩ {} = .ok m ∧ word "use_ino" ∉ m.fuseArgs) ∧
    ({ dataDir := [100], mountPoint := [109] } : MountArgs).useIno = word "auto" :=
  ⟨⟨_, rfl, by decide +kernel⟩, ⟨_, rfl, by decide +kernel⟩, by decide⟩

/-- C72: if `create` succeeds, all bytes of the configuration have been written. -/
theorem C72_complete (C : ConfCrypto) (O : WriteOracle) (R : CreateRandom) (argon : Argon2Params) (a : CreateArgs) (password keyfile : Bytes) (fs : PathFs)
    (ops : List FsOp) (h : createVolume C O R argon a password keyfile fs = (ops, .ok ())) :
    O.createOk = true ∧ ∃ n content, O.written = some n ∧ applyOps fs ops (createTarget a) = some content ∧ content.length ≤ n := by
  have h' := h
  obtain ⟨d, key, p, h1, h2, h3, h4, h5⟩ := createVolume_ok h
  unfold createVolume at h'
  rw [h1] at h'
  dsimp only at h'
  rw [h2] at h'
  dsimp only at h'
  rw [h3] at h'
  dsimp only at h'
  rw [if_neg (by rw [h4]; simp)] at h'
  split at h'
  · injection h' with _ h'; cases h'
  · rename_i hc
    refine ⟨by simpa using hc, ?_⟩
    split at h'
    · injection h' with _ h'; cases h'
    · rename_i n hn
      split at h'
      · injection h' with _ h'; cases h'
      · exact ⟨n, p.serialize, hn, by rw [h5]; simp [applyOps, FsOp.apply, PathFs.set], by omega⟩

/-- C68: the log of a call names every path and every name that the call is about, in the order in which the kernel gives them. -/
theorem C68_texts (sens : Bool) (c : FuseCall) :
    (logArgs sens c).filterMap (fun x => match x.2 with | .cstr s => some s | _ => none) = texts c := by
  cases c <;> cases sens <;> rfl

example : texts (.setxattr (some [47, 97]) (some [120]) 5 3 0 0) = [some [47, 97], some [120]] := rfl

/-- What stays true while nobody asks the server to stop. -/
def Untouched (s : SrvSys) : Prop :=
  s.pipe = 0 ∧ s.waiter = .reading ∧ s.exited = false ∧ s.aborted = false ∧ ∀ i, Serving (s.w i).pc ∧ (s.w i).pending = false

theorem untouched_put {s : SrvSys} (h : Untouched s) (i : Nat) (x : SrvWorker) (hx : Serving x.pc ∧ x.pending = false) : Untouched (s.put i x) := by
  obtain ⟨h1, h2, h3, h4, h5⟩ := h
  refine ⟨h1, h2, h3, h4, fun j => ?_⟩
  simp only [SrvSys.put]
  split
  · exact hx
  · exact h5 j

theorem untouched_step {s s' : SrvSys} (h : Untouched s) {e : SrvEv} (he : Harmless e) (hs : s.step e = some s') : Untouched s' ∧ s'.n = s.n := by
  have h' := h
  obtain ⟨h1, h2, h3, h4, h5⟩ := h
  unfold SrvSys.step at hs
  rw [if_neg (by rw [h4]; simp)] at hs
  have hx : ∀ i, (Serving (s.w i).pc ∧ (s.w i).pending = false) := h5
  cases e with
  | begin i =>
    dsimp only at hs
    split at hs
    · cases hs; exact ⟨untouched_put h' i _ ⟨trivial, (h5 i).2⟩, rfl⟩
    · cases hs
  | test i =>
    dsimp only at hs
    rw [h3] at hs
    split at hs
    · cases hs; exact ⟨untouched_put h' i _ ⟨trivial, (h5 i).2⟩, rfl⟩
    · cases hs
  | recv i r =>
    dsimp only at hs
    split at hs
    · rcases he with rfl | rfl
      · cases hs; exact ⟨untouched_put h' i _ ⟨trivial, (h5 i).2⟩, rfl⟩
      · cases hs; exact ⟨untouched_put h' i _ ⟨trivial, (h5 i).2⟩, rfl⟩
    · cases hs
  | cancelled i =>
    dsimp only at hs
    split at hs
    · rename_i hc; rw [(h5 i).2] at hc; exact absurd hc.2.2.2 (by simp)
    · cases hs
  | handled i u =>
    have : u = false := he
    subst this
    dsimp only at hs
    split at hs
    · cases hs; exact ⟨untouched_put h' i _ ⟨trivial, (h5 i).2⟩, rfl⟩
    · cases hs
  | leave i =>
    dsimp only at hs
    split at hs
    · rename_i hc; have := (h5 i).1; rw [hc.2] at this; exact this.elim
    · split at hs
      · rename_i hc; have := (h5 i).1; rw [hc.2] at this; exact this.elim
      · cases hs
  | signal => exact he.elim
  | wake =>
    dsimp only at hs
    split at hs
    · rename_i hc; omega
    · cases hs
  | exit =>
    dsimp only at hs
    split at hs
    · rename_i hc; rw [h2] at hc; cases hc
    · cases hs
  | cancel =>
    dsimp only at hs
    rw [h2] at hs
    cases hs

theorem untouched_run : ∀ (es : List SrvEv) {s s' : SrvSys}, Untouched s → (∀ e ∈ es, Harmless e) → s.run es = some s' → Untouched s' ∧ s'.n = s.n
  | [], _, _, h, _, hr => by
    rw [SrvSys.run] at hr
    cases hr
    exact ⟨h, rfl⟩
  | e :: es, s, s', h, he, hr => by
    rw [SrvSys.run] at hr
    cases h1 : s.step e with
    | none => rw [h1] at hr; cases hr
    | some s1 =>
      rw [h1] at hr
      have a := untouched_step h (he e (by simp)) h1
      have b := untouched_run es a.1 (fun x hx => he x (by simp [hx])) hr
      exact ⟨b.1, b.2.trans a.2⟩

/-- C69: as long as nobody asks the server to stop, it serves: no worker has left, the waiting thread waits, and every worker comes to take a request, by
    steps of its own, if it does not work at one. -/
theorem C69_serves (n : Nat) (es : List SrvEv) (s : SrvSys) (h : ∀ e ∈ es, Harmless e) (hr : (SrvSys.init n).run es = some s) :
    s.waiter = .reading ∧ s.exited = false ∧ s.aborted = false ∧ ∀ i < n, Serving (s.w i).pc ∧
      ((s.w i).pc = .handling ∨ ∃ es' s', (∀ e ∈ es', Harmless e ∧ OwnStep e) ∧ s.run es' = some s' ∧ (s'.w i).pc = .recv) := by
  have h0 : Untouched (SrvSys.init n) := ⟨rfl, rfl, rfl, rfl, fun i => ⟨trivial, rfl⟩⟩
  obtain ⟨hu, hn⟩ := untouched_run es h0 h hr
  obtain ⟨h1, h2, h3, h4, h5⟩ := hu
  refine ⟨h2, h3, h4, fun i hi => ⟨(h5 i).1, ?_⟩⟩
  have hi' : i < s.n := by rw [hn]; exact hi
  cases hp : (s.w i).pc with
  | handling => exact .inl rfl
  | recv => exact .inr ⟨[], s, by simp, rfl, hp⟩
  | check =>
    refine .inr ⟨[.test i], s.put i { s.w i with pc := .recv, enabled := true }, by simp [Harmless, OwnStep], ?_, by simp [SrvSys.put]⟩
    simp [SrvSys.run, SrvSys.step, h4, hi', hp, h3]
  | start =>
    refine .inr ⟨[.begin i, .test i], (s.put i { s.w i with pc := .check }).put i { s.w i with pc := .recv, enabled := true }, by simp [Harmless, OwnStep], ?_,
      by simp [SrvSys.put]⟩
    simp [SrvSys.run, SrvSys.step, h4, hi', hp, h3, SrvSys.put]
  | _ => have := (h5 i).1; rw [hp] at this; exact this.elim

/- Two workers; one is interrupted twice and then gets a request. -/
example : ∃ s, (SrvSys.init 2).run [.begin 1, .test 1, .recv 1 .intr, .test 1, .recv 1 .intr, .begin 0, .test 1, .recv 1 .request] = some s ∧
    (s.w 1).pc = .handling ∧ (s.w 0).pc = .check := ⟨_, rfl, by decide, by decide⟩

end Securefs.Props
