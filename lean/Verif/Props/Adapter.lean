import Verif.Proofs.Adapter
/-!
# C67: the kernel gets the right answer; C68: what the log reveals
-/

namespace Securefs.Props

open Spec

/-- Every call of libfuse runs the function of the file system exactly once and answers with its return value, or with the negative error
    number of the exception it threw.  The state left behind is the one the function left, up to the log.  There is no answer only if
    something other than a `std::exception` unwinds the stack. -/
theorem C67_code {σ : Type} (lg : Option LogLevel) (o : FuseOps σ) (c : FuseCall) (w : FuseWorld σ) :
    ∃ before after : List LogLine,
      let r := o.run c { w with log := w.log ++ before }
      (∀ rc, (staticCall lg o c w).1 = some rc ↔ Code r.1 rc) ∧
      ((staticCall lg o c w).1 = none ↔ r.1 = .throw .foreign) ∧
      (staticCall lg o c w).2 = { r.2 with log := r.2.log ++ after } := by
  refine ⟨printStarts lg (logName c.fn) (logArgs o.sens c) w.mem, ?_⟩
  obtain ⟨h1, lines, h2⟩ := tracedCall_spec lg (logName c.fn) (logArgs o.sens c) (callBody o c) w
  refine ⟨lines, fun rc => (h1 rc).trans (code_callBody o c _ rc), ?_, ?_⟩
  · have hno : (staticCall lg o c w).1 = none ↔ ¬ ∃ rc, Code (o.run c
        { w with log := w.log ++ printStarts lg (logName c.fn) (logArgs o.sens c) w.mem }).1 rc := by
      constructor
      · rintro hn ⟨rc, hc⟩
        rw [((h1 rc).trans (code_callBody o c _ rc)).mpr hc |> (show (staticCall lg o c w).1 = some rc from ·)] at hn
        cases hn
      · intro hn
        cases hs : (staticCall lg o c w).1 with
        | none => rfl
        | some rc => exact absurd ⟨rc, ((h1 rc).trans (code_callBody o c _ rc)).mp hs⟩ hn
    refine hno.trans ?_
    generalize (o.run c _).1 = out
    constructor
    · intro h
      cases out with
      | ret r => exact absurd ⟨_, .ret r⟩ h
      | throw e =>
        cases e with
        | foreign => rfl
        | vfs n t => exact absurd ⟨_, .vfs n t⟩ h
        | posix n t => exact absurd ⟨_, .posix n t⟩ h
        | invalidArgument t => exact absurd ⟨_, .invalid t⟩ h
        | streamTooLong t => exact absurd ⟨_, .long t⟩ h
        | base t => exact absurd ⟨_, .base t⟩ h
        | std t => exact absurd ⟨_, .std t⟩ h
    · rintro rfl ⟨rc, hc⟩
      cases hc
  · refine h2.trans ?_
    rw [callBody_eq]

/-- An exception is never reported as success, if the error numbers the system gave are positive. -/
theorem C67_failure {e : Exc} {rc : Int} (h : Code (.throw e) rc) (hpos : ∀ n, e.errorNumber = some n → 0 < n) : rc < 0 := by
  cases h
  case vfs n t => have := hpos n rfl; omega
  case posix n t => have := hpos n rfl; omega
  all_goals omega

/-- The objects wrapped around a file system for the mount change none of its answers and nothing of its state, for any request that is not
    for the mount itself.  They only set the idle timer, once, if there is one, and turn `ENOSYS` for an `ioctl` into `ENOTSUP`. -/
theorem C67_wrapped {σ : Type} (cfg : WrapCfg) (inner : FuseOps σ) (c : FuseCall) (w : FuseWorld σ) (h : ¬ ForMount cfg.fuseT c) :
    let r := inner.run c { w with activity := w.activity + if cfg.maxIdle > 0 then 1 else 0 }
    (wrappedOps cfg inner).run c w = (ioctlOutcome cfg.fuseT c r.1, r.2) :=
  wrapped_run cfg inner c w h

/-- The functions that libfuse can call are those the file system has, and those that the mount itself needs. -/
theorem C67_has {σ : Type} (cfg : WrapCfg) (inner : FuseOps σ) (f : FuseFn) :
    (wrappedOps cfg inner).has f = true ↔
      inner.has f = true ∨ (cfg.fuseT = true ∧ (f = .getattr ∨ f = .rmdir)) ∨ (cfg.fuseT = false ∧ f = .ioctl) := by
  rw [wrapped_has]
  cases cfg.fuseT <;> simp

/-- A request for the mount itself is answered with success, and neither reaches the file system nor counts as activity: the query writes
    the magic number to the given address and nothing else, the special directory is there, and each of the two requests to unmount asks
    for it once. -/
theorem C67_mount {σ : Type} (cfg : WrapCfg) (inner : FuseOps σ) (w : FuseWorld σ) :
    (cfg.fuseT = false → ∀ p a i f d,
      (wrappedOps cfg inner).run (.ioctl p 0x80047301#32 a i f d) w = (.ret 0, { w with mem := w.mem.store32 d cfg.magic }) ∧
      (wrappedOps cfg inner).run (.ioctl p 0x7302#32 a i f d) w = (.ret 0, { w with exits := w.exits + 1 })) ∧
    (cfg.fuseT = true → ∀ st,
      (wrappedOps cfg inner).run (.getattr (some (47 :: specialName)) st) w =
        (.ret 0, { w with mem := w.mem.storeFields st cfg.dirText }) ∧
      (wrappedOps cfg inner).run (.rmdir (some (47 :: specialName))) w = (.ret 0, { w with exits := w.exits + 1 })) := by
  constructor
  · intro hF p a i f d
    unfold wrappedOps
    dsimp only
    rw [if_neg (by rw [hF]; decide)]
    unfold ioctlOps
    dsimp only
    refine ⟨?_, ?_⟩
    · unfold specialIoctl
      rw [if_pos queryCmd_eq.symm, if_neg (by decide)]
    · unfold specialIoctl
      rw [if_neg (by decide), if_pos unmountCmd_eq.symm]
  · intro hT st
    unfold wrappedOps
    dsimp only
    rw [if_pos hT]
    unfold filedOps
    dsimp only
    rw [if_pos (isSpecialPath_iff.mpr rfl), if_pos (isSpecialPath_iff.mpr rfl)]
    exact ⟨rfl, rfl⟩

/-- What the query writes: the four bytes at the address are the magic number, least significant byte first, and no other byte changes. -/
theorem C67_magic {σ : Type} (cfg : WrapCfg) (inner : FuseOps σ) (w : FuseWorld σ) (hF : cfg.fuseT = false) (p : Option Bytes) (a i f d : Nat) :
    ∃ m : Memory, (wrappedOps cfg inner).run (.ioctl p 0x80047301#32 a i f d) w = (.ret 0, { w with mem := m }) ∧
      (m.byte d).toNat + 256 * (m.byte (d + 1)).toNat + 65536 * (m.byte (d + 2)).toNat + 16777216 * (m.byte (d + 3)).toNat = cfg.magic.toNat ∧
      (∀ x, x < d ∨ d + 4 ≤ x → m.byte x = w.mem.byte x) ∧ m.fields = w.mem.fields := by
  refine ⟨w.mem.store32 d cfg.magic, ((C67_mount cfg inner w).1 hF p a i f d).1, ?_, ?_, rfl⟩
  · have hb : ∀ k, k < 4 → ((w.mem.store32 d cfg.magic).byte (d + k)).toNat = cfg.magic.toNat / 2 ^ (8 * k) % 256 := by
      intro k hk
      unfold Memory.store32
      dsimp only
      rw [if_pos (by omega), Nat.add_sub_cancel_left]
      show (BitVec.setWidth 8 (cfg.magic >>> (8 * k))).toNat = _
      rw [BitVec.toNat_setWidth, BitVec.toNat_ushiftRight, Nat.shiftRight_eq_div_pow]
    have h0 := hb 0 (by decide)
    have h1 := hb 1 (by decide)
    have h2 := hb 2 (by decide)
    have h3 := hb 3 (by decide)
    have hlt : cfg.magic.toNat < 2 ^ 32 := cfg.magic.isLt
    rw [Nat.add_zero] at h0
    rw [h0, h1, h2, h3]
    omega
  · intro x hx
    unfold Memory.store32
    dsimp only
    rw [if_neg (by omega)]

/-- From the kernel to the file system and back: with the wrappers of the mount, the answer to a request for a function the file system has
    is the return value or the negative error number. -/
theorem C67_kernel {σ : Type} (lg : Option LogLevel) (cfg : WrapCfg) (inner : FuseOps σ) (c : FuseCall) (w : FuseWorld σ)
    (h : ¬ ForMount cfg.fuseT c) (hh : inner.has c.fn = true) (hp : c.fn ≠ .getpath) :
    ∃ before : List LogLine,
      let r := inner.run c { w with log := w.log ++ before, activity := w.activity + if cfg.maxIdle > 0 then 1 else 0 }
      (kernelCall lg (wrappedOps cfg inner) c w).2.fs = r.2.fs ∧
      (kernelCall lg (wrappedOps cfg inner) c w).2.mem = r.2.mem ∧
      (kernelCall lg (wrappedOps cfg inner) c w).2.exits = r.2.exits ∧
      ∀ rc, (kernelCall lg (wrappedOps cfg inner) c w).1 = some rc ↔ Code (ioctlOutcome cfg.fuseT c r.1) rc := by
  have hi : installed (wrappedOps cfg inner) c.fn = true := by
    have : (wrappedOps cfg inner).has c.fn = true := (C67_has cfg inner _).mpr (.inl hh)
    unfold installed
    split
    · rename_i heq
      exact absurd heq hp
    · exact this
  obtain ⟨before, after, h1, _, h3⟩ := C67_code lg (wrappedOps cfg inner) c w
  refine ⟨before, ?_⟩
  have hr := C67_wrapped cfg inner c { w with log := w.log ++ before } h
  dsimp only at hr h1 h3 ⊢
  unfold kernelCall
  rw [if_pos hi, h3]
  rw [hr]
  refine ⟨rfl, rfl, rfl, fun rc => (h1 rc).trans ?_⟩
  rw [hr]

/-- A file system with one file, whose contents are its state: it can be read from the beginning, and nothing else is there. -/
def oneFileOps : FuseOps Bytes where
  sens := false
  has f := f ≠ .ioctl ∧ f ≠ .getpath
  run c w :=
    match c with
    | .read _ b n _ _ =>
      let got := w.fs.take n
      (.ret got.length, { w with mem := { w.mem with byte := fun a => if b ≤ a then got.getD (a - b) (w.mem.byte a) else w.mem.byte a } })
    | .getxattr .. => (.throw (.posix 61 [1]), w)
    | .unlink _ => (.throw (.posix 13 [2]), w)
    | .write .. => (.throw (.streamTooLong [3]), w)
    | .ioctl .. => (.ret (-38), w)
    | _ => (.throw (.vfs 2 []), w)

/-- A world to start from. -/
def world0 (content : Bytes) : FuseWorld Bytes := ⟨⟨fun _ => 0, fun _ => []⟩, 0, 0, [], content⟩

/-- A mount with an idle timer on Linux. -/
def linuxMount : WrapCfg := ⟨60, false, false, 0x6d616769#32, []⟩

/-- The theorems apply, and the answers are what they should be. -/
example :
    ((kernelCall (some .info) (wrappedOps linuxMount oneFileOps) (.read (some [47, 97]) 100 3 0 7) (world0 [10, 20, 30, 40])).1,
     (kernelCall (some .info) (wrappedOps linuxMount oneFileOps) (.getxattr (some [47, 97]) (some [120]) 100 3 0) (world0 [10])).1,
     (kernelCall (some .info) (wrappedOps linuxMount oneFileOps) (.unlink (some [47, 97])) (world0 [10])).1,
     (kernelCall (some .info) (wrappedOps linuxMount oneFileOps) (.write (some [47, 97]) 0 1 0 0) (world0 [10])).1,
     (kernelCall (some .info) (wrappedOps linuxMount oneFileOps) (.ioctl none 5#32 0 0 0 0) (world0 [10])).1,
     (kernelCall (some .info) (wrappedOps linuxMount oneFileOps) (.rmdir (some [47, 97])) (world0 [10])).1)
    = (some 3, some (-61), some (-13), some (-27), some (-95), some (-2)) := by decide +kernel

example : ¬ ForMount linuxMount.fuseT (.read (some [47, 97]) 100 3 0 7) ∧ oneFileOps.has .read = true :=
  ⟨fun h => h.elim, by decide⟩

example : ForMount false (.ioctl none 0x7302#32 0 0 0 0) := ⟨rfl, .inr rfl⟩

example : linuxMount.fuseT = false ∧ linuxMount.magic.toNat ≠ 0 := ⟨rfl, by decide⟩

/-- Without the option to log sensitive information, the log of a call does not depend on the contents of any buffer: what was read or
    written, the values of extended attributes, their names as listed, the target of a link that was read.  If two runs get the same request,
    and the file system below ends in the same way, with the same structures and the same lines of its own, then the logs are equal. -/
theorem C68_redacted {σ : Type} (lg : Option LogLevel) (o : FuseOps σ) (ho : o.sens = false) (c : FuseCall) (w w' : FuseWorld σ)
    (hm : SameStructs w.mem w'.mem) (hl : w.log = w'.log)
    (hrun : ∀ lines, (o.run c { w with log := lines }).1 = (o.run c { w' with log := lines }).1 ∧
      SameStructs (o.run c { w with log := lines }).2.mem (o.run c { w' with log := lines }).2.mem ∧
      (o.run c { w with log := lines }).2.log = (o.run c { w' with log := lines }).2.log) :
    (staticCall lg o c w).2.log = (staticCall lg o c w').2.log := by
  unfold staticCall
  rw [tracedCall_log, tracedCall_log, ho]
  have hs : printStarts lg (logName c.fn) (logArgs false c) w.mem = printStarts lg (logName c.fn) (logArgs false c) w'.mem := by
    unfold printStarts
    rw [printArgs_redacted hm c]
  rw [hs, ← hl]
  simp only [callBody_eq]
  obtain ⟨h1, h2, h3⟩ := hrun (w.log ++ printStarts lg (logName c.fn) (logArgs false c) w'.mem)
  rw [h1, h3, endLines_same (printArgs_redacted h2 c)]

/-- The wrappers of the mount allow sensitive logging only if the option is given. -/
theorem C68_option {σ : Type} (cfg : WrapCfg) (inner : FuseOps σ) (hi : inner.sens = false) : (wrappedOps cfg inner).sens = cfg.sens := by
  rw [wrapped_sens, hi, Bool.or_false]

/-- Two files of the same length are read: the logs are equal, at every level. -/
example (lg : Option LogLevel) (a b c a' b' c' : UInt8) :
    (staticCall lg oneFileOps (.read (some [47, 97]) 100 3 0 7) (world0 [a, b, c])).2.log =
      (staticCall lg oneFileOps (.read (some [47, 97]) 100 3 0 7) (world0 [a', b', c'])).2.log :=
  C68_redacted lg oneFileOps rfl _ _ _ rfl rfl fun _ => ⟨rfl, rfl, rfl⟩

/-- With the option, what was read is in the log. -/
theorem C68_option_needed :
    (staticCall (some .trace) (wrappedOps ⟨0, true, false, 0#32, []⟩ oneFileOps) (.read (some [47, 97]) 100 3 0 7) (world0 [1, 2, 3])).2.log.map
        (fun l => l.args.map (·.2))
      = [[.bytes [47, 97], .bytes [0, 0, 0], .num 3, .num 0, .fields []],
         [.bytes [47, 97], .bytes [1, 2, 3], .num 3, .num 0, .fields []]] := by decide +kernel

/-- At any level but `Trace`, a call adds nothing to the log if it returns or fails with `VFSException`: neither names nor anything else. -/
theorem C68_quiet {σ : Type} (l : LogLevel) (hl : l ≠ .trace) (o : FuseOps σ) (c : FuseCall) (w : FuseWorld σ)
    (h : ¬ Unexpected (o.run c w).1) : (staticCall (some l) o c w).2.log = (o.run c w).2.log := by
  have hr : ¬ l.rank ≤ LogLevel.trace.rank := by cases l <;> first | exact absurd rfl hl | decide
  unfold staticCall
  rw [tracedCall_log]
  have hs : ∀ a m, printStarts (some l) (logName c.fn) a m = [] := by intro a m; simp [printStarts, hr]
  have hret : ∀ a m rc, printReturns (some l) (logName c.fn) a m rc = [] := by intro a m rc; simp [printReturns, hr]
  rw [hs, List.append_nil, callBody_eq]
  dsimp only
  suffices hE : endLines (some l) (logName c.fn) (logArgs o.sens c) (o.run c w).2.mem
      (if c.fn = .getxattr then quietNoData (o.run c w).1 else (o.run c w).1) = [] by rw [hE, List.append_nil]
  have hq : ¬ Unexpected (if c.fn = .getxattr then quietNoData (o.run c w).1 else (o.run c w).1) := by
    split
    · generalize (o.run c w).1 = out at h
      cases out with
      | ret r => exact h
      | throw e =>
        cases e <;> simp only [quietNoData, Exc.errorNumber] <;> try exact h
        all_goals
          split
          · exact fun h => h
          · exact h
    · exact h
  generalize (if c.fn = .getxattr then quietNoData (o.run c w).1 else (o.run c w).1) = out at hq ⊢
  cases out with
  | ret r => exact hret _ _ _
  | throw e => cases e <;> first | exact hret _ _ _ | rfl | exact absurd trivial hq

/-- Every other failure is logged, with the arguments, the return code and the text of the exception, and in one line; except for `EEXIST`,
    unless the level is `Verbose` or lower, and a missing extended attribute. -/
theorem C68_reported {σ : Type} (l : LogLevel) (hl : l ≠ .trace) (o : FuseOps σ) (c : FuseCall) (w : FuseWorld σ) (e : Exc)
    (he : (o.run c w).1 = .throw e) (hu : Unexpected (.throw e)) (hx : ¬ (l ≠ .verbose ∧ e.errorNumber = some 17))
    (ha : ¬ (c.fn = .getxattr ∧ e.errorNumber = some 61)) :
    ∃ rc, Code (.throw e) rc ∧ (staticCall (some l) o c w).2.log = (o.run c w).2.log ++
      [⟨.error, logName c.fn, "Function fails with arguments ", printArgs (o.run c w).2.mem (logArgs o.sens c),
        [.lit " with return code ", .num rc, .lit " because it encounters exception ", .raw e.text]⟩] := by
  have hr : ¬ l.rank ≤ LogLevel.trace.rank := by cases l <;> first | exact absurd rfl hl | decide
  have hs : ∀ a m, printStarts (some l) (logName c.fn) a m = [] := by intro a m; simp [printStarts, hr]
  have hrun : callBody o c w = (.throw e, (o.run c w).2) := by
    rw [callBody_eq, he]
    by_cases hc : c.fn = .getxattr
    · rw [if_pos hc]
      congr 1
      unfold quietNoData
      dsimp only
      cases hn : e.errorNumber with
      | none => rfl
      | some n => exact if_neg (fun h61 => ha ⟨hc, by rw [hn, h61]⟩)
    · rw [if_neg hc]
  have hlog : (staticCall (some l) o c w).2.log = (o.run c w).2.log ++
      endLines (some l) (logName c.fn) (logArgs o.sens c) (o.run c w).2.mem (.throw e) := by
    unfold staticCall
    rw [tracedCall_log, hs, List.append_nil]
    rw [hrun]
  have h4 : l.rank ≤ LogLevel.error.rank := by cases l <;> decide
  have hpr : ∀ rc, printException (some l) (logName c.fn) (logArgs o.sens c) (o.run c w).2.mem e rc =
      [⟨.error, logName c.fn, "Function fails with arguments ", printArgs (o.run c w).2.mem (logArgs o.sens c),
        [.lit " with return code ", .num rc, .lit " because it encounters exception ", .raw e.text]⟩] := by
    intro rc
    unfold printException
    dsimp only
    rw [if_neg ?_, if_pos h4]
    rintro ⟨h1, h2⟩
    refine hx ⟨?_, h2⟩
    rintro rfl
    exact absurd h1 (by decide)
  cases e with
  | vfs n t => exact absurd hu (fun h => h)
  | foreign => exact absurd hu (fun h => h)
  | posix n t => exact ⟨_, .posix n t, hlog.trans (by rw [← hpr]; rfl)⟩
  | invalidArgument t => exact ⟨_, .invalid t, hlog.trans (by rw [← hpr]; rfl)⟩
  | streamTooLong t => exact ⟨_, .long t, hlog.trans (by rw [← hpr]; rfl)⟩
  | base t => exact ⟨_, .base t, hlog.trans (by rw [← hpr]; rfl)⟩
  | std t => exact ⟨_, .std t, hlog.trans (by rw [← hpr]; rfl)⟩

/-- A failing `unlink` leaves one line at the default level. -/
example : (staticCall (some .info) oneFileOps (.unlink (some [47, 97])) (world0 [10])).2.log =
    [⟨.error, "unlink", "Function fails with arguments ", [("path", .bytes [47, 97])],
      [.lit " with return code ", .num (-13), .lit " because it encounters exception ", .raw [2]]⟩] := by decide +kernel

example : ¬ Unexpected (oneFileOps.run (.rmdir (some [47, 97])) (world0 [10])).1 := fun h => h

/-- A file system where making a link fails for lack of space. -/
def fullDiskOps : FuseOps Bytes := ⟨false, fun _ => true, fun _ w => (.throw (.posix 28 []), w)⟩

/-- The target of a link is redacted when it is read, and encrypted on disk; but it is logged in full when the link is made, without the
    option, and at the default level if that fails. -/
theorem C68_target_violated : ∃ (o : FuseOps Bytes) (w : FuseWorld Bytes) (t t' : Bytes), o.sens = false ∧ t ≠ t' ∧
    (staticCall (some .info) o (.symlink (some t) (some [47, 97])) w).2.log ≠
      (staticCall (some .info) o (.symlink (some t') (some [47, 97])) w).2.log :=
  ⟨fullDiskOps, world0 [], [115], [116], rfl, by decide, by decide +kernel⟩

end Securefs.Props
