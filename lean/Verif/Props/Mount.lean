import Verif.Spec.Mount
import Verif.Proofs.MountData
import Verif.Proofs.Utf8
import Verif.Props.Commands
/-!
# C74: mounting in the background; C75: what is set up
-/

namespace Securefs.Props

open Spec

/-! ## C74 -/

/-- C74: The message arrives in the child as it was sent.  Partial: its texts have to be UTF-8, see `C74_text_violated`. -/
theorem C74_message_partial (m : MountData) (h : m.Ok) : MountData.parse m.serialize = some m := MountData.parse_serialize h

/-- The text stays UTF-8 behind a prefix of ASCII characters. -/
theorem utf8_ascii_append (p t : Bytes) (h : ∀ b ∈ p, b.toNat < 128) : utf8Valid (p ++ t) = utf8Valid t := by
  induction p with
  | nil => rfl
  | cons b p ih =>
    rw [List.cons_append, utf8_cons1 (h b List.mem_cons_self), ih fun x hx => h x (List.mem_cons_of_mem _ hx)]

/-- The bounds for the arguments of libfuse. -/
theorem fuseArgs_ok {exe : Bytes} {a : MountArgs} (h : TextsOk exe a) (ino : Bool) :
    ∀ x ∈ fuseArgs exe a ino, x.length < 2 ^ 31 - 16 ∧ utf8Valid x = true := by
  obtain ⟨h1, h2, h3, h4, h5, _, h7⟩ := h
  have hpre : ∀ (p t : Bytes), (∀ b ∈ p, b.toNat < 128) → p.length < 100 → TextOk t → (p ++ t).length < 2 ^ 31 - 16 ∧ utf8Valid (p ++ t) = true := by
    intro p t hp hl ht
    refine ⟨by rw [List.length_append]; have := ht.2; omega, ?_⟩
    rw [utf8_ascii_append p t hp]
    exact (utf8Valid_iff t).mpr ht.1
  have hlit : ∀ p : Bytes, (∀ b ∈ p, b.toNat < 128) → p.length < 100 → p.length < 2 ^ 31 - 16 ∧ utf8Valid p = true := by
    intro p hp hl
    refine ⟨by omega, ?_⟩
    have := utf8_ascii_append p [] hp
    rw [List.append_nil] at this
    rw [this]; rfl
  have hplain : ∀ t, TextOk t → t.length < 2 ^ 31 - 16 ∧ utf8Valid t = true :=
    fun t ht => ⟨by have := ht.2; omega, (utf8Valid_iff t).mpr ht.1⟩
  have hdash : ∀ o : Bytes, (o.length < 2 ^ 31 - 16 ∧ utf8Valid o = true) → ∀ x ∈ dashO o, x.length < 2 ^ 31 - 16 ∧ utf8Valid x = true := by
    intro o ho x hx
    unfold dashO at hx
    rcases List.mem_cons.mp hx with rfl | hx
    · exact hlit _ (by decide) (by decide)
    · rw [List.mem_singleton.mp hx]; exact ho
  unfold fuseArgs
  refine forall_append (forall_append (forall_append (forall_append (forall_append (forall_append (forall_append (forall_append (forall_append
    (forall_append (forall_append (forall_append (forall_append ?_ ?_) ?_) ?_) ?_) ?_) ?_) ?_) ?_) ?_) ?_) ?_) ?_) ?_
  · intro x hx; rw [List.mem_singleton.mp hx]; exact hplain _ h1
  · exact hdash _ (hlit _ (by decide) (by decide))
  · exact hdash _ (hpre _ _ (by decide) (by decide) h2)
  · exact hdash _ (hpre _ _ (by decide) (by decide) h3)
  · exact hdash _ (hpre _ _ (by decide) (by decide) h4)
  · exact hdash _ (hpre _ _ (by decide) (by decide) h4)
  · exact hdash _ (hpre _ _ (by decide) (by decide) h4)
  · exact hdash _ (hlit _ (by decide) (by decide))
  · split
    · intro x hx; rw [List.mem_singleton.mp hx]; exact hlit _ (by decide) (by decide)
    · nofun
  · intro x hx; rw [List.mem_singleton.mp hx]; exact hlit _ (by decide) (by decide)
  · split
    · exact hdash _ (hlit _ (by decide) (by decide))
    · nofun
  · exact hdash _ (hlit _ (by decide) (by decide))
  · intro x hx
    obtain ⟨o, ho, hx⟩ := List.mem_flatMap.mp hx
    exact hdash _ (hplain _ (h7 o ho)) x hx
  · intro x hx; rw [List.mem_singleton.mp hx]; exact hplain _ h5

/-- The message of `mount` is within the limits. -/
theorem buildMountData_ok {exe : Bytes} {a : MountArgs} (ht : TextsOk exe a) (hn : NumbersOk a) {E : MountEnv} (hfd : ∀ fd, E.logFd = some fd → fd < 2 ^ 31)
    {d : DecParams} (hd : d.Ok) {m : MountData} (h : buildMountData exe a E d = .ok m) : m.Ok := by
  unfold buildMountData at h
  cases hi : shouldUseIno a E {} with
  | error e => rw [hi] at h; cases h
  | ok ino =>
    rw [hi] at h
    injection h with h
    subst h
    obtain ⟨n1, n2, n3⟩ := hn
    refine ⟨fun d' hd' => ?_, fun o ho => ?_, fuseArgs_ok ht ino, ⟨?_, ?_⟩, fun l hl => ?_⟩
    · injection hd' with hd'
      subst hd'
      exact ⟨hd, params_length hd⟩
    · injection ho with ho
      subst ho
      refine ⟨fun n hn => ?_, fun n hn => ?_, n3⟩
      · unfold mountOpts at hn
        dsimp only at hn
        split at hn
        · injection hn with hn; subst hn; exact n1
        · cases hn
      · unfold mountOpts at hn
        dsimp only at hn
        split at hn
        · injection hn with hn; subst hn; exact n2
        · cases hn
    · have := ht.2.2.2.2.2.1.2
      show a.dataDir.length < _
      omega
    · exact (utf8Valid_iff _).mpr ht.2.2.2.2.2.1.1
    · dsimp only at hl
      split at hl
      · injection hl with hl
        subst hl
        refine ⟨fun n hn => ?_, fun n hn => ?_⟩
        · cases hf : E.logFd with
          | none => rw [hf] at hn; cases hn
          | some fd =>
            rw [hf] at hn
            injection hn with hn
            subst hn
            have := hfd fd hf
            constructor
            · show (-2 ^ 63 : Int) ≤ (fd : Int); omega
            · show (fd : Int) < 2 ^ 63; omega
        · dsimp only at hn
          split at hn
          · injection hn with hn; subst hn; exact ⟨by decide, by decide⟩
          · split at hn
            · injection hn with hn; subst hn; exact ⟨by decide, by decide⟩
            · cases hn
      · cases hl

/-- C74: A mount in the background is set up as one in the foreground: the same keys, options, arguments for libfuse, log and locking.  Partial:
    without `--noflock`, and with texts in UTF-8; see `C74_noflock_violated` and `C74_text_violated`. -/
theorem C74_same_partial (exe : Bytes) (a : MountArgs) (E : MountEnv) (d : DecParams) (hd : d.Ok) (ht : TextsOk exe a) (hn : NumbersOk a) (fd : Nat)
    (hlog : E.logFd = some fd) (hfd : fd < 2 ^ 31) (hflock : a.noflock = false) :
    mountBackground exe { a with background := true } E d = mountForeground exe { a with background := false } E d := by
  have hino : ∀ b, shouldUseIno { a with background := b } E {} = shouldUseIno a E {} := fun _ => rfl
  unfold mountBackground mountForeground
  cases hi : shouldUseIno a E {} with
  | error e =>
    have hb : ∀ b, buildMountData exe { a with background := b } E d = .error e := by
      intro b
      unfold buildMountData
      rw [hino, hi]
    rw [hb, hb]
  | ok ino =>
    have hb : ∃ m, buildMountData exe { a with background := true } E d = .ok m := by
      unfold buildMountData
      rw [hino, hi]
      exact ⟨_, rfl⟩
    obtain ⟨m, hm⟩ := hb
    have hok := buildMountData_ok (a := { a with background := true }) ht hn (fun x hx => by rw [hlog] at hx; injection hx with hx; rw [← hx]; exact hfd) hd hm
    rw [hm]
    dsimp only
    unfold protoMount
    rw [MountData.parse_serialize hok]
    dsimp only
    unfold buildMountData at hm ⊢
    rw [hino, hi] at hm
    rw [hino, hi]
    injection hm with hm
    subst hm
    dsimp only
    unfold internalMount
    rw [hlog, hflock]
    show (match makeOps d (mountOpts a E) with
      | .error e => Except.error e
      | .ok setup => _) = (match makeOps d (mountOpts a E) with
      | .error e => Except.error e
      | .ok setup => _)
    cases makeOps d (mountOpts a E) with
    | error e => rfl
    | ok v =>
      dsimp only
      unfold argLogLevel
      cases a.trace <;> cases a.verbose <;> rfl

/-- A volume with a mount point. -/
def toyMount : MountArgs := { mountPoint := [109], dataDir := [100], fuseOptions := [[97]] }

/-- A log on standard error, extended attributes, and a file system of type ext4. -/
def toyEnv : MountEnv := ⟨some 2, true, .ok 0xEF53⟩

/-- The volume of `toyCreate`. -/
def toyVolume : DecParams :=
  ⟨some ⟨4096, 12, 0⟩, .lite ⟨toyDraw.key1, toyDraw.key2, toyDraw.key3, toyDraw.key4, some 128, [46, 108, 108]⟩⟩

theorem textOk_of_valid {t : Bytes} (h : utf8Valid t = true) (hl : t.length < 2 ^ 30) : TextOk t := ⟨(utf8Valid_iff t).mp h, hl⟩

example : TextsOk [115] toyMount ∧ NumbersOk toyMount ∧ (∃ p, mountForeground [115] toyMount toyEnv toyVolume = .ok p ∧ p.logFd = some 2) ∧
    createParams toyDraw { dataDir := [100] } = .ok toyVolume :=
  ⟨⟨textOk_of_valid (by decide) (by decide), textOk_of_valid (by decide) (by decide), textOk_of_valid (by decide) (by decide),
    textOk_of_valid (by decide) (by decide), textOk_of_valid (by decide) (by decide), textOk_of_valid (by decide) (by decide),
    fun o ho => by rw [List.mem_singleton.mp ho]; exact textOk_of_valid (by decide) (by decide)⟩,
    by unfold NumbersOk; decide, ⟨_, rfl, rfl⟩, by decide +kernel⟩

/-- C74 is violated: `--noflock` has no effect in the background: the child locks files nevertheless. -/
theorem C74_noflock_violated (exe : Bytes) (a : MountArgs) (E : MountEnv) (d : DecParams) (p : MountProcess)
    (h : mountBackground exe a E d = .ok p) : p.locking = true ∧ ∀ q, mountForeground exe a E d = .ok q → q.locking = !a.noflock := by
  constructor
  · unfold mountBackground at h
    cases hb : buildMountData exe a E d with
    | error e => rw [hb] at h; cases h
    | ok m =>
      rw [hb] at h
      dsimp only at h
      unfold protoMount at h
      cases hp : MountData.parse m.serialize with
      | none => rw [hp] at h; cases h
      | some m' =>
        rw [hp] at h
        dsimp only at h
        unfold internalMount at h
        dsimp only at h
        cases hs : makeOps (m'.params.getD {}) (m'.opts.getD {}) with
        | error e => rw [hs] at h; cases h
        | ok v =>
          rw [hs] at h
          injection h with h
          rw [← h]
  · intro q hq
    unfold mountForeground at hq
    cases hb : buildMountData exe a E d with
    | error e => rw [hb] at hq; cases hq
    | ok m =>
      rw [hb] at hq
      dsimp only at hq
      unfold internalMount at hq
      dsimp only at hq
      cases hs : makeOps (m.params.getD {}) (m.opts.getD {}) with
      | error e => rw [hs] at hq; cases hq
      | ok v =>
        rw [hs] at hq
        injection hq with hq
        rw [← hq]

example : Except.map MountProcess.locking (mountBackground [115] { toyMount with noflock := true, background := true } toyEnv toyVolume) = .ok true ∧
    Except.map MountProcess.locking (mountForeground [115] { toyMount with noflock := true } toyEnv toyVolume) = .ok false := by
  refine ⟨?_, ?_⟩ <;> decide +kernel

/-- C74 is violated: with a mount point whose path is not UTF-8, a mount in the background fails, although one in the foreground does not. -/
theorem C74_text_violated (exe : Bytes) (a : MountArgs) (E : MountEnv) (d : DecParams) (hd : d.Ok) (ht : TextsOk exe { a with mountPoint := [] })
    (hlen : a.mountPoint.length < 2 ^ 30) (hbad : ¬IsUtf8 a.mountPoint) (ino : Bool) (hino : shouldUseIno a E {} = .ok ino) :
    mountBackground exe a E d = .error .runtime := by
  unfold mountBackground buildMountData
  rw [hino]
  dsimp only
  unfold protoMount
  have hmem : ∀ x, x ∈ fuseArgs exe a ino ↔ x ∈ (fuseArgs exe { a with mountPoint := [] } ino).dropLast ∨ x = a.mountPoint := by
    intro x
    unfold fuseArgs
    rw [List.dropLast_concat, List.mem_append, List.mem_singleton]
  rw [MountData.parse_none]
  · intro d' hd'
    injection hd' with hd'
    subst hd'
    exact params_length hd
  · intro x hx
    rcases (hmem x).mp hx with hx | hx
    · exact (fuseArgs_ok ht ino x (List.dropLast_subset _ hx)).1
    · rw [hx]; omega
  · have := ht.2.2.2.2.2.1.2
    show a.dataDir.length < _
    dsimp only at this
    omega
  · refine ⟨a.mountPoint, (hmem _).mpr (.inr rfl), ?_⟩
    cases hv : utf8Valid a.mountPoint with
    | true => exact absurd ((utf8Valid_iff _).mp hv) hbad
    | false => rfl

example : mountBackground [115] { toyMount with mountPoint := [255], background := true } toyEnv toyVolume = .error .runtime ∧ ¬IsUtf8 [255] ∧
    Except.map MountProcess.fuseArgs (mountForeground [115] { toyMount with mountPoint := [255] } toyEnv toyVolume) =
      .ok (fuseArgs [115] { toyMount with mountPoint := [255] } true) :=
  ⟨by decide +kernel, fun h => (by have := (utf8Valid_iff _).mpr h; exact absurd this (by decide)), by decide +kernel⟩

/-- C74: The child reads the message from its standard input, holds neither end of the pipe elsewhere, so that it sees the end of the message,
    and keeps all the other open files of the parent.  Partial: see `C74_stdin_violated`. -/
theorem C74_child_files_partial (parent : FdTable) (r w : Nat) (hrw : r ≠ w) (hr : r ≠ 0) (n : Nat) :
    childFds parent r w n = if n = 0 then some .pipeRead else if n = r ∨ n = w then none else parent n := by
  show (if n = r then none else if n = 0 then (if r = w then none else if r = r then some FdTarget.pipeRead else _) else
    if n = w then none else if n = r then some .pipeRead else if n = w then some .pipeWrite else parent n) = _
  by_cases h0 : n = 0
  · rw [if_neg (by omega), if_pos h0, if_neg hrw, if_pos rfl, if_pos h0]
  · rw [if_neg h0, if_neg h0]
    by_cases h1 : n = r
    · rw [if_pos h1, if_pos (.inl h1)]
    · rw [if_neg h1]
      by_cases h2 : n = w
      · rw [if_pos h2, if_pos (.inr h2)]
      · rw [if_neg h2, if_neg h1, if_neg h2, if_neg (fun h => h.elim h1 h2)]

example : childFds (fun n => if n < 3 then some (.other n) else none) 3 4 0 = some .pipeRead ∧
    childFds (fun n => if n < 3 then some (.other n) else none) 3 4 2 = some (.other 2) ∧
    childFds (fun n => if n < 3 then some (.other n) else none) 3 4 4 = none := by
  refine ⟨?_, ?_, ?_⟩ <;> decide

/-- C74 is violated: if the parent has no standard input, the pipe takes its place, and the child gets no standard input at all. -/
theorem C74_stdin_violated (parent : FdTable) (w : Nat) : childFds parent 0 w 0 = none := by
  rfl

example : childFds (fun n => if n = 1 ∨ n = 2 then some (.other n) else none) 0 3 0 = none := by decide

/-- C74: What the child receives is a beginning of the message, and the whole message if the parent sees no error. -/
theorem C74_feed (data : Bytes) (answers : List WriteAnswer) (arrived : Bytes) (r : Res Unit) (h : feedChild [] data answers = some (arrived, r)) :
    arrived <+: data ∧ (r = .ok () → arrived = data) := by
  have hgen : ∀ (answers : List WriteAnswer) (sent rest : Bytes), feedChild sent rest answers = some (arrived, r) →
      arrived <+: sent ++ rest ∧ (r = .ok () → arrived = sent ++ rest) := by
    intro answers
    induction answers with
    | nil =>
      intro sent rest h
      cases rest with
      | nil =>
        injection h with h
        injection h with h1 h2
        rw [List.append_nil, h1]
        exact ⟨List.prefix_refl _, fun _ => rfl⟩
      | cons b rest => cases h
    | cons x answers ih =>
      intro sent rest h
      cases rest with
      | nil =>
        injection h with h
        injection h with h1 h2
        rw [List.append_nil, h1]
        exact ⟨List.prefix_refl _, fun _ => rfl⟩
      | cons b rest =>
        cases x with
        | interrupted => exact ih sent (b :: rest) h
        | failed e =>
          injection h with h
          injection h with h1 h2
          rw [← h1, ← h2]
          exact ⟨List.prefix_append _ _, nofun⟩
        | wrote n =>
          cases n with
          | zero =>
            injection h with h
            injection h with h1 h2
            rw [← h1, ← h2]
            exact ⟨List.prefix_append _ _, nofun⟩
          | succ n =>
            have := ih (sent ++ (b :: rest).take (n + 1)) ((b :: rest).drop (n + 1)) h
            rw [List.append_assoc, List.take_append_drop] at this
            exact this
  exact hgen answers [] data h

example : feedChild [] [1, 2, 3] [.wrote 1, .interrupted, .wrote 2] = some ([1, 2, 3], .ok ()) ∧
    feedChild [] [1, 2, 3] [.wrote 1, .failed 32] = some ([1], .error (.vfs 32)) := by
  refine ⟨?_, ?_⟩ <;> decide

/-- C74: The command ends as soon as the mount is there, with code zero, or the child has come to an end, with a code that is not zero, and not
    before.  Partial: see `C74_other_mount_violated` and `C74_lost_child_violated`. -/
theorem C74_exit_partial (rounds : List (Bool × WaitAnswer)) (hno : ∀ r ∈ rounds, r.2 ≠ .noChild) (c : Int) :
    waitForMount true rounds = some c ↔ ∃ before m w after, rounds = before ++ (m, w) :: after ∧ (∀ r ∈ before, Pending r) ∧
      (m = true ∧ c = 0 ∨ m = false ∧ Ends w c) := by
  induction rounds with
  | nil =>
    constructor
    · intro h; cases h
    · rintro ⟨before, m, w, after, h, _⟩
      cases before <;> cases h
  | cons r rounds ih =>
    obtain ⟨m, w⟩ := r
    have ih := ih fun x hx => hno x (List.mem_cons_of_mem _ hx)
    -- the first round decides, or it is pending and the others decide
    have hdec : (m = true ∨ ∃ x, Ends w x) ∨ Pending (m, w) := by
      cases m with
      | true => exact .inl (.inl rfl)
      | false =>
        cases w with
        | running => exact .inr ⟨rfl, .inl rfl⟩
        | otherError => exact .inr ⟨rfl, .inr rfl⟩
        | noChild => exact absurd rfl (hno _ List.mem_cons_self)
        | exited code =>
          by_cases hc : code = 0
          · subst hc; exact .inl (.inr ⟨_, .exitedZero⟩)
          · exact .inl (.inr ⟨_, .exited code hc⟩)
        | signaled s => exact .inl (.inr ⟨_, .signaled s⟩)
        | otherStatus => exact .inl (.inr ⟨_, .other⟩)
    have hends : ∀ x, m = false → Ends w x → waitForMount true ((m, w) :: rounds) = some x := by
      rintro x rfl hx
      cases hx with
      | exited code hc =>
        show some (if (code : Int) ≠ 0 then (code : Int) else -1) = _
        rw [if_pos (by omega)]
      | exitedZero => rfl
      | signaled s =>
        show some (if (128 + s : Int) ≠ 0 then (128 + s : Int) else -1) = _
        rw [if_pos (by omega)]
      | other => rfl
    rcases hdec with hdec | hpend
    · have hfirst : ∀ before m' w' after, (m, w) :: rounds = before ++ (m', w') :: after → (∀ r ∈ before, Pending r) → m' = m ∧ w' = w := by
        intro before m' w' after h hb
        cases before with
        | nil => injection h with h _; injection h with h1 h2; exact ⟨h1.symm, h2.symm⟩
        | cons x before =>
          injection h with h _
          obtain ⟨p1, p2⟩ := hb x List.mem_cons_self
          rw [← h] at p1 p2
          dsimp only at p1 p2
          rcases hdec with hm | ⟨y, hy⟩
          · rw [p1] at hm; cases hm
          · rcases p2 with p2 | p2 <;> rw [p2] at hy <;> cases hy
      cases m with
      | true =>
        constructor
        · intro h
          injection h with h
          exact ⟨[], true, w, rounds, rfl, nofun, .inl ⟨rfl, h.symm⟩⟩
        · rintro ⟨before, m', w', after, h, hb, hc⟩
          obtain ⟨rfl, rfl⟩ := hfirst before m' w' after h hb
          rcases hc with ⟨_, hc⟩ | ⟨hc, _⟩
          · rw [hc]; rfl
          · cases hc
      | false =>
        obtain ⟨x, hx⟩ : ∃ x, Ends w x := by
          rcases hdec with hm | hx
          · cases hm
          · exact hx
        constructor
        · intro h
          rw [hends x rfl hx] at h
          injection h with h
          exact ⟨[], false, w, rounds, rfl, nofun, .inr ⟨rfl, h ▸ hx⟩⟩
        · rintro ⟨before, m', w', after, h, hb, hc⟩
          obtain ⟨rfl, rfl⟩ := hfirst before m' w' after h hb
          rcases hc with ⟨hc, _⟩ | ⟨_, hc⟩
          · cases hc
          · exact hends c rfl hc
    · have hstep : waitForMount true ((m, w) :: rounds) = waitForMount true rounds := by
        obtain ⟨p1, p2⟩ := hpend
        dsimp only at p1 p2
        rcases p2 with p2 | p2 <;> rw [p1, p2] <;> rfl
      rw [hstep, ih]
      constructor
      · rintro ⟨before, m', w', after, h, hb, hc⟩
        refine ⟨(m, w) :: before, m', w', after, by rw [h]; rfl, ?_, hc⟩
        intro r hr
        rcases List.mem_cons.mp hr with rfl | hr
        · exact hpend
        · exact hb r hr
      · rintro ⟨before, m', w', after, h, hb, hc⟩
        cases before with
        | nil =>
          injection h with h _
          injection h with h1 h2
          obtain ⟨p1, p2⟩ := hpend
          dsimp only at p1 p2
          rcases hc with ⟨hc, _⟩ | ⟨_, hc⟩
          · rw [← h1, p1] at hc; cases hc
          · rw [← h2] at hc
            rcases p2 with p2 | p2 <;> rw [p2] at hc <;> cases hc
        | cons x before =>
          injection h with h1 h2
          exact ⟨before, m', w', after, h2, fun r hr => hb r (List.mem_cons_of_mem _ hr), hc⟩

example : waitForMount true [(false, .running), (true, .running)] = some 0 ∧ waitForMount true [(false, .running), (false, .exited 0)] = some (-1) ∧
    waitForMount true [(false, .signaled 9)] = some 137 := by
  refine ⟨?_, ?_, ?_⟩ <;> decide

/-- C74 is violated: if something else is mounted there already, success is reported, even if the child has failed. -/
theorem C74_other_mount_violated (code : Nat) (rest : List (Bool × WaitAnswer)) : waitForMount true ((true, .exited code) :: rest) = some 0 := rfl

/-- C74 is violated: if the parent inherits that the ends of children are ignored, then a child that has come to an end cannot be waited for, and
    the command never ends. -/
theorem C74_lost_child_violated (rounds : List (Bool × WaitAnswer)) (h : ∀ r ∈ rounds, r.1 = false ∧ r.2 = .noChild) : waitForMount true rounds = none := by
  have hlost : ∀ rounds : List (Bool × WaitAnswer), (∀ r ∈ rounds, r.1 = false ∧ r.2 = .noChild) → waitForMount false rounds = none := by
    intro rounds
    induction rounds with
    | nil => intro _; rfl
    | cons r rounds ih =>
      intro h
      obtain ⟨m, w⟩ := r
      obtain ⟨h1, _⟩ := h _ List.mem_cons_self
      dsimp only at h1
      subst h1
      exact ih fun x hx => h x (List.mem_cons_of_mem _ hx)
  cases rounds with
  | nil => rfl
  | cons r rounds =>
    obtain ⟨m, w⟩ := r
    obtain ⟨h1, h2⟩ := h _ List.mem_cons_self
    dsimp only at h1 h2
    subst h1
    subst h2
    exact hlost rounds fun x hx => h x (List.mem_cons_of_mem _ hx)

example : waitForMount true (List.replicate 50 (false, .noChild)) = none := by decide

/-! ## C75 -/

/-- C75: A volume in the lite format that was created is mounted with each key in its own role, the sizes and the treatment of long names that
    were asked for, and the options of this mount. -/
theorem C75_created_lite (R : CreateRandom) (hR : DrawOk R) (c : CreateArgs) (d : DecParams) (h : AskedLite c R d)
    (hpad : c.maxPadding = 0 ∨ R.key4 ≠ List.replicate 32 0) (a : MountArgs) (E : MountEnv) :
    ∃ fold compose : Bool, (fold = true ↔ FoldsCase a) ∧ (compose = true ↔ Composes a) ∧
      makeOps d (mountOpts a E) = .ok (.lite R.key2 R.key4 R.key1 R.key3 ⟨c.blockSize, c.ivSize, c.maxPadding⟩ (!a.insecure) (!a.noxattr && E.xattrOk)
        a.plainTextNames fold compose c.longNameThreshold c.longNameSuffix) := by
  obtain ⟨r1, r2, r3, r4, _, _⟩ := hR
  obtain ⟨l, rfl, h1, h2, h3, h4, h5, h6⟩ := h
  have hthr : l.longNameThreshold.getD 0 = c.longNameThreshold := by
    cases ht : l.longNameThreshold with
    | none =>
      by_cases hz : c.longNameThreshold = 0
      · rw [hz]; rfl
      · rw [(h6 _).mpr ⟨rfl, hz⟩] at ht; cases ht
    | some t => rw [((h6 t).mp ht).1]; rfl
  refine ⟨(mountOpts a E).caseFold, (mountOpts a E).nfc, ?_, ?_, ?_⟩
  · unfold mountOpts FoldsCase
    cases a.plainTextNames with
    | true => simp
    | false => simp only [Bool.false_eq_true, if_false, decide_eq_true_eq, true_and]; rfl
  · unfold mountOpts Composes
    cases a.plainTextNames with
    | true => simp
    | false => simp only [Bool.false_eq_true, if_false, decide_eq_true_eq, true_and]; rfl
  · show makeLite ⟨c.blockSize, c.ivSize, c.maxPadding⟩ l (mountOpts a E) = _
    have hk : ∀ k : Bytes, k.length = 32 → keyFromBytes k = .ok k := fun k hk => if_neg fun h => h hk
    unfold makeLite
    rw [h1, h2, h3, h4, hk _ r1, hk _ r2, hk _ r3, hk _ r4, if_pos (show 0 < R.key4.length by omega)]
    dsimp only
    rw [if_neg (by
      rintro ⟨x, y⟩
      rcases hpad with hpad | hpad
      · omega
      · exact hpad y), hthr, h5]
    have hx : (mountOpts a E).enableXattr = (!a.noxattr && E.xattrOk) := by
      unfold mountOpts
      cases a.noxattr <;> rfl
    rw [hx]
    rfl

example : makeOps toyVolume (mountOpts { toyMount with normalization := word "nfc", insecure := true } toyEnv) =
    .ok (.lite toyDraw.key2 toyDraw.key4 toyDraw.key1 toyDraw.key3 ⟨4096, 12, 0⟩ false true false false true 128 [46, 108, 108]) := by decide +kernel

/-- C75: A volume in the full format that was created is mounted with its key, the sizes and the comparison of names that were asked for, and the
    options of this mount. -/
theorem C75_created_full (R : CreateRandom) (hR : DrawOk R) (c : CreateArgs) (d : DecParams) (h : AskedFull c R d) (a : MountArgs) (E : MountEnv) :
    ∃ fold agnostic : Bool, (fold = true ↔ c.caseHandling = word "insensitive") ∧ (agnostic = true ↔ c.uninorm = word "insensitive") ∧
      makeOps d (mountOpts a E) = .ok (.full R.key1 ⟨c.blockSize, c.ivSize, c.maxPadding⟩ (!a.insecure) false false false
        (if a.uidOverride = -1 then none else some a.uidOverride) (if a.gidOverride = -1 then none else some a.gidOverride) (Compares fold agnostic) fold
        (!a.noxattr && E.xattrOk)) := by
  obtain ⟨r1, _⟩ := hR
  obtain ⟨f, rfl, h1, h2, h3, h4, h5⟩ := h
  have hne : word "sensitive" ≠ word "insensitive" := by decide
  refine ⟨f.caseInsensitive, f.unicodeAgnostic, ?_, ?_, ?_⟩
  · rcases h2 with ⟨x, y⟩ | ⟨x, y⟩ <;> rw [x, y] <;> simp [hne]
  · rcases h3 with ⟨x, y⟩ | ⟨x, y⟩ <;> rw [x, y] <;> simp [hne]
  · show makeFull ⟨c.blockSize, c.ivSize, c.maxPadding⟩ f (mountOpts a E) = _
    unfold makeFull keyFromBytes
    rw [h1, if_neg (by omega), h4, h5]
    dsimp only
    have hx : (mountOpts a E).enableXattr = (!a.noxattr && E.xattrOk) := by
      unfold mountOpts
      cases a.noxattr <;> rfl
    have hu : (mountOpts a E).uid = if a.uidOverride = -1 then none else some a.uidOverride := by
      unfold mountOpts
      by_cases hz : a.uidOverride = -1
      · rw [if_pos hz]; exact if_neg fun h => h hz
      · rw [if_neg hz]; exact if_pos hz
    have hg : (mountOpts a E).gid = if a.gidOverride = -1 then none else some a.gidOverride := by
      unfold mountOpts
      by_cases hz : a.gidOverride = -1
      · rw [if_pos hz]; exact if_neg fun h => h hz
      · rw [if_neg hz]; exact if_pos hz
    have hc : nameComparison f = Compares f.caseInsensitive f.unicodeAgnostic := by
      unfold nameComparison Compares
      cases f.caseInsensitive <;> cases f.unicodeAgnostic <;> rfl
    rw [hx, hu, hg, hc]
    rfl

example : ∃ d, createParams toyDraw { dataDir := [100], format := [50], uninorm := word "insensitive" } = .ok d ∧
    makeOps d (mountOpts { toyMount with uidOverride := 1000 } toyEnv) =
      .ok (.full toyDraw.key1 ⟨4096, 12, 0⟩ true false false false (some 1000) none .normInsensitive false true) :=
  ⟨⟨some ⟨4096, 12, 0⟩, .full ⟨toyDraw.key1, false, false, false, true⟩⟩, by decide +kernel, by decide +kernel⟩

/-- C75: A volume with a key of the wrong length, or with padding but without a key for it, is not mounted. -/
theorem C75_refused (size : SizeParams) (l : LiteParams) (o : MountOpts)
    (h : l.contentKey.length ≠ 32 ∨ l.nameKey.length ≠ 32 ∨ l.xattrKey.length ≠ 32 ∨ (l.paddingKey ≠ [] ∧ l.paddingKey.length ≠ 32) ∨
      (l.paddingKey = [] ∧ 0 < size.maxPadding)) : makeOps ⟨some size, .lite l⟩ o = .error .runtime := by
  show makeLite size l o = _
  unfold makeLite keyFromBytes
  by_cases h1 : l.contentKey.length = 32
  · rw [if_neg (by omega)]
    dsimp only
    by_cases hp : l.paddingKey = []
    · rw [if_neg (by rw [hp]; decide)]
      dsimp only
      by_cases h2 : l.nameKey.length = 32
      · rw [if_neg (by omega)]
        dsimp only
        by_cases h3 : l.xattrKey.length = 32
        · rw [if_neg (by omega)]
          dsimp only
          rw [if_pos]
          refine ⟨?_, rfl⟩
          rcases h with h | h | h | ⟨h, _⟩ | ⟨_, h⟩
          · exact absurd h1 h
          · exact absurd h2 h
          · exact absurd h3 h
          · exact absurd hp h
          · exact h
        · rw [if_pos h3]
      · rw [if_pos h2]
    · rw [if_pos (List.length_pos_of_ne_nil hp)]
      by_cases h4 : l.paddingKey.length = 32
      · rw [if_neg (by omega)]
        dsimp only
        by_cases h2 : l.nameKey.length = 32
        · rw [if_neg (by omega)]
          dsimp only
          by_cases h3 : l.xattrKey.length = 32
          · rcases h with h | h | h | ⟨_, h⟩ | ⟨h, _⟩
            · exact absurd h1 h
            · exact absurd h2 h
            · exact absurd h3 h
            · exact absurd h4 h
            · exact absurd h hp
          · rw [if_pos h3]
        · rw [if_pos h2]
      · rw [if_pos h4]
  · rw [if_pos h1]

example : makeOps toyLiteVolume {} = .error .runtime := by decide +kernel

/-- C75 is violated: a `--normalization` that is none of the valid values is not refused but taken as `none`. -/
theorem C75_normalization_violated (a : MountArgs) (E : MountEnv) (h : a.normalization ∉ [word "casefold", word "nfc", word "casefold+nfc"]) :
    mountOpts a E = mountOpts { a with normalization := word "none" } E := by
  have h1 : a.normalization ≠ normCasefold := fun hx => h (by rw [hx]; decide)
  have h2 : a.normalization ≠ normNfc := fun hx => h (by rw [hx]; decide)
  have h3 : a.normalization ≠ normBoth := fun hx => h (by rw [hx]; decide)
  have n1 : word "none" ≠ normCasefold := by decide
  have n2 : word "none" ≠ normNfc := by decide
  have n3 : word "none" ≠ normBoth := by decide
  unfold mountOpts
  simp [h1, h2, h3, n1, n2, n3]

example : word "NFC" ∉ [word "casefold", word "nfc", word "casefold+nfc"] := by decide

/-- The command line for libfuse is the one of the specification. -/
theorem fuseArgs_eq (exe : Bytes) (a : MountArgs) (ino : Bool) : fuseArgs exe a ino = FuseCommand exe a ino := by
  unfold fuseArgs FuseCommand
  cases a.single <;> cases ino <;> rfl

/-- C75: The process that serves the mount: the volume with the options, the idle time if there is a positive one, the log with the level of
    `--trace` or `--verbose`, locking unless `--noflock` is given, and the command line for libfuse. -/
theorem C75_process (exe : Bytes) (a : MountArgs) (hfg : a.background = false) (E : MountEnv) (d : DecParams) (p : MountProcess)
    (h : mountForeground exe a E d = .ok p) :
    makeOps d (mountOpts a E) = .ok p.setup ∧ (∀ t, p.idle = some t ↔ t = a.maxIdle ∧ 0 < t) ∧ p.sensitiveLogging = a.sensitiveLogging ∧
      p.dataDir = a.dataDir ∧ p.logFd = E.logFd.map Int.ofNat ∧ p.locking = !a.noflock ∧
      (a.trace = true → p.logLevel = 0) ∧ (a.trace = false → a.verbose = true → p.logLevel = 1) ∧
      (a.trace = false → a.verbose = false → p.logLevel = 2) ∧ ∃ ino, p.fuseArgs = FuseCommand exe a ino := by
  unfold mountForeground buildMountData at h
  cases hi : shouldUseIno a E {} with
  | error e => rw [hi] at h; cases h
  | ok ino =>
    rw [hi] at h
    dsimp only at h
    rw [if_neg (by rw [hfg]; nofun)] at h
    unfold internalMount at h
    dsimp only [Option.getD_some] at h
    cases hs : makeOps d (mountOpts a E) with
    | error e => rw [hs] at h; cases h
    | ok v =>
      rw [hs] at h
      injection h with h
      subst h
      refine ⟨rfl, ?_, rfl, rfl, rfl, rfl, ?_, ?_, ?_, ino, fuseArgs_eq exe a ino⟩
      · intro t
        show (if 0 < a.maxIdle then some a.maxIdle else none) = some t ↔ _
        split
        · constructor
          · intro ht; injection ht with ht; exact ⟨ht.symm, by omega⟩
          · rintro ⟨ht, _⟩; rw [ht]
        · exact ⟨fun ht => (by cases ht), fun ⟨h1, h2⟩ => by omega⟩
      · intro ht; show argLogLevel a = _; unfold argLogLevel; rw [ht]; rfl
      · intro ht hv; show argLogLevel a = _; unfold argLogLevel; rw [ht, hv]; rfl
      · intro ht hv; show argLogLevel a = _; unfold argLogLevel; rw [ht, hv]; rfl

example : Except.map MountProcess.idle (mountForeground [115] { toyMount with maxIdle := 60, single := true } toyEnv toyVolume) = .ok (some 60) := by
  decide +kernel

/-- C75: `--use-ino` decides whether libfuse shows the inode numbers of securefs; by default the type of the file system decides. -/
theorem C75_use_ino (exe : Bytes) (a : MountArgs) (E : MountEnv) (d : DecParams) (m : MountData) (h : buildMountData exe a E d = .ok m) :
    ∃ ino, m.fuseArgs = FuseCommand exe a ino ∧ (a.useIno = word "true" ∧ ino = true ∨ a.useIno = word "false" ∧ ino = false ∨
      a.useIno = word "auto" ∧ ∃ t, E.fsType = .ok t ∧ (ino = true ↔ t ∈ stableInodeTypes)) := by
  unfold buildMountData at h
  cases hi : shouldUseIno a E {} with
  | error e => rw [hi] at h; cases h
  | ok ino =>
    rw [hi] at h
    injection h with h
    refine ⟨ino, by rw [← h]; exact fuseArgs_eq exe a ino, ?_⟩
    unfold shouldUseIno at hi
    split at hi
    · rename_i hx; injection hi with hi; exact .inl ⟨hx, hi.symm⟩
    · split at hi
      · rename_i hx; injection hi with hi; exact .inr (.inl ⟨hx, hi.symm⟩)
      · split at hi
        · rename_i hx
          dsimp only at hi
          cases hf : E.fsType with
          | error e => rw [hf] at hi; cases hi
          | ok t =>
            rw [hf] at hi
            injection hi with hi
            exact .inr (.inr ⟨hx, t, rfl, by rw [← hi, decide_eq_true_eq]⟩)
        · cases hi

example : ∃ m, buildMountData [115] toyMount toyEnv toyVolume = .ok m ∧ [117, 115, 101, 95, 105, 110, 111] ∈ m.fuseArgs :=
  ⟨_, rfl, by decide +kernel⟩

/-- C75 is violated: in the full format the inode numbers are always to be used, but by default they are not if the type of the file system below is
    not known: the format is asked for in an object that is never filled. -/
theorem C75_use_ino_violated (exe : Bytes) (a : MountArgs) (E : MountEnv) (size : SizeParams) (f : FullParams) (t : Nat) (hauto : a.useIno = word "auto")
    (ht : E.fsType = .ok t) (hunknown : t ∉ stableInodeTypes) :
    shouldUseIno a E ⟨some size, .full f⟩ = .ok true ∧
      ∃ m, buildMountData exe a E ⟨some size, .full f⟩ = .ok m ∧ m.fuseArgs = FuseCommand exe a false := by
  have h1 : ¬a.useIno = [116, 114, 117, 101] := by rw [hauto]; decide
  have h2 : ¬a.useIno = [102, 97, 108, 115, 101] := by rw [hauto]; decide
  have h3 : a.useIno = [97, 117, 116, 111] := by rw [hauto]; decide
  constructor
  · unfold shouldUseIno
    rw [if_neg h1, if_neg h2, if_pos h3]
  · have hi : shouldUseIno a E {} = .ok false := by
      unfold shouldUseIno
      rw [if_neg h1, if_neg h2, if_pos h3, ht]
      show Except.ok (decide (t ∈ stableInodeTypes)) = _
      rw [decide_eq_false hunknown]
    unfold buildMountData
    rw [hi]
    exact ⟨_, rfl, fuseArgs_eq exe a false⟩

example : (0x794C7630 : Nat) ∉ stableInodeTypes ∧ word "use_ino" ∉ FuseCommand [115] toyMount false := by
  refine ⟨?_, ?_⟩ <;> decide +kernel

/-- C75: In the full format every file is owned by the user that `--uid-override` names. -/
theorem C75_uid (size : SizeParams) (f : FullParams) (a : MountArgs) (E : MountEnv) (v : VolumeSetup) (u : Nat) (hu : a.uidOverride = u) (hlt : u < 2 ^ 31)
    (h : makeOps ⟨some size, .full f⟩ (mountOpts a E) = .ok v) (stored : Nat) : shownUid v stored = u := by
  have ho : (mountOpts a E).uid = some (u : Int) := by
    unfold mountOpts
    rw [hu]
    exact if_pos (c := (u : Int) ≠ -1) (e := none) (by omega)
  change makeFull size f (mountOpts a E) = _ at h
  unfold makeFull at h
  cases hk : keyFromBytes f.masterKey with
  | error e => rw [hk] at h; cases h
  | ok k =>
    rw [hk] at h
    injection h with h
    rw [← h, ho]
    show ((u : Int) % 2 ^ 32).toNat = u
    omega

/-- C75 is violated: in the lite format `--uid-override` has no effect. -/
theorem C75_uid_violated (size : SizeParams) (l : LiteParams) (a : MountArgs) (E : MountEnv) (v : VolumeSetup)
    (h : makeOps ⟨some size, .lite l⟩ (mountOpts a E) = .ok v) (stored : Nat) : shownUid v stored = stored := by
  change makeLite size l (mountOpts a E) = _ at h
  unfold makeLite at h
  repeat' split at h
  all_goals first | (injection h with h; subst h; rfl) | cases h

example : ∃ v, makeOps toyVolume (mountOpts { toyMount with uidOverride := 1000 } toyEnv) = .ok v ∧ shownUid v 0 = 0 := ⟨_, rfl, rfl⟩

end Securefs.Props
