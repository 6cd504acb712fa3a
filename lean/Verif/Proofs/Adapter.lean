import Verif.Spec.Adapter
/-!
# Lemmas about the adapter
-/

namespace Securefs

open Spec

theorem queryCmd_eq : queryCmd = 0x80047301#32 := by decide
theorem unmountCmd_eq : unmountCmd = 0x7302#32 := by decide
theorem iocSize_query : iocSize queryCmd = 4 := by decide

theorem isSpecialPath_iff {p : Option Bytes} : isSpecialPath p = true ↔ p = some (47 :: specialName) := by
  unfold isSpecialPath
  split
  · simp
  · rename_i h
    constructor
    · intro h'; cases h'
    · intro h'; exact absurd h' (h _ _)

theorem delegateRun_eq {σ : Type} (o : FuseOps σ) (c : FuseCall) : delegateRun o c = o.run c := by cases c <;> rfl

theorem delegateOps_eq {σ : Type} (o : FuseOps σ) : delegateOps o = o := by
  unfold delegateOps
  cases o with
  | mk s h r => congr 1; funext c; rw [delegateRun_eq]

/-- An argument that shows the contents of a buffer. -/
def LogArg.isPlain : LogArg → Bool
  | .plain .. => true
  | _ => false

theorem printArg_same {m m' : Memory} (h : SameStructs m m') {a : LogArg} (ha : a.isPlain = false) : printArg m a = printArg m' a := by
  unfold SameStructs at h
  cases a with
  | cstr s => cases s <;> rfl
  | fields a => simp [printArg, h]
  | plain a n => cases ha
  | _ => rfl

theorem logArgs_redacted (c : FuseCall) : (logArgs false c).all (fun a => !a.2.isPlain) = true := by cases c <;> rfl

theorem printArgs_redacted {m m' : Memory} (h : SameStructs m m') (c : FuseCall) :
    printArgs m (logArgs false c) = printArgs m' (logArgs false c) := by
  unfold printArgs
  refine List.map_congr_left fun a ha => ?_
  have := List.all_eq_true.mp (logArgs_redacted c) a ha
  rw [printArg_same h (by simpa using this)]

theorem code_unique {o : Outcome} {a b : Int} (h : Code o a) (h' : Code o b) : a = b := by
  cases h <;> cases h' <;> rfl

theorem code_quiet {o : Outcome} {rc : Int} : Code (quietNoData o) rc ↔ Code o rc := by
  unfold quietNoData
  cases o with
  | ret r => exact Iff.rfl
  | throw e =>
    cases e <;> simp only [Exc.errorNumber] <;> try exact Iff.rfl
    all_goals
      split
      · rename_i h
        subst h
        constructor
        · intro h; cases h; constructor
        · intro h; cases h; constructor
      · exact Iff.rfl

theorem quiet_foreign {o : Outcome} : quietNoData o = .throw .foreign ↔ o = .throw .foreign := by
  unfold quietNoData
  cases o with
  | ret r => exact Iff.rfl
  | throw e =>
    cases e <;> simp only [Exc.errorNumber] <;> try exact Iff.rfl
    all_goals
      split
      · constructor <;> intro h <;> cases h
      · exact Iff.rfl

/-- What `tracedCall` answers and leaves behind. -/
theorem tracedCall_spec {σ : Type} (lg : Option LogLevel) (func : String) (args : List (String × LogArg))
    (body : FuseWorld σ → Outcome × FuseWorld σ) (w : FuseWorld σ) :
    (∀ rc, (tracedCall lg func args body w).1 = some rc ↔
      Code (body { w with log := w.log ++ printStarts lg func args w.mem }).1 rc) ∧
    ∃ lines, (tracedCall lg func args body w).2 =
      { (body { w with log := w.log ++ printStarts lg func args w.mem }).2 with
        log := (body { w with log := w.log ++ printStarts lg func args w.mem }).2.log ++ lines } := by
  unfold tracedCall
  dsimp only
  generalize body { w with log := w.log ++ printStarts lg func args w.mem } = r
  obtain ⟨out, w2⟩ := r
  have inj : ∀ {a rc : Int}, some a = some rc ↔ a = rc := fun {a rc} => by simp
  cases out with
  | ret r =>
    refine ⟨fun rc => ⟨fun h => ?_, fun h => ?_⟩, _, rfl⟩
    · cases h; constructor
    · cases h; rfl
  | throw e =>
    cases e with
    | vfs n t =>
      refine ⟨fun rc => ⟨fun h => ?_, fun h => ?_⟩, _, rfl⟩
      · cases h; constructor
      · cases h; rfl
    | foreign =>
      refine ⟨fun rc => ⟨fun h => ?_, fun h => ?_⟩, [], ?_⟩
      · cases h
      · cases h
      · simp
    | posix n t =>
      refine ⟨fun rc => ⟨fun h => ?_, fun h => ?_⟩, _, rfl⟩
      · cases h; constructor
      · cases h; rfl
    | invalidArgument t =>
      refine ⟨fun rc => ⟨fun h => ?_, fun h => ?_⟩, _, rfl⟩
      · cases h; constructor
      · cases h; rfl
    | streamTooLong t =>
      refine ⟨fun rc => ⟨fun h => ?_, fun h => ?_⟩, _, rfl⟩
      · cases h; constructor
      · cases h; rfl
    | base t =>
      refine ⟨fun rc => ⟨fun h => ?_, fun h => ?_⟩, _, rfl⟩
      · cases h; constructor
      · cases h; rfl
    | std t =>
      refine ⟨fun rc => ⟨fun h => ?_, fun h => ?_⟩, _, rfl⟩
      · cases h; constructor
      · cases h; rfl

theorem callBody_eq {σ : Type} (o : FuseOps σ) (c : FuseCall) (w : FuseWorld σ) :
    callBody o c w = (if c.fn = .getxattr then quietNoData (o.run c w).1 else (o.run c w).1, (o.run c w).2) := by
  unfold callBody
  cases c <;> simp [FuseCall.fn]

theorem code_callBody {σ : Type} (o : FuseOps σ) (c : FuseCall) (w : FuseWorld σ) (rc : Int) :
    Code (callBody o c w).1 rc ↔ Code (o.run c w).1 rc := by
  rw [callBody_eq]
  by_cases h : c.fn = .getxattr
  · simp only [h, if_true]; exact code_quiet
  · simp only [if_neg h]

/-- The lines `tracedCall` writes after the call. -/
def endLines (lg : Option LogLevel) (func : String) (args : List (String × LogArg)) (m : Memory) : Outcome → List LogLine
  | .ret rc => printReturns lg func args m rc
  | .throw (.vfs n _) => printReturns lg func args m (-n)
  | .throw .foreign => []
  | .throw e => printException lg func args m e (-(e.errorNumber.getD 1))

theorem tracedCall_log {σ : Type} (lg : Option LogLevel) (func : String) (args : List (String × LogArg))
    (body : FuseWorld σ → Outcome × FuseWorld σ) (w : FuseWorld σ) :
    (tracedCall lg func args body w).2.log =
      (body { w with log := w.log ++ printStarts lg func args w.mem }).2.log ++
        endLines lg func args (body { w with log := w.log ++ printStarts lg func args w.mem }).2.mem
          (body { w with log := w.log ++ printStarts lg func args w.mem }).1 := by
  unfold tracedCall
  dsimp only
  generalize body { w with log := w.log ++ printStarts lg func args w.mem } = r
  obtain ⟨out, w2⟩ := r
  cases out with
  | ret r => rfl
  | throw e => cases e <;> simp [endLines, Exc.errorNumber]

theorem endLines_same {m m' : Memory} {args : List (String × LogArg)} (h : printArgs m args = printArgs m' args) (lg : Option LogLevel)
    (func : String) (o : Outcome) : endLines lg func args m o = endLines lg func args m' o := by
  cases o with
  | ret r => simp [endLines, printReturns, h]
  | throw e => cases e <;> simp [endLines, printReturns, printException, h]

theorem wrapped_sens {σ : Type} (cfg : WrapCfg) (inner : FuseOps σ) : (wrappedOps cfg inner).sens = (cfg.sens || inner.sens) := by
  unfold wrappedOps
  dsimp only
  split <;> split <;> split <;> simp_all [filedOps, ioctlOps, sensitiveOps, hookedOps, delegateOps_eq]

/-- The number of times the idle timer is set by a call. -/
def idleTicks (cfg : WrapCfg) : Nat := if cfg.maxIdle > 0 then 1 else 0

theorem inner_run {σ : Type} (cfg : WrapCfg) (inner : FuseOps σ) (c : FuseCall) (w : FuseWorld σ) :
    (if cfg.sens then sensitiveOps (if cfg.maxIdle > 0 then hookedOps inner else inner)
      else (if cfg.maxIdle > 0 then hookedOps inner else inner)).run c w =
      inner.run c { w with activity := w.activity + idleTicks cfg } := by
  unfold idleTicks
  split <;> split <;> simp [sensitiveOps, hookedOps, delegateOps_eq]

theorem inner_has {σ : Type} (cfg : WrapCfg) (inner : FuseOps σ) (f : FuseFn) :
    (if cfg.sens then sensitiveOps (if cfg.maxIdle > 0 then hookedOps inner else inner)
      else (if cfg.maxIdle > 0 then hookedOps inner else inner)).has f = inner.has f := by
  split <;> split <;> simp [sensitiveOps, hookedOps, delegateOps_eq]

theorem wrapped_has {σ : Type} (cfg : WrapCfg) (inner : FuseOps σ) (f : FuseFn) :
    (wrappedOps cfg inner).has f =
      (inner.has f || (if cfg.fuseT then decide (f = .getattr ∨ f = .rmdir) else decide (f = .ioctl))) := by
  unfold wrappedOps
  dsimp only
  by_cases hT : cfg.fuseT
  · simp only [hT, if_true, filedOps, delegateOps_eq]
    by_cases hf : f = .getattr ∨ f = .rmdir
    · simp [hf]
    · rw [if_neg hf, inner_has cfg inner f]
      simp [hf]
  · rw [if_neg hT, if_neg hT]
    simp only [ioctlOps, delegateOps_eq]
    by_cases hf : f = .ioctl
    · simp [hf]
    · rw [if_neg hf, inner_has cfg inner f]
      simp [hf]

theorem wrapped_run {σ : Type} (cfg : WrapCfg) (inner : FuseOps σ) (c : FuseCall) (w : FuseWorld σ) (h : ¬ ForMount cfg.fuseT c) :
    (wrappedOps cfg inner).run c w =
      (ioctlOutcome cfg.fuseT c (inner.run c { w with activity := w.activity + idleTicks cfg }).1,
       (inner.run c { w with activity := w.activity + idleTicks cfg }).2) := by
  have hid : ∀ (b : Bool) (c : FuseCall) (o : Outcome), (b = false → c.fn ≠ .ioctl) → ioctlOutcome b c o = o := by
    intro b c o hb
    cases o with
    | throw e => rfl
    | ret r =>
      unfold ioctlOutcome ioctlAnswer
      dsimp only
      rw [if_neg (fun h => hb h.1 h.2.1)]
  unfold wrappedOps
  dsimp only
  rw [← inner_run cfg inner c w]
  generalize (if cfg.sens then sensitiveOps (if cfg.maxIdle > 0 then hookedOps inner else inner)
      else (if cfg.maxIdle > 0 then hookedOps inner else inner)) = o
  by_cases hT : cfg.fuseT = true
  · rw [if_pos hT, hid _ _ _ (fun h => by rw [hT] at h; cases h)]
    show (filedOps cfg.dirText o).run c w = o.run c w
    unfold filedOps
    dsimp only
    split
    · rename_i p st
      rw [if_neg (fun h' => h ⟨hT, isSpecialPath_iff.mp h'⟩), delegateOps_eq]
    · rename_i p
      rw [if_neg (fun h' => h ⟨hT, isSpecialPath_iff.mp h'⟩), delegateOps_eq]
    · rw [delegateOps_eq]
  · rw [if_neg hT]
    have hF : cfg.fuseT = false := by simpa using hT
    unfold ioctlOps
    dsimp only
    split
    · rename_i p cmd a i f d
      unfold specialIoctl
      rw [if_neg (fun h' => h ⟨hF, .inl (h'.trans queryCmd_eq)⟩), if_neg (fun h' => h ⟨hF, .inr (h'.trans unmountCmd_eq)⟩), delegateOps_eq]
      generalize o.run (.ioctl p cmd a i f d) w = r
      obtain ⟨out, w'⟩ := r
      cases out with
      | throw e => rfl
      | ret rc => simp [ioctlOutcome, ioctlAnswer, hF, FuseCall.fn]
    · rename_i hni
      rw [delegateOps_eq, hid _ _ _ (fun _ hc => ?_)]
      cases c <;> first | exact absurd rfl (hni _ _ _ _ _ _) | cases hc

end Securefs
