import Verif.Proofs.LiteVolumeNames
import Verif.Proofs.LiteVolumeRun
import Verif.Props.Streams
/-!
# The lite volume as a whole

C81: a mounted volume of the lite format behaves as a plain tree of files, whatever the calls, with each of the name translators.
-/

namespace Securefs.Props

open Spec

/-! ## The new translator -/

/-- What can be done with a volume with the new translator, if the names are among `N`. -/
def newTerms (T : NewStyle) (C : LiteCfg) (N : Bytes → Prop) : Terms where
  name c := (c ≠ [] ∧ 47 ∉ c ∧ c ≠ [46] ∧ c ≠ [46, 46]) ∧ N c
  target t := t ≠ []
  long c := decide (T.threshold < c.length)
  reads size t := t.length < size
  limit := (2 ^ 31 - 1) * C.bs

/-- **C81 (new translator).**  Start with an empty directory and make any calls that fit (see `Terms.Fits`), any of which the system may
    refuse with an error.  Then each call returns what it returns on a plain tree of files: the same error number, the same attributes, bytes
    and targets, and in a listing the same names.  `N` is any set of names among which the hash of the long names has no collisions. -/
theorem C81_new_names_partial (V : LVol) (T : NewStyle) (aes : Bytes → Bytes) (N : Bytes → Prop) (hV : V.tr = T.translator)
    (hC : V.cfg.WF) (hpad : V.cfg.padding = LiteCfg.computePadding V.maxPad aes) (horder : ∀ l, (V.order l).Perm l)
    (hS : T.siv.WF) (hf : ForeignSuffix T) (hsl : (47 : UInt8) ∉ T.suffix) (hh : ∀ m, (T.hash m).length = 32)
    (hN : ∀ c c', N c → N c' → T.threshold < c.length → T.threshold < c'.length → T.hash c = T.hash c' → c = c')
    (attr : Posix.Attr) (n : Nat) (calls : List (Option Nat × Call)) (hfit : (newTerms T V.cfg N).AllFit [] (Vol.empty attr) calls) :
    List.Forall₂ Agrees ((Vol.empty attr).run calls) (V.run (LSys.new attr n) calls) := by
  have hT := scheme_newStyle T hS hf hsl hh N hN
  rw [← hV] at hT
  refine sim_run hC hpad horder hT (X := newTerms T V.cfg N) ⟨fun _ h => h, fun _ h => h, fun c => ?_, ?_, le_refl _⟩ calls (shows_new hT attr n) []
    (fun d h => by cases h) hfit
  · rw [row_iff hS c]
    exact decide_eq_true_iff
  · intro size t st h1 h2
    rw [hV] at h2
    refine ⟨h1, ?_⟩
    have h1 : t.length < size := h1
    obtain ⟨st', parts, g1, _, _, _, g5⟩ := C23_round_trip T hS t
    have : st = st' := by
      have h2 : T.encryptSymlink t = .ok st := h2
      rw [g1] at h2; injection h2 with h2; exact h2.symm
    subst this
    by_cases ht : t = []
    · subst ht
      have : T.encryptSymlink [] = .ok [] := rfl
      rw [g1] at this
      cases this
      simp
    · rw [g5 ht]
      omega

/-! ### An example -/

section
variable (X : Terms) [DecidablePred X.name] [DecidablePred X.target] [∀ size, DecidablePred (X.reads size)]

instance (r : Except Nat Nat) (P : Nat → Prop) [DecidablePred P] : Decidable (Gives r P) := by
  cases r <;> unfold Gives <;> infer_instance

instance {α : Type} (r : Except Nat α) (P : α → Prop) [DecidablePred P] : Decidable (IfOk r P) := by
  cases r <;> unfold IfOk <;> infer_instance

instance (p : List Bytes) : Decidable (X.path p) := by unfold Terms.path; infer_instance

instance (a : Vol) (p : List Bytes) : Decidable (a.parent p) := by unfold Vol.parent; infer_instance

instance (fs : Posix.Fs) : DecidablePred (X.noLong fs) := fun d => by unfold Terms.noLong; infer_instance

instance (a : Vol) (h : Nat) : Decidable (a.openFile h) := by unfold Vol.openFile; split <;> infer_instance

instance (a : Vol) (h : Nat) (P : Nat → List Bytes → Prop) [∀ i p, Decidable (P i p)] : Decidable (a.openDir h P) := by
  unfold Vol.openDir; split <;> infer_instance

instance (a : Vol) (h : Nat) : Decidable (a.isOpen h) := by unfold Vol.isOpen; split <;> infer_instance

instance (marked : List Nat) (a : Vol) (c : Call) : Decidable (X.Fits marked a c) := by
  cases c <;> unfold Terms.Fits <;> infer_instance

instance allFitDecidable : (marked : List Nat) → (a : Vol) → (calls : List (Option Nat × Call)) → Decidable (X.AllFit marked a calls)
  | _, _, [] => .isTrue trivial
  | marked, a, x :: rest =>
    have := allFitDecidable (X.marks a x.2 ++ marked) (a.step x.1 x.2).2 rest
    inferInstanceAs (Decidable (_ ∧ _))

end

/-- A volume for the examples. -/
def Toy.volume : LVol := ⟨Toy.names.translator, Toy.lite true 0, 0, List.reverse⟩

/-- Attributes for the examples. -/
def Toy.attr : Posix.Attr := ⟨0o755, 1000, 1000, 5, 6⟩

/-- The names of the example. -/
def Toy.used (c : Bytes) : Prop := c ∈ [Toy.longA, Toy.longB, [100], [101], [102], [108]]

instance : DecidablePred Toy.used := fun c => by unfold Toy.used; infer_instance

instance (N : Bytes → Prop) [DecidablePred N] : DecidablePred (newTerms Toy.names Toy.volume.cfg N).name := fun c => by
  unfold newTerms; infer_instance

instance (N : Bytes → Prop) : DecidablePred (newTerms Toy.names Toy.volume.cfg N).target := fun c => by
  unfold newTerms; infer_instance

instance (N : Bytes → Prop) (size : Nat) : DecidablePred ((newTerms Toy.names Toy.volume.cfg N).reads size) := fun c => by
  unfold newTerms; infer_instance

/-- A history: a directory, a file with a long name, a link with another long name, a rename to a short name, listings, a call that the system
    refuses, and a directory that is not empty. -/
def Toy.history : List (Option Nat × Call) :=
  [(none, .mkdir [[100]] Toy.attr 1), (none, .create [[100], Toy.longA] Toy.attr 2), (none, .write 0 40 [1, 2, 3]),
   (none, .symlink [120, 47, 121] [[100], [108]] Toy.attr 3), (none, .link [[100], Toy.longA] [Toy.longB]),
   (none, .opendir [[100]]), (none, .readdir 1), (none, .rename [[100], Toy.longA] [[101]]), (none, .readdir 1),
   (some 13, .mkdir [[102]] Toy.attr 4), (none, .getattr [[101]]), (none, .readlink [[100], [108]] 10), (none, .read 0 38 10),
   (none, .rmdir [[100]]), (none, .chmod [Toy.longB] 0o600), (none, .release 0), (none, .open [Toy.longB] 0o1002),
   (none, .fgetattr 2), (none, .opendir []), (none, .readdir 3)]

example : List.Forall₂ Agrees ((Vol.empty Toy.attr).run Toy.history) (Toy.volume.run (LSys.new Toy.attr 0) Toy.history) :=
  C81_new_names_partial Toy.volume Toy.names id Toy.used rfl (Toy.lite_wf true 0) rfl (fun l => l.reverse_perm) Toy.siv_wf Toy.names_foreign
    (by decide) (fun m => by simp [Toy.names, zeros])
    (by
      intro c c' hc hc' h1 h2
      have key : ∀ c ∈ [Toy.longA, Toy.longB, [100], [101], [102], [108]], ∀ c' ∈ [Toy.longA, Toy.longB, [100], [101], [102], [108]],
        Toy.names.hash c = Toy.names.hash c' → c = c' := by decide +kernel
      exact key c hc c' hc')
    Toy.attr 0 Toy.history (by decide +kernel)

/-- What the ideal tree gives for this history. -/
example : (Vol.empty Toy.attr).run Toy.history =
    [.ok .done, .ok (.handle 0), .ok (.count 3), .ok .done, .ok .done, .ok (.handle 1),
     .ok (.names [[46], [46, 46], [108], Toy.longA]), .ok .done, .ok (.names [[46], [46, 46], [108]]), .error 13,
     .ok (.stat ⟨2, .file, { Toy.attr with mode := 0o755 }, 43⟩), .ok (.bytes [120, 47, 121, 0, 0, 0, 0, 0, 0, 0]),
     .ok (.bytes [0, 0, 1, 2, 3]), .error 39, .ok .done, .ok .done, .ok (.handle 2), .ok (.stat ⟨2, .file, { Toy.attr with mode := 0o600 }, 0⟩),
     .ok (.handle 3), .ok (.names [[46], [46, 46], [101], Toy.longB, [100]])] := by decide +kernel

/-! ## The legacy translator -/

/-- What can be done with a volume with the legacy translator. -/
def legacyTerms (S : Siv) (C : LiteCfg) : Terms where
  name c := (c ≠ [] ∧ 47 ∉ c ∧ c ≠ [46] ∧ c ≠ [46, 46]) ∧ c.length ≤ 2000
  target t := t ≠ [] ∧ ∀ parts, PiecesOf t parts → ∀ v ∈ parts, v.length ≤ 2000
  long _ := false
  reads size t := t.length < size ∧ ∀ s, legacyEncryptSymlink S t = .ok s → s.length ≤ 2 * size + 126
  limit := (2 ^ 31 - 1) * C.bs

/-- **C81 (legacy translator).** -/
theorem C81_legacy_names_partial (V : LVol) (S : Siv) (aes : Bytes → Bytes) (hV : V.tr = legacyTranslator S) (hC : V.cfg.WF)
    (hpad : V.cfg.padding = LiteCfg.computePadding V.maxPad aes) (horder : ∀ l, (V.order l).Perm l) (hS : S.WF) (attr : Posix.Attr) (n : Nat)
    (calls : List (Option Nat × Call)) (hfit : (legacyTerms S V.cfg).AllFit [] (Vol.empty attr) calls) :
    List.Forall₂ Agrees ((Vol.empty attr).run calls) (V.run (LSys.new attr n) calls) := by
  have hT := scheme_legacy S hS
  rw [← hV] at hT
  refine sim_run hC hpad horder hT (X := legacyTerms S V.cfg) ⟨fun _ h => h, fun _ h => h, fun c => ?_, ?_, le_refl _⟩ calls (shows_new hT attr n) []
    (fun d h => by cases h) hfit
  · simp [legacyTerms]
  · intro size t st h1 h2
    rw [hV] at h2
    exact ⟨h1.1, h1.2 st h2⟩

/-! ## Plain names -/

/-- What can be done with a volume that does not encrypt names. -/
def plainTerms (C : LiteCfg) : Terms where
  name c := c ≠ [] ∧ 47 ∉ c ∧ c ≠ [46] ∧ c ≠ [46, 46]
  target t := t ≠ [] ∧ 0 ∉ t
  long _ := false
  reads size t := t.length < size
  limit := (2 ^ 31 - 1) * C.bs

/-- **C81 (names not encrypted).** -/
theorem C81_plain_names_partial (V : LVol) (aes : Bytes → Bytes) (hV : V.tr = noOpTranslator) (hC : V.cfg.WF)
    (hpad : V.cfg.padding = LiteCfg.computePadding V.maxPad aes) (horder : ∀ l, (V.order l).Perm l) (attr : Posix.Attr) (n : Nat)
    (calls : List (Option Nat × Call)) (hfit : (plainTerms V.cfg).AllFit [] (Vol.empty attr) calls) :
    List.Forall₂ Agrees ((Vol.empty attr).run calls) (V.run (LSys.new attr n) calls) := by
  have hT := scheme_noOp
  rw [← hV] at hT
  refine sim_run hC hpad horder hT (X := plainTerms V.cfg) ⟨fun _ h => h, fun _ h => h, fun c => ?_, ?_, le_refl _⟩ calls (shows_new hT attr n) []
    (fun d h => by cases h) hfit
  · simp [plainTerms]
  · intro size t st h1 h2
    rw [hV] at h2
    have h2 : t = st := by injection h2
    have h1 : t.length < size := h1
    subst h2
    exact ⟨h1, by omega⟩

/-! ## Examples for the other two -/

/-- A history without long names. -/
def Toy.history2 : List (Option Nat × Call) :=
  [(none, .mkdir [[100]] Toy.attr 1), (none, .create [[100], [46, 97]] Toy.attr 2), (none, .write 0 3 [1, 2, 3]), (none, .mkdir [[101]] Toy.attr 3),
   (none, .symlink [47, 121] [[108]] Toy.attr 4), (none, .rename [[100]] [[101]]), (none, .getattr [[101], [46, 97]]), (none, .readlink [[108]] 9),
   (none, .opendir []), (none, .readdir 1), (none, .unlink [[101], [46, 97]]), (none, .read 0 0 100), (none, .rmdir [[101]])]

instance : DecidablePred (plainTerms Toy.volume.cfg).name := fun c => by unfold plainTerms; infer_instance
instance : DecidablePred (plainTerms Toy.volume.cfg).target := fun c => by unfold plainTerms; infer_instance
instance (size : Nat) : DecidablePred ((plainTerms Toy.volume.cfg).reads size) := fun c => by unfold plainTerms; infer_instance

example : List.Forall₂ Agrees ((Vol.empty Toy.attr).run Toy.history2) (LVol.run { Toy.volume with tr := noOpTranslator } (LSys.new Toy.attr 0) Toy.history2) :=
  C81_plain_names_partial { Toy.volume with tr := noOpTranslator } id rfl (Toy.lite_wf true 0) rfl (fun l => l.reverse_perm) Toy.attr 0 Toy.history2
    (by decide +kernel)

instance : DecidablePred (legacyTerms Toy.siv Toy.volume.cfg).name := fun c => by unfold legacyTerms; infer_instance

instance : DecidablePred (legacyTerms Toy.siv Toy.volume.cfg).target := fun t =>
  decidable_of_iff (t ≠ [] ∧ ∀ v ∈ splitSlash [] t, v.length ≤ 2000)
    ⟨fun h => ⟨h.1, fun parts hp => by rw [← pieces_eq hp]; exact h.2⟩, fun h => ⟨h.1, h.2 _ (splitSlash_spec t [] (by simp))⟩⟩

instance (size : Nat) : DecidablePred ((legacyTerms Toy.siv Toy.volume.cfg).reads size) := fun t =>
  decidable_of_iff (t.length < size ∧ (okOr (legacyEncryptSymlink Toy.siv t)).length ≤ 2 * size + 126)
    ⟨fun h => ⟨h.1, fun s hs => by have := h.2; rw [hs] at this; exact this⟩, fun h => ⟨h.1, by
      unfold okOr
      split
      · rename_i s hs; exact h.2 s hs
      · simp⟩⟩

example : List.Forall₂ Agrees ((Vol.empty Toy.attr).run Toy.history2)
    (LVol.run { Toy.volume with tr := legacyTranslator Toy.siv } (LSys.new Toy.attr 0) Toy.history2) :=
  C81_legacy_names_partial { Toy.volume with tr := legacyTranslator Toy.siv } Toy.siv id rfl (Toy.lite_wf true 0) rfl (fun l => l.reverse_perm) Toy.siv_wf
    Toy.attr 0 Toy.history2 (by decide +kernel)

example : (Vol.empty Toy.attr).run Toy.history2 =
    [.ok .done, .ok (.handle 0), .ok (.count 3), .ok .done, .ok .done, .ok .done, .ok (.stat ⟨2, .file, Toy.attr, 6⟩),
     .ok (.bytes [47, 121, 0, 0, 0, 0, 0, 0, 0]), .ok (.handle 1), .ok (.names [[46], [46, 46], [101], [108]]), .ok .done,
     .ok (.bytes [0, 0, 0, 1, 2, 3]), .ok .done] := by decide +kernel

/-! ## Calls that do not fit -/

/-- C81 fails for a rename onto an empty directory in which there once was a long name: the table that is left there makes the host refuse it as
    not empty. -/
theorem C81_replace_violated :
    (Vol.empty Toy.attr).run [(none, .mkdir [[100]] Toy.attr 1), (none, .create [[100], Toy.longA] Toy.attr 2), (none, .unlink [[100], Toy.longA]),
      (none, .mkdir [[101]] Toy.attr 3), (none, .rename [[101]] [[100]])] = [.ok .done, .ok (.handle 0), .ok .done, .ok .done, .ok .done] ∧
    Toy.volume.run (LSys.new Toy.attr 0) [(none, .mkdir [[100]] Toy.attr 1), (none, .create [[100], Toy.longA] Toy.attr 2),
      (none, .unlink [[100], Toy.longA]), (none, .mkdir [[101]] Toy.attr 3), (none, .rename [[101]] [[100]])] =
      [.ok .done, .ok (.handle 0), .ok .done, .ok .done, .error (.vfs 39)] := by
  constructor <;> decide +kernel

/-- C81 fails for a listing through a handle whose directory has been renamed since: long names are missing. -/
theorem C81_moved_listing_violated :
    (Vol.empty Toy.attr).run [(none, .mkdir [[100]] Toy.attr 1), (none, .create [[100], Toy.longA] Toy.attr 2), (none, .opendir [[100]]),
      (none, .rename [[100]] [[101]]), (none, .readdir 1)] =
      [.ok .done, .ok (.handle 0), .ok (.handle 1), .ok .done, .ok (.names [[46], [46, 46], Toy.longA])] ∧
    Toy.volume.run (LSys.new Toy.attr 0) [(none, .mkdir [[100]] Toy.attr 1), (none, .create [[100], Toy.longA] Toy.attr 2), (none, .opendir [[100]]),
      (none, .rename [[100]] [[101]]), (none, .readdir 1)] =
      [.ok .done, .ok (.handle 0), .ok (.handle 1), .ok .done, .ok (.names [[46, 46], [46]])] := by
  constructor <;> decide +kernel

/-- C81 fails for a rename of a file with a long name to another name of the same file: nothing happens, as it should, but the long name is
    missing in listings from then on. -/
theorem C81_alias_violated :
    (Vol.empty Toy.attr).run [(none, .create [Toy.longA] Toy.attr 1), (none, .link [Toy.longA] [[101]]), (none, .rename [Toy.longA] [[101]]),
      (none, .opendir []), (none, .readdir 1)] =
      [.ok (.handle 0), .ok .done, .ok .done, .ok (.handle 1), .ok (.names [[46], [46, 46], [101], Toy.longA])] ∧
    Toy.volume.run (LSys.new Toy.attr 0) [(none, .create [Toy.longA] Toy.attr 1), (none, .link [Toy.longA] [[101]]),
      (none, .rename [Toy.longA] [[101]]), (none, .opendir []), (none, .readdir 1)] =
      [.ok (.handle 0), .ok .done, .ok .done, .ok (.handle 1), .ok (.names [[101], [46, 46], [46]])] := by
  constructor <;> decide +kernel

/-- C81 fails for an attempt to remove a directory with a long name in it: it is refused, as it should be, but the name is missing in listings from
    then on. -/
theorem C81_refused_rmdir_violated :
    (Vol.empty Toy.attr).run [(none, .mkdir [[100]] Toy.attr 1), (none, .create [[100], Toy.longA] Toy.attr 2), (none, .rmdir [[100]]),
      (none, .opendir [[100]]), (none, .readdir 1)] =
      [.ok .done, .ok (.handle 0), .error 39, .ok (.handle 1), .ok (.names [[46], [46, 46], Toy.longA])] ∧
    Toy.volume.run (LSys.new Toy.attr 0) [(none, .mkdir [[100]] Toy.attr 1), (none, .create [[100], Toy.longA] Toy.attr 2), (none, .rmdir [[100]]),
      (none, .opendir [[100]]), (none, .readdir 1)] =
      [.ok .done, .ok (.handle 0), .error (.vfs 39), .ok (.handle 1), .ok (.names [[46, 46], [46]])] := by
  constructor <;> decide +kernel

end Securefs.Props
