import Verif.Proofs.Storage
import Verif.Props.LiteVolume
/-!
# A storage that is not honest

C100: what is on the storage belongs to its name and is the latest version.  It is not so: a storage without any key takes the tree apart and
puts it together anew, and the volume shows what a plain tree would show.  It can however not show what was never there.
-/

namespace Securefs.Props

open Spec

/-! ## What the volume shows -/

/-- **C100 (new translator).**  Whatever the storage does to the backing files while the volume is not mounted (see `Deed`), the volume answers each
    call as a plain tree to which the same was done, and never notices. -/
theorem C100_new_names (V : LVol) (T : NewStyle) (aes : Bytes → Bytes) (N : Bytes → Prop) (hV : V.tr = T.translator)
    (hC : V.cfg.WF) (hpad : V.cfg.padding = LiteCfg.computePadding V.maxPad aes) (horder : ∀ l, (V.order l).Perm l)
    (hS : T.siv.WF) (hf : ForeignSuffix T) (hsl : (47 : UInt8) ∉ T.suffix) (hh : ∀ m, (T.hash m).length = 32)
    (hN : ∀ c c', N c → N c' → T.threshold < c.length → T.threshold < c'.length → T.hash c = T.hash c' → c = c')
    (attr : Posix.Attr) (n : Nat) (hs : List Happening) (hfit : (newTerms T V.cfg N).WatchFits [] [(Vol.empty attr).fs] (Vol.empty attr) hs) :
    List.Forall₂ Agrees ((Vol.empty attr).watch [(Vol.empty attr).fs] hs) (V.watch [LSys.new attr n] (LSys.new attr n) hs) := by
  have hT := scheme_newStyle T hS hf hsl hh N hN
  rw [← hV] at hT
  refine sim_watch hC hpad horder hT (X := newTerms T V.cfg N) ⟨fun _ h => h, fun _ h => h, fun c => ?_, ?_, le_refl _⟩ hs (shows_new hT attr n)
    (.cons (shows_new hT attr n).pictures .nil) [] (fun d h => by cases h) hfit
  · rw [row_iff hS c]
    exact decide_eq_true_iff
  · intro size t st h1 h2
    rw [hV] at h2
    refine ⟨h1, ?_⟩
    have h1 : t.length < size := h1
    obtain ⟨st', parts, g1, _, _, _, g5⟩ := C23_round_trip T hS t
    have : st = st' := by
      have h2 : T.encryptSymlink t = .ok st := h2
      rw [g1] at h2; injection h2 with h2; exact h2.symm
    subst this
    by_cases ht : t = []
    · subst ht
      have : T.encryptSymlink [] = .ok [] := rfl
      rw [g1] at this
      cases this
      simp
    · rw [g5 ht]
      omega

/-- **C100 (legacy translator).** -/
theorem C100_legacy_names (V : LVol) (S : Siv) (aes : Bytes → Bytes) (hV : V.tr = legacyTranslator S) (hC : V.cfg.WF)
    (hpad : V.cfg.padding = LiteCfg.computePadding V.maxPad aes) (horder : ∀ l, (V.order l).Perm l) (hS : S.WF) (attr : Posix.Attr) (n : Nat)
    (hs : List Happening) (hfit : (legacyTerms S V.cfg).WatchFits [] [(Vol.empty attr).fs] (Vol.empty attr) hs) :
    List.Forall₂ Agrees ((Vol.empty attr).watch [(Vol.empty attr).fs] hs) (V.watch [LSys.new attr n] (LSys.new attr n) hs) := by
  have hT := scheme_legacy S hS
  rw [← hV] at hT
  refine sim_watch hC hpad horder hT (X := legacyTerms S V.cfg) ⟨fun _ h => h, fun _ h => h, fun c => ?_, ?_, le_refl _⟩ hs (shows_new hT attr n)
    (.cons (shows_new hT attr n).pictures .nil) [] (fun d h => by cases h) hfit
  · simp [legacyTerms]
  · intro size t st h1 h2
    rw [hV] at h2
    exact ⟨h1.1, h1.2 st h2⟩

/-- **C100 (names not encrypted).** -/
theorem C100_plain_names (V : LVol) (aes : Bytes → Bytes) (hV : V.tr = noOpTranslator) (hC : V.cfg.WF)
    (hpad : V.cfg.padding = LiteCfg.computePadding V.maxPad aes) (horder : ∀ l, (V.order l).Perm l) (attr : Posix.Attr) (n : Nat)
    (hs : List Happening) (hfit : (plainTerms V.cfg).WatchFits [] [(Vol.empty attr).fs] (Vol.empty attr) hs) :
    List.Forall₂ Agrees ((Vol.empty attr).watch [(Vol.empty attr).fs] hs) (V.watch [LSys.new attr n] (LSys.new attr n) hs) := by
  have hT := scheme_noOp
  rw [← hV] at hT
  refine sim_watch hC hpad horder hT (X := plainTerms V.cfg) ⟨fun _ h => h, fun _ h => h, fun c => ?_, ?_, le_refl _⟩ hs (shows_new hT attr n)
    (.cons (shows_new hT attr n).pictures .nil) [] (fun d h => by cases h) hfit
  · simp [plainTerms]
  · intro size t st h1 h2
    rw [hV] at h2
    have h2 : t = st := by injection h2
    have h1 : t.length < size := h1
    subst h2
    exact ⟨h1, by omega⟩

/-! ### An example -/

section
variable (X : Terms) [DecidablePred X.name] [DecidablePred X.target] [∀ size, DecidablePred (X.reads size)]

instance watchFitsDecidable : (marked : List Nat) → (past : List Posix.Fs) → (a : Vol) → (hs : List Happening) → Decidable (X.WatchFits marked past a hs)
  | _, _, _, [] => .isTrue trivial
  | marked, past, a, .call fault c :: rest =>
    have := watchFitsDecidable (X.marks a c ++ marked) ((a.step fault c).2.fs :: past) (a.step fault c).2 rest
    inferInstanceAs (Decidable (_ ∧ _))
  | marked, past, a, .away deeds :: rest =>
    watchFitsDecidable (deeds.flatMap (X.deedMarks past) ++ marked) (deeds.foldl (Deed.apply past) a.fs :: past)
      ⟨deeds.foldl (Deed.apply past) a.fs, []⟩ rest

end

/-- A history: a directory with a file with a long name in it, and another file.  The storage exchanges them, brings back an old version, and copies the
    long name to the root and takes it from its directory. -/
def Toy.away : List Happening :=
  [.call none (.mkdir [[100]] Toy.attr 1), .call none (.create [[100], Toy.longA] Toy.attr 2), .call none (.write 0 0 [1, 2, 3]),
   .call none (.create [[101]] Toy.attr 3), .call none (.write 1 0 [4, 5]), .call none (.write 1 2 [6]),
   .away [.replace 2 3 1, .attr 3 { Toy.attr with mode := 0o600 }, .replace 3 2 0, .name 0 1 0 0 2, .unname 1 0],
   .call none (.open [Toy.longA] 0), .call none (.read 0 0 10), .call none (.open [[101]] 0), .call none (.read 1 0 10), .call none (.getattr [[101]]),
   .call none (.opendir []), .call none (.readdir 2), .call none (.opendir [[100]]), .call none (.readdir 3)]

example : List.Forall₂ Agrees ((Vol.empty Toy.attr).watch [(Vol.empty Toy.attr).fs] Toy.away)
    (Toy.volume.watch [LSys.new Toy.attr 0] (LSys.new Toy.attr 0) Toy.away) :=
  C100_new_names Toy.volume Toy.names id Toy.used rfl (Toy.lite_wf true 0) rfl (fun l => l.reverse_perm) Toy.siv_wf Toy.names_foreign
    (by decide) (fun m => by simp [Toy.names, zeros])
    (by
      intro c c' hc hc' h1 h2
      have key : ∀ c ∈ [Toy.longA, Toy.longB, [100], [101], [102], [108]], ∀ c' ∈ [Toy.longA, Toy.longB, [100], [101], [102], [108]],
        Toy.names.hash c = Toy.names.hash c' → c = c' := by decide +kernel
      exact key c hc c' hc')
    Toy.attr 0 Toy.away (by decide +kernel)

/-- What the plain tree gives for this history. -/
example : (Vol.empty Toy.attr).watch [(Vol.empty Toy.attr).fs] Toy.away =
    [.ok .done, .ok (.handle 0), .ok (.count 3), .ok (.handle 1), .ok (.count 2), .ok (.count 1),
     .ok (.handle 0), .ok (.bytes [4, 5]), .ok (.handle 1), .ok (.bytes [1, 2, 3]), .ok (.stat ⟨3, .file, { Toy.attr with mode := 0o600 }, 3⟩),
     .ok (.handle 2), .ok (.names [[46], [46, 46], Toy.longA, [101], [100]]), .ok (.handle 3), .ok (.names [[46], [46, 46]])] := by decide +kernel

/-- The same history without the long name, for the other two. -/
def Toy.away2 : List Happening :=
  [.call none (.mkdir [[100]] Toy.attr 1), .call none (.create [[100], [102]] Toy.attr 2), .call none (.write 0 0 [1, 2, 3]),
   .call none (.symlink [47, 121] [[108]] Toy.attr 3), .away [.name 0 1 0 0 3, .replace 3 2 0, .unname 1 0],
   .call none (.open [[108]] 0), .call none (.read 0 0 10), .call none (.getattr [[100], [102]])]

example : List.Forall₂ Agrees ((Vol.empty Toy.attr).watch [(Vol.empty Toy.attr).fs] Toy.away2)
    (LVol.watch { Toy.volume with tr := noOpTranslator } [LSys.new Toy.attr 0] (LSys.new Toy.attr 0) Toy.away2) :=
  C100_plain_names { Toy.volume with tr := noOpTranslator } id rfl (Toy.lite_wf true 0) rfl (fun l => l.reverse_perm) Toy.attr 0 Toy.away2
    (by decide +kernel)

example : List.Forall₂ Agrees ((Vol.empty Toy.attr).watch [(Vol.empty Toy.attr).fs] Toy.away2)
    (LVol.watch { Toy.volume with tr := legacyTranslator Toy.siv } [LSys.new Toy.attr 0] (LSys.new Toy.attr 0) Toy.away2) :=
  C100_legacy_names { Toy.volume with tr := legacyTranslator Toy.siv } Toy.siv id rfl (Toy.lite_wf true 0) rfl (fun l => l.reverse_perm) Toy.siv_wf
    Toy.attr 0 Toy.away2 (by decide +kernel)

example : (Vol.empty Toy.attr).watch [(Vol.empty Toy.attr).fs] Toy.away2 =
    [.ok .done, .ok (.handle 0), .ok (.count 3), .ok .done, .ok (.handle 0), .ok (.bytes [1, 2, 3]), .error 2] := by decide +kernel

/-! ## What it cannot show -/

/-- **C100 (nothing that was never there).**  After any deeds of the storage, the contents of each file and link are the contents of a file or link in one
    of the trees that were there, and each name in a directory is a name in one of them.  No node has come into being or changed from a directory to
    something else. -/
theorem C100_nothing_new_partial (past : List Posix.Fs) (fs : Posix.Fs) (deeds : List Deed) :
    (∀ i n, deeds.foldl (Deed.apply past) fs i = some n → isLeaf n.kind = true →
      ∃ t ∈ fs :: past, ∃ i' n', t i' = some n' ∧ n'.kind = n.kind) ∧
    (∀ d es a, deeds.foldl (Deed.apply past) fs d = some ⟨.dir es, a⟩ → ∀ p ∈ es,
      ∃ t ∈ fs :: past, ∃ d' es' a', t d' = some ⟨.dir es', a'⟩ ∧ ∃ j, (p.1, j) ∈ es') ∧
    (∀ i, (deeds.foldl (Deed.apply past) fs i).isSome = (fs i).isSome) ∧
    (∀ i, (deeds.foldl (Deed.apply past) fs).isDir i = fs.isDir i) :=
  have h := nothing_new past fs deeds
  ⟨h.node, h.name, h.keeps, h.dir⟩

/-- In the example the storage has three trees to choose from. -/
example : ∃ (past : List Posix.Fs) (fs : Posix.Fs) (deeds : List Deed), past.length = 2 ∧ (deeds.foldl (Deed.apply past) fs) 2 = some ⟨.file [4, 5], Toy.attr⟩ ∧
    fs 2 = some ⟨.file [1], Toy.attr⟩ :=
  ⟨[fun _ => none, fun i => if i = 7 then some ⟨.file [4, 5], Toy.attr⟩ else none],
   fun i => if i = 2 then some ⟨.file [1], Toy.attr⟩ else none, [.replace 2 7 1], rfl, rfl, rfl⟩

/-! ## What a user would like -/

/-- The history of the next theorem: two files, and the storage puts the second in the place of the first. -/
def swapped : List Happening :=
  [.call none (.create [[97]] Toy.attr 1), .call none (.write 0 0 [1, 2, 3]), .call none (.create [[98]] Toy.attr 2), .call none (.write 1 0 [4, 5]),
   .away [.replace 1 2 0], .call none (.open [[97]] 0), .call none (.read 0 0 10)]

/-- And of the one after it: a file is written twice, and the storage brings back its first version. -/
def rolledBack : List Happening :=
  [.call none (.create [[97]] Toy.attr 1), .call none (.write 0 0 [1, 2, 3]), .call none (.write 0 0 [4, 5, 6]),
   .away [.replace 1 1 1], .call none (.open [[97]] 0), .call none (.read 0 0 10)]

/-- And of the third: a file is gone. -/
def removed : List Happening :=
  [.call none (.create [[97]] Toy.attr 1), .call none (.create [[98]] Toy.attr 2), .away [.unname 0 0], .call none (.opendir []), .call none (.readdir 0)]

/-- A history with two short names for which the answer at `k` is wrong. -/
theorem deceives (V : LVol) (T : NewStyle) (aes : Bytes → Bytes) (hV : V.tr = T.translator)
    (hC : V.cfg.WF) (hpad : V.cfg.padding = LiteCfg.computePadding V.maxPad aes) (horder : ∀ l, (V.order l).Perm l)
    (hS : T.siv.WF) (hf : ForeignSuffix T) (hsl : (47 : UInt8) ∉ T.suffix) (hh : ∀ m, (T.hash m).length = 32) (ht : 1 ≤ T.threshold) (n : Nat)
    (hs : List Happening)
    (hfit : ∀ X : Terms, 10 ≤ X.limit → X.name [97] → X.name [98] → X.WatchFits [] [(Vol.empty Toy.attr).fs] (Vol.empty Toy.attr) hs)
    (k : Nat) {v w : Val} (h1 : ((Vol.empty Toy.attr).watch [(Vol.empty Toy.attr).fs] hs)[k]? = some (.ok w))
    (h2 : ((Vol.empty Toy.attr).watch [(Vol.empty Toy.attr).fs] (honest hs))[k]? = some (.ok v)) (h3 : ∀ x, SameVal w x → ¬ SameVal v x) :
    ¬ List.Forall₂ Right ((Vol.empty Toy.attr).watch [(Vol.empty Toy.attr).fs] (honest hs)) (V.watch [LSys.new Toy.attr n] (LSys.new Toy.attr n) hs) := by
  have hb : 0 < V.cfg.bs := by have := hC.bs_ge; omega
  refine not_right (C100_new_names V T aes (fun c => c = [97] ∨ c = [98]) hV hC hpad horder hS hf hsl hh ?_ Toy.attr n hs
    (hfit _ ?_ ⟨by decide, Or.inl rfl⟩ ⟨by decide, Or.inr rfl⟩)) k h1 h2 h3
  · rintro c c' (h | h) _ h4 <;> (subst h; exact absurd h4 (by simp only [List.length_singleton]; omega))
  · show 10 ≤ (2 ^ 31 - 1) * V.cfg.bs
    omega

/-- **C100 fails (exchange).**  With any keys, the volume gives the contents of one file for another, and no error. -/
theorem C100_swap_violated (V : LVol) (T : NewStyle) (aes : Bytes → Bytes) (hV : V.tr = T.translator)
    (hC : V.cfg.WF) (hpad : V.cfg.padding = LiteCfg.computePadding V.maxPad aes) (horder : ∀ l, (V.order l).Perm l)
    (hS : T.siv.WF) (hf : ForeignSuffix T) (hsl : (47 : UInt8) ∉ T.suffix) (hh : ∀ m, (T.hash m).length = 32) (ht : 1 ≤ T.threshold) (n : Nat) :
    ¬ List.Forall₂ Right ((Vol.empty Toy.attr).watch [(Vol.empty Toy.attr).fs] (honest swapped))
      (V.watch [LSys.new Toy.attr n] (LSys.new Toy.attr n) swapped) := by
  refine deceives V T aes hV hC hpad horder hS hf hsl hh ht n swapped ?_ 5 (v := .bytes [1, 2, 3]) (w := .bytes [4, 5]) (by decide +kernel) (by decide +kernel) ?_
  · intro X hl ha hb
    have pa : X.path [[97]] := fun c hc => by rw [List.mem_singleton.mp hc]; exact ha
    have pb : X.path [[98]] := fun c hc => by rw [List.mem_singleton.mp hc]; exact hb
    have h5 : ∀ m, m ≤ 10 → m ≤ X.limit := fun m hm => le_trans hm hl
    exact ⟨⟨pa, by decide +kernel, rfl⟩, ⟨trivial, h5 _ (by decide)⟩, ⟨pb, by decide +kernel, rfl⟩, ⟨trivial, h5 _ (by decide)⟩,
      ⟨pa, by decide, fun h => absurd h (by decide)⟩, ⟨trivial, h5 _ (by decide)⟩, trivial⟩
  · rintro _ rfl h
    injection h with h
    exact absurd h (by decide)

/-- **C100 fails (old version).**  It gives an old version of a file, and no error. -/
theorem C100_rollback_violated (V : LVol) (T : NewStyle) (aes : Bytes → Bytes) (hV : V.tr = T.translator)
    (hC : V.cfg.WF) (hpad : V.cfg.padding = LiteCfg.computePadding V.maxPad aes) (horder : ∀ l, (V.order l).Perm l)
    (hS : T.siv.WF) (hf : ForeignSuffix T) (hsl : (47 : UInt8) ∉ T.suffix) (hh : ∀ m, (T.hash m).length = 32) (ht : 1 ≤ T.threshold) (n : Nat) :
    ¬ List.Forall₂ Right ((Vol.empty Toy.attr).watch [(Vol.empty Toy.attr).fs] (honest rolledBack))
      (V.watch [LSys.new Toy.attr n] (LSys.new Toy.attr n) rolledBack) := by
  refine deceives V T aes hV hC hpad horder hS hf hsl hh ht n rolledBack ?_ 4 (v := .bytes [4, 5, 6]) (w := .bytes [1, 2, 3]) (by decide +kernel)
    (by decide +kernel) ?_
  · intro X hl ha hb
    have pa : X.path [[97]] := fun c hc => by rw [List.mem_singleton.mp hc]; exact ha
    have h5 : ∀ m, m ≤ 10 → m ≤ X.limit := fun m hm => le_trans hm hl
    exact ⟨⟨pa, by decide +kernel, rfl⟩, ⟨trivial, h5 _ (by decide)⟩, ⟨trivial, h5 _ (by decide)⟩,
      ⟨pa, by decide, fun h => absurd h (by decide)⟩, ⟨trivial, h5 _ (by decide)⟩, trivial⟩
  · rintro _ rfl h
    injection h with h
    exact absurd h (by decide)

/-- **C100 fails (removal).**  It lists a directory without a file that is in it, and gives no error. -/
theorem C100_removal_violated (V : LVol) (T : NewStyle) (aes : Bytes → Bytes) (hV : V.tr = T.translator)
    (hC : V.cfg.WF) (hpad : V.cfg.padding = LiteCfg.computePadding V.maxPad aes) (horder : ∀ l, (V.order l).Perm l)
    (hS : T.siv.WF) (hf : ForeignSuffix T) (hsl : (47 : UInt8) ∉ T.suffix) (hh : ∀ m, (T.hash m).length = 32) (ht : 1 ≤ T.threshold) (n : Nat) :
    ¬ List.Forall₂ Right ((Vol.empty Toy.attr).watch [(Vol.empty Toy.attr).fs] (honest removed))
      (V.watch [LSys.new Toy.attr n] (LSys.new Toy.attr n) removed) := by
  refine deceives V T aes hV hC hpad horder hS hf hsl hh ht n removed ?_ 3 (v := .names [[46], [46, 46], [98], [97]])
    (w := .names [[46], [46, 46], [97]]) (by decide +kernel) (by decide +kernel) ?_
  · intro X hl ha hb
    have pa : X.path [[97]] := fun c hc => by rw [List.mem_singleton.mp hc]; exact ha
    have pb : X.path [[98]] := fun c hc => by rw [List.mem_singleton.mp hc]; exact hb
    exact ⟨⟨pa, by decide +kernel, rfl⟩, ⟨pb, by decide +kernel, rfl⟩, fun c hc => absurd hc (List.not_mem_nil), Or.inl (by decide +kernel), trivial⟩
  · intro x h h'
    cases x with
    | names l =>
      have g1 := List.Perm.length_eq h
      have g2 := List.Perm.length_eq h'
      simp at g1 g2
      omega
    | _ => cases h

/-- The hypotheses are met. -/
example : ¬ List.Forall₂ Right ((Vol.empty Toy.attr).watch [(Vol.empty Toy.attr).fs] (honest swapped))
    (Toy.volume.watch [LSys.new Toy.attr 0] (LSys.new Toy.attr 0) swapped) :=
  C100_swap_violated Toy.volume Toy.names id rfl (Toy.lite_wf true 0) rfl (fun l => l.reverse_perm) Toy.siv_wf Toy.names_foreign
    (by decide) (fun m => by simp [Toy.names, zeros]) (by decide) 0

/-! ## Single blocks -/

/-- **C100 fails (old blocks).**  The storage takes the blocks `k ..< k + m` of an old version of a lite file and puts them into the present version
    of it.  The file opens, and from then on it answers as if the old bytes had been written there. -/
theorem C100_old_blocks_violated (C : LiteCfg) (hC : C.WF) (n : Nat) (ops ops' : List Spec.Op)
    (hlim : ∀ op ∈ ops, op.extent ≤ liteMaxBlocks * C.bs) (hlim' : ∀ op ∈ ops', op.extent ≤ liteMaxBlocks * C.bs)
    {p p' p''} (h1 : C.openFile ⟨[], n⟩ = .ok p) {outs outs'} (h2 : C.stream.run p ops = .ok (p', outs)) (h3 : C.stream.run p' ops' = .ok (p'', outs'))
    (k m n' : Nat) (hold : (k + m) * C.bs ≤ (Spec.run [] ops).1.length) (hnew : k * C.bs ≤ (Spec.run (Spec.run [] ops).1 ops').1.length)
    (ops2 : List Spec.Op) (hlim2 : ∀ op ∈ ops2, op.extent ≤ liteMaxBlocks * C.bs) :
    ∃ q q', C.openFile ⟨ufWrite p''.2.file (p''.1.headerSize + k * C.ubs) ((p'.2.file.drop (p''.1.headerSize + k * C.ubs)).take (m * C.ubs)), n'⟩ = .ok q ∧
      C.stream.run q ops2 = .ok (q', (Spec.run (Spec.write (Spec.run (Spec.run [] ops).1 ops').1 (k * C.bs)
        (Spec.read (Spec.run [] ops).1 (k * C.bs) (m * C.bs))) ops2).2) := by
  obtain ⟨p0, h1', hR⟩ := LiteCfg.openFile_empty hC ⟨[], n⟩ rfl
  rw [h1] at h1'; cases h1'
  obtain ⟨p1, h2', hR', hid'⟩ := (stream_refines_id hC p.1).run_ok ops ⟨hR, rfl⟩ hlim
  rw [h2] at h2'; cases h2'
  obtain ⟨p1, h3', hR'', hid''⟩ := (stream_refines_id hC p.1).run_ok ops' ⟨hR', hid'⟩ hlim'
  rw [h3] at h3'; cases h3'
  have hb : 0 < C.bs := by have := hC.bs_ge; omega
  have hle := hR''.1.hdr_le
  generalize (Spec.run (Spec.run [] ops).1 ops').1 = c'' at hnew hR'' ⊢
  generalize (Spec.run [] ops).1 = c' at hold hR' ⊢
  have hpos : p''.1.headerSize + k * C.ubs ≤ p''.2.file.length := by
    rw [hR''.1.len]
    have := encLen_mono (bs := C.bs) (ov := C.ivSize + 16) hb hnew
    rw [encLen_mul hb, ← LiteCfg.ubs_eq] at this
    omega
  have hsl : Enc C.bs (C.ivSize + 16) (C.decodeBlock p''.1) k ((p'.2.file.drop (p''.1.headerSize + k * C.ubs)).take (m * C.ubs))
      (Spec.read c' (k * C.bs) (m * C.bs)) := by
    have h := (hR'.1.enc.drop hb k).take hb m
    rw [Nat.zero_add, List.drop_drop, ← LiteCfg.ubs_eq] at h
    rw [hid'', ← hid']
    exact h
  have hrl : (Spec.read c' (k * C.bs) (m * C.bs)).length = m * C.bs := by
    rw [Nat.add_mul] at hold
    unfold Spec.read
    rw [List.length_take, List.length_drop]
    omega
  have hR2 : LiteCfg.Repr C p''.1
      ⟨ufWrite p''.2.file (p''.1.headerSize + k * C.ubs) ((p'.2.file.drop (p''.1.headerSize + k * C.ubs)).take (m * C.ubs)), n'⟩
      (Spec.write c'' (k * C.bs) (Spec.read c' (k * C.bs) (m * C.bs))) := by
    rw [LiteCfg.ufWrite_splice _ _ _ hpos, spec_write_splice _ _ _ hnew]
    refine ⟨?_, hR''.1.idLen, ?_⟩
    · dsimp only
      rw [LiteCfg.take_splice _ _ _ _ hpos]
      exact hR''.1.header
    · dsimp only
      rw [LiteCfg.drop_splice _ _ _ _ hpos]
      have := hR''.1.enc.overwrite hb (s := k) (m := m) hnew hsl (Or.inl hrl)
      rwa [← LiteCfg.ubs_eq] at this
  have ho := LiteCfg.openFile_existing hC hR2 hR''.2
  obtain ⟨q', h4, _⟩ := (LiteCfg.stream_refines hC).run_ok ops2
    (st := (p''.1, ⟨_, n'⟩)) ⟨hR2, hR''.2⟩ hlim2
  exact ⟨_, q', ho, h4⟩

/-- An example: of a file of 80 bytes that has been written over, the first block comes back. -/
example : ∃ p p' p'' outs outs' q q', (Toy.lite false 3).openFile ⟨[], 0⟩ = .ok p ∧
    (Toy.lite false 3).stream.run p [.write 0 (List.replicate 80 1)] = .ok (p', outs) ∧
    (Toy.lite false 3).stream.run p' [.write 0 (List.replicate 80 2)] = .ok (p'', outs') ∧
    (Toy.lite false 3).openFile ⟨ufWrite p''.2.file (p''.1.headerSize + 0 * (Toy.lite false 3).ubs)
      ((p'.2.file.drop (p''.1.headerSize + 0 * (Toy.lite false 3).ubs)).take (1 * (Toy.lite false 3).ubs)), 9⟩ = .ok q ∧
    (Toy.lite false 3).stream.run q [.read 30 4] = .ok (q', [.bytes [1, 1, 2, 2]]) := by
  obtain ⟨p, h1, hR⟩ := LiteCfg.openFile_empty (Toy.lite_wf false 3) ⟨[], 0⟩ rfl
  obtain ⟨p', h2, hR', hid'⟩ := (stream_refines_id (Toy.lite_wf false 3) p.1).run_ok [.write 0 (List.replicate 80 1)] ⟨hR, rfl⟩ (by decide)
  obtain ⟨p'', h3, _⟩ := (stream_refines_id (Toy.lite_wf false 3) p.1).run_ok [.write 0 (List.replicate 80 2)] ⟨hR', hid'⟩ (by decide)
  obtain ⟨q, q', h4, h5⟩ := C100_old_blocks_violated _ (Toy.lite_wf false 3) 0 [.write 0 (List.replicate 80 1)] [.write 0 (List.replicate 80 2)]
    (by decide) (by decide) h1 h2 h3 0 1 9 (by decide +kernel) (by decide +kernel) [.read 30 4] (by decide)
  exact ⟨p, p', p'', _, _, q, q', h1, h2, h3, h4, h5.trans (congrArg (fun o => Except.ok (q', o)) (by decide +kernel))⟩

/-! ## The full format -/

/-- **C100 fails (full format, old version).**  A file is written, flushed, written over and flushed again; both versions of the two backing files
    open, and each shows its contents.  So a storage that keeps the old ones can bring them back. -/
theorem C100_full_rollback_violated (C : FullCfg) (hC : C.WF) (n n' : Nat) (c c' : Bytes) (h0 : c ≠ []) (hne : c' ≠ c) (hl : c'.length = c.length)
    (hlim : c.length ≤ fullMaxBlocks * C.bs) :
    ∃ st st1 old st2 now, C.openFile [] [] n = .ok st ∧ C.hrun st [.file (.write 0 c)] = .ok (st1, [.file .done]) ∧ C.flush st1 = .ok old ∧
      C.hrun old [.file (.write 0 c')] = .ok (st2, [.file .done]) ∧ C.flush st2 = .ok now ∧
      (∃ q q', C.openFile now.data now.metaS.file n' = .ok q ∧ C.hrun q [.file (.read 0 c.length)] = .ok (q', [.file (.bytes c')])) ∧
      (∃ q q', C.openFile old.data old.metaS.file n' = .ok q ∧ C.hrun q [.file (.read 0 c.length)] = .ok (q', [.file (.bytes c)])) ∧
      ([.file (.bytes c')] : List HOut) ≠ [.file (.bytes c)] := by
  have h0' : c' ≠ [] := by
    intro h
    rw [h] at hl
    exact h0 (List.eq_nil_of_length_eq_zero hl.symm)
  have key : ∀ {hd H st} {x : Bytes}, x.length = c.length → FullCfg.Repr C hd H st x → st.metaS.dirty = false → hd = false →
      ∃ q q', C.openFile st.data st.metaS.file n' = .ok q ∧ C.hrun q [.file (.read 0 c.length)] = .ok (q', [.file (.bytes x)]) := by
    intro hd H st x hx hR hd' hhd
    have hv := hR.valid hd'
    have ho : C.openFile st.data st.metaS.file n' = .ok ⟨st.data, ⟨st.metaS.file, false⟩, n'⟩ := by
      simp only [FullCfg.openFile, hmacOpen_ok C.check hv, bind, Except.bind]
    subst hhd
    obtain ⟨q', h4, _⟩ := FullCfg.hrun_ok hC [.file (.read 0 c.length)] (st := ⟨st.data, ⟨st.metaS.file, false⟩, n'⟩) (f := ⟨x, none⟩)
      ⟨H, ⟨hR.hlen, hR.pl, hR.enc, fun _ => hv⟩, by intro h hh; cases hh⟩ (by simpa [HOp.within, Op.extent] using hlim) trivial
    refine ⟨_, q', ho, h4.trans ?_⟩
    simp [Spec.hrun, Spec.hstep, Spec.step, Spec.read, ← hx]
  obtain ⟨st, h1, hR⟩ := FullCfg.openFile_empty n hC
  obtain ⟨st1, h2, H, hR1, hH⟩ := FullCfg.hrun_ok hC [.file (.write 0 c)] (st := st) (f := ⟨[], none⟩)
    ⟨_, hR, by intro h hh; cases hh⟩ (by simpa [HOp.within, Op.extent] using hlim) trivial
  obtain ⟨old, h3, hR2, hd, _⟩ := FullCfg.flush_ok hC hR1
  have e1 : Spec.write [] 0 c = c := by simp [Spec.write, h0]
  have e2 : Spec.write c 0 c' = c' := by simp [Spec.write, h0', hl]
  have hf : (Spec.hrun C.headerSize ⟨[], none⟩ [.file (.write 0 c)]).1 = ⟨c, none⟩ := by
    simp [Spec.hrun, Spec.hstep, Spec.step, e1]
  rw [hf] at hR1 hR2 hH
  obtain ⟨st2, h4, H', hR3, hH'⟩ := FullCfg.hrun_ok hC [.file (.write 0 c')] (st := old) (f := ⟨c, none⟩)
    ⟨H, hR2, hH⟩ (by simpa [HOp.within, Op.extent, hl] using hlim) trivial
  have hf' : (Spec.hrun C.headerSize ⟨c, none⟩ [.file (.write 0 c')]).1 = ⟨c', none⟩ := by
    simp [Spec.hrun, Spec.hstep, Spec.step, e2]
  rw [hf'] at hR3 hH'
  obtain ⟨now, h5, hR4, hd', _⟩ := FullCfg.flush_ok hC hR3
  refine ⟨st, st1, old, st2, now, h1, h2.trans ?_, h3, h4.trans ?_, h5, key hl hR4 hd' rfl, key rfl hR2 hd rfl, ?_⟩
  · simp [Spec.hrun, Spec.hstep, Spec.step]
  · simp [Spec.hrun, Spec.hstep, Spec.step]
  · intro h
    injection h with h
    injection h with h
    injection h with h
    exact hne h

/-- The hypotheses are met. -/
example : ∃ (C : FullCfg) (_ : C.WF) (c c' : Bytes), c ≠ [] ∧ c' ≠ c ∧ c'.length = c.length ∧ c.length ≤ fullMaxBlocks * C.bs :=
  ⟨Toy.full true, Toy.full_wf true, [1, 2, 3], [4, 5, 6], by decide, by decide, rfl, by decide⟩

end Securefs.Props
