import Verif.Proofs.FullMix
import Verif.Props.FullVolume
import Verif.Props.Streams
/-!
# C102: a storage that puts back older versions of the files of a full-format volume

The model is `Verif/Model/FullMix.lean`, the specification `Verif/Spec/FullMix.lean`.
-/

namespace Securefs.Props

open Securefs Spec Vol

/-! ## Nothing is noticed -/

/-- C102: a volume of the full format is mounted again and again, and each time the storage presents, for every identifier, the backing
    files as they were at the end of one of the sessions before, or none.  Every mounting succeeds, and all answers are those of the ideal
    volume that consists of these old files, up to the first session that exceeds a limit, if there is one; so no choice is ever noticed.
    `kind` says for which kind of file an identifier is drawn. -/
theorem C102_unnoticed {V : VolEnv} (hV : VolEnvOk V) {kind : Bytes → Nat} (hk : kind kRootId = 4) (ss : List VolSession) :
    ∃ done rest ans new rss states, done ++ rest = ss ∧ volLife V [] 0 done = .ok (ans, new) ∧
      IdealLife V.env (idealCfg V) kind [] done rss states ∧ List.Forall₂ (List.Forall₂ ResultLike) ans rss ∧
      ∀ s, rest.head? = some s → ¬ ValidTime s.now ∨ ∃ evs e evs' rs I, evs ++ e :: evs' = s.events ∧
        IdealFits V.env (idealCfg V) kind ⟨putBack (idealCfg V) states s.pick s.now, []⟩ evs rs I ∧ ¬ EventFits V.env (idealCfg V) kind I e := by
  obtain ⟨done, rest, ans, new, rss, states, h1, h2, h3, h4, _, h6⟩ := life_ok hV hk ss 0 (old := []) (fss := []) .nil
  exact ⟨done, rest, ans, new, rss, states, h1, h2, h3, h4, h6⟩

/-- C102: what such an ideal volume consists of: under each identifier the file that was there at the end of the session that was picked,
    with all its content, names and attributes; nothing else but an empty root if no root was picked. -/
theorem C102_files (cfg : FsCfg) (states : List FullFs) (pick : Bytes → Option Nat) (now : TimeSpec) (id : Bytes) :
    viewOf (putBack cfg states pick now) id =
      match (pick id).bind fun k => states[k]?.bind fun fs => viewOf fs id with
      | some f => some f
      | none => viewOf (FullFs.fresh cfg now) id := by
  unfold viewOf
  rw [putBack_get, pickState_get]
  cases hp : pick id with
  | none => rfl
  | some k =>
    simp only [Option.bind_some]
    cases hs : states[k]? with
    | none => rfl
    | some fs =>
      simp only [Option.bind_some]
      cases hg : fs.get id with
      | none => rfl
      | some n => rfl

/-- C102: if the storage loses everything, the volume is mounted without an error and is empty. -/
theorem C102_lost {V : VolEnv} (hV : VolEnvOk V) (states : List FullFs) (now : TimeSpec) (hn : ValidTime now) (opened : Nat) :
    putBack (idealCfg V) states (fun _ => none) now = FullFs.fresh (idealCfg V) now ∧
      ∃ v, volMount V [] opened now = .ok v := by
  refine ⟨?_, ?_⟩
  · have : pickOld (states.map FullFs.nodes) (fun _ => none) = [] := by
      unfold pickOld
      rw [List.filterMap_eq_nil_iff]
      intro a _
      rfl
    unfold putBack
    rw [this]
    rfl
  · obtain ⟨v, h, _⟩ := mount_old hV (τ := fun _ => 4) (st := []) (old := ⟨[], now⟩)
      ⟨fun _ _ h => (by cases h), fun _ _ => rfl, fun _ _ _ h => (by cases h), fun _ _ h => (by cases h)⟩ rfl opened hn
      (J := FullFs.fresh (idealCfg V) now) rfl fun x => rfl
    exact ⟨v, h⟩

/-! ## What is noticed -/

theorem openObj_meta {E : FileEnv} (hc : E.check = true) {id data metaF : Bytes} {rng : Nat} {f : OpenFile} (h : E.openObj id data metaF rng = .ok f)
    (hne : metaF ≠ []) : ∃ K, E.keys id = .ok K ∧ 32 ≤ metaF.length ∧ E.hmac K.meta (id ++ metaF.drop 32) = metaF.take 32 := by
  unfold FileEnv.openObj at h
  cases hK : E.keys id with
  | error e => rw [hK] at h; cases h
  | ok K =>
    rw [hK] at h
    refine ⟨K, rfl, ?_⟩
    cases ho : (E.full id K).openFile data metaF rng with
    | error e =>
      simp only [bind, Except.bind, ho] at h
      cases h
    | ok st =>
      unfold FullCfg.openFile at ho
      cases hm : hmacOpen (E.full id K).hm (E.full id K).id (E.full id K).check metaF with
      | error e =>
        simp only [bind, Except.bind, hm] at ho
        cases ho
      | ok m =>
        have hck : (E.full id K).check = true := hc
        rw [hck] at hm
        exact ((C13_hmac_accepts_iff _ _ _).1 ⟨m, hm⟩).resolve_left hne

/-- C102: what the storage cannot do is hand out the files of one identifier for another one.  With verification on, if metadata that has been
    accepted for one identifier is accepted for another one, then the HMACs of two different messages, under the keys of the two files, are
    the same. -/
theorem C102_moved {E : FileEnv} (hc : E.check = true) {id id' data data' metaF : Bytes} {rng rng' : Nat} {f f' : OpenFile}
    (hl : id.length = id'.length) (hne : id ≠ id') (hm : metaF ≠ []) (h : E.openObj id data metaF rng = .ok f)
    (h' : E.openObj id' data' metaF rng' = .ok f') :
    ∃ K K', E.keys id = .ok K ∧ E.keys id' = .ok K' ∧ id ++ metaF.drop 32 ≠ id' ++ metaF.drop 32 ∧
      E.hmac K.meta (id ++ metaF.drop 32) = E.hmac K'.meta (id' ++ metaF.drop 32) := by
  obtain ⟨K, h1, _, h2⟩ := openObj_meta hc h hm
  obtain ⟨K', h3, _, h4⟩ := openObj_meta hc h' hm
  exact ⟨K, K', h1, h3, fun he => hne (List.append_inj_left he hl), h2.trans h4.symm⟩

/-! ## It is not empty, and what is false -/

/-- Three sessions.  A file `a` is made with one content; then it is given another content and another name `b`; then the storage presents
    the last version of the root and the first version of the file. -/
def c102life (root file : Option Nat) : List VolSession :=
  [⟨fun _ => none, ⟨1, 1⟩, [.op (.create [47, 97] 0x1a4 1 2 (fullDemoId 2)), .op (.write c85file 0 [1, 1]), .release c85file]⟩,
   ⟨fun _ => some 0, ⟨2, 2⟩, [.op (.«open» [47, 97] false), .op (.write c85file 0 [2, 2, 2]), .op (.rename [47, 97] [47, 98]), .release c85file]⟩,
   ⟨fun id => if id = kRootId then root else file, ⟨3, 3⟩, [.op (.«open» [47, 97] false), .op (.«open» [47, 98] false), .op (.read c85file 0 10)]⟩]

/-- For which kind of file the identifiers of `c102life` are drawn. -/
def c102kind (id : Bytes) : Nat := if id = fullDemoId 2 then 8 else 4

/-- A check of `OpFits`, except for what `utimens` asks. -/
def fitsCheck (E : FileEnv) (cfg : FsCfg) (kind : Bytes → Nat) (I : IdealVol) (op : FullOp) : Bool :=
  (match FullOp.handle? op with | some h => I.held.contains h | none => true) &&
  (FullOp.adds op).all (fun p => !p.contains 0) &&
  (match FullOp.makes? op with | some (id, k) => decide (id.length = 32) && decide (kind id = k) | none => true) &&
  (match op with | .utimens _ _ _ => false | _ => true) &&
  decide (FullOp.reach op ≤ fileLimit E) &&
  alongCheck (fun fs => fs.nodes.all fun p => decide (p.2.entries.length + 2 ≤ dirCapacity)) (op.prog cfg) I.fs

theorem fitsCheck_sound {E : FileEnv} {cfg : FsCfg} {kind : Bytes → Nat} {I : IdealVol} {op : FullOp} (h : fitsCheck E cfg kind I op = true) :
    OpFits E cfg kind I op := by
  unfold fitsCheck at h
  simp only [Bool.and_eq_true] at h
  obtain ⟨⟨⟨⟨⟨h1, h2⟩, h3⟩, h4⟩, h5⟩, h8⟩ := h
  refine ⟨fun x hx => ?_, fun p hp => ?_, fun id k hid _ => ?_, fun p g ts ht => ?_, by simpa using h5, ?_⟩
  · rw [hx] at h1
    simpa using h1
  · have := List.all_eq_true.1 h2 p hp
    simpa using this
  · rw [hid] at h3
    simpa using h3
  · subst ht
    cases h4
  · refine alongCheck_sound (fun fs hfs id n hg => ?_) _ _ h8
    have := List.all_eq_true.1 hfs (id, n) (mem_of_get hg)
    simpa using this

/-- Whether a session of operations and releases stays within the limits, and the state that it leads to. -/
def sessionCheck (E : FileEnv) (cfg : FsCfg) (kind : Bytes → Nat) : IdealVol → List VolEvent → Option FullFs
  | I, [] => some I.fs
  | I, .op op :: es => if fitsCheck E cfg kind I op then
      sessionCheck E cfg kind ⟨((idealOp cfg op).run I.fs).2, (VolAnswer.given ((idealOp cfg op).run I.fs).1).toList ++ I.held⟩ es else none
  | I, .release h :: es => sessionCheck E cfg kind ⟨I.fs, if (fullRelease h).2 then I.held.erase h else I.held⟩ es
  | _, _ => none

theorem sessionCheck_sound {E : FileEnv} {cfg : FsCfg} {kind : Bytes → Nat} : ∀ (es : List VolEvent) (I : IdealVol) (fs : FullFs),
    sessionCheck E cfg kind I es = some fs → ∃ rs I', IdealFits E cfg kind I es rs I' ∧ I'.fs = fs
  | [], I, fs, h => ⟨[], I, .nil, by injection h⟩
  | e :: es, I, fs, h => by
    cases e with
    | op op =>
      simp only [sessionCheck] at h
      split at h
      · next hc =>
        obtain ⟨rs, I', hr, he⟩ := sessionCheck_sound es _ fs h
        exact ⟨_, I', .cons (fitsCheck_sound hc) (.op op) hr, he⟩
      · cases h
    | release x =>
      obtain ⟨rs, I', hr, he⟩ := sessionCheck_sound es _ fs h
      exact ⟨_, I', .cons trivial (.release x) hr, he⟩
    | releasedir x => cases h
    | tick now => cases h
    | close id => cases h
    | eject id => cases h
    | remount => cases h

/-- The same for sessions. -/
def lifeCheck (E : FileEnv) (cfg : FsCfg) (kind : Bytes → Nat) : List FullFs → List VolSession → Bool
  | _, [] => true
  | old, s :: ss => decide (ValidTime s.now) &&
      match sessionCheck E cfg kind ⟨putBack cfg old s.pick s.now, []⟩ s.events with
      | some fs => lifeCheck E cfg kind (old ++ [fs]) ss
      | none => false

theorem lifeCheck_sound {E : FileEnv} {cfg : FsCfg} {kind : Bytes → Nat} : ∀ (ss : List VolSession) (old : List FullFs),
    lifeCheck E cfg kind old ss = true → ∃ rss new, IdealLife E cfg kind old ss rss new
  | [], old, _ => ⟨[], old, .nil⟩
  | s :: ss, old, h => by
    simp only [lifeCheck, Bool.and_eq_true, decide_eq_true_eq] at h
    cases hs : sessionCheck E cfg kind ⟨putBack cfg old s.pick s.now, []⟩ s.events with
    | none => rw [hs] at h; cases h.2
    | some fs =>
      rw [hs] at h
      obtain ⟨rs, I, h1, h2⟩ := sessionCheck_sound _ _ _ hs
      subst h2
      obtain ⟨rss, new, h3⟩ := lifeCheck_sound ss _ h.2
      exact ⟨rs :: rss, new, .cons h.1 h1 h3⟩

example : VolEnvOk c85vol ∧ c102kind kRootId = 4 ∧ c85vol.env.check = true := ⟨c85vol_ok, by decide, rfl⟩

set_option maxRecDepth 10000 in
/-- All three sessions stay within the limits. -/
example : ∃ rss states, IdealLife c85vol.env (idealCfg c85vol) c102kind [] (c102life (some 1) (some 0)) rss states :=
  lifeCheck_sound _ _ (by decide +kernel)

/-- The backing files of the file of `c102life` after the first session. -/
def c102pair : Bytes × Bytes :=
  match volLife c85vol [] 0 ((c102life none none).take 1) with
  | .ok (_, [st]) => (st.lookup (fullDemoId 2)).getD ([], [])
  | _ => ([], [])

/-- They are accepted for their identifier and refused for another one. -/
example : (c85vol.env.openObj (fullDemoId 2) c102pair.1 c102pair.2 0).toOption.isSome = true ∧
    c85vol.env.openObj (fullDemoId 3) c102pair.1 c102pair.2 0 = .error .hmac := by decide +kernel

/-- With an HMAC that is always the same, they would be accepted for both. -/
example : (({ Toy.env 0 true with hmac := fun _ _ => zeros 32 } : FileEnv).openObj (fullDemoId 2) [] (zeros 32) 0).toOption.isSome = true ∧
    (({ Toy.env 0 true with hmac := fun _ _ => zeros 32 } : FileEnv).openObj (fullDemoId 3) [] (zeros 32) 0).toOption.isSome = true := by decide +kernel

/-- The answers of the last session. -/
def lastAnswers : Res (List (List (Res VolAnswer)) × List (List (Bytes × Bytes × Bytes))) → Option (List (Res VolAnswer))
  | .ok r => r.1.getLast?
  | .error _ => none

/-- One would expect that a mounted volume shows what it held at the last unmounting, or at least what it held at some time.  It does not have
    to: here the file has its second name and its first content, and no session that is put back as a whole, nor a storage that has lost
    everything, gives these answers.  The file system keeps nothing that would tell the versions apart
    (`/repo/sources/file_table_v2.cpp:20-40`, `/repo/sources/streams.cpp:345-367`). -/
theorem C102_mixture_violated :
    lastAnswers (volLife c85vol [] 0 (c102life (some 1) (some 0))) =
      some [.ok (.handle (-2) none), .ok (.handle 0 (some c85file)), .ok (.bytes 2 [1, 1])] ∧
    ∀ k ∈ [none, some 0, some 1], lastAnswers (volLife c85vol [] 0 (c102life k k)) ≠
      some [.ok (.handle (-2) none), .ok (.handle 0 (some c85file)), .ok (.bytes 2 [1, 1])] := by
  decide +kernel

/-- Nor does it notice that its root is gone: the volume is empty then, although the files are still there. -/
theorem C102_root_violated :
    (lastAnswers (volLife c85vol [] 0 (c102life none (some 1)))).map (List.take 2) = some [.ok (.handle (-2) none), .ok (.handle (-2) none)] := by
  decide +kernel

end Securefs.Props
