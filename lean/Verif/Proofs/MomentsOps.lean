import Verif.Proofs.Moments
/-!
# Helper lemmas: the moment of each call
-/

namespace Securefs.Mo
open Spec

/-! ## Sections of several steps -/

theorem calm_trans {same : Bytes → Bytes → Bool} {x y z : FullFs} (h1 : Moment.calm same (x, y)) (h2 : Moment.calm same (y, z)) :
    Moment.calm same (x, z) := fun d n => (h2 d n).trans (h1 d n)

theorem added_calm {same : Bytes → Bytes → Bool} {w x y z : FullFs} {d n : Bytes} {e : Bytes × Nat} (h0 : Moment.calm same (w, x))
    (h1 : Moment.added same (x, y) d n e) (h2 : Moment.calm same (y, z)) : Moment.added same (w, z) d n e := by
  refine ⟨(h0 d n).symm.trans h1.1, fun d' n' => ?_⟩
  have a := h2 d' n'
  have b := h1.2 d' n'
  have c := h0 d' n'
  dsimp only at a b c ⊢
  rw [a, b, c]

theorem bind_ok {α β : Type} {x : Sec α} {f : α → Sec β} {fs fs' : FullFs} {b : β} (h : Sec.bind x f fs = (.ok b, fs')) :
    ∃ a fs1, x fs = (.ok a, fs1) ∧ f a fs1 = (.ok b, fs') := by
  unfold Sec.bind at h
  cases hx : x fs with
  | mk r fs1 =>
    rw [hx] at h
    cases r with
    | error e => cases h
    | ok a => exact ⟨a, fs1, rfl, h⟩

theorem bind_error {α β : Type} {x : Sec α} {f : α → Sec β} {fs fs' : FullFs} {e : Err} (h : Sec.bind x f fs = (.error e, fs')) :
    x fs = (.error e, fs') ∨ ∃ a fs1, x fs = (.ok a, fs1) ∧ f a fs1 = (.error e, fs') := by
  unfold Sec.bind at h
  cases hx : x fs with
  | mk r fs1 =>
    rw [hx] at h
    cases r with
    | error e' => injection h with h1 h2; injection h1 with h1; subst h1 h2; exact .inl rfl
    | ok a => exact .inr ⟨a, fs1, rfl, h⟩

theorem removed_none {cfg : FsCfg} (hs : SameEquiv cfg.same) {h : FH} {name : Bytes} {fs fs' : FullFs}
    (e : secRemove cfg h name fs = (.ok none, fs')) : nameAt cfg.same (viewOf fs) h.id name = none ∧ Moment.calm cfg.same (fs, fs') := by
  obtain ⟨h1, h2⟩ := remove_names hs e
  refine ⟨h1, fun d n => ?_⟩
  dsimp only
  rw [h2]
  by_cases hc : d = h.id ∧ cfg.same n name = true
  · rw [if_pos hc, hc.1, nameAt_congr hs _ _ hc.2]
    exact h1.symm
  · rw [if_neg hc]

theorem link_ok {cfg : FsCfg} {base f : FH} {last : Bytes} {fs fs' : FullFs} {b : Bool} (e : secLink cfg base last f fs = (.ok b, fs')) :
    (b = true ∧ ∃ type, Moment.added cfg.same (fs, fs') base.id last (f.id, type)) ∨
      (b = false ∧ nameAt cfg.same (viewOf fs) base.id last ≠ none ∧ Moment.calm cfg.same (fs, fs')) := by
  unfold secLink at e
  obtain ⟨type, fs1, e1, e⟩ := bind_ok e
  obtain ⟨added, fs2, e2, e⟩ := bind_ok e
  have c1 : Moment.calm cfg.same (fs, fs1) := CalmSec.at (calm_file fun _ _ => rfl) e1
  rcases add_names e2 with ⟨rfl, ha⟩ | ⟨rfl, hn, hc⟩
  · rw [if_pos rfl] at e
    have c3 : Moment.calm cfg.same (fs2, fs') := CalmSec.at (calm_file fun _ _ => rfl) e
    refine .inl ⟨?_, type, added_calm c1 ha c3⟩
    unfold Sec.file at e
    cases hg : fs2.get f.id with
    | none => rw [hg] at e; cases e
    | some n => rw [hg] at e; injection e with e _; injection e with e; exact e.symm
  · rw [if_neg (by decide)] at e
    injection e with e3 e4
    injection e3 with e3
    subst e4
    refine .inr ⟨e3.symm, ?_, calm_trans c1 hc⟩
    have := c1 base.id last
    dsimp only at this
    rwa [← this]

theorem link_error {cfg : FsCfg} {base f : FH} {last : Bytes} {fs fs' : FullFs} {er : Err} (e : secLink cfg base last f fs = (.error er, fs')) :
    Moment.calm cfg.same (fs, fs') := by
  unfold secLink at e
  rcases bind_error e with e | ⟨type, fs1, e1, e⟩
  · exact CalmSec.at (calm_file fun _ _ => rfl) e
  · have c1 : Moment.calm cfg.same (fs, fs1) := CalmSec.at (calm_file fun _ _ => rfl) e1
    rcases bind_error e with e | ⟨added, fs2, e2, e⟩
    · exact calm_trans c1 (add_error e)
    · rcases add_names e2 with ⟨rfl, ha⟩ | ⟨rfl, hn, hc⟩
      · exfalso
        rw [if_pos rfl] at e
        unfold Sec.file at e
        cases hg : fs2.get f.id with
        | some n => rw [hg] at e; cases e
        | none =>
          have hg1 : ∃ n, fs1.get f.id = some n := by
            unfold Sec.file at e1
            cases hg0 : fs.get f.id with
            | none => rw [hg0] at e1; cases e1
            | some n =>
              rw [hg0] at e1
              injection e1 with _ e1
              subst e1
              exact ⟨_, get_set_self hg0 _⟩
          obtain ⟨n, hg1⟩ := hg1
          unfold secAdd at e2
          rcases dir_cases base (fun now n => n.addEntry cfg now ⟨last, f.id, type⟩) fs1 with ⟨er', he⟩ | ⟨er', n', hg', he⟩ | ⟨n', hg', _, he⟩
          · rw [he] at e2; cases e2
          · rw [he] at e2; cases e2
          · rw [he] at e2
            injection e2 with _ e2
            rw [← e2, get_set] at hg
            split at hg
            · rename_i hx
              rw [hx] at hg1
              rw [hg1] at hg
              cases hg
            · rw [hg1] at hg; cases hg
      · rw [if_neg (by decide)] at e
        cases e

theorem rename_ok {cfg : FsCfg} (hs : SameEquiv cfg.same) {bf bt : FH} {lf lt : Bytes} {fs fs' : FullFs} {out : RenameOut}
    (e : secRename cfg bf lf bt lt fs = (.ok out, fs')) :
    (out = .missing ∧ nameAt cfg.same (viewOf fs) bf.id lf = none ∧ Moment.calm cfg.same (fs, fs')) ∨
      (out ≠ .missing ∧ Moment.moved cfg.same (fs, fs') bf.id lf bt.id lt) := by
  unfold secRename at e
  obtain ⟨r, fs1, e1, e⟩ := bind_ok e
  cases r with
  | none =>
    injection e with e2 e3
    injection e2 with e2
    subst e3
    obtain ⟨h1, h2⟩ := removed_none hs e1
    exact .inl ⟨e2.symm, h1, h2⟩
  | some x =>
    obtain ⟨g1, v1⟩ := remove_names hs e1
    obtain ⟨r2, fs2, e2, e⟩ := bind_ok e
    obtain ⟨g2, v2⟩ := remove_names hs e2
    have hgone : nameAt cfg.same (viewOf fs2) bt.id lt = none := by rw [v2, if_pos ⟨rfl, hs.refl _⟩]
    -- the new name
    have hadd : ∀ {y : DirEntry} {b : Bool} {fs3 : FullFs}, y.name = lt → secAdd cfg bt y fs2 = (.ok b, fs3) →
        ∀ d n, nameAt cfg.same (viewOf fs3) d n = if d = bt.id ∧ cfg.same n lt = true then some (y.id, y.type) else nameAt cfg.same (viewOf fs2) d n := by
      intro y b fs3 hy ha
      rcases add_names ha with ⟨_, h1⟩ | ⟨_, h1, _⟩
      · rw [hy] at h1; exact h1.2
      · rw [hy] at h1; exact absurd hgone h1
    have hplace : ∀ {d n d' n' : Bytes}, SamePlace cfg.same d n d' n' ↔ d' = d ∧ cfg.same n' n = true := fun {d n d' n'} =>
      ⟨fun h => ⟨h.1.symm, hs.symm _ _ h.2⟩, fun h => ⟨h.1.symm, hs.symm _ _ h.2⟩⟩
    have hmoved : ∀ {b : Bool} {fs3 : FullFs}, secAdd cfg bt ⟨lt, x.id, x.type⟩ fs2 = (.ok b, fs3) →
        (SamePlace cfg.same bf.id lf bt.id lt ∨ ∀ y, nameAt cfg.same (viewOf fs) bt.id lt = some y → y.1 ≠ x.id) →
        Moment.moved cfg.same (fs, fs3) bf.id lf bt.id lt := by
      intro b fs3 ha hx
      have v3 := hadd rfl ha
      refine ⟨(x.id, x.type), g1, .inr ⟨hx, fun a hp => ?_, fun c a h1 h2 => ?_, fun c a h1 h2 => ?_⟩⟩
      · dsimp only
        rw [v3, if_pos (hplace.mp hp)]
      · dsimp only
        rw [v3, if_neg (fun q => h1 (hplace.mpr q)), v2, if_neg (fun q => h1 (hplace.mpr q)), v1, if_pos (hplace.mp h2)]
      · dsimp only
        rw [v3, if_neg (fun q => h1 (hplace.mpr q)), v2, if_neg (fun q => h1 (hplace.mpr q)), v1, if_neg (fun q => h2 (hplace.mpr q))]
    cases r2 with
    | none =>
      dsimp only at e
      obtain ⟨b, fs3, e3, e⟩ := bind_ok e
      injection e with e4 e5
      injection e4 with e4
      subst e5 e4
      refine .inr ⟨(fun c => by cases c), hmoved e3 ?_⟩
      by_cases hp : SamePlace cfg.same bf.id lf bt.id lt
      · exact .inl hp
      · refine .inr fun y hy => ?_
        rw [v1, if_neg (fun q => hp (hplace.mpr q)), hy] at g2
        cases g2
    | some z =>
      have hp : ¬ SamePlace cfg.same bf.id lf bt.id lt := by
        intro hp
        rw [v1, if_pos (hplace.mp hp)] at g2
        cases g2
      rw [v1, if_neg (fun q => hp (hplace.mpr q))] at g2
      dsimp only at e
      by_cases hid : x.id = z.id
      · rw [if_pos hid] at e
        obtain ⟨b, fs3, e3, e⟩ := bind_ok e
        obtain ⟨b', fs4, e4, e⟩ := bind_ok e
        injection e with e5 e6
        injection e5 with e5
        subst e5 e6
        refine .inr ⟨(fun c => by cases c), (x.id, x.type), g1, .inl ⟨hp, ⟨_, g2, hid.symm⟩, fun d n => ?_⟩⟩
        dsimp only
        have hgone1 : nameAt cfg.same (viewOf fs2) bf.id lf = none := by
          rw [v2]
          split
          · rfl
          · rw [v1, if_pos ⟨rfl, hs.refl _⟩]
        have v3 : ∀ d n, nameAt cfg.same (viewOf fs3) d n = if d = bf.id ∧ cfg.same n lf = true then some (x.id, x.type) else nameAt cfg.same (viewOf fs2) d n := by
          rcases add_names e3 with ⟨_, h1⟩ | ⟨_, h1, _⟩
          · exact h1.2
          · exact absurd hgone1 h1
        have hgone3 : nameAt cfg.same (viewOf fs3) bt.id lt = none := by
          rw [v3, if_neg (fun q => hp (hplace.mpr q))]
          exact hgone
        have v4 : ∀ d n, nameAt cfg.same (viewOf fs4) d n = if d = bt.id ∧ cfg.same n lt = true then some (z.id, z.type) else nameAt cfg.same (viewOf fs3) d n := by
          rcases add_names e4 with ⟨_, h1⟩ | ⟨_, h1, _⟩
          · exact h1.2
          · exact absurd hgone3 h1
        rw [v4]
        by_cases q1 : d = bt.id ∧ cfg.same n lt = true
        · rw [if_pos q1, q1.1, nameAt_congr hs _ _ q1.2, g2]; rfl
        · rw [if_neg q1, v3]
          by_cases q2 : d = bf.id ∧ cfg.same n lf = true
          · rw [if_pos q2, q2.1, nameAt_congr hs _ _ q2.2, g1]; rfl
          · rw [if_neg q2, v2, if_neg q1, v1, if_neg q2]
      · rw [if_neg hid] at e
        obtain ⟨b, fs3, e3, e⟩ := bind_ok e
        injection e with e4 e5
        injection e4 with e4
        subst e5 e4
        refine .inr ⟨(fun c => by cases c), hmoved e3 (.inr fun y hy => ?_)⟩
        rw [hy] at g2
        injection g2 with g2
        rw [g2]
        exact fun c => hid c.symm

/-! ## Calls -/

theorem one {same : Bytes → Bytes → Bool} {a b : List Moment} {m : Moment} {P : List Moment → Moment → List Moment → Prop} (ha : AllCalm same a)
    (hb : AllCalm same b) (h : P a m b) : AtOneMoment same (a ++ m :: b) P := ⟨a, m, b, rfl, ha, hb, h⟩

theorem AtOneMoment.once {same : Bytes → Bytes → Bool} {ms : List Moment} {P : List Moment → Moment → List Moment → Prop} (h : AtOneMoment same ms P) :
    AtMostOnce same ms := by
  obtain ⟨a, m, b, e, ha, hb, _⟩ := h
  exact .inr ⟨a, m, b, e, ha, hb, trivial⟩

/-- What a call has done. -/
def EffR (same : Bytes → Bytes → Bool) (op : FullOp) (ms : List Moment) : Option (Res Int) → Prop
  | none => AtMostOnce same ms
  | some (.ok v) => Effect same ms v op
  | some (.error e) => Refused same ms e op

theorem EffR.once {same : Bytes → Bytes → Bool} {op : FullOp} {ms : List Moment} {r : Option (Res Int)} (h : EffR same op ms r) : AtMostOnce same ms := by
  match r, h with
  | none, h => exact h
  | some (.ok v), h =>
    cases op with
    | create | mkdir | symlink => exact AtOneMoment.once h.2
    | unlink | rmdir | rename =>
      rcases h with h | h
      · exact AtOneMoment.once h.2
      · exact .inl h.2.1
    | link =>
      rcases h with h | h | h
      · exact AtOneMoment.once h.2
      · exact .inl h.2.1
      · exact .inl h.2.1
    | chmod | chown | utimens | getattr | «open» | truncate | opendir | readlink => exact .inl h.1
    | _ => exact .inl h
  | some (.error e), h =>
    cases op with
    | create | mkdir | symlink | unlink | rmdir => exact h.1
    | rename => exact h
    | _ => exact .inl h

/-- What creating has done. -/
def CreateR (same : Bytes → Bytes → Bool) (path id : Bytes) (type : Nat) (ms : List Moment) : Option (Res FH) → Prop
  | none => AtMostOnce same ms
  | some (.ok _) => AtOneMoment same ms fun a m _ => ∃ d name, LedTo same a path d name ∧ m.added same d name (id, type)
  | some (.error e) => AtMostOnce same ms ∧ (e ≠ .vfs 2 → AllCalm same ms)

theorem always_createFile (cfg : FsCfg) (path : Bytes) (mode : UInt32) (type : Nat) (uid gid : UInt32) (id : Bytes) :
    Always (createFile cfg path mode type uid gid id) (CreateR cfg.same path id type) := by
  unfold createFile
  refine Always.bind (always_openBase cfg path) (fun a x hb => ?_) (fun ms e hb => ⟨.inl hb.1, fun _ => hb.1⟩) (fun ms hb => .inl hb)
  obtain ⟨base, last⟩ := x
  obtain ⟨ca, hled⟩ := hb
  dsimp only at hled ⊢
  refine Always.sec (by rw [List.append_nil]; exact .inl ca) (fun fs e fs' hf => ?_) fun fs h fs' hf => ?_
  · have := allCalm_append ca (allCalm_cons ((calm_create cfg _ _ _ _ _).at hf) (allCalm_nil _))
    exact ⟨.inl this, fun _ => this⟩
  · have c1 := (calm_create cfg id type mode uid gid).at hf
    have hh : h = ⟨id, type⟩ := by
      unfold secCreate at hf
      split at hf
      · cases hf
      · split at hf
        · cases hf
        · injection hf with hf _; injection hf with hf; exact hf.symm
    subst hh
    have ca1 := allCalm_append ca (allCalm_cons c1 (allCalm_nil _))
    refine Always.sec (.inl ca1) (fun fs2 e fs2' hf2 => ?_) fun fs2 b fs2' hf2 => ?_
    · have := allCalm_append ca (allCalm_cons c1 (allCalm_cons (add_error hf2) (allCalm_nil _)))
      exact ⟨.inl this, fun _ => this⟩
    · have assoc : ∀ l : List Moment, a ++ (fs, fs') :: (fs2, fs2') :: l = (a ++ [(fs, fs')]) ++ (fs2, fs2') :: l := fun l => by simp
      rcases add_names hf2 with ⟨rfl, ha⟩ | ⟨rfl, hn, c2⟩
      · rw [if_pos rfl]
        have hP : ∃ d name, LedTo cfg.same (a ++ [(fs, fs')]) path d name ∧ Moment.added cfg.same (fs2, fs2') d name (id, type) :=
          ⟨_, _, hled.later _, ha⟩
        refine Always.sec ?_ (fun fs3 e fs3' hf3 => ?_) fun fs3 _ fs3' hf3 => ?_
        · show AtMostOnce _ _
          rw [assoc]
          exact .inr (one ca1 (allCalm_nil _) trivial)
        · rw [assoc]
          refine ⟨.inr (one ca1 (allCalm_cons ((calm_setParent _ _ _).at hf3) (allCalm_nil _)) trivial), fun hne => ?_⟩
          rcases file_error hf3 with rfl | ⟨n, _, h3⟩
          · exact absurd rfl hne
          · cases h3
        · show AtOneMoment _ _ _
          rw [assoc]
          exact one ca1 (allCalm_cons ((calm_setParent _ _ _).at hf3) (allCalm_nil _)) hP
      · rw [if_neg (by decide)]
        refine Always.sec (.inl (allCalm_append ca (allCalm_cons c1 (allCalm_cons c2 (allCalm_nil _))))) (fun fs3 e fs3' hf3 => ?_) fun fs3 _ fs3' hf3 => ?_
        · have := allCalm_append ca (allCalm_cons c1 (allCalm_cons c2 (allCalm_cons ((calm_unlink _ _).at hf3) (allCalm_nil _))))
          exact ⟨.inl this, fun _ => this⟩
        · have := allCalm_append ca (allCalm_cons c1 (allCalm_cons c2 (allCalm_cons ((calm_unlink _ _).at hf3) (allCalm_nil _))))
          exact ⟨.inl this, fun _ => this⟩

theorem always_vcreate (cfg : FsCfg) (path : Bytes) (mode uid gid : UInt32) (id : Bytes) :
    Always (vcreate cfg path mode uid gid id) (EffR cfg.same (.create path mode uid gid id)) := by
  unfold vcreate
  refine Always.bind (always_createFile cfg path mode typeRegular uid gid id) (fun ms h hc => ?_) (fun ms e hc => hc) (fun ms hc => hc)
  show _ ∧ AtOneMoment _ _ _
  rw [List.append_nil]
  exact ⟨rfl, hc⟩

theorem always_vmkdir (cfg : FsCfg) (path : Bytes) (mode uid gid : UInt32) (id : Bytes) :
    Always (vmkdir cfg path mode uid gid id) (EffR cfg.same (.mkdir path mode uid gid id)) := by
  unfold vmkdir
  refine Always.bind (always_createFile cfg path mode typeDirectory uid gid id) (fun ms h hc => ?_) (fun ms e hc => hc) (fun ms hc => hc)
  show _ ∧ AtOneMoment _ _ _
  rw [List.append_nil]
  exact ⟨rfl, hc⟩

theorem AtOneMoment.later {same : Bytes → Bytes → Bool} {ms ms' : List Moment} {P : List Moment → Moment → Prop}
    (h : AtOneMoment same ms fun a m _ => P a m) (hc : AllCalm same ms') : AtOneMoment same (ms ++ ms') fun a m _ => P a m := by
  obtain ⟨a, m, b, rfl, ha, hb, hp⟩ := h
  exact ⟨a, m, b ++ ms', by simp, ha, allCalm_append hb hc, hp⟩

theorem always_vsymlink (cfg : FsCfg) (target path : Bytes) (uid gid : UInt32) (id : Bytes) :
    Always (vsymlink cfg target path uid gid id) (EffR cfg.same (.symlink target path uid gid id)) := by
  unfold vsymlink
  refine Always.bind (always_createFile cfg path 0x1a4 typeSymlink uid gid id) (fun ms h hc => ?_) (fun ms e hc => ⟨hc.1, fun h _ => hc.2 h⟩) (fun ms hc => hc)
  refine Always.sec ?_ (fun fs e fs' hf => ?_) fun fs _ fs' hf => ?_
  · show AtMostOnce _ _
    rw [List.append_nil]
    exact AtOneMoment.once hc
  · refine ⟨AtOneMoment.once (AtOneMoment.later hc (allCalm_cons ((calm_linkSet _ _ _ _).at hf) (allCalm_nil _))), fun h2 h1 => ?_⟩
    unfold secLinkSet at hf
    rcases file_error hf with rfl | ⟨n, _, h3⟩
    · exact absurd rfl h2
    · exfalso
      revert h3
      cases hca : castAs h typeSymlink n with
      | error er => intro h3; injection h3 with h3; rw [← h3, castAs_error hca] at h1; exact h1 rfl
      | ok u => intro h3; cases h3
  · exact ⟨rfl, AtOneMoment.later hc (allCalm_cons ((calm_linkSet _ _ _ _).at hf) (allCalm_nil _))⟩

theorem unlink_error {h : FH} {fs fs' : FullFs} {e : Err} (hf : secUnlink h fs = (.error e, fs')) : e = .vfs 2 := by
  rcases file_error hf with rfl | ⟨n, _, h3⟩
  · rfl
  · cases h3

theorem always_vunlink {cfg : FsCfg} (hs : SameEquiv cfg.same) (path : Bytes) : Always (vunlink cfg path) (EffR cfg.same (.unlink path)) := by
  unfold vunlink
  refine Always.bind (always_openBase cfg path) (fun a x hb => ?_) (fun ms e hb => ⟨.inl hb.1, fun _ => hb.1⟩) (fun ms hb => .inl hb)
  obtain ⟨base, last⟩ := x
  obtain ⟨ca, hled⟩ := hb
  dsimp only at hled ⊢
  refine Always.sec (by rw [List.append_nil]; exact .inl ca) (fun fs e fs' hf => ?_) fun fs r fs' hf => ?_
  · have := allCalm_append ca (allCalm_cons (remove_error hf).1 (allCalm_nil _))
    exact ⟨.inl this, fun _ => this⟩
  · cases r with
    | none =>
      obtain ⟨h1, h2⟩ := removed_none hs hf
      exact .inr ⟨rfl, allCalm_append ca (allCalm_cons h2 (allCalm_nil _)), a, (fs, fs'), [], _, _, rfl, hled, h1⟩
    | some e =>
      dsimp only
      have hrem : Moment.removed cfg.same (fs, fs') base.id last (e.id, e.type) := remove_names hs hf
      refine Always.sec (.inr (one ca (allCalm_nil _) trivial)) (fun fs2 er fs2' hf2 => ?_) fun fs2 g fs2' hf2 => ?_
      · refine ⟨.inr (one ca (allCalm_cons ((calm_openAs _ _ _).at hf2) (allCalm_nil _)) trivial), fun h => ?_⟩
        rcases openAs_error hf2 with rfl | rfl <;> rcases h with h | h <;> cases h
      · have c2 := (calm_openAs cfg.same _ _).at hf2
        refine Always.sec (.inr (one ca (allCalm_cons c2 (allCalm_nil _)) trivial)) (fun fs3 er fs3' hf3 => ?_) fun fs3 _ fs3' hf3 => ?_
        · refine ⟨.inr (one ca (allCalm_cons c2 (allCalm_cons ((calm_unlink _ _).at hf3) (allCalm_nil _))) trivial), fun h => ?_⟩
          rw [unlink_error hf3] at h
          rcases h with h | h <;> cases h
        · exact .inl ⟨rfl, one ca (allCalm_cons c2 (allCalm_cons ((calm_unlink _ _).at hf3) (allCalm_nil _))) ⟨_, _, _, hled, hrem⟩⟩

theorem unlinkEmpty_ok {cfg : FsCfg} {h : FH} {fs fs' : FullFs} {u : Unit} (hf : secUnlinkEmpty cfg h fs = (.ok u, fs')) :
    ∀ n, nameAt cfg.same (viewOf fs) h.id n = none := by
  intro s
  unfold secUnlinkEmpty at hf
  rcases dir_cases h (fun now n => n.unlinkEmpty cfg now) fs with ⟨er, he⟩ | ⟨er, n, hg, he⟩ | ⟨n, hg, hc, he⟩
  · rw [he] at hf; cases hf
  · rw [he] at hf; cases hf
  · rw [he] at hf
    unfold Inode.unlinkEmpty at hf
    dsimp only at hf
    rw [nameAt_view hg]
    cases hn : n.entries with
    | nil => rfl
    | cons e l => rw [hn] at hf; cases hf

theorem unlinkEmpty_error {cfg : FsCfg} (hs : SameEquiv cfg.same) {h : FH} {fs fs' : FullFs} {er : Err} (hf : secUnlinkEmpty cfg h fs = (.error er, fs')) :
    er ≠ .vfs 36 ∧ (er = .vfs 39 → ∃ n, nameAt cfg.same (viewOf fs) h.id n ≠ none) := by
  unfold secUnlinkEmpty Sec.dir at hf
  rcases file_error hf with rfl | ⟨n, hg, h1⟩
  · exact ⟨by decide, fun c => by cases c⟩
  · revert h1
    cases hc : castAs h typeDirectory n with
    | error e => intro h1; injection h1 with h1; rw [← h1, castAs_error hc]; exact ⟨by decide, fun c => by cases c⟩
    | ok u =>
      unfold Inode.unlinkEmpty
      dsimp only
      cases hn : n.entries with
      | nil => intro h1; cases h1
      | cons e l =>
        intro h1
        injection h1 with h1
        refine ⟨by rw [← h1]; decide, fun _ => ⟨e.name, ?_⟩⟩
        rw [nameAt_view hg, hn, List.find?_cons, hs.refl]
        exact fun c => by cases c

theorem always_vrmdir {cfg : FsCfg} (hs : SameEquiv cfg.same) (path : Bytes) : Always (vrmdir cfg path) (EffR cfg.same (.rmdir path)) := by
  unfold vrmdir
  refine Always.bind (always_openBase cfg path) (fun a x hb => ?_) (fun ms e hb => ⟨.inl hb.1, fun _ => hb.1, fun h => absurd h hb.2⟩) (fun ms hb => .inl hb)
  obtain ⟨base, last⟩ := x
  obtain ⟨ca, hled⟩ := hb
  dsimp only at hled ⊢
  refine Always.sec (by rw [List.append_nil]; exact .inl ca) (fun fs e fs' hf => ?_) fun fs r fs' hf => ?_
  · have := allCalm_append ca (allCalm_cons (remove_error hf).1 (allCalm_nil _))
    exact ⟨.inl this, fun _ => this, fun h => absurd h (remove_error hf).2⟩
  · cases r with
    | none =>
      obtain ⟨h1, h2⟩ := removed_none hs hf
      exact .inr ⟨rfl, allCalm_append ca (allCalm_cons h2 (allCalm_nil _)), a, (fs, fs'), [], _, _, rfl, hled, h1⟩
    | some e =>
      dsimp only
      have hrem : Moment.removed cfg.same (fs, fs') base.id last (e.id, e.type) := remove_names hs hf
      refine Always.sec (.inr (one ca (allCalm_nil _) trivial)) (fun fs2 er fs2' hf2 => ?_) fun fs2 g fs2' hf2 => ?_
      · refine ⟨.inr (one ca (allCalm_cons ((calm_openAs _ _ _).at hf2) (allCalm_nil _)) trivial), fun h => ?_, fun h => ?_⟩
        · rcases openAs_error hf2 with rfl | rfl <;> cases h
        · rcases openAs_error hf2 with rfl | rfl <;> cases h
      · have c2 := (calm_openAs cfg.same _ _).at hf2
        have := openAs_ok hf2
        subst this
        refine Always.sec (.inr (one ca (allCalm_cons c2 (allCalm_nil _)) trivial)) (fun fs3 er fs3' hf3 => ?_) fun fs3 _ fs3' hf3 => ?_
        · obtain ⟨q1, q2⟩ := unlinkEmpty_error hs hf3
          have cb := allCalm_cons c2 (allCalm_cons ((calm_unlinkEmpty _ _).at hf3) (allCalm_nil _))
          refine ⟨.inr (one ca cb trivial), fun h => absurd h q1, fun h => one ca cb ⟨_, _, _, hrem, (fs3, fs3'), by simp, q2 h⟩⟩
        · exact .inl ⟨rfl, one ca (allCalm_cons c2 (allCalm_cons ((calm_unlinkEmpty _ _).at hf3) (allCalm_nil _)))
            ⟨_, _, _, hled, hrem, (fs3, fs3'), by simp, unlinkEmpty_ok hf3⟩⟩

theorem always_vlink (cfg : FsCfg) (src path : Bytes) : Always (vlink cfg src path) (EffR cfg.same (.link src path)) := by
  unfold vlink
  refine Always.bind (always_openAll cfg src true) (fun a r hb => ?_) (fun ms e hb => hb) (fun ms hb => .inl hb)
  cases r with
  | none =>
    refine .inr (.inr ⟨rfl, ?_, ?_⟩)
    · rw [List.append_nil]; exact hb.1
    · rw [List.append_nil]; exact hb.2
  | some f =>
    obtain ⟨ca, hfound⟩ := hb
    refine Always.bind (always_openBase cfg path) (fun b x hb => ?_) (fun ms e hb => allCalm_append ca hb.1) (fun ms hb => .inl (allCalm_append ca hb))
    obtain ⟨base, last⟩ := x
    obtain ⟨cb, hled⟩ := hb
    dsimp only at hled ⊢
    simp only [← List.append_assoc]
    have cab := allCalm_append ca cb
    refine Always.sec (by rw [List.append_nil]; exact .inl cab) (fun fs e fs' hf => ?_) fun fs r fs' hf => ?_
    · exact allCalm_append cab (allCalm_cons (link_error hf) (allCalm_nil _))
    · rcases link_ok hf with ⟨rfl, type, h1⟩ | ⟨rfl, h1, h2⟩
      · exact .inl ⟨rfl, one cab (allCalm_nil _) ⟨_, _, _, hfound.later b, hled.before a, h1⟩⟩
      · exact .inr (.inl ⟨rfl, allCalm_append cab (allCalm_cons h2 (allCalm_nil _)), _, _, _, _, _, rfl, hled.before a, h1⟩)

theorem always_vrename {cfg : FsCfg} (hs : SameEquiv cfg.same) (src path : Bytes) : Always (vrename cfg src path) (EffR cfg.same (.rename src path)) := by
  unfold vrename
  refine Always.bind (always_openBase cfg src) (fun a x hb => ?_) (fun ms e hb => .inl hb.1) (fun ms hb => .inl hb)
  obtain ⟨bf, lf⟩ := x
  obtain ⟨ca, hled⟩ := hb
  dsimp only at hled ⊢
  refine Always.bind (always_openBase cfg path) (fun b x hb => ?_) (fun ms e hb => .inl (allCalm_append ca hb.1)) (fun ms hb => .inl (allCalm_append ca hb))
  obtain ⟨bt, lt⟩ := x
  obtain ⟨cb, hled'⟩ := hb
  dsimp only at hled' ⊢
  simp only [← List.append_assoc]
  have cab := allCalm_append ca cb
  refine Always.sec (by rw [List.append_nil]; exact .inl cab) (fun fs e fs' hf => ?_) fun fs r fs' hf => ?_
  · exact .inr (one cab (allCalm_nil _) trivial)
  · rcases rename_ok hs hf with ⟨rfl, h1, h2⟩ | ⟨hne, h1⟩
    · exact .inr ⟨rfl, allCalm_append cab (allCalm_cons h2 (allCalm_nil _)), _, _, _, _, _, rfl, hled.later b, h1⟩
    · have hP : ∃ d n d' n', LedTo cfg.same (a ++ b) src d n ∧ LedTo cfg.same (a ++ b) path d' n' ∧ Moment.moved cfg.same (fs, fs') d n d' n' :=
        ⟨_, _, _, _, hled.later b, hled'.before a, h1⟩
      cases r with
      | missing => exact absurd rfl hne
      | done => exact .inl ⟨rfl, one cab (allCalm_nil _) hP⟩
      | replaced e =>
        dsimp only
        refine Always.sec (.inr (one cab (allCalm_nil _) trivial)) (fun fs2 er fs2' hf2 => ?_) fun fs2 g fs2' hf2 => ?_
        · exact .inr (one cab (allCalm_cons ((calm_openAs _ _ _).at hf2) (allCalm_nil _)) trivial)
        · have c2 := (calm_openAs cfg.same _ _).at hf2
          refine Always.sec (.inr (one cab (allCalm_cons c2 (allCalm_nil _)) trivial)) (fun fs3 er fs3' hf3 => ?_) fun fs3 _ fs3' hf3 => ?_
          · exact .inr (one cab (allCalm_cons c2 (allCalm_cons ((calm_unlink _ _).at hf3) (allCalm_nil _))) trivial)
          · exact .inl ⟨rfl, one cab (allCalm_cons c2 (allCalm_cons ((calm_unlink _ _).at hf3) (allCalm_nil _))) hP⟩

/-! ## Calls that change no name -/

/-- No name is changed, and the value has the property. -/
def Only (same : Bytes → Bytes → Bool) {α : Type} (Q : List Moment → α → Prop) (ms : List Moment) : Option (Res α) → Prop
  | some (.ok a) => AllCalm same ms ∧ Q ms a
  | _ => AllCalm same ms

theorem Only.calm {same : Bytes → Bytes → Bool} {α : Type} {Q : List Moment → α → Prop} {ms : List Moment} : ∀ {r : Option (Res α)}, Only same Q ms r →
    AllCalm same ms
  | none, h => h
  | some (.error _), h => h
  | some (.ok _), h => h.1

theorem Only.mono {same : Bytes → Bytes → Bool} {α : Type} {Q Q' : List Moment → α → Prop} (hq : ∀ ms a, Q ms a → Q' ms a) {ms : List Moment} :
    ∀ {r : Option (Res α)}, Only same Q ms r → Only same Q' ms r
  | none, h => h
  | some (.error _), h => h
  | some (.ok _), h => ⟨h.1, hq _ _ h.2⟩

theorem only_one {same : Bytes → Bytes → Bool} {α β : Type} {f : Sec β} (hc : CalmSec same f) {g : β → α} {Q : List Moment → α → Prop}
    (hq : ∀ ms b, Q ms (g b)) : Always ((Prog.one f).bind fun b => .ret (g b)) (Only same Q) := by
  refine Always.sec (allCalm_nil _) (fun fs e fs' hf => ?_) fun fs b fs' hf => ?_
  · exact allCalm_cons (hc.at hf) (allCalm_nil _)
  · exact ⟨allCalm_cons (hc.at hf) (allCalm_nil _), hq _ _⟩

theorem only_openAll {cfg : FsCfg} {α : Type} (path : Bytes) (fl : Bool) {g : Option FH → Prog α} {Q1 Q2 : α → Prop}
    (h1 : ∀ h, Always (g (some h)) (Only cfg.same fun _ a => Q1 a)) (h2 : Always (g none) (Only cfg.same fun _ a => Q2 a)) :
    Always ((openAll cfg path fl).bind g)
      (Only cfg.same fun ms a => (Q1 a ∧ ∃ id, FoundFile cfg.same ms path fl id) ∨ (Q2 a ∧ MissingFile cfg.same ms path fl)) := by
  refine Always.bind (always_openAll cfg path fl) (fun ms r hb => ?_) (fun ms e hb => hb) (fun ms hb => hb)
  cases r with
  | none =>
    refine h2.mono fun ms' r hw => ?_
    match r, hw with
    | none, hw => exact allCalm_append hb.1 hw
    | some (.error _), hw => exact allCalm_append hb.1 hw
    | some (.ok _), hw => exact ⟨allCalm_append hb.1 hw.1, .inr ⟨hw.2, MissingFile.later hb.2 _⟩⟩
  | some h =>
    refine (h1 h).mono fun ms' r hw => ?_
    match r, hw with
    | none, hw => exact allCalm_append hb.1 hw
    | some (.error _), hw => exact allCalm_append hb.1 hw
    | some (.ok _), hw => exact ⟨allCalm_append hb.1 hw.1, .inl ⟨hw.2, _, FoundFile.later hb.2 _⟩⟩

theorem only_map {same : Bytes → Bytes → Bool} {α β : Type} {p : Prog α} {g : α → β} {Q : List Moment → β → Prop}
    (h : Always p (Only same fun ms a => Q ms (g a))) : Always (p.bind fun a => .ret (g a)) (Only same Q) := by
  refine Always.bind h (fun ms a ha => ?_) (fun ms e ha => ha) (fun ms ha => ha)
  show AllCalm _ _ ∧ _
  rw [List.append_nil]
  exact ha

theorem only_ret {same : Bytes → Bytes → Bool} {α : Type} {a : α} {Q : List Moment → α → Prop} (h : Q [] a) : Always (.ret a) (Only same Q) :=
  ⟨allCalm_nil _, h⟩

theorem Only.eff {same : Bytes → Bytes → Bool} {op : FullOp} {Q : List Moment → Int → Prop}
    (h1 : ∀ ms v, AllCalm same ms → Q ms v → Effect same ms v op) (h2 : ∀ ms e, AllCalm same ms → Refused same ms e op) {ms : List Moment} :
    ∀ {r : Option (Res Int)}, Only same Q ms r → EffR same op ms r
  | none, h => .inl h
  | some (.error _), h => h2 _ _ h
  | some (.ok _), h => h1 _ _ h.1 h.2

theorem calm_truncate (cfg : FsCfg) (h : FH) (n : Nat) : CalmSec cfg.same (secTruncate cfg h n) := calm_reg fun _ _ => rfl
theorem calm_readdir (cfg : FsCfg) (fill : Nat → Int) (h : FH) : CalmSec cfg.same (secReaddir cfg fill h) := calm_dir fun _ _ => rfl

theorem eff_of {same : Bytes → Bytes → Bool} {op : FullOp} {Q : List Moment → Int → Prop} {p : Prog Int} (h : Always p (Only same Q))
    (h1 : ∀ ms v, AllCalm same ms → Q ms v → Effect same ms v op) (h2 : ∀ ms e, AllCalm same ms → Refused same ms e op) : Always p (EffR same op) :=
  h.mono fun _ _ => Only.eff h1 h2

theorem always_op {cfg : FsCfg} (hs : SameEquiv cfg.same) (op : FullOp) : Always (op.prog cfg) (EffR cfg.same op) := by
  have attr : ∀ (path : Bytes) (f : TimeSpec → FileAttr → FileAttr), Always (withAttr cfg path false f) (Only cfg.same fun ms v =>
      (v = 0 ∧ ∃ id, FoundFile cfg.same ms path false id) ∨ (v = -2 ∧ MissingFile cfg.same ms path false)) := fun path f =>
    only_openAll (Q1 := fun v : Int => v = 0) (Q2 := fun v : Int => v = -2) path false
      (fun h => only_one (calm_attr _ h f) (g := fun _ => (0 : Int)) fun _ _ => rfl) (only_ret rfl)
  have any : ∀ {p : Prog Int}, Always p (Only cfg.same fun _ _ => True) → (∀ ms v, AllCalm cfg.same ms → Effect cfg.same ms v op) →
      (∀ ms e, AllCalm cfg.same ms → Refused cfg.same ms e op) → Always p (EffR cfg.same op) := fun h h1 h2 =>
    h.mono fun ms r => Only.eff (fun ms v hc _ => h1 ms v hc) h2
  cases op with
  | create p m u g i => exact always_vcreate cfg p m u g i
  | mkdir p m u g i => exact always_vmkdir cfg p m u g i
  | symlink t f u g i => exact always_vsymlink cfg t f u g i
  | unlink p => exact always_vunlink hs p
  | rmdir p => exact always_vrmdir hs p
  | link s d => exact always_vlink cfg s d
  | rename f t => exact always_vrename hs f t
  | chmod p m => exact eff_of (attr p _) (fun _ _ hc hq => ⟨hc, hq⟩) (fun _ _ hc => hc)
  | chown p u g => exact eff_of (attr p _) (fun _ _ hc hq => ⟨hc, hq⟩) (fun _ _ hc => hc)
  | utimens p garbage ts => exact eff_of (attr p _) (fun _ _ hc hq => ⟨hc, hq⟩) (fun _ _ hc => hc)
  | getattr p =>
    have h : Always (fullGetattr cfg ⟨none, none⟩ p) (Only cfg.same fun ms (a : Int × Option FullStat) =>
        (a.1 = 0 ∧ ∃ id, FoundFile cfg.same ms p false id) ∨ (a.1 = -2 ∧ MissingFile cfg.same ms p false)) :=
      only_openAll (Q1 := fun a : Int × Option FullStat => a.1 = 0) (Q2 := fun a => a.1 = -2) p false
        (fun h => only_one (calm_file fun _ _ => rfl) (g := fun st => ((0 : Int), some st)) fun _ _ => rfl) (only_ret rfl)
    exact eff_of (only_map (Q := fun ms v => (v = 0 ∧ ∃ id, FoundFile cfg.same ms p false id) ∨ (v = -2 ∧ MissingFile cfg.same ms p false)) h) (fun _ _ hc hq => ⟨hc, hq⟩) (fun _ _ hc => hc)
  | «open» p trunc =>
    have h : Always (fullOpen cfg p trunc) (Only cfg.same fun ms (a : Int × Option FH) =>
        (a.1 = 0 ∧ ∃ id, FoundFile cfg.same ms p true id) ∨ (a.1 = -2 ∧ MissingFile cfg.same ms p true)) := by
      refine only_openAll (Q1 := fun a : Int × Option FH => a.1 = 0) (Q2 := fun a => a.1 = -2) p true (fun h => ?_) (only_ret rfl)
      dsimp only
      split
      · exact only_one (calm_truncate _ _ _) (g := fun _ => ((0 : Int), some h)) fun _ _ => rfl
      · exact only_ret rfl
    exact eff_of (only_map (Q := fun ms v => (v = 0 ∧ ∃ id, FoundFile cfg.same ms p true id) ∨ (v = -2 ∧ MissingFile cfg.same ms p true)) h) (fun _ _ hc hq => ⟨hc, hq⟩) (fun _ _ hc => hc)
  | readlink p n =>
    have h : Always (fullReadlink cfg p n) (Only cfg.same fun ms (a : Int × Bytes) => (a.1 = -14 ∧ n = 0) ∨ (a.1 = -21 ∧ p = [47]) ∨
        (a.1 = 0 ∧ ∃ id, FoundFile cfg.same ms p false id) ∨ (a.1 = -2 ∧ MissingFile cfg.same ms p false)) := by
      unfold fullReadlink
      split
      · rename_i hn; exact only_ret (.inl ⟨rfl, hn⟩)
      · split
        · rename_i hp; exact only_ret (.inr (.inl ⟨rfl, hp⟩))
        · exact (only_openAll (Q1 := fun a : Int × Bytes => a.1 = 0) (Q2 := fun a => a.1 = -2) p false
            (fun h => only_one (calm_linkGet _ _ _) (g := fun d => ((0 : Int), List.take (n - 1) d)) fun _ _ => rfl)
            (show Always (.ret ((-2 : Int), ([] : Bytes))) _ from only_ret rfl)).mono
              fun ms r => Only.mono fun _ _ h => .inr (.inr h)
    exact eff_of (only_map (Q := fun ms v => (v = -14 ∧ n = 0) ∨ (v = -21 ∧ p = [47]) ∨ (v = 0 ∧ ∃ id, FoundFile cfg.same ms p false id) ∨
      (v = -2 ∧ MissingFile cfg.same ms p false)) h) (fun _ _ hc hq => ⟨hc, hq⟩) (fun _ _ hc => hc)
  | opendir p =>
    have h : Always (fullOpendir cfg p) (Only cfg.same fun ms (a : Int × Option FH) =>
        ((a.1 = 0 ∨ a.1 = -20) ∧ ∃ id, FoundFile cfg.same ms p true id) ∨ (a.1 = -2 ∧ MissingFile cfg.same ms p true)) := by
      refine only_openAll (Q1 := fun a : Int × Option FH => a.1 = 0 ∨ a.1 = -20) (Q2 := fun a => a.1 = -2) p true (fun h => ?_) (only_ret rfl)
      dsimp only
      split
      · exact only_ret (.inr rfl)
      · exact only_ret (.inl rfl)
    exact eff_of (only_map (Q := fun ms v => ((v = 0 ∨ v = -20) ∧ ∃ id, FoundFile cfg.same ms p true id) ∨ (v = -2 ∧ MissingFile cfg.same ms p true)) h) (fun _ _ hc hq => ⟨hc, hq⟩) (fun _ _ hc => hc)
  | truncate p n =>
    exact eff_of (only_openAll (Q1 := fun v : Int => v = 0) (Q2 := fun v : Int => v = -2) p true
      (fun h => only_one (calm_truncate _ h n) (g := fun _ => (0 : Int)) fun _ _ => rfl) (only_ret rfl)) (fun _ _ hc hq => ⟨hc, hq⟩) (fun _ _ hc => hc)
  | read h off len =>
    exact any (only_map (only_one (g := fun b : Bytes => (toCInt b.length, b)) (calm_reg fun _ _ => rfl) fun _ _ => trivial)) (fun _ _ h => h) (fun _ _ h => h)
  | write h off d => exact any (only_one (g := fun _ => toCInt d.length) (calm_reg fun _ _ => rfl) fun _ _ => trivial) (fun _ _ h => h) (fun _ _ h => h)
  | ftruncate h n => exact any (only_one (g := fun _ => 0) (calm_truncate _ _ _) fun _ _ => trivial) (fun _ _ h => h) (fun _ _ h => h)
  | fgetattr h =>
    exact any (only_map (only_one (g := fun st => ((0 : Int), some st)) (calm_file fun _ _ => rfl) fun _ _ => trivial)) (fun _ _ h => h) (fun _ _ h => h)
  | readdir h fill =>
    refine any (only_map ?_) (fun _ _ h => h) (fun _ _ h => h)
    unfold fullReaddir
    split
    · exact only_ret trivial
    · exact only_one (g := fun l => ((0 : Int), l)) (calm_readdir _ _ _) fun _ _ => trivial
  | flush h => exact any (only_one (g := fun _ => 0) (calm_file fun _ _ => rfl) fun _ _ => trivial) (fun _ _ h => h) (fun _ _ h => h)
  | fsync h => exact any (only_one (g := fun _ => 0) (calm_file fun _ _ => rfl) fun _ _ => trivial) (fun _ _ h => h) (fun _ _ h => h)

end Securefs.Mo
